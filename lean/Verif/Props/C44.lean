import Verif.Lemmas.Profile

/-!
# C44: resolution profiles given as strings

`stof` is arbitrary: any function that returns a float or throws.
-/

namespace Cloudini.Props

open Cloudini.Profile

/-- **C44.** A profile string is accepted exactly if it is a sequence of entries `field : value` separated by semicolons (white space at both
ends of field and value ignored), and then every field has the resolution of the last entry that speaks of it (xyz: of x, y and z), and
the others what they had. -/
theorem C44_accepted_iff (stof : List Byte → Res (BitVec 32)) (text : List Byte) (m : Map) :
    (addProfile stof text m).2 = .ok () ↔ ∃ pieces es, Pieces 59#8 text pieces ∧ AreEntries stof pieces es := by
  unfold addProfile
  constructor
  · intro h
    obtain ⟨es, h1, -⟩ := (addEntries_iff stof (split 59#8 text) m (addEntries stof (split 59#8 text) m).1).1 (by rw [← h])
    exact ⟨_, es, split_pieces _ _, h1⟩
  · rintro ⟨pieces, es, h1, h2⟩
    rw [split_unique h1, (addEntries_iff stof pieces m _).2 ⟨es, h2, rfl⟩]

/-- What the map holds afterwards. -/
theorem C44_resolutions (stof : List Byte → Res (BitVec 32)) (text : List Byte) (m : Map) (pieces : List (List Byte)) (es : List (List Byte × BitVec 32))
    (h1 : Pieces 59#8 text pieces) (h2 : AreEntries stof pieces es) (k : List Byte) :
    get (addProfile stof text m).1 k = resolved es (get m) k := by
  unfold addProfile
  rw [split_unique h1, (addEntries_iff stof pieces m _).2 ⟨es, h2, rfl⟩]
  exact get_fold es m k

/-- Anything else is rejected with an exception (if `stof` itself is well-behaved). -/
theorem C44_rejected (stof : List Byte → Res (BitVec 32)) (hs : ∀ t, (stof t).isUB = false) (text : List Byte) (m : Map)
    (h : ¬∃ pieces es, Pieces 59#8 text pieces ∧ AreEntries stof pieces es) : (addProfile stof text m).2.isThrow = true := by
  have key : ∀ ts m, (addEntries stof ts m).2 = .ok () ∨ (addEntries stof ts m).2.isThrow = true := by
    intro ts
    induction ts with
    | nil => intro m; exact Or.inl rfl
    | cons t ts ih =>
      intro m
      simp only [addEntries]
      split
      · rename_i a b _
        split
        · exact ih _
        · exact Or.inr rfl
        · rename_i k hk
          unfold value at hk
          split at hk
          · cases hk
          · have := hs (Profile.trim b); rw [hk] at this; cases this
      · exact Or.inr rfl
  rcases key (split 59#8 text) m with h' | h'
  · exact absurd ((C44_accepted_iff stof text m).1 h') h
  · exact h'

/-- A history of profile strings, accepted or not, from an empty map. -/
def profileAfter (stof : List Byte → Res (BitVec 32)) : List (List Byte) → Map
  | [] => []
  | t :: ts => (addProfile stof t (profileAfter stof ts)).1

/-- **C44, listing.** `getProfile` lists exactly the entries of the map, each field once: first x, y and z (those present, in this order), then
the others by increasing name. -/
theorem C44_listing (stof : List Byte → Res (BitVec 32)) (texts : List (List Byte)) :
    let m := profileAfter stof texts
    (∀ k v, (k, v) ∈ getProfile m ↔ get m k = some v) ∧
    ∃ first rest, getProfile m = first ++ rest ∧ (first.map (·.1)).Sublist [ascii "x", ascii "y", ascii "z"] ∧
      rest.Pairwise (fun a b => strLt a.1 b.1 = true) ∧ ∀ e ∈ rest, e.1 ≠ ascii "x" ∧ e.1 ≠ ascii "y" ∧ e.1 ≠ ascii "z" := by
  have hs : Sorted (profileAfter stof texts) := by
    induction texts with
    | nil => exact .nil
    | cons t ts ih => exact sorted_addEntries stof _ ih
  intro m
  replace hs : Sorted m := hs
  generalize m = m at hs
  have hone : ∀ k a v, (a, v) ∈ one m k ↔ a = k ∧ get m k = some v := by
    intro k a v
    unfold one
    cases get m k with
    | none => simp
    | some w => simp only [List.mem_singleton, Prod.mk.injEq, Option.some.injEq]; exact ⟨fun h => ⟨h.1, h.2.symm⟩, fun h => ⟨h.1, h.2.symm⟩⟩
  have hsub : ∀ k, ((one m k).map (·.1)).Sublist [k] := by
    intro k
    unfold one
    cases get m k with
    | none => exact List.nil_sublist _
    | some v => exact List.Sublist.refl _
  have hget : ∀ k v, (k, v) ∈ m ↔ get m k = some v := fun k v => ⟨get_of_mem hs, get_mem⟩
  by_cases hm : m = []
  · subst hm
    refine ⟨fun k v => by simp [getProfile, Profile.get], [], [], rfl, List.nil_sublist _, .nil, by simp⟩
  · refine ⟨fun k v => ?_, one m (ascii "x") ++ one m (ascii "y") ++ one m (ascii "z"), _, by unfold getProfile; rw [if_neg hm], ?_, hs.filter _, ?_⟩
    · unfold getProfile
      rw [if_neg hm]
      simp only [List.mem_append, hone, List.mem_filter, hget, decide_eq_true_eq]
      constructor
      · rintro (((⟨rfl, h⟩ | ⟨rfl, h⟩) | ⟨rfl, h⟩) | h)
        · exact h
        · exact h
        · exact h
        · exact h.1
      · intro h
        by_cases h1 : k = ascii "x"
        · subst h1; exact Or.inl (Or.inl (Or.inl ⟨rfl, h⟩))
        · by_cases h2 : k = ascii "y"
          · subst h2; exact Or.inl (Or.inl (Or.inr ⟨rfl, h⟩))
          · by_cases h3 : k = ascii "z"
            · subst h3; exact Or.inl (Or.inr ⟨rfl, h⟩)
            · exact Or.inr ⟨h, h1, h2, h3⟩
    · simp only [List.map_append]
      exact ((hsub _).append (hsub _)).append (hsub _)
    · intro e he
      have := (List.mem_filter.1 he).2
      simpa using this

/-- **C44, no rollback.** A rejected string may have changed the map: the entries before the bad one stay. -/
theorem C44_rejected_keeps_prefix (stof : List Byte → Res (BitVec 32)) (r : BitVec 32) (h : stof (ascii "0.1") = .ok r) :
    (addProfile stof (ascii "x:0.1;y") []).2.isThrow = true ∧ get (addProfile stof (ascii "x:0.1;y") []).1 (ascii "x") = some r := by
  have e : split 59#8 (ascii "x:0.1;y") = [ascii "x:0.1", ascii "y"] := by decide +kernel
  have e1 : split 58#8 (ascii "x:0.1") = [ascii "x", ascii "0.1"] := by decide +kernel
  have e2 : split 58#8 (ascii "y") = [ascii "y"] := by decide +kernel
  have e3 : Profile.trim (ascii "x") = ascii "x" ∧ Profile.trim (ascii "0.1") = ascii "0.1" := by decide +kernel
  have e4 : value stof (ascii "0.1") = .ok r := by unfold value; rw [if_neg (by decide), h]
  simp only [addProfile, e, addEntries, e1, e2, e3.1, e3.2, e4]
  refine ⟨rfl, ?_⟩
  rw [show assign (ascii "x") r [] = put (ascii "x") r [] from by unfold assign; rw [if_neg (by decide)], get_put, if_pos rfl]

/-- Non-vacuity: three entries with spaces, remove and xyz. -/
example : ∃ pieces es, Pieces 59#8 (ascii " xyz : 1; i:remove ;x:2") pieces ∧
    AreEntries (fun t => if t = ascii "1" then .ok 0x3F800000#32 else if t = ascii "2" then .ok 0x40000000#32 else .throw "invalid_argument") pieces es ∧
    es = [(ascii "xyz", 0x3F800000#32), (ascii "i", 0#32), (ascii "x", 0x40000000#32)] ∧
    resolved es (fun _ => none) (ascii "x") = some 0x40000000#32 ∧ resolved es (fun _ => none) (ascii "z") = some 0x3F800000#32 := by
  refine ⟨[ascii " xyz : 1", ascii " i:remove ", ascii "x:2"], _, ?_, ?_, rfl, by decide +kernel, by decide +kernel⟩
  · have : split 59#8 (ascii " xyz : 1; i:remove ;x:2") = [ascii " xyz : 1", ascii " i:remove ", ascii "x:2"] := by decide +kernel
    rw [← this]
    exact split_pieces _ _
  · refine ⟨(isEntry_iff _ _ _).2 ⟨ascii " xyz ", ascii " 1", by decide +kernel, by decide +kernel, by decide +kernel⟩,
      (isEntry_iff _ _ _).2 ⟨ascii " i", ascii "remove ", by decide +kernel, by decide +kernel, by decide +kernel⟩,
      (isEntry_iff _ _ _).2 ⟨ascii "x", ascii "2", by decide +kernel, by decide +kernel, by decide +kernel⟩, trivial⟩

/-- A number reader for the examples. -/
def toyStof (t : List Byte) : Res (BitVec 32) := if t = ascii "1" then .ok 0x3F800000#32 else if t = ascii "2" then .ok 0x40000000#32 else .throw "invalid_argument"
theorem toyStof_ub (t : List Byte) : (toyStof t).isUB = false := by unfold toyStof; split <;> (try split) <;> rfl

example : get (addProfile toyStof (ascii " xyz : 1; i:remove ;x:2") []).1 (ascii "x") = some 0x40000000#32 := by
  have hp : Pieces 59#8 (ascii " xyz : 1; i:remove ;x:2") [ascii " xyz : 1", ascii " i:remove ", ascii "x:2"] := by
    have : split 59#8 (ascii " xyz : 1; i:remove ;x:2") = [ascii " xyz : 1", ascii " i:remove ", ascii "x:2"] := by decide +kernel
    rw [← this]
    exact split_pieces _ _
  rw [C44_resolutions toyStof _ [] _ [(ascii "xyz", 0x3F800000#32), (ascii "i", 0#32), (ascii "x", 0x40000000#32)] hp
    ⟨(isEntry_iff _ _ _).2 ⟨ascii " xyz ", ascii " 1", by decide +kernel, by decide +kernel, by decide +kernel⟩,
      (isEntry_iff _ _ _).2 ⟨ascii " i", ascii "remove ", by decide +kernel, by decide +kernel, by decide +kernel⟩,
      (isEntry_iff _ _ _).2 ⟨ascii "x", ascii "2", by decide +kernel, by decide +kernel, by decide +kernel⟩, trivial⟩]
  decide +kernel
/-- A piece without a colon is no entry, so the profile is rejected. -/
example : (addProfile toyStof (ascii "x:1;y") []).2.isThrow = true :=
  C44_rejected toyStof toyStof_ub _ _ (fun h => by
    have := (C44_accepted_iff toyStof (ascii "x:1;y") []).2 h
    have e : (addProfile toyStof (ascii "x:1;y") []).2.isOk = false := by decide +kernel
    rw [this] at e
    simp at e)
example : ∃ first rest, getProfile (profileAfter toyStof [ascii "t:2;a:1", ascii "xyz:1"]) = first ++ rest ∧ first.length = 3 ∧ rest.length = 2 ∧
    rest.Pairwise (fun a b => strLt a.1 b.1 = true) := by
  obtain ⟨_, first, rest, h1, h2, h3, h4⟩ := C44_listing toyStof [ascii "t:2;a:1", ascii "xyz:1"]
  have e : getProfile (profileAfter toyStof [ascii "t:2;a:1", ascii "xyz:1"]) =
      [(ascii "x", 0x3F800000#32), (ascii "y", 0x3F800000#32), (ascii "z", 0x3F800000#32), (ascii "a", 0x3F800000#32), (ascii "t", 0x40000000#32)] := by decide +kernel
  refine ⟨[(ascii "x", 0x3F800000#32), (ascii "y", 0x3F800000#32), (ascii "z", 0x3F800000#32)], [(ascii "a", 0x3F800000#32), (ascii "t", 0x40000000#32)], e, rfl, rfl, by decide +kernel⟩

end Cloudini.Props
