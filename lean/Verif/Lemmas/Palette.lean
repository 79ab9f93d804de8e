import Verif.Model.V5

/-! The open-addressing palette table: termination, exactness, reuse across chunks. -/

namespace Cloudini

/-- Extend a list of distinct values by a value unless it is present. -/
def addNew (acc : List (BitVec 64)) (v : BitVec 64) : List (BitVec 64) := if v ∈ acc then acc else acc ++ [v]

/-- The distinct values in order of first appearance. -/
def firstOcc (vs : List (BitVec 64)) : List (BitVec 64) := vs.foldl addNew []

/-! ### `nextPowerOfTwo` -/

theorem nextPow2Loop_spec (value fuel j : Nat) (h : value ≤ 2 ^ (j + fuel)) :
    ∃ k, nextPow2Loop value fuel (2 ^ j) = 2 ^ k ∧ value ≤ 2 ^ k := by
  induction fuel generalizing j with
  | zero => exact ⟨j, rfl, by simpa using h⟩
  | succ fuel ih =>
    unfold nextPow2Loop
    split
    · have e : 2 * 2 ^ j = 2 ^ (j + 1) := by rw [Nat.pow_succ]; omega
      rw [e]
      exact ih (j + 1) (by rw [show j + 1 + fuel = j + (fuel + 1) by omega]; exact h)
    · exact ⟨j, rfl, by omega⟩

theorem nextPowerOfTwo_spec (value : Nat) (h : value ≤ 2 ^ 64) :
    ∃ k, nextPowerOfTwo value = 2 ^ k ∧ value ≤ 2 ^ k :=
  nextPow2Loop_spec value 64 0 (by simpa using h)

/-! ### the invariants -/

/-- Between chunks: what reuse of the table relies on. -/
structure TInv (f : AField) : Prop where
  pow : f.slots = [] ∨ ∃ k, f.slots.length = 2 ^ k
  glen : f.gens.length = f.slots.length
  old : ∀ g ∈ f.gens, g.toNat ≤ f.generation.toNat
  pos : f.generation ≠ 0#32

/-- Slot number `d` on the probe path of `v`. -/
def probeSlot (hash : BitVec 64 → BitVec 64) (m : Nat) (v : BitVec 64) (d : Nat) : Nat := ((hash v).toNat + d) % m

/-- While a palette is being built, with room for `n` values. -/
structure PInv (hash : BitVec 64 → BitVec 64) (f : AField) (n : Nat) : Prop where
  k : ∃ k, f.slots.length = 2 ^ k
  glen : f.gens.length = f.slots.length
  old : ∀ g ∈ f.gens, g.toNat ≤ f.generation.toNat
  pos : f.generation ≠ 0#32
  cnt : f.gens.countP (· = f.generation) = f.palette.length
  fits : f.palette.length ≤ n
  room : n < f.slots.length
  small : n < 2 ^ 32
  live : ∀ s : Nat, f.gens[s]? = some f.generation →
    ∃ i, i < f.palette.length ∧ f.slots[s]? = some (BitVec.ofNat 32 i + 1#32)
  path : ∀ (i : Nat) (v : BitVec 64), f.palette[i]? = some v →
    ∃ d, d < f.slots.length ∧
      f.gens[probeSlot hash f.slots.length v d]? = some f.generation ∧
      f.slots[probeSlot hash f.slots.length v d]? = some (BitVec.ofNat 32 i + 1#32) ∧
      ∀ d' < d, f.gens[probeSlot hash f.slots.length v d']? = some f.generation

theorem slot_index (i : Nat) (h : i < 2 ^ 32) : ((BitVec.ofNat 32 i + 1#32) - 1#32).toNat = i := by
  have : (BitVec.ofNat 32 i + 1#32) - 1#32 = BitVec.ofNat 32 i := by
    rw [BitVec.add_sub_cancel]
  rw [this, BitVec.toNat_ofNat]
  exact Nat.mod_eq_of_lt h

theorem probe_next (hash : BitVec 64 → BitVec 64) (v : BitVec 64) (m k d : Nat) (hm : m = 2 ^ k) :
    (probeSlot hash m v d + 1) &&& (m - 1) = probeSlot hash m v (d + 1) := by
  subst hm
  rw [Nat.and_two_pow_sub_one_eq_mod, probeSlot, probeSlot, Nat.mod_add_mod, Nat.add_assoc]

theorem probe_hits (hash : BitVec 64 → BitVec 64) (v : BitVec 64) (m s : Nat) (hs : s < m) :
    ∃ d, d < m ∧ probeSlot hash m v d = s := by
  refine ⟨(s + (m - (hash v).toNat % m)) % m, Nat.mod_lt _ (by omega), ?_⟩
  unfold probeSlot
  have h1 : (hash v).toNat % m < m := Nat.mod_lt _ (by omega)
  rw [Nat.add_mod_mod]
  have e : (hash v).toNat + (s + (m - (hash v).toNat % m)) = s + m * ((hash v).toNat / m + 1) := by
    have := Nat.div_add_mod (hash v).toNat m
    rw [Nat.mul_add, Nat.mul_one]
    omega
  rw [e, Nat.add_mul_mod_self_left, Nat.mod_eq_of_lt hs]

/-- What the probe loop finds. -/
theorem paletteProbe_spec (hash : BitVec 64 → BitVec 64) (f : AField) (n : Nat) (v : BitVec 64)
    (hp : PInv hash f n) (fuel d : Nat) (hf : fuel + d = f.slots.length)
    (hbefore : ∀ d' < d, ∃ i w, f.gens[probeSlot hash f.slots.length v d']? = some f.generation ∧
      f.slots[probeSlot hash f.slots.length v d']? = some (BitVec.ofNat 32 i + 1#32) ∧ i < f.palette.length ∧
      f.palette[i]? = some w ∧ w ≠ v) :
    (∃ i, paletteProbe f v fuel (probeSlot hash f.slots.length v d) = .ok (.inr i) ∧ f.palette[i]? = some v) ∨
    (∃ d0, paletteProbe f v fuel (probeSlot hash f.slots.length v d) = .ok (.inl (probeSlot hash f.slots.length v d0)) ∧
      d0 < f.slots.length ∧
      f.gens[probeSlot hash f.slots.length v d0]? ≠ some f.generation ∧
      (∀ d' < d0, f.gens[probeSlot hash f.slots.length v d']? = some f.generation) ∧ v ∉ f.palette) := by
  have hmpos : 0 < f.slots.length := by have := hp.room; omega
  induction fuel generalizing d with
  | zero =>
    exfalso
    have hd : d = f.slots.length := by omega
    have hall : f.gens.countP (· = f.generation) = f.gens.length := by
      rw [List.countP_eq_length]
      intro g hg
      obtain ⟨s, hs, rfl⟩ := List.mem_iff_getElem.1 hg
      have hs' : s < f.slots.length := by rw [← hp.glen]; exact hs
      obtain ⟨d', hd', e⟩ := probe_hits hash v f.slots.length s hs'
      obtain ⟨i, w, h1, _⟩ := hbefore d' (by omega)
      rw [e, List.getElem?_eq_getElem hs] at h1
      simpa using h1
    have h1 := hp.cnt; have h2 := hp.fits; have h3 := hp.room; have h4 := hp.glen
    omega
  | succ fuel ih =>
    have hslt : probeSlot hash f.slots.length v d < f.slots.length := Nat.mod_lt _ hmpos
    have hglt : probeSlot hash f.slots.length v d < f.gens.length := by rw [hp.glen]; exact hslt
    by_cases hlive : f.gens[probeSlot hash f.slots.length v d]? = some f.generation
    · obtain ⟨i, hi, hsl⟩ := hp.live _ hlive
      have hidx : ((BitVec.ofNat 32 i + 1#32) - 1#32).toNat = i :=
        slot_index i (by have := hp.small; have := hp.fits; omega)
      have hpi : f.palette[i]? = some f.palette[i] := List.getElem?_eq_getElem hi
      unfold paletteProbe
      simp only [hlive, hsl, hidx, hpi, ne_eq, not_true, if_false]
      by_cases hv : f.palette[i] = v
      · left
        refine ⟨i, by rw [if_pos hv], by rw [hpi, hv]⟩
      · rw [if_neg hv]
        obtain ⟨k, hk⟩ := hp.k
        rw [probe_next hash v _ k d hk]
        refine ih (d + 1) (by omega) ?_
        intro d' hd'
        by_cases h : d' < d
        · exact hbefore d' h
        · have : d' = d := by omega
          subst this
          exact ⟨i, _, hlive, hsl, hi, hpi, hv⟩
    · right
      refine ⟨d, ?_, by omega, hlive, fun d' h => (hbefore d' h).choose_spec.choose_spec.1, ?_⟩
      · unfold paletteProbe
        rw [List.getElem?_eq_getElem hglt] at hlive ⊢
        simp only [Option.some.injEq] at hlive
        simp only [ne_eq, hlive, not_false_eq_true, if_true]
      · intro hmem
        obtain ⟨i, hi, rfl⟩ := List.mem_iff_getElem.1 hmem
        obtain ⟨di, _, g1, g2, g3⟩ := hp.path i _ (List.getElem?_eq_getElem hi)
        rcases Nat.lt_trichotomy di d with h | h | h
        · obtain ⟨i', w, _, b2, b3, b4, b5⟩ := hbefore di h
          rw [g2] at b2
          have e : i = i' := by
            have e := congrArg BitVec.toNat (congrArg (· - 1#32) (Option.some.inj b2))
            have h1 := hp.small; have h2 := hp.fits
            rwa [slot_index i (by omega), slot_index i' (by omega)] at e
          subst e
          rw [List.getElem?_eq_getElem hi] at b4
          exact b5 (Option.some.inj b4).symm
        · rw [h] at g1; exact hlive g1
        · exact hlive (g3 d h)

/-- One insertion. -/
theorem addPaletteValue_spec (hash : BitVec 64 → BitVec 64) (f : AField) (n : Nat) (v : BitVec 64)
    (hp : PInv hash f n) (hn : f.palette.length < n ∨ v ∈ f.palette) :
    ∃ slots gens i, addPaletteValue hash f v =
        .ok ({ f with palette := addNew f.palette v, slots := slots, gens := gens }, i) ∧
      (addNew f.palette v)[i]? = some v ∧
      PInv hash { f with palette := addNew f.palette v, slots := slots, gens := gens } n := by
  obtain ⟨k, hk⟩ := hp.k
  have hstart : (hash v).toNat &&& (f.slots.length - 1) = probeSlot hash f.slots.length v 0 := by
    rw [hk, Nat.and_two_pow_sub_one_eq_mod, probeSlot, Nat.add_zero]
  unfold addPaletteValue
  rw [hstart]
  rcases paletteProbe_spec hash f n v hp f.slots.length 0 (by omega) (fun d' h => absurd h (by omega)) with
    ⟨i, e, hi⟩ | ⟨d0, e, hd0, hfree, hbef, hnot⟩
  · have hmem : v ∈ f.palette := List.mem_of_getElem? hi
    refine ⟨f.slots, f.gens, i, ?_, ?_, ?_⟩
    · simp only [e, Res.ok_bind, addNew, hmem, if_true]
    · simpa [addNew, hmem] using hi
    · simpa [addNew, hmem] using hp
  · have hlt : f.palette.length < n := by
      rcases hn with h | h
      · exact h
      · exact absurd h hnot
    let s := probeSlot hash f.slots.length v d0
    have hslt : s < f.slots.length := Nat.mod_lt _ (by omega)
    have hglt : s < f.gens.length := by rw [hp.glen]; exact hslt
    refine ⟨f.slots.set s (BitVec.ofNat 32 f.palette.length + 1#32), f.gens.set s f.generation, f.palette.length, ?_, ?_, ?_⟩
    · simp only [e, Res.ok_bind, addNew, hnot, if_false, s]
    · simp [addNew, hnot]
    · have hadd : addNew f.palette v = f.palette ++ [v] := by simp [addNew, hnot]
      have hgk : ∀ s' : Nat, f.gens[s']? = some f.generation → (f.gens.set s f.generation)[s']? = some f.generation := by
        intro s' h
        rw [List.getElem?_set]
        split
        · next e => subst e; simp [hglt]
        · exact h
      have hsk : ∀ (s' : Nat) x, f.gens[s']? = some f.generation → f.slots[s']? = some x →
          (f.slots.set s (BitVec.ofNat 32 f.palette.length + 1#32))[s']? = some x := by
        intro s' x h hx
        rw [List.getElem?_set]
        split
        · next e => subst e; exact absurd h hfree
        · exact hx
      constructor
      · exact ⟨k, by simpa using hk⟩
      · simpa using hp.glen
      · intro g hg
        simp only at hg ⊢
        rcases List.mem_or_eq_of_mem_set hg with h | h
        · exact hp.old g h
        · subst h; exact Nat.le_refl _
      · exact hp.pos
      · simp only [hadd, List.length_append, List.length_singleton]
        rw [List.countP_set hglt]
        rw [List.getElem?_eq_getElem hglt] at hfree
        have hne : ¬ f.gens[s] = f.generation := fun h => hfree (by rw [h])
        have := hp.cnt
        simp only [hne, decide_false, Bool.false_eq_true, if_false, decide_true, if_true]
        omega
      · simp only [hadd, List.length_append, List.length_singleton]; omega
      · simpa using hp.room
      · exact hp.small
      · intro s' h
        simp only [hadd, List.length_append, List.length_singleton] at h ⊢
        by_cases hs : s = s'
        · subst hs
          exact ⟨f.palette.length, by omega, by simp [hslt]⟩
        · rw [List.getElem?_set_ne hs] at h ⊢
          obtain ⟨i, hi, e⟩ := hp.live s' h
          exact ⟨i, by omega, e⟩
      · intro i w hw
        simp only [List.length_set] at hw ⊢
        rw [hadd] at hw
        by_cases hi : i < f.palette.length
        · rw [List.getElem?_append_left hi] at hw
          obtain ⟨d, b1, b2, b3, b4⟩ := hp.path i w hw
          exact ⟨d, b1, hgk _ b2, hsk _ _ b2 b3, fun d' h => hgk _ (b4 d' h)⟩
        · have hi' : i = f.palette.length := by
            have := (List.getElem?_eq_some_iff.1 hw).1
            simp at this; omega
          subst hi'
          have : w = v := by simpa using hw.symm
          subst this
          refine ⟨d0, hd0, ?_, ?_, fun d' h => hgk _ (hbef d' h)⟩
          · show (f.gens.set s f.generation)[s]? = _
            simp [hglt]
          · show (f.slots.set s _)[s]? = _
            simp [hslt]

theorem mem_addNew (acc : List (BitVec 64)) (v x : BitVec 64) : x ∈ addNew acc v ↔ x ∈ acc ∨ x = v := by
  unfold addNew
  split
  · next h => exact ⟨Or.inl, fun h' => h'.elim id (fun e => e ▸ h)⟩
  · simp

theorem addNew_prefix (acc : List (BitVec 64)) (v : BitVec 64) : acc <+: addNew acc v := by
  unfold addNew
  split
  · exact List.prefix_rfl
  · exact List.prefix_append _ _

theorem foldl_addNew_prefix (vs acc : List (BitVec 64)) : acc <+: vs.foldl addNew acc := by
  induction vs generalizing acc with
  | nil => exact List.prefix_rfl
  | cons v vs ih => exact (addNew_prefix acc v).trans (ih _)

theorem getElem?_of_prefix {l l' : List (BitVec 64)} (h : l <+: l') {i : Nat} {v : BitVec 64}
    (hi : l[i]? = some v) : l'[i]? = some v := by
  obtain ⟨t, rfl⟩ := h
  rw [List.getElem?_append_left (List.getElem?_eq_some_iff.1 hi).1, hi]

theorem addNew_length (acc : List (BitVec 64)) (v : BitVec 64) : (addNew acc v).length ≤ acc.length + 1 := by
  unfold addNew; split <;> simp

theorem foldl_addNew_length (vs acc : List (BitVec 64)) : (vs.foldl addNew acc).length ≤ acc.length + vs.length := by
  induction vs generalizing acc with
  | nil => simp
  | cons v vs ih =>
    have := ih (addNew acc v); have := addNew_length acc v
    simp only [List.foldl_cons, List.length_cons]; omega

theorem addNew_nodup (acc : List (BitVec 64)) (v : BitVec 64) (h : acc.Nodup) : (addNew acc v).Nodup := by
  unfold addNew
  split
  · exact h
  · next hv =>
    rw [List.nodup_append]
    exact ⟨h, by simp, by intro a ha b hb; simp at hb; subst hb; intro e; subst e; exact hv ha⟩

theorem foldl_addNew_nodup (vs acc : List (BitVec 64)) (h : acc.Nodup) : (vs.foldl addNew acc).Nodup := by
  induction vs generalizing acc with
  | nil => exact h
  | cons v vs ih => exact ih _ (addNew_nodup acc v h)

theorem firstOcc_nodup (vs : List (BitVec 64)) : (firstOcc vs).Nodup := foldl_addNew_nodup vs [] List.nodup_nil

theorem mem_foldl_addNew (vs acc : List (BitVec 64)) (x : BitVec 64) :
    x ∈ vs.foldl addNew acc ↔ x ∈ acc ∨ x ∈ vs := by
  induction vs generalizing acc with
  | nil => simp
  | cons v vs ih => rw [List.foldl_cons, ih, mem_addNew]; simp [or_assoc]

theorem mem_firstOcc (vs : List (BitVec 64)) (x : BitVec 64) : x ∈ firstOcc vs ↔ x ∈ vs := by
  simp [firstOcc, mem_foldl_addNew]

theorem firstOcc_length (vs : List (BitVec 64)) : (firstOcc vs).length ≤ vs.length := by
  simpa [firstOcc] using foldl_addNew_length vs []

theorem PInv.congr {hash : BitVec 64 → BitVec 64} {f g : AField} {n : Nat} (h : PInv hash f n)
    (h1 : g.slots = f.slots) (h2 : g.gens = f.gens) (h3 : g.generation = f.generation) (h4 : g.palette = f.palette) :
    PInv hash g n := by
  obtain ⟨a1, a2, a3, a4, a5, a6, a7, a8, a9, a10⟩ := h
  rw [← h1] at a1 a2 a7 a9 a10
  rw [← h2] at a2 a3 a5 a9 a10
  rw [← h3] at a3 a4 a5 a9 a10
  rw [← h4] at a5 a6 a9 a10
  exact ⟨a1, a2, a3, a4, a5, a6, a7, a8, a9, a10⟩

theorem TInv.congr {f g : AField} (h : TInv f)
    (h1 : g.slots = f.slots) (h2 : g.gens = f.gens) (h3 : g.generation = f.generation) : TInv g := by
  obtain ⟨a1, a2, a3, a4⟩ := h
  rw [← h1] at a1 a2
  rw [← h2] at a2 a3
  rw [← h3] at a3 a4
  exact ⟨a1, a2, a3, a4⟩

theorem PInv.tinv {hash : BitVec 64 → BitVec 64} {f : AField} {n : Nat} (h : PInv hash f n) : TInv f :=
  ⟨Or.inr h.k, h.glen, h.old, h.pos⟩

theorem addPaletteValues_spec (hash : BitVec 64 → BitVec 64) (vs : List (BitVec 64)) (f : AField) (n : Nat)
    (hp : PInv hash f n) (hn : f.palette.length + vs.length ≤ n) :
    ∃ slots gens idx, addPaletteValues hash vs f =
        .ok { f with palette := vs.foldl addNew f.palette, indexes := f.indexes ++ idx, slots := slots, gens := gens } ∧
      idx.map (fun i => (vs.foldl addNew f.palette)[i]?) = vs.map some ∧
      TInv { f with slots := slots, gens := gens } := by
  induction vs generalizing f with
  | nil => exact ⟨f.slots, f.gens, [], by simp [addPaletteValues], rfl, hp.tinv⟩
  | cons v vs ih =>
    simp only [List.length_cons] at hn
    obtain ⟨slots, gens, i, e, hi, hp'⟩ := addPaletteValue_spec hash f n v hp (Or.inl (by omega))
    have hl := addNew_length f.palette v
    obtain ⟨slots', gens', idx, e', hidx, ht⟩ := ih
      { f with palette := addNew f.palette v, slots := slots, gens := gens, indexes := f.indexes ++ [i] }
      (hp'.congr rfl rfl rfl rfl) (by simp only; omega)
    refine ⟨slots', gens', i :: idx, ?_, ?_, ht.congr rfl rfl rfl⟩
    · simp only [addPaletteValues, e, Res.ok_bind, e', List.foldl_cons, List.append_assoc, List.singleton_append]
    · simp only [List.map_cons, List.foldl_cons]
      simp only at hidx
      rw [hidx, getElem?_of_prefix (foldl_addNew_prefix vs _) hi]

theorem pow_of_le {f : AField} (h : TInv f) (hpos : 0 < f.slots.length) : ∃ k, f.slots.length = 2 ^ k := by
  rcases h.pow with e | h
  · rw [e] at hpos; simp at hpos
  · exact h

theorem preparePaletteTable_spec (hash : BitVec 64 → BitVec 64) (f : AField) (n : Nat) (ht : TInv f)
    (hpal : f.palette = []) (hn : n ≤ 2 ^ 31) :
    ∃ slots gens gen, preparePaletteTable f n = { f with slots := slots, gens := gens, generation := gen } ∧
      PInv hash { f with slots := slots, gens := gens, generation := gen } n := by
  obtain ⟨k, hk, hle⟩ := nextPowerOfTwo_spec (max 16 (n * 2)) (by omega)
  have hlt : n < 2 ^ k := by omega
  unfold preparePaletteTable
  simp only [hk]
  split
  · refine ⟨_, _, f.generation, rfl, ?_⟩
    have hz : ∀ s : Nat, (List.replicate (2 ^ k) 0#32)[s]? ≠ some f.generation := by
      intro s h
      have := List.mem_of_getElem? h
      rw [List.mem_replicate] at this
      exact ht.pos this.2
    refine ⟨⟨k, by simp⟩, by simp, ?_, ht.pos, ?_, by simp [hpal], by simpa using hlt, by omega, ?_, ?_⟩
    · intro g hg
      simp only [List.mem_replicate] at hg
      rw [hg.2]; simp
    · simp only [hpal, List.length_nil, List.countP_eq_zero, List.mem_replicate]
      intro a ha
      simp only [decide_eq_true_eq]
      intro e; exact ht.pos (by rw [← e, ha.2])
    · intro s h; exact absurd h (hz s)
    · intro i v h; simp [hpal] at h
  · next hge =>
    have hpos : 0 < f.slots.length := by have := Nat.two_pow_pos k; omega
    have hk' := pow_of_le ht hpos
    split
    · next hw =>
      refine ⟨f.slots, _, _, rfl, ?_⟩
      have hz : ∀ s : Nat, (List.replicate f.gens.length 0#32)[s]? ≠ some 1#32 := by
        intro s h
        have := List.mem_of_getElem? h
        rw [List.mem_replicate] at this
        exact absurd this.2 (by decide)
      refine ⟨hk', by simpa using ht.glen, ?_, by simp, ?_, by simp [hpal], by simp only; omega, by omega, ?_, ?_⟩
      · intro g hg
        simp only [List.mem_replicate] at hg
        rw [hg.2]; simp
      · simp only [hpal, List.length_nil, List.countP_eq_zero, List.mem_replicate]
        intro a ha
        rw [ha.2]; simp
      · intro s h; exact absurd h (hz s)
      · intro i v h; simp [hpal] at h
    · next hw =>
      have hgen : (f.generation + 1#32).toNat = f.generation.toNat + 1 := by
        rw [BitVec.toNat_add]
        have h1 := f.generation.isLt
        have : f.generation.toNat + 1 ≠ 2 ^ 32 := by
          intro e
          apply hw
          apply BitVec.eq_of_toNat_eq
          rw [BitVec.toNat_add]
          show (f.generation.toNat + 1) % 2 ^ 32 = 0
          rw [e]
        show (f.generation.toNat + 1) % 2 ^ 32 = _
        exact Nat.mod_eq_of_lt (by omega)
      have hne : ∀ g ∈ f.gens, g ≠ f.generation + 1#32 := by
        intro g hg e
        have := ht.old g hg
        rw [e, hgen] at this
        omega
      refine ⟨f.slots, f.gens, _, rfl, hk', ht.glen, ?_, hw, ?_, by simp [hpal], by simp only; omega, by omega, ?_, ?_⟩
      · intro g hg
        have := ht.old g hg
        simp only [hgen]; omega
      · simp only [hpal, List.length_nil, List.countP_eq_zero]
        intro a ha
        simpa using hne a ha
      · intro s h
        exact absurd rfl (hne _ (List.mem_of_getElem? h))
      · intro i v h; simp [hpal] at h

theorem buildPaletteIndexes_spec (hash : BitVec 64 → BitVec 64) (f : AField) (ht : TInv f)
    (hn : f.raws.length ≤ 2 ^ 31) :
    ∃ slots gens gen idx, buildPaletteIndexes hash f =
        .ok { f with palette := firstOcc f.raws, indexes := idx, slots := slots, gens := gens, generation := gen } ∧
      idx.map (fun i => (firstOcc f.raws)[i]?) = f.raws.map some ∧
      TInv { f with slots := slots, gens := gens, generation := gen } := by
  obtain ⟨slots, gens, gen, e, hp⟩ := preparePaletteTable_spec hash { f with palette := [], indexes := [] }
    f.raws.length (ht.congr rfl rfl rfl) rfl hn
  obtain ⟨slots', gens', idx, e', hidx, ht'⟩ := addPaletteValues_spec hash f.raws _ _ hp (by simp)
  refine ⟨slots', gens', gen, idx, ?_, hidx, ht'.congr rfl rfl rfl⟩
  rw [buildPaletteIndexes, e, e']
  simp [firstOcc]

end Cloudini
