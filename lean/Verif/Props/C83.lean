import Verif.Lemmas.Dense
import Verif.Props.C38_C40

/-!
# C83: the hash set behind the voxel filter is a set, whatever the thread filtered before

Partial: sets with 2^24 members or more (the table counts distances in 24 bits) are not covered; `C83_reserve_shift` shows that very large clouds are undefined.

`applyVizLossyPreprocessing` drops a point when `seen.insert(key).second` is false, `seen` being a hash table that lives as long as the thread.  C38-C40 take it for a
set that starts empty.  Here that is proved of the table: for every hash function, every history of `clear`, `reserve` and `insert`.
-/

namespace Cloudini.Props

open Cloudini.Ros
open Cloudini.Dense (Table)

/-! ## Specification -/

/-- The calls the filter makes on its table. -/
inductive TableOp where
  | clear
  | reserve (n : Nat)
  | insert (key : BitVec 64)
  deriving DecidableEq

/-- The key was inserted and not cleared since. -/
def Since (key : BitVec 64) (ops : List TableOp) : Prop := ∃ a b, ops = a ++ .insert key :: b ∧ .clear ∉ b

/-- At no moment does the set have 2^24 members, and no `reserve` asks for more than fits 2^32 buckets. -/
structure Modest (ops : List TableOp) : Prop where
  few : ∀ a b, ops = a ++ b → ∀ keys : List (BitVec 64), keys.Nodup → (∀ k ∈ keys, Since k a) → keys.length < 2 ^ 24
  room : ∀ n, .reserve n ∈ ops → n ≤ 3435973888

/-- The calls one after the other. -/
def perform (hash : BitVec 64 → BitVec 64) : List TableOp → Table → Res Table
  | [], t => .ok t
  | .clear :: ops, t => perform hash ops (Dense.clear t)
  | .reserve n :: ops, t => do
    let t ← Dense.reserve hash t n
    perform hash ops t
  | .insert key :: ops, t => do
    let (t, _) ← Dense.insert hash t key
    perform hash ops t

/-! ## Helpers -/

theorem perform_append (hash : BitVec 64 → BitVec 64) (a b : List TableOp) : ∀ t, perform hash (a ++ b) t = (perform hash a t >>= perform hash b) := by
  induction a with
  | nil => intro t; rfl
  | cons o a ih =>
    intro t
    cases o with
    | clear => exact ih _
    | reserve n =>
      simp only [List.cons_append, perform]
      cases Dense.reserve hash t n with
      | ok x => exact ih x
      | throw m => rfl
      | ub u => rfl
    | insert k =>
      simp only [List.cons_append, perform]
      cases Dense.insert hash t k with
      | ok x => exact ih x.1
      | throw m => rfl
      | ub u => rfl

theorem since_nil (k : BitVec 64) : ¬ Since k [] := by
  rintro ⟨a, b, h, -⟩
  cases a <;> simp at h

theorem since_snoc (k : BitVec 64) (ops : List TableOp) (o : TableOp) : Since k (ops ++ [o]) ↔ o = .insert k ∨ (o ≠ .clear ∧ Since k ops) := by
  constructor
  · rintro ⟨a, b, h, hc⟩
    rcases List.eq_nil_or_concat b with rfl | ⟨b', o', rfl⟩
    · have := List.append_inj' h rfl
      simp at this
      exact Or.inl this.2
    · rw [List.concat_eq_append, ← List.cons_append, ← List.append_assoc] at h
      have := List.append_inj' h rfl
      simp at this
      obtain ⟨h1, rfl⟩ := this
      simp only [List.concat_eq_append, List.mem_append, List.mem_singleton, not_or] at hc
      exact Or.inr ⟨fun e => hc.2 e.symm, a, b', h1, hc.1⟩
  · rintro (rfl | ⟨h, a, b, rfl, hc⟩)
    · exact ⟨ops, [], rfl, by simp⟩
    · exact ⟨a, b ++ [o], by simp, by simp [hc]; exact fun e => h e.symm⟩

theorem modest_init {ops : List TableOp} {o : TableOp} (h : Modest (ops ++ [o])) : Modest ops :=
  ⟨fun a b e => h.few a (b ++ [o]) (by simp [e]), fun n hn => h.room n (by simp [hn])⟩

/-- The last operation of a list; induction from the end. -/
theorem snoc_induction {P : List TableOp → Prop} (h0 : P []) (h1 : ∀ l o, P l → P (l ++ [o])) (l : List TableOp) : P l := by
  have : ∀ n (l : List TableOp), l.length = n → P l := by
    intro n
    induction n with
    | zero => intro l hl; rw [List.length_eq_zero_iff.1 hl]; exact h0
    | succ n ih =>
      intro l hl
      rcases List.eq_nil_or_concat l with rfl | ⟨l', o, rfl⟩
      · simp at hl
      · rw [List.concat_eq_append] at hl ⊢
        exact h1 l' o (ih l' (by simpa using hl))
  exact this _ l rfl

theorem perform_good (hash : BitVec 64 → BitVec 64) {t0 : Table} (h0 : Dense.new = .ok t0) (ops : List TableOp) : Modest ops →
    ∃ t, perform hash ops t0 = .ok t ∧ Dense.Good hash t ∧ t.values.length < 2 ^ 24 ∧ ∀ k, k ∈ t.values ↔ Since k ops := by
  induction ops using snoc_induction with
  | h0 =>
    intro _
    obtain ⟨t, e, g, v⟩ := Dense.new_ok (hash := hash)
    rw [h0] at e
    cases e
    exact ⟨t0, rfl, g, by rw [v]; decide, fun k => by rw [v]; exact ⟨fun h => absurd h (by simp), fun h => absurd h (since_nil k)⟩⟩
  | h1 ops o ih =>
    intro hm
    obtain ⟨t, e, g, hl, hk⟩ := ih (modest_init hm)
    rw [perform_append, e, Res.ok_bind]
    cases o with
    | clear =>
      obtain ⟨g', v'⟩ := Dense.clear_ok g
      refine ⟨Dense.clear t, rfl, g', by rw [v']; decide, fun k => ?_⟩
      rw [since_snoc, v']
      simp
    | reserve n =>
      obtain ⟨t', e', g', v'⟩ := Dense.reserve_ok g hl (hm.room n (by simp))
      refine ⟨t', by simp only [perform, e', Res.ok_bind], g', by rw [v']; exact hl, fun k => ?_⟩
      rw [since_snoc, v', hk]
      simp
    | insert key =>
      have hfew := hm.few (ops ++ [.insert key]) [] (by simp)
      have hroom : key ∈ t.values ∨ t.values.length + 1 < 2 ^ 24 := by
        by_cases hin : key ∈ t.values
        · exact Or.inl hin
        · right
          have := hfew (key :: t.values) (List.nodup_cons.2 ⟨hin, g.nodup⟩) (by
            intro k h
            rw [since_snoc]
            rcases List.mem_cons.1 h with rfl | h
            · exact Or.inl rfl
            · exact Or.inr ⟨by simp, (hk k).1 h⟩)
          simpa using this
      obtain ⟨t', b, e', g', hb, v'⟩ := Dense.insert_ok g hroom hl
      refine ⟨t', by simp only [perform, e', Res.ok_bind], g', ?_, fun k => ?_⟩
      · rw [v']
        split
        · exact hl
        · rename_i hin
          rcases hroom with h | h
          · exact absurd h hin
          · simpa using h
      · rw [since_snoc, v', ← hk]
        simp only [TableOp.insert.injEq]
        constructor
        · intro h
          split at h
          · exact Or.inr ⟨by simp, h⟩
          · rcases List.mem_append.1 h with h | h
            · exact Or.inr ⟨by simp, h⟩
            · exact Or.inl (List.mem_singleton.1 h).symm
        · rintro (rfl | ⟨-, h⟩)
          · split
            · assumption
            · simp
          · split
            · exact h
            · simp [h]

/-! ## The table -/

/-- **C83, a set.** For every hash function and every modest history on a new table: no call is undefined, throws or runs forever, and `insert` answers true exactly
if the key was not inserted since the last `clear`.  The members are the keys inserted since the last `clear`, each once. -/
theorem C83_set_partial (hash : BitVec 64 → BitVec 64) (t0 : Table) (h0 : Dense.new = .ok t0) (ops : List TableOp) (key : BitVec 64) (hm : Modest (ops ++ [.insert key])) :
    ∃ t t' b, perform hash ops t0 = .ok t ∧ t.values.Nodup ∧ (∀ k, k ∈ t.values ↔ Since k ops) ∧ Dense.insert hash t key = .ok (t', b) ∧ (b = true ↔ ¬ Since key ops) := by
  obtain ⟨t, e, g, hl, hk⟩ := perform_good hash h0 ops (modest_init hm)
  have hroom : key ∈ t.values ∨ t.values.length + 1 < 2 ^ 24 := by
    by_cases hin : key ∈ t.values
    · exact Or.inl hin
    · right
      have := hm.few (ops ++ [.insert key]) [] (by simp) (key :: t.values) (List.nodup_cons.2 ⟨hin, g.nodup⟩) (by
        intro k h
        rw [since_snoc]
        rcases List.mem_cons.1 h with rfl | h
        · exact Or.inl rfl
        · exact Or.inr ⟨by simp, (hk k).1 h⟩)
      simpa using this
  obtain ⟨t', b, e', g', hb, v'⟩ := Dense.insert_ok g hroom hl
  exact ⟨t, t', b, e, g.nodup, hk, e', by rw [hb, hk]⟩

/-- The hypotheses are met: fewer than 2^24 operations never make 2^24 members. -/
theorem modest_short {ops : List TableOp} (h : ops.length < 2 ^ 24) (hr : ∀ n, .reserve n ∈ ops → n ≤ 3435973888) : Modest ops := by
  refine ⟨fun a b e keys hn hk => ?_, hr⟩
  have : keys.length ≤ a.length := by
    have hs : (keys.map TableOp.insert) ⊆ a := by
      intro o ho
      obtain ⟨k, hk', rfl⟩ := List.mem_map.1 ho
      obtain ⟨x, y, rfl, -⟩ := hk k hk'
      simp
    have hn' : (keys.map TableOp.insert).Nodup := by
      refine List.Pairwise.map _ (fun x y hxy => ?_) hn
      intro e
      exact hxy (TableOp.insert.inj e)
    simpa using (List.Nodup.length_le_of_subset hn' hs)
  have := congrArg List.length e
  simp at this
  omega

/-- Ten different keys that all hash to 0, after a clear: the table grows twice; a key of before the clear is new again. -/
def tableOps : List TableOp :=
  [.insert 7#64, .clear, .reserve 2] ++ (List.range 10).map fun i => .insert (BitVec.ofNat 64 (i + 1))

example : ∃ t0 t t' b, Dense.new = .ok t0 ∧ perform (fun _ => 0#64) tableOps t0 = .ok t ∧ Dense.insert (fun _ => 0#64) t 9#64 = .ok (t', b) ∧ (b = true ↔ ¬ Since 9#64 tableOps) := by
  obtain ⟨t0, h0, -⟩ := Dense.new_ok (hash := fun _ => 0#64)
  obtain ⟨t, t', b, h1, -, -, h2, h3⟩ := C83_set_partial (fun _ => 0#64) t0 h0 tableOps 9#64 (modest_short (by decide) (fun n hn => by
    simp [tableOps] at hn
    omega))
  exact ⟨t0, t, t', b, h0, h1, h2, h3⟩

/-- The same with the library's hash, computed. -/
example : ((do
    let t ← Dense.new
    let t ← perform Dense.wyhash tableOps t
    let (_, a) ← Dense.insert Dense.wyhash t 9#64
    let (_, b) ← Dense.insert Dense.wyhash t 11#64
    .ok (t.values.length, t.buckets.length, t.capacity, a, b)) : Res (Nat × Nat × Nat × Bool × Bool)) = .ok (10, 16, 12, false, true) := by decide +kernel

/-- The constant of the library's hash: the product of 1 and the constant has no high half. -/
example : Dense.wyhash 1#64 = 0x9E3779B97F4A7C15#64 ∧ Dense.wyhash 0xFFFFFFFFFFFFFFFF#64 = 0xFFFFFFFFFFFFFFFF#64 := by decide

/-- **C83, too much room.** `reserve` of more than 3435973888 elements (0.8 times 2^32) shifts by 64: undefined. -/
theorem C83_reserve_shift (hash : BitVec 64 → BitVec 64) (t : Table) (n : Nat) (hn : 3435973888 < n) (ht : 0 < t.shifts) : Dense.reserve hash t n = .ub .shift := by
  have key : ∀ s, 3435973888 < s → ∀ k, Dense.shiftsFor s k = 0 := by
    intro s hs k
    induction k with
    | zero => rfl
    | succ k ih =>
      unfold Dense.shiftsFor
      rw [if_pos, ih]
      simp only [Dense.load]
      have : min (2 ^ 32) (2 ^ (64 - (k + 1))) ≤ 2 ^ 32 := Nat.min_le_left _ _
      omega
  have hs : Dense.shiftsFor (max (min n (2 ^ 32)) t.values.length) 62 = 0 := key _ (by omega) _
  unfold Dense.reserve
  simp only [hs]
  rw [if_pos (Or.inr ht)]
  rfl

example (hash : BitVec 64 → BitVec 64) : ∃ t, Dense.new = .ok t ∧ Dense.reserve hash t 3435973889 = .ub .shift := by
  obtain ⟨t, h, g, -⟩ := Dense.new_ok (hash := hash)
  exact ⟨t, h, C83_reserve_shift hash t _ (by decide) (by have := g.sh; omega)⟩

/-! ## The filter -/

/-- The tables a thread can have: new, or left by an earlier call of the filter, with any resolution, on a cloud of fewer than 2^24 points. -/
inductive ThreadTable (hash : BitVec 64 → BitVec 64) : Table → Prop
  | new {t : Table} : Dense.new = .ok t → ThreadTable hash t
  | filtered {t t' : Table} {voxel : BitVec 32 → BitVec 32 → BitVec 32} {pc pc' : Pc2} : ThreadTable hash t → pc.data.length / pc.point_step.toNat < 2 ^ 24 →
      Dense.applyViz hash voxel t pc = .ok (pc', t') → ThreadTable hash t'

theorem vizLoop_kept {voxel : BitVec 32 → BitVec 32 → BitVec 32} {r : BitVec 32} {stp ox oy oz : Nat} {data : List Byte} : ∀ {n i : Nat} {seen : List (BitVec 64)}
    {out : List Byte} {kept : Nat} {x : List Byte × Nat}, vizLoop voxel r stp ox oy oz data n i seen out kept = .ok x →
    kept ≤ x.2 ∧ x.1.length + kept * stp = out.length + x.2 * stp := by
  intro n
  induction n with
  | zero => intro i seen out kept x h; simp only [vizLoop, Res.ok.injEq] at h; subst h; exact ⟨Nat.le_refl _, rfl⟩
  | succ n ih =>
    intro i seen out kept x h
    unfold vizLoop at h
    obtain ⟨_, _, h⟩ := Res.bind_eq_ok.1 h
    obtain ⟨_, _, h⟩ := Res.bind_eq_ok.1 h
    obtain ⟨_, _, h⟩ := Res.bind_eq_ok.1 h
    simp only at h
    split at h
    · exact ih h
    · split at h
      · exact ih h
      · obtain ⟨p, hp, h⟩ := Res.bind_eq_ok.1 h
        have hpl : p.length = stp := by
          obtain ⟨h1, h2⟩ := readAt_eq_ok.1 hp
          rw [h2, List.length_take, List.length_drop]
          omega
        obtain ⟨h1, h2⟩ := ih h
        rw [List.length_append, hpl, Nat.add_mul] at h2
        exact ⟨by omega, by omega⟩

/-- What the loop with the table makes of the outcome of the loop with the set. -/
def withTable (hash : BitVec 64 → BitVec 64) : Res (List Byte × Nat) → Res (List Byte × Nat × Table) → Prop
  | .ok x, y => ∃ t', y = .ok (x.1, x.2, t') ∧ Dense.Good hash t' ∧ t'.values.length < 2 ^ 24
  | .throw m, y => y = .throw m
  | .ub u, y => y = .ub u

theorem vizLoop_table {hash : BitVec 64 → BitVec 64} {voxel : BitVec 32 → BitVec 32 → BitVec 32} {r : BitVec 32} {stp ox oy oz : Nat} {data : List Byte} :
    ∀ {n i : Nat} {seen : List (BitVec 64)} {out : List Byte} {kept : Nat} {t : Table}, Dense.Good hash t → (∀ k, k ∈ t.values ↔ k ∈ seen) → t.values.length < 2 ^ 24 →
    (t.values.length + n < 2 ^ 24 ∨ ∃ x, vizLoop voxel r stp ox oy oz data n i seen out kept = .ok x ∧ t.values.length + (x.2 - kept) < 2 ^ 24) →
    withTable hash (vizLoop voxel r stp ox oy oz data n i seen out kept) (Dense.vizLoop hash voxel r stp ox oy oz data n i t out kept) := by
  intro n
  induction n with
  | zero => intro i seen out kept t g hk hl _; exact ⟨t, rfl, g, hl⟩
  | succ n ih =>
    intro i seen out kept t g hk hl hb
    unfold vizLoop at hb ⊢
    unfold Dense.vizLoop
    cases e1 : readAt data (i * stp + ox) 4 with
    | throw m => rfl
    | ub u => rfl
    | ok bx =>
    cases e2 : readAt data (i * stp + oy) 4 with
    | throw m => rfl
    | ub u => rfl
    | ok by' =>
    cases e3 : readAt data (i * stp + oz) 4 with
    | throw m => rfl
    | ub u => rfl
    | ok bz =>
    simp only [e1, e2, e3, Res.ok_bind] at hb ⊢
    by_cases hf : (!isFinite32 (BitVec.ofNat 32 (fromLE bx)) || !isFinite32 (BitVec.ofNat 32 (fromLE by')) || !isFinite32 (BitVec.ofNat 32 (fromLE bz))) = true
    · rw [if_pos hf] at hb ⊢
      rw [if_pos hf]
      exact ih g hk hl (hb.imp (fun h => by omega) id)
    · rw [if_neg hf] at hb ⊢
      rw [if_neg hf]
      by_cases hin : packVoxelKey (voxel r (BitVec.ofNat 32 (fromLE bx))) (voxel r (BitVec.ofNat 32 (fromLE by'))) (voxel r (BitVec.ofNat 32 (fromLE bz))) ∈ seen
      · rw [if_pos hin] at hb ⊢
        obtain ⟨t', b, e', g', hbb, v'⟩ := Dense.insert_ok g (Or.inl ((hk _).2 hin)) hl
        rw [if_pos ((hk _).2 hin)] at v'
        have hb0 : b = false := by
          cases b with
          | false => rfl
          | true => exact absurd ((hk _).2 hin) (hbb.1 rfl)
        subst hb0
        simp only [e', Res.ok_bind]
        exact ih g' (by rw [v']; exact hk) (by rw [v']; exact hl) (by
          rw [v']
          exact hb.imp (fun h => by omega) id)
      · rw [if_neg hin] at hb ⊢
        have hnin : packVoxelKey (voxel r (BitVec.ofNat 32 (fromLE bx))) (voxel r (BitVec.ofNat 32 (fromLE by'))) (voxel r (BitVec.ofNat 32 (fromLE bz))) ∉ t.values :=
          fun h => hin ((hk _).1 h)
        have hroom : t.values.length + 1 < 2 ^ 24 := by
          rcases hb with hb | ⟨x, hx, hb⟩
          · omega
          · obtain ⟨p, _, hx⟩ := Res.bind_eq_ok.1 hx
            have := (vizLoop_kept hx).1
            omega
        obtain ⟨t', b, e', g', hbb, v'⟩ := Dense.insert_ok g (Or.inr hroom) hl
        rw [if_neg hnin] at v'
        have hb1 : b = true := hbb.2 hnin
        subst hb1
        simp only [e', Res.ok_bind, Bool.not_true, Bool.false_eq_true, if_false]
        cases e4 : readAt data (i * stp) stp with
        | throw m => rfl
        | ub u => rfl
        | ok p =>
        simp only [e4, Res.ok_bind] at hb ⊢
        refine ih g' (fun k => ?_) (by rw [v']; simpa using hroom) ?_
        · rw [v']
          simp only [List.mem_append, List.mem_cons, List.not_mem_nil, or_false, hk]
          exact Or.comm
        · rw [v']
          simp only [List.length_append, List.length_cons, List.length_nil]
          rcases hb with hb | ⟨x, hx, hb⟩
          · left
            omega
          · have := (vizLoop_kept hx).1
            exact Or.inr ⟨x, hx, by omega⟩

theorem applyViz_table {hash : BitVec 64 → BitVec 64} {voxel : BitVec 32 → BitVec 32 → BitVec 32} {t : Table} {pc : Pc2} (g : Dense.Good hash t) (hl : t.values.length < 2 ^ 24)
    (hn : pc.data.length / pc.point_step.toNat ≤ 3435973888)
    (hb : pc.data.length / pc.point_step.toNat < 2 ^ 24 ∨ ∃ pc', applyViz voxel pc = .ok pc' ∧ pc'.data.length / pc'.point_step.toNat < 2 ^ 24) :
    match applyViz voxel pc with
    | .ok pc' => ∃ t', Dense.applyViz hash voxel t pc = .ok (pc', t') ∧ Dense.Good hash t' ∧ t'.values.length < 2 ^ 24
    | .throw m => Dense.applyViz hash voxel t pc = .throw m
    | .ub u => Dense.applyViz hash voxel t pc = .ub u := by
  unfold applyViz at hb ⊢
  unfold Dense.applyViz
  by_cases h1 : pc.fields.length < 3 ∨ pc.point_step = 0#32
  · rw [if_pos h1]
    rw [if_pos h1]
    exact ⟨t, rfl, g, hl⟩
  · rw [if_neg h1] at hb ⊢
    rw [if_neg h1]
    cases e : geometry pc.fields with
    | none => exact ⟨t, rfl, g, hl⟩
    | some x =>
      obtain ⟨o, r⟩ := x
      simp only [e] at hb ⊢
      by_cases h2 : pc.data.length / pc.point_step.toNat = 0
      · rw [if_pos h2]
        rw [if_pos h2]
        exact ⟨t, rfl, g, hl⟩
      · rw [if_neg h2] at hb ⊢
        rw [if_neg h2]
        obtain ⟨g1, v1⟩ := Dense.clear_ok g
        obtain ⟨t2, e2, g2, v2⟩ := Dense.reserve_ok g1 (by rw [v1]; decide) hn
        rw [v1] at v2
        have key := vizLoop_table (hash := hash) (voxel := voxel) (r := r) (stp := pc.point_step.toNat) (ox := o.toNat) (oy := (o + 4#32).toNat) (oz := (o + 8#32).toNat)
          (data := pc.data) (n := pc.data.length / pc.point_step.toNat) (i := 0) (seen := []) (out := []) (kept := 0) g2 (by rw [v2]; simp) (by rw [v2]; decide) (by
            rw [v2]
            rcases hb with hb | ⟨pc', hx, hb⟩
            · left; simpa using hb
            · right
              obtain ⟨x, hx, hx'⟩ := Res.bind_eq_ok.1 hx
              refine ⟨x, hx, ?_⟩
              have hl := (vizLoop_kept hx).2
              cases hx'
              simp only at hb
              simp only [List.length_nil, Nat.zero_mul, Nat.add_zero, Nat.zero_add, Nat.sub_zero] at hl ⊢
              have hp : 0 < pc.point_step.toNat := by
                rcases Nat.eq_zero_or_pos pc.point_step.toNat with h | h
                · exact absurd (Or.inr (BitVec.eq_of_toNat_eq h)) h1
                · exact h
              rw [hl, Nat.mul_div_cancel _ hp] at hb
              exact hb)
        simp only [e2, Res.ok_bind]
        revert key
        cases vizLoop voxel r pc.point_step.toNat o.toNat (o + 4#32).toNat (o + 8#32).toNat pc.data (pc.data.length / pc.point_step.toNat) 0 [] [] 0 with
        | ok x =>
          rintro ⟨t', e3, g3, l3⟩
          simp only [e3, Res.ok_bind]
          exact ⟨t', rfl, g3, l3⟩
        | throw m =>
          intro e3
          simp only [withTable] at e3
          simp only [e3, Res.throw_bind]
        | ub u =>
          intro e3
          simp only [withTable] at e3
          simp only [e3, Res.ub_bind]

theorem threadTable_good {hash : BitVec 64 → BitVec 64} {t : Table} (h : ThreadTable hash t) : Dense.Good hash t ∧ t.values.length < 2 ^ 24 := by
  induction h with
  | new h =>
    obtain ⟨t, e, g, v⟩ := Dense.new_ok (hash := hash)
    rw [h] at e
    cases e
    exact ⟨g, by rw [v]; decide⟩
  | @filtered t t' voxel pc pc' _ hn e ih =>
    have := applyViz_table (voxel := voxel) (pc := pc) ih.1 ih.2 (by omega) (Or.inl hn)
    revert this
    cases applyViz voxel pc with
    | ok x =>
      rintro ⟨t2, e2, g2, l2⟩
      rw [e] at e2
      cases e2
      exact ⟨g2, l2⟩
    | throw m => intro e2; rw [e] at e2; cases e2
    | ub u => intro e2; rw [e] at e2; cases e2

/-- **C83, the filter.** On a thread with any history, the filter with the library's table has the outcome C38-C40 and the other properties speak about, for clouds of
fewer than 2^24 points. -/
theorem C83_viz_partial (hash : BitVec 64 → BitVec 64) (voxel : BitVec 32 → BitVec 32 → BitVec 32) (t : Table) (ht : ThreadTable hash t) (pc : Pc2)
    (hn : pc.data.length / pc.point_step.toNat < 2 ^ 24) :
    (∀ pc', applyViz voxel pc = .ok pc' ↔ ∃ t', Dense.applyViz hash voxel t pc = .ok (pc', t')) ∧
    (∀ u, applyViz voxel pc = .ub u ↔ Dense.applyViz hash voxel t pc = .ub u) := by
  obtain ⟨g, hl⟩ := threadTable_good ht
  have := applyViz_table (voxel := voxel) (pc := pc) g hl (by omega) (Or.inl hn)
  revert this
  cases applyViz voxel pc with
  | ok x =>
    rintro ⟨t2, e2, -, -⟩
    rw [e2]
    refine ⟨fun pc' => ⟨fun h => by cases h; exact ⟨t2, rfl⟩, fun ⟨t', h⟩ => by cases h; rfl⟩, fun u => ⟨fun h => (by cases h), fun h => (by cases h)⟩⟩
  | throw m =>
    intro e2
    rw [e2]
    refine ⟨fun pc' => ⟨fun h => (by cases h), fun ⟨t', h⟩ => (by cases h)⟩, fun u => ⟨fun h => (by cases h), fun h => (by cases h)⟩⟩
  | ub v =>
    intro e2
    rw [e2]
    refine ⟨fun pc' => ⟨fun h => (by cases h), fun ⟨t', h⟩ => (by cases h)⟩, fun u => ⟨fun h => by cases h; rfl, fun h => by cases h; rfl⟩⟩

/-- **C83, more points.** A cloud of up to 3435973888 points in fewer than 2^24 voxels is filtered as promised, too. -/
theorem C83_viz_voxels_partial (hash : BitVec 64 → BitVec 64) (voxel : BitVec 32 → BitVec 32 → BitVec 32) (t : Table) (ht : ThreadTable hash t) (pc pc' : Pc2)
    (hn : pc.data.length / pc.point_step.toNat ≤ 3435973888) (h : applyViz voxel pc = .ok pc') (hv : pc'.data.length / pc'.point_step.toNat < 2 ^ 24) :
    ∃ t', Dense.applyViz hash voxel t pc = .ok (pc', t') := by
  obtain ⟨g, hl⟩ := threadTable_good ht
  have := applyViz_table (voxel := voxel) (pc := pc) g hl hn (Or.inr ⟨pc', h, hv⟩)
  rw [h] at this
  obtain ⟨t', e, -⟩ := this
  exact ⟨t', e⟩

/-- **C83, history.** Two threads, whatever they filtered before and whatever their hash functions, make the same of a cloud. -/
theorem C83_history_partial (hash₁ hash₂ : BitVec 64 → BitVec 64) (voxel : BitVec 32 → BitVec 32 → BitVec 32) (t₁ t₂ : Table) (h₁ : ThreadTable hash₁ t₁) (h₂ : ThreadTable hash₂ t₂)
    (pc pc' : Pc2) (hn : pc.data.length / pc.point_step.toNat < 2 ^ 24) :
    (∃ t', Dense.applyViz hash₁ voxel t₁ pc = .ok (pc', t')) ↔ ∃ t', Dense.applyViz hash₂ voxel t₂ pc = .ok (pc', t') := by
  rw [← (C83_viz_partial hash₁ voxel t₁ h₁ pc hn).1, ← (C83_viz_partial hash₂ voxel t₂ h₂ pc hn).1]

/-- **C83, the cloud.** C39 for the library's table: the points left are the finite ones that no earlier finite point shares its key with. -/
theorem C83_filter_partial (hash : BitVec 64 → BitVec 64) (voxel : BitVec 32 → BitVec 32 → BitVec 32) (t : Table) (ht : ThreadTable hash t) (pc : Pc2) (off r : BitVec 32)
    (hg : Geometry pc off r) (hlen : 1 ≤ pc.data.length / pc.point_step.toNat) (hsize : pc.data.length < 2 ^ 32)
    (hn : pc.data.length / pc.point_step.toNat < 2 ^ 24) :
    ∃ (pc' : Pc2) (t' : Table) (idx : List Nat), Dense.applyViz hash voxel t pc = .ok (pc', t') ∧ ThreadTable hash t' ∧
      idx.Pairwise (· < ·) ∧
      (∀ i, i ∈ idx ↔ i < pc.data.length / pc.point_step.toNat ∧ FinitePoint pc.data pc.point_step.toNat off.toNat i ∧
        ∀ j < i, FinitePoint pc.data pc.point_step.toNat off.toNat j →
          packVoxelKey (voxelOf (voxel r) pc.data pc.point_step.toNat off.toNat j).1 (voxelOf (voxel r) pc.data pc.point_step.toNat off.toNat j).2.1
            (voxelOf (voxel r) pc.data pc.point_step.toNat off.toNat j).2.2 ≠
          packVoxelKey (voxelOf (voxel r) pc.data pc.point_step.toNat off.toNat i).1 (voxelOf (voxel r) pc.data pc.point_step.toNat off.toNat i).2.1
            (voxelOf (voxel r) pc.data pc.point_step.toNat off.toNat i).2.2) ∧
      pc'.data = (idx.map (pointBytes pc.data pc.point_step.toNat)).flatten ∧ pc'.width.toNat = idx.length := by
  obtain ⟨pc', idx, e, e2, e3, e4, e5, -⟩ := C39_filter voxel pc off r hg hlen hsize
  obtain ⟨t', e'⟩ := ((C83_viz_partial hash voxel t ht pc hn).1 pc').1 e
  exact ⟨pc', t', idx, e', .filtered ht hn e', e2, e3, e4, e5⟩

/-- A thread that has filtered a cloud filters it again: the same two points of four. -/
def tableCloud : Pc2 := vizCloud 0#32 [vizPoint 0#32 1#8, vizPoint 0x7F800000#32 2#8, vizPoint 0x3F800000#32 3#8, vizPoint 0#32 4#8]

example : ((do
    let t ← Dense.new
    let (_, t) ← Dense.applyViz Dense.wyhash toyVoxel t tableCloud
    let (pc, t) ← Dense.applyViz Dense.wyhash toyVoxel t tableCloud
    .ok (pc.width, pc.data, t.values.length)) : Res (BitVec 32 × List Byte × Nat)) = .ok (2#32, vizPoint 0#32 1#8 ++ vizPoint 0x3F800000#32 3#8, 2) := by decide +kernel

example : ∃ t t' pc', Dense.new = .ok t ∧ Dense.applyViz Dense.wyhash toyVoxel t tableCloud = .ok (pc', t') ∧ ThreadTable Dense.wyhash t' := by
  obtain ⟨t, h, -⟩ := Dense.new_ok (hash := Dense.wyhash)
  obtain ⟨pc', t', _, e, h', -⟩ := C83_filter_partial Dense.wyhash toyVoxel t (.new h) tableCloud 0#32 0x3F800000#32 ⟨rfl, by decide, by decide⟩ (by decide) (by decide) (by decide)
  exact ⟨t, t', pc', h, e, h'⟩

end Cloudini.Props
