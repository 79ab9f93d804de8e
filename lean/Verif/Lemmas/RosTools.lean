import Verif.Spec.RosTools
import Verif.Lemmas.Base

namespace Cloudini.Ros

theorem isZero32_iff (r : BitVec 32) : isZero32 r = true ↔ r = 0#32 ∨ r = 0x80000000#32 := by
  have := r.isLt
  have h0 : (0#32).toNat = 0 := rfl
  have h1 : (0x80000000#32).toNat = 2147483648 := rfl
  unfold isZero32
  rw [decide_eq_true_eq, BitVec.toNat_inj.symm, BitVec.toNat_inj.symm, h0, h1]
  omega

theorem profiled_apply (profile : List Byte → Option (BitVec 32)) (default : Option (BitVec 32)) (fs : List PointField) :
    Profiled profile default fs (applyProfile profile fs default) := by
  induction fs with
  | nil => exact .nil
  | cons f fs ih =>
    unfold applyProfile at ih ⊢
    simp only [List.filter_cons] at ih ⊢
    cases hp : profile f.name with
    | some r =>
      simp only
      by_cases hz : isZero32 r = true
      · simp only [hz, Bool.not_true, Bool.false_eq_true, if_false]
        exact .removed f r fs _ hp ((isZero32_iff r).1 hz) ih
      · simp only [hz, Bool.not_false, if_true, List.map_cons, hp]
        have hn : ¬ (r = 0#32 ∨ r = 0x80000000#32) := fun h => hz ((isZero32_iff r).2 h)
        exact .named f r fs _ hp (fun h => hn (Or.inl h)) (fun h => hn (Or.inr h)) ih
    | none =>
      simp only [Bool.not_false, if_true, List.map_cons, hp]
      cases hd : default with
      | none =>
        subst hd
        exact .kept f fs _ hp (Or.inr rfl) ih
      | some r =>
        subst hd
        simp only
        by_cases ht : f.type = .float32
        · rw [if_pos ht]
          exact .defaulted f r fs _ hp ht rfl ih
        · rw [if_neg ht]
          exact .kept f fs _ hp (Or.inl ht) ih

theorem profiled_unique {profile : List Byte → Option (BitVec 32)} {default : Option (BitVec 32)} {fs a b : List PointField}
    (h1 : Profiled profile default fs a) (h2 : Profiled profile default fs b) : a = b := by
  induction h1 generalizing b with
  | nil => cases h2; rfl
  | removed f r fs out hp hz _ ih => cases h2 <;> simp_all <;> exact ih ‹_›
  | named f r fs out hp h0 h1 _ ih => cases h2 <;> simp_all <;> exact ih ‹_›
  | defaulted f r fs out hp ht hd _ ih => cases h2 <;> simp_all <;> exact ih ‹_›
  | kept f fs out hp ht _ ih => cases h2 <;> simp_all <;> exact ih ‹_›

/-! ### voxel keys -/

theorem mask_bit (i : Nat) (hi : i < 64) : ((1#64 <<< 21) - 1#64 : BitVec 64).getLsbD i = decide (i < 21) := by
  revert i; decide

theorem axis_bit (q : BitVec 64) (i : Nat) (hi : 21 ≤ i) : (q &&& ((1#64 <<< 21) - 1#64)).getLsbD i = false := by
  rw [BitVec.getLsbD_and]
  by_cases h : i < 64
  · rw [mask_bit i h]; simp; intro _; omega
  · rw [BitVec.getLsbD_of_ge _ _ (by omega)]; rfl

theorem pack_parts (ux uy uz : BitVec 64) (hx : ∀ i, 21 ≤ i → ux.getLsbD i = false) (hy : ∀ i, 21 ≤ i → uy.getLsbD i = false)
    (hz : ∀ i, 21 ≤ i → uz.getLsbD i = false) :
    (∀ i, i < 21 → (ux ||| (uy <<< 21) ||| (uz <<< 42)).getLsbD i = ux.getLsbD i) ∧
    (∀ i, i < 21 → (ux ||| (uy <<< 21) ||| (uz <<< 42)).getLsbD (21 + i) = uy.getLsbD i) ∧
    (∀ i, i < 21 → (ux ||| (uy <<< 21) ||| (uz <<< 42)).getLsbD (42 + i) = uz.getLsbD i) := by
  refine ⟨fun i hi => ?_, fun i hi => ?_, fun i hi => ?_⟩
  · simp only [BitVec.getLsbD_or, BitVec.getLsbD_shiftLeft]
    have h1 : i < 42 := by omega
    simp [hi, h1]
  · simp only [BitVec.getLsbD_or, BitVec.getLsbD_shiftLeft, hx (21 + i) (by omega)]
    have h1 : 21 + i < 64 := by omega
    have h2 : ¬ 21 + i < 21 := by omega
    have h3 : 21 + i < 42 := by omega
    have h4 : 21 + i - 21 = i := by omega
    simp [h1, h3]
  · simp only [BitVec.getLsbD_or, BitVec.getLsbD_shiftLeft, hx (42 + i) (by omega)]
    have h1 : 42 + i < 64 := by omega
    have h4 : 42 + i - 42 = i := by omega
    have h5 : uy.getLsbD (42 + i - 21) = false := hy _ (by omega)
    simp [h1, h5]

theorem low_eq {a b : BitVec 64} (ha : ∀ i, 21 ≤ i → a.getLsbD i = false) (hb : ∀ i, 21 ≤ i → b.getLsbD i = false)
    (h : ∀ i, i < 21 → a.getLsbD i = b.getLsbD i) : a = b := by
  apply BitVec.eq_of_getLsbD_eq
  intro i _
  by_cases hi : i < 21
  · exact h i hi
  · rw [ha i (by omega), hb i (by omega)]

/-- One axis of the key. -/
def axis (q : BitVec 32) : BitVec 64 := (q.signExtend 64 + 1#64 <<< 20) &&& ((1#64 <<< 21) - 1#64)

theorem axis_toNat (q : BitVec 32) : ((axis q).toNat : Int) = (q.toInt + 2 ^ 20) % 2 ^ 21 := by
  unfold axis
  have hm : ((1#64 <<< 21) - 1#64 : BitVec 64).toNat = 2 ^ 21 - 1 := by decide
  have hb : (1#64 <<< 20 : BitVec 64).toNat = 2 ^ 20 := by decide
  rw [BitVec.toNat_and, hm, Nat.and_two_pow_sub_one_eq_mod, BitVec.toNat_add, hb]
  have h1 : ((q.signExtend 64).toNat : Int) = q.toInt % 2 ^ 64 := by
    have := BitVec.toInt_signExtend_of_le (x := q) (v := 64) (by omega)
    rw [← this, BitVec.toInt_eq_toNat_cond]
    have hlt := (q.signExtend 64).isLt
    split <;> omega
  omega

theorem pack_eq_iff (a b c a' b' c' : BitVec 32) :
    packVoxelKey a b c = packVoxelKey a' b' c' ↔ axis a = axis a' ∧ axis b = axis b' ∧ axis c = axis c' := by
  have hk : ∀ x y z, packVoxelKey x y z = axis x ||| (axis y <<< 21) ||| (axis z <<< 42) := fun _ _ _ => rfl
  have hax : ∀ q i, 21 ≤ i → (axis q).getLsbD i = false := fun q i hi => axis_bit _ i hi
  constructor
  · intro h
    rw [hk, hk] at h
    obtain ⟨p1, p2, p3⟩ := pack_parts (axis a) (axis b) (axis c) (hax a) (hax b) (hax c)
    obtain ⟨q1, q2, q3⟩ := pack_parts (axis a') (axis b') (axis c') (hax a') (hax b') (hax c')
    rw [h] at p1 p2 p3
    exact ⟨low_eq (hax a) (hax a') fun i hi => (p1 i hi).symm.trans (q1 i hi), low_eq (hax b) (hax b') fun i hi => (p2 i hi).symm.trans (q2 i hi),
      low_eq (hax c) (hax c') fun i hi => (p3 i hi).symm.trans (q3 i hi)⟩
  · rintro ⟨h1, h2, h3⟩
    rw [hk, hk, h1, h2, h3]

/-! ### the filter -/

theorem isFinite32_iff (x : BitVec 32) : isFinite32 x = true ↔ Finite32 x := by
  have := x.isLt
  unfold isFinite32 Finite32
  rw [decide_eq_true_eq]
  omega

/-- The key of a point. -/
def keyOf (voxel : BitVec 32 → BitVec 32) (data : List Byte) (step off i : Nat) : BitVec 64 :=
  packVoxelKey (voxelOf voxel data step off i).1 (voxelOf voxel data step off i).2.1 (voxelOf voxel data step off i).2.2

/-- Point `i` is the first finite one with its key. -/
def Kept (voxel : BitVec 32 → BitVec 32) (data : List Byte) (step off i : Nat) : Prop :=
  FinitePoint data step off i ∧ ∀ j < i, FinitePoint data step off j → keyOf voxel data step off j ≠ keyOf voxel data step off i

theorem readAt_ok {data : List Byte} {p n : Nat} (h : p + n ≤ data.length) : readAt data p n = .ok ((data.drop p).take n) := if_pos h

theorem finitePoint_iff (data : List Byte) (step off i : Nat) :
    FinitePoint data step off i ↔ Finite32 (coord data step off i 0) ∧ Finite32 (coord data step off i 1) ∧ Finite32 (coord data step off i 2) := by
  unfold FinitePoint
  constructor
  · intro h; exact ⟨h 0 (by omega), h 1 (by omega), h 2 (by omega)⟩
  · rintro ⟨h0, h1, h2⟩ k hk
    rcases (by omega : k = 0 ∨ k = 1 ∨ k = 2) with rfl | rfl | rfl <;> assumption

open Classical in
theorem vizLoop_spec (voxel : BitVec 32 → BitVec 32 → BitVec 32) (r : BitVec 32) (step off : Nat) (data : List Byte) (hoff : off + 12 ≤ step)
    (n i : Nat) (seen : List (BitVec 64)) (out : List Byte) (kept : Nat) (hdata : (i + n) * step ≤ data.length)
    (hseen : ∀ k, k ∈ seen ↔ ∃ j < i, FinitePoint data step off j ∧ keyOf (voxel r) data step off j = k) :
    ∃ idx : List Nat, vizLoop voxel r step off (off + 4) (off + 8) data n i seen out kept = .ok (out ++ (idx.map (pointBytes data step)).flatten, kept + idx.length) ∧
      idx.Pairwise (· < ·) ∧ ∀ j, j ∈ idx ↔ i ≤ j ∧ j < i + n ∧ Kept (voxel r) data step off j := by
  induction n generalizing i seen out kept with
  | zero => exact ⟨[], by simp [vizLoop], .nil, fun j => by
      constructor
      · intro h; cases h
      · intro h; exact absurd h.2.1 (by omega)⟩
  | succ n ih =>
    have hb : i * step + step ≤ data.length := by
      have : (i + 1) * step ≤ (i + (n + 1)) * step := Nat.mul_le_mul_right _ (by omega)
      rw [Nat.add_mul, Nat.one_mul] at this
      omega
    have r0 := readAt_ok (data := data) (p := i * step + off) (n := 4) (by omega)
    have r1 := readAt_ok (data := data) (p := i * step + (off + 4)) (n := 4) (by omega)
    have r2 := readAt_ok (data := data) (p := i * step + (off + 8)) (n := 4) (by omega)
    have r3 := readAt_ok (data := data) (p := i * step) (n := step) (by omega)
    have c0 : BitVec.ofNat 32 (fromLE ((data.drop (i * step + off)).take 4)) = coord data step off i 0 := by simp [coord]
    have c1 : BitVec.ofNat 32 (fromLE ((data.drop (i * step + (off + 4))).take 4)) = coord data step off i 1 := by simp [coord, Nat.add_assoc]
    have c2 : BitVec.ofNat 32 (fromLE ((data.drop (i * step + (off + 8))).take 4)) = coord data step off i 2 := by simp [coord, Nat.add_assoc]
    have hk : packVoxelKey (voxel r (coord data step off i 0)) (voxel r (coord data step off i 1)) (voxel r (coord data step off i 2)) =
        keyOf (voxel r) data step off i := rfl
    have hf := finitePoint_iff data step off i
    simp only [vizLoop, r0, r1, r2, r3, Res.ok_bind, c0, c1, c2, hk]
    by_cases hfin : FinitePoint data step off i
    · have hcond : (!isFinite32 (coord data step off i 0) || !isFinite32 (coord data step off i 1) || !isFinite32 (coord data step off i 2)) = false := by
        obtain ⟨h0, h1, h2⟩ := hf.1 hfin
        simp [(isFinite32_iff _).2 h0, (isFinite32_iff _).2 h1, (isFinite32_iff _).2 h2]
      rw [hcond]
      simp only [Bool.false_eq_true, if_false]
      by_cases hin : keyOf (voxel r) data step off i ∈ seen
      · rw [if_pos hin]
        obtain ⟨idx, e1, e2, e3⟩ := ih (i + 1) seen out kept (by rw [show i + 1 + n = i + (n + 1) by omega]; exact hdata) (fun k => by
          rw [hseen k]
          constructor
          · rintro ⟨j, hj, h⟩; exact ⟨j, by omega, h⟩
          · rintro ⟨j, hj, h1, h2⟩
            by_cases hji : j = i
            · subst hji
              obtain ⟨j', hj', h3, h4⟩ := (hseen _).1 hin
              exact ⟨j', hj', h3, h4.trans h2⟩
            · exact ⟨j, by omega, h1, h2⟩)
        refine ⟨idx, e1, e2, fun j => ?_⟩
        rw [e3]
        constructor
        · rintro ⟨h1, h2, h3⟩; exact ⟨by omega, by omega, h3⟩
        · rintro ⟨h1, h2, h3⟩
          refine ⟨?_, by omega, h3⟩
          by_cases hji : j = i
          · subst hji
            obtain ⟨j', hj', h4, h5⟩ := (hseen _).1 hin
            exact absurd h5 (h3.2 j' hj' h4)
          · omega
      · rw [if_neg hin]
        obtain ⟨idx, e1, e2, e3⟩ := ih (i + 1) (keyOf (voxel r) data step off i :: seen) (out ++ (data.drop (i * step)).take step) (kept + 1)
          (by rw [show i + 1 + n = i + (n + 1) by omega]; exact hdata) (fun k => by
          rw [List.mem_cons, hseen k]
          constructor
          · rintro (rfl | ⟨j, hj, h⟩)
            · exact ⟨i, by omega, hfin, rfl⟩
            · exact ⟨j, by omega, h⟩
          · rintro ⟨j, hj, h1, h2⟩
            by_cases hji : j = i
            · subst hji; exact Or.inl h2.symm
            · exact Or.inr ⟨j, by omega, h1, h2⟩)
        refine ⟨i :: idx, ?_, ?_, fun j => ?_⟩
        · rw [e1]
          simp only [List.map_cons, List.flatten_cons, List.append_assoc, List.length_cons, Res.ok.injEq, Prod.mk.injEq, pointBytes, true_and]
          omega
        · refine .cons (fun j hj => ?_) e2
          have := (e3 j).1 hj
          omega
        · rw [List.mem_cons, e3]
          constructor
          · rintro (rfl | ⟨h1, h2, h3⟩)
            · refine ⟨by omega, by omega, hfin, fun j' hj' h4 h5 => hin ((hseen _).2 ⟨j', hj', h4, h5⟩)⟩
            · exact ⟨by omega, by omega, h3⟩
          · rintro ⟨h1, h2, h3⟩
            by_cases hji : j = i
            · exact Or.inl hji
            · exact Or.inr ⟨by omega, by omega, h3⟩
    · have hcond : (!isFinite32 (coord data step off i 0) || !isFinite32 (coord data step off i 1) || !isFinite32 (coord data step off i 2)) = true := by
        simp only [Bool.or_eq_true, Bool.not_eq_true']
        by_cases h0 : isFinite32 (coord data step off i 0) = true
        · by_cases h1 : isFinite32 (coord data step off i 1) = true
          · by_cases h2 : isFinite32 (coord data step off i 2) = true
            · exact absurd (hf.2 ⟨(isFinite32_iff _).1 h0, (isFinite32_iff _).1 h1, (isFinite32_iff _).1 h2⟩) hfin
            · exact Or.inr (by simpa using h2)
          · exact Or.inl (Or.inr (by simpa using h1))
        · exact Or.inl (Or.inl (by simpa using h0))
      rw [hcond]
      simp only [if_true]
      obtain ⟨idx, e1, e2, e3⟩ := ih (i + 1) seen out kept (by rw [show i + 1 + n = i + (n + 1) by omega]; exact hdata) (fun k => by
          rw [hseen k]
          constructor
          · rintro ⟨j, hj, h⟩; exact ⟨j, by omega, h⟩
          · rintro ⟨j, hj, h1, h2⟩
            by_cases hji : j = i
            · subst hji; exact absurd h1 hfin
            · exact ⟨j, by omega, h1, h2⟩)
      refine ⟨idx, e1, e2, fun j => ?_⟩
      rw [e3]
      constructor
      · rintro ⟨h1, h2, h3⟩; exact ⟨by omega, by omega, h3⟩
      · rintro ⟨h1, h2, h3⟩
        refine ⟨?_, by omega, h3⟩
        by_cases hji : j = i
        · subst hji; exact absurd h3.1 hfin
        · omega

end Cloudini.Ros
