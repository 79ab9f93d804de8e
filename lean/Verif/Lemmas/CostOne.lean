import Verif.Lemmas.OneField
import Verif.Lemmas.Cost

/-! # What a constant or evenly spaced column costs in each mode (helper lemmas for C86) -/

namespace Cloudini

theorem leb_three (n : Nat) (h : n ≤ 32768) : (lebBytes (BitVec.ofNat 64 n)).length ≤ 3 := by
  refine lebBytes_length_le _ 2 ?_
  rw [BitVec.toNat_ofNat, Nat.mod_eq_of_lt (by omega)]; omega

theorem leb_two (n : Nat) (h : 128 ≤ n) (h2 : n < 2 ^ 64) : 2 ≤ (lebBytes (BitVec.ofNat 64 n)).length := by
  have ht : (BitVec.ofNat 64 n).toNat = n := by rw [BitVec.toNat_ofNat]; exact Nat.mod_eq_of_lt h2
  rw [lebBytes, dif_pos (by rw [ht]; omega), List.length_cons]
  have := lebBytes_length_pos (BitVec.ofNat 64 n >>> 7)
  omega

theorem leb_one : (lebBytes (BitVec.ofNat 64 1)).length = 1 := by decide +kernel
theorem varint_zero : (encodeVarint64 0#64).length = 1 := by decide +kernel

theorem flatMap_length_ge {α : Type} (g : α → List Byte) (k : Nat) (l : List α) (h : ∀ a ∈ l, k ≤ (g a).length) :
    l.length * k ≤ (l.flatMap g).length := by
  induction l with
  | nil => simp
  | cons a l ih =>
    have := h a (by simp); have := ih (fun b hb => h b (by simp [hb]))
    simp only [List.flatMap_cons, List.length_append, List.length_cons, Nat.add_mul, Nat.one_mul]; omega

theorem deltaSec_ge (vals : List (BitVec 64)) : 1 + vals.length ≤ (deltaSec vals).length := by
  unfold deltaSec
  have := flatMap_length_ge encodeVarint64 1 (deltas 0#64 vals) (fun a _ => (encodeVarint64_length a).1)
  rw [deltas_length] at this
  simp only [List.length_cons]; omega

theorem bestMode_strict (bpv : Nat) (vals raws : List (BitVec 64)) (h : bestMode bpv vals raws = .deltaRle) :
    (secFor .deltaRle bpv vals raws).length < (secFor .palette bpv vals raws).length := by
  unfold bestMode selectBest at h
  generalize (secFor .deltaRle bpv vals raws).length = dr at *
  generalize (secFor .palette bpv vals raws).length = p at *
  generalize (secFor .rle bpv vals raws).length = r at *
  generalize (secFor .deltaVarint bpv vals raws).length = d at *
  by_cases a : p < d
  · by_cases b : r < p
    · by_cases c : dr < r <;> simp [a, b, c] at h <;> omega
    · by_cases c : dr < p <;> simp [a, b, c] at h <;> omega
  · by_cases b : r < d
    · by_cases c : dr < r <;> simp [a, b, c] at h <;> omega
    · by_cases c : dr < d <;> simp [a, b, c] at h <;> omega

/-! ### constant columns -/

theorem firstOcc_replicate (r : BitVec 64) (k : Nat) : firstOcc (List.replicate (k + 1) r) = [r] := by
  have key : ∀ k, (List.replicate k r).foldl addNew [r] = [r] := by
    intro k
    induction k with
    | zero => rfl
    | succ k ih => rw [List.replicate_succ, List.foldl_cons]; simpa [addNew] using ih
  unfold firstOcc
  rw [List.replicate_succ, List.foldl_cons]
  simpa [addNew] using key k

theorem palette_const (bpv : Nat) (vals : List (BitVec 64)) (r : BitVec 64) (k : Nat) :
    (secFor .palette bpv vals (List.replicate (k + 1) r)).length = 3 + bpv := by
  unfold secFor paletteSec
  simp only [firstOcc_replicate]
  simp [bitsForPaletteIndex, bitpack]
  omega

theorem rle_const (bpv : Nat) (vals : List (BitVec 64)) (r : BitVec 64) (k : Nat) :
    3 + bpv < (secFor .rle bpv vals (List.replicate (k + 1) r)).length := by
  unfold secFor rleSec
  rw [runs_replicate]
  simp only [rleBytes, List.flatMap_cons, List.flatMap_nil, List.length_cons, List.length_append, toLE_length]
  omega

theorem deltas_const (v : BitVec 64) (k : Nat) : deltas 0#64 (List.replicate (k + 1) v) = v :: List.replicate k 0#64 := by
  rw [List.replicate_succ, deltas, BitVec.sub_zero]
  congr 1
  simpa [deltas] using deltas_replicate_app v k []

/-- The delta-RLE section of a constant column is at most one byte longer than that of 4096 such values. -/
theorem dRle_const (bpv : Nat) (raws raws' : List (BitVec 64)) (v : BitVec 64) (k k' : Nat) (hk : 128 ≤ k) (hk2 : k < 2 ^ 63) (hk' : k' < 32768) :
    (secFor .deltaRle bpv (List.replicate (k' + 1) v) raws').length ≤ (secFor .deltaRle bpv (List.replicate (k + 1) v) raws).length + 1 := by
  unfold secFor deltaRleSec
  simp only [deltas_const]
  by_cases hv : v = 0#64
  · subst hv
    rw [← List.replicate_succ, ← List.replicate_succ, runs_replicate, runs_replicate]
    simp only [dRleBytes, List.flatMap_cons, List.flatMap_nil, List.length_cons, List.length_append, toLE_length, List.length_nil]
    have := leb_three (k' + 1) (by omega)
    have := leb_two (k + 1) (by omega) (by omega)
    omega
  · obtain ⟨j, rfl⟩ : ∃ j, k = j + 1 := ⟨k - 1, by omega⟩
    have e : runs (v :: List.replicate (j + 1) 0#64) = [(v, 1), (0#64, j + 1)] := by
      rw [List.replicate_succ, runs_cons_ne _ _ _ hv, ← List.replicate_succ, runs_replicate]
    rw [e]
    cases k' with
    | zero =>
      simp only [List.replicate_zero, show runs [v] = [(v, 1)] from rfl]
      simp only [dRleBytes, List.flatMap_cons, List.flatMap_nil, List.length_cons, List.length_append, toLE_length, List.length_nil]
      omega
    | succ j' =>
      have e' : runs (v :: List.replicate (j' + 1) 0#64) = [(v, 1), (0#64, j' + 1)] := by
        rw [List.replicate_succ, runs_cons_ne _ _ _ hv, ← List.replicate_succ, runs_replicate]
      rw [e']
      simp only [dRleBytes, List.flatMap_cons, List.flatMap_nil, List.length_cons, List.length_append, toLE_length, List.length_nil]
      have := leb_three (j' + 1) (by omega)
      have := leb_two (j + 1) (by omega) (by omega)
      omega

/-- In the mode chosen from `k + 1` equal values (at least 129), a chunk of equal values costs the palette's 3 bytes and the value. -/
theorem const_cost (bpv : Nat) (v r : BitVec 64) (k k' : Nat) (hb : bpv ≤ 8) (hk : 128 ≤ k) (hk2 : k < 2 ^ 63) (hk' : k' < 32768) :
    (secFor (bestMode bpv (List.replicate (k + 1) v) (List.replicate (k + 1) r)) bpv (List.replicate (k' + 1) v) (List.replicate (k' + 1) r)).length ≤
      3 + bpv := by
  have hp := bestMode_le bpv (List.replicate (k + 1) v) (List.replicate (k + 1) r) .palette
  rw [palette_const] at hp
  have hs := bestMode_strict bpv (List.replicate (k + 1) v) (List.replicate (k + 1) r)
  rw [palette_const] at hs
  generalize bestMode bpv (List.replicate (k + 1) v) (List.replicate (k + 1) r) = m at *
  cases m with
  | palette => rw [palette_const]; exact Nat.le_refl _
  | rle => have := rle_const bpv (List.replicate (k + 1) v) r k; omega
  | deltaVarint =>
    have := deltaSec_ge (List.replicate (k + 1) v)
    simp only [secFor, List.length_replicate] at hp this
    omega
  | deltaRle =>
    have h1 := hs rfl
    have h2 := dRle_const bpv (List.replicate (k + 1) r) (List.replicate (k' + 1) r) v k k' hk hk2 hk'
    omega

/-! ### evenly spaced columns -/

/-- Numbers a fixed distance apart. -/
def prog (a d : BitVec 64) : Nat → List (BitVec 64)
  | 0 => []
  | n + 1 => a :: prog (a + d) d n

theorem deltas_prog (p a d : BitVec 64) (n : Nat) : deltas p (prog a d (n + 1)) = (a - p) :: List.replicate n d := by
  induction n generalizing p a with
  | zero => rfl
  | succ n ih =>
    rw [prog, deltas, ih, List.replicate_succ]
    congr 2
    rw [BitVec.add_comm, BitVec.add_sub_cancel]

theorem dRle_prog (bpv : Nat) (raws : List (BitVec 64)) (a d : BitVec 64) (n : Nat) (hn : n ≤ 32768) :
    (secFor .deltaRle bpv (prog a d n) raws).length ≤ 29 := by
  cases n with
  | zero => simp [secFor, prog, deltaRleSec, deltas, runs, dRleBytes]
  | succ n =>
    unfold secFor deltaRleSec
    simp only [deltas_prog, BitVec.sub_zero]
    have ha := (encodeVarint64_length a).2
    have hd := (encodeVarint64_length d).2
    by_cases h : a = d
    · subst h
      rw [← List.replicate_succ, runs_replicate]
      simp only [dRleBytes, List.flatMap_cons, List.flatMap_nil, List.length_cons, List.length_append, toLE_length, List.length_nil]
      have := leb_three (n + 1) (by omega)
      omega
    · cases n with
      | zero =>
        simp only [List.replicate_zero, show runs [a] = [(a, 1)] from rfl]
        simp only [dRleBytes, List.flatMap_cons, List.flatMap_nil, List.length_cons, List.length_append, toLE_length, List.length_nil, leb_one]
        omega
      | succ n =>
        rw [List.replicate_succ, runs_cons_ne _ _ _ h, ← List.replicate_succ, runs_replicate]
        simp only [dRleBytes, List.flatMap_cons, List.flatMap_nil, List.length_cons, List.length_append, toLE_length, List.length_nil, leb_one]
        have := leb_three (n + 1) (by omega)
        omega

/-- Neighbours differ. -/
def Jumps : List (BitVec 64) → Prop
  | a :: b :: l => a ≠ b ∧ Jumps (b :: l)
  | _ => True

theorem runs_jumps (l : List (BitVec 64)) (h : Jumps l) : (runs l).length = l.length := by
  induction l with
  | nil => rfl
  | cons a l ih =>
    cases l with
    | nil => rfl
    | cons b l => rw [runs_cons_ne _ _ _ h.1, List.length_cons, ih h.2]; rfl

theorem rle_jumps (bpv : Nat) (vals raws : List (BitVec 64)) (h : Jumps raws) :
    5 + raws.length ≤ (secFor .rle bpv vals raws).length := by
  unfold secFor rleSec rleBytes
  have := flatMap_length_ge (fun r : BitVec 64 × Nat => toLE bpv r.1.toNat ++ lebBytes (BitVec.ofNat 64 r.2)) 1 (runs raws) (fun a _ => by
    have := lebBytes_length_pos (BitVec.ofNat 64 a.2)
    simp only [List.length_append]; omega)
  rw [runs_jumps raws h] at this
  simp only [List.length_cons, List.length_append, toLE_length]; omega

theorem palette_two (bpv : Nat) (vals : List (BitVec 64)) (a b : BitVec 64) (l : List (BitVec 64)) (h : a ≠ b) (hl : l.length ≤ 65534) :
    3 + l.length / 8 ≤ (secFor .palette bpv vals (a :: b :: l)).length := by
  have hlen : 2 ≤ (firstOcc (a :: b :: l)).length := by
    have h1 : a ∈ firstOcc (a :: b :: l) := (mem_firstOcc _ _).2 (by simp)
    have h2 : b ∈ firstOcc (a :: b :: l) := (mem_firstOcc _ _).2 (by simp)
    generalize firstOcc (a :: b :: l) = p at *
    match p with
    | [] => simp at h1
    | [x] => simp only [List.mem_singleton] at h1 h2; exact absurd (h1.trans h2.symm) h
    | x :: y :: p => simp
  have hb' := firstOcc_bits (a :: b :: l) (by simp only [List.length_cons]; omega)
  have hbp := (bitpack_spec _ hb' (paletteIdx (a :: b :: l)) (fun i hi => palette_bits _ _ (paletteIdx_lt _ i hi))).2
  have h1 : 1 ≤ bitsForPaletteIndex (firstOcc (a :: b :: l)).length := by
    unfold bitsForPaletteIndex
    rw [if_neg (by omega)]
    generalize (firstOcc (a :: b :: l)).length = x at hlen
    have : bitLength (x - 1) ≠ 0 := by
      intro e
      unfold bitLength at e
      rw [dif_neg (by omega)] at e
      omega
    omega
  have h4 : 1 * (l.length + 2) ≤ bitsForPaletteIndex (firstOcc (a :: b :: l)).length * (paletteIdx (a :: b :: l)).length :=
    Nat.mul_le_mul h1 (by simp [paletteIdx])
  unfold secFor paletteSec
  simp only [List.length_cons, List.length_append, toLE_length, flatMap_toLE_length, hbp]
  omega

/-- From at least 300 evenly spaced, different values delta-RLE is chosen. -/
theorem prog_mode (bpv : Nat) (a d : BitVec 64) (raws : List (BitVec 64)) (n : Nat) (hr : raws.length = n) (hn : 300 ≤ n) (hn2 : n ≤ 32768) (h : Jumps raws) :
    bestMode bpv (prog a d n) raws = .deltaRle := by
  have h1 := bestMode_le bpv (prog a d n) raws .deltaRle
  have h2 := dRle_prog bpv raws a d n hn2
  have hpl : ∀ n a, (prog a d n).length = n := by
    intro n
    induction n with
    | zero => intro a; rfl
    | succ n ih => intro a; simp [prog, ih]
  generalize hm : bestMode bpv (prog a d n) raws = m at *
  cases m with
  | deltaRle => rfl
  | deltaVarint =>
    have := deltaSec_ge (prog a d n)
    rw [hpl] at this
    simp only [secFor] at h1 h2
    omega
  | rle =>
    have := rle_jumps bpv (prog a d n) raws h
    omega
  | palette =>
    match raws, hr, h with
    | [], hr, _ => simp at hr; omega
    | [x], hr, _ => simp at hr; omega
    | x :: y :: l, hr, h =>
      simp only [List.length_cons] at hr
      have := palette_two bpv (prog a d n) x y l h.1 (by omega)
      omega

end Cloudini
