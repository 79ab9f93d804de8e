import Verif.Model.Base

namespace Cloudini

@[simp] theorem toLE_length (n v : Nat) : (toLE n v).length = n := by
  induction n generalizing v with
  | zero => rfl
  | succ n ih => simp [toLE, ih]

theorem fromLE_toLE (n v : Nat) : fromLE (toLE n v) = v % 256 ^ n := by
  induction n generalizing v with
  | zero => simp [toLE, fromLE, Nat.mod_one]
  | succ n ih =>
    simp only [toLE, fromLE, ih, BitVec.toNat_ofNat]
    rw [show (256:Nat) ^ (n+1) = 256 * 256 ^ n from by rw [Nat.pow_succ, Nat.mul_comm], Nat.mod_mul]

theorem fromLE_lt (bs : List Byte) : fromLE bs < 256 ^ bs.length := by
  induction bs with
  | nil => simp [fromLE]
  | cons b bs ih =>
    simp only [fromLE, List.length_cons, Nat.pow_succ]
    have := b.isLt
    omega

theorem toLE_fromLE (bs : List Byte) : toLE bs.length (fromLE bs) = bs := by
  induction bs with
  | nil => rfl
  | cons b bs ih =>
    simp only [List.length_cons, toLE, fromLE]
    have hb := b.isLt
    have h1 : (b.toNat + 256 * fromLE bs) / 256 = fromLE bs := by omega
    rw [h1, ih]
    congr 1
    apply BitVec.eq_of_toNat_eq
    simp only [BitVec.toNat_ofNat]
    omega

theorem toLE_fromLE' {n : Nat} {bs : List Byte} (h : bs.length = n) : toLE n (fromLE bs) = bs := by
  subst h; exact toLE_fromLE bs

theorem toLE_mod (n v : Nat) : toLE n (v % 256 ^ n) = toLE n v := by
  rw [← fromLE_toLE, toLE_fromLE' (toLE_length n v)]

theorem toLE_congr {n v w : Nat} (h : v % 256 ^ n = w % 256 ^ n) : toLE n v = toLE n w := by
  rw [← toLE_mod n v, h, toLE_mod]

theorem fromLE_append (a b : List Byte) : fromLE (a ++ b) = fromLE a + 256 ^ a.length * fromLE b := by
  induction a with
  | nil => simp [fromLE]
  | cons x a ih =>
    simp only [List.cons_append, fromLE, ih, List.length_cons, Nat.pow_succ]
    rw [Nat.mul_add, Nat.mul_comm (256 ^ a.length) 256, Nat.mul_assoc]; omega

theorem fromLE_inj {a b : List Byte} (hl : a.length = b.length) (h : fromLE a = fromLE b) : a = b := by
  rw [← toLE_fromLE a, ← toLE_fromLE b, hl, h]

/-! ### splice / writeAt -/

theorem splice_length {buf bs : List Byte} {pos : Nat} (h : pos + bs.length ≤ buf.length) :
    (splice buf pos bs).length = buf.length := by
  simp [splice]; omega

theorem splice_getElem? (buf bs : List Byte) (pos i : Nat) (h : pos + bs.length ≤ buf.length) :
    (splice buf pos bs)[i]? = if pos ≤ i ∧ i < pos + bs.length then bs[i - pos]? else buf[i]? := by
  unfold splice
  by_cases h1 : i < pos
  · rw [if_neg (by omega), List.append_assoc, List.getElem?_append_left (by simp; omega),
      List.getElem?_take_of_lt h1]
  · rw [List.append_assoc, List.getElem?_append_right (by simp; omega)]
    have hl : (buf.take pos).length = pos := by simp; omega
    rw [hl]
    by_cases h2 : i < pos + bs.length
    · rw [if_pos (by omega), List.getElem?_append_left (by omega)]
    · rw [if_neg (by omega), List.getElem?_append_right (by omega), List.getElem?_drop]
      congr 1; omega

theorem writeAt_eq_ok {buf bs out : List Byte} {pos : Nat} :
    writeAt buf pos bs = .ok out ↔ pos + bs.length ≤ buf.length ∧ out = splice buf pos bs := by
  unfold writeAt; split <;> simp_all [eq_comm] <;> omega

theorem readAt_eq_ok {mem out : List Byte} {off n : Nat} :
    readAt mem off n = .ok out ↔ off + n ≤ mem.length ∧ out = (mem.drop off).take n := by
  unfold readAt; split <;> simp_all [eq_comm] <;> omega

/-! ### signed arithmetic -/

theorem subI64_eq_ok {a b d : BitVec 64} :
    subI64 a b = .ok d ↔ BitVec.ssubOverflow a b = false ∧ d = a - b := by
  unfold subI64
  by_cases h : BitVec.ssubOverflow a b = true
  · rw [if_pos h]; simp [h]
  · rw [if_neg h]; rw [Bool.not_eq_true] at h; rw [h]; constructor
    · intro e; injection e with e; exact ⟨rfl, e.symm⟩
    · rintro ⟨_, rfl⟩; rfl

/-- adding back a non-overflowing difference does not overflow. -/
theorem addI64_sub {a b d : BitVec 64} (h : subI64 a b = .ok d) : addI64 b d = .ok a := by
  rw [subI64_eq_ok] at h
  obtain ⟨h1, rfl⟩ := h
  have e : b + (a - b) = a := by rw [BitVec.add_comm, BitVec.sub_add_cancel]
  unfold addI64
  rw [e, if_neg]
  simp only [BitVec.saddOverflow, BitVec.ssubOverflow, Bool.or_eq_true, Bool.or_eq_false_iff,
    decide_eq_true_eq, decide_eq_false_iff_not] at h1 ⊢
  have h2 : (a - b).toInt = a.toInt - b.toInt := by
    rw [BitVec.toInt_sub]
    apply Int.bmod_eq_of_le <;> omega
  rw [h2]
  have := a.toInt_lt; have := a.le_toInt
  omega

theorem subI64_not_ub_of_range {a b : BitVec 64}
    (ha : -2 ^ 62 ≤ a.toInt ∧ a.toInt ≤ 2 ^ 62) (hb : -2 ^ 62 < b.toInt ∧ b.toInt < 2 ^ 62) :
    subI64 a b = .ok (a - b) := by
  unfold subI64
  rw [if_neg]
  simp only [BitVec.ssubOverflow, Bool.or_eq_true, decide_eq_true_eq]
  omega

end Cloudini
