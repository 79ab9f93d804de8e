import Verif.Model.Varint
import Verif.Lemmas.Base

namespace Cloudini

theorem and7f_toNat (v : BitVec 64) : (v &&& 0x7F#64).toNat = v.toNat % 128 := by
  rw [BitVec.toNat_and]
  exact Nat.and_two_pow_sub_one_eq_mod v.toNat 7

theorem and7f_toNat8 (v : BitVec 8) : (v &&& 0x7F#8).toNat = v.toNat % 128 := by
  rw [BitVec.toNat_and]
  exact Nat.and_two_pow_sub_one_eq_mod v.toNat 7

theorem contByte_toNat (v : BitVec 64) :
    (((v &&& 0x7F#64) ||| 0x80#64).setWidth 8).toNat = v.toNat % 128 + 128 := by
  rw [BitVec.toNat_setWidth, BitVec.toNat_or, and7f_toNat]
  have h : v.toNat % 128 < 2 ^ 7 := Nat.mod_lt _ (by decide)
  have e := Nat.two_pow_add_eq_or_of_lt h 1
  have e2 : v.toNat % 128 ||| (0x80#64).toNat = v.toNat % 128 + 128 := by
    rw [Nat.or_comm]
    have : (0x80#64).toNat = 2 ^ 7 * 1 := by decide
    rw [this, ← e]; omega
  rw [e2]
  omega

/-- a byte tests as "last" iff its value is below 128. -/
theorem lastByte_iff (b : Byte) : (b &&& 0x80#8 = 0#8) ↔ b.toNat < 128 := by
  revert b; decide +kernel

theorem contByte_not_last (v : BitVec 64) :
    ¬ ((((v &&& 0x7F#64) ||| 0x80#64).setWidth 8 : Byte) &&& 0x80#8 = 0#8) := by
  rw [lastByte_iff, contByte_toNat]; omega

theorem contByte_payload (v : BitVec 64) :
    ((((v &&& 0x7F#64) ||| 0x80#64).setWidth 8 : Byte) &&& 0x7f#8).setWidth 64 = v &&& 0x7F#64 := by
  apply BitVec.eq_of_toNat_eq
  rw [BitVec.toNat_setWidth, and7f_toNat8, contByte_toNat, and7f_toNat]
  omega

theorem lastByte_payload (v : BitVec 64) (h : v.toNat ≤ 0x7F) :
    ((v.setWidth 8 : Byte) &&& 0x7f#8).setWidth 64 = v := by
  apply BitVec.eq_of_toNat_eq
  rw [BitVec.toNat_setWidth, and7f_toNat8, BitVec.toNat_setWidth]
  omega

theorem lastByte_last (v : BitVec 64) (h : v.toNat ≤ 0x7F) : ((v.setWidth 8 : Byte) &&& 0x80#8 = 0#8) := by
  rw [lastByte_iff, BitVec.toNat_setWidth]; omega

theorem shift_split (v : BitVec 64) (s : Nat) :
    ((v &&& 0x7F#64) <<< s) ||| ((v >>> 7) <<< (s + 7)) = v <<< s := by
  apply BitVec.eq_of_getLsbD_eq
  intro i hi
  simp only [BitVec.getLsbD_or, BitVec.getLsbD_shiftLeft, BitVec.getLsbD_and, BitVec.getLsbD_ushiftRight]
  have h7 : ∀ j : Nat, (0x7F#64).getLsbD j = decide (j < 7) := by
    intro j
    by_cases hj : j < 64
    · have : ∀ j : Fin 64, (0x7F#64).getLsbD j.val = decide (j.val < 7) := by decide +kernel
      exact this ⟨j, hj⟩
    · rw [BitVec.getLsbD_of_ge _ _ (by omega)]; symm; simp; omega
  rw [h7]
  by_cases h1 : i < s
  · simp [h1]; omega
  · by_cases h2 : i - s < 7
    · have : i < s + 7 := by omega
      simp [h1, h2, this]
    · have : ¬ i < s + 7 := by omega
      have e : 7 + (i - (s + 7)) = i - s := by omega
      simp [h1, h2, this, hi, e]

theorem ushr7_toNat (v : BitVec 64) : (v >>> 7).toNat = v.toNat / 128 := by
  rw [BitVec.toNat_ushiftRight, Nat.shiftRight_eq_div_pow]

/-- The general loop reads back `lebBytes`, whatever follows. -/
theorem decodeVarintLoop_leb (v u : BitVec 64) (s c : Nat) (rest : List Byte)
    (hs : s < 64) (hv : v.toNat * 2 ^ s < 2 ^ 64) :
    decodeVarintLoop (lebBytes v ++ rest) s u c = .ok (u ||| (v <<< s), c + (lebBytes v).length) := by
  induction v using lebBytes.induct generalizing u s c with
  | case1 v h ih =>
    rw [lebBytes, dif_pos h]
    simp only [List.cons_append, decodeVarintLoop]
    have hs57 : s < 57 := by
      apply Decidable.byContradiction
      intro hc
      have : 2 ^ 57 ≤ 2 ^ s := Nat.pow_le_pow_right (by decide) (by omega)
      have : 128 * 2 ^ 57 ≤ v.toNat * 2 ^ s := Nat.mul_le_mul (by omega) this
      omega
    rw [if_neg (by omega), if_neg (contByte_not_last v), if_neg (by omega), contByte_payload]
    rw [ih _ _ _ (by omega)]
    · rw [BitVec.or_assoc, shift_split]
      simp only [List.length_cons]
      congr 2; omega
    · rw [ushr7_toNat, Nat.pow_add]
      calc v.toNat / 128 * (2 ^ s * 2 ^ 7) = (v.toNat / 128 * 128) * 2 ^ s := by
            rw [Nat.mul_comm (2 ^ s), ← Nat.mul_assoc]
        _ ≤ v.toNat * 2 ^ s := Nat.mul_le_mul_right _ (Nat.div_mul_le_self _ _)
        _ < 2 ^ 64 := hv
  | case2 v h =>
    rw [lebBytes, dif_neg h]
    simp only [List.cons_append, List.nil_append, decodeVarintLoop]
    have h' : v.toNat ≤ 0x7F := by omega
    rw [if_neg, if_pos (lastByte_last v h'), lastByte_payload v h']
    · simp
    · rintro (h1 | ⟨rfl, h2⟩)
      · omega
      · rw [and7f_toNat8, BitVec.toNat_setWidth] at h2
        omega

/-- The fast paths of `decodeVarint` agree with its general loop on every non-empty buffer. -/
theorem decodeVarintRaw_eq_loop (b : Byte) (bs : List Byte) :
    decodeVarintRaw (b :: bs) = decodeVarintLoop (b :: bs) 0 0#64 0 := by
  have key : ∀ x : Byte, x &&& 0x80#8 = 0#8 → x &&& 0x7f#8 = x := by decide +kernel
  by_cases h : b &&& 0x80#8 = 0#8
  · simp [decodeVarintRaw, decodeVarintLoop, h, key b h]
  · cases bs with
    | nil => simp only [decodeVarintRaw]; rw [if_neg h]
    | cons b1 bs =>
      by_cases h1 : b1 &&& 0x80#8 = 0#8
      · simp [decodeVarintRaw, decodeVarintLoop, h, h1, key b1 h1]
      · simp only [decodeVarintRaw]; rw [if_neg h, if_neg h1]

theorem lebBytes_ne_nil (v : BitVec 64) : lebBytes v ≠ [] := by
  rw [lebBytes]; split <;> simp

theorem decodeVarintRaw_leb (v : BitVec 64) (rest : List Byte) :
    decodeVarintRaw (lebBytes v ++ rest) = .ok (v, (lebBytes v).length) := by
  have hne : lebBytes v ++ rest ≠ [] := by simp [lebBytes_ne_nil]
  obtain ⟨b, bs, e⟩ := List.exists_cons_of_ne_nil hne
  have := decodeVarintLoop_leb v 0#64 0 0 rest (by decide) (by have := v.isLt; omega)
  rw [e, decodeVarintRaw_eq_loop, ← e, this]
  simp

theorem readUVarintLoop_leb (v u : BitVec 64) (s : Nat) (rest : List Byte) (hs : s < 64)
    (hv : v.toNat * 2 ^ s < 2 ^ 64) :
    readUVarintLoop (lebBytes v ++ rest) s u = .ok (u ||| (v <<< s), rest) := by
  induction v using lebBytes.induct generalizing u s with
  | case1 v h ih =>
    rw [lebBytes, dif_pos h]
    simp only [List.cons_append, readUVarintLoop]
    have hs57 : s < 57 := by
      apply Decidable.byContradiction
      intro hc
      have : 2 ^ 57 ≤ 2 ^ s := Nat.pow_le_pow_right (by decide) (by omega)
      have : 128 * 2 ^ 57 ≤ v.toNat * 2 ^ s := Nat.mul_le_mul (by omega) this
      omega
    rw [if_neg (show ¬ s ≥ 64 by omega), if_neg (contByte_not_last v), if_neg (by omega), contByte_payload]
    rw [ih _ _ (by omega)]
    · rw [BitVec.or_assoc, shift_split]
    · rw [ushr7_toNat, Nat.pow_add]
      calc v.toNat / 128 * (2 ^ s * 2 ^ 7) = (v.toNat / 128 * 128) * 2 ^ s := by
            rw [Nat.mul_comm (2 ^ s), ← Nat.mul_assoc]
        _ ≤ v.toNat * 2 ^ s := Nat.mul_le_mul_right _ (Nat.div_mul_le_self _ _)
        _ < 2 ^ 64 := hv
  | case2 v h =>
    rw [lebBytes, dif_neg h]
    simp only [List.cons_append, List.nil_append, readUVarintLoop]
    have h' : v.toNat ≤ 0x7F := by omega
    rw [if_neg (show ¬ s ≥ 64 by omega), if_pos (lastByte_last v h'), lastByte_payload v h']

theorem readUVarint_leb (v : BitVec 64) (rest : List Byte) :
    readUVarint (lebBytes v ++ rest) = .ok (v, rest) := by
  unfold readUVarint
  rw [readUVarintLoop_leb v _ _ _ (by decide) (by have := v.isLt; omega)]
  simp

/-! ### sizes -/

theorem lebBytes_length_le (v : BitVec 64) (k : Nat) (h : v.toNat < 2 ^ (7 * (k + 1))) :
    (lebBytes v).length ≤ k + 1 := by
  induction k generalizing v with
  | zero => rw [lebBytes, dif_neg (by omega)]; simp
  | succ k ih =>
    rw [lebBytes]; split
    · simp only [List.length_cons]
      have := ih (v >>> 7) (by
        rw [ushr7_toNat]
        have e : 2 ^ (7 * (k + 1 + 1)) = 2 ^ (7 * (k + 1)) * 128 := by
          rw [show 7 * (k + 1 + 1) = 7 * (k + 1) + 7 from by omega, Nat.pow_add]
        rw [e] at h
        exact Nat.div_lt_of_lt_mul (by omega))
      omega
    · simp

theorem lebBytes_length_le_ten (v : BitVec 64) : (lebBytes v).length ≤ 10 :=
  lebBytes_length_le v 9 (by have := v.isLt; omega)

theorem lebBytes_length_pos (v : BitVec 64) : 1 ≤ (lebBytes v).length := by
  have := lebBytes_ne_nil v
  cases h : lebBytes v <;> simp_all

theorem encodedUVarintSize_eq (v : BitVec 64) : encodedUVarintSize v = (lebBytes v).length := by
  induction v using lebBytes.induct with
  | case1 v h ih => rw [encodedUVarintSize, lebBytes, dif_pos h, dif_pos h, ih]; simp; omega
  | case2 v h => rw [encodedUVarintSize, lebBytes, dif_neg h, dif_neg h]; simp

/-- The first byte is 0 only for the value 0. -/
theorem lebBytes_head (v : BitVec 64) : (lebBytes v).head? = some 0#8 ↔ v = 0#64 := by
  rw [lebBytes]
  split
  · next h =>
    simp only [List.head?_cons, Option.some.injEq]
    constructor
    · intro e
      have := contByte_toNat v
      rw [e] at this; simp at this
    · rintro rfl; simp at h
  · next h =>
    simp only [List.head?_cons, Option.some.injEq]
    constructor
    · intro e
      apply BitVec.eq_of_toNat_eq
      have : (v.setWidth 8).toNat = 0 := by rw [e]; rfl
      rw [BitVec.toNat_setWidth] at this
      simp; omega
    · rintro rfl; rfl

/-! ### zigzag -/

theorem sshiftRight63 (v : BitVec 64) :
    v.sshiftRight 63 = if v.msb then BitVec.allOnes 64 else 0#64 := by
  apply BitVec.eq_of_getLsbD_eq
  intro i hi
  have hr : (if v.msb then BitVec.allOnes 64 else 0#64).getLsbD i = v.msb := by
    cases v.msb
    · simp only [Bool.false_eq_true, if_false, BitVec.getLsbD_zero]
    · simp only [if_true, BitVec.getLsbD_allOnes]; exact decide_eq_true hi
  rw [hr, BitVec.getLsbD_sshiftRight]
  have h64 : (decide (64 ≤ i)) = false := decide_eq_false (by omega)
  rw [h64]
  by_cases h0 : i = 0
  · subst h0
    have : v.getLsbD 63 = v.msb := by rw [BitVec.msb_eq_getLsbD_last]
    rw [if_pos (by omega), this]; rfl
  · rw [if_neg (by omega)]; rfl

theorem unzigzag_zigzag (v : BitVec 64) : unzigzag (zigzagPlus1 v - 1#64) = v := by
  unfold unzigzag zigzagPlus1
  rw [BitVec.add_sub_cancel, sshiftRight63]
  cases hm : v.msb
  · have e1 : (v <<< 1 ^^^ 0#64) = v <<< 1 := by simp
    simp only [Bool.false_eq_true, if_false, e1]
    have e2 : (v <<< 1) &&& 1#64 = 0#64 := by
      apply BitVec.eq_of_getLsbD_eq
      intro i hi
      simp [BitVec.getLsbD_and, BitVec.getLsbD_shiftLeft, BitVec.getLsbD_one]
      omega
    rw [e2]
    apply BitVec.eq_of_getLsbD_eq
    intro i hi
    simp only [BitVec.neg_zero, BitVec.xor_zero, BitVec.getLsbD_ushiftRight, BitVec.getLsbD_shiftLeft]
    by_cases h : i < 63
    · have : 1 + i < 64 := by omega
      simp [this]
    · have : i = 63 := by omega
      subst this
      rw [BitVec.msb_eq_getLsbD_last] at hm
      simp at hm ⊢; exact hm
  · simp only [if_true]
    have e1 : (v <<< 1 ^^^ BitVec.allOnes 64) = ~~~ (v <<< 1) := BitVec.xor_allOnes
    rw [e1]
    have e2 : ~~~(v <<< 1) &&& 1#64 = 1#64 := by
      apply BitVec.eq_of_getLsbD_eq
      intro i hi
      simp [BitVec.getLsbD_and, BitVec.getLsbD_shiftLeft, BitVec.getLsbD_one]
      omega
    rw [e2]
    have e3 : (-1#64) = BitVec.allOnes 64 := by decide
    rw [e3]
    apply BitVec.eq_of_getLsbD_eq
    intro i hi
    simp only [BitVec.getLsbD_xor, BitVec.getLsbD_ushiftRight, BitVec.getLsbD_not, BitVec.getLsbD_shiftLeft,
      BitVec.getLsbD_allOnes]
    by_cases h : i < 63
    · have : 1 + i < 64 := by omega
      simp [this, hi]
    · have : i = 63 := by omega
      subst this
      rw [BitVec.msb_eq_getLsbD_last] at hm
      simp at hm ⊢; exact hm

theorem zigzagPlus1_inj {a b : BitVec 64} (h : zigzagPlus1 a = zigzagPlus1 b) : a = b := by
  rw [← unzigzag_zigzag a, h, unzigzag_zigzag]

theorem zigzagPlus1_intMin : zigzagPlus1 (BitVec.intMin 64) = 0#64 := by decide +kernel

theorem zigzagPlus1_eq_zero {v : BitVec 64} : zigzagPlus1 v = 0#64 ↔ v = BitVec.intMin 64 := by
  constructor
  · intro h; rw [← zigzagPlus1_intMin] at h; exact zigzagPlus1_inj h
  · rintro rfl; exact zigzagPlus1_intMin

/-! ### the codec functions -/

theorem decodeVarint_encode (v : BitVec 64) (rest : List Byte) (h : v ≠ BitVec.intMin 64) :
    decodeVarint (encodeVarint64 v ++ rest) = .ok (v, (encodeVarint64 v).length) := by
  unfold decodeVarint encodeVarint64
  rw [decodeVarintRaw_leb]
  simp only [Res.ok_bind]
  rw [if_neg (by rw [zigzagPlus1_eq_zero]; exact h), unzigzag_zigzag]

theorem encodeVarint64_length (v : BitVec 64) :
    1 ≤ (encodeVarint64 v).length ∧ (encodeVarint64 v).length ≤ 10 :=
  ⟨lebBytes_length_pos _, lebBytes_length_le_ten _⟩

theorem encodeVarint64_head (v : BitVec 64) :
    (encodeVarint64 v).head? = some 0#8 ↔ v = BitVec.intMin 64 := by
  unfold encodeVarint64
  rw [lebBytes_head, zigzagPlus1_eq_zero]

/-! ### arbitrary input -/

theorem decodeVarintLoop_bound (bytes : List Byte) (s : Nat) (u : BitVec 64) (c : Nat) (r : BitVec 64) (n : Nat)
    (h : decodeVarintLoop bytes s u c = .ok (r, n)) :
    c < n ∧ n ≤ c + bytes.length ∧ 7 * (n - c) + s ≤ 70 := by
  induction bytes generalizing s u c with
  | nil => simp [decodeVarintLoop] at h
  | cons b bs ih =>
    simp only [decodeVarintLoop] at h
    split at h
    · simp at h
    · split at h
      · simp only [Res.ok.injEq, Prod.mk.injEq] at h
        obtain ⟨_, rfl⟩ := h
        simp; omega
      · split at h
        · simp at h
        · have := ih _ _ _ h
          simp only [List.length_cons]
          omega

theorem decodeVarintLoop_append (bytes : List Byte) (s : Nat) (u : BitVec 64) (c : Nat) (r : BitVec 64) (n : Nat)
    (rest : List Byte) (h : decodeVarintLoop bytes s u c = .ok (r, n)) :
    decodeVarintLoop (bytes.take (n - c) ++ rest) s u c = .ok (r, n) := by
  induction bytes generalizing s u c with
  | nil => simp [decodeVarintLoop] at h
  | cons b bs ih =>
    have hb := decodeVarintLoop_bound _ _ _ _ _ _ h
    have e : n - c = (n - (c + 1)) + 1 := by omega
    simp only [decodeVarintLoop] at h
    rw [e, List.take_succ_cons, List.cons_append, decodeVarintLoop]
    split at h
    · simp at h
    · split at h
      · next h1 h2 => simp only [h1, h2, if_true, if_false]; exact h
      · split at h
        · simp at h
        · next h1 h2 h3 => simp only [h1, h2, h3, if_false]; exact ih _ _ _ h

theorem decodeVarintLoop_not_ub (bytes : List Byte) (s : Nat) (u : BitVec 64) (c : Nat) :
    (decodeVarintLoop bytes s u c).isUB = false := by
  induction bytes generalizing s u c with
  | nil => rfl
  | cons b bs ih =>
    simp only [decodeVarintLoop]
    split
    · rfl
    · split
      · rfl
      · split
        · rfl
        · exact ih _ _ _

theorem decodeVarint_not_ub (bytes : List Byte) : (decodeVarint bytes).isUB = false := by
  cases bytes with
  | nil => rfl
  | cons b bs =>
    unfold decodeVarint
    rw [decodeVarintRaw_eq_loop]
    have := decodeVarintLoop_not_ub (b :: bs) 0 0#64 0
    cases h : decodeVarintLoop (b :: bs) 0 0#64 0 with
    | ok a => simp only [Res.ok_bind]; split <;> rfl
    | throw m => rfl
    | ub k => rw [h] at this; simp at this

theorem decodeVarint_ok {bytes : List Byte} {r : BitVec 64} {n : Nat} (h : decodeVarint bytes = .ok (r, n)) :
    1 ≤ n ∧ n ≤ bytes.length ∧ n ≤ 10 ∧ ∀ rest, decodeVarint (bytes.take n ++ rest) = .ok (r, n) := by
  cases bytes with
  | nil => simp [decodeVarint, decodeVarintRaw] at h
  | cons b bs =>
    unfold decodeVarint at h
    rw [decodeVarintRaw_eq_loop] at h
    rw [Res.bind_eq_ok] at h
    obtain ⟨⟨u, m⟩, h1, h2⟩ := h
    simp only at h2
    split at h2
    · simp at h2
    · next hu =>
      simp only [Res.ok.injEq, Prod.mk.injEq] at h2
      obtain ⟨h2, rfl⟩ := h2
      have hb := decodeVarintLoop_bound _ _ _ _ _ _ h1
      refine ⟨by omega, by omega, by omega, ?_⟩
      intro rest
      have ha := decodeVarintLoop_append _ _ _ _ _ _ rest h1
      have em : m - 0 = (m - 1) + 1 := by omega
      rw [em, List.take_succ_cons, List.cons_append] at ha
      have em' : m = (m - 1) + 1 := by omega
      rw [em', List.take_succ_cons, List.cons_append]
      unfold decodeVarint
      rw [decodeVarintRaw_eq_loop, ha]
      simp only [Res.ok_bind]
      rw [if_neg hu, h2, ← em']

theorem decodeVarintLoop_prefix (v u : BitVec 64) (s c k : Nat) (hk : k < (lebBytes v).length) :
    (decodeVarintLoop ((lebBytes v).take k) s u c).isThrow = true := by
  induction v using lebBytes.induct generalizing u s c k with
  | case1 v h ih =>
    rw [lebBytes, dif_pos h] at hk ⊢
    cases k with
    | zero => rfl
    | succ k =>
      rw [List.take_succ_cons]
      simp only [decodeVarintLoop]
      split
      · rfl
      · rw [if_neg (contByte_not_last v)]
        split
        · rfl
        · apply ih; simpa using hk
  | case2 v h =>
    rw [lebBytes, dif_neg h] at hk ⊢
    have : k = 0 := by simp at hk; omega
    subst this; rfl

theorem decodeVarint_prefix (v : BitVec 64) (k : Nat) (hk : k < (encodeVarint64 v).length) :
    (decodeVarint ((encodeVarint64 v).take k)).isThrow = true := by
  unfold decodeVarint
  have := decodeVarintLoop_prefix (zigzagPlus1 v) 0#64 0 0 k hk
  cases hl : (encodeVarint64 v).take k with
  | nil => rfl
  | cons b bs =>
    rw [decodeVarintRaw_eq_loop]
    unfold encodeVarint64 at hl
    rw [hl] at this
    cases h : decodeVarintLoop (b :: bs) 0 0#64 0 with
    | ok a => rw [h] at this; simp at this
    | throw m => rfl
    | ub k => rw [h] at this; simp at this

/-- The unsigned value behind a signed varint: 2v+1 for v ≥ 0 and -2v for v < 0 (0 for INT64_MIN). -/
theorem zigzagPlus1_toNat (v : BitVec 64) :
    ((zigzagPlus1 v).toNat : Int) = if v.toInt = -2 ^ 63 then 0 else if 0 ≤ v.toInt then 2 * v.toInt + 1 else -2 * v.toInt := by
  have hi := v.toInt_eq_toNat_cond
  have hl := v.isLt
  unfold zigzagPlus1
  rw [sshiftRight63, BitVec.toNat_add]
  cases hm : v.msb
  · have hlt : v.toNat < 2 ^ 63 := by rw [BitVec.msb_eq_decide] at hm; simpa using hm
    simp only [Bool.false_eq_true, if_false, BitVec.xor_zero, BitVec.toNat_shiftLeft, Nat.shiftLeft_eq,
      BitVec.toNat_ofNat]
    rw [if_pos (by omega)] at hi
    rw [if_neg (by omega), if_pos (by omega)]
    omega
  · have hlt : 2 ^ 63 ≤ v.toNat := by rw [BitVec.msb_eq_decide] at hm; simpa using hm
    simp only [if_true, BitVec.xor_allOnes, BitVec.toNat_not, BitVec.toNat_shiftLeft, Nat.shiftLeft_eq,
      BitVec.toNat_ofNat]
    rw [if_neg (by omega)] at hi
    by_cases h1 : v.toInt = -2 ^ 63
    · rw [if_pos h1]; omega
    · rw [if_neg h1, if_neg (by omega)]; omega

end Cloudini
