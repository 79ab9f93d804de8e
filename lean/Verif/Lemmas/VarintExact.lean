import Verif.Lemmas.Varint
import Verif.Spec.Varint

/-! # Exact characterisation of the varint decoders -/

namespace Cloudini
open Props (IsGroup groupNumber)

theorem group_cons_last {b : Byte} {bs g rest : List Byte} (hb : b.toNat < 128) (h : b :: bs = g ++ rest) (hg : IsGroup g) :
    g = [b] ∧ rest = bs := by
  cases g with
  | nil => exact hg.elim
  | cons a g =>
    simp only [List.cons_append, List.cons.injEq] at h
    obtain ⟨rfl, rfl⟩ := h
    unfold IsGroup at hg
    split at hg
    · next hn => subst hn; exact ⟨rfl, rfl⟩
    · omega

theorem group_cons_more {b : Byte} {bs g rest : List Byte} (hb : 128 ≤ b.toNat) (h : b :: bs = g ++ rest) (hg : IsGroup g) :
    ∃ g', g = b :: g' ∧ bs = g' ++ rest ∧ IsGroup g' := by
  cases g with
  | nil => exact hg.elim
  | cons a g =>
    simp only [List.cons_append, List.cons.injEq] at h
    obtain ⟨rfl, rfl⟩ := h
    unfold IsGroup at hg
    split at hg
    · omega
    · exact ⟨g, rfl, rfl, hg.2⟩

theorem isGroup_cons {b : Byte} {g : List Byte} (hb : 128 ≤ b.toNat) (hg : IsGroup g) : IsGroup (b :: g) := by
  unfold IsGroup
  rw [if_neg (by rintro rfl; exact hg.elim)]
  exact ⟨hb, hg⟩

theorem isGroup_one {b : Byte} (hb : b.toNat < 128) : IsGroup [b] := by
  unfold IsGroup; rw [if_pos rfl]; exact hb

theorem isGroup_pos {g : List Byte} (hg : IsGroup g) : 1 ≤ g.length := by
  cases g with
  | nil => exact hg.elim
  | cons => simp

/-- Adding the next 7 bits (bits beyond 64 are dropped). -/
theorem or_shift_toNat (u : BitVec 64) (b : Byte) (s : Nat) (hs : s < 64) (hu : u.toNat < 2 ^ s) :
    (u ||| (((b &&& 0x7f#8).setWidth 64) <<< s)).toNat = (u.toNat + 2 ^ s * (b.toNat % 128)) % 2 ^ 64 := by
  rw [BitVec.toNat_or, BitVec.toNat_shiftLeft, BitVec.toNat_setWidth, and7f_toNat8, Nat.shiftLeft_eq]
  have h1 : b.toNat % 128 % 2 ^ 64 = b.toNat % 128 := Nat.mod_eq_of_lt (by omega)
  rw [h1]
  obtain ⟨t, ht⟩ : ∃ t, 64 = s + t := ⟨64 - s, by omega⟩
  have hp : 2 ^ 64 = 2 ^ s * 2 ^ t := by rw [← Nat.pow_add, ← ht]
  have e1 : b.toNat % 128 * 2 ^ s % 2 ^ 64 = 2 ^ s * (b.toNat % 128 % 2 ^ t) := by
    rw [hp, Nat.mul_comm, Nat.mul_mod_mul_left]
  have e2 : (u.toNat + 2 ^ s * (b.toNat % 128)) % 2 ^ 64 = u.toNat + 2 ^ s * (b.toNat % 128 % 2 ^ t) := by
    rw [hp, Nat.mod_mul, Nat.add_mul_mod_self_left, Nat.mod_eq_of_lt hu, Nat.add_mul_div_left _ _ (Nat.two_pow_pos s),
      Nat.div_eq_of_lt hu, Nat.zero_add]
  rw [e1, e2, Nat.or_comm, ← Nat.two_pow_add_eq_or_of_lt hu, Nat.add_comm]

theorem decodeVarintLoop_iff (bytes : List Byte) : ∀ (k : Nat) (u : BitVec 64) (c : Nat) (w : BitVec 64) (c' : Nat), k ≤ 9 →
    u.toNat < 2 ^ (7 * k) →
    (decodeVarintLoop bytes (7 * k) u c = .ok (w, c') ↔
      ∃ g rest, bytes = g ++ rest ∧ IsGroup g ∧ g.length + k ≤ 10 ∧ w.toNat = u.toNat + 2 ^ (7 * k) * groupNumber g ∧
        c' = c + g.length) := by
  induction bytes with
  | nil =>
    intro k u c w c' hk hu
    simp only [decodeVarintLoop]
    constructor
    · intro h; simp at h
    · rintro ⟨g, rest, h, hg, _⟩
      have : g = [] := by
        have := congrArg List.length h
        simp at this
        exact List.eq_nil_of_length_eq_zero (by omega)
      subst this; exact hg.elim
  | cons b bs ih =>
    intro k u c w c' hk hu
    have hor := or_shift_toNat u b (7 * k) (by omega) hu
    simp only [decodeVarintLoop]
    have hp : (b &&& 0x7f#8).toNat = b.toNat % 128 := and7f_toNat8 b
    rw [hp]
    by_cases h1 : 7 * k ≥ 64 ∨ 7 * k = 63 ∧ b.toNat % 128 > 1
    · rw [if_pos h1]
      constructor
      · intro h; simp at h
      · rintro ⟨g, rest, h, hg, hl, hw, _⟩
        have hk9 : k = 9 := by omega
        have h63 : b.toNat % 128 > 1 := by omega
        have hgl := isGroup_pos hg
        cases g with
        | nil => exact hg.elim
        | cons a g =>
          simp only [List.cons_append, List.cons.injEq] at h
          obtain ⟨rfl, _⟩ := h
          have : 2 ^ (7 * k) * groupNumber (b :: g) ≥ 2 ^ 63 * 2 := by
            subst hk9
            apply Nat.mul_le_mul (Nat.le_refl _)
            simp only [groupNumber]; omega
          have := w.isLt
          omega
    · rw [if_neg h1]
      have hlt : u.toNat + 2 ^ (7 * k) * (b.toNat % 128) < 2 ^ 64 := by
        by_cases h9 : k = 9
        · subst h9; omega
        · have h2 : 2 ^ (7 * k) ≤ 2 ^ 56 := Nat.pow_le_pow_right (by decide) (by omega)
          have h3 : 2 ^ (7 * k) * (b.toNat % 128) ≤ 2 ^ 56 * 127 := Nat.mul_le_mul h2 (by omega)
          omega
      rw [Nat.mod_eq_of_lt hlt] at hor
      by_cases h2 : b &&& 0x80#8 = 0#8
      · rw [if_pos h2]
        have hb := (lastByte_iff b).1 h2
        simp only [Res.ok.injEq, Prod.mk.injEq]
        constructor
        · rintro ⟨rfl, rfl⟩
          exact ⟨[b], bs, rfl, isGroup_one hb, by simp; omega, by simpa [groupNumber] using hor, rfl⟩
        · rintro ⟨g, rest, h, hg, hl, hw, rfl⟩
          obtain ⟨rfl, rfl⟩ := group_cons_last hb h hg
          refine ⟨BitVec.eq_of_toNat_eq ?_, rfl⟩
          rw [hor, hw]; simp [groupNumber]
      · rw [if_neg h2]
        have hb : 128 ≤ b.toNat := by rw [lastByte_iff] at h2; omega
        by_cases h3 : 7 * k ≥ 63
        · rw [if_pos h3]
          constructor
          · intro h; simp at h
          · rintro ⟨g, rest, h, hg, hl, hw, _⟩
            obtain ⟨g', rfl, _, hg'⟩ := group_cons_more hb h hg
            have := isGroup_pos hg'
            simp only [List.length_cons] at hl
            omega
        · rw [if_neg h3]
          have e7 : 7 * k + 7 = 7 * (k + 1) := by omega
          rw [e7, ih (k + 1) _ _ _ _ (by omega) (by
            rw [hor, ← e7, Nat.pow_add]
            have : 2 ^ (7 * k) * (b.toNat % 128) ≤ 2 ^ (7 * k) * 127 := Nat.mul_le_mul (Nat.le_refl _) (by omega)
            omega)]
          have hmul : ∀ g : List Byte, u.toNat + 2 ^ (7 * k) * groupNumber (b :: g) =
              (u.toNat + 2 ^ (7 * k) * (b.toNat % 128)) + 2 ^ (7 * (k + 1)) * groupNumber g := by
            intro g
            rw [← e7, Nat.pow_add, groupNumber, Nat.mul_add, ← Nat.mul_assoc, ← Nat.add_assoc]
          constructor
          · rintro ⟨g, rest, rfl, hg, hl, hw, rfl⟩
            refine ⟨b :: g, rest, rfl, isGroup_cons hb hg, by simp; omega, ?_, by simp; omega⟩
            rw [hw, hor, hmul]
          · rintro ⟨g, rest, h, hg, hl, hw, rfl⟩
            obtain ⟨g', rfl, rfl, hg'⟩ := group_cons_more hb h hg
            simp only [List.length_cons] at hl ⊢
            exact ⟨g', rest, rfl, hg', by omega, by rw [hw, hor, hmul], by omega⟩

theorem readUVarintLoop_iff (bytes : List Byte) : ∀ (k : Nat) (u : BitVec 64) (w : BitVec 64) (rest : List Byte), k ≤ 9 →
    u.toNat < 2 ^ (7 * k) →
    (readUVarintLoop bytes (7 * k) u = .ok (w, rest) ↔
      ∃ g, bytes = g ++ rest ∧ IsGroup g ∧ g.length + k ≤ 10 ∧ w.toNat = (u.toNat + 2 ^ (7 * k) * groupNumber g) % 2 ^ 64) := by
  induction bytes with
  | nil =>
    intro k u w rest hk hu
    simp only [readUVarintLoop]
    constructor
    · intro h; simp at h
    · rintro ⟨g, h, hg, _⟩
      have : g = [] := by
        have := congrArg List.length h
        simp at this
        exact List.eq_nil_of_length_eq_zero (by omega)
      subst this; exact hg.elim
  | cons b bs ih =>
    intro k u w rest hk hu
    have hor := or_shift_toNat u b (7 * k) (by omega) hu
    simp only [readUVarintLoop]
    rw [if_neg (show ¬ 7 * k ≥ 64 by omega)]
    by_cases h2 : b &&& 0x80#8 = 0#8
    · rw [if_pos h2]
      have hb := (lastByte_iff b).1 h2
      simp only [Res.ok.injEq, Prod.mk.injEq]
      constructor
      · rintro ⟨rfl, rfl⟩
        exact ⟨[b], rfl, isGroup_one hb, by simp; omega, by simpa [groupNumber] using hor⟩
      · rintro ⟨g, h, hg, hl, hw⟩
        obtain ⟨rfl, rfl⟩ := group_cons_last hb h hg
        refine ⟨BitVec.eq_of_toNat_eq ?_, rfl⟩
        rw [hor, hw]; simp [groupNumber]
    · rw [if_neg h2]
      have hb : 128 ≤ b.toNat := by rw [lastByte_iff] at h2; omega
      by_cases h3 : 7 * k + 7 ≥ 64
      · rw [if_pos h3]
        constructor
        · intro h; simp at h
        · rintro ⟨g, h, hg, hl, hw⟩
          obtain ⟨g', rfl, _, hg'⟩ := group_cons_more hb h hg
          have := isGroup_pos hg'
          simp only [List.length_cons] at hl
          omega
      · rw [if_neg h3]
        have e7 : 7 * k + 7 = 7 * (k + 1) := by omega
        have hlt : u.toNat + 2 ^ (7 * k) * (b.toNat % 128) < 2 ^ 64 := by
          have h2 : 2 ^ (7 * k) ≤ 2 ^ 56 := Nat.pow_le_pow_right (by decide) (by omega)
          have h3 : 2 ^ (7 * k) * (b.toNat % 128) ≤ 2 ^ 56 * 127 := Nat.mul_le_mul h2 (by omega)
          omega
        rw [Nat.mod_eq_of_lt hlt] at hor
        rw [e7, ih (k + 1) _ _ _ (by omega) (by
          rw [hor, ← e7, Nat.pow_add]
          have : 2 ^ (7 * k) * (b.toNat % 128) ≤ 2 ^ (7 * k) * 127 := Nat.mul_le_mul (Nat.le_refl _) (by omega)
          omega)]
        have hmul : ∀ g : List Byte, u.toNat + 2 ^ (7 * k) * groupNumber (b :: g) =
            (u.toNat + 2 ^ (7 * k) * (b.toNat % 128)) + 2 ^ (7 * (k + 1)) * groupNumber g := by
          intro g
          rw [← e7, Nat.pow_add, groupNumber, Nat.mul_add, ← Nat.mul_assoc, ← Nat.add_assoc]
        constructor
        · rintro ⟨g, rfl, hg, hl, hw⟩
          refine ⟨b :: g, rfl, isGroup_cons hb hg, by simp; omega, ?_⟩
          rw [hw, hor, hmul]
        · rintro ⟨g, h, hg, hl, hw⟩
          obtain ⟨g', rfl, rfl, hg'⟩ := group_cons_more hb h hg
          simp only [List.length_cons] at hl ⊢
          exact ⟨g', rfl, hg', by omega, by rw [hw, hor, hmul]⟩

theorem readUVarintLoop_not_ub (bytes : List Byte) : ∀ (s : Nat) (u : BitVec 64), s < 64 → (readUVarintLoop bytes s u).isUB = false := by
  induction bytes with
  | nil => intros; rfl
  | cons b bs ih =>
    intro s u hs
    simp only [readUVarintLoop]
    rw [if_neg (by omega)]
    split
    · rfl
    · split
      · rfl
      · exact ih _ _ (by omega)

/-- Zigzag: even numbers are non-negative, odd ones negative. -/
theorem unzigzag_toInt (x : BitVec 64) : (unzigzag x).toInt = if x.toNat % 2 = 0 then (x.toNat / 2 : Int) else -((x.toNat : Int) + 1) / 2 := by
  have h1 : (x &&& 1#64).toNat = x.toNat % 2 := by
    rw [BitVec.toNat_and]; exact Nat.and_two_pow_sub_one_eq_mod x.toNat 1
  have hs : (x >>> 1).toNat = x.toNat / 2 := by rw [BitVec.toNat_ushiftRight, Nat.shiftRight_eq_div_pow]
  have hx := x.isLt
  unfold unzigzag
  by_cases h : x.toNat % 2 = 0
  · have e : x &&& 1#64 = 0#64 := BitVec.eq_of_toNat_eq (by rw [h1, h]; rfl)
    rw [e, if_pos h]
    have : x >>> 1 ^^^ -0#64 = x >>> 1 := by simp
    rw [this, BitVec.toInt_eq_toNat_cond, hs, if_pos (by omega)]
    omega
  · have e : x &&& 1#64 = 1#64 := BitVec.eq_of_toNat_eq (by rw [h1, show x.toNat % 2 = 1 by omega]; rfl)
    rw [e, if_neg h]
    have : x >>> 1 ^^^ -1#64 = ~~~ (x >>> 1) := by
      rw [BitVec.neg_one_eq_allOnes, BitVec.xor_allOnes]
    rw [this, BitVec.toInt_eq_toNat_cond, BitVec.toNat_not, hs, if_neg (by omega)]
    omega

end Cloudini
