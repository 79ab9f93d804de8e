import Verif.Spec.Varint
import Verif.Lemmas.VarintExact

/-!
# C03, exactly: which buffers the two varint readers accept, and what they return

`Verif.Spec.Varint` says what a varint is (`IsGroup`) and which number it denotes (`groupNumber`), without mentioning the
readers.
-/

namespace Cloudini.Props

/-- **C03, signed varints.** `decodeVarint` succeeds exactly when the buffer starts with a varint of at most ten bytes whose
number `u` is not the NaN marker 0 and fits 64 bits; the value returned is `(u-1)/2` for odd `u` and `-u/2` for even `u`, and the
count is the varint's length. -/
theorem C03_decode_exact (bytes : List Byte) (v : BitVec 64) (n : Nat) :
    decodeVarint bytes = .ok (v, n) ↔
      ∃ g rest, bytes = g ++ rest ∧ IsGroup g ∧ g.length ≤ 10 ∧ n = g.length ∧ 1 ≤ groupNumber g ∧ groupNumber g < 2 ^ 64 ∧
        v.toInt = if groupNumber g % 2 = 1 then ((groupNumber g : Int) - 1) / 2 else -((groupNumber g : Int) / 2) := by
  have key : ∀ w c, decodeVarintRaw bytes = .ok (w, c) ↔
      ∃ g rest, bytes = g ++ rest ∧ IsGroup g ∧ g.length ≤ 10 ∧ w.toNat = groupNumber g ∧ c = g.length := by
    intro w c
    cases bytes with
    | nil =>
      constructor
      · intro h; cases h
      · rintro ⟨g, rest, h, hg, _⟩
        cases g with
        | nil => exact hg.elim
        | cons => cases h
    | cons b bs =>
      rw [decodeVarintRaw_eq_loop]
      have := decodeVarintLoop_iff (b :: bs) 0 0#64 0 w c (by omega) (by decide)
      simpa using this
  have hz : ∀ w : BitVec 64, w ≠ 0#64 → (unzigzag (w - 1#64)).toInt =
      if w.toNat % 2 = 1 then ((w.toNat : Int) - 1) / 2 else -((w.toNat : Int) / 2) := by
    intro w hw
    have h0 : w.toNat ≠ 0 := fun h => hw (BitVec.eq_of_toNat_eq (by rw [h]; rfl))
    have h1 : (w - 1#64).toNat = w.toNat - 1 := by
      have := w.isLt
      rw [BitVec.toNat_sub]
      simp only [BitVec.toNat_ofNat]
      omega
    rw [unzigzag_toInt, h1]
    split <;> split <;> omega
  unfold decodeVarint
  constructor
  · intro h
    obtain ⟨⟨w, c⟩, hr, h⟩ := Res.bind_eq_ok.1 h
    obtain ⟨g, rest, e, hg, hl, hw, hc⟩ := (key w c).1 hr
    simp only at h
    by_cases h0 : w = 0#64
    · rw [if_pos h0] at h; cases h
    · rw [if_neg h0] at h
      injection h with h
      injection h with ha hb
      have hn0 : w.toNat ≠ 0 := fun h => h0 (BitVec.eq_of_toNat_eq (by rw [h]; rfl))
      refine ⟨g, rest, e, hg, hl, by omega, by omega, by rw [← hw]; exact w.isLt, ?_⟩
      rw [← ha, hz w h0, hw]
  · rintro ⟨g, rest, e, hg, hl, hn, h1, h2, hv⟩
    have hw : (BitVec.ofNat 64 (groupNumber g)).toNat = groupNumber g := by
      rw [BitVec.toNat_ofNat]; exact Nat.mod_eq_of_lt h2
    have h0 : BitVec.ofNat 64 (groupNumber g) ≠ 0#64 := by
      intro h; rw [h] at hw; simp at hw; omega
    refine Res.bind_eq_ok.2 ⟨(BitVec.ofNat 64 (groupNumber g), g.length), (key _ _).2 ⟨g, rest, e, hg, hl, hw, rfl⟩, ?_⟩
    simp only
    rw [if_neg h0, hn]
    have : unzigzag (BitVec.ofNat 64 (groupNumber g) - 1#64) = v := by
      apply BitVec.eq_of_toInt_eq
      rw [hz _ h0, hw, hv]
    rw [this]

/-- **C03, unsigned varints** (used inside V5 chunks).  `readUVarint` succeeds exactly when the buffer starts with a varint of at
most ten bytes; it returns that number modulo 2^64 (payload bits beyond the 64th are dropped, not rejected) and the rest of the
buffer.  On every buffer it avoids undefined behaviour, in particular shifts by 64 or more. -/
theorem C03_uvarint_exact (bytes : List Byte) :
    (readUVarint bytes).isUB = false ∧
    ∀ (v : BitVec 64) (rest : List Byte), readUVarint bytes = .ok (v, rest) ↔
      ∃ g, bytes = g ++ rest ∧ IsGroup g ∧ g.length ≤ 10 ∧ v.toNat = groupNumber g % 2 ^ 64 := by
  refine ⟨readUVarintLoop_not_ub bytes 0 0#64 (by omega), fun v rest => ?_⟩
  have := readUVarintLoop_iff bytes 0 0#64 v rest (by omega) (by decide)
  simpa [readUVarint] using this

-- A three-byte varint followed by another byte: the number 12345 * 2 + 1, the value 12345.
example : IsGroup [0xf3#8, 0xc0#8, 0x01#8] ∧ groupNumber [0xf3#8, 0xc0#8, 0x01#8] = 24691 ∧
    decodeVarint [0xf3#8, 0xc0#8, 0x01#8, 7#8] = .ok (12345#64, 3) := by decide +kernel
-- Ten bytes whose number is 2^64: rejected by the signed reader, read as 0 by the unsigned one.
example : let g := List.replicate 9 0x80#8 ++ [2#8]
    IsGroup g ∧ groupNumber g = 2 ^ 64 ∧ decodeVarint g = .throw "decodeVarint: value overflow" ∧
      readUVarint g = .ok (0#64, []) := by decide +kernel
-- Eleven bytes: rejected by both.
example : let g := List.replicate 10 0x80#8 ++ [1#8]
    IsGroup g ∧ (decodeVarint g).isThrow = true ∧ (readUVarint g).isThrow = true := by decide +kernel

end Cloudini.Props
