import Verif.Lemmas.Sections
import Verif.Lemmas.Bits

/-! Packed palette indexes. -/

namespace Cloudini

theorem lt_two_pow_bitLength (m : Nat) : m < 2 ^ bitLength m := by
  induction m using bitLength.induct with
  | case1 => rw [bitLength]; simp
  | case2 m h ih =>
    rw [bitLength, dif_neg h, Nat.pow_succ]
    omega

theorem bitLength_le (m k : Nat) (h : m < 2 ^ k) : bitLength m ≤ k := by
  induction k generalizing m with
  | zero => rw [bitLength, dif_pos (by omega)]; exact Nat.le_refl _
  | succ k ih =>
    rw [bitLength]
    split
    · omega
    · have := ih (m / 2) (by rw [Nat.pow_succ] at h; omega)
      omega

/-- The chosen width suffices for every index of a palette. -/
theorem palette_bits (u i : Nat) (h : i < u) : i < 2 ^ bitsForPaletteIndex u := by
  unfold bitsForPaletteIndex
  split
  · simp; omega
  · exact Nat.lt_of_le_of_lt (by omega) (lt_two_pow_bitLength (u - 1))

theorem palette_bits_le (u k : Nat) (h : u ≤ 2 ^ k) : bitsForPaletteIndex u ≤ k := by
  unfold bitsForPaletteIndex
  split
  · omega
  · exact bitLength_le _ _ (by omega)

/-- The number whose binary digits are the indexes, `bits` each, first index lowest. -/
def packVal (bits : Nat) : List Nat → Nat
  | [] => 0
  | i :: is => i + 2 ^ bits * packVal bits is

theorem drainBytes_spec (s : BitVec 64) (h : Nat) (hs : s.toNat < 2 ^ h) :
    let r := drainBytes s h
    fromLE r.1 + 256 ^ r.1.length * r.2.1.toNat = s.toNat ∧ 8 * r.1.length + r.2.2 = h ∧ r.2.2 < 8 ∧
      r.2.1.toNat < 2 ^ r.2.2 := by
  induction s, h using drainBytes.induct with
  | case1 s h hh ih =>
    have h8 : (s >>> 8).toNat = s.toNat / 256 := by rw [ushr_toNat]
    have hlt : (s >>> 8).toNat < 2 ^ (h - 8) := by
      rw [h8]
      have : 2 ^ h = 2 ^ (h - 8) * 256 := by
        rw [show (256 : Nat) = 2 ^ 8 from rfl, ← Nat.pow_add]; congr 1; omega
      omega
    obtain ⟨i1, i2, i3, i4⟩ := ih hlt
    rw [drainBytes, dif_pos hh]
    simp only
    refine ⟨?_, ?_, i3, i4⟩
    · simp only [fromLE, List.length_cons, setWidth8_toNat, Nat.pow_succ]
      rw [h8] at i1
      have : 256 ^ (drainBytes (s >>> 8) (h - 8)).1.length * 256 * (drainBytes (s >>> 8) (h - 8)).2.1.toNat
          = 256 * (256 ^ (drainBytes (s >>> 8) (h - 8)).1.length * (drainBytes (s >>> 8) (h - 8)).2.1.toNat) := by
        rw [Nat.mul_comm _ 256, Nat.mul_assoc]
      rw [this]
      omega
    · simp only [List.length_cons]; omega
  | case2 s h hh =>
    rw [drainBytes, dif_neg hh]
    simp only [fromLE, List.length_nil]
    exact ⟨by simp, by omega, by omega, hs⟩

theorem packIndexes_spec (bits : Nat) (hb : bits ≤ 32) (is : List Nat) (s : BitVec 64) (h : Nat)
    (hs : s.toNat < 2 ^ h) (hh : h < 8) (hi : ∀ i ∈ is, i < 2 ^ bits) :
    fromLE (packIndexes bits is s h) = s.toNat + 2 ^ h * packVal bits is ∧
      (packIndexes bits is s h).length = (h + bits * is.length + 7) / 8 := by
  induction is generalizing s h with
  | nil =>
    simp only [packIndexes, packVal]
    split
    · next hp =>
      have : s.toNat < 256 := Nat.lt_of_lt_of_le hs (by
        have : 2 ^ h ≤ 2 ^ 8 := Nat.pow_le_pow_right (by decide) (by omega)
        omega)
      simp only [fromLE, setWidth8_toNat, List.length_cons, List.length_nil]
      omega
    · have : h = 0 := by omega
      subst this
      have h0 : s.toNat = 0 := by simpa using hs
      simp [fromLE, h0]
  | cons i is ih =>
    have hi0 := hi i (by simp)
    have hpow : 2 ^ bits ≤ 2 ^ 32 := Nat.pow_le_pow_right (by decide) hb
    have hin : (BitVec.ofNat 64 i).toNat = i := by
      rw [BitVec.toNat_ofNat]; exact Nat.mod_eq_of_lt (by omega)
    have hadd : 2 ^ (h + bits) ≤ 2 ^ 64 := Nat.pow_le_pow_right (by decide) (by omega)
    have hmul : i * 2 ^ h + 2 ^ h ≤ 2 ^ (h + bits) := by
      rw [Nat.pow_add, Nat.mul_comm (2 ^ h)]
      calc i * 2 ^ h + 2 ^ h = (i + 1) * 2 ^ h := by rw [Nat.add_mul, Nat.one_mul]
        _ ≤ 2 ^ bits * 2 ^ h := Nat.mul_le_mul_right _ hi0
    have hpos := Nat.two_pow_pos h
    have hval : (s ||| (BitVec.ofNat 64 i <<< h)).toNat = s.toNat + i * 2 ^ h := by
      rw [or_shl_toNat _ _ _ hs (by rw [hin]; omega), hin, Nat.mul_comm]
    have hlt : (s ||| (BitVec.ofNat 64 i <<< h)).toNat < 2 ^ (h + bits) := by rw [hval]; omega
    obtain ⟨d1, d2, d3, d4⟩ := drainBytes_spec _ _ hlt
    obtain ⟨e1, e2⟩ := ih _ _ d4 d3 (fun j hj => hi j (by simp [hj]))
    simp only [packIndexes, packVal]
    constructor
    · rw [fromLE_append, e1, Nat.mul_add, ← Nat.add_assoc, d1, hval, pow256]
      have : 2 ^ (8 * (drainBytes (s ||| BitVec.ofNat 64 i <<< h) (h + bits)).1.length) *
          (2 ^ (drainBytes (s ||| BitVec.ofNat 64 i <<< h) (h + bits)).2.2 * packVal bits is)
          = 2 ^ h * (2 ^ bits * packVal bits is) := by
        rw [← Nat.mul_assoc, ← Nat.pow_add, d2, Nat.pow_add, Nat.mul_assoc]
      rw [this, Nat.mul_add, Nat.mul_comm i, Nat.add_assoc]
    · rw [List.length_append, e2, List.length_cons, Nat.mul_add]
      omega

theorem bitpack_spec (bits : Nat) (hb : bits ≤ 32) (is : List Nat) (hi : ∀ i ∈ is, i < 2 ^ bits) :
    fromLE (bitpack bits is) = packVal bits is ∧ (bitpack bits is).length = (bits * is.length + 7) / 8 := by
  unfold bitpack
  split
  · next h =>
    subst h
    have : packVal 0 is = 0 := by
      induction is with
      | nil => rfl
      | cons i is ih =>
        have h0 := hi i (by simp)
        simp only [packVal, ih (fun j hj => hi j (by simp [hj]))]
        omega
    rw [this]; simp [fromLE]
  · obtain ⟨h1, h2⟩ := packIndexes_spec bits hb is 0#64 0 (by decide) (by decide) hi
    rw [h1, h2]; simp

theorem fillBits_spec (bits fuel : Nat) (hb : bits ≤ 32) (inp : List Byte) (s : BitVec 64) (h : Nat)
    (hs : s.toNat < 2 ^ h) (hf : bits ≤ h + 8 * fuel) (ha : bits ≤ h + 8 * inp.length) :
    ∃ inp' s' h', fillBits bits fuel inp s h = .ok (inp', s', h') ∧ bits ≤ h' ∧ (h' < bits + 8 ∨ h' = h) ∧
      s'.toNat < 2 ^ h' ∧ s'.toNat + 2 ^ h' * fromLE inp' = s.toNat + 2 ^ h * fromLE inp ∧
      h' + 8 * inp'.length = h + 8 * inp.length := by
  induction fuel generalizing inp s h with
  | zero =>
    unfold fillBits
    rw [if_neg (by omega)]
    exact ⟨inp, s, h, rfl, by omega, .inr rfl, hs, rfl, rfl⟩
  | succ fuel ih =>
    unfold fillBits
    by_cases hh : h < bits
    · rw [if_pos hh]
      cases inp with
      | nil => simp only [List.length_nil] at ha; omega
      | cons b rest =>
        simp only
        have hb8 : (b.setWidth 64).toNat = b.toNat := by
          rw [BitVec.toNat_setWidth]; exact Nat.mod_eq_of_lt (by have := b.isLt; omega)
        have hp : 2 ^ (h + 8) ≤ 2 ^ 64 := Nat.pow_le_pow_right (by decide) (by omega)
        have hpp : 2 ^ (h + 8) = 2 ^ h * 256 := by rw [Nat.pow_add]
        have hbl := b.isLt
        have hm : b.toNat * 2 ^ h + 2 ^ h ≤ 2 ^ (h + 8) := by
          calc b.toNat * 2 ^ h + 2 ^ h = (b.toNat + 1) * 2 ^ h := by rw [Nat.add_mul, Nat.one_mul]
            _ ≤ 256 * 2 ^ h := Nat.mul_le_mul_right _ (by omega)
            _ = 2 ^ (h + 8) := by rw [hpp, Nat.mul_comm]
        have hpos := Nat.two_pow_pos h
        have hval : (s ||| (b.setWidth 64 <<< h)).toNat = s.toNat + b.toNat * 2 ^ h := by
          rw [or_shl_toNat _ _ _ hs (by rw [hb8]; omega), hb8, Nat.mul_comm]
        obtain ⟨i', s', h', e1, e2, e3, e4, e5, e6⟩ := ih rest (s ||| (b.setWidth 64 <<< h)) (h + 8)
          (by rw [hval]; omega) (by omega) (by simp only [List.length_cons] at ha; omega)
        refine ⟨i', s', h', e1, e2, by omega, e4, ?_, ?_⟩
        · rw [e5, hval, hpp]
          simp only [fromLE]
          rw [Nat.mul_add, Nat.mul_comm b.toNat, ← Nat.mul_assoc]
          omega
        · simp only [List.length_cons]; omega
    · rw [if_neg hh]
      exact ⟨inp, s, h, rfl, by omega, .inr rfl, hs, rfl, rfl⟩

theorem mask_bits_toNat (s : BitVec 64) (bits : Nat) (hb : bits ≤ 32) :
    ((s &&& ((1#64 <<< bits) - 1#64)).setWidth 32).toNat = s.toNat % 2 ^ bits := by
  rw [BitVec.toNat_setWidth]
  have h := and_lowMask_toNat s (n := bits) (by omega)
  unfold lowMask at h
  rw [h]
  apply Nat.mod_eq_of_lt
  have h1 := Nat.mod_lt s.toNat (Nat.two_pow_pos bits)
  have : 2 ^ bits ≤ 2 ^ 32 := Nat.pow_le_pow_right (by decide) hb
  omega

theorem readBitpackedIndex_spec (bits : Nat) (hb : bits ≤ 32) (inp : List Byte) (s : BitVec 64) (h i v : Nat)
    (hs : s.toNat < 2 ^ h) (hh : h < 8) (ha : bits ≤ h + 8 * inp.length) (hi : i < 2 ^ bits)
    (hv : s.toNat + 2 ^ h * fromLE inp = i + 2 ^ bits * v) :
    ∃ inp' s' h', readBitpackedIndex bits inp s h = .ok (i, inp', s', h') ∧ s'.toNat < 2 ^ h' ∧ h' < 8 ∧
      s'.toNat + 2 ^ h' * fromLE inp' = v ∧ h' + 8 * inp'.length + bits = h + 8 * inp.length := by
  unfold readBitpackedIndex
  by_cases h0 : bits = 0
  · rw [if_pos h0]
    subst h0
    have : i = 0 := by omega
    subst this
    exact ⟨inp, s, h, rfl, hs, hh, by omega, by omega⟩
  · rw [if_neg h0]
    obtain ⟨i', s', h', e1, e2, e3, e4, e5, e6⟩ := fillBits_spec bits bits hb inp s h hs (by omega) ha
    rw [e1]
    simp only [Res.ok_bind]
    have hsplit : s'.toNat + 2 ^ h' * fromLE i' = i + 2 ^ bits * v := by rw [e5, hv]
    have hpow : 2 ^ h' = 2 ^ bits * 2 ^ (h' - bits) := by rw [← Nat.pow_add]; congr 1; omega
    have hmod : s'.toNat % 2 ^ bits = i := by
      have := congrArg (· % 2 ^ bits) hsplit
      simp only [hpow, Nat.mul_assoc, Nat.add_mul_mod_self_left] at this
      rw [this, Nat.mod_eq_of_lt hi]
    have hdiv : s'.toNat / 2 ^ bits + 2 ^ (h' - bits) * fromLE i' = v := by
      have := congrArg (· / 2 ^ bits) hsplit
      simp only [hpow, Nat.mul_assoc, Nat.add_mul_div_left _ _ (Nat.two_pow_pos bits)] at this
      rw [this, Nat.div_eq_of_lt hi]; omega
    refine ⟨i', s' >>> bits, h' - bits, ?_, ?_, by omega, ?_, by omega⟩
    · rw [mask_bits_toNat _ _ hb, hmod]
    · rw [ushr_toNat]
      rw [Nat.div_lt_iff_lt_mul (Nat.two_pow_pos bits), Nat.mul_comm, ← hpow]
      exact e4
    · rw [ushr_toNat]; exact hdiv

theorem decodePaletteIndexes_eq (f : AField) (base step bits : Nat) (hb : bits ≤ 32) (pal : List (BitVec 64))
    (idx : List Nat) (vals : List (BitVec 64)) (i : Nat) (inp : List Byte) (s : BitVec 64) (h v : Nat) (buf : List Byte)
    (hs : s.toNat < 2 ^ h) (hh : h < 8) (ha : bits * idx.length ≤ h + 8 * inp.length)
    (hi : ∀ j ∈ idx, j < 2 ^ bits) (hp : idx.map (fun j => pal[j]?) = vals.map some)
    (hv : s.toNat + 2 ^ h * fromLE inp = packVal bits idx + 2 ^ (bits * idx.length) * v) :
    decodePaletteIndexes f base step bits pal idx.length i inp s h buf =
      applyWrites buf 0 (valWrites f.offset base step i (leBytes f.bpv vals)) := by
  induction idx generalizing vals i inp s h buf with
  | nil =>
    have : vals = [] := by cases vals <;> simp_all
    subst this
    simp [decodePaletteIndexes, leBytes, valWrites, applyWrites]
  | cons j idx ih =>
    cases vals with
    | nil => simp at hp
    | cons x vals =>
      simp only [List.map_cons, List.cons.injEq] at hp
      obtain ⟨hx, hp⟩ := hp
      simp only [List.length_cons, Nat.mul_add, Nat.mul_one] at ha
      have hsplit : s.toNat + 2 ^ h * fromLE inp = j + 2 ^ bits * (packVal bits idx + 2 ^ (bits * idx.length) * v) := by
        rw [hv]
        simp only [packVal, List.length_cons, Nat.mul_add, Nat.mul_one, Nat.pow_add]
        rw [← Nat.mul_assoc (2 ^ bits), Nat.mul_comm (2 ^ bits) (2 ^ (bits * idx.length))]
        omega
      obtain ⟨i', s', h', e1, e2, e3, e4, e5⟩ := readBitpackedIndex_spec bits hb inp s h j _ hs hh (by omega)
        (hi j (by simp)) hsplit
      simp only [List.length_cons, decodePaletteIndexes, e1, Res.ok_bind, hx, leBytes, List.map_cons, valWrites,
        applyWrites_cons, writeValue]
      congr 1
      funext b
      exact ih vals (i + 1) i' s' h' b e2 e3 (by omega) (fun k hk => hi k (by simp [hk])) hp e4

end Cloudini
