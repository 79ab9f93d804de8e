import Verif.Lemmas.Unfold
import Verif.Lemmas.Varint
import Verif.Lemmas.Writes

/-!
# C01–C04: varints and primitive serialisation
-/

namespace Cloudini.Props

/-! ## C01 signed varints round-trip -/

/-- **C01 (partial).** Full property: for *every* `v`.  What is missing is the single value INT64_MIN, for which
the property is false of the code (`C01_intMin_fails`). -/
theorem C01_varint_roundtrip_partial (v : BitVec 64) (hv : v.toInt ≠ -2 ^ 63) (following : List Byte) :
    decodeVarint (encodeVarint64 v ++ following) = .ok (v, (encodeVarint64 v).length) := by
  apply decodeVarint_encode
  rintro rfl
  exact hv (by decide)

/-- The full property fails, on exactly one value: the encoding of INT64_MIN is the NaN marker, rejected by
the decoder. -/
theorem C01_intMin_fails :
    ¬ ∀ (v : BitVec 64) (following : List Byte),
      decodeVarint (encodeVarint64 v ++ following) = .ok (v, (encodeVarint64 v).length) := by
  intro h
  have := h (BitVec.intMin 64) []
  revert this; decide +kernel

/-- Two different values never share an encoding, and no encoding is a prefix of another one followed by
anything (so a stream of varints parses in one way only). -/
theorem C01_varint_unique_parse (v w : BitVec 64) (hv : v.toInt ≠ -2 ^ 63) (hw : w.toInt ≠ -2 ^ 63)
    (a b : List Byte) (h : encodeVarint64 v ++ a = encodeVarint64 w ++ b) : v = w ∧ a = b := by
  have h1 := C01_varint_roundtrip_partial v hv a
  have h2 := C01_varint_roundtrip_partial w hw b
  rw [h, h2] at h1
  injection h1 with h1
  injection h1 with h1 h3
  subst h1
  exact ⟨rfl, List.append_cancel_left h⟩

example : (12345#64).toInt ≠ -2 ^ 63 ∧ encodeVarint64 12345#64 = [0xf3#8, 0xc0#8, 0x01#8] ∧
    decodeVarint ([0xf3#8, 0xc0#8, 0x01#8] ++ [7#8]) = .ok (12345#64, 3) := by decide +kernel
example : (BitVec.ofInt 64 (-(2 ^ 63 - 1))).toInt ≠ -2 ^ 63 ∧
    (encodeVarint64 (BitVec.ofInt 64 (-(2 ^ 63 - 1)))).length = 10 := by decide +kernel

/-! ## C02 the NaN marker is unambiguous and varints are short -/

/-- **C02 (partial).** Length 1 to 10, first byte not 0.  Missing: INT64_MIN (`C02_intMin_fails`). -/
theorem C02_marker_free_partial (v : BitVec 64) (hv : v.toInt ≠ -2 ^ 63) :
    1 ≤ (encodeVarint64 v).length ∧ (encodeVarint64 v).length ≤ 10 ∧ (encodeVarint64 v).head? ≠ some 0#8 := by
  refine ⟨(encodeVarint64_length v).1, (encodeVarint64_length v).2, ?_⟩
  rw [Ne, encodeVarint64_head]
  rintro rfl
  exact hv (by decide)

/-- The length bound holds for every value. -/
theorem C02_length (v : BitVec 64) : 1 ≤ (encodeVarint64 v).length ∧ (encodeVarint64 v).length ≤ 10 :=
  encodeVarint64_length v

/-- Small values are short: `k` bytes suffice for every magnitude below 2^(7k-1) (one byte for -63..63, two for
-8191..8191, …). -/
theorem C02_short (v : BitVec 64) (k : Nat) (hk : 1 ≤ k ∧ k ≤ 9)
    (hv : -2 ^ (7 * k - 1) < v.toInt ∧ v.toInt < 2 ^ (7 * k - 1)) : (encodeVarint64 v).length ≤ k := by
  obtain ⟨j, rfl⟩ : ∃ j, k = j + 1 := ⟨k - 1, by omega⟩
  apply lebBytes_length_le
  have h := zigzagPlus1_toNat v
  have e : (2 : Nat) ^ (7 * (j + 1)) = 2 * 2 ^ (7 * (j + 1) - 1) := by
    rw [← Nat.pow_succ']; congr 1
  have e2 : ((2 ^ (7 * (j + 1) - 1) : Nat) : Int) = 2 ^ (7 * (j + 1) - 1) := by norm_cast
  have hb : (2 : Nat) ^ (7 * (j + 1) - 1) ≤ 2 ^ 62 := Nat.pow_le_pow_right (by decide) (by omega)
  rw [e]
  omega

/-- Only INT64_MIN starts with the marker. -/
theorem C02_marker_iff (v : BitVec 64) : (encodeVarint64 v).head? = some 0#8 ↔ v.toInt = -2 ^ 63 := by
  rw [encodeVarint64_head]
  constructor
  · rintro rfl; decide
  · intro h
    apply BitVec.eq_of_toInt_eq
    rw [h]; decide

theorem C02_intMin_fails : ¬ ∀ v : BitVec 64, (encodeVarint64 v).head? ≠ some 0#8 := by
  intro h
  exact h (BitVec.intMin 64) ((C02_marker_iff _).2 (by decide))

example : (0#64).toInt ≠ -2 ^ 63 ∧ encodeVarint64 0#64 = [1#8] := by decide +kernel

/-! ## C03 varint decoding is total and bounded on arbitrary bytes -/

/-- **C03.** On any buffer: never undefined behaviour (in particular no read outside the buffer); on success the
count is between 1 and min(10, size) and depends, like the value, on the consumed bytes only. -/
theorem C03_decode_total (bytes : List Byte) :
    (decodeVarint bytes).isUB = false ∧
    ∀ v n, decodeVarint bytes = .ok (v, n) →
      1 ≤ n ∧ n ≤ min 10 bytes.length ∧ ∀ following, decodeVarint (bytes.take n ++ following) = .ok (v, n) := by
  refine ⟨decodeVarint_not_ub bytes, fun v n h => ?_⟩
  obtain ⟨h1, h2, h3, h4⟩ := decodeVarint_ok h
  exact ⟨h1, by omega, h4⟩

/-- The one- and two-byte fast paths agree with the general loop on every non-empty buffer. -/
theorem C03_fast_paths (bytes : List Byte) (h : bytes ≠ []) :
    decodeVarintRaw bytes = decodeVarintLoop bytes 0 0#64 0 := by
  obtain ⟨b, bs, rfl⟩ := List.exists_cons_of_ne_nil h
  exact decodeVarintRaw_eq_loop b bs

/-- Every strict prefix of an encoding is rejected (also of INT64_MIN's). -/
theorem C03_prefix_rejected (v : BitVec 64) (k : Nat) (hk : k < (encodeVarint64 v).length) :
    (decodeVarint ((encodeVarint64 v).take k)).isThrow = true :=
  decodeVarint_prefix v k hk

example : decodeVarint [0x80#8, 0x80#8] = .throw "decodeVarint: truncated input" ∧
    decodeVarint [0xff#8, 0x7f#8, 9#8] = .ok (0x1fff#64, 2) ∧ [0xff#8, 0x7f#8, 9#8] ≠ [] ∧
    2 < (encodeVarint64 12345#64).length := by
  decide +kernel
example : (decodeVarint (List.replicate 11 0xff#8)).isThrow = true := by decide +kernel

/-! ## C04 fixed-width and string serialisation -/

/-- **C04, integers.** Writing the `n`-byte integer `v` into a view with room for it and reading it back. -/
theorem C04_int_roundtrip (n v : Nat) (w : W) (hr : n ≤ w.room) (hv : v < 256 ^ n) (following : List Byte) :
    ∃ bs, w.encodeInt n v = .ok ⟨w.out ++ bs, w.room - n⟩ ∧ bs.length = n ∧
      decodeInt n (bs ++ following) = .ok (v, following) := by
  refine ⟨toLE n v, ?_, toLE_length n v, ?_⟩
  · unfold W.encodeInt
    rw [W.checked_ok (by simpa using hr)]
    simp
  · rw [decodeInt_def]
    rw [if_pos (by simp)]
    rw [List.take_append_of_le_length (by simp), List.take_of_length_le (by simp), fromLE_toLE, Nat.mod_eq_of_lt hv]
    congr 2
    rw [List.drop_append_of_le_length (by simp), List.drop_of_length_le (by simp), List.nil_append]

/-- **C04, integers, the other direction**: reading never depends on more than `n` bytes, never touches memory
outside the view, and fails exactly when there are fewer than `n`; writing fails exactly when the room is less
than `n`. -/
theorem C04_int_bounds (n : Nat) (buf : List Byte) (w : W) (v : Nat) :
    (decodeInt n buf).isUB = false ∧ ((decodeInt n buf).isThrow = true ↔ buf.length < n) ∧
    (w.encodeInt n v).isUB = false ∧ ((w.encodeInt n v).isThrow = true ↔ w.room < n) := by
  rw [decodeInt_def]; unfold W.encodeInt W.checked
  refine ⟨?_, ?_, ?_, ?_⟩ <;> split <;> simp_all <;> omega

/-- **C04, strings** shorter than 65536 bytes. -/
theorem C04_string_roundtrip (s : List Byte) (hs : s.length < 65536) (w : W) (hr : 2 + s.length ≤ w.room)
    (following : List Byte) :
    ∃ bs, w.encodeString s = .ok ⟨w.out ++ bs, w.room - (2 + s.length)⟩ ∧ bs.length = 2 + s.length ∧
      decodeString (bs ++ following) = .ok (s, following) := by
  obtain ⟨b1, h1, h2, h3⟩ := C04_int_roundtrip 2 s.length w (by omega) (by omega) (s ++ following)
  refine ⟨b1 ++ s, ?_, by simp [h2], ?_⟩
  · unfold W.encodeString
    rw [Nat.mod_eq_of_lt hs]
    simp only [h1, Res.ok_bind]
    rw [W.checked_ok (by simp; omega)]
    simp only [List.take_length, List.append_assoc]
    congr 2
    omega
  · rw [decodeString_def]
    rw [List.append_assoc, h3]
    simp

/-- **C04, strings, bounds**: no undefined behaviour on either side; writing fails exactly when the room is
too small. -/
theorem C04_string_bounds (s buf : List Byte) (hs : s.length < 65536) (w : W) :
    (decodeString buf).isUB = false ∧ (w.encodeString s).isUB = false ∧
    ((w.encodeString s).isThrow = true ↔ w.room < 2 + s.length) := by
  refine ⟨?_, ?_, ?_⟩
  · rw [decodeString_def, decodeInt_def]
    split
    · simp only [Res.ok_bind]; split <;> rfl
    · rfl
  · unfold W.encodeString W.encodeInt W.checked
    simp only []
    split
    · simp only [Res.ok_bind]; split <;> rfl
    · rfl
  · unfold W.encodeString W.encodeInt W.checked
    rw [Nat.mod_eq_of_lt hs]
    simp only [toLE_length, List.take_length]
    by_cases h : 2 ≤ w.room
    · rw [if_pos h]
      simp only [Res.ok_bind]
      by_cases h2 : s.length ≤ w.room - 2
      · rw [if_pos h2]; simp; omega
      · rw [if_neg h2]; simp; omega
    · rw [if_neg h]; simp; omega

/-- A string of 65536 bytes or more does not round-trip: its length is written modulo 65536. -/
theorem C04_long_string_truncated (s : List Byte) (w : W) (hr : 2 + s.length % 65536 ≤ w.room)
    (following : List Byte) :
    ∃ bs, w.encodeString s = .ok ⟨w.out ++ bs, w.room - (2 + s.length % 65536)⟩ ∧
      decodeString (bs ++ following) = .ok (s.take (s.length % 65536), following) := by
  have hl : (s.take (s.length % 65536)).length = s.length % 65536 := by
    rw [List.length_take]; have := Nat.mod_le s.length 65536; omega
  obtain ⟨bs, h1, _, h3⟩ := C04_string_roundtrip (s.take (s.length % 65536))
    (by rw [hl]; exact Nat.mod_lt _ (by decide)) w (by omega) following
  refine ⟨bs, ?_, h3⟩
  rw [hl] at h1
  rw [← h1]
  unfold W.encodeString
  rw [hl, Nat.mod_mod]
  simp [List.take_take]

example : (⟨[], 10⟩ : W).encodeString [65#8, 66#8] = .ok ⟨[2#8, 0#8, 65#8, 66#8], 6⟩ ∧
    decodeString [2#8, 0#8, 65#8, 66#8, 9#8] = .ok ([65#8, 66#8], [9#8]) := by decide +kernel
example : ((⟨[], 3⟩ : W).encodeString [65#8, 66#8]).isThrow = true := by decide +kernel
example : (⟨[], 10⟩ : W).encodeInt 4 0xdeadbeef = .ok ⟨[0xef#8, 0xbe#8, 0xad#8, 0xde#8], 6⟩ := by decide +kernel

/-! ## The theorems applied to concrete data -/

example (a b : List Byte) : encodeVarint64 12345#64 ++ a ≠ encodeVarint64 (BitVec.ofInt 64 (-64)) ++ b := fun h =>
  absurd (C01_varint_unique_parse _ _ (by decide) (by decide) a b h).1 (by decide)
example : (encodeVarint64 (BitVec.ofInt 64 (-(2 ^ 63 - 1)))).head? ≠ some 0#8 :=
  (C02_marker_free_partial _ (by decide)).2.2
example : (encodeVarint64 (BitVec.ofInt 64 (-8191))).length ≤ 2 := C02_short _ 2 (by decide) (by decide)
example : (decodeVarint ((encodeVarint64 12345#64).take 2)).isThrow = true := C03_prefix_rejected _ 2 (by decide +kernel)
example : decodeVarintLoop [0x83#8, 0x01#8, 7#8] 0 0#64 0 = decodeVarintRaw [0x83#8, 0x01#8, 7#8] ∧
    decodeVarintRaw [0x83#8, 0x01#8, 7#8] = .ok (0x83#64, 2) :=
  ⟨(C03_fast_paths _ (by simp)).symm, by decide +kernel⟩
example : ((⟨[], 300⟩ : W).encodeString (List.replicate 299 65#8)).isThrow = true :=
  (C04_string_bounds _ [] (by decide +kernel) _).2.2.2 (by decide +kernel)
example (c : Byte) : ∃ bs, (⟨[], 10⟩ : W).encodeString (List.replicate 65540 c) = .ok ⟨bs, 4⟩ ∧
    decodeString bs = .ok ((List.replicate 65540 c).take 4, []) := by
  obtain ⟨bs, h1, h2⟩ := C04_long_string_truncated (List.replicate 65540 c) ⟨[], 10⟩ (by rw [List.length_replicate]; decide) []
  rw [List.length_replicate] at h1 h2
  rw [List.append_nil] at h2
  exact ⟨bs, h1, h2⟩

end Cloudini.Props
