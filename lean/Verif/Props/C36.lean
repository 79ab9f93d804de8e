import Verif.Lemmas.Cdr

/-!
# C36: CDR primitives round-trip with correct alignment

`Ty` ranges over every type the encoder and decoder accept (numbers of 1, 2, 4 and 8 bytes, strings, byte views, vectors, arrays and
structures of such, nested as deep as one likes).  The specification (`Spec/Cdr.lean`) says what a message consists of (`atoms`) and how it
is laid out (`Laid`).
-/

namespace Cloudini.Props

open Cloudini.Cdr

/-- **C36, round trip.** Encoding never fails; decoding what was encoded, with anything behind it, gives the same value and leaves exactly
what was behind it. -/
theorem C36_roundtrip (h : Cdr.Header) (default : Version) (t : Ty) (v : t.Val) (hf : Fits t v) (hc : Compatible h default) :
    ∃ bytes, encodeMsg h t v = .ok bytes ∧ ∀ rest, decodeMsg default t (bytes ++ rest) = .ok (v, rest) := by
  obtain ⟨bytes, he⟩ := encode_total h t v hf (encInit h)
  refine ⟨bytes, he, fun rest => ?_⟩
  obtain ⟨_, x, rfl, hr⟩ := reads_type h t v (encInit h) bytes hf (by simp [encInit]) he
  obtain ⟨h', e1, e2, e3⟩ := decInit_encInit h default hc (x ++ rest)
  unfold decodeMsg
  rw [List.append_assoc]
  simp only [e1, Res.ok_bind, decode_congr e2 e3 t]
  have := hr rest
  simp only [encInit, List.length_cons, List.length_nil] at this
  simp only [this, Res.ok_bind]

/-- **C36, alignment.** The message is the 4-byte header and the atoms one after the other, each number at the next multiple of its
alignment, in the byte order of the header. -/
theorem C36_layout (h : Cdr.Header) (t : Ty) (v : t.Val) (hf : Fits t v) :
    ∃ bytes x, encodeMsg h t v = .ok bytes ∧ bytes = [0#8, (if h.big then 0#8 else 1#8) ||| h.flag.code, 0#8, 0#8] ++ x ∧ Laid h 0 (atoms t v) x := by
  obtain ⟨bytes, he⟩ := encode_total h t v hf (encInit h)
  obtain ⟨x, hx, hl⟩ := puts_type h t v (encInit h) bytes hf (by simp [encInit]) he
  exact ⟨bytes, x, he, hx, hl⟩

/-- **C36, truncation.** Cut anywhere behind the header, a buffer that was decodable to its last byte is rejected with an exception.
Partial: `4 ≤ k`; a buffer shorter than the header is read past its end (`C36_short_header_fails`). -/
theorem C36_truncated_partial (default : Version) (t : Ty) (bytes : List Byte) (v : t.Val) (h : decodeMsg default t bytes = .ok (v, []))
    (k : Nat) (h4 : 4 ≤ k) (hk : k < bytes.length) : (decodeMsg default t (bytes.take k)).isThrow = true := by
  unfold decodeMsg at h ⊢
  obtain ⟨⟨hd, d⟩, h1, h2⟩ := Res.bind_eq_ok.1 h
  obtain ⟨⟨w, d'⟩, h3, h5⟩ := Res.bind_eq_ok.1 h2
  simp only [Res.ok.injEq, Prod.mk.injEq] at h5
  obtain ⟨_, hd'⟩ := h5
  match bytes, h1, hk with
  | b0 :: b1 :: b2 :: b3 :: r, h1, hk =>
    obtain ⟨j, rfl⟩ : ∃ j, k = j + 4 := ⟨k - 4, by omega⟩
    have htk : (b0 :: b1 :: b2 :: b3 :: r).take (j + 4) = b0 :: b1 :: b2 :: b3 :: r.take j := rfl
    have hd0 : d = ⟨r, 0⟩ ∧ decInit default (b0 :: b1 :: b2 :: b3 :: r.take j) = .ok (hd, ⟨r.take j, 0⟩) := by
      simp only [decInit] at h1 ⊢
      by_cases c0 : b0 ≠ 0#8
      · rw [if_pos c0] at h1; cases h1
      · rw [if_neg c0] at h1 ⊢
        obtain ⟨f, e1, e2⟩ := Res.bind_eq_ok.1 h1
        simp only [e1, Res.ok_bind]
        by_cases c1 : b2 ≠ 0#8 ∨ b3 ≠ 0#8
        · rw [if_pos c1] at e2; cases e2
        · rw [if_neg c1] at e2 ⊢
          simp only [Res.ok.injEq, Prod.mk.injEq] at e2
          obtain ⟨rfl, rfl⟩ := e2
          exact ⟨rfl, rfl⟩
    rw [htk]
    simp only [hd0.2, Res.ok_bind]
    rw [hd0.1] at h3
    obtain ⟨x, e1, e2, _, e4⟩ := (local_type hd t).2 r 0 w d' h3
    rw [hd', List.append_nil] at e1
    subst e1
    simp only [List.length_cons] at hk
    exact isThrow_bind (e4 j (by omega))

/-- **C36, no undefined behaviour** in decoding any bytes that are at least a header: a value or an exception. -/
theorem C36_no_ub_partial (default : Version) (t : Ty) (buf : List Byte) (hb : 4 ≤ buf.length) (k : UB) : decodeMsg default t buf ≠ .ub k := by
  intro h
  unfold decodeMsg at h
  rcases Res.bind_eq_ub.1 h with h | ⟨q, _, h⟩
  · match buf, hb with
    | b0 :: b1 :: b2 :: b3 :: r, _ =>
      simp only [decInit] at h
      by_cases c0 : b0 ≠ 0#8
      · rw [if_pos c0] at h; cases h
      · rw [if_neg c0] at h
        rcases Res.bind_eq_ub.1 h with h | ⟨f, _, h⟩
        · unfold versionOf at h
          repeat' split at h
          all_goals cases h
        · split at h <;> cases h
  · rcases Res.bind_eq_ub.1 h with h | ⟨q, _, h⟩
    · exact (local_type q.1 t).1 q.2 k h
    · cases h

/-- **C36 fails for buffers shorter than the header**: the constructor reads all four header bytes before it asks for the size. -/
theorem C36_short_header_fails (default : Version) (t : Ty) (buf : List Byte) (hb : buf.length < 4) : decodeMsg default t buf = .ub .mem := by
  unfold decodeMsg
  have : decInit default buf = .ub .mem := by
    match buf, hb with
    | [], _ => rfl
    | [_], _ => rfl
    | [_, _], _ => rfl
    | [_, _, _], _ => rfl
  rw [this]; rfl

/-- Without `Compatible`: the XCDR2 alignment with a PLAIN_CDR flag, which the encoder takes without complaint, decodes to something else. -/
theorem C36_version_flag_mismatch : ∃ (h : Cdr.Header) (v : Ty.Val (.pair .u32 (.pair .u64 .u64))) (bytes : List Byte), encodeMsg h _ v = .ok bytes ∧
    (decodeMsg .xcdr2 (.pair .u32 (.pair .u64 .u64)) bytes).isThrow = true :=
  ⟨{ flag := .plain, version := .xcdr2 }, ((5#32 : BitVec 32), (7#64 : BitVec 64), (9#64 : BitVec 64)), _, rfl, by decide +kernel⟩

/-- The decoder told to expect DDS CDR (the default in the ROS code) rejects every message flagged PLAIN_CDR2 or PL_CDR. -/
theorem C36_dds_rejects_xcdr (h : Cdr.Header) (hf : h.flag ≠ .plain) (t : Ty) (rest : List Byte) :
    (decodeMsg .dds t (encInit h ++ rest)).isThrow = true := by
  obtain ⟨b, f, w⟩ := h
  have : (decInit .dds (encInit ⟨b, f, w⟩ ++ rest)).isThrow = true := by
    cases f
    · exact absurd rfl hf
    · cases b <;> simp [decInit, encInit, versionOf, Flag.code, Version.code]
    · cases b <;> simp [decInit, encInit, versionOf, Flag.code, Version.code]
  exact isThrow_bind this

/-! ### the hypotheses are met -/

/-- A structure: a byte, a string, an 8-byte number, a vector of 2-byte numbers, a byte view and an array of two strings. -/
def sampleTy : Ty := .pair .u8 (.pair .str (.pair .u64 (.pair (.vec .u16) (.pair .buf (.arr 2 .str)))))
def sampleVal : sampleTy.Val :=
  ((1#8 : BitVec 8), ([97#8, 98#8] : List Byte), (0x0102030405060708#64 : BitVec 64), ([0x1234#16, 0x5678#16] : List (BitVec 16)), ([9#8] : List Byte),
    ⟨[([] : List Byte), [0#8]], rfl⟩)

example : Fits sampleTy sampleVal := by
  refine ⟨trivial, ?_, trivial, ?_, ?_, ?_⟩
  · exact (by decide : 3 < 2 ^ 32)
  · exact ⟨(by decide : 2 < 2 ^ 32), fun _ _ => trivial⟩
  · exact (by decide : 1 < 2 ^ 32)
  · intro x hx
    have hx : x ∈ ([([] : List Byte), [0#8]] : List (List Byte)) := hx
    rcases List.mem_cons.1 hx with rfl | hx
    · exact (by decide : 1 < 2 ^ 32)
    · rcases List.mem_cons.1 hx with rfl | hx
      · exact (by decide : 2 < 2 ^ 32)
      · cases hx
example : Compatible { big := true, flag := .plain2, version := .xcdr2 } .xcdr1 := by simp [Compatible]
example : Compatible { big := true } .dds := by simp [Compatible]
example : encodeMsg { big := true } sampleTy sampleVal = .ok
    [0#8, 0#8, 0#8, 0#8, 1#8, 0#8, 0#8, 0#8, 0#8, 0#8, 0#8, 3#8, 97#8, 98#8, 0#8, 0#8, 0#8, 0#8, 0#8, 0#8, 1#8, 2#8, 3#8, 4#8, 5#8, 6#8, 7#8, 8#8,
      0#8, 0#8, 0#8, 2#8, 0x12#8, 0x34#8, 0x56#8, 0x78#8, 0#8, 0#8, 0#8, 1#8, 9#8, 0#8, 0#8, 0#8, 0#8, 0#8, 0#8, 1#8, 0#8, 0#8, 0#8, 0#8,
      0#8, 0#8, 0#8, 2#8, 0#8, 0#8] := by decide +kernel
example : decodeMsg .dds (.pair .u8 .u32) [0#8, 1#8, 0#8, 0#8, 7#8, 0#8, 0#8, 0#8, 1#8, 2#8, 0#8, 0#8] =
    .ok (((7#8 : BitVec 8), (513#32 : BitVec 32)), []) := by rfl

/-! ## The theorems applied to that message -/

theorem sample_pair : decodeMsg .dds (.pair .u8 .u32) [0#8, 1#8, 0#8, 0#8, 7#8, 0#8, 0#8, 0#8, 1#8, 2#8, 0#8, 0#8] =
    .ok (((7#8 : BitVec 8), (513#32 : BitVec 32)), []) := by rfl
example : (decodeMsg .dds (.pair .u8 .u32) [0#8, 1#8, 0#8, 0#8, 7#8, 0#8, 0#8, 0#8, 1#8, 2#8, 0#8]).isThrow = true :=
  C36_truncated_partial .dds (.pair .u8 .u32) _ _ sample_pair 11 (by decide) (by decide)
example (body : List Byte) (k : UB) : decodeMsg .xcdr1 sampleTy ([0#8, 0#8, 0#8, 0#8] ++ body) ≠ .ub k :=
  C36_no_ub_partial .xcdr1 sampleTy _ (by simp) k
example (rest : List Byte) : (decodeMsg .dds sampleTy (encInit { big := true, flag := .plain2, version := .xcdr2 } ++ rest)).isThrow = true :=
  C36_dds_rejects_xcdr _ (by decide) sampleTy rest

end Cloudini.Props
