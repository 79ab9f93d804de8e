import Verif.Lemmas.Seq
import Verif.Model.Cloud

/-!
# C05–C10: one field over any sequence of points

`encodeSeq F e pts` is what a field encoder writes when it is called once for each point of `pts` (each given as
the bytes of the point); `decodeSeq F d n bytes` is what the matching decoder stores, point by point.
`F` is any float arithmetic: these theorems assume nothing about it.
-/

namespace Cloudini.Props

/-! ### Specification vocabulary -/

/-- The bytes of a field of `size` bytes at `off` in a point. -/
def fieldBytes (point : List Byte) (off size : Nat) : List Byte := (point.drop off).take size

/-- All points are large enough to contain the field. -/
def Inside (pts : List (List Byte)) (off size : Nat) : Prop := ∀ p ∈ pts, off + size ≤ p.length

/-- The only store made for each point is `v point` at the destination offset. -/
def storesOf (doff : Nat) (v : List Byte → List Byte) (pts : List (List Byte)) : List (List Write) :=
  pts.map fun p => [(doff, v p)]

/-- Encoding `pts` with `e` and decoding with `d` succeeds, stores exactly `v p` for each point `p`, and consumes
exactly the bytes written, whatever follows them. -/
def Survives (F : FloatOps) (e : Enc) (d : Dec) (doff : Nat) (v : List Byte → List Byte)
    (pts : List (List Byte)) : Prop :=
  ∃ e' bytes, encodeSeq F e pts = .ok (e', bytes) ∧
    ∀ following, ∃ d', decodeSeq F d pts.length (bytes ++ following) = .ok (d', storesOf doff v pts, following)

/-- Consecutive differences of a history of 64-bit values (`none` is a NaN, which restarts the history at 0)
lie strictly between -2^63 and 2^63. -/
def DiffsFit : Int → List (Option Int) → Prop
  | _, [] => True
  | _, none :: xs => DiffsFit 0 xs
  | p, some v :: xs => -2 ^ 63 < v - p ∧ v - p < 2 ^ 63 ∧ DiffsFit v xs

instance DiffsFit.dec : ∀ p xs, Decidable (DiffsFit p xs)
  | _, [] => isTrue trivial
  | _, none :: xs => DiffsFit.dec 0 xs
  | p, some v :: xs =>
    have := DiffsFit.dec v xs
    inferInstanceAs (Decidable (-2 ^ 63 < v - p ∧ v - p < 2 ^ 63 ∧ DiffsFit v xs))

/-- The integer value of a field. -/
def intValue (off size : Nat) (signed : Bool) (p : List Byte) : Int :=
  (toI64 size signed (fieldBytes p off size)).toInt

/-! ### helper: differences -/

theorem diff_ok {a b : BitVec 64} : (subI64 a b = .ok (a - b) ∧ a - b ≠ BitVec.intMin 64) ↔
    (-2 ^ 63 < a.toInt - b.toInt ∧ a.toInt - b.toInt < 2 ^ 63) := by
  have h3 : (BitVec.intMin 64).toInt = -9223372036854775808 := by decide
  constructor
  · rintro ⟨h1, h2⟩
    rw [subI64_eq_ok] at h1
    obtain ⟨h1, _⟩ := h1
    simp only [BitVec.ssubOverflow, Bool.or_eq_false_iff, decide_eq_false_iff_not] at h1
    have hd : (a - b).toInt = a.toInt - b.toInt := by
      rw [BitVec.toInt_sub]; apply Int.bmod_eq_of_le <;> omega
    refine ⟨?_, by omega⟩
    have : (a - b).toInt ≠ (BitVec.intMin 64).toInt := fun h => h2 (BitVec.eq_of_toInt_eq h)
    omega
  · intro h
    have hd : (a - b).toInt = a.toInt - b.toInt := by
      rw [BitVec.toInt_sub]; apply Int.bmod_eq_of_le <;> omega
    refine ⟨?_, ?_⟩
    · rw [subI64_eq_ok]
      simp only [BitVec.ssubOverflow, Bool.or_eq_false_iff, decide_eq_false_iff_not, and_true]
      omega
    · intro he
      rw [he] at hd
      omega

theorem int_seqClean (F : FloatOps) (off size : Nat) (signed : Bool) (prev : BitVec 64) (pts : List (List Byte))
    (hin : Inside pts off size)
    (hd : DiffsFit prev.toInt (pts.map fun p => some (intValue off size signed p))) :
    SeqClean F (.int off size signed prev) pts := by
  induction pts generalizing prev with
  | nil => trivial
  | cons p ps ih =>
    obtain ⟨h1, h2, h3⟩ := hd
    have hk := diff_ok.2 ⟨h1, h2⟩
    have hp := hin p (by simp)
    refine ⟨hk.2, .int off size signed (toI64 size signed (fieldBytes p off size)),
      encodeVarint64 (toI64 size signed (fieldBytes p off size) - prev), ?_,
      ih _ (fun q hq => hin q (by simp [hq])) h3⟩
    simp only [Enc.step, readAt_ok hp, Res.ok_bind]
    rw [show sub p off size = fieldBytes p off size from rfl, hk.1]
    simp only [Res.ok_bind]

/-! ## C05 integer fields are lossless -/

/-- **C05, 16- and 32-bit fields** (and in general up to 4 bytes): no precondition on the values. -/
theorem C05_int_small (F : FloatOps) (off doff size : Nat) (hd : doff ≠ kDecodeButSkipStore) (signed : Bool)
    (hs : size ≤ 4) (pts : List (List Byte)) (hin : Inside pts off size) :
    Survives F (.int off size signed 0#64) (.int doff size 0#64) doff (fun p => fieldBytes p off size) pts := by
  have key : ∀ (prev : BitVec 64), R62 prev → SeqClean F (.int off size signed prev) pts := by
    induction pts with
    | nil => intros; trivial
    | cons p ps ih =>
      intro prev hprev
      have hr : R62 (toI64 size signed (sub p off size)) := toI64_R62 (sub_length (hin p (by simp))) hs
      have hk := subI64_R62 hr hprev
      refine ⟨hk.2, .int off size signed (toI64 size signed (sub p off size)), encodeVarint64 (toI64 size signed (sub p off size) - prev), ?_,
        ih (fun q hq => hin q (by simp [hq])) _ hr⟩
      simp only [Enc.step, readAt_ok (hin p (by simp)), Res.ok_bind, hk.1]
  obtain ⟨e', bytes, h1, _, h2⟩ := seq_roundtrip F pts (.int off size signed 0#64) (.int doff size 0#64)
    ⟨rfl, rfl, by omega⟩ (key _ R62_zero)
  refine ⟨e', bytes, h1, fun following => ?_⟩
  obtain ⟨d', h3⟩ := h2 following
  refine ⟨d', ?_⟩
  rw [h3]
  simp [Dec.offs, Enc.vals, storeAll, store, hd, storesOf, fieldBytes, sub]

/-- **C05, 64-bit fields (partial).** Full property: for every sequence.  Missing: sequences in which a value
differs from its predecessor (0 for the first) by 2^63 or more in magnitude; the property is false there
(`C05_int64_fails`, `C05_int64_exact`). -/
theorem C05_int64_partial (F : FloatOps) (off doff size : Nat) (hd : doff ≠ kDecodeButSkipStore) (signed : Bool)
    (hs : size ≤ 8) (pts : List (List Byte)) (hin : Inside pts off size)
    (hv : DiffsFit 0 (pts.map fun p => some (intValue off size signed p))) :
    Survives F (.int off size signed 0#64) (.int doff size 0#64) doff (fun p => fieldBytes p off size) pts := by
  obtain ⟨e', bytes, h1, _, h2⟩ := seq_roundtrip F pts (.int off size signed 0#64) (.int doff size 0#64)
    ⟨rfl, rfl, hs⟩ (int_seqClean F off size signed 0#64 pts hin hv)
  refine ⟨e', bytes, h1, fun following => ?_⟩
  obtain ⟨d', h3⟩ := h2 following
  refine ⟨d', ?_⟩
  rw [h3]
  simp [Dec.offs, Enc.vals, storeAll, store, hd, storesOf, fieldBytes, sub]

/-- The restriction of `C05_int64_partial` is exact: for any other sequence encoding hits undefined behaviour or
the decoder rejects the bytes. -/
theorem C05_int64_exact (F : FloatOps) (off doff : Nat) (hdo : doff ≠ kDecodeButSkipStore) (signed : Bool)
    (pts : List (List Byte)) (hin : Inside pts off 8) :
    Survives F (.int off 8 signed 0#64) (.int doff 8 0#64) doff (fun p => fieldBytes p off 8) pts ↔
      DiffsFit 0 (pts.map fun p => some (intValue off 8 signed p)) := by
  refine ⟨?_, C05_int64_partial F off doff 8 hdo signed (by decide) pts hin⟩
  have key : ∀ (prev : BitVec 64) e' bytes, encodeSeq F (.int off 8 signed prev) pts = .ok (e', bytes) →
      (∃ r, decodeSeq F (.int doff 8 prev) pts.length bytes = .ok r) →
      DiffsFit prev.toInt (pts.map fun p => some (intValue off 8 signed p)) := by
    induction pts with
    | nil => intros; trivial
    | cons p ps ih =>
      intro prev e' bytes he hdec
      simp only [encodeSeq, Enc.step, readAt_ok (hin p (by simp)), Res.ok_bind, Res.bind_eq_ok] at he
      obtain ⟨⟨e1, b1⟩, ⟨diff, hd, he1⟩, ⟨e2, b2⟩, h2, he⟩ := he
      simp only [Res.ok.injEq, Prod.mk.injEq] at he1 he
      obtain ⟨rfl, rfl⟩ := he1
      obtain ⟨rfl, rfl⟩ := he
      have hd2 := hd
      rw [subI64_eq_ok] at hd2
      have hdiff := hd2.2
      obtain ⟨r, hdec⟩ := hdec
      by_cases hm : diff = BitVec.intMin 64
      · exfalso
        subst hm
        have : encodeVarint64 (BitVec.intMin 64) = [0#8] := by decide +kernel
        rw [this] at hdec
        simp [decodeSeq, Dec.step, decodeVarint, decodeVarintRaw] at hdec
      · simp only [List.length_cons, decodeSeq, Dec.step, decodeVarint_encode _ _ hm, Res.ok_bind,
          addI64_sub hd, List.drop_left] at hdec
        rw [Res.bind_eq_ok] at hdec
        obtain ⟨r2, hr2, _⟩ := hdec
        have hk := diff_ok.1 ⟨by rw [← hdiff]; exact hd, by rw [← hdiff]; exact hm⟩
        exact ⟨hk.1, hk.2, ih (fun q hq => hin q (by simp [hq])) _ _ _ h2 ⟨r2, hr2⟩⟩
  rintro ⟨e', bytes, h1, h2⟩
  obtain ⟨d', h3⟩ := h2 []
  rw [List.append_nil] at h3
  exact key _ _ _ h1 ⟨_, h3⟩

/-- A one-point INT64 field holding INT64_MIN does not survive, for any float arithmetic. -/
theorem C05_int64_fails (F : FloatOps) :
    ¬ ∀ pts : List (List Byte), Inside pts 0 8 →
      Survives F (.int 0 8 true 0#64) (.int 0 8 0#64) 0 (fun p => fieldBytes p 0 8) pts := by
  intro h
  have h1 := (C05_int64_exact F 0 0 (by decide) true [toLE 8 (2 ^ 63)] (by simp [Inside])).1
    (h _ (by simp [Inside]))
  revert h1
  decide +kernel

/-- `size ≤ 4` covers the types INT16, UINT16, INT32, UINT32; the three hypotheses are met by any layout with
the field inside the point. -/
example : Inside [toLE 8 0x1122, toLE 8 0xffff] 2 4 ∧ (4 : Nat) ≠ kDecodeButSkipStore := by
  constructor
  · intro p hp; simp at hp; rcases hp with rfl | rfl <;> simp
  · decide
example : DiffsFit 0 ([toLE 8 (2 ^ 62), toLE 8 5, toLE 8 (2 ^ 64 - 7)].map fun p => some (intValue 0 8 true p)) := by
  decide +kernel

/-! ## C06 byte-wide and copied fields are lossless -/

/-- **C06, the codec.** Copied fields of any size. -/
theorem C06_copy (F : FloatOps) (off doff size : Nat) (hd : doff ≠ kDecodeButSkipStore)
    (pts : List (List Byte)) (hin : Inside pts off size) :
    Survives F (.copy off size) (.copy doff size) doff (fun p => fieldBytes p off size) pts := by
  have hc : SeqClean F (.copy off size) pts := by
    induction pts with
    | nil => trivial
    | cons p ps ih =>
      refine ⟨trivial, .copy off size, sub p off size, ?_, ih (fun q hq => hin q (by simp [hq]))⟩
      simp only [Enc.step, readAt_ok (hin p (by simp)), Res.ok_bind]
  obtain ⟨e', bytes, h1, _, h2⟩ := seq_roundtrip F pts (.copy off size) (.copy doff size) rfl hc
  refine ⟨e', bytes, h1, fun following => ?_⟩
  obtain ⟨d', h3⟩ := h2 following
  exact ⟨d', by rw [h3]; simp [Dec.offs, Enc.vals, storeAll, store, hd, storesOf, fieldBytes, sub]⟩

/-- **C06, which fields take that path**: INT8/UINT8 under every option and version, and FLOAT32 without a
resolution unless the option is LOSSLESS.  Encoder and decoder agree. -/
theorem C06_selection (F : FloatOps) (info : EncodingInfo) (f : PointField)
    (h : f.type = .int8 ∨ f.type = .uint8 ∨
      (f.type = .float32 ∧ f.resolution = none ∧ info.encoding_opt ≠ .lossless)) :
    ∃ size, size = sizeOf f.type ∧ createEncoder F info f = .ok (.copy f.offset.toNat size) ∧
      createDecoder F info f = .ok (.copy f.offset.toNat size) := by
  refine ⟨_, rfl, ?_⟩
  rcases h with h | h | ⟨h1, h2, h3⟩
  · simp [createEncoder, createDecoder, h, sizeOf]
  · simp [createEncoder, createDecoder, h, sizeOf]
  · simp [createEncoder, createDecoder, h1, h2, h3, sizeOf]

/-- Encoder and decoder as created for one field of an info. -/
def FieldSurvives (F : FloatOps) (info : EncodingInfo) (f : PointField) (pts : List (List Byte)) : Prop :=
  ∃ e d, createEncoder F info f = .ok e ∧ createDecoder F info f = .ok d ∧
    Survives F e d f.offset.toNat (fun p => fieldBytes p f.offset.toNat (sizeOf f.type)) pts

/-- **C06, by field type.** -/
theorem C06_copied_fields (F : FloatOps) (info : EncodingInfo) (f : PointField)
    (h : f.type = .int8 ∨ f.type = .uint8 ∨
      (f.type = .float32 ∧ f.resolution = none ∧ info.encoding_opt ≠ .lossless))
    (hd : f.offset.toNat ≠ kDecodeButSkipStore)
    (pts : List (List Byte)) (hin : Inside pts f.offset.toNat (sizeOf f.type)) :
    FieldSurvives F info f pts := by
  obtain ⟨size, rfl, h1, h2⟩ := C06_selection F info f h
  exact ⟨_, _, h1, h2, C06_copy F _ _ _ hd pts hin⟩

/-- **C06, under EncodingOptions::NONE.** The V5 codec is never used, and of the lists of encoders and decoders that are
used instead the `k`-th ones make the `k`-th field survive bit for bit, whatever its type and whether or not it carries a
resolution. -/
theorem C06_none (F : FloatOps) (info : EncodingInfo) (hn : info.encoding_opt = .none) :
    usesV5 info = false ∧ ∃ es ds min, buildV4Encoders F info = .ok es ∧ buildDecoders F info = .ok (ds, min) ∧
      es.length = info.fields.length ∧ ds.length = info.fields.length ∧
      ∀ (k : Nat) (f : PointField), info.fields[k]? = some f → f.offset.toNat ≠ kDecodeButSkipStore → ∃ e d, es[k]? = some e ∧ ds[k]? = some d ∧
        ∀ pts, Inside pts f.offset.toNat (sizeOf f.type) →
          Survives F e d f.offset.toNat (fun p => fieldBytes p f.offset.toNat (sizeOf f.type)) pts := by
  have hv : usesV5 info = false := by simp [usesV5, hn]
  refine ⟨hv, _, _, _, by unfold buildV4Encoders; rw [if_pos hn], by unfold buildDecoders; rw [hv]; unfold buildV4Decoders; rw [if_pos hn]; rfl, by simp, by simp, ?_⟩
  intro k f hk hd
  refine ⟨.copy f.offset.toNat (sizeOf f.type), .copy f.offset.toNat (sizeOf f.type), by simp [hk], by simp [hk], ?_⟩
  intro pts hin
  exact C06_copy F _ _ _ hd pts hin

example : ({ type := .float32 } : PointField).resolution = none ∧ EncOpt.lossy ≠ EncOpt.lossless ∧
    Inside [[1#8, 2#8, 3#8, 4#8, 5#8], [9#8, 8#8, 7#8, 6#8, 5#8]] 1 4 := by
  refine ⟨rfl, by decide, ?_⟩
  intro p hp; simp at hp; rcases hp with rfl | rfl <;> simp

/-! ## C07 XOR float coding is bit-exact -/

theorem C07_xor_exact (F : FloatOps) (off doff size : Nat) (hd : doff ≠ kDecodeButSkipStore) (hs : size ≤ 8)
    (pts : List (List Byte)) (hin : Inside pts off size) :
    Survives F (.xor off size 0#64) (.xor doff size 0#64) doff (fun p => fieldBytes p off size) pts := by
  have key : ∀ prev, SeqClean F (.xor off size prev) pts := by
    induction pts with
    | nil => intro; trivial
    | cons p ps ih =>
      intro prev
      refine ⟨trivial, .xor off size (BitVec.ofNat 64 (fromLE (sub p off size))),
        toLE size (BitVec.ofNat 64 (fromLE (sub p off size)) ^^^ prev).toNat, ?_,
        ih (fun q hq => hin q (by simp [hq])) _⟩
      simp only [Enc.step, readAt_ok (hin p (by simp)), Res.ok_bind]
  obtain ⟨e', bytes, h1, _, h2⟩ := seq_roundtrip F pts (.xor off size 0#64) (.xor doff size 0#64)
    ⟨rfl, rfl, hs, Nat.two_pow_pos _⟩ (key _)
  refine ⟨e', bytes, h1, fun following => ?_⟩
  obtain ⟨d', h3⟩ := h2 following
  exact ⟨d', by rw [h3]; simp [Dec.offs, Enc.vals, storeAll, store, hd, storesOf, fieldBytes, sub]⟩

/-- Each call writes exactly the size of the float. -/
theorem C07_xor_size (F : FloatOps) (off size : Nat) (prev : BitVec 64) (p : List Byte) (hp : off + size ≤ p.length) :
    ∃ e' bs, Enc.step F p (.xor off size prev) = .ok (e', bs) ∧ bs.length = size := by
  refine ⟨.xor off size (BitVec.ofNat 64 (fromLE (sub p off size))),
    toLE size (BitVec.ofNat 64 (fromLE (sub p off size)) ^^^ prev).toNat, ?_, ?_⟩
  · simp only [Enc.step, readAt_ok hp, Res.ok_bind]
  · simp

example : Inside [toLE 4 0x7fc00001, toLE 4 0x80000000, toLE 4 0xff800000] 0 4 := by
  intro p hp; simp at hp; rcases hp with rfl | rfl | rfl <;> simp

/-! ## C08 Gorilla float coding is bit-exact -/

theorem C08_gorilla_exact (F : FloatOps) (off doff size : Nat) (hd : doff ≠ kDecodeButSkipStore)
    (hs : size = 4 ∨ size = 8) (pts : List (List Byte)) (hin : Inside pts off size) :
    Survives F (.gorilla off size {}) (.gorilla doff size {}) doff (fun p => fieldBytes p off size) pts := by
  have key : ∀ st, SeqClean F (.gorilla off size st) pts := by
    induction pts with
    | nil => intro; trivial
    | cons p ps ih =>
      intro st
      refine ⟨trivial, .gorilla off size (gorillaEncode (8 * size) st (BitVec.ofNat 64 (fromLE (sub p off size)))).1,
        (gorillaEncode (8 * size) st (BitVec.ofNat 64 (fromLE (sub p off size)))).2, ?_,
        ih (fun q hq => hin q (by simp [hq])) _⟩
      simp only [Enc.step, readAt_ok (hin p (by simp)), Res.ok_bind]
  obtain ⟨e', bytes, h1, _, h2⟩ := seq_roundtrip F pts (.gorilla off size {}) (.gorilla doff size {})
    ⟨rfl, rfl, hs, gorillaInv_init _⟩ (key _)
  refine ⟨e', bytes, h1, fun following => ?_⟩
  obtain ⟨d', h3⟩ := h2 following
  exact ⟨d', by rw [h3]; simp [Dec.offs, Enc.vals, storeAll, store, hd, storesOf, fieldBytes, sub]⟩

/-- Each call writes a whole number of bytes: at least 1 and at most `size + 2` (10 for double, 6 for float),
after any history of calls. -/
theorem C08_gorilla_size (F : FloatOps) (off size : Nat) (hs : size = 4 ∨ size = 8) (history : List (List Byte))
    (hin : Inside history off size) (p : List Byte) (hp : off + size ≤ p.length) :
    ∃ e bytes e' bs, encodeSeq F (.gorilla off size {}) history = .ok (e, bytes) ∧
      Enc.step F p e = .ok (e', bs) ∧ 1 ≤ bs.length ∧ bs.length ≤ size + 2 := by
  have key : ∀ st, GorillaInv (8 * size) st → ∃ st' bytes,
      encodeSeq F (.gorilla off size st) history = .ok (.gorilla off size st', bytes) ∧ GorillaInv (8 * size) st' := by
    induction history with
    | nil => intro st h; exact ⟨st, [], rfl, h⟩
    | cons q qs ih =>
      intro st h
      have hq := hin q (by simp)
      have hcur : (BitVec.ofNat 64 (fromLE (sub q off size))).toNat < 2 ^ (8 * size) := by
        have := fromLE_lt (sub q off size)
        rw [sub_length hq, pow256] at this
        exact Nat.lt_of_le_of_lt (by rw [BitVec.toNat_ofNat]; exact Nat.mod_le _ _) this
      obtain ⟨g1, _, _, _⟩ := gorilla_step (8 * size) (by omega) st h _ hcur
      obtain ⟨st', bytes, h1, h2⟩ := ih (fun q hq => hin q (by simp [hq])) _ g1
      refine ⟨st', (gorillaEncode (8 * size) st (BitVec.ofNat 64 (fromLE (sub q off size)))).2 ++ bytes, ?_, h2⟩
      simp only [encodeSeq, Enc.step, readAt_ok hq, Res.ok_bind, h1]
  obtain ⟨st', bytes, h1, h2⟩ := key {} (gorillaInv_init _)
  have hcur : (BitVec.ofNat 64 (fromLE (sub p off size))).toNat < 2 ^ (8 * size) := by
    have := fromLE_lt (sub p off size)
    rw [sub_length hp, pow256] at this
    exact Nat.lt_of_le_of_lt (by rw [BitVec.toNat_ofNat]; exact Nat.mod_le _ _) this
  obtain ⟨_, g2, g3, _⟩ := gorilla_step (8 * size) (by omega) st' h2 _ hcur
  refine ⟨_, bytes, .gorilla off size (gorillaEncode (8 * size) st' (BitVec.ofNat 64 (fromLE (sub p off size)))).1,
    (gorillaEncode (8 * size) st' (BitVec.ofNat 64 (fromLE (sub p off size)))).2, h1, ?_, g2, ?_⟩
  · simp only [Enc.step, readAt_ok hp, Res.ok_bind]
  · omega

example : Inside [toLE 8 0x3ff0000000000000, toLE 8 0x3ff8000000000000, toLE 8 0x7ff8dead00000000] 0 8 := by
  intro p hp; simp at hp; rcases hp with rfl | rfl | rfl <;> simp

/-! ## C09 lossy decoding has no drift and no memory -/

/-- The float at an offset of a point. -/
def float32At (p : List Byte) (off : Nat) : BitVec 32 := BitVec.ofNat 32 (fromLE (fieldBytes p off 4))
def float64At (p : List Byte) (off : Nat) : BitVec 64 := BitVec.ofNat 64 (fromLE (fieldBytes p off 8))

/-- The history of quantised integers of a float column; `none` for NaN. -/
def quantised32 (F : FloatOps) (r : BitVec 32) (off : Nat) (p : List Byte) : Option Int :=
  if isNaN32 (float32At p off) then none else (F.quant32 r (float32At p off)).map (·.toInt)
def quantised64 (F : FloatOps) (r : BitVec 32) (off : Nat) (p : List Byte) : Option Int :=
  if isNaN64 (float64At p off) then none else (F.quant64 r (float64At p off)).map (·.toInt)

/-- The quantisation of every non-NaN value is defined (no out-of-range float to integer conversion). -/
def Defined32 (F : FloatOps) (r : BitVec 32) (off : Nat) (pts : List (List Byte)) : Prop :=
  ∀ p ∈ pts, isNaN32 (float32At p off) = false → (F.quant32 r (float32At p off)).isSome = true
def Defined64 (F : FloatOps) (r : BitVec 32) (off : Nat) (pts : List (List Byte)) : Prop :=
  ∀ p ∈ pts, isNaN64 (float64At p off) = false → (F.quant64 r (float64At p off)).isSome = true

/-- Memoryless result: quiet NaN for NaN, else dequantize(quantize(x)). -/
def memoryless32 (F : FloatOps) (r x : BitVec 32) : BitVec 32 :=
  if isNaN32 x then qNaN32 else
    match F.quant32 r x with
    | some q => F.dequant32 r q
    | none => 0
def memoryless64 (F : FloatOps) (r : BitVec 32) (x : BitVec 64) : BitVec 64 :=
  if isNaN64 x then qNaN64 else
    match F.quant64 r x with
    | some q => F.dequant64 r q
    | none => 0
def memorylessV (F : FloatOps) (r x : BitVec 32) : BitVec 32 :=
  if isNaN32 x then qNaN32 else F.dequantV r (F.quantV r x)

/-- **C09, scalar float path (partial).** Missing: columns with a step between consecutive quantised values
of 2^63 or more (`C09_intMin_step_fails`), or values whose quantisation is undefined. -/
theorem C09_lossy32_partial (F : FloatOps) (off doff : Nat) (hd : doff ≠ kDecodeButSkipStore) (r : BitVec 32)
    (pts : List (List Byte)) (hin : Inside pts off 4) (hdef : Defined32 F r off pts)
    (hfit : DiffsFit 0 (pts.map (quantised32 F r off))) :
    Survives F (.lossy32 off r 0#64) (.lossy32 doff r 0#64) doff
      (fun p => toLE 4 (memoryless32 F r (float32At p off)).toNat) pts := by
  have key : ∀ prev : BitVec 64, DiffsFit prev.toInt (pts.map (quantised32 F r off)) →
      SeqClean F (.lossy32 off r prev) pts := by
    clear hfit
    induction pts with
    | nil => intros; trivial
    | cons p ps ih =>
      intro prev hf
      have hp := hin p (by simp)
      simp only [List.map_cons, quantised32] at hf
      by_cases hn : isNaN32 (float32At p off) = true
      · simp only [hn, if_true, DiffsFit] at hf
        refine ⟨Or.inl hn, .lossy32 off r 0#64, [0#8], ?_,
          ih (fun q hq => hin q (by simp [hq])) (fun q hq => hdef q (by simp [hq])) _ hf⟩
        simp only [Enc.step, readAt_ok hp, Res.ok_bind]
        exact if_pos hn
      · have hs := hdef p (by simp) (by simpa using hn)
        obtain ⟨q, hq⟩ := Option.isSome_iff_exists.1 hs
        simp only [hn, hq, Option.map_some, DiffsFit, Bool.false_eq_true, if_false] at hf
        obtain ⟨h1, h2, h3⟩ := hf
        have hk := diff_ok.2 ⟨h1, h2⟩
        refine ⟨Or.inr ⟨q, hq, hk.2⟩, .lossy32 off r q, encodeVarint64 (q - prev), ?_,
          ih (fun q hq => hin q (by simp [hq])) (fun q hq => hdef q (by simp [hq])) _ h3⟩
        simp only [Enc.step, readAt_ok hp, Res.ok_bind]
        refine (if_neg hn).trans ?_
        change (match F.quant32 r (float32At p off) with | none => _ | some value => _) = _
        simp only [hq, hk.1, Res.ok_bind]
  obtain ⟨e', bytes, h1, _, h2⟩ := seq_roundtrip F pts (.lossy32 off r 0#64) (.lossy32 doff r 0#64)
    ⟨rfl, rfl⟩ (key _ hfit)
  refine ⟨e', bytes, h1, fun following => ?_⟩
  obtain ⟨d', h3⟩ := h2 following
  refine ⟨d', ?_⟩
  rw [h3]
  simp only [Dec.offs, Enc.vals, storeAll, store, hd, storesOf, if_false, List.append_nil]
  congr 3
  apply List.map_congr_left
  intro p hp
  have he : lossy32Val F r (f32At p off) = memoryless32 F r (float32At p off) := by
    unfold lossy32Val memoryless32
    change (if isNaN32 (float32At p off) = true then _ else F.dequant32 r ((F.quant32 r (float32At p off)).getD 0)) = _
    by_cases hn : isNaN32 (float32At p off) = true
    · simp only [hn, if_true]
    · obtain ⟨q, hq⟩ := Option.isSome_iff_exists.1 (hdef p hp (by simpa using hn))
      simp only [hn, hq, Option.getD_some, Bool.false_eq_true, if_false]
  rw [he]

/-- **C09, double (partial).** As above. -/
theorem C09_lossy64_partial (F : FloatOps) (off doff : Nat) (hd : doff ≠ kDecodeButSkipStore) (r : BitVec 32)
    (pts : List (List Byte)) (hin : Inside pts off 8) (hdef : Defined64 F r off pts)
    (hfit : DiffsFit 0 (pts.map (quantised64 F r off))) :
    Survives F (.lossy64 off r 0#64) (.lossy64 doff r 0#64) doff
      (fun p => toLE 8 (memoryless64 F r (float64At p off)).toNat) pts := by
  have key : ∀ prev : BitVec 64, DiffsFit prev.toInt (pts.map (quantised64 F r off)) →
      SeqClean F (.lossy64 off r prev) pts := by
    clear hfit
    induction pts with
    | nil => intros; trivial
    | cons p ps ih =>
      intro prev hf
      have hp := hin p (by simp)
      simp only [List.map_cons, quantised64] at hf
      by_cases hn : isNaN64 (float64At p off) = true
      · simp only [hn, if_true, DiffsFit] at hf
        refine ⟨Or.inl hn, .lossy64 off r 0#64, [0#8], ?_,
          ih (fun q hq => hin q (by simp [hq])) (fun q hq => hdef q (by simp [hq])) _ hf⟩
        simp only [Enc.step, readAt_ok hp, Res.ok_bind]
        exact if_pos hn
      · have hs := hdef p (by simp) (by simpa using hn)
        obtain ⟨q, hq⟩ := Option.isSome_iff_exists.1 hs
        simp only [hn, hq, Option.map_some, DiffsFit, Bool.false_eq_true, if_false] at hf
        obtain ⟨h1, h2, h3⟩ := hf
        have hk := diff_ok.2 ⟨h1, h2⟩
        refine ⟨Or.inr ⟨q, hq, hk.2⟩, .lossy64 off r q, encodeVarint64 (q - prev), ?_,
          ih (fun q hq => hin q (by simp [hq])) (fun q hq => hdef q (by simp [hq])) _ h3⟩
        simp only [Enc.step, readAt_ok hp, Res.ok_bind]
        refine (if_neg hn).trans ?_
        change (match F.quant64 r (float64At p off) with | none => _ | some value => _) = _
        simp only [hq, hk.1, Res.ok_bind]
  obtain ⟨e', bytes, h1, _, h2⟩ := seq_roundtrip F pts (.lossy64 off r 0#64) (.lossy64 doff r 0#64)
    ⟨rfl, rfl⟩ (key _ hfit)
  refine ⟨e', bytes, h1, fun following => ?_⟩
  obtain ⟨d', h3⟩ := h2 following
  refine ⟨d', ?_⟩
  rw [h3]
  simp only [Dec.offs, Enc.vals, storeAll, store, hd, storesOf, if_false, List.append_nil]
  congr 3
  apply List.map_congr_left
  intro p hp
  have he : lossy64Val F r (f64At p off) = memoryless64 F r (float64At p off) := by
    unfold lossy64Val memoryless64
    change (if isNaN64 (float64At p off) = true then _ else F.dequant64 r ((F.quant64 r (float64At p off)).getD 0)) = _
    by_cases hn : isNaN64 (float64At p off) = true
    · simp only [hn, if_true]
    · obtain ⟨q, hq⟩ := Option.isSome_iff_exists.1 (hdef p hp (by simpa using hn))
      simp only [hn, hq, Option.getD_some, Bool.false_eq_true, if_false]
  rw [he]

/-- Steps of the 32-bit quantised values of one lane (`none` = NaN restarts at 0) fit an `int32_t`. -/
def DiffsFit32 : Int → List (Option Int) → Prop
  | _, [] => True
  | _, none :: xs => DiffsFit32 0 xs
  | p, some v :: xs => -2 ^ 31 ≤ v - p ∧ v - p < 2 ^ 31 ∧ DiffsFit32 v xs

instance DiffsFit32.dec : ∀ p xs, Decidable (DiffsFit32 p xs)
  | _, [] => isTrue trivial
  | _, none :: xs => DiffsFit32.dec 0 xs
  | p, some v :: xs =>
    have := DiffsFit32.dec v xs
    inferInstanceAs (Decidable (-2 ^ 31 ≤ v - p ∧ v - p < 2 ^ 31 ∧ DiffsFit32 v xs))

def quantisedV (F : FloatOps) (r : BitVec 32) (off : Nat) (p : List Byte) : Option Int :=
  if isNaN32 (float32At p off) then none else some (F.quantV r (float32At p off)).toInt

theorem lane_seqClean (F : FloatOps) (pts : List (List Byte)) (ls : List Lane)
    (hin : ∀ l ∈ ls, Inside pts l.off 4) (h4 : ls.length < 4 → ∀ p ∈ pts, 4 ≤ p.length)
    (hfit : ∀ l ∈ ls, DiffsFit32 l.prev.toInt (pts.map (quantisedV F l.res l.off))) :
    SeqClean F (.floatN ls) pts := by
  induction pts generalizing ls with
  | nil => trivial
  | cons p ps ih =>
    have hclean : ∀ l ∈ ls, LaneClean F p l := by
      intro l hl
      have := hfit l hl
      simp only [List.map_cons, quantisedV] at this
      by_cases hn : isNaN32 (float32At p l.off) = true
      · exact Or.inl hn
      · simp only [hn, DiffsFit32, Bool.false_eq_true, if_false] at this
        refine Or.inr ?_
        change BitVec.ssubOverflow (F.quantV l.res (float32At p l.off)) l.prev = false
        simp only [BitVec.ssubOverflow, Bool.or_eq_false_iff, decide_eq_false_iff_not]
        omega
    have hstep : ∀ ls : List Lane, (∀ l ∈ ls, Inside (p :: ps) l.off 4) →
        (∀ l ∈ ls, DiffsFit32 l.prev.toInt ((p :: ps).map (quantisedV F l.res l.off))) →
        ∃ ls' bs, lanesEncode F p ls = .ok (ls', bs) ∧ ls'.length = ls.length ∧
          (∀ l ∈ ls', Inside ps l.off 4) ∧
          (∀ l ∈ ls', DiffsFit32 l.prev.toInt (ps.map (quantisedV F l.res l.off))) := by
      intro ls
      induction ls with
      | nil => intros; exact ⟨[], [], rfl, rfl, by simp, by simp⟩
      | cons l ls ihl =>
        intro hi hf
        obtain ⟨ls', bs, g1, g2, g3, g4⟩ := ihl (fun a ha => hi a (by simp [ha])) (fun a ha => hf a (by simp [ha]))
        have hl := hf l (by simp)
        have hlin := hi l (by simp) p (by simp)
        have : ∃ l' b, laneEncode F p l = .ok (l', b) ∧ l'.off = l.off ∧ l'.res = l.res ∧
            DiffsFit32 l'.prev.toInt (ps.map (quantisedV F l.res l.off)) := by
          unfold laneEncode
          rw [readAt_ok hlin]
          simp only [Res.ok_bind]
          change ∃ l' b, (if isNaN32 (float32At p l.off) = true then _ else _) = _ ∧ _
          simp only [List.map_cons, quantisedV] at hl
          by_cases hn : isNaN32 (float32At p l.off) = true
          · simp only [hn, if_true, DiffsFit32] at hl
            rw [if_pos hn]
            exact ⟨_, _, rfl, rfl, rfl, hl⟩
          · simp only [hn, DiffsFit32, Bool.false_eq_true, if_false] at hl
            rw [if_neg hn]
            exact ⟨_, _, rfl, rfl, rfl, hl.2.2⟩
        obtain ⟨l', b, k1, k2, k3, k4⟩ := this
        refine ⟨l' :: ls', b ++ bs, by simp only [lanesEncode, k1, g1, Res.ok_bind], by simp [g2], ?_, ?_⟩
        · intro a ha
          simp only [List.mem_cons] at ha
          rcases ha with rfl | ha
          · rw [k2]; exact fun q hq => hi l (by simp) q (by simp [hq])
          · exact g3 a ha
        · intro a ha
          simp only [List.mem_cons] at ha
          rcases ha with rfl | ha
          · rw [k2, k3]; exact k4
          · exact g4 a ha
    obtain ⟨ls', bs, g1, g2, g3, g4⟩ := hstep ls hin hfit
    refine ⟨hclean, .floatN ls', bs, ?_, ih ls' g3 (fun hl q hq => h4 (by omega) q (by simp [hq])) g4⟩
    have h3 : ∃ x, readUnusedLane p ls.length = .ok x := by
      unfold readUnusedLane
      by_cases hl : ls.length < 4
      · rw [if_pos hl]
        exact ⟨_, readAt_ok (by have := h4 hl p (by simp); omega)⟩
      · rw [if_neg hl]; exact ⟨[], rfl⟩
    obtain ⟨x, hx⟩ := h3
    simp only [Enc.step, hx, Res.ok_bind, g1]

/-- A source lane and a destination lane of the vector codec. -/
structure LanePair where
  off : Nat
  doff : Nat
  res : BitVec 32

/-- **C09, vector path (partial).** 3 or 4 lanes (any non-zero number): each lane of each point is decoded to the
memoryless value.  Missing: lanes in which consecutive quantised values differ by 2^31 or more: the decoder's
`int32_t` addition then overflows (undefined). -/
theorem C09_vector_partial (F : FloatOps) (ps : List LanePair) (hne : ps ≠ [])
    (pts : List (List Byte)) (hd : ∀ l ∈ ps, l.doff ≠ kDecodeButSkipStore)
    (hin : ∀ l ∈ ps, Inside pts l.off 4)
    (hfit : ∀ l ∈ ps, DiffsFit32 0 (pts.map (quantisedV F l.res l.off))) :
    ∃ e' bytes, encodeSeq F (.floatN (ps.map fun l => ⟨l.off, l.res, 0⟩)) pts = .ok (e', bytes) ∧
      ∀ following, ∃ d', decodeSeq F (.floatN (ps.map fun l => ⟨l.doff, l.res, 0⟩)) pts.length (bytes ++ following) =
        .ok (d', pts.map (fun p => ps.map fun l => (l.doff, toLE 4 (memorylessV F l.res (float32At p l.off)).toNat)),
          following) := by
  have hm : Matches (.floatN (ps.map fun l => ⟨l.off, l.res, 0⟩)) (.floatN (ps.map fun l => ⟨l.doff, l.res, 0⟩)) := by
    refine ⟨by simpa using hne, ?_⟩
    clear hne hd hin hfit
    induction ps with
    | nil => trivial
    | cons l ls ih => exact ⟨rfl, rfl, ih⟩
  have hc : SeqClean F (.floatN (ps.map fun l => ⟨l.off, l.res, 0⟩)) pts := by
    apply lane_seqClean
    · intro l hl
      simp only [List.mem_map] at hl
      obtain ⟨a, ha, rfl⟩ := hl
      exact hin a ha
    · intro _ p hp
      obtain ⟨a, as, rfl⟩ := List.exists_cons_of_ne_nil hne
      have := hin a (by simp) p hp
      omega
    · intro l hl
      simp only [List.mem_map] at hl
      obtain ⟨a, ha, rfl⟩ := hl
      exact hfit a ha
  obtain ⟨e', bytes, h1, hlen, h2⟩ := seq_roundtrip F pts _ _ hm hc
  refine ⟨e', bytes, h1, fun following => ?_⟩
  obtain ⟨d', h3⟩ := h2 following
  refine ⟨d', ?_⟩
  rw [h3]
  congr 3
  apply List.map_congr_left
  intro p hp
  simp only [Dec.offs, Enc.vals, List.map_map]
  clear hm hc hne hin hfit h1 h2 h3 hlen
  induction ps with
  | nil => rfl
  | cons l ls ih =>
    simp only [List.map_cons, storeAll, Function.comp]
    rw [ih (fun a ha => hd a (by simp [ha]))]
    simp only [store, hd l (by simp), if_false]
    rfl

/-- A toy arithmetic used as witness: quantisation reinterprets the bits of a double. -/
def bitsOps : FloatOps where
  resNonPos := fun _ => false
  invNonPos := fun _ => false
  quant32 := fun _ x => some (x.setWidth 64)
  dequant32 := fun _ q => q.setWidth 32
  quant64 := fun _ x => some x
  dequant64 := fun _ q => q
  quantV := fun _ x => x
  dequantV := fun _ q => q

/-- The restriction on steps is needed: a step of exactly -2^63 between two ordinary values decodes as NaN
(here for one particular arithmetic in which such a step occurs). -/
theorem C09_intMin_step_fails :
    ¬ ∀ (F : FloatOps) (r : BitVec 32) (pts : List (List Byte)), Inside pts 0 8 → Defined64 F r 0 pts →
      Survives F (.lossy64 0 r 0#64) (.lossy64 0 r 0#64) 0
        (fun p => toLE 8 (memoryless64 F r (float64At p 0)).toNat) pts := by
  intro h
  obtain ⟨e', bytes, h1, h2⟩ := h bitsOps 0 [toLE 8 (2 ^ 63)] (by simp [Inside]) (by intro p _ _; rfl)
  obtain ⟨d', h3⟩ := h2 []
  have e1 : encodeSeq bitsOps (.lossy64 0 0 0#64) [toLE 8 (2 ^ 63)]
      = .ok (.lossy64 0 0 (BitVec.intMin 64), [0#8]) := by decide +kernel
  rw [e1] at h1
  simp only [Res.ok.injEq, Prod.mk.injEq] at h1
  obtain ⟨_, rfl⟩ := h1
  have e2 : decodeSeq bitsOps (.lossy64 0 0 0#64) 1 [0#8] =
      .ok (.lossy64 0 0 0#64, [[(0, toLE 8 qNaN64.toNat)]], []) := by
    simp [decodeSeq, Dec.step, store, kDecodeButSkipStore]
  simp only [List.length_cons, List.length_nil, Nat.zero_add, List.append_nil] at h3
  rw [e2] at h3
  simp only [Res.ok.injEq, Prod.mk.injEq] at h3
  have h4 := h3.2.1
  revert h4; decide +kernel

example : Inside [toLE 4 17, toLE 4 0x7fc00000, toLE 4 5] 0 4 ∧
    Defined32 bitsOps 0 0 [toLE 4 17, toLE 4 0x7fc00000, toLE 4 5] ∧
    DiffsFit 0 ([toLE 4 17, toLE 4 0x7fc00000, toLE 4 5].map (quantised32 bitsOps 0 0)) := by
  refine ⟨?_, fun _ _ _ => rfl, ?_⟩
  · intro p hp; simp at hp; rcases hp with rfl | rfl | rfl <;> simp
  · decide +kernel
example : DiffsFit32 0 ([toLE 4 17, toLE 4 0x7fc00000, toLE 4 5].map (quantisedV bitsOps 0 0)) := by
  decide +kernel

/-! ## C10 NaN in, NaN out - and only there -/

/-- Dequantisation of a value never yields NaN (true of IEEE arithmetic for a finite resolution, see
`Props.C11_C12`; a hypothesis here because the arithmetic is abstract). -/
def DequantNotNaN32 (F : FloatOps) (r : BitVec 32) : Prop := ∀ q, isNaN32 (F.dequant32 r q) = false
def DequantNotNaN64 (F : FloatOps) (r : BitVec 32) : Prop := ∀ q, isNaN64 (F.dequant64 r q) = false
def DequantNotNaNV (F : FloatOps) (r : BitVec 32) : Prop := ∀ q, isNaN32 (F.dequantV r q) = false

/-- **C10.** The decoded value (by C09 the memoryless one) is NaN exactly where the input was. -/
theorem C10_nan_iff (F : FloatOps) (r x : BitVec 32) :
    (DequantNotNaN32 F r → (isNaN32 (memoryless32 F r x) = isNaN32 x)) ∧
    (DequantNotNaNV F r → (isNaN32 (memorylessV F r x) = isNaN32 x)) := by
  have hq : isNaN32 qNaN32 = true := by decide
  constructor
  · intro h
    unfold memoryless32
    by_cases hx : isNaN32 x = true
    · simp [hx, hq]
    · simp only [hx, Bool.false_eq_true, if_false]
      cases F.quant32 r x with
      | none => rfl
      | some q => exact h q
  · intro h
    unfold memorylessV
    by_cases hx : isNaN32 x = true
    · simp [hx, hq]
    · simp only [hx, Bool.false_eq_true, if_false]
      exact h _

theorem C10_nan_iff64 (F : FloatOps) (r : BitVec 32) (x : BitVec 64) (h : DequantNotNaN64 F r) :
    isNaN64 (memoryless64 F r x) = isNaN64 x := by
  have hq : isNaN64 qNaN64 = true := by decide
  unfold memoryless64
  by_cases hx : isNaN64 x = true
  · simp [hx, hq]
  · simp only [hx, Bool.false_eq_true, if_false]
    cases F.quant64 r x with
    | none => rfl
    | some q => exact h q

/-- **C10, separation**: two clouds that agree in one lane decode alike in that lane, whatever the other lanes or
other points contain - NaN or not. (Consequence of the memoryless result: the store for lane `i` of a point is a
function of that lane's bytes.) -/
theorem C10_lanes_separate (F : FloatOps) (r : BitVec 32) (off : Nat) (p q : List Byte)
    (h : fieldBytes p off 4 = fieldBytes q off 4) :
    memorylessV F r (float32At p off) = memorylessV F r (float32At q off) ∧
      memoryless32 F r (float32At p off) = memoryless32 F r (float32At q off) := by
  unfold float32At; rw [h]; exact ⟨rfl, rfl⟩

/-- Witness arithmetic for the hypotheses of C10: always dequantises to 0. -/
example : DequantNotNaN32 { bitsOps with dequant32 := fun _ _ => 0 } 7 ∧
    DequantNotNaNV { bitsOps with dequantV := fun _ _ => 0 } 7 ∧
    DequantNotNaN64 { bitsOps with dequant64 := fun _ _ => 0 } 7 :=
  ⟨fun _ => rfl, fun _ => rfl, fun _ => rfl⟩

/-! ## The theorems applied to concrete data -/

/-- Two 8-byte points. -/
theorem inside_two (a b : Nat) (off size : Nat) (h : off + size ≤ 8) : Inside [toLE 8 a, toLE 8 b] off size := by
  intro p hp
  simp only [List.mem_cons, List.not_mem_nil, or_false] at hp
  rcases hp with rfl | rfl <;> simpa using h

/-- A 32-bit column stored at offset 2, read back at offset 4. -/
example (F : FloatOps) : Survives F (.int 2 4 true 0#64) (.int 4 4 0#64) 4 (fun p => fieldBytes p 2 4) [toLE 8 0x1122334455667788, toLE 8 5] :=
  C05_int_small F 2 4 4 (by decide) true (by decide) _ (inside_two _ _ _ _ (by decide))
example (F : FloatOps) : FieldSurvives F {} { type := .uint8, offset := 3#32 } [toLE 8 0x1122334455667788, toLE 8 5] :=
  C06_copied_fields F _ _ (Or.inr (Or.inl rfl)) (by decide) _ (inside_two _ _ _ _ (by decide))
example (F : FloatOps) : FieldSurvives F { encoding_opt := .lossy } { type := .float32, offset := 3#32 } [toLE 8 0x1122334455667788, toLE 8 5] :=
  C06_copied_fields F _ _ (Or.inr (Or.inr ⟨rfl, rfl, by decide⟩)) (by decide) _ (inside_two _ _ _ _ (by decide))
/-- Under NONE even a FLOAT32 field with a resolution, next to an INT64 field, is copied. -/
example (F : FloatOps) : ∃ es ds m, buildV4Encoders F { encoding_opt := .none, fields := [{ type := .float32, resolution := some 1 }, { type := .int64, offset := 4#32 }] } = .ok es ∧
    buildDecoders F { encoding_opt := .none, fields := [{ type := .float32, resolution := some 1 }, { type := .int64, offset := 4#32 }] } = .ok (ds, m) ∧
    ∃ e d, es[0]? = some e ∧ ds[0]? = some d ∧ Survives F e d 0 (fun p => fieldBytes p 0 4) [toLE 8 0x1122334455667788, toLE 8 5] := by
  obtain ⟨_, es, ds, m, h1, h2, _, _, h5⟩ := C06_none F { encoding_opt := .none, fields := [{ type := .float32, resolution := some 1 }, { type := .int64, offset := 4#32 }] } rfl
  obtain ⟨e, d, h6, h7, h8⟩ := h5 0 _ rfl (by decide)
  exact ⟨es, ds, m, h1, h2, e, d, h6, h7, h8 _ (inside_two _ _ _ _ (by decide))⟩
/-- A signalling NaN and minus zero through the XOR codec. -/
example (F : FloatOps) : Survives F (.xor 4 4 0#64) (.xor 0 4 0#64) 0 (fun p => fieldBytes p 4 4) [toLE 8 0x7fa00001deadbeef, toLE 8 0x8000000000000000] :=
  C07_xor_exact F 4 0 4 (by decide) (by decide) _ (inside_two _ _ _ _ (by decide))
example (F : FloatOps) : ∃ e' bs, Enc.step F (toLE 8 77) (.xor 0 8 5#64) = .ok (e', bs) ∧ bs.length = 8 :=
  C07_xor_size F 0 8 5#64 _ (by simp)
example (F : FloatOps) : Survives F (.gorilla 0 8 {}) (.gorilla 8 8 {}) 8 (fun p => fieldBytes p 0 8) [toLE 8 0x3ff0000000000000, toLE 8 0x7ff8dead00000000] :=
  C08_gorilla_exact F 0 8 8 (by decide) (Or.inr rfl) _ (inside_two _ _ _ _ (by decide))
example (F : FloatOps) : ∃ e bytes e' bs, encodeSeq F (.gorilla 0 8 {}) [toLE 8 0x3ff0000000000000, toLE 8 0x7ff8dead00000000] = .ok (e, bytes) ∧
    Enc.step F (toLE 8 0x3ff0000000000001) e = .ok (e', bs) ∧ 1 ≤ bs.length ∧ bs.length ≤ 10 :=
  C08_gorilla_size F 0 8 (Or.inr rfl) _ (inside_two _ _ _ _ (by decide)) _ (by simp)
/-- A float column with a NaN in it, a double column, and two lanes. -/
example : Survives bitsOps (.lossy32 4 0 0#64) (.lossy32 0 0 0#64) 0 (fun p => toLE 4 (memoryless32 bitsOps 0 (float32At p 4)).toNat)
    [toLE 8 0x7fc0000000000000, toLE 8 0x4120000000000000] :=
  C09_lossy32_partial bitsOps 4 0 (by decide) 0 _ (inside_two _ _ _ _ (by decide)) (fun _ _ _ => rfl) (by decide +kernel)
example : Survives bitsOps (.lossy64 0 0 0#64) (.lossy64 0 0 0#64) 0 (fun p => toLE 8 (memoryless64 bitsOps 0 (float64At p 0)).toNat)
    [toLE 8 0x3ff0000000000000, toLE 8 0x7ff8000000000000] :=
  C09_lossy64_partial bitsOps 0 0 (by decide) 0 _ (inside_two _ _ _ _ (by decide)) (fun _ _ _ => rfl) (by decide +kernel)
example : ∃ e' bytes, encodeSeq bitsOps (.floatN [⟨0, 0, 0⟩, ⟨4, 0, 0⟩]) [toLE 8 0x7fc0000000000005, toLE 8 0x4120000000000000] = .ok (e', bytes) := by
  obtain ⟨e', bytes, h, _⟩ := C09_vector_partial bitsOps [⟨0, 4, 0⟩, ⟨4, 0, 0⟩] (by simp) [toLE 8 0x7fc0000000000005, toLE 8 0x4120000000000000]
    (by simp [kDecodeButSkipStore]) (by intro l hl; simp only [List.mem_cons, List.not_mem_nil, or_false] at hl; rcases hl with rfl | rfl <;> exact inside_two _ _ _ _ (by decide))
    (by intro l hl; simp only [List.mem_cons, List.not_mem_nil, or_false] at hl; rcases hl with rfl | rfl <;> decide +kernel)
  exact ⟨e', bytes, h⟩
/-- Two points that share the first lane and differ in the second, where one is NaN. -/
example (F : FloatOps) (r : BitVec 32) : memorylessV F r (float32At (toLE 8 0x7fc0000000000005) 0) = memorylessV F r (float32At (toLE 8 5) 0) :=
  (C10_lanes_separate F r 0 _ _ (by decide +kernel)).1
example : isNaN32 (memoryless32 { bitsOps with dequant32 := fun _ _ => 0 } 7 0x7fc00001#32) = true :=
  ((C10_nan_iff { bitsOps with dequant32 := fun _ _ => 0 } 7 0x7fc00001#32).1 (fun _ => rfl)).trans (by decide)

end Cloudini.Props
