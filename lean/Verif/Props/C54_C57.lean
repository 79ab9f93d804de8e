import Verif.Lemmas.FileTrip
import Verif.Model.Wasm
import Verif.Props.C37
import Verif.Props.C51_C53

/-!
# C54–C57: the WebAssembly interface

The functions of `Verif.Model.Wasm` carry the names of the exported functions without `cldn_`.  A result is what the function returns and the bytes it
wrote at the output address.
-/

namespace Cloudini.Props

open Cloudini.Ros Cloudini.Wasm

theorem guarded_noThrow (r : Res Out) : (guarded r).isThrow = false := by cases r <;> rfl
theorem guardedNat_noThrow (r : Res Nat) : (guardedNat r).isThrow = false := by cases r <;> rfl

theorem guarded_some {r : Res Out} {o : Out} {b : List Byte} (h : guarded r = .ok o) (hb : o.bytes = some b) : r = .ok o := by
  cases r with
  | ok a => exact h
  | throw m => simp only [guarded, Res.ok.injEq] at h; subst h; simp at hb
  | ub k => exact h

theorem guardedNat_pos {r : Res Nat} {n : Nat} (h : guardedNat r = .ok n) (hn : n ≠ 0) : r = .ok n := by
  cases r with
  | ok a => exact h
  | throw m => simp only [guardedNat, Res.ok.injEq] at h; exact absurd h.symm hn
  | ub k => exact h

/-! ## C54: exceptions and room -/

/-- **C54, exceptions.** Whatever the input bytes: none of these functions ends with an exception. -/
theorem C54_no_exception (T : FloatText) (F : FloatOps) (C : Compressor) (fuel : Nat) (input mem yaml : List Byte) (res : BitVec 32) :
    (headerYaml T input).isThrow = false ∧ (headerYamlMsg T input).isThrow = false ∧ (computeSize T F C input res).isThrow = false ∧
      (decompressedSize input).isThrow = false ∧ (convertMsg T F C fuel input).isThrow = false ∧ (decodeData T F C fuel input mem).isThrow = false ∧
      (encodeMessage T F C input res).isThrow = false ∧ (Wasm.encodeData T F C yaml input).isThrow = false := by
  refine ⟨guarded_noThrow _, guarded_noThrow _, guardedNat_noThrow _, guardedNat_noThrow _, guarded_noThrow _, ?_, guarded_noThrow _, guarded_noThrow _⟩
  unfold decodeData
  cases decodeHeader T input with
  | ok r =>
    simp only
    split
    · rfl
    · exact guarded_noThrow _
  | throw m => rfl
  | ub k => rfl

/-- **C54 fails for `cldn_DecodeCompressedMessage`**: it ends with an exception exactly when the bytes are not a message. -/
theorem C54_decode_message_throws (T : FloatText) (F : FloatOps) (C : Compressor) (fuel : Nat) (msg mem : List Byte) :
    (decodeMessage T F C fuel msg mem).isThrow = true ↔ (getMessage msg).isThrow = true := by
  unfold decodeMessage
  cases getMessage msg with
  | ok pc => simpa using guarded_noThrow (decodeData T F C fuel pc.data mem)
  | throw m => simp [Res.isThrow]
  | ub k => simp [Res.isThrow]

example (T : FloatText) (F : FloatOps) (C : Compressor) : (decodeMessage T F C 0 [1#8, 2#8, 3#8, 4#8] []).isThrow = true :=
  (C54_decode_message_throws T F C 0 _ _).2 (by decide)

/-- **C54, room.** `cldn_EncodePointcloudMessage` returns the number of bytes it wrote, and that is at most the size of the message (which is
all the room the caller is asked to provide). -/
theorem C54_encode_bounded (T : FloatText) (F : FloatOps) (C : Compressor) (msg b : List Byte) (res : BitVec 32) (n : Nat) (hmsg : msg.length < 2 ^ 32)
    (h : encodeMessage T F C msg res = .ok ⟨n, some b⟩) : b.length = n ∧ n ≤ msg.length := by
  have h := guarded_some h rfl
  obtain ⟨pc, _, h⟩ := Res.bind_eq_ok.1 h
  simp only at h
  by_cases h1 : pc.data.length ≠ cloudDataSize pc
  · rw [if_pos h1] at h
    simp only [Res.ok.injEq, Out.mk.injEq, Option.some.injEq] at h
    rw [← h.1, ← h.2]
    exact ⟨rfl, Nat.zero_le _⟩
  rw [if_neg h1] at h
  obtain ⟨enc, _, h⟩ := Res.bind_eq_ok.1 h
  split at h
  · simp at h
  obtain ⟨m, _, h⟩ := Res.bind_eq_ok.1 h
  split at h
  · obtain ⟨⟨enc', out, k⟩, e, h⟩ := Res.bind_eq_ok.1 h
    simp only [Res.ok.injEq, Out.mk.injEq, Option.some.injEq] at h
    obtain ⟨e1, e2, _⟩ := C23_view_size F C _ _ _ _ _ _ _ e
    obtain ⟨rfl, rfl⟩ := h
    rw [Nat.mod_eq_of_lt (by omega)]
    omega
  · obtain ⟨⟨enc', out, k⟩, e, h⟩ := Res.bind_eq_ok.1 h
    simp only at h
    obtain ⟨_, _, _, _, _, e3⟩ := C23_vector_agrees F C enc enc' _ _ out k e
    by_cases h2 : k > msg.length
    · rw [if_pos h2] at h
      simp only [Res.ok.injEq, Out.mk.injEq, Option.some.injEq] at h
      rw [← h.1, ← h.2]
      exact ⟨rfl, Nat.zero_le _⟩
    rw [if_neg h2] at h
    simp only [Res.ok.injEq, Out.mk.injEq, Option.some.injEq] at h
    obtain ⟨rfl, rfl⟩ := h
    rw [Nat.mod_eq_of_lt (by omega), List.length_take]
    omega

/-- The same for `cldn_EncodePointcloudData`: at most the size of the cloud. -/
theorem C54_encode_data_bounded (T : FloatText) (F : FloatOps) (C : Compressor) (yaml data b : List Byte) (n : Nat) (hdata : data.length < 2 ^ 32)
    (h : Wasm.encodeData T F C yaml data = .ok ⟨n, some b⟩) : b.length = n ∧ n ≤ data.length := by
  have h := guarded_some h rfl
  obtain ⟨info, _, h⟩ := Res.bind_eq_ok.1 h
  simp only at h
  by_cases h1 : data.length ≠ (info.width * info.height * info.point_step).toNat
  · rw [if_pos h1] at h
    simp only [Res.ok.injEq, Out.mk.injEq, Option.some.injEq] at h
    rw [← h.1, ← h.2]
    exact ⟨rfl, Nat.zero_le _⟩
  rw [if_neg h1] at h
  obtain ⟨enc, _, h⟩ := Res.bind_eq_ok.1 h
  obtain ⟨⟨enc', out, k⟩, e, h⟩ := Res.bind_eq_ok.1 h
  simp only at h
  obtain ⟨_, _, _, _, _, e3⟩ := C23_vector_agrees F C enc enc' _ _ out k e
  by_cases h2 : k > data.length
  · rw [if_pos h2] at h
    simp only [Res.ok.injEq, Out.mk.injEq, Option.some.injEq] at h
    rw [← h.1, ← h.2]
    exact ⟨rfl, Nat.zero_le _⟩
  rw [if_neg h2] at h
  simp only [Res.ok.injEq, Out.mk.injEq, Option.some.injEq] at h
  obtain ⟨rfl, rfl⟩ := h
  rw [Nat.mod_eq_of_lt (by omega), List.length_take]
  omega

/-- Two successful encodings of a cloud by one encoder state have the same length, whatever room each had. -/
theorem payload_unique {F : FloatOps} {C : Compressor} (hfree : CapFree C) {enc e1 e2 : Encoder} {cloud p1 p2 : List Byte} {r1 r2 n1 n2 : Nat}
    (h1 : encodeView F C enc cloud r1 false = .ok (e1, p1, n1)) (h2 : encodeView F C enc cloud r2 false = .ok (e2, p2, n2)) : p1 = p2 := by
  obtain ⟨c1, q1, _, _, a1, _, _, a2, a3, _⟩ := encodeView_inv F C enc e1 cloud r1 false p1 n1 h1
  obtain ⟨c2, q2, _, _, b1, _, _, b2, b3, _⟩ := encodeView_inv F C enc e2 cloud r2 false p2 n2 h2
  rw [a1] at b1
  simp only [Res.ok.injEq, Prod.mk.injEq] at b1
  obtain ⟨_, rfl⟩ := b1
  simp only [Bool.false_eq_true, if_false, List.nil_append] at a3 b3
  subst a3 b3
  have := framed_append (.inr hfree) a2 (.nil : Framed C enc.info.compression_opt [] []) (by rw [List.append_nil]; exact b2)
  rw [this, List.append_nil]

/-- **C54, the announced size.** If `cldn_ComputeCompressedSize` and `cldn_EncodePointcloudMessage` both succeed (do not return 0) for a message and a
resolution, they return the same number. -/
theorem C54_compute_agrees (T : FloatText) (F : FloatOps) (C : Compressor) (hfree : CapFree C) (msg b : List Byte) (res : BitVec 32) (n k : Nat)
    (hn : n ≠ 0) (hk : k ≠ 0) (h : encodeMessage T F C msg res = .ok ⟨n, some b⟩) (h' : computeSize T F C msg res = .ok k) : n = k := by
  have h := guarded_some h rfl
  have h' := guardedNat_pos h' hk
  unfold computeBody at h'
  obtain ⟨pc, e0, h⟩ := Res.bind_eq_ok.1 h
  rw [e0] at h'
  simp only [Res.ok_bind] at h h'
  by_cases h1 : pc.data.length ≠ cloudDataSize pc
  · rw [if_pos h1] at h
    simp only [Res.ok.injEq, Out.mk.injEq] at h
    exact absurd h.1.symm hn
  rw [if_neg h1] at h
  obtain ⟨enc, e1, h⟩ := Res.bind_eq_ok.1 h
  rw [e1] at h'
  simp only [Res.ok_bind] at h'
  rw [if_neg (fun h => h1 h.1)] at h'
  obtain ⟨⟨e2, o2, n2⟩, e3, h'⟩ := Res.bind_eq_ok.1 h'
  simp only [Res.ok.injEq] at h'
  obtain ⟨room, pay, j, g1, g2, g3⟩ := C23_vector_agrees F C enc e2 _ _ o2 n2 e3
  split at h
  · simp at h
  obtain ⟨m, _, h⟩ := Res.bind_eq_ok.1 h
  split at h
  · obtain ⟨⟨enc', out, i⟩, e, h⟩ := Res.bind_eq_ok.1 h
    simp only [Res.ok.injEq, Out.mk.injEq, Option.some.injEq] at h
    obtain ⟨f1, _, _⟩ := C23_view_size F C _ _ _ _ _ _ _ e
    obtain ⟨pay', j', f2, f3⟩ := C23_header_then_payload F C enc enc' _ out _ _ e
    rw [← h.1, ← h', f1, g3, f3, g2, payload_unique hfree f2 g1]
  · rw [e3] at h
    simp only [Res.ok_bind] at h
    by_cases h2 : n2 > msg.length
    · rw [if_pos h2] at h
      simp only [Res.ok.injEq, Out.mk.injEq] at h
      exact absurd h.1.symm hn
    rw [if_neg h2] at h
    simp only [Res.ok.injEq, Out.mk.injEq] at h
    rw [← h.1, ← h']

/-- **C54 fails for `point_step` 0**: a message with an empty cloud whose point step is 0 (and fields the encoder accepts) makes
`cldn_EncodePointcloudMessage` divide by zero, where every other caller gets the exception "point_step cannot be 0". -/
theorem C54_zero_step_traps (T : FloatText) (F : FloatOps) (C : Compressor) (msg : List Byte) (res : BitVec 32) (pc : Pc2) (enc : Encoder)
    (hread : getMessage msg = .ok pc) (hstep : pc.point_step = 0#32) (hempty : pc.data = [])
    (henc : mkEncoder F (withResolution res (toEncodingInfo pc)) (encodeHeaderYaml T (withResolution res (toEncodingInfo pc))) = .ok enc) :
    encodeMessage T F C msg res = .ub .div := by
  unfold encodeMessage
  rw [hread]
  simp only [Res.ok_bind]
  have h1 : cloudDataSize pc = 0 := by simp [cloudDataSize, hstep]
  rw [if_neg (by rw [hempty, h1]; simp), henc]
  simp only [Res.ok_bind]
  have h2 : (withResolution res (toEncodingInfo pc)).point_step = 0#32 := hstep
  rw [if_pos h2]
  rfl

/-- A message without fields, with point step 0 and no data. -/
def nilPc : Pc2 := { frame := ascii "map", width := 1#32, height := 1#32, point_step := 0#32, row_step := 0#32, fields := [], data := [] }
def nilRaw : List Byte := match Cdr.encodeMsg nilPc.cdr pcTy (pcVal nilPc []) with | .ok b => b | _ => []
example : encodeMessage bitsText bitsOps storeComp nilRaw 0x3F800000#32 = .ub .div := by decide +kernel

/-! ## C55: round trip -/

/-- The description `cldn_EncodePointcloudMessage` uses for a message: its own members, with the given resolution for every FLOAT32 field. -/
def wasmInfo (pc : Pc2) (res : BitVec 32) : EncodingInfo :=
  { fields := pc.fields.map fun f => if f.type = .float32 then { f with resolution := some res } else f,
    width := pc.width, height := pc.height, point_step := pc.point_step, encoding_opt := .lossy, compression_opt := .zstd }

/-- What was written decodes, as a file. -/
theorem encoded_trip {T : FloatText} (hT : T.Lawful) {F : FloatOps} {C : Compressor} (hC : C.Lawful) {msg b : List Byte} {res : BitVec 32} {n : Nat} {pc : Pc2}
    (hmsg : msg.length < 1431260227) (hread : getMessage msg = .ok pc) (ok : FileOk T F (wasmInfo pc res) pc.data)
    (hlim : ∀ enc, mkEncoder F (wasmInfo pc res) (encodeHeaderYaml T (wasmInfo pc res)) = .ok enc → ChunksWithin F enc pc.data pc.data.length)
    (hn : n ≠ 0) (h : encodeMessage T F C msg res = .ok ⟨n, some b⟩) :
    ∃ payload, decodeHeader T b = .ok (wasmInfo pc res, payload) ∧
      ∀ fuel buf, pc.data.length ≤ buf.length → ∃ buf', decodeCloud F C fuel (wasmInfo pc res) payload buf = .ok buf' ∧ buf'.length = buf.length ∧
        Decoded F (wasmInfo pc res) pc.data buf' := by
  obtain ⟨hb1, hb2⟩ := C54_encode_bounded T F C msg b res n (by omega) h
  have h := guarded_some h rfl
  rw [hread] at h
  simp only [Res.ok_bind] at h
  by_cases h1 : pc.data.length ≠ cloudDataSize pc
  · rw [if_pos h1] at h
    simp only [Res.ok.injEq, Out.mk.injEq] at h
    exact absurd h.1.symm hn
  rw [if_neg h1] at h
  change (mkEncoder F (wasmInfo pc res) (encodeHeaderYaml T (wasmInfo pc res)) >>= _) = _ at h
  obtain ⟨enc, e1, h⟩ := Res.bind_eq_ok.1 h
  by_cases hz : (withResolution res (toEncodingInfo pc)).point_step = 0#32
  · rw [if_pos hz] at h; simp at h
  rw [if_neg hz] at h
  obtain ⟨m, _, h⟩ := Res.bind_eq_ok.1 h
  split at h
  · obtain ⟨⟨enc', out, i⟩, e, h⟩ := Res.bind_eq_ok.1 h
    simp only [Res.ok.injEq, Out.mk.injEq, Option.some.injEq] at h
    obtain ⟨_, rfl⟩ := h
    exact (view_trip hT hC ok e1 e (.inr (hlim enc e1)) (by omega)).2
  · obtain ⟨⟨enc', out, i⟩, e, h⟩ := Res.bind_eq_ok.1 h
    simp only at h
    obtain ⟨_, _, _, _, _, g3⟩ := C23_vector_agrees F C enc enc' _ _ out i e
    by_cases h2 : i > msg.length
    · rw [if_pos h2] at h
      simp only [Res.ok.injEq, Out.mk.injEq] at h
      exact absurd h.1.symm hn
    rw [if_neg h2] at h
    simp only [Res.ok.injEq, Out.mk.injEq, Option.some.injEq] at h
    obtain ⟨_, rfl⟩ := h
    rw [List.take_of_length_le (by omega)]
    exact (vector_trip hT hC ok e1 e (.inr (hlim enc e1)) (by omega)).2

/-- **C55 (partial).** A message `cldn_EncodePointcloudMessage` compressed successfully: `cldn_DecodeCompressedData` on the bytes it wrote returns the size of
the cloud and puts the cloud at the output address, every field of every point with the value the codec promises; bytes outside the fields keep what
was there.  Missing: what `FileOk` and C18 exclude. -/
theorem C55_roundtrip_partial (T : FloatText) (hT : T.Lawful) (F : FloatOps) (C : Compressor) (hC : C.Lawful) (fuel : Nat) (msg b mem : List Byte)
    (res : BitVec 32) (n : Nat) (pc : Pc2) (hmsg : msg.length < 1431260227) (hread : getMessage msg = .ok pc) (ok : FileOk T F (wasmInfo pc res) pc.data)
    (hlim : ∀ enc, mkEncoder F (wasmInfo pc res) (encodeHeaderYaml T (wasmInfo pc res)) = .ok enc → ChunksWithin F enc pc.data pc.data.length)
    (hn : n ≠ 0) (h : encodeMessage T F C msg res = .ok ⟨n, some b⟩) (hmem : pc.data.length ≤ mem.length) :
    ∃ buf, decodeData T F C fuel b mem = .ok ⟨pc.data.length, some buf⟩ ∧ buf.length = pc.data.length ∧ Decoded F (wasmInfo pc res) pc.data buf ∧
      ∀ p, p < buf.length → ¬ Declared (wasmInfo pc res) p → buf[p]? = mem[p]? := by
  have hdl := (getMessage_inv hread (by omega)).2.2.1
  obtain ⟨payload, t1, t2⟩ := encoded_trip hT hC hmsg hread ok hlim hn h
  have hsize : ((wasmInfo pc res).width * (wasmInfo pc res).height * (wasmInfo pc res).point_step).toNat = pc.data.length := by
    rw [BitVec.toNat_mul, BitVec.toNat_mul, Nat.mod_mul_mod, ← ok.data.size, Nat.mod_eq_of_lt hdl]
  obtain ⟨buf, t3, t4, t5⟩ := t2 fuel (mem.take pc.data.length) (by rw [List.length_take]; omega)
  have hl : buf.length = pc.data.length := by rw [t4, List.length_take]; omega
  refine ⟨buf, ?_, hl, t5, fun p hp hd => ?_⟩
  · unfold decodeData
    rw [t1]
    simp only [hsize]
    rw [if_neg (by omega), t3]
    rfl
  · rw [(C19_untouched F C _ payload _ buf fuel ok.valid.step ok.valid.version (by rw [List.length_take]; omega) t3).2 p hd,
      List.getElem?_take_of_lt (by omega)]

/-- The cloud of `pclWitness` in a message. -/
def wasmPc : Pc2 :=
  { sec := 3#32, nsec := 4#32, frame := ascii "lidar", height := 1#32, width := 3#32, fields := pclInfo.fields.map fun f => { f with resolution := none },
    point_step := 32#32, row_step := 96#32, data := pclWitness.data }
def wasmRaw : List Byte := match Cdr.encodeMsg wasmPc.cdr pcTy (pcVal wasmPc pclWitness.data) with | .ok x => x ++ List.replicate 200 0#8 | _ => []
theorem wasmRaw_read : getMessage wasmRaw = .ok wasmPc := by decide +kernel
theorem wasmPc_info : wasmInfo wasmPc 0x3F800000#32 = pclInfo := by decide +kernel

example : ∃ n b buf, encodeMessage bitsText bitsOps storeComp wasmRaw 0x3F800000#32 = .ok ⟨n, some b⟩ ∧ n ≠ 0 ∧
    decodeData bitsText bitsOps storeComp 0 b (List.replicate 100 9#8) = .ok ⟨96, some buf⟩ ∧ Decoded bitsOps pclInfo pclWitness.data buf := by
  have h : (match encodeMessage bitsText bitsOps storeComp wasmRaw 0x3F800000#32 with | .ok ⟨n, some _⟩ => decide (n ≠ 0) | _ => false) = true := by
    decide +kernel
  cases e : encodeMessage bitsText bitsOps storeComp wasmRaw 0x3F800000#32 with
  | throw m => rw [e] at h; simp at h
  | ub k => rw [e] at h; simp at h
  | ok o =>
    obtain ⟨n, b⟩ := o
    cases b with
    | none => rw [e] at h; simp at h
    | some b =>
      rw [e] at h
      simp only [decide_eq_true_eq] at h
      obtain ⟨buf, h1, h2, h3, _⟩ := C55_roundtrip_partial bitsText bitsText_lawful bitsOps storeComp storeComp_lawful 0 wasmRaw b (List.replicate 100 9#8)
        0x3F800000#32 n wasmPc (by decide +kernel) wasmRaw_read (by rw [wasmPc_info]; exact pcl_ok)
        (by rw [wasmPc_info]; intro enc he; rw [pcl_enc] at he; cases he; exact pcl_within) h e (by decide +kernel)
      rw [wasmPc_info] at h3
      exact ⟨n, b, buf, rfl, h, h1, h3⟩

/-! ## C56: decompressing messages -/

/-- **C56, agreement (partial).** A compressed message that `convertPointCloud2ToCompressedCloud` made of a little-endian message, with a description of its
points that has the message's own width, height and point step: `cldn_GetDecompressedSize` returns the size of the cloud,
`cldn_DecodeCompressedMessage` returns the same number and puts the cloud at the output address.  Missing: as for C37 and C55. -/
theorem C56_message_partial (T : FloatText) (hT : T.Lawful) (F : FloatOps) (C : Compressor) (hC : C.Lawful) (fuel : Nat) (raw msg mem : List Byte) (pc : Pc2)
    (info : EncodingInfo) (hread : getMessage raw = .ok pc) (hraw : raw.length < 2 ^ 32) (hlittle : pc.cdr.big = false) (hne : pc.data ≠ [])
    (hw : info.width = pc.width) (hh : info.height = pc.height) (hs : info.point_step = pc.point_step) (ok : FileOk T F info pc.data)
    (hlim : info.compression_opt = .none ∨ ∀ enc, mkEncoder F info (encodeHeaderYaml T info) = .ok enc → ChunksWithin F enc pc.data pc.data.length)
    (hmsg : msg.length < 1431260227) (e : toCompressed T F C pc info = .ok msg) (hmem : pc.data.length ≤ mem.length) :
    decompressedSize msg = .ok pc.data.length ∧
      ∃ buf, decodeMessage T F C fuel msg mem = .ok ⟨pc.data.length, some buf⟩ ∧ buf.length = pc.data.length ∧ Decoded F info pc.data buf := by
  obtain ⟨hwire, hfits, hdl, hcanon⟩ := getMessage_inv hread hraw
  obtain ⟨st, m, enc, enc', out, e1, e2, e3, e4, e5, e6⟩ := toCompressed_inv e hne
  have ho : out.length < 1431260227 := by
    obtain ⟨x, rfl⟩ := encString_prefix e6
    rw [Cdr.encPrim_eq _ 1 _ _ (by omega)] at hmsg
    simp only [List.length_append] at hmsg
    omega
  have hal := (writeHeader_aligned (by simp [Cdr.encInit]) e1).1
  obtain ⟨x, hx⟩ := encString_prefix e6
  have hm : getMessage msg = .ok (echo pc out) := by
    rw [hx, ← encBuf_at hlittle (by omega : out.length < 2 ^ 32) hal]
    exact getMessage_encode pc hwire hfits out (by omega) _ x (encode_pc e1)
  have hsz := ok.data.size
  rw [hw, hh, hs] at hsz
  have hsize : (pc.width * pc.height * pc.point_step).toNat = pc.data.length := by
    rw [BitVec.toNat_mul, BitVec.toNat_mul, Nat.mod_mul_mod, ← hsz, Nat.mod_eq_of_lt hdl]
  obtain ⟨_, payload, t1, t2⟩ := view_trip hT hC ok e4 e5 (hlim.imp_right fun h => h enc e4) ho
  obtain ⟨buf, t3, t4, t5⟩ := t2 fuel (mem.take pc.data.length) (by rw [List.length_take]; omega)
  refine ⟨?_, buf, ?_, by rw [t4, List.length_take]; omega, t5⟩
  · unfold decompressedSize
    rw [hm]
    show Res.ok (pc.height * pc.width * pc.point_step).toNat = _
    rw [BitVec.mul_comm pc.height, hsize]
  · unfold decodeMessage
    rw [hm]
    show guarded (decodeData T F C fuel out mem) = _
    unfold decodeData
    rw [t1]
    simp only [hw, hh, hs, hsize]
    rw [if_neg (by omega), t3]
    rfl

example : decompressedSize mixMsg = .ok 108 ∧ ∃ buf, decodeMessage bitsText bitsOps storeComp 0 mixMsg (List.replicate 108 1#8) = .ok ⟨108, some buf⟩ := by
  have h : mixPc.data.length = 108 := by decide +kernel
  obtain ⟨h1, buf, h2, _⟩ := C56_message_partial bitsText bitsText_lawful bitsOps storeComp storeComp_lawful 0 mixRaw mixMsg (List.replicate 108 1#8) mixPc
    mixInfo mixRaw_read (by decide +kernel) rfl (by decide) rfl rfl rfl
    ⟨mix_valid, mix_cloud, by decide, by decide, by decide, Or.inl rfl, by
      simp only [mixInfo, List.mem_cons, List.not_mem_nil, or_false]
      rintro f (rfl | rfl | rfl | rfl | rfl | rfl | rfl) <;> exact plain_char _ (by decide), fun f _ r _ => extractU32_decimal r, fun h => by simp [mixInfo] at h⟩
    (Or.inl rfl) (by decide +kernel) mixMsg_eq (by rw [h]; decide)
  rw [h] at h1 h2
  exact ⟨h1, buf, h2⟩

/-- What `cldn_DecodeCompressedData` returns is taken from the header of the data, in 32 bits; the room at the output address is not asked for. -/
theorem C56_returned_size (T : FloatText) (F : FloatOps) (C : Compressor) (fuel : Nat) (data mem b : List Byte) (n : Nat) (hn : n ≠ 0)
    (h : decodeData T F C fuel data mem = .ok ⟨n, some b⟩) : ∃ info payload, decodeHeader T data = .ok (info, payload) ∧
      n = info.width.toNat * info.height.toNat * info.point_step.toNat % 2 ^ 32 ∧ decodeCloud F C fuel info payload (mem.take n) = .ok b := by
  unfold decodeData at h
  cases e : decodeHeader T data with
  | throw m => rw [e] at h; simp only [Res.ok.injEq, Out.mk.injEq] at h; exact absurd h.1.symm hn
  | ub k => rw [e] at h; simp at h
  | ok r =>
    obtain ⟨info, payload⟩ := r
    rw [e] at h
    simp only at h
    split at h
    · simp at h
    have h := guarded_some h rfl
    obtain ⟨buf, e1, h⟩ := Res.bind_eq_ok.1 h
    simp only [Res.ok.injEq, Out.mk.injEq, Option.some.injEq] at h
    obtain ⟨rfl, rfl⟩ := h
    refine ⟨info, payload, rfl, ?_, e1⟩
    rw [BitVec.toNat_mul, BitVec.toNat_mul, Nat.mod_mul_mod]

/-- Two points of one byte. -/
def pairInfo : EncodingInfo :=
  { fields := [{ name := ascii "i", type := .uint8 }], width := 2#32, height := 1#32, point_step := 1#32, encoding_opt := .none, compression_opt := .none }
def pairOut : List Byte := match Pcd.encodeData bitsText bitsOps storeComp pairInfo [7#8, 8#8] with | .ok b => b | _ => []
/-- A message that announces one point of one byte and contains the file of two points. -/
def liePc : Pc2 := { frame := ascii "map", width := 1#32, height := 1#32, point_step := 1#32, row_step := 1#32, fields := pairInfo.fields, data := pairOut }
def lieMsg : List Byte := match Cdr.encodeMsg liePc.cdr compressedTy (compressedVal liePc pairOut) with | .ok b => b | _ => []

/-- **C56 fails for a message whose own size disagrees with the data inside**: `cldn_GetDecompressedSize` asks for one byte ("needed to allocate memory in
advance") and `cldn_DecodeCompressedMessage` overwrites two, the second of which belongs to somebody else. -/
theorem C56_overflow : decompressedSize lieMsg = .ok 1 ∧
    decodeMessage bitsText bitsOps storeComp 0 lieMsg [0#8, 0xEE#8, 0xEE#8] = .ok ⟨2, some [7#8, 8#8]⟩ := by decide +kernel

/-- **C56, empty clouds**: whatever the data, if the header's size is 0 (in 32 bits) a call that returns, returns 0, which is also the failure value. -/
theorem C56_zero_is_failure (T : FloatText) (F : FloatOps) (C : Compressor) (fuel : Nat) (data mem payload : List Byte) (info : EncodingInfo) (o : Out)
    (hd : decodeHeader T data = .ok (info, payload)) (hz : info.width.toNat * info.height.toNat * info.point_step.toNat % 2 ^ 32 = 0)
    (h : decodeData T F C fuel data mem = .ok o) : o.ret = 0 := by
  have hz : (info.width * info.height * info.point_step).toNat = 0 := by
    rw [BitVec.toNat_mul, BitVec.toNat_mul, Nat.mod_mul_mod, hz]
  unfold decodeData at h
  rw [hd] at h
  simp only [hz] at h
  split at h
  · simp at h
  cases e : decodeCloud F C fuel info payload (mem.take 0) with
  | ok buf => rw [e] at h; simp only [Res.ok_bind, guarded, Res.ok.injEq] at h; rw [← h]
  | throw m => rw [e] at h; simp only [Res.throw_bind, guarded, Res.ok.injEq] at h; rw [← h]
  | ub k => rw [e] at h; simp [guarded] at h

/-! ## C57: the header as YAML -/

/-- A text that starts with a line "version: d…": if it is a mapping at all, that is its version. -/
theorem yaml_version {d rest : List Byte} {root : YNode} (hd : PlainText d) (h : yamlParse (ascii "version: " ++ d ++ 0x0A#8 :: rest) = .ok root) :
    root.get (ascii "version") = .ok (.str d) := by
  have hk : Key (ascii "version") := key_of (by decide)
  have hl : ascii "version: " ++ d = ascii "version" ++ 0x3A#8 :: 0x20#8 :: d := by
    have : ascii "version: " = ascii "version" ++ [0x3A#8, 0x20#8] := by decide
    rw [this, List.append_assoc]; rfl
  have hp := keyLine_plain hk hd
  unfold yamlParse yamlParseFuel at h
  rw [hl, splitLines_line hp.newline] at h
  simp only at h
  obtain ⟨⟨node, ls⟩, h1, h⟩ := Res.bind_eq_ok.1 h
  simp only [Res.ok.injEq] at h
  subst h
  have g1 := skipEmpty_plain hp 0 (splitLines rest)
  have g2 := indentation_spaces hp 0
  simp only [List.replicate_zero, List.nil_append] at g1 g2
  unfold parseNode at h1
  rw [g1] at h1
  have hs : startsDash (ascii "version" ++ 0x3A#8 :: 0x20#8 :: d) = false := by
    simp [startsDash, ascii]
  simp only [g2, Nat.not_lt_zero, if_false, trim_plain hp, hs, Bool.false_eq_true, splitColon_key hk.colon] at h1
  obtain ⟨⟨m, r⟩, h2, h1⟩ := Res.bind_eq_ok.1 h1
  simp only [Res.ok.injEq, Prod.mk.injEq] at h1
  obtain ⟨rfl, _⟩ := h1
  generalize 2 * ((ascii "version" ++ 0x3A#8 :: 0x20#8 :: d) :: splitLines rest).length + 1 = f at h2
  cases f with
  | zero => simp [parseMapping] at h2
  | succ f =>
    unfold parseMapping at h2
    rw [g1] at h2
    simp only [g2, Nat.lt_irrefl, if_false, trim_plain hp, splitColon_key hk.colon, trim_space_value hd] at h2
    rw [if_neg hd.nonempty] at h2
    obtain ⟨⟨m', r'⟩, _, h2⟩ := Res.bind_eq_ok.1 h2
    simp only [Res.ok.injEq, Prod.mk.injEq] at h2
    obtain ⟨rfl, _⟩ := h2
    simp [YNode.get, trim_plain hk.toPlainText]

/-- **C57, version.** The YAML text of a description, read back: the version is the character code of the digit, 48 more than it was. -/
theorem C57_version_code (T : FloatText) (info info' : EncodingInfo) (hv : info.version.toNat < 10) (h : infoFromYaml T (infoToYaml T info) = .ok info') :
    info'.version.toNat = 48 + info.version.toNat := by
  unfold infoFromYaml at h
  obtain ⟨root, e1, h⟩ := Res.bind_eq_ok.1 h
  obtain ⟨rest, hy⟩ : ∃ rest, infoToYaml T info = ascii "version: " ++ decimal info.version.toNat ++ 0x0A#8 :: rest := by
    unfold infoToYaml
    simp only [List.append_assoc]
    exact ⟨_, rfl⟩
  rw [hy] at e1
  have g := yaml_version (decimal_plain _) e1
  obtain ⟨n1, f1, h⟩ := Res.bind_eq_ok.1 h
  rw [g] at f1
  cases f1
  obtain ⟨n2, f2, h⟩ := Res.bind_eq_ok.1 h
  cases f2
  obtain ⟨n3, f3, h⟩ := Res.bind_eq_ok.1 h
  have hd : decimal info.version.toNat = [BitVec.ofNat 8 (48 + info.version.toNat)] := by
    rw [decimal, if_pos hv]
  have hn3 : n3.toNat = 48 + info.version.toNat := by
    rw [hd] at f3
    have hns : isSpace (BitVec.ofNat 8 (48 + info.version.toNat)) = false := by
      generalize info.version.toNat = v at hv
      revert v
      decide
    simp only [extractU8, List.dropWhile_cons, hns, Bool.false_eq_true, if_false, Res.ok.injEq] at f3
    rw [← f3, BitVec.toNat_ofNat, Nat.mod_eq_of_lt (by omega)]
  obtain ⟨_, _, h⟩ := Res.bind_eq_ok.1 h
  obtain ⟨_, _, h⟩ := Res.bind_eq_ok.1 h
  obtain ⟨_, _, h⟩ := Res.bind_eq_ok.1 h
  obtain ⟨_, _, h⟩ := Res.bind_eq_ok.1 h
  obtain ⟨_, _, h⟩ := Res.bind_eq_ok.1 h
  obtain ⟨_, _, h⟩ := Res.bind_eq_ok.1 h
  obtain ⟨_, _, h⟩ := Res.bind_eq_ok.1 h
  obtain ⟨_, _, h⟩ := Res.bind_eq_ok.1 h
  obtain ⟨_, _, h⟩ := Res.bind_eq_ok.1 h
  obtain ⟨_, _, h⟩ := Res.bind_eq_ok.1 h
  obtain ⟨_, _, h⟩ := Res.bind_eq_ok.1 h
  obtain ⟨_, _, h⟩ := Res.bind_eq_ok.1 h
  obtain ⟨_, _, h⟩ := Res.bind_eq_ok.1 h
  obtain ⟨_, _, h⟩ := Res.bind_eq_ok.1 h
  obtain ⟨_, _, h⟩ := Res.bind_eq_ok.1 h
  obtain ⟨_, _, h⟩ := Res.bind_eq_ok.1 h
  obtain ⟨_, _, h⟩ := Res.bind_eq_ok.1 h
  obtain ⟨_, _, h⟩ := Res.bind_eq_ok.1 h
  simp only [Res.ok.injEq] at h
  rw [← h]
  exact hn3

theorem magic_tail (v : Byte) (h5 : 48 ≤ v.toNat) (h9 : v.toNat ≤ 57) (rest : List Byte) (T : FloatText) :
    (decodeHeader T (magicBytes v ++ rest)).isThrow = true := by
  apply C27_rejected
  rintro ⟨a, b, body, e, _, e2⟩
  have hm : magicBytes v ++ rest = ascii "CLOUDINI_V" ++ BitVec.ofNat 8 (48 + v.toNat / 10) :: BitVec.ofNat 8 (48 + v.toNat % 10) :: rest := by
    simp [magicBytes, magic, ascii]
  rw [hm] at e
  have e := List.append_cancel_left e
  simp only [List.cons.injEq] at e
  rw [← e.1, ← e.2.1] at e2
  revert e2
  generalize v.toNat = n at h5 h9
  have : ∀ n, n < 58 → 48 ≤ n → ¬ 10 * versionDigit (BitVec.ofNat 8 (48 + n / 10)) + versionDigit (BitVec.ofNat 8 (48 + n % 10)) ≤ 5 := by decide
  exact this n (by omega) h5

/-- **C57 fails**: `cldn_EncodePointcloudData` takes the text that `EncodingInfoToYAML` and `cldn_GetHeaderAsYAML` produce; the bytes it writes for such
a text are never accepted by `cldn_DecodeCompressedData`. -/
theorem C57_undecodable (T : FloatText) (F : FloatOps) (C : Compressor) (fuel : Nat) (info : EncodingInfo) (data b mem : List Byte) (n : Nat)
    (hv : info.version.toNat < 10) (hn : n ≠ 0) (h : Wasm.encodeData T F C (infoToYaml T info) data = .ok ⟨n, some b⟩) :
    decodeData T F C fuel b mem = .ok ⟨0, some []⟩ := by
  have h := guarded_some h rfl
  obtain ⟨i, e1, h⟩ := Res.bind_eq_ok.1 h
  have hi := C57_version_code T info i hv e1
  simp only at h
  by_cases h1 : data.length ≠ (i.width * i.height * i.point_step).toNat
  · rw [if_pos h1] at h
    simp only [Res.ok.injEq, Out.mk.injEq] at h
    exact absurd h.1.symm hn
  rw [if_neg h1] at h
  obtain ⟨enc, e2, h⟩ := Res.bind_eq_ok.1 h
  obtain ⟨⟨enc', out, k⟩, e, h⟩ := Res.bind_eq_ok.1 h
  simp only at h
  obtain ⟨_, pay, _, _, g2, g3⟩ := C23_vector_agrees F C enc enc' _ _ out k e
  by_cases h2 : k > data.length
  · rw [if_pos h2] at h
    simp only [Res.ok.injEq, Out.mk.injEq] at h
    exact absurd h.1.symm hn
  rw [if_neg h2] at h
  simp only [Res.ok.injEq, Out.mk.injEq, Option.some.injEq] at h
  obtain ⟨_, rfl⟩ := h
  rw [List.take_of_length_le (by omega), g2, (mkEncoder_info e2).2.1]
  have := magic_tail i.version (by omega) (by omega) ([0x0A#8] ++ infoToYaml T i ++ [0#8] ++ pay) T
  unfold encodeHeaderYaml
  simp only [List.append_assoc] at this ⊢
  unfold decodeData
  cases e : decodeHeader T (magicBytes i.version ++ ([0x0A#8] ++ (infoToYaml T i ++ ([0#8] ++ pay)))) with
  | ok r => rw [e] at this; simp at this
  | throw m => rfl
  | ub k => rw [e] at this; simp at this

/-- One point of one byte in a record of 400. -/
def wideInfo : EncodingInfo :=
  { fields := [{ name := ascii "i", type := .uint8 }], width := 1#32, height := 1#32, point_step := 400#32, encoding_opt := .none, compression_opt := .none }

/-- The hypotheses hold for a real cloud: the text comes from `cldn_GetHeaderAsYAML`, the cloud is encoded, the result is refused. -/
example : headerYaml bitsText (encodeHeaderYaml bitsText wideInfo) = .ok ⟨(infoToYaml bitsText wideInfo).length, some (infoToYaml bitsText wideInfo)⟩ ∧
    ∃ n b, n ≠ 0 ∧ Wasm.encodeData bitsText bitsOps storeComp (infoToYaml bitsText wideInfo) (List.replicate 400 7#8) = .ok ⟨n, some b⟩ ∧
      decodeData bitsText bitsOps storeComp 0 b (List.replicate 400 0#8) = .ok ⟨0, some []⟩ := by
  refine ⟨by decide +kernel, ?_⟩
  have h : (match Wasm.encodeData bitsText bitsOps storeComp (infoToYaml bitsText wideInfo) (List.replicate 400 7#8) with
      | .ok ⟨n, some _⟩ => decide (n ≠ 0) | _ => false) = true := by decide +kernel
  cases e : Wasm.encodeData bitsText bitsOps storeComp (infoToYaml bitsText wideInfo) (List.replicate 400 7#8) with
  | throw m => rw [e] at h; simp at h
  | ub k => rw [e] at h; simp at h
  | ok o =>
    obtain ⟨n, b⟩ := o
    cases b with
    | none => rw [e] at h; simp at h
    | some b =>
      rw [e] at h
      simp only [decide_eq_true_eq] at h
      exact ⟨n, b, h, rfl, C57_undecodable bitsText bitsOps storeComp 0 wideInfo _ b _ n (by decide) h e⟩

/-- **C57, what holds.** `cldn_GetHeaderAsYAML` on a file made of a valid description returns exactly its YAML text. -/
theorem C57_header_text (T : FloatText) (hT : T.Lawful) (F : FloatOps) (info : EncodingInfo) (cloud payload : List Byte) (ok : FileOk T F info cloud) :
    headerYaml T (encodeHeaderYaml T info ++ payload) = .ok ⟨(infoToYaml T info).length % 2 ^ 32, some (infoToYaml T info)⟩ := by
  unfold headerYaml
  rw [header_trip hT ok]
  rfl

example (payload : List Byte) : headerYaml bitsText (encodeHeaderYaml bitsText pclInfo ++ payload) =
    .ok ⟨(infoToYaml bitsText pclInfo).length % 2 ^ 32, some (infoToYaml bitsText pclInfo)⟩ :=
  C57_header_text bitsText bitsText_lawful bitsOps pclInfo _ payload pcl_ok

/-- The hypotheses of the bounds: `pairInfo` as text and its data, which does not get smaller; and a cloud that does. -/
def flatInfo : EncodingInfo :=
  { fields := [{ name := ascii "i", type := .uint32 }], width := 40#32, height := 1#32, point_step := 40#32, encoding_opt := .none, compression_opt := .none }
def flatCloud : List Byte := List.replicate 1600 7#8
example : ∃ n b, Wasm.encodeData bitsText bitsOps storeComp (infoToYaml bitsText flatInfo) flatCloud = .ok ⟨n, some b⟩ ∧ n ≠ 0 ∧ b.length = n ∧ n ≤ 1600 := by
  have h : (match Wasm.encodeData bitsText bitsOps storeComp (infoToYaml bitsText flatInfo) flatCloud with | .ok ⟨n, some _⟩ => decide (n ≠ 0) | _ => false) = true := by
    decide +kernel
  cases e : Wasm.encodeData bitsText bitsOps storeComp (infoToYaml bitsText flatInfo) flatCloud with
  | throw m => rw [e] at h; simp at h
  | ub k => rw [e] at h; simp at h
  | ok o =>
    obtain ⟨n, b⟩ := o
    cases b with
    | none => rw [e] at h; simp at h
    | some b =>
      rw [e] at h
      simp only [decide_eq_true_eq] at h
      obtain ⟨h1, h2⟩ := C54_encode_data_bounded bitsText bitsOps storeComp _ flatCloud b n (by rw [flatCloud, List.length_replicate]; decide) e
      exact ⟨n, b, rfl, h, h1, by rw [flatCloud, List.length_replicate] at h2; exact h2⟩

/-- Both calls succeed for `wasmRaw`, so they agree. -/
example : ∃ n b, encodeMessage bitsText bitsOps storeComp wasmRaw 0x3F800000#32 = .ok ⟨n, some b⟩ ∧
    computeSize bitsText bitsOps storeComp wasmRaw 0x3F800000#32 = .ok n ∧ n ≠ 0 := by
  have h : (match encodeMessage bitsText bitsOps storeComp wasmRaw 0x3F800000#32, computeSize bitsText bitsOps storeComp wasmRaw 0x3F800000#32 with
      | .ok ⟨n, some _⟩, .ok k => decide (n ≠ 0 ∧ k ≠ 0) | _, _ => false) = true := by decide +kernel
  have hfree : CapFree storeComp := by
    intro o x c c' y y' h1 h2
    simp only [storeComp] at h1 h2
    split at h1
    · split at h2
      · simp_all
      · simp at h2
    · simp at h1
  cases e : encodeMessage bitsText bitsOps storeComp wasmRaw 0x3F800000#32 with
  | throw m => rw [e] at h; simp at h
  | ub k => rw [e] at h; simp at h
  | ok o =>
    obtain ⟨n, b⟩ := o
    cases e' : computeSize bitsText bitsOps storeComp wasmRaw 0x3F800000#32 with
    | throw m => rw [e, e'] at h; simp at h
    | ub k => rw [e, e'] at h; simp at h
    | ok k =>
      cases b with
      | none => rw [e, e'] at h; simp at h
      | some b =>
        rw [e, e'] at h
        simp only [decide_eq_true_eq] at h
        exact ⟨n, b, rfl, by rw [C54_compute_agrees bitsText bitsOps storeComp hfree wasmRaw b _ n k h.1 h.2 e e'], h.1⟩

example (C : Compressor) : encodeMessage bitsText bitsOps C nilRaw 0x3F800000#32 = .ub .div :=
  C54_zero_step_traps bitsText bitsOps C nilRaw 0x3F800000#32 nilPc ⟨_, _, _⟩ (by decide +kernel) rfl rfl rfl

/-- The file of `pairInfo`: two bytes, whatever the room. -/
example : ∃ info payload, decodeHeader bitsText pairOut = .ok (info, payload) ∧
    2 = info.width.toNat * info.height.toNat * info.point_step.toNat % 2 ^ 32 ∧ decodeCloud bitsOps storeComp 0 info payload [0#8, 0#8] = .ok [7#8, 8#8] :=
  C56_returned_size bitsText bitsOps storeComp 0 pairOut [0#8, 0#8, 0#8] [7#8, 8#8] 2 (by decide) (by decide +kernel)

/-- A file of no points. -/
example (o : Out) (h : decodeData bitsText bitsOps storeComp 0 (encodeHeaderYaml bitsText { pairInfo with width := 0#32 }) [] = .ok o) : o.ret = 0 := by
  have hd : (match decodeHeader bitsText (encodeHeaderYaml bitsText { pairInfo with width := 0#32 }) with | .ok (i, _) => decide (i.width = 0#32) | _ => false) = true := by
    decide +kernel
  cases e : decodeHeader bitsText (encodeHeaderYaml bitsText { pairInfo with width := 0#32 }) with
  | ok r =>
    obtain ⟨info, payload⟩ := r
    rw [e] at hd
    simp only [decide_eq_true_eq] at hd
    exact C56_zero_is_failure bitsText bitsOps storeComp 0 _ [] payload info o e (by rw [hd]; simp) h
  | throw m => rw [e] at hd; simp at hd
  | ub k => rw [e] at hd; simp at hd
example : decodeData bitsText bitsOps storeComp 0 (encodeHeaderYaml bitsText { pairInfo with width := 0#32 }) [] = .ok ⟨0, some []⟩ := by decide +kernel

end Cloudini.Props
