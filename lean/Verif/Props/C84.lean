import Verif.Lemmas.Word
import Verif.Props.C54_C57

/-!
# C84: the decoder in the browser (32-bit `size_t`) decodes as the one on the desktop

The models of the decoder compute sizes with 64 bits.  In the WebAssembly module, which the web page, the Foxglove panel and the Python package run, `size_t` has 32 bits and
`width * height`, `width * height * point_step`, `points * point_step` and `i * point_step` wrap.
-/

namespace Cloudini.Props

open Cloudini.Ros Cloudini.Wasm

/-- The cloud has fewer than 2^32 bytes. -/
structure Below4G (info : EncodingInfo) : Prop where
  step : info.point_step ≠ 0#32
  size : info.width.toNat * info.height.toNat * info.point_step.toNat < 2 ^ 32

/-- **C84.** For clouds below 4 GiB, all payloads (also damaged ones) and all output buffers: where decoding with 64 bits is defined, decoding with 32 bits has the same
outcome: the same bytes, or the same exception. -/
theorem C84_same (F : FloatOps) (C : Compressor) (fuel : Nat) (info : EncodingInfo) (data buf : List Byte) (h : Below4G info) (hbuf : buf.length < 2 ^ 32)
    (hdef : ∀ u, decodeCloud F C fuel info data buf ≠ .ub u) : Word.decodeCloud (2 ^ 32) F C fuel info data buf = decodeCloud F C fuel info data buf := by
  have := Word.decodeCloud_keep (M := 2 ^ 32) (F := F) (C := C) (fuel := fuel) (data := data) h.step h.size (by decide) hbuf
  revert this hdef
  cases decodeCloud F C fuel info data buf with
  | ok x => intro _ h; exact h.1
  | throw e => intro _ h; exact h
  | ub u => intro h; exact absurd rfl (h u)

theorem take_below {info : EncodingInfo} (mem : List Byte) : (mem.take (info.width * info.height * info.point_step).toNat).length < 2 ^ 32 := by
  have := (info.width * info.height * info.point_step).isLt
  rw [List.length_take]
  omega

/-- **C84, the interface.** `cldn_DecodeCompressedData` of the module is the function C54-C57, C72, C73 and C76 speak about, wherever that is defined and the cloud of the
header is below 4 GiB. -/
theorem C84_wasm (T : FloatText) (F : FloatOps) (C : Compressor) (fuel : Nat) (data mem : List Byte)
    (h : ∀ info payload, decodeHeader T data = .ok (info, payload) → Below4G info) (hdef : ∀ u, Wasm.decodeData T F C fuel data mem ≠ .ub u) :
    Word.decodeData T F C fuel data mem = Wasm.decodeData T F C fuel data mem := by
  unfold Word.decodeData Wasm.decodeData at *
  cases e : decodeHeader T data with
  | throw m => rfl
  | ub u => rfl
  | ok x =>
    obtain ⟨info, payload⟩ := x
    simp only [e] at hdef ⊢
    by_cases h1 : mem.length < (info.width * info.height * info.point_step).toNat
    · rw [if_pos h1]
      rw [if_pos h1]
    rw [if_neg h1] at hdef ⊢
    rw [if_neg h1]
    rw [C84_same F C fuel info payload _ (h info payload e) (take_below mem)]
    intro u hu
    rw [hu] at hdef
    exact hdef u rfl

theorem guarded_def {r : Res Out} (h : ∀ u, guarded r ≠ .ub u) : ∀ u, r ≠ .ub u := by
  rintro u rfl
  exact h u rfl

/-- **C84, messages.** The same for `cldn_DecodeCompressedMessage`. -/
theorem C84_wasm_message (T : FloatText) (F : FloatOps) (C : Compressor) (fuel : Nat) (msg mem : List Byte)
    (h : ∀ pc info payload, getMessage msg = .ok pc → decodeHeader T pc.data = .ok (info, payload) → Below4G info)
    (hdef : ∀ u, Wasm.decodeMessage T F C fuel msg mem ≠ .ub u) : Word.decodeMessage T F C fuel msg mem = Wasm.decodeMessage T F C fuel msg mem := by
  unfold Word.decodeMessage Wasm.decodeMessage at *
  cases e : getMessage msg with
  | throw m => rfl
  | ub u => rfl
  | ok pc =>
    simp only [e, Res.ok_bind] at hdef ⊢
    rw [C84_wasm T F C fuel pc.data mem (fun info payload => h pc info payload e) (guarded_def hdef)]

/-! ## 4 GiB and more -/

/-- **C84 fails for 2^32 points.** If `width * height` is a multiple of 2^32, the decoder with 32 bits takes the empty payload for the complete cloud and leaves the output
as it is; with 64 bits the payload is refused. -/
theorem C84_points_wrap (F : FloatOps) (C : Compressor) (fuel : Nat) (info : EncodingInfo) (buf : List Byte) (x : List Dec × Nat) (hv : info.version ≥ 3#8)
    (hd : buildDecoders F info = .ok x) (hz : info.width.toNat * info.height.toNat % 2 ^ 32 = 0) (hp : info.width.toNat * info.height.toNat ≠ 0) :
    Word.decodeCloud (2 ^ 32) F C fuel info [] buf = .ok buf ∧
    decodeCloud F C fuel info [] buf = .throw "Encoded data ended before all declared points were decoded" := by
  constructor
  · unfold Word.decodeCloud
    rw [hd]
    simp only [Res.ok_bind]
    rw [if_neg (by decide), if_pos hv, hz]
    unfold Word.decodeLoop
    simp
  · unfold decodeCloud
    rw [hd]
    simp only [Res.ok_bind]
    rw [if_neg (by decide), if_pos hv]
    unfold decodeLoop
    simp [hp]

/-- A header with 65536 x 65536 points of one byte. -/
def squareInfo : EncodingInfo := { byteInfo with width := 65536#32, height := 65536#32 }

example (C : Compressor) : Word.decodeCloud (2 ^ 32) bitsOps C 0 squareInfo [] [1#8, 2#8] = .ok [1#8, 2#8] :=
  (C84_points_wrap bitsOps C 0 squareInfo [1#8, 2#8] _ (by decide) rfl (by decide) (by decide)).1

/-- 32768 points of 2^17 bytes with a 16-bit field: 2^32 bytes. -/
def stridedInfo : EncodingInfo :=
  { fields := [{ name := [0x61#8], offset := 0#32, type := .uint16 }], width := 32768#32, height := 1#32, point_step := 131072#32,
    encoding_opt := .lossy, compression_opt := .none, version := 5#8 }

theorem noFields_points (M : Nat) (F : FloatOps) (base step : Nat) (input buf : List Byte) (n : Nat) :
    ∀ p, Word.decodePoints M F base step n p [] input buf = .ok ([], input, buf) := by
  induction n with
  | zero => intro p; rfl
  | succ n ih => intro p; exact ih (p + 1)

/-- **C84 fails for memory safety.** The announced size of this cloud is 0 (the product has 32 bits), and so is the room the chunk needs: the test passes and the first point
is written outside a buffer of any size below the first point's.  With 64 bits the call throws. -/
theorem C84_room_wraps (F : FloatOps) (C : Compressor) (fuel : Nat) :
    (stridedInfo.width * stridedInfo.height * stridedInfo.point_step).toNat = 0 ∧
    Word.decodeCloud (2 ^ 32) F C fuel stridedInfo [2#8, 0#8, 0#8, 0#8, 0#8, 15#8] [] = .ub .mem ∧
    decodeCloud F C fuel stridedInfo [2#8, 0#8, 0#8, 0#8, 0#8, 15#8] [] = .throw "Output buffer is too small to hold the decoded V5 data" := by
  have hd : buildDecoders F stridedInfo = .ok ([], 0) := rfl
  have hi : decodeInt 4 [2#8, 0#8, 0#8, 0#8, 0#8, 15#8] = .ok (2, [0#8, 15#8]) := rfl
  have h5 : usesV5 stridedInfo = true := rfl
  refine ⟨by decide, ?_, ?_⟩
  · unfold Word.decodeCloud
    simp only [hd, Res.ok_bind]
    rw [if_neg (by decide), if_pos (by decide)]
    unfold Word.decodeLoop
    rw [if_neg (by decide), dif_neg (by decide)]
    simp only [hi, Res.ok_bind]
    rw [if_neg (by decide)]
    unfold Word.decodeChunk
    have hc : decompressChunk C stridedInfo.compression_opt (List.take 2 [0#8, 15#8]) (stridedInfo.width.toNat * stridedInfo.height.toNat * stridedInfo.point_step.toNat % 2 ^ 32) =
        .ok [0#8, 15#8] := rfl
    have ha : getAdaptiveFields stridedInfo = [{ offset := 0, bpv := 2, signed := false }] := rfl
    have hn : min (stridedInfo.width.toNat * stridedInfo.height.toNat % 2 ^ 32) kPointsPerChunk = 32767 + 1 := by decide
    have hs : stridedInfo.point_step.toNat = 131072 := rfl
    simp only [hc, Res.ok_bind]
    rw [if_pos h5, ha, hn, hs]
    unfold Word.decodeV5Chunk
    rw [if_neg (by decide), if_neg (by decide), List.map_nil, noFields_points]
    simp only [Res.ok_bind]
    unfold Word.decodeSections Word.decodeSection
    simp only [if_true]
    unfold Word.decodeDeltas
    rfl
  · unfold decodeCloud
    simp only [hd, Res.ok_bind]
    rw [if_neg (by decide), if_pos (by decide)]
    unfold decodeLoop
    rw [if_neg (by decide), dif_neg (by decide)]
    simp only [hi, Res.ok_bind]
    rw [if_neg (by decide)]
    unfold decodeChunk
    rw [h5]
    rfl

/-- The module is asked to decode that cloud into the 0 bytes it announced: it writes to memory it was not given. -/
theorem C84_wasm_corrupts (T : FloatText) (F : FloatOps) (C : Compressor) (fuel : Nat) (data mem : List Byte)
    (hd : decodeHeader T data = .ok (stridedInfo, [2#8, 0#8, 0#8, 0#8, 0#8, 15#8])) : Word.decodeData T F C fuel data mem = .ub .mem := by
  unfold Word.decodeData
  rw [hd]
  simp only
  obtain ⟨h1, h2, -⟩ := C84_room_wraps F C fuel
  rw [h1, if_neg (Nat.not_lt_zero _), List.take_zero, h2]
  rfl

/-! ## What the module returns -/

/-- **C84 with C56 (partial).** A compressed message made of a little-endian message of less than 4 GiB (what the format can hold), decoded in the module, with its
32 bits: the size and the cloud of C56.  Missing: as for C37 and C55. -/
theorem C84_message_partial (T : FloatText) (hT : T.Lawful) (F : FloatOps) (C : Compressor) (hC : C.Lawful) (fuel : Nat) (raw msg mem : List Byte) (pc : Pc2)
    (info : EncodingInfo) (hread : getMessage raw = .ok pc) (hraw : raw.length < 2 ^ 32) (hlittle : pc.cdr.big = false) (hne : pc.data ≠ [])
    (hw : info.width = pc.width) (hh : info.height = pc.height) (hs : info.point_step = pc.point_step) (ok : FileOk T F info pc.data)
    (hlim : info.compression_opt = .none ∨ ∀ enc, mkEncoder F info (encodeHeaderYaml T info) = .ok enc → ChunksWithin F enc pc.data pc.data.length)
    (hmsg : msg.length < 1431260227) (e : toCompressed T F C pc info = .ok msg) (hmem : pc.data.length ≤ mem.length) :
    ∃ buf, Word.decodeMessage T F C fuel msg mem = .ok ⟨pc.data.length, some buf⟩ ∧ buf.length = pc.data.length ∧ Decoded F info pc.data buf := by
  obtain ⟨-, buf, h1, h2, h3⟩ := C56_message_partial T hT F C hC fuel raw msg mem pc info hread hraw hlittle hne hw hh hs ok hlim hmsg e hmem
  refine ⟨buf, ?_, h2, h3⟩
  rw [← h1]
  refine C84_wasm_message T F C fuel msg mem ?_ (fun u => by rw [h1]; simp)
  intro pc' info' payload' e' hd'
  obtain ⟨hwire, hfits, hdl, hcanon⟩ := getMessage_inv hread hraw
  obtain ⟨st, m, enc, enc', out, e1, e2, e3, e4, e5, e6⟩ := toCompressed_inv e hne
  have ho : out.length < 1431260227 := by
    obtain ⟨x, rfl⟩ := encString_prefix e6
    rw [Cdr.encPrim_eq _ 1 _ _ (by omega)] at hmsg
    simp only [List.length_append] at hmsg
    omega
  have hal := (writeHeader_aligned (by simp [Cdr.encInit]) e1).1
  obtain ⟨x, hx⟩ := encString_prefix e6
  have hm : getMessage msg = .ok (echo pc out) := by
    rw [hx, ← encBuf_at hlittle (by omega : out.length < 2 ^ 32) hal]
    exact getMessage_encode pc hwire hfits out (by omega) _ x (encode_pc e1)
  obtain ⟨_, payload, t1, _⟩ := view_trip hT hC ok e4 e5 (hlim.imp_right fun h => h enc e4) ho
  rw [hm] at e'
  cases e'
  change decodeHeader T out = _ at hd'
  rw [t1] at hd'
  cases hd'
  refine ⟨?_, ?_⟩
  · intro hz
    have := ok.valid.step
    rw [hz] at this
    exact absurd this (by decide)
  · rw [← ok.data.size]
    exact hdl

example : ∃ buf, Word.decodeMessage bitsText bitsOps storeComp 0 mixMsg (List.replicate 108 1#8) = .ok ⟨108, some buf⟩ := by
  have h : mixPc.data.length = 108 := by decide +kernel
  obtain ⟨buf, h2, _⟩ := C84_message_partial bitsText bitsText_lawful bitsOps storeComp storeComp_lawful 0 mixRaw mixMsg (List.replicate 108 1#8) mixPc
    mixInfo mixRaw_read (by decide +kernel) rfl (by decide) rfl rfl rfl
    ⟨mix_valid, mix_cloud, by decide, by decide, by decide, Or.inl rfl, by
      simp only [mixInfo, List.mem_cons, List.not_mem_nil, or_false]
      rintro f (rfl | rfl | rfl | rfl | rfl | rfl | rfl) <;> exact plain_char _ (by decide), fun f _ r _ => extractU32_decimal r, fun h => by simp [mixInfo] at h⟩
    (Or.inl rfl) (by decide +kernel) mixMsg_eq (by rw [h]; decide)
  rw [h] at h2
  exact ⟨buf, h2⟩

/-- Two points of one byte, a payload that encodes them and one that is cut. -/
example : Word.decodeCloud (2 ^ 32) bitsOps storeComp 0 pairInfo [2#8, 0#8, 0#8, 0#8, 7#8, 8#8] [0#8, 0#8] = .ok [7#8, 8#8] ∧
    Word.decodeCloud (2 ^ 32) bitsOps storeComp 0 pairInfo [2#8, 0#8, 0#8, 0#8, 7#8] [0#8, 0#8] = .throw "Invalid chunk size found while decoding" := by
  have e : decodeCloud bitsOps storeComp 0 pairInfo [2#8, 0#8, 0#8, 0#8, 7#8, 8#8] [0#8, 0#8] = .ok [7#8, 8#8] := by decide +kernel
  have e' : decodeCloud bitsOps storeComp 0 pairInfo [2#8, 0#8, 0#8, 0#8, 7#8] [0#8, 0#8] = .throw "Invalid chunk size found while decoding" := by decide +kernel
  rw [← e, ← e']
  exact ⟨C84_same bitsOps storeComp 0 pairInfo _ _ ⟨by decide, by decide⟩ (by decide) (fun u => by rw [e]; simp),
    C84_same bitsOps storeComp 0 pairInfo _ _ ⟨by decide, by decide⟩ (by decide) (fun u => by rw [e']; simp)⟩

/-- A file with that header and that payload. -/
def stridedFile : List Byte := encodeHeaderYaml bitsText stridedInfo ++ [2#8, 0#8, 0#8, 0#8, 0#8, 15#8]

example : Word.decodeData bitsText bitsOps storeComp 0 stridedFile [1#8, 2#8] = .ub .mem :=
  C84_wasm_corrupts bitsText bitsOps storeComp 0 stridedFile [1#8, 2#8] (by decide +kernel)

end Cloudini.Props
