import Verif.Lemmas.WordEnc
import Verif.Props.C84

/-!
# C85: the encoder in the browser (32-bit `size_t`) writes the bytes the one on the desktop writes

In the WebAssembly module the sizes of the stage buffers, `MaxCompressedSize` and the hash of the palette have 32 bits.
-/

namespace Cloudini.Props

open Cloudini.Ros Cloudini.Wasm

/-- The stage buffer for a full chunk has fewer than 2^32 bytes, and so has the worst case of the output behind `front` bytes. -/
structure Fits32 (C : Compressor) (info : EncodingInfo) (points front : Nat) : Prop where
  stage : ∀ m, maxSerializedPointSize info.encoding_opt info.fields = .ok m →
    kPointsPerChunk * (max info.point_step.toNat m + 64) + info.fields.length * 64 + 1024 < 2 ^ 32
  total : ∀ t, maxCompressedSize C info points = .ok t → front + t < 2 ^ 32

theorem bound_same {C : Compressor} {info : EncodingInfo} {points front : Nat} (h : Fits32 C info points front) :
    Word.maxCompressedSize (2 ^ 32) C info points = maxCompressedSize C info points := by
  have ht := h.total
  unfold Word.maxCompressedSize
  unfold maxCompressedSize at ht ⊢
  by_cases hz : info.point_step = 0#32
  · rw [if_pos hz, if_pos hz]
  rw [if_neg hz] at ht ⊢
  rw [if_neg hz]
  cases em : maxSerializedPointSize info.encoding_opt info.fields with
  | throw e => rfl
  | ub u => rfl
  | ok m =>
    rw [em] at ht
    simp only [Res.ok_bind] at ht ⊢
    refine Word.chunks_same ?_ points (fun t et => by have := ht t et; omega)
    have hs := h.stage m em
    have hm : kPointsPerChunk * m ≤ kPointsPerChunk * (max info.point_step.toNat m + 64) := Nat.mul_le_mul_left _ (by omega)
    have hv : (if usesV5 info = true then info.fields.length * 32 + 1024 else 0) ≤ info.fields.length * 64 + 1024 := by split <;> omega
    exact Nat.lt_of_le_of_lt (Nat.add_le_add hm hv) (by rw [← Nat.add_assoc]; exact hs)

theorem payload_same {F : FloatOps} {C : Compressor} {enc : Encoder} {points n front : Nat} {cloud : List Byte} {w : W} {size : Nat} (h : Fits32 C enc.info n front) :
    Word.encodePayload (2 ^ 32) F C enc points cloud w size = encodePayload F C enc points cloud w size := by
  unfold Word.encodePayload encodePayload
  by_cases h5 : usesV5 enc.info = true
  · rw [if_pos h5, if_pos h5]
    have hcap : Word.v5StageBufferSize (2 ^ 32) enc.info kPointsPerChunk = v5StageBufferSize enc.info kPointsPerChunk := by
      unfold Word.v5StageBufferSize v5StageBufferSize
      apply Word.bind_congr
      intro m em
      rw [Nat.mod_eq_of_lt (h.stage m em)]
    rw [hcap]
    apply Word.bind_congr
    intro cap _
    apply Word.bind_congr
    rintro ⟨es, as⟩ ep
    dsimp only
    rw [Word.v5Loop_low Word.low_hash points (Word.plan_small ep)]
  · rw [if_neg h5, if_neg h5]
    apply Word.bind_congr
    intro m em
    have hs := h.stage m em
    have hm : kPointsPerChunk * max enc.info.point_step.toNat m ≤ kPointsPerChunk * (max enc.info.point_step.toNat m + 64) := Nat.mul_le_mul_left _ (by omega)
    rw [Nat.mod_eq_of_lt (by omega)]

/-- **C85, output views.** Whatever the encoder was used for before, the cloud and the room: the same bytes, the same exception, or the same undefined behaviour. -/
theorem C85_view (F : FloatOps) (C : Compressor) (enc : Encoder) (cloud : List Byte) (room : Nat) (wh : Bool)
    (h : Fits32 C enc.info (cloud.length / enc.info.point_step.toNat) enc.header.length) :
    Word.encodeView (2 ^ 32) F C enc cloud room wh = encodeView F C enc cloud room wh := by
  unfold Word.encodeView encodeView
  by_cases hz : enc.info.point_step = 0#32
  · rw [if_pos hz, if_pos hz]
  rw [if_neg hz, if_neg hz]
  by_cases hm : cloud.length % enc.info.point_step.toNat ≠ 0
  · rw [if_pos hm, if_pos hm]
  rw [if_neg hm, if_neg hm]
  dsimp only
  rw [bound_same h]
  apply Word.bind_congr
  intro t et
  have ht := h.total t et
  have hlt : t + (if wh = true then enc.header.length else 0) < 2 ^ 32 := by split <;> omega
  rw [Nat.mod_eq_of_lt hlt]
  simp only [payload_same h]

theorem Fits32.less {C : Compressor} {info : EncodingInfo} {points a b : Nat} (h : Fits32 C info points a) (hb : b ≤ a) : Fits32 C info points b :=
  ⟨h.stage, fun t et => by have := h.total t et; omega⟩

/-- **C85, output vectors.** -/
theorem C85_vector (F : FloatOps) (C : Compressor) (enc : Encoder) (est : Nat) (cloud : List Byte) (he : enc.header.length ≤ est)
    (h : Fits32 C enc.info (cloud.length / enc.info.point_step.toNat) est) :
    Word.encodeVector (2 ^ 32) F C enc est cloud = encodeVector F C enc est cloud := by
  unfold Word.encodeVector encodeVector
  by_cases hz : enc.info.point_step = 0#32
  · rw [if_pos hz, if_pos hz]
  rw [if_neg hz, if_neg hz]
  by_cases hm : cloud.length % enc.info.point_step.toNat ≠ 0
  · rw [if_pos hm, if_pos hm]
  rw [if_neg hm, if_neg hm, bound_same h]
  apply Word.bind_congr
  intro t et
  rw [Nat.mod_eq_of_lt (h.total t et)]
  simp only [C85_view F C enc cloud _ false (h.less he)]

theorem header_estimate (T : FloatText) (info : EncodingInfo) : (encodeHeaderYaml T info).length ≤ headerEstimate T info := by
  unfold encodeHeaderYaml headerEstimate
  simp only [List.length_append, List.length_singleton]
  have : (magicBytes info.version).length ≤ 12 := by
    unfold magicBytes
    simp [magic]
  omega

/-- **C85, the interface.** `cldn_EncodePointcloudMessage`, `cldn_ComputeCompressedSize` and `cldn_EncodePointcloudData` of the module are the functions C54, C55 and C57
speak about, for clouds whose sizes fit. -/
theorem C85_message (T : FloatText) (F : FloatOps) (C : Compressor) (msg : List Byte) (res : BitVec 32)
    (h : ∀ pc, getMessage msg = .ok pc → Fits32 C (withResolution res (toEncodingInfo pc)) (pc.data.length / pc.point_step.toNat)
      (headerEstimate T (withResolution res (toEncodingInfo pc)))) :
    Word.encodeMessage T F C msg res = Wasm.encodeMessage T F C msg res ∧ Word.computeSize T F C msg res = Wasm.computeSize T F C msg res := by
  unfold Word.encodeMessage Wasm.encodeMessage Word.computeSize Wasm.computeSize Word.computeBody Wasm.computeBody
  cases eg : getMessage msg with
  | throw e => exact ⟨rfl, rfl⟩
  | ub u => exact ⟨rfl, rfl⟩
  | ok pc =>
    have hf := h pc eg
    have hs : (withResolution res (toEncodingInfo pc)).point_step = pc.point_step := rfl
    rw [← hs] at hf
    simp only [Res.ok_bind]
    generalize withResolution res (toEncodingInfo pc) = info at *
    have hest := header_estimate T info
    constructor
    · congr 1
      by_cases hd : pc.data.length ≠ cloudDataSize pc
      · rw [if_pos hd, if_pos hd]
      rw [if_neg hd, if_neg hd]
      apply Word.bind_congr
      intro enc ee
      obtain ⟨hi, hh, -⟩ := mkEncoder_info ee
      by_cases hz : info.point_step = 0#32
      · rw [if_pos hz, if_pos hz]
      rw [if_neg hz, if_neg hz, bound_same hf]
      apply Word.bind_congr
      intro t et
      rw [Nat.mod_eq_of_lt (hf.total t et)]
      rw [C85_view F C enc pc.data _ _ (by rw [hi, hh]; exact hf.less hest), C85_vector F C enc _ pc.data (by rw [hh]; exact hest) (by rw [hi]; exact hf)]
    · congr 1
      apply Word.bind_congr
      intro enc ee
      obtain ⟨hi, hh, -⟩ := mkEncoder_info ee
      rw [C85_vector F C enc _ pc.data (by rw [hh]; exact hest) (by rw [hi]; exact hf)]

theorem C85_data (T : FloatText) (F : FloatOps) (C : Compressor) (yaml data : List Byte)
    (h : ∀ info, infoFromYaml T yaml = .ok info → Fits32 C info (data.length / info.point_step.toNat) (headerEstimate T info)) :
    Word.encodeData T F C yaml data = Wasm.encodeData T F C yaml data := by
  unfold Word.encodeData Wasm.encodeData
  congr 1
  apply Word.bind_congr
  intro info ei
  have hf := h info ei
  split
  · rfl
  · apply Word.bind_congr
    intro enc ee
    obtain ⟨hi, hh, -⟩ := mkEncoder_info ee
    rw [C85_vector F C enc _ data (by rw [hh]; exact header_estimate T info) (by rw [hi]; exact hf)]

/-! ## Which clouds fit -/

theorem field_at_most {opt : EncOpt} {f : PointField} {m : Nat} (h : maxSerializedFieldSize opt f = .ok m) : m ≤ 11 := by
  unfold maxSerializedFieldSize at h
  split at h <;> (try split at h) <;> simp at h <;> omega

theorem point_at_most {opt : EncOpt} : ∀ {fs : List PointField} {m : Nat}, maxSerializedPointSize opt fs = .ok m → m ≤ 11 * fs.length := by
  intro fs
  induction fs with
  | nil => intro m h; cases h; simp
  | cons f fs ih =>
    intro m h
    unfold maxSerializedPointSize at h
    obtain ⟨a, ea, h⟩ := Res.bind_eq_ok.1 h
    obtain ⟨b, eb, h⟩ := Res.bind_eq_ok.1 h
    cases h
    have := field_at_most ea
    have := ih eb
    simp only [List.length_cons]
    omega

/-- The bounds of the libraries, `LZ4_compressBound(n)` = n + n/255 + 16 and `ZSTD_compressBound(n)` ≤ n + n/256 + 64, satisfy this. -/
def ModestBound (C : Compressor) : Prop := ∀ opt n, C.bound opt n ≤ 2 * n + 64

theorem chunk_at_most {C : Compressor} (hC : ModestBound C) {info : EncodingInfo} {m n b : Nat} (h : chunkBound C info m n = .ok b) :
    b ≤ 2 * (n * m) + 64 * info.fields.length + 2112 := by
  have hi : n * m + (if usesV5 info = true then info.fields.length * 32 + 1024 else 0) ≤ n * m + info.fields.length * 32 + 1024 := by split <;> omega
  unfold chunkBound at h
  dsimp only at h
  generalize n * m + (if usesV5 info = true then info.fields.length * 32 + 1024 else 0) = input at *
  split at h
  · cases h; omega
  · split at h
    · cases h
    · cases h
      have := hC .lz4 input
      omega
  · cases h
    have := hC .zstd input
    omega
  · cases h

theorem chunks_at_most {C : Compressor} (hC : ModestBound C) {info : EncodingInfo} {m : Nat} : ∀ (points : Nat) {t : Nat}, maxCompressedChunks C info m points = .ok t →
    t ≤ 2 * (points * m) + (64 * info.fields.length + 2116) * ((points + 32767) / 32768) := by
  intro points
  induction points using Nat.strongRecOn with
  | _ points ih =>
    intro t h
    unfold maxCompressedChunks at h
    by_cases hp : points = 0
    · rw [dif_pos hp] at h; cases h; exact Nat.zero_le _
    rw [dif_neg hp] at h
    obtain ⟨b, eb, h⟩ := Res.bind_eq_ok.1 h
    obtain ⟨r, er, h⟩ := Res.bind_eq_ok.1 h
    cases h
    have h1 := chunk_at_most hC eb
    have h2 := ih (points - min points kPointsPerChunk) (by simp only [kPointsPerChunk]; omega) er
    simp only [kPointsPerChunk] at h1 h2
    have h3 : (points + 32767) / 32768 = (points - min points 32768 + 32767) / 32768 + 1 := by omega
    have h4 : points * m = min points 32768 * m + (points - min points 32768) * m := by
      rw [← Nat.add_mul]
      congr 1
      omega
    have h5 := Nat.mul_succ (64 * info.fields.length + 2116) ((points - min points 32768 + 32767) / 32768)
    rw [h3, h4, h5]
    generalize (64 * info.fields.length + 2116) * ((points - min points 32768 + 32767) / 32768) = q at *
    generalize (points - min points 32768) * m = a at *
    generalize min points 32768 * m = b' at *
    omega

/-- **C85, ordinary clouds fit.** Up to a million points of at most 64 KiB with at most 100 fields, and a header text below 1 GiB. -/
theorem C85_ordinary (C : Compressor) (hC : ModestBound C) (info : EncodingInfo) (points front : Nat) (hp : points ≤ 2 ^ 20) (hs : info.point_step.toNat ≤ 65536)
    (hf : info.fields.length ≤ 100) (hfront : front ≤ 2 ^ 30) : Fits32 C info points front where
  stage m em := by
    have := point_at_most em
    simp only [kPointsPerChunk]
    omega
  total t et := by
    unfold maxCompressedSize at et
    by_cases hz : info.point_step = 0#32
    · rw [if_pos hz] at et; cases et
    rw [if_neg hz] at et
    obtain ⟨m, em, et⟩ := Res.bind_eq_ok.1 et
    have h1 := point_at_most em
    have h2 := chunks_at_most hC points et
    have h3 : points * m ≤ 2 ^ 20 * 1100 := Nat.mul_le_mul hp (by omega)
    have h4 : (64 * info.fields.length + 2116) * ((points + 32767) / 32768) ≤ 8516 * 32 := Nat.mul_le_mul (by omega) (by omega)
    omega

/-! ## Both sides in the module -/

/-- **C85 with C55 (partial).** A message encoded and decoded in the module, with its 32 bits: the cloud of C55.  Missing: as for C55, and clouds that do not fit. -/
theorem C85_roundtrip_partial (T : FloatText) (hT : T.Lawful) (F : FloatOps) (C : Compressor) (hC : C.Lawful) (fuel : Nat) (msg b mem : List Byte)
    (res : BitVec 32) (n : Nat) (pc : Pc2) (hmsg : msg.length < 1431260227) (hread : getMessage msg = .ok pc) (ok : FileOk T F (wasmInfo pc res) pc.data)
    (hlim : ∀ enc, mkEncoder F (wasmInfo pc res) (encodeHeaderYaml T (wasmInfo pc res)) = .ok enc → ChunksWithin F enc pc.data pc.data.length)
    (hfit : Fits32 C (wasmInfo pc res) (pc.data.length / pc.point_step.toNat) (headerEstimate T (wasmInfo pc res)))
    (hn : n ≠ 0) (h : Word.encodeMessage T F C msg res = .ok ⟨n, some b⟩) (hmem : pc.data.length ≤ mem.length) :
    ∃ buf, Word.decodeData T F C fuel b mem = .ok ⟨pc.data.length, some buf⟩ ∧ buf.length = pc.data.length ∧ Decoded F (wasmInfo pc res) pc.data buf ∧
      ∀ p, p < buf.length → ¬ Declared (wasmInfo pc res) p → buf[p]? = mem[p]? := by
  have hm := (C85_message T F C msg res (fun pc' e' => by rw [hread] at e'; cases e'; exact hfit)).1
  rw [hm] at h
  obtain ⟨buf, h1, h2⟩ := C55_roundtrip_partial T hT F C hC fuel msg b mem res n pc hmsg hread ok hlim hn h hmem
  refine ⟨buf, ?_, h2⟩
  rw [← h1]
  have hdl := (getMessage_inv hread (by omega)).2.2.1
  obtain ⟨payload, t1, -⟩ := encoded_trip hT hC hmsg hread ok hlim hn h
  refine C84_wasm T F C fuel b mem ?_ (fun u => by rw [h1]; simp)
  intro info' payload' hd'
  rw [t1] at hd'
  cases hd'
  refine ⟨?_, ?_⟩
  · intro hz
    have := ok.valid.step
    rw [hz] at this
    exact absurd this (by decide)
  · rw [← ok.data.size]
    exact hdl

theorem storeComp_modest : ModestBound storeComp := by
  intro opt n
  show n + 1 ≤ 2 * n + 64
  omega

theorem wasm_fits : Fits32 storeComp (wasmInfo wasmPc 0x3F800000#32) (wasmPc.data.length / wasmPc.point_step.toNat) (headerEstimate bitsText (wasmInfo wasmPc 0x3F800000#32)) :=
  C85_ordinary storeComp storeComp_modest _ _ _ (by decide +kernel) (by decide +kernel) (by decide +kernel) (by decide +kernel)

example : ∃ n b buf, Word.encodeMessage bitsText bitsOps storeComp wasmRaw 0x3F800000#32 = .ok ⟨n, some b⟩ ∧ n ≠ 0 ∧
    Word.decodeData bitsText bitsOps storeComp 0 b (List.replicate 100 9#8) = .ok ⟨96, some buf⟩ ∧ Decoded bitsOps pclInfo pclWitness.data buf := by
  have h : (match encodeMessage bitsText bitsOps storeComp wasmRaw 0x3F800000#32 with | .ok ⟨n, some _⟩ => decide (n ≠ 0) | _ => false) = true := by
    decide +kernel
  have hm := (C85_message bitsText bitsOps storeComp wasmRaw 0x3F800000#32 (fun pc' e' => by rw [wasmRaw_read] at e'; cases e'; exact wasm_fits)).1
  rw [← hm] at h
  cases e : Word.encodeMessage bitsText bitsOps storeComp wasmRaw 0x3F800000#32 with
  | throw m => rw [e] at h; cases h
  | ub u => rw [e] at h; cases h
  | ok o =>
    obtain ⟨n, ob⟩ := o
    cases ob with
    | none => rw [e] at h; cases h
    | some b =>
      rw [e] at h
      simp only [decide_eq_true_eq] at h
      obtain ⟨buf, h1, h2, h3, _⟩ := C85_roundtrip_partial bitsText bitsText_lawful bitsOps storeComp storeComp_lawful 0 wasmRaw b (List.replicate 100 9#8)
        0x3F800000#32 n wasmPc (by decide +kernel) wasmRaw_read (by rw [wasmPc_info]; exact pcl_ok)
        (by rw [wasmPc_info]; intro enc he; rw [pcl_enc] at he; cases he; exact pcl_within) wasm_fits h e (by decide +kernel)
      rw [wasmPc_info] at h3
      exact ⟨n, b, buf, rfl, h, h1, h3⟩

/-! ## Large points -/

theorem zstd_bounded {C : Compressor} {info : EncodingInfo} {m : Nat} (hz : info.compression_opt = .zstd) : ∀ points, ∃ t, maxCompressedChunks C info m points = .ok t := by
  intro points
  induction points using Nat.strongRecOn with
  | _ points ih =>
    unfold maxCompressedChunks
    by_cases hp : points = 0
    · exact ⟨0, by rw [dif_pos hp]⟩
    rw [dif_neg hp]
    obtain ⟨t, et⟩ := ih (points - min points kPointsPerChunk) (by simp only [kPointsPerChunk]; omega)
    rw [et]
    have hb : ∃ b, chunkBound C info m (min points kPointsPerChunk) = .ok b := by
      unfold chunkBound
      rw [hz]
      exact ⟨_, rfl⟩
    obtain ⟨b, eb⟩ := hb
    rw [eb]
    exact ⟨4 + b + t, rfl⟩

/-- A cloud with one byte per point that is stored, in points of 2^17 bytes: what `cldn_EncodePointcloudMessage` makes of a message with one UINT8 field. -/
def stridePc (pc : Pc2) (name : List Byte) : Prop := pc.fields = [{ name := name, offset := 0#32, type := .uint8 }] ∧ pc.point_step = 131072#32

/-- The description made of such a message. -/
def strideInfo (pc : Pc2) (name : List Byte) : EncodingInfo :=
  { fields := [{ name := name, offset := 0#32, type := .uint8 }], width := pc.width, height := pc.height, point_step := 131072#32,
    encoding_opt := .lossy, compression_opt := .zstd }

/-- **C85 fails for points of 2^17 bytes.** The stage buffer should have 32768 * 2^17 bytes; the product has 32 bits, the buffer no byte at all, and the first point is
written outside it.  Any non-empty cloud of such points, whatever its contents, and whatever the compressor (with a bound that fits). -/
theorem C85_stride_corrupts (T : FloatText) (F : FloatOps) (C : Compressor) (msg name : List Byte) (res : BitVec 32) (pc : Pc2) (hread : getMessage msg = .ok pc)
    (hpc : stridePc pc name) (hd : pc.data.length = cloudDataSize pc) (hne : pc.data ≠ [])
    (hfit : ∀ t, maxCompressedSize C (withResolution res (toEncodingInfo pc)) (pc.data.length / 131072) = .ok t →
      headerEstimate T (withResolution res (toEncodingInfo pc)) + t < 2 ^ 32) :
    Word.encodeMessage T F C msg res = .ub .mem := by
  obtain ⟨hf, hs⟩ := hpc
  have hmod : pc.data.length % 131072 = 0 := by
    rw [hd]
    unfold cloudDataSize
    rw [hs, BitVec.toNat_mul]
    show ((pc.width * pc.height).toNat * 131072) % 2 ^ 32 % 131072 = 0
    omega
  have hi : withResolution res (toEncodingInfo pc) = strideInfo pc name := by
    unfold withResolution toEncodingInfo strideInfo
    rw [hf, hs]
    rfl
  unfold Word.encodeMessage
  rw [hread]
  simp only [Res.ok_bind]
  rw [if_neg (by omega)]
  rw [hi] at hfit ⊢
  generalize hinfo : strideInfo pc name = info at *
  have hs' : info.point_step = 131072#32 := by rw [← hinfo]; rfl
  have hz' : info.compression_opt = .zstd := by rw [← hinfo]; rfl
  have h5 : usesV5 info = false := by rw [← hinfo]; rfl
  have hm : maxSerializedPointSize info.encoding_opt info.fields = .ok 1 := by rw [← hinfo]; rfl
  have he : mkEncoder F info (encodeHeaderYaml T info) = .ok ⟨info, encodeHeaderYaml T info, [.copy 0 1]⟩ := by
    unfold mkEncoder
    rw [h5]
    rw [← hinfo]
    rfl
  rw [he]
  simp only [Res.ok_bind]
  rw [if_neg (by rw [hs']; decide), hs']
  have hp : (131072#32).toNat = 131072 := rfl
  rw [hp]
  have hb : Word.maxCompressedSize (2 ^ 32) C info (pc.data.length / 131072) = maxCompressedSize C info (pc.data.length / 131072) := by
    unfold Word.maxCompressedSize
    unfold maxCompressedSize at hfit ⊢
    have h0 : ¬ info.point_step = 0#32 := by rw [hs']; decide
    rw [if_neg h0] at hfit ⊢
    rw [if_neg h0]
    rw [hm] at hfit ⊢
    exact Word.chunks_same (by rw [h5, if_neg (by decide)]; decide) _ (fun t et => by have := hfit t et; omega)
  obtain ⟨t, et⟩ : ∃ t, maxCompressedSize C info (pc.data.length / 131072) = .ok t := by
    unfold maxCompressedSize
    rw [if_neg (by rw [hs']; decide), hm]
    exact zstd_bounded hz' _
  have ht := hfit t et
  have hest := header_estimate T info
  have hpos : pc.data.length / 131072 ≠ 0 := by
    have := List.length_pos_iff.2 hne
    omega
  have pay : ∀ (w : W) size, Word.encodePayload (2 ^ 32) F C ⟨info, encodeHeaderYaml T info, [.copy 0 1]⟩ (pc.data.length / 131072) pc.data w size = .ub .mem := by
    intro w size
    unfold Word.encodePayload
    dsimp only
    rw [h5, if_neg (by decide), hm]
    simp only [Res.ok_bind]
    have hcap : kPointsPerChunk * max info.point_step.toNat 1 % 2 ^ 32 = 0 := by rw [hs']; decide
    rw [hcap]
    unfold encodeV4Loop
    rw [dif_neg hpos]
    obtain ⟨b, rest, hcloud⟩ := List.exists_cons_of_ne_nil hne
    have hk : kPointsPerChunk = 32767 + 1 := rfl
    have hchunk : encodeV4Chunk F info.point_step.toNat [.copy 0 1] pc.data kPointsPerChunk 0 = .ub .mem := by
      unfold encodeV4Chunk
      rw [hk, hcloud]
      rfl
    rw [hchunk]
    rfl
  rw [hb, et]
  simp only [Res.ok_bind]
  have view : ∀ room wh, t + (if wh = true then (encodeHeaderYaml T info).length else 0) ≤ room →
      Word.encodeView (2 ^ 32) F C ⟨info, encodeHeaderYaml T info, [.copy 0 1]⟩ pc.data room wh = .ub .mem := by
    intro room wh hroom
    unfold Word.encodeView
    dsimp only
    rw [if_neg (by rw [hs']; decide), hs', hp, if_neg (by omega), hb, et]
    simp only [Res.ok_bind]
    have hlt : t + (if wh = true then (encodeHeaderYaml T info).length else 0) < 2 ^ 32 := by split <;> omega
    rw [Nat.mod_eq_of_lt hlt, if_neg (by omega)]
    have hraw : (⟨[], room⟩ : W).raw (if wh = true then encodeHeaderYaml T info else []) =
        .ok ⟨[] ++ (if wh = true then encodeHeaderYaml T info else []), room - (if wh = true then encodeHeaderYaml T info else []).length⟩ := by
      unfold W.raw
      rw [if_pos]
      cases wh
      · exact Nat.zero_le _
      · simp only [if_true] at hroom ⊢
        omega
    rw [hraw]
    simp only [Res.ok_bind]
    rw [pay]
    rfl
  rw [Nat.mod_eq_of_lt ht]
  by_cases hroom : headerEstimate T info + t ≤ msg.length
  · rw [if_pos hroom, view _ _ (by simp only [if_true]; omega)]
    rfl
  · rw [if_neg hroom]
    unfold Word.encodeVector
    dsimp only
    rw [if_neg (by rw [hs']; decide), hs', hp, if_neg (by omega), hb, et]
    simp only [Res.ok_bind]
    rw [Nat.mod_eq_of_lt ht]
    have hraw : (⟨[], headerEstimate T info + t⟩ : W).raw (encodeHeaderYaml T info) = .ok ⟨[] ++ encodeHeaderYaml T info, headerEstimate T info + t - (encodeHeaderYaml T info).length⟩ := by
      unfold W.raw
      rw [if_pos (by simp only; omega)]
    rw [hraw]
    simp only [Res.ok_bind]
    rw [view _ _ (by simp only [Bool.false_eq_true, if_false]; omega)]
    rfl

/-- One point of 2^17 bytes. -/
def strideOne (data : List Byte) : Pc2 :=
  { frame := ascii "map", width := 1#32, height := 1#32, point_step := 131072#32, row_step := 131072#32 * 1#32,
    fields := [{ name := ascii "i", offset := 0#32, type := .uint8 }], data := data }

theorem strideOne_bound : maxCompressedSize storeComp (strideInfo (strideOne []) (ascii "i")) 1 = .ok 6 := by decide +kernel

theorem strideOne_bytes (data : List Byte) :
    ∃ bytes : List Byte, Cdr.encode (strideOne data).cdr pcTy (pcVal (strideOne data) data) (Cdr.encInit (strideOne data).cdr) = .ok bytes := by
  unfold strideOne
  exact ⟨_, rfl⟩

theorem strideOne_fits (data : List Byte) : FitsPc (strideOne data) := by
  refine ⟨?_, ?_, ?_⟩
  · show (ascii "map").length + 1 < 2 ^ 32
    decide
  · show 1 < 2 ^ 32
    decide
  · intro f hf
    rcases List.mem_singleton.1 hf with rfl
    show (ascii "i").length + 1 < 2 ^ 32
    decide

theorem strideOne_echo (data : List Byte) : echo (strideOne data) data = strideOne data := rfl

theorem strideOne_made (data : List Byte) :
    withResolution 0x3F800000#32 (toEncodingInfo (strideOne data)) = strideInfo (strideOne []) (ascii "i") := rfl

theorem strideOne_header : headerEstimate bitsText (strideInfo (strideOne []) (ascii "i")) + 6 < 2 ^ 32 := by decide +kernel

/-- There are such messages, one for every content of the point. -/
theorem C85_stride_reachable (data : List Byte) (hd : data.length = 131072) :
    ∃ msg, getMessage msg = .ok (strideOne data) ∧ Word.encodeMessage bitsText bitsOps storeComp msg 0x3F800000#32 = .ub .mem := by
  obtain ⟨bytes, e⟩ := strideOne_bytes data
  have hr := getMessage_encode (strideOne data) ⟨rfl, rfl⟩ (strideOne_fits data) data (by omega) bytes [] e
  rw [List.append_nil] at hr
  rw [strideOne_echo] at hr
  refine ⟨bytes, hr, ?_⟩
  refine C85_stride_corrupts bitsText bitsOps storeComp bytes (ascii "i") 0x3F800000#32 (strideOne data) hr ⟨rfl, rfl⟩ ?_ ?_ ?_
  · show data.length = (1#32 * 1#32 * 131072#32).toNat
    have : (1#32 * 1#32 * 131072#32).toNat = 131072 := by decide
    omega
  · intro h
    have : data = [] := h
    rw [this, List.length_nil] at hd
    omega
  · intro t et
    have h1 : (strideOne data).data.length / 131072 = 1 := by
      show data.length / 131072 = 1
      omega
    rw [h1] at et
    rw [strideOne_made] at et ⊢
    rw [strideOne_bound] at et
    obtain rfl : 6 = t := by simpa using et
    exact strideOne_header

example : ∃ msg, Word.encodeMessage bitsText bitsOps storeComp msg 0x3F800000#32 = .ub .mem :=
  (C85_stride_reachable (List.replicate 131072 0#8) List.length_replicate).imp fun _ h => h.2

end Cloudini.Props
