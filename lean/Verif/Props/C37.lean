import Verif.Lemmas.Ros
import Verif.Props.C18_C20
import Verif.Props.C25_C28
import Verif.Props.C36

/-!
# C37: converting ROS messages

`getMessage raw` is `getDeserializedPointCloudMessage`, `toCompressed` is `convertPointCloud2ToCompressedCloud`, `fromCompressed` is
`convertCompressedCloudToPointCloud2`.
-/

namespace Cloudini.Props

open Cloudini.Ros

/-- **C37, the compressed message** of a little-endian message is the CDR encoding of a `CompressedPointCloud2` whose head is the message's,
whose data is what `encode` wrote (the header and the payload of the cloud) and whose format is "cloudini". -/
theorem C37_compressed_format (T : FloatText) (F : FloatOps) (C : Compressor) (pc : Pc2) (info : EncodingInfo) (bytes : List Byte)
    (hlittle : pc.cdr.big = false) (hne : pc.data ≠ []) (hsize : bytes.length < 2 ^ 32) (e : toCompressed T F C pc info = .ok bytes) :
    ∃ enc enc' out room, mkEncoder F info (encodeHeaderYaml T info) = .ok enc ∧ encodeView F C enc pc.data room true = .ok (enc', out, out.length) ∧
      Cdr.encodeMsg pc.cdr compressedTy (compressedVal pc out) = .ok bytes := by
  obtain ⟨st, m, enc, enc', out, e1, e2, e3, e4, e5, e6⟩ := toCompressed_inv e hne
  refine ⟨enc, enc', out, _, e4, e5, ?_⟩
  have ho : out.length < 2 ^ 32 := by
    obtain ⟨x, rfl⟩ := encString_prefix e6
    rw [Cdr.encPrim_eq _ 1 _ _ (by omega)] at hsize
    simp only [List.length_append] at hsize
    omega
  unfold Cdr.encodeMsg
  rw [encode_compressed e1, encBuf_at hlittle ho (writeHeader_aligned (by simp [Cdr.encInit]) e1).1]
  exact e6

/-- **C37 (partial).** A little-endian `PointCloud2` message, whatever its stamp, frame id, field names and other contents: compressing it with any
valid description of its points and decompressing the result gives a message with the same stamp, frame id, height, width, fields,
point_step and is_dense, and data in which every described field of every point has the value the codec promises (`expected`) and every
other byte is 0.  Missing: big-endian messages (`C37_big_endian_fails`); descriptions whose resolutions do not survive being printed with
six digits (`hres`) and whose names the header cannot hold; what C18 excludes. -/
theorem C37_roundtrip_partial (T : FloatText) (hT : T.Lawful) (F : FloatOps) (C : Compressor) (hC : C.Lawful) (raw msg : List Byte) (pc : Pc2)
    (info : EncodingInfo) (fuel : Nat)
    (hread : getMessage raw = .ok pc) (hraw : raw.length < 2 ^ 32) (hlittle : pc.cdr.big = false) (hne : pc.data ≠ [])
    (hw : info.width = pc.width) (hh : info.height = pc.height) (hs : info.point_step = pc.point_step)
    (hinfo : ValidInfo F info) (hcloud : ValidCloud F info pc.data) (h64 : FieldLimit info)
    (hver : info.version.toNat ≤ 5) (hcomp : info.compression_opt = .none ∨ info.compression_opt = .lz4 ∨ info.compression_opt = .zstd)
    (hcfg : info.encoding_config = [] ∨ HeaderText info.encoding_config) (hnames : ∀ f ∈ info.fields, HeaderText f.name)
    (hres : ∀ f ∈ info.fields, ∀ r, f.resolution = some r → T.parse (T.print r) = .ok r)
    (hlim : info.compression_opt = .none ∨ ∀ enc, mkEncoder F info (encodeHeaderYaml T info) = .ok enc → ChunksWithin F enc pc.data pc.data.length)
    (hlz : info.compression_opt = .lz4 → pc.data.length ≤ intMax)
    (hmsg : msg.length < 1431260227) (e : toCompressed T F C pc info = .ok msg) :
    ∃ pcC raw' pc', getMessage msg = .ok pcC ∧ SameMeta pcC pc ∧ fromCompressed T F C fuel pcC = .ok raw' ∧ getMessage raw' = .ok pc' ∧
      SameMeta pc' pc ∧ pc'.data.length = pc.data.length ∧
      (∀ i, i < pc.width.toNat * pc.height.toNat → ∀ k f, info.fields[k]? = some f →
        cell pc'.data 0 pc.point_step.toNat i f.offset.toNat (sizeOf f.type) =
          expected F info k f (cell pc.data 0 pc.point_step.toNat i f.offset.toNat (sizeOf f.type))) ∧
      (∀ p, p < pc'.data.length → ¬ Declared info p → pc'.data[p]? = some 0#8) := by
  obtain ⟨hwire, hfits, hdl, hcanon⟩ := getMessage_inv hread hraw
  obtain ⟨st, m, enc, enc', out, e1, e2, e3, e4, e5, e6⟩ := toCompressed_inv e hne
  have ho : out.length < 1431260227 := by
    obtain ⟨x, rfl⟩ := encString_prefix e6
    rw [Cdr.encPrim_eq _ 1 _ _ (by omega)] at hmsg
    simp only [List.length_append] at hmsg
    omega
  have hal := (writeHeader_aligned (by simp [Cdr.encInit]) e1).1
  -- the compressed message
  obtain ⟨x, hx⟩ := encString_prefix e6
  have hm : getMessage msg = .ok (echo pc out) := by
    rw [hx, ← encBuf_at hlittle (by omega : out.length < 2 ^ 32) hal]
    exact getMessage_encode pc hwire hfits out (by omega) _ x (encode_pc e1)
  have hmeta : ∀ data, SameMeta (echo pc data) pc := fun data => ⟨rfl, rfl, rfl, rfl, rfl, hcanon, rfl, rfl, rfl⟩
  -- the compressed data
  have hhdr : enc.header = encodeHeaderYaml T info := by
    unfold mkEncoder at e4
    split at e4
    · simp only [Res.ok.injEq] at e4; rw [← e4]
    · obtain ⟨es, _, e4⟩ := Res.bind_eq_ok.1 e4
      simp only [Res.ok.injEq] at e4; rw [← e4]
  obtain ⟨payload, n, e7, e8⟩ := C23_header_then_payload F C enc enc' pc.data out _ _ e5
  have hpl : payload.length < 1431260227 := by rw [e8, List.length_append] at ho; omega
  have hdec : decodeHeader T out = .ok (info, payload) := by
    rw [e8, hhdr, C26_yaml_roundtrip_partial T hT info ⟨by have := hinfo.version; omega, hver⟩ hinfo.option hcomp hinfo.types hcfg hnames id hres payload]
    have : (info.fields.map fun f => { f with resolution := f.resolution.map id }) = info.fields := by
      conv => rhs; rw [← List.map_id info.fields]
      apply List.map_congr_left
      intro f _
      simp
    rw [this]
  -- decoding
  have hsize : cloudDataSize pc = pc.data.length := by
    have h1 := hcloud.size
    rw [hw, hh, hs] at h1
    unfold cloudDataSize
    rw [BitVec.toNat_mul, BitVec.toNat_mul, Nat.mod_mul_mod, ← h1, Nat.mod_eq_of_lt hdl]
  obtain ⟨buf', d1, d2, d3⟩ := C18_cloud_roundtrip_partial F C hC info (encodeHeaderYaml T info) enc enc' pc.data payload _ n fuel hinfo hcloud
    (.fresh enc e4) e7 h64 (hlim.imp_right fun h => h enc e4) hlz (C18_magic F C enc enc' pc.data payload _ n e7 hpl)
    (List.replicate pc.data.length 0#8) (by simp)
  have hbl : buf'.length = pc.data.length := by rw [d2]; simp
  have hpos : pc.data.length ≠ 0 := by simpa using hne
  have hwr : writeHeader (echo pc out).cdr (echo pc out) (Cdr.encInit (echo pc out).cdr) = .ok st := by
    rw [← e1]
    show writeHeader pc.cdr { pc with fields := _, row_step := _, data := _ } (Cdr.encInit pc.cdr) = _
    rw [hcanon]
    rfl
  have hfrom : fromCompressed T F C fuel (echo pc out) = .ok (Cdr.encPrim pc.cdr 1 pc.dense.toNat (Cdr.encBuf pc.cdr buf' st)) := by
    unfold fromCompressed
    simp only [hwr, Res.ok_bind]
    have hz : cloudDataSize (echo pc out) = pc.data.length := hsize
    rw [hz, if_neg hpos]
    have hd' : decodeHeader T (echo pc out).data = .ok (info, payload) := hdec
    simp only [hd', Res.ok_bind, d1]
    rw [encBuf_at hlittle (by omega) hal]
    show Res.ok (Cdr.encPrim pc.cdr 1 pc.dense.toNat (Cdr.encPrim pc.cdr 4 pc.data.length st ++ buf')) = _
    rw [encPrim4_at _ _ _ hal, hbl]
    unfold Cdr.primBytes
    rw [hlittle]; rfl
  have hback : getMessage (Cdr.encPrim pc.cdr 1 pc.dense.toNat (Cdr.encBuf pc.cdr buf' st)) = .ok (echo pc buf') := by
    have := getMessage_encode pc hwire hfits buf' (by omega) _ [] (encode_pc e1)
    rwa [List.append_nil] at this
  refine ⟨echo pc out, _, echo pc buf', hm, hmeta out, hfrom, hback, hmeta buf', hbl, ?_, ?_⟩
  · intro i hi k f hk
    have := d3 i (by rw [hw, hh]; exact hi) k f hk
    rw [hs] at this
    exact this
  · intro p hp hd
    have hp : p < buf'.length := hp
    have := (C19_untouched F C info payload _ buf' fuel hinfo.step hinfo.version (by simp; omega) d1).2 p hd
    show buf'[p]? = _
    rw [this, List.getElem?_replicate, if_pos (by omega)]

/-- **C37, empty clouds** (of either byte order): nothing but the head and the trailing members is written, and the way back gives an
empty cloud with the same head. -/
theorem C37_empty (T : FloatText) (F : FloatOps) (C : Compressor) (raw msg : List Byte) (pc : Pc2) (info : EncodingInfo) (fuel : Nat)
    (hread : getMessage raw = .ok pc) (hraw : raw.length < 2 ^ 32) (hemp : pc.data = [])
    (hz : pc.width.toNat * pc.height.toNat * pc.point_step.toNat = 0) (e : toCompressed T F C pc info = .ok msg) :
    ∃ pcC raw' pc', getMessage msg = .ok pcC ∧ SameMeta pcC pc ∧ fromCompressed T F C fuel pcC = .ok raw' ∧ getMessage raw' = .ok pc' ∧
      SameMeta pc' pc ∧ pc'.data = [] := by
  obtain ⟨hwire, hfits, hdl, hcanon⟩ := getMessage_inv hread hraw
  unfold toCompressed at e
  obtain ⟨st, e1, e⟩ := Res.bind_eq_ok.1 e
  have hl : pc.data.length = 0 := by simp [hemp]
  simp only [if_pos hl] at e
  have hbuf : Cdr.encBuf pc.cdr [] st = Cdr.encPrim pc.cdr 4 0 st := by simp [Cdr.encBuf]
  have hmeta : SameMeta (echo pc []) pc := ⟨rfl, rfl, rfl, rfl, rfl, hcanon, rfl, rfl, rfl⟩
  have hwr : writeHeader (echo pc []).cdr (echo pc []) (Cdr.encInit (echo pc []).cdr) = .ok st := by
    rw [← e1]
    show writeHeader pc.cdr { pc with fields := _, row_step := _, data := _ } (Cdr.encInit pc.cdr) = _
    rw [hcanon]
    rfl
  have hget : ∀ rest, getMessage (Cdr.encPrim pc.cdr 1 pc.dense.toNat (Cdr.encPrim pc.cdr 4 0 st) ++ rest) = .ok (echo pc []) := by
    intro rest
    rw [← hbuf]
    exact getMessage_encode pc hwire hfits [] (by simp) _ rest (encode_pc e1)
  obtain ⟨x, hx⟩ := encString_prefix e
  refine ⟨echo pc [], Cdr.encPrim pc.cdr 1 pc.dense.toNat (Cdr.encPrim pc.cdr 4 0 st), echo pc [], by rw [hx]; exact hget x, hmeta, ?_,
    by have := hget []; rwa [List.append_nil] at this, hmeta, rfl⟩
  unfold fromCompressed
  simp only [hwr, Res.ok_bind]
  have hz' : cloudDataSize (echo pc []) = 0 := by
    show (pc.width * pc.height * pc.point_step).toNat = 0
    rw [BitVec.toNat_mul, BitVec.toNat_mul, Nat.mod_mul_mod, hz]
  rw [hz', if_pos rfl]
  rfl

/-! ### the hypotheses are met -/

/-- The mixed cloud of `Verif.Props.Witness` in a message. -/
def mixPc : Pc2 :=
  { sec := 1700000000#32, nsec := 5#32, frame := ascii "lidar", height := 1#32, width := 3#32, fields := mixInfo.fields.map fun f => { f with resolution := none },
    point_step := 36#32, row_step := 108#32, data := mixCloud, dense := 0#8 }
def mixRaw : List Byte := match Cdr.encodeMsg mixPc.cdr pcTy (pcVal mixPc mixCloud) with | .ok x => x | _ => []
def mixMsg : List Byte := match toCompressed bitsText bitsOps storeComp mixPc mixInfo with | .ok x => x | _ => []
theorem mixRaw_read : getMessage mixRaw = .ok mixPc := by decide +kernel
theorem mixMsg_eq : toCompressed bitsText bitsOps storeComp mixPc mixInfo = .ok mixMsg := by decide +kernel

example : ∃ pcC raw' pc', getMessage mixMsg = .ok pcC ∧ SameMeta pcC mixPc ∧ fromCompressed bitsText bitsOps storeComp 0 pcC = .ok raw' ∧
    getMessage raw' = .ok pc' ∧ SameMeta pc' mixPc ∧ pc'.data.length = 108 := by
  obtain ⟨pcC, raw', pc', h1, h2, h3, h4, h5, h6, _⟩ := C37_roundtrip_partial bitsText bitsText_lawful bitsOps storeComp storeComp_lawful mixRaw mixMsg mixPc
    mixInfo 0 mixRaw_read (by decide +kernel) rfl (by decide) rfl rfl rfl mix_valid mix_cloud (by decide) (by decide) (by decide) (Or.inl rfl) (by
      simp only [mixInfo, List.mem_cons, List.not_mem_nil, or_false]
      rintro f (rfl | rfl | rfl | rfl | rfl | rfl | rfl) <;> exact plain_char _ (by decide))
    (fun f _ r _ => extractU32_decimal r) (Or.inl rfl) (fun h => by simp [mixInfo] at h) (by decide +kernel) mixMsg_eq
  exact ⟨pcC, raw', pc', h1, h2, h3, h4, h5, by rw [h6]; decide +kernel⟩

/-- An empty big-endian message. -/
def emptyPc : Pc2 := { cdr := { big := true }, frame := ascii "map", fields := [{ name := [0x78#8], type := .uint8 }], point_step := 1#32 }
def emptyRaw : List Byte := match Cdr.encodeMsg emptyPc.cdr pcTy (pcVal emptyPc []) with | .ok x => x | _ => []
example : getMessage emptyRaw = .ok emptyPc ∧ emptyRaw.length < 2 ^ 32 ∧ emptyPc.data = [] ∧
    emptyPc.width.toNat * emptyPc.height.toNat * emptyPc.point_step.toNat = 0 ∧
    (toCompressed bitsText bitsOps storeComp emptyPc (toEncodingInfo emptyPc)).isOk = true := by decide +kernel

/-! ### what is not preserved -/

/-- One byte in a big-endian message. -/
def bigPc : Pc2 := { cdr := { big := true }, frame := ascii "map", width := 1#32, fields := [{ name := [0x78#8], type := .uint8 }], point_step := 1#32, row_step := 1#32, data := [7#8] }
def bigRaw : List Byte := match Cdr.encodeMsg bigPc.cdr pcTy (pcVal bigPc [7#8]) with | .ok x => x | _ => []
def bigMsg : List Byte := match toCompressed bitsText bitsOps storeComp bigPc { toEncodingInfo bigPc with compression_opt := .none } with | .ok x => x | _ => []

/-- **C37 fails for big-endian messages**: the size of the compressed data is patched in with the bytes of a little-endian number, so
that the compressed message cannot be read back. -/
theorem C37_big_endian_fails : getMessage bigRaw = .ok bigPc ∧
    toCompressed bitsText bitsOps storeComp bigPc { toEncodingInfo bigPc with compression_opt := .none } = .ok bigMsg ∧ (getMessage bigMsg).isThrow = true := by
  decide +kernel

/-- A message with `is_bigendian` set, a field of count 3 and padded rows: members of the message that are read and dropped. -/
def oddRaw (big : BitVec 8) (count row : BitVec 32) : List Byte :=
  match Cdr.encodeMsg {} pcTy (((1#32 : BitVec 32), (2#32 : BitVec 32), (ascii "map" : List Byte), (1#32 : BitVec 32), (1#32 : BitVec 32),
      ([(([0x78#8] : List Byte), (0#32 : BitVec 32), (2#8 : BitVec 8), count)] : List fieldTy.Val), big, (4#32 : BitVec 32), row), ([1#8, 2#8, 3#8, 4#8] : List Byte), (1#8 : BitVec 8)) with
  | .ok x => x
  | _ => []

/-- **C37 does not hold for the count of a field and is_bigendian** (which the property does not list): messages that differ in them
are read alike, so neither can come back. -/
theorem C37_count_dropped : oddRaw 1#8 3#32 4#32 ≠ oddRaw 0#8 1#32 4#32 ∧ getMessage (oddRaw 1#8 3#32 4#32) = getMessage (oddRaw 0#8 1#32 4#32) ∧
    (getMessage (oddRaw 1#8 3#32 4#32)).isOk = true := by decide +kernel

/-! ### the other theorems applied to these messages -/

example : ∃ enc enc' out room, mkEncoder bitsOps mixInfo (encodeHeaderYaml bitsText mixInfo) = .ok enc ∧
    encodeView bitsOps storeComp enc mixCloud room true = .ok (enc', out, out.length) ∧ Cdr.encodeMsg mixPc.cdr compressedTy (compressedVal mixPc out) = .ok mixMsg :=
  C37_compressed_format bitsText bitsOps storeComp mixPc mixInfo mixMsg rfl (by decide) (by decide +kernel) mixMsg_eq
example : ∃ msg pcC raw' pc', toCompressed bitsText bitsOps storeComp emptyPc (toEncodingInfo emptyPc) = .ok msg ∧ getMessage msg = .ok pcC ∧
    fromCompressed bitsText bitsOps storeComp 0 pcC = .ok raw' ∧ getMessage raw' = .ok pc' ∧ SameMeta pc' emptyPc ∧ pc'.data = [] := by
  have hok : (toCompressed bitsText bitsOps storeComp emptyPc (toEncodingInfo emptyPc)).isOk = true := by decide +kernel
  cases h : toCompressed bitsText bitsOps storeComp emptyPc (toEncodingInfo emptyPc) with
  | throw e => rw [h] at hok; simp at hok
  | ub e => rw [h] at hok; simp at hok
  | ok msg =>
    obtain ⟨pcC, raw', pc', h1, _, h2, h3, h4, h5⟩ := C37_empty bitsText bitsOps storeComp emptyRaw msg emptyPc (toEncodingInfo emptyPc) 0 (by decide +kernel) (by decide +kernel) rfl
      (by decide) h
    exact ⟨msg, pcC, raw', pc', rfl, h1, h2, h3, h4, h5⟩

end Cloudini.Props
