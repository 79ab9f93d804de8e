import Verif.Lemmas.FileTrip
import Verif.Model.PclCloud
import Verif.Props.C42

/-!
# C51–C53: outputs that are too small; PCL clouds
-/

namespace Cloudini.Props

open Cloudini.Pcd

/-! ## C51 -/

/-- **C51.** For every info of version 3 or later, every payload (valid or not) and every output buffer that is too small for
`width * height` points of `point_step` bytes (the product is not reduced modulo anything): `decode` does not return normally. -/
theorem C51_small_output (F : FloatOps) (C : Compressor) (fuel : Nat) (info : EncodingInfo) (payload buf : List Byte)
    (hstep : 0 < info.point_step.toNat) (hver : 3 ≤ info.version.toNat) (hbuf : buf.length < 2 ^ 64)
    (hsmall : buf.length < info.width.toNat * info.height.toNat * info.point_step.toNat) :
    ∀ buf', decodeCloud F C fuel info payload buf ≠ .ok buf' := fun _ h =>
  absurd (decodeCloud_room hstep hver hbuf h) (by omega)

example : ∀ buf', decodeCloud bitsOps storeComp 0 mixInfo mixOut (List.replicate 107 0#8) ≠ .ok buf' :=
  C51_small_output _ _ _ _ _ _ (by decide) (by decide) (by decide) (by decide)

/-! ## C52 -/

/-- **C52 (partial).** A PCL cloud of the eight types PCL and the library share: encoding it and decoding the bytes gives a cloud of the same
width, height, point step and fields (with count 1), in which every field of every point has the value the codec promises and every other byte
is what `resize` left there.  Missing: what `FileOk` and C18 exclude, other types (`C52_unknown_type`), counts other than 1 (`C52_count_ignored`)
and clouds of 4 GiB or more (`C52_large`). -/
theorem C52_roundtrip_partial (T : FloatText) (hT : T.Lawful) (F : FloatOps) (C : Compressor) (hC : C.Lawful) (fuel : Nat) (c : PclCloud) (res : BitVec 64)
    (bytes old : List Byte) (ht : ∀ f ∈ c.fields, 1 ≤ f.datatype.toNat ∧ f.datatype.toNat ≤ 8) (ok : FileOk T F (convert c res) c.data)
    (hlim : ∀ enc, mkEncoder F (convert c res) (encodeHeaderYaml T (convert c res)) = .ok enc → ChunksWithin F enc c.data c.data.length)
    (h32 : c.data.length < 2 ^ 32) (hsz : bytes.length < 1431260227) (e : pclEncode T F C c res = .ok bytes) :
    ∃ c', pclCloudDecode T F C fuel bytes old = .ok c' ∧ c'.width = c.width ∧ c'.height = c.height ∧ c'.point_step = c.point_step ∧
      c'.fields = c.fields.map (fun f => { f with count := 1#32 }) ∧ c'.bigendian = 0#8 ∧ c'.dense = 1#8 ∧ c'.row_step = c.width * c.point_step ∧
      c'.data.length = c.data.length ∧ Decoded F (convert c res) c.data c'.data ∧
      ∀ p, ¬ Declared (convert c res) p → p < c'.data.length → c'.data[p]? = some (old.getD p 0#8) := by
  unfold pclEncode encodeData at e
  obtain ⟨enc, e1, e⟩ := Res.bind_eq_ok.1 e
  obtain ⟨⟨enc', out, n⟩, e2, e⟩ := Res.bind_eq_ok.1 e
  simp only [Res.ok.injEq] at e
  subst e
  obtain ⟨_, payload, h1, h2⟩ := vector_trip hT hC ok e1 e2 (.inr (hlim enc e1)) hsz
  have hsize : ((convert c res).width * (convert c res).height * (convert c res).point_step).toNat = c.data.length := by
    rw [BitVec.toNat_mul, BitVec.toNat_mul, Nat.mod_mul_mod, ← ok.data.size, Nat.mod_eq_of_lt h32]
  have hol : (old.take c.data.length ++ List.replicate (c.data.length - old.length) 0#8).length = c.data.length := by
    rw [List.length_append, List.length_take, List.length_replicate]; omega
  obtain ⟨buf', h3, h4, h5⟩ := h2 fuel (old.take c.data.length ++ List.replicate (c.data.length - old.length) 0#8) (by rw [hol])
  rw [hol] at h4
  unfold pclCloudDecode
  rw [h1]
  simp only [Res.ok_bind, hsize, h3]
  refine ⟨_, rfl, rfl, rfl, rfl, ?_, rfl, rfl, rfl, h4, h5, ?_⟩
  · exact C42_fields_roundtrip _ _ _ _ _ ht
  · intro p hp hl
    rw [(C19_untouched F C _ payload _ buf' fuel ok.valid.step ok.valid.version (by omega) h3).2 p hp]
    have hl : p < c.data.length := by rw [← h4]; exact hl
    by_cases hpo : p < old.length
    · rw [List.getElem?_append_left (by rw [List.length_take]; omega), List.getElem?_take_of_lt hl]
      simp [List.getD, List.getElem?_eq_getElem hpo]
    · rw [List.getElem?_append_right (by rw [List.length_take]; omega), List.getElem?_replicate, if_pos (by rw [List.length_take]; omega)]
      simp [List.getD, List.getElem?_eq_none (by omega : old.length ≤ p)]

/-- **C52, large clouds.** The size of the output is computed in 32 bits: no file whose cloud has 4 GiB or more is decoded, whatever its contents. -/
theorem C52_large (T : FloatText) (F : FloatOps) (C : Compressor) (fuel : Nat) (bytes payload old : List Byte) (info : EncodingInfo)
    (h : decodeHeader T bytes = .ok (info, payload)) (hver : 3 ≤ info.version.toNat) (hstep : 0 < info.point_step.toNat)
    (hbig : 2 ^ 32 ≤ info.width.toNat * info.height.toNat * info.point_step.toNat) :
    ∀ c, pclCloudDecode T F C fuel bytes old ≠ .ok c := by
  intro c e
  unfold pclCloudDecode at e
  rw [h] at e
  simp only [Res.ok_bind] at e
  obtain ⟨data, e, _⟩ := Res.bind_eq_ok.1 e
  have hlt := (info.width * info.height * info.point_step).isLt
  have hol : (old.take (info.width * info.height * info.point_step).toNat ++
      List.replicate ((info.width * info.height * info.point_step).toNat - old.length) 0#8).length = (info.width * info.height * info.point_step).toNat := by
    rw [List.length_append, List.length_take, List.length_replicate]; omega
  exact absurd (decodeCloud_room hstep hver (by omega) e) (by omega)

/-- **C52, counts.** The number of elements of a field is not encoded: clouds that differ in it give the same bytes, and decoding always
reports 1. -/
theorem C52_count_ignored (T : FloatText) (F : FloatOps) (C : Compressor) (fuel : Nat) (c : PclCloud) (res : BitVec 64) (n : PclField → BitVec 32)
    (bytes old : List Byte) (c' : PclCloud) :
    pclEncode T F C { c with fields := c.fields.map fun f => { f with count := n f } } res = pclEncode T F C c res ∧
      (pclCloudDecode T F C fuel bytes old = .ok c' → ∀ f ∈ c'.fields, f.count = 1#32) := by
  constructor
  · unfold pclEncode convert toInfo
    simp only [List.map_map]
    rfl
  · intro e f hf
    unfold pclCloudDecode at e
    obtain ⟨⟨info, payload⟩, _, e⟩ := Res.bind_eq_ok.1 e
    obtain ⟨data, _, e⟩ := Res.bind_eq_ok.1 e
    simp only [Res.ok.injEq] at e
    subst e
    simp only [fromInfo, List.mem_map] at hf
    obtain ⟨g, _, rfl⟩ := hf
    rfl

theorem maxSer_unknown {opt : EncOpt} {fields : List PointField} (h : ∃ f ∈ fields, f.type = .unknown) :
    ∀ m, maxSerializedPointSize opt fields ≠ .ok m := by
  induction fields with
  | nil => obtain ⟨f, hf, _⟩ := h; cases hf
  | cons g fs ih =>
    intro m e
    unfold maxSerializedPointSize at e
    obtain ⟨a, e1, e⟩ := Res.bind_eq_ok.1 e
    obtain ⟨b, e2, _⟩ := Res.bind_eq_ok.1 e
    obtain ⟨f, hf, hu⟩ := h
    rcases List.mem_cons.1 hf with rfl | hf
    · unfold maxSerializedFieldSize at e1
      rw [hu] at e1
      simp at e1
    · exact ih ⟨f, hf, hu⟩ b e2

theorem encodeData_unknown {T : FloatText} {F : FloatOps} {C : Compressor} {info : EncodingInfo} {data bytes : List Byte}
    (h : ∃ f ∈ info.fields, f.type = .unknown) : encodeData T F C info data ≠ .ok bytes := by
  intro e
  unfold encodeData at e
  obtain ⟨enc, e1, e⟩ := Res.bind_eq_ok.1 e
  obtain ⟨⟨enc', out, n⟩, e2, e⟩ := Res.bind_eq_ok.1 e
  unfold encodeVector at e2
  rw [(mkEncoder_info e1).1] at e2
  split at e2
  · simp at e2
  split at e2
  · simp at e2
  obtain ⟨m, e3, e2⟩ := Res.bind_eq_ok.1 e2
  unfold maxCompressedSize at e3
  split at e3
  · simp at e3
  obtain ⟨k, e4, e3⟩ := Res.bind_eq_ok.1 e3
  exact maxSer_unknown h k e4

/-- **C52, types.** A cloud with a field of another type (64-bit integers, for example) is not encoded. -/
theorem C52_unknown_type (T : FloatText) (F : FloatOps) (C : Compressor) (c : PclCloud) (res : BitVec 64) (f : PclField) (hf : f ∈ c.fields)
    (ht : f.datatype.toNat = 0 ∨ 8 < f.datatype.toNat) : ∀ bytes, pclEncode T F C c res ≠ .ok bytes := by
  intro bytes
  refine encodeData_unknown ⟨⟨f.name, f.offset, pclType f.datatype, if pclType f.datatype = .float32 then resolution32 res else none⟩, ?_, ?_⟩
  · exact List.mem_map.2 ⟨f, hf, rfl⟩
  · have key : ∀ d : Byte, d.toNat = 0 ∨ 8 < d.toNat → pclType d = .unknown := by decide +kernel
    exact key _ ht

/-- A PCL cloud of three points of 32 bytes: x, y, z and a 16-bit ring number; resolution 1.0. -/
def pclWitness : PclCloud :=
  { height := 1#32, width := 3#32, point_step := 32#32, row_step := 96#32, bigendian := 0#8, dense := 1#8,
    fields := [⟨ascii "x", 0#32, 7#8, 1#32⟩, ⟨ascii "y", 4#32, 7#8, 1#32⟩, ⟨ascii "z", 8#32, 7#8, 1#32⟩, ⟨ascii "ring", 16#32, 4#8, 1#32⟩],
    data := toLE 4 1000 ++ toLE 4 2000 ++ toLE 4 3000 ++ toLE 4 0xAAAA ++ toLE 2 7 ++ List.replicate 14 0xBB#8 ++
      (toLE 4 1001 ++ toLE 4 0x7fc00001 ++ toLE 4 17 ++ toLE 4 0xAAAA ++ toLE 2 65535 ++ List.replicate 14 0xBB#8) ++
      (toLE 4 999 ++ toLE 4 2001 ++ toLE 4 0 ++ toLE 4 0xAAAA ++ toLE 2 8 ++ List.replicate 14 0xBB#8) }

def pclRes : BitVec 64 := 0x3FF0000000000000#64

theorem pclRes_narrow : resolution32 pclRes = some 0x3F800000#32 := by
  unfold resolution32
  rw [if_pos (by decide)]
  have : IEEE.narrow pclRes.toNat = 0x3F800000 := by decide +kernel
  rw [this]

def pclInfo : EncodingInfo :=
  { fields := [⟨ascii "x", 0#32, .float32, some 0x3F800000#32⟩, ⟨ascii "y", 4#32, .float32, some 0x3F800000#32⟩,
      ⟨ascii "z", 8#32, .float32, some 0x3F800000#32⟩, ⟨ascii "ring", 16#32, .uint16, none⟩],
    width := 3#32, height := 1#32, point_step := 32#32 }

theorem pcl_convert : convert pclWitness pclRes = pclInfo := by
  unfold convert
  rw [pclRes_narrow]
  decide +kernel

theorem pcl_ok : FileOk bitsText bitsOps pclInfo pclWitness.data where
  valid := ⟨by decide, by decide, by decide, by decide, by decide, by decide, fun _ _ _ _ _ => ⟨rfl, rfl⟩⟩
  data := ⟨by decide +kernel, by decide +kernel, follows_of_range (range_of (by decide +kernel))⟩
  count := by decide
  version := by decide
  comp := .inr (.inr rfl)
  config := .inl rfl
  names := by
    have h1 : ∀ s : List Byte, s ∈ [ascii "x", ascii "y", ascii "z", ascii "ring"] → HeaderText s := by
      intro s hs
      refine ⟨⟨?_, ?_, ?_, ?_, ?_⟩, ?_⟩ <;> revert s <;> decide +kernel
    intro f hf
    refine h1 f.name ?_
    simp only [pclInfo, List.mem_cons, List.not_mem_nil, or_false] at hf
    rcases hf with rfl | rfl | rfl | rfl <;> simp
  resolutions := fun f _ r _ => extractU32_decimal r
  lz4 := fun h => by simp [pclInfo] at h

def pclEnc : Encoder := ⟨pclInfo, encodeHeaderYaml bitsText pclInfo, []⟩

theorem pcl_enc : mkEncoder bitsOps pclInfo (encodeHeaderYaml bitsText pclInfo) = .ok pclEnc := by
  unfold mkEncoder
  rw [if_pos (by decide +kernel)]
  rfl

theorem pcl_within : ChunksWithin bitsOps pclEnc pclWitness.data pclWitness.data.length := by
  intro es cs h c hc
  have h' : (match stage1Chunks bitsOps pclEnc pclWitness.data with | .ok r => r.2.all (fun c => c.length ≤ pclWitness.data.length) | _ => true) = true := by
    decide +kernel
  rw [h] at h'
  simp only [List.all_eq_true, decide_eq_true_eq] at h'
  exact h' c hc

theorem pcl_encoded : (pclEncode bitsText bitsOps storeComp pclWitness pclRes).isOk = true ∧
    ∀ b, pclEncode bitsText bitsOps storeComp pclWitness pclRes = .ok b → b.length < 1431260227 := by
  unfold pclEncode
  rw [pcl_convert]
  have : (match encodeData bitsText bitsOps storeComp pclInfo pclWitness.data with | .ok b => decide (b.length < 1431260227) | _ => false) = true := by
    decide +kernel
  revert this
  cases encodeData bitsText bitsOps storeComp pclInfo pclWitness.data with
  | ok b => intro h; exact ⟨rfl, fun b' hb => by cases hb; simpa using h⟩
  | throw m => simp
  | ub k => simp

example : ∃ bytes c', pclEncode bitsText bitsOps storeComp pclWitness pclRes = .ok bytes ∧
    pclCloudDecode bitsText bitsOps storeComp 0 bytes [1#8, 2#8] = .ok c' ∧ Decoded bitsOps pclInfo pclWitness.data c'.data := by
  obtain ⟨h1, h2⟩ := pcl_encoded
  cases e : pclEncode bitsText bitsOps storeComp pclWitness pclRes with
  | ok bytes =>
    obtain ⟨c', h3, _, _, _, _, _, _, _, _, h4, _⟩ := C52_roundtrip_partial bitsText bitsText_lawful bitsOps storeComp storeComp_lawful 0 pclWitness pclRes
      bytes [1#8, 2#8] (by intro f hf; simp only [pclWitness, List.mem_cons, List.not_mem_nil, or_false] at hf; rcases hf with rfl | rfl | rfl | rfl <;> decide)
      (by rw [pcl_convert]; exact pcl_ok) (by rw [pcl_convert]; intro enc he; rw [pcl_enc] at he; cases he; exact pcl_within)
      (by decide +kernel) (h2 bytes e) e
    rw [pcl_convert] at h4
    exact ⟨bytes, c', rfl, h3, h4⟩
  | throw m => rw [e] at h1; simp at h1
  | ub k => rw [e] at h1; simp at h1

/-! ## C53 -/

/-- The description `PCLPointCloudEncode` uses for a file: that of the loaded cloud, with the types of the file's header where PCL knows none. -/
def fileInfo (c : PclCloud) (res : BitVec 64) (m : Types) : EncodingInfo :=
  { convert c res with fields := (convert c res).fields.map fun f => if f.type = .unknown then { f with type := (m f.name).getD .unknown } else f }

/-- **C53 (partial).** Converting a PCD file: the types PCL does not know are taken from the header of the file, and the file written decodes to the
cloud PCL loaded.  Missing: as for C52. -/
theorem C53_roundtrip_partial (T : FloatText) (hT : T.Lawful) (F : FloatOps) (C : Compressor) (hC : C.Lawful) (fuel fuel' : Nat) (c : PclCloud)
    (res : BitVec 64) (text bytes old : List Byte) (m : Types) (hm : readPcd fuel text = .ok m) (ok : FileOk T F (fileInfo c res m) c.data)
    (hlim : ∀ enc, mkEncoder F (fileInfo c res m) (encodeHeaderYaml T (fileInfo c res m)) = .ok enc → ChunksWithin F enc c.data c.data.length)
    (h32 : c.data.length < 2 ^ 32) (hsz : bytes.length < 1431260227) (e : pclEncodeFile T F C fuel c text res = .ok bytes) :
    ∃ c', pclCloudDecode T F C fuel' bytes old = .ok c' ∧ c'.width = c.width ∧ c'.height = c.height ∧ c'.point_step = c.point_step ∧
      c'.fields.map (fun f => (f.name, f.offset)) = c.fields.map (fun f => (f.name, f.offset)) ∧
      c'.fields.map (fun f => f.datatype) = (fileInfo c res m).fields.map (fun f => f.type.code) ∧
      c'.data.length = c.data.length ∧ Decoded F (fileInfo c res m) c.data c'.data := by
  unfold pclEncodeFile at e
  rw [hm] at e
  simp only [Res.ok_bind] at e
  obtain ⟨fs, e0, e⟩ := Res.bind_eq_ok.1 e
  rw [C42_fix m _ fs e0] at e
  change encodeData T F C (fileInfo c res m) c.data = .ok bytes at e
  unfold encodeData at e
  obtain ⟨enc, e1, e⟩ := Res.bind_eq_ok.1 e
  obtain ⟨⟨enc', out, n⟩, e2, e⟩ := Res.bind_eq_ok.1 e
  simp only [Res.ok.injEq] at e
  subst e
  obtain ⟨_, payload, h1, h2⟩ := vector_trip hT hC ok e1 e2 (.inr (hlim enc e1)) hsz
  have hsize : ((fileInfo c res m).width * (fileInfo c res m).height * (fileInfo c res m).point_step).toNat = c.data.length := by
    rw [BitVec.toNat_mul, BitVec.toNat_mul, Nat.mod_mul_mod, ← ok.data.size, Nat.mod_eq_of_lt h32]
  have hol : (old.take c.data.length ++ List.replicate (c.data.length - old.length) 0#8).length = c.data.length := by
    rw [List.length_append, List.length_take, List.length_replicate]; omega
  obtain ⟨buf', h3, h4, h5⟩ := h2 fuel' (old.take c.data.length ++ List.replicate (c.data.length - old.length) 0#8) (by rw [hol])
  rw [hol] at h4
  unfold pclCloudDecode
  rw [h1]
  simp only [Res.ok_bind, hsize, h3]
  refine ⟨_, rfl, rfl, rfl, rfl, ?_, ?_, h4, h5⟩
  · simp only [fromInfo, fileInfo, convert, toInfo, List.map_map]
    refine List.map_congr_left fun f _ => ?_
    simp only [Function.comp]
    split <;> rfl
  · simp only [fromInfo, List.map_map]
    rfl

/-- **C53, rejected files.** A field whose type neither PCL nor the header of the file gives (the name is missing, or the entry is one the reader
does not map, such as `I 8`: `C42_eight_bytes`): nothing is encoded. -/
theorem C53_unknown (T : FloatText) (F : FloatOps) (C : Compressor) (fuel : Nat) (c : PclCloud) (res : BitVec 64) (text : List Byte) (m : Types)
    (hm : readPcd fuel text = .ok m) (f : PclField) (hf : f ∈ c.fields) (ht : f.datatype.toNat = 0 ∨ 8 < f.datatype.toNat)
    (hu : m f.name = none ∨ m f.name = some .unknown) : ∀ bytes, pclEncodeFile T F C fuel c text res ≠ .ok bytes := by
  intro bytes e
  unfold pclEncodeFile at e
  rw [hm] at e
  simp only [Res.ok_bind] at e
  obtain ⟨fs, e0, e⟩ := Res.bind_eq_ok.1 e
  have key : ∀ d : Byte, d.toNat = 0 ∨ 8 < d.toNat → pclType d = .unknown := by decide +kernel
  refine encodeData_unknown ⟨⟨f.name, f.offset, .unknown, none⟩, ?_, rfl⟩ e
  rw [C42_fix m _ fs e0]
  refine List.mem_map.2 ⟨⟨f.name, f.offset, pclType f.datatype, if pclType f.datatype = .float32 then resolution32 res else none⟩,
    List.mem_map.2 ⟨f, hf, rfl⟩, ?_⟩
  rw [key _ ht]
  rcases hu with hu | hu <;> simp [hu]

/-- The header of a PCD file with an unsigned and a signed 64-bit field. -/
def pcdText : List Byte :=
  ascii "VERSION 0.7\nFIELDS x t s\nSIZE 4 8 8\nTYPE F U I\nCOUNT 1 1 1\nWIDTH 1\nHEIGHT 1\nPOINTS 1\nDATA binary\n"

/-- The unsigned one is recognised, the signed one is not: **the documented purpose of the file overload (`UINT64 or INT64 fields`) fails for
INT64.** -/
theorem C53_int64_rejected : ∃ m, readPcd 20 pcdText = .ok m ∧ m (ascii "t") = some .uint64 ∧ m (ascii "s") = some .unknown ∧
    ∀ (T : FloatText) (F : FloatOps) (C : Compressor) (c : PclCloud) (res : BitVec 64) (f : PclField), f ∈ c.fields → f.name = ascii "s" →
      f.datatype.toNat = 0 ∨ 8 < f.datatype.toNat → ∀ bytes, pclEncodeFile T F C 20 c pcdText res ≠ .ok bytes := by
  have h : (match readPcd 20 pcdText with | .ok m => decide (m (ascii "t") = some .uint64 ∧ m (ascii "s") = some .unknown) | _ => false) = true := by
    decide +kernel
  cases e : readPcd 20 pcdText with
  | ok m =>
    rw [e] at h
    simp only [decide_eq_true_eq] at h
    refine ⟨m, rfl, h.1, h.2, fun T F C c res f hf hn ht => C53_unknown T F C 20 c res pcdText m e f hf ht (.inr (by rw [hn]; exact h.2))⟩
  | throw m => rw [e] at h; simp at h
  | ub k => rw [e] at h; simp at h

/-- A cloud with an unsigned 64-bit field is encoded with it. -/
def pcdWitness : PclCloud :=
  { height := 1#32, width := 1#32, point_step := 16#32, row_step := 16#32, bigendian := 0#8, dense := 1#8,
    fields := [⟨ascii "x", 0#32, 7#8, 1#32⟩, ⟨ascii "t", 8#32, 10#8, 1#32⟩], data := toLE 4 17 ++ toLE 4 0 ++ toLE 8 1700000000000 }

example : (pclEncodeFile bitsText bitsOps storeComp 20 pcdWitness pcdText 0#64).isOk = true ∧
    (pclEncode bitsText bitsOps storeComp pcdWitness 0#64).isOk = false := by
  unfold pclEncodeFile pclEncode convert
  rw [show resolution32 0#64 = none from rfl]
  decide +kernel

/-! ### point types -/

/-- **C52, the two conversions disagree about a resolution that is not positive**: of a `PCLPointCloud2` it means lossless floats, of a cloud of points
it is stored as it is, and the field encoders throw on a resolution that is not positive. -/
theorem C52_zero_resolution (c : PclCloud) (w h step : BitVec 32) (o : Option (BitVec 32)) :
    (∀ f ∈ (convert c 0#64).fields, f.resolution = none) ∧ (pointXYZ w h step o 0#64).fields.map (·.resolution) =
      [some 0#32, some 0#32, some 0#32] ++ (if o.isSome then [none] else []) := by
  constructor
  · intro f hf
    unfold convert toInfo at hf
    simp only [List.mem_map] at hf
    obtain ⟨g, _, rfl⟩ := hf
    simp [resolution32]
  · have : IEEE.narrow 0 = 0 := by decide +kernel
    unfold pointXYZ
    cases o <;> simp [this]

/-- A header that announces 65536 x 65536 points of 8 bytes. -/
def hugeInfo : EncodingInfo :=
  { fields := [{ name := ascii "t", type := .uint64 }], width := 65536#32, height := 65536#32, point_step := 8#32, encoding_opt := .none, compression_opt := .none }
theorem huge_header : ∃ info payload, decodeHeader bitsText (encodeHeaderYaml bitsText hugeInfo) = .ok (info, payload) ∧ info.version = 5#8 ∧
    info.point_step = 8#32 ∧ info.width = 65536#32 ∧ info.height = 65536#32 := by
  have h : (match decodeHeader bitsText (encodeHeaderYaml bitsText hugeInfo) with
      | .ok (i, _) => decide (i.version = 5#8 ∧ i.point_step = 8#32 ∧ i.width = 65536#32 ∧ i.height = 65536#32)
      | _ => false) = true := by decide +kernel
  cases e : decodeHeader bitsText (encodeHeaderYaml bitsText hugeInfo) with
  | ok r => obtain ⟨i, p⟩ := r; rw [e] at h; simp only [decide_eq_true_eq] at h; exact ⟨i, p, rfl, h⟩
  | throw m => rw [e] at h; simp at h
  | ub k => rw [e] at h; simp at h
example (F : FloatOps) (C : Compressor) (old : List Byte) : ∀ c, pclCloudDecode bitsText F C 0 (encodeHeaderYaml bitsText hugeInfo) old ≠ .ok c := by
  obtain ⟨info, payload, h, h1, h2, h3, h4⟩ := huge_header
  exact C52_large bitsText F C 0 _ payload old info h (by rw [h1]; decide) (by rw [h2]; decide) (by rw [h2, h3, h4]; decide)

/-- `pclWitness` with a field of three elements, and what becomes of it. -/
example : pclEncode bitsText bitsOps storeComp { pclWitness with fields := pclWitness.fields.map fun f => { f with count := 3#32 } } pclRes =
    pclEncode bitsText bitsOps storeComp pclWitness pclRes :=
  (C52_count_ignored bitsText bitsOps storeComp 0 pclWitness pclRes (fun _ => 3#32) [] [] pclWitness).1

/-- The 64-bit field of `pcdWitness` is not encoded without the file. -/
example : ∀ bytes, pclEncode bitsText bitsOps storeComp pcdWitness pclRes ≠ .ok bytes :=
  C52_unknown_type _ _ _ _ _ ⟨ascii "t", 8#32, 10#8, 1#32⟩ (by simp [pcdWitness]) (by decide)

/-- The description of `pcdWitness` with the types of `pcdText`. -/
def pcdInfo : EncodingInfo :=
  { fields := [{ name := ascii "x", type := .float32 }, { name := ascii "t", offset := 8#32, type := .uint64 }], width := 1#32, height := 1#32,
    point_step := 16#32, encoding_opt := .lossy, compression_opt := .zstd }

theorem pcd_info (m : Types) (h : m (ascii "t") = some .uint64) : fileInfo pcdWitness 0#64 m = pcdInfo := by
  unfold fileInfo convert toInfo
  simp only [show resolution32 0#64 = none from rfl, ite_self]
  simp only [pcdWitness, List.map_cons, List.map_nil, show pclType 7#8 = FieldType.float32 from rfl, show pclType 10#8 = FieldType.unknown from rfl, h]
  rfl

theorem pcd_ok : FileOk bitsText bitsOps pcdInfo pcdWitness.data where
  valid := ⟨by decide, by decide, by decide, by decide, by decide, by decide, fun _ _ _ _ _ => ⟨rfl, rfl⟩⟩
  data := ⟨by decide +kernel, by decide +kernel, follows_of_range (range_of (by decide +kernel))⟩
  count := by decide
  version := by decide
  comp := .inr (.inr rfl)
  config := .inl rfl
  names := by
    have h1 : ∀ s : List Byte, s ∈ [ascii "x", ascii "t"] → HeaderText s := by
      intro s hs
      refine ⟨⟨?_, ?_, ?_, ?_, ?_⟩, ?_⟩ <;> revert s <;> decide +kernel
    intro f hf
    refine h1 f.name ?_
    simp only [pcdInfo, List.mem_cons, List.not_mem_nil, or_false] at hf
    rcases hf with rfl | rfl <;> simp
  resolutions := fun f _ r _ => extractU32_decimal r
  lz4 := fun h => by simp [pcdInfo] at h

/-- The file of `pcdWitness` decodes to the cloud, its 64-bit field as UINT64. -/
example : ∃ bytes c', pclEncodeFile bitsText bitsOps storeComp 20 pcdWitness pcdText 0#64 = .ok bytes ∧
    pclCloudDecode bitsText bitsOps storeComp 0 bytes [] = .ok c' ∧ Decoded bitsOps pcdInfo pcdWitness.data c'.data ∧
    c'.fields.map (fun f => f.datatype) = [7#8, 10#8] := by
  obtain ⟨m, hm, ht, _⟩ := C53_int64_rejected
  have hi := pcd_info m ht
  have h : (match pclEncodeFile bitsText bitsOps storeComp 20 pcdWitness pcdText 0#64 with | .ok b => decide (b.length < 1431260227) | _ => false) = true := by
    unfold pclEncodeFile convert
    rw [show resolution32 0#64 = none from rfl]
    decide +kernel
  cases e : pclEncodeFile bitsText bitsOps storeComp 20 pcdWitness pcdText 0#64 with
  | ok bytes =>
    rw [e] at h
    simp only [decide_eq_true_eq] at h
    obtain ⟨c', h3, _, _, _, _, h5, _, h4⟩ := C53_roundtrip_partial bitsText bitsText_lawful bitsOps storeComp storeComp_lawful 20 0 pcdWitness 0#64 pcdText
      bytes [] m hm (by rw [hi]; exact pcd_ok) (by
        rw [hi]
        intro enc he
        have he' : mkEncoder bitsOps pcdInfo (encodeHeaderYaml bitsText pcdInfo) = .ok ⟨pcdInfo, encodeHeaderYaml bitsText pcdInfo, []⟩ := by
          unfold mkEncoder
          rw [if_pos (by decide +kernel)]
        rw [he'] at he
        cases he
        intro es cs h c hc
        have h' : (match stage1Chunks bitsOps ⟨pcdInfo, encodeHeaderYaml bitsText pcdInfo, []⟩ pcdWitness.data with
            | .ok r => r.2.all (fun c => c.length ≤ pcdWitness.data.length) | _ => true) = true := by
          decide +kernel
        rw [h] at h'
        simp only [List.all_eq_true, decide_eq_true_eq] at h'
        exact h' c hc) (by decide +kernel) h e
    rw [hi] at h4 h5
    exact ⟨bytes, c', rfl, h3, h4, h5⟩
  | throw m => rw [e] at h; simp at h
  | ub k => rw [e] at h; simp at h

end Cloudini.Props
