import Verif.Lemmas.Python
import Verif.Props.C54_C57

/-!
# C72: decoding messages in Python

`CloudiniDecoder.decode_message` of `cloudini_py/cloudini_decoder.py`.  `item a i name` is `points[i][name]`.
-/

namespace Cloudini.Props

open Cloudini.Ros Cloudini.Wasm Cloudini.Python

/-- What Python makes of a field type: the types of 64-bit integers are missing from its table, and what is missing becomes one byte. -/
def pyType (t : FieldType) : FieldType := if t = .int64 ∨ t = .uint64 then .uint8 else t

/-- The types a description may use. -/
def knownTypes : List FieldType := [.int8, .uint8, .int16, .uint16, .int32, .uint32, .float32, .float64, .int64, .uint64]

theorem pyType_size {t : FieldType} (h : t ∈ knownTypes) : sizeOf (pyType t) ≤ sizeOf t := by
  revert t; decide

theorem fieldDict_type (T : FloatText) (f : PointField) (h : f.type ∈ knownTypes) : typeOf (fieldDict T f) = pyType f.type := by
  have hg : get (fieldDict T f) (ascii "type") = some (parseValue f.type.name) := rfl
  have hall : ∀ t ∈ knownTypes, (match some (parseValue t.name) with
    | some (.str s) => if s = ascii "FLOAT32" then FieldType.float32 else if s = ascii "FLOAT64" then .float64 else if s = ascii "UINT8" then .uint8
      else if s = ascii "UINT16" then .uint16 else if s = ascii "UINT32" then .uint32 else if s = ascii "INT8" then .int8
      else if s = ascii "INT16" then .int16 else if s = ascii "INT32" then .int32 else .uint8
    | _ => .uint8) = pyType t := by decide
  unfold typeOf
  rw [hg]
  exact hall _ h

/-- The column of a field. -/
def columnOf (f : PointField) : Column := ⟨f.name, pyType f.type, f.offset.toNat⟩

theorem columns_fields (T : FloatText) (fs : List PointField) (h : ∀ f ∈ fs, f.type ∈ knownTypes) : columns (fs.map (fieldDict T)) = .ok (fs.map columnOf) := by
  induction fs with
  | nil => rfl
  | cons f fs ih =>
    have h1 : column (fieldDict T f) = .ok (columnOf f) := by
      have hn : num (fieldDict T f) (ascii "offset") = .ok f.offset.toNat := rfl
      have hm : get (fieldDict T f) (ascii "name") = some (.str f.name) := rfl
      unfold column
      rw [hn, Res.ok_bind, hm]
      simp only [fieldDict_type T f (h f (by simp))]
      rfl
    simp only [List.map_cons, columns, h1, ih (fun g hg => h g (by simp [hg])), Res.ok_bind]

theorem place_perm (c : Column) (cs : List Column) : (place c cs).Perm (c :: cs) := by
  induction cs with
  | nil => exact .refl _
  | cons d ds ih =>
    unfold place
    split
    · exact .refl _
    · exact (ih.cons d).trans (List.Perm.swap c d ds)

theorem sorted_perm (cs : List Column) : (sorted cs).Perm cs := by
  induction cs with
  | nil => exact .refl _
  | cons c cs ih => exact (place_perm c _).trans (ih.cons c)

theorem find_named {cs : List Column} (hn : (cs.map (·.name)).Nodup) {c : Column} (hc : c ∈ cs) : cs.find? (fun d => d.name = c.name) = some c := by
  induction cs with
  | nil => simp at hc
  | cons d ds ih =>
    simp only [List.map_cons, List.nodup_cons] at hn
    rcases List.mem_cons.1 hc with rfl | hc
    · simp
    · have hne : d.name ≠ c.name := fun e => hn.1 (by rw [e]; exact List.mem_map_of_mem (f := (·.name)) hc)
      rw [List.find?_cons_of_neg (by simpa using hne), ih hn.2 hc]

theorem top_nums (info : EncodingInfo) : num (topDict info) (ascii "width") = .ok info.width.toNat ∧ num (topDict info) (ascii "height") = .ok info.height.toNat ∧
    num (topDict info) (ascii "point_step") = .ok info.point_step.toNat ∧ get (topDict info) (ascii "width") ≠ none := by
  have key : ∀ k n, get (topDict info) k = some (.int n) → num (topDict info) k = .ok n := by
    intro k n h
    unfold num
    rw [h]
  have h1 : get (topDict info) (ascii "width") = some (parseValue (decimal info.width.toNat)) := by
    unfold topDict headLines
    by_cases hc : info.encoding_config = []
    · rw [if_neg (by simp [hc])]; rfl
    · rw [if_pos hc]; rfl
  have h2 : get (topDict info) (ascii "height") = some (parseValue (decimal info.height.toNat)) := by
    unfold topDict headLines
    by_cases hc : info.encoding_config = []
    · rw [if_neg (by simp [hc])]; rfl
    · rw [if_pos hc]; rfl
  have h3 : get (topDict info) (ascii "point_step") = some (parseValue (decimal info.point_step.toNat)) := by
    unfold topDict headLines
    by_cases hc : info.encoding_config = []
    · rw [if_neg (by simp [hc])]; rfl
    · rw [if_pos hc]; rfl
  rw [parseValue_decimal] at h1 h2 h3
  exact ⟨key _ _ h1, key _ _ h2, key _ _ h3, by rw [h1]; simp⟩

/-- The array for a description and a cloud of its size. -/
theorem extract_cloud (T : FloatText) (info : EncodingInfo) (buf : List Byte) (hsize : buf.length = info.width.toNat * info.height.toNat * info.point_step.toNat)
    (htypes : ∀ f ∈ info.fields, f.type ∈ knownTypes) (hin : ∀ f ∈ info.fields, f.offset.toNat + sizeOf f.type ≤ info.point_step.toNat)
    (hne : info.fields ≠ []) (hstep : info.point_step.toNat < 2 ^ 31) (hd : (info.fields.map (·.name)).Nodup) :
    extract buf ⟨topDict info, info.fields.map (fieldDict T)⟩ =
      .ok (.structured (sorted (info.fields.map columnOf)) info.point_step.toNat (info.width.toNat * info.height.toNat) buf) := by
  obtain ⟨h1, h2, h3, _⟩ := top_nums info
  have hdt : dtypeOk (sorted (info.fields.map columnOf)) info.point_step.toNat := by
    refine ⟨?_, ?_, hstep⟩
    · have := (sorted_perm (info.fields.map columnOf)).map (·.name)
      rw [this.nodup_iff, List.map_map]
      exact hd
    · intro c hc
      rw [(sorted_perm _).mem_iff] at hc
      obtain ⟨f, hf, rfl⟩ := List.mem_map.1 hc
      have := hin f hf
      have := pyType_size (htypes f hf)
      simp only [columnOf]
      omega
  have hnp : toNumpy buf ⟨topDict info, info.fields.map (fieldDict T)⟩ =
      .ok (.structured (sorted (info.fields.map columnOf)) info.point_step.toNat (info.width.toNat * info.height.toNat) buf) := by
    unfold toNumpy
    simp only [h1, h2, h3, Res.ok_bind]
    rw [if_pos (by simpa using hne), columns_fields T _ htypes]
    simp only
    rw [if_pos ⟨hdt, by omega⟩, List.take_of_length_le (by omega)]
  unfold extract
  simp only [h1, h2, h3, Res.ok_bind]
  rw [if_pos (by omega), ← hsize, Nat.sub_self, List.drop_zero, ite_self, hnp]

/-- Names Python reads back: ASCII, nothing `strip()` would remove at either end, one line. -/
structure PyName (s : List Byte) : Prop where
  ascii : ∀ c ∈ s, c.toNat < 128
  tidy : Tidy s

/-- What the two functions of the interface deliver to Python. -/
theorem decode_parts (T : FloatText) (hT : T.Lawful) (F : FloatOps) (C : Compressor) (fuel : Nat) (block msg payload buf : List Byte) (pc : Pc2) (info : EncodingInfo)
    (hread : getMessage msg = .ok pc) (hhead : decodeHeader T pc.data = .ok (info, payload)) (hblock : block.length = blockSize)
    (hdec : decodeCloud F C fuel info payload (block.take (info.width.toNat * info.height.toNat * info.point_step.toNat)) = .ok buf)
    (hbuf : buf.length = info.width.toNat * info.height.toNat * info.point_step.toNat) (hfit : buf.length ≤ blockSize)
    (hyaml : (infoToYaml T info).length ≤ yamlRoom)
    (hnames : ∀ f ∈ info.fields, PyName f.name) (hconf : info.encoding_config = [] ∨ PyName info.encoding_config) :
    Wasm.decodeMessage T F C fuel msg block = .ok ⟨buf.length, some buf⟩ ∧ headerInfo T msg = .ok (some ⟨topDict info, info.fields.map (fieldDict T)⟩) := by
  have hbs : blockSize = 33554432 := rfl
  have hmul : (info.width * info.height * info.point_step).toNat = buf.length := by
    rw [BitVec.toNat_mul, BitVec.toNat_mul, Nat.mod_mul_mod, ← hbuf, Nat.mod_eq_of_lt (by omega)]
  have hpt : PyText T info := by
    refine ⟨hconf.imp_right PyName.tidy, fun f hf => (hnames f hf).tidy, fun f hf r _ => ?_⟩
    have hc : ∀ c ∈ T.print r, blank c = false ∧ c ≠ 0x0A#8 := by
      intro c hc
      rcases hT.chars r c hc with h | h
      · have := digits_tidy (s := [c]) (by simp) (by simpa using h)
        exact ⟨this.first c rfl, fun e => this.newline (by simp [e])⟩
      · have hall : ∀ c ∈ ascii "+-.einfa", blank c = false ∧ c ≠ 0x0A#8 := by decide
        exact hall c h
    exact ⟨hT.nonempty r, fun h => (hc _ h).2 rfl, fun c h => (hc c (List.mem_of_head? h)).1, fun c h => (hc c (List.mem_of_getLast? h)).1⟩
  have h1 : Wasm.decodeMessage T F C fuel msg block = .ok ⟨buf.length, some buf⟩ := by
    unfold Wasm.decodeMessage
    rw [hread]
    show guarded (decodeData T F C fuel pc.data block) = _
    unfold decodeData
    rw [hhead]
    simp only [hmul]
    rw [if_neg (by omega), hbuf, hdec]
    rfl
  have hyne : infoToYaml T info ≠ [] := by
    unfold infoToYaml
    simp [ascii]
  have h2 : headerInfo T msg = .ok (some ⟨topDict info, info.fields.map (fieldDict T)⟩) := by
    have : headerYamlMsg T msg = .ok ⟨(infoToYaml T info).length % 2 ^ 32, some (infoToYaml T info)⟩ := by
      unfold headerYamlMsg
      rw [hread]
      show guarded (headerYaml T pc.data) = _
      unfold headerYaml
      rw [hhead]
      rfl
    unfold headerInfo
    rw [this]
    have hy : yamlRoom = 4096 := rfl
    have hpos := List.length_pos_of_ne_nil hyne
    simp only [Res.ok_bind]
    rw [if_neg (by omega), if_neg (by rw [Nat.mod_eq_of_lt (by omega)]; omega), scan_info hpt]
  exact ⟨h1, h2⟩

/-- What Python makes of that. -/
theorem decode_of {T : FloatText} {F : FloatOps} {C : Compressor} {fuel : Nat} {block msg buf : List Byte} {info : EncodingInfo} {a : NpArray}
    (hd : extract buf ⟨topDict info, info.fields.map (fieldDict T)⟩ = .ok a)
    (h1 : Wasm.decodeMessage T F C fuel msg block = .ok ⟨buf.length, some buf⟩) (h2 : headerInfo T msg = .ok (some ⟨topDict info, info.fields.map (fieldDict T)⟩))
    (hpos : 0 < buf.length) : decode T F C fuel block msg = .ok (a, ⟨topDict info, info.fields.map (fieldDict T)⟩, buf ++ block.drop buf.length) := by
  unfold Python.decode
  rw [h1]
  simp only [Res.ok_bind]
  rw [if_neg (by omega), h2]
  simp only [Res.ok_bind]
  rw [if_neg (top_nums info).2.2.2, List.take_left, hd]
  rfl

/-- The array when names repeat. -/
theorem extract_rows (T : FloatText) (info : EncodingInfo) (buf : List Byte) (hsize : buf.length = info.width.toNat * info.height.toNat * info.point_step.toNat)
    (hpos : 0 < buf.length) (hne : info.fields ≠ []) (htypes : ∀ f ∈ info.fields, f.type ∈ knownTypes) (hd : ¬ (info.fields.map (·.name)).Nodup) :
    extract buf ⟨topDict info, info.fields.map (fieldDict T)⟩ = .ok (.rows (info.width.toNat * info.height.toNat) info.point_step.toNat buf) := by
  obtain ⟨h1, h2, h3, _⟩ := top_nums info
  have hdt : ¬ dtypeOk (sorted (info.fields.map columnOf)) info.point_step.toNat := by
    rintro ⟨h, _⟩
    have := (sorted_perm (info.fields.map columnOf)).map (·.name)
    rw [this.nodup_iff, List.map_map] at h
    exact hd h
  have hp : 0 < info.width.toNat * info.height.toNat * info.point_step.toNat := by omega
  have hnp : toNumpy buf ⟨topDict info, info.fields.map (fieldDict T)⟩ = .ok (.rows (info.width.toNat * info.height.toNat) info.point_step.toNat buf) := by
    unfold toNumpy
    simp only [h1, h2, h3, Res.ok_bind]
    rw [if_pos (by simpa using hne), columns_fields T _ htypes]
    simp only
    rw [if_neg (fun h => hdt h.1)]
    unfold fallback
    rw [if_pos ⟨Nat.pos_of_mul_pos_right hp, Nat.pos_of_mul_pos_left hp⟩, if_pos hsize]
  unfold extract
  simp only [h1, h2, h3, Res.ok_bind]
  rw [if_pos (by omega), ← hsize, Nat.sub_self, List.drop_zero, ite_self, hnp]

/-- **C72, any message.** Whatever the message and whatever earlier messages left in the block: if the file inside has a readable header and decodes (to
`buf`), fits into the block and its header text fits into 4096 bytes, `decode_message` returns a structured array with one entry per point and the
members of the description, each holding the bytes of `buf` at its place (its first byte for 64-bit integers). -/
theorem C72_any_message (T : FloatText) (hT : T.Lawful) (F : FloatOps) (C : Compressor) (fuel : Nat) (block msg payload buf : List Byte) (pc : Pc2) (info : EncodingInfo)
    (hread : getMessage msg = .ok pc) (hhead : decodeHeader T pc.data = .ok (info, payload)) (hblock : block.length = blockSize)
    (hdec : decodeCloud F C fuel info payload (block.take (info.width.toNat * info.height.toNat * info.point_step.toNat)) = .ok buf)
    (hbuf : buf.length = info.width.toNat * info.height.toNat * info.point_step.toNat) (hpos : 0 < buf.length) (hfit : buf.length ≤ blockSize)
    (hyaml : (infoToYaml T info).length ≤ yamlRoom) (htypes : ∀ f ∈ info.fields, f.type ∈ knownTypes)
    (hin : ∀ f ∈ info.fields, f.offset.toNat + sizeOf f.type ≤ info.point_step.toNat) (hne : info.fields ≠ [])
    (hnames : ∀ f ∈ info.fields, PyName f.name) (hconf : info.encoding_config = [] ∨ PyName info.encoding_config) (hd : (info.fields.map (·.name)).Nodup) :
    ∃ a h, decode T F C fuel block msg = .ok (a, h, buf ++ block.drop buf.length) ∧ a.len = info.width.toNat * info.height.toNat ∧
      (∃ ns, a.names = some ns ∧ ns.Perm (info.fields.map (·.name))) ∧ a.bytes = buf ∧
      ∀ i, i < info.width.toNat * info.height.toNat → ∀ f ∈ info.fields,
        a.item i f.name = some (pyType f.type, (cell buf 0 info.point_step.toNat i f.offset.toNat (sizeOf f.type)).take (sizeOf (pyType f.type))) := by
  have hbs : blockSize = 33554432 := rfl
  obtain ⟨h1, h2⟩ := decode_parts T hT F C fuel block msg payload buf pc info hread hhead hblock hdec hbuf hfit hyaml hnames hconf
  have hstep : info.point_step.toNat < 2 ^ 31 := by
    have : info.point_step.toNat ≤ buf.length := by
      rw [hbuf]
      refine Nat.le_mul_of_pos_left _ (Nat.pos_of_ne_zero fun e => ?_)
      rw [e] at hbuf; omega
    omega
  refine ⟨.structured (sorted (info.fields.map columnOf)) info.point_step.toNat (info.width.toNat * info.height.toNat) buf,
    ⟨topDict info, info.fields.map (fieldDict T)⟩, ?_, ?_, ?_, rfl, ?_⟩
  · exact decode_of (extract_cloud T info buf hbuf htypes hin hne hstep hd) h1 h2 hpos
  · rfl
  · refine ⟨_, rfl, ?_⟩
    have := (sorted_perm (info.fields.map columnOf)).map (·.name)
    rwa [List.map_map] at this
  · intro i hi f hf
    have hnd : ((sorted (info.fields.map columnOf)).map (·.name)).Nodup := by
      have := (sorted_perm (info.fields.map columnOf)).map (·.name)
      rw [this.nodup_iff, List.map_map]
      exact hd
    have hmem : columnOf f ∈ sorted (info.fields.map columnOf) := (sorted_perm _).mem_iff.2 (List.mem_map_of_mem hf)
    have hfind := find_named hnd hmem
    change (if i < info.width.toNat * info.height.toNat then _ else _) = _
    rw [if_pos hi]
    change Option.map _ ((sorted (info.fields.map columnOf)).find? fun d => d.name = (columnOf f).name) = _
    rw [hfind]
    have := pyType_size (htypes f hf)
    simp only [Option.map_some, cell, fieldBytes, Nat.zero_add, columnOf, List.take_take]
    rw [Nat.min_eq_left this]

/-- A compressed message made by `convertPointCloud2ToCompressedCloud`: the file inside can be read back. -/
theorem message_file (T : FloatText) (hT : T.Lawful) (F : FloatOps) (C : Compressor) (hC : C.Lawful) (raw msg : List Byte) (pc : Pc2) (info : EncodingInfo)
    (hread : getMessage raw = .ok pc) (hraw : raw.length < 2 ^ 32) (hlittle : pc.cdr.big = false) (hne : pc.data ≠ []) (ok : FileOk T F info pc.data)
    (hlim : info.compression_opt = .none ∨ ∀ enc, mkEncoder F info (encodeHeaderYaml T info) = .ok enc → ChunksWithin F enc pc.data pc.data.length)
    (hmsg : msg.length < 1431260227) (e : toCompressed T F C pc info = .ok msg) :
    ∃ pc' payload, getMessage msg = .ok pc' ∧ decodeHeader T pc'.data = .ok (info, payload) ∧
      ∀ fuel buf, pc.data.length ≤ buf.length → ∃ buf', decodeCloud F C fuel info payload buf = .ok buf' ∧ buf'.length = buf.length ∧ Decoded F info pc.data buf' := by
  obtain ⟨hwire, hfits, hdl, hcanon⟩ := getMessage_inv hread hraw
  obtain ⟨st, m, enc, enc', out, e1, e2, e3, e4, e5, e6⟩ := toCompressed_inv e hne
  have ho : out.length < 1431260227 := by
    obtain ⟨x, rfl⟩ := encString_prefix e6
    rw [Cdr.encPrim_eq _ 1 _ _ (by omega)] at hmsg
    simp only [List.length_append] at hmsg
    omega
  have hal := (writeHeader_aligned (by simp [Cdr.encInit]) e1).1
  obtain ⟨x, hx⟩ := encString_prefix e6
  have hm : getMessage msg = .ok (echo pc out) := by
    rw [hx, ← encBuf_at hlittle (by omega : out.length < 2 ^ 32) hal]
    exact getMessage_encode pc hwire hfits out (by omega) _ x (encode_pc e1)
  obtain ⟨_, payload, t1, t2⟩ := view_trip hT hC ok e4 e5 (hlim.imp_right fun h => h enc e4) ho
  exact ⟨_, payload, hm, t1, t2⟩

/-- **C72 (partial).** A message the library made of a cloud of at most 32 MiB with a header text of at most 4096 bytes, decoded in Python, whatever was decoded
before: one entry per point, the members are the fields of the cloud, and every member of a type up to 32 bits, or FLOAT64, has the value the codec
promises.  Missing: what `FileOk` and C18 exclude; 64-bit integers (`C72_wide_integers`), larger clouds and headers (`C72_cloud_overflow`,
`C72_header_overflow`), equal names (`C72_same_names`), empty clouds (`C72_empty`). -/
theorem C72_roundtrip_partial (T : FloatText) (hT : T.Lawful) (F : FloatOps) (C : Compressor) (hC : C.Lawful) (fuel : Nat) (raw msg block : List Byte) (pc : Pc2)
    (info : EncodingInfo) (hread : getMessage raw = .ok pc) (hraw : raw.length < 2 ^ 32) (hlittle : pc.cdr.big = false) (hne : pc.data ≠ [])
    (ok : FileOk T F info pc.data)
    (hlim : info.compression_opt = .none ∨ ∀ enc, mkEncoder F info (encodeHeaderYaml T info) = .ok enc → ChunksWithin F enc pc.data pc.data.length)
    (hmsg : msg.length < 1431260227) (e : toCompressed T F C pc info = .ok msg) (hblock : block.length = blockSize)
    (hfit : pc.data.length ≤ blockSize) (hyaml : (infoToYaml T info).length ≤ yamlRoom) (hfields : info.fields ≠ [])
    (hnames : ∀ f ∈ info.fields, PyName f.name) (hconf : info.encoding_config = [] ∨ PyName info.encoding_config) (hd : (info.fields.map (·.name)).Nodup) :
    ∃ a h block', decode T F C fuel block msg = .ok (a, h, block') ∧ block'.length = blockSize ∧ a.len = info.width.toNat * info.height.toNat ∧
      (∃ ns, a.names = some ns ∧ ns.Perm (info.fields.map (·.name))) ∧
      ∀ i, i < info.width.toNat * info.height.toNat → ∀ k f, info.fields[k]? = some f →
        a.item i f.name = some (pyType f.type,
          (expected F info k f (cell pc.data 0 info.point_step.toNat i f.offset.toNat (sizeOf f.type))).take (sizeOf (pyType f.type))) := by
  obtain ⟨pc', payload, h1, h2, h3⟩ := message_file T hT F C hC raw msg pc info hread hraw hlittle hne ok hlim hmsg e
  have hsz := ok.data.size
  have hpos := List.length_pos_of_ne_nil hne
  obtain ⟨buf, h4, h5, h6⟩ := h3 fuel (block.take (info.width.toNat * info.height.toNat * info.point_step.toNat)) (by rw [List.length_take]; omega)
  have hbl : buf.length = pc.data.length := by rw [h5, List.length_take]; omega
  obtain ⟨a, h, g1, g2, g3, _, g4⟩ := C72_any_message T hT F C fuel block msg payload buf pc' info h1 h2 hblock h4 (by omega) (by omega) (by omega) hyaml
    ok.valid.types ok.valid.inside hfields hnames hconf hd
  refine ⟨a, h, _, g1, by simp [hblock]; omega, g2, g3, fun i hi k f hk => ?_⟩
  rw [g4 i hi f (List.mem_of_getElem? hk), h6 i hi k f hk]

/-- **C72 fails for 64-bit integers**: in the same situation, a field of type INT64 or UINT64 is delivered as one unsigned byte, never as a 64-bit value. -/
theorem C72_wide_integers (T : FloatText) (hT : T.Lawful) (F : FloatOps) (C : Compressor) (fuel : Nat) (block msg payload buf : List Byte) (pc : Pc2) (info : EncodingInfo)
    (hread : getMessage msg = .ok pc) (hhead : decodeHeader T pc.data = .ok (info, payload)) (hblock : block.length = blockSize)
    (hdec : decodeCloud F C fuel info payload (block.take (info.width.toNat * info.height.toNat * info.point_step.toNat)) = .ok buf)
    (hbuf : buf.length = info.width.toNat * info.height.toNat * info.point_step.toNat) (hpos : 0 < buf.length) (hfit : buf.length ≤ blockSize)
    (hyaml : (infoToYaml T info).length ≤ yamlRoom) (htypes : ∀ f ∈ info.fields, f.type ∈ knownTypes)
    (hin : ∀ f ∈ info.fields, f.offset.toNat + sizeOf f.type ≤ info.point_step.toNat)
    (hnames : ∀ f ∈ info.fields, PyName f.name) (hconf : info.encoding_config = [] ∨ PyName info.encoding_config) (hd : (info.fields.map (·.name)).Nodup)
    (f : PointField) (hf : f ∈ info.fields) (hw : f.type = .int64 ∨ f.type = .uint64) :
    ∃ a h block', decode T F C fuel block msg = .ok (a, h, block') ∧ ∀ i, i < info.width.toNat * info.height.toNat →
      ∃ v, v.length = 1 ∧ a.item i f.name = some (.uint8, v) := by
  obtain ⟨a, h, g1, _, _, _, g4⟩ := C72_any_message T hT F C fuel block msg payload buf pc info hread hhead hblock hdec hbuf hpos hfit hyaml htypes hin
    (List.ne_nil_of_mem hf) hnames hconf hd
  refine ⟨a, h, _, g1, fun i hi => ⟨_, ?_, by rw [g4 i hi f hf, pyType, if_pos hw]⟩⟩
  have hin' := hin f hf
  have h8 : sizeOf f.type = 8 := by rcases hw with h | h <;> rw [h] <;> rfl
  have hle : (i + 1) * info.point_step.toNat ≤ info.width.toNat * info.height.toNat * info.point_step.toNat := Nat.mul_le_mul_right _ hi
  rw [Nat.add_mul, Nat.one_mul] at hle
  have h1 : sizeOf FieldType.uint8 = 1 := rfl
  simp only [cell, fieldBytes, List.length_take, List.length_drop, h8, h1]
  omega

/-- **C72 fails for long headers**: if the file decodes and its header text has more than 4096 bytes, Python lets the function write past the block it
allocated. -/
theorem C72_header_overflow (T : FloatText) (F : FloatOps) (C : Compressor) (fuel : Nat) (block msg payload b : List Byte) (pc : Pc2) (info : EncodingInfo) (n : Nat)
    (hread : getMessage msg = .ok pc) (hhead : decodeHeader T pc.data = .ok (info, payload))
    (hdec : Wasm.decodeMessage T F C fuel msg block = .ok ⟨n, some b⟩) (hn : n ≠ 0) (hyaml : yamlRoom < (infoToYaml T info).length) :
    decode T F C fuel block msg = .ub .mem := by
  unfold Python.decode
  rw [hdec]
  simp only [Res.ok_bind]
  rw [if_neg hn]
  have : headerYamlMsg T msg = .ok ⟨(infoToYaml T info).length % 2 ^ 32, some (infoToYaml T info)⟩ := by
    unfold headerYamlMsg
    rw [hread]
    show guarded (headerYaml T pc.data) = _
    unfold headerYaml
    rw [hhead]
    rfl
  unfold headerInfo
  rw [this]
  simp only [Res.ok_bind]
  rw [if_pos hyaml]
  rfl

/-- **C72 fails for large clouds**: the block for the points has 32 MiB and nobody compares; a header that announces more (in 32 bits) is decoded past its end. -/
theorem C72_cloud_overflow (T : FloatText) (F : FloatOps) (C : Compressor) (fuel : Nat) (block msg payload : List Byte) (pc : Pc2) (info : EncodingInfo)
    (hread : getMessage msg = .ok pc) (hhead : decodeHeader T pc.data = .ok (info, payload)) (hblock : block.length = blockSize)
    (hbig : blockSize < info.width.toNat * info.height.toNat * info.point_step.toNat % 2 ^ 32) :
    decode T F C fuel block msg = .ub .mem := by
  have hmul : (info.width * info.height * info.point_step).toNat = info.width.toNat * info.height.toNat * info.point_step.toNat % 2 ^ 32 := by
    rw [BitVec.toNat_mul, BitVec.toNat_mul, Nat.mod_mul_mod]
  have h1 : Wasm.decodeMessage T F C fuel msg block = .ub .mem := by
    unfold Wasm.decodeMessage
    rw [hread]
    show guarded (decodeData T F C fuel pc.data block) = _
    unfold decodeData
    rw [hhead]
    simp only [hmul]
    rw [if_pos (by omega)]
    rfl
  unfold Python.decode
  rw [h1]
  rfl

/-- **C72, empty clouds**: a header that announces no bytes (in 32 bits) always ends in an exception, whatever the file. -/
theorem C72_empty (T : FloatText) (F : FloatOps) (C : Compressor) (fuel : Nat) (block msg payload : List Byte) (pc : Pc2) (info : EncodingInfo)
    (hread : getMessage msg = .ok pc) (hhead : decodeHeader T pc.data = .ok (info, payload))
    (hz : info.width.toNat * info.height.toNat * info.point_step.toNat % 2 ^ 32 = 0) (r : NpArray × Python.Info × List Byte) :
    decode T F C fuel block msg ≠ .ok r := by
  intro h
  unfold Python.decode at h
  obtain ⟨o, e1, h⟩ := Res.bind_eq_ok.1 h
  unfold Wasm.decodeMessage at e1
  rw [hread] at e1
  have e1 : guarded (decodeData T F C fuel pc.data block) = .ok o := e1
  have hret : o.ret = 0 := by
    cases hd : decodeData T F C fuel pc.data block with
    | ok o' =>
      rw [hd] at e1
      simp only [guarded, Res.ok.injEq] at e1
      subst e1
      exact C56_zero_is_failure T F C fuel pc.data block payload info o' hhead hz hd
    | throw m => rw [hd] at e1; simp only [guarded, Res.ok.injEq] at e1; rw [← e1]
    | ub k => rw [hd] at e1; simp [guarded] at e1
  cases hb : o.bytes with
  | none => rw [hb] at h; simp at h
  | some b => rw [hb] at h; simp only at h; rw [if_pos hret] at h; simp at h

/-- **C72, padding.** Bytes of the points that belong to no field are those an earlier message left in the block: an array shows parts of clouds decoded
before it. -/
theorem C72_padding_leaks (T : FloatText) (hT : T.Lawful) (F : FloatOps) (C : Compressor) (fuel : Nat) (block msg payload buf : List Byte) (pc : Pc2) (info : EncodingInfo)
    (hread : getMessage msg = .ok pc) (hhead : decodeHeader T pc.data = .ok (info, payload)) (hblock : block.length = blockSize) (hv : 3 ≤ info.version.toNat)
    (hstep : 0 < info.point_step.toNat)
    (hdec : decodeCloud F C fuel info payload (block.take (info.width.toNat * info.height.toNat * info.point_step.toNat)) = .ok buf)
    (hbuf : buf.length = info.width.toNat * info.height.toNat * info.point_step.toNat) (hpos : 0 < buf.length) (hfit : buf.length ≤ blockSize)
    (hyaml : (infoToYaml T info).length ≤ yamlRoom) (htypes : ∀ f ∈ info.fields, f.type ∈ knownTypes)
    (hin : ∀ f ∈ info.fields, f.offset.toNat + sizeOf f.type ≤ info.point_step.toNat) (hne : info.fields ≠ [])
    (hnames : ∀ f ∈ info.fields, PyName f.name) (hconf : info.encoding_config = [] ∨ PyName info.encoding_config) (hd : (info.fields.map (·.name)).Nodup) :
    ∃ a h block', decode T F C fuel block msg = .ok (a, h, block') ∧ ∀ p, p < a.bytes.length → ¬ Declared info p → a.bytes[p]? = block[p]? := by
  obtain ⟨a, h, g1, _, _, g3, _⟩ := C72_any_message T hT F C fuel block msg payload buf pc info hread hhead hblock hdec hbuf hpos hfit hyaml htypes hin
    hne hnames hconf hd
  refine ⟨a, h, _, g1, fun p hp hnd => ?_⟩
  rw [g3] at hp ⊢
  have hbs : (List.take (info.width.toNat * info.height.toNat * info.point_step.toNat) block).length < 2 ^ 64 := by
    rw [List.length_take, hblock]
    exact Nat.lt_of_le_of_lt (Nat.min_le_right _ _) (by decide)
  have hp' : p < info.width.toNat * info.height.toNat * info.point_step.toNat := by rw [← hbuf]; exact hp
  rw [(C19_untouched F C info payload _ buf fuel hstep hv hbs hdec).2 p hnd, List.getElem?_take_of_lt hp']

/-- **C72, equal names.** Two fields of the same name (which the encoder allows) make `np.dtype` fail; the caller gets rows of bytes without any members. -/
theorem C72_same_names (T : FloatText) (hT : T.Lawful) (F : FloatOps) (C : Compressor) (fuel : Nat) (block msg payload buf : List Byte) (pc : Pc2) (info : EncodingInfo)
    (hread : getMessage msg = .ok pc) (hhead : decodeHeader T pc.data = .ok (info, payload)) (hblock : block.length = blockSize)
    (hdec : decodeCloud F C fuel info payload (block.take (info.width.toNat * info.height.toNat * info.point_step.toNat)) = .ok buf)
    (hbuf : buf.length = info.width.toNat * info.height.toNat * info.point_step.toNat) (hpos : 0 < buf.length) (hfit : buf.length ≤ blockSize)
    (hyaml : (infoToYaml T info).length ≤ yamlRoom) (htypes : ∀ f ∈ info.fields, f.type ∈ knownTypes)
    (hnames : ∀ f ∈ info.fields, PyName f.name) (hconf : info.encoding_config = [] ∨ PyName info.encoding_config) (hd : ¬ (info.fields.map (·.name)).Nodup) :
    ∃ h block', decode T F C fuel block msg = .ok (.rows (info.width.toNat * info.height.toNat) info.point_step.toNat buf, h, block') := by
  have hfields : info.fields ≠ [] := fun e => hd (by rw [e]; exact List.nodup_nil)
  obtain ⟨h1, h2⟩ := decode_parts T hT F C fuel block msg payload buf pc info hread hhead hblock hdec hbuf hfit hyaml hnames hconf
  refine ⟨_, _, decode_of (hd := extract_rows T info buf hbuf hpos hfields htypes hd) h1 h2 hpos⟩

/-! ### the hypotheses are met -/

/-- A fresh block. -/
def freshBlock : List Byte := List.replicate blockSize 0#8

theorem freshBlock_length : freshBlock.length = blockSize := List.length_replicate ..

theorem freshBlock_take (n : Nat) (h : n ≤ blockSize) : freshBlock.take n = List.replicate n 0#8 := by
  unfold freshBlock
  rw [List.take_replicate, Nat.min_eq_left h]

theorem pyName_char (c : Byte) (h : c.toNat < 128 ∧ blank c = false ∧ c ≠ 0x0A#8) : PyName [c] where
  ascii := by simpa using h.1
  tidy := ⟨by simp, by simpa using Ne.symm h.2.2, by rintro d hd; simp at hd; subst hd; exact h.2.1, by rintro d hd; simp at hd; subst hd; exact h.2.1⟩

theorem mix_names : ∀ f ∈ mixInfo.fields, PyName f.name := by
  simp only [mixInfo, List.mem_cons, List.not_mem_nil, or_false]
  rintro f (rfl | rfl | rfl | rfl | rfl | rfl | rfl) <;> exact pyName_char _ (by decide)

theorem mix_ok : FileOk bitsText bitsOps mixInfo mixCloud :=
  ⟨mix_valid, mix_cloud, by decide, by decide, by decide, Or.inl rfl, by
    simp only [mixInfo, List.mem_cons, List.not_mem_nil, or_false]
    rintro f (rfl | rfl | rfl | rfl | rfl | rfl | rfl) <;> exact plain_char _ (by decide), fun f _ r _ => extractU32_decimal r, fun h => by simp [mixInfo] at h⟩

/-- The mixed cloud in Python: three points, and the value of `r` of the second one. -/
example : ∃ a h block', decode bitsText bitsOps storeComp 0 freshBlock mixMsg = .ok (a, h, block') ∧ a.len = 3 ∧
    a.item 1 (ascii "r") = some (.uint16, [0xFF#8, 0xFF#8]) := by
  obtain ⟨a, h, b, h1, _, h2, _, h3⟩ := C72_roundtrip_partial bitsText bitsText_lawful bitsOps storeComp storeComp_lawful 0 mixRaw mixMsg freshBlock mixPc mixInfo
    mixRaw_read (by decide +kernel) rfl (by decide) mix_ok (Or.inl rfl) (by decide +kernel) mixMsg_eq freshBlock_length (by decide +kernel) (by decide +kernel)
    (by decide) mix_names (Or.inl rfl) (by decide)
  refine ⟨a, h, b, h1, h2, ?_⟩
  have := h3 1 (by decide) 4 _ rfl
  rw [show ascii "r" = [0x72#8] by decide, this]
  decide +kernel

/-- Its file, as Python sees it, and its decoded points on a fresh block. -/
theorem mix_python : ∃ pc payload buf, getMessage mixMsg = .ok pc ∧ decodeHeader bitsText pc.data = .ok (mixInfo, payload) ∧
    decodeCloud bitsOps storeComp 0 mixInfo payload (freshBlock.take (mixInfo.width.toNat * mixInfo.height.toNat * mixInfo.point_step.toNat)) = .ok buf ∧
    buf.length = 108 := by
  obtain ⟨pc, payload, h1, h2, h3⟩ := message_file bitsText bitsText_lawful bitsOps storeComp storeComp_lawful mixRaw mixMsg mixPc mixInfo
    mixRaw_read (by decide +kernel) rfl (by decide) mix_ok (Or.inl rfl) (by decide +kernel) mixMsg_eq
  have hl : mixPc.data.length = 108 := by decide +kernel
  have hn : mixInfo.width.toNat * mixInfo.height.toNat * mixInfo.point_step.toNat = 108 := by decide
  obtain ⟨buf, h4, h5, _⟩ := h3 0 (List.replicate 108 0#8) (by simp [hl])
  exact ⟨pc, payload, buf, h1, h2, by rw [hn, freshBlock_take _ (by decide)]; exact h4, by simpa using h5⟩

/-- The hypotheses of `C72_any_message` and of `C72_wide_integers`: the field `s` of the mixed cloud is a UINT64. -/
example : ∃ a h block', decode bitsText bitsOps storeComp 0 freshBlock mixMsg = .ok (a, h, block') ∧ ∀ i, i < 3 → ∃ v, v.length = 1 ∧ a.item i [0x73#8] = some (.uint8, v) := by
  obtain ⟨pc, payload, buf, h1, h2, h3, h4⟩ := mix_python
  exact C72_wide_integers bitsText bitsText_lawful bitsOps storeComp 0 freshBlock mixMsg payload buf pc mixInfo h1 h2 freshBlock_length h3 h4 (by omega)
    (by rw [h4]; decide) (by decide +kernel) mix_valid.types mix_valid.inside mix_names (Or.inl rfl) (by decide)
    { name := [0x73#8], offset := 28#32, type := .uint64 } (by decide) (Or.inr rfl)

/-- The bytes 18 and 19 of the mixed cloud belong to no field: the second cloud decoded shows what the first left there. -/
example : ∃ a h block', decode bitsText bitsOps storeComp 0 freshBlock mixMsg = .ok (a, h, block') ∧ ∀ p, p < a.bytes.length → ¬ Declared mixInfo p → a.bytes[p]? = freshBlock[p]? := by
  obtain ⟨pc, payload, buf, h1, h2, h3, h4⟩ := mix_python
  exact C72_padding_leaks bitsText bitsText_lawful bitsOps storeComp 0 freshBlock mixMsg payload buf pc mixInfo h1 h2 freshBlock_length (by decide) (by decide) h3 h4
    (by omega) (by rw [h4]; decide) (by decide +kernel) mix_valid.types mix_valid.inside (by decide) mix_names (Or.inl rfl) (by decide)

/-- A message around a file. -/
def pyPc (data : List Byte) : Pc2 := { frame := ascii "map", width := 1#32, height := 1#32, point_step := 1#32, row_step := 1#32, fields := pairInfo.fields, data := data }
def pyMsg (data : List Byte) : List Byte := match Cdr.encodeMsg (pyPc data).cdr compressedTy (compressedVal (pyPc data) data) with | .ok b => b | _ => []

/-- A header that announces 64 MiB. -/
def hugeHeader : List Byte := encodeHeaderYaml bitsText { pairInfo with width := 0x4000000#32 }

example : decode bitsText bitsOps storeComp 0 freshBlock (pyMsg hugeHeader) = .ub .mem := by
  have h : (match getMessage (pyMsg hugeHeader) with
    | .ok pc => match decodeHeader bitsText pc.data with
      | .ok (i, _) => decide (blockSize < i.width.toNat * i.height.toNat * i.point_step.toNat % 2 ^ 32)
      | _ => false
    | _ => false) = true := by decide +kernel
  cases e : getMessage (pyMsg hugeHeader) with
  | throw m => rw [e] at h; simp at h
  | ub k => rw [e] at h; simp at h
  | ok pc =>
    rw [e] at h
    simp only at h
    cases e' : decodeHeader bitsText pc.data with
    | throw m => rw [e'] at h; simp at h
    | ub k => rw [e'] at h; simp at h
    | ok r =>
      rw [e'] at h
      simp only [decide_eq_true_eq] at h
      exact C72_cloud_overflow bitsText bitsOps storeComp 0 freshBlock _ r.2 pc r.1 e e' freshBlock_length h

/-- A header that announces nothing. -/
def noneHeader : List Byte := encodeHeaderYaml bitsText { pairInfo with width := 0#32 }

example (r : NpArray × Python.Info × List Byte) : decode bitsText bitsOps storeComp 0 freshBlock (pyMsg noneHeader) ≠ .ok r := by
  have h : (match getMessage (pyMsg noneHeader) with
    | .ok pc => match decodeHeader bitsText pc.data with
      | .ok (i, _) => decide (i.width.toNat * i.height.toNat * i.point_step.toNat % 2 ^ 32 = 0)
      | _ => false
    | _ => false) = true := by decide +kernel
  cases e : getMessage (pyMsg noneHeader) with
  | throw m => rw [e] at h; simp at h
  | ub k => rw [e] at h; simp at h
  | ok pc =>
    rw [e] at h
    simp only at h
    cases e' : decodeHeader bitsText pc.data with
    | throw m => rw [e'] at h; simp at h
    | ub k => rw [e'] at h; simp at h
    | ok r' =>
      rw [e'] at h
      simp only [decide_eq_true_eq] at h
      exact C72_empty bitsText bitsOps storeComp 0 freshBlock _ r'.2 pc r'.1 e e' h r

/-- Two fields of the same name. -/
def twinInfo : EncodingInfo :=
  { fields := [{ name := [0x69#8], type := .uint8 }, { name := [0x69#8], offset := 1#32, type := .uint8 }], width := 1#32, height := 1#32, point_step := 2#32,
    encoding_opt := .none, compression_opt := .none }
def twinOut : List Byte := match Pcd.encodeData bitsText bitsOps storeComp twinInfo [7#8, 8#8] with | .ok b => b | _ => []

example : ∃ h block', decode bitsText bitsOps storeComp 0 freshBlock (pyMsg twinOut) = .ok (.rows 1 2 [7#8, 8#8], h, block') := by
  have h : (match getMessage (pyMsg twinOut) with
    | .ok pc => match decodeHeader bitsText pc.data with
      | .ok (i, p) => decide (i = twinInfo ∧ decodeCloud bitsOps storeComp 0 twinInfo p (List.replicate 2 0#8) = .ok [7#8, 8#8])
      | _ => false
    | _ => false) = true := by decide +kernel
  cases e : getMessage (pyMsg twinOut) with
  | throw m => rw [e] at h; simp at h
  | ub k => rw [e] at h; simp at h
  | ok pc =>
    rw [e] at h
    simp only at h
    cases e' : decodeHeader bitsText pc.data with
    | throw m => rw [e'] at h; simp at h
    | ub k => rw [e'] at h; simp at h
    | ok r =>
      obtain ⟨i, p⟩ := r
      rw [e'] at h
      simp only [decide_eq_true_eq] at h
      obtain ⟨rfl, h⟩ := h
      have hn : twinInfo.width.toNat * twinInfo.height.toNat * twinInfo.point_step.toNat = 2 := by decide
      have := C72_same_names bitsText bitsText_lawful bitsOps storeComp 0 freshBlock (pyMsg twinOut) p [7#8, 8#8] pc twinInfo e e' freshBlock_length
        (by rw [hn, freshBlock_take _ (by decide)]; exact h) (by decide) (by decide) (by decide +kernel) (by decide +kernel) (by decide)
        (by
          simp only [twinInfo, List.mem_cons, List.not_mem_nil, or_false]
          rintro f (rfl | rfl) <;> exact pyName_char _ (by decide)) (Or.inl rfl) (by decide)
      exact this

/-- A field name of 4000 characters. -/
def longInfo : EncodingInfo :=
  { fields := [{ name := List.replicate 4000 0x61#8, type := .uint8 }], width := 1#32, height := 1#32, point_step := 1#32, encoding_opt := .none, compression_opt := .none }
def longOut : List Byte := match Pcd.encodeData bitsText bitsOps storeComp longInfo [7#8] with | .ok b => b | _ => []

example : decode bitsText bitsOps storeComp 0 freshBlock (pyMsg longOut) = .ub .mem := by
  have h : (match getMessage (pyMsg longOut) with
    | .ok pc => match decodeHeader bitsText pc.data with
      | .ok (i, p) => decide (i = longInfo ∧ decodeCloud bitsOps storeComp 0 longInfo p (List.replicate 1 0#8) = .ok [7#8])
      | _ => false
    | _ => false) = true := by decide +kernel
  cases e : getMessage (pyMsg longOut) with
  | throw m => rw [e] at h; simp at h
  | ub k => rw [e] at h; simp at h
  | ok pc =>
    rw [e] at h
    simp only at h
    cases e' : decodeHeader bitsText pc.data with
    | throw m => rw [e'] at h; simp at h
    | ub k => rw [e'] at h; simp at h
    | ok r =>
      obtain ⟨i, p⟩ := r
      rw [e'] at h
      simp only [decide_eq_true_eq] at h
      obtain ⟨rfl, h⟩ := h
      have hd : Wasm.decodeMessage bitsText bitsOps storeComp 0 (pyMsg longOut) freshBlock = .ok ⟨1, some [7#8]⟩ := by
        unfold Wasm.decodeMessage
        rw [e]
        show guarded (decodeData bitsText bitsOps storeComp 0 pc.data freshBlock) = _
        unfold decodeData
        rw [e']
        have hn : (longInfo.width * longInfo.height * longInfo.point_step).toNat = 1 := by decide
        simp only [hn]
        rw [if_neg (by rw [freshBlock_length]; decide), freshBlock_take _ (by decide), h]
        rfl
      exact C72_header_overflow bitsText bitsOps storeComp 0 freshBlock _ p [7#8] pc longInfo 1 e e' hd (by decide) (by decide +kernel)

/-! ### the order of the members -/

theorem place_order {c : Column} : ∀ {cs : List Column}, cs.Pairwise (fun a b => a.offset ≤ b.offset) → (place c cs).Pairwise fun a b => a.offset ≤ b.offset := by
  intro cs
  induction cs with
  | nil => intro _; simp [place]
  | cons d ds ih =>
    intro h
    unfold place
    rw [List.pairwise_cons] at h
    split
    next hle =>
      rw [List.pairwise_cons, List.pairwise_cons]
      refine ⟨fun x hx => ?_, h⟩
      rcases List.mem_cons.1 hx with rfl | hx
      · exact hle
      · exact Nat.le_trans hle (h.1 x hx)
    next hle =>
      rw [List.pairwise_cons]
      refine ⟨fun x hx => ?_, ih h.2⟩
      have : ∀ {l : List Column}, x ∈ place c l → x = c ∨ x ∈ l := by
        intro l
        induction l with
        | nil => intro hx; simpa [place] using hx
        | cons y ys ihy =>
          intro hx
          unfold place at hx
          split at hx
          · simpa using hx
          · rcases List.mem_cons.1 hx with rfl | hx
            · exact .inr List.mem_cons_self
            · exact (ihy hx).imp_right (List.mem_cons_of_mem _)
      rcases this hx with rfl | hx
      · omega
      · exact h.1 x hx

theorem place_stable {c : Column} (o : Nat) : ∀ {cs : List Column}, cs.Pairwise (fun a b => a.offset ≤ b.offset) →
    (place c cs).filter (fun x => x.offset = o) = (c :: cs).filter fun x => x.offset = o := by
  intro cs
  induction cs with
  | nil => intro _; rfl
  | cons d ds ih =>
    intro h
    unfold place
    rw [List.pairwise_cons] at h
    split
    · rfl
    next hle =>
      by_cases hd : d.offset = o
      · rw [List.filter_cons_of_pos (by simpa using hd), ih h.2, List.filter_cons_of_neg (by simp; omega), List.filter_cons_of_neg (by simp; omega),
          List.filter_cons_of_pos (by simpa using hd)]
      · rw [List.filter_cons_of_neg (by simpa using hd), ih h.2]
        by_cases hc : c.offset = o
        · rw [List.filter_cons_of_pos (by simpa using hc), List.filter_cons_of_pos (by simpa using hc), List.filter_cons_of_neg (by simpa using hd)]
        · rw [List.filter_cons_of_neg (by simpa using hc), List.filter_cons_of_neg (by simpa using hc), List.filter_cons_of_neg (by simpa using hd)]

theorem sorted_order (cs : List Column) : (sorted cs).Pairwise fun a b => a.offset ≤ b.offset := by
  induction cs with
  | nil => simp [sorted]
  | cons c cs ih => exact place_order ih

theorem sorted_stable (o : Nat) (cs : List Column) : (sorted cs).filter (fun x => x.offset = o) = cs.filter fun x => x.offset = o := by
  induction cs with
  | nil => rfl
  | cons c cs ih =>
    show (place c (sorted cs)).filter _ = _
    rw [place_stable o (sorted_order cs), List.filter_cons, List.filter_cons, ih]

/-- **C72, the order of the members.** Whatever the message: if the array has members, they stand in the order of their offsets, those of one offset in the order
of the description, and they are all the members described. -/
theorem C72_order (T : FloatText) (F : FloatOps) (C : Compressor) (fuel : Nat) (block msg block' data : List Byte) (cols : List Column) (itemsize count : Nat) (h : Python.Info)
    (hok : decode T F C fuel block msg = .ok (.structured cols itemsize count data, h, block')) :
    cols.Pairwise (fun a b => a.offset ≤ b.offset) ∧
    ∃ cs, columns h.fields = .ok cs ∧ cols.Perm cs ∧ ∀ o, cols.filter (fun c => c.offset = o) = cs.filter fun c => c.offset = o := by
  have hfb : ∀ n step d, fallback n step d ≠ .ok (.structured cols itemsize count data) := by
    intro n step d e
    unfold fallback at e
    split at e
    · split at e <;> simp at e
    · simp at e
  have hnp : ∀ d, toNumpy d h = .ok (.structured cols itemsize count data) → ∃ cs, columns h.fields = .ok cs ∧ cols = sorted cs := by
    intro d e
    unfold toNumpy at e
    obtain ⟨w, _, e⟩ := Res.bind_eq_ok.1 e
    obtain ⟨ht, _, e⟩ := Res.bind_eq_ok.1 e
    obtain ⟨stp, _, e⟩ := Res.bind_eq_ok.1 e
    split at e
    · cases hc : columns h.fields with
      | ub k => rw [hc] at e; simp at e
      | throw m => rw [hc] at e; exact absurd e (hfb _ _ _)
      | ok cs =>
        rw [hc] at e
        simp only at e
        split at e
        · simp only [Res.ok.injEq, NpArray.structured.injEq] at e
          exact ⟨cs, rfl, e.1.symm⟩
        · exact absurd e (hfb _ _ _)
    · exact absurd e (hfb _ _ _)
  have hx : ∀ d, extract d h = .ok (.structured cols itemsize count data) → ∃ cs, columns h.fields = .ok cs ∧ cols = sorted cs := by
    intro d e
    unfold extract at e
    obtain ⟨w, _, e⟩ := Res.bind_eq_ok.1 e
    obtain ⟨ht, _, e⟩ := Res.bind_eq_ok.1 e
    obtain ⟨stp, _, e⟩ := Res.bind_eq_ok.1 e
    split at e
    · exact hnp _ e
    · exact hnp _ e
  have key : ∃ cs, columns h.fields = .ok cs ∧ cols = sorted cs := by
    unfold Python.decode at hok
    obtain ⟨o, _, hok⟩ := Res.bind_eq_ok.1 hok
    split at hok
    · simp at hok
    split at hok
    · simp at hok
    obtain ⟨h', _, hok⟩ := Res.bind_eq_ok.1 hok
    split at hok
    · simp at hok
    split at hok
    · simp at hok
    obtain ⟨a, ha, hok⟩ := Res.bind_eq_ok.1 hok
    simp only [Res.ok.injEq, Prod.mk.injEq] at hok
    obtain ⟨rfl, rfl, _⟩ := hok
    exact hx _ ha
  obtain ⟨cs, h1, rfl⟩ := key
  exact ⟨sorted_order cs, cs, h1, sorted_perm cs, fun o => sorted_stable o cs⟩

example : (sorted [⟨[1#8], .uint8, 4⟩, ⟨[2#8], .uint8, 0⟩, ⟨[3#8], .uint16, 4⟩]).map (·.name) = [[2#8], [1#8], [3#8]] := by decide

end Cloudini.Props
