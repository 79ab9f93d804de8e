import Verif.Model.Plugin
import Verif.Props.C58_C59

/-!
# C61, C62: the ROS 2 transport plugins, the conversion helpers and the topic converter
-/

namespace Cloudini.Props

open Cloudini.Ros Cloudini.Plugin

/-! ## C61 -/

theorem code_ofCode : ∀ d : Byte, (FieldType.ofCode d).code = d := by decide +kernel

/-- The fields of `m` and of `info` are the same: names, offsets and type codes, in order. -/
def SameFields (fs : List Plugin.Field) (gs : List PointField) : Prop :=
  fs.map (fun f => (f.name, f.offset, f.datatype)) = gs.map (fun g => (g.name, g.offset, g.type.code))

theorem checkFields_iff {fs : List Plugin.Field} {gs : List PointField} (hl : fs.length = gs.length) : checkFields fs gs = .ok () ↔ SameFields fs gs := by
  induction fs generalizing gs with
  | nil => cases gs with
    | nil => simp [checkFields, SameFields]
    | cons g gs => simp at hl
  | cons f fs ih => cases gs with
    | nil => simp at hl
    | cons g gs =>
      unfold checkFields
      have ih := ih (gs := gs) (by simpa using hl)
      unfold SameFields at ih ⊢
      simp only [List.map_cons, List.cons.injEq, Prod.mk.injEq]
      by_cases h1 : f.name = g.name
      · by_cases h2 : f.offset = g.offset
        · by_cases h3 : f.datatype = g.type.code
          · simp [h1, h2, h3, ih]
          · simp [h1, h2, h3]
        · simp [h1, h2]
      · simp [h1]

theorem toInfo_same (m : Msg) (res : BitVec 32) : SameFields m.fields (Plugin.toInfo m res).fields := by
  unfold SameFields Plugin.toInfo
  simp only [List.map_map]
  refine List.map_congr_left fun f _ => ?_
  simp [code_ofCode]

/-- **C61 (partial).** A message that the publisher plugin encodes is decoded by the subscriber plugin to a message with the same header, dimensions, fields
(with their counts), steps and density, in which every field of every point has the value the codec promises and the bytes between the fields are zero.
Missing: what `FileOk` and C18 exclude, clouds of 4 GiB or more, and the endianness flag (`C61_bigendian_lost`). -/
theorem C61_roundtrip_partial (T : FloatText) (hT : T.Lawful) (F : FloatOps) (C : Compressor) (hC : C.Lawful) (fuel : Nat) (res : BitVec 64) (m : Msg)
    (z : Compressed) (ok : FileOk T F (Plugin.toInfo m (Plugin.narrow res)) m.data)
    (hlim : ∀ enc, mkEncoder F (Plugin.toInfo m (Plugin.narrow res)) (encodeHeaderYaml T (Plugin.toInfo m (Plugin.narrow res))) = .ok enc →
      ChunksWithin F enc m.data m.data.length)
    (h32 : m.data.length < 2 ^ 32) (hsz : z.data.length < 1431260227) (e : encodeTyped T F C res m = .ok z) :
    ∃ m', decodeTyped T F C fuel z = .ok m' ∧ m'.header = m.header ∧ m'.width = m.width ∧ m'.height = m.height ∧ m'.fields = m.fields ∧
      m'.point_step = m.point_step ∧ m'.row_step = m.row_step ∧ m'.dense = m.dense ∧ m'.data.length = m.data.length ∧
      Decoded F (Plugin.toInfo m (Plugin.narrow res)) m.data m'.data ∧
      ∀ p, p < m'.data.length → ¬ Declared (Plugin.toInfo m (Plugin.narrow res)) p → m'.data[p]? = some 0#8 := by
  unfold encodeTyped at e
  obtain ⟨enc, e1, e⟩ := Res.bind_eq_ok.1 e
  obtain ⟨⟨enc', out, n⟩, e2, e⟩ := Res.bind_eq_ok.1 e
  simp only [Res.ok.injEq] at e
  subst e
  have hn : n = out.length := by
    obtain ⟨_, _, _, _, _, h⟩ := C23_vector_agrees F C enc enc' _ _ out n e2
    exact h
  subst hn
  simp only [List.take_length] at hsz ⊢
  obtain ⟨_, payload, h1, h2⟩ := vector_trip hT hC ok e1 e2 (.inr (hlim enc e1)) hsz
  have hsize : (m.point_step * m.width * m.height).toNat = m.data.length := by
    have := ok.data.size
    simp only [Plugin.toInfo] at this
    rw [BitVec.toNat_mul, BitVec.toNat_mul, Nat.mod_mul_mod, Nat.mul_assoc, Nat.mul_comm, ← this, Nat.mod_eq_of_lt h32]
  obtain ⟨buf', h3, h4, h5⟩ := h2 fuel (List.replicate m.data.length 0#8) (by simp)
  have hc : checkFields m.fields (Plugin.toInfo m (Plugin.narrow res)).fields = .ok () :=
    (checkFields_iff (by simp [Plugin.toInfo])).2 (toInfo_same m _)
  refine ⟨{ header := m.header, height := m.height, width := m.width, fields := m.fields, bigendian := false, point_step := m.point_step,
            row_step := m.row_step, dense := m.dense, data := buf' }, ?_, rfl, rfl, rfl, rfl, rfl, rfl, rfl, by rw [h4]; simp, h5, ?_⟩
  · unfold decodeTyped
    simp only [h1, Res.ok_bind]
    rw [if_neg (by simp [Plugin.toInfo]), if_neg (by simp [Plugin.toInfo]), if_neg (by simp [Plugin.toInfo]), hc, Res.ok_bind, hsize, h3]
    rfl
  · intro p hp hd
    have hp : p < m.data.length := by rw [h4] at hp; simpa using hp
    rw [(C19_untouched F C _ payload _ buf' fuel ok.valid.step ok.valid.version (by simp; omega) h3).2 p hd]
    simp [List.getElem?_replicate, hp]

/-- **C61, consistency.** Whatever message arrives: if the subscriber plugin returns a cloud, then the description inside the data has the dimensions, the
point step and the fields (number, names, offsets, types) of the message, and what is returned has those members, a data vector of exactly
`width * height * point_step` bytes and the little-endian flag. -/
theorem C61_consistent (T : FloatText) (F : FloatOps) (C : Compressor) (fuel : Nat) (z : Compressed) (m' : Msg) (e : decodeTyped T F C fuel z = .ok m') :
    ∃ info payload, decodeHeader T z.data = .ok (info, payload) ∧ info.width = z.width ∧ info.height = z.height ∧ info.point_step = z.point_step ∧
      SameFields z.fields info.fields ∧ m'.header = z.header ∧ m'.height = z.height ∧ m'.width = z.width ∧ m'.fields = z.fields ∧ m'.bigendian = false ∧
      m'.point_step = z.point_step ∧ m'.row_step = z.row_step ∧ m'.dense = z.dense ∧
      (3 ≤ info.version.toNat → 0 < info.point_step.toNat → m'.data.length = z.width.toNat * z.height.toNat * z.point_step.toNat) := by
  unfold decodeTyped at e
  obtain ⟨⟨info, payload⟩, e1, e⟩ := Res.bind_eq_ok.1 e
  simp only at e
  split at e
  · simp at e
  next h1 =>
  split at e
  · simp at e
  next h2 =>
  split at e
  · simp at e
  next h3 =>
  obtain ⟨_, e2, e⟩ := Res.bind_eq_ok.1 e
  obtain ⟨buf, e3, e⟩ := Res.bind_eq_ok.1 e
  simp only [Res.ok.injEq] at e
  subst e
  have hw : z.width = info.width := by apply Classical.byContradiction; intro h; exact h1 (.inl h)
  have hh : z.height = info.height := by apply Classical.byContradiction; intro h; exact h1 (.inr h)
  have hs : z.point_step = info.point_step := by apply Classical.byContradiction; intro h; exact h2 h
  have hl : z.fields.length = info.fields.length := by apply Classical.byContradiction; intro h; exact h3 h
  refine ⟨info, payload, e1, hw.symm, hh.symm, hs.symm, (checkFields_iff hl).1 e2, rfl, hh.symm, hw.symm, rfl, rfl, rfl, rfl, rfl, ?_⟩
  · intro hv hst
    have hlt := (z.point_step * z.width * z.height).isLt
    have hbl := (C19_untouched F C _ payload _ buf fuel hst hv (by simp; omega) e3).1
    have := decodeCloud_room hst hv (by simp; omega) e3
    simp only [List.length_replicate] at hbl this
    show buf.length = _
    have hm : (z.point_step * z.width * z.height).toNat ≤ z.width.toNat * z.height.toNat * z.point_step.toNat := by
      rw [BitVec.toNat_mul, BitVec.toNat_mul, Nat.mod_mul_mod, Nat.mul_assoc, Nat.mul_comm]
      exact Nat.mod_le _ _
    rw [← hw, ← hh, ← hs] at this
    omega

/-- **C61, large clouds.** The size of the output is a product in 32 bits: a message of a cloud of 4 GiB or more is not decoded. -/
theorem C61_large (T : FloatText) (F : FloatOps) (C : Compressor) (fuel : Nat) (z : Compressed) (info : EncodingInfo) (payload : List Byte)
    (h : decodeHeader T z.data = .ok (info, payload)) (hver : 3 ≤ info.version.toNat) (hstep : 0 < info.point_step.toNat)
    (hbig : 2 ^ 32 ≤ z.width.toNat * z.height.toNat * z.point_step.toNat) : ∀ m', decodeTyped T F C fuel z ≠ .ok m' := by
  intro m' e
  obtain ⟨info', payload', h1, h2, h3, h4, _, _, _, _, _, _, _, _, _, h6⟩ := C61_consistent T F C fuel z m' e
  rw [h] at h1
  simp only [Res.ok.injEq, Prod.mk.injEq] at h1
  obtain ⟨rfl, rfl⟩ := h1
  have h7 := h6 hver hstep
  -- the vector was made with a 32-bit size
  unfold decodeTyped at e
  rw [h] at e
  simp only [Res.ok_bind] at e
  split at e
  · simp at e
  split at e
  · simp at e
  split at e
  · simp at e
  obtain ⟨_, _, e⟩ := Res.bind_eq_ok.1 e
  obtain ⟨buf, e3, e⟩ := Res.bind_eq_ok.1 e
  simp only [Res.ok.injEq] at e
  subst e
  have hlt := (z.point_step * z.width * z.height).isLt
  have hbl := (C19_untouched F C _ payload _ buf fuel hstep hver (by simp; omega) e3).1
  simp only [List.length_replicate] at hbl
  simp only at h7
  omega

/-- **C61, the format.** What the publisher plugin sends has an empty `format`: `ReadEncodingInfo`, the helper for messages of this type, throws on every
message of the plugin. -/
theorem C61_format_missing (T : FloatText) (F : FloatOps) (C : Compressor) (res : BitVec 64) (m : Msg) (z : Compressed)
    (e : encodeTyped T F C res m = .ok z) : (readInfo T z).isThrow = true := by
  unfold encodeTyped at e
  obtain ⟨enc, e1, e⟩ := Res.bind_eq_ok.1 e
  obtain ⟨⟨enc', out, n⟩, e2, e⟩ := Res.bind_eq_ok.1 e
  simp only [Res.ok.injEq] at e
  subst e
  unfold readInfo
  rw [if_pos (show ([] : List Byte) ≠ ascii "cloudini" by decide)]
  rfl

/-- `ReadEncodingInfo` reads the description when the format is there. -/
theorem C61_readInfo (T : FloatText) (z : Compressed) (info : EncodingInfo) :
    readInfo T z = .ok info ↔ z.format = ascii "cloudini" ∧ ∃ payload, decodeHeader T z.data = .ok (info, payload) := by
  unfold readInfo
  by_cases h : z.format = ascii "cloudini"
  · rw [if_neg (by simpa using h)]
    constructor
    · intro e
      obtain ⟨⟨info', payload⟩, e1, e⟩ := Res.bind_eq_ok.1 e
      simp only [Res.ok.injEq] at e
      subst e
      exact ⟨h, payload, e1⟩
    · rintro ⟨_, payload, e⟩
      rw [e]
      rfl
  · rw [if_pos h]
    simp [h]

/-- **C61, byte order.** The flag of the input is dropped: a big-endian cloud gives the same message as the little-endian cloud of the same bytes, and
every decoded message claims to be little-endian. -/
theorem C61_bigendian_lost (T : FloatText) (F : FloatOps) (C : Compressor) (fuel : Nat) (res : BitVec 64) (m m' : Msg) (z : Compressed) (b : Bool) :
    encodeTyped T F C res { m with bigendian := b } = encodeTyped T F C res m ∧ (decodeTyped T F C fuel z = .ok m' → m'.bigendian = false) := by
  refine ⟨rfl, fun e => ?_⟩
  obtain ⟨_, _, _, _, _, _, _, _, _, _, _, h, _⟩ := C61_consistent T F C fuel z m' e
  exact h

/-- The cloud of `pclWitness`, with a count that the codec does not know about. -/
def plugMsg : Msg :=
  { header := ⟨3#32, 4#32, ascii "lidar"⟩, height := 1#32, width := 3#32, bigendian := true, point_step := 32#32, row_step := 96#32, dense := false,
    fields := [⟨ascii "x", 0#32, 7#8, 1#32⟩, ⟨ascii "y", 4#32, 7#8, 1#32⟩, ⟨ascii "z", 8#32, 7#8, 1#32⟩, ⟨ascii "ring", 16#32, 4#8, 3#32⟩],
    data := pclWitness.data }

theorem plug_narrow : Plugin.narrow pclRes = 0x3F800000#32 := by
  unfold Plugin.narrow
  have : IEEE.narrow pclRes.toNat = 0x3F800000 := by decide +kernel
  rw [this]

theorem plug_info : Plugin.toInfo plugMsg (Plugin.narrow pclRes) = pclInfo := by
  rw [plug_narrow]
  decide +kernel

theorem plug_encoded : ∃ z, encodeTyped bitsText bitsOps storeComp pclRes plugMsg = .ok z ∧ z.data.length < 1431260227 := by
  have h : (match encodeVector bitsOps storeComp pclEnc (headerEstimate bitsText pclInfo) plugMsg.data with
      | .ok (_, out, n) => decide ((out.take n).length < 1431260227) | _ => false) = true := by decide +kernel
  unfold encodeTyped
  simp only [plug_info, pcl_enc, Res.ok_bind]
  cases e : encodeVector bitsOps storeComp pclEnc (headerEstimate bitsText pclInfo) plugMsg.data with
  | ok r =>
    obtain ⟨a, out, n⟩ := r
    rw [e] at h
    simp only [decide_eq_true_eq] at h
    exact ⟨_, rfl, h⟩
  | throw m => rw [e] at h; simp at h
  | ub k => rw [e] at h; simp at h

/-- The whole trip; the count of `ring` survives in the list of fields although only the first element was encoded. -/
example : ∃ z m', encodeTyped bitsText bitsOps storeComp pclRes plugMsg = .ok z ∧ decodeTyped bitsText bitsOps storeComp 0 z = .ok m' ∧
    m'.fields = plugMsg.fields ∧ m'.bigendian = false ∧ Decoded bitsOps pclInfo pclWitness.data m'.data ∧ (readInfo bitsText z).isThrow = true := by
  obtain ⟨z, e, hz⟩ := plug_encoded
  obtain ⟨m', h1, _, _, _, h2, _, _, _, _, h3, _⟩ := C61_roundtrip_partial bitsText bitsText_lawful bitsOps storeComp storeComp_lawful 0 pclRes plugMsg z
    (by rw [plug_info]; exact pcl_ok) (by rw [plug_info]; intro enc he; rw [pcl_enc] at he; cases he; exact pcl_within) (by decide +kernel) hz e
  refine ⟨z, m', e, h1, h2, (C61_bigendian_lost bitsText bitsOps storeComp 0 pclRes plugMsg m' z true).2 h1, ?_, C61_format_missing _ _ _ _ _ _ e⟩
  rw [plug_info] at h3
  exact h3

/-! ## C62 -/

/-- What `SerializeCompressedPointCloud2` passes on: the message with the resolution in its FLOAT32 fields. -/
def resolved (pc : Pc2) (res : BitVec 32) : Pc2 :=
  { cdr := pc.cdr, sec := pc.sec, nsec := pc.nsec, frame := pc.frame, height := pc.height, width := pc.width, point_step := pc.point_step,
    row_step := pc.row_step, data := pc.data, dense := pc.dense,
    fields := pc.fields.map fun f => if f.type = .float32 then { f with resolution := some res } else f }

theorem applyProfile_empty (fields : List PointField) (res : BitVec 32) :
    applyProfile (fun _ => none) fields (some res) = fields.map fun f => if f.type = .float32 then { f with resolution := some res } else f := by
  unfold applyProfile
  simp

theorem compress_eq (T : FloatText) (F : FloatOps) (C : Compressor) (pc : Pc2) (res : BitVec 32) :
    compress T F C pc res = toCompressed T F C (resolved pc res) (toEncodingInfo (resolved pc res)) := by
  unfold compress
  rw [applyProfile_empty]
  rfl

/-- **C62, one description.** The plugin (`ConvertToEncodingInfo`) and the helper that publishes serialised messages (`SerializeCompressedPointCloud2`) encode
a message with the same description and the same bytes. -/
theorem C62_same_info (T : FloatText) (F : FloatOps) (C : Compressor) (m : Msg) (res : BitVec 32) : ∃ pc,
    serialize T F C m res = toCompressed T F C pc (Plugin.toInfo m res) ∧ pc.data = m.data := by
  refine ⟨resolved (toPc2 m) res, ?_, rfl⟩
  unfold serialize
  rw [compress_eq]
  congr 1
  unfold toEncodingInfo resolved toPc2 Plugin.toInfo
  simp only [List.map_map]
  congr 1
  refine List.map_congr_left fun f _ => ?_
  simp only [Function.comp_def]
  split <;> rfl

theorem resolved_info (m : Msg) (res : BitVec 32) : toEncodingInfo (resolved (toPc2 m) res) = Plugin.toInfo m res := by
  unfold toEncodingInfo resolved toPc2 Plugin.toInfo
  simp only [List.map_map]
  congr 1
  refine List.map_congr_left fun f _ => ?_
  simp only [Function.comp_def]
  split <;> rfl

theorem onWire_resolved (pc : Pc2) (res : BitVec 32) : (onWire (resolved pc res)).fields = (onWire pc).fields := by
  unfold onWire resolved
  simp only [List.map_map]
  refine List.map_congr_left fun f _ => ?_
  simp only [Function.comp_def]
  split <;> rfl

/-- The message fits the wire format: no text or vector is longer than its 32-bit length can say. -/
structure FitsMsg (m : Msg) : Prop where
  frame : m.header.frame.length + 1 < 2 ^ 32
  fields : m.fields.length < 2 ^ 32
  names : ∀ f ∈ m.fields, f.name.length + 1 < 2 ^ 32
  data : m.data.length < 2 ^ 32

theorem resolved_facts {pc : Pc2} {res : BitVec 32} (hf : FitsPc pc) (ht : WireTypes pc) : FitsPc (resolved pc res) ∧ WireTypes (resolved pc res) := by
  have key : ∀ f ∈ (resolved pc res).fields, ∃ g ∈ pc.fields, f.name = g.name ∧ f.type = g.type := by
    intro f h
    obtain ⟨g, hg, rfl⟩ := List.mem_map.1 h
    refine ⟨g, hg, ?_⟩
    split <;> exact ⟨rfl, rfl⟩
  refine ⟨⟨hf.frame, ?_, fun f h => ?_⟩, fun f h => ?_⟩
  · unfold resolved
    rw [List.length_map]
    exact hf.fields
  · obtain ⟨g, hg, e, _⟩ := key f h
    rw [e]
    exact hf.names g hg
  · obtain ⟨g, hg, _, e⟩ := key f h
    rw [e]
    exact ht g hg

/-- **C62, serialised messages (partial).** The bytes that `SerializeCompressedPointCloud2` makes of a message, read as a message and decoded by
`convertCompressedCloudToPointCloud2`, are a `PointCloud2` message with the members of the original (the row step excepted) and, in every field of every
point, the value the codec promises.  Missing: what `FileOk` excludes; counts and the endianness flag (C37). -/
theorem C62_serialize_partial (T : FloatText) (hT : T.Lawful) (F : FloatOps) (C : Compressor) (hC : C.Lawful) (fuel : Nat) (res : BitVec 32) (m : Msg)
    (msg : List Byte) (fits : FitsMsg m) (ok : FileOk T F (Plugin.toInfo m res) m.data)
    (hlim : ∀ enc, mkEncoder F (Plugin.toInfo m res) (encodeHeaderYaml T (Plugin.toInfo m res)) = .ok enc → ChunksWithin F enc m.data m.data.length)
    (hmsg : msg.length < 1431260227) (e : serialize T F C m res = .ok msg) :
    ∃ z raw pc, getMessage msg = .ok z ∧ fromCompressed T F C fuel z = .ok raw ∧ getMessage raw = .ok pc ∧
      pc.sec = m.header.sec ∧ pc.nsec = m.header.nanosec ∧ pc.frame = m.header.frame ∧ pc.width = m.width ∧ pc.height = m.height ∧
      pc.point_step = m.point_step ∧ SameFields m.fields pc.fields ∧ pc.dense = (if m.dense then 1#8 else 0#8) ∧ pc.data.length = m.data.length ∧
      Decoded F (Plugin.toInfo m res) m.data pc.data ∧ ∀ p, p < pc.data.length → ¬ Declared (Plugin.toInfo m res) p → pc.data[p]? = some 0#8 := by
  unfold serialize at e
  rw [compress_eq, resolved_info] at e
  obtain ⟨hf, hty⟩ := resolved_facts (pc := toPc2 m) (res := res)
    ⟨fits.frame, by unfold toPc2; rw [List.length_map]; exact fits.fields, fun f h => by obtain ⟨d, hd, rfl⟩ := List.mem_map.1 h; exact fits.names d hd⟩
    (fun f h => by obtain ⟨d, hd, rfl⟩ := List.mem_map.1 h; simp only [code_ofCode])
  obtain ⟨z, h1, h2, h3⟩ := message_trip hT hC (pc := resolved (toPc2 m) res)
    (info := Plugin.toInfo m res) (show Ros.Wire ({} : Cdr.Header) from ⟨rfl, rfl⟩) hf fits.data hty rfl rfl rfl rfl ok (.inr hlim) hmsg e
  obtain ⟨raw, pc, k1, k2, k3, k4, k5, k6⟩ := h3 fuel
  refine ⟨z, raw, pc, h1, k1, k2, k3.sec, k3.nsec, k3.frame, k3.width, k3.height, k3.point_step, ?_, k3.dense, k4, k5, k6⟩
  rw [k3.fields, onWire_resolved]
  unfold SameFields onWire toPc2
  simp only [List.map_map]
  refine List.map_congr_left fun f _ => ?_
  simp [code_ofCode]

/-- **C62, the topic converter (partial).** A node that compresses and one that decompresses, one after the other, turn every little-endian `PointCloud2`
message into a `PointCloud2` message with the same members (the row step excepted) and the values the codec promises.  Missing: as for C37. -/
theorem C62_topics_partial (T : FloatText) (hT : T.Lawful) (F : FloatOps) (C : Compressor) (hC : C.Lawful) (fuel : Nat) (res r2 : BitVec 64)
    (raw msg : List Byte) (pc : Pc2) (hread : getMessage raw = .ok pc) (hraw : raw.length < 2 ^ 32) (hlittle : pc.cdr.big = false)
    (ok : FileOk T F (toEncodingInfo (resolved pc (Plugin.narrow res))) pc.data)
    (hlim : ∀ enc, mkEncoder F (toEncodingInfo (resolved pc (Plugin.narrow res))) (encodeHeaderYaml T (toEncodingInfo (resolved pc (Plugin.narrow res)))) = .ok enc →
      ChunksWithin F enc pc.data pc.data.length)
    (hmsg : msg.length < 1431260227) (e : convertTopic T F C fuel true res raw = .ok msg) :
    ∃ raw' pc', convertTopic T F C fuel false r2 msg = .ok raw' ∧ getMessage raw' = .ok pc' ∧ SameMeta pc' pc ∧ pc'.data.length = pc.data.length ∧
      Decoded F (toEncodingInfo (resolved pc (Plugin.narrow res))) pc.data pc'.data ∧
      ∀ p, p < pc'.data.length → ¬ Declared (toEncodingInfo (resolved pc (Plugin.narrow res))) p → pc'.data[p]? = some 0#8 := by
  unfold convertTopic at e
  rw [hread, Res.ok_bind, if_pos rfl, compress_eq] at e
  obtain ⟨hwire, hfits, hdl, hcanon⟩ := getMessage_inv hread hraw
  have htypes : WireTypes pc := by
    intro f hf
    obtain ⟨k, hk, rfl⟩ := List.getElem_of_mem hf
    have := congrArg (fun l => l[k]?) hcanon
    simp only [List.getElem?_map, List.getElem?_eq_getElem hk, Option.map_some, Option.some.injEq] at this
    exact congrArg PointField.type this
  obtain ⟨hf, hty⟩ := resolved_facts (res := Plugin.narrow res) hfits htypes
  obtain ⟨z, h1, h2, h3⟩ := message_trip hT hC (pc := resolved pc (Plugin.narrow res)) (info := toEncodingInfo (resolved pc (Plugin.narrow res)))
    hwire hf hdl hty hlittle rfl rfl rfl ok (.inr hlim) hmsg e
  obtain ⟨raw', pc', k1, k2, k3, k4, k5, k6⟩ := h3 fuel
  refine ⟨raw', pc', ?_, k2, ⟨k3.sec, k3.nsec, k3.frame, k3.height, k3.width, ?_, k3.point_step, k3.dense, k3.order⟩, k4, k5, k6⟩
  · unfold convertTopic
    rw [h1, Res.ok_bind, if_neg (by decide)]
    exact k1
  · rw [k3.fields, onWire_resolved]
    unfold onWire
    simp only
    have hn : ∀ f ∈ pc.fields, ({ f with resolution := none } : PointField) = f := by
      intro f hf
      obtain ⟨k, hk, rfl⟩ := List.getElem_of_mem hf
      have := congrArg (fun l => l[k]?) hcanon
      simp only [List.getElem?_map, List.getElem?_eq_getElem hk, Option.map_some, Option.some.injEq] at this
      have := congrArg PointField.resolution this
      simp only at this
      generalize pc.fields[k] = f at this
      cases f
      simp only at this
      rw [this]
    rw [List.map_congr_left hn, List.map_id']

theorem plug_fits : FitsMsg plugMsg :=
  ⟨by decide, by decide, by decide, by decide +kernel⟩

theorem plug_info32 : Plugin.toInfo plugMsg 0x3F800000#32 = pclInfo := by decide +kernel

example : ∃ msg z raw pc, serialize bitsText bitsOps storeComp plugMsg 0x3F800000#32 = .ok msg ∧ getMessage msg = .ok z ∧
    fromCompressed bitsText bitsOps storeComp 0 z = .ok raw ∧ getMessage raw = .ok pc ∧ pc.dense = 0#8 ∧ Decoded bitsOps pclInfo pclWitness.data pc.data := by
  have h : (match serialize bitsText bitsOps storeComp plugMsg 0x3F800000#32 with | .ok b => decide (b.length < 1431260227) | _ => false) = true := by
    decide +kernel
  cases e : serialize bitsText bitsOps storeComp plugMsg 0x3F800000#32 with
  | throw m => rw [e] at h; simp at h
  | ub k => rw [e] at h; simp at h
  | ok msg =>
    rw [e] at h
    simp only [decide_eq_true_eq] at h
    obtain ⟨z, raw, pc, h1, h2, h3, _, _, _, _, _, _, _, h4, _, h5, _⟩ := C62_serialize_partial bitsText bitsText_lawful bitsOps storeComp storeComp_lawful 0
      0x3F800000#32 plugMsg msg plug_fits (by rw [plug_info32]; exact pcl_ok)
      (by rw [plug_info32]; intro enc he; rw [pcl_enc] at he; cases he; exact pcl_within) h e
    rw [plug_info32] at h5
    exact ⟨msg, z, raw, pc, rfl, h1, h2, h3, h4, h5⟩

theorem topic_info : toEncodingInfo (resolved wasmPc (Plugin.narrow pclRes)) = pclInfo := by
  rw [plug_narrow]
  decide +kernel

example : ∃ msg raw', convertTopic bitsText bitsOps storeComp 0 true pclRes wasmRaw = .ok msg ∧
    convertTopic bitsText bitsOps storeComp 0 false 0#64 msg = .ok raw' ∧ ∃ pc', getMessage raw' = .ok pc' ∧ SameMeta pc' wasmPc := by
  have h : (match compress bitsText bitsOps storeComp wasmPc 0x3F800000#32 with | .ok b => decide (b.length < 1431260227) | _ => false) = true := by
    decide +kernel
  have hc : convertTopic bitsText bitsOps storeComp 0 true pclRes wasmRaw = compress bitsText bitsOps storeComp wasmPc 0x3F800000#32 := by
    unfold convertTopic
    rw [wasmRaw_read, Res.ok_bind, if_pos rfl, plug_narrow]
  cases e : compress bitsText bitsOps storeComp wasmPc 0x3F800000#32 with
  | throw m => rw [e] at h; simp at h
  | ub k => rw [e] at h; simp at h
  | ok msg =>
    rw [e] at h hc
    simp only [decide_eq_true_eq] at h
    obtain ⟨raw', pc', h1, h2, h3, _⟩ := C62_topics_partial bitsText bitsText_lawful bitsOps storeComp storeComp_lawful 0 pclRes 0#64 wasmRaw msg wasmPc
      wasmRaw_read (by decide +kernel) rfl (by rw [topic_info]; exact pcl_ok)
      (by rw [topic_info]; intro enc he; rw [pcl_enc] at he; cases he; exact pcl_within) h hc
    exact ⟨msg, raw', hc, h1, pc', h2, h3⟩

/-- A message of 65536 x 65536 points of 8 bytes. -/
example (F : FloatOps) (C : Compressor) (z : Compressed) (hz : z.data = encodeHeaderYaml bitsText hugeInfo) (h1 : z.width = 65536#32) (h2 : z.height = 65536#32)
    (h3 : z.point_step = 8#32) : ∀ m', decodeTyped bitsText F C 0 z ≠ .ok m' := by
  obtain ⟨info, payload, h, e1, e2, e3, e4⟩ := huge_header
  exact C61_large bitsText F C 0 z info payload (by rw [hz]; exact h) (by rw [e1]; decide) (by rw [e2]; decide) (by rw [h1, h2, h3]; decide)

end Cloudini.Props
