import Verif.Lemmas.Room
import Verif.Lemmas.RosTrip
import Verif.Props.C54_C57

/-!
# C64: the size of the output; wasm calls that must succeed
-/

namespace Cloudini.Props

open Cloudini.Ros Cloudini.Wasm

/-! ## C64 -/

/-- **C64 (partial).** For every encoder, cloud and header choice: if encoding succeeds into an output of some size, it succeeds into every larger one, with
the same bytes, the same returned size and the same encoder afterwards.  Missing: with LZ4, outputs that leave more than `INT_MAX` bytes
(`C64_lz4_large`). -/
theorem C64_more_room_partial (F : FloatOps) (C : Compressor) (hC : C.Mono) (enc enc' : Encoder) (cloud out : List Byte) (room room' n : Nat) (wh : Bool)
    (hle : room ≤ room') (hlz : enc.info.compression_opt = .lz4 → room' ≤ intMax) (h : encodeView F C enc cloud room wh = .ok (enc', out, n)) :
    encodeView F C enc cloud room' wh = .ok (enc', out, n) := encodeView_more hC hle hlz h

/-- **C64, too little room.** If the output is smaller than the worst case, encoding throws before it writes anything (`encodeView` has no other effect). -/
theorem C64_too_small (F : FloatOps) (C : Compressor) (enc : Encoder) (cloud : List Byte) (room m : Nat) (wh : Bool)
    (hm : maxCompressedSize C enc.info (cloud.length / enc.info.point_step.toNat) = .ok m) (hsmall : room < m + (if wh then enc.header.length else 0)) :
    (encodeView F C enc cloud room wh).isThrow = true := by
  unfold encodeView
  split
  · rfl
  split
  · rfl
  simp only [hm, Res.ok_bind]
  rw [if_pos hsmall]
  rfl

/-- **C64, the two overloads.** If the vector overload succeeds, the view overload with the header gives the same bytes in every output that is as large as
`MaxCompressedSize` says (`hb` is its estimate of the header). -/
theorem C64_vector_view_partial (F : FloatOps) (C : Compressor) (hC : C.Mono) (enc enc' : Encoder) (cloud out : List Byte) (hb m room n : Nat)
    (hm : maxCompressedSize C enc.info (cloud.length / enc.info.point_step.toNat) = .ok m) (hle : hb + m ≤ room)
    (hlz : enc.info.compression_opt = .lz4 → room ≤ intMax) (h : encodeVector F C enc hb cloud = .ok (enc', out, n)) :
    encodeView F C enc cloud room true = .ok (enc', out, n) := encodeVector_view hC hm hle hlz h

theorem writeStage1Chunk_large {C : Compressor} {data : List Byte} {w : W} (h : intMax + 4 < w.room) : ∀ r, writeStage1Chunk C .lz4 data w ≠ .ok r := by
  intro r e
  unfold writeStage1Chunk at e
  split at e
  · simp at e
  rw [if_neg (by decide), if_neg (by omega)] at e
  obtain ⟨y, e1, _⟩ := Res.bind_eq_ok.1 e
  unfold compressChunk at e1
  split at e1
  · simp at e1
  simp only at e1
  rw [if_pos (by omega)] at e1
  simp at e1

/-- **C64 fails for LZ4 and large outputs**: a cloud with at least one point is never encoded with LZ4 into an output that leaves more than
`INT_MAX` bytes behind the header and the length of the first chunk, although a smaller output may do (`C64_lz4_witness`). -/
theorem C64_lz4_large (F : FloatOps) (C : Compressor) (enc : Encoder) (cloud : List Byte) (room : Nat) (wh : Bool)
    (hlz : enc.info.compression_opt = .lz4) (hne : cloud ≠ []) (hroom : intMax + 4 + (if wh then enc.header.length else 0) < room) :
    ∀ r, encodeView F C enc cloud room wh ≠ .ok r := by
  intro r e
  unfold encodeView at e
  split at e
  · simp at e
  next h0 =>
  split at e
  · simp at e
  next h1 =>
  obtain ⟨m, _, e⟩ := Res.bind_eq_ok.1 e
  by_cases h2 : room < m + (if wh then enc.header.length else 0)
  · rw [if_pos h2] at e
    simp at e
  rw [if_neg h2] at e
  obtain ⟨w, e2, e⟩ := Res.bind_eq_ok.1 e
  obtain ⟨⟨enc1, w1, s1⟩, e3, e⟩ := Res.bind_eq_ok.1 e
  obtain ⟨_, _, hr⟩ := raw_room e2
  have hl : (if wh then enc.header else []).length = (if wh then enc.header.length else 0) := by split <;> rfl
  rw [hl] at hr
  have hlarge : intMax + 4 < w.room := by simp only at hr; omega
  have hp : cloud.length / enc.info.point_step.toNat ≠ 0 := by
    have hpos : 0 < enc.info.point_step.toNat := by
      rcases Nat.eq_zero_or_pos enc.info.point_step.toNat with hz | hz
      · exact absurd (BitVec.eq_of_toNat_eq (by simpa using hz)) h0
      · exact hz
    have hc : 0 < cloud.length := List.length_pos_iff.2 hne
    have h1 : cloud.length % enc.info.point_step.toNat = 0 := by omega
    have := Nat.le_of_dvd hc (Nat.dvd_of_mod_eq_zero h1)
    have := Nat.div_pos this hpos
    omega
  unfold encodePayload at e3
  split at e3
  · obtain ⟨cap, _, e3⟩ := Res.bind_eq_ok.1 e3
    obtain ⟨⟨es, as⟩, _, e3⟩ := Res.bind_eq_ok.1 e3
    obtain ⟨⟨w2, s2⟩, e3, _⟩ := Res.bind_eq_ok.1 e3
    unfold encodeV5Loop at e3
    rw [dif_neg hp] at e3
    obtain ⟨⟨es1, as1, mem1, chunk⟩, _, e3⟩ := Res.bind_eq_ok.1 e3
    obtain ⟨⟨w3, n3⟩, e4, _⟩ := Res.bind_eq_ok.1 e3
    rw [hlz] at e4
    exact writeStage1Chunk_large hlarge _ e4
  · obtain ⟨m, _, e3⟩ := Res.bind_eq_ok.1 e3
    obtain ⟨⟨es, w2, s2⟩, e3, _⟩ := Res.bind_eq_ok.1 e3
    unfold encodeV4Loop at e3
    rw [dif_neg hp] at e3
    obtain ⟨⟨es1, mem1, chunk⟩, _, e3⟩ := Res.bind_eq_ok.1 e3
    obtain ⟨⟨w3, n3⟩, e4, _⟩ := Res.bind_eq_ok.1 e3
    rw [hlz] at e4
    exact writeStage1Chunk_large hlarge _ e4

theorem storeComp_mono : storeComp.Mono := by
  intro o x cap cap' y h hle
  simp only [storeComp] at h ⊢
  split at h
  · rw [if_pos (by omega)]; exact h
  · simp at h

def pclLz4 : Encoder := ⟨{ pclInfo with compression_opt := .lz4 }, ascii "header", []⟩

theorem C64_lz4_witness : (encodeView bitsOps storeComp pclLz4 pclWitness.data 100000 true).isOk = true ∧
    ∀ r, encodeView bitsOps storeComp pclLz4 pclWitness.data (2 ^ 31 + 1000) true ≠ .ok r := by
  refine ⟨by decide +kernel, C64_lz4_large _ _ _ _ _ _ rfl (by decide +kernel) (by decide)⟩

/-- One size is enough to know all larger ones. -/
example : ∀ room, 100000 ≤ room → room ≤ intMax → (encodeView bitsOps storeComp pclLz4 pclWitness.data room true).isOk = true := by
  intro room h1 h2
  have h := C64_lz4_witness.1
  cases e : encodeView bitsOps storeComp pclLz4 pclWitness.data 100000 true with
  | ok r =>
    obtain ⟨a, b, c⟩ := r
    rw [C64_more_room_partial bitsOps storeComp storeComp_mono _ a _ b 100000 room c true h1 (fun _ => h2) e]
    rfl
  | throw m => rw [e] at h; simp at h
  | ub k => rw [e] at h; simp at h

/-! ## C54: calls that must succeed -/

/-- **C54, completeness.** Whenever the vector overload encodes the cloud of the message and the bytes fit the buffer (which has the size of the message),
`cldn_EncodePointcloudMessage` returns their number and puts them at the output address, whichever way it takes inside. -/
theorem C54_encode_complete (T : FloatText) (F : FloatOps) (C : Compressor) (hC : C.Mono) (msg out : List Byte) (res : BitVec 32) (n : Nat) (pc : Pc2)
    (enc enc' : Encoder) (hmsg : msg.length < 2 ^ 32) (hread : getMessage msg = .ok pc)
    (hsize : pc.data.length = pc.width.toNat * pc.height.toNat * pc.point_step.toNat)
    (henc : mkEncoder F (wasmInfo pc res) (encodeHeaderYaml T (wasmInfo pc res)) = .ok enc)
    (hout : encodeVector F C enc (headerEstimate T (wasmInfo pc res)) pc.data = .ok (enc', out, n)) (hfit : n ≤ msg.length) :
    encodeMessage T F C msg res = .ok ⟨n, some out⟩ := by
  obtain ⟨_, _, hdl, _⟩ := getMessage_inv hread hmsg
  have hcs : cloudDataSize pc = pc.data.length := by
    unfold cloudDataSize
    rw [BitVec.toNat_mul, BitVec.toNat_mul, Nat.mod_mul_mod, ← hsize, Nat.mod_eq_of_lt (by omega)]
  have hstep : ¬ (wasmInfo pc res).point_step = 0#32 := by
    intro h
    unfold encodeVector at hout
    rw [(mkEncoder_info henc).1, if_pos h] at hout
    simp at hout
  have hinfo := (mkEncoder_info henc).1
  have hn : n = out.length := by
    obtain ⟨_, _, _, _, _, h⟩ := C23_vector_agrees F C enc enc' _ _ out n hout
    exact h
  unfold encodeMessage
  rw [hread]
  simp only [Res.ok_bind]
  change guarded (if pc.data.length ≠ cloudDataSize pc then _ else do
    let enc ← mkEncoder F (wasmInfo pc res) (encodeHeaderYaml T (wasmInfo pc res))
    _) = _
  rw [if_neg (by rw [hcs]; simp), henc]
  simp only [Res.ok_bind]
  have hm : ∃ m, maxCompressedSize C (wasmInfo pc res) (pc.data.length / (wasmInfo pc res).point_step.toNat) = .ok m := by
    unfold encodeVector at hout
    rw [hinfo, if_neg hstep] at hout
    split at hout
    · simp at hout
    obtain ⟨m, e, _⟩ := Res.bind_eq_ok.1 hout
    exact ⟨m, e⟩
  obtain ⟨m, hm⟩ := hm
  change guarded (if (wasmInfo pc res).point_step = 0#32 then _ else do
    let m ← maxCompressedSize C (wasmInfo pc res) (pc.data.length / (wasmInfo pc res).point_step.toNat)
    _) = _
  rw [if_neg hstep, hm]
  simp only [Res.ok_bind]
  change guarded (if headerEstimate T (wasmInfo pc res) + m ≤ msg.length then _ else do
    let (_, out, n) ← encodeVector F C enc (headerEstimate T (wasmInfo pc res)) pc.data
    _) = _
  by_cases h : headerEstimate T (wasmInfo pc res) + m ≤ msg.length
  · rw [if_pos h, encodeVector_view hC (by rw [hinfo]; exact hm) h (by rw [hinfo]; intro h; cases h) hout]
    simp only [Res.ok_bind]
    rw [Nat.mod_eq_of_lt (by omega)]
    rfl
  · rw [if_neg h, hout]
    simp only [Res.ok_bind]
    rw [if_neg (by omega), Nat.mod_eq_of_lt (by omega), hn, List.take_length]
    rfl

/-- The message of `wasmRaw` and its 200 spare bytes is encoded. -/
example : ∃ n out, encodeMessage bitsText bitsOps storeComp wasmRaw 0x3F800000#32 = .ok ⟨n, some out⟩ ∧ n = out.length ∧ n ≠ 0 := by
  have h : (match encodeVector bitsOps storeComp pclEnc (headerEstimate bitsText pclInfo) wasmPc.data with
      | .ok (_, out, n) => decide (n ≤ wasmRaw.length ∧ n = out.length ∧ n ≠ 0) | _ => false) = true := by decide +kernel
  cases e : encodeVector bitsOps storeComp pclEnc (headerEstimate bitsText pclInfo) wasmPc.data with
  | ok r =>
    obtain ⟨a, out, n⟩ := r
    rw [e] at h
    simp only [decide_eq_true_eq] at h
    exact ⟨n, out, C54_encode_complete bitsText bitsOps storeComp storeComp_mono wasmRaw out 0x3F800000#32 n wasmPc pclEnc a (by decide +kernel) wasmRaw_read
      (by decide +kernel) (by rw [wasmPc_info]; exact pcl_enc) (by rw [wasmPc_info]; exact e) h.1, h.2⟩
  | throw m => rw [e] at h; simp at h
  | ub k => rw [e] at h; simp at h

/-! ## C56, C57: whole messages -/

/-- **C56, conversion of messages (partial).** `cldn_ConvertCompressedMsgToPointCloud2Msg` turns a compressed message that the library made of a little-endian
message into a `PointCloud2` message with the same members (the row step excepted) and the values the codec promises, and returns its length.
Missing: as for C37 and C55. -/
theorem C56_convert_partial (T : FloatText) (hT : T.Lawful) (F : FloatOps) (C : Compressor) (hC : C.Lawful) (fuel : Nat) (raw msg : List Byte) (pc : Pc2)
    (info : EncodingInfo) (hread : getMessage raw = .ok pc) (hraw : raw.length < 2 ^ 32) (hlittle : pc.cdr.big = false)
    (hw : info.width = pc.width) (hh : info.height = pc.height) (hs : info.point_step = pc.point_step) (ok : FileOk T F info pc.data)
    (hlim : info.compression_opt = .none ∨ ∀ enc, mkEncoder F info (encodeHeaderYaml T info) = .ok enc → ChunksWithin F enc pc.data pc.data.length)
    (hmsg : msg.length < 1431260227) (e : toCompressed T F C pc info = .ok msg) :
    ∃ n raw' pc', convertMsg T F C fuel msg = .ok ⟨n, some raw'⟩ ∧ (raw'.length < 2 ^ 32 → n = raw'.length) ∧ getMessage raw' = .ok pc' ∧
      pc'.sec = pc.sec ∧ pc'.nsec = pc.nsec ∧ pc'.frame = pc.frame ∧ pc'.width = pc.width ∧ pc'.height = pc.height ∧ pc'.point_step = pc.point_step ∧
      pc'.dense = pc.dense ∧ pc'.data.length = pc.data.length ∧ Decoded F info pc.data pc'.data := by
  obtain ⟨hwire, hfits, hdl, hcanon⟩ := getMessage_inv hread hraw
  have htypes : WireTypes pc := by
    intro f hf
    obtain ⟨k, hk, rfl⟩ := List.getElem_of_mem hf
    have := congrArg (fun l => l[k]?) hcanon
    simp only [List.getElem?_map, List.getElem?_eq_getElem hk, Option.map_some, Option.some.injEq] at this
    exact congrArg PointField.type this
  obtain ⟨pcC, h1, h2, h3⟩ := message_trip hT hC hwire hfits hdl htypes hlittle hw hh hs ok hlim hmsg e
  obtain ⟨raw', pc', k1, k2, k3, k4, k5, k6⟩ := h3 fuel
  refine ⟨raw'.length % 2 ^ 32, raw', pc', ?_, fun h => Nat.mod_eq_of_lt h, k2, k3.sec, k3.nsec, k3.frame, k3.width, k3.height, k3.point_step, k3.dense, k4, k5⟩
  unfold convertMsg
  rw [h1, Res.ok_bind, k1]
  rfl

/-- **C57, headers of messages (partial).** `cldn_GetHeaderAsYAMLFromDDS` on a compressed message that the library made writes the text of the description the
message was encoded with.  Missing: as for C37; for an empty cloud it returns 0 (there is no header in the message). -/
theorem C57_message_header_partial (T : FloatText) (hT : T.Lawful) (F : FloatOps) (C : Compressor) (raw msg : List Byte) (pc : Pc2)
    (info : EncodingInfo) (hread : getMessage raw = .ok pc) (hraw : raw.length < 2 ^ 32) (hlittle : pc.cdr.big = false) (hne : pc.data ≠ [])
    (ok : FileOk T F info pc.data) (hmsg : msg.length < 2 ^ 32) (e : toCompressed T F C pc info = .ok msg) :
    headerYamlMsg T msg = .ok ⟨(infoToYaml T info).length % 2 ^ 32, some (infoToYaml T info)⟩ := by
  obtain ⟨hwire, hfits, hdl, hcanon⟩ := getMessage_inv hread hraw
  obtain ⟨st, m, enc, enc', out, e1, e2, e3, e4, e5, e6⟩ := toCompressed_inv e hne
  have ho : out.length < 2 ^ 32 := by
    obtain ⟨x, rfl⟩ := encString_prefix e6
    rw [Cdr.encPrim_eq _ 1 _ _ (by omega)] at hmsg
    simp only [List.length_append] at hmsg
    omega
  have hal := (writeHeader_aligned (by simp [Cdr.encInit]) e1).1
  obtain ⟨x, hx⟩ := encString_prefix e6
  have hm : getMessage msg = .ok (echo pc out) := by
    rw [hx, ← encBuf_at hlittle ho hal]
    exact getMessage_encode pc hwire hfits out ho _ x (encode_pc e1)
  obtain ⟨_, _, hp⟩ := C23_view_size F C _ _ _ _ _ _ _ e5
  obtain ⟨payload, hp⟩ := hp rfl
  rw [(mkEncoder_info e4).2.1] at hp
  unfold headerYamlMsg
  rw [hm, Res.ok_bind]
  show guarded (headerYaml T out) = _
  rw [← hp, C57_header_text T hT F info pc.data payload ok]
  rfl

theorem wasmMsg_ok : ∃ msg, toCompressed bitsText bitsOps storeComp wasmPc pclInfo = .ok msg ∧ msg.length < 1431260227 := by
  have h : (match toCompressed bitsText bitsOps storeComp wasmPc pclInfo with | .ok b => decide (b.length < 1431260227) | _ => false) = true := by
    decide +kernel
  cases e : toCompressed bitsText bitsOps storeComp wasmPc pclInfo with
  | throw m => rw [e] at h; simp at h
  | ub k => rw [e] at h; simp at h
  | ok msg => rw [e] at h; exact ⟨msg, rfl, by simpa using h⟩

example : ∃ msg n raw' pc', toCompressed bitsText bitsOps storeComp wasmPc pclInfo = .ok msg ∧ convertMsg bitsText bitsOps storeComp 0 msg = .ok ⟨n, some raw'⟩ ∧
    getMessage raw' = .ok pc' ∧ pc'.frame = ascii "lidar" ∧ Decoded bitsOps pclInfo pclWitness.data pc'.data ∧
    headerYamlMsg bitsText msg = .ok ⟨(infoToYaml bitsText pclInfo).length % 2 ^ 32, some (infoToYaml bitsText pclInfo)⟩ := by
  obtain ⟨msg, e, hl⟩ := wasmMsg_ok
  obtain ⟨n, raw', pc', h1, _, h2, _, _, h3, _, _, _, _, _, h4⟩ := C56_convert_partial bitsText bitsText_lawful bitsOps storeComp storeComp_lawful 0 wasmRaw msg
    wasmPc pclInfo wasmRaw_read (by decide +kernel) rfl rfl rfl rfl pcl_ok
    (.inr (by intro enc he; rw [pcl_enc] at he; cases he; exact pcl_within)) hl e
  exact ⟨msg, n, raw', pc', e, h1, h2, h3, h4, C57_message_header_partial bitsText bitsText_lawful bitsOps storeComp wasmRaw msg wasmPc pclInfo wasmRaw_read
    (by decide +kernel) rfl (by decide +kernel) pcl_ok (by omega) e⟩

/-- Too little room for the three points of `pclWitness`. -/
example : (encodeView bitsOps storeComp pclLz4 pclWitness.data 96 true).isThrow = true := by
  have h : (match maxCompressedSize storeComp pclLz4.info (pclWitness.data.length / pclLz4.info.point_step.toNat) with | .ok m => decide (96 < m) | _ => false) = true := by
    decide +kernel
  cases e : maxCompressedSize storeComp pclLz4.info (pclWitness.data.length / pclLz4.info.point_step.toNat) with
  | ok m =>
    rw [e] at h
    simp only [decide_eq_true_eq] at h
    exact C64_too_small _ _ _ _ _ m _ e (by omega)
  | throw m => rw [e] at h; simp at h
  | ub k => rw [e] at h; simp at h

/-- The two overloads for `pclWitness`. -/
example : ∃ r, encodeVector bitsOps storeComp pclLz4 6 pclWitness.data = .ok r ∧ encodeView bitsOps storeComp pclLz4 pclWitness.data intMax true = .ok r := by
  have h : (match maxCompressedSize storeComp pclLz4.info (pclWitness.data.length / pclLz4.info.point_step.toNat) with | .ok m => decide (6 + m ≤ intMax) | _ => false) = true := by
    decide +kernel
  have h2 : (encodeVector bitsOps storeComp pclLz4 6 pclWitness.data).isOk = true := by decide +kernel
  cases e : maxCompressedSize storeComp pclLz4.info (pclWitness.data.length / pclLz4.info.point_step.toNat) with
  | ok m =>
    rw [e] at h
    simp only [decide_eq_true_eq] at h
    cases e2 : encodeVector bitsOps storeComp pclLz4 6 pclWitness.data with
    | ok r =>
      obtain ⟨a, b, n⟩ := r
      exact ⟨_, rfl, C64_vector_view_partial bitsOps storeComp storeComp_mono pclLz4 a _ b 6 m _ n e h (fun _ => Nat.le_refl _) e2⟩
    | throw m => rw [e2] at h2; simp at h2
    | ub k => rw [e2] at h2; simp at h2
  | throw m => rw [e] at h; simp at h
  | ub k => rw [e] at h; simp at h

end Cloudini.Props
