import Verif.Props.C61_C62

/-!
# C63: the PCL subscriber
-/

namespace Cloudini.Props

open Cloudini.Ros Cloudini.Pcd Cloudini.Plugin

/-- **C63 (partial).** A compressed message that the library made of a little-endian `PointCloud2` message with at least one byte of data, with a description of
its points that has the message's own width, height and point step: the callback of `CloudiniSubscriberPCL` is called with a cloud of the same width, height
and point step and the described fields, in which every field of every point has the value the codec promises and the bytes between the fields are zero.
Missing: empty clouds (`C63_empty_dropped`), `is_dense` (`C63_dense_lost`); otherwise as for C37. -/
theorem C63_delivered_partial (T : FloatText) (hT : T.Lawful) (F : FloatOps) (C : Compressor) (hC : C.Lawful) (fuel : Nat) (raw msg : List Byte) (pc : Pc2)
    (info : EncodingInfo) (hread : getMessage raw = .ok pc) (hraw : raw.length < 2 ^ 32) (hlittle : pc.cdr.big = false) (hne : pc.data ≠ [])
    (hw : info.width = pc.width) (hh : info.height = pc.height) (hs : info.point_step = pc.point_step) (ok : FileOk T F info pc.data)
    (hlim : info.compression_opt = .none ∨ ∀ enc, mkEncoder F info (encodeHeaderYaml T info) = .ok enc → ChunksWithin F enc pc.data pc.data.length)
    (hmsg : msg.length < 1431260227) (e : toCompressed T F C pc info = .ok msg) :
    ∃ c, pclCallback T F C fuel msg = .ok (some c) ∧ c.width = pc.width ∧ c.height = pc.height ∧ c.point_step = pc.point_step ∧
      c.row_step = pc.width * pc.point_step ∧
      c.fields.map (fun f => (f.name, f.offset, f.datatype, f.count)) = info.fields.map (fun f => (f.name, f.offset, f.type.code, 1#32)) ∧
      c.data.length = pc.data.length ∧ Decoded F info pc.data c.data ∧ ∀ p, p < c.data.length → ¬ Declared info p → c.data[p]? = some 0#8 := by
  obtain ⟨hwire, hfits, hdl, hcanon⟩ := getMessage_inv hread hraw
  obtain ⟨st, m, enc, enc', out, e1, e2, e3, e4, e5, e6⟩ := toCompressed_inv e hne
  have ho : out.length < 1431260227 := by
    obtain ⟨x, rfl⟩ := encString_prefix e6
    rw [Cdr.encPrim_eq _ 1 _ _ (by omega)] at hmsg
    simp only [List.length_append] at hmsg
    omega
  have hal := (writeHeader_aligned (by simp [Cdr.encInit]) e1).1
  obtain ⟨x, hx⟩ := encString_prefix e6
  have hm : getMessage msg = .ok (echo pc out) := by
    rw [hx, ← encBuf_at hlittle (by omega : out.length < 2 ^ 32) hal]
    exact getMessage_encode pc hwire hfits out (by omega) _ x (encode_pc e1)
  have hsz := ok.data.size
  have hsize : (info.width * info.height * info.point_step).toNat = pc.data.length := by
    rw [BitVec.toNat_mul, BitVec.toNat_mul, Nat.mod_mul_mod, ← hsz, Nat.mod_eq_of_lt hdl]
  obtain ⟨_, payload, t1, t2⟩ := view_trip hT hC ok e4 e5 (hlim.imp_right fun h => h enc e4) ho
  obtain ⟨buf, t3, t4, t5⟩ := t2 fuel (List.replicate pc.data.length 0#8) (by simp)
  refine ⟨⟨info.height, info.width, fromInfo info.fields, 0#8, info.point_step, info.width * info.point_step, buf, 1#8⟩, ?_, hw, hh, hs,
    by simp only [hw, hs], ?_, by simp only [t4, List.length_replicate], t5, ?_⟩
  · unfold pclCallback
    rw [hm]
    show (match pclCloudDecode T F C fuel out [] with | .ok c => Res.ok (some c) | .throw _ => .ok none | .ub k => .ub k) = _
    unfold pclCloudDecode
    rw [t1]
    simp only [Res.ok_bind, hsize, List.take_nil, List.nil_append, List.length_nil, Nat.sub_zero, t3]
  · simp only [fromInfo, List.map_map]
    rfl
  · intro p hp hd
    have hp : p < pc.data.length := by simp only [t4, List.length_replicate] at hp; exact hp
    show buf[p]? = _
    rw [(C19_untouched F C _ payload _ buf fuel ok.valid.step ok.valid.version (by simp; omega) t3).2 p hd]
    simp [List.getElem?_replicate, hp]

theorem decodeHeader_empty (T : FloatText) : ∃ s, decodeHeader T [] = .throw s := ⟨_, rfl⟩

/-- **C63, empty clouds.** A message that the library made of a cloud without points is never delivered: its data is empty, there is no header in it, and the
exception is only logged. -/
theorem C63_empty_dropped (T : FloatText) (F : FloatOps) (C : Compressor) (fuel : Nat) (raw msg : List Byte) (pc : Pc2) (info : EncodingInfo)
    (hread : getMessage raw = .ok pc) (hraw : raw.length < 2 ^ 32) (hemp : pc.data = [])
    (e : toCompressed T F C pc info = .ok msg) :
    pclCallback T F C fuel msg = .ok none := by
  obtain ⟨hwire, hfits, hdl, hcanon⟩ := getMessage_inv hread hraw
  unfold toCompressed at e
  obtain ⟨st, e1, e⟩ := Res.bind_eq_ok.1 e
  have hl : pc.data.length = 0 := by simp [hemp]
  simp only [if_pos hl] at e
  have hbuf : Cdr.encBuf pc.cdr [] st = Cdr.encPrim pc.cdr 4 0 st := by simp [Cdr.encBuf]
  obtain ⟨x, hx⟩ := encString_prefix e
  have hm : getMessage msg = .ok (echo pc []) := by
    rw [hx, ← hbuf]
    exact getMessage_encode pc hwire hfits [] (by simp) _ x (encode_pc e1)
  unfold pclCallback
  rw [hm]
  show (match pclCloudDecode T F C fuel [] [] with | .ok c => Res.ok (some c) | .throw _ => .ok none | .ub k => .ub k) = _
  obtain ⟨s, hs⟩ := decodeHeader_empty T
  unfold pclCloudDecode
  rw [hs]
  rfl

/-- **C63, density.** Every cloud the callback is given claims to be dense (no invalid points) and little-endian, whatever the message said: two messages that
differ in `is_dense` only are delivered alike. -/
theorem C63_dense_lost (T : FloatText) (F : FloatOps) (C : Compressor) (fuel : Nat) (raw raw' : List Byte) (c : PclCloud) :
    (pclCallback T F C fuel raw = .ok (some c) → c.dense = 1#8 ∧ c.bigendian = 0#8) ∧
      ∀ pc d, getMessage raw = .ok pc → getMessage raw' = .ok { pc with dense := d } → pclCallback T F C fuel raw' = pclCallback T F C fuel raw := by
  refine ⟨fun e => ?_, fun pc d h1 h2 => ?_⟩
  · unfold pclCallback at e
    split at e
    next h =>
      simp only [Res.ok.injEq, Option.some.injEq] at e
      subst e
      obtain ⟨pc, _, h⟩ := Res.bind_eq_ok.1 h
      unfold pclCloudDecode at h
      obtain ⟨⟨info, payload⟩, _, h⟩ := Res.bind_eq_ok.1 h
      obtain ⟨data, _, h⟩ := Res.bind_eq_ok.1 h
      simp only [Res.ok.injEq] at h
      rw [← h]
      exact ⟨rfl, rfl⟩
    · simp at e
    · simp at e
  · unfold pclCallback
    rw [h1, h2]
    rfl

example : ∃ msg c, toCompressed bitsText bitsOps storeComp bagPc pclInfo = .ok msg ∧ pclCallback bitsText bitsOps storeComp 0 msg = .ok (some c) ∧
    c.width = 3#32 ∧ Decoded bitsOps pclInfo pclWitness.data c.data := by
  have h : (match toCompressed bitsText bitsOps storeComp wasmPc pclInfo with | .ok b => decide (b.length < 1431260227) | _ => false) = true := by
    decide +kernel
  have hb : toCompressed bitsText bitsOps storeComp bagPc pclInfo = toCompressed bitsText bitsOps storeComp wasmPc pclInfo := by decide +kernel
  cases e : toCompressed bitsText bitsOps storeComp wasmPc pclInfo with
  | throw m => rw [e] at h; simp at h
  | ub k => rw [e] at h; simp at h
  | ok msg =>
    rw [e] at h
    simp only [decide_eq_true_eq] at h
    obtain ⟨c, h1, h2, _, _, _, _, _, h3, _⟩ := C63_delivered_partial bitsText bitsText_lawful bitsOps storeComp storeComp_lawful 0 wasmRaw msg wasmPc pclInfo
      wasmRaw_read (by decide +kernel) rfl (by decide +kernel) rfl rfl rfl pcl_ok
      (.inr (by intro enc he; rw [pcl_enc] at he; cases he; exact pcl_within)) h e
    exact ⟨msg, c, by rw [hb, e], h1, h2, h3⟩

/-- A message without points. -/
def noPointsPc : Pc2 := { wasmPc with width := 0#32, data := [] }
def noPointsRaw : List Byte := match Cdr.encodeMsg noPointsPc.cdr pcTy (pcVal noPointsPc []) with | .ok x => x | _ => []

example : getMessage noPointsRaw = .ok { noPointsPc with row_step := 0#32 } ∧
    ∃ msg, toCompressed bitsText bitsOps storeComp { noPointsPc with row_step := 0#32 } pclInfo = .ok msg ∧ pclCallback bitsText bitsOps storeComp 0 msg = .ok none := by
  have hr : getMessage noPointsRaw = .ok { noPointsPc with row_step := 0#32 } := by decide +kernel
  have h : (toCompressed bitsText bitsOps storeComp { noPointsPc with row_step := 0#32 } pclInfo).isOk = true := by decide +kernel
  refine ⟨hr, ?_⟩
  cases e : toCompressed bitsText bitsOps storeComp { noPointsPc with row_step := 0#32 } pclInfo with
  | throw m => rw [e] at h; simp at h
  | ub k => rw [e] at h; simp at h
  | ok msg => exact ⟨msg, rfl, C63_empty_dropped _ _ _ _ _ _ _ _ hr (by decide +kernel) rfl e⟩

end Cloudini.Props
