import Verif.Lemmas.FileTrip
import Verif.Lemmas.Ros

/-!
# A message through both conversions, whatever resolutions its fields carry
-/

namespace Cloudini.Props

open Cloudini.Ros

/-- A message as it is on the wire: fields have no resolution there. -/
def onWire (pc : Pc2) : Pc2 := { pc with fields := pc.fields.map fun f => { f with resolution := none } }

/-- The fields have types of the wire. -/
def WireTypes (pc : Pc2) : Prop := ∀ f ∈ pc.fields, FieldType.ofCode f.type.code = f.type

theorem echo_meta {pc : Pc2} (h : WireTypes pc) (data : List Byte) : SameMeta (echo pc data) (onWire pc) := by
  refine ⟨rfl, rfl, rfl, rfl, rfl, ?_, rfl, rfl, rfl⟩
  show pc.fields.map _ = pc.fields.map _
  apply List.map_congr_left
  intro f hf
  rw [h f hf]

theorem encodeFields_wire (h : Cdr.Header) (fs : List PointField) (hw : ∀ f ∈ fs, FieldType.ofCode f.type.code = f.type) :
    ∀ st, writeFields h (fs.map fun f => { f with type := FieldType.ofCode f.type.code, resolution := none }) st = writeFields h fs st := by
  induction fs with
  | nil => intro st; rfl
  | cons f fs ih =>
    intro st
    simp only [List.map_cons, writeFields]
    rw [hw f (by simp)]
    have := ih (fun f hf => hw f (by simp [hf]))
    simp only [this]

theorem writeHeader_echo {pc : Pc2} (hw : WireTypes pc) (data st : List Byte) : writeHeader pc.cdr (echo pc data) st = writeHeader pc.cdr pc st := by
  unfold writeHeader
  show _ = _
  simp only [echo, encodeFields_wire _ _ hw, List.length_map]

theorem message_trip_full {T : FloatText} (hT : T.Lawful) {F : FloatOps} {C : Compressor} (hC : C.Lawful) {msg : List Byte} {pc : Pc2}
    {info : EncodingInfo} (hwire : Ros.Wire pc.cdr) (hfits : FitsPc pc) (hdl : pc.data.length < 2 ^ 32) (htypes : WireTypes pc)
    (hlittle : pc.cdr.big = false) (hne : pc.data ≠ []) (hw : info.width = pc.width) (hh : info.height = pc.height) (hs : info.point_step = pc.point_step)
    (ok : FileOk T F info pc.data)
    (hlim : info.compression_opt = .none ∨ ∀ enc, mkEncoder F info (encodeHeaderYaml T info) = .ok enc → ChunksWithin F enc pc.data pc.data.length)
    (hmsg : msg.length < 1431260227) (e : toCompressed T F C pc info = .ok msg) :
    ∃ pcC, getMessage msg = .ok pcC ∧ SameMeta pcC (onWire pc) ∧ ∀ fuel, ∃ raw' pc', fromCompressed T F C fuel pcC = .ok raw' ∧ getMessage raw' = .ok pc' ∧
      SameMeta pc' (onWire pc) ∧ pc'.data.length = pc.data.length ∧ Decoded F info pc.data pc'.data ∧
      (∀ p, p < pc'.data.length → ¬ Declared info p → pc'.data[p]? = some 0#8) := by
  obtain ⟨st, m, enc, enc', out, e1, e2, e3, e4, e5, e6⟩ := toCompressed_inv e hne
  have ho : out.length < 1431260227 := by
    obtain ⟨x, rfl⟩ := encString_prefix e6
    rw [Cdr.encPrim_eq _ 1 _ _ (by omega)] at hmsg
    simp only [List.length_append] at hmsg
    omega
  have hal := (writeHeader_aligned (by simp [Cdr.encInit]) e1).1
  obtain ⟨x, hx⟩ := encString_prefix e6
  have hm : getMessage msg = .ok (echo pc out) := by
    rw [hx, ← encBuf_at hlittle (by omega : out.length < 2 ^ 32) hal]
    exact getMessage_encode pc hwire hfits out (by omega) _ x (encode_pc e1)
  refine ⟨_, hm, echo_meta htypes out, fun fuel => ?_⟩
  obtain ⟨_, payload, t1, t2⟩ := view_trip hT hC ok e4 e5 (hlim.imp_right fun h => h enc e4) ho
  obtain ⟨buf', d1, d2, d3⟩ := t2 fuel (List.replicate pc.data.length 0#8) (by simp)
  have hsize : cloudDataSize pc = pc.data.length := by
    have h1 := ok.data.size
    rw [hw, hh, hs] at h1
    unfold cloudDataSize
    rw [BitVec.toNat_mul, BitVec.toNat_mul, Nat.mod_mul_mod, ← h1, Nat.mod_eq_of_lt hdl]
  have hbl : buf'.length = pc.data.length := by rw [d2]; simp
  have hpos : pc.data.length ≠ 0 := by simpa using hne
  have hfrom : fromCompressed T F C fuel (echo pc out) = .ok (Cdr.encPrim pc.cdr 1 pc.dense.toNat (Cdr.encBuf pc.cdr buf' st)) := by
    unfold fromCompressed
    have hwr : writeHeader (echo pc out).cdr (echo pc out) (Cdr.encInit (echo pc out).cdr) = .ok st := by
      rw [← e1]
      exact writeHeader_echo htypes out _
    simp only [hwr, Res.ok_bind]
    have hz : cloudDataSize (echo pc out) = pc.data.length := hsize
    rw [hz, if_neg hpos]
    have hd' : decodeHeader T (echo pc out).data = .ok (info, payload) := t1
    simp only [hd', Res.ok_bind, d1]
    rw [encBuf_at hlittle (by omega) hal]
    show Res.ok (Cdr.encPrim pc.cdr 1 pc.dense.toNat (Cdr.encPrim pc.cdr 4 pc.data.length st ++ buf')) = _
    rw [encPrim4_at _ _ _ hal, hbl]
    unfold Cdr.primBytes
    rw [hlittle]; rfl
  have hback : getMessage (Cdr.encPrim pc.cdr 1 pc.dense.toNat (Cdr.encBuf pc.cdr buf' st)) = .ok (echo pc buf') := by
    have := getMessage_encode pc hwire hfits buf' (by omega) _ [] (encode_pc e1)
    rwa [List.append_nil] at this
  refine ⟨_, echo pc buf', hfrom, hback, echo_meta htypes buf', hbl, d3, ?_⟩
  intro p hp hd
  have hp : p < buf'.length := hp
  have := (C19_untouched F C info payload _ buf' fuel ok.valid.step ok.valid.version (by simp; omega) d1).2 p hd
  show buf'[p]? = _
  rw [this, List.getElem?_replicate, if_pos (by omega)]

theorem message_trip_empty {T : FloatText} {F : FloatOps} {C : Compressor} {msg : List Byte} {pc : Pc2} {info : EncodingInfo}
    (hwire : Ros.Wire pc.cdr) (hfits : FitsPc pc) (htypes : WireTypes pc) (hemp : pc.data = [])
    (hz : pc.width.toNat * pc.height.toNat * pc.point_step.toNat = 0) (e : toCompressed T F C pc info = .ok msg) :
    ∃ pcC, getMessage msg = .ok pcC ∧ SameMeta pcC (onWire pc) ∧ ∀ fuel, ∃ raw' pc', fromCompressed T F C fuel pcC = .ok raw' ∧ getMessage raw' = .ok pc' ∧
      SameMeta pc' (onWire pc) ∧ pc'.data = [] := by
  unfold toCompressed at e
  obtain ⟨st, e1, e⟩ := Res.bind_eq_ok.1 e
  have hl : pc.data.length = 0 := by simp [hemp]
  simp only [if_pos hl] at e
  have hbuf : Cdr.encBuf pc.cdr [] st = Cdr.encPrim pc.cdr 4 0 st := by simp [Cdr.encBuf]
  have hwr : writeHeader (echo pc []).cdr (echo pc []) (Cdr.encInit (echo pc []).cdr) = .ok st := by
    rw [← e1]
    exact writeHeader_echo htypes [] _
  have hget : ∀ rest, getMessage (Cdr.encPrim pc.cdr 1 pc.dense.toNat (Cdr.encPrim pc.cdr 4 0 st) ++ rest) = .ok (echo pc []) := by
    intro rest
    rw [← hbuf]
    exact getMessage_encode pc hwire hfits [] (by simp) _ rest (encode_pc e1)
  obtain ⟨x, hx⟩ := encString_prefix e
  refine ⟨echo pc [], by rw [hx]; exact hget x, echo_meta htypes [], fun fuel => ⟨Cdr.encPrim pc.cdr 1 pc.dense.toNat (Cdr.encPrim pc.cdr 4 0 st), echo pc [], ?_,
    by have := hget []; rwa [List.append_nil] at this, echo_meta htypes [], rfl⟩⟩
  unfold fromCompressed
  simp only [hwr, Res.ok_bind]
  have hz' : cloudDataSize (echo pc []) = 0 := by
    show (pc.width * pc.height * pc.point_step).toNat = 0
    rw [BitVec.toNat_mul, BitVec.toNat_mul, Nat.mod_mul_mod, hz]
  rw [hz', if_pos rfl]
  rfl

/-- A message through both conversions, empty or not. -/
theorem message_trip {T : FloatText} (hT : T.Lawful) {F : FloatOps} {C : Compressor} (hC : C.Lawful) {msg : List Byte} {pc : Pc2}
    {info : EncodingInfo} (hwire : Ros.Wire pc.cdr) (hfits : FitsPc pc) (hdl : pc.data.length < 2 ^ 32) (htypes : WireTypes pc)
    (hlittle : pc.cdr.big = false) (hw : info.width = pc.width) (hh : info.height = pc.height) (hs : info.point_step = pc.point_step)
    (ok : FileOk T F info pc.data)
    (hlim : info.compression_opt = .none ∨ ∀ enc, mkEncoder F info (encodeHeaderYaml T info) = .ok enc → ChunksWithin F enc pc.data pc.data.length)
    (hmsg : msg.length < 1431260227) (e : toCompressed T F C pc info = .ok msg) :
    ∃ pcC, getMessage msg = .ok pcC ∧ SameMeta pcC (onWire pc) ∧ ∀ fuel, ∃ raw' pc', fromCompressed T F C fuel pcC = .ok raw' ∧ getMessage raw' = .ok pc' ∧
      SameMeta pc' (onWire pc) ∧ pc'.data.length = pc.data.length ∧ Decoded F info pc.data pc'.data ∧
      (∀ p, p < pc'.data.length → ¬ Declared info p → pc'.data[p]? = some 0#8) := by
  by_cases hne : pc.data = []
  · have hsz := ok.data.size
    rw [hne, hw, hh, hs] at hsz
    obtain ⟨pcC, h1, h2, h3⟩ := message_trip_empty hwire hfits htypes hne hsz.symm e
    refine ⟨pcC, h1, h2, fun fuel => ?_⟩
    obtain ⟨raw', pc', g1, g2, g3, g4⟩ := h3 fuel
    refine ⟨raw', pc', g1, g2, g3, by rw [g4, hne], ?_, by rw [g4]; intro p hp; simp at hp⟩
    intro i hi
    rw [hw, hh] at hi
    have hstep := ok.valid.step
    rw [hs] at hstep
    rcases Nat.mul_eq_zero.1 hsz.symm with h | h <;> omega
  · exact message_trip_full hT hC hwire hfits hdl htypes hlittle hne hw hh hs ok hlim hmsg e

end Cloudini.Props
