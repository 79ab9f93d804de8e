import Verif.Lemmas.Unfold
import Verif.Model.Header
import Verif.Lemmas.Writes
import Verif.Lemmas.Base

/-! # Binary headers -/

namespace Cloudini

theorem decodeInt_toLE (k n : Nat) (h : n < 256 ^ k) (rest : List Byte) : decodeInt k (toLE k n ++ rest) = .ok (n, rest) := by
  rw [decodeInt_def]
  rw [if_pos (by simp), List.take_append_of_le_length (by simp), List.take_of_length_le (by simp),
    List.drop_append_of_le_length (by simp), List.drop_of_length_le (by simp), fromLE_toLE, Nat.mod_eq_of_lt h]
  rfl

theorem encodeInt_ok (w : W) (k n : Nat) (h : k ≤ w.room) : w.encodeInt k n = .ok ⟨w.out ++ toLE k n, w.room - k⟩ := by
  unfold W.encodeInt
  rw [W.checked_ok (by simpa using h)]
  simp

theorem encodeString_ok (w : W) (s : List Byte) (h : 2 + s.length % 65536 ≤ w.room) :
    w.encodeString s = .ok ⟨w.out ++ (toLE 2 (s.length % 65536) ++ s.take (s.length % 65536)), w.room - (2 + s.length % 65536)⟩ := by
  unfold W.encodeString
  have hl : (s.take (s.length % 65536)).length = s.length % 65536 := by
    rw [List.length_take]; have := Nat.mod_le s.length 65536; omega
  simp only
  rw [encodeInt_ok _ _ _ (by omega)]
  simp only [Res.ok_bind]
  rw [W.checked_ok (by rw [hl]; simp only; omega), hl]
  simp only [List.append_assoc, Nat.sub_sub]

/-- The bytes of one field of a binary header. -/
def fieldBinary (f : PointField) : List Byte :=
  toLE 2 (f.name.length % 65536) ++ f.name.take (f.name.length % 65536) ++ toLE 4 f.offset.toNat ++ toLE 1 f.type.code.toNat ++
    toLE 4 (resWire f.resolution)

theorem fieldBinary_length (f : PointField) : (fieldBinary f).length = f.name.length % 65536 + 11 := by
  unfold fieldBinary
  simp only [List.length_append, toLE_length, List.length_take]
  have := Nat.mod_le f.name.length 65536
  omega

theorem encodeFieldsBinary_ok (fs : List PointField) (w : W) (h : (fs.map fun f => f.name.length + 2 + 4 + 1 + 4).sum ≤ w.room) :
    ∃ r, encodeFieldsBinary fs w = .ok ⟨w.out ++ (fs.map fieldBinary).flatten, r⟩ ∧ ((fs.map fieldBinary).flatten).length + r = w.room ∧
      w.room - (fs.map fun f => f.name.length + 2 + 4 + 1 + 4).sum ≤ r := by
  induction fs generalizing w with
  | nil => exact ⟨w.room, by simp [encodeFieldsBinary], by simp, by simp⟩
  | cons f fs ih =>
    simp only [List.map_cons, List.sum_cons] at h ⊢
    have hm := Nat.mod_le f.name.length 65536
    have hl := fieldBinary_length f
    unfold encodeFieldsBinary
    rw [encodeString_ok _ _ (by omega)]
    simp only [Res.ok_bind]
    rw [encodeInt_ok _ _ _ (by simp only; omega)]
    simp only [Res.ok_bind]
    rw [encodeInt_ok _ _ _ (by simp only; omega)]
    simp only [Res.ok_bind]
    rw [encodeInt_ok _ _ _ (by simp only; omega)]
    simp only [Res.ok_bind]
    obtain ⟨r, h1, h2, h3⟩ := ih ⟨w.out ++ (toLE 2 (f.name.length % 65536) ++ f.name.take (f.name.length % 65536)) ++ toLE 4 f.offset.toNat ++
      toLE 1 f.type.code.toNat ++ toLE 4 (resWire f.resolution),
      w.room - (2 + f.name.length % 65536) - 4 - 1 - 4⟩ (by simp only; omega)
    refine ⟨r, ?_, ?_, ?_⟩
    · rw [h1]
      simp only [List.flatten_cons, fieldBinary, List.append_assoc]
    · simp only [List.flatten_cons, List.length_append, hl]
      simp only at h2
      omega
    · simp only at h3; omega

/-- The fields as they come back: names cut to their length modulo 65536, no non-positive resolutions. -/
def binaryField (f : PointField) : PointField :=
  { f with name := f.name.take (f.name.length % 65536), resolution := f.resolution.filter resPositive }

theorem decodeString_ok (s : List Byte) (h : s.length < 65536) (rest : List Byte) :
    decodeString (toLE 2 s.length ++ (s ++ rest)) = .ok (s, rest) := by
  rw [decodeString_def]
  rw [decodeInt_toLE 2 _ (by simpa using h)]
  simp

theorem fieldType_code (t : FieldType) (h : FieldType.ofCode t.code = t) : FieldType.ofCode (BitVec.ofNat 8 t.code.toNat) = t := by
  rw [BitVec.ofNat_toNat, BitVec.setWidth_eq, h]

theorem decodeFieldsBinary_ok (fs : List PointField) (payload : List Byte)
    (ht : ∀ f ∈ fs, FieldType.ofCode f.type.code = f.type) :
    decodeFieldsBinary fs.length ((fs.map fieldBinary).flatten ++ payload) = .ok (fs.map binaryField, payload) := by
  induction fs with
  | nil => rfl
  | cons f fs ih =>
    have hlt := Nat.mod_lt f.name.length (show 65536 > 0 by decide)
    have hl : (f.name.take (f.name.length % 65536)).length = f.name.length % 65536 := by
      rw [List.length_take]; have := Nat.mod_le f.name.length 65536; omega
    simp only [List.length_cons, List.map_cons, List.flatten_cons, decodeFieldsBinary]
    rw [fieldBinary]
    simp only [List.append_assoc]
    have hstr := decodeString_ok (f.name.take (f.name.length % 65536)) (by omega)
    rw [hl] at hstr
    rw [hstr]
    simp only [Res.ok_bind]
    rw [decodeInt_toLE 4 _ (by have := f.offset.isLt; omega)]
    simp only [Res.ok_bind]
    rw [decodeInt_toLE 1 _ (by have := f.type.code.isLt; omega)]
    simp only [Res.ok_bind]
    have hr : ∀ rest, decodeInt 4 (toLE 4 (resWire f.resolution) ++ rest) = .ok (resWire f.resolution, rest) := by
      intro rest
      apply decodeInt_toLE
      cases f.resolution with
      | none => decide
      | some r => exact r.isLt
    rw [hr]
    simp only [Res.ok_bind]
    rw [ih (fun f hf => ht f (by simp [hf]))]
    simp only [Res.ok_bind]
    rw [fieldType_code _ (ht f (by simp))]
    congr 3
    unfold binaryField
    cases hres : f.resolution with
    | none => simp [resPositive, resWire]
    | some r => simp [resWire, Option.filter]

/-- All bytes of a binary header before the padding. -/
def binaryBytes (info : EncodingInfo) : List Byte :=
  magicBytes info.version ++ (toLE 4 info.width.toNat ++ (toLE 4 info.height.toNat ++ (toLE 4 info.point_step.toNat ++
    (toLE 1 info.encoding_opt.code.toNat ++ (toLE 1 info.compression_opt.code.toNat ++ (toLE 2 (info.fields.length % 65536) ++
      (info.fields.map fieldBinary).flatten))))))

theorem encodeHeaderBinary_ok (info : EncodingInfo) :
    ∃ r, encodeHeaderBinary info = .ok (binaryBytes info ++ List.replicate r 0#8) ∧ (binaryBytes info).length + r = computeHeaderSize info.fields := by
  unfold encodeHeaderBinary
  have hm : (magicBytes info.version).length = 12 := by simp [magicBytes, magic]
  have hc : 28 ≤ computeHeaderSize info.fields := by unfold computeHeaderSize; omega
  rw [W.raw_ok (by rw [hm]; simp only; omega)]
  simp only [Res.ok_bind, hm]
  rw [encodeInt_ok _ _ _ (by simp only; omega)]
  simp only [Res.ok_bind]
  rw [encodeInt_ok _ _ _ (by simp only; omega)]
  simp only [Res.ok_bind]
  rw [encodeInt_ok _ _ _ (by simp only; omega)]
  simp only [Res.ok_bind]
  rw [encodeInt_ok _ _ _ (by simp only; omega)]
  simp only [Res.ok_bind]
  rw [encodeInt_ok _ _ _ (by simp only; omega)]
  simp only [Res.ok_bind]
  rw [encodeInt_ok _ _ _ (by simp only; omega)]
  simp only [Res.ok_bind]
  obtain ⟨r, h1, h2, h3⟩ := encodeFieldsBinary_ok info.fields ⟨[] ++ magicBytes info.version ++ toLE 4 info.width.toNat ++ toLE 4 info.height.toNat ++
    toLE 4 info.point_step.toNat ++ toLE 1 info.encoding_opt.code.toNat ++ toLE 1 info.compression_opt.code.toNat ++
    toLE 2 (info.fields.length % 65536), computeHeaderSize info.fields - 12 - 4 - 4 - 4 - 1 - 1 - 2⟩ (by simp only; unfold computeHeaderSize; omega)
  refine ⟨r, ?_, ?_⟩
  · rw [h1]
    simp only [Res.ok_bind, binaryBytes, List.append_assoc, List.nil_append]
  · simp only [binaryBytes, List.length_append, toLE_length, hm]
    simp only at h2
    omega

theorem charToNum_digit (n : Nat) (h : n < 10) : charToNum (BitVec.ofNat 8 (48 + n)) = n := by
  have : (BitVec.ofNat 8 (48 + n)).toNat = 48 + n := by rw [BitVec.toNat_ofNat]; omega
  unfold charToNum isDigit
  rw [this]
  simp only [Bool.and_eq_true, decide_eq_true_eq]
  rw [if_pos (by omega)]
  omega

theorem decodeHeader_magic (T : FloatText) (version : Byte) (hv : 2 ≤ version.toNat ∧ version.toNat ≤ 5) (rest : List Byte) :
    decodeHeader T (magicBytes version ++ rest) = decodeHeaderBody T version rest := by
  unfold decodeHeader
  have hm : (magicBytes version).length = 12 := by simp [magicBytes, magic]
  rw [if_neg (by rw [List.length_append, hm]; omega)]
  rw [if_neg (by
    rw [List.take_append_of_le_length (by omega)]
    simp [magicBytes, magic])]
  rw [List.drop_append_of_le_length (by omega)]
  have hd : (magicBytes version).drop 10 = [BitVec.ofNat 8 (48 + version.toNat / 10), BitVec.ofNat 8 (48 + version.toNat % 10)] := by
    unfold magicBytes; exact List.drop_left' rfl
  rw [hd]
  simp only [List.cons_append, List.nil_append]
  rw [charToNum_digit _ (by omega), charToNum_digit _ (by omega)]
  rw [if_neg (by omega)]
  congr 1
  rw [show version.toNat / 10 * 10 + version.toNat % 10 = version.toNat by omega]
  simp

end Cloudini
