import Verif.Spec.FormatHeader
import Verif.Props.C90
import Verif.Props.C25_C28

/-!
# C91: the bytes of a header are those of the format
-/

namespace Cloudini.Props

theorem format_digits (n : Nat) : decimal n = Format.digits n := by
  induction n using Nat.strongRecOn with
  | ind n ih =>
    rw [decimal, Format.digits]
    by_cases h : n < 10
    · rw [if_pos h, if_pos h]
    · rw [if_neg h, if_neg h, ih (n / 10) (by omega)]

theorem format_typeWord {t : FieldType} (h : t.Canonical) : t.name = Format.word Format.typeWords (Format.typeNumber t) := by
  cases t with
  | bad c =>
    have hc : 11 ≤ c.toNat := by
      refine Nat.le_of_not_lt fun hlt => ?_
      simp only [FieldType.Canonical, FieldType.code, FieldType.ofCode] at h
      generalize hn : c.toNat = n at h hlt
      have : n = 0 ∨ n = 1 ∨ n = 2 ∨ n = 3 ∨ n = 4 ∨ n = 5 ∨ n = 6 ∨ n = 7 ∨ n = 8 ∨ n = 9 ∨ n = 10 := by omega
      rcases this with rfl | rfl | rfl | rfl | rfl | rfl | rfl | rfl | rfl | rfl | rfl <;> cases h
    unfold Format.word Format.typeNumber
    rw [List.getElem?_eq_none (by exact hc)]
    rfl
  | _ => rfl

theorem format_encWord {o : EncOpt} (h : o.Canonical) : o.name = Format.word Format.encodingWords (Format.encodingNumber o) := by
  cases o with
  | bad c =>
    have hc : 3 ≤ c.toNat := by
      refine Nat.le_of_not_lt fun hlt => ?_
      simp only [EncOpt.Canonical, EncOpt.code, EncOpt.ofCode] at h
      generalize hn : c.toNat = n at h hlt
      have : n = 0 ∨ n = 1 ∨ n = 2 := by omega
      rcases this with rfl | rfl | rfl <;> cases h
    unfold Format.word Format.encodingNumber
    rw [List.getElem?_eq_none (by exact hc)]
    rfl
  | _ => rfl

theorem format_compWord {o : CompOpt} (h : o.Canonical) : o.name = Format.word Format.compressionWords (Format.compressionNumber o) := by
  cases o with
  | bad c =>
    have hc : 3 ≤ c.toNat := by
      refine Nat.le_of_not_lt fun hlt => ?_
      simp only [CompOpt.Canonical, CompOpt.code, CompOpt.ofCode] at h
      generalize hn : c.toNat = n at h hlt
      have : n = 0 ∨ n = 1 ∨ n = 2 := by omega
      rcases this with rfl | rfl | rfl <;> cases h
    unfold Format.word Format.compressionNumber
    rw [List.getElem?_eq_none (by exact hc)]
    rfl
  | _ => rfl

theorem format_signature (v : Byte) : magicBytes v = Format.signature v := by
  unfold magicBytes Format.signature
  rw [show magic = [0x43#8, 0x4C#8, 0x4F#8, 0x55#8, 0x44#8, 0x49#8, 0x4E#8, 0x49#8, 0x5F#8, 0x56#8] by decide]
  rfl

theorem format_typeCode (t : FieldType) : toLE 1 t.code.toNat = [BitVec.ofNat 8 (Format.typeNumber t)] := by
  cases t with
  | bad c => simp [FieldType.code, Format.typeNumber, toLE]
  | _ => decide
theorem format_encCode (t : EncOpt) : toLE 1 t.code.toNat = [BitVec.ofNat 8 (Format.encodingNumber t)] := by
  cases t with
  | bad c => simp [EncOpt.code, Format.encodingNumber, toLE]
  | _ => decide
theorem format_compCode (t : CompOpt) : toLE 1 t.code.toNat = [BitVec.ofNat 8 (Format.compressionNumber t)] := by
  cases t with
  | bad c => simp [CompOpt.code, Format.compressionNumber, toLE]
  | _ => decide

/-- **C91, binary.** Up to 65535 fields with names of up to 65535 bytes: a binary header is what the format says, to the byte. -/
theorem C91_binary (info : EncodingInfo) (hn : info.fields.length < 65536) (hnames : ∀ f ∈ info.fields, f.name.length < 65536) :
    encodeHeaderBinary info = .ok (Format.binaryHeader info) := by
  obtain ⟨r, h1, h2⟩ := encodeHeaderBinary_ok info
  have h3 := binaryBytes_length info
  have hz : nameOverhang info = 0 := by
    unfold nameOverhang
    have : ∀ fs : List PointField, (∀ f ∈ fs, f.name.length < 65536) → (fs.map fun f => f.name.length - f.name.length % 65536).sum = 0 := by
      intro fs
      induction fs with
      | nil => intro _; rfl
      | cons f fs ih =>
        intro h
        simp only [List.map_cons, List.sum_cons]
        rw [ih fun x hx => h x (by simp [hx]), Nat.mod_eq_of_lt (h f (by simp))]
        omega
    exact this _ hnames
  obtain rfl : r = 0 := by omega
  rw [h1, List.replicate_zero, List.append_nil]
  congr 1
  unfold binaryBytes Format.binaryHeader
  rw [format_signature, format_encCode, format_compCode, Nat.mod_eq_of_lt hn, format_le, format_le, format_le, format_le, List.flatMap_def]
  have hf : info.fields.map fieldBinary = info.fields.map Format.binaryField := by
    apply List.map_congr_left
    intro f hf
    unfold fieldBinary Format.binaryField
    rw [Nat.mod_eq_of_lt (hnames f hf), List.take_length, format_typeCode, format_le, format_le, format_le]
    cases f.resolution <;> rfl
  rw [hf]
  simp only [List.append_assoc, List.cons_append, List.nil_append]

/-- **C91, text.** A text header is what the format says, to the byte, for every description. -/
theorem C91_text (T : FloatText) (info : EncodingInfo) (hc : CanonicalInfo info) : encodeHeaderYaml T info = Format.textHeader T info := by
  unfold encodeHeaderYaml infoToYaml Format.textHeader Format.line
  have hf : info.fields.map (fieldYaml T) = info.fields.map (Format.textField T) := by
    apply List.map_congr_left
    intro f hf
    unfold fieldYaml Format.textField Format.line
    rw [format_digits, format_typeWord (hc.types f hf), show ascii "\n" = [10#8] from rfl, show ascii "    resolution: null\n" = ascii "    resolution: " ++ ascii "null" ++ [10#8] by decide]
    cases f.resolution <;> simp [List.append_assoc]
  rw [format_signature, hf, format_digits, format_digits, format_digits, format_digits, format_encWord hc.enc, format_compWord hc.comp,
    show ascii "\n" = [10#8] from rfl, show ascii "fields:\n" = ascii "fields:" ++ [10#8] by decide, List.flatMap_def]
  by_cases h : info.encoding_config = []
  · simp [h, List.append_assoc]
  · simp [h, List.append_assoc]

/-- **C91, whole files.** An encoder whose header is the text header of its description writes files that are, from the first byte to the last,
what the format says: both for the call with a buffer and for the one with a vector. -/
theorem C91_file (T : FloatText) (F : FloatOps) (C : Compressor) (info : EncodingInfo) (hc : CanonicalInfo info) (enc enc' : Encoder) (hinfo : ValidInfo F info)
    (hreach : Reach F C info (encodeHeaderYaml T info) enc) (n : Nat) (cloud : List Byte) (hcloud : CloudOf F info n cloud) (h64 : FieldLimit info)
    (out : List Byte) (size : Nat)
    (h : (∃ room, encodeView F C enc cloud room true = .ok (enc', out, size)) ∨ ∃ estimate, encodeVector F C enc estimate cloud = .ok (enc', out, size)) :
    ∃ payload, out = Format.textHeader T info ++ payload ∧ Format.Encoded F C info cloud n payload := by
  rw [← C91_text T info hc]
  rcases h with ⟨room, h⟩ | ⟨estimate, h⟩
  · exact C90_bytes F C info _ enc enc' hinfo hreach n cloud hcloud h64 room true out size h
  · exact C90_bytes_vector F C info _ enc enc' hinfo hreach n cloud hcloud h64 estimate out size h

example : CanonicalInfo mixInfo := ⟨rfl, rfl, by simp [mixInfo, FieldType.Canonical, FieldType.ofCode, FieldType.code]⟩
example : encodeHeaderBinary mixInfo = .ok (Format.binaryHeader mixInfo) := C91_binary mixInfo (by decide) (by decide)

/-- A description of one field, spelled out. -/
example : Format.binaryHeader indexInfo = ascii "CLOUDINI_V05" ++ [5#8, 0#8, 0#8, 0#8, 1#8, 0#8, 0#8, 0#8, 4#8, 0#8, 0#8, 0#8, 1#8, 0#8, 1#8, 0#8,
    1#8, 0#8, 0x69#8, 0#8, 0#8, 0#8, 0#8, 6#8, 0#8, 0#8, 0x80#8, 0xBF#8] := by decide
example : Format.textHeader bitsText indexInfo = ascii "CLOUDINI_V05\nversion: 5\nwidth: 5\nheight: 1\npoint_step: 4\nencoding_opt: LOSSY\ncompression_opt: NONE\nfields:\n  - name: i\n    offset: 0\n    type: UINT32\n    resolution: null\n" ++ [0#8] := by
  decide +kernel

/-- Files of an encoder exist. -/
example (T : FloatText) (F : FloatOps) : ∃ enc, Reach F storeComp indexInfo (encodeHeaderYaml T indexInfo) enc := by
  obtain ⟨enc, h⟩ : ∃ enc, mkEncoder F indexInfo (encodeHeaderYaml T indexInfo) = .ok enc := ⟨_, rfl⟩
  exact ⟨enc, .fresh enc h⟩

end Cloudini.Props
