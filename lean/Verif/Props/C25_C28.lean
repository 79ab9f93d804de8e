import Verif.Lemmas.Header
import Verif.Lemmas.HeaderSafe
import Verif.Lemmas.YamlTrip
import Verif.Lemmas.Text
import Verif.Props.C21_C22

/-!
# C25–C28, C43: headers
-/

namespace Cloudini.Props

/-! ## C25 -/

/-- What a binary header can carry of an info: the configuration text and resolutions that are not positive are dropped, names
are cut to their length modulo 65536. -/
def binaryImage (info : EncodingInfo) : EncodingInfo :=
  { info with
    encoding_config := []
    fields := info.fields.map fun f => { f with name := f.name.take (f.name.length % 65536), resolution := f.resolution.filter resPositive } }

/-- The bytes of names that do not fit are replaced by zeros behind the header. -/
def nameOverhang (info : EncodingInfo) : Nat := (info.fields.map fun f => f.name.length - f.name.length % 65536).sum

theorem binaryBytes_length (info : EncodingInfo) : (binaryBytes info).length + nameOverhang info = computeHeaderSize info.fields := by
  unfold binaryBytes nameOverhang computeHeaderSize
  simp only [List.length_append, toLE_length]
  have hm : (magicBytes info.version).length = 12 := by simp [magicBytes, magic]
  rw [hm]
  have : ∀ fs : List PointField, ((fs.map fieldBinary).flatten).length + (fs.map fun f => f.name.length - f.name.length % 65536).sum =
      (fs.map fun f => f.name.length + 2 + 4 + 1 + 4).sum := by
    intro fs
    induction fs with
    | nil => rfl
    | cons f fs ih =>
      simp only [List.map_cons, List.flatten_cons, List.length_append, List.sum_cons, fieldBinary_length]
      have := Nat.mod_le f.name.length 65536
      omega
  have := this info.fields
  omega

/-- **C25, exactly.** For every info of a supported version with fewer than 65536 fields whose width does not look like a
newline: decoding the binary header gives `binaryImage info`, and leaves the payload, preceded by zeros if a name was too long. -/
theorem C25_binary_exact (T : FloatText) (info : EncodingInfo) (hc : CanonicalInfo info)
    (hv : 2 ≤ info.version.toNat ∧ info.version.toNat ≤ 5) (hn : info.fields.length < 65536)
    (hw : ¬ (info.width.toNat % 256 = 10 ∧ info.width.toNat / 256 % 256 ≠ 0x7B)) :
    ∃ bs, encodeHeaderBinary info = .ok bs ∧ bs.length = computeHeaderSize info.fields ∧
      ∀ payload, decodeHeader T (bs ++ payload) = .ok (binaryImage info, List.replicate (nameOverhang info) 0#8 ++ payload) := by
  obtain ⟨r, h1, h2⟩ := encodeHeaderBinary_ok info
  have h3 := binaryBytes_length info
  obtain rfl : r = nameOverhang info := by omega
  refine ⟨_, h1, by rw [List.length_append, List.length_replicate]; exact h2, fun payload => ?_⟩
  rw [binaryBytes]
  simp only [List.append_assoc]
  rw [decodeHeader_magic T _ hv]
  have hbody : ∀ rest, decodeHeaderBody T info.version (toLE 4 info.width.toNat ++ rest) = decodeHeaderBinary info.version (toLE 4 info.width.toNat ++ rest) := by
    intro rest
    unfold decodeHeaderBody
    simp only [toLE, List.cons_append]
    rw [if_neg]
    rintro ⟨ha, hb⟩
    apply hw
    constructor
    · have := congrArg BitVec.toNat ha; simpa using this
    · intro h; apply hb; apply BitVec.eq_of_toNat_eq; simpa using h
  rw [hbody]
  unfold decodeHeaderBinary
  rw [decodeInt_toLE 4 _ (by have := info.width.isLt; omega)]
  simp only [Res.ok_bind]
  rw [decodeInt_toLE 4 _ (by have := info.height.isLt; omega)]
  simp only [Res.ok_bind]
  rw [decodeInt_toLE 4 _ (by have := info.point_step.isLt; omega)]
  simp only [Res.ok_bind]
  rw [decodeInt_toLE 1 _ (by have := info.encoding_opt.code.isLt; omega)]
  simp only [Res.ok_bind]
  rw [decodeInt_toLE 1 _ (by have := info.compression_opt.code.isLt; omega)]
  simp only [Res.ok_bind]
  rw [decodeInt_toLE 2 _ (by have := Nat.mod_lt info.fields.length (show 65536 > 0 by decide); omega), Nat.mod_eq_of_lt hn]
  simp only [Res.ok_bind]
  rw [decodeFieldsBinary_ok _ _ hc.types]
  simp only [Res.ok_bind, BitVec.ofNat_toNat, BitVec.setWidth_eq, hc.enc.symm.symm, hc.comp.symm.symm]
  rfl

/-- **C25 (partial).** Infos without configuration text, with names below 65536 bytes and positive resolutions come back
unchanged.  Missing: the infos of the counterexamples below. -/
theorem C25_binary_roundtrip_partial (T : FloatText) (info : EncodingInfo) (hc : CanonicalInfo info)
    (hv : 2 ≤ info.version.toNat ∧ info.version.toNat ≤ 5) (hn : info.fields.length < 65536)
    (hw : ¬ (info.width.toNat % 256 = 10 ∧ info.width.toNat / 256 % 256 ≠ 0x7B))
    (hcfg : info.encoding_config = []) (hnames : ∀ f ∈ info.fields, f.name.length < 65536)
    (hres : ∀ f ∈ info.fields, ∀ r, f.resolution = some r → 0 < r.toNat ∧ r.toNat ≤ 0x7F800000) :
    ∃ bs, encodeHeaderBinary info = .ok bs ∧ ∀ payload, decodeHeader T (bs ++ payload) = .ok (info, payload) := by
  obtain ⟨bs, h1, _, h2⟩ := C25_binary_exact T info hc hv hn hw
  refine ⟨bs, h1, fun payload => ?_⟩
  rw [h2]
  have e1 : nameOverhang info = 0 := by
    unfold nameOverhang
    have : ∀ fs : List PointField, (∀ f ∈ fs, f.name.length < 65536) → (fs.map fun f => f.name.length - f.name.length % 65536).sum = 0 := by
      intro fs
      induction fs with
      | nil => intro _; rfl
      | cons f fs ih =>
        intro h
        simp only [List.map_cons, List.sum_cons]
        rw [ih fun f hf => h f (by simp [hf]), Nat.mod_eq_of_lt (h f (by simp))]
        omega
    exact this _ hnames
  have e2 : binaryImage info = info := by
    unfold binaryImage
    rw [← hcfg]
    congr 1
    conv => rhs; rw [← List.map_id info.fields]
    apply List.map_congr_left
    intro f hf
    rw [Nat.mod_eq_of_lt (hnames f hf), List.take_length]
    have : f.resolution.filter resPositive = f.resolution := by
      cases hr : f.resolution with
      | none => rfl
      | some r =>
        have := hres f hf r hr
        simp [Option.filter, resPositive, this]
    rw [this]
    rfl
  rw [e1, e2]
  rfl

/-- The mixed cloud description of `Verif.Props.Witness` meets the hypotheses. -/
example : CanonicalInfo mixInfo ∧ (2 ≤ mixInfo.version.toNat ∧ mixInfo.version.toNat ≤ 5) ∧ mixInfo.fields.length < 65536 ∧
    ¬ (mixInfo.width.toNat % 256 = 10 ∧ mixInfo.width.toNat / 256 % 256 ≠ 0x7B) ∧ mixInfo.encoding_config = [] ∧
    (∀ f ∈ mixInfo.fields, f.name.length < 65536) ∧
    (∀ f ∈ mixInfo.fields, ∀ r, f.resolution = some r → 0 < r.toNat ∧ r.toNat ≤ 0x7F800000) := by
  refine ⟨⟨rfl, rfl, ?_⟩, by decide, by decide, by decide, rfl, by decide, ?_⟩
  · simp [mixInfo, FieldType.Canonical, FieldType.ofCode, FieldType.code]
  · simp only [mixInfo, List.mem_cons, List.not_mem_nil, or_false]
    rintro f (rfl | rfl | rfl | rfl | rfl | rfl | rfl) r hr <;> simp_all <;> (subst hr; decide)

/-- **C25 is false for clouds of width 10**: whatever the rest of the info and the payload, the header is taken for YAML and
rejected. -/
theorem C25_width_10_rejected (T : FloatText) (info : EncodingInfo) (hv : 2 ≤ info.version.toNat ∧ info.version.toNat ≤ 5) (hw : info.width = 10#32) :
    ∃ bs, encodeHeaderBinary info = .ok bs ∧ ∀ payload, (decodeHeader T (bs ++ payload)).isThrow = true := by
  obtain ⟨r, h1, _⟩ := encodeHeaderBinary_ok info
  refine ⟨_, h1, fun payload => ?_⟩
  rw [binaryBytes]
  simp only [List.append_assoc]
  rw [decodeHeader_magic T _ hv, hw]
  rw [show (10#32).toNat = 10 from rfl, show toLE 4 10 = [10#8, 0#8, 0#8, 0#8] from rfl]
  unfold decodeHeaderBody
  simp only [List.cons_append]
  rw [if_pos (by decide)]
  unfold decodeHeaderYaml
  rw [if_neg (by simp)]
  rw [show List.takeWhile (fun x => decide (x ≠ 0#8)) (0#8 :: 0#8 :: 0#8 :: _) = [] from rfl]
  rfl

/-- Binary headers lose a zero resolution and the configuration text. -/
theorem C25_lossy_fields (T : FloatText) : ∃ info : EncodingInfo, CanonicalInfo info ∧ (2 ≤ info.version.toNat ∧ info.version.toNat ≤ 5) ∧
    ∃ bs, encodeHeaderBinary info = .ok bs ∧ ∀ payload, ∃ info', decodeHeader T (bs ++ payload) = .ok (info', payload) ∧
      info'.encoding_config ≠ info.encoding_config ∧ info'.fields ≠ info.fields := by
  refine ⟨{ fields := [{ name := [0x78#8], type := .float32, resolution := some 0#32 }], encoding_config := [0x61#8], point_step := 4#32 },
    ⟨rfl, rfl, by simp [FieldType.Canonical, FieldType.ofCode, FieldType.code]⟩, by decide, ?_⟩
  obtain ⟨bs, h1, _, h2⟩ := C25_binary_exact T { fields := [{ name := [0x78#8], type := .float32, resolution := some 0#32 }], encoding_config := [0x61#8], point_step := 4#32 }
    ⟨rfl, rfl, by simp [FieldType.Canonical, FieldType.ofCode, FieldType.code]⟩ (by decide) (by decide) (by decide)
  exact ⟨bs, h1, fun payload => ⟨_, h2 payload, by decide, by decide⟩⟩

/-! ## C26 -/

theorem floatText_plain {T : FloatText} (hT : T.Lawful) (r : BitVec 32) : HeaderText (T.print r) ∧ T.print r ≠ ascii "null" := by
  have hch : ∀ c ∈ T.print r, isSpace c = false ∧ c ≠ 0x0A#8 ∧ c ≠ 0x23#8 ∧ c ≠ 0#8 ∧ c ≠ 0x75#8 := by
    intro c hc
    rcases hT.chars r c hc with h | h
    · have := digit_facts h
      refine ⟨this.1, this.2.1, this.2.2.1, this.2.2.2.2.2, ?_⟩
      rintro rfl
      exact absurd h (by decide)
    · simp only [ascii] at h
      revert h
      simp only [String.toList]
      intro h
      have : c ∈ [0x2B#8, 0x2D#8, 0x2E#8, 0x65#8, 0x69#8, 0x6E#8, 0x66#8, 0x61#8] := h
      simp only [List.mem_cons, List.not_mem_nil, or_false] at this
      rcases this with rfl | rfl | rfl | rfl | rfl | rfl | rfl | rfl <;> decide
  refine ⟨⟨⟨hT.nonempty r, fun h => (hch _ h).2.1 rfl, fun h => (hch _ h).2.2.1 rfl, fun c h => (hch c (List.mem_of_head? h)).1,
    fun c h => (hch c (List.mem_of_getLast? h)).1⟩, fun h => (hch _ h).2.2.2.1 rfl⟩, ?_⟩
  intro h
  have := hch 0x75#8 (by rw [h]; decide)
  exact this.2.2.2.2 rfl

theorem keyLine_nul {k v : List Byte} (hk : 0#8 ∉ k) (hv : 0#8 ∉ v) : 0#8 ∉ keyLine (k, v) := by
  unfold keyLine; simp [hk, hv]

theorem infoToYaml_nul {T : FloatText} (hT : T.Lawful) {info : EncodingInfo} (hcfg : info.encoding_config = [] ∨ HeaderText info.encoding_config)
    (hnames : ∀ f ∈ info.fields, HeaderText f.name) : 0#8 ∉ infoToYaml T info := by
  have hd : ∀ n, 0#8 ∉ decimal n := fun n h => (digit_facts (decimal_digits n _ h)).2.2.2.2.2 rfl
  have hr : ∀ f : PointField, 0#8 ∉ resText T f := by
    intro f
    unfold resText
    cases f.resolution with
    | none => show 0#8 ∉ ascii "null"; decide
    | some r => exact (floatText_plain hT r).1.nul
  have ht : ∀ t : FieldType, 0#8 ∉ t.name := by intro t; cases t <;> first | decide | (show 0#8 ∉ ascii "UNKNOWN"; decide)
  have he : ∀ t : EncOpt, 0#8 ∉ t.name := by intro t; cases t <;> first | decide | (show 0#8 ∉ ascii "UNKNOWN"; decide)
  have hc : ∀ t : CompOpt, 0#8 ∉ t.name := by intro t; cases t <;> first | decide | (show 0#8 ∉ ascii "UNKNOWN"; decide)
  rw [infoToYaml_lines]
  intro h
  simp only [List.mem_flatten, List.mem_map] at h
  obtain ⟨l, ⟨l', hl', rfl⟩, hz⟩ := h
  simp only [List.mem_append, List.mem_singleton] at hz
  rcases hz with hz | hz
  · revert hz
    unfold infoLines headLines at hl'
    simp only [List.mem_append, List.mem_map, List.mem_cons, List.not_mem_nil, or_false, List.mem_flatten] at hl'
    rcases hl' with ⟨kv, hkv | hkv, rfl⟩ | rfl | ⟨ls, ⟨f, hf, rfl⟩, hl⟩
    · rcases hkv with rfl | rfl | rfl | rfl | rfl | rfl
      · exact keyLine_nul (k := ascii "version") (by decide) (hd _)
      · exact keyLine_nul (k := ascii "width") (by decide) (hd _)
      · exact keyLine_nul (k := ascii "height") (by decide) (hd _)
      · exact keyLine_nul (k := ascii "point_step") (by decide) (hd _)
      · exact keyLine_nul (k := ascii "encoding_opt") (by decide) (he _)
      · exact keyLine_nul (k := ascii "compression_opt") (by decide) (hc _)
    · split at hkv
      · next hne =>
        simp only [List.mem_singleton] at hkv
        subst hkv
        exact keyLine_nul (k := ascii "encoding_config") (by decide) (hcfg.resolve_left hne).nul
      · simp at hkv
    · decide
    · have e1 := keyLine_nul (k := ascii "name") (by decide) (hnames f hf).nul
      have e2 := keyLine_nul (k := ascii "offset") (by decide) (hd f.offset.toNat)
      have e3 := keyLine_nul (k := ascii "type") (by decide) (ht f.type)
      have e4 := keyLine_nul (k := ascii "resolution") (by decide) (hr f)
      simp only [fieldLines, List.mem_cons, List.not_mem_nil, or_false] at hl
      simp only [keyLine] at e1 e2 e3 e4
      rcases hl with rfl | rfl | rfl | rfl <;>
        simp only [List.mem_append, List.mem_replicate, List.mem_cons] at e1 e2 e3 e4 ⊢ <;> simp_all
  · exact absurd hz (by decide)

theorem takeWhile_stop {s rest : List Byte} (h : 0#8 ∉ s) : (s ++ 0#8 :: rest).takeWhile (fun x => decide (x ≠ 0#8)) = s := by
  induction s with
  | nil => rfl
  | cons c cs ih =>
    simp only [List.mem_cons, not_or] at h
    rw [List.cons_append, List.takeWhile_cons_of_pos (by simpa using Ne.symm h.1), ih h.2]

theorem infoToYaml_start (T : FloatText) (info : EncodingInfo) : ∃ t, infoToYaml T info = 0x76#8 :: t := by
  unfold infoToYaml
  simp only [List.append_assoc]
  rw [show ascii "version: " = 0x76#8 :: ascii "ersion: " by decide]
  exact ⟨_, List.cons_append⟩

/-- **C26 (partial).** For every info of a supported version with named options and field types, names (and configuration text, if
any) that are plain text, followed by any payload: decoding the YAML header gives the same info and exactly the payload.  The
resolution is whatever the library's `stof` makes of the text `operator<<` printed for it (`r'`).  Missing: fields of type UNKNOWN and
resolutions that `stof` rejects (counterexamples below). -/
theorem C26_yaml_roundtrip_partial (T : FloatText) (hT : T.Lawful) (info : EncodingInfo)
    (hv : 2 ≤ info.version.toNat ∧ info.version.toNat ≤ 5)
    (he : info.encoding_opt = .none ∨ info.encoding_opt = .lossy ∨ info.encoding_opt = .lossless)
    (hc : info.compression_opt = .none ∨ info.compression_opt = .lz4 ∨ info.compression_opt = .zstd)
    (ht : ∀ f ∈ info.fields, f.type ∈ [.int8, .uint8, .int16, .uint16, .int32, .uint32, .float32, .float64, .int64, .uint64])
    (hcfg : info.encoding_config = [] ∨ HeaderText info.encoding_config) (hnames : ∀ f ∈ info.fields, HeaderText f.name)
    (r' : BitVec 32 → BitVec 32) (hr : ∀ f ∈ info.fields, ∀ r, f.resolution = some r → T.parse (T.print r) = .ok (r' r))
    (payload : List Byte) :
    decodeHeader T (encodeHeaderYaml T info ++ payload) =
      .ok ({ info with fields := info.fields.map fun f => { f with resolution := f.resolution.map r' } }, payload) := by
  have hplain : PlainInfo T info := ⟨hcfg.imp_right fun h => h.toPlainText, fun f hf => (hnames f hf).toPlainText,
    fun f _ r _ => (floatText_plain hT r).1.toPlainText⟩
  obtain ⟨v, hy⟩ := infoFromYaml_ok (T := T) hplain (fun f hf => by
      have := ht f hf
      refine ⟨?_, fun c => ?_⟩ <;> intro h <;> rw [h] at this <;> simp at this)
    (fun c h => by rw [h] at he; simp at he) (fun c h => by rw [h] at hc; simp at hc) r'
    (fun f hf r hres => ⟨(floatText_plain hT r).2, hr f hf r hres⟩)
  have hnul := infoToYaml_nul hT hcfg hnames
  unfold encodeHeaderYaml
  simp only [List.append_assoc]
  rw [decodeHeader_magic T _ hv]
  obtain ⟨t, hst⟩ := infoToYaml_start T info
  generalize infoToYaml T info = y at *
  subst hst
  unfold decodeHeaderBody
  simp only [List.cons_append, List.nil_append]
  rw [if_pos ⟨trivial, by decide⟩]
  unfold decodeHeaderYaml
  rw [if_neg (by simp), ← List.cons_append, takeWhile_stop hnul, hy]
  simp only [Res.ok_bind, List.length_cons, List.cons_append, List.drop_succ_cons]
  rw [List.drop_append]
  simp

/-- A float printer for examples: the bit pattern in decimal. -/
def bitsText : FloatText := ⟨fun r => decimal r.toNat, extractU32⟩

theorem bitsText_lawful : bitsText.Lawful where
  nonempty := fun r => decimal_ne _
  chars := fun r c h => Or.inl (decimal_digits _ c h)
  parse_ub := fun s k h => by have := extractU32_noUB s; rw [show extractU32 s = .ub k from h] at this; simp at this

theorem plain_char (c : Byte) (h : isSpace c = false ∧ c ≠ 0x0A#8 ∧ c ≠ 0x23#8 ∧ c ≠ 0#8) : HeaderText [c] where
  nonempty := by simp
  newline := by simpa using Ne.symm h.2.1
  comment := by simpa using Ne.symm h.2.2.1
  first := by rintro d hd; simp at hd; subst hd; exact h.1
  last := by rintro d hd; simp at hd; subst hd; exact h.1
  nul := by simpa using Ne.symm h.2.2.2

/-- The mixed cloud description comes back unchanged from its YAML header. -/
example (payload : List Byte) : decodeHeader bitsText (encodeHeaderYaml bitsText mixInfo ++ payload) = .ok (mixInfo, payload) := by
  refine C26_yaml_roundtrip_partial bitsText bitsText_lawful mixInfo (by decide) (by decide) (by decide) (by decide) (Or.inl rfl) ?_ id
    (fun f _ r _ => extractU32_decimal r) payload
  simp only [mixInfo, List.mem_cons, List.not_mem_nil, or_false]
  rintro f (rfl | rfl | rfl | rfl | rfl | rfl | rfl) <;> exact plain_char _ (by decide)

/-- **C26 is false for fields of type UNKNOWN**: the header cannot be decoded. -/
theorem C26_unknown_type_rejected :
    (decodeHeader bitsText (encodeHeaderYaml bitsText { fields := [{ name := [0x78#8] }] })).isThrow = true := by decide +kernel

/-- Without the restriction to plain names, a name containing '#' is cut there: a field "a#b" comes back as "a". -/
theorem C26_hash_in_name :
    decodeHeader bitsText (encodeHeaderYaml bitsText { fields := [{ name := ascii "a#b", type := .uint8 }], point_step := 1#32 }) =
      .ok ({ fields := [{ name := ascii "a", type := .uint8 }], point_step := 1#32 }, []) := by decide +kernel

/-- A name with a newline makes the header unreadable, a name with a space at its end loses it, an empty name is rejected. -/
theorem C26_odd_names :
    (decodeHeader bitsText (encodeHeaderYaml bitsText { fields := [{ name := ascii "a\nb", type := .uint8 }] })).isThrow = true ∧
    decodeHeader bitsText (encodeHeaderYaml bitsText { fields := [{ name := ascii "a ", type := .uint8 }] }) =
      .ok ({ fields := [{ name := ascii "a", type := .uint8 }] }, []) ∧
    (decodeHeader bitsText (encodeHeaderYaml bitsText { fields := [{ name := [], type := .uint8 }] })).isThrow = true := by
  refine ⟨?_, ?_, ?_⟩ <;> decide +kernel

/-! ## C27 -/

/-- The value of a version character: a digit's value, 0 for anything else. -/
def versionDigit (c : Byte) : Nat := if 0x30 ≤ c.toNat ∧ c.toNat ≤ 0x39 then c.toNat - 0x30 else 0

theorem charToNum_eq (c : Byte) : charToNum c = versionDigit c := by
  unfold charToNum versionDigit isDigit
  simp only [Bool.and_eq_true, decide_eq_true_eq]

/-- **C27 (partial), acceptance.** Whatever the input: if `DecodeHeader` returns, the input is the magic text, two version characters and
more; the version they spell is 2, 3, 4 or 5 and is the one reported; and what it leaves is the end of the input.  Missing: that the
two characters are digits (`C27_nondigit_accepted`: other characters count as 0). -/
theorem C27_accepted_partial (T : FloatText) (input rest : List Byte) (info : EncodingInfo) (h : decodeHeader T input = .ok (info, rest)) :
    ∃ a b body, input = ascii "CLOUDINI_V" ++ a :: b :: (body ++ rest) ∧
      info.version.toNat = 10 * versionDigit a + versionDigit b ∧ 2 ≤ info.version.toNat ∧ info.version.toNat ≤ 5 := by
  unfold decodeHeader at h
  split at h
  · simp at h
  split at h
  · simp at h
  next hl hm =>
  simp only [ne_eq, Classical.not_not] at hm
  split at h
  · next a b t hd =>
    simp only at h
    split at h
    · simp at h
    next hver =>
    obtain ⟨⟨body, hb⟩, hv⟩ := decodeHeaderBody_suffix h
    refine ⟨a, b, body, ?_, ?_⟩
    · rw [← List.take_append_drop 10 input, hm, hd, hb]
      rfl
    · rw [hv, BitVec.toNat_ofNat, ← charToNum_eq, ← charToNum_eq]
      omega
  · simp at h

/-- **C27, rejection.** Inputs that are too short, have another magic text or another version throw. -/
theorem C27_rejected (T : FloatText) (input : List Byte)
    (h : ¬ ∃ a b body, input = ascii "CLOUDINI_V" ++ a :: b :: body ∧ 2 ≤ 10 * versionDigit a + versionDigit b ∧ 10 * versionDigit a + versionDigit b ≤ 5) :
    (decodeHeader T input).isThrow = true := by
  unfold decodeHeader
  split
  · rfl
  next hl =>
  split
  · rfl
  next hm =>
  simp only [ne_eq, Classical.not_not] at hm
  have hd : (input.drop 10).length = input.length - 10 := List.length_drop
  match hdr : input.drop 10 with
  | [] => rw [hdr] at hd; simp at hd; omega
  | [_] => rw [hdr] at hd; simp at hd; omega
  | a :: b :: t =>
    simp only
    split
    · rfl
    next hver =>
    refine absurd ⟨a, b, t, ?_, ?_⟩ h
    · rw [← List.take_append_drop 10 input, hm, hdr]; rfl
    · rw [← charToNum_eq, ← charToNum_eq]; omega

/-- `DecodeHeader` is safe on every input: it returns or throws, and its reads stay inside the input. -/
theorem C27_no_ub (T : FloatText) (hT : T.Lawful) (input : List Byte) (k : UB) : decodeHeader T input ≠ .ub k := by
  have := decodeHeader_noUB hT input
  intro h
  rw [h] at this
  simp at this

/-- **C27 is false of the letter**: "CLOUDINI_VX5" followed by a binary header is accepted as version 5. -/
theorem C27_nondigit_accepted :
    (decodeHeader bitsText (ascii "CLOUDINI_VX5" ++ List.replicate 16 0#8)).isOk = true := by decide +kernel

example : decodeHeader bitsText (encodeHeaderYaml bitsText mixInfoZ) = .ok (mixInfoZ, []) := by decide +kernel
example : ¬ ∃ a b body, ascii "CLOUDINI_V06....." = ascii "CLOUDINI_V" ++ a :: b :: body ∧
    2 ≤ 10 * versionDigit a + versionDigit b ∧ 10 * versionDigit a + versionDigit b ≤ 5 := by
  rintro ⟨a, b, body, h, h1, h2⟩
  have h' : a = 0x30#8 ∧ b = 0x36#8 := by
    simp [ascii] at h
    exact ⟨h.1.symm, h.2.1.symm⟩
  rw [h'.1, h'.2] at h2
  exact absurd h2 (by decide)

/-! ## C28 -/

/-- The named values. -/
def namedTypes : List FieldType := [.int8, .uint8, .int16, .uint16, .int32, .uint32, .float32, .float64, .int64, .uint64]
def namedEnc : List EncOpt := [.none, .lossy, .lossless]
def namedComp : List CompOpt := [.none, .lz4, .zstd]

/-- **C28 (partial), round trip.** Every value with a name of its own is read back from it.  `FieldType::UNKNOWN` also has a name, "UNKNOWN", and
is not (`C28_unknown_rejected`). -/
theorem C28_roundtrip_partial :
    (∀ t ∈ namedTypes, fieldTypeFromString t.name = .ok t) ∧ (∀ o ∈ namedEnc, encOptFromString o.name = .ok o) ∧
    (∀ o ∈ namedComp, compOptFromString o.name = .ok o) := by
  refine ⟨?_, ?_, ?_⟩ <;> decide

/-- **C28, distinct names.** -/
theorem C28_names_distinct :
    (∀ t ∈ FieldType.unknown :: namedTypes, ∀ t' ∈ FieldType.unknown :: namedTypes, t.name = t'.name → t = t') ∧
    (∀ o ∈ namedEnc, ∀ o' ∈ namedEnc, o.name = o'.name → o = o') ∧
    (∀ o ∈ namedComp, ∀ o' ∈ namedComp, o.name = o'.name → o = o') := by
  refine ⟨?_, ?_, ?_⟩ <;> decide

theorem C28_unknown_rejected : (fieldTypeFromString FieldType.unknown.name).isThrow = true := by decide

theorem types_iff (s : List Byte) (t : FieldType) : fieldTypeFromString s = .ok t ↔
    (t ∈ namedTypes ∧ s = t.name) ∨ (∃ n : Nat, StartsWithInt s n ∧ (FieldType.unknown :: namedTypes)[n]? = some t) := by
  constructor
  · intro h
    unfold fieldTypeFromString at h
    repeat' split at h
    all_goals first
      | (simp only [Res.ok.injEq] at h; subst h; left; exact ⟨by decide, by assumption⟩)
      | skip
    rw [Res.bind_eq_ok] at h
    obtain ⟨v, hv, h⟩ := h
    split at h
    · next hr =>
      simp only [Res.ok.injEq] at h
      right
      have hs := ((stoi_iff _ _).1 hv).1
      have : ∀ n : Nat, n ≤ 10 → (FieldType.unknown :: namedTypes)[n]? = some (FieldType.ofCode (BitVec.ofNat 8 n)) := by decide
      refine ⟨v.toNat, ?_, by rw [← h]; exact this v.toNat (by omega)⟩
      rw [show ((v.toNat : Nat) : Int) = v by omega]; exact hs
    · simp at h
  · rintro (⟨h, rfl⟩ | ⟨n, h1, h2⟩)
    · revert t; decide
    · have hn : ∀ t ∈ namedTypes, s ≠ t.name := by
        rintro t' ht rfl
        have : ∀ t ∈ namedTypes, (stoi t.name).isThrow = true := by decide
        have := this t' ht
        have hl := (List.getElem?_eq_some_iff.1 h2).1
        have hl' : n < 11 := Nat.lt_of_lt_of_le hl (by decide)
        rw [(stoi_iff _ _).2 ⟨h1, by omega, by omega⟩] at this
        simp at this
      have hb : n ≤ 10 := by
        have := (List.getElem?_eq_some_iff.1 h2).1
        exact Nat.le_of_lt_succ this
      have hb' : FieldType.ofCode (BitVec.ofNat 8 n) = t := by
        have : ∀ n : Nat, n ≤ 10 → (FieldType.unknown :: namedTypes)[n]? = some (FieldType.ofCode (BitVec.ofNat 8 n)) := by decide
        rw [this n hb] at h2
        simpa using h2
      have n_int8 := hn .int8 (by decide)
      have n_uint8 := hn .uint8 (by decide)
      have n_int16 := hn .int16 (by decide)
      have n_uint16 := hn .uint16 (by decide)
      have n_int32 := hn .int32 (by decide)
      have n_uint32 := hn .uint32 (by decide)
      have n_float32 := hn .float32 (by decide)
      have n_float64 := hn .float64 (by decide)
      have n_int64 := hn .int64 (by decide)
      have n_uint64 := hn .uint64 (by decide)
      unfold FieldType.name at n_int8 n_uint8 n_int16 n_uint16 n_int32 n_uint32 n_float32 n_float64 n_int64 n_uint64
      have e := (stoi_iff s _).2 ⟨h1, by omega, by omega⟩
      unfold fieldTypeFromString
      rw [if_neg n_int8, if_neg n_uint8, if_neg n_int16, if_neg n_uint16, if_neg n_int32, if_neg n_uint32, if_neg n_float32, if_neg n_float64, if_neg n_int64, if_neg n_uint64, e, Res.ok_bind, if_pos ⟨by omega, by omega⟩, Int.toNat_natCast, hb']

theorem enc_iff (s : List Byte) (o : EncOpt) : encOptFromString s = .ok o ↔
    (o ∈ namedEnc ∧ s = o.name) ∨ (∃ n : Nat, StartsWithInt s n ∧ namedEnc[n]? = some o) := by
  constructor
  · intro h
    unfold encOptFromString at h
    repeat' split at h
    all_goals first
      | (simp only [Res.ok.injEq] at h; subst h; left; exact ⟨by decide, by assumption⟩)
      | skip
    rw [Res.bind_eq_ok] at h
    obtain ⟨v, hv, h⟩ := h
    split at h
    · next hr =>
      simp only [Res.ok.injEq] at h
      right
      have hs := ((stoi_iff _ _).1 hv).1
      have : ∀ n : Nat, n ≤ 2 → namedEnc[n]? = some (EncOpt.ofCode (BitVec.ofNat 8 n)) := by decide
      refine ⟨v.toNat, ?_, by rw [← h]; exact this v.toNat (by omega)⟩
      rw [show ((v.toNat : Nat) : Int) = v by omega]; exact hs
    · simp at h
  · rintro (⟨h, rfl⟩ | ⟨n, h1, h2⟩)
    · revert o; decide
    · have hn : ∀ t ∈ namedEnc, s ≠ t.name := by
        rintro t' ht rfl
        have : ∀ t ∈ namedEnc, (stoi t.name).isThrow = true := by decide
        have := this t' ht
        have hl := (List.getElem?_eq_some_iff.1 h2).1
        have hl' : n < 11 := Nat.lt_of_lt_of_le hl (by decide)
        rw [(stoi_iff _ _).2 ⟨h1, by omega, by omega⟩] at this
        simp at this
      have hb : n ≤ 2 := by
        have := (List.getElem?_eq_some_iff.1 h2).1
        exact Nat.le_of_lt_succ this
      have hb' : EncOpt.ofCode (BitVec.ofNat 8 n) = o := by
        have : ∀ n : Nat, n ≤ 2 → namedEnc[n]? = some (EncOpt.ofCode (BitVec.ofNat 8 n)) := by decide
        rw [this n hb] at h2
        simpa using h2
      have n_none := hn .none (by decide)
      have n_lossy := hn .lossy (by decide)
      have n_lossless := hn .lossless (by decide)
      unfold EncOpt.name at n_none n_lossy n_lossless
      have e := (stoi_iff s _).2 ⟨h1, by omega, by omega⟩
      unfold encOptFromString
      rw [if_neg n_none, if_neg n_lossy, if_neg n_lossless, e, Res.ok_bind, if_pos ⟨by omega, by omega⟩, Int.toNat_natCast, hb']

theorem comp_iff (s : List Byte) (o : CompOpt) : compOptFromString s = .ok o ↔
    (o ∈ namedComp ∧ s = o.name) ∨ (∃ n : Nat, StartsWithInt s n ∧ namedComp[n]? = some o) := by
  constructor
  · intro h
    unfold compOptFromString at h
    repeat' split at h
    all_goals first
      | (simp only [Res.ok.injEq] at h; subst h; left; exact ⟨by decide, by assumption⟩)
      | skip
    rw [Res.bind_eq_ok] at h
    obtain ⟨v, hv, h⟩ := h
    split at h
    · next hr =>
      simp only [Res.ok.injEq] at h
      right
      have hs := ((stoi_iff _ _).1 hv).1
      have : ∀ n : Nat, n ≤ 2 → namedComp[n]? = some (CompOpt.ofCode (BitVec.ofNat 8 n)) := by decide
      refine ⟨v.toNat, ?_, by rw [← h]; exact this v.toNat (by omega)⟩
      rw [show ((v.toNat : Nat) : Int) = v by omega]; exact hs
    · simp at h
  · rintro (⟨h, rfl⟩ | ⟨n, h1, h2⟩)
    · revert o; decide
    · have hn : ∀ t ∈ namedComp, s ≠ t.name := by
        rintro t' ht rfl
        have : ∀ t ∈ namedComp, (stoi t.name).isThrow = true := by decide
        have := this t' ht
        have hl := (List.getElem?_eq_some_iff.1 h2).1
        have hl' : n < 11 := Nat.lt_of_lt_of_le hl (by decide)
        rw [(stoi_iff _ _).2 ⟨h1, by omega, by omega⟩] at this
        simp at this
      have hb : n ≤ 2 := by
        have := (List.getElem?_eq_some_iff.1 h2).1
        exact Nat.le_of_lt_succ this
      have hb' : CompOpt.ofCode (BitVec.ofNat 8 n) = o := by
        have : ∀ n : Nat, n ≤ 2 → namedComp[n]? = some (CompOpt.ofCode (BitVec.ofNat 8 n)) := by decide
        rw [this n hb] at h2
        simpa using h2
      have n_none := hn .none (by decide)
      have n_lz4 := hn .lz4 (by decide)
      have n_zstd := hn .zstd (by decide)
      unfold CompOpt.name at n_none n_lz4 n_zstd
      have e := (stoi_iff s _).2 ⟨h1, by omega, by omega⟩
      unfold compOptFromString
      rw [if_neg n_none, if_neg n_lz4, if_neg n_zstd, e, Res.ok_bind, if_pos ⟨by omega, by omega⟩, Int.toNat_natCast, hb']

/-- **C28, acceptance and rejection.** A text is read as a value exactly if it is the value's name or starts with a number that is its code (of a type: 0 to 10;
of an option: 0 to 2); every other text throws.  (Text after the number is ignored: `C28_trailing_text`.) -/
theorem C28_rejection (s : List Byte) :
    (∀ t, fieldTypeFromString s = .ok t ↔ (t ∈ namedTypes ∧ s = t.name) ∨ (∃ n : Nat, StartsWithInt s n ∧ (FieldType.unknown :: namedTypes)[n]? = some t)) ∧
    (∀ o, encOptFromString s = .ok o ↔ (o ∈ namedEnc ∧ s = o.name) ∨ (∃ n : Nat, StartsWithInt s n ∧ namedEnc[n]? = some o)) ∧
    (∀ o, compOptFromString s = .ok o ↔ (o ∈ namedComp ∧ s = o.name) ∨ (∃ n : Nat, StartsWithInt s n ∧ namedComp[n]? = some o)) ∧
    (∀ k, fieldTypeFromString s ≠ .ub k) ∧ (∀ k, encOptFromString s ≠ .ub k) ∧ (∀ k, compOptFromString s ≠ .ub k) := by
  refine ⟨types_iff s, enc_iff s, comp_iff s, ?_, ?_, ?_⟩
  · intro k h; have := fieldTypeFromString_noUB s; rw [h] at this; simp at this
  · intro k h; have := encOptFromString_noUB s; rw [h] at this; simp at this
  · intro k h; have := compOptFromString_noUB s; rw [h] at this; simp at this

/-- **C28, numbers.** `std::stoi`, as the model has it: the texts that start with an `int` (in particular not with 2^31), whatever white space is before it. -/
theorem C28_numbers (s : List Byte) (v : Int) : stoi s = .ok v ↔ StartsWithInt s v ∧ -2 ^ 31 ≤ v ∧ v < 2 ^ 31 := stoi_iff s v

example : StartsWithInt (ascii "\r\t -2147483649,") (-2147483649) := ⟨ascii "\r\t ", ascii "-", ascii "2147483649", ascii ",", by decide, by decide, by decide, by decide,
  by decide, by decide, by decide⟩

/-- Text after a number is ignored. -/
theorem C28_trailing_text : encOptFromString (ascii "1 apple") = .ok .lossy ∧ compOptFromString (ascii " +2ZSTD") = .ok .zstd := by decide

example : fieldTypeFromString (ascii "FLOAT32") = .ok .float32 ∧ fieldTypeFromString (ascii "7") = .ok .float32 ∧
    (fieldTypeFromString (ascii "11")).isThrow = true ∧ (fieldTypeFromString (ascii "float32")).isThrow = true := by decide

/-! ## C43 -/

/-- **C43.** The YAML reader terminates on every text: the number of nested calls and loop iterations along any path is at most
twice the number of lines plus 2, it never fails, and its result does not depend on the bound.  (All accesses in the model are to
lines of the text; the code does the same through `string_view`s.) -/
theorem C43_terminates (text : List Byte) : ∃ node, yamlParse text = .ok node ∧
    ∀ bound, 2 * (splitLines text).length + 2 ≤ bound → yamlParseFuel bound text = .ok node := by
  obtain ⟨n, h⟩ := yamlParse_total text
  exact ⟨n, h _ (Nat.le_refl _), h⟩

/-- The lines are disjoint pieces of the text: there are at most as many as characters, and they have no newline. -/
theorem C43_lines (text : List Byte) : (splitLines text).length ≤ text.length ∧ (∀ l ∈ splitLines text, 0x0A#8 ∉ l) ∧
    ((splitLines text).map List.length).sum ≤ text.length := by
  induction text with
  | nil => simp [splitLines]
  | cons c cs ih =>
    obtain ⟨h1, h2, h3⟩ := ih
    unfold splitLines
    split
    · refine ⟨by simp only [List.length_cons]; omega, ?_, by simp only [List.map_cons, List.sum_cons, List.length_nil, List.length_cons]; omega⟩
      intro l hl
      simp only [List.mem_cons] at hl
      rcases hl with rfl | hl
      · simp
      · exact h2 l hl
    · next hc =>
      cases hs : splitLines cs with
      | nil => simp [Ne.symm hc]
      | cons l ls =>
        rw [hs] at h1 h2 h3
        simp only [List.length_cons, List.map_cons, List.sum_cons] at h1 h3
        refine ⟨by simp only [List.length_cons]; omega, ?_, by simp only [List.map_cons, List.sum_cons, List.length_cons]; omega⟩
        intro l' hl'
        simp only [List.mem_cons] at hl'
        rcases hl' with rfl | hl'
        · simp [Ne.symm hc, h2 l (by simp)]
        · exact h2 l' (by simp [hl'])

/-- A text whose nesting is as deep as it has lines. -/
example : (yamlParse (ascii "a:\n  b:\n    c:\n      d: 1\n  - x\nzz")).isOk = true := by decide +kernel

/-! ## C21, C22: the header estimate of `MaxCompressedSize` -/

/-- `MaxCompressedSize(info, n, true)` reserves exactly the size of the YAML header the encoder writes. -/
theorem C22_header_estimate (T : FloatText) (info : EncodingInfo) : (encodeHeaderYaml T info).length = headerEstimate T info := by
  unfold encodeHeaderYaml headerEstimate
  simp only [List.length_append, List.length_cons, List.length_nil]
  have hm : (magicBytes info.version).length = 12 := by simp [magicBytes, magic]
  omega

theorem maxCompressedChunks_ok (C : Compressor) (info : EncodingInfo) (q n : Nat)
    (hc : info.compression_opt = .none ∨ info.compression_opt = .lz4 ∨ info.compression_opt = .zstd)
    (hlz : info.compression_opt = .lz4 → fullChunk info q ≤ lz4MaxInput) : ∃ m, maxCompressedChunks C info q n = .ok m := by
  induction n using Nat.strongRecOn with
  | ind n ih =>
    unfold maxCompressedChunks
    by_cases h : n = 0
    · exact ⟨0, by simp [h]⟩
    · have hk : 0 < min n kPointsPerChunk := by unfold kPointsPerChunk; omega
      obtain ⟨m, hm⟩ := ih (n - min n kPointsPerChunk) (by omega)
      have hle := Nat.mul_le_mul_right q (Nat.min_le_right n kPointsPerChunk)
      obtain ⟨b, hb⟩ : ∃ b, chunkBound C info q (min n kPointsPerChunk) = .ok b := by
        unfold chunkBound
        rcases hc with hc | hc | hc
        · rw [hc]; exact ⟨_, rfl⟩
        · have := hlz hc
          unfold fullChunk lz4MaxInput at this
          rw [hc]
          simp only
          rw [if_neg (by unfold intMax; omega)]
          exact ⟨_, rfl⟩
        · rw [hc]; exact ⟨_, rfl⟩
      refine ⟨4 + b + m, ?_⟩
      rw [dif_neg h, hb, Res.ok_bind, hm, Res.ok_bind]

/-- **C22, the vector overload (partial).** It sizes the vector itself and then succeeds.  Missing: what `C22_bound_partial` leaves out. -/
theorem C22_vector_partial (F : FloatOps) (C : Compressor) (hC : C.Lawful) (T : FloatText) (info : EncodingInfo) (enc : Encoder)
    (hinfo : ValidInfo F info) (hreach : Reach F C info (encodeHeaderYaml T info) enc) (n : Nat) (cloud : List Byte) (hcloud : CloudOf F info n cloud)
    (per : Nat) (hper : maxSerializedPointSize info.encoding_opt info.fields = .ok per) (hv5 : usesV5 info = true → n ≤ kProbePoints)
    (h64 : FieldLimit info) (hchunk : fullChunk info per ≤ u32Max)
    (hcomp : info.compression_opt ≠ .none → C.bound info.compression_opt (fullChunk info per) ≤ u32Max)
    (hc : info.compression_opt = .none ∨ info.compression_opt = .lz4 ∨ info.compression_opt = .zstd)
    (hlz : info.compression_opt = .lz4 → fullChunk info per ≤ lz4MaxInput ∧ ∀ m, maxCompressedSize C info n = .ok m → m ≤ intMax + 4) :
    ∃ r, encodeVector F C enc (headerEstimate T info) cloud = .ok r := by
  obtain ⟨rfl, hh, _⟩ := reach_used hreach
  have hst : 0 < enc.info.point_step.toNat := hinfo.step
  have hp : cloud.length / enc.info.point_step.toNat = n := by rw [hcloud.size]; exact Nat.mul_div_cancel _ hst
  have hne : enc.info.point_step ≠ 0#32 := by intro h; rw [h] at hst; simp at hst
  have hdvd : cloud.length % enc.info.point_step.toNat = 0 := by rw [hcloud.size]; exact Nat.mul_mod_left _ _
  obtain ⟨m, hm⟩ := maxCompressedChunks_ok C enc.info per n hc (fun h => (hlz h).1)
  have hm' : maxCompressedSize C enc.info n = .ok m := by
    unfold maxCompressedSize
    rw [if_neg hne, hper, Res.ok_bind, hm]
  obtain ⟨⟨e', out, k⟩, hr⟩ := C22_bound_partial F C hC enc.info (encodeHeaderYaml T enc.info) enc hinfo hreach n cloud hcloud per m m false hper hm' (by simp) hv5 h64
    hchunk hcomp (fun h => ⟨(hlz h).2 m hm', (hlz h).1⟩)
  unfold encodeVector
  rw [if_neg hne, if_neg (by simp [hdvd]), hp, hm']
  have hraw : (⟨[], headerEstimate T enc.info + m⟩ : W).raw enc.header = .ok ⟨enc.header, m⟩ := by
    unfold W.raw
    have hl : enc.header.length = headerEstimate T enc.info := by rw [hh, C22_header_estimate]
    rw [if_pos (by rw [hl]; exact Nat.le_add_right _ _)]
    simp [hl]
  simp only [Res.ok_bind]
  rw [hraw]
  simp only [Res.ok_bind]
  rw [hr]
  exact ⟨_, rfl⟩

/-- **C21, the vector overload**, with the header the constructor makes. -/
theorem C21_vector (F : FloatOps) (C : Compressor) (T : FloatText) (info : EncodingInfo) (enc : Encoder)
    (hreach : Reach F C info (encodeHeaderYaml T info) enc) (hin : ∀ f ∈ info.fields, f.offset.toNat + sizeOf f.type ≤ info.point_step.toNat)
    (cloud : List Byte) : encodeVector F C enc (headerEstimate T info) cloud ≠ .ub .mem :=
  C21_no_out_of_bounds_vector F C info _ enc hreach hin cloud _ (by rw [C22_header_estimate]; exact Nat.le_refl _)

/-! ## The theorems applied to concrete data -/

example (T : FloatText) : ∃ bs, encodeHeaderBinary { mixInfo with width := 10#32 } = .ok bs ∧ ∀ payload, (decodeHeader T (bs ++ payload)).isThrow = true :=
  C25_width_10_rejected T _ (by decide) rfl
example : ∃ a b body, encodeHeaderYaml bitsText mixInfo = ascii "CLOUDINI_V" ++ a :: b :: (body ++ []) ∧ (5 : Nat) = 10 * versionDigit a + versionDigit b := by
  obtain ⟨a, b, body, h1, h2, _⟩ := C27_accepted_partial bitsText (encodeHeaderYaml bitsText mixInfo) [] mixInfo (by decide +kernel)
  exact ⟨a, b, body, h1, h2⟩
example (input : List Byte) (k : UB) : decodeHeader bitsText (ascii "CLOUDINI_V05\n" ++ input) ≠ .ub k := C27_no_ub bitsText bitsText_lawful _ k
example (T : FloatText) (cloud : List Byte) : ∃ enc, Reach bitsOps storeComp mixInfo (encodeHeaderYaml T mixInfo) enc ∧
    encodeVector bitsOps storeComp enc (headerEstimate T mixInfo) cloud ≠ .ub .mem := by
  have h : Reach bitsOps storeComp mixInfo (encodeHeaderYaml T mixInfo) ⟨mixInfo, encodeHeaderYaml T mixInfo, []⟩ := .fresh _ rfl
  exact ⟨_, h, C21_vector bitsOps storeComp T mixInfo _ h (by decide) cloud⟩

end Cloudini.Props
