import Verif.Lemmas.Yaml
import Verif.Spec.Header

/-! # Reading what the YAML writer produces -/

namespace Cloudini

theorem dropWhile_none {p : Byte → Bool} {s : List Byte} (h : ∀ c, s.head? = some c → p c = false) : s.dropWhile p = s := by
  cases s with
  | nil => rfl
  | cons c cs => rw [List.dropWhile_cons_of_neg (by simp [h c rfl])]

theorem rtrim_plain {s : List Byte} (h : ∀ c, s.getLast? = some c → isSpace c = false) : rtrim s = s := by
  unfold rtrim
  rw [dropWhile_none (by intro c hc; rw [List.head?_reverse] at hc; exact h c hc), List.reverse_reverse]

theorem trim_plain {s : List Byte} (h : PlainText s) : trim s = s := by
  unfold trim
  simp only
  rw [dropWhile_none h.first, if_neg h.nonempty, rtrim_plain h.last, if_neg h.comment]

theorem trim_spaces {s : List Byte} (h : PlainText s) (n : Nat) : trim (List.replicate n 0x20#8 ++ s) = s := by
  unfold trim
  have : (List.replicate n 0x20#8 ++ s).dropWhile isSpace = s := by
    induction n with
    | zero => simpa using dropWhile_none h.first
    | succ n ih => rw [List.replicate_succ, List.cons_append, List.dropWhile_cons_of_pos (by decide)]; exact ih
  simp only [this]
  rw [if_neg h.nonempty, rtrim_plain h.last, if_neg h.comment]

theorem indentation_spaces {s : List Byte} (h : PlainText s) (n : Nat) : indentation (List.replicate n 0x20#8 ++ s) = n := by
  induction n with
  | zero =>
    cases s with
    | nil => exact absurd rfl h.nonempty
    | cons c cs =>
      have hc := h.first c rfl
      have h1 : c ≠ 0x20#8 := by rintro rfl; simp [isSpace] at hc
      have h2 : c ≠ 0x09#8 := by rintro rfl; simp [isSpace] at hc
      simp only [List.replicate_zero, List.nil_append, indentation]
      rw [if_neg h1, if_neg h2]
  | succ n ih =>
    rw [List.replicate_succ, List.cons_append, indentation, if_pos rfl, ih]
    omega

theorem splitColon_key {k v : List Byte} (h : 0x3A#8 ∉ k) : splitColon (k ++ 0x3A#8 :: v) = some (k, v) := by
  induction k with
  | nil => simp [splitColon]
  | cons c cs ih =>
    simp only [List.mem_cons, not_or] at h
    simp only [List.cons_append, splitColon]
    rw [if_neg (Ne.symm h.1), ih h.2]

theorem plain_append {a b : List Byte} (ha : a ≠ [] ∧ 0x0A#8 ∉ a ∧ 0x23#8 ∉ a ∧ ∀ c, a.head? = some c → isSpace c = false) (hb : PlainText b) :
    PlainText (a ++ b) where
  nonempty := by simp [ha.1]
  newline := by simp [ha.2.1, hb.newline]
  comment := by simp [ha.2.2.1, hb.comment]
  first := by
    intro c hc
    obtain ⟨h1, _, _, h2⟩ := ha
    cases a with
    | nil => exact absurd rfl h1
    | cons d ds => exact h2 c (by simpa using hc)
  last := by
    intro c hc
    refine hb.last c ?_
    rw [List.getLast?_append] at hc
    cases hl : b.getLast? with
    | none => rw [List.getLast?_eq_none_iff] at hl; exact absurd hl hb.nonempty
    | some d => rw [hl] at hc; simpa using hc

/-- A key as the writer uses: plain and without ':'. -/
structure Key (k : List Byte) : Prop extends PlainText k where
  colon : 0x3A#8 ∉ k

/-- A line "key: value" is not blank, not a comment, not a list item and reads as that pair. -/
theorem keyLine_plain {k v : List Byte} (hk : Key k) (hv : PlainText v) : PlainText (k ++ 0x3A#8 :: 0x20#8 :: v) := by
  have := plain_append (a := k ++ [0x3A#8, 0x20#8]) (b := v) ⟨by simp, by simp [hk.newline], by simp [hk.comment], by
    intro c hc
    have h1 := hk.nonempty
    cases k with
    | nil => exact absurd rfl h1
    | cons d ds => exact hk.first c (by simpa using hc)⟩ hv
  simpa using this

theorem skipEmpty_plain {s : List Byte} (h : PlainText s) (n : Nat) (rest : List (List Byte)) :
    skipEmpty ((List.replicate n 0x20#8 ++ s) :: rest) = (List.replicate n 0x20#8 ++ s) :: rest := by
  unfold skipEmpty
  rw [trim_spaces h]
  rw [if_neg]
  rintro (h1 | h1)
  · exact h.nonempty h1
  · exact h.comment (List.mem_of_head? h1)

theorem trim_space_value {v : List Byte} (hv : PlainText v) : trim (0x20#8 :: v) = v := by
  have := trim_spaces hv 1
  simpa using this

theorem splitLines_line {l rest : List Byte} (h : 0x0A#8 ∉ l) : splitLines (l ++ 0x0A#8 :: rest) = l :: splitLines rest := by
  induction l with
  | nil => simp [splitLines]
  | cons c cs ih =>
    simp only [List.mem_cons, not_or] at h
    simp only [List.cons_append, splitLines]
    rw [if_neg (Ne.symm h.1), ih h.2]

theorem splitLines_lines (ls : List (List Byte)) (h : ∀ l ∈ ls, 0x0A#8 ∉ l) : splitLines (ls.map (· ++ [0x0A#8])).flatten = ls := by
  induction ls with
  | nil => rfl
  | cons l ls ih =>
    simp only [List.map_cons, List.flatten_cons, List.append_assoc, List.singleton_append]
    rw [splitLines_line (h l (by simp)), ih fun l hl => h l (by simp [hl])]

/-! ## lines -/

/-- One step of a mapping at indentation 0 with a value on the same line. -/
theorem mapping_step {k v : List Byte} (hk : Key k) (hv : PlainText v) {rest : List (List Byte)} {m r}
    (h : ∃ f, parseMapping f rest 0 = .ok (m, r)) :
    ∃ f, parseMapping f ((k ++ 0x3A#8 :: 0x20#8 :: v) :: rest) 0 = .ok ((k, .str v) :: m, r) := by
  obtain ⟨f, hf⟩ := h
  refine ⟨f + 1, ?_⟩
  have hp := keyLine_plain hk hv
  have h1 := skipEmpty_plain hp 0 rest
  have h2 := indentation_spaces hp 0
  simp only [List.replicate_zero, List.nil_append] at h1 h2
  unfold parseMapping
  rw [h1]
  simp only [h2, Nat.lt_irrefl, if_false, trim_plain hp, splitColon_key hk.colon, trim_space_value hv]
  rw [if_neg hv.nonempty, hf, trim_plain hk.toPlainText]
  rfl

/-- One further key of a list item. -/
theorem item_step {k v : List Byte} (hk : Key k) (hv : PlainText v) {rest : List (List Byte)} {m r} (n b : Nat) (hb : b < n)
    (h : ∃ f, parseItem f rest b = .ok (m, r)) :
    ∃ f, parseItem f ((List.replicate n 0x20#8 ++ (k ++ 0x3A#8 :: 0x20#8 :: v)) :: rest) b = .ok ((k, .str v) :: m, r) := by
  obtain ⟨f, hf⟩ := h
  refine ⟨f + 1, ?_⟩
  have hp := keyLine_plain hk hv
  unfold parseItem
  rw [skipEmpty_plain hp]
  simp only [indentation_spaces hp, trim_spaces hp, splitColon_key hk.colon, trim_space_value hv]
  rw [if_neg (by omega), if_pos hv.nonempty, hf, trim_plain hk.toPlainText]
  rfl

theorem item_end (b : Nat) {lines : List (List Byte)} (h : lines = [] ∨ ∃ s rest n, PlainText s ∧ n ≤ b ∧ lines = (List.replicate n 0x20#8 ++ s) :: rest) :
    ∃ f, parseItem f lines b = .ok ([], lines) := by
  refine ⟨1, ?_⟩
  unfold parseItem
  rcases h with rfl | ⟨s, rest, n, hp, hn, rfl⟩
  · rfl
  · rw [skipEmpty_plain hp]
    simp only [indentation_spaces hp]
    rw [if_pos hn]

/-- One list item "- key: value" with its further keys. -/
theorem sequence_step {k v : List Byte} (hk : Key k) (hv : PlainText v) {rest lines' : List (List Byte)} {m s r} (n b : Nat) (hb : b ≤ n)
    (h : ∃ f, parseItem f rest n = .ok (m, lines')) (h' : ∃ f, parseSequence f lines' b = .ok (s, r)) :
    ∃ f, parseSequence f ((List.replicate n 0x20#8 ++ (0x2D#8 :: 0x20#8 :: (k ++ 0x3A#8 :: 0x20#8 :: v))) :: rest) b =
      .ok (.map ((k, .str v) :: m) :: s, r) := by
  obtain ⟨f, hf⟩ := h
  obtain ⟨f', hf'⟩ := h'
  refine ⟨max f f' + 1, ?_⟩
  have hp : PlainText (0x2D#8 :: 0x20#8 :: (k ++ 0x3A#8 :: 0x20#8 :: v)) := by
    have := plain_append (a := [0x2D#8, 0x20#8]) ⟨by simp, by decide, by decide, by simp [isSpace]⟩ (keyLine_plain hk hv)
    simpa using this
  unfold parseSequence
  rw [skipEmpty_plain hp]
  simp only [indentation_spaces hp, trim_spaces hp]
  rw [if_neg (by omega), if_neg (by simp [startsDash])]
  simp only [List.drop_succ_cons, List.drop_zero]
  rw [if_neg (by simp), splitColon_key hk.colon]
  simp only
  rw [(parse_le (Nat.le_max_left f f')).2.2.1 _ _ _ hf, Res.ok_bind, (parse_le (Nat.le_max_right f f')).2.1 _ _ _ hf', Res.ok_bind,
    trim_space_value hv, if_neg hv.nonempty, trim_plain hk.toPlainText]
  rfl

theorem sequence_end (b : Nat) : ∃ f, parseSequence f [] b = .ok ([], []) := ⟨1, by simp [parseSequence, skipEmpty]⟩

/-! ## numbers -/

theorem decimal_digits (n : Nat) : ∀ c ∈ decimal n, isDigit c = true := by
  induction n using Nat.strongRecOn with
  | ind n ih =>
    intro c hc
    unfold decimal at hc
    split at hc
    · simp only [List.mem_singleton] at hc
      subst hc
      unfold isDigit
      rw [BitVec.toNat_ofNat]
      simp only [Bool.and_eq_true, decide_eq_true_eq]
      omega
    · simp only [List.mem_append, List.mem_singleton] at hc
      rcases hc with hc | rfl
      · exact ih _ (by omega) c hc
      · unfold isDigit
        rw [BitVec.toNat_ofNat]
        simp only [Bool.and_eq_true, decide_eq_true_eq]
        omega

theorem decimal_ne (n : Nat) : decimal n ≠ [] := by
  unfold decimal
  split <;> simp

theorem number_append (a : List Byte) (d : Byte) : number (a ++ [d]) = 10 * number a + (d.toNat - 48) := by
  unfold number
  rw [List.foldl_append]
  rfl

theorem number_decimal (n : Nat) : number (decimal n) = n := by
  induction n using Nat.strongRecOn with
  | ind n ih =>
    unfold decimal
    split
    · simp only [number, List.foldl_cons, List.foldl_nil, BitVec.toNat_ofNat]; omega
    · rw [number_append, ih _ (by omega), BitVec.toNat_ofNat]
      omega

theorem digit_facts {c : Byte} (h : isDigit c = true) : isSpace c = false ∧ c ≠ 0x0A#8 ∧ c ≠ 0x23#8 ∧ c.toNat ≠ 45 ∧ c.toNat ≠ 43 ∧ c ≠ 0#8 := by
  unfold isDigit at h
  simp only [Bool.and_eq_true, decide_eq_true_eq] at h
  refine ⟨?_, ?_, ?_, by omega, by omega, ?_⟩
  · unfold isSpace; simp only [Bool.or_eq_false_iff, Bool.and_eq_false_iff, decide_eq_false_iff_not]; omega
  · rintro rfl; simp at h
  · rintro rfl; simp at h
  · rintro rfl; simp at h

theorem decimal_plain (n : Nat) : PlainText (decimal n) where
  nonempty := decimal_ne n
  newline := fun h => (digit_facts (decimal_digits n _ h)).2.1 rfl
  comment := fun h => (digit_facts (decimal_digits n _ h)).2.2.1 rfl
  first := fun c h => (digit_facts (decimal_digits n c (List.mem_of_head? h))).1
  last := fun c h => (digit_facts (decimal_digits n c (List.mem_of_getLast? h))).1

theorem takeSign_digits {s : List Byte} (h : ∀ c ∈ s, isDigit c = true) : takeSign s = (false, s) := by
  cases s with
  | nil => rfl
  | cons c cs =>
    have := digit_facts (h c (by simp))
    unfold takeSign
    simp only
    rw [if_neg this.2.2.2.1, if_neg this.2.2.2.2.1]

theorem takeWhile_all {p : Byte → Bool} {s : List Byte} (h : ∀ c ∈ s, p c = true) : s.takeWhile p = s := by
  induction s with
  | nil => rfl
  | cons c cs ih => rw [List.takeWhile_cons_of_pos (h c (by simp)), ih fun c hc => h c (by simp [hc])]

theorem extractU32_decimal (v : BitVec 32) : extractU32 (decimal v.toNat) = .ok v := by
  unfold extractU32
  rw [dropWhile_none (decimal_plain _).first, takeSign_digits (decimal_digits _)]
  simp only [takeWhile_all (decimal_digits _), number_decimal]
  rw [if_neg (decimal_ne _), if_neg (by have := v.isLt; omega)]
  simp

theorem extractU8_decimal (n : Nat) : ∃ c, extractU8 (decimal n) = .ok c := by
  unfold extractU8
  rw [dropWhile_none (decimal_plain _).first]
  cases h : decimal n with
  | nil => exact absurd h (decimal_ne n)
  | cons c cs => exact ⟨c, rfl⟩

/-! ## infos -/

def fieldEntries (T : FloatText) (f : PointField) : List (List Byte × YNode) :=
  [(ascii "name", .str f.name), (ascii "offset", .str (decimal f.offset.toNat)), (ascii "type", .str f.type.name),
   (ascii "resolution", .str (match f.resolution with | some r => T.print r | none => ascii "null"))]

def resText (T : FloatText) (f : PointField) : List Byte := match f.resolution with | some r => T.print r | none => ascii "null"

def fieldLines (T : FloatText) (f : PointField) : List (List Byte) :=
  [List.replicate 2 0x20#8 ++ (0x2D#8 :: 0x20#8 :: (ascii "name" ++ 0x3A#8 :: 0x20#8 :: f.name)),
   List.replicate 4 0x20#8 ++ (ascii "offset" ++ 0x3A#8 :: 0x20#8 :: decimal f.offset.toNat),
   List.replicate 4 0x20#8 ++ (ascii "type" ++ 0x3A#8 :: 0x20#8 :: f.type.name),
   List.replicate 4 0x20#8 ++ (ascii "resolution" ++ 0x3A#8 :: 0x20#8 :: resText T f)]

theorem fieldYaml_lines (T : FloatText) (f : PointField) : fieldYaml T f = ((fieldLines T f).map (· ++ [0x0A#8])).flatten := by
  unfold fieldYaml fieldLines resText
  cases f.resolution with
  | none => simp [ascii, List.replicate]
  | some r => simp [ascii, List.replicate]

def headLines (info : EncodingInfo) : List (List Byte × List Byte) :=
  [(ascii "version", decimal info.version.toNat), (ascii "width", decimal info.width.toNat), (ascii "height", decimal info.height.toNat),
   (ascii "point_step", decimal info.point_step.toNat), (ascii "encoding_opt", info.encoding_opt.name),
   (ascii "compression_opt", info.compression_opt.name)] ++
  (if info.encoding_config ≠ [] then [(ascii "encoding_config", info.encoding_config)] else [])

def keyLine (kv : List Byte × List Byte) : List Byte := kv.1 ++ 0x3A#8 :: 0x20#8 :: kv.2

def infoLines (T : FloatText) (info : EncodingInfo) : List (List Byte) :=
  (headLines info).map keyLine ++ (ascii "fields:" :: (info.fields.map (fieldLines T)).flatten)

theorem fieldsYaml_lines (T : FloatText) (fs : List PointField) :
    (fs.map (fieldYaml T)).flatten = (((fs.map (fieldLines T)).flatten).map (· ++ [0x0A#8])).flatten := by
  induction fs with
  | nil => rfl
  | cons f fs ih =>
    simp only [List.map_cons, List.flatten_cons, List.map_append, List.flatten_append]
    rw [← ih, fieldYaml_lines]

theorem infoToYaml_lines (T : FloatText) (info : EncodingInfo) : infoToYaml T info = ((infoLines T info).map (· ++ [0x0A#8])).flatten := by
  unfold infoToYaml infoLines headLines keyLine
  rw [fieldsYaml_lines]
  split
  · simp [ascii]
  · simp [ascii]

theorem key_of {k : List Byte} (h : (k ≠ [] ∧ 0x0A#8 ∉ k ∧ 0x23#8 ∉ k ∧ (k.all fun c => !isSpace c) = true) ∧ 0x3A#8 ∉ k) : Key k where
  nonempty := h.1.1
  newline := h.1.2.1
  comment := h.1.2.2.1
  first := fun c hc => by
    have := List.all_eq_true.1 h.1.2.2.2 c (List.mem_of_head? hc); simpa using this
  last := fun c hc => by
    have := List.all_eq_true.1 h.1.2.2.2 c (List.mem_of_getLast? hc); simpa using this
  colon := h.2

theorem encName_plain (o : EncOpt) : PlainText o.name := by
  have hb : PlainText (ascii "UNKNOWN") := (key_of (by decide)).toPlainText
  cases o <;> first | exact hb | exact (key_of (by decide)).toPlainText
theorem compName_plain (o : CompOpt) : PlainText o.name := by
  have hb : PlainText (ascii "UNKNOWN") := (key_of (by decide)).toPlainText
  cases o <;> first | exact hb | exact (key_of (by decide)).toPlainText
theorem typeName_plain (o : FieldType) : PlainText o.name := by
  have hb : PlainText (ascii "UNKNOWN") := (key_of (by decide)).toPlainText
  cases o <;> first | exact hb | exact (key_of (by decide)).toPlainText

/-- What a header text must satisfy beyond the grammar: names, configuration and printed floats are plain text. -/
structure PlainInfo (T : FloatText) (info : EncodingInfo) : Prop where
  config : info.encoding_config = [] ∨ PlainText info.encoding_config
  names : ∀ f ∈ info.fields, PlainText f.name
  floats : ∀ f ∈ info.fields, ∀ r, f.resolution = some r → PlainText (T.print r)

theorem resText_plain {T : FloatText} {f : PointField} (h : ∀ r, f.resolution = some r → PlainText (T.print r)) : PlainText (resText T f) := by
  unfold resText
  cases hr : f.resolution with
  | none => exact (key_of (k := ascii "null") (by decide)).toPlainText
  | some r => exact h r hr

theorem headLines_ok {T : FloatText} {info : EncodingInfo} (h : PlainInfo T info) : ∀ kv ∈ headLines info, Key kv.1 ∧ PlainText kv.2 := by
  intro kv hkv
  unfold headLines at hkv
  rw [List.mem_append] at hkv
  rcases hkv with hkv | hkv
  · simp only [List.mem_cons, List.not_mem_nil, or_false] at hkv
    rcases hkv with rfl | rfl | rfl | rfl | rfl | rfl
    · exact ⟨key_of (k := ascii "version") (by decide), decimal_plain _⟩
    · exact ⟨key_of (k := ascii "width") (by decide), decimal_plain _⟩
    · exact ⟨key_of (k := ascii "height") (by decide), decimal_plain _⟩
    · exact ⟨key_of (k := ascii "point_step") (by decide), decimal_plain _⟩
    · exact ⟨key_of (k := ascii "encoding_opt") (by decide), encName_plain _⟩
    · exact ⟨key_of (k := ascii "compression_opt") (by decide), compName_plain _⟩
  · split at hkv
    · next hc =>
      simp only [List.mem_singleton] at hkv
      subst hkv
      exact ⟨key_of (k := ascii "encoding_config") (by decide), h.config.resolve_left hc⟩
    · simp at hkv

/-- The sequence of fields. -/
theorem parse_fields {T : FloatText} (fs : List PointField) (hn : ∀ f ∈ fs, PlainText f.name)
    (hf : ∀ f ∈ fs, ∀ r, f.resolution = some r → PlainText (T.print r)) :
    (∃ f, parseSequence f (fs.map (fieldLines T)).flatten 2 = .ok (fs.map fun f => .map (fieldEntries T f), [])) ∧
    ((fs.map (fieldLines T)).flatten = [] ∨
      ∃ s rest n, PlainText s ∧ n ≤ 2 ∧ (fs.map (fieldLines T)).flatten = (List.replicate n 0x20#8 ++ s) :: rest) := by
  induction fs with
  | nil => exact ⟨sequence_end 2, Or.inl rfl⟩
  | cons f fs ih =>
    obtain ⟨h1, h2⟩ := ih (fun f h => hn f (by simp [h])) (fun f h => hf f (by simp [h]))
    have hname := hn f (by simp)
    have hres := resText_plain (hf f (by simp))
    refine ⟨?_, Or.inr ⟨_, _, 2, ?_, Nat.le_refl 2, rfl⟩⟩
    · have hi := item_end 2 h2
      have hi := item_step (key_of (k := ascii "resolution") (by decide)) hres 4 2 (by omega) hi
      have hi := item_step (key_of (k := ascii "type") (by decide)) (typeName_plain f.type) 4 2 (by omega) hi
      have hi := item_step (key_of (k := ascii "offset") (by decide)) (decimal_plain f.offset.toNat) 4 2 (by omega) hi
      exact sequence_step (key_of (k := ascii "name") (by decide)) hname 2 2 (by omega) hi h1
    · have := plain_append (a := [0x2D#8, 0x20#8]) ⟨by simp, by decide, by decide, by simp [isSpace]⟩
        (keyLine_plain (key_of (k := ascii "name") (by decide)) hname)
      simpa using this

def fieldsNode (T : FloatText) (fs : List PointField) : YNode :=
  match fs with
  | [] => .null
  | fs => .seq (fs.map fun f => .map (fieldEntries T f))

theorem parse_fieldsNode {T : FloatText} (fs : List PointField) (hn : ∀ f ∈ fs, PlainText f.name)
    (hf : ∀ f ∈ fs, ∀ r, f.resolution = some r → PlainText (T.print r)) :
    ∃ f, parseNode f (fs.map (fieldLines T)).flatten 2 = .ok (fieldsNode T fs, []) := by
  cases fs with
  | nil => exact ⟨1, by simp [parseNode, skipEmpty, fieldsNode]⟩
  | cons f fs =>
    obtain ⟨⟨g, hg⟩, _⟩ := parse_fields (T := T) (f :: fs) hn hf
    refine ⟨g + 1, ?_⟩
    have hp : PlainText (0x2D#8 :: 0x20#8 :: (ascii "name" ++ 0x3A#8 :: 0x20#8 :: f.name)) := by
      have := plain_append (a := [0x2D#8, 0x20#8]) ⟨by simp, by decide, by decide, by simp [isSpace]⟩
        (keyLine_plain (key_of (k := ascii "name") (by decide)) (hn f (by simp)))
      simpa using this
    have hl : ((f :: fs).map (fieldLines T)).flatten = (List.replicate 2 0x20#8 ++ (0x2D#8 :: 0x20#8 :: (ascii "name" ++ 0x3A#8 :: 0x20#8 :: f.name))) ::
      ((fieldLines T f).drop 1 ++ (fs.map (fieldLines T)).flatten) := by simp [fieldLines]
    rw [hl] at hg ⊢
    unfold parseNode
    rw [skipEmpty_plain hp]
    simp only [indentation_spaces hp, trim_spaces hp, Nat.lt_irrefl, if_false]
    rw [if_pos (by simp [startsDash]), hg]
    rfl

def infoNode (T : FloatText) (info : EncodingInfo) : YNode :=
  .map ((headLines info).map (fun kv => (kv.1, .str kv.2)) ++ [(ascii "fields", fieldsNode T info.fields)])

theorem yamlParse_info {T : FloatText} {info : EncodingInfo} (h : PlainInfo T info) : yamlParse (infoToYaml T info) = .ok (infoNode T info) := by
  have hlast : ∃ f, parseMapping f (ascii "fields:" :: (info.fields.map (fieldLines T)).flatten) 0 =
      .ok ([(ascii "fields", fieldsNode T info.fields)], []) := by
    obtain ⟨g, hg⟩ := parse_fieldsNode (T := T) info.fields h.names h.floats
    refine ⟨max g 1 + 1, ?_⟩
    have hp : PlainText (ascii "fields:") := ⟨by decide, by decide, by decide, by simp [ascii, isSpace], by simp [ascii, isSpace]⟩
    have h1 := skipEmpty_plain hp 0 (info.fields.map (fieldLines T)).flatten
    have h2 := indentation_spaces hp 0
    simp only [List.replicate_zero, List.nil_append] at h1 h2
    unfold parseMapping
    rw [h1]
    simp only [h2, Nat.lt_irrefl, if_false, trim_plain hp]
    rw [show splitColon (ascii "fields:") = some (ascii "fields", []) from by decide]
    simp only
    rw [if_pos (by decide), (parse_le (Nat.le_max_left g 1)).1 _ _ _ hg, Res.ok_bind,
      (parse_le (Nat.le_max_right g 1)).2.2.2 [] 0 ([], []) (by simp [parseMapping, skipEmpty]), Res.ok_bind,
      trim_plain (key_of (k := ascii "fields") (by decide)).toPlainText]
  have hmap : ∀ (kvs : List (List Byte × List Byte)), (∀ kv ∈ kvs, Key kv.1 ∧ PlainText kv.2) →
      ∃ f, parseMapping f (kvs.map keyLine ++ (ascii "fields:" :: (info.fields.map (fieldLines T)).flatten)) 0 =
        .ok (kvs.map (fun kv => (kv.1, .str kv.2)) ++ [(ascii "fields", fieldsNode T info.fields)], []) := by
    intro kvs
    induction kvs with
    | nil => intro _; exact hlast
    | cons kv kvs ih =>
      intro hk
      exact mapping_step (hk kv (by simp)).1 (hk kv (by simp)).2 (ih fun kv h => hk kv (by simp [h]))
  obtain ⟨g, hg⟩ := hmap (headLines info) (headLines_ok h)
  apply yamlParse_of (fuel := g + 1)
  unfold yamlParseFuel
  rw [infoToYaml_lines, splitLines_lines]
  · have hl : infoLines T info = keyLine (ascii "version", decimal info.version.toNat) :: (infoLines T info).drop 1 := by
      simp [infoLines, headLines]
    have hg' : parseMapping g (infoLines T info) 0 = .ok ((headLines info).map (fun kv => (kv.1, .str kv.2)) ++ [(ascii "fields", fieldsNode T info.fields)], []) := hg
    rw [hl] at hg' ⊢
    simp only
    unfold parseNode
    have hp := keyLine_plain (key_of (k := ascii "version") (by decide)) (decimal_plain info.version.toNat)
    have h1 := skipEmpty_plain hp 0 ((infoLines T info).drop 1)
    simp only [List.replicate_zero, List.nil_append] at h1
    rw [show keyLine (ascii "version", decimal info.version.toNat) = ascii "version" ++ 0x3A#8 :: 0x20#8 :: decimal info.version.toNat from rfl] at hg' ⊢
    rw [h1]
    simp only [Nat.not_lt_zero, if_false, trim_plain hp, splitColon_key (key_of (k := ascii "version") (by decide)).colon]
    rw [if_neg (by simp [startsDash, ascii]), hg']
    rfl
  · intro l hl
    unfold infoLines at hl
    simp only [List.mem_append, List.mem_map, List.mem_cons, List.mem_flatten] at hl
    rcases hl with ⟨kv, hkv, rfl⟩ | rfl | ⟨ls, ⟨f, hf, rfl⟩, hl⟩
    · obtain ⟨a, b⟩ := headLines_ok h kv hkv
      exact (keyLine_plain a b).newline
    · decide
    · have hname := h.names f hf
      have hres := resText_plain (h.floats f hf)
      have e1 := (keyLine_plain (key_of (k := ascii "name") (by decide)) hname).newline
      have e2 := (keyLine_plain (key_of (k := ascii "offset") (by decide)) (decimal_plain f.offset.toNat)).newline
      have e3 := (keyLine_plain (key_of (k := ascii "type") (by decide)) (typeName_plain f.type)).newline
      have e4 := (keyLine_plain (key_of (k := ascii "resolution") (by decide)) hres).newline
      simp only [fieldLines, List.mem_cons, List.not_mem_nil, or_false] at hl
      rcases hl with rfl | rfl | rfl | rfl <;>
        simp only [List.mem_append, List.mem_replicate, List.mem_cons] at e1 e2 e3 e4 ⊢ <;> simp_all

theorem get_entry {es : List (List Byte × YNode)} {k : List Byte} {v : YNode} (h : es.find? (fun e => e.1 = k) = some (k, v)) :
    (YNode.map es).get k = .ok v := by
  simp [YNode.get, h]

theorem typeName_roundtrip {t : FieldType} (h : t ≠ .unknown ∧ ∀ c, t ≠ .bad c) : fieldTypeFromString t.name = .ok t := by
  cases t <;> first | exact absurd rfl h.1 | exact absurd rfl (h.2 _) | decide
theorem encName_roundtrip {o : EncOpt} (h : ∀ c, o ≠ .bad c) : encOptFromString o.name = .ok o := by
  cases o <;> first | exact absurd rfl (h _) | decide
theorem compName_roundtrip {o : CompOpt} (h : ∀ c, o ≠ .bad c) : compOptFromString o.name = .ok o := by
  cases o <;> first | exact absurd rfl (h _) | decide

theorem fieldFromYaml_ok {T : FloatText} {f : PointField} (ht : f.type ≠ .unknown ∧ ∀ c, f.type ≠ .bad c) (r' : BitVec 32 → BitVec 32)
    (hr : ∀ r, f.resolution = some r → T.print r ≠ ascii "null" ∧ T.parse (T.print r) = .ok (r' r)) :
    fieldFromYaml T (.map (fieldEntries T f)) = .ok { f with resolution := f.resolution.map r' } := by
  have g1 : (YNode.map (fieldEntries T f)).get (ascii "name") = .ok (.str f.name) := rfl
  have g2 : (YNode.map (fieldEntries T f)).get (ascii "offset") = .ok (.str (decimal f.offset.toNat)) := rfl
  have g3 : (YNode.map (fieldEntries T f)).get (ascii "type") = .ok (.str f.type.name) := rfl
  have g4 : (YNode.map (fieldEntries T f)).get (ascii "resolution") = .ok (.str (resText T f)) := rfl
  unfold fieldFromYaml
  simp only [g1, g2, g3, g4, Res.ok_bind, YNode.asStr, extractU32_decimal, typeName_roundtrip ht]
  unfold resText
  cases hres : f.resolution with
  | none => simp
  | some r =>
    obtain ⟨h1, h2⟩ := hr r hres
    simp only [if_neg h1, h2, Res.ok_bind, Option.map_some]

theorem infoFromYaml_ok {T : FloatText} {info : EncodingInfo} (h : PlainInfo T info)
    (ht : ∀ f ∈ info.fields, f.type ≠ .unknown ∧ ∀ c, f.type ≠ .bad c) (he : ∀ c, info.encoding_opt ≠ .bad c) (hc : ∀ c, info.compression_opt ≠ .bad c)
    (r' : BitVec 32 → BitVec 32)
    (hr : ∀ f ∈ info.fields, ∀ r, f.resolution = some r → T.print r ≠ ascii "null" ∧ T.parse (T.print r) = .ok (r' r)) :
    ∃ v, infoFromYaml T (infoToYaml T info) =
      .ok { info with fields := info.fields.map (fun f => { f with resolution := f.resolution.map r' }), version := v } := by
  obtain ⟨v, hv⟩ := extractU8_decimal info.version.toNat
  refine ⟨v, ?_⟩
  have g1 : (infoNode T info).get (ascii "version") = .ok (.str (decimal info.version.toNat)) := rfl
  have g2 : (infoNode T info).get (ascii "width") = .ok (.str (decimal info.width.toNat)) := rfl
  have g3 : (infoNode T info).get (ascii "height") = .ok (.str (decimal info.height.toNat)) := rfl
  have g4 : (infoNode T info).get (ascii "point_step") = .ok (.str (decimal info.point_step.toNat)) := rfl
  have g5 : (infoNode T info).get (ascii "encoding_opt") = .ok (.str info.encoding_opt.name) := rfl
  have g6 : (infoNode T info).get (ascii "compression_opt") = .ok (.str info.compression_opt.name) := rfl
  have g7 : ∃ n, (infoNode T info).get (ascii "encoding_config") = .ok n ∧ configFromYaml n = info.encoding_config := by
    by_cases hcfg : info.encoding_config = []
    · refine ⟨.null, ?_, by rw [hcfg]; rfl⟩
      unfold infoNode headLines
      rw [if_neg (by simp [hcfg])]
      rfl
    · refine ⟨.str info.encoding_config, ?_, rfl⟩
      unfold infoNode headLines
      rw [if_pos hcfg]
      rfl
  have g8 : (infoNode T info).get (ascii "fields") = .ok (fieldsNode T info.fields) := by
    unfold infoNode headLines
    split <;> rfl
  have g9 : fieldsOfNode T (fieldsNode T info.fields) = .ok (info.fields.map (fun f => { f with resolution := f.resolution.map r' })) := by
    have : ∀ fs : List PointField, (∀ f ∈ fs, f.type ≠ .unknown ∧ ∀ c, f.type ≠ .bad c) →
        (∀ f ∈ fs, ∀ r, f.resolution = some r → T.print r ≠ ascii "null" ∧ T.parse (T.print r) = .ok (r' r)) →
        fieldsFromYaml T (fs.map fun f => .map (fieldEntries T f)) = .ok (fs.map (fun f => { f with resolution := f.resolution.map r' })) := by
      intro fs
      induction fs with
      | nil => intros; rfl
      | cons f fs ih =>
        intro a b
        simp only [List.map_cons, fieldsFromYaml]
        rw [fieldFromYaml_ok (a f (by simp)) r' (b f (by simp))]
        simp only [Res.ok_bind]
        rw [ih (fun f h => a f (by simp [h])) (fun f h => b f (by simp [h]))]
        rfl
    cases hfs : info.fields with
    | nil => rfl
    | cons f fs =>
      have := this (f :: fs) (by rw [← hfs]; exact ht) (by rw [← hfs]; exact hr)
      exact this
  obtain ⟨cn, g7, g7'⟩ := g7
  unfold infoFromYaml
  rw [yamlParse_info h]
  simp only [Res.ok_bind, g1, g2, g3, g4, g5, g6, g7, g8, g9, YNode.asStr, hv, extractU32_decimal, encName_roundtrip he, compName_roundtrip hc, g7']

end Cloudini
