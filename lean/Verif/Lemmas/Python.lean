import Verif.Model.Python
import Verif.Lemmas.YamlTrip

/-!
# Reading the header text with the Python loop
-/

namespace Cloudini.Python

/-- A text that `strip()` leaves alone and that is one line. -/
structure Tidy (s : List Byte) : Prop where
  nonempty : s ≠ []
  newline : 0x0A#8 ∉ s
  first : ∀ c, s.head? = some c → blank c = false
  last : ∀ c, s.getLast? = some c → blank c = false

theorem strip_tidy {s : List Byte} (h : Tidy s) : strip s = s := by
  unfold strip
  rw [dropWhile_none h.first, dropWhile_none (by rw [List.head?_reverse]; exact h.last), List.reverse_reverse]

theorem strip_spaces {s : List Byte} (h : Tidy s) (n : Nat) : strip (List.replicate n 0x20#8 ++ s) = s := by
  have : strip (List.replicate n 0x20#8 ++ s) = strip s := by
    unfold strip
    induction n with
    | zero => rfl
    | succ n ih =>
      rw [List.replicate_succ, List.cons_append, List.dropWhile_cons, if_pos (by decide)]
      exact ih
  rw [this, strip_tidy h]

theorem strip_space {s : List Byte} (h : Tidy s) : strip (0x20#8 :: s) = s := strip_spaces h 1

theorem lines_line {l rest : List Byte} (h : 0x0A#8 ∉ l) : lines (l ++ 0x0A#8 :: rest) = l :: lines rest := by
  induction l with
  | nil => simp [lines]
  | cons c l ih =>
    simp only [List.mem_cons, not_or] at h
    rw [List.cons_append, lines, if_neg (fun e => h.1 e.symm), ih h.2]

theorem lines_lines (ls : List (List Byte)) (h : ∀ l ∈ ls, 0x0A#8 ∉ l) : lines (ls.map (· ++ [0x0A#8])).flatten = ls ++ [[]] := by
  induction ls with
  | nil => rfl
  | cons l ls ih =>
    rw [List.map_cons, List.flatten_cons, List.append_assoc, List.singleton_append, lines_line (h l (by simp)), ih fun m hm => h m (by simp [hm])]
    rfl

theorem digits_tidy {s : List Byte} (hne : s ≠ []) (h : ∀ c ∈ s, isDigit c = true) : Tidy s := by
  have hb : ∀ c, isDigit c = true → blank c = false ∧ c ≠ 0x0A#8 := by
    intro c hc
    unfold isDigit at hc
    simp only [Bool.and_eq_true, decide_eq_true_eq] at hc
    constructor
    · unfold blank
      simp only [Bool.or_eq_false_iff, Bool.and_eq_false_iff, decide_eq_false_iff_not]
      omega
    · rintro rfl
      simp at hc
  exact ⟨hne, fun hm => (hb _ (h _ hm)).2 rfl, fun c hc => (hb c (h c (List.mem_of_head? hc))).1, fun c hc => (hb c (h c (List.mem_of_getLast? hc))).1⟩

theorem decimal_tidy (n : Nat) : Tidy (decimal n) := digits_tidy (decimal_ne n) (decimal_digits n)

theorem parseValue_decimal (n : Nat) : parseValue (decimal n) = .int n := by
  have hd := decimal_digits n
  have hall : (decimal n).all isDigit = true := List.all_eq_true.2 hd
  have h1 : ∀ s, s.all isDigit = false → decimal n ≠ s := fun s hs e => by rw [← e, hall] at hs; simp at hs
  unfold parseValue
  rw [if_neg (by rintro (h | h); exact h1 _ (by decide) h; exact h1 _ (by decide) h), if_pos ⟨decimal_ne n, hall⟩, number_decimal]

theorem tidy_of {s : List Byte} (h : (s ≠ [] ∧ 0x0A#8 ∉ s) ∧ (s.all fun c => !blank c) = true) : Tidy s :=
  ⟨h.1.1, h.1.2, fun c hc => by have := List.all_eq_true.1 h.2 c (List.mem_of_head? hc); simpa using this,
    fun c hc => by have := List.all_eq_true.1 h.2 c (List.mem_of_getLast? hc); simpa using this⟩

/-- "key: value" is tidy if both sides are. -/
theorem pair_tidy {k v : List Byte} (hk : Tidy k) (hv : Tidy v) : Tidy (k ++ 0x3A#8 :: 0x20#8 :: v) where
  nonempty := by simp
  newline := by simp [hk.newline, hv.newline]
  first := by
    intro c hc
    cases k with
    | nil => exact absurd rfl hk.nonempty
    | cons d k => exact hk.first c (by simpa using hc)
  last := by
    intro c hc
    have hv' := hv.nonempty
    rw [show k ++ 0x3A#8 :: 0x20#8 :: v = (k ++ [0x3A#8, 0x20#8]) ++ v by simp, List.getLast?_append] at hc
    cases hl : v.getLast? with
    | none => exact absurd (List.getLast?_eq_none_iff.1 hl) hv'
    | some d => rw [hl] at hc; simp only [Option.some_or, Option.some.injEq] at hc; subst hc; exact hv.last _ hl

theorem entry_pair {k v : List Byte} (hk : Tidy k) (hc : 0x3A#8 ∉ k) (hv : Tidy v) : entry (k ++ 0x3A#8 :: 0x20#8 :: v) = some (k, parseValue v) := by
  unfold entry
  rw [splitColon_key hc]
  simp only [strip_tidy hk, strip_space hv]

/-- A top-level line. -/
theorem scan_top {k v : List Byte} (hk : Tidy k) (hc : 0x3A#8 ∉ k) (hv : Tidy v) (hf : ∀ r, (ascii "fields:").isPrefixOf (k ++ 0x3A#8 :: r) = false)
    (hd : Dict) (fs : List Dict) (cur : Option Dict) : scanLine ⟨hd, fs, cur, false⟩ (k ++ 0x3A#8 :: 0x20#8 :: v) = ⟨(k, parseValue v) :: hd, fs, cur, false⟩ := by
  unfold scanLine
  simp only [strip_tidy (pair_tidy hk hv), hf, Bool.false_eq_true, if_false, entry_pair hk hc hv]

/-- A line of a field that is not its first. -/
theorem scan_prop {k v : List Byte} (n : Nat) (hk : Tidy k) (hc : 0x3A#8 ∉ k) (hv : Tidy v)
    (hf : ∀ r, (ascii "fields:").isPrefixOf (k ++ 0x3A#8 :: r) = false ∧ (ascii "- name:").isPrefixOf (k ++ 0x3A#8 :: r) = false ∧
      (ascii "-").isPrefixOf (k ++ 0x3A#8 :: r) = false)
    (hd : Dict) (fs : List Dict) (f : Dict) :
    scanLine ⟨hd, fs, some f, true⟩ (List.replicate n 0x20#8 ++ (k ++ 0x3A#8 :: 0x20#8 :: v)) = ⟨hd, fs, some ((k, parseValue v) :: f), true⟩ := by
  unfold scanLine
  simp only [strip_spaces (pair_tidy hk hv), (hf _).1, (hf _).2.1, (hf _).2.2, Bool.false_eq_true, if_false, if_true, entry_pair hk hc hv]
  rw [if_pos ⟨by simp, by simp⟩]

theorem prefix_self (a b : List Byte) : a.isPrefixOf (a ++ b) = true := by
  rw [List.isPrefixOf_iff_prefix]; exact List.prefix_append a b

/-- The fields read so far, the last one included. -/
def Scan.all (fs : List Dict) (cur : Option Dict) : List Dict := match cur with | some f => fs ++ [f] | none => fs

/-- The first line of a field. -/
theorem scan_name {v : List Byte} (hv : Tidy v) (hd : Dict) (fs : List Dict) (cur : Option Dict) :
    scanLine ⟨hd, fs, cur, true⟩ (List.replicate 2 0x20#8 ++ (0x2D#8 :: 0x20#8 :: (ascii "name" ++ 0x3A#8 :: 0x20#8 :: v))) =
      ⟨hd, Scan.all fs cur, some [(ascii "name", .str v)], true⟩ := by
  have he : (0x2D#8 :: 0x20#8 :: (ascii "name" ++ 0x3A#8 :: 0x20#8 :: v)) = ascii "- name" ++ 0x3A#8 :: 0x20#8 :: v := by simp [ascii]
  rw [he]
  have ht : Tidy (ascii "- name") :=
    ⟨by decide, by decide, fun c hc => by simp [ascii] at hc; subst hc; decide, fun c hc => by simp [ascii] at hc; subst hc; decide⟩
  have h1 : (ascii "fields:").isPrefixOf (ascii "- name" ++ 0x3A#8 :: 0x20#8 :: v) = false := by simp [ascii, List.isPrefixOf]
  have h2 : (ascii "- name:").isPrefixOf (ascii "- name" ++ 0x3A#8 :: 0x20#8 :: v) = true := by simp [ascii, List.isPrefixOf]
  have h3 : strip ((ascii "- name" ++ 0x3A#8 :: 0x20#8 :: v).drop 7) = v := by
    have : (ascii "- name" ++ 0x3A#8 :: 0x20#8 :: v).drop 7 = 0x20#8 :: v := by simp [ascii]
    rw [this, strip_space hv]
  unfold scanLine
  simp only [strip_spaces (pair_tidy ht hv), h1, h2, h3, Bool.false_eq_true, if_false, if_true]
  cases cur <;> rfl

/-! ## Whole headers -/

/-- The dictionary of a field. -/
def fieldDict (T : FloatText) (f : PointField) : Dict :=
  [(ascii "resolution", parseValue (resText T f)), (ascii "type", parseValue f.type.name), (ascii "offset", .int f.offset.toNat),
   (ascii "name", .str f.name)]

/-- The top-level dictionary. -/
def topDict (info : EncodingInfo) : Dict := ((headLines info).map fun kv => (kv.1, parseValue kv.2)).reverse

theorem typeName_tidy (t : FieldType) : Tidy t.name := by
  have hb : Tidy (ascii "UNKNOWN") := tidy_of (by decide)
  cases t <;> first | exact hb | exact tidy_of (by decide)

/-- The four lines of a field, when the fields before it are complete. -/
theorem scan_field {T : FloatText} {f : PointField} (hn : Tidy f.name) (hr : Tidy (resText T f)) (hd : Dict) (fs : List Dict) (cur : Option Dict) :
    (fieldLines T f).foldl scanLine ⟨hd, fs, cur, true⟩ = ⟨hd, Scan.all fs cur, some (fieldDict T f), true⟩ := by
  unfold fieldLines
  simp only [List.foldl_cons, List.foldl_nil]
  rw [scan_name hn]
  rw [scan_prop 4 (k := ascii "offset") (tidy_of (by decide)) (by decide) (decimal_tidy _)
    (fun r => ⟨by simp [ascii, List.isPrefixOf], by simp [ascii, List.isPrefixOf], by simp [ascii, List.isPrefixOf]⟩)]
  rw [scan_prop 4 (k := ascii "type") (tidy_of (by decide)) (by decide) (typeName_tidy _)
    (fun r => ⟨by simp [ascii, List.isPrefixOf], by simp [ascii, List.isPrefixOf], by simp [ascii, List.isPrefixOf]⟩)]
  rw [scan_prop 4 (k := ascii "resolution") (tidy_of (by decide)) (by decide) hr
    (fun r => ⟨by simp [ascii, List.isPrefixOf], by simp [ascii, List.isPrefixOf], by simp [ascii, List.isPrefixOf]⟩)]
  rw [parseValue_decimal]
  rfl

theorem scan_fields {T : FloatText} (fs : List PointField) (hn : ∀ f ∈ fs, Tidy f.name) (hr : ∀ f ∈ fs, Tidy (resText T f)) (hd : Dict) (done : List Dict)
    (cur : Option Dict) : ∃ done' cur', ((fs.map (fieldLines T)).flatten).foldl scanLine ⟨hd, done, cur, true⟩ = ⟨hd, done', cur', true⟩ ∧
      Scan.all done' cur' = Scan.all done cur ++ fs.map (fieldDict T) := by
  induction fs generalizing done cur with
  | nil => exact ⟨done, cur, rfl, by simp⟩
  | cons f fs ih =>
    simp only [List.map_cons, List.flatten_cons, List.foldl_append]
    rw [scan_field (hn f (by simp)) (hr f (by simp))]
    obtain ⟨d, c, h1, h2⟩ := ih (fun g hg => hn g (by simp [hg])) (fun g hg => hr g (by simp [hg])) (Scan.all done cur) (some (fieldDict T f))
    exact ⟨d, c, h1, h2.trans (by simp [Scan.all])⟩

theorem scan_tops (kvs : List (List Byte × List Byte))
    (h : ∀ kv ∈ kvs, Tidy kv.1 ∧ 0x3A#8 ∉ kv.1 ∧ Tidy kv.2 ∧ ∀ r, (ascii "fields:").isPrefixOf (kv.1 ++ 0x3A#8 :: r) = false) (hd : Dict) :
    (kvs.map keyLine).foldl scanLine ⟨hd, [], none, false⟩ = ⟨(kvs.map fun kv => (kv.1, parseValue kv.2)).reverse ++ hd, [], none, false⟩ := by
  induction kvs generalizing hd with
  | nil => rfl
  | cons kv kvs ih =>
    obtain ⟨a, b, c, d⟩ := h kv (by simp)
    simp only [List.map_cons, List.foldl_cons]
    rw [keyLine, scan_top a b c d, ih (fun x hx => h x (by simp [hx]))]
    simp

/-- What the Python reader needs beyond the C++ one: texts that `strip()` leaves alone. -/
structure PyText (T : FloatText) (info : EncodingInfo) : Prop where
  config : info.encoding_config = [] ∨ Tidy info.encoding_config
  names : ∀ f ∈ info.fields, Tidy f.name
  floats : ∀ f ∈ info.fields, ∀ r, f.resolution = some r → Tidy (T.print r)

theorem encName_tidy (t : EncOpt) : Tidy t.name := by
  have hb : Tidy (ascii "UNKNOWN") := tidy_of (by decide)
  cases t <;> first | exact hb | exact tidy_of (by decide)
theorem compName_tidy (t : CompOpt) : Tidy t.name := by
  have hb : Tidy (ascii "UNKNOWN") := tidy_of (by decide)
  cases t <;> first | exact hb | exact tidy_of (by decide)

/-- The keys of the top level. -/
def topKeys : List (List Byte) :=
  [ascii "version", ascii "width", ascii "height", ascii "point_step", ascii "encoding_opt", ascii "compression_opt", ascii "encoding_config"]

theorem key_part (k : List Byte) (hk : k ∈ topKeys) (v : List Byte) (hv : Tidy v) :
    Tidy (k, v).1 ∧ 0x3A#8 ∉ (k, v).1 ∧ Tidy (k, v).2 ∧ ∀ r, (ascii "fields:").isPrefixOf ((k, v).1 ++ 0x3A#8 :: r) = false := by
  have h1 : ∀ k ∈ topKeys, ((k ≠ [] ∧ 0x0A#8 ∉ k) ∧ (k.all fun c => !blank c) = true) ∧ 0x3A#8 ∉ k ∧ k.head? ≠ (ascii "fields:").head? := by decide
  obtain ⟨a, b, c⟩ := h1 k hk
  refine ⟨tidy_of a, b, hv, fun r => ?_⟩
  cases k with
  | nil => exact absurd rfl a.1.1
  | cons d k =>
    have hd : d ≠ 0x66#8 := fun e => c (by rw [e]; rfl)
    simp [ascii, List.isPrefixOf, hd.symm]

theorem head_tidy {T : FloatText} {info : EncodingInfo} (h : PyText T info) :
    ∀ kv ∈ headLines info, Tidy kv.1 ∧ 0x3A#8 ∉ kv.1 ∧ Tidy kv.2 ∧ ∀ r, (ascii "fields:").isPrefixOf (kv.1 ++ 0x3A#8 :: r) = false := by
  intro kv hkv
  unfold headLines at hkv
  rw [List.mem_append] at hkv
  rcases hkv with hkv | hkv
  · simp only [List.mem_cons, List.not_mem_nil, or_false] at hkv
    rcases hkv with rfl | rfl | rfl | rfl | rfl | rfl
    · exact key_part _ (by decide) _ (decimal_tidy _)
    · exact key_part _ (by decide) _ (decimal_tidy _)
    · exact key_part _ (by decide) _ (decimal_tidy _)
    · exact key_part _ (by decide) _ (decimal_tidy _)
    · exact key_part _ (by decide) _ (encName_tidy _)
    · exact key_part _ (by decide) _ (compName_tidy _)
  · split at hkv
    · next hc =>
      simp only [List.mem_singleton] at hkv
      subst hkv
      exact key_part _ (by decide) _ (h.config.resolve_left hc)
    · simp at hkv

theorem res_tidy {T : FloatText} {info : EncodingInfo} (h : PyText T info) : ∀ f ∈ info.fields, Tidy (resText T f) := by
  intro f hf
  unfold resText
  cases hr : f.resolution with
  | none => exact tidy_of (s := ascii "null") (by decide)
  | some r => exact h.floats f hf r hr

/-- The Python loop reads the text of a description. -/
theorem scan_info {T : FloatText} {info : EncodingInfo} (h : PyText T info) : scan (infoToYaml T info) = ⟨topDict info, info.fields.map (fieldDict T)⟩ := by
  have hnl : ∀ l ∈ infoLines T info, 0x0A#8 ∉ l := by
    intro l hl
    unfold infoLines at hl
    rw [List.mem_append, List.mem_cons] at hl
    rcases hl with hl | rfl | hl
    · obtain ⟨kv, hkv, rfl⟩ := List.mem_map.1 hl
      obtain ⟨a, _, c, _⟩ := head_tidy h kv hkv
      exact (pair_tidy a c).newline
    · decide
    · obtain ⟨ls, hls, hl⟩ := List.mem_flatten.1 hl
      obtain ⟨f, hf, rfl⟩ := List.mem_map.1 hls
      have h1 := (h.names f hf).newline
      have h2 := (res_tidy h f hf).newline
      have h3 := (typeName_tidy f.type).newline
      have h4 := (decimal_tidy f.offset.toNat).newline
      unfold fieldLines at hl
      simp only [List.mem_cons, List.not_mem_nil, or_false] at hl
      rcases hl with rfl | rfl | rfl | rfl
      · simp [ascii, List.replicate, h1]
      · simp [ascii, List.replicate, h4]
      · simp [ascii, List.replicate, h3]
      · simp [ascii, List.replicate, h2]
  unfold scan
  rw [infoToYaml_lines, lines_lines _ hnl]
  unfold infoLines
  have ht : (List.map keyLine (headLines info)).foldl scanLine {} = ⟨topDict info, [], none, false⟩ := by
    have := scan_tops _ (head_tidy h) []
    rw [List.append_nil] at this
    exact this
  rw [List.foldl_append, List.foldl_append, ht, List.foldl_cons (l := (List.map (fieldLines T) info.fields).flatten)]
  have hf : scanLine ⟨topDict info, [], none, false⟩ (ascii "fields:") = ⟨topDict info, [], none, true⟩ := by
    unfold scanLine
    rw [if_pos (by decide)]
  rw [hf]
  obtain ⟨d, c, h1, h2⟩ := scan_fields (T := T) info.fields h.names (res_tidy h) (topDict info) [] none
  have hlast : [([] : List Byte)].foldl scanLine ⟨topDict info, d, c, true⟩ = ⟨topDict info, d, c, true⟩ := by
    have hs : strip [] = [] := rfl
    simp only [List.foldl_cons, List.foldl_nil]
    unfold scanLine
    simp only [hs]
    rw [if_neg (by decide), if_pos trivial, if_neg (by decide), if_neg (by simp)]
  rw [h1, hlast]
  simp only [Info.mk.injEq, true_and]
  simp only [Scan.all, List.nil_append] at h2
  cases c <;> simpa using h2

end Cloudini.Python
