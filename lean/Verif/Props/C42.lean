import Verif.Lemmas.Pcd

/-!
# C42: PCD headers and PCL clouds
-/

namespace Cloudini.Props

open Cloudini.Pcd

/-- Splitting a line at a delimiter yields the pieces between the delimiters, and these are the only ones. -/
theorem C42_split (d : Byte) (s : List Byte) (toks : List (List Byte)) : Pieces d s toks ↔ split d s = toks :=
  ⟨split_unique, by rintro rfl; exact split_pieces d s⟩

/-- The end of the header: nothing more, a space and more, a carriage return, a comment or a newline and the points. -/
def DataLine (tail : List Byte) : Prop := ∃ l, 10#8 ∉ l ∧ (split 32#8 (truncate l)).head? = some (ascii "DATA") ∧ (tail = l ∨ ∃ r, tail = l ++ 10#8 :: r)

theorem readLines_data (fuel : Nat) (tail line : List Byte) (c : Columns) (h : DataLine tail) : readLines (fuel + 1) ⟨tail, false⟩ line c = .ok c := by
  obtain ⟨l, h1, h2, h3⟩ := h
  have hu : useLine (truncate l) c = none := by
    unfold useLine
    cases hs : split 32#8 (truncate l) with
    | nil => exact absurd hs (split_ne_nil _ _)
    | cons key toks =>
      rw [hs] at h2
      simp only [List.head?_cons, Option.some.injEq] at h2
      subst h2
      simp only
      rw [if_neg (by decide), if_neg (by decide), if_neg (by decide)]
      rfl
  rcases h3 with rfl | ⟨r, rfl⟩
  · simp only [readLines, getline_last line h1, hu]
  · simp only [readLines, getline_line line h1, hu]

/-- **C42 (partial).** For a header of lines none of which is empty once its comment is cut off, ended by a DATA line: if FIELDS, SIZE and
TYPE list equally many entries and the sizes are numbers, every name gets the type of its letter and size, and no other name gets one.
(Entries are separated by single spaces.  `lastOf`: of several FIELDS lines the last counts; `lastType`: of several entries for a name the
last counts.)  Missing: headers with a comment line or an empty line before DATA (`C42_comment_first`), without a DATA line
(`C42_hangs`), and the sizes that are mapped wrongly (`C42_eight_bytes`). -/
theorem C42_header_partial (pre : List (List Byte)) (tail : List Byte) (bytes : List Int) (fuel : Nat) (hfuel : pre.length + 1 ≤ fuel)
    (hpre : ∀ l ∈ pre, Plain l) (htail : DataLine tail)
    (hsize : (lastOf (ascii "FIELDS") (pre.map truncate)).length = (lastOf (ascii "SIZE") (pre.map truncate)).length)
    (htype : (lastOf (ascii "FIELDS") (pre.map truncate)).length = (lastOf (ascii "TYPE") (pre.map truncate)).length)
    (hbytes : (lastOf (ascii "SIZE") (pre.map truncate)).length = bytes.length)
    (hstoi : ∀ (i : Nat) s b, (lastOf (ascii "SIZE") (pre.map truncate))[i]? = some s → bytes[i]? = some b → stoi s = .ok b) :
    ∃ m, readPcd fuel ((pre.map (· ++ [10#8])).flatten ++ tail) = .ok m ∧
      ∀ k, m k = lastType ((lastOf (ascii "FIELDS") (pre.map truncate)).zip (bytes.zip (lastOf (ascii "TYPE") (pre.map truncate)))) k := by
  obtain ⟨f, rfl⟩ : ∃ f, fuel = (f + 1) + pre.length := ⟨fuel - 1 - pre.length, by omega⟩
  obtain ⟨line', e⟩ := readLines_plain (f + 1) pre tail [] {} hpre
  rw [readLines_data f tail line' _ htail] at e
  obtain ⟨a1, a2, a3⟩ := after_spec (pre.map truncate)
  obtain ⟨m, e1, e2⟩ := collect_spec _ _ _ bytes (fun _ => none) hsize htype hbytes hstoi
  refine ⟨m, ?_, fun k => by rw [e2 k, Option.or_none]⟩
  unfold readPcd
  rw [e, Res.ok_bind, a1, a2, a3, if_neg (by omega)]
  exact e1

/-- **C42, mismatch.** If the three lines list different numbers of entries the header is rejected. -/
theorem C42_mismatch (pre : List (List Byte)) (tail : List Byte) (fuel : Nat) (hfuel : pre.length + 1 ≤ fuel) (hpre : ∀ l ∈ pre, Plain l) (htail : DataLine tail)
    (h : (lastOf (ascii "FIELDS") (pre.map truncate)).length ≠ (lastOf (ascii "SIZE") (pre.map truncate)).length ∨
      (lastOf (ascii "FIELDS") (pre.map truncate)).length ≠ (lastOf (ascii "TYPE") (pre.map truncate)).length) :
    (readPcd fuel ((pre.map (· ++ [10#8])).flatten ++ tail)).isThrow = true := by
  obtain ⟨f, rfl⟩ : ∃ f, fuel = (f + 1) + pre.length := ⟨fuel - 1 - pre.length, by omega⟩
  obtain ⟨line', e⟩ := readLines_plain (f + 1) pre tail [] {} hpre
  rw [readLines_data f tail line' _ htail] at e
  obtain ⟨a1, a2, a3⟩ := after_spec (pre.map truncate)
  unfold readPcd
  rw [e, Res.ok_bind, a1, a2, a3, if_pos h]
  rfl

/-- The types PCD writers use and the library's field types. -/
theorem C42_types : typeOf (ascii "I") 1 = .int8 ∧ typeOf (ascii "I") 2 = .int16 ∧ typeOf (ascii "I") 4 = .int32 ∧ typeOf (ascii "U") 1 = .uint8 ∧
    typeOf (ascii "U") 2 = .uint16 ∧ typeOf (ascii "U") 4 = .uint32 ∧ typeOf (ascii "U") 8 = .uint64 ∧ typeOf (ascii "F") 4 = .float32 := by decide

/-- **C42, 8-byte fields.** Doubles and signed 64-bit integers stay UNKNOWN. -/
theorem C42_eight_bytes : typeOf (ascii "F") 8 = .unknown ∧ typeOf (ascii "I") 8 = .unknown := by decide

/-- Anything known has the size the header gives. -/
theorem C42_size (letter : List Byte) (bytes : Int) (h : typeOf letter bytes ≠ .unknown) : bytes = sizeOf (typeOf letter bytes) := by
  unfold typeOf at *
  repeat' split at h
  all_goals first | exact absurd rfl h | skip
  all_goals simp_all [sizeOf]

/-- **C42, comments.** A header that starts with a comment line, as PCL writes it ("# .PCD v0.7 ..."), or with an empty line, is not read at
all: the map is empty, without an error. -/
theorem C42_comment_first (fuel : Nat) (rest : List Byte) (c : Byte) (hc : c = 35#8 ∨ c = 13#8 ∨ c = 10#8) :
    readPcd (fuel + 1) (c :: rest) = .ok (fun _ => none) := by
  have key : ∀ st line', getline ⟨c :: rest, false⟩ [] = (st, line') → truncate line' = [] := by
    intro st line' h
    simp only [getline, Bool.false_eq_true, if_false] at h
    split at h
    · rename_i e
      have : line' = c :: rest := (congrArg Prod.snd h).symm
      subst this
      rcases hc with rfl | rfl | rfl
      · simp [truncate]
      · simp [truncate, List.takeWhile_cons]
      · simp at e
    · rename_i e
      have : line' = (c :: rest).takeWhile (· != 10#8) := (congrArg Prod.snd h).symm
      subst this
      rcases hc with rfl | rfl | rfl
      · simp [truncate, List.takeWhile_cons]
      · simp [truncate, List.takeWhile_cons]
      · simp [truncate]
  have ht : truncate (getline ⟨c :: rest, false⟩ []).2 = [] := key _ _ rfl
  have hu : useLine [] {} = some {} := by
    unfold useLine
    rw [split_nil_of_notMem (by simp)]
    simp only
    rw [if_neg (by decide), if_neg (by decide), if_neg (by decide), if_neg (by decide)]
  unfold readPcd
  simp only [readLines, ht, hu]
  rfl

/-- **C42, no end.** A file without DATA line whose last line is not empty and not ended by a newline is never finished: however many
iterations, the loop goes on. -/
theorem C42_hangs (pre : List (List Byte)) (l : List Byte) (hpre : ∀ l ∈ pre, Plain l) (hl : Plain l) (fuel : Nat) :
    readPcd fuel ((pre.map (· ++ [10#8])).flatten ++ l) = .ub .loop := by
  have key : ∀ (pre : List (List Byte)) (fuel : Nat) (line : List Byte) (c : Columns), (∀ l ∈ pre, Plain l) →
      readLines fuel ⟨(pre.map (· ++ [10#8])).flatten ++ l, false⟩ line c = .ub .loop := by
    intro pre
    induction pre with
    | nil =>
      intro fuel line c _
      cases fuel with
      | zero => rfl
      | succ fuel =>
        simp only [List.map_nil, List.flatten_nil, List.nil_append, readLines, getline_last line hl.1]
        rw [useLine_plain c hl.2.2]
        simp only
        rw [if_pos hl.2.1]
        exact readLines_stuck fuel _ _ (truncate_idem l) hl.2.1 hl.2.2
    | cons a pre ih =>
      intro fuel line c h
      cases fuel with
      | zero => rfl
      | succ fuel =>
        obtain ⟨h1, h2, h3⟩ := h a (.head _)
        have e1 : ((a :: pre).map (· ++ [10#8])).flatten ++ l = a ++ 10#8 :: ((pre.map (· ++ [10#8])).flatten ++ l) := by simp
        rw [e1]
        simp only [readLines, getline_line line h1]
        rw [useLine_plain c h3]
        simp only
        rw [if_pos h2]
        exact ih fuel _ _ fun x hx => h x (.tail _ hx)
  unfold readPcd
  rw [key pre fuel [] {} hpre]
  rfl

/-! ### Non-vacuity -/

def pcdLines : List (List Byte) :=
  [ascii "VERSION .7", ascii "FIELDS x y stamp", ascii "SIZE 4 4 8", ascii "TYPE F F U # comment", ascii "COUNT 1 1 1", ascii "WIDTH 2"]

/-- A header that meets the first hypotheses of `C42_header_partial` but, with four entries in its TYPE line, not the last: `C42_mismatch`
applies. -/
theorem pcd_lines : (∀ l ∈ pcdLines, Plain l) ∧ DataLine (ascii "DATA binary\nxyz") ∧
    lastOf (ascii "FIELDS") (pcdLines.map truncate) = [ascii "x", ascii "y", ascii "stamp"] ∧
    lastOf (ascii "SIZE") (pcdLines.map truncate) = [ascii "4", ascii "4", ascii "8"] ∧
    (lastOf (ascii "SIZE") (pcdLines.map truncate)).map stoi = [.ok 4, .ok 4, .ok 8] := by
  refine ⟨?_, ⟨ascii "DATA binary", by decide +kernel, by decide +kernel, Or.inr ⟨ascii "xyz", by decide +kernel⟩⟩, by decide +kernel, by decide +kernel, by decide +kernel⟩
  have : ∀ l ∈ pcdLines, 10#8 ∉ l ∧ truncate l ≠ [] ∧ (split 32#8 (truncate l)).head? ≠ some (ascii "DATA") := by decide +kernel
  exact this

example : (readPcd 7 ((pcdLines.map (· ++ [10#8])).flatten ++ ascii "DATA binary\nxyz")).isThrow = true :=
  C42_mismatch pcdLines _ 7 (by decide) pcd_lines.1 pcd_lines.2.1 (Or.inr (by decide +kernel))

/-- The same header without the comment meets all of them: x is FLOAT32, stamp UINT64, and there is no z. -/
def goodLines : List (List Byte) :=
  [ascii "VERSION .7", ascii "FIELDS x y stamp", ascii "SIZE 4 4 8", ascii "TYPE F F U", ascii "COUNT 1 1 1", ascii "WIDTH 2"]
example : ∃ m, readPcd 7 ((goodLines.map (· ++ [10#8])).flatten ++ ascii "DATA binary\nxyz") = .ok m ∧ m (ascii "x") = some .float32 ∧ m (ascii "stamp") = some .uint64 ∧
    m (ascii "z") = none := by
  have hl : ∀ l ∈ goodLines, 10#8 ∉ l ∧ truncate l ≠ [] ∧ (split 32#8 (truncate l)).head? ≠ some (ascii "DATA") := by decide +kernel
  obtain ⟨m, h1, h2⟩ := C42_header_partial goodLines (ascii "DATA binary\nxyz") [4, 4, 8] 7 (by decide) hl pcd_lines.2.1 (by decide +kernel) (by decide +kernel)
    (by decide +kernel) (by
      intro i s b hs hb
      have e : lastOf (ascii "SIZE") (goodLines.map truncate) = [ascii "4", ascii "4", ascii "8"] := by decide +kernel
      rw [e] at hs
      match i, hs, hb with
      | 0, hs, hb => simp at hs hb; subst hs hb; decide +kernel
      | 1, hs, hb => simp at hs hb; subst hs hb; decide +kernel
      | 2, hs, hb => simp at hs hb; subst hs hb; decide +kernel
      | n + 3, hs, _ => simp at hs)
  exact ⟨m, h1, (h2 _).trans (by decide +kernel), (h2 _).trans (by decide +kernel), (h2 _).trans (by decide +kernel)⟩

example : (5 : Int) ≠ 4 ∧ typeOf (ascii "F") 4 ≠ .unknown ∧ (4 : Int) = sizeOf (typeOf (ascii "F") 4) := ⟨by decide, by decide, C42_size (ascii "F") 4 (by decide)⟩
example (rest : List Byte) : readPcd 1 (35#8 :: rest) = .ok (fun _ => none) := C42_comment_first 0 rest _ (Or.inl rfl)
example (fuel : Nat) : readPcd fuel ((pcdLines.map (· ++ [10#8])).flatten ++ ascii "HEIGHT 1") = .ub .loop :=
  C42_hangs pcdLines _ pcd_lines.1 (show 10#8 ∉ ascii "HEIGHT 1" ∧ truncate (ascii "HEIGHT 1") ≠ [] ∧ (split 32#8 (truncate (ascii "HEIGHT 1"))).head? ≠ some (ascii "DATA") by decide +kernel) fuel

/-- The type line with a comment has four entries, so this header is rejected; without the comment it is read. -/
example : (readPcd 9 ((pcdLines.map (· ++ [10#8])).flatten ++ ascii "DATA binary\nxyz")).isThrow = true ∧
    (readPcd 9 (ascii "FIELDS x y stamp\nSIZE 4 4 8\r\nTYPE F F U#c\nDATA ascii\n")).bind (fun m => .ok (m (ascii "x"), m (ascii "stamp"), m (ascii "z"))) =
      .ok (some .float32, some .uint64, none) := by decide +kernel

/-! ### PCL clouds -/

/-- **C42, layout.** The info of a PCL cloud has the cloud's dimensions and point step, and one field per field of the cloud, with its name
and offset. -/
theorem C42_layout (w h step : BitVec 32) (fields : List PclField) (res : Option (BitVec 32)) :
    (toInfo w h step fields res).width = w ∧ (toInfo w h step fields res).height = h ∧ (toInfo w h step fields res).point_step = step ∧
      (toInfo w h step fields res).fields.map (fun f => (f.name, f.offset)) = fields.map (fun f => (f.name, f.offset)) := by
  refine ⟨rfl, rfl, rfl, ?_⟩
  simp [toInfo]

/-- The fields a decoded PCL cloud reports are those of the encoded one (count set to 1), for the eight types PCL and the library share. -/
theorem C42_fields_roundtrip (w h step : BitVec 32) (fields : List PclField) (res : Option (BitVec 32))
    (ht : ∀ f ∈ fields, 1 ≤ f.datatype.toNat ∧ f.datatype.toNat ≤ 8) :
    fromInfo (toInfo w h step fields res).fields = fields.map fun f => { f with count := 1#32 } := by
  have key : ∀ d : Byte, 1 ≤ d.toNat → d.toNat ≤ 8 → (pclType d).code = d := by decide +kernel
  unfold fromInfo toInfo
  simp only [List.map_map]
  refine List.map_congr_left fun f hf => ?_
  obtain ⟨h1, h2⟩ := ht f hf
  simp only [Function.comp, key f.datatype h1 h2]

/-- Of `fixTypes`: the fields keep name, offset and resolution, and only unknown types change. -/
theorem C42_fix (m : Types) (fields out : List PointField) (h : fixTypes m fields = .ok out) :
    out = fields.map fun f => if f.type = .unknown then { f with type := (m f.name).getD .unknown } else f := by
  induction fields generalizing out with
  | nil => cases h; rfl
  | cons f fs ih =>
    simp only [fixTypes] at h
    split at h
    · rename_i hu
      split at h
      · cases h
      · rename_i t ht
        obtain ⟨gs, e, h⟩ := Res.bind_eq_ok.1 h
        cases h
        rw [ih gs e]
        simp [hu, ht]
    · rename_i hu
      obtain ⟨gs, e, h⟩ := Res.bind_eq_ok.1 h
      cases h
      rw [ih gs e]
      simp [hu]

/-- With the empty map of a file that starts with a comment, a cloud with an unknown field is rejected. -/
theorem C42_unknown_rejected (fields : List PointField) (h : ∃ f ∈ fields, f.type = .unknown) : (fixTypes (fun _ => none) fields).isThrow = true := by
  induction fields with
  | nil => obtain ⟨f, hf, -⟩ := h; cases hf
  | cons g fs ih =>
    simp only [fixTypes]
    by_cases hg : g.type = .unknown
    · rw [if_pos hg]; rfl
    · rw [if_neg hg]
      obtain ⟨f, hf, hu⟩ := h
      rcases List.mem_cons.1 hf with rfl | hf
      · exact absurd hu hg
      · have := ih ⟨f, hf, hu⟩
        cases e : fixTypes (fun _ => none) fs with
        | ok a => rw [e] at this; cases this
        | ub k => rw [e] at this; cases this
        | throw m => rfl

example : (fixTypes (fun _ => none) [⟨ascii "x", 0#32, .float32, none⟩, ⟨ascii "t", 4#32, .unknown, none⟩]).isThrow = true := C42_unknown_rejected _ ⟨⟨ascii "t", 4#32, .unknown, none⟩, by simp, rfl⟩

end Cloudini.Props
