import Verif.Model.Profile

/-!
# The command-line bag converter (`tools/src/cloudini_rosbag_converter.cpp`)

Text of `metadata.yaml`, the place of the output, and profiles in files.  The conversion of the messages themselves is `Model/Mcap`.
-/

namespace Cloudini.Bag

/-- The first position of `pat` in `s`. -/
def findAt (pat : List Byte) : List Byte → Option Nat
  | [] => if pat = [] then some 0 else none
  | c :: s => if pat.isPrefixOf (c :: s) then some 0 else (findAt pat s).map (· + 1)

/-- `s.find(pat, pos)` for a nonempty `pat`. -/
def find (pat s : List Byte) (pos : Nat) : Option Nat := (findAt pat (s.drop pos)).map (· + pos)

theorem findAt_le (pat : List Byte) : ∀ (s : List Byte) (i : Nat), findAt pat s = some i → i + pat.length ≤ s.length := by
  intro s
  induction s with
  | nil =>
    intro i h
    unfold findAt at h
    split at h
    · rename_i hp; cases h; simp [hp]
    · cases h
  | cons c s ih =>
    intro i h
    unfold findAt at h
    split at h
    · rename_i hp
      cases h
      have := (List.isPrefixOf_iff_prefix.1 hp).length_le
      omega
    · cases hf : findAt pat s with
      | none => rw [hf] at h; cases h
      | some j =>
        rw [hf] at h
        simp only [Option.map_some, Option.some.injEq] at h
        have := ih j hf
        simp only [List.length_cons]
        omega

/-- cloudini_rosbag_converter.cpp:29-35 `replaceAll`: the loop, with the string and the position.  (For an empty `from`, which no caller passes, the loop
would not end.) -/
def replaceLoop (pat to : List Byte) (str : List Byte) (pos : Nat) : List Byte :=
  if hp : pat = [] then str
  else
    match h : find pat str pos with
    | none => str
    | some p => replaceLoop pat to (str.take p ++ to ++ str.drop (p + pat.length)) (p + to.length)
termination_by str.length - pos
decreasing_by
  unfold find at h
  cases hf : findAt pat (str.drop pos) with
  | none => rw [hf] at h; cases h
  | some j =>
    rw [hf] at h
    simp only [Option.map_some, Option.some.injEq] at h
    have h1 := findAt_le pat _ _ hf
    have h2 : 0 < pat.length := List.length_pos_iff.2 hp
    simp only [List.length_drop] at h1
    simp only [List.length_append, List.length_take, List.length_drop]
    omega

/-- cloudini_rosbag_converter.cpp:29-35 `replaceAll`. -/
def replaceAll (str pat to : List Byte) : List Byte := replaceLoop pat to str 0

/-- cloudini_rosbag_converter.cpp:60-63: `pop_back` while the last character is a space or a carriage return. -/
def dropBlankEnd (s : List Byte) : List Byte := (s.reverse.dropWhile fun c => c = 32#8 ∨ c = 13#8).reverse

/-- cloudini_rosbag_converter.cpp:44-49. -/
def rawType : List Byte := ascii "sensor_msgs/msg/PointCloud2"
def compressedType : List Byte := ascii "point_cloud_interfaces/msg/CompressedPointCloud2"

/-- cloudini_rosbag_converter.cpp:53-59: the first name of the "relative_file_paths:" section, before trimming. -/
def firstFile (content : List Byte) : Option (List Byte) :=
  match find (ascii "relative_file_paths:") content 0 with
  | none => none
  | some rfp =>
    match find (ascii "- ") content rfp with
    | none => none
    | some dash =>
      match find (ascii "\n") content (dash + 2) with
      | none => some (content.drop (dash + 2))
      | some e => some ((content.drop (dash + 2)).take (e - (dash + 2)))

/-- cloudini_rosbag_converter.cpp:37-74 `generateMetadataYaml`: the text written, from the text read. -/
def metadata (content newName : List Byte) (encoding : Bool) : List Byte :=
  let old := if encoding then rawType else compressedType
  let new := if encoding then compressedType else rawType
  let content := replaceAll content (ascii "type: " ++ old) (ascii "type: " ++ new)
  match firstFile content with
  | none => content
  | some line =>
    let name := dropBlankEnd line
    if name = [] then content else replaceAll content name newName

/-! ### where the output goes -/

/-- One component of a path. -/
inductive Comp where
  | name (n : List Byte)
  | dot
  | dotdot
  deriving DecidableEq, Repr

/-- The directories that exist, by their names from the root.  (No symbolic links; regular files are not modelled.) -/
abbrev Dirs := List (List (List Byte))

/-- Following a path from an existing directory; `none` if some directory on the way does not exist. -/
def resolve (ds : Dirs) : List (List Byte) → List Comp → Option (List (List Byte))
  | at_, [] => some at_
  | at_, .dot :: p => resolve ds at_ p
  | at_, .dotdot :: p => resolve ds at_.dropLast p
  | at_, .name n :: p => if at_ ++ [n] ∈ ds then resolve ds (at_ ++ [n]) p else none

/-- `std::filesystem::create_directories`: every directory on the way that does not exist is made. -/
def createDirs : Dirs → List (List Byte) → List Comp → Dirs
  | ds, _, [] => ds
  | ds, at_, .dot :: p => createDirs ds at_ p
  | ds, at_, .dotdot :: p => createDirs ds at_.dropLast p
  | ds, at_, .name n :: p => createDirs (if at_ ++ [n] ∈ ds then ds else (at_ ++ [n]) :: ds) (at_ ++ [n]) p

/-- Where the run ends: refused, or the directory into which the bag (`file`) and, if the input has metadata, `metadata.yaml` are written. -/
inductive Placed where
  | refused
  | into (dir : List (List Byte)) (file : List Byte) (writesMetadata : Bool)
  deriving DecidableEq, Repr

/-- The directory part of the output path: absolute or relative to the current directory. -/
structure OutDir where
  absolute : Bool
  comps : List Comp
  deriving DecidableEq, Repr

/-- Where a path starts: the root or the current directory. -/
def OutDir.start (cwd : List (List Byte)) (o : OutDir) : List (List Byte) := if o.absolute then [] else cwd

/-- cloudini_rosbag_converter.cpp:217-242 and 338-346 for the output `o`/`file`: the test that protects the original metadata (`input` is the canonical directory
of the input bag, `none` if it has no `metadata.yaml`), the creation of the directories and the place the files are opened in.  A path that does not
exist is compared as it is written; being different from a directory that exists, it passes. -/
def place (ds : Dirs) (cwd : List (List Byte)) (input : Option (List (List Byte))) (o : OutDir) (file : List Byte) : Placed :=
  match resolve ds (o.start cwd) o.comps with
  | some d => if input = some d then .refused else .into d file input.isSome
  | none =>
    match resolve (createDirs ds (o.start cwd) o.comps) (o.start cwd) o.comps with
    | some d => .into d file input.isSome
    | none => .refused

/-- cloudini_rosbag_converter.cpp:198-215: the output without `-o`: directory (relative to the canonical parent of the input directory, or the current
directory) and file name from the stem. -/
def defaultName (stem : List Byte) (encode : Bool) : List Byte := stem ++ ascii (if encode then "_encoded" else "_decoded") ++ ascii ".mcap"

/-- cloudini_rosbag_converter.cpp:202-207: the directory of the default output when the input has metadata. -/
def defaultDir (input : List (List Byte)) (encode : Bool) : OutDir :=
  ⟨true, (input.dropLast.map .name) ++ [.name ((input.getLast?.getD []) ++ ascii (if encode then "_encoded" else "_decoded"))]⟩

/-! ### profiles in files -/

/-- cloudini_rosbag_converter.cpp:314-316: `file >> profile`. -/
def firstWord (text : List Byte) : List Byte := (text.dropWhile isSpace).takeWhile fun c => !isSpace c

/-- cloudini_rosbag_converter.cpp:309-320: the profile option; `file` is the text of the file of that name, if it exists. -/
def profileOption (stof : List Byte → Res (BitVec 32)) (file : Option (List Byte)) (arg : List Byte) (m : Profile.Map) : Profile.Map × Res Unit :=
  match file with
  | some text => Profile.addProfile stof (firstWord text) m
  | none => Profile.addProfile stof arg m

end Cloudini.Bag
