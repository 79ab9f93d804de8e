import Verif.Model.Bag
import Verif.Model.PcdTool

/-!
# The program `cloudini_rosbag_converter` (`tools/src/cloudini_rosbag_converter.cpp`, `main`) and the script `benchmark_compression.py`

The command line is the record the option parser delivers.  The file system has directories and regular files, no links.  What the MCAP library and the
converter class make of the bytes of a file is a parameter (`Tool`; the class itself is `Model/Mcap`).  What is printed is left out.
-/

namespace Cloudini.Bag

/-- A regular file. -/
structure Entry where
  dir : List (List Byte)
  name : List Byte
  content : List Byte
  deriving DecidableEq, Repr

/-- The file system. -/
structure Fs where
  dirs : Dirs
  files : List Entry
  deriving DecidableEq, Repr

/-- The content of a file. -/
def Fs.get (fs : Fs) (d : List (List Byte)) (n : List Byte) : Option (List Byte) :=
  (fs.files.find? fun e => e.dir = d ∧ e.name = n).map (·.content)

/-- Opening a file for writing, truncating it, and writing `c`. -/
def Fs.put (fs : Fs) (d : List (List Byte)) (n c : List Byte) : Fs :=
  { fs with files := ⟨d, n, c⟩ :: fs.files.filter fun e => ¬ (e.dir = d ∧ e.name = n) }

/-- `std::filesystem::directory_iterator`: the names of the files in a directory.  (Subdirectories whose names end in `.mcap` are left out.) -/
def Fs.list (fs : Fs) (d : List (List Byte)) : List (List Byte) := (fs.files.filter fun e => e.dir = d).map (·.name)

/-- A path: the directory part and the last component; the latter is empty for a path that ends in a slash and for the empty text.  (A last component `.` or
`..` is part of `dir`.) -/
structure Path where
  dir : OutDir
  file : List Byte
  deriving DecidableEq, Repr

/-- The empty text. -/
def Path.isEmpty (p : Path) : Bool := !p.dir.absolute && p.dir.comps.isEmpty && p.file.isEmpty

/-- All components. -/
def Path.comps (p : Path) : List Comp := if p.file = [] then p.dir.comps else p.dir.comps ++ [.name p.file]

/-- The options (cloudini_rosbag_converter.cpp:81-101), as the parser delivers them; `resolution` is the bit pattern of the double. -/
structure Args where
  help : Bool := false
  yes : Bool := false
  filename : Option Path := none
  output : Option Path := none
  resolution : BitVec 64 := 0#64
  profile : Option (List Byte) := none
  compress : Bool := false
  decode : Bool := false
  viz : Bool := false
  method : List Byte := ascii "zstd"
  deriving DecidableEq, Repr

/-- How a conversion ends: the output could not be opened; an exception left a file behind; done. -/
inductive Converted where
  | notOpened
  | failed (left : List Byte)
  | done (out : List Byte)
  deriving DecidableEq, Repr

/-- The class `McapConverter` on bytes. -/
structure Tool where
  /-- `open`: how many topics of raw and of compressed clouds; `none` is an exception -/
  topics : List Byte → Option (Nat × Nat)
  /-- `encodePointClouds` / `decodePointClouds` on an input that is a different file than the output -/
  convert : Args → Profile.Map → List Byte → Converted
  /-- the same when the output is the input itself, which is truncated before its messages are read -/
  ontoItself : Args → Profile.Map → List Byte → Converted
  /-- `std::stof` -/
  stof : List Byte → Res (BitVec 32)

/-- How the program ends. -/
inductive Exit where
  | code (n : Nat)
  /-- an exception that nobody catches: `std::terminate` -/
  | abort
  /-- the value of a variable nobody has set is used -/
  | undefined
  deriving DecidableEq, Repr

def metadataName : List Byte := ascii "metadata.yaml"

/-- What `-f` leads to: the directory (if it exists) and the name of the `.mcap` file, the directory of `metadata.yaml` if there is one, and whether the
path of `metadata.yaml` has no directory part. -/
structure Source where
  dir : Option (List (List Byte))
  name : List Byte
  metaDir : Option (List (List Byte))
  bare : Bool
  deriving DecidableEq, Repr

/-- cloudini_rosbag_converter.cpp:157-196: the input; `none` is the exit with code 1. -/
def source (fs : Fs) (cwd : List (List Byte)) (p : Path) : Option Source :=
  match resolve fs.dirs (p.dir.start cwd) p.comps with
  | some d =>
    if fs.get d metadataName = none then none
    else
      match (fs.list d).filter fun n => PcdTool.extOf n = ascii ".mcap" with
      | [n] => some ⟨some d, n, some d, false⟩
      | _ => none
  | none =>
    if PcdTool.extOf p.file = ascii ".mcap" then
      some ⟨resolve fs.dirs (p.dir.start cwd) p.dir.comps, p.file,
        (resolve fs.dirs (p.dir.start cwd) p.dir.comps).filter fun d => (fs.get d metadataName).isSome,
        !p.dir.absolute && p.dir.comps.isEmpty⟩
    else none

/-- `path::stem` of a file name. -/
def stemOf (n : List Byte) : List Byte := n.take (n.length - (PcdTool.extOf n).length)

/-- cloudini_rosbag_converter.cpp:198-215: where the output is to go. -/
def target (a : Args) (s : Source) : OutDir × List Byte :=
  match a.output with
  | some p => (p.dir, if PcdTool.extOf p.file = ascii ".mcap" then p.file else p.file ++ ascii ".mcap")
  | none =>
    match s.metaDir with
    | some d => (defaultDir d a.compress, defaultName (stemOf s.name) a.compress)
    | none => (⟨false, []⟩, defaultName (stemOf s.name) a.compress)

/-- cloudini_rosbag_converter.cpp:236-240: the directory of the output is made. -/
def Fs.mkdirs (fs : Fs) (cwd : List (List Byte)) (o : OutDir) : Fs :=
  match resolve fs.dirs (o.start cwd) o.comps with
  | some _ => fs
  | none => { fs with dirs := createDirs fs.dirs (o.start cwd) o.comps }

/-- cloudini_rosbag_converter.cpp:310-320: the profile; `none` is an exception.  (A file is looked for in the current directory only.) -/
def profileOf (K : Tool) (fs : Fs) (cwd : List (List Byte)) (a : Args) : Option Profile.Map :=
  match a.profile with
  | none => some []
  | some arg =>
    match profileOption K.stof (fs.get cwd arg) arg [] with
    | (m, .ok _) => some m
    | _ => none

/-- cloudini_rosbag_converter.cpp:260-358: from the choice of the method on; the output is `file` in `dir`.  Simplified: `metadata.yaml` can be read and written
once the bag has been written. -/
def convert (K : Tool) (fs : Fs) (cwd : List (List Byte)) (a : Args) (s : Source) (dir : List (List Byte)) (file : List Byte) : Exit × Fs :=
  if a.method ≠ ascii "none" ∧ a.method ≠ ascii "zstd" then (.code 1, fs)
  else
    match s.dir.bind fun d => fs.get d s.name with
    | none => (.code 1, fs)
    | some bytes =>
      match K.topics bytes with
      | none => (.code 1, fs)
      | some (raw, compressed) =>
        if raw = 0 ∧ compressed = 0 then (.code 0, fs)
        else if raw = 0 ∧ a.compress then (.code 1, fs)
        else if compressed = 0 ∧ a.decode then (.code 1, fs)
        else
          match profileOf K fs cwd a with
          | none => (.code 1, fs)
          | some m =>
            match (if s.dir = some dir ∧ s.name = file then K.ontoItself a m bytes else K.convert a m bytes) with
            | .notOpened => (.code 1, fs)
            | .failed left => (.code 1, fs.put dir file left)
            | .done out =>
              match s.metaDir with
              | none => (.code 0, fs.put dir file out)
              | some d =>
                (.code 0, (fs.put dir file out).put dir metadataName
                  (metadata (((fs.put dir file out).get d metadataName).getD []) file a.compress))

/-- cloudini_rosbag_converter.cpp:242-257: the question before an existing output is replaced; `answer` is the next character of the standard input. -/
def confirm (K : Tool) (fs : Fs) (cwd : List (List Byte)) (answer : Option Byte) (a : Args) (s : Source) (dir : List (List Byte)) (file : List Byte) :
    Exit × Fs :=
  if a.decode ∧ a.profile.isSome then (.code 1, fs)
  else if (fs.get dir file).isSome ∧ ¬ a.yes then
    match answer with
    | none => (.undefined, fs)
    | some c => if c ≠ 0x79#8 ∧ c ≠ 0x59#8 then (.code 0, fs) else convert K fs cwd a s dir file
  else convert K fs cwd a s dir file

/-- cloudini_rosbag_converter.cpp:78-359 `main`: how the program ends and the file system it leaves.  `canonical` of the empty path (lines 204, 223) throws
outside the `try` block. -/
def main (K : Tool) (fs : Fs) (cwd : List (List Byte)) (answer : Option Byte) (a : Args) : Exit × Fs :=
  if a.help then (.code 0, fs)
  else
    match a.filename with
    | none => (.code 1, fs)
    | some p =>
      if p.isEmpty then (.code 1, fs)
      else if a.compress ∧ a.decode then (.code 1, fs)
      else if ¬ a.compress ∧ ¬ a.decode then (.code 1, fs)
      else if a.viz ∧ ¬ a.compress then (.code 1, fs)
      else
        match source fs cwd p with
        | none => (.code 1, fs)
        | some s =>
          if s.metaDir.isSome ∧ s.bare then (.abort, fs)
          else
            match place fs.dirs cwd s.metaDir (target a s).1 (target a s).2 with
            | .refused => (.code 1, fs)
            | .into dir file _ => confirm K (fs.mkdirs cwd (target a s).1) cwd answer a s dir file

/-! ### `benchmark_compression.py` -/

/-- benchmark_compression.py:79-86: one row: the name and the sizes in bytes (the division and the rounding to megabytes, and the time, are left out).  A
size of zero counts as missing (`if compressed_size`). -/
structure Row where
  name : List Byte
  original : Nat
  compressed : Option Nat
  deriving DecidableEq, Repr

/-- benchmark_compression.py:35: the command line. -/
def benchArgs (dataDir name : List Byte) : Args :=
  { compress := true, yes := true, filename := some ⟨⟨false, [.name dataDir]⟩, name⟩ }

/-- benchmark_compression.py:52-88 `process_file`: the file system afterwards and the row; `none` if the program failed.  The directory is `dataDir` in `cwd`.
`os.path.splitext` and `path::stem` agree on names that end in `.mcap` and are longer. -/
def processFile (K : Tool) (cwd : List (List Byte)) (dataDir : List Byte) (fs : Fs) (name : List Byte) : Fs × Option Row :=
  let r := main K fs cwd none (benchArgs dataDir name)
  if r.1 ≠ .code 0 then (r.2, none)
  else
    let size := ((r.2.get cwd (stemOf name ++ ascii "_encoded.mcap")).map List.length).filter (· ≠ 0)
    (r.2, some ⟨name, ((fs.get (cwd ++ [dataDir]) name).map List.length).getD 0, size⟩)

/-- benchmark_compression.py:102-103: the files of the directory that are measured (`glob` leaves out names that begin with a dot). -/
def benchFiles (fs : Fs) (d : List (List Byte)) : List (List Byte) :=
  (fs.list d).filter fun n => n.head? != some 0x2E#8 && (ascii ".mcap").isSuffixOf n && !(ascii "_encoded.mcap").isSuffixOf n

/-- benchmark_compression.py:115-147: all files, in the order in which the thread pool happens to run them.  Simplified: runs of different files do not overlap
in time; they touch different files (`C89_rows_partial`). -/
def processAll (K : Tool) (cwd : List (List Byte)) (dataDir : List Byte) : Fs → List (List Byte) → Fs × List Row
  | fs, [] => (fs, [])
  | fs, n :: ns =>
    let r := processFile K cwd dataDir fs n
    let rest := processAll K cwd dataDir r.1 ns
    (rest.1, r.2.toList ++ rest.2)

/-- benchmark_compression.py:171-172: the mean of the ratios, as the sum of compressed/original over the rows that have one and their number; without such a row
the division by zero is an exception (after the table has been saved). -/
def summary (rows : List Row) : Res (List (Nat × Nat) × Nat) :=
  if rows = [] then .ok ([], 0)
  else
    let rated := rows.filterMap fun r => r.compressed.map fun c => (c, r.original)
    if rated = [] then .throw "ZeroDivisionError" else .ok (rated, rated.length)

end Cloudini.Bag
