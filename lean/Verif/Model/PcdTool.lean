import Verif.Model.PclCloud

/-!
# The program `pcd_to_cloudini_converter` (`tools/src/pcd_to_cloudini_converter.cpp`)

The command line is the record the option parser delivers.  The file system is a function from paths to what is there; a path names one file and two
different paths name different files (no links, no case folding).  PCL's reader of PCD files is a parameter.  What is printed is left out.
-/

namespace Cloudini.PcdTool

open Cloudini.Pcd (PclCloud)

/-- A path as the user writes it. -/
abbrev Path := List Byte

/-- `path::filename`: what follows the last slash. -/
def filename (p : Path) : List Byte := (p.reverse.takeWhile (· != 0x2F#8)).reverse

/-- Everything in front of the file name. -/
def dirOf (p : Path) : List Byte := p.take (p.length - (filename p).length)

/-- `path::extension` of a file name: from the last dot on, unless that is the first character or the name is `.` or `..`. -/
def extOf (f : List Byte) : List Byte :=
  if f = ascii "." ∨ f = ascii ".." then []
  else if (f.reverse.takeWhile (· != 0x2E#8)).length + 1 < f.length then f.drop (f.length - ((f.reverse.takeWhile (· != 0x2E#8)).length + 1))
  else []

/-- `path::extension`. -/
def extension (p : Path) : List Byte := extOf (filename p)

/-- `path::stem`. -/
def stem (p : Path) : List Byte := (filename p).take ((filename p).length - (extension p).length)

/-- `path::replace_extension(".cldn")`. -/
def replaceExt (p : Path) : Path := p.take (p.length - (extension p).length) ++ ascii ".cldn"

/-- pcd_to_cloudini_converter.cpp:161, 197: `parent_path() / (stem().string() + ".cldn")`.  Simplified: the path is composed of the text in front of the
file name, which names the same directory. -/
def besides (p : Path) : Path := dirOf p ++ stem p ++ ascii ".cldn"

/-- pcd_to_cloudini_converter.cpp:157-167: where the output of a single conversion goes. -/
def target (input : Path) (output : Option Path) : Path :=
  if extension (output.getD (besides input)) ≠ ascii ".cldn" then replaceExt (output.getD (besides input)) else output.getD (besides input)

/-- What a path leads to. -/
inductive Node
  | file (content : List Byte)
  | dir (entries : List Path)
  deriving DecidableEq

/-- The file system. -/
abbrev Fs := Path → Option Node

/-- What the device allows: whether a path can be opened for writing, and how many bytes of a file it takes. -/
structure Disk where
  open? : Path → Bool
  room : Path → Nat

/-- What the program works on: the file system and what is left of its standard input. -/
structure World where
  fs : Fs
  stdin : List Byte

/-- `std::cin >> response` for a `char`: white space is skipped; at the end of the input the variable, which has no value, keeps it. -/
def answer (input : List Byte) : Option (Byte × List Byte) :=
  match input.dropWhile isSpace with
  | [] => none
  | c :: cs => some (c, cs)

/-- pcd_to_cloudini_converter.cpp:116-127: whether to go on with an output that exists.  Reading the variable without a value is undefined. -/
def confirmed (w : World) (output : Path) (yes : Bool) : Res (Bool × World) :=
  if (w.fs output).isSome ∧ yes = false then
    match answer w.stdin with
    | none => .ub .mem
    | some (c, rest) => .ok (decide (c = 0x79#8 ∨ c = 0x59#8), { w with stdin := rest })
  else .ok (true, w)

/-- An output stream: opening empties the file; then as much is stored as the device takes. -/
def putFile (d : Disk) (fs : Fs) (p : Path) (bytes : List Byte) : Fs := fun q => if q = p then some (.file (bytes.take (d.room p))) else fs q

/-- Whether `std::ofstream output_stream(p)` succeeds. -/
def canOpen (d : Disk) (fs : Fs) (p : Path) : Bool := d.open? p && (match fs p with | some (.dir _) => false | _ => true)

/-- PCL's reader and the encoder: pcl_conversion.cpp:217-239 on the file at a path.  `load` is `pcl::io::loadPCDFile`. -/
def encodePath (T : FloatText) (F : FloatOps) (C : Compressor) (fuel : Nat) (load : List Byte → Option PclCloud) (res : BitVec 64) (n : Option Node) : Res (List Byte) :=
  match n with
  | some (.file text) =>
    match load text with
    | none => .throw "Error: Failed to load PCD file"
    | some c => Pcd.pclEncodeFile T F C fuel c text res
  | _ => .throw "Error: Failed to load PCD file"

/-- pcd_to_cloudini_converter.cpp:109-147 `convert_file`; `enc` is `PCLPointCloudEncode` on what is at the path.  The state of the stream after
`write` and `close` is not looked at. -/
def convertFile (enc : Option Node → Res (List Byte)) (d : Disk) (yes : Bool) (input output : Path) (w : World) : Res (Bool × World) :=
  if (w.fs input).isNone then .ok (false, w)
  else do
    let (go, w) ← confirmed w output yes
    if go = false then .ok (false, w)
    else
      match enc (w.fs input) with
      | .throw _ => .ok (false, w)
      | .ub k => .ub k
      | .ok bytes =>
        if canOpen d w.fs output then .ok (true, { w with fs := putFile d w.fs output bytes })
        else .ok (false, w)

/-- pcd_to_cloudini_converter.cpp:194-205: the loop of the batch mode; the numbers of files converted and failed. -/
def batch (enc : Option Node → Res (List Byte)) (d : Disk) (yes : Bool) : List Path → World → Res (Nat × Nat × World)
  | [], w => .ok (0, 0, w)
  | p :: ps, w =>
    if extension p = ascii ".pcd" then do
      let (ok, w) ← convertFile enc d yes p (besides p) w
      let (a, b, w) ← batch enc d yes ps w
      .ok (if ok then (a + 1, b, w) else (a, b + 1, w))
    else batch enc d yes ps w

/-- The command line. -/
structure Options where
  input : Option Path := none
  dir : Option Path := none
  output : Option Path := none
  yes : Bool := false
  resolution : BitVec 64 := 0
  intensity : BitVec 64 := 0
  encoding : List Byte := ascii "lossy"
  compression : List Byte := ascii "zstd"

/-- pcd_to_cloudini_converter.cpp:84-107: the two options that are checked. -/
def Options.checked (o : Options) : Prop :=
  o.encoding ∈ [ascii "lossy", ascii "lossless", ascii "none"] ∧ o.compression ∈ [ascii "lz4", ascii "zstd", ascii "none"]

instance (o : Options) : Decidable o.checked := by unfold Options.checked; infer_instance

/-- pcd_to_cloudini_converter.cpp:30-214 `main` (without `--help`): the exit code and the world afterwards.  `enc` takes the resolution.  The directory
iterator may or may not show files made during the loop; the model shows those present at its start (the others are not PCD files).  Line 172,
`file_size` of the file just written, is left out. -/
def run (enc : BitVec 64 → Option Node → Res (List Byte)) (d : Disk) (o : Options) (w : World) : Res (Nat × World) :=
  match o.input, o.dir with
  | none, none => .ok (1, w)
  | some _, some _ => .ok (1, w)
  | some input, none =>
    if ¬ o.checked then .ok (1, w)
    else if extension input ≠ ascii ".pcd" then .ok (1, w)
    else do
      let (ok, w) ← convertFile (enc o.resolution) d o.yes input (target input o.output) w
      .ok (if ok then (0, w) else (1, w))
  | none, some dir =>
    if ¬ o.checked then .ok (1, w)
    else match w.fs dir with
      | some (.dir entries) => do
        let (_, _, w) ← batch (enc o.resolution) d o.yes entries w
        .ok (0, w)
      | _ => .ok (1, w)

end Cloudini.PcdTool
