import Verif.Model.Mcap
import Verif.Model.BagTool

/-!
# The program `mcap_cutter` (`tools/src/mcap_cutter.cpp`, `main`)

The command line is the record the option parser delivers (a command line it rejects ends the program before anything happens).  The file system is that of
`Model/BagTool`; the class `McapCutter` is `Mcap.cut`.  The MCAP library is a parameter; writing to an opened file succeeds.  What is printed is left out.
-/

namespace Cloudini.Cutter

open Cloudini.Bag (Fs Path OutDir Exit resolve stemOf)

/-- The MCAP library on bytes. -/
structure Library where
  /-- `McapReader::open`, `readSummary` and `readMessages`: what a file delivers; `none` is an error status -/
  read : List Byte → Option Mcap.File
  /-- `McapWriter`: the bytes of the file with this content -/
  write : Mcap.File → List Byte
  /-- the messages `readMessages` delivers of a file that has been truncated after its summary had been read -/
  late : List Byte → List Mcap.Message

/-- mcap_cutter.cpp:154-157: the options. -/
structure Args where
  help : Bool := false
  filename : Option Path := none
  output : Option Path := none
  max : Int := 1000
  deriving DecidableEq, Repr

/-- mcap_cutter.cpp:185-192: where the output goes.  The default is made of the stem alone, without the directory of the input.  (Simplified: an option whose last
component is `.` or `..` is left out.) -/
def target (a : Args) (input : Path) : Path :=
  match a.output with
  | none => ⟨⟨false, []⟩, stemOf input.file ++ ascii "_cut.mcap"⟩
  | some p => if PcdTool.extOf p.file = ascii ".mcap" then p else ⟨p.dir, p.file ++ ascii ".mcap"⟩

/-- The place a path leads to: the directory, if it exists. -/
def place (fs : Fs) (cwd : List (List Byte)) (p : Path) : Option (List (List Byte)) := resolve fs.dirs (p.dir.start cwd) p.dir.comps

/-- mcap_cutter.cpp:42-149 with files: `bytes` is the content of the input, which is `name` in `dir`; the output is opened after the summary of the input has been
read and before its messages are.  A directory that does not exist, or an output that is a directory, cannot be opened. -/
def cutFile (K : Library) (fs : Fs) (cwd : List (List Byte)) (max : Nat) (dir : List (List Byte)) (name bytes : List Byte) (out : Path) : Exit × Fs :=
  match K.read bytes with
  | none => (.code 1, fs)
  | some f =>
    match Mcap.cut max f with
    | .ub _ => (.undefined, fs)
    | .throw _ => (.code 1, fs)
    | .ok none => (.code 0, fs)
    | .ok (some g) =>
      match place fs cwd out with
      | none => (.code 1, fs)
      | some d =>
        if d ++ [out.file] ∈ fs.dirs then (.code 1, fs)
        else if d = dir ∧ out.file = name then
          match Mcap.cut max { f with messages := K.late bytes } with
          | .ok (some g') => (.code 0, fs.put d out.file (K.write g'))
          | _ => (.undefined, fs)
        else (.code 0, fs.put d out.file (K.write g))

/-- mcap_cutter.cpp:151-214 `main`: how the program ends and the file system it leaves.  (A directory called `x.mcap` exists but cannot be read: code 1 as for a
file that does not exist.) -/
def main (K : Library) (fs : Fs) (cwd : List (List Byte)) (a : Args) : Exit × Fs :=
  if a.help then (.code 0, fs)
  else
    match a.filename with
    | none => (.code 1, fs)
    | some p =>
      if PcdTool.extOf p.file ≠ ascii ".mcap" then (.code 1, fs)
      else
        match place fs cwd p with
        | none => (.code 1, fs)
        | some d =>
          match fs.get d p.file with
          | none => (.code 1, fs)
          | some bytes => if a.max ≤ 0 then (.code 1, fs) else cutFile K fs cwd a.max.toNat d p.file bytes (target a p)

end Cloudini.Cutter
