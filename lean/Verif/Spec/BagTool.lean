import Verif.Model.BagTool

/-!
# What the command line of `cloudini_rosbag_converter` names
-/

namespace Cloudini.Bag

/-- `-f p` names the file `name` in the directory `d`: `p` is a directory with a `metadata.yaml` in which `name` is the only `.mcap` file, or `p` is no
directory and ends in `.mcap`; `meta` is the directory of the `metadata.yaml` beside it, if there is one. -/
inductive InputIs (fs : Fs) (cwd : List (List Byte)) : Path → List (List Byte) → List Byte → Option (List (List Byte)) → Prop
  | bag {p d name} : resolve fs.dirs (p.dir.start cwd) p.comps = some d → (fs.get d (ascii "metadata.yaml")).isSome → name ∈ fs.list d →
      PcdTool.extOf name = ascii ".mcap" → (∀ n ∈ fs.list d, PcdTool.extOf n = ascii ".mcap" → n = name) → InputIs fs cwd p d name (some d)
  | plain {p d} : resolve fs.dirs (p.dir.start cwd) p.comps = none → resolve fs.dirs (p.dir.start cwd) p.dir.comps = some d → PcdTool.extOf p.file = ascii ".mcap" →
      fs.get d (ascii "metadata.yaml") = none → InputIs fs cwd p d p.file none
  | beside {p d} : resolve fs.dirs (p.dir.start cwd) p.comps = none → resolve fs.dirs (p.dir.start cwd) p.dir.comps = some d → PcdTool.extOf p.file = ascii ".mcap" →
      (fs.get d (ascii "metadata.yaml")).isSome → InputIs fs cwd p d p.file (some d)

/-- What is appended to names. -/
def suffixOf (a : Args) : List Byte := ascii (if a.compress then "_encoded" else "_decoded")

/-- The output goes to `file` in the directory written `o`: the one given with `-o`, with the extension added if need be; else, for a bag with metadata, a
sibling of its directory; else the current directory. -/
inductive OutputIs (a : Args) (name : List Byte) (metaDir : Option (List (List Byte))) : OutDir → List Byte → Prop
  | given {p} : a.output = some p → PcdTool.extOf p.file = ascii ".mcap" → OutputIs a name metaDir p.dir p.file
  | completed {p} : a.output = some p → PcdTool.extOf p.file ≠ ascii ".mcap" → OutputIs a name metaDir p.dir (p.file ++ ascii ".mcap")
  | sibling {d stem} : a.output = none → metaDir = some d → name = stem ++ ascii ".mcap" →
      OutputIs a name metaDir ⟨true, d.dropLast.map .name ++ [.name (d.getLast?.getD [] ++ suffixOf a)]⟩ (stem ++ suffixOf a ++ ascii ".mcap")
  | here {stem} : a.output = none → metaDir = none → name = stem ++ ascii ".mcap" → OutputIs a name metaDir ⟨false, []⟩ (stem ++ suffixOf a ++ ascii ".mcap")

/-- Where a path leads from the directory `d`, every name being that of a directory. -/
def leadsTo (d : List (List Byte)) (p : List Comp) : List (List Byte) :=
  p.foldl (fun d c => match c with | .dot => d | .dotdot => d.dropLast | .name n => d ++ [n]) d

end Cloudini.Bag
