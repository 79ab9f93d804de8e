import Verif.Props.C05_C10

/-! Specification vocabulary for the values of one field over the points of a cloud. -/

namespace Cloudini.Props

/-- The bytes of a field in point `i` of a cloud stored at `base`. -/
def cell (cloud : List Byte) (base step i off size : Nat) : List Byte := fieldBytes cloud (base + i * step + off) size

/-- The values of an integer field over the points of a cloud, as the history `DiffsFit` speaks about. -/
def intHistory (cloud : List Byte) (step off size : Nat) (signed : Bool) (n : Nat) : List (Option Int) :=
  (List.range n).map fun i => some (toI64 size signed (cell cloud 0 step i off size)).toInt

/-- The field lies inside each of the `n` points. -/
def InCloud (cloud : List Byte) (step off size n : Nat) : Prop := n * step ≤ cloud.length ∧ off + size ≤ step

end Cloudini.Props
