import Verif.Model.RosOwn

/-!
# Objects as values

What a user expects of a `RosPointCloud2`: it has a payload that is either its own bytes or a view of somebody else's memory; copying copies
the value, moving transfers it, and the source of a move must not be read again.
-/

namespace Cloudini.RosOwn

inductive Value (M : Type) where
  | owning (m : M) (bytes : List Byte)
  | viewing (m : M) (v : View)
  | movedFrom

variable {M : Type}

abbrev Values (M : Type) := Nat → Option (Value M)

/-- The value may be read. -/
def Value.readable : Value M → Bool
  | .movedFrom => false
  | _ => true

/-- One operation on values; `none` if an object is missing, or a moved-from one is read, or a new view is not of external memory
(buffers below `ext`). -/
def absStep (ext : Nat) (a : Values M) : Op M → Option (Values M)
  | .view x m v => if a x = none ∧ (∀ b, v.buf = some b → b < ext) then some (set a x (some (.viewing m v))) else none
  | .viz x m out => if a x = none then none else some (set a x (some (.owning m out)))
  | .copyNew x y =>
    match a x, a y with
    | none, some v => if v.readable then some (set a x (some v)) else none
    | _, _ => none
  | .moveNew x y =>
    match a x, a y with
    | none, some v => if v.readable then some (set (set a y (some .movedFrom)) x (some v)) else none
    | _, _ => none
  | .copyAssign x y _ =>
    match a x, a y with
    | some _, some v => if x = y then some a else if v.readable then some (set a x (some v)) else none
    | _, _ => none
  | .moveAssign x y =>
    match a x, a y with
    | some _, some v => if x = y then some a else if v.readable then some (set (set a y (some .movedFrom)) x (some v)) else none
    | _, _ => none
  | .destroy x => if a x = none then none else some (set a x none)

def absRun (ext : Nat) (a : Values M) : List (Op M) → Option (Values M)
  | [] => some a
  | op :: ops =>
    match absStep ext a op with
    | none => none
    | some a' => absRun ext a' ops

end Cloudini.RosOwn
