import Verif.Model.Base

/-!
# Ownership in `RosPointCloud2` (`ros_msg_utils.hpp:57-161`)

The memory is a map from buffer identities to contents; `none` is a buffer that does not exist (never allocated or freed).  An object has a
view `data` (a `ConstBufferView`) and a vector `owned_data`; the other members are the parameter `M`.  Programs are lists of operations on
named objects.  `std::vector` is modelled by what the standard says: a copy has storage of its own; copy assignment may reuse the storage of
the target or replace it; a move transfers the storage and leaves an empty vector.  Allocation failure is not modelled.
-/

namespace Cloudini.RosOwn

/-- The memory. -/
abbrev Heap := Nat → Option (List Byte)

/-- `ConstBufferView`: a pointer (`none`: null, otherwise a buffer and an offset) and a length. -/
structure View where
  buf : Option Nat := none
  off : Nat := 0
  len : Nat := 0
  deriving DecidableEq, Repr

/-- The bytes seen through a view: `none` if the memory is not there. -/
def View.read (h : Heap) (v : View) : Option (List Byte) :=
  if v.len = 0 then some []
  else
    match v.buf with
    | none => none
    | some b =>
      match h b with
      | none => none
      | some c => if v.off + v.len ≤ c.length then some ((c.drop v.off).take v.len) else none

/-- ros_msg_utils.hpp:129-147: the members.  `info` stands for everything but `data` and `owned_data`; `owned` is the storage of
`owned_data` (`none` before any allocation). -/
structure Obj (M : Type) where
  info : M
  data : View
  owned : Option Nat

/-- Memory, next fresh identity, live objects by name. -/
structure State (M : Type) where
  heap : Heap
  next : Nat
  objs : Nat → Option (Obj M)

def set {α : Type} (f : Nat → Option α) (k : Nat) (v : Option α) : Nat → Option α := fun i => if i = k then v else f i

/-- The elements of `owned_data`. -/
def content (h : Heap) : Option Nat → List Byte
  | none => []
  | some b => (h b).getD []

/-- ros_msg_utils.hpp:150-152 `dataViewsOwnedData`. -/
def viewsOwned {M : Type} (h : Heap) (o : Obj M) : Bool :=
  !(content h o.owned).isEmpty && o.data.buf == o.owned && o.data.off == 0 && o.data.len == (content h o.owned).length

/-- Deallocation of a vector's storage. -/
def free (h : Heap) : Option Nat → Heap
  | none => h
  | some b => set h b none

/-- Copy construction of a vector with elements `c`: no storage for an empty one. -/
def copyVec (h : Heap) (next : Nat) (c : List Byte) : Heap × Nat × Option Nat :=
  if c = [] then (h, next, none) else (set h next (some c), next + 1, some next)

/-- Copy assignment of a vector with elements `c` to one with storage `old`; `reuse`: the capacity suffices. -/
def assignVec (h : Heap) (next : Nat) (old : Option Nat) (reuse : Bool) (c : List Byte) : Heap × Nat × Option Nat :=
  match old, reuse with
  | some b, true => (set h b (some c), next, some b)
  | old, _ => copyVec (free h old) next c

/-- `data = ConstBufferView(owned_data.data(), owned_data.size())` where `flag` is `dataViewsOwnedData()` of the source (ros_msg_utils.hpp:88-90, 125-127, 154-158). -/
def rebind {M : Type} (flag : Bool) (h : Heap) (o : Obj M) : Obj M :=
  if flag then { o with data := ⟨o.owned, 0, (content h o.owned).length⟩ } else o

/-- What a program does with these objects. -/
inductive Op (M : Type) where
  /-- a new object viewing data from elsewhere (ros_msg_utils.cpp:92-97) -/
  | view (x : Nat) (m : M) (v : View)
  /-- the end of `applyVizLossyPreprocessing` (ros_msg_utils.cpp:328-341): `owned_data = std::move(out)` and `data` a view of it -/
  | viz (x : Nat) (m : M) (out : List Byte)
  | copyNew (x y : Nat)
  | moveNew (x y : Nat)
  | copyAssign (x y : Nat) (reuse : Bool)
  | moveAssign (x y : Nat)
  | destroy (x : Nat)

variable {M : Type}

/-- ros_msg_utils.hpp:60-73: the copy constructor. -/
def copyNew (s : State M) (x : Nat) (o : Obj M) : State M :=
  let r := copyVec s.heap s.next (content s.heap o.owned)
  { heap := r.1, next := r.2.1, objs := set s.objs x (some (rebind (viewsOwned r.1 o) r.1 ⟨o.info, o.data, r.2.2⟩)) }

/-- ros_msg_utils.hpp:75-91: the move constructor.  `moved` is what is left of the members of a moved-from object. -/
def moveNew (moved : M → M) (s : State M) (x y : Nat) (o : Obj M) : State M :=
  let flag := viewsOwned s.heap o
  { s with objs := set (set s.objs y (some ⟨moved o.info, o.data, none⟩)) x (some (rebind flag s.heap ⟨o.info, o.data, o.owned⟩)) }

/-- ros_msg_utils.hpp:93-110: copy assignment from another object. -/
def copyAssign (s : State M) (x : Nat) (t o : Obj M) (reuse : Bool) : State M :=
  let r := assignVec s.heap s.next t.owned reuse (content s.heap o.owned)
  { heap := r.1, next := r.2.1, objs := set s.objs x (some (rebind (viewsOwned r.1 o) r.1 ⟨o.info, o.data, r.2.2⟩)) }

/-- ros_msg_utils.hpp:112-128: move assignment from another object. -/
def moveAssign (moved : M → M) (s : State M) (x y : Nat) (t o : Obj M) : State M :=
  let flag := viewsOwned s.heap o
  let h := free s.heap t.owned
  { s with heap := h, objs := set (set s.objs y (some ⟨moved o.info, o.data, none⟩)) x (some (rebind flag h ⟨o.info, o.data, o.owned⟩)) }

/-- One operation; `none` for a program that names an object that is not there (or constructs one that is). -/
def step (moved : M → M) (s : State M) : Op M → Option (State M)
  | .view x m v => if s.objs x = none then some { s with objs := set s.objs x (some ⟨m, v, none⟩) } else none
  | .viz x m out =>
    match s.objs x with
    | none => none
    | some o => some { heap := set (free s.heap o.owned) s.next (some out), next := s.next + 1,
                       objs := set s.objs x (some ⟨m, ⟨some s.next, 0, out.length⟩, some s.next⟩) }
  | .copyNew x y =>
    match s.objs x, s.objs y with
    | none, some o => some (copyNew s x o)
    | _, _ => none
  | .moveNew x y =>
    match s.objs x, s.objs y with
    | none, some o => some (moveNew moved s x y o)
    | _, _ => none
  | .copyAssign x y reuse =>
    match s.objs x, s.objs y with
    | some t, some o => if x = y then some s else some (copyAssign s x t o reuse)
    | _, _ => none
  | .moveAssign x y =>
    match s.objs x, s.objs y with
    | some t, some o => if x = y then some s else some (moveAssign moved s x y t o)
    | _, _ => none
  | .destroy x =>
    match s.objs x with
    | none => none
    | some o => some { s with heap := free s.heap o.owned, objs := set s.objs x none }

/-- A whole program. -/
def run (moved : M → M) (s : State M) : List (Op M) → Option (State M)
  | [] => some s
  | op :: ops =>
    match step moved s op with
    | none => none
    | some s' => run moved s' ops

/-- The start: external buffers only. -/
def init (ext : List (List Byte)) : State M := { heap := fun b => ext[b]?, next := ext.length, objs := fun _ => none }

end Cloudini.RosOwn
