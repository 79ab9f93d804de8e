/-!
# Outcomes, bytes and little-endian integers

Shared vocabulary of the model.  Nothing here is specific to one function of the library.
-/

namespace Cloudini

/-- The kinds of undefined behaviour the model distinguishes. -/
inductive UB where
  /-- read or write outside an object -/
  | mem
  /-- signed integer overflow -/
  | overflow
  /-- float to integer conversion out of range -/
  | conv
  /-- a loop that never ends and has no side effect (C++ forward-progress rule, [intro.progress]) -/
  | loop
  /-- shift by at least the width -/
  | shift
  /-- integer division by zero -/
  | div
  deriving DecidableEq, Repr

/-- Outcome of a C++ call: normal return, exception, or undefined behaviour.
Exceptions carry a short tag of the message thrown (`std::runtime_error` everywhere). -/
inductive Res (α : Type) where
  | ok (a : α)
  | throw (msg : String)
  | ub (k : UB)
  deriving DecidableEq, Repr

namespace Res

@[inline] protected def bind {α β : Type} (x : Res α) (f : α → Res β) : Res β :=
  match x with
  | ok a => f a
  | throw m => throw m
  | ub k => ub k

instance : Monad Res where
  pure := ok
  bind := Res.bind

@[simp] theorem pure_eq {α : Type} (a : α) : (pure a : Res α) = ok a := rfl
@[simp] theorem ok_bind {α β : Type} (a : α) (f : α → Res β) : (ok a >>= f) = f a := rfl
@[simp] theorem throw_bind {α β : Type} (m : String) (f : α → Res β) :
    ((throw m : Res α) >>= f) = throw m := rfl
@[simp] theorem ub_bind {α β : Type} (k : UB) (f : α → Res β) :
    ((ub k : Res α) >>= f) = ub k := rfl
@[simp] theorem map_eq {α β : Type} (f : α → β) (x : Res α) : f <$> x = (x >>= fun a => ok (f a)) := rfl

theorem bind_assoc {α β γ : Type} (x : Res α) (f : α → Res β) (g : β → Res γ) :
    ((x >>= f) >>= g) = (x >>= fun a => f a >>= g) := by
  cases x <;> rfl

/-- The call returned normally. -/
def isOk {α : Type} : Res α → Bool
  | ok _ => true
  | _ => false

/-- The call threw an exception. -/
def isThrow {α : Type} : Res α → Bool
  | throw _ => true
  | _ => false

/-- The call ran into undefined behaviour. -/
def isUB {α : Type} : Res α → Bool
  | ub _ => true
  | _ => false

@[simp] theorem isOk_ok {α : Type} (a : α) : (ok a).isOk = true := rfl
@[simp] theorem isOk_throw {α : Type} (m) : (throw m : Res α).isOk = false := rfl
@[simp] theorem isOk_ub {α : Type} (k) : (ub k : Res α).isOk = false := rfl
@[simp] theorem isThrow_ok {α : Type} (a : α) : (ok a).isThrow = false := rfl
@[simp] theorem isThrow_throw {α : Type} (m) : (throw m : Res α).isThrow = true := rfl
@[simp] theorem isThrow_ub {α : Type} (k) : (ub k : Res α).isThrow = false := rfl
@[simp] theorem isUB_ok {α : Type} (a : α) : (ok a).isUB = false := rfl
@[simp] theorem isUB_throw {α : Type} (m) : (throw m : Res α).isUB = false := rfl
@[simp] theorem isUB_ub {α : Type} (k) : (ub k : Res α).isUB = true := rfl

theorem bind_eq_ok {α β : Type} {x : Res α} {f : α → Res β} {b : β} :
    (x >>= f) = ok b ↔ ∃ a, x = ok a ∧ f a = ok b := by
  cases x <;> simp

theorem bind_eq_ub {α β : Type} {x : Res α} {f : α → Res β} {k : UB} :
    (x >>= f) = ub k ↔ x = ub k ∨ ∃ a, x = ok a ∧ f a = ub k := by
  cases x <;> simp

theorem bind_eq_throw {α β : Type} {x : Res α} {f : α → Res β} {m : String} :
    (x >>= f) = throw m ↔ x = throw m ∨ ∃ a, x = ok a ∧ f a = throw m := by
  cases x <;> simp

end Res

/-- `uint8_t`. -/
abbrev Byte := BitVec 8

/-- `memcpy` of the `n` low-order bytes of an integer on a little-endian machine. -/
def toLE : Nat → Nat → List Byte
  | 0, _ => []
  | n + 1, v => BitVec.ofNat 8 v :: toLE n (v / 256)

/-- Integer read by `memcpy` from bytes on a little-endian machine. -/
def fromLE : List Byte → Nat
  | [] => 0
  | b :: bs => b.toNat + 256 * fromLE bs

/-- Bytes `[off, off+n)` of a readable object; reading outside it is undefined behaviour. -/
def readAt (mem : List Byte) (off n : Nat) : Res (List Byte) :=
  if off + n ≤ mem.length then .ok ((mem.drop off).take n) else .ub .mem

/-- Overwrite bytes `[pos, pos+bs.length)` of a list (no bounds check; see `writeAt`). -/
def splice (buf : List Byte) (pos : Nat) (bs : List Byte) : List Byte :=
  buf.take pos ++ bs ++ buf.drop (pos + bs.length)

/-- `memcpy` into a writable object; writing outside it is undefined behaviour. -/
def writeAt (buf : List Byte) (pos : Nat) (bs : List Byte) : Res (List Byte) :=
  if pos + bs.length ≤ buf.length then .ok (splice buf pos bs) else .ub .mem

/-- `int64_t` addition; signed overflow is undefined behaviour. -/
def addI64 (a b : BitVec 64) : Res (BitVec 64) :=
  if BitVec.saddOverflow a b then .ub .overflow else .ok (a + b)

/-- `int64_t` subtraction; signed overflow is undefined behaviour. -/
def subI64 (a b : BitVec 64) : Res (BitVec 64) :=
  if BitVec.ssubOverflow a b then .ub .overflow else .ok (a - b)

end Cloudini
