import Verif.Model.Base

/-!
# The object pool of the PCL subscriber (`cloudini_ros/src/cloudini_subscriber_pcl.cpp`)

Every access to the pool happens under `pool_mutex_`, so the operations interleave as whole steps.  A cloud has a reference count (its
`shared_ptr`s); dropping the last reference and running the deleter are separate steps, since other threads can run between the atomic
decrement and the lock.  `A` stands for the members of `pcl::PCLPointCloud2` other than `data` and `fields`.
-/

namespace Cloudini.Pool

/-- cloudini_subscriber_pcl.hpp:119 `MAX_POOL_SIZE`. -/
def maxPoolSize : Nat := 4

/-- `pcl::PCLPointCloud2`. -/
structure Cloud (A : Type) where
  data : List Byte
  fields : List (List Byte)
  other : A

structure State (A : Type) where
  /-- the subscriber exists -/
  alive : Bool
  /-- the clouds in memory, by address -/
  heap : Nat → Option (Cloud A)
  /-- `cloud_pool_`, last element first -/
  pool : List Nat
  /-- `use_count()` of the `shared_ptr`s to an address -/
  refs : Nat → Nat
  /-- addresses whose last reference is gone and whose deleter has not run -/
  pending : List Nat

def set {α : Type} (f : Nat → α) (k : Nat) (v : α) : Nat → α := fun i => if i = k then v else f i

inductive Op (A : Type) where
  /-- `acquireCloudFromPool()`; `p` is the address `new` returns if it is called -/
  | acquire (p : Nat)
  /-- somebody with a reference writes the cloud -/
  | write (p : Nat) (c : Cloud A)
  /-- a `shared_ptr` is copied -/
  | share (p : Nat)
  /-- a `shared_ptr` goes away -/
  | drop (p : Nat)
  /-- the deleter runs -/
  | deleter (p : Nat)
  /-- `~CloudiniSubscriberPCL()` -/
  | destroy

/-- The outcome of a step: a state and, for `acquire`, the address handed out; undefined behaviour; or the step is not possible. -/
inductive Out (A : Type) where
  | ok (s : State A) (p : Option Nat)
  | ub
  | impossible

variable {A : Type}

/-- `delete ptr` for every pointer of the pool. -/
def freeAll (h : Nat → Option (Cloud A)) (ps : List Nat) : Nat → Option (Cloud A) := fun i => if i ∈ ps then none else h i

/-- One step.  `blank` is what the default constructor makes of the other members. -/
def step (blank : A) (s : State A) : Op A → Out A
  /- cloudini_subscriber_pcl.cpp:68-81, 83 -/
  | .acquire p =>
    if s.alive then
      match s.pool with
      | q :: rest => .ok { s with pool := rest, refs := set s.refs q 1 } (some q)
      | [] => if (s.heap p).isNone then .ok { s with heap := set s.heap p (some ⟨[], [], blank⟩), refs := set s.refs p 1 } (some p) else .impossible
    else .impossible
  | .write p c => if 0 < s.refs p then .ok { s with heap := set s.heap p (some c) } none else .impossible
  | .share p => if 0 < s.refs p then .ok { s with refs := set s.refs p (s.refs p + 1) } none else .impossible
  | .drop p =>
    if s.refs p = 0 then .impossible
    else if s.refs p = 1 then .ok { s with refs := set s.refs p 0, pending := p :: s.pending } none
    else .ok { s with refs := set s.refs p (s.refs p - 1) } none
  /- cloudini_subscriber_pcl.cpp:83-94: the deleter locks a mutex of the subscriber, then reads its pool -/
  | .deleter p =>
    if p ∈ s.pending then
      if s.alive then
        match s.heap p with
        | none => .ub
        | some c =>
          if s.pool.length < maxPoolSize then
            .ok { s with heap := set s.heap p (some { c with data := [], fields := [] }), pool := p :: s.pool, pending := s.pending.erase p } none
          else .ok { s with heap := set s.heap p none, pending := s.pending.erase p } none
      else .ub
    else .impossible
  /- cloudini_subscriber_pcl.cpp:55-62 -/
  | .destroy => if s.alive then .ok { s with alive := false, heap := freeAll s.heap s.pool, pool := [] } none else .impossible

/-- A whole history. -/
def run (blank : A) (s : State A) : List (Op A) → Out A
  | [] => .ok s none
  | op :: ops =>
    match step blank s op with
    | .ok s' _ => run blank s' ops
    | .ub => .ub
    | .impossible => .impossible

/-- A new subscriber. -/
def init : State A := { alive := true, heap := fun _ => none, pool := [], refs := fun _ => 0, pending := [] }

end Cloudini.Pool
