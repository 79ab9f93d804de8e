import Verif.Model.Ros

/-!
# The set of voxel keys (`contrib/ankerl/unordered_dense.h`)

`applyVizLossyPreprocessing` keeps the keys it has seen in a `thread_local ankerl::unordered_dense::set<uint64_t>`, cleared at the start of each call.
`Model/Ros` takes it for a mathematical set; here is the table itself, as far as `clear`, `reserve` and `insert` of `set<uint64_t>` use it: Robin Hood hashing with
the values in one vector and buckets of a 24-bit distance, an 8-bit fingerprint and a 32-bit index.  `max_load_factor` is the default 0.8F.  Failing allocations
are left out.
-/

namespace Cloudini.Dense

/-- unordered_dense.h:429-435 `bucket_type::standard`: `m_dist_and_fingerprint`, `m_value_idx`. -/
abbrev Bucket : Type := BitVec 32 × Nat

/-- unordered_dense.h:943-949: the members of `table`. -/
structure Table where
  values : List (BitVec 64) := []
  buckets : List Bucket := []
  capacity : Nat := 0
  shifts : Nat := 62
  deriving DecidableEq, Repr

/-- unordered_dense.h:154-156, 186-189, 261-263 `wyhash::hash(uint64_t)`: the two halves of the 128-bit product, added bitwise. -/
def wyhash (x : BitVec 64) : BitVec 64 :=
  let r := x.setWidth 128 * (0x9E3779B97F4A7C15#64).setWidth 128
  r.setWidth 64 ^^^ (r >>> 64).setWidth 64

/-- unordered_dense.h:996-998 `dist_and_fingerprint_from_hash`. -/
def first (h : BitVec 64) : BitVec 32 := 256#32 ||| (h.setWidth 32 &&& 255#32)

/-- unordered_dense.h:1000-1002 `bucket_idx_from_hash`. -/
def home (shifts : Nat) (h : BitVec 64) : Nat := ((h >>> shifts).setWidth 32).toNat

/-- unordered_dense.h:951-958 `next`, `n` the number of buckets. -/
def next (n i : Nat) : Nat := if i + 1 = n then 0 else i + 1

/-- unordered_dense.h:1045-1047 `calc_num_buckets`; `max_bucket_count` is 2^32 (lines 1482-1488, 2007). -/
def numBuckets (shifts : Nat) : Res Nat := if shifts = 0 then .ub .shift else .ok (min (2 ^ 32) (2 ^ (64 - shifts)))

/-- unordered_dense.h:1051, 1106: `static_cast<size_t>(static_cast<float>(n) * 0.8F)` for a power of two `n`: the product is exact, `0.8F` is 13421773 / 2^24. -/
def load (n : Nat) : Nat := n * 13421773 / 2 ^ 24

/-- unordered_dense.h:1049-1055 `calc_shifts_for_size`, from the given shift downwards. -/
def shiftsFor (s : Nat) : Nat → Nat
  | 0 => 0
  | k + 1 => if load (min (2 ^ 32) (2 ^ (64 - (k + 1)))) < s then shiftsFor s k else k + 1

/-- unordered_dense.h:1090-1108 `allocate_buckets_from_shift`. -/
def allocate (t : Table) : Res Table := do
  let n ← numBuckets t.shifts
  .ok { t with
        buckets := t.buckets.take n ++ List.replicate (n - t.buckets.length) (0#32, 0)
        capacity := if n = 2 ^ 32 then 2 ^ 32 else load n }

/-- unordered_dense.h:1110-1118 `clear_buckets`. -/
def clearBuckets (t : Table) : Table := { t with buckets := List.replicate t.buckets.length (0#32, 0) }

/-- unordered_dense.h:1025-1032 `place_and_shift_up`.  After `fuel` = number of buckets turns no bucket is free. -/
def place : Nat → List Bucket → Bucket → Nat → Res (List Bucket)
  | 0, _, _, _ => .ub .loop
  | fuel + 1, bs, b, p =>
    match bs[p]? with
    | none => .ub .mem
    | some c => if c.1 = 0#32 then .ok (bs.set p b) else place fuel (bs.set p b) (c.1 + 256#32, c.2) (next bs.length p)

/-- unordered_dense.h:1017-1022: the loop of `next_while_less`. -/
def walk (bs : List Bucket) : Nat → BitVec 32 → Nat → Res (BitVec 32 × Nat)
  | 0, _, _ => .ub .loop
  | fuel + 1, df, i =>
    match bs[i]? with
    | none => .ub .mem
    | some c => if df < c.1 then walk bs fuel (df + 256#32) (next bs.length i) else .ok (df, i)

/-- unordered_dense.h:1122-1129: the loop of `clear_and_fill_buckets_from_values` (the values from index `k` on). -/
def fill (hash : BitVec 64 → BitVec 64) (shifts : Nat) : List (BitVec 64) → Nat → List Bucket → Res (List Bucket)
  | [], _, bs => .ok bs
  | v :: vs, k, bs => do
    let (df, p) ← walk bs bs.length (first (hash v)) (home shifts (hash v))
    let bs ← place bs.length bs (df, k) p
    fill hash shifts vs (k + 1) bs

/-- unordered_dense.h:1120-1130 `clear_and_fill_buckets_from_values`. -/
def refill (hash : BitVec 64 → BitVec 64) (t : Table) : Res Table := do
  let bs ← fill hash t.shifts t.values 0 (clearBuckets t).buckets
  .ok { t with buckets := bs }

/-- unordered_dense.h:1132-1144 `increase_size`; `deallocate_buckets` (lines 1084-1088) empties the vector of buckets. -/
def increase (hash : BitVec 64 → BitVec 64) (t : Table) : Res Table :=
  if t.capacity = 2 ^ 32 then .throw "ankerl::unordered_dense: reached max bucket size, cannot increase size"
  else do
    let t ← allocate { t with shifts := t.shifts - 1, buckets := [], capacity := 0 }
    refill hash t

/-- unordered_dense.h:1670-1678: the search of `emplace`: the value is there (`none`), or where the new bucket belongs. -/
def search (vals : List (BitVec 64)) (bs : List Bucket) (key : BitVec 64) : Nat → BitVec 32 → Nat → Res (Option (BitVec 32 × Nat))
  | 0, _, _ => .ub .loop
  | fuel + 1, df, i =>
    match bs[i]? with
    | none => .ub .mem
    | some c =>
      if df ≤ c.1 then
        if df = c.1 then
          match vals[c.2]? with
          | none => .ub .mem
          | some v => if v = key then .ok none else search vals bs key fuel (df + 256#32) (next bs.length i)
        else search vals bs key fuel (df + 256#32) (next bs.length i)
      else .ok (some (df, i))

/-- unordered_dense.h:1497-1499, 1661-1692 `insert`: the new value is appended first and removed again if it was there.  The flag is `second` of the result.
The loops are followed for as many turns as there are buckets; with a free bucket they go on only if a distance wraps around. -/
def insert (hash : BitVec 64 → BitVec 64) (t : Table) (key : BitVec 64) : Res (Table × Bool) := do
  let vals := t.values ++ [key]
  let r ← search vals t.buckets key t.buckets.length (first (hash key)) (home t.shifts (hash key))
  match r with
  | none => .ok (t, false)
  | some (df, p) =>
    if vals.length > t.capacity then do
      let t ← increase hash { t with values := vals }
      .ok (t, true)
    else do
      let bs ← place t.buckets.length t.buckets (df, vals.length - 1) p
      .ok ({ t with values := vals, buckets := bs }, true)

/-- unordered_dense.h:1492-1495 `clear`. -/
def clear (t : Table) : Table := clearBuckets { t with values := [] }

/-- unordered_dense.h:2040-2053 `reserve`. -/
def reserve (hash : BitVec 64 → BitVec 64) (t : Table) (capa : Nat) : Res Table :=
  let s := shiftsFor (max (min capa (2 ^ 32)) t.values.length) 62
  if t.buckets.length = 0 ∨ s < t.shifts then do
    let t ← allocate { t with shifts := s, buckets := [], capacity := 0 }
    refill hash t
  else .ok t

/-- unordered_dense.h:1306-1321: the constructor without arguments. -/
def new : Res Table := do
  let t ← allocate {}
  .ok (clearBuckets t)

open Cloudini.Ros

/-- ros_msg_utils.cpp:301-327: the loop of `vizLoop` with the table. -/
def vizLoop (hash : BitVec 64 → BitVec 64) (voxel : BitVec 32 → BitVec 32 → BitVec 32) (r : BitVec 32) (step ox oy oz : Nat) (data : List Byte) :
    (n i : Nat) → (seen : Table) → (out : List Byte) → (kept : Nat) → Res (List Byte × Nat × Table)
  | 0, _, seen, out, kept => .ok (out, kept, seen)
  | n + 1, i, seen, out, kept => do
    let bx ← readAt data (i * step + ox) 4
    let by' ← readAt data (i * step + oy) 4
    let bz ← readAt data (i * step + oz) 4
    let fx := BitVec.ofNat 32 (fromLE bx)
    let fy := BitVec.ofNat 32 (fromLE by')
    let fz := BitVec.ofNat 32 (fromLE bz)
    if !isFinite32 fx || !isFinite32 fy || !isFinite32 fz then vizLoop hash voxel r step ox oy oz data n (i + 1) seen out kept
    else do
      let (seen, isNew) ← insert hash seen (packVoxelKey (voxel r fx) (voxel r fy) (voxel r fz))
      if !isNew then vizLoop hash voxel r step ox oy oz data n (i + 1) seen out kept
      else do
        let p ← readAt data (i * step) step
        vizLoop hash voxel r step ox oy oz data n (i + 1) seen (out ++ p) (kept + 1)

/-- ros_msg_utils.cpp:249-341 `applyVizLossyPreprocessing` on a thread whose table is `seen` (lines 296-298). -/
def applyViz (hash : BitVec 64 → BitVec 64) (voxel : BitVec 32 → BitVec 32 → BitVec 32) (seen : Table) (pc : Pc2) : Res (Pc2 × Table) :=
  if pc.fields.length < 3 ∨ pc.point_step = 0#32 then .ok (pc, seen)
  else
    match geometry pc.fields with
    | none => .ok (pc, seen)
    | some (o, r) =>
      if pc.data.length / pc.point_step.toNat = 0 then .ok (pc, seen)
      else do
        let seen ← reserve hash (clear seen) (pc.data.length / pc.point_step.toNat)
        let (out, kept, seen) ← vizLoop hash voxel r pc.point_step.toNat o.toNat (o + 4#32).toNat (o + 8#32).toNat pc.data
          (pc.data.length / pc.point_step.toNat) 0 seen [] 0
        .ok ({ pc with data := out, width := BitVec.ofNat 32 kept, height := 1#32, row_step := pc.point_step * BitVec.ofNat 32 kept,
                       fields := quantise64 pc.fields }, seen)

end Cloudini.Dense
