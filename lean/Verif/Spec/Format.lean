import Verif.Spec.Cloud

/-!
# The format of an encoded cloud

Written down on its own, in arithmetic on natural numbers and integers and with every code spelled out: what the bytes of an
encoded cloud are.  Nothing here refers to the definitions of the model except the descriptions (`EncodingInfo`) and the float
arithmetic `FloatOps` (for the number of steps a float is rounded to).
-/

namespace Cloudini.Format

/-! ### numbers -/

/-- `size` bytes, least significant first. -/
def le : Nat → Nat → List Byte
  | 0, _ => []
  | size + 1, v => BitVec.ofNat 8 (v % 256) :: le size (v / 256)

/-- The number in such bytes. -/
def unle : List Byte → Nat
  | [] => 0
  | b :: bs => b.toNat + 256 * unle bs

/-- Groups of 7 bits, least significant first; every byte but the last has its top bit set. -/
def groups (n : Nat) : List Byte :=
  if n < 128 then [BitVec.ofNat 8 n] else BitVec.ofNat 8 (128 + n % 128) :: groups (n / 128)
termination_by n

/-- A difference: 0, -1, 1, -2, ... are written as the numbers 1, 2, 3, 4, ...; 0 is not the number of a difference (it marks a NaN),
except that it is also written for -2^63. -/
def signed (d : Int) : List Byte := groups ((if 0 ≤ d then 2 * d + 1 else -2 * d).toNat % 2 ^ 64)

/-- The number in the bytes of an integer field, two's complement if `twos`. -/
def number (twos : Bool) (bs : List Byte) : Int :=
  if twos ∧ 2 ^ (8 * bs.length) ≤ 2 * unle bs then (unle bs : Int) - 2 ^ (8 * bs.length) else unle bs

/-- Fields read as two's complement: the signed ones, and 64-bit unsigned ones. -/
def twosComplement (t : FieldType) : Bool := t ∈ [.int16, .int32, .int64, .uint64]

/-- Numbers `(value, width)` one after the other, each least significant bit first, filled up with 0 bits to whole bytes. -/
def joined : List (Nat × Nat) → Nat
  | [] => 0
  | (v, w) :: ts => v % 2 ^ w + 2 ^ w * joined ts
def packed (ts : List (Nat × Nat)) : List Byte := le (((ts.map (·.2)).sum + 7) / 8) (joined ts)

/-! ### how one field is written -/

inductive Kind where
  /-- the bytes as they are -/
  | raw
  /-- the difference to the number before -/
  | delta (twos : Bool)
  /-- the difference in steps of the resolution, one byte 0 for a NaN -/
  | steps32 (resolution : BitVec 32)
  | steps64 (resolution : BitVec 32)
  /-- the same in the group of leading floats, in 32-bit arithmetic -/
  | lane (resolution : BitVec 32)
  /-- the bits that changed -/
  | changed
  /-- the bits that changed, without the zeros around them -/
  | window
  deriving DecidableEq, Repr

/-- How field number `k` is written. -/
def kind (info : EncodingInfo) (k : Nat) (f : PointField) : Kind :=
  if info.encoding_opt = .none then .raw
  else
    match f.type, f.resolution with
    | .int16, _ | .uint16, _ | .int32, _ | .uint32, _ | .int64, _ | .uint64, _ => .delta (twosComplement f.type)
    | .float32, some r =>
      if info.encoding_opt = .lossy then (if k < Props.groupSize info then .lane r else .steps32 r)
      else if info.encoding_opt = .lossless then .changed else .raw
    | .float32, none => if info.encoding_opt = .lossless then .changed else .raw
    | .float64, some r => if info.encoding_opt = .lossy then .steps64 r else .changed
    | .float64, none => if 4 ≤ info.version.toNat then .window else .changed
    | _, _ => .raw

def nan32 (bs : List Byte) : Prop := unle bs / 2 ^ 23 % 256 = 255 ∧ unle bs % 2 ^ 23 ≠ 0
def nan64 (bs : List Byte) : Prop := unle bs / 2 ^ 52 % 2048 = 2047 ∧ unle bs % 2 ^ 52 ≠ 0
instance (bs : List Byte) : Decidable (nan32 bs) := by unfold nan32; infer_instance
instance (bs : List Byte) : Decidable (nan64 bs) := by unfold nan64; infer_instance

/-- The number of steps, `none` for a NaN. -/
def stepsOf32 (F : FloatOps) (r : BitVec 32) (bs : List Byte) : Option Int :=
  if nan32 bs then none else some ((F.quant32 r (BitVec.ofNat 32 (unle bs))).getD 0#64).toInt
def stepsOf64 (F : FloatOps) (r : BitVec 32) (bs : List Byte) : Option Int :=
  if nan64 bs then none else some ((F.quant64 r (BitVec.ofNat 64 (unle bs))).getD 0#64).toInt
def stepsOfLane (F : FloatOps) (r : BitVec 32) (bs : List Byte) : Option Int :=
  if nan32 bs then none else some (F.quantV r (BitVec.ofNat 32 (unle bs))).toInt

/-- The value before value `i` of a column, and what stands in its place at the start of a chunk. -/
def before {α : Type} (start : α) (value : Nat → α) (i : Nat) : α := if i = 0 then start else value (i - 1)

/-- The leading and trailing zeros of `x`, written with `width` bits. -/
def zerosBefore (width x : Nat) : Nat := width - 1 - x.log2
def zerosBehind (x : Nat) : Nat := (List.range 64).findIdx fun j => x.testBit j

/-- The changed bits `x` of a 64-bit float: the bit 0 if there are none; the bits 1, 0 and the bits inside the zeros of last time
if that leaves nothing out; otherwise the bits 1, 1, the zeros in front (5 bits), the number of bits less 1 (6 bits), and those bits. Also the zeros to
remember: in front and behind. -/
def windowed (width : Nat) (last : Option (Nat × Nat)) (x : Nat) : List (Nat × Nat) × Option (Nat × Nat) :=
  let fresh :=
    let l := min 31 (zerosBefore width x)
    let t := zerosBehind x
    ([(1, 1), (1, 1), (l, 5), (width - l - t - 1, 6), (x / 2 ^ t, width - l - t)], some (l, t))
  if x = 0 then ([(0, 1)], last)
  else
    match last with
    | some (l, t) =>
      if l ≤ zerosBefore width x ∧ t ≤ zerosBehind x then ([(1, 1), (0, 1), (x / 2 ^ t, width - l - t)], last) else fresh
    | none => fresh

/-- The bits of value `i` of a column that differ from the value before. -/
def flips (col : Nat → List Byte) (i : Nat) : Nat := unle (col i) ^^^ unle (col (i - 1))

/-- The zeros remembered when value `i` comes. -/
def remembered (width : Nat) (col : Nat → List Byte) : Nat → Option (Nat × Nat)
  | 0 => none
  | i + 1 => if i = 0 then none else (windowed width (remembered width col i) (flips col i)).2

/-- The bytes of value `i` of the column `col` of a chunk. -/
def valueBytes (F : FloatOps) (k : Kind) (col : Nat → List Byte) (i : Nat) : List Byte :=
  match k with
  | .raw => col i
  | .delta twos => signed (number twos (col i) - before 0 (fun j => number twos (col j)) i)
  | .steps32 r =>
    match stepsOf32 F r (col i) with
    | none => [0#8]
    | some n => signed (n - before 0 (fun j => (stepsOf32 F r (col j)).getD 0) i)
  | .steps64 r =>
    match stepsOf64 F r (col i) with
    | none => [0#8]
    | some n => signed (n - before 0 (fun j => (stepsOf64 F r (col j)).getD 0) i)
  | .lane r =>
    match stepsOfLane F r (col i) with
    | none => [0#8]
    | some n => signed ((n - before 0 (fun j => (stepsOfLane F r (col j)).getD 0) i).bmod (2 ^ 32))
  | .changed => List.zipWith (fun a b => a ^^^ b) (col i) (before (List.replicate (col i).length 0#8) col i)
  | .window =>
    if i = 0 then col 0
    else packed (windowed (8 * (col i).length) (remembered (8 * (col i).length) col i) (flips col i)).1

/-! ### sections -/

/-- The different values, in the order in which they first appear. -/
def distinct {α : Type} [DecidableEq α] (l : List α) : List α := l.foldl (fun acc x => if x ∈ acc then acc else acc ++ [x]) []

/-- A list as runs of equal values. -/
def runs {α : Type} [DecidableEq α] : List α → List (α × Nat)
  | [] => []
  | x :: xs =>
    match runs xs with
    | [] => [(x, 1)]
    | (y, n) :: rs => if x = y then (y, n + 1) :: rs else (x, 1) :: (y, n) :: rs

def differences (twos : Bool) (cells : List (List Byte)) : List Int :=
  List.zipWith (fun v p => v - p) (cells.map (number twos)) (0 :: cells.map (number twos))

/-- The bits needed for the numbers below `n`. -/
def indexBits (n : Nat) : Nat := if n ≤ 1 then 0 else (n - 1).log2 + 1

/-- One chunk of an integer column: a byte for the way it is written, then
0: the differences; 1: the different values, and for each point the place of its value among them; 2: the runs of equal values;
3: the runs of equal differences. -/
def section_ (twos : Bool) (way : Nat) (cells : List (List Byte)) : List Byte :=
  match way with
  | 0 => 0#8 :: (differences twos cells).flatMap signed
  | 1 => 1#8 :: (le 2 (distinct cells).length ++ (distinct cells).flatten ++
      packed (cells.map fun c => ((distinct cells).idxOf c, indexBits (distinct cells).length)))
  | 2 => 2#8 :: (le 4 (runs cells).length ++ (runs cells).flatMap fun r => r.1 ++ groups r.2)
  | _ => 3#8 :: (le 4 (runs (differences twos cells)).length ++ (runs (differences twos cells)).flatMap fun r => signed r.1 ++ groups r.2)

/-- The first of the shortest ways. -/
def shortest (twos : Bool) (cells : List (List Byte)) : Nat :=
  ([0, 1, 2, 3].find? fun m => [0, 1, 2, 3].all fun m' => decide ((section_ twos m cells).length ≤ (section_ twos m' cells).length)).getD 0

/-! ### clouds -/

/-- The bytes of field `f` in point `i` of the cloud. -/
def cellAt (info : EncodingInfo) (cloud : List Byte) (f : PointField) (i : Nat) : List Byte :=
  (cloud.drop (i * info.point_step.toNat + f.offset.toNat)).take (sizeOf f.type)

def cells (info : EncodingInfo) (cloud : List Byte) (f : PointField) (start n : Nat) : List (List Byte) :=
  (List.range n).map fun j => cellAt info cloud f (start + j)

/-- Integer fields of 16 to 64 bits. -/
def wide (f : PointField) : Bool := f.type ∈ [.int16, .uint16, .int32, .uint32, .int64, .uint64]

/-- In lossy clouds from version 5 on, wide integers go to sections of their own. -/
def sectioned (info : EncodingInfo) : Bool := decide (5 ≤ info.version.toNat) && decide (info.encoding_opt = .lossy)

/-- The points one after the other, in each the fields in order. -/
def points (F : FloatOps) (info : EncodingInfo) (cloud : List Byte) (start n : Nat) : List Byte :=
  (List.range n).flatMap fun i =>
    (info.fields.zipIdx.filter fun x => !(sectioned info && wide x.1)).flatMap fun x =>
      valueBytes F (kind info x.2 x.1) (fun j => cellAt info cloud x.1 (start + j)) i

/-- The sections of the wide integer fields, in order.  The way is settled by the first 4096 points of the cloud. -/
def sections (info : EncodingInfo) (cloud : List Byte) (total start n : Nat) : List Byte :=
  (info.fields.filter fun f => sectioned info && wide f).flatMap fun f =>
    section_ (twosComplement f.type) (shortest (twosComplement f.type) (cells info cloud f 0 (min total 4096))) (cells info cloud f start n)

/-- Chunk number `c` of a cloud of `total` points: points 32768 c to 32768 (c + 1). -/
def chunk (F : FloatOps) (info : EncodingInfo) (cloud : List Byte) (total c : Nat) : List Byte :=
  points F info cloud (c * 32768) (min (total - c * 32768) 32768) ++ sections info cloud total (c * 32768) (min (total - c * 32768) 32768)

/-- What is stored for a chunk: the chunk itself, or what the library made of it. -/
def Stored (C : Compressor) (opt : CompOpt) (chunk stored : List Byte) : Prop :=
  if opt = .none then stored = chunk else ∃ room, C.compress opt chunk room = some stored

/-- The encoded cloud: for every chunk, the length in four bytes and what is stored. -/
def Encoded (F : FloatOps) (C : Compressor) (info : EncodingInfo) (cloud : List Byte) (total : Nat) (payload : List Byte) : Prop :=
  ∃ stored : List (List Byte), stored.length = (total + 32767) / 32768 ∧
    (∀ c y, stored[c]? = some y → Stored C info.compression_opt (chunk F info cloud total c) y ∧ y.length < 2 ^ 32) ∧
    payload = stored.flatMap fun y => le 4 y.length ++ y

/-! ### other writers -/

/-- The sections, field `f` in the way `way f`. -/
def sectionsBy (info : EncodingInfo) (cloud : List Byte) (way : PointField → Nat) (start n : Nat) : List Byte :=
  (info.fields.filter fun f => sectioned info && wide f).flatMap fun f =>
    section_ (twosComplement f.type) (way f) (cells info cloud f start n)

/-- A chunk of a writer that chooses the ways of the sections itself, for every chunk `c` and field `f` the way `way c f`. -/
def chunkBy (F : FloatOps) (info : EncodingInfo) (cloud : List Byte) (way : Nat → PointField → Nat) (total c : Nat) : List Byte :=
  points F info cloud (c * 32768) (min (total - c * 32768) 32768) ++ sectionsBy info cloud (way c) (c * 32768) (min (total - c * 32768) 32768)

/-- What is stored can be read: it is the chunk itself, or the library makes the chunk of it whenever there is room. LZ4 takes at most 2^31 - 1 bytes. -/
def Readable (C : Compressor) (opt : CompOpt) (chunk stored : List Byte) : Prop :=
  if opt = .none then stored = chunk
  else (∀ room, chunk.length ≤ room → C.decompress opt stored room = some chunk) ∧ (opt = .lz4 → stored.length ≤ 2 ^ 31 - 1)

/-- An encoded cloud of such a writer. -/
def EncodedBy (F : FloatOps) (C : Compressor) (info : EncodingInfo) (cloud : List Byte) (way : Nat → PointField → Nat) (total : Nat)
    (payload : List Byte) : Prop :=
  ∃ stored : List (List Byte), stored.length = (total + 32767) / 32768 ∧
    (∀ c y, stored[c]? = some y → Readable C info.compression_opt (chunkBy F info cloud way total c) y ∧ y.length < 2 ^ 32) ∧
    payload = stored.flatMap fun y => le 4 y.length ++ y

end Cloudini.Format
