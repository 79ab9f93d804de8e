import Verif.Model.Cloud
import Verif.Lemmas.Column

/-!
# Specification vocabulary for whole clouds

Nothing here refers to how the codec works: a cloud is a byte string of `points * point_step` bytes, `cell` (from
`Spec/Column`) is the byte range of one field of one point, and `expected` is what a user should find there after decoding.
-/

namespace Cloudini.Props

/-- The number of leading FLOAT32 fields with a resolution, when it is 3 or 4 and the encoding is lossy: those are
quantised together with vector instructions (documented in `cloudini.hpp`); 0 otherwise. -/
def groupSize (info : EncodingInfo) : Nat :=
  let n := (info.fields.takeWhile fun f => f.type = .float32 && f.resolution.isSome).length
  if info.encoding_opt = .lossy ∧ (n = 3 ∨ n = 4) then n else 0

/-- What decoding must produce for field number `k` whose original bytes are `bs`. -/
def expected (F : FloatOps) (info : EncodingInfo) (k : Nat) (f : PointField) (bs : List Byte) : List Byte :=
  match info.encoding_opt, f.type, f.resolution with
  | .lossy, .float32, some r =>
    toLE 4 (if k < groupSize info then memorylessV F r (BitVec.ofNat 32 (fromLE bs))
      else memoryless32 F r (BitVec.ofNat 32 (fromLE bs))).toNat
  | .lossy, .float64, some r => toLE 8 (memoryless64 F r (BitVec.ofNat 64 (fromLE bs))).toNat
  | _, _, _ => bs

/-- The stored integer is at most 2^62 in magnitude (as a signed 64-bit number). -/
def Fits62 (v : BitVec 64) : Prop := -2 ^ 62 ≤ v.toInt ∧ v.toInt < 2 ^ 62
def Fits30 (v : BitVec 32) : Prop := -2 ^ 30 ≤ v.toInt ∧ v.toInt < 2 ^ 30

/-- The value of field number `k` is of moderate size: 64-bit integers and quantised floats at most 2^62 (2^30 in the
vector group); nothing is asked of other fields, and nothing at all with option NONE.  Clouds of such values are always
in order (`follows_of_range`). -/
def InRange (F : FloatOps) (info : EncodingInfo) (k : Nat) (f : PointField) (bs : List Byte) : Prop :=
  match info.encoding_opt, f.type, f.resolution with
  | .none, _, _ => True
  | _, .int64, _ | _, .uint64, _ => Fits62 (BitVec.ofNat 64 (fromLE bs))
  | .lossy, .float32, some r =>
    isNaN32 (BitVec.ofNat 32 (fromLE bs)) = true ∨
      (if k < groupSize info then Fits30 (F.quantV r (BitVec.ofNat 32 (fromLE bs)))
       else ∃ q, F.quant32 r (BitVec.ofNat 32 (fromLE bs)) = some q ∧ Fits62 q)
  | .lossy, .float64, some r =>
    isNaN64 (BitVec.ofNat 64 (fromLE bs)) = true ∨ ∃ q, F.quant64 r (BitVec.ofNat 64 (fromLE bs)) = some q ∧ Fits62 q
  | _, _, _ => True

/-- The difference of two numbers fits into 64 bits and is not the most negative 64-bit number. -/
def Step63 (v p : BitVec 64) : Prop := -2 ^ 63 < v.toInt - p.toInt ∧ v.toInt - p.toInt < 2 ^ 63

/-- The difference of two numbers fits into 32 bits. -/
def Step31 (v p : BitVec 32) : Prop := -2 ^ 31 ≤ v.toInt - p.toInt ∧ v.toInt - p.toInt < 2 ^ 31

/-- The value `bs` of field number `k`, coming after the value `prev` (`none`: nothing before it), is one its codec can
store: only 64-bit integers and quantised floats are restricted (and nothing at all with option NONE), and only by the
difference to the number before, which counts as 0 at the start and after a NaN. -/
def Follows (F : FloatOps) (info : EncodingInfo) (k : Nat) (f : PointField) (prev : Option (List Byte)) (bs : List Byte) : Prop :=
  match info.encoding_opt, f.type, f.resolution with
  | .none, _, _ => True
  | _, .int64, _ | _, .uint64, _ => Step63 (BitVec.ofNat 64 (fromLE bs)) (prev.elim 0#64 fun p => BitVec.ofNat 64 (fromLE p))
  | .lossy, .float32, some r =>
    isNaN32 (BitVec.ofNat 32 (fromLE bs)) = true ∨
      (if k < groupSize info then
        Step31 (F.quantV r (BitVec.ofNat 32 (fromLE bs))) (prev.elim 0#32 fun p =>
          if isNaN32 (BitVec.ofNat 32 (fromLE p)) = true then 0#32 else F.quantV r (BitVec.ofNat 32 (fromLE p)))
       else ∃ q, F.quant32 r (BitVec.ofNat 32 (fromLE bs)) = some q ∧ Step63 q (prev.elim 0#64 fun p =>
          if isNaN32 (BitVec.ofNat 32 (fromLE p)) = true then 0#64 else (F.quant32 r (BitVec.ofNat 32 (fromLE p))).getD 0#64))
  | .lossy, .float64, some r =>
    isNaN64 (BitVec.ofNat 64 (fromLE bs)) = true ∨ ∃ q, F.quant64 r (BitVec.ofNat 64 (fromLE bs)) = some q ∧
      Step63 q (prev.elim 0#64 fun p =>
        if isNaN64 (BitVec.ofNat 64 (fromLE p)) = true then 0#64 else (F.quant64 r (BitVec.ofNat 64 (fromLE p))).getD 0#64)
  | _, _, _ => True

/-- The value of field `f` in the point before point `i`; points 0, 32768, 65536, ... start afresh (documented in
`cloudini.hpp`: the cloud is encoded in chunks of 32768 points). -/
def previous (info : EncodingInfo) (cloud : List Byte) (i : Nat) (f : PointField) : Option (List Byte) :=
  if i % 32768 = 0 then none else some (cell cloud 0 info.point_step.toNat (i - 1) f.offset.toNat (sizeOf f.type))

/-- Two values `bs` and `bs2` of field number `k` are the same to the format: for a quantised float, both are NaN or both
fall on the same multiple of the resolution (the same integer after quantisation, or both outside the integer range);
for every other field they are the same bytes. -/
def SameStored (F : FloatOps) (info : EncodingInfo) (k : Nat) (f : PointField) (bs bs2 : List Byte) : Prop :=
  match info.encoding_opt, f.type, f.resolution with
  | .lossy, .float32, some r =>
    isNaN32 (BitVec.ofNat 32 (fromLE bs)) = isNaN32 (BitVec.ofNat 32 (fromLE bs2)) ∧
      (isNaN32 (BitVec.ofNat 32 (fromLE bs)) = false →
        if k < groupSize info then F.quantV r (BitVec.ofNat 32 (fromLE bs)) = F.quantV r (BitVec.ofNat 32 (fromLE bs2))
        else F.quant32 r (BitVec.ofNat 32 (fromLE bs)) = F.quant32 r (BitVec.ofNat 32 (fromLE bs2)))
  | .lossy, .float64, some r =>
    isNaN64 (BitVec.ofNat 64 (fromLE bs)) = isNaN64 (BitVec.ofNat 64 (fromLE bs2)) ∧
      (isNaN64 (BitVec.ofNat 64 (fromLE bs)) = false →
        F.quant64 r (BitVec.ofNat 64 (fromLE bs)) = F.quant64 r (BitVec.ofNat 64 (fromLE bs2)))
  | _, _, _ => bs = bs2

instance (F : FloatOps) (info : EncodingInfo) (k : Nat) (f : PointField) (bs bs2 : List Byte) : Decidable (SameStored F info k f bs bs2) := by
  unfold SameStored; split <;> infer_instance

/-- Two byte ranges of a point do not overlap. -/
def Disjoint (f g : PointField) : Prop :=
  f.offset.toNat + sizeOf f.type ≤ g.offset.toNat ∨ g.offset.toNat + sizeOf g.type ≤ f.offset.toNat

/-- Version-5 lossy clouds have at most 64 integer fields of 16 to 64 bits. -/
def FieldLimit (info : EncodingInfo) : Prop :=
  5 ≤ info.version.toNat → info.encoding_opt = .lossy →
    (info.fields.filter fun f => f.type ∈ [.int16, .uint16, .int32, .uint32, .int64, .uint64]).length ≤ 64

instance (info : EncodingInfo) : Decidable (FieldLimit info) := by unfold FieldLimit; infer_instance

/-- A well-formed cloud description: a supported version and option, known field types, every field inside the point,
no two fields overlapping, and resolutions that both sides accept. -/
structure ValidInfo (F : FloatOps) (info : EncodingInfo) : Prop where
  step : 0 < info.point_step.toNat
  version : 3 ≤ info.version.toNat
  option : info.encoding_opt = .none ∨ info.encoding_opt = .lossy ∨ info.encoding_opt = .lossless
  types : ∀ f ∈ info.fields, f.type ∈ [.int8, .uint8, .int16, .uint16, .int32, .uint32, .float32, .float64, .int64, .uint64]
  inside : ∀ f ∈ info.fields, f.offset.toNat + sizeOf f.type ≤ info.point_step.toNat
  disjoint : info.fields.Pairwise Disjoint
  resolution : info.encoding_opt = .lossy → ∀ f ∈ info.fields, ∀ r, f.resolution = some r →
    F.resNonPos r = false ∧ F.invNonPos r = false

/-- A cloud of the declared size in which every value can be stored after the one before it. -/
structure ValidCloud (F : FloatOps) (info : EncodingInfo) (cloud : List Byte) : Prop where
  size : cloud.length = info.width.toNat * info.height.toNat * info.point_step.toNat
  addressable : cloud.length < 2 ^ 64
  range : ∀ i, i < info.width.toNat * info.height.toNat → ∀ k f, info.fields[k]? = some f →
    Follows F info k f (previous info cloud i f) (cell cloud 0 info.point_step.toNat i f.offset.toNat (sizeOf f.type))

/-- What an arbitrary sequence of uses may have done to one field encoder: encode a value anywhere, or be reset. -/
inductive EncHistory (F : FloatOps) (e : Enc) : Enc → Prop
  | none : EncHistory F e e
  | reset (e' : Enc) : EncHistory F e e' → EncHistory F e e'.reset
  | step (e' e'' : Enc) (mem bs : List Byte) : EncHistory F e e' → e'.step F mem = .ok (e'', bs) → EncHistory F e e''

/-- Element-wise relation between two lists of equal length. -/
def Each {α : Type} (R : α → α → Prop) : List α → List α → Prop
  | [], [] => True
  | a :: as, b :: bs => R a b ∧ Each R as bs
  | _, _ => False

/-- The encoder objects of a user's program for one `info`: freshly constructed, or having encoded any clouds with either
overload before.  A call that threw may have left every field encoder in any state it can get into. -/
inductive Reach (F : FloatOps) (C : Compressor) (info : EncodingInfo) (header : List Byte) : Encoder → Prop
  | fresh (enc : Encoder) : mkEncoder F info header = .ok enc → Reach F C info header enc
  | view (enc enc' : Encoder) (cloud out : List Byte) (room size : Nat) (wh : Bool) : Reach F C info header enc →
      encodeView F C enc cloud room wh = .ok (enc', out, size) → Reach F C info header enc'
  | vector (enc enc' : Encoder) (cloud out : List Byte) (hb size : Nat) : Reach F C info header enc →
      encodeVector F C enc hb cloud = .ok (enc', out, size) → Reach F C info header enc'
  | failed (enc : Encoder) (encs : List Enc) : Reach F C info header enc → Each (EncHistory F) enc.encs encs →
      Reach F C info header { enc with encs := encs }

end Cloudini.Props
