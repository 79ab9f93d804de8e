import Verif.Model.Base

/-!
# Gorilla bit-packed XOR coding (`field_encoder.hpp:128-312`, `field_decoder.hpp:150-300`)

`tb` is `kTypeBits` (32 for `float`, 64 for `double`); an `IntType` value is kept in the low `tb` bits of a
`BitVec 64`.
-/

namespace Cloudini

/-- `std::countl_zero` of the low `w` bits. -/
def countlZero : Nat → Nat → Nat
  | 0, _ => 0
  | w + 1, x => if x / 2 ^ w % 2 = 1 then 0 else 1 + countlZero w x

/-- `std::countr_zero` of the low `w` bits. -/
def countrZero : Nat → Nat → Nat
  | 0, _ => 0
  | w + 1, x => if x % 2 = 1 then 0 else 1 + countrZero w (x / 2)

/-- field_encoder.hpp:188-191: bit accumulator, plus the bytes already moved to the output. -/
structure BitW where
  buf : BitVec 64 := 0
  cnt : Nat := 0
  out : List Byte := []
  deriving DecidableEq, Repr

/-- field_encoder.hpp:218-224 and 234-240: drain full bytes. -/
def drain (w : BitW) : BitW :=
  if 8 ≤ w.cnt then
    drain { buf := w.buf >>> 8, cnt := w.cnt - 8, out := w.out ++ [w.buf.setWidth 8] }
  else w
termination_by w.cnt

/-- `(uint64_t{1} << n) - 1` for `n < 64`. -/
def lowMask (n : Nat) : BitVec 64 := (1#64 <<< n) - 1#64

/-- field_encoder.hpp:200-243 `putBits`. -/
def putBits (bits : BitVec 64) (nbits : Nat) (w : BitW) : BitW :=
  let bits := if nbits < 64 then bits &&& lowMask nbits else bits
  let space := 64 - w.cnt
  if nbits > space then
    let mask := if space = 64 then BitVec.allOnes 64 else lowMask space
    let w := drain { w with buf := w.buf ||| ((bits &&& mask) <<< w.cnt), cnt := w.cnt + space }
    drain { w with buf := w.buf ||| ((bits >>> space) <<< w.cnt), cnt := w.cnt + (nbits - space) }
  else
    drain { w with buf := w.buf ||| (bits <<< w.cnt), cnt := w.cnt + nbits }

/-- field_encoder.hpp:297-303: byte-align at the end of each `encode` call. -/
def flushBits (w : BitW) : List Byte :=
  if w.cnt > 0 then w.out ++ [w.buf.setWidth 8] else w.out

/-- State kept between calls by encoder and decoder: `prev_bits_`, `prev_leading_` (255 = sentinel),
`prev_trailing_`, `first_`.  The bit buffer is empty between calls (field_encoder.hpp:297-303,
field_decoder.hpp:297-299), so it is local to a call here. -/
structure GorillaState where
  prev : BitVec 64 := 0
  leading : Nat := 255
  trailing : Nat := 0
  first : Bool := true
  deriving DecidableEq, Repr

/-- `static_cast<uint8_t>(kTypeBits - a - b)` where `a`, `b` are `uint8_t` and the arithmetic is `size_t`. -/
def subU8 (tb a b : Nat) : Nat := (tb + 512 - a - b) % 256

/-- field_encoder.hpp:246-306 `FieldEncoderFloat_Gorilla::encode`, after the value has been read. -/
def gorillaEncode (tb : Nat) (st : GorillaState) (cur : BitVec 64) : GorillaState × List Byte :=
  if st.first then
    ({ st with first := false, prev := cur }, flushBits (putBits cur tb {}))
  else
    let x := cur ^^^ st.prev
    let st := { st with prev := cur }
    if x = 0#64 then
      (st, flushBits (putBits 0#64 1 {}))
    else
      let w := putBits 1#64 1 {}
      let leading := countlZero tb x.toNat
      let trailing := countrZero tb x.toNat
      if st.leading ≠ 255 ∧ leading ≥ st.leading ∧ trailing ≥ st.trailing then
        let w := putBits 0#64 1 w
        let meaningful := subU8 tb st.leading st.trailing
        (st, flushBits (putBits (x >>> st.trailing) meaningful w))
      else
        let w := putBits 1#64 1 w
        let stored := if leading > 31 then 31 else leading
        let meaningful := subU8 tb stored trailing
        let w := putBits (BitVec.ofNat 64 stored) 5 w
        let w := putBits (BitVec.ofNat 64 (meaningful - 1)) 6 w
        ({ st with leading := stored, trailing := trailing }, flushBits (putBits (x >>> trailing) meaningful w))

/-- The decoder's bit buffer and remaining input. -/
structure BitR where
  buf : BitVec 64 := 0
  cnt : Nat := 0
  inp : List Byte := []
  deriving DecidableEq, Repr

/-- field_decoder.hpp:232-234, 245-247: `while (bit_count_ < n) fillOne()`, with `fillOne` (201-209)
inlined; a shift by 64 or more is undefined.  Recursion on the input. -/
def fillTo (n : Nat) (buf : BitVec 64) (cnt : Nat) (inp : List Byte) : Res BitR :=
  if cnt < n then
    match inp with
    | [] => .throw "FieldDecoderFloat_Gorilla: truncated input"
    | b :: rest =>
      if cnt ≥ 64 then .ub .shift
      else fillTo n (buf ||| ((b.setWidth 64) <<< cnt)) (cnt + 8) rest
  else .ok { buf := buf, cnt := cnt, inp := inp }

/-- `(n < 64) ? ((uint64_t{1} << n) - 1) : ~uint64_t{0}`. -/
def maskN (n : Nat) : BitVec 64 := if n < 64 then lowMask n else BitVec.allOnes 64

/-- field_decoder.hpp:196-253 `getBits`. -/
def getBits (nbits : Nat) (r : BitR) : Res (BitVec 64 × BitR) :=
  if nbits > 56 ∨ r.cnt > 56 then
    let p1 := min nbits r.cnt
    let low := r.buf &&& maskN p1
    let buf := if p1 < 64 then r.buf >>> p1 else 0#64
    let cnt := r.cnt - p1
    let remaining := nbits - p1
    if remaining = 0 then .ok (low, { r with buf := buf, cnt := cnt })
    else do
      let r ← fillTo remaining buf cnt r.inp
      let high := r.buf &&& maskN remaining
      let buf := if remaining < 64 then r.buf >>> remaining else 0#64
      if p1 ≥ 64 then .ub .shift
      else .ok (low ||| (high <<< p1), { r with buf := buf, cnt := r.cnt - remaining })
  else do
    let r ← fillTo nbits r.buf r.cnt r.inp
    .ok (r.buf &&& maskN nbits, { r with buf := r.buf >>> nbits, cnt := r.cnt - nbits })

/-- `static_cast<IntType>(bits << n)`: a shift of a `uint64_t` by `n` (undefined for `n ≥ 64`), truncated
to `tb` bits. -/
def shlTrunc (tb : Nat) (bits : BitVec 64) (n : Nat) : Res (BitVec 64) :=
  if n ≥ 64 then .ub .shift else .ok ((bits <<< n) &&& maskN tb)

/-- field_decoder.hpp:255-300 `FieldDecoderFloat_Gorilla::decode`: new state, decoded bits, remaining input. -/
def gorillaDecode (tb : Nat) (st : GorillaState) (input : List Byte) :
    Res (GorillaState × BitVec 64 × List Byte) := do
  let r : BitR := { inp := input }
  if st.first then
    let (raw, r) ← getBits tb r
    let v := raw &&& maskN tb
    .ok ({ st with first := false, prev := v }, v, r.inp)
  else
    let (flag, r) ← getBits 1 r
    if flag = 0#64 then .ok (st, st.prev, r.inp)
    else
      let (control, r) ← getBits 1 r
      if control = 0#64 then
        let meaningful := subU8 tb st.leading st.trailing
        let (bits, r) ← getBits meaningful r
        let x ← shlTrunc tb bits st.trailing
        let v := (x ^^^ st.prev)
        .ok ({ st with prev := v }, v, r.inp)
      else
        let (l, r) ← getBits 5 r
        let (m, r) ← getBits 6 r
        let stored := l.toNat % 256
        let meaningful := (m.toNat + 1) % 256
        let (bits, r) ← getBits meaningful r
        let trailing := subU8 tb stored meaningful
        let x ← shlTrunc tb bits trailing
        let v := (x ^^^ st.prev)
        .ok ({ prev := v, leading := stored, trailing := trailing, first := false }, v, r.inp)

end Cloudini
