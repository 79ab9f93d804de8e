import Verif.Model.Base

/-!
# Signed varints (`encoding_utils.hpp`) and unsigned varints (`v5_codec.cpp`)
-/

namespace Cloudini

/-- encoding_utils.hpp:56-57.  `static_cast<uint64_t>((value << 1) ^ (value >> 63))` followed by `val++`
(unsigned, so it wraps).  `int64_t` is its 64-bit pattern; `value >> 63` is the arithmetic shift. -/
def zigzagPlus1 (value : BitVec 64) : BitVec 64 :=
  ((value <<< 1) ^^^ (value.sshiftRight 63)) + 1#64

/-- encoding_utils.hpp:59-65 (and v5_codec.cpp:160-174, the same loop): 7-bit groups, least significant
first, continuation bit 0x80.  `while (val > 0x7F) { emit((val & 0x7F) | 0x80); val >>= 7; } emit(val)`. -/
def lebBytes (val : BitVec 64) : List Byte :=
  if _h : 0x7F < val.toNat then
    ((val &&& 0x7F#64) ||| 0x80#64).setWidth 8 :: lebBytes (val >>> 7)
  else
    [val.setWidth 8]
termination_by val.toNat
decreasing_by
  rw [BitVec.toNat_ushiftRight, Nat.shiftRight_eq_div_pow]
  exact Nat.div_lt_self (by omega) (by decide)

/-- encoding_utils.hpp:55-67 `encodeVarint64`: the bytes written at `ptr`; the returned count is their number.
The write is unchecked; callers account for the space (see `runOps`). -/
def encodeVarint64 (value : BitVec 64) : List Byte :=
  lebBytes (zigzagPlus1 value)

/-- encoding_utils.hpp:118-139, the general loop of `decodeVarint`.  `bytes` are those not yet read
(`ptr - buf >= max_size` is `bytes = []`), `shift` and `uval` the loop variables, `count` = `ptr - buf`.
`shift` is a `uint8_t` but never exceeds 63 + 7. -/
def decodeVarintLoop (bytes : List Byte) (shift : Nat) (uval : BitVec 64) (count : Nat) :
    Res (BitVec 64 × Nat) :=
  match bytes with
  | [] => .throw "decodeVarint: truncated input"
  | byte :: rest =>
    let payload := byte &&& 0x7f#8
    if shift ≥ 64 ∨ (shift = 63 ∧ payload.toNat > 1) then .throw "decodeVarint: value overflow"
    else
      let uval := uval ||| ((payload.setWidth 64) <<< shift)
      if byte &&& 0x80#8 = 0#8 then .ok (uval, count + 1)
      else if shift ≥ 63 then .throw "decodeVarint: value overflow"
      else decodeVarintLoop rest (shift + 7) uval (count + 1)

/-- encoding_utils.hpp:102-139: the raw unsigned value and the number of bytes consumed,
with the two fast paths in front of the general loop. -/
def decodeVarintRaw (bytes : List Byte) : Res (BitVec 64 × Nat) :=
  match bytes with
  | [] => .throw "decodeVarint: empty input"
  | b0 :: rest =>
    if b0 &&& 0x80#8 = 0#8 then .ok (b0.setWidth 64, 1)
    else
      match rest with
      | b1 :: _ =>
        if b1 &&& 0x80#8 = 0#8 then
          .ok (((b0 &&& 0x7f#8).setWidth 64) ||| ((b1.setWidth 64) <<< 7), 2)
        else decodeVarintLoop bytes 0 0#64 0
      | [] => decodeVarintLoop bytes 0 0#64 0

/-- encoding_utils.hpp:145: zigzag decoding,
`(uval >> 1) ^ static_cast<uint64_t>(-(static_cast<int64_t>(uval & 1)))`. -/
def unzigzag (uval : BitVec 64) : BitVec 64 :=
  (uval >>> 1) ^^^ (-(uval &&& 1#64))

/-- encoding_utils.hpp:98-148 `decodeVarint(buf, max_size, val)`: value and bytes consumed.
`bytes` is the whole remaining view. -/
def decodeVarint (bytes : List Byte) : Res (BitVec 64 × Nat) := do
  let (uval, count) ← decodeVarintRaw bytes
  if uval = 0#64 then .throw "decodeVarint: unexpected NaN marker"
  else .ok (unzigzag (uval - 1#64), count)

/-- v5_codec.cpp:176-194 `readUVarint`: value and remaining view.
Note the missing overflow test on the payload at shift 63: its upper bits are dropped.  A shift of a 64-bit value by 64 or more
is undefined; the loop stops before that (`C03_uvarint_exact`). -/
def readUVarintLoop (bytes : List Byte) (shift : Nat) (value : BitVec 64) : Res (BitVec 64 × List Byte) :=
  match bytes with
  | [] => .throw "V5 adaptive int: truncated unsigned varint"
  | byte :: rest =>
    if shift ≥ 64 then .ub .shift
    else
    let value := value ||| (((byte &&& 0x7f#8).setWidth 64) <<< shift)
    if byte &&& 0x80#8 = 0#8 then .ok (value, rest)
    else if shift + 7 ≥ 64 then .throw "V5 adaptive int: unsigned varint overflow"
    else readUVarintLoop rest (shift + 7) value

def readUVarint (bytes : List Byte) : Res (BitVec 64 × List Byte) :=
  readUVarintLoop bytes 0 0#64

/-- v5_codec.cpp:244-251 `encodedUVarintSize`. -/
def encodedUVarintSize (value : BitVec 64) : Nat :=
  if _h : 0x7F < value.toNat then 1 + encodedUVarintSize (value >>> 7) else 1
termination_by value.toNat
decreasing_by
  rw [BitVec.toNat_ushiftRight, Nat.shiftRight_eq_div_pow]
  exact Nat.div_lt_self (by omega) (by decide)

end Cloudini
