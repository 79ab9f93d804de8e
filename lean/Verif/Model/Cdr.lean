import Verif.Model.Base

/-!
# The CDR encoder and decoder (`contrib/nanocdr.hpp`)

Lines refer to `cloudini_lib/include/cloudini_lib/contrib/nanocdr.hpp`.  The machine is little-endian.  A `bool` is its byte; reading a
`bool` whose byte is neither 0 nor 1 is not distinguished.  `std::bad_alloc` from `resize(len)` is not modelled.
-/

namespace Cloudini.Cdr

/-- 33 `CdrVersion`. -/
inductive Version where
  | dds | xcdr1 | xcdr2
  deriving DecidableEq, Repr

/-- `static_cast<int>(v)`. -/
def Version.code : Version → Nat
  | .dds => 1
  | .xcdr1 => 2
  | .xcdr2 => 3

/-- 35 `EncodingFlag`. -/
inductive Flag where
  | plain | pl | plain2
  deriving DecidableEq, Repr

def Flag.code : Flag → Byte
  | .plain => 0x0#8
  | .pl => 0x2#8
  | .plain2 => 0x4#8

/-- 42-46 `CdrHeader`. -/
structure Header where
  big : Bool := false
  flag : Flag := .plain
  version : Version := .dds
  deriving DecidableEq, Repr

/-- 291, 378 `align64_`. -/
def Header.align64 (h : Header) : Nat := if h.version = .xcdr2 then 4 else 8

/-- 135-138 and 196-199 `alignment(data_size)`: the padding in front of a value of `n` bytes at offset `pos` behind the header. -/
def alignment (a64 n pos : Nat) : Nat :=
  let m := if n = 8 then a64 else n
  (m - pos % m) &&& (m - 1)

/-! ### encoder: the bytes of `*storage_` -/

/-- 373-387: the constructor. -/
def encInit (h : Header) : List Byte := [0#8, (if h.big then 0#8 else 1#8) ||| h.flag.code, 0#8, 0#8]

/-- 233-250 `swapEndianness` and the `memcpy`: the bytes of a value of `n` bytes. -/
def primBytes (h : Header) (n v : Nat) : List Byte := if h.big then (toLE n v).reverse else toLE n v

/-- 389-411 `encode(const T&)` of an arithmetic type of `n` bytes; `v` is its bit pattern.  One-byte types are not aligned. -/
def encPrim (h : Header) (n v : Nat) (st : List Byte) : List Byte :=
  let st := if 2 ≤ n then st ++ List.replicate (alignment h.align64 n (st.length - 4)) 0#8 else st
  st ++ primBytes h n v

/-- 418-425 `encode(const std::string&)`.  `str_len` is a `uint32_t`; if `size() + 1` does not fit, the `memcpy` runs behind the storage. -/
def encString (h : Header) (s st : List Byte) : Res (List Byte) :=
  if s.length + 1 < 2 ^ 32 then .ok (encPrim h 4 (s.length + 1) st ++ s ++ [0#8])
  else .ub .mem

/-- 427-433 `encode(const ConstBuffer&)`: at most the low 32 bits of the size. -/
def encBuf (h : Header) (b st : List Byte) : List Byte :=
  encPrim h 4 (b.length % 2 ^ 32) st ++ b.take (b.length % 2 ^ 32)

/-- 444-449: the items of a `std::array`, and of a vector (439-441). -/
def encItems {α : Type} (f : α → List Byte → Res (List Byte)) : List α → List Byte → Res (List Byte)
  | [], st => .ok st
  | x :: xs, st => do
    let st ← f x st
    encItems f xs st

/-- 435-442 `encode(const std::vector<T>&)`. -/
def encVec {α : Type} (h : Header) (f : α → List Byte → Res (List Byte)) (xs : List α) (st : List Byte) : Res (List Byte) :=
  encItems f xs (encPrim h 4 (xs.length % 2 ^ 32) st)

/-! ### decoder: the bytes left and the offset behind the header -/

structure Dec where
  buf : List Byte
  pos : Nat
  deriving DecidableEq, Repr

/-- `buffer_.trim_front(n)` (span.hpp:90-96). -/
def Dec.trim (d : Dec) (n : Nat) : Res Dec :=
  if n > d.buf.length then .throw "Cannot trim more than the current size" else .ok ⟨d.buf.drop n, d.pos + n⟩

/-- 264-286: the header's version, or the rejection. -/
def versionOf (enc : Byte) (default : Version) : Res Flag :=
  if enc &&& 0xFE#8 = 0x4#8 then
    if Version.xcdr1.code ≤ default.code then .ok .plain2 else .throw "Unexpected encoding received."
  else if enc &&& 0xFE#8 = 0x2#8 then
    if Version.xcdr1.code ≤ default.code then .ok .pl else .throw "Unexpected encoding received."
  else if enc &&& 0xFE#8 = 0x0#8 then .ok .plain
  else .throw "Unexpected encoding received."

/-- 264-286: the version set for the flag. -/
def versionFor : Flag → Version → Version
  | .plain2, _ => .xcdr2
  | .pl, _ => .xcdr1
  | .plain, default => if Version.xcdr1.code ≤ default.code then .xcdr1 else default

/-- 252-293: the constructor.  It reads four bytes without asking for the size. -/
def decInit (default : Version) (buf : List Byte) : Res (Header × Dec) :=
  match buf with
  | b0 :: b1 :: b2 :: b3 :: rest =>
    if b0 ≠ 0#8 then .throw "Invalid CDR header: expected first byte to be 0"
    else do
      let flag ← versionOf b1 default
      if b2 ≠ 0#8 ∨ b3 ≠ 0#8 then .throw "Extended header not supported"
      else .ok (⟨b1 &&& 1#8 = 0#8, flag, versionFor flag default⟩, ⟨rest, 0⟩)
  | _ => .ub .mem

/-- 344-366 `decode(T&)` of an arithmetic type of `n` bytes. -/
def decPrim (h : Header) (n : Nat) (d : Dec) : Res (Nat × Dec) := do
  let d ← d.trim (alignment h.align64 n d.pos)
  if d.buf.length < n then .throw "Decode: not enough data to decode"
  else do
    let bs ← readAt d.buf 0 n
    let d ← d.trim n
    .ok (fromLE (if h.big then bs.reverse else bs), d)

/-- 312-332 `decode(std::string&)`: the last byte goes if it is NUL. -/
def decString (h : Header) (d : Dec) : Res (List Byte × Dec) := do
  let (len, d) ← decPrim h 4 d
  if d.buf.length < len then .throw "Decode: not enough data to decode (string)"
  else do
    let s ← readAt d.buf 0 len
    let d ← d.trim len
    .ok (if s.getLast? = some 0#8 then s.dropLast else s, d)

/-- 334-342 `decode(ConstBuffer&)`. -/
def decBuf (h : Header) (d : Dec) : Res (List Byte × Dec) := do
  let (len, d) ← decPrim h 4 d
  if d.buf.length < len then .throw "Decode: not enough data to decode (string)"
  else do
    let s ← readAt d.buf 0 len
    let d ← d.trim len
    .ok (s, d)

/-- 305-310: `n` items. -/
def decItems {α : Type} (f : Dec → Res (α × Dec)) : Nat → Dec → Res (List α × Dec)
  | 0, d => .ok ([], d)
  | n + 1, d => do
    let (x, d) ← f d
    let (xs, d) ← decItems f n d
    .ok (x :: xs, d)

/-- 295-303 `decode(std::vector<T>&)`. -/
def decVec {α : Type} (h : Header) (f : Dec → Res (α × Dec)) (d : Dec) : Res (List α × Dec) := do
  let (len, d) ← decPrim h 4 d
  decItems f len d

/-! ### messages: the types `encode` and `decode` accept -/

/-- An arithmetic type (its size), `std::string`, `std::vector<uint8_t>` as a view, `std::vector`, `std::array`, and the members of a
type with a `TypeDefinition` one after the other (`pair`, `unit`). -/
inductive Ty where
  | u8 | u16 | u32 | u64
  | str
  | buf
  | vec (t : Ty)
  | arr (n : Nat) (t : Ty)
  | unit
  | pair (a b : Ty)

/-- Values of a type; a number is its bit pattern. -/
def Ty.Val : Ty → Type
  | .u8 => BitVec 8
  | .u16 => BitVec 16
  | .u32 => BitVec 32
  | .u64 => BitVec 64
  | .str => List Byte
  | .buf => List Byte
  | .vec t => List t.Val
  | .arr n t => { l : List t.Val // l.length = n }
  | .unit => Unit
  | .pair a b => a.Val × b.Val

/-- `encoder.encode(v)`. -/
def encode (h : Header) : (t : Ty) → t.Val → List Byte → Res (List Byte)
  | .u8, v, st => .ok (encPrim h 1 (BitVec.toNat v) st)
  | .u16, v, st => .ok (encPrim h 2 (BitVec.toNat v) st)
  | .u32, v, st => .ok (encPrim h 4 (BitVec.toNat v) st)
  | .u64, v, st => .ok (encPrim h 8 (BitVec.toNat v) st)
  | .str, v, st => encString h v st
  | .buf, v, st => .ok (encBuf h v st)
  | .vec t, v, st => encVec h (encode h t) v st
  | .arr _ t, v, st => encItems (encode h t) v.1 st
  | .unit, _, st => .ok st
  | .pair a b, v, st => do
    let st ← encode h a v.1 st
    encode h b v.2 st

/-- `n` items, with their number. -/
def decArr {α : Type} (f : Dec → Res (α × Dec)) : (n : Nat) → Dec → Res ({ l : List α // l.length = n } × Dec)
  | 0, d => .ok (⟨[], rfl⟩, d)
  | n + 1, d => do
    let (x, d) ← f d
    let (xs, d) ← decArr f n d
    .ok (⟨x :: xs.1, by rw [List.length_cons, xs.2]⟩, d)

/-- `decoder.decode(v)`. -/
def decode (h : Header) : (t : Ty) → Dec → Res (t.Val × Dec)
  | .u8, d => do let (v, d) ← decPrim h 1 d; .ok (BitVec.ofNat 8 v, d)
  | .u16, d => do let (v, d) ← decPrim h 2 d; .ok (BitVec.ofNat 16 v, d)
  | .u32, d => do let (v, d) ← decPrim h 4 d; .ok (BitVec.ofNat 32 v, d)
  | .u64, d => do let (v, d) ← decPrim h 8 d; .ok (BitVec.ofNat 64 v, d)
  | .str, d => decString h d
  | .buf, d => decBuf h d
  | .vec t, d => decVec h (decode h t) d
  | .arr n t, d => decArr (decode h t) n d
  | .unit, d => .ok ((), d)
  | .pair a b, d => do
    let (x, d) ← decode h a d
    let (y, d) ← decode h b d
    .ok ((x, y), d)

/-- A message of type `t`: `Encoder(header)` and `encode(v)`. -/
def encodeMsg (h : Header) (t : Ty) (v : t.Val) : Res (List Byte) := encode h t v (encInit h)

/-- `Decoder(buffer, default_cdr)` and `decode(v)`: the value and the bytes left. -/
def decodeMsg (default : Version) (t : Ty) (buf : List Byte) : Res (t.Val × List Byte) := do
  let (h, d) ← decInit default buf
  let (v, d) ← decode h t d
  .ok (v, d.buf)

end Cloudini.Cdr
