import Verif.Model.Cloud

/-!
# The decoder as an object (`PointcloudDecoder`)

`Model/Cloud` treats `decode` as a function.  Here its object is written out: the field decoders, the minimum of bytes per point and the buffer of decompressed
bytes survive from one call to the next, also when a call throws.  `limit` is the largest size a `std::vector` can be given (a larger one throws), and
`junk` what a failed decompression leaves in its destination.  The output of a call that fails is not modelled (the caller has it, but nothing is said about it).
-/

namespace Cloudini.Decoder

/-- cloudini.hpp:241-243. -/
structure Obj where
  decoders : List Dec := []
  min : Nat := 0
  buffer : List Byte := []

/-- `std::vector::resize` upwards (codec_common.cpp:272-274, 286-288): new elements are 0. -/
def grow (buffer : List Byte) (n : Nat) : List Byte := buffer ++ List.replicate (n - buffer.length) 0#8

/-- The destination after writing `x` at its start. -/
def overwrite (buffer x : List Byte) : List Byte := (x ++ buffer.drop x.length).take buffer.length

/-- codec_common.cpp:260-299 `DecompressChunk`: the buffer afterwards, and the view returned.  The view is what the library says it has written, at the start
of the buffer. -/
def decompress (C : Compressor) (junk : List Byte → List Byte) (limit : Nat) (opt : CompOpt) (chunk buffer : List Byte) (lim : Nat) : List Byte × Res (List Byte) :=
  match opt with
  | .none => (buffer, .ok chunk)
  | .lz4 =>
    if chunk.length > intMax ∨ lim > intMax then (buffer, .throw "Chunk size too large for LZ4")
    else if buffer.length < lim ∧ limit < lim then (buffer, .throw "vector::resize")
    else
      let buffer := grow buffer lim
      match C.decompress .lz4 chunk lim with
      | none => (overwrite buffer (junk chunk), .throw "LZ4 decompression failed")
      | some x => (overwrite buffer x, .ok ((overwrite buffer x).take x.length))
  | .zstd =>
    if buffer.length < lim ∧ limit < lim then (buffer, .throw "vector::resize")
    else
      let buffer := grow buffer lim
      match C.decompress .zstd chunk lim with
      | none => (overwrite buffer (junk chunk), .throw "ZSTD decompression failed")
      | some x => (overwrite buffer x, .ok ((overwrite buffer x).take x.length))
  | .bad _ => (buffer, .throw "Unsupported compression option")

/-- cloudini.cpp:627-633 `updateDecoders`: v4_codec.cpp:42-64 and v5_codec.cpp:965-982 clear the list and the minimum, then add to them.  When a decoder cannot be
made, those made so far stay in the list; here none do (the next call clears the list). -/
def update (F : FloatOps) (info : EncodingInfo) (obj : Obj) : Obj × Res Unit :=
  let obj := { obj with decoders := [], min := 0 }
  match buildDecoders F info with
  | .throw e => (obj, .throw e)
  | .ub k => (obj, .ub k)
  | .ok (ds, m) => ({ obj with decoders := obj.decoders ++ ds, min := obj.min + m }, .ok ())

/-- cloudini.cpp:670-684 `decodeChunk`: the object, and the output with the position in it.  When a chunk fails, its decoders keep what they have seen of it; here
they keep what they had before it. -/
def chunk (F : FloatOps) (C : Compressor) (junk : List Byte → List Byte) (limit fuel : Nat) (info : EncodingInfo) (obj : Obj) (data buf : List Byte)
    (base expected : Nat) : Obj × Res (List Byte × Nat) :=
  let r := decompress C junk limit info.compression_opt data obj.buffer (maxDecompressed info)
  let obj := { obj with buffer := r.1 }
  match r.2 with
  | .throw e => (obj, .throw e)
  | .ub k => (obj, .ub k)
  | .ok view =>
    let d := if usesV5 info then decodeV5Chunk F obj.decoders (getAdaptiveFields info) info.point_step.toNat expected view buf base
             else decodeV4Chunk F fuel obj.decoders obj.min info.point_step.toNat expected view buf base
    match d with
    | .throw e => (obj, .throw e)
    | .ub k => (obj, .ub k)
    | .ok (ds, buf, base) => ({ obj with decoders := ds }, .ok (buf, base))

/-- cloudini.cpp:646-664: the chunk loop of versions ≥ 3. -/
def loop (F : FloatOps) (C : Compressor) (junk : List Byte → List Byte) (limit : Nat) (info : EncodingInfo) (points : Nat) (obj : Obj) (data buf : List Byte)
    (base : Nat) : Obj × Res (List Byte) :=
  if data.length = 0 then
    (obj, if points ≠ 0 then .throw "Encoded data ended before all declared points were decoded" else .ok buf)
  else if _h : points = 0 then (obj, .throw "Encoded data contains more chunks than declared points")
  else
    match decodeInt 4 data with
    | .throw e => (obj, .throw e)
    | .ub k => (obj, .ub k)
    | .ok (size, data) =>
      if size > data.length then (obj, .throw "Invalid chunk size found while decoding")
      else
        let n := Min.min points kPointsPerChunk
        let r := chunk F C junk limit 0 info obj (data.take size) buf base n
        match r.2 with
        | .throw e => (r.1, .throw e)
        | .ub k => (r.1, .ub k)
        | .ok (buf, base) => loop F C junk limit info (points - n) r.1 (data.drop size) buf base
termination_by points
decreasing_by simp only [kPointsPerChunk]; omega

/-- cloudini.cpp:635-668 `decode(info, compressed_data, BufferView output)`. -/
def decode (F : FloatOps) (C : Compressor) (junk : List Byte → List Byte) (limit fuel : Nat) (obj : Obj) (info : EncodingInfo) (data buf : List Byte) :
    Obj × Res (List Byte) :=
  let u := update F info obj
  match u.2 with
  | .throw e => (u.1, .throw e)
  | .ub k => (u.1, .ub k)
  | .ok () =>
    if data.take 10 = magic then (u.1, .throw "compressed_data contains the header. You should use DecodeHeader first")
    else if info.version ≥ 3#8 then loop F C junk limit info (info.width.toNat * info.height.toNat) u.1 data buf 0
    else
      let r := chunk F C junk limit fuel info u.1 data buf 0 0
      match r.2 with
      | .throw e => (r.1, .throw e)
      | .ub k => (r.1, .ub k)
      | .ok (buf, _) => (r.1, .ok buf)

/-- cloudini.hpp:229-233 `decode(info, compressed_data, std::vector<uint8_t>& output)`: the size is computed in 32 bits. -/
def decodeVector (F : FloatOps) (C : Compressor) (junk : List Byte → List Byte) (limit fuel : Nat) (obj : Obj) (info : EncodingInfo) (data out : List Byte) :
    Obj × Res (List Byte) :=
  let n := (info.width * info.height * info.point_step).toNat
  if limit < n then (obj, .throw "vector::resize")
  else decode F C junk limit fuel obj info data (grow (out.take n) n)

/-- A call of one of the two overloads. -/
structure Call where
  info : EncodingInfo
  data : List Byte
  out : List Byte
  vector : Bool
  fuel : Nat := 0

/-- One call. -/
def call (F : FloatOps) (C : Compressor) (junk : List Byte → List Byte) (limit : Nat) (obj : Obj) (c : Call) : Obj × Res (List Byte) :=
  if c.vector then decodeVector F C junk limit c.fuel obj c.info c.data c.out else decode F C junk limit c.fuel obj c.info c.data c.out

/-- A history of calls on one object, failed calls included: the object and the results. -/
def calls (F : FloatOps) (C : Compressor) (junk : List Byte → List Byte) (limit : Nat) : Obj → List Call → Obj × List (Res (List Byte))
  | obj, [] => (obj, [])
  | obj, c :: cs => ((calls F C junk limit (call F C junk limit obj c).1 cs).1, (call F C junk limit obj c).2 :: (calls F C junk limit (call F C junk limit obj c).1 cs).2)

end Cloudini.Decoder
