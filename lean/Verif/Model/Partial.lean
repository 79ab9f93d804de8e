import Verif.Model.Cloud

/-!
# The output of a decode that fails

`Model/Cloud` gives the output buffer of a decode that succeeds.  Here the same functions are written with the output as a state that survives exceptions: a `Tr α`
takes the contents of the caller's buffer and gives the contents when control leaves the function, with the outcome.  `Lemmas/Partial` proves that outcome and
output of a success are those of `Model/Cloud`.  After undefined behaviour the contents mean nothing.  A field decoder throws only before it stores
(`Dec.step` gives its stores when it succeeds).
-/

namespace Cloudini.Partial

/-- A function with the output buffer as its state. -/
def Tr (α : Type) : Type := List Byte → List Byte × Res α

/-- Sequencing: an exception keeps the buffer as it is. -/
def Tr.bind {α β : Type} (t : Tr α) (k : α → Tr β) : Tr β := fun b =>
  match (t b).2 with
  | .ok x => k x (t b).1
  | .throw e => ((t b).1, .throw e)
  | .ub u => ((t b).1, .ub u)

instance : Monad Tr where
  pure x := fun b => (b, .ok x)
  bind := Tr.bind

/-- A computation that does not look at the output. -/
def lift {α : Type} (r : Res α) : Tr α := fun b => (b, r)

/-- `throw`. -/
def fail {α : Type} (e : String) : Tr α := fun b => (b, .throw e)

/-- The size of the output. -/
def size : Tr Nat := fun b => (b, .ok b.length)

/-- `memcpy` to the output. -/
def put (pos : Nat) (bs : List Byte) : Tr Unit := fun b => if pos + bs.length ≤ b.length then (splice b pos bs, .ok ()) else (b, .ub .mem)

/-- The stores of a field decoder (as `applyWrites`). -/
def puts (base : Nat) : List Write → Tr Unit
  | [] => pure ()
  | (o, v) :: ws => do
    put (base + o) v
    puts base ws

/-- One point (v4_codec.cpp:93-100, v5_codec.cpp:996-1001; as `decodeFields`). -/
def fields (F : FloatOps) : List Dec → List Byte → Nat → Tr (List Dec × List Byte)
  | [], input, _ => pure ([], input)
  | d :: ds, input, base => do
    let (d', ws, input) ← lift (d.step F input)
    puts base ws
    let (ds', input) ← fields F ds input base
    pure (d' :: ds', input)

/-- v4_codec.cpp:101-107 (as `decodePointsV4`). -/
def pointsV4 (F : FloatOps) (min step : Nat) : Nat → List Dec → List Byte → Nat → Tr (List Dec × List Byte × Nat)
  | 0, ds, input, base => pure (ds, input, base)
  | n + 1, ds, input, base =>
    if input.length < min then fail "Truncated encoded data: not enough bytes for a complete point"
    else do
      let room ← size
      if room - base < step then fail "Output buffer is too small to hold the decoded data"
      else do
        let (ds, input) ← fields F ds input base
        pointsV4 F min step n ds input (base + step)

/-- v4_codec.cpp:109-115 (as `decodeUntilEmptyV4`). -/
def untilEmptyV4 (F : FloatOps) (min step : Nat) : Nat → List Dec → List Byte → Nat → Tr (List Dec × List Byte × Nat)
  | 0, ds, input, base => if input.length = 0 then pure (ds, input, base) else lift (.ub .loop)
  | fuel + 1, ds, input, base =>
    if input.length = 0 then pure (ds, input, base)
    else if input.length < min then fail "Truncated encoded data: not enough bytes for a complete point"
    else do
      let room ← size
      if room - base < step then fail "Output buffer is too small to hold the decoded data"
      else do
        let (ds, input) ← fields F ds input base
        untilEmptyV4 F min step fuel ds input (base + step)

/-- v4_codec.cpp:85-117 `DecodeV4Stage1Chunk`. -/
def chunkV4 (F : FloatOps) (fuel : Nat) (ds : List Dec) (min step expected : Nat) (input : List Byte) (base : Nat) : Tr (List Dec × Nat) :=
  if expected > 0 then do
    let (ds, _, base) ← pointsV4 F min step expected (ds.map Dec.reset) input base
    pure (ds, base)
  else do
    let (ds, _, base) ← untilEmptyV4 F min step fuel (ds.map Dec.reset) input base
    pure (ds, base)

/-- v5_codec.cpp:122-124. -/
def value (base step : Nat) (f : AField) (i : Nat) (v : BitVec 64) : Tr Unit := put (base + i * step + f.offset) (toLE f.bpv v.toNat)

/-- v5_codec.cpp:781-794 (as `decodeDeltas`). -/
def deltas (f : AField) (base step : Nat) : Nat → Nat → BitVec 64 → List Byte → Tr (List Byte)
  | 0, _, _, input => pure input
  | n + 1, i, prev, input => do
    let (diff, consumed) ← lift (decodeVarint input)
    let v ← lift (addI64 prev diff)
    value base step f i v
    deltas f base step n (i + 1) v (input.drop consumed)

/-- v5_codec.cpp:818-824 (as `decodePaletteIndexes`). -/
def paletteIndexes (f : AField) (base step bits : Nat) (palette : List (BitVec 64)) : Nat → Nat → List Byte → BitVec 64 → Nat → Tr Unit
  | 0, _, _, _, _ => pure ()
  | n + 1, i, ptr, scratch, held => do
    let (idx, ptr, scratch, held) ← lift (readBitpackedIndex bits ptr scratch held)
    match palette[idx]? with
    | none => fail "V5 adaptive int: palette index out of range"
    | some v => do
      value base step f i v
      paletteIndexes f base step bits palette n (i + 1) ptr scratch held

/-- v5_codec.cpp:841-844 (as `writeRun`). -/
def run (f : AField) (base step : Nat) (v : BitVec 64) : Nat → Nat → Tr Unit
  | 0, _ => pure ()
  | k + 1, i => do
    value base step f i v
    run f base step v k (i + 1)

/-- v5_codec.cpp:832-845 (as `decodeRleRuns`). -/
def rleRuns (f : AField) (base step expected : Nat) : Nat → Nat → List Byte → Tr (Nat × List Byte)
  | 0, outIndex, input => pure (outIndex, input)
  | r + 1, outIndex, input =>
    if input.length < f.bpv then fail "V5 adaptive int: truncated RLE value"
    else do
      let bs ← lift (readAt input 0 f.bpv)
      let (runLen, input) ← lift (readUVarint (input.drop f.bpv))
      if (BitVec.ofNat 64 outIndex + runLen).toNat > expected then fail "V5 adaptive int: RLE run exceeds point count"
      else do
        run f base step (BitVec.ofNat 64 (fromLE bs)) runLen.toNat outIndex
        rleRuns f base step expected r (outIndex + runLen.toNat) input

/-- v5_codec.cpp:862-869 (as `writeDeltaRun`). -/
def deltaRun (f : AField) (base step : Nat) (diff : BitVec 64) : Nat → Nat → BitVec 64 → Tr (BitVec 64)
  | 0, _, prev => pure prev
  | k + 1, i, prev => do
    let v ← lift (addI64 prev diff)
    value base step f i v
    deltaRun f base step diff k (i + 1) v

/-- v5_codec.cpp:854-870 (as `decodeDeltaRleRuns`). -/
def deltaRleRuns (f : AField) (base step expected : Nat) : Nat → Nat → BitVec 64 → List Byte → Tr (Nat × List Byte)
  | 0, outIndex, _, input => pure (outIndex, input)
  | r + 1, outIndex, prev, input => do
    let (diff, consumed) ← lift (decodeVarint input)
    let (runLen, input) ← lift (readUVarint (input.drop consumed))
    if (BitVec.ofNat 64 outIndex + runLen).toNat > expected then fail "V5 adaptive int: Delta-RLE run exceeds point count"
    else do
      let prev ← deltaRun f base step diff runLen.toNat outIndex prev
      deltaRleRuns f base step expected r (outIndex + runLen.toNat) prev input

/-- v5_codec.cpp:764-879 `decodeV5AdaptiveIntSection` (as `decodeSection`). -/
def section_ (f : AField) (base step expected : Nat) (input : List Byte) : Tr (List Byte) :=
  match input with
  | [] => fail "V5 adaptive int: missing mode byte"
  | m :: input =>
    if m = 0#8 then deltas f base step expected 0 0#64 input
    else if m = 1#8 then do
      let (count, input) ← lift (decodeInt 2 input)
      if count = 0 then fail "V5 adaptive int: empty palette"
      else do
        let (palette, input) ← lift (readPalette f.bpv count input)
        if input.length < (bitsForPaletteIndex count * expected + 7) / 8 then fail "V5 adaptive int: truncated palette indexes"
        else do
          paletteIndexes f base step (bitsForPaletteIndex count) palette expected 0 input 0#64 0
          pure (input.drop ((bitsForPaletteIndex count * expected + 7) / 8))
    else if m = 2#8 then do
      let (runs, input) ← lift (decodeInt 4 input)
      let (outIndex, input) ← rleRuns f base step expected runs 0 input
      if outIndex ≠ expected then fail "V5 adaptive int: RLE run count does not fill chunk"
      else pure input
    else if m = 3#8 then do
      let (runs, input) ← lift (decodeInt 4 input)
      let (outIndex, input) ← deltaRleRuns f base step expected runs 0 0#64 input
      if outIndex ≠ expected then fail "V5 adaptive int: Delta-RLE run count does not fill chunk"
      else pure input
    else fail "V5 adaptive int: unknown mode byte"

/-- v5_codec.cpp:1003-1006. -/
def sections (base step expected : Nat) : List AField → List Byte → Tr (List Byte)
  | [], input => pure input
  | f :: fs, input => do
    let input ← section_ f base step expected input
    sections base step expected fs input

/-- v5_codec.cpp:996-1001. -/
def pointsV5 (F : FloatOps) (step : Nat) : Nat → List Dec → List Byte → Nat → Tr (List Dec × List Byte)
  | 0, ds, input, _ => pure (ds, input)
  | n + 1, ds, input, base => do
    let (ds, input) ← fields F ds input base
    pointsV5 F step n ds input (base + step)

/-- v5_codec.cpp:984-1012 `DecodeV5Stage1Chunk`. -/
def chunkV5 (F : FloatOps) (ds : List Dec) (as : List AField) (step expected : Nat) (input : List Byte) (base : Nat) : Tr (List Dec × Nat) :=
  if expected = 0 then fail "V5 chunks require an expected point count"
  else do
    let room ← size
    if room - base < expected * step then fail "Output buffer is too small to hold the decoded V5 data"
    else do
      let (ds, input) ← pointsV5 F step expected (ds.map Dec.reset) input base
      let input ← sections base step expected as input
      if input.length ≠ 0 then fail "V5 chunk has trailing bytes after decode"
      else pure (ds, base + expected * step)

/-- cloudini.cpp:670-684 `decodeChunk`. -/
def chunk (F : FloatOps) (C : Compressor) (fuel : Nat) (info : EncodingInfo) (ds : List Dec) (min : Nat) (data : List Byte) (base expected : Nat) :
    Tr (List Dec × Nat) := do
  let view ← lift (decompressChunk C info.compression_opt data (maxDecompressed info))
  if usesV5 info then chunkV5 F ds (getAdaptiveFields info) info.point_step.toNat expected view base
  else chunkV4 F fuel ds min info.point_step.toNat expected view base

/-- cloudini.cpp:646-664: the chunk loop of versions ≥ 3. -/
def loop (F : FloatOps) (C : Compressor) (info : EncodingInfo) (min' : Nat) (points : Nat) (ds : List Dec) (data : List Byte) (base : Nat) : Tr Unit :=
  if data.length = 0 then
    if points ≠ 0 then fail "Encoded data ended before all declared points were decoded" else pure ()
  else if _h : points = 0 then fail "Encoded data contains more chunks than declared points"
  else do
    let (size, data) ← lift (decodeInt 4 data)
    if size > data.length then fail "Invalid chunk size found while decoding"
    else do
      let (ds, base) ← chunk F C 0 info ds min' (data.take size) base (min points kPointsPerChunk)
      loop F C info min' (points - min points kPointsPerChunk) ds (data.drop size) base
termination_by points
decreasing_by simp only [kPointsPerChunk]; omega

/-- cloudini.cpp:635-668 `PointcloudDecoder::decode(info, compressed_data, BufferView output)`. -/
def decode (F : FloatOps) (C : Compressor) (fuel : Nat) (info : EncodingInfo) (data : List Byte) : Tr Unit := do
  let (ds, min) ← lift (buildDecoders F info)
  if data.take 10 = magic then fail "compressed_data contains the header. You should use DecodeHeader first"
  else if info.version ≥ 3#8 then loop F C info min (info.width.toNat * info.height.toNat) ds data 0
  else do
    let _ ← chunk F C fuel info ds min data 0 0
    pure ()

end Cloudini.Partial
