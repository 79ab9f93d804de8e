import Verif.Model.V4

/-!
# Version 5 stage 1 (`v5_codec.cpp`): adaptive integer sections

`std::vector<uint8_t>` and `BufferView` destinations of the same append functions are modelled by plain lists
and by `W` respectively.
-/

namespace Cloudini

/-- v5_codec.cpp:33-38 `AdaptiveIntMode`. -/
inductive AMode where
  | deltaVarint | palette | rle | deltaRle
  deriving DecidableEq, Repr

/-- v5_codec.cpp:33-38: the wire ids. -/
def AMode.code : AMode → Byte
  | .deltaVarint => 0#8
  | .palette => 1#8
  | .rle => 2#8
  | .deltaRle => 3#8

/-- v5_codec.cpp:40-66 `V5AdaptiveIntField`.  The field type is kept as size and signedness; `name` and
`field_index` are not used by the code.  `uint32_t`/`size_t` counters bounded by the number of points of a
chunk are `Nat`. -/
structure AField where
  offset : Nat
  bpv : Nat
  signed : Bool
  values : List (BitVec 64) := []
  raws : List (BitVec 64) := []
  palette : List (BitVec 64) := []
  indexes : List Nat := []
  slots : List (BitVec 32) := []
  gens : List (BitVec 32) := []
  generation : BitVec 32 := 1#32
  committed : Bool := false
  mode : AMode := .deltaVarint
  sec : List Byte := []
  streaming : Bool := false
  runCountOffset : Nat := 0
  runCount : Nat := 0
  prev : BitVec 64 := 0#64
  runDiff : BitVec 64 := 0#64
  runRaw : BitVec 64 := 0#64
  runLen : Nat := 0
  hasRun : Bool := false
  deriving DecidableEq, Repr

/-- v5_codec.cpp:76 `kAdaptiveModeProbePoints`. -/
def kProbePoints : Nat := 4096

/-- v5_codec.cpp:83-95 `isV5AdaptiveIntType`. -/
def isAdaptiveType : FieldType → Bool
  | .int16 | .uint16 | .int32 | .uint32 | .int64 | .uint64 => true
  | _ => false

/-- Signedness selected by `readIntAsI64` (v5_codec.cpp:97-114). -/
def isSignedType : FieldType → Bool
  | .int16 | .int32 | .int64 => true
  | _ => false

/-- v5_codec.cpp:97-114 `readIntAsI64(point + offset, type)`. -/
def readIntAt (mem : List Byte) (f : AField) : Res (BitVec 64) := do
  let bs ← readAt mem f.offset f.bpv
  .ok (toI64 f.bpv f.signed bs)

/-- v5_codec.cpp:116-120 `readRawBits(point + offset, bytes)`. -/
def readRawAt (mem : List Byte) (f : AField) : Res (BitVec 64) := do
  let bs ← readAt mem f.offset f.bpv
  .ok (BitVec.ofNat 64 (fromLE bs))

/-- v5_codec.cpp:126-132 `appendByte(BufferView&, …)`. -/
def W.appendByte (w : W) (b : Byte) : Res W :=
  w.checked "V5 adaptive int: output buffer full" [b]

/-- v5_codec.cpp:160-166 `appendUVarint(…, BufferView&)`: byte by byte, each checked. -/
def W.appendUVarint (w : W) (v : BitVec 64) : Res W :=
  w.checked "V5 adaptive int: output buffer full" (lebBytes v)

/-- v5_codec.cpp:138-144 `appendRawBits(BufferView&, …)`. -/
def W.appendRawBits (w : W) (v : BitVec 64) (n : Nat) : Res W :=
  w.checked "V5 adaptive int: output buffer full" (toLE n v.toNat)

/-- v5_codec.cpp:196-207 `bitsForPaletteIndex`: the loop halving `max_index`. -/
def bitLength (m : Nat) : Nat :=
  if _h : m = 0 then 0 else bitLength (m / 2) + 1
termination_by m
decreasing_by omega

/-- v5_codec.cpp:196-207. -/
def bitsForPaletteIndex (unique : Nat) : Nat :=
  if unique ≤ 1 then 0 else bitLength (unique - 1)

/-- v5_codec.cpp:218-222: emit whole bytes while at least 8 bits are held. -/
def drainBytes (scratch : BitVec 64) (held : Nat) : List Byte × BitVec 64 × Nat :=
  if _h : 8 ≤ held then
    let r := drainBytes (scratch >>> 8) (held - 8)
    (scratch.setWidth 8 :: r.1, r.2)
  else ([], scratch, held)
termination_by held

/-- v5_codec.cpp:209-227 `appendBitpackedIndexes`: the bytes written for the indexes, given the held bits. -/
def packIndexes (bits : Nat) : List Nat → BitVec 64 → Nat → List Byte
  | [], scratch, held => if held > 0 then [scratch.setWidth 8] else []
  | i :: is, scratch, held =>
    let scratch := scratch ||| (BitVec.ofNat 64 i <<< held)
    let r := drainBytes scratch (held + bits)
    r.1 ++ packIndexes bits is r.2.1 r.2.2

/-- v5_codec.cpp:209-227 (`bits == 0` returns at once). -/
def bitpack (bits : Nat) (is : List Nat) : List Byte :=
  if bits = 0 then [] else packIndexes bits is 0#64 0

/-- v5_codec.cpp:229-242 `readBitpackedIndex`: refill loop. `input` is the memory from `ptr`; reading past
it is undefined.  `fuel` = `bits` suffices because each turn adds 8 bits. -/
def fillBits (bits : Nat) : Nat → List Byte → BitVec 64 → Nat → Res (List Byte × BitVec 64 × Nat)
  | fuel, input, scratch, held =>
    if held < bits then
      match fuel, input with
      | 0, _ => .ub .loop
      | _, [] => .ub .mem
      | fuel + 1, b :: rest => fillBits bits fuel rest (scratch ||| ((b.setWidth 64) <<< held)) (held + 8)
    else .ok (input, scratch, held)

/-- v5_codec.cpp:229-242: index, then pointer and bit buffer. -/
def readBitpackedIndex (bits : Nat) (input : List Byte) (scratch : BitVec 64) (held : Nat) :
    Res (Nat × List Byte × BitVec 64 × Nat) :=
  if bits = 0 then .ok (0, input, scratch, held)
  else do
    let (input, scratch, held) ← fillBits bits bits input scratch held
    let mask := (1#64 <<< bits) - 1#64
    .ok (((scratch &&& mask).setWidth 32).toNat, input, scratch >>> bits, held - bits)

/-- v5_codec.cpp:253-256 `encodedVarint64Size`. -/
def encodedVarint64Size (v : BitVec 64) : Nat := (encodeVarint64 v).length

/-- v5_codec.cpp:258-267 `encodedDeltaVarintSectionSize`, the loop. -/
def deltaVarintSize : List (BitVec 64) → BitVec 64 → Nat → Res Nat
  | [], _, bytes => .ok bytes
  | v :: vs, prev, bytes => do
    let diff ← subI64 v prev
    deltaVarintSize vs v (bytes + encodedVarint64Size diff)

/-- v5_codec.cpp:276-284: extend a run of equal differences; extra length, last value, rest. -/
def deltaRunSpan (diff : BitVec 64) : List (BitVec 64) → BitVec 64 → Nat → Res (Nat × BitVec 64 × List (BitVec 64))
  | [], prev, n => .ok (n, prev, [])
  | v :: vs, prev, n => do
    let next ← subI64 v prev
    if next ≠ diff then .ok (n, prev, v :: vs)
    else deltaRunSpan diff vs v (n + 1)

/-- v5_codec.cpp:269-289 `forEachDeltaRun`.  `fuel` is the number of values (each turn consumes one at least). -/
def forEachDeltaRun {σ : Type} (cb : σ → BitVec 64 → Nat → Res σ) : Nat → List (BitVec 64) → BitVec 64 → σ → Res σ
  | _, [], _, s => .ok s
  | 0, _ :: _, _, _ => .ub .loop
  | fuel + 1, v :: vs, prev, s => do
    let diff ← subI64 v prev
    let (n, prev, rest) ← deltaRunSpan diff vs v 1
    let s ← cb s diff n
    forEachDeltaRun cb fuel rest prev s

/-- v5_codec.cpp:291-299 `encodedDeltaRleSectionSize`. -/
def deltaRleSize (vals : List (BitVec 64)) : Res Nat :=
  forEachDeltaRun (fun bytes diff n =>
    .ok (bytes + (encodedVarint64Size diff + encodedUVarintSize (BitVec.ofNat 64 n)))) vals.length vals 0#64 5

/-- v5_codec.cpp:306-312 (and 480-485): extend a run of equal values; length and rest. -/
def rleRunSpan (value : BitVec 64) : List (BitVec 64) → Nat → Nat × List (BitVec 64)
  | [], n => (n, [])
  | v :: vs, n => if v = value then rleRunSpan value vs (n + 1) else (n, v :: vs)

/-- v5_codec.cpp:304-315, 478-489: the run loop shared by `encodedRleSectionSize` and `appendRleSection`. -/
def forEachRleRun {σ : Type} (cb : σ → BitVec 64 → Nat → Res σ) : Nat → List (BitVec 64) → σ → Res σ
  | _, [], s => .ok s
  | 0, _ :: _, _ => .ub .loop
  | fuel + 1, v :: vs, s => do
    let r := rleRunSpan v vs 1
    let s ← cb s v r.1
    forEachRleRun cb fuel r.2 s

/-- v5_codec.cpp:301-316 `encodedRleSectionSize`. -/
def rleSize (bpv : Nat) (raws : List (BitVec 64)) : Res Nat :=
  forEachRleRun (fun bytes _ n => .ok (bytes + (bpv + encodedUVarintSize (BitVec.ofNat 64 n)))) raws.length raws 5

/-! ### palette -/

/-- v5_codec.cpp:318-324 `nextPowerOfTwo`; `fuel` 64 covers every `size_t`. -/
def nextPow2Loop (value : Nat) : Nat → Nat → Nat
  | 0, out => out
  | fuel + 1, out => if out < value then nextPow2Loop value fuel (2 * out) else out

def nextPowerOfTwo (value : Nat) : Nat := nextPow2Loop value 64 1

/-- v5_codec.cpp:326-333 `hashPaletteValue`. -/
def hashPaletteValue (value : BitVec 64) : BitVec 64 :=
  let value := value ^^^ (value >>> 30)
  let value := value * 0xbf58476d1ce4e5b9#64
  let value := value ^^^ (value >>> 27)
  let value := value * 0x94d049bb133111eb#64
  value ^^^ (value >>> 31)

/-- v5_codec.cpp:335-347 `preparePaletteTable`. -/
def preparePaletteTable (f : AField) (count : Nat) : AField :=
  let slotCount := nextPowerOfTwo (max 16 (count * 2))
  if f.slots.length < slotCount then
    { f with slots := List.replicate slotCount 0#32, gens := List.replicate slotCount 0#32 }
  else
    let g := f.generation + 1#32
    if g = 0#32 then
      { f with gens := List.replicate f.gens.length 0#32, generation := 1#32 }
    else { f with generation := g }

/-- v5_codec.cpp:349-367: the probe loop of `addPaletteValue`; a free slot, or the index of the value.
After `slots.size()` turns every slot has been visited and the loop would repeat for ever. -/
def paletteProbe (f : AField) (value : BitVec 64) : Nat → Nat → Res (Nat ⊕ Nat)
  | 0, _ => .ub .loop
  | fuel + 1, slot =>
    match f.gens[slot]? with
    | none => .ub .mem
    | some g =>
      if g ≠ f.generation then .ok (.inl slot)
      else
        match f.slots[slot]? with
        | none => .ub .mem
        | some s =>
          let index := (s - 1#32).toNat
          match f.palette[index]? with
          | none => .ub .mem
          | some v =>
            if v = value then .ok (.inr index)
            else paletteProbe f value fuel ((slot + 1) &&& (f.slots.length - 1))

/-- v5_codec.cpp:349-367 `addPaletteValue`. -/
def addPaletteValue (hash : BitVec 64 → BitVec 64) (f : AField) (value : BitVec 64) : Res (AField × Nat) := do
  let r ← paletteProbe f value f.slots.length ((hash value).toNat &&& (f.slots.length - 1))
  match r with
  | .inl slot =>
    let index := f.palette.length
    .ok ({ f with palette := f.palette ++ [value],
                  slots := f.slots.set slot (BitVec.ofNat 32 index + 1#32),
                  gens := f.gens.set slot f.generation }, index)
  | .inr index => .ok (f, index)

/-- v5_codec.cpp:376-378: the loop of `buildPaletteIndexes`. -/
def addPaletteValues (hash : BitVec 64 → BitVec 64) : List (BitVec 64) → AField → Res AField
  | [], f => .ok f
  | v :: vs, f => do
    let (f, i) ← addPaletteValue hash f v
    addPaletteValues hash vs { f with indexes := f.indexes ++ [i] }

/-- v5_codec.cpp:369-379 `buildPaletteIndexes`. -/
def buildPaletteIndexes (hash : BitVec 64 → BitVec 64) (f : AField) : Res AField :=
  addPaletteValues hash f.raws (preparePaletteTable { f with palette := [], indexes := [] } f.raws.length)

/-- v5_codec.cpp:381-385 `encodedPaletteSectionSize`. -/
def paletteSize (f : AField) : Nat :=
  1 + 2 + f.palette.length * f.bpv + (bitsForPaletteIndex f.palette.length * f.raws.length + 7) / 8

/-- v5_codec.cpp:387-403 `selectBestAdaptiveIntMode`. -/
def selectBest (delta palette rle deltaRle : Nat) : AMode :=
  let best := (AMode.deltaVarint, delta)
  let best := if palette < best.2 then (AMode.palette, palette) else best
  let best := if rle < best.2 then (AMode.rle, rle) else best
  if deltaRle < best.2 then .deltaRle else best.1

/-- v5_codec.cpp:405-421 `analyzeAdaptiveIntField` and `commitAdaptiveIntMode`. -/
def commitMode (hash : BitVec 64 → BitVec 64) (f : AField) : Res AField :=
  if f.committed then .ok f
  else do
    let d ← deltaVarintSize f.values 0#64 1
    let f ← buildPaletteIndexes hash f
    let r ← rleSize f.bpv f.raws
    let dr ← deltaRleSize f.values
    .ok { f with mode := selectBest d (paletteSize f) r dr, committed := true }

/-! ### buffered sections -/

/-- v5_codec.cpp:423-432 `appendDeltaVarintSection`, the loop (unchecked varint writes). -/
def appendDeltas : List (BitVec 64) → BitVec 64 → W → Res W
  | [], _, w => .ok w
  | v :: vs, prev, w => do
    let diff ← subI64 v prev
    let w ← w.raw (encodeVarint64 diff)
    appendDeltas vs v w

def appendDeltaVarintSection (vals : List (BitVec 64)) (w : W) : Res W := do
  let w ← w.appendByte AMode.deltaVarint.code
  appendDeltas vals 0#64 w

/-- Replace the 4 placeholder bytes at `pos` of what was written (`memcpy(run_count_ptr, &run_count, 4)`). -/
def W.patchU32 (w : W) (pos n : Nat) : W := { w with out := splice w.out pos (toLE 4 n) }

/-- v5_codec.cpp:447-460 `appendDeltaRleSection`. -/
def appendDeltaRleSection (vals : List (BitVec 64)) (w : W) : Res W := do
  let w ← w.appendByte AMode.deltaRle.code
  let pos := w.out.length
  let w ← w.encodeInt 4 0
  let (w, runs) ← forEachDeltaRun (fun (s : W × Nat) diff n => do
    let w ← s.1.raw (encodeVarint64 diff)
    let w ← w.appendUVarint (BitVec.ofNat 64 n)
    .ok (w, s.2 + 1)) vals.length vals 0#64 (w, 0)
  .ok (w.patchU32 pos runs)

/-- v5_codec.cpp:465-467: the palette values. -/
def appendRawList (bpv : Nat) : List (BitVec 64) → W → Res W
  | [], w => .ok w
  | v :: vs, w => do
    let w ← w.appendRawBits v bpv
    appendRawList bpv vs w

/-- v5_codec.cpp:462-470 `appendPaletteSection` (the size is truncated to 16 bits).  The packed indexes are
written with `appendByte`, each checked. -/
def appendPaletteSection (f : AField) (w : W) : Res W := do
  let w ← w.appendByte AMode.palette.code
  let w ← w.encodeInt 2 f.palette.length
  let w ← appendRawList f.bpv f.palette w
  w.checked "V5 adaptive int: output buffer full" (bitpack (bitsForPaletteIndex f.palette.length) f.indexes)

/-- v5_codec.cpp:472-491 `appendRleSection`. -/
def appendRleSection (bpv : Nat) (raws : List (BitVec 64)) (w : W) : Res W := do
  let w ← w.appendByte AMode.rle.code
  let pos := w.out.length
  let w ← w.encodeInt 4 0
  let (w, runs) ← forEachRleRun (fun (s : W × Nat) v n => do
    let w ← s.1.appendRawBits v bpv
    let w ← w.appendUVarint (BitVec.ofNat 64 n)
    .ok (w, s.2 + 1)) raws.length raws (w, 0)
  .ok (w.patchU32 pos runs)

/-! ### streamed sections -/

/-- v5_codec.cpp:493-527 `beginCommittedAdaptiveIntSection`. -/
def beginSection (f : AField) : AField :=
  let f := { f with sec := [], streaming := false, runCountOffset := 0, runCount := 0, prev := 0#64,
                    runDiff := 0#64, runRaw := 0#64, runLen := 0, hasRun := false }
  match f.mode with
  | .deltaVarint => { f with streaming := true, sec := [AMode.deltaVarint.code] }
  | .deltaRle => { f with streaming := true, sec := AMode.deltaRle.code :: toLE 4 0, runCountOffset := 1 }
  | .rle => { f with streaming := true, sec := AMode.rle.code :: toLE 4 0, runCountOffset := 1 }
  | .palette => f

/-- v5_codec.cpp:529-537 `flushDeltaRleRun`. -/
def flushDeltaRleRun (f : AField) : AField :=
  if f.hasRun then
    { f with sec := f.sec ++ encodeVarint64 f.runDiff ++ lebBytes (BitVec.ofNat 64 f.runLen),
             runCount := f.runCount + 1, hasRun := false }
  else f

/-- v5_codec.cpp:539-557 `appendDeltaRleValue`. -/
def appendDeltaRleValue (f : AField) (value : BitVec 64) : Res AField := do
  let diff ← subI64 value f.prev
  let f := { f with prev := value }
  if !f.hasRun then .ok { f with runDiff := diff, runLen := 1, hasRun := true }
  else if diff = f.runDiff then .ok { f with runLen := f.runLen + 1 }
  else .ok { flushDeltaRleRun f with runDiff := diff, runLen := 1, hasRun := true }

/-- v5_codec.cpp:559-567 `flushRleRun`. -/
def flushRleRun (f : AField) : AField :=
  if f.hasRun then
    { f with sec := f.sec ++ toLE f.bpv f.runRaw.toNat ++ lebBytes (BitVec.ofNat 64 f.runLen),
             runCount := f.runCount + 1, hasRun := false }
  else f

/-- v5_codec.cpp:569-584 `appendRleValue`. -/
def appendRleValue (f : AField) (value : BitVec 64) : AField :=
  if !f.hasRun then { f with runRaw := value, runLen := 1, hasRun := true }
  else if value = f.runRaw then { f with runLen := f.runLen + 1 }
  else { flushRleRun f with runRaw := value, runLen := 1, hasRun := true }

/-- v5_codec.cpp:588-592, 610-614: one value of a streamed delta-varint section. -/
def appendDeltaValue (f : AField) (value : BitVec 64) : Res AField := do
  let diff ← subI64 value f.prev
  .ok { f with prev := value, sec := f.sec ++ encodeVarint64 diff }

/-- v5_codec.cpp:586-605 `appendCommittedValueToSection(field, field_ptr)`. -/
def appendCommittedFromMem (f : AField) (mem : List Byte) : Res AField :=
  match f.mode with
  | .deltaVarint => do
    let v ← readIntAt mem f
    appendDeltaValue f v
  | .deltaRle => do
    let v ← readIntAt mem f
    appendDeltaRleValue f v
  | .rle => do
    let v ← readRawAt mem f
    .ok (appendRleValue f v)
  | .palette => do
    let v ← readRawAt mem f
    .ok { f with raws := f.raws ++ [v] }

/-- v5_codec.cpp:607-626 `appendCommittedValueToSection(field, index)`; `v` is `values[index]`, or
`raw_values[index]` in mode Rle. -/
def appendCommittedAt (f : AField) (v : BitVec 64) : Res AField :=
  match f.mode with
  | .deltaVarint => appendDeltaValue f v
  | .deltaRle => appendDeltaRleValue f v
  | .rle => .ok (appendRleValue f v)
  | .palette => .ok f

/-- v5_codec.cpp:628-637 `appendProbeValuesToCommittedSection`: the buffered values are appended in order. -/
def appendProbeList : List (BitVec 64) → AField → Res AField
  | [], f => .ok f
  | v :: vs, f => do
    let f ← appendCommittedAt f v
    appendProbeList vs f

def appendProbeValues (f : AField) : Res AField :=
  if !f.streaming then .ok f
  else appendProbeList (if f.mode = .rle then f.raws else f.values) f

/-- v5_codec.cpp:156-158 `patchU32(section_bytes, offset, value)`. -/
def AField.patch (f : AField) : Res AField := do
  let s ← writeAt f.sec f.runCountOffset (toLE 4 f.runCount)
  .ok { f with sec := s }

/-- v5_codec.cpp:639-654 `finishCommittedAdaptiveIntSection`. -/
def finishSection (f : AField) : Res AField :=
  match f.mode with
  | .deltaVarint => .ok f
  | .deltaRle => (flushDeltaRleRun f).patch
  | .rle => (flushRleRun f).patch
  | .palette => .ok f

/-- v5_codec.cpp:664-681 `prepareAdaptiveIntFieldForChunk`. -/
def prepareField (f : AField) : AField :=
  let f := { f with values := [], raws := [], palette := [], indexes := [], sec := [], streaming := false }
  if f.committed then beginSection f else f

/-- v5_codec.cpp:683-691 `collectAdaptiveIntValue`; `mem` starts at the point. -/
def collectValue (f : AField) (mem : List Byte) : Res AField :=
  if !f.committed then do
    let v ← readIntAt mem f
    let r ← readRawAt mem f
    .ok { f with values := f.values ++ [v], raws := f.raws ++ [r] }
  else appendCommittedFromMem f mem

/-- v5_codec.cpp:698-700, 703-706: the palette is rebuilt when that mode was committed. -/
def rebuildPalette (hash : BitVec 64 → BitVec 64) (f : AField) : Res AField :=
  if f.mode = .palette then buildPaletteIndexes hash f else .ok f

/-- v5_codec.cpp:703-716: the buffered section of the committed mode. -/
def appendBuffered (f : AField) (w : W) : Res W :=
  match f.mode with
  | .deltaVarint => appendDeltaVarintSection f.values w
  | .deltaRle => appendDeltaRleSection f.values w
  | .palette => appendPaletteSection f w
  | .rle => appendRleSection f.bpv f.raws w

/-- v5_codec.cpp:693-717 `appendCommittedAdaptiveIntSection`. -/
def appendSection (hash : BitVec 64 → BitVec 64) (f : AField) (w : W) : Res (AField × W) :=
  if f.committed ∧ f.streaming then do
    let f ← finishSection f
    let w ← w.checked "V5 adaptive int: output buffer full" f.sec
    .ok (f, w)
  else do
    let f ← commitMode hash f
    let f ← rebuildPalette hash f
    let w ← appendBuffered f w
    .ok (f, w)

/-! ### plan, chunk encoder -/

/-- v5_codec.cpp:727-733, 753-759: the adaptive descriptor of a field. -/
def mkAField (p : PointField) : AField :=
  { offset := p.offset.toNat, bpv := sizeOf p.type, signed := isSignedType p.type }

/-- v5_codec.cpp:719-740 `buildV5Plan` (called with LOSSY only): regular encoders and adaptive fields. -/
def buildV5Plan (F : FloatOps) (info : EncodingInfo) : Res (List Enc × List AField) := do
  let lead ← leadingEncoder F info
  let tail := info.fields.drop (leadingLossyFloatCount info)
  let rest ← buildAll (createEncoder F info)
    (tail.filter fun f => !(info.encoding_opt = .lossy && isAdaptiveType f.type))
  .ok (lead ++ rest, (tail.filter fun f => info.encoding_opt = .lossy && isAdaptiveType f.type).map mkAField)

/-- v5_codec.cpp:742-762 `getV5AdaptiveFields`. -/
def getAdaptiveFields (info : EncodingInfo) : List AField :=
  if info.encoding_opt = .lossy then
    ((info.fields.drop (leadingLossyFloatCount info)).filter fun f => isAdaptiveType f.type).map mkAField
  else []

/-- Apply a step to every adaptive field in order. -/
def mapFields (g : AField → Res AField) : List AField → Res (List AField)
  | [] => .ok []
  | f :: fs => do
    let f ← g f
    let fs ← mapFields g fs
    .ok (f :: fs)

/-- v5_codec.cpp:921-935 `encode_point_range`, `k` points; `mem` is the cloud from the current point on. -/
def encodeRangeV5 (F : FloatOps) (step : Nat) : Nat → List Enc → List AField → List Byte → W →
    Res (List Enc × List AField × List Byte × W)
  | 0, es, as, mem, w => .ok (es, as, mem, w)
  | k + 1, es, as, mem, w => do
    let (es, w) ← encodeFields F mem es w
    let as ← mapFields (fun f => collectValue f mem) as
    encodeRangeV5 F step k es as (mem.drop step) w

/-- v5_codec.cpp:952-955: append the sections in order. -/
def appendSections (hash : BitVec 64 → BitVec 64) : List AField → W → Res (List AField × W)
  | [], w => .ok ([], w)
  | f :: fs, w => do
    let (f, w) ← appendSection hash f w
    let (fs, w) ← appendSections hash fs w
    .ok (f :: fs, w)

/-- v5_codec.cpp:943-945: commit on the probed values and start the section with them. -/
def commitProbed (hash : BitVec 64 → BitVec 64) (f : AField) : Res AField := do
  let f ← commitMode hash f
  appendProbeValues (beginSection f)

/-- v5_codec.cpp:937-950: the point loop of a chunk, interrupted after the probe if a mode is still to be chosen. -/
def encodePointsV5 (F : FloatOps) (hash : BitVec 64 → BitVec 64) (step : Nat) (es : List Enc) (as : List AField)
    (mem : List Byte) (n : Nat) (w : W) : Res (List Enc × List AField × List Byte × W) :=
  if (as.any fun f => !f.committed) ∧ n > kProbePoints then do
    let (es, as, mem, w) ← encodeRangeV5 F step kProbePoints es as mem w
    let as ← mapFields (commitProbed hash) as
    encodeRangeV5 F step (n - kProbePoints) es as mem w
  else encodeRangeV5 F step n es as mem w

/-- v5_codec.cpp:907-957: one chunk of `n` points into a stage buffer of `cap` bytes; encoders, adaptive
fields, the cloud from the next chunk on, and the stage-1 chunk. -/
def encodeV5Chunk (F : FloatOps) (hash : BitVec 64 → BitVec 64) (step : Nat) (es : List Enc) (as : List AField)
    (mem : List Byte) (n cap : Nat) : Res (List Enc × List AField × List Byte × List Byte) := do
  let (es, as, mem, w) ←
    encodePointsV5 F hash step (es.map Enc.reset) (as.map prepareField) mem n ⟨[], cap⟩
  let (as, w) ← appendSections hash as w
  .ok (es, as, mem, w.out)

/-! ### decoding -/

/-- v5_codec.cpp:965-982 `BuildV5Decoders` (`min_encoded_point_bytes` is not used by the V5 decoder). -/
def buildV5Decoders (F : FloatOps) (info : EncodingInfo) : Res (List Dec) := do
  let lead ← leadingDecoder F info
  let rest ← buildAll (createDecoder F info)
    ((info.fields.drop (leadingLossyFloatCount info)).filter fun f => !isAdaptiveType f.type)
  .ok (lead ++ rest)

/-- v5_codec.cpp:122-124: `memcpy` of the low bytes to the point at index `i` of the chunk; the destination is
tested neither against the point nor against the buffer nor for the skip value. -/
def writeValue (buf : List Byte) (base step : Nat) (f : AField) (i : Nat) (v : BitVec 64) : Res (List Byte) :=
  writeAt buf (base + i * step + f.offset) (toLE f.bpv v.toNat)

/-- v5_codec.cpp:781-794: mode DeltaVarint, `n` values still to come, the next one for point `i`. -/
def decodeDeltas (f : AField) (base step : Nat) : Nat → Nat → BitVec 64 → List Byte → List Byte →
    Res (List Byte × List Byte)
  | 0, _, _, input, buf => .ok (input, buf)
  | n + 1, i, prev, input, buf => do
    let (diff, consumed) ← decodeVarint input
    let value ← addI64 prev diff
    let buf ← writeValue buf base step f i value
    decodeDeltas f base step n (i + 1) value (input.drop consumed) buf

/-- v5_codec.cpp:802-809: the palette values. -/
def readPalette (bpv : Nat) : Nat → List Byte → Res (List (BitVec 64) × List Byte)
  | 0, input => .ok ([], input)
  | n + 1, input =>
    if input.length < bpv then .throw "V5 adaptive int: truncated palette"
    else do
      let bs ← readAt input 0 bpv
      let (vs, input) ← readPalette bpv n (input.drop bpv)
      .ok (BitVec.ofNat 64 (fromLE bs) :: vs, input)

/-- v5_codec.cpp:818-824: the index loop of mode Palette. -/
def decodePaletteIndexes (f : AField) (base step bits : Nat) (palette : List (BitVec 64)) :
    Nat → Nat → List Byte → BitVec 64 → Nat → List Byte → Res (List Byte)
  | 0, _, _, _, _, buf => .ok buf
  | n + 1, i, ptr, scratch, held, buf => do
    let (idx, ptr, scratch, held) ← readBitpackedIndex bits ptr scratch held
    match palette[idx]? with
    | none => .throw "V5 adaptive int: palette index out of range"
    | some v => do
      let buf ← writeValue buf base step f i v
      decodePaletteIndexes f base step bits palette n (i + 1) ptr scratch held buf

/-- v5_codec.cpp:841-844: write one run of `k` equal values starting at point `i`. -/
def writeRun (f : AField) (base step : Nat) (v : BitVec 64) : Nat → Nat → List Byte → Res (List Byte)
  | 0, _, buf => .ok buf
  | k + 1, i, buf => do
    let buf ← writeValue buf base step f i v
    writeRun f base step v k (i + 1) buf

/-- v5_codec.cpp:832-845: the runs of mode Rle; `out_index + run_len` is a wrapping 64-bit sum. -/
def decodeRleRuns (f : AField) (base step expected : Nat) : Nat → Nat → List Byte → List Byte →
    Res (Nat × List Byte × List Byte)
  | 0, outIndex, input, buf => .ok (outIndex, input, buf)
  | r + 1, outIndex, input, buf =>
    if input.length < f.bpv then .throw "V5 adaptive int: truncated RLE value"
    else do
      let bs ← readAt input 0 f.bpv
      let v := BitVec.ofNat 64 (fromLE bs)
      let (runLen, input) ← readUVarint (input.drop f.bpv)
      if (BitVec.ofNat 64 outIndex + runLen).toNat > expected then
        .throw "V5 adaptive int: RLE run exceeds point count"
      else do
        let buf ← writeRun f base step v runLen.toNat outIndex buf
        decodeRleRuns f base step expected r (outIndex + runLen.toNat) input buf

/-- v5_codec.cpp:862-869: write one run of `k` equal differences. -/
def writeDeltaRun (f : AField) (base step : Nat) (diff : BitVec 64) : Nat → Nat → BitVec 64 → List Byte →
    Res (BitVec 64 × List Byte)
  | 0, _, prev, buf => .ok (prev, buf)
  | k + 1, i, prev, buf => do
    let value ← addI64 prev diff
    let buf ← writeValue buf base step f i value
    writeDeltaRun f base step diff k (i + 1) value buf

/-- v5_codec.cpp:854-870: the runs of mode DeltaRle. -/
def decodeDeltaRleRuns (f : AField) (base step expected : Nat) : Nat → Nat → BitVec 64 → List Byte → List Byte →
    Res (Nat × List Byte × List Byte)
  | 0, outIndex, _, input, buf => .ok (outIndex, input, buf)
  | r + 1, outIndex, prev, input, buf => do
    let (diff, consumed) ← decodeVarint input
    let (runLen, input) ← readUVarint (input.drop consumed)
    if (BitVec.ofNat 64 outIndex + runLen).toNat > expected then
      .throw "V5 adaptive int: Delta-RLE run exceeds point count"
    else do
      let (prev, buf) ← writeDeltaRun f base step diff runLen.toNat outIndex prev buf
      decodeDeltaRleRuns f base step expected r (outIndex + runLen.toNat) prev input buf

/-- v5_codec.cpp:764-879 `decodeV5AdaptiveIntSection`: remaining input and output buffer. -/
def decodeSection (f : AField) (base step expected : Nat) (input buf : List Byte) :
    Res (List Byte × List Byte) :=
  match input with
  | [] => .throw "V5 adaptive int: missing mode byte"
  | m :: input =>
    if m = 0#8 then decodeDeltas f base step expected 0 0#64 input buf
    else if m = 1#8 then do
      let (count, input) ← decodeInt 2 input
      if count = 0 then .throw "V5 adaptive int: empty palette"
      else do
        let (palette, input) ← readPalette f.bpv count input
        let bits := bitsForPaletteIndex count
        let indexBytes := (bits * expected + 7) / 8
        if input.length < indexBytes then .throw "V5 adaptive int: truncated palette indexes"
        else do
          let buf ← decodePaletteIndexes f base step bits palette expected 0 input 0#64 0 buf
          .ok (input.drop indexBytes, buf)
    else if m = 2#8 then do
      let (runs, input) ← decodeInt 4 input
      let (outIndex, input, buf) ← decodeRleRuns f base step expected runs 0 input buf
      if outIndex ≠ expected then .throw "V5 adaptive int: RLE run count does not fill chunk"
      else .ok (input, buf)
    else if m = 3#8 then do
      let (runs, input) ← decodeInt 4 input
      let (outIndex, input, buf) ← decodeDeltaRleRuns f base step expected runs 0 0#64 input buf
      if outIndex ≠ expected then .throw "V5 adaptive int: Delta-RLE run count does not fill chunk"
      else .ok (input, buf)
    else .throw "V5 adaptive int: unknown mode byte"

/-- v5_codec.cpp:1003-1006. -/
def decodeSections (base step expected : Nat) : List AField → List Byte → List Byte → Res (List Byte × List Byte)
  | [], input, buf => .ok (input, buf)
  | f :: fs, input, buf => do
    let (input, buf) ← decodeSection f base step expected input buf
    decodeSections base step expected fs input buf

/-- v5_codec.cpp:996-1001: the point loop, with no test on the input. -/
def decodePointsV5 (F : FloatOps) (step : Nat) : Nat → List Dec → List Byte → List Byte → Nat →
    Res (List Dec × List Byte × List Byte)
  | 0, ds, input, buf, _ => .ok (ds, input, buf)
  | n + 1, ds, input, buf, base => do
    let (ds, input, buf) ← decodeFields F ds input buf base
    decodePointsV5 F step n ds input buf (base + step)

/-- v5_codec.cpp:984-1012 `DecodeV5Stage1Chunk`. -/
def decodeV5Chunk (F : FloatOps) (ds : List Dec) (as : List AField) (step expected : Nat) (input buf : List Byte)
    (base : Nat) : Res (List Dec × List Byte × Nat) :=
  if expected = 0 then .throw "V5 chunks require an expected point count"
  else if buf.length - base < expected * step then
    .throw "Output buffer is too small to hold the decoded V5 data"
  else do
    let (ds, input, buf) ← decodePointsV5 F step expected (ds.map Dec.reset) input buf base
    let (input, buf) ← decodeSections base step expected as input buf
    if input.length ≠ 0 then .throw "V5 chunk has trailing bytes after decode"
    else .ok (ds, buf, base + expected * step)

/-- v5_codec.cpp:883-892 `UsesV5Codec`. -/
def usesV5 (info : EncodingInfo) : Bool :=
  info.version ≥ 5#8 && info.encoding_opt = .lossy &&
    (info.fields.drop (leadingLossyFloatCount info)).any fun f => isAdaptiveType f.type

/-- v5_codec.cpp:894-898 `V5StageBufferSize`. -/
def v5StageBufferSize (info : EncodingInfo) (n : Nat) : Res Nat := do
  let m ← maxSerializedPointSize info.encoding_opt info.fields
  .ok (n * (max info.point_step.toNat m + 64) + info.fields.length * 64 + 1024)

end Cloudini
