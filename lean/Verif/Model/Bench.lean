import Verif.Model.Mcap
import Verif.Model.Header

/-!
# The codec benchmark (`tools/src/mcap_codec_benchmark.cpp`)

Every cloud of an MCAP file is encoded and decoded in four modes, and the sizes are summed per topic.  Times (`enc_ns`, `dec_ns`), the progress lines, the
formatting of the tables and the sleep are left out; the 64-bit counters are exact here.  A message reader and the channels are as in `Model/Mcap`.
`limit` is the number of bytes a `std::vector` can be resized to; a larger one throws.  The encoder's worker thread gives the same result as the sequential
`encodeView` (C32–C35).
-/

namespace Cloudini.Bench

open Cloudini.Ros (Pc2 getMessage toEncodingInfo applyProfile applyViz)
open Cloudini.Mcap (File find pointcloudName)

/-- mcap_codec_benchmark.cpp:63 `Mode`. -/
inductive Mode where
  | v4
  | v5
  | v4viz
  | v5viz
  deriving DecidableEq, Repr

/-- mcap_codec_benchmark.cpp:63-65: the modes in the order of the loops. -/
def modes : List Mode := [.v4, .v5, .v4viz, .v5viz]

/-- mcap_codec_benchmark.cpp:434 (the `if`). -/
def Mode.viz : Mode → Bool
  | .v4 => false
  | .v5 => false
  | .v4viz => true
  | .v5viz => true

/-- mcap_codec_benchmark.cpp:125, 439. -/
def Mode.version : Mode → Byte
  | .v4 => 4#8
  | .v5 => 5#8
  | .v4viz => 4#8
  | .v5viz => 5#8

/-- The command line (mcap_codec_benchmark.cpp:230-250), `every` and `repeats` before the `std::max` of lines 268 and 273. -/
structure Options where
  resolution : BitVec 32
  max : Nat := 0
  every : Nat := 1
  zstd : Bool := false
  only : Option Mode := none
  encodeOnly : Bool := false
  replay : Bool := false
  repeats : Nat := 1
  hash : Bool := false

/-- mcap_codec_benchmark.cpp:76-83 `ModeStats` without the times; `zstd_bytes` is never written. -/
structure ModeStats where
  out : Nat := 0
  encIn : Nat := 0
  decIn : Nat := 0
  deriving DecidableEq, Repr

/-- mcap_codec_benchmark.cpp:85-90 `TopicStats`. -/
structure Stats where
  messages : Nat := 0
  points : Nat := 0
  inBytes : Nat := 0
  per : Mode → ModeStats := fun _ => {}

/-- mcap_codec_benchmark.cpp:94-101 `DecodeSample`; `encoded` is the payload behind the header (`DecodeHeader` advances the view before it is copied). -/
structure Sample where
  topic : List Byte
  mode : Mode
  raw : Nat
  needed : Nat
  info : EncodingInfo
  encoded : List Byte

/-- mcap_codec_benchmark.cpp:103-109 `fnv1a`. -/
def fnv1a (h : BitVec 64) (data : List Byte) : BitVec 64 := data.foldl (fun h b => (h ^^^ b.setWidth 64) * 0x100000001b3#64) h

/-- mcap_codec_benchmark.cpp:116-128 `configureMode`, and lines 437-440. -/
def configure (o : Options) (m : Mode) (info : EncodingInfo) : EncodingInfo :=
  { info with encoding_opt := .lossy, compression_opt := if o.zstd then .zstd else .none, version := m.version }

/-- mcap_codec_benchmark.cpp:428-441: the cloud and the info of a mode. -/
def prepare (voxel : BitVec 32 → BitVec 32 → BitVec 32) (o : Options) (m : Mode) (pc : Pc2) : Res (Pc2 × EncodingInfo) :=
  if m.viz then do
    let pc ← applyViz voxel pc
    .ok (pc, configure o m (toEncodingInfo pc))
  else .ok (pc, configure o m (toEncodingInfo pc))

/-- mcap_codec_benchmark.cpp:447-459: the body of the `try`, with the size of `enc_buf[m]` before and after.  `encoder.encode` writes at the start of the
buffer and the first `encoded_size` bytes are used afterwards (line 482). -/
def encodeMode (T : FloatText) (F : FloatOps) (C : Compressor) (limit room : Nat) (info : EncodingInfo) (data : List Byte) : Nat × Res (List Byte) :=
  match mkEncoder F info (encodeHeaderYaml T info) with
  | .throw e => (room, .throw e)
  | .ub k => (room, .ub k)
  | .ok enc =>
    match maxCompressedSize C info (data.length / info.point_step.toNat) with
    | .throw e => (room, .throw e)
    | .ub k => (room, .ub k)
    | .ok b =>
      if limit < headerEstimate T info + b then (room, .throw "vector::resize")
      else
        let room := max room (headerEstimate T info + b)
        match encodeView F C enc data room true with
        | .throw e => (room, .throw e)
        | .ub k => (room, .ub k)
        | .ok (_, out, n) => (room, .ok (out.take n))

/-- mcap_codec_benchmark.cpp:422-466: the loop over the modes: sizes of the buffers and the encoded clouds. -/
def encodeAll (T : FloatText) (F : FloatOps) (C : Compressor) (voxel : BitVec 32 → BitVec 32 → BitVec 32) (limit : Nat) (o : Options) (pc : Pc2) :
    List Mode → (Mode → Nat) → Res ((Mode → Nat) × List (Mode × List Byte))
  | [], rooms => .ok (rooms, [])
  | m :: ms, rooms =>
    if o.only ≠ none ∧ o.only ≠ some m then encodeAll T F C voxel limit o pc ms rooms
    else do
      let (pc', info) ← prepare voxel o m pc
      let r := encodeMode T F C limit (rooms m) info pc'.data
      let rooms := fun x => if x = m then r.1 else rooms x
      match r.2 with
      | .ub k => .ub k
      | .throw _ => encodeAll T F C voxel limit o pc ms rooms
      | .ok bytes => do
        let (rooms, rest) ← encodeAll T F C voxel limit o pc ms rooms
        .ok (rooms, (m, bytes) :: rest)

/-- mcap_codec_benchmark.cpp:491-493: the size of the decoded cloud, in 64 bits. -/
def needed (info : EncodingInfo) : Nat := info.width.toNat * info.height.toNat * info.point_step.toNat % 2 ^ 64

/-- mcap_codec_benchmark.cpp:480-518: the loop over the encoded clouds: the modes whose cloud was decoded, and the samples kept for the replay.  The `resize`
of line 505 is outside the `try`.  The contents of `dec_buf[m]` are never looked at here, and the outcome of `decode` depends on the size of its output only
(C78), so that zero bytes stand for them. -/
def decodeAll (T : FloatText) (F : FloatOps) (C : Compressor) (limit : Nat) (o : Options) (topic : List Byte) (raw : Nat) :
    List (Mode × List Byte) → Res (List Mode × List Sample)
  | [] => .ok ([], [])
  | (m, bytes) :: es =>
    match decodeHeader T bytes with
    | .ub k => .ub k
    | .throw _ => decodeAll T F C limit o topic raw es
    | .ok (info, payload) =>
      if o.replay then do
        let (ms, ss) ← decodeAll T F C limit o topic raw es
        .ok (ms, ⟨topic, m, raw, needed info, info, payload⟩ :: ss)
      else if limit < needed info then .throw "vector::resize"
      else
        match decodeCloud F C 0 info payload (List.replicate (needed info) 0#8) with
        | .ub k => .ub k
        | .throw _ => decodeAll T F C limit o topic raw es
        | .ok _ => do
          let (ms, ss) ← decodeAll T F C limit o topic raw es
          .ok (m :: ms, ss)

/-- mcap_codec_benchmark.cpp:413-416, 458-459, 513: the counters after one message. -/
def account (raw points : Nat) (encoded : List (Mode × List Byte)) (decoded : List Mode) (s : Stats) : Stats :=
  { messages := s.messages + 1
    points := s.points + points
    inBytes := s.inBytes + raw
    per := fun m =>
      { out := (s.per m).out + ((encoded.filter fun e => e.1 = m).map fun e => e.2.length).sum
        encIn := (s.per m).encIn + raw * (encoded.filter fun e => e.1 = m).length
        decIn := (s.per m).decIn + raw * (decoded.filter fun x => x = m).length } }

/-- mcap_codec_benchmark.cpp:378-381 and the sizes of `enc_buf`.  `stats` is the map of line 378: a topic without entry has no messages here. -/
structure State where
  seen : List Byte → Nat := fun _ => 0
  rooms : Mode → Nat := fun _ => 0
  stats : List Byte → Stats := fun _ => {}
  samples : List Sample := []

/-- mcap_codec_benchmark.cpp:393-394: whether message number `n` (from 1) of a topic is left out. -/
def skipped (o : Options) (n : Nat) : Bool := (o.max ≠ 0 ∧ n > o.max) ∨ (n - 1) % (max 1 o.every) ≠ 0

/-- mcap_codec_benchmark.cpp:392-523: one message of a topic with clouds. -/
def step (T : FloatText) (F : FloatOps) (C : Compressor) (voxel : BitVec 32 → BitVec 32 → BitVec 32) (limit : Nat) (o : Options) (st : State)
    (topic data : List Byte) : Res State :=
  let n := st.seen topic + 1
  let st := { st with seen := fun t => if t = topic then n else st.seen t }
  if skipped o n then .ok st
  else
    match getMessage data with
    | .ub k => .ub k
    | .throw _ => .ok st
    | .ok pc0 =>
      let pc := { pc0 with fields := applyProfile (fun _ => none) pc0.fields (some o.resolution) }
      if pc.data.length = 0 ∨ pc.point_step = 0#32 then .ok st
      else do
        let (rooms, encoded) ← encodeAll T F C voxel limit o pc modes st.rooms
        let (decoded, samples) ← (if o.encodeOnly then .ok ([], []) else decodeAll T F C limit o topic pc.data.length encoded : Res (List Mode × List Sample))
        .ok { st with
              rooms := rooms
              stats := fun t => if t = topic then account pc.data.length (pc.data.length / pc.point_step.toNat) encoded decoded (st.stats t) else st.stats t
              samples := st.samples ++ samples }

/-- mcap_codec_benchmark.cpp:330-336: the channels with clouds. -/
def channels (f : File) : List (Nat × List Byte) :=
  f.channels.filterMap fun c =>
    match find f.schemas c.2.schema with
    | some s => if s.name = pointcloudName then some (c.1, c.2.topic) else none
    | none => none

/-- mcap_codec_benchmark.cpp:388-391: the messages of these channels, with their topics. -/
def clouds (f : File) : List (List Byte × List Byte) :=
  f.messages.filterMap fun m => (find (channels f) m.channel).map fun t => (t, m.data)

/-- mcap_codec_benchmark.cpp:388-524: the loop over the messages. -/
def loop (T : FloatText) (F : FloatOps) (C : Compressor) (voxel : BitVec 32 → BitVec 32 → BitVec 32) (limit : Nat) (o : Options) :
    List (List Byte × List Byte) → State → Res State
  | [], st => .ok st
  | (t, d) :: ms, st => do
    let st ← step T F C voxel limit o st t d
    loop T F C voxel limit o ms st

/-- mcap_codec_benchmark.cpp:540-552: the fingerprints, starting with empty buffers.  Nothing is caught here. -/
def hashAll (F : FloatOps) (C : Compressor) (limit : Nat) : List Sample → (Mode → List Byte) → (Mode → BitVec 64) → Res ((Mode → List Byte) × (Mode → BitVec 64))
  | [], bufs, hs => .ok (bufs, hs)
  | s :: ss, bufs, hs =>
    if limit < s.needed then .throw "vector::resize"
    else do
      let buf := bufs s.mode ++ List.replicate (s.needed - (bufs s.mode).length) 0#8
      let out ← decodeCloud F C 0 s.info s.encoded (buf.take s.needed)
      hashAll F C limit ss (fun m => if m = s.mode then out ++ buf.drop s.needed else bufs m) (fun m => if m = s.mode then fnv1a (hs m) out else hs m)

/-- mcap_codec_benchmark.cpp:567-589: one round of the replay. -/
def replayAll (F : FloatOps) (C : Compressor) (limit : Nat) : List Sample → (List Byte → Stats) → Res (List Byte → Stats)
  | [], stats => .ok stats
  | s :: ss, stats =>
    if limit < s.needed then .throw "vector::resize"
    else
      match decodeCloud F C 0 s.info s.encoded (List.replicate s.needed 0#8) with
      | .ub k => .ub k
      | .throw _ => replayAll F C limit ss stats
      | .ok _ => replayAll F C limit ss fun t =>
          if t = s.topic then
            { stats t with per := fun m => if m = s.mode then { (stats t).per m with decIn := ((stats t).per m).decIn + s.raw } else (stats t).per m }
          else stats t

/-- mcap_codec_benchmark.cpp:566: the rounds. -/
def rounds (F : FloatOps) (C : Compressor) (limit : Nat) (ss : List Sample) : Nat → (List Byte → Stats) → Res (List Byte → Stats)
  | 0, stats => .ok stats
  | n + 1, stats => do
    let stats ← replayAll F C limit ss stats
    rounds F C limit ss n stats

/-- The figures of a run: per topic, and the fingerprints. -/
structure Report where
  stats : List Byte → Stats
  hashes : Option (Mode → BitVec 64)

/-- mcap_codec_benchmark.cpp:337-340, 375-591: the throughput mode. -/
def run (T : FloatText) (F : FloatOps) (C : Compressor) (voxel : BitVec 32 → BitVec 32 → BitVec 32) (limit : Nat) (o : Options) (f : File) : Res Report := do
  if (channels f).length = 0 then .throw "No raw sensor_msgs/msg/PointCloud2 topics found."
  else do
    let st ← loop T F C voxel limit o (clouds f) {}
    if o.replay then
      if o.hash then do
        let (_, hs) ← hashAll F C limit st.samples (fun _ => []) (fun _ => 0xcbf29ce484222325#64)
        let stats ← rounds F C limit st.samples (max 1 o.repeats) st.stats
        .ok ⟨stats, some hs⟩
      else do
        let stats ← rounds F C limit st.samples (max 1 o.repeats) st.stats
        .ok ⟨stats, none⟩
    else .ok ⟨st.stats, none⟩

/-- mcap_codec_benchmark.cpp:596-606: adding a topic to `grand_total`. -/
def Stats.add (a b : Stats) : Stats :=
  { messages := a.messages + b.messages
    points := a.points + b.points
    inBytes := a.inBytes + b.inBytes
    per := fun m => { out := (a.per m).out + (b.per m).out, encIn := (a.per m).encIn + (b.per m).encIn, decIn := (a.per m).decIn + (b.per m).decIn } }

/-- mcap_codec_benchmark.cpp:593-610: `grand_total`; `topics` are the keys of the map of statistics, each once. -/
def total (r : Report) (topics : List (List Byte)) : Stats := (topics.map r.stats).foldl Stats.add {}

/-- mcap_codec_benchmark.cpp:178-222 `explainOneMessage` as far as it can go wrong: `n_in` divides by the point step, `n_after` by at least 1.  Result: `n_in`
and `n_after`. -/
def explainOne (voxel : BitVec 32 → BitVec 32 → BitVec 32) (pc : Pc2) : Res (Nat × Nat) :=
  if pc.point_step = 0#32 then .ub .div
  else do
    let after ← applyViz voxel pc
    .ok (pc.data.length / pc.point_step.toNat, after.data.length / max 1 after.point_step.toNat)

/-- mcap_codec_benchmark.cpp:345-373: the explain mode: for the first message of each topic, if it can be read, the two numbers of points.  The early end of
lines 368-372 changes nothing: every topic is done by then. -/
def explain (voxel : BitVec 32 → BitVec 32 → BitVec 32) (o : Options) : List (List Byte × List Byte) → List (List Byte) → Res (List (List Byte × Nat × Nat))
  | [], _ => .ok []
  | (t, d) :: ms, done =>
    if t ∈ done then explain voxel o ms done
    else
      match getMessage d with
      | .ub k => .ub k
      | .throw _ => explain voxel o ms (t :: done)
      | .ok pc => do
        let r ← explainOne voxel { pc with fields := applyProfile (fun _ => none) pc.fields (some o.resolution) }
        let rest ← explain voxel o ms (t :: done)
        .ok ((t, r) :: rest)

end Cloudini.Bench
