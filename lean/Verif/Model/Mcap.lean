import Verif.Model.Ros
import Verif.Model.Profile

/-!
# The MCAP tools (`tools/src/mcap_converter.cpp`, `mcap_cutter.cpp`)

The MCAP library is outside the model: a file is represented by what its reader delivers (the schemas and channels by id, the messages in the order of
`readMessages`, the metadata and attachment records), and the writer by the same things in the order in which they were handed to it; it numbers
schemas and channels from 1, and a `write` is assumed to succeed.  A map is represented by the list of its entries in the order of the keys.
-/

namespace Cloudini.Mcap

open Cloudini.Ros (getMessage toEncodingInfo toCompressed fromCompressed applyProfile applyViz)

/-- `mcap::Schema` without the id. -/
structure Schema where
  name : List Byte
  encoding : List Byte
  data : List Byte
  deriving DecidableEq, Repr

/-- `mcap::Channel` without the id.  `schema` is 0 for a channel without schema. -/
structure Channel where
  topic : List Byte
  encoding : List Byte
  schema : Nat
  metadata : List (List Byte × List Byte) := []
  deriving DecidableEq, Repr

/-- `mcap::Message`. -/
structure Message where
  channel : Nat
  sequence : Nat
  logTime : Nat
  publishTime : Nat
  data : List Byte
  deriving DecidableEq, Repr

/-- A file: what a reader delivers of it. -/
structure File where
  profile : List Byte
  schemas : List (Nat × Schema)
  channels : List (Nat × Channel)
  messages : List Message
  metadata : List (List Byte × List (List Byte × List Byte)) := []
  attachments : List (List Byte × List Byte) := []
  deriving DecidableEq, Repr

/-- Looking up an id in a map. -/
def find {α : Type} (m : List (Nat × α)) (id : Nat) : Option α := (m.find? fun e => e.1 == id).map (·.2)

/-- `map.at(id)`. -/
def at_ {α : Type} (m : List (Nat × α)) (id : Nat) : Res α :=
  match find m id with
  | some x => .ok x
  | none => .throw "map::at"

/-- ros_message_definitions.hpp:19. -/
def pointcloudName : List Byte := ascii "sensor_msgs/msg/PointCloud2"
/-- ros_message_definitions.hpp:20. -/
def compressedName : List Byte := ascii "point_cloud_interfaces/msg/CompressedPointCloud2"
/-- ros_message_definitions.hpp:22-91 `pointcloud_schema_data`. -/
def pointcloudText : List Byte :=
  ascii "# This message holds a collection of N-dimensional points, which may\n" ++
  ascii "# contain additional information such as normals, intensity, etc. The\n" ++
  ascii "# point data is stored as a binary blob, its layout described by the\n" ++
  ascii "# contents of the \"fields\" array.\n" ++
  ascii "#\n" ++
  ascii "# The point cloud data may be organized 2d (image-like) or 1d (unordered).\n" ++
  ascii "# Point clouds organized as 2d images may be produced by camera depth sensors\n" ++
  ascii "# such as stereo or time-of-flight.\n" ++
  ascii "\n" ++
  ascii "# Time of sensor data acquisition, and the coordinate frame ID (for 3d points).\n" ++
  ascii "std_msgs/Header header\n" ++
  ascii "\n" ++
  ascii "# 2D structure of the point cloud. If the cloud is unordered, height is\n" ++
  ascii "# 1 and width is the length of the point cloud.\n" ++
  ascii "uint32 height\n" ++
  ascii "uint32 width\n" ++
  ascii "\n" ++
  ascii "# Describes the channels and their layout in the binary data blob.\n" ++
  ascii "PointField[] fields\n" ++
  ascii "\n" ++
  ascii "bool    is_bigendian # Is this data bigendian?\n" ++
  ascii "uint32  point_step   # Length of a point in bytes\n" ++
  ascii "uint32  row_step     # Length of a row in bytes\n" ++
  ascii "uint8[] data         # Actual point data, size is (row_step*height)\n" ++
  ascii "\n" ++
  ascii "bool is_dense        # True if there are no invalid points\n" ++
  ascii "\n" ++
  ascii "================================================================================\n" ++
  ascii "MSG: sensor_msgs/PointField\n" ++
  ascii "# This message holds the description of one point entry in the\n" ++
  ascii "# PointCloud2 message format.\n" ++
  ascii "uint8 INT8    = 1\n" ++
  ascii "uint8 UINT8   = 2\n" ++
  ascii "uint8 INT16   = 3\n" ++
  ascii "uint8 UINT16  = 4\n" ++
  ascii "uint8 INT32   = 5\n" ++
  ascii "uint8 UINT32  = 6\n" ++
  ascii "uint8 FLOAT32 = 7\n" ++
  ascii "uint8 FLOAT64 = 8\n" ++
  ascii "\n" ++
  ascii "# Common PointField names are x, y, z, intensity, rgb, rgba\n" ++
  ascii "string name      # Name of field\n" ++
  ascii "uint32 offset    # Offset from start of point struct\n" ++
  ascii "uint8  datatype  # Datatype enumeration, see above\n" ++
  ascii "uint32 count     # How many elements in the field\n" ++
  ascii "\n" ++
  ascii "================================================================================\n" ++
  ascii "MSG: std_msgs/Header\n" ++
  ascii "# Standard metadata for higher-level stamped data types.\n" ++
  ascii "# This is generally used to communicate timestamped data\n" ++
  ascii "# in a particular coordinate frame.\n" ++
  ascii "\n" ++
  ascii "# Two-integer timestamp that is expressed as seconds and nanoseconds.\n" ++
  ascii "builtin_interfaces/Time stamp\n" ++
  ascii "\n" ++
  ascii "# Transform frame with which this data is associated.\n" ++
  ascii "string frame_id\n" ++
  ascii "\n" ++
  ascii "================================================================================\n" ++
  ascii "MSG: builtin_interfaces/Time\n" ++
  ascii "# This message communicates ROS Time defined here:\n" ++
  ascii "# https://design.ros2.org/articles/clock_and_time.html\n" ++
  ascii "\n" ++
  ascii "# The seconds component, valid over all int32 values.\n" ++
  ascii "int32 sec\n" ++
  ascii "\n" ++
  ascii "# The nanoseconds component, valid in the range [0, 10e9).\n" ++
  ascii "uint32 nanosec\n"
/-- ros_message_definitions.hpp:93-159 `compressed_schema_data`. -/
def compressedText : List Byte :=
  ascii "# SPDX-License-Identifier: BSD-3-Clause\n" ++
  ascii "# SPDX-FileCopyrightText: Czech Technical University in Prague .. 2019, paplhjak\n" ++
  ascii "\n" ++
  ascii "std_msgs/Header header\n" ++
  ascii "\n" ++
  ascii "uint32 height\n" ++
  ascii "uint32 width\n" ++
  ascii "\n" ++
  ascii "sensor_msgs/PointField[] fields\n" ++
  ascii "\n" ++
  ascii "bool is_bigendian\n" ++
  ascii "\n" ++
  ascii "uint32 point_step\n" ++
  ascii "\n" ++
  ascii "uint32 row_step\n" ++
  ascii "\n" ++
  ascii "uint8[] compressed_data\n" ++
  ascii "\n" ++
  ascii "bool is_dense\n" ++
  ascii "\n" ++
  ascii "# compression format used (e.g. draco, zlib, etc.)\n" ++
  ascii "string format\n" ++
  ascii "\n" ++
  ascii "================================================================================\n" ++
  ascii "MSG: sensor_msgs/PointField\n" ++
  ascii "# This message holds the description of one point entry in the\n" ++
  ascii "# PointCloud2 message format.\n" ++
  ascii "uint8 INT8    = 1\n" ++
  ascii "uint8 UINT8   = 2\n" ++
  ascii "uint8 INT16   = 3\n" ++
  ascii "uint8 UINT16  = 4\n" ++
  ascii "uint8 INT32   = 5\n" ++
  ascii "uint8 UINT32  = 6\n" ++
  ascii "uint8 FLOAT32 = 7\n" ++
  ascii "uint8 FLOAT64 = 8\n" ++
  ascii "\n" ++
  ascii "# Common PointField names are x, y, z, intensity, rgb, rgba\n" ++
  ascii "string name      # Name of field\n" ++
  ascii "uint32 offset    # Offset from start of point struct\n" ++
  ascii "uint8  datatype  # Datatype enumeration, see above\n" ++
  ascii "uint32 count     # How many elements in the field\n" ++
  ascii "\n" ++
  ascii "================================================================================\n" ++
  ascii "MSG: std_msgs/Header\n" ++
  ascii "# Standard metadata for higher-level stamped data types.\n" ++
  ascii "# This is generally used to communicate timestamped data\n" ++
  ascii "# in a particular coordinate frame.\n" ++
  ascii "\n" ++
  ascii "# Two-integer timestamp that is expressed as seconds and nanoseconds.\n" ++
  ascii "builtin_interfaces/Time stamp\n" ++
  ascii "\n" ++
  ascii "# Transform frame with which this data is associated.\n" ++
  ascii "string frame_id\n" ++
  ascii "\n" ++
  ascii "================================================================================\n" ++
  ascii "MSG: builtin_interfaces/Time\n" ++
  ascii "# This message communicates ROS Time defined here:\n" ++
  ascii "# https://design.ros2.org/articles/clock_and_time.html\n" ++
  ascii "\n" ++
  ascii "# The seconds component, valid over all int32 values.\n" ++
  ascii "int32 sec\n" ++
  ascii "\n" ++
  ascii "# The nanoseconds component, valid in the range [0, 10e9).\n" ++
  ascii "uint32 nanosec\n" ++
  ascii "\n"

/-- mcap_converter.cpp:47-52, the loop of `McapConverter::open`: whether every channel can be asked for the name of its schema.
`reader_->schema(id)` is a null pointer for an id without schema and is dereferenced unchecked. -/
def open_ (f : File) : Res Unit :=
  if f.channels.all fun c => (find f.schemas c.2.schema).isSome then .ok () else .ub .mem

/-- mcap_converter.cpp:47-52: the topics with clouds and their types (`unordered_map`: a later channel of a topic replaces an earlier one). -/
def cloudTopics (f : File) : List (List Byte × List Byte) :=
  f.channels.filterMap fun c =>
    match find f.schemas c.2.schema with
    | some s => if s.name = pointcloudName ∨ s.name = compressedName then some (c.2.topic, s.name) else none
    | none => none

/-- mcap_converter.cpp:82-95: the schema written for a schema of the input. -/
def newSchema (encoding : Bool) (s : Schema) : Schema :=
  if encoding ∧ s.name = pointcloudName then { s with name := compressedName, data := compressedText }
  else if !encoding ∧ s.name = compressedName then { s with name := pointcloudName, data := pointcloudText }
  else s

/-- Numbers from `n` on. -/
def number {α : Type} : Nat → List α → List (Nat × α)
  | _, [] => []
  | n, x :: xs => (n, x) :: number (n + 1) xs

/-- mcap_converter.cpp:81-98: the map from old to new schema ids. -/
def schemaIds (f : File) : List (Nat × Nat) := (number 1 f.schemas).map fun e => (e.2.1, e.1)

/-- mcap_converter.cpp:101-103: the channel written for a channel of the input: topic, message encoding and schema; `mcap::Channel`'s constructor
leaves the channel's metadata empty. -/
def newChannel (ids : List (Nat × Nat)) (c : Channel) : Res Channel := do
  let s ← at_ ids c.schema
  .ok { topic := c.topic, encoding := c.encoding, schema := s }

/-- mcap_converter.cpp:100-106: the loop. -/
def newChannels (ids : List (Nat × Nat)) : List (Nat × Channel) → Res (List Channel)
  | [] => .ok []
  | c :: cs => do
    let x ← newChannel ids c.2
    let xs ← newChannels ids cs
    .ok (x :: xs)

/-- mcap_converter.cpp:100-106: the map from old to new channel ids. -/
def channelIds (f : File) : List (Nat × Nat) := (number 1 f.channels).map fun e => (e.2.1, e.1)

/-- What happens to a cloud message when encoding. -/
structure Options where
  profile : List Byte → Option (BitVec 32)
  default : Option (BitVec 32)
  writer : CompOpt
  viz : Bool

/-- mcap_converter.cpp:195-197. -/
def vizStep (o : Options) (voxel : BitVec 32 → BitVec 32 → BitVec 32) (pc : Ros.Pc2) : Res Ros.Pc2 := if o.viz then applyViz voxel pc else .ok pc

/-- mcap_converter.cpp:199-203: no ZSTD inside the message if the file is compressed with ZSTD. -/
def cloudInfo (o : Options) (pc : Ros.Pc2) : EncodingInfo :=
  if o.writer = .zstd then { toEncodingInfo pc with compression_opt := .none } else toEncodingInfo pc

/-- mcap_converter.cpp:184-205: the data of the compressed message. -/
def encodeCloudMsg (T : FloatText) (F : FloatOps) (C : Compressor) (voxel : BitVec 32 → BitVec 32 → BitVec 32) (o : Options) (raw : List Byte) :
    Res (List Byte) := do
  let pc ← getMessage raw
  let pc ← vizStep o voxel { pc with fields := applyProfile o.profile pc.fields o.default }
  toCompressed T F C pc (cloudInfo o pc)

/-- mcap_converter.cpp:281-283: the data of the decompressed message. -/
def decodeCloudMsg (T : FloatText) (F : FloatOps) (C : Compressor) (fuel : Nat) (raw : List Byte) : Res (List Byte) := do
  let pc ← getMessage raw
  fromCompressed T F C fuel pc

/-- mcap_converter.cpp:170-222, 267-297: the loop over the messages.  `name` is the type that is converted by `conv`.  `msg.schema` is null for a channel
without schema. -/
def convertMessages (f : File) (ids : List (Nat × Nat)) (name : List Byte) (conv : List Byte → Res (List Byte)) : List Message → Res (List Message)
  | [] => .ok []
  | m :: ms =>
    match find f.channels m.channel with
    | none => convertMessages f ids name conv ms
    | some c => do
      let id ← at_ ids m.channel
      match find f.schemas c.schema with
      | none => .ub .mem
      | some s =>
        if s.name ≠ name then do
          let rest ← convertMessages f ids name conv ms
          .ok ({ m with channel := id } :: rest)
        else do
          let d ← conv m.data
          let rest ← convertMessages f ids name conv ms
          .ok ({ m with channel := id, data := d } :: rest)

/-- mcap_converter.cpp:57-125 `duplicateSchemasAndChannels` and the loop over the messages: the file written. -/
def convertFile (encoding : Bool) (conv : List Byte → Res (List Byte)) (f : File) : Res File := do
  let _ ← open_ f
  let cs ← newChannels (schemaIds f) f.channels
  let ms ← convertMessages f (channelIds f) (if encoding then pointcloudName else compressedName) conv f.messages
  .ok { profile := f.profile, schemas := number 1 (f.schemas.map fun e => newSchema encoding e.2), channels := number 1 cs, messages := ms,
        metadata := f.metadata }

/-- mcap_converter.cpp:127-138 `toMcapCompression`. -/
def toMcapCompression : CompOpt → Res CompOpt
  | .bad _ => .throw "Unsupported compression option for MCAP writer"
  | c => .ok c

/-- mcap_converter.cpp:30-55, 140-223: `open` and `encodePointClouds`. -/
def encodeFile (T : FloatText) (F : FloatOps) (C : Compressor) (voxel : BitVec 32 → BitVec 32 → BitVec 32) (o : Options) (f : File) : Res File := do
  let _ ← toMcapCompression o.writer
  convertFile true (encodeCloudMsg T F C voxel o) f

/-- mcap_converter.cpp:30-55, 239-299: `open` and `decodePointClouds`. -/
def decodeFile (T : FloatText) (F : FloatOps) (C : Compressor) (fuel : Nat) (writer : CompOpt) (f : File) : Res File := do
  let _ ← toMcapCompression writer
  convertFile false (decodeCloudMsg T F C fuel) f

/-! ### `mcap_cutter.cpp` -/

/-- mcap_cutter.cpp:62-68: the channels with clouds (their ids and topics). -/
def cutChannels (f : File) : List (Nat × List Byte) :=
  f.channels.filterMap fun c =>
    match find f.schemas c.2.schema with
    | some s => if s.name = pointcloudName then some (c.1, c.2.topic) else none
    | none => none

/-- mcap_cutter.cpp:113-139: the loop over the messages.  `counts` is `message_counts`. -/
def cutMessages (f : File) (ids : List (Nat × Nat)) (max : Nat) : (Nat → Nat) → List Message → List Message
  | _, [] => []
  | counts, m :: ms =>
    match find ids m.channel with
    | none => cutMessages f ids max counts ms
    | some id =>
      if counts m.channel ≥ max then cutMessages f ids max counts ms
      else { m with channel := id } :: cutMessages f ids max (fun c => if c = m.channel then counts c + 1 else counts c) ms

/-- mcap_cutter.cpp:42-149 `McapCutter::cut`; `none` when the input has no clouds (nothing is written).  The new channels are numbered in the order of
the reader's `unordered_map`, here that of the ids. -/
def cut (max : Nat) (f : File) : Res (Option File) := do
  let _ ← open_ f
  if cutChannels f = [] then .ok none
  else
    let ids := (number 1 (cutChannels f)).map fun e => (e.2.1, e.1)
    .ok (some { profile := f.profile,
                schemas := [(1, { name := pointcloudName, encoding := ascii "ros2msg", data := pointcloudText })],
                channels := number 1 ((cutChannels f).map fun c => { topic := c.2, encoding := ascii "cdr", schema := 1 }),
                messages := cutMessages f ids max (fun _ => 0) f.messages })

end Cloudini.Mcap
