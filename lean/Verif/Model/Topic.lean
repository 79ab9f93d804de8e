import Verif.Model.Plugin

/-!
# The topic converter as a node (`cloudini_ros/src/topic_converter.cpp`)

`Model/Plugin` has the conversion of one message (`convertTopic`).  Here is the node around it: the topics and the quality of service it asks for, and what its
callback does with one message after another.  ROS is outside the model: `publish` delivers the bytes it is given, callbacks of one process do not
overlap (a single-threaded executor), and an exception that leaves a callback ends the process.  Several nodes can live in one process (they are components,
line 199); the counter of the statistics is a `static` variable of the function (line 189) and thus one for all of them.
-/

namespace Cloudini.Topic

/-- `rmw_qos_reliability_policy_e`. -/
inductive Reliability
  | systemDefault | reliable | bestEffort | unknown | bestAvailable
  deriving DecidableEq, Repr

/-- `rmw_qos_durability_policy_e`. -/
inductive Durability
  | systemDefault | transientLocal | volatile | unknown | bestAvailable
  deriving DecidableEq, Repr

/-- What of a quality of service the node looks at and sets (and the depth of the queue). -/
structure Qos where
  depth : Nat := 10
  reliability : Reliability := .reliable
  durability : Durability := .volatile
  deriving DecidableEq, Repr

/-- topic_converter.cpp:68-101 `adapt_request_to_offers`.  `rclcpp::QoS(rmw_qos_profile_default.depth)` is the default of `Qos`. -/
def adapt (offers : List Qos) : Qos :=
  if offers.isEmpty then {}
  else
    { reliability := if (offers.filter fun o => o.reliability == .reliable).length = offers.length then .reliable else .bestEffort
      durability := if (offers.filter fun o => o.durability == .transientLocal).length = offers.length then .transientLocal else .volatile }

/-- topic_converter.cpp:107-111: the parameters (`resolution` is read by the conversion). -/
structure Params where
  compressing : Bool := true
  input : List Byte := ascii "/points"
  output : List Byte := []
  deriving DecidableEq

/-- What the node subscribes to and publishes. -/
structure Setup where
  input : List Byte
  inputType : List Byte
  output : List Byte
  outputType : List Byte
  request : Qos
  offer : Qos
  deriving DecidableEq

/-- topic_converter.cpp:104-153, the constructor; `offers` are the publishers of the input topic known at that moment. -/
def setup (p : Params) (offers : List Qos) : Res Setup :=
  if p.input = [] then .throw "Input topic is not set"
  else .ok
    { input := p.input
      inputType := if p.compressing then ascii "sensor_msgs/msg/PointCloud2" else ascii "point_cloud_interfaces/msg/CompressedPointCloud2"
      output := if p.output = [] then p.input ++ (if p.compressing then ascii "/compressed" else ascii "/decompressed") else p.output
      outputType := if p.compressing then ascii "point_cloud_interfaces/msg/CompressedPointCloud2" else ascii "sensor_msgs/msg/PointCloud2"
      request := adapt offers
      offer := adapt offers }

/-- A node: its conversion of a message and the parameter `log_compression_stats`. -/
structure Node where
  conv : List Byte → Res (List Byte)
  logging : Bool

/-- A line of the log: the number of messages it names, and the two totals whose quotient it shows. -/
structure Line where
  count : Nat
  compressed : Nat
  original : Nat
  deriving DecidableEq, Repr

/-- topic_converter.cpp:63-64: the totals of a node.  Simplified: they are 64-bit numbers in the code. -/
structure Totals where
  original : Nat := 0
  compressed : Nat := 0
  deriving DecidableEq, Repr

/-- A process: the static counter and the totals of its nodes. -/
structure State where
  count : Nat := 0
  totals : Nat → Totals := fun _ => {}

/-- A message arrives at a node whose output has so many subscribers. -/
structure Event where
  node : Nat
  subscribers : Nat
  raw : List Byte
  deriving DecidableEq

/-- What a callback does: what it publishes and what it logs. -/
structure Effect where
  published : Option (List Byte)
  line : Option Line
  deriving DecidableEq, Repr

/-- topic_converter.cpp:155-197 `callback`.  The counter is an `int`. -/
def callback (nodes : Nat → Node) (s : State) (e : Event) : Res (State × Effect) :=
  if e.subscribers = 0 then .ok (s, ⟨none, none⟩)
  else do
    let out ← (nodes e.node).conv e.raw
    if (nodes e.node).logging = false then .ok (s, ⟨some out, none⟩)
    else if 2 ^ 31 ≤ s.count + 1 then .ub .overflow
    else
      let t : Totals := ⟨(s.totals e.node).original + e.raw.length, (s.totals e.node).compressed + out.length⟩
      if s.count % 20 = 0 then
        .ok (⟨s.count + 1, fun i => if i = e.node then {} else s.totals i⟩, ⟨some out, some ⟨s.count, t.compressed, t.original⟩⟩)
      else .ok (⟨s.count + 1, fun i => if i = e.node then t else s.totals i⟩, ⟨some out, none⟩)

/-- The callbacks of a process, until there are no more messages or one of them fails. -/
def run (nodes : Nat → Node) : State → List Event → List Effect × Res State
  | s, [] => ([], .ok s)
  | s, e :: es =>
    match callback nodes s e with
    | .ok (s', f) => (f :: (run nodes s' es).1, (run nodes s' es).2)
    | .throw m => ([], .throw m)
    | .ub k => ([], .ub k)

end Cloudini.Topic
