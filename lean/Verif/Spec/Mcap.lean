import Verif.Model.Mcap

/-!
# Specification vocabulary for MCAP files

What a file says is independent of the ids it uses: `delivered` lists what a reader gets for each message.
-/

namespace Cloudini.Mcap

/-- One message as a reader sees it. -/
structure Seen where
  topic : List Byte
  encoding : List Byte
  schema : Schema
  sequence : Nat
  logTime : Nat
  publishTime : Nat
  data : List Byte
  deriving DecidableEq, Repr

/-- The message with its channel and schema. -/
def see (f : File) (m : Message) : Option Seen :=
  match find f.channels m.channel with
  | none => none
  | some c =>
    match find f.schemas c.schema with
    | none => none
    | some s => some { topic := c.topic, encoding := c.encoding, schema := s, sequence := m.sequence, logTime := m.logTime,
                       publishTime := m.publishTime, data := m.data }

/-- Everything a reader gets, in order. -/
def delivered (f : File) : List Seen := f.messages.filterMap (see f)

/-- The channels of a file: topic, message encoding and schema. -/
def channelsOf (f : File) : List (List Byte × List Byte × Option Schema) := f.channels.map fun c => (c.2.topic, c.2.encoding, find f.schemas c.2.schema)

/-- Everything but the type and the data is the same. -/
structure SameEnvelope (v w : Seen) : Prop where
  topic : w.topic = v.topic
  encoding : w.encoding = v.encoding
  schemaEncoding : w.schema.encoding = v.schema.encoding
  sequence : w.sequence = v.sequence
  logTime : w.logTime = v.logTime
  publishTime : w.publishTime = v.publishTime

/-- `w` is `v` with messages of type `src` converted by `conv` to type `dst` (with definition `text`), everything else copied. -/
structure Converted (src dst text : List Byte) (conv : List Byte → Res (List Byte)) (v w : Seen) : Prop where
  envelope : SameEnvelope v w
  other : v.schema.name ≠ src → w = v
  cloud : v.schema.name = src → w.schema.name = dst ∧ w.schema.data = text ∧ conv v.data = .ok w.data

/-- Same length, and each element related to the one at its place. -/
def Pairwise {α β : Type} (R : α → β → Prop) (l : List α) (l' : List β) : Prop :=
  l'.length = l.length ∧ ∀ (i : Nat) (v : α), l[i]? = some v → ∃ w, l'[i]? = some w ∧ R v w

end Cloudini.Mcap
