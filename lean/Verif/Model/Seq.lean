import Verif.Model.FieldCodec

/-!
# One field codec over a sequence of points

The inner loop of the chunk codecs restricted to a single field: what `FieldEncoder::encode` called once per
point writes, and what `FieldDecoder::decode` called once per point makes of it.
-/

namespace Cloudini

/-- v4_codec.cpp:71-79 for a list with one encoder: one `encode` call per point (`pts` are the readable bytes of
each point), all bytes written in a row. -/
def encodeSeq (F : FloatOps) : Enc → List (List Byte) → Res (Enc × List Byte)
  | e, [] => .ok (e, [])
  | e, p :: ps => do
    let (e, b) ← e.step F p
    let (e, bs) ← encodeSeq F e ps
    .ok (e, b ++ bs)

/-- v4_codec.cpp:92-99 for a list with one decoder: one `decode` call per point; the stores made for each
point and the input left over. -/
def decodeSeq (F : FloatOps) : Dec → Nat → List Byte → Res (Dec × List (List Write) × List Byte)
  | d, 0, input => .ok (d, [], input)
  | d, n + 1, input => do
    let (d, w, input) ← d.step F input
    let (d, ws, input) ← decodeSeq F d n input
    .ok (d, w :: ws, input)

end Cloudini
