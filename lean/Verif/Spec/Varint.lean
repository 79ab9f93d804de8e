import Verif.Model.Base

/-!
# What a varint denotes, independently of the decoder
-/

namespace Cloudini.Props

/-- One varint: every byte but the last has its top bit set, the last has not. -/
def IsGroup : List Byte → Prop
  | [] => False
  | b :: bs => if bs = [] then b.toNat < 128 else 128 ≤ b.toNat ∧ IsGroup bs

/-- The number: 7 bits per byte, least significant first. -/
def groupNumber : List Byte → Nat
  | [] => 0
  | b :: bs => b.toNat % 128 + 128 * groupNumber bs

instance decIsGroup : (bs : List Byte) → Decidable (IsGroup bs)
  | [] => isFalse (fun h => h)
  | b :: bs => by unfold IsGroup; have := decIsGroup bs; infer_instance

end Cloudini.Props
