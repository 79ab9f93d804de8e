import Verif.Model.Bag

/-!
# What replacing a text means
-/

namespace Cloudini.Bag

/-- `pat` occurs in `s`. -/
def Occurs (pat s : List Byte) : Prop := ∃ a b, s = a ++ pat ++ b

/-- `a` is what stands before the first occurrence of `pat`, `b` what follows it. -/
def First (pat s a b : List Byte) : Prop := s = a ++ pat ++ b ∧ ∀ a' b', s = a' ++ pat ++ b' → a.length ≤ a'.length

/-- `r` is `s` with every occurrence of `pat` replaced by `to`, from left to right (occurrences that overlap a replaced one stay). -/
inductive Replaced (pat to : List Byte) : List Byte → List Byte → Prop
  | none {s} : ¬ Occurs pat s → Replaced pat to s s
  | some {s a b r} : First pat s a b → Replaced pat to b r → Replaced pat to s (a ++ to ++ r)

/-- No proper beginning of `pat` is also an end of it. -/
def Unbordered (pat : List Byte) : Prop := ∀ k, 0 < k → k < pat.length → pat.take k ≠ pat.drop (pat.length - k)

/-- `line` is the rest of the line after the first "- " that follows the first "relative_file_paths:". -/
def FirstFile (s line : List Byte) : Prop :=
  ∃ a b c d rest, First (ascii "relative_file_paths:") s a b ∧ First (ascii "- ") (ascii "relative_file_paths:" ++ b) c d ∧ d = line ++ rest ∧
    (10#8 ∉ line) ∧ (rest = [] ∨ ∃ t, rest = 10#8 :: t)

/-- `name` is `line` without the spaces and carriage returns at its end. -/
def EndTrimmed (line name : List Byte) : Prop :=
  ∃ t, line = name ++ t ∧ (∀ c ∈ t, c = 32#8 ∨ c = 13#8) ∧ ∀ c, name.getLast? = some c → c ≠ 32#8 ∧ c ≠ 13#8

/-- Every directory but the root has a parent. -/
def Closed (ds : Dirs) : Prop := ∀ d n, d ++ [n] ∈ ds → d = [] ∨ d ∈ ds

end Cloudini.Bag
