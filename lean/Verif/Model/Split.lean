import Verif.Model.Text

/-!
# Splitting strings
-/

namespace Cloudini

/-- pcl_conversion.cpp:25-36 `splitString` and mcap_converter.cpp:302-311 `split` (the same code): the pieces between delimiters, the last one too. -/
def split (d : Byte) (s : List Byte) : List (List Byte) :=
  match h : s.dropWhile (· != d) with
  | [] => [s]
  | _ :: rest => s.takeWhile (· != d) :: split d rest
termination_by s.length
decreasing_by
  have h1 : (s.dropWhile (· != d)).length ≤ s.length := by
    have := congrArg List.length (List.takeWhile_append_dropWhile (p := (· != d)) (l := s))
    simp only [List.length_append] at this
    omega
  rw [h] at h1
  simp only [List.length_cons] at h1
  omega

end Cloudini
