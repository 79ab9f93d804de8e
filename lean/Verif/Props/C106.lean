import Mathlib.Algebra.Order.BigOperators.Group.List
import Verif.Props.C103

/-!
# C106 Boxes, centroids and planes survive

What registration and segmentation compute from a cloud are boxes, centroids and distances to planes.  Here is what C11 means for them.
-/

namespace Cloudini.Props
open IEEE (ops)

/-- The mean of coordinate `a` over a list of points. -/
def centroid (info : EncodingInfo) (f : Fin 3 → PointField) (data : List Byte) (points : List Nat) (a : Fin 3) : ℚ :=
  (points.map fun i => real32 (coordinate info f data i a)).sum / points.length

/-- The value of the plane equation `n · p + d` at point `i`: its signed distance when `n` is a unit vector. -/
def planeValue (info : EncodingInfo) (f : Fin 3 → PointField) (data : List Byte) (n : Fin 3 → ℚ) (d : ℚ) (i : Nat) : ℚ :=
  n 0 * real32 (coordinate info f data i 0) + n 1 * real32 (coordinate info f data i 1) + n 2 * real32 (coordinate info f data i 2) + d

/-- `cloud` has made a trip, within the limits of C11, and is now `back`. -/
structure Moved (info : EncodingInfo) (cloud back : List Byte) : Prop where
  sensible : SensibleInfo info
  within : CloudWithin (2 ^ 29) (2 ^ 61) (2 ^ 61) info cloud
  limit : FieldLimit info
  lossy : info.encoding_opt = .lossy
  trip : Trip ops info cloud back

theorem trip_moves {info : EncodingInfo} {cloud back : List Byte} (h : Moved info cloud back) {R B : ℚ} {f : Fin 3 → PointField} (hf : Coordinates info R f)
    {i : Nat} (hi : i < info.width.toNat * info.height.toNat) (bi : InBox B info f cloud i) (a : Fin 3) :
    |real32 (coordinate info f back i a) - real32 (coordinate info f cloud i a)| ≤ shift R B := by
  obtain ⟨C, header, enc, enc', out, room, size, fuel, buf, hC, hreach, henc, hlim, hlz, hmagic, hbuf, hdec⟩ := h.trip.trip
  obtain ⟨buf', d1, _, d3⟩ := C11_cloud_partial C hC info header enc enc' cloud out room size fuel h.sensible h.within hreach henc h.limit hlim hlz hmagic buf hbuf
  rw [hdec, Res.ok.injEq] at d1
  subst d1
  obtain ⟨k, hk⟩ := List.getElem?_of_mem (hf.listed a)
  obtain ⟨r, hr, hR⟩ := hf.resolution a
  have c := d3 i hi k (f a) hk
  simp only [h.lossy, hf.float a, hr] at c
  exact moved c hR (bi a).1 (bi a).2

/-- **C106, boxes (partial).** What was in an interval is afterwards in the interval that is larger by `shift` at both ends, and the other way round.
Missing: as for `C11_cloud_partial`. -/
theorem C106_box_partial (info : EncodingInfo) (cloud back : List Byte) (h : Moved info cloud back) (R B : ℚ) (f : Fin 3 → PointField)
    (hf : Coordinates info R f) (i : Nat) (hi : i < info.width.toNat * info.height.toNat) (bi : InBox B info f cloud i) (a : Fin 3) (lo top : ℚ) :
    (lo ≤ real32 (coordinate info f cloud i a) ∧ real32 (coordinate info f cloud i a) ≤ top →
      lo - shift R B ≤ real32 (coordinate info f back i a) ∧ real32 (coordinate info f back i a) ≤ top + shift R B) ∧
    (lo ≤ real32 (coordinate info f back i a) ∧ real32 (coordinate info f back i a) ≤ top →
      lo - shift R B ≤ real32 (coordinate info f cloud i a) ∧ real32 (coordinate info f cloud i a) ≤ top + shift R B) := by
  obtain ⟨x, y⟩ := abs_le.1 (trip_moves h hf hi bi a)
  constructor <;> rintro ⟨u, v⟩ <;> constructor <;> linarith

theorem sum_moves (g g' : Nat → ℚ) (e : ℚ) : ∀ l : List Nat, (∀ i ∈ l, |g' i - g i| ≤ e) → |(l.map g').sum - (l.map g).sum| ≤ l.length * e
  | [], _ => by simp
  | i :: l, h => by
    have h1 := abs_le.1 (h i List.mem_cons_self)
    have h2 := abs_le.1 (sum_moves g g' e l fun j hj => h j (List.mem_cons_of_mem _ hj))
    simp only [List.map_cons, List.sum_cons, List.length_cons, Nat.cast_add, Nat.cast_one]
    rw [abs_le]
    constructor <;> linarith [h1.1, h1.2, h2.1, h2.2]

/-- **C106, centroids (partial).** The centroid of any list of points moves by at most `shift` along each axis: however many the points are, the errors
do not add up in a mean. -/
theorem C106_centroid_partial (info : EncodingInfo) (cloud back : List Byte) (h : Moved info cloud back) (R B : ℚ) (f : Fin 3 → PointField)
    (hf : Coordinates info R f) (points : List Nat) (hne : points ≠ [])
    (hp : ∀ i ∈ points, i < info.width.toNat * info.height.toNat ∧ InBox B info f cloud i) (a : Fin 3) :
    |centroid info f back points a - centroid info f cloud points a| ≤ shift R B := by
  have hs := sum_moves (fun i => real32 (coordinate info f cloud i a)) (fun i => real32 (coordinate info f back i a)) (shift R B) points
    fun i hi => trip_moves h hf (hp i hi).1 (hp i hi).2 a
  have hl : (0 : ℚ) < points.length := by exact_mod_cast List.length_pos_iff.2 hne
  unfold centroid
  rw [← sub_div, abs_div, abs_of_pos hl, div_le_iff₀ hl]
  linarith

/-- **C106, planes (partial).** The signed distance of a point to any plane with a unit normal changes by at most `7/4 shift`: an inlier of a plane within `t`
is an inlier within `t + 7/4 shift` afterwards, and the other way round. -/
theorem C106_plane_partial (info : EncodingInfo) (cloud back : List Byte) (h : Moved info cloud back) (R B : ℚ) (f : Fin 3 → PointField)
    (hf : Coordinates info R f) (i : Nat) (hi : i < info.width.toNat * info.height.toNat) (bi : InBox B info f cloud i)
    (n : Fin 3 → ℚ) (d : ℚ) (hn : n 0 ^ 2 + n 1 ^ 2 + n 2 ^ 2 ≤ 1) :
    |planeValue info f back n d i - planeValue info f cloud n d i| ≤ 7 / 4 * shift R B ∧
    ∀ t, (|planeValue info f cloud n d i| ≤ t → |planeValue info f back n d i| ≤ t + 7 / 4 * shift R B) ∧
      (|planeValue info f back n d i| ≤ t → |planeValue info f cloud n d i| ≤ t + 7 / 4 * shift R B) := by
  have m := trip_moves h hf hi bi
  have he : 0 ≤ shift R B := le_trans (abs_nonneg _) (m 0)
  have key : |planeValue info f back n d i - planeValue info f cloud n d i| ≤ 7 / 4 * shift R B := by
    have m0 := m 0
    have m1 := m 1
    have m2 := m 2
    unfold planeValue
    generalize real32 (coordinate info f back i 0) = x', real32 (coordinate info f back i 1) = y', real32 (coordinate info f back i 2) = z',
      real32 (coordinate info f cloud i 0) = x, real32 (coordinate info f cloud i 1) = y, real32 (coordinate info f cloud i 2) = z at *
    have e : n 0 * x' + n 1 * y' + n 2 * z' + d - (n 0 * x + n 1 * y + n 2 * z + d) = n 0 * (x' - x) + n 1 * (y' - y) + n 2 * (z' - z) := by ring
    have t (u v : ℚ) (hv : |v| ≤ shift R B) : |u * v| ≤ |u| * shift R B := by
      rw [abs_mul]
      exact mul_le_mul_of_nonneg_left hv (abs_nonneg _)
    have s3 : |n 0| + |n 1| + |n 2| ≤ 7 / 4 := by
      rw [← sq_abs (n 0), ← sq_abs (n 1), ← sq_abs (n 2)] at hn
      nlinarith [sq_nonneg (|n 0| - |n 1|), sq_nonneg (|n 0| - |n 2|), sq_nonneg (|n 1| - |n 2|), abs_nonneg (n 0), abs_nonneg (n 1), abs_nonneg (n 2)]
    rw [e]
    calc _ ≤ |n 0 * (x' - x)| + |n 1 * (y' - y)| + |n 2 * (z' - z)| := (abs_add_le _ _).trans (add_le_add_left (abs_add_le _ _) _)
      _ ≤ |n 0| * shift R B + |n 1| * shift R B + |n 2| * shift R B := add_le_add (add_le_add (t _ _ m0) (t _ _ m1)) (t _ _ m2)
      _ = (|n 0| + |n 1| + |n 2|) * shift R B := by ring
      _ ≤ _ := mul_le_mul_of_nonneg_right s3 he
  refine ⟨key, fun t => ?_⟩
  obtain ⟨x, y⟩ := abs_le.1 key
  constructor <;> intro hu <;> obtain ⟨u, v⟩ := abs_le.1 hu <;> rw [abs_le] <;> constructor <;> linarith

/-! ## The two points of `Props/C101` -/

theorem near_moved : Moved nearInfo nearCloud nearBack := ⟨near_sensible, near_within, by decide, rfl, near_trip⟩

theorem near_box (i : Nat) (hi : i < 2) : InBox 4 nearInfo nearFields nearCloud i := by
  have h1 : i = 0 ∨ i = 1 := by omega
  rcases h1 with rfl | rfl <;> (intro a; revert a; decide +kernel)

example : real32 (coordinate nearInfo nearFields nearBack 1 0) ≤ 1001 / 1000 + shift (1 / 999) 4 :=
  ((C106_box_partial nearInfo nearCloud nearBack near_moved (1 / 999) 4 nearFields near_coordinates 1 (by decide) (near_box 1 (by decide)) 0 1 (1001 / 1000)).1
    (by decide +kernel)).2

/-- The mean of the two points moves by less than a millimetre along every axis; and it does move. -/
example : (∀ a, |centroid nearInfo nearFields nearBack [0, 1] a - centroid nearInfo nearFields nearCloud [0, 1] a| ≤ 1 / 1000) ∧
    centroid nearInfo nearFields nearBack [0, 1] 0 ≠ centroid nearInfo nearFields nearCloud [0, 1] 0 := by
  refine ⟨fun a => (C106_centroid_partial nearInfo nearCloud nearBack near_moved (1 / 999) 4 nearFields near_coordinates [0, 1] (by decide) (fun i hi => ?_) a).trans ?_,
    by decide +kernel⟩
  · have : i < 2 := by
      simp only [List.mem_cons, List.not_mem_nil, or_false] at hi
      omega
    exact ⟨this, near_box i this⟩
  · unfold shift
    norm_num

/-- The plane x = 1: the second point is 0.5 mm off and afterwards less than 2 mm. -/
example : |planeValue nearInfo nearFields nearBack (fun a => if a = 0 then 1 else 0) (-1) 1| ≤ 2 / 1000 := by
  have := ((C106_plane_partial nearInfo nearCloud nearBack near_moved (1 / 999) 4 nearFields near_coordinates 1 (by decide) (near_box 1 (by decide))
    (fun a => if a = 0 then 1 else 0) (-1) (by decide +kernel)).2 (501 / 1000000)).1 (by decide +kernel)
  refine this.trans ?_
  unfold shift
  norm_num

end Cloudini.Props
