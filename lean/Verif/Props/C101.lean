import Verif.Props.C11_cloud

/-!
# C101 Distances between points survive

The error bound of C11 is about one number.  Algorithms on clouds (nearest neighbours, registration, segmentation) live on distances between
points; here is what C11 means for them.
-/

namespace Cloudini.Props
open IEEE (ops)

/-- The x, y and z fields of a description: three float fields with resolutions of at most `R`. -/
structure Coordinates (info : EncodingInfo) (R : ℚ) (f : Fin 3 → PointField) : Prop where
  listed : ∀ a, f a ∈ info.fields
  float : ∀ a, (f a).type = .float32
  resolution : ∀ a, ∃ r, (f a).resolution = some r ∧ real32 r ≤ R

/-- Coordinate `a` of point `i` of a cloud. -/
def coordinate (info : EncodingInfo) (f : Fin 3 → PointField) (data : List Byte) (i : Nat) (a : Fin 3) : BitVec 32 :=
  asFloat (cell data 0 info.point_step.toNat i (f a).offset.toNat 4)

/-- Squared distance between points `i` and `j`. -/
def distSq (info : EncodingInfo) (f : Fin 3 → PointField) (data : List Byte) (i j : Nat) : ℚ :=
  (real32 (coordinate info f data i 0) - real32 (coordinate info f data j 0)) ^ 2 +
  (real32 (coordinate info f data i 1) - real32 (coordinate info f data j 1)) ^ 2 +
  (real32 (coordinate info f data i 2) - real32 (coordinate info f data j 2)) ^ 2

/-- Point `i` has no NaN and lies in the box of half-width `B`. -/
def InBox (B : ℚ) (info : EncodingInfo) (f : Fin 3 → PointField) (data : List Byte) (i : Nat) : Prop :=
  ∀ a, isNaN32 (coordinate info f data i a) = false ∧ |real32 (coordinate info f data i a)| ≤ B

/-- How far a coordinate of at most `B` moves: half a step, and the rounding of the float operations. -/
def shift (R B : ℚ) : ℚ := R / 2 + 2 ^ (-22 : Int) * R + (2 ^ (-22 : Int) + 2 ^ (-44 : Int)) * B

/-- The triangle inequality for vectors of rationals, without roots. -/
theorem triangle (a b c x y z D E : ℚ) (hD : 0 ≤ D) (hE : 0 ≤ E) (h1 : a ^ 2 + b ^ 2 + c ^ 2 ≤ D ^ 2) (h2 : x ^ 2 + y ^ 2 + z ^ 2 ≤ E ^ 2) :
    (a + x) ^ 2 + (b + y) ^ 2 + (c + z) ^ 2 ≤ (D + E) ^ 2 := by
  have h3 : (a * x + b * y + c * z) ^ 2 ≤ (D * E) ^ 2 := by
    have h4 : (a * x + b * y + c * z) ^ 2 ≤ (a ^ 2 + b ^ 2 + c ^ 2) * (x ^ 2 + y ^ 2 + z ^ 2) := by
      nlinarith [sq_nonneg (a * y - b * x), sq_nonneg (a * z - c * x), sq_nonneg (b * z - c * y)]
    calc _ ≤ _ := h4
      _ ≤ D ^ 2 * E ^ 2 := mul_le_mul h1 h2 (by positivity) (by positivity)
      _ = _ := by ring
  have h5 := abs_le_of_sq_le_sq h3 (mul_nonneg hD hE)
  nlinarith [(abs_le.1 h5).2]

theorem displaced (a b c a' b' c' D e : ℚ) (hD : 0 ≤ D) (he : 0 ≤ e) (h : a ^ 2 + b ^ 2 + c ^ 2 ≤ D ^ 2)
    (h1 : |a' - a| ≤ 2 * e) (h2 : |b' - b| ≤ 2 * e) (h3 : |c' - c| ≤ 2 * e) : a' ^ 2 + b' ^ 2 + c' ^ 2 ≤ (D + 7 / 2 * e) ^ 2 := by
  have g (u : ℚ) (hu : |u| ≤ 2 * e) : u ^ 2 ≤ 4 * e ^ 2 := by
    have := sq_le_sq' (by linarith [(abs_le.1 hu).1]) (abs_le.1 hu).2
    nlinarith
  have := triangle a b c (a' - a) (b' - b) (c' - c) D (7 / 2 * e) hD (by linarith) h (by
    have := g _ h1; have := g _ h2; have := g _ h3
    nlinarith [sq_nonneg e])
  simpa using this

/-- What one coordinate does. -/
theorem moved {r x y : BitVec 32} {R B : ℚ} (h : Close32 r x y) (hr : real32 r ≤ R) (hn : isNaN32 x = false) (hb : |real32 x| ≤ B) :
    |real32 y - real32 x| ≤ shift R B := by
  refine (h.2 hn).2.trans ?_
  unfold shift
  have h1 : (0 : ℚ) < 2 ^ (-22 : Int) := IEEE.two_zpow_pos _
  have h2 : (0 : ℚ) < 2 ^ (-44 : Int) := IEEE.two_zpow_pos _
  generalize (2 : ℚ) ^ (-22 : Int) = p at *
  generalize (2 : ℚ) ^ (-44 : Int) = q at *
  have := mul_le_mul_of_nonneg_left hr h1.le
  have := mul_le_mul_of_nonneg_left hb (add_pos h1 h2).le
  linarith

theorem between {x y x' y' e : ℚ} (hx : |x' - x| ≤ e) (hy : |y' - y| ≤ e) :
    |(x' - y') - (x - y)| ≤ 2 * e ∧ |(x - y) - (x' - y')| ≤ 2 * e := by
  obtain ⟨a, b⟩ := abs_le.1 hx
  obtain ⟨c, d⟩ := abs_le.1 hy
  constructor <;> rw [abs_le] <;> constructor <;> linarith

/-- **C101 (partial).** Encode any cloud within 2^29 steps (2^61 outside the leading group) with an encoder of any history and decode the result.
Any two points within `D` of each other whose coordinates are numbers of at most `B` are decoded as points within `D + 7/2 shift` of each other, and
the other way round: what is within `D` after the trip was within `D + 7/2 shift` before.  Missing: as for `C11_cloud_partial`. -/
theorem C101_distance_partial (C : Compressor) (hC : C.Lawful) (info : EncodingInfo) (header : List Byte)
    (enc enc' : Encoder) (cloud out : List Byte) (room size fuel : Nat)
    (hinfo : SensibleInfo info) (hcloud : CloudWithin (2 ^ 29) (2 ^ 61) (2 ^ 61) info cloud) (hreach : Reach ops C info header enc)
    (henc : encodeView ops C enc cloud room false = .ok (enc', out, size))
    (h64 : FieldLimit info)
    (hlim : info.compression_opt = .none ∨ ChunksWithin ops enc cloud cloud.length)
    (hlz : info.compression_opt = .lz4 → cloud.length ≤ intMax)
    (hmagic : out.take 10 ≠ magic)
    (buf : List Byte) (hbuf : cloud.length ≤ buf.length)
    (ho : info.encoding_opt = .lossy) (R B : ℚ) (f : Fin 3 → PointField) (hf : Coordinates info R f) :
    ∃ buf', decodeCloud ops C fuel info out buf = .ok buf' ∧
      ∀ i, i < info.width.toNat * info.height.toNat → ∀ j, j < info.width.toNat * info.height.toNat →
      InBox B info f cloud i → InBox B info f cloud j → ∀ D, 0 ≤ D →
        (distSq info f cloud i j ≤ D ^ 2 → distSq info f buf' i j ≤ (D + 7 / 2 * shift R B) ^ 2) ∧
        (distSq info f buf' i j ≤ D ^ 2 → distSq info f cloud i j ≤ (D + 7 / 2 * shift R B) ^ 2) := by
  obtain ⟨buf', d1, _, d3⟩ := C11_cloud_partial C hC info header enc enc' cloud out room size fuel hinfo hcloud hreach henc h64 hlim hlz hmagic buf hbuf
  refine ⟨buf', d1, fun i hi j hj bi bj D hD => ?_⟩
  have key (n : Nat) (hn : n < info.width.toNat * info.height.toNat) (bn : InBox B info f cloud n) (a : Fin 3) :
      |real32 (coordinate info f buf' n a) - real32 (coordinate info f cloud n a)| ≤ shift R B := by
    obtain ⟨k, hk⟩ := List.getElem?_of_mem (hf.listed a)
    obtain ⟨r, hr, hR⟩ := hf.resolution a
    have h := d3 n hn k (f a) hk
    simp only [ho, hf.float a, hr] at h
    exact moved h hR (bn a).1 (bn a).2
  have he : 0 ≤ shift R B := le_trans (abs_nonneg _) (key i hi bi 0)
  have b0 := between (key i hi bi 0) (key j hj bj 0)
  have b1 := between (key i hi bi 1) (key j hj bj 1)
  have b2 := between (key i hi bi 2) (key j hj bj 2)
  exact ⟨fun h => displaced _ _ _ _ _ _ D _ hD he h b0.1 b1.1 b2.1, fun h => displaced _ _ _ _ _ _ D _ hD he h b0.2 b1.2 b2.2⟩

/-- **C101, times (partial).** The time between two points (any lossy field of doubles) changes by at most two shifts of a double: a step, and the
rounding, which for doubles is some 2^-50 of the larger value.  Missing: as for `C11_cloud_partial`. -/
theorem C101_interval_partial (C : Compressor) (hC : C.Lawful) (info : EncodingInfo) (header : List Byte)
    (enc enc' : Encoder) (cloud out : List Byte) (room size fuel : Nat)
    (hinfo : SensibleInfo info) (hcloud : CloudWithin (2 ^ 29) (2 ^ 61) (2 ^ 61) info cloud) (hreach : Reach ops C info header enc)
    (henc : encodeView ops C enc cloud room false = .ok (enc', out, size))
    (h64 : FieldLimit info)
    (hlim : info.compression_opt = .none ∨ ChunksWithin ops enc cloud cloud.length)
    (hlz : info.compression_opt = .lz4 → cloud.length ≤ intMax)
    (hmagic : out.take 10 ≠ magic)
    (buf : List Byte) (hbuf : cloud.length ≤ buf.length)
    (ho : info.encoding_opt = .lossy) (f : PointField) (r : BitVec 32) (B : ℚ) (hf : f ∈ info.fields) (ht : f.type = .float64)
    (hr : f.resolution = some r) :
    ∃ buf', decodeCloud ops C fuel info out buf = .ok buf' ∧
      let time (data : List Byte) (i : Nat) : BitVec 64 := asDouble (cell data 0 info.point_step.toNat i f.offset.toNat 8)
      ∀ i, i < info.width.toNat * info.height.toNat → ∀ j, j < info.width.toNat * info.height.toNat →
      isNaN64 (time cloud i) = false → isNaN64 (time cloud j) = false → |real64 (time cloud i)| ≤ B → |real64 (time cloud j)| ≤ B →
      |(real64 (time buf' i) - real64 (time buf' j)) - (real64 (time cloud i) - real64 (time cloud j))| ≤
        real32 r + 2 ^ (-50 : Int) * real32 r + (2 ^ (-50 : Int) + 2 ^ (-101 : Int)) * B := by
  obtain ⟨buf', d1, _, d3⟩ := C11_cloud_partial C hC info header enc enc' cloud out room size fuel hinfo hcloud hreach henc h64 hlim hlz hmagic buf hbuf
  refine ⟨buf', d1, ?_⟩
  intro time i hi j hj ni nj bi bj
  obtain ⟨k, hk⟩ := List.getElem?_of_mem hf
  have key (n : Nat) (hn : n < info.width.toNat * info.height.toNat) (nn : isNaN64 (time cloud n) = false) (bn : |real64 (time cloud n)| ≤ B) :
      |real64 (time buf' n) - real64 (time cloud n)| ≤ real32 r / 2 + 2 ^ (-51 : Int) * real32 r + (2 ^ (-51 : Int) + 2 ^ (-102 : Int)) * B := by
    have h := d3 n hn k f hk
    simp only [ho, ht, hr] at h
    refine (h.2 nn).2.trans ?_
    have := mul_le_mul_of_nonneg_left bn (add_pos (IEEE.two_zpow_pos (-51)) (IEEE.two_zpow_pos (-102))).le
    exact add_le_add_right this _
  refine (between (key i hi ni bi) (key j hj nj bj)).1.trans (le_of_eq ?_)
  rw [show (2 : ℚ) ^ (-50 : Int) = 2 * 2 ^ (-51 : Int) by norm_num, show (2 : ℚ) ^ (-101 : Int) = 2 * 2 ^ (-102 : Int) by norm_num]
  ring

/-- The cloud of numbers of `Props/C11_cloud`: its two time stamps are 0.1 s apart, the decoded ones between 0.098 and 0.102 s. -/
example : ∃ buf', decodeCloud ops storeComp 0 numInfo numOut (List.replicate 56 0#8) = .ok buf' ∧
    |(real64 (asDouble (cell buf' 0 28 1 20 8)) - real64 (asDouble (cell buf' 0 28 0 20 8))) - 1 / 10| ≤ 2 / 1000 := by
  obtain ⟨buf', h1, h2⟩ := C101_interval_partial storeComp storeComp_lawful numInfo [] numEnc numEnc numCloud numOut 10000 numOut.length 0
    num_sensible (within_mono num_sensible num_within (by norm_num) (by norm_num) (by norm_num)) (num_reach _) num_encode (by decide)
    (Or.inl rfl) (fun h => by simp [numInfo] at h) (by decide +kernel) (List.replicate 56 0#8) (by decide +kernel) rfl
    ⟨[0x74#8], 20#32, .float64, some 0x3a83126f#32⟩ _ 1700000001 (by decide) rfl rfl
  refine ⟨buf', h1, ?_⟩
  have h3 := h2 1 (by decide) 0 (by decide) (by decide +kernel) (by decide +kernel) (by decide +kernel) (by decide +kernel)
  have h4 : real32 0x3a83126f#32 + 2 ^ (-50 : Int) * real32 0x3a83126f#32 + (2 ^ (-50 : Int) + 2 ^ (-101 : Int)) * 1700000001 ≤ 15 / 10000 := by decide +kernel
  have h5 : |real64 (asDouble (cell numCloud 0 28 1 20 8)) - real64 (asDouble (cell numCloud 0 28 0 20 8)) - 1 / 10| ≤ 1 / 10000 := by decide +kernel
  have h6 := h3.trans h4
  change |(real64 (asDouble (cell buf' 0 28 1 20 8)) - real64 (asDouble (cell buf' 0 28 0 20 8))) -
    (real64 (asDouble (cell numCloud 0 28 1 20 8)) - real64 (asDouble (cell numCloud 0 28 0 20 8)))| ≤ _ at h6
  have g1 := abs_le.1 h5
  have g2 := abs_le.1 h6
  rw [abs_le]
  constructor <;> linarith [g1.1, g1.2, g2.1, g2.2]

/-! ## Two points a millimetre apart -/

def nearInfo : EncodingInfo :=
  { fields := [⟨[0x78#8], 0#32, .float32, some 0x3a83126f#32⟩, ⟨[0x79#8], 4#32, .float32, some 0x3a83126f#32⟩,
               ⟨[0x7a#8], 8#32, .float32, some 0x3a83126f#32⟩],
    width := 2#32, height := 1#32, point_step := 12#32, encoding_opt := .lossy, compression_opt := .none, version := 5#8 }

/-- (1.0, -2.5, 3.25) and (1.0005, -2.5, 3.251). -/
def nearCloud : List Byte :=
  toLE 4 0x3f800000 ++ toLE 4 0xc0200000 ++ toLE 4 0x40500000 ++ (toLE 4 0x3f801062 ++ toLE 4 0xc0200000 ++ toLE 4 0x40501062)

theorem near_sensible : SensibleInfo nearInfo where
  step := by decide
  version := by decide
  option := by decide
  types := by decide
  inside := by decide
  disjoint := by decide
  resolution := by
    intro f hf r hr
    simp only [nearInfo, List.mem_cons, List.not_mem_nil, or_false] at hf
    rcases hf with rfl | rfl | rfl <;> simp at hr <;> subst hr <;> decide +kernel

theorem near_within : CloudWithin (2 ^ 29) (2 ^ 61) (2 ^ 61) nearInfo nearCloud where
  size := by decide +kernel
  addressable := by decide +kernel
  range := by
    intro i hi k f hk
    have hi : i < 2 := hi
    have hlt : k < 3 := (List.getElem?_eq_some_iff.1 hk).1
    have h1 : i = 0 ∨ i = 1 := by omega
    have h2 : k = 0 ∨ k = 1 ∨ k = 2 := by omega
    rcases h1 with rfl | rfl <;> rcases h2 with rfl | rfl | rfl <;>
      simp only [nearInfo, List.getElem?_cons_zero, List.getElem?_cons_succ, Option.some.injEq] at hk <;> subst hk <;>
      refine ⟨fun h => by simp at h, fun _ r hr => ?_⟩ <;> simp at hr <;> subst hr <;>
      refine ⟨fun h => ?_, fun h => ?_⟩ <;> first | (simp at h; done) | decide +kernel

def nearEnc : Encoder :=
  match mkEncoder ops nearInfo [] with
  | .ok e => e
  | _ => ⟨nearInfo, [], []⟩
def nearOut : Encoder × List Byte × Nat :=
  match encodeView ops storeComp nearEnc nearCloud 10000 false with
  | .ok r => r
  | _ => (nearEnc, [], 0)
theorem near_encode : encodeView ops storeComp nearEnc nearCloud 10000 false = .ok (nearOut.1, nearOut.2.1, nearOut.2.2) := by decide +kernel

def nearFields (a : Fin 3) : PointField := ⟨[BitVec.ofNat 8 (0x78 + a.val)], BitVec.ofNat 32 (4 * a.val), .float32, some 0x3a83126f#32⟩

theorem near_coordinates : Coordinates nearInfo (1 / 999) nearFields where
  listed := by decide
  float := by decide
  resolution := fun a => ⟨0x3a83126f#32, rfl, by decide +kernel⟩

/-- They are less than 1.2 mm apart before and so less than 3 mm apart afterwards. -/
example : ∃ buf', decodeCloud ops storeComp 0 nearInfo nearOut.2.1 (List.replicate 24 0#8) = .ok buf' ∧ distSq nearInfo nearFields buf' 0 1 ≤ (3 / 1000) ^ 2 := by
  obtain ⟨buf', h1, h2⟩ := C101_distance_partial storeComp storeComp_lawful nearInfo [] nearEnc nearOut.1 nearCloud nearOut.2.1 10000 nearOut.2.2 0
    near_sensible near_within (.fresh _ (by decide +kernel)) near_encode (by decide) (Or.inl rfl) (fun h => by simp [nearInfo] at h) (by decide +kernel)
    (List.replicate 24 0#8) (by decide +kernel) rfl (1 / 999) 4 nearFields near_coordinates
  have h3 := (h2 0 (by decide) 1 (by decide) (by intro a; revert a; decide +kernel) (by intro a; revert a; decide +kernel) (12 / 10000) (by norm_num)).1 (by decide +kernel)
  refine ⟨buf', h1, h3.trans ?_⟩
  unfold shift
  norm_num

/-- They are not decoded as one point: the statement is not about a codec that returns zeros. -/
def nearBack : List Byte :=
  match decodeCloud ops storeComp 0 nearInfo nearOut.2.1 (List.replicate 24 0#8) with
  | .ok b => b
  | _ => []
example : decodeCloud ops storeComp 0 nearInfo nearOut.2.1 (List.replicate 24 0#8) = .ok nearBack ∧ 0 < distSq nearInfo nearFields nearBack 0 1 ∧
    nearBack ≠ nearCloud := by decide +kernel

end Cloudini.Props
