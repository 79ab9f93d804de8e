import Verif.Lemmas.IEEEOrder
import Verif.Props.C11_cloud

/-!
# C95: lossy coding keeps the order of the numbers

A smaller coordinate is never decoded as a larger one, a number and its negative are decoded as a number and its negative, zero as zero.  So the
points at the border of a cloud are still at its border, and points do not change sides of a plane through the origin.
-/

namespace Cloudini.Props
open IEEE (ops b32 b64)

theorem memoryless32_through {r x : BitVec 32} (hr : GoodRes r) (h : isNaN32 x = false) (hw : Within32 (2 ^ 61) r x) :
    real32 (memoryless32 ops r x) = IEEE.through b32 IEEE.roundAway (b32.val (IEEE.mult32 r)) (real32 r) (real32 x) := by
  rcases hw with hw | ⟨a, b, c⟩
  · rw [h] at hw; cases hw
  · obtain ⟨n, h1, _⟩ := IEEE.cycle32 hr a b c
    unfold memoryless32
    rw [h, h1]
    exact IEEE.through32 hr a h1

theorem memorylessV_through {r x : BitVec 32} (hr : GoodRes r) (h : isNaN32 x = false) (hw : Within32 (2 ^ 29) r x) :
    real32 (memorylessV ops r x) = IEEE.through b32 IEEE.roundEven (b32.val (IEEE.multV r)) (real32 r) (real32 x) := by
  rcases hw with hw | ⟨a, b, c⟩
  · rw [h] at hw; cases hw
  · obtain ⟨n, h1, h2, h3, _⟩ := IEEE.cycleV hr a b c
    have hne : ops.quantV r x ≠ BitVec.intMin 32 := by
      intro e
      rw [h1] at e
      rw [e] at h3
      exact absurd h3.1 (by decide)
    unfold memorylessV
    rw [h]
    exact IEEE.throughV hr a hne

theorem memoryless64_through {r : BitVec 32} {x : BitVec 64} (hr : GoodRes r) (h : isNaN64 x = false) (hw : Within64 (2 ^ 61) r x) :
    real64 (memoryless64 ops r x) = IEEE.through b64 IEEE.roundAway (b64.val (IEEE.mult64 r)) (real32 r) (real64 x) := by
  rcases hw with hw | ⟨a, c⟩
  · rw [h] at hw; cases hw
  · obtain ⟨n, h1, _⟩ := IEEE.cycle64 hr a c
    unfold memoryless64
    rw [h, h1]
    exact IEEE.through64 hr a h1

/-- What the codec is said to keep between an old and a new version of two numbers. -/
structure SameSide (x y x' y' : ℚ) : Prop where
  /-- order -/
  le : x ≤ y → x' ≤ y'
  /-- mirror images -/
  opposite : x = -y → x' = -y'
  /-- sign -/
  zero : x = 0 → x' = 0
  nonneg : 0 ≤ x → 0 ≤ x'
  nonpos : x ≤ 0 → x' ≤ 0

theorem through_side (F : IEEE.Fmt) {toInt : ℚ → Int} (h1 : ∀ {a b}, a ≤ b → toInt a ≤ toInt b) (h2 : ∀ a, toInt (-a) = -toInt a) {m r : ℚ} (hm : 0 ≤ m) (hr : 0 ≤ r) (x y : ℚ) :
    SameSide x y (IEEE.through F toInt m r x) (IEEE.through F toInt m r y) := by
  have h0 : IEEE.through F toInt m r 0 = 0 := by
    have := IEEE.through_neg F h2 m r 0
    rw [neg_zero] at this
    linarith
  refine ⟨fun h => IEEE.through_mono F h1 hm hr h, fun h => ?_, fun h => by rw [h, h0], fun h => ?_, fun h => ?_⟩
  · rw [h, IEEE.through_neg F h2]
  · rw [← h0]; exact IEEE.through_mono F h1 hm hr h
  · rw [← h0]; exact IEEE.through_mono F h1 hm hr h

/-- **C95, single numbers.** The scalar path. -/
theorem C95_float32 (r x y : BitVec 32) (hr : GoodRes r) (hx : isNaN32 x = false) (hy : isNaN32 y = false) (wx : Within32 (2 ^ 61) r x) (wy : Within32 (2 ^ 61) r y) :
    SameSide (real32 x) (real32 y) (real32 (memoryless32 ops r x)) (real32 (memoryless32 ops r y)) := by
  rw [memoryless32_through hr hx wx, memoryless32_through hr hy wy]
  exact through_side b32 IEEE.roundAway_mono IEEE.roundAway_neg (IEEE.mult32_nonneg hr) (lt_of_lt_of_le (IEEE.two_zpow_pos _) hr.2.1).le _ _

/-- The vector path. -/
theorem C95_vector (r x y : BitVec 32) (hr : GoodRes r) (hx : isNaN32 x = false) (hy : isNaN32 y = false) (wx : Within32 (2 ^ 29) r x) (wy : Within32 (2 ^ 29) r y) :
    SameSide (real32 x) (real32 y) (real32 (memorylessV ops r x)) (real32 (memorylessV ops r y)) := by
  rw [memorylessV_through hr hx wx, memorylessV_through hr hy wy]
  exact through_side b32 IEEE.roundEven_mono IEEE.roundEven_neg (IEEE.multV_nonneg hr) (lt_of_lt_of_le (IEEE.two_zpow_pos _) hr.2.1).le _ _

/-- Doubles. -/
theorem C95_float64 (r : BitVec 32) (x y : BitVec 64) (hr : GoodRes r) (hx : isNaN64 x = false) (hy : isNaN64 y = false) (wx : Within64 (2 ^ 61) r x) (wy : Within64 (2 ^ 61) r y) :
    SameSide (real64 x) (real64 y) (real64 (memoryless64 ops r x)) (real64 (memoryless64 ops r y)) := by
  rw [memoryless64_through hr hx wx, memoryless64_through hr hy wy]
  exact through_side b64 IEEE.roundAway_mono IEEE.roundAway_neg (IEEE.mult64_nonneg hr) (lt_of_lt_of_le (IEEE.two_zpow_pos _) hr.2.1).le _ _

/-- **C95 (partial).** Encode any cloud within 2^29 steps (2^61 outside the leading group) with an encoder of any history and decode the result: in every lossy field, any
two points keep their order, mirror images and signs (points whose value is NaN aside).  Missing: values beyond those limits (`C95_vector_overflow`) and what C18 leaves
out. -/
theorem C95_cloud_partial (C : Compressor) (hC : C.Lawful) (info : EncodingInfo) (header : List Byte)
    (enc enc' : Encoder) (cloud out : List Byte) (room size fuel : Nat)
    (hinfo : SensibleInfo info) (hcloud : CloudWithin (2 ^ 29) (2 ^ 61) (2 ^ 61) info cloud) (hreach : Reach ops C info header enc)
    (henc : encodeView ops C enc cloud room false = .ok (enc', out, size))
    (h64 : FieldLimit info)
    (hlim : info.compression_opt = .none ∨ ChunksWithin ops enc cloud cloud.length)
    (hlz : info.compression_opt = .lz4 → cloud.length ≤ intMax)
    (hmagic : out.take 10 ≠ magic)
    (buf : List Byte) (hbuf : cloud.length ≤ buf.length) :
    ∃ buf', decodeCloud ops C fuel info out buf = .ok buf' ∧ buf'.length = buf.length ∧
      ∀ i, i < info.width.toNat * info.height.toNat → ∀ j, j < info.width.toNat * info.height.toNat →
      ∀ (k : Nat) (f : PointField) (r : BitVec 32), info.fields[k]? = some f → info.encoding_opt = .lossy → f.resolution = some r →
        let old i := cell cloud 0 info.point_step.toNat i f.offset.toNat (sizeOf f.type)
        let new i := cell buf' 0 info.point_step.toNat i f.offset.toNat (sizeOf f.type)
        (f.type = .float32 → isNaN32 (asFloat (old i)) = false → isNaN32 (asFloat (old j)) = false →
          SameSide (real32 (asFloat (old i))) (real32 (asFloat (old j))) (real32 (asFloat (new i))) (real32 (asFloat (new j)))) ∧
        (f.type = .float64 → isNaN64 (asDouble (old i)) = false → isNaN64 (asDouble (old j)) = false →
          SameSide (real64 (asDouble (old i))) (real64 (asDouble (old j))) (real64 (asDouble (new i))) (real64 (asDouble (new j)))) := by
  obtain ⟨buf', d1, d2, d3⟩ := C18_cloud_roundtrip_partial ops C hC info header enc enc' cloud out room size fuel (sensible_valid hinfo)
    (within_valid hinfo hcloud) hreach henc h64 hlim hlz hmagic buf hbuf
  refine ⟨buf', d1, d2, ?_⟩
  intro i hi j hj k f r hk ho hr
  have hg := hinfo.resolution f (List.mem_of_getElem? hk) _ hr
  simp only
  rw [d3 i hi k f hk, d3 j hj k f hk]
  obtain ⟨_, wi⟩ := hcloud.range i hi k f hk
  obtain ⟨_, wj⟩ := hcloud.range j hj k f hk
  generalize cell cloud 0 info.point_step.toNat i f.offset.toNat (sizeOf f.type) = bi at wi ⊢
  generalize cell cloud 0 info.point_step.toNat j f.offset.toNat (sizeOf f.type) = bj at wj ⊢
  clear d3
  unfold expected
  refine ⟨fun ht ni nj => ?_, fun ht ni nj => ?_⟩
  · simp only [ho, ht, hr]
    have vi := (wi ho _ hr).1 ht
    have vj := (wj ho _ hr).1 ht
    rw [asFloat_toLE, asFloat_toLE]
    by_cases hlt : k < groupSize info
    · simp only [if_pos hlt] at vi vj ⊢
      exact C95_vector r _ _ hg ni nj vi vj
    · simp only [if_neg hlt] at vi vj ⊢
      exact C95_float32 r _ _ hg ni nj vi vj
  · simp only [ho, ht, hr]
    rw [asDouble_toLE, asDouble_toLE]
    exact C95_float64 r _ _ hg ni nj ((wi ho _ hr).2 ht) ((wj ho _ hr).2 ht)

/-- **C95, borders.** A point with the smallest value of a field still has the smallest value of that field. -/
theorem C95_border_partial (C : Compressor) (hC : C.Lawful) (info : EncodingInfo) (header : List Byte)
    (enc enc' : Encoder) (cloud out : List Byte) (room size fuel : Nat)
    (hinfo : SensibleInfo info) (hcloud : CloudWithin (2 ^ 29) (2 ^ 61) (2 ^ 61) info cloud) (hreach : Reach ops C info header enc)
    (henc : encodeView ops C enc cloud room false = .ok (enc', out, size))
    (h64 : FieldLimit info)
    (hlim : info.compression_opt = .none ∨ ChunksWithin ops enc cloud cloud.length)
    (hlz : info.compression_opt = .lz4 → cloud.length ≤ intMax)
    (hmagic : out.take 10 ≠ magic)
    (buf : List Byte) (hbuf : cloud.length ≤ buf.length) (k : Nat) (f : PointField) (r : BitVec 32)
    (hk : info.fields[k]? = some f) (ho : info.encoding_opt = .lossy) (ht : f.type = .float32) (hr : f.resolution = some r)
    (old : Nat → ℚ) (hold : ∀ i, old i = real32 (asFloat (cell cloud 0 info.point_step.toNat i f.offset.toNat 4)))
    (hnan : ∀ i, i < info.width.toNat * info.height.toNat → isNaN32 (asFloat (cell cloud 0 info.point_step.toNat i f.offset.toNat 4)) = false)
    (i : Nat) (hi : i < info.width.toNat * info.height.toNat) (hmin : ∀ j, j < info.width.toNat * info.height.toNat → old i ≤ old j) :
    ∃ buf', decodeCloud ops C fuel info out buf = .ok buf' ∧ ∀ j, j < info.width.toNat * info.height.toNat →
      real32 (asFloat (cell buf' 0 info.point_step.toNat i f.offset.toNat 4)) ≤ real32 (asFloat (cell buf' 0 info.point_step.toNat j f.offset.toNat 4)) := by
  obtain ⟨buf', d1, _, d3⟩ := C95_cloud_partial C hC info header enc enc' cloud out room size fuel hinfo hcloud hreach henc h64 hlim hlz hmagic buf hbuf
  refine ⟨buf', d1, fun j hj => ?_⟩
  have h := (d3 i hi j hj k f r hk ho hr).1 ht
  have hs : sizeOf f.type = 4 := by rw [ht]; rfl
  simp only [hs] at h
  refine (h (hnan i hi) (hnan j hj)).le ?_
  rw [← hold, ← hold]
  exact hmin j hj

/-- **C95, apart.** Numbers more than one step (and the rounding) apart stay in strict order. -/
theorem C95_apart_vector (r x y : BitVec 32) (hr : GoodRes r) (hx : isNaN32 x = false) (hy : isNaN32 y = false) (wx : Within32 (2 ^ 29) r x) (wy : Within32 (2 ^ 29) r y)
    (h : real32 r + 2 ^ (-21 : Int) * real32 r + (2 ^ (-22 : Int) + 2 ^ (-44 : Int)) * (|real32 x| + |real32 y|) < real32 y - real32 x) :
    real32 (memorylessV ops r x) < real32 (memorylessV ops r y) := by
  rcases wx with wx | ⟨a1, a2, a3⟩
  · rw [hx] at wx; cases wx
  rcases wy with wy | ⟨b1, b2, b3⟩
  · rw [hy] at wy; cases wy
  have h1 := abs_le.1 (C11_vector r x hr a1 a2 a3).2
  have h2 := abs_le.1 (C11_vector r y hr b1 b2 b3).2
  have e : (2 : ℚ) ^ (-21 : Int) = 2 * 2 ^ (-22 : Int) := by norm_num
  rw [e] at h
  have g1 := h1.2
  have g2 := h2.1
  clear h1 h2 e a2 a3 b2 b3
  generalize (2 : ℚ) ^ (-22 : Int) = p at *
  generalize (2 : ℚ) ^ (-44 : Int) = q at *
  rw [mul_add] at h
  linarith

theorem C95_apart_float32 (r x y : BitVec 32) (hr : GoodRes r) (hx : isNaN32 x = false) (hy : isNaN32 y = false) (wx : Within32 (2 ^ 61) r x) (wy : Within32 (2 ^ 61) r y)
    (h : real32 r + 2 ^ (-21 : Int) * real32 r + (2 ^ (-22 : Int) + 2 ^ (-44 : Int)) * (|real32 x| + |real32 y|) < real32 y - real32 x) :
    real32 (memoryless32 ops r x) < real32 (memoryless32 ops r y) := by
  rcases wx with wx | ⟨a1, a2, a3⟩
  · rw [hx] at wx; cases wx
  rcases wy with wy | ⟨b1, b2, b3⟩
  · rw [hy] at wy; cases wy
  have h1 := abs_le.1 (C11_float32 r x hr a1 a2 a3).2
  have h2 := abs_le.1 (C11_float32 r y hr b1 b2 b3).2
  have e : (2 : ℚ) ^ (-21 : Int) = 2 * 2 ^ (-22 : Int) := by norm_num
  rw [e] at h
  have g1 := h1.2
  have g2 := h2.1
  clear h1 h2 e a2 a3 b2 b3
  generalize (2 : ℚ) ^ (-22 : Int) = p at *
  generalize (2 : ℚ) ^ (-44 : Int) = q at *
  rw [mul_add] at h
  linarith

/-- The cloud of numbers of `Props/C11_cloud` meets every hypothesis. -/
example : ∃ buf', decodeCloud ops storeComp 0 numInfo numOut (List.replicate 56 0#8) = .ok buf' ∧ buf'.length = 56 := by
  obtain ⟨buf', h1, h2, _⟩ := C95_cloud_partial storeComp storeComp_lawful numInfo [] numEnc numEnc numCloud numOut 10000 numOut.length 0
    num_sensible (within_mono num_sensible num_within (by norm_num) (by norm_num) (by norm_num)) (num_reach _) num_encode (by decide)
    (Or.inl rfl) (fun h => by simp [numInfo] at h) (by decide +kernel) (List.replicate 56 0#8) (by decide +kernel)
  exact ⟨buf', h1, by simpa using h2⟩

example : ∃ (k : Nat) (f : PointField), numInfo.fields[k]? = some f ∧ f.type = .float32 ∧ f.resolution.isSome = true ∧
    real32 (asFloat (cell numCloud 0 numInfo.point_step.toNat 0 f.offset.toNat 4)) ≠ real32 (asFloat (cell numCloud 0 numInfo.point_step.toNat 1 f.offset.toNat 4)) :=
  ⟨0, _, rfl, by decide, by decide, by decide +kernel⟩

/-- 1.000 and 1.002 at a resolution of 0.001. -/
example : real32 (memorylessV ops 0x3a83126f#32 0x3f800000#32) < real32 (memorylessV ops 0x3a83126f#32 0x3f804189#32) :=
  C95_apart_vector _ _ _ (by decide +kernel) (by decide) (by decide) (by decide +kernel) (by decide +kernel) (by decide +kernel)

/-- The limit is needed: at a resolution of 0.001, 3000000 is decoded as a negative number, 0 as 0. -/
theorem C95_vector_overflow :
    ¬ ∀ r x y : BitVec 32, GoodRes r → Finite32 x → Finite32 y → real32 x ≤ real32 y → real32 (memorylessV ops r x) ≤ real32 (memorylessV ops r y) := by
  intro h
  have := h 0x3a83126f#32 0#32 0x4a371b00#32 (by decide +kernel) (by decide +kernel) (by decide +kernel) (by decide +kernel)
  revert this
  decide +kernel

/-- Strict order is not kept: two numbers a third of a step apart become one. -/
example : real32 0x3f800000#32 < real32 0x3f80068e#32 ∧ real32 (memorylessV ops 0x3a83126f#32 0x3f800000#32) = real32 (memorylessV ops 0x3a83126f#32 0x3f80068e#32) := by
  decide +kernel

/-- The statement is not about a codec that returns zeros: 1.0 and -1.0 come back. -/
example : Within32 (2 ^ 29) 0x3a83126f#32 0x3f800000#32 ∧ Within32 (2 ^ 29) 0x3a83126f#32 0xbf800000#32 ∧ isNaN32 0x3f800000#32 = false ∧
    real32 (memorylessV ops 0x3a83126f#32 0x3f800000#32) = 1 ∧ real32 (memorylessV ops 0x3a83126f#32 0xbf800000#32) = -1 := by
  decide +kernel

end Cloudini.Props
