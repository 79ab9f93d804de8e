import Verif.Props.C95

/-!
# C102 Multiples of the resolution come back exactly

C11 allows every number to move by half a step.  Numbers that are whole multiples of the resolution (intensities or ring numbers kept as floats with
a resolution of 1, coordinates on a grid of 1/1024 m) do not move at all.
-/

namespace Cloudini.Props
open IEEE (ops b32 b64)

/-- The number is `n` steps of the resolution. -/
def Multiple (n : Int) (r x : ℚ) : Prop := x = n * r

theorem rnd_real32 {x : BitVec 32} (hx : |real32 x| ≤ 2 ^ (127 : Int)) (hf : Finite32 x) : b32.rnd (real32 x) = real32 x := by
  have hs : IEEE.Fmt.SignOk (decide (real32 x < 0)) (real32 x) := by
    unfold IEEE.Fmt.SignOk
    by_cases h : real32 x < 0
    · simp only [h, decide_true, if_true]; exact h.le
    · simp only [h, decide_false, Bool.false_eq_true, if_false]; exact not_lt.1 h
  obtain ⟨n1, n2⟩ := nearest32 hs hx
  have h := (n1.2 x hf).1
  rw [sub_self, abs_zero, abs_nonpos_iff, sub_eq_zero, IEEE.real32_eq (BitVec.ofNat 32 _), n2, b32.val_ofRat hs] at h
  exact h

theorem rnd_real64 {x : BitVec 64} (hx : |real64 x| ≤ 2 ^ (1023 : Int)) (hf : Finite64 x) : b64.rnd (real64 x) = real64 x := by
  have hs : IEEE.Fmt.SignOk (decide (real64 x < 0)) (real64 x) := by
    unfold IEEE.Fmt.SignOk
    by_cases h : real64 x < 0
    · simp only [h, decide_true, if_true]; exact h.le
    · simp only [h, decide_false, Bool.false_eq_true, if_false]; exact not_lt.1 h
  obtain ⟨n1, n2⟩ := nearest64 hs hx
  have h := (n1.2 x hf).1
  rw [sub_self, abs_zero, abs_nonpos_iff, sub_eq_zero, IEEE.real64_eq (BitVec.ofNat 64 _), n2, b64.val_ofRat hs] at h
  exact h

theorem rnd_int32 {n : Int} (hn : |n| < 2 ^ 22) : b32.rnd n = n := by
  have hq : |(n : ℚ)| ≤ 2 ^ 22 := by exact_mod_cast hn.le
  rw [← b32.val_ofInt]
  exact (b32.ofInt_spec IEEE.Fmt.b32_ok (by decide) (hq.trans (by rw [IEEE.b32_top]; norm_num))).2.2 (hn.le.trans (by decide)) (by decide)

theorem rnd_int64 {n : Int} (hn : |n| < 2 ^ 51) : b64.rnd n = n := by
  have hq : |(n : ℚ)| ≤ 2 ^ (51 : Int) := by exact_mod_cast hn.le
  rw [← b64.val_ofInt]
  exact (b64.ofInt_spec IEEE.Fmt.b64_ok (by decide) (hq.trans (by rw [IEEE.b64_top]; exact IEEE.zpow_le_of_le (by norm_num)))).2.2 (hn.le.trans (by decide)) (by decide)

/-- **C102, the scalar path.** -/
theorem C102_float32 (r x : BitVec 32) (n : Int) (hr : GoodRes r) (hx : Finite32 x) (hx1 : |real32 x| ≤ 2 ^ (126 : Int)) (hn : |n| < 2 ^ 22)
    (h : Multiple n (real32 r) (real32 x)) : real32 (memoryless32 ops r x) = real32 x := by
  unfold Multiple at h
  have hr0 := lt_of_lt_of_le (IEEE.two_zpow_pos _) hr.2.1
  have hb := abs_lt.1 hn
  have ht : (BitVec.ofInt 64 n).toInt = n := IEEE.ofInt64_toInt (by omega) (by omega)
  have hv : real32 (ops.dequant32 r (BitVec.ofInt 64 n)) = real32 x := by
    rw [IEEE.dequant32_val hr.1, ht, rnd_int32 hn, ← h, rnd_real32 (hx1.trans (IEEE.zpow_le_of_le (by norm_num))) hx]
  obtain ⟨s1, s2⟩ := IEEE.stable32 hr (BitVec.ofInt 64 n) (by rw [ht]; exact hn) (by
    rw [ht]
    calc |(n : ℚ)| * real32 r = |real32 x| := by rw [h, abs_mul, abs_of_pos hr0]
      _ ≤ _ := hx1.trans (IEEE.zpow_le_of_le (by norm_num)))
  have hw : |real32 x| ≤ 2 ^ 61 * real32 r := by
    have hq : |(n : ℚ)| ≤ 2 ^ 61 := by
      have : |n| ≤ 2 ^ 61 := by omega
      exact_mod_cast this
    rw [h, abs_mul, abs_of_pos hr0]
    exact mul_le_mul_of_nonneg_right hq hr0.le
  rw [memoryless32_through hr (IEEE.fin32_not_nan hx) (Or.inr ⟨hx, hx1, hw⟩), ← hv, ← IEEE.through32 hr s1 s2]

/-- The vector path. -/
theorem C102_vector (r x : BitVec 32) (n : Int) (hr : GoodRes r) (hx : Finite32 x) (hx1 : |real32 x| ≤ 2 ^ (126 : Int)) (hn : |n| < 2 ^ 22)
    (h : Multiple n (real32 r) (real32 x)) : real32 (memorylessV ops r x) = real32 x := by
  unfold Multiple at h
  have hr0 := lt_of_lt_of_le (IEEE.two_zpow_pos _) hr.2.1
  have hb := abs_lt.1 hn
  have ht : (BitVec.ofInt 32 n).toInt = n := IEEE.ofInt32_toInt (by omega) (by omega)
  have hv : real32 (ops.dequantV r (BitVec.ofInt 32 n)) = real32 x := by
    rw [IEEE.dequantV_val hr.1, ht, rnd_int32 hn, ← h, rnd_real32 (hx1.trans (IEEE.zpow_le_of_le (by norm_num))) hx]
  obtain ⟨s1, s2⟩ := IEEE.stableV hr (BitVec.ofInt 32 n) (by rw [ht]; exact hn) (by
    rw [ht]
    calc |(n : ℚ)| * real32 r = |real32 x| := by rw [h, abs_mul, abs_of_pos hr0]
      _ ≤ _ := hx1.trans (IEEE.zpow_le_of_le (by norm_num)))
  have hw : |real32 x| ≤ 2 ^ 29 * real32 r := by
    have hq : |(n : ℚ)| ≤ 2 ^ 29 := by
      have : |n| ≤ 2 ^ 29 := by omega
      exact_mod_cast this
    rw [h, abs_mul, abs_of_pos hr0]
    exact mul_le_mul_of_nonneg_right hq hr0.le
  have hne : ops.quantV r (ops.dequantV r (BitVec.ofInt 32 n)) ≠ BitVec.intMin 32 := by
    rw [s2]
    intro e
    have := congrArg BitVec.toInt e
    rw [ht] at this
    have h2 : (BitVec.intMin 32).toInt = -2 ^ 31 := by decide
    omega
  have ht := IEEE.throughV hr s1 hne
  rw [s2] at ht
  rw [memorylessV_through hr (IEEE.fin32_not_nan hx) (Or.inr ⟨hx, hx1, hw⟩), ← hv, ← ht]

/-- Doubles. -/
theorem C102_float64 (r : BitVec 32) (x : BitVec 64) (n : Int) (hr : GoodRes r) (hx : Finite64 x) (hn : |n| < 2 ^ 51)
    (h : Multiple n (real32 r) (real64 x)) : real64 (memoryless64 ops r x) = real64 x := by
  unfold Multiple at h
  have hr0 := lt_of_lt_of_le (IEEE.two_zpow_pos _) hr.2.1
  have hb := abs_lt.1 hn
  have ht : (BitVec.ofInt 64 n).toInt = n := IEEE.ofInt64_toInt (by omega) (by omega)
  have hw : |real64 x| ≤ 2 ^ 61 * real32 r := by
    have hq : |(n : ℚ)| ≤ 2 ^ 61 := by
      have : |n| ≤ 2 ^ 61 := by omega
      exact_mod_cast this
    rw [h, abs_mul, abs_of_pos hr0]
    exact mul_le_mul_of_nonneg_right hq hr0.le
  have hbig : |real64 x| ≤ 2 ^ (1023 : Int) := by
    refine hw.trans ((mul_le_mul_of_nonneg_left hr.2.2 (by positivity)).trans ?_)
    calc (2 : ℚ) ^ 61 * 2 ^ (125 : Int) = 2 ^ (186 : Int) := by norm_num
      _ ≤ _ := IEEE.zpow_le_of_le (by norm_num)
  have hv : real64 (ops.dequant64 r (BitVec.ofInt 64 n)) = real64 x := by
    rw [IEEE.dequant64_val hr, ht, rnd_int64 hn, ← h, rnd_real64 hbig hx]
  obtain ⟨s1, s2⟩ := IEEE.stable64 hr (BitVec.ofInt 64 n) (by rw [ht]; exact hn)
  rw [memoryless64_through hr (IEEE.fin64_not_nan hx) (Or.inr ⟨hx, hw⟩), ← hv, ← IEEE.through64 hr s1 s2]

/-- Only zero has two patterns. -/
theorem same_bits (F : IEEE.Fmt) {a b : Nat} (ha : a < 2 * F.sgn) (hb : b < 2 * F.sgn) (h : F.val a = F.val b) (h0 : F.val a ≠ 0) : a = b := by
  have ka : a = F.mag a + if F.neg a then F.sgn else 0 := by
    unfold IEEE.Fmt.mag IEEE.Fmt.neg
    by_cases hs : F.sgn ≤ a
    · simp only [hs, decide_true, if_true]
      rw [Nat.mod_eq_sub_mod hs, Nat.mod_eq_of_lt (by omega)]
      omega
    · simp only [hs, decide_false, Bool.false_eq_true, if_false]
      rw [Nat.mod_eq_of_lt (by omega)]
      rfl
  have kb : b = F.mag b + if F.neg b then F.sgn else 0 := by
    unfold IEEE.Fmt.mag IEEE.Fmt.neg
    by_cases hs : F.sgn ≤ b
    · simp only [hs, decide_true, if_true]
      rw [Nat.mod_eq_sub_mod hs, Nat.mod_eq_of_lt (by omega)]
      omega
    · simp only [hs, decide_false, Bool.false_eq_true, if_false]
      rw [Nat.mod_eq_of_lt (by omega)]
      rfl
  have pa := F.magVal_nonneg (F.mag a)
  have pb := F.magVal_nonneg (F.mag b)
  unfold IEEE.Fmt.val at h h0
  rw [ka, kb]
  cases hna : F.neg a <;> cases hnb : F.neg b <;> simp only [hna, hnb, if_true, Bool.false_eq_true, if_false] at h h0 ⊢
  · rw [FloatTxt.magVal_inj F h]
  · exact absurd (le_antisymm (by linarith) pa) h0
  · exact absurd (by linarith : -F.magVal (F.mag a) = 0) h0
  · rw [FloatTxt.magVal_inj F (neg_injective h)]

theorem same_bits32 {x y : BitVec 32} (h : real32 x = real32 y) (h0 : real32 x ≠ 0) : x = y := by
  rw [IEEE.real32_eq] at h h0
  rw [IEEE.real32_eq] at h
  exact BitVec.eq_of_toNat_eq (same_bits b32 x.isLt y.isLt h h0)

theorem same_bits64 {x y : BitVec 64} (h : real64 x = real64 y) (h0 : real64 x ≠ 0) : x = y := by
  rw [IEEE.real64_eq] at h h0
  rw [IEEE.real64_eq] at h
  exact BitVec.eq_of_toNat_eq (same_bits b64 x.isLt y.isLt h h0)

/-- **C102 (partial).** Encode any cloud within 2^29 steps (2^61 outside the leading group) with an encoder of any history and decode the result: every
number that is fewer than 2^22 (doubles: 2^51) whole steps of the resolution of its field comes back as the same number, and with the same bytes unless
it is zero (a negative zero comes back positive).  Missing: multiples of more steps, and what C18 leaves out. -/
theorem C102_cloud_partial (C : Compressor) (hC : C.Lawful) (info : EncodingInfo) (header : List Byte)
    (enc enc' : Encoder) (cloud out : List Byte) (room size fuel : Nat)
    (hinfo : SensibleInfo info) (hcloud : CloudWithin (2 ^ 29) (2 ^ 61) (2 ^ 61) info cloud) (hreach : Reach ops C info header enc)
    (henc : encodeView ops C enc cloud room false = .ok (enc', out, size))
    (h64 : FieldLimit info)
    (hlim : info.compression_opt = .none ∨ ChunksWithin ops enc cloud cloud.length)
    (hlz : info.compression_opt = .lz4 → cloud.length ≤ intMax)
    (hmagic : out.take 10 ≠ magic)
    (buf : List Byte) (hbuf : cloud.length ≤ buf.length) :
    ∃ buf', decodeCloud ops C fuel info out buf = .ok buf' ∧ buf'.length = buf.length ∧
      ∀ i, i < info.width.toNat * info.height.toNat →
      ∀ (k : Nat) (f : PointField) (r : BitVec 32), info.fields[k]? = some f → info.encoding_opt = .lossy → f.resolution = some r → ∀ n : Int,
        let old := cell cloud 0 info.point_step.toNat i f.offset.toNat (sizeOf f.type)
        let new := cell buf' 0 info.point_step.toNat i f.offset.toNat (sizeOf f.type)
        (f.type = .float32 → isNaN32 (asFloat old) = false → |n| < 2 ^ 22 → Multiple n (real32 r) (real32 (asFloat old)) →
          real32 (asFloat new) = real32 (asFloat old) ∧ (n ≠ 0 → asFloat new = asFloat old)) ∧
        (f.type = .float64 → isNaN64 (asDouble old) = false → |n| < 2 ^ 51 → Multiple n (real32 r) (real64 (asDouble old)) →
          real64 (asDouble new) = real64 (asDouble old) ∧ (n ≠ 0 → asDouble new = asDouble old)) := by
  obtain ⟨buf', d1, d2, d3⟩ := C18_cloud_roundtrip_partial ops C hC info header enc enc' cloud out room size fuel (sensible_valid hinfo)
    (within_valid hinfo hcloud) hreach henc h64 hlim hlz hmagic buf hbuf
  refine ⟨buf', d1, d2, ?_⟩
  intro i hi k f r hk ho hr n
  have hg := hinfo.resolution f (List.mem_of_getElem? hk) _ hr
  have hr0 := lt_of_lt_of_le (IEEE.two_zpow_pos _) hg.2.1
  have hne {q : ℚ} (h : Multiple n (real32 r) q) (h0 : n ≠ 0) : q ≠ 0 := by
    unfold Multiple at h
    rw [h]
    exact mul_ne_zero (by exact_mod_cast h0) hr0.ne'
  simp only
  rw [d3 i hi k f hk]
  obtain ⟨_, wi⟩ := hcloud.range i hi k f hk
  generalize cell cloud 0 info.point_step.toNat i f.offset.toNat (sizeOf f.type) = bi at wi ⊢
  clear d3
  unfold expected
  refine ⟨fun ht hn hsmall hm => ?_, fun ht hn hsmall hm => ?_⟩
  · simp only [ho, ht, hr]
    rw [asFloat_toLE]
    have e : real32 (if k < groupSize info then memorylessV ops r (asFloat bi) else memoryless32 ops r (asFloat bi)) = real32 (asFloat bi) := by
      rcases (wi ho _ hr).1 ht with w | ⟨a, b, _⟩
      · rw [hn] at w; cases w
      · split
        · exact C102_vector r _ n hg a b hsmall hm
        · exact C102_float32 r _ n hg a b hsmall hm
    exact ⟨e, fun h0 => same_bits32 e fun h => hne hm h0 (e.symm.trans h)⟩
  · simp only [ho, ht, hr]
    rw [asDouble_toLE]
    have e : real64 (memoryless64 ops r (asDouble bi)) = real64 (asDouble bi) := by
      rcases (wi ho _ hr).2 ht with w | ⟨a, _⟩
      · rw [hn] at w; cases w
      · exact C102_float64 r _ n hg a hsmall hm
    exact ⟨e, fun h0 => same_bits64 e fun h => hne hm h0 (e.symm.trans h)⟩

/-! ## Coordinates on a grid of 1/1024 m, intensities with a resolution of 1, times with one of half a second -/

def gridInfo : EncodingInfo :=
  { fields := [⟨[0x78#8], 0#32, .float32, some 0x3a800000#32⟩, ⟨[0x79#8], 4#32, .float32, some 0x3a800000#32⟩, ⟨[0x7a#8], 8#32, .float32, some 0x3a800000#32⟩,
               ⟨[0x6c#8], 12#32, .uint32, none⟩, ⟨[0x69#8], 16#32, .float32, some 0x3f800000#32⟩, ⟨[0x74#8], 20#32, .float64, some 0x3f000000#32⟩],
    width := 1#32, height := 1#32, point_step := 28#32, encoding_opt := .lossy, compression_opt := .none, version := 5#8 }

/-- (1.5, -1/1024, -0.0; 7; 255; 1700000000.5). -/
def gridCloud : List Byte :=
  toLE 4 0x3fc00000 ++ toLE 4 0xba800000 ++ toLE 4 0x80000000 ++ toLE 4 7 ++ toLE 4 0x437f0000 ++ toLE 8 0x41d954fc40200000

theorem grid_sensible : SensibleInfo gridInfo where
  step := by decide
  version := by decide
  option := by decide
  types := by decide
  inside := by decide
  disjoint := by decide
  resolution := by
    intro f hf r hr
    simp only [gridInfo, List.mem_cons, List.not_mem_nil, or_false] at hf
    rcases hf with rfl | rfl | rfl | rfl | rfl | rfl <;> simp at hr <;> subst hr <;> decide +kernel

theorem grid_within : CloudWithin (2 ^ 29) (2 ^ 61) (2 ^ 61) gridInfo gridCloud where
  size := by decide +kernel
  addressable := by decide +kernel
  range := by
    intro i hi k f hk
    have hi : i < 1 := hi
    have hlt : k < 6 := (List.getElem?_eq_some_iff.1 hk).1
    have h1 : i = 0 := by omega
    have h2 : k = 0 ∨ k = 1 ∨ k = 2 ∨ k = 3 ∨ k = 4 ∨ k = 5 := by omega
    subst h1
    rcases h2 with rfl | rfl | rfl | rfl | rfl | rfl <;>
      simp only [gridInfo, List.getElem?_cons_zero, List.getElem?_cons_succ, Option.some.injEq] at hk <;> subst hk <;>
      refine ⟨fun h => by simp at h, fun _ r hr => ?_⟩ <;> simp at hr <;> subst hr <;>
      refine ⟨fun h => ?_, fun h => ?_⟩ <;> first | (simp at h; done) | decide +kernel

def gridEnc : Encoder :=
  match mkEncoder ops gridInfo [] with
  | .ok e => e
  | _ => ⟨gridInfo, [], []⟩
def gridOut : Encoder × List Byte × Nat :=
  match encodeView ops storeComp gridEnc gridCloud 10000 false with
  | .ok r => r
  | _ => (gridEnc, [], 0)
theorem grid_encode : encodeView ops storeComp gridEnc gridCloud 10000 false = .ok (gridOut.1, gridOut.2.1, gridOut.2.2) := by decide +kernel

/-- The intensity, the second coordinate and the time come back with their bytes. -/
example : ∃ buf', decodeCloud ops storeComp 0 gridInfo gridOut.2.1 (List.replicate 28 0#8) = .ok buf' ∧
    asFloat (cell buf' 0 28 0 16 4) = 0x437f0000#32 ∧ asFloat (cell buf' 0 28 0 4 4) = 0xba800000#32 ∧ asDouble (cell buf' 0 28 0 20 8) = 0x41d954fc40200000#64 := by
  obtain ⟨buf', h1, _, h2⟩ := C102_cloud_partial storeComp storeComp_lawful gridInfo [] gridEnc gridOut.1 gridCloud gridOut.2.1 10000 gridOut.2.2 0
    grid_sensible grid_within (.fresh _ (by decide +kernel)) grid_encode (by decide) (Or.inl rfl) (fun h => by simp [gridInfo] at h) (by decide +kernel)
    (List.replicate 28 0#8) (by decide +kernel)
  have a := ((h2 0 (by decide) 4 _ _ rfl rfl rfl 255).1 rfl (by decide +kernel) (by decide) (by unfold Multiple; decide +kernel)).2 (by decide)
  have b := ((h2 0 (by decide) 1 _ _ rfl rfl rfl (-1)).1 rfl (by decide +kernel) (by decide) (by unfold Multiple; decide +kernel)).2 (by decide)
  have c := ((h2 0 (by decide) 5 _ _ rfl rfl rfl 3400000001).2 rfl (by decide +kernel) (by decide) (by unfold Multiple; decide +kernel)).2 (by decide)
  refine ⟨buf', h1, Eq.trans a ?_, Eq.trans b ?_, Eq.trans c ?_⟩ <;> decide +kernel

/-- A negative zero comes back as a zero, but positive. -/
example : memorylessV ops 0x3a800000#32 0x80000000#32 = 0#32 ∧ real32 0x80000000#32 = 0 := by decide +kernel

/-- **C102 needs a limit.** 671744 is 2^24 steps of 41/1024 and comes back as 2^24 - 1 steps, 671743.96, on both paths of floats (1/41 rounds down). -/
theorem C102_many_steps_fail :
    ¬ (∀ r x : BitVec 32, ∀ n : Int, GoodRes r → Finite32 x → |n| ≤ 2 ^ 24 → Multiple n (real32 r) (real32 x) → real32 (memorylessV ops r x) = real32 x) ∧
    ¬ (∀ r x : BitVec 32, ∀ n : Int, GoodRes r → Finite32 x → |n| ≤ 2 ^ 24 → Multiple n (real32 r) (real32 x) → real32 (memoryless32 ops r x) = real32 x) := by
  constructor
  · intro h
    have := h 0x3d240000#32 0x49240000#32 (2 ^ 24) (by decide +kernel) (by decide +kernel) (by decide) (by unfold Multiple; decide +kernel)
    revert this
    decide +kernel
  · intro h
    have := h 0x3d240000#32 0x49240000#32 (2 ^ 24) (by decide +kernel) (by decide +kernel) (by decide) (by unfold Multiple; decide +kernel)
    revert this
    decide +kernel

end Cloudini.Props
