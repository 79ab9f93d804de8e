import Verif.Lemmas.ScalarQuant
import Verif.Props.C21_C22

/-!
# C67: a file written on one kind of machine and read on another

`IEEE.ops` and `encodeView` are the library built with SSE4.1 (x86-64); `Scalar.ops` and `Scalar.encodeView` the library built
without (ARM, WebAssembly).
-/

namespace Cloudini.Props
open IEEE (b32)

/-- **C67, reading.** Both builds decode every byte string - also a damaged one - to the same result. -/
theorem C67_decode_same (C : Compressor) (fuel : Nat) (info : EncodingInfo) (data buf : List Byte) :
    decodeCloud IEEE.ops C fuel info data buf = decodeCloud Scalar.ops C fuel info data buf :=
  Scalar.decodeCloud_same Scalar.same C fuel info data buf

/-- Both accept the same descriptions. -/
theorem C67_construct_same (info : EncodingInfo) (header : List Byte) :
    mkEncoder IEEE.ops info header = mkEncoder Scalar.ops info header := Scalar.mkEncoder_same Scalar.sameEnc info header

theorem scalar_valid {info : EncodingInfo} (h : SensibleInfo info) : ValidInfo Scalar.ops info :=
  let v := sensible_valid h
  ⟨v.step, v.version, v.option, v.types, v.inside, v.disjoint, v.resolution⟩

theorem scalar_inRange {info : EncodingInfo} (hi : SensibleInfo info) {k : Nat} {f : PointField} (hk : info.fields[k]? = some f)
    {bs : List Byte} (h : WithinSteps (2 ^ 29) (2 ^ 61) (2 ^ 61) info k f bs) : InRange Scalar.ops info k f bs := by
  have h0 := within_inRange hi hk h
  obtain ⟨_, h2⟩ := h
  unfold InRange at h0 ⊢
  split at h0
  · trivial
  · exact h0
  · exact h0
  · rename_i ho ht hr
    have hg := hi.resolution f (List.mem_of_getElem? hk) _ hr
    by_cases hlt : k < groupSize info
    · rw [if_pos hlt]
      rcases (h2 ho _ hr).1 ht with hn | ⟨a, b, c⟩
      · exact Or.inl hn
      · rw [if_pos hlt] at c
        obtain ⟨n, q1, _, q3, _⟩ := Scalar.cycleS hg a b c
        right
        show Fits30 (Scalar.ops.quantV _ (asFloat bs))
        rw [Scalar.quantV_of q1]; exact q3
    · rw [if_neg hlt] at h0 ⊢; exact h0
  · exact h0
  · trivial

theorem scalar_validCloud {info : EncodingInfo} (hi : SensibleInfo info) {cloud : List Byte}
    (h : CloudWithin (2 ^ 29) (2 ^ 61) (2 ^ 61) info cloud) : ValidCloud Scalar.ops info cloud where
  size := h.size
  addressable := h.addressable
  range := follows_of_range fun i hlt k f hk => scalar_inRange hi hk (h.range i hlt k f hk)

theorem scalar_ok {C : Compressor} {enc : Encoder} {cloud : List Byte} {room : Nat} {wh : Bool} {r : Encoder × List Byte × Nat}
    (h : Scalar.encodeView C enc cloud room wh = .ok r) :
    encodeView Scalar.ops C enc cloud room wh = .ok r ∧ Scalar.cloudDefined enc.info cloud = true := by
  unfold Scalar.encodeView at h
  split at h
  · next r' h1 =>
    split at h
    · simp only [Res.ok.injEq] at h; subst h; exact ⟨h1, by assumption⟩
    · simp at h
  · next hno => exact absurd h (hno _)

/-- **C67, written without SSE, read with SSE (partial).** The promise of C11 holds across machines: every value read back is within half a
step plus rounding of the value written, every NaN is a NaN, every other field is bit-identical.  Missing: as for C11 and C18. -/
theorem C67_cross_partial (C : Compressor) (hC : C.Lawful) (info : EncodingInfo) (header : List Byte)
    (enc enc' : Encoder) (cloud out : List Byte) (room size fuel : Nat)
    (hinfo : SensibleInfo info) (hcloud : CloudWithin (2 ^ 29) (2 ^ 61) (2 ^ 61) info cloud) (hreach : Reach Scalar.ops C info header enc)
    (henc : Scalar.encodeView C enc cloud room false = .ok (enc', out, size))
    (h64 : FieldLimit info)
    (hlim : info.compression_opt = .none ∨ ChunksWithin Scalar.ops enc cloud cloud.length)
    (hlz : info.compression_opt = .lz4 → cloud.length ≤ intMax)
    (hmagic : out.take 10 ≠ magic)
    (buf : List Byte) (hbuf : cloud.length ≤ buf.length) :
    ∃ buf', decodeCloud IEEE.ops C fuel info out buf = .ok buf' ∧ buf'.length = buf.length ∧
      ∀ i, i < info.width.toNat * info.height.toNat → ∀ (k : Nat) (f : PointField), info.fields[k]? = some f →
        let old := cell cloud 0 info.point_step.toNat i f.offset.toNat (sizeOf f.type)
        let new := cell buf' 0 info.point_step.toNat i f.offset.toNat (sizeOf f.type)
        match info.encoding_opt, f.type, f.resolution with
        | .lossy, .float32, some r => Close32 r (asFloat old) (asFloat new)
        | .lossy, .float64, some r => Close64 r (asDouble old) (asDouble new)
        | _, _, _ => new = old := by
  obtain ⟨buf', d1, d2, d3⟩ := C18_cloud_roundtrip_partial Scalar.ops C hC info header enc enc' cloud out room size fuel (scalar_valid hinfo)
    (scalar_validCloud hinfo hcloud) hreach (scalar_ok henc).1 h64 hlim hlz hmagic buf hbuf
  refine ⟨buf', (C67_decode_same C fuel info out buf).trans d1, d2, ?_⟩
  intro i hi k f hk
  have hd := d3 i hi k f hk
  have hw := hcloud.range i hi k f hk
  simp only
  rw [hd]
  generalize cell cloud 0 info.point_step.toNat i f.offset.toNat (sizeOf f.type) = bs at hw ⊢
  clear hd d3
  unfold expected
  obtain ⟨w1, w2⟩ := hw
  split
  · rename_i ho ht hr
    have hg := hinfo.resolution f (List.mem_of_getElem? hk) _ hr
    simp only [ho, ht, hr]
    rw [asFloat_toLE]
    have w := (w2 ho _ hr).1 ht
    have hr0 := lt_of_lt_of_le (IEEE.two_zpow_pos _) hg.2.1
    refine ⟨fun hn => ?_, fun hn => ?_⟩
    · split
      · exact ((C10_nan_iff Scalar.ops _ _).2 (C10_finite_resolution _ hg.1).2.1).trans hn
      · exact ((C10_nan_iff Scalar.ops _ _).1 (C10_finite_resolution _ hg.1).1).trans hn
    · rcases w with w | ⟨a, b, c⟩
      · rw [w] at hn; simp at hn
      · split
        · next hlt => rw [if_pos hlt] at c; exact Scalar.close_scalar _ _ hg a b c
        · next hlt => rw [if_neg hlt] at c; exact C11_float32 _ _ hg a b c
  · rename_i ho ht hr
    have hg := hinfo.resolution f (List.mem_of_getElem? hk) _ hr
    simp only [ho, ht, hr]
    rw [asDouble_toLE]
    refine ⟨fun hn => ?_, fun hn => ?_⟩
    · exact (C10_nan_iff64 Scalar.ops _ _ (C10_finite_resolution _ hg.1).2.2).trans hn
    · rcases (w2 ho _ hr).2 ht with w | ⟨a, c⟩
      · rw [w] at hn; simp at hn
      · exact C11_float64 _ _ hg a c
  · rename_i hn1 hn2
    split
    · exact (hn1 _ (by assumption) (by assumption) (by assumption)).elim
    · exact (hn2 _ (by assumption) (by assumption) (by assumption)).elim
    · rfl

/-! ## Encoding without SSE is defined -/

/-- Every float of the leading group is finite, and - when the group has three fields - so is the float a fourth lane reads at the
beginning of each point. -/
structure GroupFinite (info : EncodingInfo) (cloud : List Byte) : Prop where
  lanes : ∀ i, i < info.width.toNat * info.height.toNat → ∀ k f, info.fields[k]? = some f → k < groupSize info →
    Finite32 (asFloat (cell cloud 0 info.point_step.toNat i f.offset.toNat (sizeOf f.type)))
  pad : groupSize info = 3 → ∀ i, i < info.width.toNat * info.height.toNat → Finite32 (asFloat (cell cloud 0 info.point_step.toNat i 0 4))

theorem floatAt_cell (cloud : List Byte) (step i off : Nat) :
    Scalar.floatAt cloud (i * step + off) = asFloat (cell cloud 0 step i off 4) := by
  unfold Scalar.floatAt f32At asFloat cell fieldBytes sub
  rw [Nat.zero_add]

theorem group_mem {info : EncodingInfo} {f : PointField} (h : f ∈ Scalar.group info) :
    ∃ k, info.fields[k]? = some f ∧ k < groupSize info := by
  unfold Scalar.group at h
  obtain ⟨k, hk⟩ := List.mem_iff_getElem?.1 h
  rw [List.getElem?_take] at hk
  split at hk
  · exact ⟨k, hk, by rw [groupSize_eq]; assumption⟩
  · simp at hk

theorem no_overflow30 {p q : BitVec 32} (hp : Fits30 p) (hq : Fits30 q) : BitVec.ssubOverflow q p = false := by
  unfold Fits30 at hp hq
  unfold BitVec.ssubOverflow
  simp only [Bool.or_eq_false_iff, decide_eq_false_iff_not]
  constructor <;> omega

theorem zero_product {x : BitVec 32} (hx : Finite32 x) : (Scalar.toI32 (b32.mul x.toNat 0)).isSome = true := by
  have hx' := (IEEE.fin32_iff x).2 hx
  have h0 : b32.isFin 0 = true := by decide +kernel
  have hv : b32.val 0 = 0 := by decide +kernel
  have hm : b32.isFin (b32.mul x.toNat 0) = true ∧ b32.val (b32.mul x.toNat 0) = 0 := by
    rw [b32.mul_eq hx' h0, hv, mul_zero]
    cases (b32.neg x.toNat != b32.neg 0) <;> decide +kernel
  unfold Scalar.toI32
  rw [hm.1, hm.2, if_pos (by decide +kernel)]
  rfl

/-- What `cloudDefined` comes down to for a cloud in range. -/
theorem scalar_defined {info : EncodingInfo} (hinfo : SensibleInfo info) {cloud : List Byte}
    (hcloud : CloudWithin (2 ^ 29) (2 ^ 61) (2 ^ 61) info cloud) (hfin : GroupFinite info cloud) : Scalar.cloudDefined info cloud = true := by
  have hpts : cloud.length / info.point_step.toNat = info.width.toNat * info.height.toNat := by
    rw [hcloud.size, Nat.mul_div_cancel _ hinfo.step]
  have lane : ∀ i, i < info.width.toNat * info.height.toNat → ∀ f ∈ Scalar.group info, ∃ q,
      Scalar.quant (f.resolution.getD 0#32) (Scalar.floatAt cloud (i * info.point_step.toNat + f.offset.toNat)) = some q ∧ Fits30 q := by
    intro i hi f hf
    obtain ⟨k, hk, hlt⟩ := group_mem hf
    obtain ⟨g1, g2, g3⟩ := group_type hk hlt
    obtain ⟨r, hr⟩ := Option.isSome_iff_exists.1 g3
    have hg := hinfo.resolution f (List.mem_of_getElem? hk) r hr
    have hw := ((hcloud.range i hi k f hk).2 g1 r hr).1 g2
    have hx := hfin.lanes i hi k f hk hlt
    rw [g2, show sizeOf FieldType.float32 = 4 from rfl] at hw hx
    rw [if_pos hlt] at hw
    rw [hr, floatAt_cell]
    rcases hw with hn | ⟨a, b, c⟩
    · rw [IEEE.fin32_not_nan hx] at hn; simp at hn
    · obtain ⟨n, q1, _, q3, _⟩ := Scalar.cycleS hg a b c
      exact ⟨_, q1, q3⟩
  unfold Scalar.cloudDefined
  rw [hpts]
  by_cases hemp : (Scalar.group info).isEmpty = true
  · rw [hemp]; rfl
  rw [Bool.or_eq_true]
  right
  rw [List.all_eq_true]
  intro i hi
  rw [List.mem_range] at hi
  rw [Bool.and_eq_true]
  constructor
  · unfold Scalar.padDefined
    split
    · next hlt =>
      have h3 : groupSize info = 3 := by
        have hl : (Scalar.group info).length ≤ groupSize info := by
          unfold Scalar.group; rw [List.length_take, groupSize_eq]; exact Nat.min_le_left _ _
        have hge : groupSize info = (Scalar.group info).length := by
          unfold Scalar.group
          rw [List.length_take, groupSize_eq]
          apply (Nat.min_eq_left _).symm
          rw [← groupSize_eq]
          unfold groupSize
          simp only
          split
          · exact (List.takeWhile_prefix _).length_le
          · exact Nat.zero_le _
        have hne : (Scalar.group info).length ≠ 0 := by
          intro hz
          exact hemp (by rw [List.length_eq_zero_iff.1 hz]; rfl)
        have : groupSize info = 3 ∨ groupSize info = 4 ∨ groupSize info = 0 := by
          unfold groupSize; simp only; split
          · next h => rcases h.2 with h | h <;> omega
          · omega
        omega
      have := hfin.pad h3 i hi
      rw [show i * info.point_step.toNat = i * info.point_step.toNat + 0 from rfl, floatAt_cell]
      exact zero_product this
    · rfl
  · rw [List.all_eq_true]
    intro f hf
    obtain ⟨q, hq, hqf⟩ := lane i hi f hf
    unfold Scalar.laneDefined
    rw [hq]
    simp only
    split
    · rfl
    · obtain ⟨p, hp, hpf⟩ := lane (i - 1) (by omega) f hf
      rw [hp]
      simp only [no_overflow30 hpf hqf, Bool.not_false]

/-- **C67, encoding without SSE is defined (partial).** Missing: NaN in the leading group (`C67_nan_undefined`) and values out of range. -/
theorem C67_defined_partial (C : Compressor) (info : EncodingInfo) (header : List Byte) (enc : Encoder)
    (hreach : Reach Scalar.ops C info header enc) (hinfo : SensibleInfo info) (h64 : FieldLimit info)
    (cloud : List Byte) (hcloud : CloudWithin (2 ^ 29) (2 ^ 61) (2 ^ 61) info cloud) (hfin : GroupFinite info cloud) (room : Nat) (wh : Bool)
    (k : UB) : Scalar.encodeView C enc cloud room wh ≠ .ub k := by
  have h1 := C21_no_ub Scalar.ops C info header enc hreach (scalar_valid hinfo) h64 cloud (scalar_validCloud hinfo hcloud) room wh
  obtain ⟨rfl, _, _⟩ := reach_used hreach
  have h2 := scalar_defined hinfo hcloud hfin
  unfold Scalar.encodeView
  cases h : encodeView Scalar.ops C enc cloud room wh with
  | ok r => simp only [h2, ↓reduceIte]; intro hc; cases hc
  | throw e => intro hc; cases hc
  | ub u => exact absurd h (h1 u)

/-- **C67 fails for NaN.** A point with a NaN among its leading coordinates - an ordinary "no return" of a lidar - makes encoding without SSE
undefined: the conversion to `int32_t` comes before the NaN test. -/
theorem C67_nan_undefined (C : Compressor) (enc : Encoder) (cloud : List Byte) (room : Nat) (wh : Bool) (i k : Nat) (f : PointField)
    (hi : i < cloud.length / enc.info.point_step.toNat) (hk : enc.info.fields[k]? = some f) (hlt : k < groupSize enc.info)
    (hnan : isNaN32 (asFloat (cell cloud 0 enc.info.point_step.toNat i f.offset.toNat 4)) = true) (r : Encoder × List Byte × Nat) :
    Scalar.encodeView C enc cloud room wh ≠ .ok r := by
  intro h
  have hd := (scalar_ok h).2
  have hf : f ∈ Scalar.group enc.info := by
    unfold Scalar.group
    rw [List.mem_iff_getElem?]
    exact ⟨k, by rw [List.getElem?_take, if_pos (by rw [← groupSize_eq]; exact hlt)]; exact hk⟩
  unfold Scalar.cloudDefined at hd
  rw [Bool.or_eq_true] at hd
  rcases hd with hd | hd
  · rw [List.isEmpty_iff.1 hd] at hf; simp at hf
  have h1 := List.all_eq_true.1 hd i (List.mem_range.2 hi)
  rw [Bool.and_eq_true] at h1
  have h2 := List.all_eq_true.1 h1.2 f hf
  unfold Scalar.laneDefined at h2
  have hq : Scalar.quant (f.resolution.getD 0#32) (Scalar.floatAt cloud (i * enc.info.point_step.toNat + f.offset.toNat)) = none := by
    rw [floatAt_cell]
    unfold Scalar.quant Scalar.toI32
    rw [nan32_iff] at hnan
    have hm : ∀ (x y : Nat), b32.isNaN x = true → b32.isFin (b32.mul x y) = false := by
      intro x y hx
      unfold IEEE.Fmt.mul
      rw [if_pos hx]
      have hx' : b32.inf < b32.mag x := by simpa [IEEE.Fmt.isNaN] using hx
      have : b32.inf < b32.mag (b32.quiet x) := by
        have e1 : b32.mag (b32.quiet x) = b32.mag x ||| 2 ^ 22 := by
          show (x ||| 2 ^ 22) % 2 ^ 31 = x % 2 ^ 31 ||| 2 ^ 22
          rw [Nat.or_mod_two_pow, Nat.mod_eq_of_lt (show 2 ^ 22 < 2 ^ 31 by norm_num)]
        rw [e1]
        exact Nat.lt_of_lt_of_le hx' Nat.left_le_or
      unfold IEEE.Fmt.isFin
      simp only [decide_eq_false_iff_not]
      omega
    rw [hm _ _ hnan, if_neg (by simp)]
  rw [hq] at h2
  simp at h2

/-- The number a build without SSE gets for a float `x` in steps of `r` is `q`: `p` is the float product, and `q` the integer nearest to it,
halves away from zero. -/
def RoundsTo (r x : BitVec 32) (q : Int) : Prop :=
  let p := b32.mul x.toNat (IEEE.multV r)
  b32.isFin p = true ∧ q = IEEE.roundAway (b32.val p)

/-- When the arithmetic of a build without SSE has a meaning for a cloud: every coordinate of the leading group becomes an `int32_t`, so does its
difference from the point before within a chunk of 32768 points, and with three coordinates the float at the beginning of the point is finite. -/
structure ScalarMeaning (info : EncodingInfo) (cloud : List Byte) : Prop where
  lanes : ∀ i, i < cloud.length / info.point_step.toNat → ∀ k f r, info.fields[k]? = some f → k < groupSize info → f.resolution = some r →
    ∃ q, RoundsTo r (asFloat (cell cloud 0 info.point_step.toNat i f.offset.toNat 4)) q ∧ -2 ^ 31 ≤ q ∧ q < 2 ^ 31
  steps : ∀ i, i + 1 < cloud.length / info.point_step.toNat → (i + 1) % 32768 ≠ 0 → ∀ k f r, info.fields[k]? = some f → k < groupSize info →
    f.resolution = some r → ∀ p q, RoundsTo r (asFloat (cell cloud 0 info.point_step.toNat i f.offset.toNat 4)) p →
      RoundsTo r (asFloat (cell cloud 0 info.point_step.toNat (i + 1) f.offset.toNat 4)) q → -2 ^ 31 ≤ q - p ∧ q - p < 2 ^ 31
  pad : groupSize info = 3 → ∀ i, i < cloud.length / info.point_step.toNat → Finite32 (asFloat (cell cloud 0 info.point_step.toNat i 0 4))

theorem rounds_iff (r x : BitVec 32) (q : BitVec 32) : Scalar.quant r x = some q ↔ RoundsTo r x q.toInt := by
  unfold Scalar.quant Scalar.toI32 RoundsTo
  simp only
  generalize b32.mul x.toNat (IEEE.multV r) = p
  generalize IEEE.roundAway (b32.val p) = v
  have h1 := q.toInt_lt
  have h2 := q.le_toInt
  constructor
  · intro h
    split at h
    · next hc =>
      simp only [Option.some.injEq] at h
      refine ⟨hc.1, ?_⟩
      rw [← h, BitVec.toInt_ofInt]
      apply Int.bmod_eq_of_le <;> omega
    · simp at h
  · rintro ⟨h3, rfl⟩
    rw [if_pos ⟨h3, by omega, by omega⟩, BitVec.ofInt_toInt]

theorem group_length (info : EncodingInfo) : (Scalar.group info).length = groupSize info := by
  unfold Scalar.group
  rw [List.length_take, groupSize_eq]
  apply Nat.min_eq_left
  rw [← groupSize_eq]
  unfold groupSize
  simp only
  split
  · exact (List.takeWhile_prefix _).length_le
  · exact Nat.zero_le _

theorem mem_group {info : EncodingInfo} {k : Nat} {f : PointField} (hk : info.fields[k]? = some f) (hlt : k < groupSize info) : f ∈ Scalar.group info := by
  unfold Scalar.group
  rw [List.mem_iff_getElem?]
  exact ⟨k, by rw [List.getElem?_take, if_pos (by rw [← groupSize_eq]; exact hlt)]; exact hk⟩

theorem zero_product_fin {x : BitVec 32} (h : (Scalar.toI32 (b32.mul x.toNat 0)).isSome = true) : Finite32 x := by
  rw [← IEEE.fin32_iff]
  cases hx : b32.isFin x.toNat with
  | true => rfl
  | false =>
    exfalso
    have hnf : b32.isFin (b32.mul x.toNat 0) = false := by
      unfold IEEE.Fmt.mul
      by_cases hn : b32.isNaN x.toNat = true
      · rw [if_pos hn]
        have hx' : b32.inf < b32.mag x.toNat := by simpa [IEEE.Fmt.isNaN] using hn
        have e1 : b32.mag (b32.quiet x.toNat) = b32.mag x.toNat ||| 2 ^ 22 := by
          show (x.toNat ||| 2 ^ 22) % 2 ^ 31 = x.toNat % 2 ^ 31 ||| 2 ^ 22
          rw [Nat.or_mod_two_pow, Nat.mod_eq_of_lt (show 2 ^ 22 < 2 ^ 31 by norm_num)]
        have : b32.inf < b32.mag (b32.quiet x.toNat) := by
          rw [e1]; exact Nat.lt_of_lt_of_le hx' Nat.left_le_or
        unfold IEEE.Fmt.isFin
        simp only [decide_eq_false_iff_not]
        omega
      · have hinf : b32.isInf x.toNat = true := by
          simp only [IEEE.Fmt.isNaN, IEEE.Fmt.isFin, decide_eq_true_eq, decide_eq_false_iff_not] at hn hx
          simp only [IEEE.Fmt.isInf, decide_eq_true_eq]
          omega
        rw [if_neg hn, if_neg (by decide), if_pos hinf]
        rw [if_pos (by decide)]
        decide
    unfold Scalar.toI32 at h
    rw [hnf, if_neg (by simp)] at h
    simp at h

/-- **C67, exactly when encoding without SSE is defined.** -/
theorem C67_meaning_iff (C : Compressor) (enc : Encoder) (cloud : List Byte) (room : Nat) (wh : Bool) (r : Encoder × List Byte × Nat)
    (h : encodeView Scalar.ops C enc cloud room wh = .ok r) :
    (ScalarMeaning enc.info cloud → Scalar.encodeView C enc cloud room wh = .ok r) ∧
    (¬ ScalarMeaning enc.info cloud → Scalar.encodeView C enc cloud room wh = .ub .conv) := by
  have hiff : Scalar.cloudDefined enc.info cloud = true ↔ ScalarMeaning enc.info cloud := by
    generalize enc.info = info
    constructor
    · intro hd
      unfold Scalar.cloudDefined at hd
      rw [Bool.or_eq_true] at hd
      have hnil : (Scalar.group info).isEmpty = true → groupSize info = 0 := by
        intro he
        rw [← group_length, List.isEmpty_iff.1 he]; rfl
      rcases hd with hd | hd
      · have := hnil hd
        exact ⟨fun i _ k f r _ hk => by omega, fun i _ _ k f r _ hk => by omega, fun h => by omega⟩
      have hall : ∀ i, i < cloud.length / info.point_step.toNat → Scalar.padDefined info cloud i = true ∧
          ∀ f ∈ Scalar.group info, Scalar.laneDefined info.point_step.toNat cloud i f = true := by
        intro i hi
        have h1 := List.all_eq_true.1 hd i (List.mem_range.2 hi)
        rw [Bool.and_eq_true] at h1
        exact ⟨h1.1, List.all_eq_true.1 h1.2⟩
      refine ⟨?_, ?_, ?_⟩
      · intro i hi k f r hk hlt hr
        have h2 := (hall i hi).2 f (mem_group hk hlt)
        unfold Scalar.laneDefined at h2
        rw [hr, floatAt_cell] at h2
        cases hq : Scalar.quant ((some r).getD 0#32) (asFloat (cell cloud 0 info.point_step.toNat i f.offset.toNat 4)) with
        | none => rw [hq] at h2; simp at h2
        | some q => exact ⟨q.toInt, (rounds_iff r _ q).1 hq, q.le_toInt, q.toInt_lt⟩
      · intro i hi hm k f r hk hlt hr p q hp hq
        have h2 := (hall (i + 1) hi).2 f (mem_group hk hlt)
        unfold Scalar.laneDefined at h2
        have hm' : ¬ (i + 1) % kPointsPerChunk = 0 := hm
        rw [hr, floatAt_cell, Nat.add_sub_cancel, floatAt_cell] at h2
        cases hq' : Scalar.quant ((some r).getD 0#32) (asFloat (cell cloud 0 info.point_step.toNat (i + 1) f.offset.toNat 4)) with
        | none => rw [hq'] at h2; simp at h2
        | some q' =>
          cases hp' : Scalar.quant ((some r).getD 0#32) (asFloat (cell cloud 0 info.point_step.toNat i f.offset.toNat 4)) with
          | none => rw [hq', hp'] at h2; simp only [if_neg hm'] at h2; simp at h2
          | some p' =>
            rw [hq', hp'] at h2
            simp only [if_neg hm'] at h2
            have a := ((rounds_iff r _ q').1 hq').2
            have b := ((rounds_iff r _ p').1 hp').2
            rw [hq.2, hp.2, ← a, ← b]
            simp only [BitVec.ssubOverflow, Bool.not_eq_true', Bool.or_eq_false_iff, decide_eq_false_iff_not] at h2
            omega
      · intro h3 i hi
        have h2 := (hall i hi).1
        unfold Scalar.padDefined at h2
        rw [if_pos (by rw [group_length]; omega), show i * info.point_step.toNat = i * info.point_step.toNat + 0 from rfl, floatAt_cell] at h2
        exact zero_product_fin h2
    · intro hm
      unfold Scalar.cloudDefined
      by_cases hemp : (Scalar.group info).isEmpty = true
      · rw [hemp]; rfl
      rw [Bool.or_eq_true]
      right
      have h34 : groupSize info = 3 ∨ groupSize info = 4 := by
        have hne : groupSize info ≠ 0 := by
          rw [← group_length]
          intro hz
          exact hemp (by rw [List.length_eq_zero_iff.1 hz]; rfl)
        unfold groupSize at hne ⊢
        simp only at hne ⊢
        split
        · next h => exact h.2
        · next h => rw [if_neg h] at hne; omega
      have lane : ∀ i, i < cloud.length / info.point_step.toNat → ∀ f ∈ Scalar.group info, ∃ r q, f.resolution = some r ∧
          Scalar.quant r (asFloat (cell cloud 0 info.point_step.toNat i f.offset.toNat 4)) = some q := by
        intro i hi f hf
        obtain ⟨k, hk, hlt⟩ := group_mem hf
        obtain ⟨r, hr⟩ := Option.isSome_iff_exists.1 (group_type hk hlt).2.2
        obtain ⟨q, hq, q1, q2⟩ := hm.lanes i hi k f r hk hlt hr
        refine ⟨r, BitVec.ofInt 32 q, hr, ?_⟩
        rw [rounds_iff, BitVec.toInt_ofInt, show q.bmod (2 ^ 32) = q from Int.bmod_eq_of_le (by omega) (by omega)]
        exact hq
      rw [List.all_eq_true]
      intro i hi
      rw [List.mem_range] at hi
      rw [Bool.and_eq_true]
      constructor
      · unfold Scalar.padDefined
        split
        · next hlt =>
          rw [group_length] at hlt
          rw [show i * info.point_step.toNat = i * info.point_step.toNat + 0 from rfl, floatAt_cell]
          exact zero_product (hm.pad (by omega) i hi)
        · rfl
      · rw [List.all_eq_true]
        intro f hf
        obtain ⟨r, q, hr, hq⟩ := lane i hi f hf
        unfold Scalar.laneDefined
        rw [hr, floatAt_cell, show (some r).getD 0#32 = r from rfl, hq]
        simp only
        split
        · rfl
        · next hmod =>
          obtain ⟨j, rfl⟩ : ∃ j, i = j + 1 := ⟨i - 1, by
            have : i ≠ 0 := fun h => hmod (by rw [h]; rfl)
            omega⟩
          obtain ⟨r', p, hr', hp⟩ := lane j (by omega) f hf
          rw [hr] at hr'
          simp only [Option.some.injEq] at hr'
          subst hr'
          rw [Nat.add_sub_cancel, floatAt_cell, hp]
          obtain ⟨k, hk, hlt⟩ := group_mem hf
          have := hm.steps j hi (by unfold kPointsPerChunk at hmod; exact hmod) k f r hk hlt hr _ _ ((rounds_iff _ _ _).1 hp) ((rounds_iff _ _ _).1 hq)
          simp only [BitVec.ssubOverflow, Bool.not_eq_true', Bool.or_eq_false_iff, decide_eq_false_iff_not]
          omega
  unfold Scalar.encodeView
  rw [h]
  simp only
  constructor
  · intro hm; rw [if_pos (hiff.2 hm)]
  · intro hm; rw [if_neg (fun hc => hm (hiff.1 hc))]

/-! ## The bytes -/

/-- The float product the encoder rounds is not halfway between two integers: for the float `m` nearest to `1/r` and the float `p` nearest to
`x * m`, `p + 1/2` is no integer. -/
def NoTie (r x : BitVec 32) : Prop :=
  ∀ m p : BitVec 32, Nearest32 m (1 / real32 r) → Nearest32 p (real32 x * real32 m) → ∀ n : Int, |(n : ℚ) - real32 p| ≠ 1 / 2

theorem rounds_unique {a b : Int} {q : ℚ} (ha : |(a : ℚ) - q| ≤ 1 / 2) (hb : |(b : ℚ) - q| ≤ 1 / 2) (hn : ∀ n : Int, |(n : ℚ) - q| ≠ 1 / 2) : a = b := by
  have h1 := lt_of_le_of_ne ha (hn a)
  have h2 := lt_of_le_of_ne hb (hn b)
  rw [abs_lt] at h1 h2
  have h3 : (a : ℚ) < b + 1 := by linarith
  have h4 : (b : ℚ) < a + 1 := by linarith
  have h5 : a < b + 1 := by exact_mod_cast h3
  have h6 : b < a + 1 := by exact_mod_cast h4
  omega

theorem quant_agree {r x : BitVec 32} (hr : GoodRes r) (hx : Finite32 x) (hx1 : |real32 x| ≤ 2 ^ (126 : Int)) (h : |real32 x| ≤ 2 ^ 29 * real32 r)
    (hn : NoTie r x) : IEEE.ops.quantV r x = Scalar.ops.quantV r x := by
  obtain ⟨r1, r2, r3, r4⟩ := IEEE.good_res hr
  obtain ⟨m1, m2, _⟩ := IEEE.multV_spec r1 (le_trans (IEEE.zpow_le_of_le (by norm_num)) r2) (r3.trans (IEEE.zpow_le_of_le (by norm_num)))
  have hx' := (IEEE.fin32_iff x).2 hx
  have hq0 : 0 < 1 / b32.val r.toNat := by positivity
  obtain ⟨d1, d2⟩ := recip_nearest32 hr
  have hh := h
  rw [IEEE.real32_eq x, IEEE.real32_eq r] at hh
  have hxb := product_bound r4 (by norm_num) hh (m2.trans (mul_le_mul_of_nonneg_right (by norm_num) hq0.le))
  have hxm : |b32.val x.toNat * b32.val (IEEE.multV r)| ≤ 2 ^ (127 : Int) := hxb.trans (by norm_num)
  obtain ⟨p1, p2⟩ := nearest32 (IEEE.Fmt.sign_mul (b32.val_sign x.toNat) (b32.val_sign (IEEE.multV r))) hxm
  rw [← b32.mul_eq hx' m1] at p1 p2
  have ht := hn (BitVec.ofNat 32 (IEEE.multV r)) (BitVec.ofNat 32 (b32.mul x.toNat (IEEE.multV r))) d1
    (by rw [IEEE.real32_eq, IEEE.real32_eq, d2]; exact p1)
  rw [IEEE.real32_eq, p2] at ht
  have hu : IEEE.roundEven (b32.val (b32.mul x.toNat (IEEE.multV r))) = IEEE.roundAway (b32.val (b32.mul x.toNat (IEEE.multV r))) :=
    rounds_unique (roundsEven _).1 (roundsAway _).1 ht
  obtain ⟨n, q1, _, q3, _⟩ := Scalar.cycleS hr hx hx1 h
  rw [Scalar.quantV_of q1]
  unfold Scalar.quant Scalar.toI32 at q1
  split at q1
  · next hc =>
    simp only [Option.some.injEq] at q1
    rw [← q1]
    exact IEEE.toI32_eq hc.1 hu hc.2.1 hc.2.2
  · simp at q1

/-- **C67, the bytes (partial).** If no value of the leading group is halfway between two steps, the two builds write the same bytes.
Missing: halfway values (`C67_bytes_differ`). -/
theorem C67_same_bytes_partial (C : Compressor) (info : EncodingInfo) (header : List Byte) (enc : Encoder)
    (hreach : Reach IEEE.ops C info header enc) (hinfo : SensibleInfo info)
    (cloud : List Byte) (hcloud : CloudWithin (2 ^ 29) (2 ^ 61) (2 ^ 61) info cloud) (hfin : GroupFinite info cloud)
    (htie : ∀ i, i < info.width.toNat * info.height.toNat → ∀ k f r, info.fields[k]? = some f → k < groupSize info → f.resolution = some r →
      NoTie r (asFloat (cell cloud 0 info.point_step.toNat i f.offset.toNat (sizeOf f.type))))
    (room : Nat) (wh : Bool) :
    encodeView IEEE.ops C enc cloud room wh = Scalar.encodeView C enc cloud room wh := by
  obtain ⟨rfl, _, hused⟩ := reach_used hreach
  have hpts : cloud.length / enc.info.point_step.toNat = enc.info.width.toNat * enc.info.height.toNat := by
    rw [hcloud.size, Nat.mul_div_cancel _ hinfo.step]
  have hkeys : usesV5 enc.info = true ∨ Scalar.allKeys enc.encs = Scalar.groupKeys enc.info := by
    rcases hused with h | ⟨es, h1, h2⟩
    · exact Or.inl h
    · right
      rw [← Scalar.allKeys_reset enc.encs, h2, Scalar.allKeys_reset, Scalar.v4_keys h1]
  have hsame : encodeView IEEE.ops C enc cloud room wh = encodeView Scalar.ops C enc cloud room wh := by
    apply Scalar.encodeView_agree Scalar.sameEnc C enc cloud room wh hkeys
    intro i hi key hkey
    rw [hpts] at hi
    unfold Scalar.groupKeys at hkey
    obtain ⟨f, hf, rfl⟩ := List.mem_map.1 hkey
    obtain ⟨k, hk, hlt⟩ := group_mem hf
    obtain ⟨g1, g2, g3⟩ := group_type hk hlt
    obtain ⟨r, hr⟩ := Option.isSome_iff_exists.1 g3
    have hg := hinfo.resolution f (List.mem_of_getElem? hk) r hr
    have hw := ((hcloud.range i hi k f hk).2 g1 r hr).1 g2
    have hx := hfin.lanes i hi k f hk hlt
    have hn := htie i hi k f r hk hlt hr
    rw [g2, show sizeOf FieldType.float32 = 4 from rfl] at hw hx hn
    rw [if_pos hlt] at hw
    have he : f32At (cloud.drop (i * enc.info.point_step.toNat)) f.offset.toNat = asFloat (cell cloud 0 enc.info.point_step.toNat i f.offset.toNat 4) := by
      rw [cell_eq_sub]; rfl
    right
    show IEEE.ops.quantV (f.resolution.getD 0#32) (f32At _ f.offset.toNat) = Scalar.ops.quantV (f.resolution.getD 0#32) (f32At _ f.offset.toNat)
    rw [he, hr]
    rcases hw with hnn | ⟨a, b, c⟩
    · rw [IEEE.fin32_not_nan hx] at hnn; simp at hnn
    · exact quant_agree hg a b c hn
  unfold Scalar.encodeView
  rw [← hsame, scalar_defined hinfo hcloud hfin]
  cases h : encodeView IEEE.ops C enc cloud room wh with
  | ok r => simp only [↓reduceIte]
  | throw e => rfl
  | ub u => rfl

/-! ## Examples -/

/-- Three coordinates in steps of one metre. -/
def metreInfo : EncodingInfo :=
  { fields := [{ name := [0x78#8], offset := 0#32, type := .float32, resolution := some 0x3f800000#32 },
               { name := [0x79#8], offset := 4#32, type := .float32, resolution := some 0x3f800000#32 },
               { name := [0x7a#8], offset := 8#32, type := .float32, resolution := some 0x3f800000#32 },
               { name := [0x69#8], offset := 12#32, type := .uint16 }],
    width := 2#32, height := 1#32, point_step := 14#32, encoding_opt := .lossy, compression_opt := .none, version := 5#8 }

/-- (3.25, -2.75, 7; 9) and (`x`, 1, 2; 9). -/
def metreCloud (x : Nat) : List Byte :=
  toLE 4 0x40500000 ++ toLE 4 0xc0300000 ++ toLE 4 0x40e00000 ++ toLE 2 9 ++ (toLE 4 x ++ toLE 4 0x3f800000 ++ toLE 4 0x40000000 ++ toLE 2 9)

def metreEnc : Encoder := ⟨metreInfo, [], []⟩
theorem metre_reach (F : FloatOps) (C : Compressor) (h : mkEncoder F metreInfo [] = .ok metreEnc) : Reach F C metreInfo [] metreEnc := .fresh _ h

theorem metre_sensible : SensibleInfo metreInfo where
  step := by decide
  version := by decide
  option := by decide
  types := by decide
  inside := by decide
  disjoint := by decide
  resolution := by
    intro f hf r hr
    simp only [metreInfo, List.mem_cons, List.not_mem_nil, or_false] at hf
    rcases hf with rfl | rfl | rfl | rfl <;> simp at hr <;> subst hr <;> decide +kernel

/-- 0.5 and 0.3 in the second point. -/
def halfCloud : List Byte := metreCloud 0x3f000000
def thirdCloud : List Byte := metreCloud 0x3e99999a

theorem metre_within (cloud : List Byte) (h : cloud = halfCloud ∨ cloud = thirdCloud) :
    CloudWithin (2 ^ 29) (2 ^ 61) (2 ^ 61) metreInfo cloud where
  size := by rcases h with rfl | rfl <;> decide +kernel
  addressable := by rcases h with rfl | rfl <;> decide +kernel
  range := by
    intro i hi k f hk
    have hi : i < 2 := hi
    have hlt : k < 4 := (List.getElem?_eq_some_iff.1 hk).1
    have h1 : i = 0 ∨ i = 1 := by omega
    have h2 : k = 0 ∨ k = 1 ∨ k = 2 ∨ k = 3 := by omega
    rcases h with rfl | rfl <;> rcases h1 with rfl | rfl <;> rcases h2 with rfl | rfl | rfl | rfl <;>
      simp only [metreInfo, List.getElem?_cons_zero, List.getElem?_cons_succ, Option.some.injEq] at hk <;> subst hk <;>
      refine ⟨fun h => by simp at h, fun _ r hr => ?_⟩ <;> simp at hr <;> subst hr <;>
      refine ⟨fun h => ?_, fun h => ?_⟩ <;> first | (simp at h; done) | decide +kernel

theorem metre_finite (cloud : List Byte) (h : cloud = halfCloud ∨ cloud = thirdCloud) : GroupFinite metreInfo cloud where
  lanes := by
    intro i hi k f hk hg
    have hi : i < 2 := hi
    have hlt : k < 3 := hg
    have h1 : i = 0 ∨ i = 1 := by omega
    have h2 : k = 0 ∨ k = 1 ∨ k = 2 := by omega
    rcases h with rfl | rfl <;> rcases h1 with rfl | rfl <;> rcases h2 with rfl | rfl | rfl <;>
      simp only [metreInfo, List.getElem?_cons_zero, List.getElem?_cons_succ, Option.some.injEq] at hk <;> subst hk <;> decide +kernel
  pad := by
    intro _ i hi
    have hi : i < 2 := hi
    have h1 : i = 0 ∨ i = 1 := by omega
    rcases h with rfl | rfl <;> rcases h1 with rfl | rfl <;> decide +kernel

/-- Encoded without SSE and decoded with SSE: `C67_cross_partial` applies, also to the halfway value. -/
def halfOut : List Byte :=
  match Scalar.encodeView storeComp metreEnc halfCloud 10000 false with
  | .ok r => r.2.1
  | _ => []
theorem half_encode : Scalar.encodeView storeComp metreEnc halfCloud 10000 false = .ok (metreEnc, halfOut, halfOut.length) := by decide +kernel

example : ∃ buf', decodeCloud IEEE.ops storeComp 0 metreInfo halfOut (List.replicate 28 0#8) = .ok buf' ∧ buf'.length = 28 := by
  obtain ⟨buf', h1, h2, _⟩ := C67_cross_partial storeComp storeComp_lawful metreInfo [] metreEnc metreEnc halfCloud halfOut 10000 halfOut.length 0
    metre_sensible (metre_within _ (Or.inl rfl)) (metre_reach _ _ (by decide +kernel)) half_encode (by decide) (Or.inl rfl)
    (fun h => by simp [metreInfo] at h) (by decide +kernel) (List.replicate 28 0#8) (by decide +kernel)
  exact ⟨buf', h1, by simpa using h2⟩

/-- **C67 fails for halfway values.** The same cloud, encoded by the two builds, gives different bytes: 0.5 becomes 0 with SSE (ties to even) and 1
without (`std::round`). -/
theorem C67_bytes_differ : ∃ (info : EncodingInfo) (cloud out out' : List Byte) (enc : Encoder) (n n' : Nat),
    SensibleInfo info ∧ CloudWithin (2 ^ 29) (2 ^ 61) (2 ^ 61) info cloud ∧ GroupFinite info cloud ∧
    mkEncoder IEEE.ops info [] = .ok enc ∧
    encodeView IEEE.ops storeComp enc cloud 10000 false = .ok (enc, out, n) ∧ Scalar.encodeView storeComp enc cloud 10000 false = .ok (enc, out', n') ∧
    out ≠ out' := by
  refine ⟨metreInfo, halfCloud, (match encodeView IEEE.ops storeComp metreEnc halfCloud 10000 false with | .ok r => r.2.1 | _ => []), halfOut, metreEnc,
    halfOut.length, halfOut.length, metre_sensible, metre_within _ (Or.inl rfl), metre_finite _ (Or.inl rfl), by decide +kernel, ?_, half_encode, ?_⟩ <;>
    decide +kernel

/-- The exact product of the example, to discharge `NoTie`: resolution 1 has reciprocal 1. -/
theorem noTie_one {x : BitVec 32} (hx : Finite32 x) (h : ∀ n : Int, |(n : ℚ) - real32 x| ≠ 1 / 2) : NoTie 0x3f800000#32 x := by
  intro m p hm hp
  have one : real32 0x3f800000#32 = 1 := by decide +kernel
  have m1 : real32 m = 1 := by
    have := (hm.2 0x3f800000#32 (by decide +kernel)).1
    rw [one] at this
    norm_num at this
    linarith
  have p1 : real32 p = real32 x := by
    have := (hp.2 x hx).1
    rw [m1, mul_one, sub_self, abs_zero] at this
    have := abs_nonpos_iff.1 this
    linarith
  rw [p1]; exact h

theorem not_half {x : ℚ} {a b : Int} (h1 : (a : ℚ) ≤ 2 * x) (h2 : 2 * x < b) (hab : b = a + 1) (h3 : a % 2 = 0 ∨ (a : ℚ) < 2 * x) (n : Int) : |(n : ℚ) - x| ≠ 1 / 2 := by
  intro h
  rcases abs_eq (by norm_num : (0 : ℚ) ≤ 1 / 2) |>.1 h with h | h
  · have h4 : 2 * x = ((2 * n - 1 : Int) : ℚ) := by push_cast; linarith
    rw [h4] at h1 h2 h3
    have h5 : a ≤ 2 * n - 1 := by exact_mod_cast h1
    have h6 : 2 * n - 1 < b := by exact_mod_cast h2
    rcases h3 with h3 | h3
    · omega
    · have h7 : a < 2 * n - 1 := by exact_mod_cast h3
      omega
  · have h4 : 2 * x = ((2 * n + 1 : Int) : ℚ) := by push_cast; linarith
    rw [h4] at h1 h2 h3
    have h5 : a ≤ 2 * n + 1 := by exact_mod_cast h1
    have h6 : 2 * n + 1 < b := by exact_mod_cast h2
    rcases h3 with h3 | h3
    · omega
    · have h7 : a < 2 * n + 1 := by exact_mod_cast h3
      omega

/-- The hypotheses of `C67_same_bytes_partial` and `C67_defined_partial`. -/
example : encodeView IEEE.ops storeComp metreEnc thirdCloud 10000 false = Scalar.encodeView storeComp metreEnc thirdCloud 10000 false := by
  refine C67_same_bytes_partial storeComp metreInfo [] metreEnc (metre_reach _ _ (by decide +kernel)) metre_sensible thirdCloud (metre_within _ (Or.inr rfl))
    (metre_finite _ (Or.inr rfl)) ?_ 10000 false
  intro i hi k f r hk hg hr
  have hi : i < 2 := hi
  have hlt : k < 3 := hg
  have h1 : i = 0 ∨ i = 1 := by omega
  have h2 : k = 0 ∨ k = 1 ∨ k = 2 := by omega
  rcases h1 with rfl | rfl <;> rcases h2 with rfl | rfl | rfl <;>
    simp only [metreInfo, List.getElem?_cons_zero, List.getElem?_cons_succ, Option.some.injEq] at hk <;> subst hk <;>
    simp only [Option.some.injEq] at hr <;> subst hr <;> refine noTie_one (by decide +kernel) ?_
  · exact not_half (a := 6) (b := 7) (by decide +kernel) (by decide +kernel) rfl (by decide +kernel)
  · exact not_half (a := -6) (b := -5) (by decide +kernel) (by decide +kernel) rfl (by decide +kernel)
  · exact not_half (a := 14) (b := 15) (by decide +kernel) (by decide +kernel) rfl (by decide +kernel)
  · exact not_half (a := 0) (b := 1) (by decide +kernel) (by decide +kernel) rfl (by decide +kernel)
  · exact not_half (a := 2) (b := 3) (by decide +kernel) (by decide +kernel) rfl (by decide +kernel)
  · exact not_half (a := 4) (b := 5) (by decide +kernel) (by decide +kernel) rfl (by decide +kernel)

example (k : UB) : Scalar.encodeView storeComp metreEnc thirdCloud 10000 true ≠ .ub k :=
  C67_defined_partial storeComp metreInfo [] metreEnc (metre_reach _ _ (by decide +kernel)) metre_sensible (by decide) thirdCloud (metre_within _ (Or.inr rfl))
    (metre_finite _ (Or.inr rfl)) 10000 true k

/-- A cloud with a NaN coordinate: fine with SSE, undefined without. -/
def nanOut : List Byte :=
  match encodeView IEEE.ops storeComp metreEnc (metreCloud 0x7fc00000) 10000 false with
  | .ok r => r.2.1
  | _ => []
example : encodeView IEEE.ops storeComp metreEnc (metreCloud 0x7fc00000) 10000 false = .ok (metreEnc, nanOut, nanOut.length) ∧
    Scalar.encodeView storeComp metreEnc (metreCloud 0x7fc00000) 10000 false = .ub .conv ∧
    isNaN32 (asFloat (cell (metreCloud 0x7fc00000) 0 14 1 0 4)) = true := by
  refine ⟨?_, ?_, ?_⟩ <;> decide +kernel

example (C : Compressor) (room : Nat) (r : Encoder × List Byte × Nat) : Scalar.encodeView C metreEnc (metreCloud 0x7fc00000) room false ≠ .ok r :=
  C67_nan_undefined C metreEnc (metreCloud 0x7fc00000) room false 1 0 (metreInfo.fields.getD 0 ⟨[], 0#32, .unknown, none⟩) (by decide +kernel) (by decide +kernel) (by decide +kernel)
    (by decide +kernel) r

/-- A tag in the first four bytes of the point, then three coordinates. -/
def tagInfo : EncodingInfo :=
  { metreInfo with fields := [{ name := [0x78#8], offset := 4#32, type := .float32, resolution := some 0x3f800000#32 },
               { name := [0x79#8], offset := 8#32, type := .float32, resolution := some 0x3f800000#32 },
               { name := [0x7a#8], offset := 12#32, type := .float32, resolution := some 0x3f800000#32 },
               { name := [0x69#8], offset := 0#32, type := .uint32 }], width := 1#32, point_step := 16#32 }
def tagCloud (tag : Nat) : List Byte := toLE 4 tag ++ toLE 4 0x40500000 ++ toLE 4 0xc0300000 ++ toLE 4 0x40e00000
def tagEnc : Encoder := ⟨tagInfo, [], []⟩
def tagOut (tag : Nat) : List Byte :=
  match encodeView Scalar.ops storeComp tagEnc (tagCloud tag) 10000 false with
  | .ok r => r.2.1
  | _ => []

/-- With the tag 4294967295, whose bits are a NaN, the unused fourth lane makes encoding undefined although all coordinates are small; with the
tag 7 it is defined. -/
example : Scalar.encodeView storeComp tagEnc (tagCloud 4294967295) 10000 false = .ub .conv := by
  refine (C67_meaning_iff storeComp tagEnc (tagCloud 4294967295) 10000 false (tagEnc, tagOut 4294967295, (tagOut 4294967295).length) (by decide +kernel)).2
    (fun h => ?_)
  have := h.pad (by decide +kernel) 0 (by decide +kernel)
  exact absurd this (by decide +kernel)
example : Scalar.encodeView storeComp tagEnc (tagCloud 7) 10000 false = .ok (tagEnc, tagOut 7, (tagOut 7).length) := by decide +kernel

end Cloudini.Props
