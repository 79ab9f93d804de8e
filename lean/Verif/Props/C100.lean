import Verif.Lemmas.IEEELarge
import Verif.Lemmas.Coded
import Verif.Props.C99

/-!
# C100 Numbers too large for the resolution

C11 speaks of numbers that fit the integers of the codec.  Here: what becomes of the others, in IEEE arithmetic.
-/

namespace Cloudini.Props
open IEEE (ops b32)

/-- Infinite, or at least so many steps large. -/
def Beyond32 (steps : ℚ) (r x : BitVec 32) : Prop := isNaN32 x = false ∧ (Finite32 x → steps * real32 r ≤ |real32 x|)
def Beyond64 (steps : ℚ) (r : BitVec 32) (x : BitVec 64) : Prop := isNaN64 x = false ∧ (Finite64 x → steps * real32 r ≤ |real64 x|)

instance (s : ℚ) (r x : BitVec 32) : Decidable (Beyond32 s r x) := by unfold Beyond32; infer_instance

theorem beyond_none {r x : BitVec 32} (hr : GoodRes r) (h : Beyond32 (2 ^ 63 + 2 ^ 41) r x) : ops.quant32 r x = none := by
  by_cases hf : Finite32 x
  · exact IEEE.quant32_large hr hf (h.2 hf)
  · exact IEEE.quant32_inf hr h.1 hf

theorem beyond_none64 {r : BitVec 32} {x : BitVec 64} (hr : GoodRes r) (h : Beyond64 (2 ^ 63 + 2 ^ 12) r x) : ops.quant64 r x = none := by
  by_cases hf : Finite64 x
  · exact IEEE.quant64_large hr hf (h.2 hf)
  · exact IEEE.quant64_inf hr h.1 hf

/-- **C100, one value.** A number too large for the 64-bit integers has no defined conversion; one too large for the 32-bit integers of the leading
vector is delivered as a negative number of at least 2^30 steps, whatever its sign. -/
theorem C100_value (r : BitVec 32) (hr : GoodRes r) :
    (∀ x, Beyond32 (2 ^ 63 + 2 ^ 41) r x → ops.quant32 r x = none) ∧
    (∀ x, Beyond64 (2 ^ 63 + 2 ^ 12) r x → ops.quant64 r x = none) ∧
    (∀ x, real32 r ≤ 2 ^ (90 : Int) → Beyond32 (2 ^ 31 + 2 ^ 9) r x → real32 (memorylessV ops r x) ≤ -(2 ^ 30) * real32 r) := by
  refine ⟨fun x h => beyond_none hr h, fun x h => beyond_none64 hr h, fun x h2 h => ?_⟩
  have hq : ops.quantV r x = BitVec.intMin 32 := by
    by_cases hf : Finite32 x
    · exact IEEE.quantV_large hr hf (h.2 hf)
    · exact IEEE.quantV_inf hr h.1 hf
  unfold memorylessV
  rw [h.1, hq]
  exact IEEE.dequantV_intMin hr h2

theorem lossy32_of_reset {e0 : Enc} {o : Nat} {r : BitVec 32} (h : e0.reset = .lossy32 o r 0#64) : ∃ p, e0 = .lossy32 o r p := by
  cases e0 <;> simp_all [Enc.reset]
theorem lossy64_of_reset {e0 : Enc} {o : Nat} {r : BitVec 32} (h : e0.reset = .lossy64 o r 0#64) : ∃ p, e0 = .lossy64 o r p := by
  cases e0 <;> simp_all [Enc.reset]

theorem mem_drop_of {info : EncodingInfo} {k : Nat} {f : PointField} (hk : info.fields[k]? = some f) (hg : groupSize info ≤ k) :
    f ∈ info.fields.drop (leadingLossyFloatCount info) := by
  rw [groupSize_eq] at hg
  refine List.mem_of_getElem? (i := k - leadingLossyFloatCount info) ?_
  rw [List.getElem?_drop, show leadingLossyFloatCount info + (k - leadingLossyFloatCount info) = k by omega]
  exact hk

/-- **C100, outside the leading vector.** A LOSSY cloud in which one number of a float field with a resolution, outside the leading vector, is infinite
or of about 2^63 steps or more is never encoded: no call of `encode` on it succeeds, with whatever encoder, library and buffer (it runs into the
undefined conversion, or ends before for another reason). -/
theorem C100_never_encoded (C : Compressor) (info : EncodingInfo) (header : List Byte) (enc : Encoder) (cloud : List Byte) (room : Nat) (wh : Bool)
    (hreach : Reach ops C info header enc) (hopt : info.encoding_opt = .lossy)
    (i k : Nat) (f : PointField) (r : BitVec 32) (hi : i < cloud.length / info.point_step.toNat)
    (hk : info.fields[k]? = some f) (hg : groupSize info ≤ k) (hr : f.resolution = some r) (hgood : GoodRes r)
    (hbad : (f.type = .float32 ∧ Beyond32 (2 ^ 63 + 2 ^ 41) r (BitVec.ofNat 32 (fromLE (cell cloud 0 info.point_step.toNat i f.offset.toNat 4)))) ∨
      (f.type = .float64 ∧ Beyond64 (2 ^ 63 + 2 ^ 12) r (BitVec.ofNat 64 (fromLE (cell cloud 0 info.point_step.toNat i f.offset.toNat 8))))) :
    ∀ res, encodeView ops C enc cloud room wh ≠ .ok res := by
  rintro ⟨enc', out, size⟩ h
  obtain ⟨rfl, rfl, hused⟩ := reach_used hreach
  have hty : isAdaptiveType f.type = false := by rcases hbad with ⟨ht, _⟩ | ⟨ht, _⟩ <;> rw [ht] <;> rfl
  obtain ⟨e, hc, e0, res, hreset, hstep⟩ := encode_stepped ops C enc enc' cloud out room size wh hused hopt h i hi f (mem_drop_of hk hg) hty
  rcases hbad with ⟨ht, hb⟩ | ⟨ht, hb⟩
  · have he : e = .lossy32 f.offset.toNat r 0#64 := by
      simp only [createEncoder, ht, hr, hopt, if_true, mkLossy32Enc] at hc
      split at hc
      · simp at hc
      · simpa using hc.symm
    subst he
    obtain ⟨p, rfl⟩ := lossy32_of_reset hreset
    simp only [Enc.step, Res.bind_eq_ok] at hstep
    obtain ⟨bs, h1, h2⟩ := hstep
    rw [readAt_eq_ok] at h1
    rw [cell_eq_sub] at hb
    obtain ⟨_, rfl⟩ := h1
    have hn := beyond_none hgood hb
    unfold sub at hn hb
    rw [hb.1, hn] at h2
    simp at h2
  · have he : e = .lossy64 f.offset.toNat r 0#64 := by
      simp only [createEncoder, ht, hr, hopt, if_true, mkLossy64Enc] at hc
      split at hc
      · simp at hc
      · simpa using hc.symm
    subst he
    obtain ⟨p, rfl⟩ := lossy64_of_reset hreset
    simp only [Enc.step, Res.bind_eq_ok] at hstep
    obtain ⟨bs, h1, h2⟩ := hstep
    rw [readAt_eq_ok] at h1
    rw [cell_eq_sub] at hb
    obtain ⟨_, rfl⟩ := h1
    have hn := beyond_none64 hgood hb
    unfold sub at hn hb
    rw [hb.1, hn] at h2
    simp at h2

/-- **C100, what a successful `encode` says.** Every number of a float field with a resolution, outside the leading vector, was NaN or finite and of less
than 2^63 + 2^41 (2^63 + 2^12 for doubles) steps. -/
theorem C100_encoded_fits (C : Compressor) (info : EncodingInfo) (header : List Byte) (enc enc' : Encoder) (cloud out : List Byte) (room size : Nat)
    (wh : Bool) (hreach : Reach ops C info header enc) (hopt : info.encoding_opt = .lossy) (henc : encodeView ops C enc cloud room wh = .ok (enc', out, size))
    (i k : Nat) (f : PointField) (r : BitVec 32) (hi : i < cloud.length / info.point_step.toNat)
    (hk : info.fields[k]? = some f) (hg : groupSize info ≤ k) (hr : f.resolution = some r) (hgood : GoodRes r) :
    (f.type = .float32 → ∀ x, x = BitVec.ofNat 32 (fromLE (cell cloud 0 info.point_step.toNat i f.offset.toNat 4)) →
      isNaN32 x = true ∨ (Finite32 x ∧ |real32 x| < (2 ^ 63 + 2 ^ 41) * real32 r)) ∧
    (f.type = .float64 → ∀ x, x = BitVec.ofNat 64 (fromLE (cell cloud 0 info.point_step.toNat i f.offset.toNat 8)) →
      isNaN64 x = true ∨ (Finite64 x ∧ |real64 x| < (2 ^ 63 + 2 ^ 12) * real32 r)) := by
  have key := C100_never_encoded C info header enc cloud room wh hreach hopt i k f r hi hk hg hr hgood
  constructor
  · rintro ht x rfl
    by_contra hc
    rw [not_or, not_and, not_lt] at hc
    exact key (.inl ⟨ht, by simpa using hc.1, hc.2⟩) _ henc
  · rintro ht x rfl
    by_contra hc
    rw [not_or, not_and, not_lt] at hc
    exact key (.inr ⟨ht, by simpa using hc.1, hc.2⟩) _ henc

/-- A colour with alpha 255 and a red component below 128: `0xffRRGGBB`. -/
def OpaqueDark (x : BitVec 32) : Prop := 0xff000000 ≤ x.toNat ∧ x.toNat < 0xff800000

/-- **C99, the other opaque colours.** With a resolution of at most 2^63 an opaque colour with red below 128 is beyond both ranges: a cloud that holds one is
not encoded, or the colour comes back as a number (see `C100_never_encoded`, `C100_sign_lost_partial`). -/
theorem C99_colour_dark (r x : BitVec 32) (hr : GoodRes r) (hr2 : real32 r ≤ 2 ^ (63 : Int)) (h : OpaqueDark x) :
    Beyond32 (2 ^ 63 + 2 ^ 41) r x ∧ Beyond32 (2 ^ 31 + 2 ^ 9) r x ∧ ops.quant32 r x = none ∧ real32 (memorylessV ops r x) ≤ -(2 ^ 30) * real32 r := by
  obtain ⟨h1, h2⟩ := h
  have hr0 : 0 < real32 r := lt_of_lt_of_le (IEEE.two_zpow_pos _) hr.2.1
  have hs : x.toNat / 2 ^ 31 = 1 := by omega
  have he : x.toNat / 2 ^ 23 % 2 ^ 8 = 254 := by omega
  have hfin : Finite32 x := by unfold Finite32; omega
  have hval : (2 : ℚ) ^ (127 : Int) ≤ |real32 x| := by
    unfold real32
    simp only [hs, he]
    rw [if_neg (by decide), pow_one, neg_one_mul, abs_neg, abs_of_nonneg (by positivity)]
    have hm0 : (0 : ℚ) ≤ ((x.toNat % 2 ^ 23 : Nat) : ℚ) := Nat.cast_nonneg _
    calc (2 : ℚ) ^ (127 : Int) = 2 ^ 23 * 2 ^ (((254 : Nat) : Int) - 150) := by norm_num
      _ ≤ _ := mul_le_mul_of_nonneg_right (by linarith) (by positivity)
  have hn := IEEE.fin32_not_nan hfin
  have b1 : Beyond32 (2 ^ 63 + 2 ^ 41) r x := ⟨hn, fun _ => le_trans (mul_le_mul_of_nonneg_left hr2 (by norm_num)) (le_trans (by norm_num) hval)⟩
  have b2 : Beyond32 (2 ^ 31 + 2 ^ 9) r x := ⟨hn, fun _ => le_trans (mul_le_mul_of_nonneg_left hr2 (by norm_num)) (le_trans (by norm_num) hval)⟩
  exact ⟨b1, b2, (C100_value r hr).1 x b1, (C100_value r hr).2.2 x (hr2.trans (IEEE.zpow_le_of_le (by norm_num))) b2⟩

/-- Opaque dark green at a millimetre. -/
example : OpaqueDark 0xff008000#32 ∧ real32 (memorylessV ops 0x3a83126f#32 0xff008000#32) ≤ -1000000 :=
  ⟨⟨by decide, by decide⟩, (C99_colour_dark 0x3a83126f#32 _ milli_good.1 (by decide +kernel) ⟨by decide, by decide⟩).2.2.2.trans (by decide +kernel)⟩

/-- **C100, in the leading vector.** There `encode` and `decode` succeed, and the point comes back as a negative number of at least 2^30 steps, also if it was
positive.  (Clouds in which the differences of neighbouring points fit: `ValidCloud`.) -/
theorem C100_sign_lost_partial (C : Compressor) (hC : C.Lawful) (info : EncodingInfo) (header : List Byte)
    (enc enc' : Encoder) (cloud out : List Byte) (room size fuel : Nat)
    (hinfo : ValidInfo ops info) (hcloud : ValidCloud ops info cloud) (hreach : Reach ops C info header enc)
    (henc : encodeView ops C enc cloud room false = .ok (enc', out, size))
    (h64 : FieldLimit info)
    (hlim : info.compression_opt = .none ∨ ChunksWithin ops enc cloud cloud.length)
    (hlz : info.compression_opt = .lz4 → cloud.length ≤ intMax)
    (hmagic : out.take 10 ≠ magic)
    (buf : List Byte) (hbuf : cloud.length ≤ buf.length) :
    ∃ buf', decodeCloud ops C fuel info out buf = .ok buf' ∧
      ∀ i, i < info.width.toNat * info.height.toNat → ∀ k f r, info.fields[k]? = some f → k < groupSize info → info.encoding_opt = .lossy →
        f.type = .float32 → f.resolution = some r → GoodRes r → real32 r ≤ 2 ^ (90 : Int) →
        Beyond32 (2 ^ 31 + 2 ^ 9) r (colourOf info f cloud i) → real32 (colourOf info f buf' i) ≤ -(2 ^ 30) * real32 r := by
  obtain ⟨buf', h1, _, h2⟩ := C18_cloud_roundtrip_partial ops C hC info header enc enc' cloud out room size fuel hinfo hcloud hreach henc h64
    hlim hlz hmagic buf hbuf
  refine ⟨buf', h1, ?_⟩
  intro i hi k f r hk hg hl ht hr hgood h90 hb
  have he : colourOf info f buf' i = memorylessV ops r (colourOf info f cloud i) := by
    unfold colourOf
    rw [h2 i hi k f hk]
    unfold expected
    simp only [hl, ht, hr, if_pos hg]
    exact asFloat_toLE _
  rw [he]
  exact (C100_value r hgood).2.2 _ h90 hb

/-- Two lists of coordinates in millimetres; one is far away. -/
def farInfo : EncodingInfo :=
  { fields := [⟨[0x78#8], 0#32, .float32, some 0x3a83126f#32⟩, ⟨[0x79#8], 4#32, .float32, some 0x3a83126f#32⟩, ⟨[0x7a#8], 8#32, .float32, some 0x3a83126f#32⟩],
    width := 2#32, height := 1#32, point_step := 12#32, encoding_opt := .lossy, compression_opt := .none, version := 5#8 }

/-- (1, 2, 10^30) and (1, 2, infinity). -/
def farCloud : List Byte :=
  toLE 4 0x3f800000 ++ toLE 4 0x40000000 ++ toLE 4 0x7149f2ca ++ (toLE 4 0x3f800000 ++ toLE 4 0x40000000 ++ toLE 4 0x7f800000)

theorem far_sensible : SensibleInfo farInfo where
  step := by decide
  version := by decide
  option := by decide
  types := by decide
  inside := by decide
  disjoint := by decide
  resolution := by
    intro f hf r hr
    simp only [farInfo, List.mem_cons, List.not_mem_nil, or_false] at hf
    rcases hf with rfl | rfl | rfl <;> simp at hr <;> subst hr <;> exact milli_good.1

theorem far_cloud : ValidCloud ops farInfo farCloud where
  size := by decide +kernel
  addressable := by decide +kernel
  range := by
    intro i hi k f hk
    have hi : i < 2 := hi
    have hlt : k < 3 := (List.getElem?_eq_some_iff.1 hk).1
    have h1 : i = 0 ∨ i = 1 := by omega
    have h2 : k = 0 ∨ k = 1 ∨ k = 2 := by omega
    rcases h1 with rfl | rfl <;> rcases h2 with rfl | rfl | rfl <;>
      simp only [farInfo, List.getElem?_cons_zero, List.getElem?_cons_succ, Option.some.injEq] at hk <;> subst hk <;>
      refine Or.inr ?_ <;> rw [if_pos (by decide)] <;> decide +kernel

def farEnc : Encoder :=
  match mkEncoder ops farInfo [] with
  | .ok e => e
  | _ => ⟨farInfo, [], []⟩
theorem far_reach (C : Compressor) : Reach ops C farInfo [] farEnc := .fresh _ (by decide +kernel)
def farOut : Encoder × List Byte × Nat :=
  match encodeView ops storeComp farEnc farCloud 10000 false with
  | .ok r => r
  | _ => (farEnc, [], 0)
theorem far_encode : encodeView ops storeComp farEnc farCloud 10000 false = .ok (farOut.1, farOut.2.1, farOut.2.2) := by decide +kernel

/-- 10^30 metres come back as less than -1000 kilometres. -/
example : ∃ buf', decodeCloud ops storeComp 0 farInfo farOut.2.1 (List.replicate 24 0#8) = .ok buf' ∧
    real32 (colourOf farInfo ⟨[0x7a#8], 8#32, .float32, some 0x3a83126f#32⟩ buf' 0) ≤ -1000000 := by
  obtain ⟨buf', h1, h2⟩ := C100_sign_lost_partial storeComp storeComp_lawful farInfo [] farEnc farOut.1 farCloud farOut.2.1 10000 farOut.2.2 0
    (sensible_valid far_sensible) far_cloud (far_reach _) far_encode (by decide) (Or.inl rfl)
    (fun h => by simp [farInfo] at h) (by decide +kernel) (List.replicate 24 0#8) (by decide +kernel)
  refine ⟨buf', h1, (h2 0 (by decide) 2 _ _ rfl (by decide) rfl rfl rfl milli_good.1 (by decide +kernel) (by decide +kernel)).trans ?_⟩
  decide +kernel

/-- A time stamp of infinity with a resolution of a millisecond, any version. -/
def stampInfo (version : Byte) : EncodingInfo :=
  { fields := [⟨[0x74#8], 0#32, .float64, some 0x3a83126f#32⟩], width := 1#32, height := 1#32, point_step := 8#32, encoding_opt := .lossy,
    compression_opt := .none, version := version }

def stampEnc (version : Byte) : Encoder :=
  match mkEncoder ops (stampInfo version) [] with
  | .ok e => e
  | _ => ⟨stampInfo version, [], []⟩

example (room : Nat) : ∀ res, encodeView ops storeComp (stampEnc 4#8) (toLE 8 0x7ff0000000000000) room false ≠ .ok res :=
  C100_never_encoded storeComp (stampInfo 4#8) [] (stampEnc 4#8) _ room false (.fresh _ (by decide +kernel)) rfl 0 0 _ _ (by decide +kernel) rfl (by decide)
    rfl milli_good.1 (Or.inr ⟨rfl, by decide +kernel, fun h => absurd h (by decide +kernel)⟩)

def stampOut : Encoder × List Byte × Nat :=
  match encodeView ops storeComp (stampEnc 5#8) (toLE 8 0x41d954fc4007e5c9) 10000 false with
  | .ok r => r
  | _ => (stampEnc 5#8, [], 0)

/-- A time of the year 2023 is encoded (`C100_encoded_fits`). -/
theorem stamp_encode : encodeView ops storeComp (stampEnc 5#8) (toLE 8 0x41d954fc4007e5c9) 10000 false =
    .ok (stampOut.1, stampOut.2.1, stampOut.2.2) := by decide +kernel

example : Finite64 0x41d954fc4007e5c9#64 ∧ |real64 0x41d954fc4007e5c9#64| < (2 ^ 63 + 2 ^ 12) * real32 0x3a83126f#32 := by
  have h := (C100_encoded_fits storeComp (stampInfo 5#8) [] (stampEnc 5#8) stampOut.1 (toLE 8 0x41d954fc4007e5c9) stampOut.2.1 10000 stampOut.2.2 false
    (.fresh _ (by decide +kernel)) rfl stamp_encode 0 0 _ _ (by decide +kernel) rfl (by decide) rfl milli_good.1).2 rfl 0x41d954fc4007e5c9#64
    (by decide +kernel)
  exact h.resolve_left (by decide +kernel)

end Cloudini.Props
