import Verif.Props.C68
import Verif.Props.C18_sizes
import Verif.Props.C51_C53

/-!
# C70: clouds of PCL points

`pointcloudEncode` and `pointcloudDecode` are `PointcloudEncode<PointT>` and `PointcloudDecode<PointT>` of `pcl_conversion.hpp` with the library's own
conversions between floats and text, and IEEE arithmetic.
-/

namespace Cloudini.Props

open Cloudini.Pcd
open FloatTxt (text)
open IEEE (b32 b64)

/-! ## The resolution -/

theorem narrow_val {res : BitVec 64} (h : Finite64 res) : IEEE.narrow res.toNat = b32.ofRat (b64.neg res.toNat) (b64.val res.toNat) := by
  have hf := (IEEE.fin64_iff res).2 h
  unfold IEEE.narrow
  simp [(b64.fin_not_nan hf).1, (b64.fin_not_nan hf).2]

/-- The conversion of a `double` resolution to the `float` that is stored. -/
theorem narrow_nearest {res : BitVec 64} (h : Finite64 res) (hb : |real64 res| ≤ 2 ^ (127 : Int)) :
    Nearest32 (BitVec.ofNat 32 (IEEE.narrow res.toNat)) (real64 res) := by
  rw [IEEE.real64_eq] at hb ⊢
  rw [narrow_val h]
  exact (nearest32 (b64.val_sign _) hb).1

theorem toNat_pos {res : BitVec 64} (h : Finite64 res) : (0 < res.toNat ∧ res.toNat ≤ 0x7FF0000000000000) ↔ 0 < real64 res := by
  have hl := res.isLt
  unfold Finite64 at h
  unfold real64
  simp only
  constructor
  · rintro ⟨h1, h2⟩
    have hs : res.toNat / 2 ^ 63 = 0 := by omega
    rw [hs, pow_zero, one_mul]
    split
    · have : 0 < res.toNat % 2 ^ 52 := by omega
      positivity
    · positivity
  · intro hp
    constructor
    · by_contra hc
      have : res.toNat = 0 := by omega
      rw [this] at hp
      simp at hp
    · by_contra hc
      have hs : res.toNat / 2 ^ 63 = 1 := by omega
      rw [hs, pow_one] at hp
      have : (0 : ℚ) ≤ (if res.toNat / 2 ^ 52 % 2 ^ 11 = 0 then ((res.toNat % 2 ^ 52 : Nat) : ℚ) * 2 ^ (-1074 : Int)
        else (2 ^ 52 + ((res.toNat % 2 ^ 52 : Nat) : ℚ)) * 2 ^ (((res.toNat / 2 ^ 52 % 2 ^ 11 : Nat) : Int) - 1075)) := by
        split <;> positivity
      linarith

/-- **C52, the resolution.** Of a `PCLPointCloud2` the fields get the float nearest to a resolution that is positive, and none if it is NaN, zero or negative.
An infinite resolution is passed on. -/
theorem C52_resolution (res : BitVec 64) :
    (isNaN64 res = true → resolution32 res = none) ∧
    (Finite64 res → real64 res ≤ 0 → resolution32 res = none) ∧
    (Finite64 res → 0 < real64 res → real64 res ≤ 2 ^ (127 : Int) → ∃ r, resolution32 res = some r ∧ Nearest32 r (real64 res)) ∧
    resolution32 0x7FF0000000000000#64 = some 0x7F800000#32 ∧ resolution32 0xFFF0000000000000#64 = none := by
  refine ⟨fun h => ?_, fun h hp => ?_, fun h hp hb => ?_, by decide +kernel, by decide +kernel⟩
  · unfold isNaN64 at h
    simp only [decide_eq_true_eq] at h
    unfold resolution32
    rw [if_neg (by omega)]
  · unfold resolution32
    rw [if_neg (by rw [toNat_pos h]; exact not_lt.2 hp)]
  · refine ⟨BitVec.ofNat 32 (IEEE.narrow res.toNat), ?_, narrow_nearest h (by rw [abs_of_pos hp]; exact hb)⟩
    unfold resolution32
    rw [if_pos ((toNat_pos h).2 hp)]

/-! ## Clouds of points -/

/-- The bytes of the number at byte `o` of point `i`. -/
def memberOf (t : PointT) (c : PointCloud) (i o : Nat) : List Byte := cell c.points 0 t.step.toNat i o 4

/-- A `double` resolution between 2^-124 and 2^124, and a cloud of `width * height` points (fewer than 2^32) whose coordinates are NaN or at most
2^28 resolution steps from 0. -/
structure GoodPoints (t : PointT) (c : PointCloud) (res : BitVec 64) : Prop where
  size : c.points.length = c.width.toNat * c.height.toNat * t.step.toNat
  count : c.width.toNat * c.height.toNat < 2 ^ 32
  finite : Finite64 res
  low : 2 ^ (-124 : Int) ≤ real64 res
  high : real64 res ≤ 2 ^ (124 : Int)
  range : ∀ i, i < c.width.toNat * c.height.toNat → ∀ o ∈ [0, 4, 8], isNaN32 (asFloat (memberOf t c i o)) = true ∨
    (Finite32 (asFloat (memberOf t c i o)) ∧ |real32 (asFloat (memberOf t c i o))| ≤ 2 ^ (126 : Int) ∧
      |real32 (asFloat (memberOf t c i o))| ≤ 2 ^ 28 * real64 res)

/-- `y` stands for the coordinate `x` after a trip: NaN for NaN; otherwise half a step and a few millionths away. -/
def Back (res : BitVec 64) (x y : BitVec 32) : Prop :=
  (isNaN32 x = true → isNaN32 y = true) ∧
  (isNaN32 x = false → Finite32 y ∧ |real32 y - real32 x| ≤ real64 res / 2 + 5 / 10 ^ 6 * real64 res + 7 / 10 ^ 6 * |real32 x|)

/-- The stored resolution. -/
def stored (res : BitVec 64) : BitVec 32 := BitVec.ofNat 32 (IEEE.narrow res.toNat)

theorem stored_good {res : BitVec 64} (h : Finite64 res) (h1 : 2 ^ (-124 : Int) ≤ real64 res) (h2 : real64 res ≤ 2 ^ (124 : Int)) :
    GoodRes (stored res) ∧ |real32 (stored res) - real64 res| ≤ 2 ^ (-24 : Int) * real64 res := by
  have hp : 0 < real64 res := lt_of_lt_of_le (by positivity) h1
  have hv := IEEE.real64_eq res
  have htop : (2 : ℚ) ^ (124 : Int) ≤ 2 ^ b32.top := by rw [IEEE.b32_top]; exact IEEE.zpow_le_of_le (by norm_num)
  obtain ⟨a, b⟩ := IEEE.narrow_spec ((IEEE.fin64_iff res).2 h) (by rw [← hv, abs_of_pos hp]; exact h2.trans htop)
    (by rw [← hv, abs_of_pos hp]; refine le_trans ?_ h1; exact IEEE.zpow_le_of_le (by decide))
  have ht : (stored res).toNat = IEEE.narrow res.toNat := by
    have := (nearest32 (s := b64.neg res.toNat) (q := b64.val res.toNat) (b64.val_sign _) (by
      rw [← hv, abs_of_pos hp]; exact h2.trans (IEEE.zpow_le_of_le (by norm_num)))).2
    rw [← narrow_val h] at this
    exact this
  have hu : b32.u = 2 ^ (-24 : Int) := by decide +kernel
  rw [hu, ← hv, abs_of_pos hp] at b
  have hr : real32 (stored res) = b32.val (IEEE.narrow res.toNat) := by rw [IEEE.real32_eq, ht]
  rw [← hr] at b
  have hc := abs_le.1 b
  refine ⟨⟨by rw [← IEEE.fin32_iff, ht]; exact a, ?_, ?_⟩, b⟩
  · have : (2 : ℚ) ^ (-124 : Int) = 2 * 2 ^ (-125 : Int) := by norm_num
    have hm : (2 : ℚ) ^ (-24 : Int) * real64 res ≤ 1 / 2 * real64 res := mul_le_mul_of_nonneg_right (by norm_num) hp.le
    rw [this] at h1
    obtain ⟨hc, _⟩ := hc
    generalize (2 : ℚ) ^ (-24 : Int) * real64 res = d at hc hm
    generalize (2 : ℚ) ^ (-125 : Int) = e at h1 ⊢
    linarith
  · have : (2 : ℚ) ^ (125 : Int) = 2 * 2 ^ (124 : Int) := by norm_num
    have hm : (2 : ℚ) ^ (-24 : Int) * real64 res ≤ 1 * real64 res := mul_le_mul_of_nonneg_right (by norm_num) hp.le
    linarith [hc.2]

/-- What the encoder is told about a cloud. -/
def pointInfo (t : PointT) (c : PointCloud) (res : BitVec 64) : EncodingInfo := pointXYZ c.width c.height t.step t.intensity res

theorem point_fields (t : PointT) (c : PointCloud) (res : BitVec 64) (f : PointField) (hf : f ∈ (pointInfo t c res).fields) :
    f.type = .float32 ∧ ((f.offset ∈ [0#32, 4#32, 8#32] ∧ f.resolution = some (stored res)) ∨ (t = .xyzi ∧ f.offset = 16#32 ∧ f.resolution = none)) ∧
    f.name ∈ [ascii "x", ascii "y", ascii "z", ascii "intensity"] := by
  cases t <;> simp only [pointInfo, pointXYZ, PointT.intensity, List.cons_append, List.nil_append, List.mem_cons, List.not_mem_nil, or_false] at hf
  · rcases hf with rfl | rfl | rfl <;> simp [stored]
  · rcases hf with rfl | rfl | rfl | rfl <;> simp [stored]

theorem point_group (t : PointT) (c : PointCloud) (res : BitVec 64) : groupSize (pointInfo t c res) = 3 := by
  cases t <;> rfl

theorem point_storable (t : PointT) (c : PointCloud) (res : BitVec 64) (h : GoodPoints t c res) : StorableCloud (pointInfo t c res) c.points := by
  obtain ⟨g1, g2⟩ := stored_good h.finite h.low h.high
  have hp : 0 < real64 res := lt_of_lt_of_le (by positivity) h.low
  have hstep : t.step.toNat = 16 ∨ t.step.toNat = 32 := by cases t <;> simp [PointT.step]
  have hnames : ∀ s : List Byte, s ∈ [ascii "x", ascii "y", ascii "z", ascii "intensity"] → HeaderText s := by
    intro s hs
    refine ⟨⟨?_, ?_, ?_, ?_, ?_⟩, ?_⟩ <;> revert s <;> decide +kernel
  refine ⟨⟨?_, ?_, Or.inr (Or.inl rfl), ?_, ?_, ?_, ?_⟩, ⟨h.size, ?_, ?_⟩, ?_, ?_, Or.inr (Or.inr rfl), Or.inl rfl, ?_, ?_⟩
  · change 0 < t.step.toNat; omega
  · change 3 ≤ (5#8 : BitVec 8).toNat; decide
  · intro f hf
    rw [(point_fields t c res f hf).1]; simp
  · intro f hf
    change f.offset.toNat + sizeOf f.type ≤ t.step.toNat
    obtain ⟨h1, h2, _⟩ := point_fields t c res f hf
    rw [h1]
    rcases h2 with ⟨h2, _⟩ | ⟨rfl, h2, _⟩
    · simp only [List.mem_cons, List.not_mem_nil, or_false] at h2
      rcases h2 with h2 | h2 | h2 <;> rw [h2] <;> rcases hstep with hs | hs <;> rw [hs] <;> decide
    · rw [h2]; decide
  · cases t <;> simp [pointInfo, pointXYZ, PointT.intensity, Disjoint, sizeOf]
  · intro f hf r hr
    obtain ⟨_, h2, _⟩ := point_fields t c res f hf
    rcases h2 with ⟨_, h2⟩ | ⟨_, _, h2⟩
    · rw [h2] at hr; simp only [Option.some.injEq] at hr; subst hr; exact g1
    · rw [h2] at hr; simp at hr
  · have := h.count
    rw [h.size]
    rcases hstep with hs | hs <;> rw [hs] <;> omega
  · intro i hi k f hk
    obtain ⟨h1, h2, _⟩ := point_fields t c res f (List.mem_of_getElem? hk)
    refine ⟨fun hx => by rw [h1] at hx; simp at hx, fun _ r hr => ⟨fun _ => ?_, fun hx => by rw [h1] at hx; simp at hx⟩⟩
    rcases h2 with ⟨h2, h3⟩ | ⟨_, _, h2⟩
    · rw [h3] at hr
      simp only [Option.some.injEq] at hr
      subst hr
      have ho : f.offset.toNat ∈ [0, 4, 8] := by
        simp only [List.mem_cons, List.not_mem_nil, or_false] at h2
        rcases h2 with h2 | h2 | h2 <;> rw [h2] <;> decide
      have hs : sizeOf f.type = 4 := by rw [h1]; rfl
      rw [hs]
      rcases h.range i hi _ ho with hn | ⟨a1, a2, a3⟩
      · exact Or.inl hn
      · refine Or.inr ⟨a1, a2, a3.trans ?_⟩
        have hc := abs_le.1 g2
        have hm : (2 : ℚ) ^ (-24 : Int) * real64 res ≤ 1 / 2 * real64 res := mul_le_mul_of_nonneg_right (by norm_num) hp.le
        have hb : (2 : ℚ) ^ 29 ≤ 2 ^ 61 := by norm_num
        have hlow : real64 res / 2 ≤ real32 (stored res) := by
          obtain ⟨hc, _⟩ := hc
          generalize (2 : ℚ) ^ (-24 : Int) * real64 res = d at hc hm
          linarith
        have hmul : (2 : ℚ) ^ 28 * real64 res ≤ 2 ^ 29 * real32 (stored res) := by
          have : (2 : ℚ) ^ 29 = 2 * 2 ^ 28 := by norm_num
          rw [this]
          nlinarith
        split
        · exact hmul
        · refine hmul.trans ?_
          exact mul_le_mul_of_nonneg_right hb (by linarith)
    · rw [h2] at hr; simp at hr
  · refine (fun _ _ => ?_ : FieldLimit _)
    cases t <;> simp [pointInfo, pointXYZ, PointT.intensity]
  · change (5#8 : BitVec 8).toNat ≤ 5; decide
  · intro f hf
    exact hnames _ (point_fields t c res f hf).2.2
  · intro hx; cases hx

/-! ## Round trips -/

/-- The description a reader finds in the file. -/
def readInfo (t : PointT) (c : PointCloud) (res : BitVec 64) : EncodingInfo :=
  { pointInfo t c res with fields := (pointInfo t c res).fields.map fun f => { f with resolution := f.resolution.map readBack } }

/-- Types into which a file with points of type `t` is decoded field by field. -/
theorem point_remap (t t' : PointT) (c : PointCloud) (res res' : BitVec 64) (w h : BitVec 32) (ht : t' = t ∨ t = .xyz) :
    remapFields (pointXYZ w h t'.step t'.intensity res').fields (readInfo t c res).fields = .ok (readInfo t c res).fields := by
  have n1 : ascii "x" ≠ ascii "y" := by decide
  have n2 : ascii "x" ≠ ascii "z" := by decide
  have n3 : ascii "y" ≠ ascii "z" := by decide
  have n4 : ascii "x" ≠ ascii "intensity" := by decide
  have n5 : ascii "y" ≠ ascii "intensity" := by decide
  have n6 : ascii "z" ≠ ascii "intensity" := by decide
  cases t <;> cases t'
  · simp [readInfo, pointInfo, pointXYZ, PointT.intensity, remapFields, remapField, List.find?_cons, n1, n2, n3]
  · simp [readInfo, pointInfo, pointXYZ, PointT.intensity, remapFields, remapField, List.find?_cons, n1, n2, n3]
  · simp at ht
  · simp [readInfo, pointInfo, pointXYZ, PointT.intensity, remapFields, remapField, List.find?_cons, n1, n2, n3, n4, n5, n6]

theorem back_of {res : BitVec 64} (h : Finite64 res) (h1 : 2 ^ (-124 : Int) ≤ real64 res) (h2 : real64 res ≤ 2 ^ (124 : Int)) {x y : BitVec 32}
    (hl : Loose32 (stored res) x y) : Back res x y := by
  obtain ⟨_, g⟩ := stored_good h h1 h2
  have hp : 0 < real64 res := lt_of_lt_of_le (by positivity) h1
  refine ⟨hl.1, fun hn => ⟨(hl.2 hn).1, (hl.2 hn).2.trans ?_⟩⟩
  have hc := (abs_le.1 g).2
  have hm : (2 : ℚ) ^ (-24 : Int) * real64 res ≤ 1 / 10 ^ 6 * real64 res := mul_le_mul_of_nonneg_right (by norm_num) hp.le
  have hr : real32 (stored res) ≤ real64 res + 1 / 10 ^ 6 * real64 res := by
    generalize (2 : ℚ) ^ (-24 : Int) * real64 res = d at hc hm
    linarith
  linarith

theorem point_core (C : Compressor) (hC : C.Lawful) (t : PointT) (c : PointCloud) (res : BitVec 64) (good : GoodPoints t c res) (bytes : List Byte)
    (e : pointcloudEncode text IEEE.ops C t c res = .ok bytes) (hsz : bytes.length < 1431260227) :
    ∃ payload, decodeHeader text bytes = .ok (readInfo t c res, payload) ∧
      ∀ fuel buf, c.points.length ≤ buf.length → buf.length < 2 ^ 64 → ∃ buf', decodeCloud IEEE.ops C fuel (readInfo t c res) payload buf = .ok buf' ∧
        buf'.length = buf.length ∧
        (∀ i, i < c.width.toNat * c.height.toNat → ∀ o ∈ [0, 4, 8],
          Back res (asFloat (memberOf t c i o)) (asFloat (cell buf' 0 t.step.toNat i o 4))) ∧
        (t = .xyzi → ∀ i, i < c.width.toNat * c.height.toNat → cell buf' 0 32 i 16 4 = memberOf t c i 16) ∧
        ∀ p, (∀ i, i < c.width.toNat * c.height.toNat → p < i * t.step.toNat ∨ i * t.step.toNat + 12 ≤ p) →
          (t = .xyzi → ∀ i, i < c.width.toNat * c.height.toNat → p < i * 32 + 16 ∨ i * 32 + 20 ≤ p) → buf'[p]? = buf[p]? := by
  unfold pointcloudEncode encodeData at e
  obtain ⟨enc, e1, e⟩ := Res.bind_eq_ok.1 e
  obtain ⟨⟨enc', out, n⟩, e2, e⟩ := Res.bind_eq_ok.1 e
  simp only [Res.ok.injEq] at e
  subst e
  have ok := point_storable t c res good
  have hfit : ChunksWithin IEEE.ops enc c.points c.points.length := by
    apply C18_short_points IEEE.ops C (pointInfo t c res) (encodeHeaderYaml text (pointInfo t c res)) enc c.points (.fresh enc e1)
    · refine Or.inr (Or.inr fun f hf => ?_)
      rw [(point_fields t c res f hf).1]; simp
    · cases t <;> simp [pointInfo, pointXYZ, PointT.intensity, PointT.step, longest, groupSize, List.mapIdx_cons]
  obtain ⟨payload, d1, _, d2⟩ := C68_any_resolution_partial C hC (pointInfo t c res) c.points ok enc enc' _ n out e1 e2 (Or.inr hfit) hsz
  refine ⟨payload, d1, fun fuel buf hb hb64 => ?_⟩
  obtain ⟨buf', f1, f2, f3⟩ := d2 fuel buf hb
  refine ⟨buf', f1, f2, fun i hi o ho => ?_, fun hx i hi => ?_, fun p hp hq => ?_⟩
  · apply back_of good.finite good.low good.high
    simp only [List.mem_cons, List.not_mem_nil, or_false] at ho
    have h0 : (pointInfo t c res).fields[0]? = some ⟨ascii "x", 0#32, .float32, some (stored res)⟩ := by cases t <;> rfl
    have h4 : (pointInfo t c res).fields[1]? = some ⟨ascii "y", 4#32, .float32, some (stored res)⟩ := by cases t <;> rfl
    have h8 : (pointInfo t c res).fields[2]? = some ⟨ascii "z", 8#32, .float32, some (stored res)⟩ := by cases t <;> rfl
    rcases ho with rfl | rfl | rfl
    · exact f3 i hi 0 _ h0
    · exact f3 i hi 1 _ h4
    · exact f3 i hi 2 _ h8
  · subst hx
    exact f3 i hi 3 ⟨ascii "intensity", 16#32, .float32, none⟩ rfl
  · refine (C19_untouched IEEE.ops C (readInfo t c res) payload buf buf' fuel ?_ ?_ hb64 f1).2 p ?_
    · change 0 < t.step.toNat
      cases t <;> decide
    · change 3 ≤ (5#8 : BitVec 8).toNat; decide
    · rintro ⟨i, hi, f, hf, q1, q2⟩
      change i < c.width.toNat * c.height.toNat at hi
      change i * t.step.toNat + f.offset.toNat ≤ p at q1
      change p < i * t.step.toNat + f.offset.toNat + sizeOf f.type at q2
      obtain ⟨g, hg, rfl⟩ := List.mem_map.1 (show f ∈ (pointInfo t c res).fields.map fun f => { f with resolution := f.resolution.map readBack } from hf)
      obtain ⟨a1, a2, _⟩ := point_fields t c res g hg
      simp only [a1, sizeOf] at q1 q2
      rcases a2 with ⟨a2, _⟩ | ⟨rfl, a2, _⟩
      · have := hp i hi
        simp only [List.mem_cons, List.not_mem_nil, or_false] at a2
        rcases a2 with a2 | a2 | a2 <;> rw [a2] at q1 q2 <;> simp at q1 q2 <;> omega
      · have := hq rfl i hi
        rw [a2] at q1 q2
        simp [PointT.step] at q1 q2
        omega

theorem resize_length (old fresh : List Byte) (n s : Nat) (hs : 0 < s) (hf : fresh.length = s) (ho : old.length % s = 0) :
    (resizePoints old fresh n).length = n * s := by
  unfold resizePoints
  rw [List.length_append, List.length_take, List.length_flatten, List.map_replicate, List.sum_replicate_nat, hf]
  obtain ⟨k, hk⟩ := Nat.dvd_of_mod_eq_zero ho
  rw [hk, Nat.mul_div_cancel_left _ hs, Nat.mul_comm s k]
  rcases Nat.le_total n k with h | h
  · have := Nat.mul_le_mul_right s h
    rw [Nat.min_eq_left this, Nat.sub_eq_zero_of_le h]
    simp
  · have := Nat.mul_le_mul_right s h
    rw [Nat.min_eq_right this, Nat.sub_mul]
    omega

theorem flatten_get (l : List Byte) (hl : 0 < l.length) (k p : Nat) (hp : p < k * l.length) : (List.replicate k l).flatten[p]? = l[p % l.length]? := by
  induction k generalizing p with
  | zero => omega
  | succ k ih =>
    rw [List.replicate_succ, List.flatten_cons]
    by_cases h : p < l.length
    · rw [List.getElem?_append_left h, Nat.mod_eq_of_lt h]
    · rw [List.getElem?_append_right (by omega), ih _ (by rw [Nat.succ_mul] at hp; omega)]
      rw [Nat.mod_eq_sub_mod (by omega : p ≥ l.length)]

theorem resize_get (old fresh : List Byte) (n s : Nat) (hs : 0 < s) (hf : fresh.length = s) (ho : old.length % s = 0) (p : Nat) (hp : p < n * s) :
    (resizePoints old fresh n)[p]? = if p < old.length then old[p]? else fresh[p % s]? := by
  unfold resizePoints
  obtain ⟨k, hk⟩ := Nat.dvd_of_mod_eq_zero ho
  by_cases h : p < old.length
  · rw [if_pos h, List.getElem?_append_left (by rw [List.length_take, hf]; omega), List.getElem?_take_of_lt (by rw [hf]; exact hp)]
  · have hle : old.length ≤ n * s := by omega
    rw [if_neg h, hf, List.take_of_length_le hle, List.getElem?_append_right (by omega), flatten_get _ (by omega), hf, hk]
    · congr 1
      rw [hk] at h
      have : p = (p - s * k) + s * k := by omega
      conv => rhs; rw [this, Nat.add_mul_mod_self_left]
    · rw [hf, hk, Nat.mul_div_cancel_left _ hs, Nat.sub_mul, Nat.mul_comm s k]
      rw [hk, Nat.mul_comm s k] at h hle
      omega

theorem point_count {w h : BitVec 32} (hn : w.toNat * h.toNat < 2 ^ 32) : (w * h).toNat = w.toNat * h.toNat := by
  rw [BitVec.toNat_mul, Nat.mod_eq_of_lt hn]

/-- **C70 (partial).** A `pcl::PointCloud<PointXYZ>` or `<PointXYZI>` encoded with a `double` resolution and decoded into a cloud of the same point type
(of any size before): the same width, height and number of points; every coordinate half a step and a few millionths from where it was, NaN for NaN; every
intensity bit by bit; every other byte of the points what `resize` left there.  Missing: coordinates beyond 2^28 steps, resolutions outside 2^-124 .. 2^124
(for zero and less see `C70_zero_lost` and `C70_negative`), 2^32 points or more, and files of 1.4 GB or more. -/
theorem C70_roundtrip_partial (C : Compressor) (hC : C.Lawful) (t : PointT) (c : PointCloud) (res : BitVec 64) (good : GoodPoints t c res)
    (bytes : List Byte) (e : pointcloudEncode text IEEE.ops C t c res = .ok bytes) (hsz : bytes.length < 1431260227)
    (fuel : Nat) (fresh : List Byte) (old : PointCloud) (hf : fresh.length = t.step.toNat) (ho : old.points.length % t.step.toNat = 0) :
    ∃ c', pointcloudDecode text IEEE.ops C fuel t fresh bytes old = .ok c' ∧ c'.width = c.width ∧ c'.height = c.height ∧
      c'.points.length = c.points.length ∧
      (∀ i, i < c.width.toNat * c.height.toNat → ∀ o ∈ [0, 4, 8], Back res (asFloat (memberOf t c i o)) (asFloat (memberOf t c' i o))) ∧
      (t = .xyzi → ∀ i, i < c.width.toNat * c.height.toNat → memberOf t c' i 16 = memberOf t c i 16) ∧
      ∀ i, i < c.width.toNat * c.height.toNat → ∀ j, 12 ≤ j → j < t.step.toNat → (t = .xyzi → j < 16 ∨ 20 ≤ j) →
        c'.points[i * t.step.toNat + j]? =
          if i * t.step.toNat + j < old.points.length then old.points[i * t.step.toNat + j]? else fresh[j]? := by
  obtain ⟨payload, h1, h2⟩ := point_core C hC t c res good bytes e hsz
  have hs : 0 < t.step.toNat := by cases t <;> decide
  have hs2 : t.step.toNat ≤ 32 := by cases t <;> decide
  have hn := point_count good.count
  have hlen := resize_length old.points fresh (c.width * c.height).toNat _ hs hf ho
  rw [hn, ← good.size] at hlen
  have h64 : c.points.length < 2 ^ 64 := by
    rw [good.size]
    have := good.count
    have := Nat.mul_le_mul_left (c.width.toNat * c.height.toNat) hs2
    omega
  obtain ⟨buf', d1, d2, d3, d4, d5⟩ := h2 fuel (resizePoints old.points fresh (c.width * c.height).toNat) (by rw [hn, hlen]) (by rw [hn, hlen]; exact h64)
  rw [hn, hlen] at d2
  refine ⟨⟨c.width, c.height, buf'⟩, ?_, rfl, rfl, d2, d3, ?_, ?_⟩
  · unfold pointcloudDecode
    rw [h1]
    simp only [Res.ok_bind]
    unfold pclDecode
    rw [point_remap t t c res _ _ _ (Or.inl rfl)]
    simp only [Res.ok_bind]
    change (decodeCloud IEEE.ops C fuel (readInfo t c res) payload (resizePoints old.points fresh (c.width * c.height).toNat) >>=
      fun points => Res.ok (PointCloud.mk c.width c.height points)) = _
    rw [d1]
    rfl
  · intro hx i hi
    have := d4 hx i hi
    subst hx
    exact this
  · intro i hi j j1 j2 j3
    have hp : i * t.step.toNat + j < c.width.toNat * c.height.toNat * t.step.toNat := by
      have := Nat.mul_le_mul_right t.step.toNat hi
      rw [Nat.succ_mul] at this
      omega
    have hij : (i * t.step.toNat + j) % t.step.toNat = j := by
      rw [Nat.mul_comm, Nat.mul_add_mod, Nat.mod_eq_of_lt j2]
    have key : ∀ i', i' * t.step.toNat < i * t.step.toNat → i' * t.step.toNat + t.step.toNat ≤ i * t.step.toNat := by
      intro i' h'
      have : i' < i := Nat.lt_of_mul_lt_mul_right h'
      have := Nat.mul_le_mul_right t.step.toNat this
      rw [Nat.succ_mul] at this
      exact this
    rw [show (PointCloud.mk c.width c.height buf').points = buf' from rfl, d5 (i * t.step.toNat + j), hn, resize_get _ _ _ _ hs hf ho _ hp, hij]
    · intro i' _
      rcases Nat.lt_trichotomy i' i with h | h | h
      · have := key i' (Nat.mul_lt_mul_of_pos_right h hs)
        have : 12 ≤ t.step.toNat := by cases t <;> decide
        omega
      · subst h; omega
      · have := Nat.mul_le_mul_right t.step.toNat h
        rw [Nat.succ_mul] at this
        omega
    · rintro rfl i' _
      simp only [show PointT.xyzi.step.toNat = 32 from rfl] at *
      have := j3 trivial
      omega

/-! ## Other resolutions -/

theorem ofRat_neg (q : ℚ) : b32.neg (b32.ofRat true q) = true ∧ b32.isNaN (b32.ofRat true q) = false := by
  have hle : b32.round |q| ≤ b32.inf := by
    unfold IEEE.Fmt.round
    split
    · exact Nat.zero_le _
    · exact Nat.min_le_right _ _
  have hi : b32.inf = 2139095040 := by decide
  have hs : b32.sgn = 2147483648 := by decide
  rw [hi] at hle
  unfold IEEE.Fmt.ofRat IEEE.Fmt.neg IEEE.Fmt.isNaN IEEE.Fmt.mag
  simp only [if_true, hs, hi, decide_eq_true_eq, decide_eq_false_iff_not]
  omega

theorem recip_neg {a : Nat} (h1 : b32.neg a = true) (h2 : b32.isNaN a = false) : b32.le0 (b32.recip a) = true := by
  have key : b32.neg (b32.recip a) = true ∧ b32.isNaN (b32.recip a) = false := by
    unfold IEEE.Fmt.recip
    rw [h1, h2]
    simp only [Bool.false_eq_true, if_false]
    split
    · decide +kernel
    · split
      · decide +kernel
      · exact ofRat_neg _
  unfold IEEE.Fmt.le0
  rw [key.1, key.2]; rfl

theorem stored_neg {res : BitVec 64} (hn : isNaN64 res = false) (h : 2 ^ 63 ≤ res.toNat) : IEEE.ops.invNonPos (stored res) = true := by
  have hneg : b64.neg res.toNat = true := by
    unfold IEEE.Fmt.neg
    simp only [decide_eq_true_eq, show b64.sgn = 2 ^ 63 from by decide]
    exact h
  have hnan : b64.isNaN res.toNat = false := by
    unfold isNaN64 at hn
    unfold IEEE.Fmt.isNaN IEEE.Fmt.mag
    simp only [decide_eq_false_iff_not, show b64.sgn = 2 ^ 63 from by decide, show b64.inf = 0x7FF0000000000000 from by decide] at hn ⊢
    exact hn
  have key : b32.neg (stored res).toNat = true ∧ b32.isNaN (stored res).toNat = false := by
    unfold stored IEEE.narrow
    rw [hnan, hneg]
    simp only [Bool.false_eq_true, if_false]
    split
    · decide +kernel
    · have hlt : b32.ofRat true (b64.val res.toNat) < 2 ^ 32 := by
        have hle : b32.round |b64.val res.toNat| ≤ b32.inf := by
          unfold IEEE.Fmt.round
          split
          · exact Nat.zero_le _
          · exact Nat.min_le_right _ _
        unfold IEEE.Fmt.ofRat
        rw [if_pos rfl, show b32.sgn = 2147483648 from by decide]
        rw [show b32.inf = 2139095040 from by decide] at hle
        omega
      rw [BitVec.toNat_ofNat, Nat.mod_eq_of_lt hlt]
      exact ofRat_neg _
  exact recip_neg key.1 key.2

/-- **C70, negative resolutions** (including -0 and -infinity): no cloud is encoded. -/
theorem C70_negative (C : Compressor) (t : PointT) (c : PointCloud) (res : BitVec 64) (hn : isNaN64 res = false) (h : 2 ^ 63 ≤ res.toNat) :
    pointcloudEncode text IEEE.ops C t c res = .throw "FieldEncoderFloatN_Lossy requires a resolution with value > 0.0" := by
  have key := stored_neg hn h
  have hm : mkEncoder IEEE.ops (pointInfo t c res) (encodeHeaderYaml text (pointInfo t c res)) =
      .throw "FieldEncoderFloatN_Lossy requires a resolution with value > 0.0" := by
    unfold mkEncoder buildV4Encoders leadingEncoder mkFloatNEnc
    cases t <;> simp [usesV5, pointInfo, pointXYZ, PointT.intensity, leadingLossyFloatCount, leadingFloats, isAdaptiveType, lanesOf,
      show IEEE.ops.invNonPos (BitVec.ofNat 32 (IEEE.narrow res.toNat)) = true from key, Res.throw_bind]
  unfold pointcloudEncode encodeData
  change (mkEncoder IEEE.ops (pointInfo t c res) (encodeHeaderYaml text (pointInfo t c res)) >>= _) = _
  rw [hm]
  simp only [Res.throw_bind]

example (c : PointCloud) : pointcloudEncode text IEEE.ops storeComp .xyz c 0xBF50624DD2F1A9FC#64 =
    .throw "FieldEncoderFloatN_Lossy requires a resolution with value > 0.0" := C70_negative _ _ _ _ (by decide) (by decide)

theorem point_headers (t : PointT) (c : PointCloud) (res : BitVec 64) (hr : text.parse (text.print (stored res)) = .ok (readBack (stored res)))
    (payload : List Byte) : decodeHeader text (encodeHeaderYaml text (pointInfo t c res) ++ payload) = .ok (readInfo t c res, payload) := by
  refine C26_yaml_roundtrip_partial text C68_lawful (pointInfo t c res) ?_ (Or.inr (Or.inl rfl)) (Or.inr (Or.inr rfl)) ?_ (Or.inl rfl) ?_ readBack ?_ payload
  · change 2 ≤ (5#8 : BitVec 8).toNat ∧ (5#8 : BitVec 8).toNat ≤ 5; decide
  · intro f hf
    rw [(point_fields t c res f hf).1]; simp
  · intro f hf
    have := (point_fields t c res f hf).2.2
    have hnames : ∀ s : List Byte, s ∈ [ascii "x", ascii "y", ascii "z", ascii "intensity"] → HeaderText s := by
      intro s hs
      refine ⟨⟨?_, ?_, ?_, ?_, ?_⟩, ?_⟩ <;> revert s <;> decide +kernel
    exact hnames _ this
  · intro f hf r h
    rcases (point_fields t c res f hf).2.1 with ⟨_, h2⟩ | ⟨_, _, h2⟩
    · rw [h2] at h; simp only [Option.some.injEq] at h; subst h; exact hr
    · rw [h2] at h; simp at h

theorem point_file (C : Compressor) (t : PointT) (c : PointCloud) (res : BitVec 64) (bytes : List Byte)
    (e : pointcloudEncode text IEEE.ops C t c res = .ok bytes) : ∃ payload, bytes = encodeHeaderYaml text (pointInfo t c res) ++ payload := by
  unfold pointcloudEncode encodeData at e
  obtain ⟨enc, e1, e⟩ := Res.bind_eq_ok.1 e
  obtain ⟨⟨enc', out, n⟩, e2, e⟩ := Res.bind_eq_ok.1 e
  simp only [Res.ok.injEq] at e
  subst e
  obtain ⟨room, payload, k, _, e3, _⟩ := C23_vector_agrees IEEE.ops C enc enc' _ c.points out n e2
  have hh : enc.header = encodeHeaderYaml text (pointInfo t c res) := (mkEncoder_info e1).2.1
  rw [hh] at e3
  exact ⟨payload, e3⟩

/-- **C70 fails for resolution zero.** Whatever the cloud, what `PointcloudEncode` returns for resolution 0 cannot be decoded, into any point type. -/
theorem C70_zero_lost (C C' : Compressor) (t t' : PointT) (c old : PointCloud) (fresh bytes : List Byte) (fuel : Nat)
    (e : pointcloudEncode text IEEE.ops C t c 0#64 = .ok bytes) :
    pointcloudDecode text IEEE.ops C' fuel t' fresh bytes old = .throw "FieldDecoderFloatN_Lossy requires a resolution with value > 0.0" := by
  obtain ⟨payload, rfl⟩ := point_file C t c 0#64 bytes e
  have hst : stored 0#64 = 0#32 := by decide +kernel
  have hrb : text.parse (text.print 0#32) = .ok 0#32 := by decide +kernel
  have hb : readBack 0#32 = 0#32 := by unfold readBack; rw [hrb]
  unfold pointcloudDecode
  rw [point_headers t c 0#64 (by rw [hst, hrb, hb])]
  simp only [Res.ok_bind]
  have hz : IEEE.ops.resNonPos 0#32 = true := by decide +kernel
  have hz' : BitVec.ofNat 32 (IEEE.narrow 0) = 0#32 := hst
  have n1 : ascii "x" ≠ ascii "y" := by decide
  have n2 : ascii "x" ≠ ascii "z" := by decide
  have n3 : ascii "y" ≠ ascii "z" := by decide
  have n4 : ascii "x" ≠ ascii "intensity" := by decide
  have n5 : ascii "y" ≠ ascii "intensity" := by decide
  have n6 : ascii "z" ≠ ascii "intensity" := by decide
  unfold pclDecode decodeCloud buildDecoders buildV4Decoders leadingDecoder mkFloatNDec
  cases t <;> cases t' <;>
    simp [readInfo, pointInfo, pointXYZ, PointT.intensity, remapFields, remapField, List.find?_cons, n1, n2, n3, n4, n5, n6, usesV5, leadingLossyFloatCount,
      leadingFloats, isAdaptiveType, lanesOf, hz', hb, hz, Res.throw_bind]

/-- Two points (1.5, -2, 0.125) and (NaN, 3, 1). -/
def twoPoints : PointCloud :=
  ⟨2#32, 1#32, toLE 4 0x3FC00000 ++ toLE 4 0xC0000000 ++ toLE 4 0x3E000000 ++ toLE 4 0x3F800000 ++
    (toLE 4 0x7FC00000 ++ toLE 4 0x40400000 ++ toLE 4 0x3F800000 ++ toLE 4 0x3F800000)⟩

example : ∃ bytes, pointcloudEncode text IEEE.ops storeComp .xyz twoPoints 0#64 = .ok bytes ∧ ∀ C fuel t fresh old,
    pointcloudDecode text IEEE.ops C fuel t fresh bytes old = .throw "FieldDecoderFloatN_Lossy requires a resolution with value > 0.0" := by
  have h : (match pointcloudEncode text IEEE.ops storeComp .xyz twoPoints 0#64 with | .ok _ => true | _ => false) = true := by decide +kernel
  cases e : pointcloudEncode text IEEE.ops storeComp .xyz twoPoints 0#64 with
  | ok bytes => exact ⟨bytes, rfl, fun C fuel t fresh old => C70_zero_lost storeComp C .xyz t twoPoints old fresh bytes fuel e⟩
  | throw m => rw [e] at h; simp at h
  | ub k => rw [e] at h; simp at h

/-! ## Encoding succeeds -/

theorem within_cloudOf {info : EncodingInfo} (hi : SensibleInfo info) {cloud : List Byte} (h : CloudWithin (2 ^ 29) (2 ^ 61) (2 ^ 61) info cloud) :
    CloudOf IEEE.ops info (info.width.toNat * info.height.toNat) cloud where
  size := h.size
  range := (within_valid hi h).range

theorem mkEncoder_valid {F : FloatOps} {info : EncodingInfo} (h : ValidInfo F info) (header : List Byte) : ∃ enc, mkEncoder F info header = .ok enc := by
  unfold mkEncoder
  split
  · exact ⟨_, rfl⟩
  · obtain ⟨es, _, _, e, _⟩ := build_v4 F info info (valid_agree h (all2_refl_same _) rfl rfl rfl)
    rw [e]
    exact ⟨_, rfl⟩

/-- **C70, encoding.** Every cloud `C70_roundtrip_partial` speaks about is encoded, if the compressor's bound for 32768 points is below 4 GiB. -/
theorem C70_encodes (C : Compressor) (hC : C.Lawful) (t : PointT) (c : PointCloud) (res : BitVec 64) (good : GoodPoints t c res)
    (hbound : C.bound .zstd (32768 * 37) ≤ u32Max) : ∃ bytes, pointcloudEncode text IEEE.ops C t c res = .ok bytes := by
  have ok := point_storable t c res good
  have hv := sensible_valid ok.sensible
  obtain ⟨enc, e1⟩ := mkEncoder_valid hv (encodeHeaderYaml text (pointInfo t c res))
  obtain ⟨per, hper, hper37⟩ : ∃ per, maxSerializedPointSize (pointInfo t c res).encoding_opt (pointInfo t c res).fields = .ok per ∧ per ≤ 37 := by
    cases t <;> exact ⟨_, rfl, by decide⟩
  have hv5 : usesV5 (pointInfo t c res) = false := by
    cases t <;> simp [usesV5, pointInfo, pointXYZ, PointT.intensity, leadingLossyFloatCount, leadingFloats, isAdaptiveType]
  have hfull : fullChunk (pointInfo t c res) per ≤ 32768 * 37 := by
    unfold fullChunk
    rw [hv5]
    have := Nat.mul_le_mul_left kPointsPerChunk hper37
    simp only [Bool.false_eq_true, if_false, Nat.add_zero]
    exact this
  have hb : (pointInfo t c res).compression_opt = .zstd := rfl
  obtain ⟨r, hr⟩ := C22_vector_partial IEEE.ops C hC text (pointInfo t c res) enc hv (.fresh enc e1) _ c.points (within_cloudOf ok.sensible ok.within)
    per hper (fun h => by rw [hv5] at h; simp at h) ok.count (by unfold u32Max; omega)
    (fun _ => by rw [hb]; exact (hC.bound_mono _ _ _ hfull (by simp)).trans hbound) (Or.inr (Or.inr rfl)) (fun h => by rw [hb] at h; simp at h)
  unfold pointcloudEncode encodeData
  change ∃ bytes, (mkEncoder IEEE.ops (pointInfo t c res) (encodeHeaderYaml text (pointInfo t c res)) >>= _) = _
  rw [e1]
  simp only [Res.ok_bind]
  change ∃ bytes, (encodeVector IEEE.ops C enc (headerEstimate text (pointInfo t c res)) c.points >>= _) = _
  rw [hr]
  exact ⟨_, rfl⟩

theorem two_good : GoodPoints .xyz twoPoints 0x3F50624DD2F1A9FC#64 where
  size := by decide +kernel
  count := by decide +kernel
  finite := by decide +kernel
  low := by decide +kernel
  high := by decide +kernel
  range := by
    change ∀ i < 2, ∀ o ∈ [0, 4, 8], _
    decide +kernel

/-- A resolution of one millimetre. -/
example (old : PointCloud) (ho : old.points.length % 16 = 0) (fuel : Nat) : ∃ bytes c',
    pointcloudEncode text IEEE.ops storeComp .xyz twoPoints 0x3F50624DD2F1A9FC#64 = .ok bytes ∧
    pointcloudDecode text IEEE.ops storeComp fuel .xyz (List.replicate 16 0#8) bytes old = .ok c' ∧ c'.points.length = 32 ∧
    (isNaN32 (asFloat (memberOf .xyz c' 1 0)) = true) ∧ |real32 (asFloat (memberOf .xyz c' 0 4)) - (-2)| ≤ 1 / 1000 := by
  have h : (match pointcloudEncode text IEEE.ops storeComp .xyz twoPoints 0x3F50624DD2F1A9FC#64 with
    | .ok b => decide (b.length < 1431260227) | _ => false) = true := by decide +kernel
  cases e : pointcloudEncode text IEEE.ops storeComp .xyz twoPoints 0x3F50624DD2F1A9FC#64 with
  | throw m => rw [e] at h; simp at h
  | ub k => rw [e] at h; simp at h
  | ok bytes =>
    rw [e] at h
    obtain ⟨c', d1, _, _, d2, d3, _⟩ := C70_roundtrip_partial storeComp storeComp_lawful .xyz twoPoints _ two_good bytes e (by simpa using h) fuel (List.replicate 16 0#8) old
      (by decide) ho
    refine ⟨bytes, c', rfl, d1, by rw [d2]; decide, ?_, ?_⟩
    · exact (d3 1 (by decide) 0 (by decide)).1 (by decide +kernel)
    · have := ((d3 0 (by decide) 4 (by decide)).2 (by decide +kernel)).2
      have hx : real32 (asFloat (memberOf .xyz twoPoints 0 4)) = -2 := by decide +kernel
      rw [hx] at this
      refine this.trans ?_
      decide +kernel

/-! ## Another point type -/

theorem remap_smaller (c : PointCloud) (res res' : BitVec 64) (w h : BitVec 32) : ∃ fs,
    remapFields (pointXYZ w h PointT.xyz.step PointT.xyz.intensity res').fields (readInfo .xyzi c res).fields = .ok fs := by
  have n1 : ascii "x" ≠ ascii "y" := by decide
  have n2 : ascii "x" ≠ ascii "z" := by decide
  have n3 : ascii "y" ≠ ascii "z" := by decide
  have n4 : ascii "x" ≠ ascii "intensity" := by decide
  have n5 : ascii "y" ≠ ascii "intensity" := by decide
  have n6 : ascii "z" ≠ ascii "intensity" := by decide
  simp [readInfo, pointInfo, pointXYZ, PointT.intensity, remapFields, remapField, List.find?_cons, n1, n2, n3, n4, n5, n6]

/-- **C70 fails for a smaller point type.** A non-empty file of `PointXYZI` is never decoded into a cloud of `PointXYZ`, although all of its
coordinates are there. -/
theorem C70_smaller_type (C : Compressor) (hC : C.Lawful) (c : PointCloud) (res : BitVec 64) (good : GoodPoints .xyzi c res)
    (hne : 0 < c.width.toNat * c.height.toNat) (bytes : List Byte) (e : pointcloudEncode text IEEE.ops C .xyzi c res = .ok bytes)
    (hsz : bytes.length < 1431260227) (fuel : Nat) (fresh : List Byte) (old : PointCloud) (hf : fresh.length = 16) (ho : old.points.length % 16 = 0) :
    ∀ c', pointcloudDecode text IEEE.ops C fuel .xyz fresh bytes old ≠ .ok c' := by
  intro c' hd
  obtain ⟨payload, h1, _⟩ := point_core C hC .xyzi c res good bytes e hsz
  have hn := point_count good.count
  have hlen := resize_length old.points fresh (c.width * c.height).toNat 16 (by decide) hf ho
  rw [hn] at hlen
  unfold pointcloudDecode at hd
  rw [h1] at hd
  simp only [Res.ok_bind] at hd
  obtain ⟨points, hd, _⟩ := Res.bind_eq_ok.1 hd
  unfold pclDecode at hd
  obtain ⟨fs, hr⟩ := remap_smaller c res 0x3FF0000000000000#64 (readInfo .xyzi c res).width (readInfo .xyzi c res).height
  rw [hr] at hd
  simp only [Res.ok_bind] at hd
  have hc := good.count
  refine C51_small_output IEEE.ops C fuel _ payload _ ?_ ?_ ?_ ?_ points hd
  · change 0 < (32#32 : BitVec 32).toNat; decide
  · change 3 ≤ (5#8 : BitVec 8).toNat; decide
  · change (resizePoints old.points fresh (c.width * c.height).toNat).length < _
    rw [hn, hlen]; omega
  · change (resizePoints old.points fresh (c.width * c.height).toNat).length < c.width.toNat * c.height.toNat * 32
    rw [hn, hlen]; omega

/-- **C70 fails for a larger point type.** A file of `PointXYZ` decoded into `PointXYZI` "succeeds", with the points at half their distance: the point `j`
of the result has the coordinates of point `2 j` of the file, and as intensity the x of point `2 j + 1`. -/
theorem C70_larger_type (C : Compressor) (hC : C.Lawful) (c : PointCloud) (res : BitVec 64) (good : GoodPoints .xyz c res)
    (bytes : List Byte) (e : pointcloudEncode text IEEE.ops C .xyz c res = .ok bytes)
    (hsz : bytes.length < 1431260227) (fuel : Nat) (fresh : List Byte) (old : PointCloud) (hf : fresh.length = 32) (ho : old.points.length % 32 = 0) :
    ∃ c', pointcloudDecode text IEEE.ops C fuel .xyzi fresh bytes old = .ok c' ∧ c'.points.length = c.width.toNat * c.height.toNat * 32 ∧
      (∀ j, 2 * j < c.width.toNat * c.height.toNat → ∀ o ∈ [0, 4, 8],
        Back res (asFloat (memberOf .xyz c (2 * j) o)) (asFloat (memberOf .xyzi c' j o))) ∧
      ∀ j, 2 * j + 1 < c.width.toNat * c.height.toNat → Back res (asFloat (memberOf .xyz c (2 * j + 1) 0)) (asFloat (memberOf .xyzi c' j 16)) := by
  obtain ⟨payload, h1, h2⟩ := point_core C hC .xyz c res good bytes e hsz
  have hn := point_count good.count
  have hc := good.count
  have hlen := resize_length old.points fresh (c.width * c.height).toNat 32 (by decide) hf ho
  have hsize : c.points.length = c.width.toNat * c.height.toNat * 16 := good.size
  rw [hn] at hlen
  obtain ⟨buf', d1, d2, d3, _⟩ := h2 fuel (resizePoints old.points fresh (c.width * c.height).toNat) (by rw [hn, hlen, hsize]; omega) (by rw [hn, hlen]; omega)
  rw [hn, hlen] at d2
  refine ⟨⟨c.width, c.height, buf'⟩, ?_, d2, fun j hj o hoo => ?_, fun j hj => ?_⟩
  · unfold pointcloudDecode
    rw [h1]
    simp only [Res.ok_bind]
    unfold pclDecode
    rw [point_remap .xyz .xyzi c res _ _ _ (Or.inr rfl)]
    simp only [Res.ok_bind]
    change (decodeCloud IEEE.ops C fuel (readInfo .xyz c res) payload (resizePoints old.points fresh (c.width * c.height).toNat) >>=
      fun points => Res.ok (PointCloud.mk c.width c.height points)) = _
    rw [d1]
    rfl
  · have := d3 (2 * j) hj o hoo
    have hm : memberOf .xyzi ⟨c.width, c.height, buf'⟩ j o = cell buf' 0 PointT.xyz.step.toNat (2 * j) o 4 := by
      simp only [memberOf, cell, PointT.step]
      congr 1
      simp only [BitVec.toNat_ofNat]
      omega
    rw [hm]
    exact this
  · have := d3 (2 * j + 1) hj 0 (by decide)
    have hm : memberOf .xyzi ⟨c.width, c.height, buf'⟩ j 16 = cell buf' 0 PointT.xyz.step.toNat (2 * j + 1) 0 4 := by
      simp only [memberOf, cell, PointT.step]
      congr 1
      simp only [BitVec.toNat_ofNat]
      omega
    rw [hm]
    exact this

/-- One point (1.5, -2, 0.125) of intensity 7. -/
def onePoint : PointCloud :=
  ⟨1#32, 1#32, toLE 4 0x3FC00000 ++ toLE 4 0xC0000000 ++ toLE 4 0x3E000000 ++ toLE 4 0x3F800000 ++ (toLE 4 0x40E00000 ++ List.replicate 12 0#8)⟩

theorem one_good : GoodPoints .xyzi onePoint 0x3F50624DD2F1A9FC#64 where
  size := by decide +kernel
  count := by decide +kernel
  finite := by decide +kernel
  low := by decide +kernel
  high := by decide +kernel
  range := by
    change ∀ i < 1, ∀ o ∈ [0, 4, 8], _
    decide +kernel

example : ∃ bytes, pointcloudEncode text IEEE.ops storeComp .xyzi onePoint 0x3F50624DD2F1A9FC#64 = .ok bytes ∧ ∀ fuel c',
    pointcloudDecode text IEEE.ops storeComp fuel .xyz (List.replicate 16 0#8) bytes ⟨0#32, 0#32, []⟩ ≠ .ok c' := by
  have h : (match pointcloudEncode text IEEE.ops storeComp .xyzi onePoint 0x3F50624DD2F1A9FC#64 with
    | .ok b => decide (b.length < 1431260227) | _ => false) = true := by decide +kernel
  cases e : pointcloudEncode text IEEE.ops storeComp .xyzi onePoint 0x3F50624DD2F1A9FC#64 with
  | throw m => rw [e] at h; simp at h
  | ub k => rw [e] at h; simp at h
  | ok bytes =>
    rw [e] at h
    exact ⟨bytes, rfl, fun fuel c' => C70_smaller_type storeComp storeComp_lawful onePoint _ one_good (by decide) bytes e (by simpa using h) fuel _ _
      (by decide) (by decide) c'⟩

/-- The intensity of the first point becomes the NaN that was the x of the second. -/
example : ∃ bytes c', pointcloudEncode text IEEE.ops storeComp .xyz twoPoints 0x3F50624DD2F1A9FC#64 = .ok bytes ∧
    pointcloudDecode text IEEE.ops storeComp 0 .xyzi (List.replicate 32 0#8) bytes ⟨0#32, 0#32, []⟩ = .ok c' ∧
    isNaN32 (asFloat (memberOf .xyzi c' 0 16)) = true := by
  have h : (match pointcloudEncode text IEEE.ops storeComp .xyz twoPoints 0x3F50624DD2F1A9FC#64 with
    | .ok b => decide (b.length < 1431260227) | _ => false) = true := by decide +kernel
  cases e : pointcloudEncode text IEEE.ops storeComp .xyz twoPoints 0x3F50624DD2F1A9FC#64 with
  | throw m => rw [e] at h; simp at h
  | ub k => rw [e] at h; simp at h
  | ok bytes =>
    rw [e] at h
    obtain ⟨c', d1, _, _, d2⟩ := C70_larger_type storeComp storeComp_lawful twoPoints _ two_good bytes e (by simpa using h) 0 (List.replicate 32 0#8)
      ⟨0#32, 0#32, []⟩ (by decide) (by decide)
    exact ⟨bytes, c', rfl, d1, (d2 0 (by decide)).1 (by decide +kernel)⟩

end Cloudini.Props
