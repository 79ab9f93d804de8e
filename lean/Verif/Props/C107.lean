import Verif.Props.C104
import Verif.Props.C106

/-!
# C107 Trips at different resolutions

A cloud is recorded at a millimetre and archived at a centimetre, or goes through tools with different profiles.
-/

namespace Cloudini.Props
open IEEE (ops)

/-- Trip `n` of a cloud is made with description `info n`, whose coordinates are the fields `f n` with resolutions of at most `R n`; the descriptions put the
coordinates at the same places. -/
structure Chain (info : Nat → EncodingInfo) (f : Nat → Fin 3 → PointField) (R : Nat → ℚ) (cloud : Nat → List Byte) (g : Nat) : Prop where
  moved : ∀ n, n < g → Moved (info n) (cloud n) (cloud (n + 1))
  coordinates : ∀ n, n < g → Coordinates (info n) (R n) (f n)
  step : ∀ n, (info n).point_step = (info 0).point_step
  offset : ∀ n a, (f n a).offset = (f 0 a).offset
  points : ∀ n, n < g → (info n).width.toNat * (info n).height.toNat = (info 0).width.toNat * (info 0).height.toNat

/-- **C107 (partial).** After trips at any resolutions a coordinate is within the sum of their shifts of what it was.  Missing: as for `C11_cloud_partial`. -/
theorem C107_chain_partial (info : Nat → EncodingInfo) (f : Nat → Fin 3 → PointField) (R : Nat → ℚ) (cloud : Nat → List Byte) (g : Nat)
    (h : Chain info f R cloud g) (B : ℚ) (i : Nat) (hi : i < (info 0).width.toNat * (info 0).height.toNat)
    (hB : ∀ n, n < g → InBox B (info 0) (f 0) (cloud n) i) (a : Fin 3) :
    |real32 (coordinate (info 0) (f 0) (cloud g) i a) - real32 (coordinate (info 0) (f 0) (cloud 0) i a)| ≤ ((List.range g).map fun n => shift (R n) B).sum := by
  induction g with
  | zero => simp
  | succ g ih =>
    have ih := ih ⟨fun n hn => h.moved n (by omega), fun n hn => h.coordinates n (by omega), h.step, h.offset, fun n hn => h.points n (by omega)⟩
      fun n hn => hB n (by omega)
    have same (data : List Byte) (c : Fin 3) : coordinate (info g) (f g) data i c = coordinate (info 0) (f 0) data i c := by
      unfold coordinate
      rw [h.step, h.offset]
    have m := trip_moves (h.moved g (by omega)) (h.coordinates g (by omega)) (i := i) (by rw [h.points g (by omega)]; exact hi) (B := B) (by
      intro c
      rw [same]
      exact hB g (by omega) c) a
    rw [same, same] at m
    rw [List.range_succ, List.map_append, List.sum_append]
    simp only [List.map_cons, List.map_nil, List.sum_cons, List.sum_nil, add_zero]
    have e := (abs_add_le (real32 (coordinate (info 0) (f 0) (cloud (g + 1)) i a) - real32 (coordinate (info 0) (f 0) (cloud g) i a))
      (real32 (coordinate (info 0) (f 0) (cloud g) i a) - real32 (coordinate (info 0) (f 0) (cloud 0) i a)))
    rw [sub_add_sub_cancel] at e
    linarith

/-! ## 1.4375 at 1/8 and then at 1 -/

/-- The description with resolution `r` for x, y and z. -/
def stepInfo (r : BitVec 32) : EncodingInfo :=
  { fields := [⟨[0x78#8], 0#32, .float32, some r⟩, ⟨[0x79#8], 4#32, .float32, some r⟩, ⟨[0x7a#8], 8#32, .float32, some r⟩],
    width := 1#32, height := 1#32, point_step := 12#32, encoding_opt := .lossy, compression_opt := .none, version := 5#8 }
def stepFields (r : BitVec 32) (a : Fin 3) : PointField := ⟨[BitVec.ofNat 8 (0x78 + a.val)], BitVec.ofNat 32 (4 * a.val), .float32, some r⟩
/-- x = y = z = `v`. -/
def stepCloud (v : Nat) : List Byte := toLE 4 v ++ toLE 4 v ++ toLE 4 v

/-- 1/8 and 1 as resolutions; 1.4375, 1.5, 2 and 1 as coordinates. -/
abbrev eighth : BitVec 32 := 0x3e000000#32
abbrev unit : BitVec 32 := 0x3f800000#32

theorem step_sensible : ∀ r ∈ [eighth, unit], SensibleInfo (stepInfo r) := by
  intro r hr
  have hr : r = eighth ∨ r = unit := by simpa using hr
  refine ⟨?_, ?_, ?_, ?_, ?_, ?_, ?_⟩
  · rcases hr with rfl | rfl <;> decide
  · rcases hr with rfl | rfl <;> decide
  · rcases hr with rfl | rfl <;> decide
  · rcases hr with rfl | rfl <;> decide
  · rcases hr with rfl | rfl <;> decide
  · rcases hr with rfl | rfl <;> decide
  · intro f hf s hs
    simp only [stepInfo, List.mem_cons, List.not_mem_nil, or_false] at hf
    rcases hr with rfl | rfl <;> rcases hf with rfl | rfl | rfl <;> simp at hs <;> subst hs <;> decide +kernel

theorem step_cells : ∀ r ∈ [eighth, unit], ∀ v ∈ [0x3fb80000, 0x3fc00000], (stepCloud v).length = 12 ∧
    ∀ o ∈ [0, 4, 8], Within32 (2 ^ 29) r (asFloat (cell (stepCloud v) 0 12 0 o 4)) := by
  intro r hr v hv
  have hr : r = eighth ∨ r = unit := by simpa using hr
  have hv : v = 0x3fb80000 ∨ v = 0x3fc00000 := by simpa using hv
  rcases hr with rfl | rfl <;> rcases hv with rfl | rfl <;> decide +kernel

theorem step_within : ∀ r ∈ [eighth, unit], ∀ v ∈ [0x3fb80000, 0x3fc00000], CloudWithin (2 ^ 29) (2 ^ 61) (2 ^ 61) (stepInfo r) (stepCloud v) := by
  intro r hr v hv
  obtain ⟨hl, hc⟩ := step_cells r hr v hv
  refine ⟨hl, by rw [hl]; decide, fun i hi k f hk => ?_⟩
  have hi : i < 1 := hi
  have hlt : k < 3 := (List.getElem?_eq_some_iff.1 hk).1
  have h1 : i = 0 := by omega
  have h2 : k = 0 ∨ k = 1 ∨ k = 2 := by omega
  subst h1
  have hg : groupSize (stepInfo r) = 3 := rfl
  rcases h2 with rfl | rfl | rfl <;>
    simp only [stepInfo, List.getElem?_cons_zero, List.getElem?_cons_succ, Option.some.injEq] at hk <;> subst hk <;>
    refine ⟨fun h => by simp at h, fun _ s hs => ?_⟩ <;> simp at hs <;> subst hs <;>
    refine ⟨fun h => ?_, fun h => by simp at h⟩ <;> rw [if_pos (by rw [hg]; decide)]
  · exact hc 0 (by decide)
  · exact hc 4 (by decide)
  · exact hc 8 (by decide)

theorem step_codec (r : BitVec 32) (v w : Nat) (h : (r, v, w) ∈ [(eighth, 0x3fb80000, 0x3fc00000), (unit, 0x3fc00000, 0x40000000), (unit, 0x3fb80000, 0x3f800000)]) :
    encodeView ops storeComp (freshOf (stepInfo r)) (stepCloud v) 10000 false =
      .ok ((outOf (stepInfo r) (stepCloud v)).1, (outOf (stepInfo r) (stepCloud v)).2.1, (outOf (stepInfo r) (stepCloud v)).2.2) ∧
    (outOf (stepInfo r) (stepCloud v)).2.1.take 10 ≠ magic ∧
    decodeCloud ops storeComp 0 (stepInfo r) (outOf (stepInfo r) (stepCloud v)).2.1 (List.replicate 12 0#8) = .ok (stepCloud w) ∧
    mkEncoder ops (stepInfo r) [] = .ok (freshOf (stepInfo r)) := by
  simp only [List.mem_cons, Prod.mk.injEq, List.not_mem_nil, or_false] at h
  rcases h with ⟨rfl, rfl, rfl⟩ | ⟨rfl, rfl, rfl⟩ | ⟨rfl, rfl, rfl⟩ <;> decide +kernel

theorem step_moved (r : BitVec 32) (v w : Nat) (h : (r, v, w) ∈ [(eighth, 0x3fb80000, 0x3fc00000), (unit, 0x3fc00000, 0x40000000), (unit, 0x3fb80000, 0x3f800000)]) :
    Moved (stepInfo r) (stepCloud v) (stepCloud w) := by
  obtain ⟨h1, h2, h3, h4⟩ := step_codec r v w h
  have hm : r ∈ [eighth, unit] ∧ v ∈ [0x3fb80000, 0x3fc00000] := by
    simp only [List.mem_cons, Prod.mk.injEq, List.not_mem_nil, or_false] at h
    rcases h with ⟨rfl, rfl, rfl⟩ | ⟨rfl, rfl, rfl⟩ | ⟨rfl, rfl, rfl⟩ <;> decide
  have hl : (stepCloud v).length ≤ (List.replicate 12 (0#8 : Byte)).length := by rw [(step_cells r hm.1 v hm.2).1]; decide
  exact ⟨step_sensible r hm.1, step_within r hm.1 v hm.2, by
      have hr : r = eighth ∨ r = unit := by simpa using hm.1
      rcases hr with rfl | rfl <;> decide, rfl,
    ⟨storeComp, [], freshOf (stepInfo r), _, _, 10000, _, 0, List.replicate 12 0#8, storeComp_lawful, .fresh _ h4, h1, Or.inl rfl,
      fun h => by simp [stepInfo] at h, h2, hl, h3⟩⟩

/-- **An archive made from a compressed recording is not the archive of the original**: 1.4375 compressed at 1/8 and then at 1 comes back as 2, compressed at
1 alone as 1.  The error 0.5625 is beyond half a step of the coarser resolution. -/
theorem C107_not_direct : Moved (stepInfo eighth) (stepCloud 0x3fb80000) (stepCloud 0x3fc00000) ∧ Moved (stepInfo unit) (stepCloud 0x3fc00000) (stepCloud 0x40000000) ∧
    Moved (stepInfo unit) (stepCloud 0x3fb80000) (stepCloud 0x3f800000) ∧
    (∀ a, real32 (coordinate (stepInfo unit) (stepFields unit) (stepCloud 0x3fb80000) 0 a) = 14375 / 10000 ∧
      real32 (coordinate (stepInfo unit) (stepFields unit) (stepCloud 0x40000000) 0 a) = 2 ∧
      real32 (coordinate (stepInfo unit) (stepFields unit) (stepCloud 0x3f800000) 0 a) = 1) :=
  ⟨step_moved _ _ _ (by simp), step_moved _ _ _ (by simp), step_moved _ _ _ (by simp), by decide +kernel⟩

/-- `C107_chain_partial` applied to the two trips: the sum of the shifts is less than 0.563. -/
def chainInfo (n : Nat) : EncodingInfo := stepInfo (if n = 0 then eighth else unit)
def chainFields (n : Nat) : Fin 3 → PointField := stepFields (if n = 0 then eighth else unit)
def chainR (n : Nat) : ℚ := if n = 0 then 1 / 8 else 1
def chainCloud (n : Nat) : List Byte := stepCloud (if n = 0 then 0x3fb80000 else if n = 1 then 0x3fc00000 else 0x40000000)

theorem step_chain : Chain chainInfo chainFields chainR chainCloud 2 where
  moved n hn := by
    have : n = 0 ∨ n = 1 := by omega
    rcases this with rfl | rfl <;> exact step_moved _ _ _ (by simp)
  coordinates n hn := by
    have : n = 0 ∨ n = 1 := by omega
    rcases this with rfl | rfl
    · exact ⟨by decide, by decide, fun a => ⟨eighth, rfl, by decide +kernel⟩⟩
    · exact ⟨by decide, by decide, fun a => ⟨unit, rfl, by decide +kernel⟩⟩
  step n := rfl
  offset n a := rfl
  points n hn := rfl

example (a : Fin 3) : |real32 (coordinate (chainInfo 0) (chainFields 0) (chainCloud 2) 0 a) - real32 (coordinate (chainInfo 0) (chainFields 0) (chainCloud 0) 0 a)| ≤ 563 / 1000 := by
  refine (C107_chain_partial chainInfo chainFields chainR chainCloud 2 step_chain 2 0 (by decide) (fun n hn => ?_) a).trans ?_
  · have : n = 0 ∨ n = 1 := by omega
    rcases this with rfl | rfl <;> (intro c; revert c; decide +kernel)
  · decide +kernel

end Cloudini.Props
