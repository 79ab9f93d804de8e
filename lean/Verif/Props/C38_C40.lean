import Verif.Lemmas.RosTools

/-!
# C38–C40: resolution profiles and the visualisation filter
-/

namespace Cloudini.Props

open Cloudini.Ros

/-! ## C38 -/

/-- **C38.** `applyResolutionProfile` gives what the specification says (`Profiled`, field by field in order), and nothing else meets it. -/
theorem C38_profile (profile : List Byte → Option (BitVec 32)) (default : Option (BitVec 32)) (fields out : List PointField) :
    Profiled profile default fields out ↔ out = applyProfile profile fields default := by
  constructor
  · intro h; exact profiled_unique h (profiled_apply profile default fields)
  · rintro rfl; exact profiled_apply profile default fields

/-- What is left is a subsequence: names, offsets and types of the fields that are not named with a zero, in order. -/
theorem C38_order (profile : List Byte → Option (BitVec 32)) (default : Option (BitVec 32)) (fields : List PointField) :
    ((applyProfile profile fields default).map fun f => (f.name, f.offset, f.type)).Sublist (fields.map fun f => (f.name, f.offset, f.type)) := by
  have h := profiled_apply profile default fields
  generalize applyProfile profile fields default = out at h
  induction h with
  | nil => exact .slnil
  | removed f r fs out _ _ _ ih => exact ih.cons _
  | named f r fs out _ _ _ _ ih => exact ih.cons₂ _
  | defaulted f r fs out _ _ _ _ ih => exact ih.cons₂ _
  | kept f fs out _ _ _ ih => exact ih.cons₂ _

/-- x gets 0.01, y is removed, z the default, i stays. -/
example : applyProfile (fun n => if n = [0x78#8] then some 0x3C23D70A#32 else if n = [0x79#8] then some 0x80000000#32 else none)
    [⟨[0x78#8], 0#32, .float32, none⟩, ⟨[0x79#8], 4#32, .float32, none⟩, ⟨[0x7a#8], 8#32, .float32, none⟩, ⟨[0x69#8], 12#32, .uint16, none⟩] (some 0x3A83126F#32) =
    [⟨[0x78#8], 0#32, .float32, some 0x3C23D70A#32⟩, ⟨[0x7a#8], 8#32, .float32, some 0x3A83126F#32⟩, ⟨[0x69#8], 12#32, .uint16, none⟩] := by decide

/-! ## C40 -/

/-- **C40, exactly.** Two voxels share a key iff each coordinate agrees modulo 2^21. -/
theorem C40_key_iff (a b c a' b' c' : BitVec 32) :
    packVoxelKey a b c = packVoxelKey a' b' c' ↔
      a.toInt % 2 ^ 21 = a'.toInt % 2 ^ 21 ∧ b.toInt % 2 ^ 21 = b'.toInt % 2 ^ 21 ∧ c.toInt % 2 ^ 21 = c'.toInt % 2 ^ 21 := by
  have key : ∀ x y : BitVec 32, axis x = axis y ↔ x.toInt % 2 ^ 21 = y.toInt % 2 ^ 21 := by
    intro x y
    have hx := axis_toNat x
    have hy := axis_toNat y
    rw [← BitVec.toNat_inj]
    omega
  rw [pack_eq_iff, key, key, key]

/-- **C40 (partial).** In the range [-2^20, 2^20) of each axis the key determines the voxel.  Missing: voxels outside it (`C40_outside_fails`). -/
theorem C40_injective_partial (a b c a' b' c' : BitVec 32) (ha : KeyRange a) (hb : KeyRange b) (hc : KeyRange c) (ha' : KeyRange a') (hb' : KeyRange b')
    (hc' : KeyRange c') (h : packVoxelKey a b c = packVoxelKey a' b' c') : a = a' ∧ b = b' ∧ c = c' := by
  obtain ⟨h1, h2, h3⟩ := (C40_key_iff a b c a' b' c').1 h
  unfold KeyRange at *
  exact ⟨BitVec.eq_of_toInt_eq (by omega), BitVec.eq_of_toInt_eq (by omega), BitVec.eq_of_toInt_eq (by omega)⟩

example : KeyRange 0xFFF00000#32 ∧ KeyRange 0xFFFFF#32 ∧ packVoxelKey 0xFFF00000#32 0xFFFFF#32 0#32 ≠ packVoxelKey 0#32 0#32 0#32 := by
  unfold KeyRange; decide

/-- **C40 fails outside that range.** -/
theorem C40_outside_fails : packVoxelKey 0x200000#32 0#32 0#32 = packVoxelKey 0#32 0#32 0#32 := by decide

/-! ## C39

`applyViz voxel pc` is `applyVizLossyPreprocessing`; `voxel r x` stands for `static_cast<int32_t>(std::lround(x * (1.0f / r)))` and is
arbitrary. -/

/-- The first three fields are the geometry: adjacent FLOAT32 fields at `off` with resolution `r`, finite and positive, inside the point. -/
structure Geometry (pc : Pc2) (off r : BitVec 32) : Prop where
  detected : geometry pc.fields = some (off, r)
  step : pc.point_step ≠ 0#32
  inside : off.toNat + 12 ≤ pc.point_step.toNat

theorem geometry_len {fields : List PointField} {q : BitVec 32 × BitVec 32} (h : geometry fields = some q) : 3 ≤ fields.length := by
  unfold geometry at h
  split at h
  · simp
  · cases h

/-- **C39.** With a geometry triple inside the point, the filter succeeds; the points left are those at the positions `idx`, in order and
byte for byte, and `idx` holds exactly the finite points that no earlier finite point shares its key with.  The message says so: width is
their number, height 1.  Everything else is as before, except that FLOAT64 fields without resolution get one microsecond. -/
theorem C39_filter (voxel : BitVec 32 → BitVec 32 → BitVec 32) (pc : Pc2) (off r : BitVec 32) (hg : Geometry pc off r)
    (hlen : 1 ≤ pc.data.length / pc.point_step.toNat) (hsize : pc.data.length < 2 ^ 32) :
    ∃ (pc' : Pc2) (idx : List Nat), applyViz voxel pc = .ok pc' ∧
      idx.Pairwise (· < ·) ∧
      (∀ i, i ∈ idx ↔ i < pc.data.length / pc.point_step.toNat ∧ FinitePoint pc.data pc.point_step.toNat off.toNat i ∧
        ∀ j < i, FinitePoint pc.data pc.point_step.toNat off.toNat j →
          packVoxelKey (voxelOf (voxel r) pc.data pc.point_step.toNat off.toNat j).1 (voxelOf (voxel r) pc.data pc.point_step.toNat off.toNat j).2.1
            (voxelOf (voxel r) pc.data pc.point_step.toNat off.toNat j).2.2 ≠
          packVoxelKey (voxelOf (voxel r) pc.data pc.point_step.toNat off.toNat i).1 (voxelOf (voxel r) pc.data pc.point_step.toNat off.toNat i).2.1
            (voxelOf (voxel r) pc.data pc.point_step.toNat off.toNat i).2.2) ∧
      pc'.data = (idx.map (pointBytes pc.data pc.point_step.toNat)).flatten ∧ pc'.width.toNat = idx.length ∧ pc'.height = 1#32 ∧
      pc'.row_step = pc.point_step * pc'.width ∧ pc'.sec = pc.sec ∧ pc'.nsec = pc.nsec ∧ pc'.frame = pc.frame ∧ pc'.point_step = pc.point_step ∧
      pc'.dense = pc.dense ∧ pc'.cdr = pc.cdr ∧
      pc'.fields = pc.fields.map (fun f => if f.type = .float64 ∧ f.resolution = none then ⟨f.name, f.offset, f.type, some 0x358637BD#32⟩ else f) := by
  have h3 := geometry_len hg.detected
  have hs := pc.point_step.isLt
  have hi := hg.inside
  have o4 : (off + 4#32).toNat = off.toNat + 4 := by rw [BitVec.toNat_add]; show (off.toNat + 4) % 2 ^ 32 = _; omega
  have o8 : (off + 8#32).toNat = off.toNat + 8 := by rw [BitVec.toNat_add]; show (off.toNat + 8) % 2 ^ 32 = _; omega
  obtain ⟨idx, e1, e2, e3⟩ := vizLoop_spec voxel r pc.point_step.toNat off.toNat pc.data hg.inside (pc.data.length / pc.point_step.toNat) 0 [] [] 0
    (by rw [Nat.zero_add]; exact Nat.div_mul_le_self _ _) (fun k => by simp)
  have hn : idx.length ≤ pc.data.length / pc.point_step.toNat := by
    have h1 : idx.Nodup := e2.imp fun h => by omega
    have h2 : idx ⊆ List.range (pc.data.length / pc.point_step.toNat) := fun j hj => by
      rw [List.mem_range]; have := (e3 j).1 hj; omega
    simpa using h1.length_le_of_subset h2
  have hdl : pc.data.length / pc.point_step.toNat ≤ pc.data.length := Nat.div_le_self _ _
  refine ⟨{ pc with data := (idx.map (pointBytes pc.data pc.point_step.toNat)).flatten, width := BitVec.ofNat 32 idx.length, height := 1#32,
                    row_step := pc.point_step * BitVec.ofNat 32 idx.length, fields := quantise64 pc.fields },
    idx, ?_, e2, fun i => ?_, rfl, ?_, rfl, rfl, rfl, rfl, rfl, rfl, rfl, rfl, rfl⟩
  · unfold applyViz
    rw [if_neg (by rintro (h | h); omega; exact hg.step h), hg.detected]
    simp only
    rw [if_neg (by omega), o4, o8, e1]
    simp only [Res.ok_bind, List.nil_append, Nat.zero_add]
  · rw [e3]
    simp only [Nat.zero_add, Nat.zero_le, true_and]
    rfl
  · show (BitVec.ofNat 32 (idx.length)).toNat = idx.length
    rw [BitVec.toNat_ofNat, Nat.mod_eq_of_lt (by omega)]

/-- The positions the filter keeps: the result is exactly these points, in order. -/
def Keeps (voxel : BitVec 32 → BitVec 32 → BitVec 32) (pc : Pc2) (idx : List Nat) : Prop :=
  idx.Pairwise (· < ·) ∧ (∀ i ∈ idx, i < pc.data.length / pc.point_step.toNat) ∧
    ∃ pc', applyViz voxel pc = .ok pc' ∧ pc'.data = (idx.map (pointBytes pc.data pc.point_step.toNat)).flatten

/-- **C39, voxels.** The filter keeps a point of every occupied voxel and no two of one voxel, when every finite point's voxel is in the
range of the key.  Missing: clouds reaching farther (`C39_far_voxel_lost`). -/
theorem C39_voxels_partial (voxel : BitVec 32 → BitVec 32 → BitVec 32) (pc : Pc2) (off r : BitVec 32) (hg : Geometry pc off r)
    (hlen : 1 ≤ pc.data.length / pc.point_step.toNat) (hsize : pc.data.length < 2 ^ 32)
    (hr : ∀ i < pc.data.length / pc.point_step.toNat, FinitePoint pc.data pc.point_step.toNat off.toNat i →
      ∀ k < 3, KeyRange (voxel r (coord pc.data pc.point_step.toNat off.toNat i k))) :
    ∃ idx, Keeps voxel pc idx ∧
      (∀ i ∈ idx, FinitePoint pc.data pc.point_step.toNat off.toNat i) ∧
      (∀ i < pc.data.length / pc.point_step.toNat, FinitePoint pc.data pc.point_step.toNat off.toNat i →
        ∃ j ∈ idx, j ≤ i ∧ voxelOf (voxel r) pc.data pc.point_step.toNat off.toNat j = voxelOf (voxel r) pc.data pc.point_step.toNat off.toNat i) ∧
      (∀ i ∈ idx, ∀ j ∈ idx, voxelOf (voxel r) pc.data pc.point_step.toNat off.toNat j = voxelOf (voxel r) pc.data pc.point_step.toNat off.toNat i →
        i = j) := by
  obtain ⟨pc', idx, e1, e2, e3, e4, -⟩ := C39_filter voxel pc off r hg hlen hsize
  have hex : ∀ m i, i ≤ m → i < pc.data.length / pc.point_step.toNat → FinitePoint pc.data pc.point_step.toNat off.toNat i →
      ∃ j ∈ idx, j ≤ i ∧ voxelOf (voxel r) pc.data pc.point_step.toNat off.toNat j = voxelOf (voxel r) pc.data pc.point_step.toNat off.toNat i := by
    intro m
    induction m with
    | zero =>
      intro i hm hi hf
      exact ⟨i, (e3 i).2 ⟨hi, hf, fun j hj => absurd hj (by omega)⟩, Nat.le_refl _, rfl⟩
    | succ m ih =>
      intro i hm hi hf
      by_cases hin : i ∈ idx
      · exact ⟨i, hin, Nat.le_refl _, rfl⟩
      · rw [e3] at hin
        obtain ⟨j, hj, hfj, hk⟩ : ∃ j, j < i ∧ FinitePoint pc.data pc.point_step.toNat off.toNat j ∧
            packVoxelKey (voxelOf (voxel r) pc.data pc.point_step.toNat off.toNat j).1 (voxelOf (voxel r) pc.data pc.point_step.toNat off.toNat j).2.1
              (voxelOf (voxel r) pc.data pc.point_step.toNat off.toNat j).2.2 =
            packVoxelKey (voxelOf (voxel r) pc.data pc.point_step.toNat off.toNat i).1 (voxelOf (voxel r) pc.data pc.point_step.toNat off.toNat i).2.1
              (voxelOf (voxel r) pc.data pc.point_step.toNat off.toNat i).2.2 :=
          Classical.byContradiction fun hno => hin ⟨hi, hf, fun j hj hfj hk => hno ⟨j, hj, hfj, hk⟩⟩
        have hrj := hr j (by omega) hfj
        have hri := hr i hi hf
        obtain ⟨a, b, c⟩ := C40_injective_partial _ _ _ _ _ _ (hrj 0 (by omega)) (hrj 1 (by omega)) (hrj 2 (by omega)) (hri 0 (by omega))
          (hri 1 (by omega)) (hri 2 (by omega)) hk
        obtain ⟨j', h1, h2, h3⟩ := ih j (by omega) (by omega) hfj
        exact ⟨j', h1, by omega, h3.trans (Prod.ext a (Prod.ext b c))⟩
  refine ⟨idx, ⟨e2, fun i hi => ((e3 i).1 hi).1, pc', e1, e4⟩, fun i hi => ((e3 i).1 hi).2.1, fun i hi hf => hex i i (Nat.le_refl _) hi hf, ?_⟩
  intro i hi j hj hv
  rcases Nat.lt_trichotomy i j with h | h | h
  · exact absurd (by rw [hv]) (((e3 j).1 hj).2.2 i h ((e3 i).1 hi).2.1)
  · exact h
  · exact absurd (by rw [hv]) (((e3 i).1 hi).2.2 j h ((e3 j).1 hj).2.1)

/-- **C39, nothing to do.** Fewer than three fields, a point step of 0, no geometry triple, or no whole point: the message is unchanged. -/
theorem C39_unchanged (voxel : BitVec 32 → BitVec 32 → BitVec 32) (pc : Pc2)
    (h : pc.fields.length < 3 ∨ pc.point_step = 0#32 ∨ geometry pc.fields = none ∨ pc.data.length < pc.point_step.toNat) : applyViz voxel pc = .ok pc := by
  unfold applyViz
  by_cases h1 : pc.fields.length < 3 ∨ pc.point_step = 0#32
  · rw [if_pos h1]
  · rw [if_neg h1]
    cases hg : geometry pc.fields with
    | none => rfl
    | some q =>
      simp only
      rw [if_pos]
      rcases h with h | h | h | h
      · exact absurd (Or.inl h) h1
      · exact absurd (Or.inr h) h1
      · rw [hg] at h; cases h
      · exact Nat.div_eq_of_lt h

/-- The triple the filter acts on: three FLOAT32 fields first, each 4 bytes after the one before, with the same finite positive resolution. -/
theorem C39_geometry (fields : List PointField) (off r : BitVec 32) :
    geometry fields = some (off, r) ↔ ∃ f0 f1 f2 rest r1 r2, fields = f0 :: f1 :: f2 :: rest ∧ f0.type = .float32 ∧ f1.type = .float32 ∧ f2.type = .float32 ∧
      f0.offset = off ∧ f1.offset = off + 4#32 ∧ f2.offset = off + 8#32 ∧ f0.resolution = some r ∧ f1.resolution = some r1 ∧ f2.resolution = some r2 ∧
      feq32 r r1 = true ∧ feq32 r r2 = true ∧ resPositive r = true ∧ isFinite32 r = true := by
  constructor
  · intro h
    unfold geometry at h
    split at h
    · rename_i f0 f1 f2 rest
      split at h
      · rename_i r0 r1 r2 h0 h1 h2
        split at h
        · rename_i hc
          obtain ⟨a1, a2, a3, a4, a5, a6, a7, a8, a9⟩ := hc
          simp only [Option.some.injEq, Prod.mk.injEq] at h
          obtain ⟨rfl, rfl⟩ := h
          exact ⟨f0, f1, f2, rest, r1, r2, rfl, a1, a2, a3, rfl, a6, a7, h0, h1, h2, a4, a5, a8, a9⟩
        · cases h
      · cases h
    · cases h
  · rintro ⟨f0, f1, f2, rest, r1, r2, rfl, a1, a2, a3, rfl, a6, a7, h0, h1, h2, a4, a5, a8, a9⟩
    unfold geometry
    simp only [h0, h1, h2]
    rw [if_pos ⟨a1, a2, a3, a4, a5, a6, a7, a8, a9⟩]

/-! Concrete clouds.  `fields3 o` are x, y, z at `o` with resolution 1. -/

def fields3 (o : BitVec 32) : List PointField :=
  [⟨[0x78#8], o, .float32, some 0x3F800000#32⟩, ⟨[0x79#8], o + 4#32, .float32, some 0x3F800000#32⟩, ⟨[0x7a#8], o + 8#32, .float32, some 0x3F800000#32⟩,
   ⟨[0x74#8], 12#32, .float64, none⟩]

/-- Points x, 0, 0 with 8 bytes of tail. -/
def vizPoint (x : BitVec 32) (tag : Byte) : List Byte := toLE 4 x.toNat ++ List.replicate 8 0#8 ++ List.replicate 8 tag

def vizCloud (o : BitVec 32) (pts : List (List Byte)) : Pc2 :=
  { sec := 1#32, nsec := 2#32, frame := [0x61#8], height := 1#32, width := BitVec.ofNat 32 pts.length, fields := fields3 o, point_step := 20#32,
    row_step := 20#32, data := pts.flatten, dense := 1#8 }

/-- A rounding to stand for `lround(x * 1.0f)`: the integer part of 1.0 and 2^21, else 0. -/
def toyVoxel (_ x : BitVec 32) : BitVec 32 := if x = 0x3F800000#32 then 1#32 else if x = 0x4A000000#32 then 0x200000#32 else 0#32

/-- The hypotheses hold for a cloud with a duplicate and an infinite point; two of the four points are left. -/
example : Geometry (vizCloud 0#32 [vizPoint 0#32 1#8, vizPoint 0x7F800000#32 2#8, vizPoint 0x3F800000#32 3#8, vizPoint 0#32 4#8]) 0#32 0x3F800000#32 ∧
    (applyViz toyVoxel (vizCloud 0#32 [vizPoint 0#32 1#8, vizPoint 0x7F800000#32 2#8, vizPoint 0x3F800000#32 3#8, vizPoint 0#32 4#8])).bind (fun pc => .ok (pc.width, pc.data)) =
      .ok (2#32, vizPoint 0#32 1#8 ++ vizPoint 0x3F800000#32 3#8) :=
  ⟨⟨by decide, by decide, by decide⟩, by decide +kernel⟩

/-- **C39, far voxels.** x = 2^21 at resolution 1 is a different voxel from x = 0 but has its key: the point is dropped. -/
theorem C39_far_voxel_lost :
    toyVoxel 0x3F800000#32 0#32 ≠ toyVoxel 0x3F800000#32 0x4A000000#32 ∧
    (applyViz toyVoxel (vizCloud 0#32 [vizPoint 0#32 1#8, vizPoint 0x4A000000#32 2#8])).bind (fun pc => .ok (pc.width, pc.data)) =
      .ok (1#32, vizPoint 0#32 1#8) := by
  decide +kernel

/-- **C39, offsets.** The offsets are not compared with the point step: a message whose geometry fields start at the end of the point reads
past the data. -/
theorem C39_offset_outside (voxel : BitVec 32 → BitVec 32 → BitVec 32) : applyViz voxel (vizCloud 20#32 [vizPoint 0#32 1#8]) = .ub .mem := rfl

/-! ### the theorems applied to these clouds -/

example : Profiled (fun n => if n = [0x78#8] then some 0x3C23D70A#32 else none) none [⟨[0x78#8], 0#32, .float32, none⟩, ⟨[0x79#8], 4#32, .float32, none⟩]
    [⟨[0x78#8], 0#32, .float32, some 0x3C23D70A#32⟩, ⟨[0x79#8], 4#32, .float32, none⟩] := (C38_profile _ _ _ _).2 (by decide)
example : [([0x79#8], 4#32, FieldType.float32)].Sublist [([0x78#8], 0#32, .float32), ([0x79#8], 4#32, .float32)] :=
  C38_order (fun n => if n = [0x78#8] then some 0#32 else none) none [⟨[0x78#8], 0#32, .float32, none⟩, ⟨[0x79#8], 4#32, .float32, none⟩]
/-- The four-point cloud. -/
example : ∃ idx, Keeps toyVoxel (vizCloud 0#32 [vizPoint 0#32 1#8, vizPoint 0x7F800000#32 2#8, vizPoint 0x3F800000#32 3#8, vizPoint 0#32 4#8]) idx := by
  obtain ⟨idx, h, _⟩ := C39_voxels_partial toyVoxel (vizCloud 0#32 [vizPoint 0#32 1#8, vizPoint 0x7F800000#32 2#8, vizPoint 0x3F800000#32 3#8, vizPoint 0#32 4#8]) 0#32 0x3F800000#32
    ⟨by decide, by decide, by decide⟩ (by decide +kernel) (by decide +kernel) (by
      unfold KeyRange
      intro i hi _ k hk
      have : ∀ i < 4, ∀ k < 3, -2 ^ 20 ≤ (toyVoxel 0x3F800000#32 (coord (vizCloud 0#32 [vizPoint 0#32 1#8, vizPoint 0x7F800000#32 2#8, vizPoint 0x3F800000#32 3#8, vizPoint 0#32 4#8]).data 20 0 i k)).toInt ∧
        (toyVoxel 0x3F800000#32 (coord (vizCloud 0#32 [vizPoint 0#32 1#8, vizPoint 0x7F800000#32 2#8, vizPoint 0x3F800000#32 3#8, vizPoint 0#32 4#8]).data 20 0 i k)).toInt < 2 ^ 20 := by decide +kernel
      exact this i hi k hk)
  exact ⟨idx, h⟩
/-- Less than one point of data. -/
example (voxel : BitVec 32 → BitVec 32 → BitVec 32) : applyViz voxel (vizCloud 0#32 [[1#8]]) = .ok (vizCloud 0#32 [[1#8]]) :=
  C39_unchanged voxel _ (Or.inr (Or.inr (Or.inr (by decide))))

end Cloudini.Props
