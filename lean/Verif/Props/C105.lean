import Verif.Props.C104

/-!
# C105 Errors of repeated compressions

A cloud is compressed, decompressed, stored, compressed again ... by one tool after the other.  C11 bounds the error of one trip and C12 compares the
second with the first; here is any number of trips.
-/

namespace Cloudini.Props
open IEEE (ops)

/-- **C105, one number.** Within 4194300 steps (doubles: 2^51 - 4): after any number of trips a number is what it was after the first. -/
theorem C105_numbers (r : BitVec 32) (hr : GoodRes r) (g : Nat) :
    (∀ x, Finite32 x → |real32 x| ≤ 2 ^ (126 : Int) → |real32 x| ≤ 4194300 * real32 r →
      (memorylessV ops r)^[g + 1] x = memorylessV ops r x ∧ (memoryless32 ops r)^[g + 1] x = memoryless32 ops r x) ∧
    (∀ x, Finite64 x → |real64 x| ≤ (2 ^ 51 - 4) * real32 r → (memoryless64 ops r)^[g + 1] x = memoryless64 ops r x) := by
  have key {α : Type} (F : α → α) (x : α) (h : F (F x) = F x) : F^[g + 1] x = F x := by
    induction g with
    | zero => rfl
    | succ n ih => rw [Function.iterate_succ_apply', ih, h]
  exact ⟨fun x h1 h2 h3 => ⟨key _ x (C12_vector_values r x hr h1 h2 h3).2.2, key _ x (C12_float32_values r x hr h1 h2 h3).2.2⟩,
    fun x h1 h2 => key _ x (C12_float64_values r x hr h1 h2).2.2⟩

/-- `C105_numbers` applied: 0.1 at a millimetre. -/
example (g : Nat) : (memoryless32 ops 0x3a83126f#32)^[g + 1] 0x3dcccccd#32 = memoryless32 ops 0x3a83126f#32 0x3dcccccd#32 :=
  ((C105_numbers 0x3a83126f#32 (by decide +kernel) g).1 0x3dcccccd#32 (by decide +kernel) (by decide +kernel) (by decide +kernel)).2

/-- Clouds of which each is the result of a trip of the one before, in buffers of its size. -/
structure Generations (info : EncodingInfo) (cloud : Nat → List Byte) (g : Nat) : Prop where
  trip : ∀ n, n < g → Trip ops info (cloud n) (cloud (n + 1))
  size : ∀ n, n < g → (cloud (n + 1)).length = (cloud n).length

theorem generations_expected {info : EncodingInfo} {cloud : Nat → List Byte} {g : Nat} (hinfo : SensibleInfo info)
    (hcloud : CloudWithin 4194300 4194300 (2 ^ 51 - 4) info (cloud 0)) (h64 : FieldLimit info) (h : Generations info cloud (g + 1)) :
    (cloud (g + 1)).length = (cloud 0).length ∧ ∀ i, i < info.width.toNat * info.height.toNat → ∀ (k : Nat) (f : PointField), info.fields[k]? = some f →
      cell (cloud (g + 1)) 0 info.point_step.toNat i f.offset.toNat (sizeOf f.type) =
        expected ops info k f (cell (cloud 0) 0 info.point_step.toNat i f.offset.toNat (sizeOf f.type)) := by
  induction g with
  | zero =>
    refine ⟨h.size 0 (by omega), fun i hi k f hk => ?_⟩
    exact trip_expected (sensible_valid hinfo) (within_valid hinfo (within_mono hinfo hcloud (by norm_num) (by norm_num) (by norm_num))) h64
      (h.trip 0 (by omega)) i hi k f hk
  | succ g ih =>
    obtain ⟨s, e⟩ := ih ⟨fun n hn => h.trip n (by omega), fun n hn => h.size n (by omega)⟩
    refine ⟨(h.size (g + 1) (by omega)).trans s, fun i hi k f hk => ?_⟩
    have hv : ValidCloud ops info (cloud (g + 1)) :=
      { size := by rw [s, hcloud.size]
        addressable := by rw [s]; exact hcloud.addressable
        range := follows_of_range <| by
          intro i hi k f hk
          rw [e i hi k f hk]
          exact (expected_twice hinfo hk (hcloud.range i hi k f hk)).1 }
    rw [trip_expected (sensible_valid hinfo) hv h64 (h.trip (g + 1) (by omega)) i hi k f hk, e i hi k f hk]
    exact (expected_twice hinfo hk (hcloud.range i hi k f hk)).2

/-- **C105 (partial).** Let a cloud of at most 4194300 steps (doubles: 2^51 - 4) make any number of trips, each with whatever library, history and room:
the declared fields are after the last trip, bit for bit, what they were after the first.  Missing: more steps (false: `C105_drift`), and what C18 leaves
out. -/
theorem C105_generations_partial (info : EncodingInfo) (cloud : Nat → List Byte) (g : Nat) (hinfo : SensibleInfo info)
    (hcloud : CloudWithin 4194300 4194300 (2 ^ 51 - 4) info (cloud 0)) (h64 : FieldLimit info) (h : Generations info cloud (g + 1)) :
    ∀ i, i < info.width.toNat * info.height.toNat → ∀ f ∈ info.fields,
      cell (cloud (g + 1)) 0 info.point_step.toNat i f.offset.toNat (sizeOf f.type) = cell (cloud 1) 0 info.point_step.toNat i f.offset.toNat (sizeOf f.type) := by
  intro i hi f hf
  obtain ⟨k, hk⟩ := List.getElem?_of_mem hf
  rw [(generations_expected hinfo hcloud h64 h).2 i hi k f hk,
    (generations_expected (g := 0) hinfo hcloud h64 ⟨fun n hn => h.trip n (by omega), fun n hn => h.size n (by omega)⟩).2 i hi k f hk]

/-! ## An easting of 484675.71875 m at a millimetre -/

def eastInfo : EncodingInfo :=
  { fields := [⟨[0x78#8], 0#32, .float32, some 0x3a83126f#32⟩, ⟨[0x79#8], 4#32, .float32, some 0x3a83126f#32⟩, ⟨[0x7a#8], 8#32, .float32, some 0x3a83126f#32⟩],
    width := 1#32, height := 1#32, point_step := 12#32, encoding_opt := .lossy, compression_opt := .none, version := 5#8 }

/-- The generations: one unit in the last place (31.25 mm) less each time. -/
def eastX (n : Nat) : Nat := 1223469175 - n
def eastCloud (n : Nat) : List Byte := toLE 4 (eastX n) ++ toLE 4 0x3f800000 ++ toLE 4 0

theorem east_sensible : SensibleInfo eastInfo where
  step := by decide
  version := by decide
  option := by decide
  types := by decide
  inside := by decide
  disjoint := by decide
  resolution := by
    intro f hf r hr
    simp only [eastInfo, List.mem_cons, List.not_mem_nil, or_false] at hf
    rcases hf with rfl | rfl | rfl <;> simp at hr <;> subst hr <;> decide +kernel

theorem east_cells : ∀ n < 11, (eastCloud n).length = 12 ∧ ∀ o ∈ [0, 4, 8], Within32 (2 ^ 29) 0x3a83126f#32 (asFloat (cell (eastCloud n) 0 12 0 o 4)) := by
  decide +kernel

theorem east_within (n : Nat) (hn : n < 11) : CloudWithin (2 ^ 29) (2 ^ 61) (2 ^ 61) eastInfo (eastCloud n) where
  size := (east_cells n hn).1
  addressable := by rw [(east_cells n hn).1]; decide
  range := by
    intro i hi k f hk
    have hi : i < 1 := hi
    have hlt : k < 3 := (List.getElem?_eq_some_iff.1 hk).1
    have h1 : i = 0 := by omega
    have h2 : k = 0 ∨ k = 1 ∨ k = 2 := by omega
    subst h1
    have hc := (east_cells n hn).2
    rcases h2 with rfl | rfl | rfl <;>
      simp only [eastInfo, List.getElem?_cons_zero, List.getElem?_cons_succ, Option.some.injEq] at hk <;> subst hk <;>
      refine ⟨fun h => by simp at h, fun _ r hr => ?_⟩ <;> simp at hr <;> subst hr <;>
      refine ⟨fun h => ?_, fun h => by simp at h⟩ <;> rw [if_pos (by decide)]
    · exact hc 0 (by decide)
    · exact hc 4 (by decide)
    · exact hc 8 (by decide)

theorem east_codec : ∀ n < 10,
    encodeView ops storeComp (freshOf eastInfo) (eastCloud n) 10000 false = .ok ((outOf eastInfo (eastCloud n)).1, (outOf eastInfo (eastCloud n)).2.1, (outOf eastInfo (eastCloud n)).2.2) ∧
    (outOf eastInfo (eastCloud n)).2.1.take 10 ≠ magic ∧
    decodeCloud ops storeComp 0 eastInfo (outOf eastInfo (eastCloud n)).2.1 (List.replicate 12 0#8) = .ok (eastCloud (n + 1)) := by
  decide +kernel

theorem east_generations : Generations eastInfo eastCloud 10 where
  size n hn := by rw [(east_cells (n + 1) (by omega)).1, (east_cells n (by omega)).1]
  trip n hn := by
    obtain ⟨h1, h2, h3⟩ := east_codec n hn
    exact ⟨storeComp, [], freshOf eastInfo, (outOf eastInfo (eastCloud n)).1, (outOf eastInfo (eastCloud n)).2.1, 10000, (outOf eastInfo (eastCloud n)).2.2, 0,
      List.replicate 12 0#8, storeComp_lawful, .fresh _ (by decide +kernel), h1, Or.inl rfl, fun h => by simp [eastInfo] at h, h2,
      by rw [(east_cells n (by omega)).1]; decide, h3⟩

/-- The property for all clouds the codec can hold: after any number of trips the error is at most that of one trip, or at most twice that. -/
def ErrorsDoNotAddUp : Prop :=
  ∀ (info : EncodingInfo) (cloud : Nat → List Byte) (g : Nat), SensibleInfo info → FieldLimit info →
    (∀ n, n ≤ g → CloudWithin (2 ^ 29) (2 ^ 61) (2 ^ 61) info (cloud n)) → Generations info cloud g →
    ∀ i, i < info.width.toNat * info.height.toNat → ∀ f ∈ info.fields, ∀ r, info.encoding_opt = .lossy → f.type = .float32 → f.resolution = some r →
      let x n := asFloat (valueOf info f (cloud n) i)
      isNaN32 (x 0) = false → |real32 (x g) - real32 (x 0)| ≤ 2 * shift (real32 r) |real32 (x 0)|

/-- **C105 does not hold of the code.** 484675.71875 m at a millimetre comes back one unit in the last place smaller each time, ten times: 312.5 mm. -/
theorem C105_drift : ¬ ErrorsDoNotAddUp ∧
    real32 (asFloat (cell (eastCloud 0) 0 12 0 0 4)) - real32 (asFloat (cell (eastCloud 10) 0 12 0 0 4)) = 3125 / 10000 := by
  refine ⟨fun h => ?_, by decide +kernel⟩
  have := h eastInfo eastCloud 10 east_sensible (by decide) (fun n hn => east_within n (by omega)) east_generations 0 (by decide) _ List.mem_cons_self _ rfl rfl rfl
    (by decide +kernel)
  revert this
  unfold shift
  decide +kernel

/-- `C105_generations_partial` applied: the points of `Props/C101`, two trips. -/
def nearTwice : Nat → List Byte
  | 0 => nearCloud
  | _ + 1 => nearBack
theorem near_codec2 :
    encodeView ops storeComp (freshOf nearInfo) nearBack 10000 false = .ok ((outOf nearInfo nearBack).1, (outOf nearInfo nearBack).2.1, (outOf nearInfo nearBack).2.2) ∧
    (outOf nearInfo nearBack).2.1.take 10 ≠ magic ∧
    decodeCloud ops storeComp 0 nearInfo (outOf nearInfo nearBack).2.1 (List.replicate 24 0#8) = .ok nearBack := by decide +kernel

theorem near_generations (g : Nat) : Generations nearInfo nearTwice (g + 1) where
  size n hn := by
    cases n
    · show nearBack.length = nearCloud.length
      decide +kernel
    · rfl
  trip n hn := by
    cases n with
    | zero => exact near_trip
    | succ n =>
      obtain ⟨h1, h2, h3⟩ := near_codec2
      exact ⟨storeComp, [], freshOf nearInfo, _, _, 10000, _, 0, List.replicate 24 0#8, storeComp_lawful, .fresh _ (by decide +kernel), h1, Or.inl rfl,
        fun h => by simp [nearInfo] at h, h2, show nearBack.length ≤ (List.replicate 24 0#8).length by decide +kernel, h3⟩

theorem near_small : CloudWithin 4194300 4194300 (2 ^ 51 - 4) nearInfo nearCloud where
  size := by decide +kernel
  addressable := by decide +kernel
  range := by
    intro i hi k f hk
    have hi : i < 2 := hi
    have hlt : k < 3 := (List.getElem?_eq_some_iff.1 hk).1
    have h1 : i = 0 ∨ i = 1 := by omega
    have h2 : k = 0 ∨ k = 1 ∨ k = 2 := by omega
    rcases h1 with rfl | rfl <;> rcases h2 with rfl | rfl | rfl <;>
      simp only [nearInfo, List.getElem?_cons_zero, List.getElem?_cons_succ, Option.some.injEq] at hk <;> subst hk <;>
      refine ⟨fun h => by simp at h, fun _ r hr => ?_⟩ <;> simp at hr <;> subst hr <;>
      refine ⟨fun h => ?_, fun h => ?_⟩ <;> first | (simp at h; done) | decide +kernel

example (g : Nat) : ∀ i, i < 2 → ∀ f ∈ nearInfo.fields,
    cell (nearTwice (g + 1)) 0 12 i f.offset.toNat (sizeOf f.type) = cell (nearTwice 1) 0 12 i f.offset.toNat (sizeOf f.type) :=
  C105_generations_partial nearInfo nearTwice g near_sensible near_small (by decide) (near_generations g)

end Cloudini.Props
