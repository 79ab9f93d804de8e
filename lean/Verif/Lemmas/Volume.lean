import Verif.Lemmas.Ends

/-! How much input decoding takes at least. -/

namespace Cloudini

/-- The fewest bytes a decoder takes of its input per point. -/
def Dec.weight : Dec → Nat
  | .copy _ s => s
  | .xor _ s _ => s
  | .gorilla _ s _ => min s 1
  | .floatN ls => ls.length
  | _ => 1

theorem weight_reset (d : Dec) : d.reset.weight = d.weight := by cases d <;> simp [Dec.reset, Dec.weight]

/-- The fewest bytes of a point. -/
def weightOf (ds : List Dec) : Nat := (ds.map Dec.weight).sum

theorem weightOf_reset (ds : List Dec) : weightOf (ds.map Dec.reset) = weightOf ds := by
  unfold weightOf
  rw [List.map_map]
  congr 1
  exact List.map_congr_left fun d _ => weight_reset d

theorem lanesDecode_weight (F : FloatOps) (ls : List Lane) (input : List Byte) :
    Halts (lanesDecode F ls input) fun r => r.1.length = ls.length ∧ r.2.2.length + ls.length ≤ input.length := by
  induction ls generalizing input with
  | nil => exact ⟨rfl, Nat.le_refl _⟩
  | cons l ls ih =>
    rw [lanesDecode]
    refine Halts.bind (laneDecode_ends F l input) fun r hr => Halts.bind (ih r.2.2) fun q hq => ⟨?_, ?_⟩
    · simp [hq.1]
    · have := hq.2; show q.2.2.length + (ls.length + 1) ≤ _; omega

theorem varint_takes (input : List Byte) : Halts (decodeVarint input) fun r => (input.drop r.2).length + 1 ≤ input.length := by
  refine (decodeVarint_ends input).mono fun r hr h => ?_
  have := decodeVarint_nonempty hr
  simp only [List.length_drop]; omega

theorem dstep_weight (F : FloatOps) (d : Dec) (input : List Byte) :
    Halts (d.step F input) fun r => r.1.weight = d.weight ∧ r.2.2.length + d.weight ≤ input.length := by
  cases d with
  | copy o s =>
    simp only [Dec.step]
    split
    · split
      · refine ⟨rfl, ?_⟩
        simp only [Dec.weight, List.length_drop]; omega
      · simp [Halts]
    · split
      · refine ⟨rfl, ?_⟩
        simp only [Dec.weight, List.length_drop]; omega
      · trivial
  | xor o s p =>
    simp only [Dec.step]
    split
    · refine ⟨rfl, ?_⟩
      simp only [Dec.weight, List.length_drop]; omega
    · simp [Halts]
  | int o s p =>
    simp only [Dec.step]
    exact Halts.bind (varint_takes _) fun r hr => Halts.bind (addI64_ends _ _) fun _ _ => ⟨rfl, hr⟩
  | lossy32 o r p =>
    simp only [Dec.step]
    split
    · simp [Halts]
    · split
      · exact ⟨rfl, by simp [Dec.weight]⟩
      · exact Halts.bind (varint_takes _) fun r hr => Halts.bind (addI64_ends _ _) fun _ _ => ⟨rfl, hr⟩
  | lossy64 o r p =>
    simp only [Dec.step]
    split
    · simp [Halts]
    · split
      · exact ⟨rfl, by simp [Dec.weight]⟩
      · exact Halts.bind (varint_takes _) fun r hr => Halts.bind (addI64_ends _ _) fun _ _ => ⟨rfl, hr⟩
  | gorilla o s st =>
    simp only [Dec.step]
    refine Halts.bind (gorillaDecode_ends _ _ _) fun r hr => ⟨rfl, ?_⟩
    have h1 := hr.1
    have h2 := hr.2
    show r.2.2.length + min s 1 ≤ _
    rcases Nat.eq_zero_or_pos s with rfl | hs
    · simpa using h1
    · have := h2 (by omega); omega
  | floatN ls =>
    simp only [Dec.step]
    split
    · trivial
    · exact Halts.bind (lanesDecode_weight _ _ _) fun r hr => ⟨hr.1, hr.2⟩

theorem decodeFields_weight (F : FloatOps) (ds : List Dec) : ∀ (input buf : List Byte) (base : Nat),
    Halts (decodeFields F ds input buf base) fun r => weightOf r.1 = weightOf ds ∧ r.2.1.length + weightOf ds ≤ input.length := by
  induction ds with
  | nil => intro input buf base; exact ⟨rfl, Nat.le_refl _⟩
  | cons d ds ih =>
    intro input buf base
    rw [decodeFields]
    refine Halts.bind (dstep_weight F d input) fun r hr => Halts.bind (applyWrites_ends _ _ _) fun b hb => Halts.bind (ih r.2.2 b base) fun q hq => ?_
    obtain ⟨h1, h2⟩ := hr
    obtain ⟨g1, g2⟩ := hq
    unfold weightOf at *
    refine ⟨?_, ?_⟩
    · simp only [List.map_cons, List.sum_cons, h1, g1]
    · show q.2.1.length + ((d :: ds).map Dec.weight).sum ≤ _
      rw [List.map_cons, List.sum_cons]; omega

theorem decodePointsV4_weight (F : FloatOps) (min step n : Nat) : ∀ (ds : List Dec) (input buf : List Byte) (base : Nat),
    Halts (decodePointsV4 F min step n ds input buf base) fun r => weightOf r.1 = weightOf ds ∧ r.2.1.length + n * weightOf ds ≤ input.length := by
  induction n with
  | zero => intro ds input buf base; exact ⟨rfl, by simp⟩
  | succ n ih =>
    intro ds input buf base
    rw [decodePointsV4]
    split
    · trivial
    · split
      · trivial
      · refine Halts.bind (decodeFields_weight _ _ _ _ _) fun r hr => (ih r.1 r.2.1 r.2.2 _).mono fun q _ hq => ?_
        obtain ⟨h1, h2⟩ := hr
        obtain ⟨g1, g2⟩ := hq
        rw [h1] at g1 g2
        refine ⟨g1, ?_⟩
        rw [Nat.succ_mul]; omega

theorem decodePointsV5_weight (F : FloatOps) (step n : Nat) : ∀ (ds : List Dec) (input buf : List Byte) (base : Nat),
    Halts (decodePointsV5 F step n ds input buf base) fun r => weightOf r.1 = weightOf ds ∧ r.2.1.length + n * weightOf ds ≤ input.length := by
  induction n with
  | zero => intro ds input buf base; exact ⟨rfl, by simp⟩
  | succ n ih =>
    intro ds input buf base
    rw [decodePointsV5]
    refine Halts.bind (decodeFields_weight _ _ _ _ _) fun r hr => (ih r.1 r.2.1 r.2.2 _).mono fun q _ hq => ?_
    obtain ⟨h1, h2⟩ := hr
    obtain ⟨g1, g2⟩ := hq
    rw [h1] at g1 g2
    refine ⟨g1, ?_⟩
    rw [Nat.succ_mul]; omega

theorem uvarint_takes (bytes : List Byte) (shift : Nat) (u : BitVec 64) :
    Halts (readUVarintLoop bytes shift u) fun r => r.2.length + 1 ≤ bytes.length := by
  induction bytes generalizing shift u with
  | nil => trivial
  | cons b bs ih =>
    rw [readUVarintLoop]
    split
    · simp [Halts]
    · simp only
      split
      · exact Nat.le_refl _
      · split
        · trivial
        · exact (ih _ _).mono fun r _ h => by simp only [List.length_cons]; omega

theorem decodeInt_takes (k : Nat) (input : List Byte) : Halts (decodeInt k input) fun r => r.2.length + k = input.length := by
  unfold decodeInt; split
  · refine Halts.bind (readAt_ends _ _ _) fun _ _ => ?_
    show (input.drop k).length + k = _
    simp only [List.length_drop]; omega
  · trivial

theorem decodeDeltas_takes (f : AField) (base step n : Nat) : ∀ (i : Nat) (prev : BitVec 64) (input buf : List Byte),
    Halts (decodeDeltas f base step n i prev input buf) fun r => r.1.length + n ≤ input.length := by
  induction n with
  | zero => intro i prev input buf; exact Nat.le_refl _
  | succ n ih =>
    intro i prev input buf
    rw [decodeDeltas]
    refine Halts.bind (varint_takes _) fun q hq => Halts.bind (addI64_ends _ _) fun _ _ => Halts.bind (writeValue_ends _ _ _ _ _ _) fun _ _ =>
      (ih _ _ _ _).mono fun r _ hr => ?_
    omega

theorem readPalette_takes (bpv n : Nat) : ∀ input : List Byte, Halts (readPalette bpv n input) fun r => r.2.length + n * bpv ≤ input.length := by
  induction n with
  | zero => intro input; exact (by simp : input.length + 0 * bpv ≤ input.length)
  | succ n ih =>
    intro input
    rw [readPalette]
    split
    · trivial
    · refine Halts.bind (readAt_ends _ _ _) fun _ _ => Halts.bind (ih _) fun q hq => ?_
      show q.2.length + (n + 1) * bpv ≤ _
      simp only [List.length_drop] at hq
      rw [Nat.succ_mul]; omega

theorem rleRuns_takes (f : AField) (base step n r : Nat) : ∀ (out : Nat) (input buf : List Byte),
    Halts (decodeRleRuns f base step n r out input buf) fun q => q.2.1.length + r * (f.bpv + 1) ≤ input.length ∧ (q.1 ≠ out → 0 < r) := by
  induction r with
  | zero => intro out input buf; exact ⟨by simp, fun h => absurd rfl h⟩
  | succ r ih =>
    intro out input buf
    rw [decodeRleRuns]
    split
    · trivial
    · refine Halts.bind (readAt_ends _ _ _) fun _ _ => Halts.bind (uvarint_takes _ _ _) fun q hq => ?_
      show Halts (if _ then _ else _) _
      split
      · trivial
      · refine Halts.bind (P := fun _ => True) ?_ fun b _ => (ih _ q.2 b).mono fun p _ hp => ⟨?_, fun _ => Nat.succ_pos _⟩
        · exact writeRun_ends _ _ _ _ _ _ _
        · have := hp.1
          simp only [List.length_drop] at hq
          rw [Nat.succ_mul]; omega

theorem deltaRleRuns_takes (f : AField) (base step n r : Nat) : ∀ (out : Nat) (prev : BitVec 64) (input buf : List Byte),
    Halts (decodeDeltaRleRuns f base step n r out prev input buf) fun q => q.2.1.length + 2 * r ≤ input.length ∧ (q.1 ≠ out → 0 < r) := by
  induction r with
  | zero => intro out prev input buf; exact ⟨by simp, fun h => absurd rfl h⟩
  | succ r ih =>
    intro out prev input buf
    rw [decodeDeltaRleRuns]
    refine Halts.bind (varint_takes _) fun q hq => Halts.bind (uvarint_takes _ _ _) fun q' hq' => ?_
    show Halts (if _ then _ else _) _
    split
    · trivial
    · refine Halts.bind ((writeDeltaRun_ends _ _ _ _ _ _ _ _).mono (Q := fun _ => True) fun _ _ _ => trivial) fun b _ => (ih _ _ q'.2 b.2).mono fun p _ hp => ⟨?_, fun _ => Nat.succ_pos _⟩
      have := hp.1
      omega

/-- A section of at least one point takes at least two bytes. -/
theorem decodeSection_takes (f : AField) (base step n : Nat) (hn : 0 < n) (input buf : List Byte) :
    Halts (decodeSection f base step n input buf) fun r => r.1.length + 2 ≤ input.length := by
  unfold decodeSection
  split
  · trivial
  · rename_i m input
    split
    · exact (decodeDeltas_takes _ _ _ _ _ _ _ _).mono fun r _ hr => by simp only [List.length_cons]; omega
    · split
      · refine Halts.bind (decodeInt_takes _ _) fun q hq => ?_
        show Halts (if _ then _ else _) _
        split
        · trivial
        · refine Halts.bind (readPalette_takes _ _ _) fun q' hq' => ?_
          show Halts (if _ then _ else _) _
          split
          · trivial
          · refine Halts.bind (P := fun _ => True) ?_ fun b _ => ?_
            · exact (decodePaletteIndexes_ends _ _ _ _ _ _ _ _ _ _ _).mono fun _ _ _ => trivial
            · show (q'.2.drop _).length + 2 ≤ _
              simp only [List.length_drop, List.length_cons]; omega
      · split
        · refine Halts.bind (decodeInt_takes _ _) fun q hq => Halts.bind (rleRuns_takes _ _ _ _ _ _ _ _) fun p hp => ?_
          show Halts (if _ then _ else _) _
          split
          · trivial
          · show p.2.1.length + 2 ≤ _
            have := hp.1
            simp only [List.length_cons]; omega
        · split
          · refine Halts.bind (decodeInt_takes _ _) fun q hq => Halts.bind (deltaRleRuns_takes _ _ _ _ _ _ _ _ _) fun p hp => ?_
            show Halts (if _ then _ else _) _
            split
            · trivial
            · show p.2.1.length + 2 ≤ _
              have := hp.1
              simp only [List.length_cons]; omega
          · trivial

theorem decodeSections_takes (base step n : Nat) (hn : 0 < n) (fs : List AField) : ∀ input buf : List Byte,
    Halts (decodeSections base step n fs input buf) fun r => r.1.length + 2 * fs.length ≤ input.length := by
  induction fs with
  | nil => intro input buf; exact Nat.le_refl _
  | cons f fs ih =>
    intro input buf
    rw [decodeSections]
    refine Halts.bind (decodeSection_takes _ _ _ _ hn _ _) fun q hq => (ih q.1 q.2).mono fun r _ hr => ?_
    simp only [List.length_cons]; omega

end Cloudini
