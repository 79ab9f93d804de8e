import Verif.Lemmas.CloudLoop

/-! Stage 1 of a whole cloud: decoding performs exactly the intended writes. -/

namespace Cloudini

theorem pointsWrites_add (F : FloatOps) (step dstep a b : Nat) (es : List Enc) (ds : List Dec) (mem : List Byte) (base : Nat) :
    pointsWrites F step es ds dstep (a + b) mem base =
      pointsWrites F step es ds dstep a mem base ++ pointsWrites F step es ds dstep b (mem.drop (a * step)) (base + a * dstep) := by
  induction a generalizing mem base with
  | zero => simp [pointsWrites]
  | succ a ih =>
    rw [Nat.succ_add]
    simp only [pointsWrites, ih, List.append_assoc, List.drop_drop]
    rw [Nat.add_mul, Nat.one_mul, Nat.add_mul, Nat.one_mul, Nat.add_comm step, Nat.add_assoc base, Nat.add_comm dstep]

theorem map_reset_reset (es : List Enc) : (es.map Enc.reset).map Enc.reset = es.map Enc.reset := by
  rw [List.map_map]; apply List.map_congr_left; intro e _; exact enc_reset_reset e

theorem dmap_reset_reset (es : List Dec) : (es.map Dec.reset).map Dec.reset = es.map Dec.reset := by
  rw [List.map_map]; apply List.map_congr_left; intro e _; exact dec_reset_reset e

/-- A chunk of the V4 codec. -/
theorem chunkV4_roundtrip (F : FloatOps) (step dstep n K cap : Nat) (es : List Enc) (ds : List Dec) (mem : List Byte)
    (hm : MatchAll (es.map Enc.reset) (ds.map Dec.reset)) (hg : ∀ i, i < n → GoodAll F (prevMem none step mem i) (mem.drop (i * step)) es)
    (hstep : 0 < step) (hK : n ≤ K) (hmem : n * step ≤ mem.length) (hend : n < K → mem.length = n * step)
    (hcap : n * sumMax es ≤ cap) (hpos : 0 < n) :
    ∃ es' ds' bytes, encodeV4Chunk F step es mem K cap = .ok (es', mem.drop (n * step), bytes) ∧
      es'.map Enc.reset = es.map Enc.reset ∧ ds'.map Dec.reset = ds.map Dec.reset ∧ bytes.length ≤ n * sumMax es ∧
      ∀ min fuel buf base buf', min ≤ sumMin ds → base + n * dstep ≤ buf.length →
        applyWrites buf 0 (pointsWrites F step es ds dstep n mem base) = .ok buf' →
        decodeV4Chunk F fuel ds min dstep n bytes buf base = .ok (ds', buf', base + n * dstep) := by
  have hg' : ∀ i, i < n → GoodAll F (prevMem none step mem i) (mem.drop (i * step)) (es.map Enc.reset) := fun i hi =>
    goodAll_congr (map_reset_reset es).symm (hg i hi)
  have hsm : sumMax (es.map Enc.reset) = sumMax es := sumMax_reset es
  have hsd : sumMin (ds.map Dec.reset) = sumMin ds := sumMin_reset ds
  obtain ⟨es', bs, ds', c1, c3, c4, c5, c6, c7, c8⟩ := core_roundtrip F step dstep n (es.map Enc.reset) (ds.map Dec.reset)
    none mem ⟨[], cap⟩ hm hg' (fun e he => by
      simp only [List.mem_map] at he
      obtain ⟨a, _, rfl⟩ := he
      exact reset_prevIs F a) (by rw [hsm]; exact hcap)
  simp only [List.nil_append] at c1
  rw [hsm] at c6
  refine ⟨es', ds', bs, ?_, c4.trans (map_reset_reset es), c5.trans (dmap_reset_reset ds), c6, ?_⟩
  · unfold encodeV4Chunk
    rw [encodePoints_core F step K n (es.map Enc.reset) mem ⟨[], cap⟩ hstep hK hmem hend, c1]
    rfl
  · intro min fuel buf base buf' hmin hbuf hw
    unfold decodeV4Chunk
    rw [pointsWrites_congr F step dstep (map_reset_reset es).symm (dmap_reset_reset ds).symm] at hw
    have := c8 min [] buf base buf' (by rw [hsd]; exact hmin) hbuf hw
    rw [List.append_nil] at this
    simp only
    rw [if_pos hpos, this]
    rfl

theorem drop_mul_length {mem : List Byte} {points step n : Nat} (hl : mem.length = points * step) (hn : n ≤ points) :
    (mem.drop (n * step)).length = (points - n) * step := by
  rw [List.length_drop, hl, Nat.sub_mul]

/-- The memory of the previous point of the same chunk. -/
def chunkPrev (step : Nat) (mem : List Byte) (i : Nat) : Option (List Byte) :=
  if i % kPointsPerChunk = 0 then none else some (mem.drop ((i - 1) * step))

theorem chunkPrev_first (step : Nat) (mem : List Byte) (i : Nat) (h : i < kPointsPerChunk) :
    chunkPrev step mem i = prevMem none step mem i := by
  unfold chunkPrev
  rw [Nat.mod_eq_of_lt h]
  cases i with
  | zero => rfl
  | succ i => rw [if_neg (by omega)]; rfl

theorem chunkPrev_later (step : Nat) (mem : List Byte) (n i : Nat) (h : n = kPointsPerChunk) :
    chunkPrev step (mem.drop (n * step)) i = chunkPrev step mem (n + i) := by
  unfold chunkPrev
  rw [h, Nat.add_mod_left, ← h, List.drop_drop, ← Nat.add_mul]
  by_cases hz : i % n = 0
  · rw [if_pos hz, if_pos hz]
  · rw [if_neg hz, if_neg hz]
    have : i ≠ 0 := fun h => hz (by rw [h, Nat.zero_mod])
    rw [show n + (i - 1) = n + i - 1 from by omega]

/-- The chunks of `points` points, each at most as long as `b` allows for its number of points. -/
def ChunkSizes (b : Nat → Nat) : Nat → List (List Byte) → Prop
  | points, [] => points = 0
  | points, c :: cs => points ≠ 0 ∧ c.length ≤ b (min points kPointsPerChunk) ∧
      ChunkSizes b (points - min points kPointsPerChunk) cs

theorem ChunkSizes.mono {b b' : Nat → Nat} {points : Nat} {cs : List (List Byte)} (h : ChunkSizes b points cs)
    (hb : ∀ n, n ≤ points → n ≤ kPointsPerChunk → b n ≤ b' n) : ChunkSizes b' points cs := by
  induction cs generalizing points with
  | nil => exact h
  | cons c cs ih =>
    exact ⟨h.1, Nat.le_trans h.2.1 (hb _ (Nat.min_le_left _ _) (Nat.min_le_right _ _)),
      ih h.2.2 (fun n hn hk => hb n (by omega) hk)⟩

theorem ChunkSizes.all {b : Nat → Nat} {points m : Nat} {cs : List (List Byte)} (h : ChunkSizes b points cs)
    (hb : ∀ n, n ≤ min points kPointsPerChunk → b n ≤ m) : ∀ c ∈ cs, c.length ≤ m := by
  induction cs generalizing points with
  | nil => simp
  | cons c cs ih =>
    intro x hx
    simp only [List.mem_cons] at hx
    rcases hx with rfl | hx
    · exact Nat.le_trans h.2.1 (hb _ (Nat.le_refl _))
    · exact ih h.2.2 (fun n hn => hb n (by omega)) x hx

theorem stage1V4_trip (F : FloatOps) (dinfo : EncodingInfo) (step cap : Nat) (es0 : List Enc) (ds0 : List Dec)
    (hv : usesV5 dinfo = false) (hm : MatchAll (es0.map Enc.reset) (ds0.map Dec.reset)) (hstep : 0 < step)
    (points : Nat) (hcap : min points kPointsPerChunk * sumMax es0 ≤ cap) (es : List Enc) (ds : List Dec) (mem : List Byte)
    (he : es.map Enc.reset = es0.map Enc.reset) (hd : ds.map Dec.reset = ds0.map Dec.reset)
    (hl : mem.length = points * step) (hg : ∀ i, i < points → GoodAll F (chunkPrev step mem i) (mem.drop (i * step)) es0) :
    ∃ es' cs, stage1V4 F step cap points es mem = .ok (es', cs) ∧ es'.map Enc.reset = es0.map Enc.reset ∧
      ChunkSizes (fun n => n * sumMax es0) points cs ∧
      ∀ min' buf base buf', min' ≤ sumMin ds0 → base + points * dinfo.point_step.toNat ≤ buf.length →
        applyWrites buf 0 (pointsWrites F step es0 ds0 dinfo.point_step.toNat points mem base) = .ok buf' →
        decodeStage1 F dinfo min' points ds cs buf base = .ok buf' := by
  induction points using Nat.strongRecOn generalizing es ds mem with
  | ind points ih =>
    unfold stage1V4
    by_cases hp : points = 0
    · rw [dif_pos hp]
      subst hp
      refine ⟨es, [], rfl, he, rfl, ?_⟩
      intro min' buf base buf' _ _ hw
      simp only [pointsWrites, applyWrites, Res.ok.injEq] at hw
      subst hw
      simp [decodeStage1]
    · rw [dif_neg hp]
      have hK := pos_K
      have hn : min points kPointsPerChunk ≤ points := Nat.min_le_left _ _
      have hnK : min points kPointsPerChunk ≤ kPointsPerChunk := Nat.min_le_right _ _
      have hn0 : 0 < min points kPointsPerChunk := by omega
      generalize hnn : min points kPointsPerChunk = n at *
      have hse : sumMax es = sumMax es0 := by rw [← sumMax_reset es, he, sumMax_reset]
      have hsd : sumMin ds = sumMin ds0 := by rw [← sumMin_reset ds, hd, sumMin_reset]
      obtain ⟨es1, ds1, bytes, c1, c2, c3, c4, c5⟩ := chunkV4_roundtrip F step dinfo.point_step.toNat n kPointsPerChunk cap es ds mem
        (by rw [he, hd]; exact hm) (fun i hi => by rw [← chunkPrev_first step mem i (by omega)]; exact goodAll_congr he.symm (hg i (by omega))) hstep hnK
        (by rw [hl]; exact Nat.mul_le_mul_right _ hn) (fun h => by rw [hl, show points = n from by omega])
        (by rw [hse]; exact hcap) hn0
      have hmn : min (points - n) kPointsPerChunk * sumMax es0 ≤ n * sumMax es0 := Nat.mul_le_mul_right _ (by omega)
      obtain ⟨es2, cs, i1, i2, i3, i4⟩ := ih (points - n) (by omega) (Nat.le_trans hmn hcap) es1 ds1 (mem.drop (n * step)) (c2.trans he) (c3.trans hd)
        (drop_mul_length hl hn) (fun i hi => by
          rw [List.drop_drop, ← Nat.add_mul, chunkPrev_later step mem n i (by omega)]
          exact hg (n + i) (by omega))
      refine ⟨es2, bytes :: cs, ?_, i2, ?_, ?_⟩
      · simp only [c1, Res.ok_bind, i1]
      · refine ⟨hp, ?_, ?_⟩
        · simp only [hnn]; rw [← hse]; exact c4
        · rw [hnn]; exact i3
      · intro min' buf base buf' hmin hbuf hw
        have hsplit : points = n + (points - n) := by omega
        rw [hsplit, pointsWrites_add, applyWrites_append, Res.bind_eq_ok] at hw
        obtain ⟨b1, w1, w2⟩ := hw
        have hmul : points * dinfo.point_step.toNat = n * dinfo.point_step.toNat + (points - n) * dinfo.point_step.toNat := by
          rw [← Nat.add_mul, ← hsplit]
        have hlen := applyWrites_length w1
        rw [pointsWrites_congr F step _ he.symm hd.symm] at w1
        unfold decodeStage1
        rw [if_neg hp, hnn]
        unfold decodeStage1Chunk
        rw [hv]
        simp only [Bool.false_eq_true, if_false]
        rw [c5 min' 0 buf base b1 (by rw [hsd]; exact hmin) (by omega) w1]
        simp only [Res.ok_bind]
        exact i4 min' b1 _ buf' hmin (by omega) w2

/-- All writes of a V5 cloud, chunk by chunk. -/
def writesV5 (F : FloatOps) (step dstep : Nat) (es : List Enc) (ds : List Dec) (as das : List AField) (points : Nat) (mem : List Byte)
    (base : Nat) : List Write :=
  if _h : points = 0 then []
  else
    (pointsWrites F step es ds dstep (min points kPointsPerChunk) mem base ++
      sectionWrites step (min points kPointsPerChunk) mem base dstep as das) ++
    writesV5 F step dstep es ds as das (points - min points kPointsPerChunk) (mem.drop (min points kPointsPerChunk * step))
      (base + min points kPointsPerChunk * dstep)
termination_by points
decreasing_by have := pos_K; omega

theorem goodA_congr {step n : Nat} {mem : List Byte} {f g : AField} (h : SameField g f) (hg : GoodA step n mem f) : GoodA step n mem g :=
  ⟨fun i hi => by rw [h.1, h.2.1]; exact hg.fits i hi, by rw [h.1, h.2.1, ivals_same h]; exact hg.diffs⟩

theorem stage1V5_trip (F : FloatOps) (hash : BitVec 64 → BitVec 64) (dinfo : EncodingInfo) (step cap : Nat) (es0 : List Enc)
    (ds0 : List Dec) (as0 : List AField) (hv : usesV5 dinfo = true)
    (hm : MatchAll (es0.map Enc.reset) (ds0.map Dec.reset)) (hma : All2 AMatch as0 (getAdaptiveFields dinfo))
    (points : Nat)
    (hcap : min points kPointsPerChunk * sumMax es0 + as0.length * (5 + 11 * min points kPointsPerChunk) ≤ cap)
    (es : List Enc) (ds : List Dec) (as : List AField) (mem : List Byte)
    (he : es.map Enc.reset = es0.map Enc.reset) (hd : ds.map Dec.reset = ds0.map Dec.reset)
    (ha : All2 (fun f g => SameField g f) as0 as) (hf : SameFlag as) (ht : ∀ f ∈ as, TInv f)
    (hg : ∀ i, i < points → GoodAll F (chunkPrev step mem i) (mem.drop (i * step)) es0)
    (hga : ∀ f ∈ as0, ∀ c, c * kPointsPerChunk < points →
      GoodA step (min (points - c * kPointsPerChunk) kPointsPerChunk) (mem.drop (c * kPointsPerChunk * step)) f) :
    ∃ cs, stage1V5 F hash step cap points es as mem = .ok cs ∧
      ChunkSizes (fun n => n * sumMax es0 + as0.length * (5 + 11 * n)) points cs ∧
      (points ≤ kProbePoints → (∀ f ∈ as, f.committed = false) → ChunkSizes (fun n => n * sumMax es0 + as0.length * (1 + 10 * n)) points cs) ∧
      ∀ min' buf base buf', base + points * dinfo.point_step.toNat ≤ buf.length →
        applyWrites buf 0 (writesV5 F step dinfo.point_step.toNat es0 ds0 as0 (getAdaptiveFields dinfo) points mem base) = .ok buf' →
        decodeStage1 F dinfo min' points ds cs buf base = .ok buf' := by
  induction points using Nat.strongRecOn generalizing es ds as mem with
  | ind points ih =>
    unfold stage1V5
    by_cases hp : points = 0
    · rw [dif_pos hp]
      refine ⟨[], rfl, hp, fun _ _ => hp, ?_⟩
      intro min' buf base buf' _ hw
      unfold writesV5 at hw
      rw [dif_pos hp] at hw
      simp only [applyWrites, Res.ok.injEq] at hw
      subst hw
      simp [decodeStage1, hp]
    · rw [dif_neg hp]
      have hK := pos_K
      have hK2 := K_le
      have hn : min points kPointsPerChunk ≤ points := Nat.min_le_left _ _
      have hnK : min points kPointsPerChunk ≤ kPointsPerChunk := Nat.min_le_right _ _
      have hn0 : 0 < min points kPointsPerChunk := by omega
      generalize hnn : min points kPointsPerChunk = n at *
      have hse : sumMax es = sumMax es0 := by rw [← sumMax_reset es, he, sumMax_reset]
      have hal : as.length = as0.length := ha.length
      have hinv : All2 (fun g f => SameField g f) as as0 := by
        clear hga hma hcap hf ht ih
        induction as0 generalizing as with
        | nil => cases as <;> simp_all [All2]
        | cons a as0 ih2 =>
          cases as with
          | nil => exact ha.elim
          | cons g as => exact ⟨ha.1, ih2 as ha.2 (by simpa using hal)⟩
      have hma' : All2 AMatch as (getAdaptiveFields dinfo) :=
        all2_trans hinv hma fun g f d a b => ⟨by rw [a.2.1]; exact b.1, by rw [a.2.1]; exact b.2⟩
      obtain ⟨es1, as1, ds1, bytes, c1, c2, c3, c4, c5, c5', c6⟩ := chunkV5_roundtrip F hash step dinfo.point_step.toNat n cap es ds as
        (getAdaptiveFields dinfo) mem (by rw [he, hd]; exact hm) (fun i hi => by rw [← chunkPrev_first step mem i (by omega)]; exact goodAll_congr he.symm (hg i (by omega))) hf ht
        (fun g hgm => by
          obtain ⟨f, hfm, hs⟩ := all2_mem_right ha g hgm
          exact goodA_congr hs (by simpa [hnn] using hga f hfm 0 (by omega)))
        hma' hn0 (by omega) (by rw [hse, hal]; exact hcap)
      rw [hse, hal] at c5 c5'
      have hmn : min (points - n) kPointsPerChunk * sumMax es0 + as0.length * (5 + 11 * min (points - n) kPointsPerChunk) ≤
          n * sumMax es0 + as0.length * (5 + 11 * n) :=
        Nat.add_le_add (Nat.mul_le_mul_right _ (by omega)) (Nat.mul_le_mul_left _ (by omega))
      have ha1 : All2 (fun f g => SameField g f) as0 as1 := all2_trans ha c2 fun f g h a b => b.same.trans a
      obtain ⟨cs, i1, i2, i2', i3⟩ := ih (points - n) (by omega) (Nat.le_trans hmn hcap) es1 ds1 as1 (mem.drop (n * step)) (c3.trans he)
        (c4.trans hd) ha1
        ⟨true, fun g hgm => by obtain ⟨f, _, hs⟩ := all2_mem_right c2 g hgm; exact hs.committed⟩
        (fun g hgm => by obtain ⟨f, _, hs⟩ := all2_mem_right c2 g hgm; exact hs.tinv)
        (fun i hi => by
          rw [List.drop_drop, ← Nat.add_mul, chunkPrev_later step mem n i (by omega)]
          exact hg (n + i) (by omega))
        (fun f hfm c hc => by
          have hnk : n = kPointsPerChunk := by omega
          rw [List.drop_drop, ← Nat.add_mul, hnk]
          have h1 := hga f hfm (c + 1) (by rw [Nat.add_mul, Nat.one_mul]; omega)
          rw [Nat.add_mul, Nat.one_mul, Nat.add_comm, ← Nat.sub_sub] at h1
          exact h1)
      refine ⟨bytes :: cs, ?_, ?_, ?_, ?_⟩
      · simp only [c1, Res.ok_bind, i1]
      · refine ⟨hp, ?_, ?_⟩
        · simp only [hnn]; exact c5
        · rw [hnn]; exact i2
      · intro hpp hcf
        have hpk : kProbePoints ≤ kPointsPerChunk := by unfold kProbePoints kPointsPerChunk; omega
        refine ⟨hp, ?_, ?_⟩
        · simp only [hnn]; exact c5' (by omega) hcf
        · rw [hnn]
          have : points - n = 0 := by omega
          rw [this] at i1 ⊢
          unfold stage1V5 at i1
          rw [dif_pos rfl] at i1
          simp only [Res.ok.injEq] at i1
          subst i1
          rfl
      · intro min' buf base buf' hbuf hw
        unfold writesV5 at hw
        rw [dif_neg hp, hnn, applyWrites_append, Res.bind_eq_ok] at hw
        obtain ⟨b1, w1, w2⟩ := hw
        have hmul : points * dinfo.point_step.toNat = n * dinfo.point_step.toNat + (points - n) * dinfo.point_step.toNat := by
          rw [← Nat.add_mul]; congr 1; omega
        have hlen := applyWrites_length w1
        rw [pointsWrites_congr F step _ he.symm hd.symm, ← sectionWrites_same step n mem base _ as0 as _ ha] at w1
        unfold decodeStage1
        rw [if_neg hp, hnn]
        unfold decodeStage1Chunk
        rw [hv]
        simp only [if_true]
        rw [c6 buf base b1 (by omega) w1]
        simp only [Res.ok_bind]
        exact i3 min' b1 _ buf' (by omega) w2

end Cloudini
