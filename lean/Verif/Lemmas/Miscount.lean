import Verif.Lemmas.Volume
import Verif.Lemmas.Prefix
import Verif.Lemmas.Forced
import Verif.Lemmas.CloudMain

/-! # Chunks decoded with the wrong number of points (helper lemmas for C97) -/

namespace Cloudini

theorem decodePointsV4_split (F : FloatOps) (min step a b : Nat) (ds : List Dec) (input buf : List Byte) (base : Nat) :
    decodePointsV4 F min step (a + b) ds input buf base =
      (decodePointsV4 F min step a ds input buf base >>= fun r => decodePointsV4 F min step b r.1 r.2.1 r.2.2.1 r.2.2.2) := by
  induction a generalizing ds input buf base with
  | zero => simp [decodePointsV4]
  | succ a ih =>
    rw [Nat.succ_add]
    simp only [decodePointsV4]
    split
    · rfl
    split
    · rfl
    rw [Res.bind_assoc]
    congr 1
    funext r
    rw [ih]

/-- No points come out of nothing. -/
theorem decodePointsV4_empty (F : FloatOps) (min step b : Nat) (hb : 0 < b) (ds : List Dec) (hw : 0 < weightOf ds) (buf : List Byte) (base : Nat) :
    ∀ r, decodePointsV4 F min step b ds [] buf base ≠ .ok r := by
  intro r h
  have := decodePointsV4_weight F min step b ds [] buf base
  rw [h] at this
  have h2 := this.2
  have : 0 < b * weightOf ds := Nat.mul_pos hb hw
  simp only [List.length_nil] at h2
  omega

/-- A chunk of `n` points does not decode as more. -/
theorem chunkV4_over (F : FloatOps) (step dstep n K cap : Nat) (es : List Enc) (ds : List Dec) (mem : List Byte)
    (hm : MatchAll (es.map Enc.reset) (ds.map Dec.reset)) (hg : ∀ i, i < n → GoodAll F (prevMem none step mem i) (mem.drop (i * step)) es)
    (hstep : 0 < step) (hK : n ≤ K) (hmem : n * step ≤ mem.length) (hend : n < K → mem.length = n * step)
    (hcap : n * sumMax es ≤ cap) (hw : 0 < weightOf ds) (es' : List Enc) (rest bytes : List Byte)
    (henc : encodeV4Chunk F step es mem K cap = .ok (es', rest, bytes)) (min fuel : Nat) (buf : List Byte) (base : Nat) (buf' : List Byte)
    (hmin : min ≤ sumMin ds) (hbuf : base + n * dstep ≤ buf.length)
    (hwr : applyWrites buf 0 (pointsWrites F step es ds dstep n mem base) = .ok buf') (n' : Nat) (hn : n < n') :
    ∀ r, decodeV4Chunk F fuel ds min dstep n' bytes buf base ≠ .ok r := by
  intro r hr
  have hg' : ∀ i, i < n → GoodAll F (prevMem none step mem i) (mem.drop (i * step)) (es.map Enc.reset) := fun i hi =>
    goodAll_congr (map_reset_reset es).symm (hg i hi)
  have hsm : sumMax (es.map Enc.reset) = sumMax es := sumMax_reset es
  have hsd : sumMin (ds.map Dec.reset) = sumMin ds := sumMin_reset ds
  obtain ⟨es1, bs, ds', c1, c3, c4, c5, c6, c7, c8⟩ := core_roundtrip F step dstep n (es.map Enc.reset) (ds.map Dec.reset)
    none mem ⟨[], cap⟩ hm hg' (fun e he => by
      simp only [List.mem_map] at he
      obtain ⟨a, _, rfl⟩ := he
      exact reset_prevIs F a) (by rw [hsm]; exact hcap)
  simp only [List.nil_append] at c1
  have hb : bytes = bs := by
    unfold encodeV4Chunk at henc
    rw [encodePoints_core F step K n (es.map Enc.reset) mem ⟨[], cap⟩ hstep hK hmem hend, c1] at henc
    simp only [Res.ok_bind, Res.ok.injEq, Prod.mk.injEq] at henc
    exact henc.2.2.symm
  subst hb
  unfold decodeV4Chunk at hr
  simp only at hr
  rw [if_pos (by omega)] at hr
  obtain ⟨q, hq, _⟩ := Res.bind_eq_ok.1 hr
  rw [show n' = n + (n' - n) from by omega, decodePointsV4_split] at hq
  rw [pointsWrites_congr F step dstep (map_reset_reset es).symm (dmap_reset_reset ds).symm] at hwr
  have h8 := c8 min [] buf base buf' (by rw [hsd]; exact hmin) hbuf hwr
  rw [List.append_nil] at h8
  rw [h8, Res.ok_bind] at hq
  refine decodePointsV4_empty F min dstep (n' - n) (by omega) ds' ?_ buf' _ q hq
  rw [← weightOf_reset, c5, weightOf_reset, weightOf_reset]
  exact hw

theorem stage1V4_over (F : FloatOps) (dinfo : EncodingInfo) (step cap : Nat) (es0 : List Enc) (ds0 : List Dec)
    (hv : usesV5 dinfo = false) (hm : MatchAll (es0.map Enc.reset) (ds0.map Dec.reset)) (hstep : 0 < step) (hw : 0 < weightOf ds0)
    (points : Nat) (hcap : min points kPointsPerChunk * sumMax es0 ≤ cap) (es es' : List Enc) (ds : List Dec) (mem : List Byte) (cs : List (List Byte))
    (he : es.map Enc.reset = es0.map Enc.reset) (hd : ds.map Dec.reset = ds0.map Dec.reset)
    (hl : mem.length = points * step) (hg : ∀ i, i < points → GoodAll F (chunkPrev step mem i) (mem.drop (i * step)) es0)
    (henc : stage1V4 F step cap points es mem = .ok (es', cs)) (n : Nat) (hn : points < n)
    (hsame : (n + 32767) / 32768 = (points + 32767) / 32768) (min' : Nat) (buf : List Byte) (base : Nat) (buf' : List Byte)
    (hmin : min' ≤ sumMin ds0) (hbuf : base + points * dinfo.point_step.toNat ≤ buf.length)
    (hwr : applyWrites buf 0 (pointsWrites F step es0 ds0 dinfo.point_step.toNat points mem base) = .ok buf') :
    ∀ r, decodeStage1 F dinfo min' n ds cs buf base ≠ .ok r := by
  induction points using Nat.strongRecOn generalizing es es' ds mem cs n buf base buf' with
  | ind points ih =>
    unfold stage1V4 at henc
    by_cases hp : points = 0
    · omega
    · rw [dif_neg hp] at henc
      have hK := pos_K
      have hKv : kPointsPerChunk = 32768 := rfl
      have hk : min points kPointsPerChunk ≤ points := Nat.min_le_left _ _
      have hkK : min points kPointsPerChunk ≤ kPointsPerChunk := Nat.min_le_right _ _
      have hk0 : 0 < min points kPointsPerChunk := by omega
      generalize hkk : min points kPointsPerChunk = k at *
      have hse : sumMax es = sumMax es0 := by rw [← sumMax_reset es, he, sumMax_reset]
      have hsd : sumMin ds = sumMin ds0 := by rw [← sumMin_reset ds, hd, sumMin_reset]
      have hwd : weightOf ds = weightOf ds0 := by rw [← weightOf_reset ds, hd, weightOf_reset]
      have hgk : ∀ i, i < k → GoodAll F (prevMem none step mem i) (mem.drop (i * step)) es := fun i hi => by
        rw [← chunkPrev_first step mem i (by omega)]; exact goodAll_congr he.symm (hg i (by omega))
      have hmemk : k * step ≤ mem.length := by rw [hl]; exact Nat.mul_le_mul_right _ hk
      have hendk : k < kPointsPerChunk → mem.length = k * step := fun h => by rw [hl, show points = k from by omega]
      have hcapk : k * sumMax es ≤ cap := by rw [hse]; exact hcap
      have hmk : MatchAll (es.map Enc.reset) (ds.map Dec.reset) := by rw [he, hd]; exact hm
      obtain ⟨es1, ds1, bytes, c1, c2, c3, c4, c5⟩ := chunkV4_roundtrip F step dinfo.point_step.toNat k kPointsPerChunk cap es ds mem
        hmk hgk hstep hkK hmemk hendk hcapk hk0
      simp only [c1, Res.ok_bind] at henc
      obtain ⟨⟨es2, cs2⟩, e1, e2⟩ := Res.bind_eq_ok.1 henc
      simp only [Res.ok.injEq, Prod.mk.injEq] at e2
      obtain ⟨rfl, rfl⟩ := e2
      have hsplit : points = k + (points - k) := by omega
      have hwr0 := hwr
      rw [hsplit, pointsWrites_add, applyWrites_append, Res.bind_eq_ok] at hwr
      obtain ⟨b1, w1, w2⟩ := hwr
      have hmul : points * dinfo.point_step.toNat = k * dinfo.point_step.toNat + (points - k) * dinfo.point_step.toNat := by
        rw [← Nat.add_mul, ← hsplit]
      have hlen := applyWrites_length w1
      rw [pointsWrites_congr F step _ he.symm hd.symm] at w1
      intro r hr
      unfold decodeStage1 at hr
      rw [if_neg (by omega)] at hr
      unfold decodeStage1Chunk at hr
      rw [hv] at hr
      simp only [Bool.false_eq_true, if_false] at hr
      by_cases hlast : points ≤ kPointsPerChunk
      · have hkp : k = points := by omega
        have hnk : min n kPointsPerChunk = n := by omega
        rw [hnk] at hr
        obtain ⟨q, hq, _⟩ := Res.bind_eq_ok.1 hr
        exact chunkV4_over F step dinfo.point_step.toNat k kPointsPerChunk cap es ds mem hmk hgk hstep hkK hmemk hendk hcapk (by rw [hwd]; exact hw)
          es1 _ bytes c1 min' 0 buf base b1 (by rw [hsd]; exact hmin) (by omega) w1 n (by omega) q hq
      · have hnk : min n kPointsPerChunk = k := by omega
        rw [hnk, c5 min' 0 buf base b1 (by rw [hsd]; exact hmin) (by omega) w1] at hr
        simp only [Res.ok_bind] at hr
        have hmn : min (points - k) kPointsPerChunk * sumMax es0 ≤ k * sumMax es0 := Nat.mul_le_mul_right _ (by omega)
        exact ih (points - k) (by omega) (Nat.le_trans hmn hcap) es1 _ ds1 (mem.drop (k * step)) cs2 (c2.trans he) (c3.trans hd)
          (drop_mul_length hl hk) (fun i hi => by
            rw [List.drop_drop, ← Nat.add_mul, chunkPrev_later step mem k i (by omega)]
            exact hg (k + i) (by omega)) e1 (n - k) (by omega) (by omega) b1 _ buf' (by omega) w2 r hr

/-- A chunk of `n` points decodes as fewer: its first points. -/
theorem chunkV4_under (F : FloatOps) (step dstep n K cap : Nat) (es : List Enc) (ds : List Dec) (mem : List Byte)
    (hm : MatchAll (es.map Enc.reset) (ds.map Dec.reset)) (hg : ∀ i, i < n → GoodAll F (prevMem none step mem i) (mem.drop (i * step)) es)
    (hstep : 0 < step) (hK : n ≤ K) (hmem : n * step ≤ mem.length) (hend : n < K → mem.length = n * step)
    (hcap : n * sumMax es ≤ cap) (es' : List Enc) (rest bytes : List Byte)
    (henc : encodeV4Chunk F step es mem K cap = .ok (es', rest, bytes)) (min fuel : Nat) (buf : List Byte) (base : Nat) (buf' : List Byte)
    (j : Nat) (hj : j ≤ n) (hj0 : 0 < j) (hmin : min ≤ sumMin ds) (hbuf : base + j * dstep ≤ buf.length)
    (hwr : applyWrites buf 0 (pointsWrites F step es ds dstep j mem base) = .ok buf') :
    ∃ ds', decodeV4Chunk F fuel ds min dstep j bytes buf base = .ok (ds', buf', base + j * dstep) := by
  have hg' : ∀ i, i < n → GoodAll F (prevMem none step mem i) (mem.drop (i * step)) (es.map Enc.reset) := fun i hi =>
    goodAll_congr (map_reset_reset es).symm (hg i hi)
  have hsm : sumMax (es.map Enc.reset) = sumMax es := sumMax_reset es
  have hsd : sumMin (ds.map Dec.reset) = sumMin ds := sumMin_reset ds
  have hprev : ∀ e ∈ es.map Enc.reset, e.PrevIs F none := fun e he => by
      simp only [List.mem_map] at he
      obtain ⟨a, _, rfl⟩ := he
      exact reset_prevIs F a
  obtain ⟨es1, bs, _, c1, _⟩ := core_roundtrip F step dstep n (es.map Enc.reset) (ds.map Dec.reset)
    none mem ⟨[], cap⟩ hm hg' hprev (by rw [hsm]; exact hcap)
  obtain ⟨es2, b2, ds', q1, q3, q4, q5, q6, q7, q8⟩ := core_roundtrip F step dstep j (es.map Enc.reset) (ds.map Dec.reset)
    none mem ⟨[], cap⟩ hm (fun i hi => hg' i (by omega)) hprev (by rw [hsm]; exact Nat.le_trans (Nat.mul_le_mul_right _ hj) hcap)
  simp only [List.nil_append] at c1 q1
  have hb : bytes = bs := by
    unfold encodeV4Chunk at henc
    rw [encodePoints_core F step K n (es.map Enc.reset) mem ⟨[], cap⟩ hstep hK hmem hend, c1] at henc
    simp only [Res.ok_bind, Res.ok.injEq, Prod.mk.injEq] at henc
    exact henc.2.2.symm
  subst hb
  have hc := c1
  rw [show n = j + (n - j) from by omega, encodeCore_add, q1] at hc
  simp only [Res.ok_bind] at hc
  obtain ⟨x, hx⟩ := encodeCore_out F step (n - j) _ es2 _ _ _ hc
  simp only [W.mk.injEq] at hx
  rw [pointsWrites_congr F step dstep (map_reset_reset es).symm (dmap_reset_reset ds).symm] at hwr
  have h8 := q8 min x buf base buf' (by rw [hsd]; exact hmin) hbuf hwr
  refine ⟨ds', ?_⟩
  unfold decodeV4Chunk
  simp only
  rw [if_pos hj0, hx.1, h8]
  rfl

theorem stage1V4_under (F : FloatOps) (dinfo : EncodingInfo) (step cap : Nat) (es0 : List Enc) (ds0 : List Dec)
    (hv : usesV5 dinfo = false) (hm : MatchAll (es0.map Enc.reset) (ds0.map Dec.reset)) (hstep : 0 < step)
    (points : Nat) (hcap : min points kPointsPerChunk * sumMax es0 ≤ cap) (es es' : List Enc) (ds : List Dec) (mem : List Byte) (cs : List (List Byte))
    (he : es.map Enc.reset = es0.map Enc.reset) (hd : ds.map Dec.reset = ds0.map Dec.reset)
    (hl : mem.length = points * step) (hg : ∀ i, i < points → GoodAll F (chunkPrev step mem i) (mem.drop (i * step)) es0)
    (henc : stage1V4 F step cap points es mem = .ok (es', cs)) (n : Nat) (hn : n ≤ points)
    (hsame : (n + 32767) / 32768 = (points + 32767) / 32768) (min' : Nat) (buf : List Byte) (base : Nat) (buf' : List Byte)
    (hmin : min' ≤ sumMin ds0) (hbuf : base + n * dinfo.point_step.toNat ≤ buf.length)
    (hwr : applyWrites buf 0 (pointsWrites F step es0 ds0 dinfo.point_step.toNat n mem base) = .ok buf') :
    decodeStage1 F dinfo min' n ds cs buf base = .ok buf' := by
  induction points using Nat.strongRecOn generalizing es es' ds mem cs n buf base buf' with
  | ind points ih =>
    unfold stage1V4 at henc
    by_cases hp : points = 0
    · rw [dif_pos hp] at henc
      simp only [Res.ok.injEq, Prod.mk.injEq] at henc
      obtain ⟨_, rfl⟩ := henc
      obtain rfl : n = 0 := by omega
      simp only [pointsWrites, applyWrites, Res.ok.injEq] at hwr
      subst hwr
      simp [decodeStage1]
    · rw [dif_neg hp] at henc
      have hK := pos_K
      have hKv : kPointsPerChunk = 32768 := rfl
      have hk : min points kPointsPerChunk ≤ points := Nat.min_le_left _ _
      have hkK : min points kPointsPerChunk ≤ kPointsPerChunk := Nat.min_le_right _ _
      have hk0 : 0 < min points kPointsPerChunk := by omega
      generalize hkk : min points kPointsPerChunk = k at *
      have hse : sumMax es = sumMax es0 := by rw [← sumMax_reset es, he, sumMax_reset]
      have hsd : sumMin ds = sumMin ds0 := by rw [← sumMin_reset ds, hd, sumMin_reset]
      have hgk : ∀ i, i < k → GoodAll F (prevMem none step mem i) (mem.drop (i * step)) es := fun i hi => by
        rw [← chunkPrev_first step mem i (by omega)]; exact goodAll_congr he.symm (hg i (by omega))
      have hmemk : k * step ≤ mem.length := by rw [hl]; exact Nat.mul_le_mul_right _ hk
      have hendk : k < kPointsPerChunk → mem.length = k * step := fun h => by rw [hl, show points = k from by omega]
      have hcapk : k * sumMax es ≤ cap := by rw [hse]; exact hcap
      have hmk : MatchAll (es.map Enc.reset) (ds.map Dec.reset) := by rw [he, hd]; exact hm
      obtain ⟨es1, ds1, bytes, c1, c2, c3, c4, c5⟩ := chunkV4_roundtrip F step dinfo.point_step.toNat k kPointsPerChunk cap es ds mem
        hmk hgk hstep hkK hmemk hendk hcapk hk0
      simp only [c1, Res.ok_bind] at henc
      obtain ⟨⟨es2, cs2⟩, e1, e2⟩ := Res.bind_eq_ok.1 henc
      simp only [Res.ok.injEq, Prod.mk.injEq] at e2
      obtain ⟨rfl, rfl⟩ := e2
      unfold decodeStage1
      rw [if_neg (by omega)]
      unfold decodeStage1Chunk
      rw [hv]
      simp only [Bool.false_eq_true, if_false]
      by_cases hlast : points ≤ kPointsPerChunk
      · have hnk : min n kPointsPerChunk = n := by omega
        have hwr1 := hwr
        rw [pointsWrites_congr F step _ he.symm hd.symm] at hwr1
        rw [hnk]
        obtain ⟨ds2, h2⟩ := chunkV4_under F step dinfo.point_step.toNat k kPointsPerChunk cap es ds mem hmk hgk hstep hkK hmemk hendk hcapk
          es1 _ bytes c1 min' 0 buf base buf' n (by omega) (by omega) (by rw [hsd]; exact hmin) hbuf hwr1
        rw [h2]
        simp only [Res.ok_bind]
        have h0 : points - k = 0 := by omega
        rw [h0] at e1
        unfold stage1V4 at e1
        rw [dif_pos rfl] at e1
        simp only [Res.ok.injEq, Prod.mk.injEq] at e1
        rw [← e1.2]
        simp [decodeStage1]
      · have hnk : min n kPointsPerChunk = k := by omega
        have hsplit : n = k + (n - k) := by omega
        rw [hsplit, pointsWrites_add, applyWrites_append, Res.bind_eq_ok] at hwr
        obtain ⟨b1, w1, w2⟩ := hwr
        have hmul : n * dinfo.point_step.toNat = k * dinfo.point_step.toNat + (n - k) * dinfo.point_step.toNat := by
          rw [← Nat.add_mul, ← hsplit]
        have hlen := applyWrites_length w1
        rw [pointsWrites_congr F step _ he.symm hd.symm] at w1
        rw [hnk, c5 min' 0 buf base b1 (by rw [hsd]; exact hmin) (by omega) w1]
        simp only [Res.ok_bind]
        have hmn : min (points - k) kPointsPerChunk * sumMax es0 ≤ k * sumMax es0 := Nat.mul_le_mul_right _ (by omega)
        exact ih (points - k) (by omega) (Nat.le_trans hmn hcap) es1 _ ds1 (mem.drop (k * step)) cs2 (c2.trans he) (c3.trans hd)
          (drop_mul_length hl hk) (fun i hi => by
            rw [List.drop_drop, ← Nat.add_mul, chunkPrev_later step mem k i (by omega)]
            exact hg (k + i) (by omega)) e1 (n - k) (by omega) (by omega) b1 _ buf' (by omega) w2

end Cloudini
