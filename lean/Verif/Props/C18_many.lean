import Verif.Props.C21_C22
import Verif.Lemmas.ManyFields

/-!
# C18: why version-5 clouds with more than 64 fields are excluded
-/

namespace Cloudini.Props

/-- Field number `i` of the cloud below: a UINT64 at bytes `8 i .. 8 i + 7`, called "00", "01", .... -/
def manyField (i : Nat) : PointField :=
  { name := [BitVec.ofNat 8 (48 + i / 10), BitVec.ofNat 8 (48 + i % 10)], offset := BitVec.ofNat 32 (i * 8), type := .uint64 }

/-- 65 UINT64 fields per point, without padding, current version, any second compression. -/
def manyInfo (o : CompOpt) : EncodingInfo :=
  { fields := (List.range 65).map manyField, width := 65536#32, height := 1#32, point_step := 520#32,
    encoding_opt := .lossy, compression_opt := o, version := 5#8 }

/-- 65536 points: in the first 4096 all fields are 0, then all fields alternate between ±2^61. -/
def manyCloud : List Byte := rowsOf 65 (badVals1 4096 28672) ++ rowsOf 65 (altern up down 32768)

theorem many_valid (F : FloatOps) (o : CompOpt) : ValidInfo F (manyInfo o) where
  step := (by decide : 0 < (520#32).toNat)
  version := (by decide : 3 ≤ (5#8).toNat)
  option := Or.inr (Or.inl rfl)
  types := (by decide +kernel : ∀ f ∈ (manyInfo .none).fields, f.type ∈ [.int8, .uint8, .int16, .uint16, .int32, .uint32, .float32, .float64, .int64, .uint64])
  inside := (by decide +kernel : ∀ f ∈ (manyInfo .none).fields, f.offset.toNat + sizeOf f.type ≤ (manyInfo .none).point_step.toNat)
  disjoint := (by decide +kernel : (manyInfo .none).fields.Pairwise Disjoint)
  resolution := by
    intro _ f hf r hr
    simp only [manyInfo, List.mem_map] at hf
    obtain ⟨i, _, rfl⟩ := hf
    simp [manyField] at hr

def manyPlan (c : Nat) : List AField := (List.range c).map fun i => mkAField (manyField i)

theorem many_plan (F : FloatOps) (o : CompOpt) : buildV5Plan F (manyInfo o) = .ok ([], manyPlan 65) := by
  rfl

theorem manyPlan_mem {c : Nat} (hc : c ≤ 1000) {f : AField} (hf : f ∈ manyPlan c) :
    ∃ i, i < c ∧ f.offset = i * 8 ∧ f.bpv = 8 ∧ f.committed = false ∧ TInv f := by
  simp only [manyPlan, List.mem_map, List.mem_range] at hf
  obtain ⟨i, hi, rfl⟩ := hf
  refine ⟨i, hi, ?_, rfl, rfl, tinv_fresh _⟩
  show (BitVec.ofNat 32 (i * 8)).toNat = i * 8
  rw [BitVec.toNat_ofNat, Nat.mod_eq_of_lt (by omega)]

theorem many_ivals (vs : List (BitVec 64)) (f : AField) (hf : f.bpv = 8) : ivals f (vs.map fun v => toLE 8 v.toNat) = vs := by
  unfold ivals
  rw [List.map_map, hf]
  conv => rhs; rw [← List.map_id vs]
  apply List.map_congr_left
  intro v _
  exact toI64_toLE8 v _

theorem many_good (c i : Nat) (hi : i < c) (vs : List (BitVec 64)) (rest : List Byte) (f : AField) (ho : f.offset = i * 8) (hb : f.bpv = 8)
    (hs : SubOK 0#64 vs) : GoodA (c * 8) vs.length (rowsOf c vs ++ rest) f := by
  constructor
  · intro j hj
    rw [ho, hb, List.length_drop, List.length_append, rowsOf_length]
    have h1 : (j + 1) * (c * 8) ≤ vs.length * (c * 8) := Nat.mul_le_mul_right _ hj
    have h2 : (i + 1) * 8 ≤ c * 8 := Nat.mul_le_mul_right _ hi
    rw [Nat.add_mul] at h1 h2
    omega
  · rw [ho, hb, fieldSeq_rowsOf c i hi, many_ivals _ _ hb]
    exact hs

theorem bad_upper1 (z m : Nat) (hz : z + 1 < 2 ^ 14) (hm : m < 65536) : (deltaRleSec (badVals1 (z + 1) (m + 1))).length ≤ 8 + 11 * (m + 1) := by
  have h2 := deltaRleSec_length (altern up down (m + 1)) (by rw [altern_length]; omega)
  rw [altern_length] at h2
  unfold deltaRleSec at h2 ⊢
  unfold badVals1
  rw [deltas_replicate_app]
  rw [deltas_altern] at h2 ⊢
  rw [runs_replicate_app _ _ _ (by decide)]
  have h14 : (lebBytes (BitVec.ofNat 64 (z + 1))).length ≤ 2 := by
    refine lebBytes_length_le _ 1 ?_
    rw [BitVec.toNat_ofNat, Nat.mod_eq_of_lt (by omega)]; omega
  have hz1 : (encodeVarint64 0#64).length = 1 := by decide +kernel
  simp only [dRleBytes, List.flatMap_cons, List.length_cons, List.length_append, toLE_length, hz1] at h2 ⊢
  omega

/-- The cloud, for any number of fields, split into two chunks of `K` points: if the first chunk fits the stage buffer and the second does not,
there is no output. -/
theorem many_loop (F : FloatOps) (C : Compressor) (info : EncodingInfo) (c K z m cap : Nat) (w : W) (size : Nat) (hst : info.point_step.toNat = c * 8)
    (hc : c ≤ 1000) (hK : kPointsPerChunk = K) (hz : kProbePoints = z + 1) (hzm : z + 1 + (m + 1) = K)
    (hK2 : K ≤ 65535) (hz8 : z ≤ 8000) (hz32 : 32 ≤ z) (hcap1 : c * (8 + 11 * (m + 1)) ≤ cap) (hcap2 : cap < c * (11 * (K - 1))) :
    (encodeV5Loop F C hashPaletteValue info cap (K + K) [] (manyPlan c)
      (rowsOf c (badVals1 (z + 1) (m + 1)) ++ rowsOf c (altern up down K)) w size).isThrow = true := by
  have hl1 : (badVals1 (z + 1) (m + 1)).length = K := by
    unfold badVals1; rw [List.length_append, List.length_replicate, altern_length, hzm]
  have hl2 : (altern up down K).length = K := altern_length _ _ _
  have hmem : rowsOf c (badVals1 (z + 1) (m + 1)) ++ rowsOf c (altern up down K) =
      rowsOf c (List.replicate (z + 1) 0#64) ++ (rowsOf c (altern up down (m + 1)) ++ rowsOf c (altern up down K)) := by
    unfold badVals1; rw [rowsOf_append, List.append_assoc]
  have hseq1 := fun i (hi : i < c) => fieldSeq_rowsOf c i hi (badVals1 (z + 1) (m + 1)) (rowsOf c (altern up down K))
  have hseqz := fun i (hi : i < c) => fieldSeq_rowsOf c i hi (List.replicate (z + 1) 0#64) (rowsOf c (altern up down (m + 1)) ++ rowsOf c (altern up down K))
  simp only [List.length_replicate] at hseqz
  simp only [hl1] at hseq1
  have hplen : (manyPlan c).length = c := by simp [manyPlan]
  obtain ⟨as, bytes, e1, _, hset⟩ := many_fresh F hashPaletteValue (c * 8) K cap (deltaRleSec (badVals1 (z + 1) (m + 1))).length .deltaRle (manyPlan c)
    (rowsOf c (badVals1 (z + 1) (m + 1)) ++ rowsOf c (altern up down K))
    (fun f hf => by obtain ⟨i, _, _, _, _, h⟩ := manyPlan_mem hc hf; exact h)
    (fun f hf => by
      obtain ⟨i, hi, ho, hb, _, _⟩ := manyPlan_mem hc hf
      have := many_good c i hi (badVals1 (z + 1) (m + 1)) (rowsOf c (altern up down K)) f ho hb (bad_sub1 _ _)
      rw [hl1] at this
      exact this)
    hK2 (fun f hf => by obtain ⟨i, _, _, _, h, _⟩ := manyPlan_mem hc hf; exact h)
    (by omega)
    (fun f hf => by
      obtain ⟨i, hi, ho, hb, _, _⟩ := manyPlan_mem hc hf
      rw [hmem, ho, hb, hz, hseqz i hi, many_ivals _ _ hb, bad_rvals]
      exact bestMode_zeros z hz8 hz32)
    (fun f hf => by
      obtain ⟨i, hi, ho, hb, _, _⟩ := manyPlan_mem hc hf
      rw [ho, hb, hseq1 i hi, many_ivals _ _ hb, bad_rvals]
      rfl)
    (by
      rw [hplen]
      have h1 := bad_upper1 z m (by omega) (by omega)
      have h2 := Nat.mul_le_mul_left c h1
      omega)
  rw [List.drop_left' (by rw [rowsOf_length, hl1])] at e1
  have hmem2 : ∀ g ∈ as, ∃ i, i < c ∧ g.offset = i * 8 ∧ g.bpv = 8 ∧ g.committed = true ∧ g.mode = .deltaRle ∧ TInv g := by
    intro g hg
    obtain ⟨f, hf, hs, hm⟩ := all2_mem_right hset g hg
    obtain ⟨i, hi, ho, hb, _, _⟩ := manyPlan_mem hc hf
    exact ⟨i, hi, hs.same.1.trans ho, hs.same.2.1.trans hb, hs.committed, hm, hs.tinv⟩
  have hseq2 := fun i (hi : i < c) => fieldSeq_rowsOf c i hi (altern up down K) []
  simp only [List.append_nil, hl2] at hseq2
  obtain ⟨k, hk⟩ : ∃ k, K = k + 1 := ⟨K - 1, by omega⟩
  have e2 := many_full F hashPaletteValue (c * 8) K cap (deltaRleSec (altern up down K)).length .deltaRle as (rowsOf c (altern up down K))
    (fun g hg => by obtain ⟨_, _, _, _, _, _, h⟩ := hmem2 g hg; exact h)
    (fun g hg => by
      obtain ⟨i, hi, ho, hb, _⟩ := hmem2 g hg
      have := many_good c i hi (altern up down K) [] g ho hb
        (subOK_altern _ _ _ _ ⟨by decide, by decide, by decide, by decide, by decide, by decide, trivial⟩)
      rw [List.append_nil, hl2] at this
      exact this)
    hK2 (fun g hg => by obtain ⟨_, _, _, _, h1, h2, _⟩ := hmem2 g hg; exact ⟨h1, h2⟩) (by decide)
    (fun g hg => by
      obtain ⟨i, hi, ho, hb, _⟩ := hmem2 g hg
      rw [ho, hb, hseq2 i hi, many_ivals _ _ hb, bad_rvals]
      rfl)
    (by
      rw [← all2_length hset, hplen]
      have h1 := bad_size2 k
      rw [← hk] at h1
      have h2 := Nat.mul_le_mul_left c h1
      rw [show K - 1 = k by omega] at hcap2
      omega)
  unfold encodeV5Loop
  rw [dif_neg (by omega), hK, show min (K + K) K = K by omega, hst, e1]
  simp only [Res.ok_bind]
  cases hw : writeStage1Chunk C info.compression_opt bytes w with
  | throw e => rfl
  | ub k => exact absurd hw (writeStage1_not_ub _ _ _ _ _)
  | ok r =>
    simp only [Res.ok_bind]
    unfold encodeV5Loop
    rw [hK, show K + K - K = K by omega, dif_neg (by omega), show min K K = K by omega, hst, e2]
    rfl

theorem maxCompressedChunks_not_ub (C : Compressor) (info : EncodingInfo) (per points : Nat) (k : UB) :
    maxCompressedChunks C info per points ≠ .ub k := by
  induction points using Nat.strongRecOn with
  | ind points ih =>
    intro h
    unfold maxCompressedChunks at h
    split at h
    · simp at h
    rw [Res.bind_eq_ub] at h
    rcases h with h | ⟨b, _, h⟩
    · unfold chunkBound at h
      simp only at h
      split at h
      · simp at h
      · repeat' split at h
        all_goals simp at h
      · simp at h
      · simp at h
    rw [Res.bind_eq_ub] at h
    rcases h with h | ⟨r, _, h⟩
    · exact ih _ (by have := pos_K; omega) h
    · simp at h

theorem many_main (F : FloatOps) (C : Compressor) (o : CompOpt) (enc : Encoder) (hi : enc.info = manyInfo o) (K z m : Nat) (cloud : List Byte)
    (hcl : cloud = rowsOf 65 (badVals1 (z + 1) (m + 1)) ++ rowsOf 65 (altern up down K)) (hK : kPointsPerChunk = K) (hz : kProbePoints = z + 1)
    (hzm : z + 1 + (m + 1) = K) (room : Nat) (wh : Bool) : (encodeView F C enc cloud room wh).isThrow = true := by
  have hK' : K = 32768 := by rw [← hK]; rfl
  have hz' : z + 1 = 4096 := by rw [← hz]; rfl
  have hlen : cloud.length = (K + K) * 520 := by
    rw [hcl, List.length_append, rowsOf_length, rowsOf_length]
    unfold badVals1
    rw [List.length_append, List.length_replicate, altern_length, altern_length, hzm, ← Nat.add_mul]
  have hstep : enc.info.point_step.toNat = 520 := by rw [hi]; rfl
  have hp : cloud.length / enc.info.point_step.toNat = K + K := by rw [hlen, hstep]; exact Nat.mul_div_cancel _ (by omega)
  unfold encodeView
  rw [if_neg (by intro h; rw [h] at hstep; simp at hstep), if_neg (by rw [hlen, hstep, Nat.mul_mod_left]; simp)]
  simp only [hp]
  have hper : maxSerializedPointSize enc.info.encoding_opt enc.info.fields = .ok 650 := by
    rw [hi]; exact (by decide +kernel : maxSerializedPointSize (manyInfo .none).encoding_opt (manyInfo .none).fields = .ok 650)
  cases hm : maxCompressedSize C enc.info (K + K) with
  | throw e => rfl
  | ub k =>
    unfold maxCompressedSize at hm
    split at hm
    · simp at hm
    rw [hper] at hm
    exact absurd hm (maxCompressedChunks_not_ub _ _ _ _ _)
  | ok mx =>
    simp only [Res.ok_bind]
    by_cases hroom : room < mx + (if wh = true then enc.header.length else 0)
    · rw [if_pos hroom]; rfl
    rw [if_neg hroom]
    cases hr : (⟨[], room⟩ : W).raw (if wh = true then enc.header else []) with
    | throw e => rfl
    | ub k =>
      unfold W.raw at hr
      rw [if_pos (by simp only; split <;> simp_all <;> omega)] at hr
      simp at hr
    | ok w =>
      simp only [Res.ok_bind]
      have hcap : v5StageBufferSize enc.info kPointsPerChunk = .ok (K * 714 + 65 * 64 + 1024) := by
        rw [hK]
        unfold v5StageBufferSize
        rw [hper, hi]
        rfl
      have hloop := many_loop F C enc.info 65 K z m (K * 714 + 65 * 64 + 1024) w (if wh = true then enc.header.length else 0) hstep (by omega) hK hz hzm
        (by omega) (by omega) (by omega) (by omega) (by omega)
      have hpay : (encodePayload F C enc (K + K) cloud w (if wh = true then enc.header.length else 0)).isThrow = true := by
        unfold encodePayload
        rw [if_pos (by rw [hi]; exact (by decide +kernel : usesV5 (manyInfo .none) = true)), hcap]
        simp only [Res.ok_bind]
        rw [hi, many_plan F o]
        simp only [Res.ok_bind]
        rw [← hi, hcl]
        revert hloop
        generalize encodeV5Loop F C hashPaletteValue enc.info _ _ _ _ _ _ _ = r
        intro hloop
        cases r with
        | throw e => rfl
        | ok _ => simp at hloop
        | ub _ => simp at hloop
      revert hpay
      generalize encodePayload F C enc (K + K) cloud w (if wh = true then enc.header.length else 0) = r
      intro hpay
      cases r with
      | throw e => rfl
      | ok _ => simp at hpay
      | ub _ => simp at hpay

theorem many_cloudOf (F : FloatOps) (o : CompOpt) (z m K n : Nat) (hn : z + m + K = n) :
    CloudOf F (manyInfo o) n (rowsOf 65 (badVals1 z m) ++ rowsOf 65 (altern up down K)) := by
  have hl : (badVals1 z m ++ altern up down K).length = n := by
    unfold badVals1; rw [List.length_append, List.length_append, List.length_replicate, altern_length, altern_length, hn]
  rw [← rowsOf_append]
  constructor
  · rw [rowsOf_length, hl]; rfl
  · refine follows_of_range ?_
    intro i hi j f hf
    have hj : j < 65 ∧ f = manyField j := by
      simp only [manyInfo, List.getElem?_map, Option.map_eq_some_iff] at hf
      obtain ⟨a, ha, rfl⟩ := hf
      obtain ⟨h1, h2⟩ := List.getElem?_eq_some_iff.1 ha
      simp only [List.length_range] at h1
      simp only [List.getElem_range] at h2
      exact ⟨h1, by rw [h2]⟩
    obtain ⟨hj, rfl⟩ := hj
    rw [cell_eq_sub]
    have hoff : (manyField j).offset.toNat = j * 8 := by
      show (BitVec.ofNat 32 (j * 8)).toNat = j * 8
      rw [BitVec.toNat_ofNat, Nat.mod_eq_of_lt (by omega)]
    have hm := mem_fieldSeq 520 (j * 8) 8 n (rowsOf 65 (badVals1 z m ++ altern up down K)) i hi
    have hs := fieldSeq_rowsOf 65 j hj (badVals1 z m ++ altern up down K) []
    rw [List.append_nil, hl] at hs
    rw [hs, List.mem_map] at hm
    obtain ⟨v, hv, he⟩ := hm
    show InRange F (manyInfo o) j _ (sub ((rowsOf 65 (badVals1 z m ++ altern up down K)).drop (i * 520)) (manyField j).offset.toNat 8)
    rw [hoff, ← he]
    have hr : BitVec.ofNat 64 (fromLE (toLE 8 v.toNat)) = v := (toI64_full false _).symm.trans (toI64_toLE8 v false)
    show Fits62 (BitVec.ofNat 64 (fromLE (toLE 8 v.toNat)))
    rw [hr]
    have : v = 0#64 ∨ v = up ∨ v = down := by
      unfold badVals1 at hv
      simp only [List.mem_append, List.mem_replicate] at hv
      rcases hv with (⟨_, h⟩ | h) | h
      · exact Or.inl h
      · exact Or.inr (altern_mem _ _ _ _ h)
      · exact Or.inr (altern_mem _ _ _ _ h)
    rcases this with rfl | rfl | rfl <;> (unfold Fits62; decide)

theorem many_points (o : CompOpt) : (manyInfo o).width.toNat * (manyInfo o).height.toNat = 65536 :=
  (by decide : (65536#32).toNat * (1#32).toNat = 65536)

theorem many_validCloud (F : FloatOps) (o : CompOpt) : ValidCloud F (manyInfo o) manyCloud := by
  have hof : CloudOf F (manyInfo o) 65536 manyCloud := many_cloudOf F o 4096 28672 32768 65536 (by omega)
  have hs := hof.size
  refine ⟨?_, ?_, ?_⟩
  · rw [many_points]; exact hs
  · rw [hs, show (manyInfo o).point_step.toNat = 520 from (by decide : (520#32).toNat = 520)]; omega
  · rw [many_points]; exact hof.range

theorem many_cloud_eq : manyCloud = rowsOf 65 (badVals1 (4095 + 1) (28671 + 1)) ++ rowsOf 65 (altern up down 32768) := by
  unfold manyCloud
  rw [show 4095 + 1 = 4096 by omega, show 28671 + 1 = 28672 by omega]

/-- **C18 needs the limit of 64 fields for version 5.** A well-formed cloud of 65536 points with 65 UINT64 fields of moderate size cannot be encoded: whatever
the second compression, the compression library and the room in the output, `encode` throws.  (The stage buffer allows 64 bytes per point for everything the
sizes of the fields do not count, and the sections need one byte per field and point more than that.) -/
theorem C18_many_fields (F : FloatOps) (C : Compressor) (o : CompOpt) (header : List Byte) :
    (manyInfo o).fields.length = 65 ∧ ValidInfo F (manyInfo o) ∧ ValidCloud F (manyInfo o) manyCloud ∧
      ∃ enc, mkEncoder F (manyInfo o) header = .ok enc ∧ ∀ room wh, (encodeView F C enc manyCloud room wh).isThrow = true := by
  refine ⟨by simp [manyInfo], many_valid F o, many_validCloud F o, ⟨manyInfo o, header, []⟩, ?_, fun room wh => ?_⟩
  · unfold mkEncoder
    rw [if_pos (by exact (by decide +kernel : usesV5 (manyInfo .none) = true))]
  · exact many_main F C o _ rfl 32768 4095 28671 _ many_cloud_eq rfl rfl (by omega) room wh

end Cloudini.Props
