import Verif.Lemmas.FormatAny
import Verif.Props.C90

/-! # Decoding whatever follows the format: a whole cloud (helper lemmas for C92) -/

namespace Cloudini.Props

/-- Stage 1 of the decoder on chunks of the format. -/
theorem stage1_any (F : FloatOps) (info dinfo : EncodingInfo) (cloud : List Byte) (points : Nat)
    (h : Agree F info dinfo) (hstep : 0 < info.point_step.toNat) (hlen : cloud.length = points * info.point_step.toNat)
    (hg : ∀ i, i < points → PointGood F info (chunkPrev info.point_step.toNat cloud i) (cloud.drop (i * info.point_step.toNat)))
    (hskip : NoAdaptiveSkip info dinfo) (way : Nat → PointField → Nat) :
    ∃ ds min' ws, buildDecoders F dinfo = .ok (ds, min') ∧ (∀ w, w ∈ ws ↔ CloudWrite F info dinfo points cloud w) ∧
      ∀ cs : List (List Byte), cs.length = (points + 32767) / 32768 → (∀ c y, cs[c]? = some y → y = Format.chunkBy F info cloud way points c) →
        ∀ buf buf', points * dinfo.point_step.toNat ≤ buf.length → applyWrites buf 0 ws = .ok buf' →
          decodeStage1 F dinfo min' points ds cs buf 0 = .ok buf' := by
  by_cases hv : usesV5 info = true
  · have hvd : usesV5 dinfo = true := by rw [usesV5_same h]; exact hv
    have hl : info.encoding_opt = .lossy := by
      simp only [usesV5, Bool.and_eq_true, decide_eq_true_eq] at hv
      exact hv.1.2
    have hsec : Format.sectioned info = true := by
      rw [uses_sections] at hv
      simp only [List.any_eq_true, Bool.and_eq_true] at hv
      obtain ⟨_, _, h1, _⟩ := hv
      exact h1
    obtain ⟨es, ds, b1, b2, b3, b4, b5, b6⟩ := build_v5 F info dinfo h hl
    have hparts : es.flatMap Enc.parts = fieldParts info (info.fields.zipIdx.filter fun x => !isAdaptiveType x.1.type) ∧ ∀ e ∈ es, e.SizeOK := by
      have b1 := b1
      unfold buildV5Plan at b1
      obtain ⟨lead, h1, b1⟩ := Res.bind_eq_ok.1 b1
      obtain ⟨rest, h2, b1⟩ := Res.bind_eq_ok.1 b1
      simp only [Res.ok.injEq, Prod.mk.injEq] at b1
      rw [← b1.1]
      refine plan_parts F info (fun f => !isAdaptiveType f.type) (by rw [hl]; simp) ?_ lead rest h1 ?_
      · intro f hf
        rw [groupSize_eq] at hf
        rw [(leadCount_take info f hf).2.1]
        rfl
      · rw [groupSize_eq]
        simpa only [hl, decide_true, Bool.true_and] using h2
    let ad := (info.fields.drop (leadingLossyFloatCount info)).filter fun f => isAdaptiveType f.type
    have had : ad = info.fields.filter fun f => isAdaptiveType f.type := wide_tail info
    have hda : getAdaptiveFields dinfo = ((dinfo.fields.drop (leadingLossyFloatCount info)).filter fun f => isAdaptiveType f.type).map mkAField := by
      unfold getAdaptiveFields
      rw [if_pos (by rw [h.opt, hl]), leadCount_same h.same h.opt]
    have hadad : ∀ f ∈ ad, isAdaptiveType f.type = true := fun f hf => (List.mem_filter.1 hf).2
    have hma : All2 AMatch (ad.map mkAField) (getAdaptiveFields dinfo) := by
      rw [hda]
      exact all2_mkAField (all2_filter (all2_take h.same _).2 _) hadad
    have hgoodA : ∀ p ∈ ad, ∀ c, c * kPointsPerChunk < points →
        GoodA info.point_step.toNat (min (points - c * kPointsPerChunk) kPointsPerChunk) (cloud.drop (c * kPointsPerChunk * info.point_step.toNat)) (mkAField p) := by
      intro p hpm c hc
      refine goodA_of_points (F := F) (hadad p hpm) hl (fun i hi => ?_)
      rw [List.drop_drop, ← Nat.add_mul, prevMem_chunk _ _ _ _ (by omega)]
      exact (hg (c * kPointsPerChunk + i) (by omega)).2 p (List.mem_filter.1 hpm).1
    refine ⟨ds, (ds.map Dec.minInputBytes).sum,
      writesV5 F info.point_step.toNat dinfo.point_step.toNat es ds (ad.map mkAField) (getAdaptiveFields dinfo) points cloud 0, ?_, ?_, ?_⟩
    · unfold buildDecoders; rw [if_pos hvd, b2]; rfl
    · intro w
      rw [mem_writesV5 F _ _ es ds _ _ points cloud 0 w (fun mem v => ∃ x ∈ ad.zip ((dinfo.fields.drop (leadingLossyFloatCount info)).filter fun f => isAdaptiveType f.type),
          v = (x.2.offset.toNat, sub mem x.1.offset.toNat (sizeOf x.1.type))) (by
        intro n mem base w
        rw [hda, mem_sectionWrites]
        constructor
        · rintro ⟨i, hi, x, hx, rfl⟩
          exact ⟨i, hi, _, ⟨x, hx, rfl⟩, rfl⟩
        · rintro ⟨i, hi, v, ⟨x, hx, rfl⟩, rfl⟩
          exact ⟨i, hi, x, hx, rfl⟩)]
      unfold CloudWrite
      constructor
      · rintro ⟨i, hi, v, hv2, rfl⟩
        refine ⟨i, hi, v, ?_, by simp⟩
        rcases hv2 with hv2 | ⟨x, hx, rfl⟩
        · rw [b4, mem_stores F _ _ h.same] at hv2
          obtain ⟨k, f, g, e1, e2, _, e3⟩ := hv2
          exact ⟨k, f, g, e1, e2, e3⟩
        · rw [zip_filter _ _ (all2_take h.same _).2] at hx
          obtain ⟨k, hk, e1, e2⟩ := mem_zip_drop.1 hx.1
          refine ⟨k, x.1, x.2, e1, e2, ?_⟩
          rw [fieldVal_adaptive hx.2]
          have hsk : SameKind x.1 x.2 := all2_getElem h.same k e1 e2
          have hns : x.2.offset.toNat ≠ kDecodeButSkipStore := hskip hv x.2 (List.mem_of_getElem? e2) (by rw [hsk.1]; exact hx.2)
          simp [Cloudini.store, hns]
      · rintro ⟨i, hi, v, ⟨k, f, g, e1, e2, e3⟩, rfl⟩
        refine ⟨i, hi, v, ?_, by simp⟩
        by_cases hc : k < leadingLossyFloatCount info ∨ (!isAdaptiveType f.type) = true
        · left
          rw [b4, mem_stores F _ _ h.same]
          exact ⟨k, f, g, e1, e2, hc, e3⟩
        · right
          have hk : ¬ k < leadingLossyFloatCount info := fun hh => hc (Or.inl hh)
          have ha : isAdaptiveType f.type = true := by
            have : ¬ (!isAdaptiveType f.type) = true := fun hh => hc (Or.inr hh)
            simpa using this
          refine ⟨(f, g), ?_, ?_⟩
          · rw [zip_filter _ _ (all2_take h.same _).2]
            exact ⟨mem_zip_drop.2 ⟨k, by omega, e1, e2⟩, ha⟩
          · rw [fieldVal_adaptive ha] at e3
            unfold Cloudini.store at e3
            split at e3
            · simp at e3
            · simpa using e3
    · intro cs hcl hcs buf buf' hbuf hw
      refine stage1V5_any F dinfo info.point_step.toNat es ds ad hvd (matchAll_reset b3) hma hparts.2 points (fun c p => AMode.ofWay (way c p)) ds cloud rfl
        (fun i hi => b6 _ _ (hg i hi)) hgoodA cs hcl ?_ _ buf 0 buf' (by omega) hw
      intro c y hy
      rw [hcs c y hy]
      have hc : c * kPointsPerChunk < points := by
        have h1 := (List.getElem?_eq_some_iff.1 hy).1
        rw [hcl] at h1
        show c * 32768 < points
        omega
      unfold Format.chunkBy Format.points Format.sectionsBy
      have e0 : ∀ f, (Format.sectioned info && Format.wide f) = isAdaptiveType f.type := fun f => by rw [hsec, wide_adaptive, Bool.true_and]
      simp only [e0]
      rw [hparts.1, points_eq, ← had]
      congr 1
      unfold sectionsIn
      refine flatMap_same _ _ _ fun p hpm => ?_
      have ha := hadad p hpm
      have hpos : 0 < sizeOf p.type ∧ sizeOf p.type ≤ 8 := by cases hf : p.type <;> simp_all [sizeOf, isAdaptiveType]
      have gc := hgoodA p hpm c hc
      have hs := gc.diffs.weak
      have hfl := fieldSeq_lengths _ _ _ _ gc.fits
      have e : fieldSeq info.point_step.toNat (mkAField p).offset (mkAField p).bpv (min (points - c * kPointsPerChunk) kPointsPerChunk)
          (cloud.drop (c * kPointsPerChunk * info.point_step.toNat)) =
            Format.cells info cloud p (c * 32768) (min (points - c * 32768) 32768) := fieldSeq_cells info cloud p _ _
      rw [e] at hs hfl ⊢
      rw [format_section (mkAField p) hpos.1 hpos.2 _ hfl (by simp [Format.cells]; omega) hs, ← twos_eq ha, section_ofWay]
      rfl
  · have hvf : usesV5 info = false := by simpa using hv
    obtain ⟨es, ds0, min0, b1, _⟩ := build_v4 F info dinfo h
    have hused : (⟨info, [], es⟩ : Encoder).Used F := Or.inr ⟨es, b1, rfl⟩
    obtain ⟨es', cs0, ds, min', ws, s1, _, s3, _, _, s5, s6⟩ := stage1_cloud F ⟨info, [], es⟩ dinfo cloud points h hused hstep hlen hg
      (fun h5 => absurd h5 hv) hskip
    refine ⟨ds, min', ws, s3, s5, ?_⟩
    intro cs hcl hcs
    have hp : cloud.length / info.point_step.toNat = points := by rw [hlen]; exact Nat.mul_div_cancel _ hstep
    obtain ⟨t1, t2⟩ := v4_chunks F ⟨info, [], es⟩ es' hused hvf cloud hstep (by simp only [hp]; exact hlen) cs0 s1
    simp only [hp] at t1 t2
    have : cs = cs0 := by
      apply List.ext_getElem?
      intro c
      by_cases hc : c < cs.length
      · have h1 := hcs c cs[c] (List.getElem?_eq_getElem hc)
        have h2 := t2 c cs0[c] (List.getElem?_eq_getElem (by omega))
        rw [List.getElem?_eq_getElem hc, List.getElem?_eq_getElem (by omega : c < cs0.length), h1, h2]
        congr 1
        unfold Format.chunkBy Format.chunk Format.sectionsBy Format.sections
        have hno : (info.fields.filter fun f => Format.sectioned info && Format.wide f) = [] := by
          rw [List.filter_eq_nil_iff]
          rw [uses_sections, List.any_eq_false] at hvf
          exact hvf
        rw [hno]
        rfl
      · rw [List.getElem?_eq_none (by omega), List.getElem?_eq_none (by omega)]
    subst this
    exact s6

theorem all2_of_getElem {α β : Type} {R : α → β → Prop} {as : List α} {bs : List β} (hl : as.length = bs.length)
    (h : ∀ (i : Nat) a b, as[i]? = some a → bs[i]? = some b → R a b) : All2 R as bs := by
  induction as generalizing bs with
  | nil => cases bs with
    | nil => trivial
    | cons b bs => cases hl
  | cons a as ih =>
    cases bs with
    | nil => cases hl
    | cons b bs =>
      exact ⟨h 0 a b rfl rfl, ih (by simpa using hl) fun i x y hx hy => h (i + 1) x y (by simpa using hx) (by simpa using hy)⟩

/-- Decoding a cloud that follows the format. -/
theorem decode_encodedBy (F : FloatOps) (C : Compressor) (info dinfo : EncodingInfo) (cloud : List Byte) (points fuel : Nat)
    (h : Agree F info dinfo) (hstep : 0 < info.point_step.toNat) (hpts : cloud.length = points * info.point_step.toNat)
    (hwh : dinfo.width.toNat * dinfo.height.toNat = points) (hver : 3#8 ≤ dinfo.version)
    (hg : ∀ i, i < points → PointGood F info (chunkPrev info.point_step.toNat cloud i) (cloud.drop (i * info.point_step.toNat)))
    (hskip : NoAdaptiveSkip info dinfo)
    (hfit : ∀ g ∈ dinfo.fields, g.offset.toNat ≠ kDecodeButSkipStore → g.offset.toNat + sizeOf g.type ≤ dinfo.point_step.toNat)
    (hdis : dinfo.fields.Pairwise fun g g' => g.offset.toNat ≠ kDecodeButSkipStore → g'.offset.toNat ≠ kDecodeButSkipStore →
      g.offset.toNat + sizeOf g.type ≤ g'.offset.toNat ∨ g'.offset.toNat + sizeOf g'.type ≤ g.offset.toNat)
    (way : Nat → PointField → Nat) (payload : List Byte) (hpay : Format.EncodedBy F C info cloud way points payload)
    (hmagic : payload.take 10 ≠ magic)
    (hcomp : info.compression_opt = .none ∨ info.compression_opt = .lz4 ∨ info.compression_opt = .zstd)
    (hlim : info.compression_opt = .none ∨ ∀ c, c * 32768 < points → (Format.chunkBy F info cloud way points c).length ≤ maxDecompressed dinfo)
    (hlz : info.compression_opt = .lz4 → maxDecompressed dinfo ≤ intMax)
    (buf : List Byte) (hbuf : points * dinfo.point_step.toNat ≤ buf.length) :
    ∃ buf', decodeCloud F C fuel dinfo payload buf = .ok buf' ∧ buf'.length = buf.length ∧
      (∀ i, i < points → ∀ k f g, info.fields[k]? = some f → dinfo.fields[k]? = some g → g.offset.toNat ≠ kDecodeButSkipStore →
        sub buf' (i * dinfo.point_step.toNat + g.offset.toNat) (sizeOf f.type) =
          fieldVal F info.encoding_opt (decide (k < leadingLossyFloatCount info)) f (cloud.drop (i * info.point_step.toNat))) := by
  obtain ⟨st, p1, p2, p3⟩ := hpay
  obtain ⟨ds, min', ws, s3, s5, s6⟩ := stage1_any F info dinfo cloud points h hstep hpts hg hskip way
  have hin : ∀ f ∈ info.fields, ∀ i, i < points → f.offset.toNat + sizeOf f.type ≤ (cloud.drop (i * info.point_step.toNat)).length := by
    intro f hf i hi
    have hgi := hg i hi
    rw [← List.take_append_drop (leadingLossyFloatCount info) info.fields, List.mem_append] at hf
    rcases hf with hf | hf
    · exact (hgi.1 f hf).1
    · exact (hgi.2 f hf).1
  have hfits : FitsAll buf.length ws := by
    intro w hw
    rw [s5] at hw
    obtain ⟨i, hi, v, ⟨k, f, g, e1, e2, e3⟩, rfl⟩ := hw
    unfold Cloudini.store at e3
    split at e3
    · simp at e3
    next hns =>
    simp only [List.mem_singleton] at e3
    subst e3
    have hl := fieldVal_length (F := F) (opt := info.encoding_opt) (lead := decide (k < leadingLossyFloatCount info))
      (hin f (List.mem_of_getElem? e1) i hi)
    have hf := hfit g (List.mem_of_getElem? e2) hns
    rw [(all2_getElem h.same k e1 e2).1] at hf
    simp only [hl]
    have h1 : (i + 1) * dinfo.point_step.toNat ≤ points * dinfo.point_step.toNat := Nat.mul_le_mul_right _ (by omega)
    rw [Nat.add_mul, Nat.one_mul] at h1
    omega
  obtain ⟨buf', hw⟩ := applyWrites_fits hfits
  let cs := (List.range st.length).map fun c => Format.chunkBy F info cloud way points c
  have hcs : ∀ c y, cs[c]? = some y → y = Format.chunkBy F info cloud way points c := by
    intro c y hy
    simp only [cs, List.getElem?_map, Option.map_eq_some_iff] at hy
    obtain ⟨x, hx, rfl⟩ := hy
    rw [List.getElem?_range (by have := (List.getElem?_eq_some_iff.1 hx).1; simpa using this)] at hx
    cases hx
    rfl
  have hdec := s6 cs (by simp only [cs, List.length_map, List.length_range]; exact p1) hcs buf buf' hbuf hw
  refine ⟨buf', ?_, applyWrites_length hw, ?_⟩
  · unfold decodeCloud
    rw [s3]
    simp only [Res.ok_bind]
    have hfl : (st.flatMap fun y => Format.le 4 y.length ++ y) = st.flatMap fun y => toLE 4 y.length ++ y :=
      flatMap_same _ _ _ fun y _ => by rw [format_le]
    rw [if_neg hmagic, if_pos hver, hwh, p3, hfl, decodeLoop_readable F C dinfo min' points ds st cs buf 0
      (all2_of_getElem (by simp [cs]) fun i y c hy hc => ?_)]
    · exact hdec
    · obtain ⟨r1, r2⟩ := p2 i y hy
      rw [hcs i c hc]
      refine ⟨r2, ?_⟩
      have hi : i * 32768 < points := by
        have h1 := (List.getElem?_eq_some_iff.1 hy).1
        rw [p1] at h1
        omega
      rw [h.comp]
      unfold Format.Readable at r1
      rcases hcomp with hc0 | hc0 | hc0
      · rw [if_pos hc0] at r1
        rw [hc0, r1]
        rfl
      · rw [if_neg (by rw [hc0]; simp)] at r1
        rw [hc0] at r1 ⊢
        have hll := r1.2 rfl
        have hm := hlz hc0
        unfold decompressChunk
        simp only
        rw [if_neg (by unfold intMax at *; omega), r1.1 _ (by
          rcases hlim with hl | hl
          · rw [hc0] at hl; cases hl
          · exact hl i hi)]
      · rw [if_neg (by rw [hc0]; simp)] at r1
        rw [hc0] at r1 ⊢
        unfold decompressChunk
        simp only
        rw [r1.1 _ (by
          rcases hlim with hl | hl
          · rw [hc0] at hl; cases hl
          · exact hl i hi)]
  · intro i hi k f g e1 e2 hns
    have hmem : (i * dinfo.point_step.toNat + g.offset.toNat,
        fieldVal F info.encoding_opt (decide (k < leadingLossyFloatCount info)) f (cloud.drop (i * info.point_step.toNat))) ∈ ws := by
      rw [s5]
      exact ⟨i, hi, (g.offset.toNat, fieldVal F info.encoding_opt (decide (k < leadingLossyFloatCount info)) f
        (cloud.drop (i * info.point_step.toNat))), ⟨k, f, g, e1, e2, by unfold Cloudini.store; rw [if_neg hns]; exact List.mem_singleton.2 rfl⟩, rfl⟩
    have := applyWrites_found hw _ hmem (fun w' hw' => cloudWrite_apart hin h.same hfit hdis ((s5 _).1 hw') ((s5 _).1 hmem))
    simp only at this
    rw [fieldVal_length (hin f (List.mem_of_getElem? e1) i hi)] at this
    exact this

end Cloudini.Props
