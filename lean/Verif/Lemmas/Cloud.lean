import Verif.Lemmas.CloudSpec

/-! Whole clouds. -/

namespace Cloudini

/-- Stage 1 of a whole cloud: the chunks before compression. -/
def stage1Chunks (F : FloatOps) (enc : Encoder) (cloud : List Byte) : Res (List Enc × List (List Byte)) :=
  let points := cloud.length / enc.info.point_step.toNat
  if usesV5 enc.info then do
    let cap ← v5StageBufferSize enc.info kPointsPerChunk
    let (es, as) ← buildV5Plan F enc.info
    let cs ← stage1V5 F hashPaletteValue enc.info.point_step.toNat cap points es as cloud
    .ok (enc.encs, cs)
  else do
    let m ← maxSerializedPointSize enc.info.encoding_opt enc.info.fields
    stage1V4 F enc.info.point_step.toNat (kPointsPerChunk * max enc.info.point_step.toNat m) points enc.encs cloud

theorem encodePayload_inv (F : FloatOps) (C : Compressor) (enc enc' : Encoder) (cloud : List Byte) (w w' : W)
    (size size' : Nat)
    (h : encodePayload F C enc (cloud.length / enc.info.point_step.toNat) cloud w size = .ok (enc', w', size')) :
    ∃ cs payload, stage1Chunks F enc cloud = .ok (enc'.encs, cs) ∧ enc'.info = enc.info ∧ enc'.header = enc.header ∧
      Framed C enc.info.compression_opt cs payload ∧ payload.length ≤ w.room ∧
      w' = ⟨w.out ++ payload, w.room - payload.length⟩ ∧ size' = size + payload.length := by
  unfold encodePayload at h
  unfold stage1Chunks
  simp only
  by_cases hv : usesV5 enc.info = true
  · rw [if_pos hv] at h ⊢
    rw [Res.bind_eq_ok] at h
    obtain ⟨cap, h1, h⟩ := h
    rw [Res.bind_eq_ok] at h
    obtain ⟨⟨es, as⟩, h2, h⟩ := h
    simp only at h
    rw [Res.bind_eq_ok] at h
    obtain ⟨⟨w1, s1⟩, h3, h⟩ := h
    simp only [Res.ok.injEq, Prod.mk.injEq] at h
    obtain ⟨rfl, rfl, rfl⟩ := h
    obtain ⟨cs, payload, a1, a2, a3, a4, a5⟩ := encodeV5Loop_inv F C _ _ _ _ _ _ _ _ _ _ _ h3
    refine ⟨cs, payload, ?_, rfl, rfl, a2, a3, a4, a5⟩
    simp only [h1, h2, Res.ok_bind, a1]
  · rw [if_neg hv] at h ⊢
    rw [Res.bind_eq_ok] at h
    obtain ⟨m, h1, h⟩ := h
    rw [Res.bind_eq_ok] at h
    obtain ⟨⟨es, w1, s1⟩, h3, h⟩ := h
    simp only [Res.ok.injEq, Prod.mk.injEq] at h
    obtain ⟨rfl, rfl, rfl⟩ := h
    obtain ⟨cs, payload, a1, a2, a3, a4, a5⟩ := encodeV4Loop_inv F C _ _ _ _ _ _ _ _ _ _ h3
    refine ⟨cs, payload, ?_, rfl, rfl, a2, a3, a4, a5⟩
    simp only [h1, Res.ok_bind, a1]

theorem any_drop_same {fs gs : List PointField} (h : All2 SameKind fs gs) (p : FieldType → Bool) :
    (gs.any fun f => p f.type) = fs.any fun f => p f.type := by
  induction fs generalizing gs with
  | nil => cases gs <;> simp_all [All2]
  | cons f fs ih =>
    cases gs with
    | nil => exact h.elim
    | cons g gs => simp only [List.any_cons, h.1.1, ih h.2]

theorem usesV5_same {F : FloatOps} {info dinfo : EncodingInfo} (h : Agree F info dinfo) : usesV5 dinfo = usesV5 info := by
  unfold usesV5
  rw [h.version, h.opt, leadCount_same h.same h.opt, any_drop_same (all2_take h.same _).2]

/-- A store made for some point of the cloud. -/
def CloudWrite (F : FloatOps) (info dinfo : EncodingInfo) (points : Nat) (cloud : List Byte) (w : Write) : Prop :=
  ∃ i, i < points ∧ ∃ v, Intended F info dinfo (cloud.drop (i * info.point_step.toNat)) v ∧
    w = (i * dinfo.point_step.toNat + v.1, v.2)

/-- The encoder holds the V4 encoders of its info, in whatever state earlier calls left them. -/
def Encoder.Used (F : FloatOps) (enc : Encoder) : Prop :=
  usesV5 enc.info = true ∨ ∃ es0, buildV4Encoders F enc.info = .ok es0 ∧ enc.encs.map Enc.reset = es0.map Enc.reset

/-- Adaptive fields of the decoding side are not marked as skipped. -/
def NoAdaptiveSkip (info dinfo : EncodingInfo) : Prop :=
  usesV5 info = true → ∀ g ∈ dinfo.fields, isAdaptiveType g.type = true → g.offset.toNat ≠ kDecodeButSkipStore

theorem fieldVal_adaptive {F : FloatOps} {opt : EncOpt} {lead : Bool} {f : PointField} {mem : List Byte} (h : isAdaptiveType f.type = true) :
    fieldVal F opt lead f mem = sub mem f.offset.toNat (sizeOf f.type) := by
  unfold fieldVal
  cases hf : f.type <;> simp_all [isAdaptiveType]

theorem fieldGood_step {F : FloatOps} {opt : EncOpt} {f : PointField} {pm : Option (List Byte)} {mem : List Byte}
    (h : isAdaptiveType f.type = true) (hl : opt = .lossy) (hg : FieldGood F opt false f pm mem) :
    Step64 (toI64 (mkAField f).bpv (mkAField f).signed (sub mem (mkAField f).offset (mkAField f).bpv))
      (keptI (mkAField f).offset (mkAField f).bpv (mkAField f).signed pm) := by
  obtain ⟨h1, h2⟩ := hg
  cases hf : f.type <;> simp_all [isAdaptiveType, sizeOf, isSignedType, mkAField]

theorem subOK_of_steps {f : AField} {step n : Nat} {mem : List Byte} {pm : Option (List Byte)}
    (h : ∀ i, i < n → Step64 (toI64 f.bpv f.signed (sub (mem.drop (i * step)) f.offset f.bpv))
      (keptI f.offset f.bpv f.signed (prevMem pm step mem i))) :
    SubOK (keptI f.offset f.bpv f.signed pm) (ivals f (fieldSeq step f.offset f.bpv n mem)) := by
  induction n generalizing mem pm with
  | zero => simp [fieldSeq, ivals, SubOK]
  | succ n ih =>
    have h0 := subI64_step (h 0 (by omega))
    simp only [Nat.zero_mul, List.drop_zero, prevMem] at h0
    refine ⟨h0.1, h0.2, ?_⟩
    have := ih (mem := mem.drop step) (pm := some mem) (fun i hi => by
      have h1 := h (i + 1) (by omega)
      rw [← prevMem_succ pm] at h1
      rw [List.drop_drop, show step + i * step = (i + 1) * step from by rw [Nat.add_mul, Nat.one_mul, Nat.add_comm]]
      exact h1)
    simpa [fieldSeq, ivals, keptI] using this

theorem mul_add_mod_lt (c k i : Nat) (h : i < k) : (c * k + i) % k = i := by
  rw [Nat.add_comm, Nat.add_mul_mod_self_right, Nat.mod_eq_of_lt h]

theorem prevMem_chunk (step : Nat) (mem : List Byte) (c i : Nat) (hi : i < kPointsPerChunk) :
    prevMem none step (mem.drop (c * kPointsPerChunk * step)) i = chunkPrev step mem (c * kPointsPerChunk + i) := by
  unfold chunkPrev
  generalize hk : kPointsPerChunk = k at *
  rw [mul_add_mod_lt c k i hi]
  cases i with
  | zero => rfl
  | succ i =>
    rw [if_neg (by omega)]
    simp only [prevMem, List.drop_drop]
    rw [← Nat.add_mul, show c * k + (i + 1) - 1 = c * k + i from by omega]

theorem goodA_of_points {F : FloatOps} {info : EncodingInfo} {f : PointField} {mem : List Byte} {step n : Nat}
    (ha : isAdaptiveType f.type = true) (hl : info.encoding_opt = .lossy)
    (hg : ∀ i, i < n → FieldGood F info.encoding_opt false f (prevMem none step mem i) (mem.drop (i * step))) :
    GoodA step n mem (mkAField f) :=
  ⟨fun i hi => (hg i hi).1, subOK_of_steps (pm := none) fun i hi => fieldGood_step ha hl (hg i hi)⟩

theorem tinv_fresh (p : PointField) : TInv (mkAField p) := ⟨Or.inl rfl, rfl, by simp [mkAField], by simp [mkAField]⟩

theorem all2_mkAField {fs gs : List PointField} (h : All2 SameKind fs gs) (ha : ∀ f ∈ fs, isAdaptiveType f.type = true) :
    All2 AMatch (fs.map mkAField) (gs.map mkAField) := by
  induction fs generalizing gs with
  | nil => cases gs <;> simp_all [All2]
  | cons f fs ih =>
    cases gs with
    | nil => exact h.elim
    | cons g gs =>
      refine ⟨⟨by simp [mkAField, h.1.1], ?_⟩, ih h.2 (fun x hx => ha x (by simp [hx]))⟩
      have := ha f (by simp)
      simp only [mkAField]
      cases hf : f.type <;> simp_all [sizeOf, isAdaptiveType]

theorem all2_same_refl (as : List AField) : All2 (fun f g => SameField g f) as as := by
  induction as with
  | nil => trivial
  | cons a as ih => exact ⟨.refl a, ih⟩

theorem all2_getElem {α β : Type} {R : α → β → Prop} {as : List α} {bs : List β} (h : All2 R as bs) (k : Nat) {a : α} {b : β}
    (e1 : as[k]? = some a) (e2 : bs[k]? = some b) : R a b := by
  induction as generalizing bs k with
  | nil => simp at e1
  | cons f fs ih =>
    cases bs with
    | nil => simp at e2
    | cons g gs =>
      cases k with
      | zero => simp only [List.getElem?_cons_zero, Option.some.injEq] at e1 e2; rw [← e1, ← e2]; exact h.1
      | succ k => exact ih h.2 k (by simpa using e1) (by simpa using e2)

/-- Stage 1 of a whole cloud, and its inverse. -/
theorem stage1_cloud (F : FloatOps) (enc : Encoder) (dinfo : EncodingInfo) (cloud : List Byte) (points : Nat)
    (h : Agree F enc.info dinfo) (hu : enc.Used F) (hstep : 0 < enc.info.point_step.toNat)
    (hlen : cloud.length = points * enc.info.point_step.toNat)
    (hg : ∀ i, i < points → PointGood F enc.info (chunkPrev enc.info.point_step.toNat cloud i) (cloud.drop (i * enc.info.point_step.toNat)))
    (h64 : usesV5 enc.info = true → (enc.info.fields.filter fun f => isAdaptiveType f.type).length ≤ 64) (hskip : NoAdaptiveSkip enc.info dinfo) :
    ∃ es' cs ds min' ws, stage1Chunks F enc cloud = .ok (es', cs) ∧
      (usesV5 enc.info = true ∨ es'.map Enc.reset = enc.encs.map Enc.reset) ∧
      buildDecoders F dinfo = .ok (ds, min') ∧
      ChunkSizes (fun n => n * ((enc.info.fields.map (maxSer enc.info.encoding_opt)).sum +
        (if usesV5 enc.info then enc.info.fields.length else 0)) + (if usesV5 enc.info then 5 * enc.info.fields.length else 0)) points cs ∧
      (points ≤ kProbePoints → ChunkSizes (fun n => n * (enc.info.fields.map (maxSer enc.info.encoding_opt)).sum +
        (if usesV5 enc.info then enc.info.fields.length else 0)) points cs) ∧
      (∀ w, w ∈ ws ↔ CloudWrite F enc.info dinfo points cloud w) ∧
      ∀ buf buf', points * dinfo.point_step.toNat ≤ buf.length → applyWrites buf 0 ws = .ok buf' →
        decodeStage1 F dinfo min' points ds cs buf 0 = .ok buf' := by
  have hp : cloud.length / enc.info.point_step.toNat = points := by rw [hlen]; exact Nat.mul_div_cancel _ hstep
  have hms := maxSerializedPointSize_eq (opt := enc.info.encoding_opt) h.known
  unfold stage1Chunks
  simp only [hp]
  by_cases hv : usesV5 enc.info = true
  · have hvd : usesV5 dinfo = true := by rw [usesV5_same h]; exact hv
    have hl : enc.info.encoding_opt = .lossy := by
      simp only [usesV5, Bool.and_eq_true, decide_eq_true_eq] at hv
      exact hv.1.2
    obtain ⟨es, ds, b1, b2, b3, b4, b5, b6⟩ := build_v5 F enc.info dinfo h hl
    let ad := (enc.info.fields.drop (leadingLossyFloatCount enc.info)).filter fun f => isAdaptiveType f.type
    have hadle : ad.length ≤ enc.info.fields.length := by
      have h1 : ad.length ≤ (enc.info.fields.drop (leadingLossyFloatCount enc.info)).length := List.length_filter_le _ _
      rw [List.length_drop] at h1
      omega
    have hda : getAdaptiveFields dinfo = ((dinfo.fields.drop (leadingLossyFloatCount enc.info)).filter fun f => isAdaptiveType f.type).map mkAField := by
      unfold getAdaptiveFields
      rw [if_pos (by rw [h.opt, hl]), leadCount_same h.same h.opt]
    have hadad : ∀ f ∈ ad, isAdaptiveType f.type = true := fun f hf => (List.mem_filter.1 hf).2
    have hma : All2 AMatch (ad.map mkAField) (getAdaptiveFields dinfo) := by
      rw [hda]
      exact all2_mkAField (all2_filter (all2_take h.same _).2 _) hadad
    have hboundA : ∀ n, n * sumMax es + (ad.map mkAField).length * (5 + 11 * n) ≤
        n * ((enc.info.fields.map (maxSer enc.info.encoding_opt)).sum + ad.length) + 5 * ad.length := by
      intro n
      rw [List.length_map]
      have h1 : n * (sumMax es + 10 * ad.length) ≤ n * (enc.info.fields.map (maxSer enc.info.encoding_opt)).sum := Nat.mul_le_mul_left _ b5
      rw [Nat.mul_add] at h1 ⊢
      rw [Nat.mul_add, Nat.mul_comm ad.length 5]
      have h3 : n * (10 * ad.length) = 10 * (n * ad.length) := by rw [Nat.mul_left_comm]
      have h4 : ad.length * (11 * n) = 11 * (n * ad.length) := by rw [Nat.mul_left_comm, Nat.mul_comm ad.length]
      omega
    have hbound : ∀ n, n * sumMax es + (ad.map mkAField).length * (5 + 11 * n) ≤
        n * ((enc.info.fields.map (maxSer enc.info.encoding_opt)).sum + enc.info.fields.length) + 5 * enc.info.fields.length := by
      intro n
      rw [List.length_map]
      have h1 : n * (sumMax es + 10 * ad.length) ≤ n * (enc.info.fields.map (maxSer enc.info.encoding_opt)).sum := Nat.mul_le_mul_left _ b5
      have h2 : n * ad.length ≤ n * enc.info.fields.length := Nat.mul_le_mul_left _ hadle
      rw [Nat.mul_add] at h1 ⊢
      rw [Nat.mul_add, Nat.mul_comm ad.length 5]
      have h3 : n * (10 * ad.length) = 10 * (n * ad.length) := by rw [Nat.mul_left_comm]
      have h4 : ad.length * (11 * n) = 11 * (n * ad.length) := by rw [Nat.mul_left_comm, Nat.mul_comm ad.length]
      omega
    have hcapv : v5StageBufferSize enc.info kPointsPerChunk = .ok (kPointsPerChunk *
        (max enc.info.point_step.toNat (enc.info.fields.map (maxSer enc.info.encoding_opt)).sum + 64) +
        enc.info.fields.length * 64 + 1024) := by
      unfold v5StageBufferSize; rw [hms]; rfl
    obtain ⟨cs, t1, t2, t2', t3⟩ := stage1V5_trip F hashPaletteValue dinfo enc.info.point_step.toNat
      (kPointsPerChunk * (max enc.info.point_step.toNat (enc.info.fields.map (maxSer enc.info.encoding_opt)).sum + 64) +
        enc.info.fields.length * 64 + 1024) es ds (ad.map mkAField) hvd (matchAll_reset b3) hma points
      (by
        have had : ad.length ≤ 64 := Nat.le_trans ((List.Sublist.filter _ (List.drop_sublist _ _)).length_le) (h64 hv)
        refine Nat.le_trans (hboundA _) ?_
        have h1 : min points kPointsPerChunk * ((enc.info.fields.map (maxSer enc.info.encoding_opt)).sum + ad.length) ≤
            kPointsPerChunk * (max enc.info.point_step.toNat (enc.info.fields.map (maxSer enc.info.encoding_opt)).sum + 64) :=
          Nat.mul_le_mul (Nat.min_le_right _ _) (Nat.add_le_add (Nat.le_max_right _ _) had)
        omega)
      es ds (ad.map mkAField) cloud rfl rfl (all2_same_refl _)
      ⟨false, fun f hf => by simp only [List.mem_map] at hf; obtain ⟨p, _, rfl⟩ := hf; rfl⟩
      (fun f hf => by simp only [List.mem_map] at hf; obtain ⟨p, _, rfl⟩ := hf; exact tinv_fresh p)
      (fun i hi => b6 _ _ (hg i hi))
      (fun f hf c hc => by
        simp only [List.mem_map] at hf
        obtain ⟨p, hpm, rfl⟩ := hf
        refine goodA_of_points (F := F) (hadad p hpm) hl (fun i hi => ?_)
        rw [List.drop_drop, ← Nat.add_mul, prevMem_chunk _ _ _ _ (by omega)]
        exact (hg (c * kPointsPerChunk + i) (by omega)).2 p (List.mem_filter.1 hpm).1)
    refine ⟨enc.encs, cs, ds, (ds.map Dec.minInputBytes).sum,
      writesV5 F enc.info.point_step.toNat dinfo.point_step.toNat es ds (ad.map mkAField) (getAdaptiveFields dinfo) points cloud 0,
      ?_, Or.inl hv, ?_, ?_, ?_, ?_, ?_⟩
    · rw [if_pos hv, hcapv]
      simp only [Res.ok_bind, b1, t1, ad]
    · unfold buildDecoders; rw [if_pos hvd, b2]; rfl
    · rw [if_pos hv, if_pos hv]
      exact t2.mono fun n _ _ => hbound n
    · intro hpp
      rw [if_pos hv]
      refine (t2' hpp (fun f hf => by simp only [List.mem_map] at hf; obtain ⟨p, _, rfl⟩ := hf; rfl)).mono fun n _ _ => ?_
      rw [List.length_map]
      have h1 : n * (sumMax es + 10 * ad.length) ≤ n * (enc.info.fields.map (maxSer enc.info.encoding_opt)).sum := Nat.mul_le_mul_left _ b5
      rw [Nat.mul_add] at h1
      have h3 : n * (10 * ad.length) = 10 * (n * ad.length) := by rw [Nat.mul_left_comm]
      have h4 : ad.length * (10 * n) = 10 * (n * ad.length) := by rw [Nat.mul_left_comm, Nat.mul_comm ad.length]
      simp only [Nat.mul_add, Nat.mul_one]
      omega
    · intro w
      rw [mem_writesV5 F _ _ es ds _ _ points cloud 0 w (fun mem v => ∃ x ∈ ad.zip ((dinfo.fields.drop (leadingLossyFloatCount enc.info)).filter fun f => isAdaptiveType f.type),
          v = (x.2.offset.toNat, sub mem x.1.offset.toNat (sizeOf x.1.type))) (by
        intro n mem base w
        rw [hda, mem_sectionWrites]
        constructor
        · rintro ⟨i, hi, x, hx, rfl⟩
          exact ⟨i, hi, _, ⟨x, hx, rfl⟩, rfl⟩
        · rintro ⟨i, hi, v, ⟨x, hx, rfl⟩, rfl⟩
          exact ⟨i, hi, x, hx, rfl⟩)]
      unfold CloudWrite
      constructor
      · rintro ⟨i, hi, v, hv2, rfl⟩
        refine ⟨i, hi, v, ?_, by simp⟩
        rcases hv2 with hv2 | ⟨x, hx, rfl⟩
        · rw [b4, mem_stores F _ _ h.same] at hv2
          obtain ⟨k, f, g, e1, e2, _, e3⟩ := hv2
          exact ⟨k, f, g, e1, e2, e3⟩
        · rw [zip_filter _ _ (all2_take h.same _).2] at hx
          obtain ⟨k, hk, e1, e2⟩ := mem_zip_drop.1 hx.1
          refine ⟨k, x.1, x.2, e1, e2, ?_⟩
          rw [fieldVal_adaptive hx.2]
          have hsk : SameKind x.1 x.2 := all2_getElem h.same k e1 e2
          have hns : x.2.offset.toNat ≠ kDecodeButSkipStore := hskip hv x.2 (List.mem_of_getElem? e2) (by rw [hsk.1]; exact hx.2)
          simp [store, hns]
      · rintro ⟨i, hi, v, ⟨k, f, g, e1, e2, e3⟩, rfl⟩
        refine ⟨i, hi, v, ?_, by simp⟩
        by_cases hc : k < leadingLossyFloatCount enc.info ∨ (!isAdaptiveType f.type) = true
        · left
          rw [b4, mem_stores F _ _ h.same]
          exact ⟨k, f, g, e1, e2, hc, e3⟩
        · right
          have hk : ¬ k < leadingLossyFloatCount enc.info := fun hh => hc (Or.inl hh)
          have ha : isAdaptiveType f.type = true := by
            have : ¬ (!isAdaptiveType f.type) = true := fun hh => hc (Or.inr hh)
            simpa using this
          refine ⟨(f, g), ?_, ?_⟩
          · rw [zip_filter _ _ (all2_take h.same _).2]
            exact ⟨mem_zip_drop.2 ⟨k, by omega, e1, e2⟩, ha⟩
          · rw [fieldVal_adaptive ha] at e3
            unfold store at e3
            split at e3
            · simp at e3
            · simpa using e3
    · intro buf buf' hbuf hw
      exact t3 _ buf 0 buf' (by omega) hw
  · have hvf : usesV5 enc.info = false := by simpa using hv
    have hvd : usesV5 dinfo = false := by rw [usesV5_same h]; exact hvf
    obtain ⟨es, ds, min', b1, b2, b3, b4, b5, b6, b7⟩ := build_v4 F enc.info dinfo h
    have he : enc.encs.map Enc.reset = es.map Enc.reset := by
      rcases hu with hu | ⟨es0, hu1, hu2⟩
      · exact absurd hu hv
      · rw [b1] at hu1
        simp only [Res.ok.injEq] at hu1
        subst hu1
        exact hu2
    obtain ⟨es', cs, t1, t2, t3, t4⟩ := stage1V4_trip F dinfo enc.info.point_step.toNat
      (kPointsPerChunk * max enc.info.point_step.toNat (enc.info.fields.map (maxSer enc.info.encoding_opt)).sum) es ds hvd
      (matchAll_reset b4) hstep points
      (Nat.mul_le_mul (Nat.min_le_right _ _) (Nat.le_trans b6 (Nat.le_max_right _ _)))
      enc.encs ds cloud he rfl hlen (fun i hi => b7 _ _ (hg i hi))
    refine ⟨es', cs, ds, min', pointsWrites F enc.info.point_step.toNat es ds dinfo.point_step.toNat points cloud 0,
      ?_, Or.inr (t2.trans he.symm), ?_, ?_, ?_, ?_, ?_⟩
    · rw [if_neg hv, hms]
      simp only [Res.ok_bind, t1]
    · unfold buildDecoders; rw [hvd]; exact b2
    · rw [hvf]
      simp only [Bool.false_eq_true, if_false, Nat.add_zero]
      exact t3.mono fun n _ _ => Nat.mul_le_mul_left _ b6
    · intro _
      rw [hvf]
      simp only [Bool.false_eq_true, if_false, Nat.add_zero]
      exact t3.mono fun n _ _ => Nat.mul_le_mul_left _ b6
    · intro w
      rw [mem_pointsWrites]
      unfold CloudWrite
      constructor
      · rintro ⟨i, hi, v, hv2, rfl⟩
        rw [b5, mem_stores_all F _ _ h.same] at hv2
        exact ⟨i, hi, v, hv2, by simp⟩
      · rintro ⟨i, hi, v, hv2, rfl⟩
        refine ⟨i, hi, v, ?_, by simp⟩
        rw [b5, mem_stores_all F _ _ h.same]
        exact hv2
    · intro buf buf' hbuf hw
      exact t4 min' buf 0 buf' (by omega) (by omega) hw

end Cloudini
