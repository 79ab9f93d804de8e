import Verif.Lemmas.Cloud

/-! Encoding and decoding a whole cloud. -/

namespace Cloudini

theorem fieldVal_length {F : FloatOps} {opt : EncOpt} {lead : Bool} {f : PointField} {mem : List Byte}
    (h : f.offset.toNat + sizeOf f.type ≤ mem.length) : (fieldVal F opt lead f mem).length = sizeOf f.type := by
  unfold fieldVal
  cases hf : f.type <;> cases hr : f.resolution <;> simp only [hf, sizeOf] at h ⊢ <;>
    first
    | exact sub_length h
    | (split <;> first | exact toLE_length _ _ | exact sub_length h)

theorem W_raw_empty (w : W) : w.raw [] = .ok w := by
  cases w; simp [W.raw]

theorem encodeView_inv (F : FloatOps) (C : Compressor) (enc enc' : Encoder) (cloud : List Byte) (room : Nat) (wh : Bool)
    (out : List Byte) (size : Nat) (h : encodeView F C enc cloud room wh = .ok (enc', out, size)) :
    ∃ cs payload, 0 < enc.info.point_step.toNat ∧
      cloud.length = cloud.length / enc.info.point_step.toNat * enc.info.point_step.toNat ∧
      stage1Chunks F enc cloud = .ok (enc'.encs, cs) ∧ enc'.info = enc.info ∧ enc'.header = enc.header ∧
      Framed C enc.info.compression_opt cs payload ∧ out = (if wh then enc.header else []) ++ payload ∧ size = out.length ∧
      out.length ≤ room := by
  unfold encodeView at h
  split at h
  · simp at h
  next h0 =>
  split at h
  · simp at h
  next h1 =>
  rw [Res.bind_eq_ok] at h
  obtain ⟨m, hm, h⟩ := h
  by_cases hroom : room < m + (if wh then enc.header.length else 0)
  · rw [if_pos hroom] at h
    simp at h
  rw [if_neg hroom] at h
  rw [Res.bind_eq_ok] at h
  obtain ⟨w, hw, h⟩ := h
  rw [Res.bind_eq_ok] at h
  obtain ⟨⟨enc1, w1, s1⟩, hp, h⟩ := h
  simp only [Res.ok.injEq, Prod.mk.injEq] at h
  obtain ⟨rfl, rfl, rfl⟩ := h
  obtain ⟨cs, payload, a1, a2, a3, a4, a5, a6, a7⟩ := encodePayload_inv F C enc enc1 cloud w w1 _ _ hp
  have hpos : 0 < enc.info.point_step.toNat := by
    rcases Nat.eq_zero_or_pos enc.info.point_step.toNat with hz | hz
    · exact absurd (BitVec.eq_of_toNat_eq (by simpa using hz)) h0
    · exact hz
  have hd : cloud.length = cloud.length / enc.info.point_step.toNat * enc.info.point_step.toNat := by
    have hmod : cloud.length % enc.info.point_step.toNat = 0 := by omega
    have := Nat.div_add_mod cloud.length enc.info.point_step.toNat
    rw [hmod, Nat.add_zero, Nat.mul_comm] at this
    exact this.symm
  rw [W.raw_eq_ok] at hw
  obtain ⟨hwl, rfl⟩ := hw
  refine ⟨cs, payload, hpos, hd, a1, a2, a3, a4, ?_, ?_, ?_⟩
  · rw [a6]; rfl
  · rw [a6, a7]
    cases wh <;> simp
  · rw [a6]
    simp only [List.nil_append, List.length_append] at a5 ⊢
    simp only at hwl
    omega

/-- Two stores of a cloud are the same one or touch no common byte. -/
theorem cloudWrite_apart {F : FloatOps} {info dinfo : EncodingInfo} {points : Nat} {cloud : List Byte}
    (hin : ∀ f ∈ info.fields, ∀ i, i < points → f.offset.toNat + sizeOf f.type ≤ (cloud.drop (i * info.point_step.toNat)).length)
    (hs : All2 SameKind info.fields dinfo.fields)
    (hfit : ∀ g ∈ dinfo.fields, g.offset.toNat ≠ kDecodeButSkipStore → g.offset.toNat + sizeOf g.type ≤ dinfo.point_step.toNat)
    (hdis : dinfo.fields.Pairwise fun g g' => g.offset.toNat ≠ kDecodeButSkipStore → g'.offset.toNat ≠ kDecodeButSkipStore →
      g.offset.toNat + sizeOf g.type ≤ g'.offset.toNat ∨ g'.offset.toNat + sizeOf g'.type ≤ g.offset.toNat)
    {a b : Write} (ha : CloudWrite F info dinfo points cloud a) (hb : CloudWrite F info dinfo points cloud b) : a = b ∨ Apart a b := by
  obtain ⟨i, hi, v, ⟨k, f, g, e1, e2, e3⟩, rfl⟩ := ha
  obtain ⟨i', hi', v', ⟨k', f', g', e1', e2', e3'⟩, rfl⟩ := hb
  unfold store at e3 e3'
  split at e3
  · simp at e3
  next hns =>
  split at e3'
  · simp at e3'
  next hns' =>
  simp only [List.mem_singleton] at e3 e3'
  subst e3 e3'
  have hk := all2_getElem hs k e1 e2
  have hk' := all2_getElem hs k' e1' e2'
  have hl := fieldVal_length (F := F) (opt := info.encoding_opt) (lead := decide (k < leadingLossyFloatCount info))
    (hin f (List.mem_of_getElem? e1) i hi)
  have hl' := fieldVal_length (F := F) (opt := info.encoding_opt) (lead := decide (k' < leadingLossyFloatCount info))
    (hin f' (List.mem_of_getElem? e1') i' hi')
  have hf := hfit g (List.mem_of_getElem? e2) hns
  have hf' := hfit g' (List.mem_of_getElem? e2') hns'
  rw [hk.1] at hf
  rw [hk'.1] at hf'
  unfold Apart
  simp only [hl, hl']
  rcases Nat.lt_trichotomy i i' with hlt | heq | hgt
  · right
    left
    have h1 : (i + 1) * dinfo.point_step.toNat ≤ i' * dinfo.point_step.toNat := Nat.mul_le_mul_right _ (by omega)
    rw [Nat.add_mul, Nat.one_mul] at h1
    omega
  · subst heq
    rcases Nat.lt_trichotomy k k' with hlt | heq | hgt
    · right
      have hp := List.pairwise_iff_getElem.1 hdis k k' (List.getElem?_eq_some_iff.1 e2).1 (List.getElem?_eq_some_iff.1 e2').1 hlt
      rw [(List.getElem?_eq_some_iff.1 e2).2, (List.getElem?_eq_some_iff.1 e2').2] at hp
      have := hp hns hns'
      rw [hk.1, hk'.1] at this
      omega
    · subst heq
      rw [e1] at e1'
      rw [e2] at e2'
      simp only [Option.some.injEq] at e1' e2'
      subst e1' e2'
      exact Or.inl rfl
    · right
      have hp := List.pairwise_iff_getElem.1 hdis k' k (List.getElem?_eq_some_iff.1 e2').1 (List.getElem?_eq_some_iff.1 e2).1 hgt
      rw [(List.getElem?_eq_some_iff.1 e2).2, (List.getElem?_eq_some_iff.1 e2').2] at hp
      have := hp hns' hns
      rw [hk.1, hk'.1] at this
      omega
  · right
    right
    have h1 : (i' + 1) * dinfo.point_step.toNat ≤ i * dinfo.point_step.toNat := Nat.mul_le_mul_right _ (by omega)
    rw [Nat.add_mul, Nat.one_mul] at h1
    omega

theorem payload_magic {C : Compressor} {opt : CompOpt} {cs : List (List Byte)} {payload : List Byte} (h : Framed C opt cs payload)
    (hl : payload.length < 0x554F4C43) : payload.take 10 ≠ magic := by
  cases h with
  | nil => simp [magic]
  | cons c y cs rest hw hf =>
    intro he
    have h4 : (toLE 4 y.length ++ (y ++ rest)).take 4 = magic.take 4 := by
      rw [← he, List.take_take]
      rfl
    rw [List.take_append_of_le_length (by simp), List.take_of_length_le (by simp)] at h4
    have := congrArg fromLE h4
    rw [fromLE_toLE] at this
    have hm : fromLE (magic.take 4) = 0x554F4C43 := by decide
    rw [hm, Nat.mod_eq_of_lt (by have := hw.1; simpa using this)] at this
    simp only [List.length_append, toLE_length] at hl
    omega

/-- The whole round trip. -/
theorem cloud_roundtrip (F : FloatOps) (C : Compressor) (hC : C.Lawful) (enc enc' : Encoder) (dinfo : EncodingInfo) (cloud : List Byte)
    (room : Nat) (wh : Bool) (out : List Byte) (size points fuel : Nat)
    (henc : encodeView F C enc cloud room wh = .ok (enc', out, size))
    (h : Agree F enc.info dinfo) (hu : enc.Used F)
    (hpts : cloud.length = points * enc.info.point_step.toNat)
    (hwh : dinfo.width.toNat * dinfo.height.toNat = points) (hver : 3#8 ≤ dinfo.version)
    (hg : ∀ i, i < points → PointGood F enc.info (chunkPrev enc.info.point_step.toNat cloud i) (cloud.drop (i * enc.info.point_step.toNat)))
    (h64 : usesV5 enc.info = true → (enc.info.fields.filter fun f => isAdaptiveType f.type).length ≤ 64) (hskip : NoAdaptiveSkip enc.info dinfo)
    (hfit : ∀ g ∈ dinfo.fields, g.offset.toNat ≠ kDecodeButSkipStore → g.offset.toNat + sizeOf g.type ≤ dinfo.point_step.toNat)
    (hdis : dinfo.fields.Pairwise fun g g' => g.offset.toNat ≠ kDecodeButSkipStore → g'.offset.toNat ≠ kDecodeButSkipStore →
      g.offset.toNat + sizeOf g.type ≤ g'.offset.toNat ∨ g'.offset.toNat + sizeOf g'.type ≤ g.offset.toNat)
    (hmagic : (out.drop (if wh then enc.header.length else 0)).take 10 ≠ magic)
    (hlim : dinfo.compression_opt = .none ∨ ∀ es cs, stage1Chunks F enc cloud = .ok (es, cs) → ∀ c ∈ cs, c.length ≤ maxDecompressed dinfo)
    (hlz : dinfo.compression_opt = .lz4 → maxDecompressed dinfo ≤ intMax)
    (buf : List Byte) (hbuf : points * dinfo.point_step.toNat ≤ buf.length) :
    ∃ buf', decodeCloud F C fuel dinfo (out.drop (if wh then enc.header.length else 0)) buf = .ok buf' ∧ buf'.length = buf.length ∧
      (∀ i, i < points → ∀ k f g, enc.info.fields[k]? = some f → dinfo.fields[k]? = some g → g.offset.toNat ≠ kDecodeButSkipStore →
        sub buf' (i * dinfo.point_step.toNat + g.offset.toNat) (sizeOf f.type) =
          fieldVal F enc.info.encoding_opt (decide (k < leadingLossyFloatCount enc.info)) f (cloud.drop (i * enc.info.point_step.toNat))) ∧
      ∀ p, (∀ i, i < points → ∀ g ∈ dinfo.fields, g.offset.toNat ≠ kDecodeButSkipStore →
          p < i * dinfo.point_step.toNat + g.offset.toNat ∨ i * dinfo.point_step.toNat + g.offset.toNat + sizeOf g.type ≤ p) →
        buf'[p]? = buf[p]? := by
  obtain ⟨cs, payload, p1, p2, p3, p4, p5, p6, p7, p8, _⟩ := encodeView_inv F C enc enc' cloud room wh out size henc
  have hdrop : out.drop (if wh then enc.header.length else 0) = payload := by rw [p7]; cases wh <;> simp
  rw [hdrop] at hmagic ⊢
  obtain ⟨es', cs', ds, min', ws, s1, s2, s3, s4, _, s5, s6⟩ := stage1_cloud F enc dinfo cloud points h hu p1 hpts hg h64 hskip
  rw [p3] at s1
  simp only [Res.ok.injEq, Prod.mk.injEq] at s1
  obtain ⟨_, rfl⟩ := s1
  have hin : ∀ f ∈ enc.info.fields, ∀ i, i < points → f.offset.toNat + sizeOf f.type ≤ (cloud.drop (i * enc.info.point_step.toNat)).length := by
    intro f hf i hi
    have hgi := hg i hi
    rw [← List.take_append_drop (leadingLossyFloatCount enc.info) enc.info.fields, List.mem_append] at hf
    rcases hf with hf | hf
    · exact (hgi.1 f hf).1
    · exact (hgi.2 f hf).1
  have hfits : FitsAll buf.length ws := by
    intro w hw
    rw [s5] at hw
    obtain ⟨i, hi, v, ⟨k, f, g, e1, e2, e3⟩, rfl⟩ := hw
    unfold store at e3
    split at e3
    · simp at e3
    next hns =>
    simp only [List.mem_singleton] at e3
    subst e3
    have hl := fieldVal_length (F := F) (opt := enc.info.encoding_opt) (lead := decide (k < leadingLossyFloatCount enc.info))
      (hin f (List.mem_of_getElem? e1) i hi)
    have hf := hfit g (List.mem_of_getElem? e2) hns
    rw [(all2_getElem h.same k e1 e2).1] at hf
    simp only [hl]
    have h1 : (i + 1) * dinfo.point_step.toNat ≤ points * dinfo.point_step.toNat := Nat.mul_le_mul_right _ (by omega)
    rw [Nat.add_mul, Nat.one_mul] at h1
    omega
  obtain ⟨buf', hw⟩ := applyWrites_fits hfits
  have hdec := s6 buf buf' hbuf hw
  refine ⟨buf', ?_, applyWrites_length hw, ?_, ?_⟩
  · unfold decodeCloud
    rw [s3]
    simp only [Res.ok_bind]
    rw [if_neg hmagic, if_pos hver, hwh, decodeLoop_framed F C hC dinfo min' points ds cs payload buf 0 (by rw [h.comp]; exact p6)
      (by
        rcases hlim with hl | hl
        · exact Or.inl hl
        · exact Or.inr (hl _ cs p3)) hlz]
    exact hdec
  · intro i hi k f g e1 e2 hns
    have hmem : (i * dinfo.point_step.toNat + g.offset.toNat,
        fieldVal F enc.info.encoding_opt (decide (k < leadingLossyFloatCount enc.info)) f (cloud.drop (i * enc.info.point_step.toNat))) ∈ ws := by
      rw [s5]
      exact ⟨i, hi, (g.offset.toNat, fieldVal F enc.info.encoding_opt (decide (k < leadingLossyFloatCount enc.info)) f
        (cloud.drop (i * enc.info.point_step.toNat))), ⟨k, f, g, e1, e2, by unfold store; rw [if_neg hns]; exact List.mem_singleton.2 rfl⟩, rfl⟩
    have := applyWrites_found hw _ hmem (fun w' hw' => cloudWrite_apart hin h.same hfit hdis ((s5 _).1 hw') ((s5 _).1 hmem))
    simp only at this
    rw [fieldVal_length (hin f (List.mem_of_getElem? e1) i hi)] at this
    exact this
  · intro p hp
    refine applyWrites_unwritten hw p ?_
    intro w hww
    rw [s5] at hww
    obtain ⟨i, hi, v, ⟨k, f, g, e1, e2, e3⟩, rfl⟩ := hww
    unfold store at e3
    split at e3
    · simp at e3
    next hns =>
    simp only [List.mem_singleton] at e3
    subst e3
    have hl := fieldVal_length (F := F) (opt := enc.info.encoding_opt) (lead := decide (k < leadingLossyFloatCount enc.info))
      (hin f (List.mem_of_getElem? e1) i hi)
    have := hp i hi g (List.mem_of_getElem? e2) hns
    rw [(all2_getElem h.same k e1 e2).1] at this
    simp only [hl]
    omega

end Cloudini
