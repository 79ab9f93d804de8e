import Verif.Lemmas.FormatV5
import Verif.Props.C86

/-!
# C90: the bytes of an encoded cloud are those of the format

The format is written down in `Spec/Format`, without reference to the model of the code.  An encoder and a decoder that were changed
together would still agree with each other; this property pins the bytes themselves.
-/

namespace Cloudini.Props

theorem fieldSeq_cells (info : EncodingInfo) (cloud : List Byte) (f : PointField) (n s : Nat) :
    fieldSeq info.point_step.toNat f.offset.toNat (sizeOf f.type) n (cloud.drop (s * info.point_step.toNat)) = Format.cells info cloud f s n := by
  rw [fieldSeq_chunk]
  unfold Format.cells
  apply List.map_congr_left
  intro i _
  unfold cell fieldBytes Format.cellAt
  rw [Nat.zero_add]

theorem twos_eq {f : PointField} (h : isAdaptiveType f.type = true) : (isSignedType f.type || sizeOf f.type == 8) = Format.twosComplement f.type := by
  unfold Format.twosComplement
  cases hf : f.type <;> simp_all [isAdaptiveType, isSignedType, sizeOf]

/-- Whether some field goes to a section. -/
theorem uses_sections (info : EncodingInfo) : usesV5 info = info.fields.any fun f => Format.sectioned info && Format.wide f := by
  unfold usesV5 Format.sectioned
  have hvv : info.version ≥ 5#8 ↔ 5 ≤ info.version.toNat := by simp [BitVec.le_def]
  rw [decide_eq_decide.2 hvv]
  have hany : (info.fields.drop (leadingLossyFloatCount info)).any (fun f => isAdaptiveType f.type) = info.fields.any fun f => isAdaptiveType f.type := by
    have h := wide_tail info
    rw [Bool.eq_iff_iff, List.any_eq_true, List.any_eq_true]
    constructor
    · rintro ⟨f, hf, ha⟩
      exact ⟨f, List.mem_of_mem_drop hf, ha⟩
    · rintro ⟨f, hf, ha⟩
      have : f ∈ info.fields.filter fun f => isAdaptiveType f.type := List.mem_filter.2 ⟨hf, ha⟩
      rw [← h] at this
      exact ⟨f, (List.mem_filter.1 this).1, ha⟩
  have hw : (fun f => (decide (5 ≤ info.version.toNat) && decide (info.encoding_opt = .lossy)) && Format.wide f) =
      fun f : PointField => (decide (5 ≤ info.version.toNat) && decide (info.encoding_opt = .lossy)) && isAdaptiveType f.type := by
    funext f; rw [wide_adaptive]
  rw [hw, hany]
  by_cases h : (decide (5 ≤ info.version.toNat) && decide (info.encoding_opt = .lossy)) = true
  · rw [h]; simp
  · simp only [Bool.not_eq_true] at h
    rw [h]
    simp

theorem all2_self {α : Type} {R : α → α → Prop} (as : List α) (h : ∀ a ∈ as, R a a) : All2 R as as := by
  induction as with
  | nil => trivial
  | cons a as ih => exact ⟨h a (by simp), ih fun x hx => h x (by simp [hx])⟩

/-- Clouds with sections. -/
theorem v5_encoded (F : FloatOps) (C : Compressor) (enc enc' : Encoder) (hinfo : ValidInfo F enc.info) (n : Nat) (cloud : List Byte)
    (hcloud : CloudOf F enc.info n cloud) (h64 : FieldLimit enc.info) (hv : usesV5 enc.info = true) (room : Nat) (wh : Bool) (out : List Byte) (size : Nat)
    (h : encodeView F C enc cloud room wh = .ok (enc', out, size)) :
    ∃ payload, out = (if wh then enc.header else []) ++ payload ∧ Format.Encoded F C enc.info cloud n payload := by
  obtain ⟨cs, payload, hst, hlen, hs1, _, _, hfr, rfl, _, _⟩ := encodeView_inv F C enc enc' cloud room wh out size h
  refine ⟨payload, rfl, ?_⟩
  have hp : cloud.length / enc.info.point_step.toNat = n := by rw [hcloud.size]; exact Nat.mul_div_cancel _ hst
  have hpts := cloudOf_points hinfo hcloud
  have hkn : ∀ f ∈ enc.info.fields, KnownType f.type := fun f hf => (known_of_types (hinfo.types f hf)).1
  have hagree := valid_agree hinfo (all2_refl_same enc.info.fields) rfl rfl rfl
  have hopt : enc.info.encoding_opt = .lossy := by
    unfold usesV5 at hv
    simp only [Bool.and_eq_true, decide_eq_true_eq] at hv
    exact hv.1.2
  have hsec : Format.sectioned enc.info = true := by
    rw [uses_sections] at hv
    simp only [List.any_eq_true, Bool.and_eq_true] at hv
    obtain ⟨_, _, h1, _⟩ := hv
    exact h1
  obtain ⟨es, ds, b1, b2, b3, b4, b5, b6⟩ := build_v5 F enc.info enc.info hagree hopt
  have hparts : es.flatMap Enc.parts = fieldParts enc.info (enc.info.fields.zipIdx.filter fun x => !isAdaptiveType x.1.type) ∧ ∀ e ∈ es, e.SizeOK := by
    have b1 := b1
    unfold buildV5Plan at b1
    obtain ⟨lead, h1, b1⟩ := Res.bind_eq_ok.1 b1
    obtain ⟨rest, h2, b1⟩ := Res.bind_eq_ok.1 b1
    simp only [Res.ok.injEq, Prod.mk.injEq] at b1
    rw [← b1.1]
    refine plan_parts F enc.info (fun f => !isAdaptiveType f.type) (by rw [hopt]; simp) ?_ lead rest h1 ?_
    · intro f hf
      rw [groupSize_eq] at hf
      rw [(leadCount_take enc.info f hf).2.1]
      rfl
    · rw [groupSize_eq]
      simpa only [hopt, decide_true, Bool.true_and] using h2
  rw [wide_tail] at b1 b5
  have hms := maxSerializedPointSize_eq (opt := enc.info.encoding_opt) hkn
  unfold stage1Chunks at hs1
  simp only [hp] at hs1
  rw [if_pos hv] at hs1
  have hcapv : v5StageBufferSize enc.info kPointsPerChunk = .ok (kPointsPerChunk *
      (max enc.info.point_step.toNat (enc.info.fields.map (maxSer enc.info.encoding_opt)).sum + 64) +
      enc.info.fields.length * 64 + 1024) := by
    unfold v5StageBufferSize; rw [hms]; rfl
  rw [hcapv] at hs1
  simp only [Res.ok_bind, b1] at hs1
  obtain ⟨cs', hs2, hs1⟩ := Res.bind_eq_ok.1 hs1
  simp only [Res.ok.injEq, Prod.mk.injEq] at hs1
  obtain ⟨_, rfl⟩ := hs1
  let ad := enc.info.fields.filter fun f => isAdaptiveType f.type
  have hadad : ∀ f ∈ ad, isAdaptiveType f.type = true := fun f hf => (List.mem_filter.1 hf).2
  have h8 : ∀ f ∈ ad.map mkAField, f.bpv ≤ 8 := by
    intro f hf
    simp only [List.mem_map] at hf
    obtain ⟨p, hpm, rfl⟩ := hf
    have := hadad p hpm
    simp only [mkAField]
    cases hf : p.type <;> simp_all [sizeOf, isAdaptiveType]
  have hgoodA : ∀ p ∈ ad, ∀ c, c * kPointsPerChunk < n →
      GoodA enc.info.point_step.toNat (min (n - c * kPointsPerChunk) kPointsPerChunk) (cloud.drop (c * kPointsPerChunk * enc.info.point_step.toNat)) (mkAField p) := by
    intro p hpm c hc
    refine goodA_of_points (F := F) (hadad p hpm) hopt (fun i hi => ?_)
    rw [List.drop_drop, ← Nat.add_mul, prevMem_chunk _ _ _ _ (by omega)]
    have hd := (hpts (c * kPointsPerChunk + i) (by omega)).2 p
    refine hd ?_
    have : p ∈ (enc.info.fields.drop (leadingLossyFloatCount enc.info)).filter fun f => isAdaptiveType f.type := by rw [wide_tail]; exact hpm
    exact (List.mem_filter.1 this).1
  have hb := stage1V5_bytes F hashPaletteValue enc.info.point_step.toNat (kPointsPerChunk *
      (max enc.info.point_step.toNat (enc.info.fields.map (maxSer enc.info.encoding_opt)).sum + 64) +
      enc.info.fields.length * 64 + 1024) es ds (ad.map mkAField) (matchAll_reset b3) hparts.2 h8
    (chosen enc.info.point_step.toNat (min n kPointsPerChunk) cloud) n
    (by
      clear hs1 hs2 hcapv
      have had : ad.length ≤ 64 := fieldLimit_v5 h64 hv
      rw [List.length_map]
      have h1 : min n kPointsPerChunk * (sumMax es + 10 * ad.length) ≤ min n kPointsPerChunk * (enc.info.fields.map (maxSer enc.info.encoding_opt)).sum :=
        Nat.mul_le_mul_left _ b5
      have h2 : min n kPointsPerChunk * ((enc.info.fields.map (maxSer enc.info.encoding_opt)).sum + ad.length) ≤
          kPointsPerChunk * (max enc.info.point_step.toNat (enc.info.fields.map (maxSer enc.info.encoding_opt)).sum + 64) :=
        Nat.mul_le_mul (Nat.min_le_right _ _) (Nat.add_le_add (Nat.le_max_right _ _) had)
      rw [Nat.mul_add] at h1 h2
      have h3 : min n kPointsPerChunk * (10 * ad.length) = 10 * (min n kPointsPerChunk * ad.length) := by rw [Nat.mul_left_comm]
      have h4 : ad.length * (11 * min n kPointsPerChunk) = 11 * (min n kPointsPerChunk * ad.length) := by rw [Nat.mul_left_comm, Nat.mul_comm ad.length]
      rw [Nat.mul_add ad.length]
      generalize min n kPointsPerChunk * ad.length = u at *
      generalize min n kPointsPerChunk * sumMax es = v at *
      generalize kPointsPerChunk * (max enc.info.point_step.toNat (enc.info.fields.map (maxSer enc.info.encoding_opt)).sum + 64) = w at *
      generalize min n kPointsPerChunk * (enc.info.fields.map (maxSer enc.info.encoding_opt)).sum = x at *
      omega)
    es (ad.map mkAField) cloud rfl (all2_self _ fun f _ => ⟨SameField.refl f, fun _ => rfl⟩)
    ⟨false, fun f hf => by simp only [List.mem_map] at hf; obtain ⟨p, _, rfl⟩ := hf; rfl⟩
    (fun f hf => by simp only [List.mem_map] at hf; obtain ⟨p, _, rfl⟩ := hf; exact tinv_fresh p)
    (fun i hi => b6 _ _ (hpts i hi))
    (fun f hf c hc => by
      simp only [List.mem_map] at hf
      obtain ⟨p, hpm, rfl⟩ := hf
      exact hgoodA p hpm c hc)
    cs' hs2
  refine encoded_of_chunks hfr hb.1 ?_
  intro c y hy
  obtain ⟨hc, rfl⟩ := hb.2 c y hy
  unfold Format.chunk Format.points Format.sections
  have e0 : ∀ f, (Format.sectioned enc.info && Format.wide f) = isAdaptiveType f.type := fun f => by rw [hsec, wide_adaptive, Bool.true_and]
  simp only [e0]
  rw [hparts.1, points_eq]
  congr 1
  refine flatMap_map_id mkAField _ _ _ fun p hpm => ?_
  have ha := hadad p hpm
  have hK : kPointsPerChunk = 32768 := rfl
  have hP : kProbePoints = 4096 := rfl
  have hpos : 0 < sizeOf p.type ∧ sizeOf p.type ≤ 8 := by cases hf : p.type <;> simp_all [sizeOf, isAdaptiveType]
  have key : ∀ s k m, k ≤ m → m ≤ 32768 → GoodA enc.info.point_step.toNat m (cloud.drop (s * enc.info.point_step.toNat)) (mkAField p) →
      (∀ b ∈ Format.cells enc.info cloud p s k, b.length = (mkAField p).bpv) ∧ (Format.cells enc.info cloud p s k).length ≤ 65535 ∧
        SubW 0#64 (ivals (mkAField p) (Format.cells enc.info cloud p s k)) := by
    intro s k m hk hm hg
    have hs := (subOK_take hg hk).weak
    have hl := fieldSeq_lengths _ k _ _ (fun i hi => hg.1 i (by omega))
    have e : fieldSeq enc.info.point_step.toNat (mkAField p).offset (mkAField p).bpv k (cloud.drop (s * enc.info.point_step.toNat)) =
        Format.cells enc.info cloud p s k := fieldSeq_cells enc.info cloud p k s
    rw [e] at hs hl
    exact ⟨hl, by simp [Format.cells]; omega, hs⟩
  have g0 := hgoodA p hpm 0 (by omega)
  have gc := hgoodA p hpm c hc
  simp only [Nat.zero_mul, Nat.sub_zero] at g0
  have hmode : (chosen enc.info.point_step.toNat (min n kPointsPerChunk) cloud (mkAField p)).way =
      Format.shortest (Format.twosComplement p.type) (Format.cells enc.info cloud p 0 (min n 4096)) := by
    unfold chosen
    rw [if_neg (by simp [mkAField]), show min (min n kPointsPerChunk) kProbePoints = min n 4096 by omega]
    obtain ⟨k1, k2, k3⟩ := key 0 (min n 4096) (min n kPointsPerChunk) (by omega) (by omega) (by rw [Nat.zero_mul]; exact g0)
    have e : fieldSeq enc.info.point_step.toNat (mkAField p).offset (mkAField p).bpv (min n 4096) cloud =
        Format.cells enc.info cloud p 0 (min n 4096) := by
      have := fieldSeq_cells enc.info cloud p (min n 4096) 0
      rwa [Nat.zero_mul, List.drop_zero] at this
    rw [e, format_shortest (mkAField p) hpos.1 hpos.2 _ k1 k2 k3, ← twos_eq ha]
    rfl
  have e : fieldSeq enc.info.point_step.toNat (mkAField p).offset (mkAField p).bpv (min (n - c * kPointsPerChunk) kPointsPerChunk)
      (cloud.drop (c * kPointsPerChunk * enc.info.point_step.toNat)) =
        Format.cells enc.info cloud p (c * 32768) (min (n - c * 32768) 32768) := fieldSeq_cells enc.info cloud p _ _
  obtain ⟨k1, k2, k3⟩ := key (c * 32768) (min (n - c * 32768) 32768) (min (n - c * kPointsPerChunk) kPointsPerChunk) (Nat.le_refl _) (by omega) gc
  rw [e, format_section (mkAField p) hpos.1 hpos.2 _ k1 k2 k3, hmode, ← twos_eq ha]
  rfl

/-- **C90.** Whatever the encoder did before: what it writes is the header, if asked for, and then the encoded cloud as the format has it. -/
theorem C90_bytes (F : FloatOps) (C : Compressor) (info : EncodingInfo) (header : List Byte) (enc enc' : Encoder) (hinfo : ValidInfo F info)
    (hreach : Reach F C info header enc) (n : Nat) (cloud : List Byte) (hcloud : CloudOf F info n cloud) (h64 : FieldLimit info)
    (room : Nat) (wh : Bool) (out : List Byte) (size : Nat) (h : encodeView F C enc cloud room wh = .ok (enc', out, size)) :
    ∃ payload, out = (if wh then header else []) ++ payload ∧ Format.Encoded F C info cloud n payload := by
  obtain ⟨rfl, rfl, hused⟩ := reach_used hreach
  by_cases hv : usesV5 enc.info = true
  · exact v5_encoded F C enc enc' hinfo n cloud hcloud h64 hv room wh out size h
  · have hst : 0 < enc.info.point_step.toNat := hinfo.step
    have := v4_encoded F C enc enc' hused (by simpa using hv) cloud room wh out size h
    rwa [hcloud.size, Nat.mul_div_cancel _ hst] at this

/-- **C90, without sections.** If no field goes to a section, this holds of every description and every cloud the encoder accepts. -/
theorem C90_bytes_plain (F : FloatOps) (C : Compressor) (info : EncodingInfo) (header : List Byte) (enc enc' : Encoder)
    (hreach : Reach F C info header enc) (hno : ∀ f ∈ info.fields, Format.sectioned info = true → Format.wide f = false)
    (cloud : List Byte) (room : Nat) (wh : Bool) (out : List Byte) (size : Nat)
    (h : encodeView F C enc cloud room wh = .ok (enc', out, size)) :
    ∃ payload, out = (if wh then header else []) ++ payload ∧
      Format.Encoded F C info cloud (cloud.length / info.point_step.toNat) payload := by
  obtain ⟨rfl, rfl, hused⟩ := reach_used hreach
  refine v4_encoded F C enc enc' hused ?_ cloud room wh out size h
  rw [uses_sections, List.any_eq_false]
  intro f hf
  simp only [Bool.and_eq_true, not_and, Bool.not_eq_true]
  exact fun hs => hno f hf hs

/-- **C90, the vector.** The same for the call that fills a vector: the header and the encoded cloud. -/
theorem C90_bytes_vector (F : FloatOps) (C : Compressor) (info : EncodingInfo) (header : List Byte) (enc enc' : Encoder) (hinfo : ValidInfo F info)
    (hreach : Reach F C info header enc) (n : Nat) (cloud : List Byte) (hcloud : CloudOf F info n cloud) (h64 : FieldLimit info)
    (estimate : Nat) (out : List Byte) (size : Nat) (h : encodeVector F C enc estimate cloud = .ok (enc', out, size)) :
    ∃ payload, out = header ++ payload ∧ Format.Encoded F C info cloud n payload := by
  unfold encodeVector at h
  by_cases h0 : enc.info.point_step = 0#32
  · rw [if_pos h0] at h; cases h
  rw [if_neg h0] at h
  by_cases h1 : cloud.length % enc.info.point_step.toNat ≠ 0
  · rw [if_pos h1] at h; cases h
  rw [if_neg h1] at h
  obtain ⟨m, _, h⟩ := Res.bind_eq_ok.1 h
  obtain ⟨w, hw, h⟩ := Res.bind_eq_ok.1 h
  obtain ⟨⟨enc2, out2, size2⟩, h2, h⟩ := Res.bind_eq_ok.1 h
  simp only [Res.ok.injEq, Prod.mk.injEq] at h
  obtain ⟨rfl, rfl, rfl⟩ := h
  obtain ⟨payload, hout, h3⟩ := C90_bytes F C info header enc enc2 hinfo hreach n cloud hcloud h64 w.room false out2 size2 h2
  obtain ⟨_, _, _, _, _, _, hhead, _, _, hsz, _⟩ := encodeView_inv F C enc enc2 cloud w.room false _ size2 h2
  obtain ⟨rfl, rfl, _⟩ := reach_used hreach
  obtain ⟨_, rfl⟩ := W.raw_eq_ok.1 hw
  simp only [Bool.false_eq_true, if_false, List.nil_append] at hout
  subst hout
  refine ⟨out2, ?_, h3⟩
  simp only [W.put, List.nil_append]
  rw [List.take_of_length_le]
  rw [List.length_append, hhead, hsz]
  exact Nat.le_refl _

/-- Without a second stage the bytes are settled by the description and the cloud alone. -/
theorem C90_settled (F : FloatOps) (C : Compressor) (info : EncodingInfo) (hcomp : info.compression_opt = .none) (cloud : List Byte) (n : Nat)
    (p q : List Byte) (hp : Format.Encoded F C info cloud n p) (hq : Format.Encoded F C info cloud n q) : p = q := by
  obtain ⟨a, a1, a2, rfl⟩ := hp
  obtain ⟨b, b1, b2, rfl⟩ := hq
  have : a = b := by
    apply List.ext_getElem? 
    intro c
    by_cases hc : c < a.length
    · have h1 := a2 c a[c] (List.getElem?_eq_getElem hc)
      have h2 := b2 c b[c] (List.getElem?_eq_getElem (by omega))
      unfold Format.Stored at h1 h2
      rw [if_pos hcomp] at h1 h2
      rw [List.getElem?_eq_getElem hc, List.getElem?_eq_getElem (by omega : c < b.length), h1.1, h2.1]
    · rw [List.getElem?_eq_none (by omega), List.getElem?_eq_none (by omega)]
  rw [this]

/-- Points with floats, wide integers and bytes meet the hypotheses. -/
example : ∃ payload, mixOut = payload ∧ Format.Encoded bitsOps storeComp mixInfo mixCloud 3 payload :=
  C90_bytes bitsOps storeComp mixInfo [] mixEnc mixEnc mix_valid (mix_reach _) 3 mixCloud ⟨mix_cloud.size, mix_cloud.range⟩ (by decide) 10000 false mixOut 73 mix_encode

/-- A cloud of indexes, of which every chunk after the probe is one run of equal differences. -/
example (F : FloatOps) : ∃ enc room enc' out size, mkEncoder F indexInfo [] = .ok enc ∧
    encodeView F storeComp enc (indexCloud 1000000) room false = .ok (enc', out, size) ∧
    Format.Encoded F storeComp indexInfo (indexCloud 1000000) 1000000 out := by
  obtain ⟨enc, h⟩ : ∃ enc, mkEncoder F indexInfo [] = .ok enc := ⟨_, rfl⟩
  obtain ⟨room, enc', out, size, h1, h2⟩ := C86_index_column F enc (.fresh enc h) 1000000 (by omega)
  obtain ⟨p, h3, h4⟩ := C90_bytes F storeComp indexInfo [] enc enc' (index_valid F) (.fresh enc h) 1000000 _ (index_cloudOf F _) (by decide) room false out size h1
  simp only [Bool.false_eq_true, if_false, List.nil_append] at h3
  exact ⟨enc, room, enc', out, size, h, h1, h3 ▸ h4⟩

/-! The format on small examples. -/

theorem groups_small {n : Nat} (h : n < 128) : Format.groups n = [BitVec.ofNat 8 n] := by rw [Format.groups, if_pos h]

example : Format.groups 300 = [0xAC#8, 0x02#8] := by simp [Format.groups]
example : Format.signed 0 = [1#8] ∧ Format.signed (-1) = [2#8] ∧ Format.signed 1 = [3#8] ∧ Format.signed (-2 ^ 63) = [0#8] := by
  simp [Format.signed, Format.groups]
example : Format.packed [(1, 1), (0, 1), (5, 3)] = [0x15#8] := by decide
/-- 7, 7, 7, 9 as 16-bit numbers in the four ways. -/
example : Format.section_ false 0 [[7#8, 0#8], [7#8, 0#8], [7#8, 0#8], [9#8, 0#8]] = [0#8, 15#8, 1#8, 1#8, 5#8] := by
  simp [Format.section_, Format.differences, Format.number, Format.unle, Format.signed, Format.groups]
example : Format.section_ false 1 [[7#8, 0#8], [7#8, 0#8], [7#8, 0#8], [9#8, 0#8]] = [1#8, 2#8, 0#8, 7#8, 0#8, 9#8, 0#8, 8#8] := by decide
example : Format.section_ false 2 [[7#8, 0#8], [7#8, 0#8], [7#8, 0#8], [9#8, 0#8]] =
    [2#8, 2#8, 0#8, 0#8, 0#8, 7#8, 0#8, 3#8, 9#8, 0#8, 1#8] := by
  simp [Format.section_, Format.runs, groups_small, Format.le]
example : Format.section_ false 3 [[7#8, 0#8], [7#8, 0#8], [7#8, 0#8], [9#8, 0#8]] =
    [3#8, 3#8, 0#8, 0#8, 0#8, 15#8, 1#8, 1#8, 2#8, 5#8, 1#8] := by
  simp [Format.section_, Format.runs, Format.differences, Format.number, Format.unle, Format.signed, groups_small, Format.le]

end Cloudini.Props
