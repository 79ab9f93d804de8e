import Verif.Lemmas.Format
import Verif.Lemmas.Bridge

/-! # The bytes of whole clouds in the terms of `Spec/Format`: point streams and framing (helper lemmas for C90) -/

namespace Cloudini

open Props (groupSize groupSize_eq)

/-! ### which encoder for which field -/

def fieldParts (info : EncodingInfo) (xs : List (PointField × Nat)) : List (Nat × Nat × Format.Kind) :=
  xs.map fun x => (x.1.offset.toNat, sizeOf x.1.type, Format.kind info x.2 x.1)

theorem fieldParts_append (info : EncodingInfo) (a b : List (PointField × Nat)) : fieldParts info (a ++ b) = fieldParts info a ++ fieldParts info b := by
  simp [fieldParts]

theorem create_parts (F : FloatOps) (info : EncodingInfo) (f : PointField) (e : Enc) (k : Nat) (hk : ¬ k < groupSize info)
    (hopt : info.encoding_opt ≠ .none) (h : createEncoder F info f = .ok e) :
    e.parts = [(f.offset.toNat, sizeOf f.type, Format.kind info k f)] ∧ e.SizeOK := by
  unfold createEncoder at h
  unfold Format.kind
  rw [if_neg hopt]
  cases ht : f.type <;> rw [ht] at h <;> simp only at h
  case float32 =>
    cases hr : f.resolution with
    | none =>
      rw [hr] at h
      simp only at h ⊢
      by_cases h1 : info.encoding_opt = .lossless
      · rw [if_pos h1] at h ⊢; cases h; exact ⟨rfl, by simp [Enc.SizeOK]⟩
      · rw [if_neg h1] at h ⊢; cases h; exact ⟨rfl, trivial⟩
    | some r =>
      rw [hr] at h
      simp only at h ⊢
      by_cases h0 : info.encoding_opt = .lossy
      · rw [if_pos h0] at h ⊢
        rw [if_neg hk]
        unfold mkLossy32Enc at h
        by_cases h2 : F.resNonPos r = true
        · rw [if_pos h2] at h; cases h
        · rw [if_neg h2] at h; cases h; exact ⟨rfl, trivial⟩
      · rw [if_neg h0] at h ⊢
        by_cases h1 : info.encoding_opt = .lossless
        · rw [if_pos h1] at h ⊢; cases h; exact ⟨rfl, by simp [Enc.SizeOK]⟩
        · rw [if_neg h1] at h ⊢; cases h; exact ⟨rfl, trivial⟩
  case float64 =>
    cases hr : f.resolution with
    | none =>
      rw [hr] at h
      simp only at h ⊢
      have hv : info.version ≥ 4#8 ↔ 4 ≤ info.version.toNat := by simp [BitVec.le_def]
      by_cases h1 : info.version ≥ 4#8
      · rw [if_pos h1] at h; rw [if_pos (hv.1 h1)]; cases h; exact ⟨rfl, .inr rfl⟩
      · rw [if_neg h1] at h; rw [if_neg (fun h => h1 (hv.2 h))]; cases h; exact ⟨rfl, by simp [Enc.SizeOK]⟩
    | some r =>
      rw [hr] at h
      simp only at h ⊢
      by_cases h0 : info.encoding_opt = .lossy
      · rw [if_pos h0] at h ⊢
        unfold mkLossy64Enc at h
        by_cases h2 : F.resNonPos r = true
        · rw [if_pos h2] at h; cases h
        · rw [if_neg h2] at h; cases h; exact ⟨rfl, trivial⟩
      · rw [if_neg h0] at h ⊢
        cases h; exact ⟨rfl, by simp [Enc.SizeOK]⟩
  all_goals first
    | (cases h; exact ⟨by cases f.resolution <;> rfl, by simp [Enc.SizeOK]⟩)
    | exact absurd h (by simp)

theorem buildAll_parts (F : FloatOps) (info : EncodingInfo) (q : PointField → Bool) (hopt : info.encoding_opt ≠ .none) (fs : List PointField) (k : Nat)
    (hk : ¬ k < groupSize info) (es : List Enc) (h : buildAll (createEncoder F info) (fs.filter q) = .ok es) :
    es.flatMap Enc.parts = fieldParts info ((fs.zipIdx k).filter fun x => q x.1) ∧ ∀ e ∈ es, e.SizeOK := by
  induction fs generalizing k es with
  | nil => cases h; exact ⟨rfl, by simp⟩
  | cons f fs ih =>
    rw [List.zipIdx_cons, List.filter_cons]
    rw [List.filter_cons] at h
    by_cases hq : q f = true
    · rw [if_pos hq] at h ⊢
      unfold buildAll at h
      obtain ⟨e, h1, h⟩ := Res.bind_eq_ok.1 h
      obtain ⟨es1, h2, h⟩ := Res.bind_eq_ok.1 h
      cases h
      obtain ⟨p1, p2⟩ := create_parts F info f e k hk hopt h1
      obtain ⟨s1, s2⟩ := ih (k + 1) (by omega) es1 h2
      refine ⟨?_, ?_⟩
      · rw [List.flatMap_cons, s1, p1]; rfl
      · intro x hx
        simp only [List.mem_cons] at hx
        rcases hx with rfl | hx
        · exact p2
        · exact s2 x hx
    · rw [if_neg hq] at h ⊢
      exact ih (k + 1) (by omega) es h

theorem lead_parts (F : FloatOps) (info : EncodingInfo) (es : List Enc) (h : leadingEncoder F info = .ok es) :
    es.flatMap Enc.parts = fieldParts info ((info.fields.take (groupSize info)).zipIdx 0) ∧ ∀ e ∈ es, e.SizeOK := by
  unfold leadingEncoder at h
  rw [groupSize_eq]
  simp only at h
  by_cases h0 : leadingLossyFloatCount info = 0
  · rw [if_pos h0] at h
    cases h
    rw [h0]
    exact ⟨rfl, by simp⟩
  · rw [if_neg h0] at h
    obtain ⟨e, h1, h⟩ := Res.bind_eq_ok.1 h
    cases h
    unfold mkFloatNEnc at h1
    split at h1
    · cases h1
    · cases h1
      refine ⟨?_, by intro e he; simp only [List.mem_singleton] at he; subst he; trivial⟩
      simp only [List.flatMap_cons, List.flatMap_nil, List.append_nil, Enc.parts, lanesOf, List.map_map, fieldParts]
      have ht := leadCount_take info
      have hl : (info.fields.take (leadingLossyFloatCount info)).length ≤ leadingLossyFloatCount info := by rw [List.length_take]; omega
      generalize hfs : info.fields.take (leadingLossyFloatCount info) = fs at ht hl
      have key : ∀ k, k + fs.length ≤ leadingLossyFloatCount info →
          fs.map ((fun l => ((l.off, 4, .lane l.res) : Nat × Nat × Format.Kind)) ∘ fun f : PointField =>
            ({ off := f.offset.toNat, res := f.resolution.getD 0#32, prev := 0#32 } : Lane)) =
          (fs.zipIdx k).map fun x => (x.1.offset.toNat, sizeOf x.1.type, Format.kind info x.2 x.1) := by
        clear hfs hl h0
        induction fs with
        | nil => intro k _; rfl
        | cons f fs ih =>
          intro k hk
          rw [List.length_cons] at hk
          rw [List.map_cons, List.zipIdx_cons, List.map_cons, ih (fun x hx => ht x (by simp [hx])) (k + 1) (by omega)]
          obtain ⟨t1, t2, t3⟩ := ht f (by simp)
          congr 1
          obtain ⟨r, hr⟩ := Option.isSome_iff_exists.1 t3
          simp only [Function.comp, t2, hr, Option.getD_some]
          unfold Format.kind
          rw [if_neg (by rw [t1]; simp), t2, hr]
          simp only
          rw [if_pos t1, if_pos (by rw [groupSize_eq]; omega)]
          rfl
      exact key 0 (by omega)

/-- The encoders made for the fields that `q` keeps. -/
theorem plan_parts (F : FloatOps) (info : EncodingInfo) (q : PointField → Bool) (hopt : info.encoding_opt ≠ .none)
    (hq : ∀ f ∈ info.fields.take (groupSize info), q f = true) (lead rest : List Enc) (h1 : leadingEncoder F info = .ok lead)
    (h2 : buildAll (createEncoder F info) ((info.fields.drop (groupSize info)).filter q) = .ok rest) :
    (lead ++ rest).flatMap Enc.parts = fieldParts info (info.fields.zipIdx.filter fun x => q x.1) ∧ ∀ e ∈ lead ++ rest, e.SizeOK := by
  obtain ⟨a1, a2⟩ := lead_parts F info lead h1
  by_cases hg : groupSize info ≤ info.fields.length
  · obtain ⟨b1, b2⟩ := buildAll_parts F info q hopt _ (groupSize info) (by omega) rest h2
    refine ⟨?_, ?_⟩
    · conv => rhs; rw [← List.take_append_drop (groupSize info) info.fields, List.zipIdx_append, List.filter_append]
      rw [List.flatMap_append, fieldParts_append, a1, b1, List.length_take, Nat.min_eq_left hg, Nat.zero_add]
      congr 1
      apply congrArg
      symm
      rw [List.filter_eq_self]
      intro x hx
      exact hq x.1 (List.fst_mem_of_mem_zipIdx hx)
    · intro e he
      rcases List.mem_append.1 he with he | he
      · exact a2 e he
      · exact b2 e he
  · exfalso
    rw [groupSize_eq] at hg
    have h3 : leadingFloats info.fields ≤ info.fields.length := by
      generalize info.fields = fs
      induction fs with
      | nil => exact Nat.le_refl _
      | cons f fs ih => unfold leadingFloats; split <;> simp only [List.length_cons] <;> omega
    unfold leadingLossyFloatCount at hg
    simp only at hg
    generalize leadingFloats info.fields = n at *
    split at hg
    · split at hg <;> omega
    · omega

theorem v4_parts (F : FloatOps) (info : EncodingInfo) (es : List Enc) (h : buildV4Encoders F info = .ok es) :
    es.flatMap Enc.parts = fieldParts info info.fields.zipIdx ∧ ∀ e ∈ es, e.SizeOK := by
  unfold buildV4Encoders at h
  by_cases hopt : info.encoding_opt = .none
  · rw [if_pos hopt] at h
    cases h
    refine ⟨?_, ?_⟩
    · rw [List.flatMap_map]
      unfold fieldParts
      generalize 0 = k
      generalize info.fields = fs
      induction fs generalizing k with
      | nil => rfl
      | cons f fs ih =>
        rw [List.flatMap_cons, ih (k + 1), List.zipIdx_cons, List.map_cons]
        have hk : Format.kind info k f = .raw := by unfold Format.kind; rw [if_pos hopt]
        show [(f.offset.toNat, sizeOf f.type, Format.Kind.raw)] ++ _ = (f.offset.toNat, sizeOf f.type, Format.kind info k f) :: _
        rw [hk]
        rfl
    · intro e he
      simp only [List.mem_map] at he
      obtain ⟨f, _, rfl⟩ := he
      trivial
  · rw [if_neg hopt] at h
    obtain ⟨lead, h1, h⟩ := Res.bind_eq_ok.1 h
    obtain ⟨rest, h2, h⟩ := Res.bind_eq_ok.1 h
    cases h
    have := plan_parts F info (fun _ => true) hopt (fun _ _ => rfl) lead rest h1 (by
      rw [List.filter_eq_self.2 (fun _ _ => rfl), groupSize_eq]; exact h2)
    rwa [List.filter_eq_self.2 (fun _ _ => rfl)] at this

/-! ### chunks -/

/-- The points of a chunk in the terms of the format. -/
theorem points_eq (F : FloatOps) (info : EncodingInfo) (cloud : List Byte) (s n : Nat) (xs : List (PointField × Nat)) :
    (List.range n).flatMap (fun j => (fieldParts info xs).flatMap (partBytes F info.point_step.toNat (cloud.drop (s * info.point_step.toNat)) j)) =
      (List.range n).flatMap fun i => xs.flatMap fun x =>
        Format.valueBytes F (Format.kind info x.2 x.1) (fun j => Format.cellAt info cloud x.1 (s + j)) i := by
  congr 1
  funext i
  unfold fieldParts
  rw [List.flatMap_map]
  congr 1
  funext x
  unfold partBytes
  congr 1
  funext j
  unfold colOf sub Format.cellAt
  rw [List.drop_drop, List.drop_drop]
  congr 2
  rw [Nat.add_mul, Nat.add_assoc]

theorem chunk_count (points K : Nat) (hK : 0 < K) (hp : points ≠ 0) : (points + (K - 1)) / K = 1 + (points - min points K + (K - 1)) / K := by
  by_cases h : points ≤ K
  · rw [Nat.min_eq_left h, Nat.sub_self, Nat.zero_add]
    have h1 : (K - 1) / K = 0 := Nat.div_eq_of_lt (by omega)
    have h2 : (points + (K - 1)) / K = 1 := by
      apply Nat.div_eq_of_lt_le <;> omega
    omega
  · rw [Nat.min_eq_right (by omega)]
    have : points + (K - 1) = points - K + (K - 1) + K := by omega
    rw [this, Nat.add_div_right _ hK]
    omega

theorem stage1V4_bytes (F : FloatOps) (step cap : Nat) (hstep : 0 < step) (points : Nat) (es es' : List Enc) (mem : List Byte)
    (hmem : mem.length = points * step) (hs : ∀ e ∈ es, e.SizeOK) (cs : List (List Byte))
    (h : stage1V4 F step cap points es mem = .ok (es', cs)) :
    cs.length = (points + (kPointsPerChunk - 1)) / kPointsPerChunk ∧ ∀ c y, cs[c]? = some y →
      y = (List.range (min (points - c * kPointsPerChunk) kPointsPerChunk)).flatMap fun j =>
        (es.flatMap Enc.parts).flatMap (partBytes F step (mem.drop (c * kPointsPerChunk * step)) j) := by
  have hK := pos_K
  induction points using Nat.strongRecOn generalizing es mem cs with
  | ind points ih =>
    unfold stage1V4 at h
    by_cases hp : points = 0
    · rw [dif_pos hp] at h
      cases h
      subst hp
      refine ⟨?_, by simp⟩
      rw [List.length_nil, Nat.zero_add]
      exact (Nat.div_eq_of_lt (by omega)).symm
    · rw [dif_neg hp] at h
      obtain ⟨⟨es1, mem1, ch⟩, h1, h⟩ := Res.bind_eq_ok.1 h
      obtain ⟨⟨es2, cs1⟩, h2, h⟩ := Res.bind_eq_ok.1 h
      cases h
      unfold encodeV4Chunk at h1
      obtain ⟨⟨es3, mem3, w⟩, h3, h1⟩ := Res.bind_eq_ok.1 h1
      cases h1
      have hle : min points kPointsPerChunk * step ≤ mem.length := by rw [hmem]; exact Nat.mul_le_mul_right _ (Nat.min_le_left _ _)
      rw [encodePoints_core F step kPointsPerChunk (min points kPointsPerChunk) _ mem _ hstep (Nat.min_le_right _ _) hle
        (fun hlt => by rw [hmem]; congr 1; omega)] at h3
      obtain ⟨⟨es4, w4⟩, h4, h3⟩ := Res.bind_eq_ok.1 h3
      cases h3
      have hsr : ∀ e ∈ es.map Enc.reset, e.SizeOK := by
        intro e he
        simp only [List.mem_map] at he
        obtain ⟨x, hx, rfl⟩ := he
        exact sized_reset (hs x hx)
      obtain ⟨r1, r2, r3⟩ := core_bytes F step mem (min points kPointsPerChunk) 0 (es.map Enc.reset) es4 ⟨[], cap⟩ w4 hsr
        (by
          intro e he
          simp only [List.mem_map] at he
          obtain ⟨x, _, rfl⟩ := he
          exact reset_at F step mem x)
        (by rw [Nat.zero_mul, List.drop_zero]; exact h4)
      have hpr : es4.map Enc.parts = es.map Enc.parts := by
        rw [r3, List.map_map]
        exact List.map_congr_left fun e _ => parts_reset e
      have hpf : (es.map Enc.reset).flatMap Enc.parts = es.flatMap Enc.parts :=
        flatMap_parts (by rw [List.map_map]; exact List.map_congr_left fun e _ => parts_reset e)
      obtain ⟨s1, s2⟩ := ih (points - min points kPointsPerChunk) (by omega) es4 (mem.drop (min points kPointsPerChunk * step))
        (by rw [List.length_drop, hmem, ← Nat.sub_mul]) r2 cs1 h2
      refine ⟨?_, ?_⟩
      · rw [List.length_cons, s1, chunk_count points _ hK hp]; omega
      · intro c y hy
        cases c with
        | zero =>
          simp only [List.getElem?_cons_zero, Option.some.injEq] at hy
          subst hy
          rw [r1, hpf]
          simp
        | succ c =>
          simp only [List.getElem?_cons_succ] at hy
          have hc := (List.getElem?_eq_some_iff.1 hy).1
          have hbig : kPointsPerChunk < points := by
            refine Nat.lt_of_not_le fun hle => ?_
            rw [s1, Nat.min_eq_left hle, Nat.sub_self, Nat.zero_add, Nat.div_eq_of_lt (by omega)] at hc
            omega
          rw [s2 c y hy, flatMap_parts hpr, List.drop_drop, Nat.min_eq_right (Nat.le_of_lt hbig), ← Nat.add_mul]
          have e1 : points - kPointsPerChunk - c * kPointsPerChunk = points - (c + 1) * kPointsPerChunk := by
            rw [Nat.add_mul, Nat.one_mul]; omega
          have e2 : kPointsPerChunk + c * kPointsPerChunk = (c + 1) * kPointsPerChunk := by rw [Nat.add_mul, Nat.one_mul, Nat.add_comm]
          rw [e1, e2]

/-! ### framing -/

theorem wire_stored {C : Compressor} {opt : CompOpt} {c y : List Byte} (h : Wire C opt c y) : Format.Stored C opt c y ∧ y.length < 2 ^ 32 := by
  refine ⟨?_, h.1⟩
  unfold Format.Stored
  rcases h.2 with ⟨h1, h2⟩ | ⟨h1, room, h2⟩
  · rw [if_pos h1]; exact h2
  · rw [if_neg h1]
    refine ⟨room, ?_⟩
    unfold compressChunk at h2
    split at h2
    · cases h2
    · cases opt with
      | none => exact absurd rfl h1
      | lz4 =>
        simp only at h2
        split at h2
        · cases h2
        · cases hc : C.compress .lz4 c room with
          | none => rw [hc] at h2; cases h2
          | some z => rw [hc] at h2; cases h2; rfl
      | zstd =>
        simp only at h2
        cases hc : C.compress .zstd c room with
        | none => rw [hc] at h2; cases h2
        | some z =>
          rw [hc] at h2
          simp only at h2
          split at h2
          · cases h2
          · cases h2; rfl
      | bad b => cases h2

theorem framed_stored {C : Compressor} {opt : CompOpt} {cs : List (List Byte)} {payload : List Byte} (h : Framed C opt cs payload) :
    ∃ st : List (List Byte), st.length = cs.length ∧ (∀ (c : Nat) (y : List Byte), st[c]? = some y → ∃ ch : List Byte, cs[c]? = some ch ∧ Format.Stored C opt ch y ∧ y.length < 2 ^ 32) ∧
      payload = st.flatMap fun y => Format.le 4 y.length ++ y := by
  induction h with
  | nil => exact ⟨[], rfl, by simp, rfl⟩
  | cons c y cs rest hw _ ih =>
    obtain ⟨st, s1, s2, s3⟩ := ih
    refine ⟨y :: st, by simp [s1], ?_, ?_⟩
    · intro i z hz
      cases i with
      | zero =>
        simp only [List.getElem?_cons_zero, Option.some.injEq] at hz
        subst hz
        exact ⟨c, rfl, wire_stored hw⟩
      | succ i => exact s2 i z hz
    · rw [List.flatMap_cons, ← s3, format_le, List.append_assoc]

/-- From the chunks to the encoded cloud. -/
theorem encoded_of_chunks {F : FloatOps} {C : Compressor} {info : EncodingInfo} {cloud : List Byte} {total : Nat} {cs : List (List Byte)}
    {payload : List Byte} (hf : Framed C info.compression_opt cs payload) (hl : cs.length = (total + 32767) / 32768)
    (hc : ∀ c y, cs[c]? = some y → y = Format.chunk F info cloud total c) : Format.Encoded F C info cloud total payload := by
  obtain ⟨st, s1, s2, s3⟩ := framed_stored hf
  refine ⟨st, s1.trans hl, ?_, s3⟩
  intro c y hy
  obtain ⟨ch, h1, h2⟩ := s2 c y hy
  rw [hc c ch h1] at h2
  exact h2

theorem wide_adaptive (f : PointField) : Format.wide f = isAdaptiveType f.type := by
  unfold Format.wide
  cases f.type <;> simp [isAdaptiveType]

/-- The chunks of a cloud without sections. -/
theorem v4_chunks (F : FloatOps) (enc : Encoder) (es' : List Enc) (hused : enc.Used F) (hv : usesV5 enc.info = false) (cloud : List Byte)
    (hst : 0 < enc.info.point_step.toNat) (hlen : cloud.length = cloud.length / enc.info.point_step.toNat * enc.info.point_step.toNat)
    (cs : List (List Byte)) (hs1 : stage1Chunks F enc cloud = .ok (es', cs)) :
    cs.length = (cloud.length / enc.info.point_step.toNat + 32767) / 32768 ∧
      ∀ c y, cs[c]? = some y → y = Format.chunk F enc.info cloud (cloud.length / enc.info.point_step.toNat) c := by
  refine ⟨?_, ?_⟩
  all_goals
    unfold stage1Chunks at hs1
    simp only [hv, Bool.false_eq_true, if_false] at hs1
    obtain ⟨m, hm, hs1⟩ := Res.bind_eq_ok.1 hs1
    obtain ⟨es0, hb, hr⟩ := hused.resolve_left (by rw [hv]; simp)
    obtain ⟨p1, p2⟩ := v4_parts F enc.info es0 hb
    have hpe : enc.encs.map Enc.parts = es0.map Enc.parts := by
      have := congrArg (List.map Enc.parts) hr
      rw [List.map_map, List.map_map] at this
      rw [← List.map_congr_left (f := Enc.parts ∘ Enc.reset) (g := Enc.parts) (l := enc.encs) (fun e _ => parts_reset e), this]
      exact List.map_congr_left fun e _ => parts_reset e
    have hsz : ∀ e ∈ enc.encs, e.SizeOK := by
      intro e he
      have h1 : e.reset ∈ es0.map Enc.reset := by rw [← hr]; exact List.mem_map_of_mem he
      simp only [List.mem_map] at h1
      obtain ⟨e0, he0, h2⟩ := h1
      have h3 := sized_reset (p2 e0 he0)
      rw [h2] at h3
      cases e <;> simpa [Enc.reset, Enc.SizeOK] using h3
    have hb := stage1V4_bytes F enc.info.point_step.toNat _ hst _ enc.encs es' cloud hlen hsz cs hs1
  · exact hb.1
  · intro c y hy
    rw [hb.2 c y hy, flatMap_parts hpe, p1, points_eq]
    unfold Format.chunk Format.points Format.sections
    have hno : ∀ f ∈ enc.info.fields, (Format.sectioned enc.info && Format.wide f) = false := by
      intro f hf
      rw [wide_adaptive]
      unfold usesV5 at hv
      unfold Format.sectioned
      have hvv : enc.info.version ≥ 5#8 ↔ 5 ≤ enc.info.version.toNat := by simp [BitVec.le_def]
      by_cases h5 : 5 ≤ enc.info.version.toNat
      · by_cases hl : enc.info.encoding_opt = .lossy
        · rw [decide_eq_true (hvv.2 h5), decide_eq_true hl] at hv
          simp only [Bool.true_and, List.any_eq_false] at hv
          by_cases ha : isAdaptiveType f.type = true
          · exfalso
            rw [← List.take_append_drop (leadingLossyFloatCount enc.info) enc.info.fields] at hf
            rcases List.mem_append.1 hf with hf | hf
            · rw [(leadCount_take enc.info f hf).2.1] at ha
              simp [isAdaptiveType] at ha
            · exact hv f hf ha
          · simp [ha]
        · simp [hl]
      · simp [h5]
    have e1 : (enc.info.fields.zipIdx.filter fun x => !(Format.sectioned enc.info && Format.wide x.1)) = enc.info.fields.zipIdx := by
      rw [List.filter_eq_self]
      intro x hx
      rw [hno x.1 (List.fst_mem_of_mem_zipIdx hx)]
      rfl
    have e2 : (enc.info.fields.filter fun f => Format.sectioned enc.info && Format.wide f) = [] := by
      rw [List.filter_eq_nil_iff]
      intro f hf
      rw [hno f hf]
      simp
    rw [e1, e2]
    simp only [List.flatMap_nil, List.append_nil]
    rfl

/-- Clouds without sections. -/
theorem v4_encoded (F : FloatOps) (C : Compressor) (enc enc' : Encoder) (hused : enc.Used F) (hv : usesV5 enc.info = false) (cloud : List Byte)
    (room : Nat) (wh : Bool) (out : List Byte) (size : Nat) (h : encodeView F C enc cloud room wh = .ok (enc', out, size)) :
    ∃ payload, out = (if wh then enc.header else []) ++ payload ∧
      Format.Encoded F C enc.info cloud (cloud.length / enc.info.point_step.toNat) payload := by
  obtain ⟨cs, payload, hst, hlen, hs1, _, _, hfr, rfl, _, _⟩ := encodeView_inv F C enc enc' cloud room wh out size h
  obtain ⟨h1, h2⟩ := v4_chunks F enc enc'.encs hused hv cloud hst hlen cs hs1
  exact ⟨payload, rfl, encoded_of_chunks hfr h1 h2⟩

end Cloudini
