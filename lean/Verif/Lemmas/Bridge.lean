import Verif.Spec.Cloud
import Verif.Lemmas.Reuse
import Verif.Lemmas.CloudSize

/-! From the specification vocabulary to the lemmas about the model. -/

namespace Cloudini.Props

theorem leadingFloats_eq (fs : List PointField) :
    leadingFloats fs = (fs.takeWhile fun f => f.type = .float32 && f.resolution.isSome).length := by
  induction fs with
  | nil => rfl
  | cons f fs ih =>
    simp only [leadingFloats, List.takeWhile_cons]
    by_cases h : f.type = .float32 ∧ f.resolution.isSome = true
    · rw [if_pos h, if_pos (by simpa using h), List.length_cons, ih]
    · rw [if_neg h, if_neg (by simpa using h), List.length_nil]

theorem groupSize_eq (info : EncodingInfo) : groupSize info = leadingLossyFloatCount info := by
  unfold groupSize leadingLossyFloatCount
  simp only [← leadingFloats_eq]
  by_cases h : info.encoding_opt = .lossy
  · simp [h]
  · simp [h]

theorem memoryless32_eq (F : FloatOps) (r x : BitVec 32) (h : isNaN32 x = true ∨ ∃ q, F.quant32 r x = some q) :
    memoryless32 F r x = lossy32Val F r x := by
  unfold memoryless32 lossy32Val
  split
  · rfl
  · next hn =>
    rcases h with h | ⟨q, h⟩
    · exact absurd h hn
    · rw [h]; rfl

theorem memoryless64_eq (F : FloatOps) (r : BitVec 32) (x : BitVec 64) (h : isNaN64 x = true ∨ ∃ q, F.quant64 r x = some q) :
    memoryless64 F r x = lossy64Val F r x := by
  unfold memoryless64 lossy64Val
  split
  · rfl
  · next hn =>
    rcases h with h | ⟨q, h⟩
    · exact absurd h hn
    · rw [h]; rfl

theorem cell_eq_sub (cloud : List Byte) (step i off n : Nat) : cell cloud 0 step i off n = sub (cloud.drop (i * step)) off n := by
  unfold cell; rw [Nat.zero_add, drop_fieldBytes]

theorem group_type {info : EncodingInfo} {k : Nat} {f : PointField} (hk : info.fields[k]? = some f) (hlt : k < groupSize info) :
    info.encoding_opt = .lossy ∧ f.type = .float32 ∧ f.resolution.isSome := by
  rw [groupSize_eq] at hlt
  refine leadCount_take info f ?_
  rw [List.mem_iff_getElem?]
  exact ⟨k, by rw [List.getElem?_take, if_pos hlt, hk]⟩

theorem step63_zero {v : BitVec 64} (h : Fits62 v) : Step63 v 0#64 := by
  unfold Fits62 at h
  unfold Step63
  have : (0#64 : BitVec 64).toInt = 0 := by decide
  omega

theorem step63_fits {v p : BitVec 64} (h : Fits62 v) (hp : Fits62 p) : Step63 v p := by
  unfold Fits62 at h hp
  unfold Step63
  omega

theorem step31_zero {v : BitVec 32} (h : Fits30 v) : Step31 v 0#32 := by
  unfold Fits30 at h
  unfold Step31
  have : (0#32 : BitVec 32).toInt = 0 := by decide
  omega

theorem step31_fits {v p : BitVec 32} (h : Fits30 v) (hp : Fits30 p) : Step31 v p := by
  unfold Fits30 at h hp
  unfold Step31
  omega

/-- Moderate values can be stored one after the other in any order. -/
theorem inRange_follows {F : FloatOps} {info : EncodingInfo} {k : Nat} {f : PointField} {prev : Option (List Byte)} {bs : List Byte}
    (h : InRange F info k f bs) (hp : ∀ p, prev = some p → InRange F info k f p) : Follows F info k f prev bs := by
  unfold InRange at h hp
  unfold Follows
  cases ho : info.encoding_opt <;> cases hf : f.type <;> cases hres : f.resolution <;> simp only [ho, hf, hres] at h hp ⊢ <;> try trivial
  all_goals first
    | (cases prev with
       | none => exact step63_zero h
       | some p => exact step63_fits h (hp p rfl))
    | skip
  case lossy.float32.some r =>
    rcases h with h | h
    · exact Or.inl h
    · right
      by_cases hk : k < groupSize info
      · simp only [hk, if_true] at h hp ⊢
        cases prev with
        | none => exact step31_zero h
        | some p =>
          simp only [Option.elim]
          by_cases hn : isNaN32 (BitVec.ofNat 32 (fromLE p)) = true
          · rw [if_pos hn]; exact step31_zero h
          · rw [if_neg hn]
            rcases hp p rfl with h2 | h2
            · exact absurd h2 hn
            · exact step31_fits h h2
      · simp only [hk, if_false] at h hp ⊢
        obtain ⟨q, hq, hr⟩ := h
        refine ⟨q, hq, ?_⟩
        cases prev with
        | none => exact step63_zero hr
        | some p =>
          simp only [Option.elim]
          by_cases hn : isNaN32 (BitVec.ofNat 32 (fromLE p)) = true
          · rw [if_pos hn]; exact step63_zero hr
          · rw [if_neg hn]
            rcases hp p rfl with h2 | ⟨q2, h2, h3⟩
            · exact absurd h2 hn
            · rw [h2]; exact step63_fits hr h3
  case lossy.float64.some r =>
    rcases h with h | ⟨q, hq, hr⟩
    · exact Or.inl h
    · refine Or.inr ⟨q, hq, ?_⟩
      cases prev with
      | none => exact step63_zero hr
      | some p =>
        simp only [Option.elim]
        by_cases hn : isNaN64 (BitVec.ofNat 64 (fromLE p)) = true
        · rw [if_pos hn]; exact step63_zero hr
        · rw [if_neg hn]
          rcases hp p rfl with h2 | ⟨q2, h2, h3⟩
          · exact absurd h2 hn
          · rw [h2]; exact step63_fits hr h3

theorem follows_of_range {F : FloatOps} {info : EncodingInfo} {cloud : List Byte} {n : Nat}
    (h : ∀ i, i < n → ∀ k f, info.fields[k]? = some f →
      InRange F info k f (cell cloud 0 info.point_step.toNat i f.offset.toNat (sizeOf f.type))) :
    ∀ i, i < n → ∀ k f, info.fields[k]? = some f →
      Follows F info k f (previous info cloud i f) (cell cloud 0 info.point_step.toNat i f.offset.toNat (sizeOf f.type)) := by
  intro i hi k f hk
  refine inRange_follows (h i hi k f hk) ?_
  intro p hp
  unfold previous at hp
  split at hp
  · simp at hp
  · simp only [Option.some.injEq] at hp
    subst hp
    exact h (i - 1) (by omega) k f hk

theorem expected_eq (F : FloatOps) (info : EncodingInfo) (k : Nat) (f : PointField) (mem : List Byte) (prev : Option (List Byte))
    (hr : Follows F info k f prev (sub mem f.offset.toNat (sizeOf f.type))) :
    expected F info k f (sub mem f.offset.toNat (sizeOf f.type)) =
      fieldVal F info.encoding_opt (decide (k < leadingLossyFloatCount info)) f mem := by
  unfold expected fieldVal
  unfold Follows at hr
  rw [← groupSize_eq]
  cases ho : info.encoding_opt <;> cases hf : f.type <;> cases hres : f.resolution <;> simp only [ho, hf, hres] at hr ⊢ <;> try simp [sizeOf]
  case lossy.float32.some r =>
    simp only [sizeOf] at hr
    unfold f32At
    by_cases hk : k < groupSize info
    · simp only [hk, if_true]; rfl
    · simp only [hk, if_false] at hr ⊢
      rw [memoryless32_eq F r _ (hr.imp id fun ⟨q, h, _⟩ => ⟨q, h⟩)]
  case lossy.float64.some r =>
    simp only [sizeOf] at hr
    unfold f64At
    rw [memoryless64_eq F r _ (hr.imp id fun ⟨q, h, _⟩ => ⟨q, h⟩)]

theorem toI64_full (signed : Bool) (bs : List Byte) : toI64 8 signed bs = BitVec.ofNat 64 (fromLE bs) := by
  unfold toI64
  cases signed <;> simp

/-- The value of a field in the previous point's memory. -/
def prevSub (pm : Option (List Byte)) (f : PointField) : Option (List Byte) := pm.map fun m => sub m f.offset.toNat (sizeOf f.type)

theorem small_step {o s : Nat} {g : Bool} {pm : Option (List Byte)} {mem : List Byte} (hs : s ≤ 4) (h : o + s ≤ mem.length)
    (hp : ∀ m, pm = some m → o + s ≤ m.length) : Step64 (toI64 s g (sub mem o s)) (keptI o s g pm) := by
  refine step64_R62 (toI64_R62 (sub_length h) hs) ?_
  cases pm with
  | none => exact R62_zero
  | some m => exact toI64_R62 (sub_length (hp m rfl)) hs

theorem follows_good (F : FloatOps) (info : EncodingInfo) (k : Nat) (f : PointField) (pm : Option (List Byte)) (mem : List Byte)
    (hin : f.offset.toNat + sizeOf f.type ≤ mem.length) (hpin : ∀ m, pm = some m → f.offset.toNat + sizeOf f.type ≤ m.length)
    (hr : Follows F info k f (prevSub pm f) (sub mem f.offset.toNat (sizeOf f.type))) :
    FieldGood F info.encoding_opt (decide (k < leadingLossyFloatCount info)) f pm mem := by
  refine ⟨hin, ?_⟩
  unfold Follows at hr
  rw [← groupSize_eq]
  cases ho : info.encoding_opt <;> cases hf : f.type <;> cases hres : f.resolution <;> simp only [ho, hf, hres] at hr ⊢ <;>
    simp only [hf, sizeOf] at hin hpin <;>
    first
    | exact trivial
    | exact Or.inl trivial
    | (intro h; exact (EncOpt.noConfusion h))
    | exact Or.inr (small_step (by omega) hin hpin)
    | (right; rw [toI64_full]; unfold Step64; cases pm with
       | none => exact hr
       | some m => simp only [keptI, toI64_full]; simpa [prevSub, hf, sizeOf, Step63] using hr)
    | skip
  case lossy.float32.some r =>
    intro _
    unfold f32At
    by_cases hk : k < groupSize info
    · simp only [hk, if_true, decide_true] at hr ⊢
      cases pm with
      | none => exact hr
      | some m => simp only [prevSub, hf, sizeOf, Option.map_some, Option.elim] at hr; exact hr
    · simp only [hk, if_false, decide_false, Bool.false_eq_true] at hr ⊢
      cases pm with
      | none => exact hr
      | some m => simp only [prevSub, hf, sizeOf, Option.map_some, Option.elim] at hr; exact hr
  case lossy.float64.some r =>
    intro _
    unfold f64At
    cases pm with
    | none => exact hr
    | some m => simp only [prevSub, hf, sizeOf, Option.map_some, Option.elim] at hr; exact hr

theorem pointGood_of {F : FloatOps} {info : EncodingInfo} {pm : Option (List Byte)} {mem : List Byte}
    (hin : ∀ f ∈ info.fields, f.offset.toNat + sizeOf f.type ≤ mem.length)
    (hpin : ∀ m, pm = some m → ∀ f ∈ info.fields, f.offset.toNat + sizeOf f.type ≤ m.length)
    (hr : ∀ k f, info.fields[k]? = some f → Follows F info k f (prevSub pm f) (sub mem f.offset.toNat (sizeOf f.type))) :
    PointGood F info pm mem := by
  constructor
  · intro f hf
    rw [List.mem_iff_getElem?] at hf
    obtain ⟨k, hk⟩ := hf
    rw [List.getElem?_take] at hk
    by_cases hlt : k < leadingLossyFloatCount info
    · rw [if_pos hlt] at hk
      have := follows_good F info k f pm mem (hin f (List.mem_of_getElem? hk)) (fun m hm => hpin m hm f (List.mem_of_getElem? hk)) (hr k f hk)
      rwa [decide_eq_true hlt] at this
    · rw [if_neg hlt] at hk; simp at hk
  · intro f hf
    rw [List.mem_iff_getElem?] at hf
    obtain ⟨k, hk⟩ := hf
    rw [List.getElem?_drop] at hk
    have := follows_good F info _ f pm mem (hin f (List.mem_of_getElem? hk)) (fun m hm => hpin m hm f (List.mem_of_getElem? hk)) (hr _ f hk)
    rwa [decide_eq_false (by omega)] at this

/-- The points of a cloud of `n` points are good for the codecs. -/
theorem follows_points {F : FloatOps} {info : EncodingInfo} {cloud : List Byte} {n : Nat} (h : ValidInfo F info)
    (hsize : cloud.length = n * info.point_step.toNat)
    (hr : ∀ i, i < n → ∀ k f, info.fields[k]? = some f →
      Follows F info k f (previous info cloud i f) (cell cloud 0 info.point_step.toNat i f.offset.toNat (sizeOf f.type))) :
    ∀ i, i < n → PointGood F info (chunkPrev info.point_step.toNat cloud i) (cloud.drop (i * info.point_step.toNat)) := by
  have hsz : ∀ i, i < n → ∀ f ∈ info.fields, f.offset.toNat + sizeOf f.type ≤ (cloud.drop (i * info.point_step.toNat)).length := by
    intro i hi f hf
    have h1 := h.inside f hf
    rw [List.length_drop, hsize]
    have h2 : (i + 1) * info.point_step.toNat ≤ n * info.point_step.toNat := Nat.mul_le_mul_right _ (by omega)
    rw [Nat.add_mul, Nat.one_mul] at h2
    omega
  intro i hi
  refine pointGood_of (hsz i hi) ?_ ?_
  · intro m hm
    unfold chunkPrev at hm
    split at hm
    · simp at hm
    · simp only [Option.some.injEq] at hm
      subst hm
      exact hsz (i - 1) (by omega)
  · intro k f hk
    have := hr i hi k f hk
    rw [cell_eq_sub] at this
    have he : prevSub (chunkPrev info.point_step.toNat cloud i) f = previous info cloud i f := by
      unfold prevSub chunkPrev previous
      change Option.map _ (if i % 32768 = 0 then none else some _) = _
      by_cases hz : i % 32768 = 0
      · rw [if_pos hz, if_pos hz]; rfl
      · rw [if_neg hz, if_neg hz, Option.map_some, cell_eq_sub]
    rw [he]
    exact this

theorem known_of_types {t : FieldType}
    (h : t ∈ [.int8, .uint8, .int16, .uint16, .int32, .uint32, .float32, .float64, .int64, .uint64]) : KnownType t ∧ 0 < sizeOf t := by
  cases t <;> simp_all [KnownType, sizeOf]

theorem all2_refl_same (fs : List PointField) : All2 SameKind fs fs := by
  induction fs with
  | nil => trivial
  | cons f fs ih => exact ⟨⟨rfl, rfl⟩, ih⟩

theorem valid_agree {F : FloatOps} {info dinfo : EncodingInfo} (h : ValidInfo F info) (hs : All2 SameKind info.fields dinfo.fields)
    (ho : dinfo.encoding_opt = info.encoding_opt) (hv : dinfo.version = info.version) (hc : dinfo.compression_opt = info.compression_opt) :
    Agree F info dinfo :=
  { same := hs, opt := ho, version := hv, comp := hc
    known := fun f hf => (known_of_types (h.types f hf)).1
    option := h.option
    res := fun f hf hl r hr => h.resolution hl f hf r hr }

theorem valid_noSkip {F : FloatOps} {info : EncodingInfo} (h : ValidInfo F info) : ∀ f ∈ info.fields, f.offset.toNat ≠ kDecodeButSkipStore := by
  intro f hf
  have h1 := h.inside f hf
  have h2 := (known_of_types (h.types f hf)).2
  have h3 := info.point_step.isLt
  unfold kDecodeButSkipStore
  omega

theorem validCloud_points {F : FloatOps} {info : EncodingInfo} {cloud : List Byte} (h : ValidInfo F info) (hc : ValidCloud F info cloud) :
    ∀ i, i < info.width.toNat * info.height.toNat →
      PointGood F info (chunkPrev info.point_step.toNat cloud i) (cloud.drop (i * info.point_step.toNat)) :=
  follows_points h hc.size hc.range

/-! ### histories -/

theorem encHistory_reset {F : FloatOps} {e e' : Enc} (h : EncHistory F e e') : e'.reset = e.reset := by
  induction h with
  | none => rfl
  | reset e' _ ih => rw [← ih]; cases e' <;> simp [Enc.reset]
  | step e' e'' mem bs _ hs ih => rw [step_reset F mem _ _ _ hs, ih]

theorem each_reset {F : FloatOps} {es es' : List Enc} (h : Each (EncHistory F) es es') : es'.map Enc.reset = es.map Enc.reset := by
  induction es generalizing es' with
  | nil => cases es' <;> simp_all [Each]
  | cons e es ih =>
    cases es' with
    | nil => exact h.elim
    | cons e' es' => rw [List.map_cons, List.map_cons, encHistory_reset h.1, ih h.2]

theorem encodeVector_inv (F : FloatOps) (C : Compressor) (enc enc' : Encoder) (hb : Nat) (cloud out : List Byte) (size : Nat)
    (h : encodeVector F C enc hb cloud = .ok (enc', out, size)) :
    ∃ room pay added, encodeView F C enc cloud room false = .ok (enc', pay, added) ∧ out = (enc.header ++ pay).take size ∧
      size = enc.header.length + added := by
  unfold encodeVector at h
  split at h
  · simp at h
  split at h
  · simp at h
  rw [Res.bind_eq_ok] at h
  obtain ⟨m, _, h⟩ := h
  rw [Res.bind_eq_ok] at h
  obtain ⟨w, hw, h⟩ := h
  rw [Res.bind_eq_ok] at h
  obtain ⟨⟨e1, o1, a1⟩, h1, h⟩ := h
  simp only [Res.ok.injEq, Prod.mk.injEq] at h
  obtain ⟨rfl, rfl, rfl⟩ := h
  have hh := (encodeView_reset F C _ _ _ _ _ _ _ h1).2.1
  unfold W.raw at hw
  split at hw
  · simp only [Res.ok.injEq] at hw
    subst hw
    exact ⟨_, o1, a1, h1, by simp [hh], by rw [hh]⟩
  · simp at hw

theorem reach_same {F : FloatOps} {C : Compressor} {info : EncodingInfo} {header : List Byte} {enc : Encoder}
    (h : Reach F C info header enc) : ∃ e0, mkEncoder F info header = .ok e0 ∧ enc.info = e0.info ∧ enc.header = e0.header ∧
      enc.encs.map Enc.reset = e0.encs.map Enc.reset := by
  induction h with
  | fresh enc h => exact ⟨enc, h, rfl, rfl, rfl⟩
  | view enc enc' cloud out room size wh _ h ih =>
    obtain ⟨e0, h0, h1, h2, h3⟩ := ih
    obtain ⟨g1, g2, g3⟩ := encodeView_reset F C _ _ _ _ _ _ _ h
    exact ⟨e0, h0, g1.trans h1, g2.trans h2, g3.trans h3⟩
  | vector enc enc' cloud out hb size _ h ih =>
    obtain ⟨e0, h0, h1, h2, h3⟩ := ih
    obtain ⟨room, pay, added, hv, _, _⟩ := encodeVector_inv F C _ _ _ _ _ _ h
    obtain ⟨g1, g2, g3⟩ := encodeView_reset F C _ _ _ _ _ _ _ hv
    exact ⟨e0, h0, g1.trans h1, g2.trans h2, g3.trans h3⟩
  | failed enc encs _ h ih =>
    obtain ⟨e0, h0, h1, h2, h3⟩ := ih
    exact ⟨e0, h0, h1, h2, (each_reset h).trans h3⟩

theorem mkEncoder_info {F : FloatOps} {info : EncodingInfo} {header : List Byte} {enc : Encoder} (h : mkEncoder F info header = .ok enc) :
    enc.info = info ∧ enc.header = header ∧ enc.Used F := by
  unfold mkEncoder at h
  split at h
  · next hv =>
    simp only [Res.ok.injEq] at h
    subst h
    exact ⟨rfl, rfl, Or.inl hv⟩
  · rw [Res.bind_eq_ok] at h
    obtain ⟨es, h1, h⟩ := h
    simp only [Res.ok.injEq] at h
    subst h
    exact ⟨rfl, rfl, Or.inr ⟨es, h1, rfl⟩⟩

theorem reach_used {F : FloatOps} {C : Compressor} {info : EncodingInfo} {header : List Byte} {enc : Encoder}
    (h : Reach F C info header enc) : enc.info = info ∧ enc.header = header ∧ enc.Used F := by
  obtain ⟨e0, h0, h1, h2, h3⟩ := reach_same h
  obtain ⟨g1, g2, g3⟩ := mkEncoder_info h0
  refine ⟨h1.trans g1, h2.trans g2, ?_⟩
  rcases g3 with g3 | ⟨es, g3, g4⟩
  · left; rw [h1]; exact g3
  · right; exact ⟨es, by rw [h1]; exact g3, h3.trans g4⟩

theorem fieldLimit_v5 {info : EncodingInfo} (h : FieldLimit info) (hv : usesV5 info = true) :
    (info.fields.filter fun f => isAdaptiveType f.type).length ≤ 64 := by
  simp only [usesV5, Bool.and_eq_true, decide_eq_true_eq] at hv
  have hf : (fun f : PointField => decide (f.type ∈ [FieldType.int16, .uint16, .int32, .uint32, .int64, .uint64])) = fun f => isAdaptiveType f.type := by
    funext f
    cases f.type <;> rfl
  have h1 : (5 : Nat) ≤ info.version.toNat := hv.1.1
  have := h h1 hv.1.2
  rwa [hf] at this

theorem fieldLimit_of {info : EncodingInfo} (h : info.fields.length ≤ 64) : FieldLimit info :=
  fun _ _ => Nat.le_trans (List.length_filter_le _ _) h

end Cloudini.Props
