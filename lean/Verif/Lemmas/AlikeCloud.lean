import Verif.Lemmas.Alike
import Verif.Spec.Cloud

/-! From the fields of two clouds to the encoders that look at them. -/

namespace Cloudini.Alike
open Cloudini.Props

variable {F : FloatOps} {m m2 : List Byte}

/-- Every declared field of the two points is stored the same way. -/
def SamePoint (F : FloatOps) (info : EncodingInfo) (m m2 : List Byte) : Prop :=
  ∀ (k : Nat) (f : PointField), info.fields[k]? = some f →
    SameStored F info k f (sub m f.offset.toNat (sizeOf f.type)) (sub m2 f.offset.toNat (sizeOf f.type))

theorem create_same {info : EncodingInfo} {k : Nat} {f : PointField} {e : Enc} (h : createEncoder F info f = .ok e) (hk : ¬k < groupSize info)
    (hs : SameStored F info k f (sub m f.offset.toNat (sizeOf f.type)) (sub m2 f.offset.toNat (sizeOf f.type))) : Same F m m2 e := by
  unfold createEncoder mkLossy32Enc mkLossy64Enc at h
  unfold SameStored at hs
  cases ht : f.type <;> cases hr : f.resolution <;> cases ho : info.encoding_opt <;> simp only [ht, hr, ho, sizeOf] at h hs <;>
    (try simp only [if_neg hk] at hs) <;> (try (repeat' split at h)) <;>
    first | (simp only [reduceCtorEq] at h; done) | (simp only [Res.ok.injEq] at h; subst h; exact hs) |
      (exfalso; simp_all; done)

theorem buildAll_mem {info : EncodingInfo} {fs : List PointField} {es : List Enc} (h : buildAll (createEncoder F info) fs = .ok es) :
    ∀ e ∈ es, ∃ f ∈ fs, createEncoder F info f = .ok e := by
  induction fs generalizing es with
  | nil => simp only [buildAll, Res.ok.injEq] at h; subst h; simp
  | cons f fs ih =>
    simp only [buildAll] at h
    obtain ⟨a, h1, h⟩ := Res.bind_eq_ok.1 h
    obtain ⟨b, h2, h⟩ := Res.bind_eq_ok.1 h
    simp only [Res.ok.injEq] at h
    subst h
    intro e he
    rcases List.mem_cons.1 he with rfl | he
    · exact ⟨f, by simp, h1⟩
    · obtain ⟨g, hg, hc⟩ := ih h2 e he
      exact ⟨g, by simp [hg], hc⟩

/-- A field after the leading group. -/
theorem tail_index {info : EncodingInfo} {f : PointField} (h : f ∈ info.fields.drop (leadingLossyFloatCount info)) :
    ∃ k, info.fields[k]? = some f ∧ ¬k < groupSize info := by
  obtain ⟨k, hk⟩ := List.mem_iff_getElem?.1 h
  rw [List.getElem?_drop] at hk
  exact ⟨leadingLossyFloatCount info + k, hk, by rw [groupSize_eq]; omega⟩

theorem rest_same {info : EncodingInfo} {fs : List PointField} {es : List Enc} (h : buildAll (createEncoder F info) fs = .ok es)
    (hsub : ∀ f ∈ fs, f ∈ info.fields.drop (leadingLossyFloatCount info)) (hs : SamePoint F info m m2) : ∀ e ∈ es, Same F m m2 e := by
  intro e he
  obtain ⟨f, hf, hc⟩ := buildAll_mem h e he
  obtain ⟨k, hk, hn⟩ := tail_index (hsub f hf)
  exact create_same hc hn (hs k f hk)

theorem lead_same {info : EncodingInfo} {es : List Enc} (h : leadingEncoder F info = .ok es) (hs : SamePoint F info m m2) :
    ∀ e ∈ es, Same F m m2 e := by
  unfold leadingEncoder at h
  by_cases h0 : leadingLossyFloatCount info = 0
  · simp only [if_pos h0, Res.ok.injEq] at h
    subst h; simp
  simp only [if_neg h0] at h
  obtain ⟨e, h1, h⟩ := Res.bind_eq_ok.1 h
  simp only [Res.ok.injEq] at h
  subst h
  unfold mkFloatNEnc at h1
  split at h1
  · cases h1
  simp only [Res.ok.injEq] at h1
  subst h1
  intro e he
  rw [List.mem_singleton] at he
  subst he
  simp only [Same]
  intro l hl
  unfold lanesOf at hl
  obtain ⟨f, hf, rfl⟩ := List.mem_map.1 hl
  obtain ⟨k, hk⟩ := List.mem_iff_getElem?.1 hf
  rw [List.getElem?_take] at hk
  split at hk
  case isFalse => cases hk
  next hlt =>
  rw [← groupSize_eq] at hlt
  obtain ⟨g1, g2, g3⟩ := group_type hk hlt
  obtain ⟨r, hr⟩ := Option.isSome_iff_exists.1 g3
  have := hs k f hk
  unfold SameStored at this
  simp only [g1, g2, hr, if_pos hlt, sizeOf] at this
  simp only [hr, Option.getD_some]
  exact this

theorem v4_same {info : EncodingInfo} {es : List Enc} (h : buildV4Encoders F info = .ok es) (hs : SamePoint F info m m2) :
    ∀ e ∈ es, Same F m m2 e := by
  unfold buildV4Encoders at h
  split at h
  · next h0 =>
    simp only [Res.ok.injEq] at h
    subst h
    intro e he
    obtain ⟨f, hf, rfl⟩ := List.mem_map.1 he
    obtain ⟨k, hk⟩ := List.mem_iff_getElem?.1 hf
    have := hs k f hk
    unfold SameStored at this
    rw [h0] at this
    exact this
  · obtain ⟨l, h1, h⟩ := Res.bind_eq_ok.1 h
    obtain ⟨r, h2, h⟩ := Res.bind_eq_ok.1 h
    simp only [Res.ok.injEq] at h
    subst h
    intro e he
    rcases List.mem_append.1 he with he | he
    · exact lead_same h1 hs e he
    · exact rest_same h2 (fun _ hf => hf) hs e he

theorem plan_same {info : EncodingInfo} {es : List Enc} {as : List AField} (h : buildV5Plan F info = .ok (es, as)) (hs : SamePoint F info m m2) :
    (∀ e ∈ es, Same F m m2 e) ∧ Same5 m m2 (places as) := by
  unfold buildV5Plan at h
  obtain ⟨l, h1, h⟩ := Res.bind_eq_ok.1 h
  obtain ⟨r, h2, h⟩ := Res.bind_eq_ok.1 h
  simp only [Res.ok.injEq, Prod.mk.injEq] at h
  obtain ⟨rfl, rfl⟩ := h
  refine ⟨?_, ?_⟩
  · intro e he
    rcases List.mem_append.1 he with he | he
    · exact lead_same h1 hs e he
    · exact rest_same h2 (fun f hf => (List.mem_filter.1 hf).1) hs e he
  · intro p hp
    unfold places at hp
    rw [List.map_map] at hp
    obtain ⟨f, hf, rfl⟩ := List.mem_map.1 hp
    obtain ⟨hf, ha⟩ := List.mem_filter.1 hf
    obtain ⟨k, hk, hn⟩ := tail_index hf
    have := hs k f hk
    simp only [Bool.and_eq_true] at ha
    have hty := ha.2
    have ho : info.encoding_opt = .lossy := by simpa using ha.1
    unfold SameStored at this
    cases ht : f.type <;> rw [ht] at hty <;> first | (exact absurd hty (by decide)) | skip
    all_goals
      simp only [ht, ho] at this
      simp only [Function.comp, mkAField, ht]
      exact this

/-- The whole call. -/
theorem encodeView_same (C : Compressor) (enc : Encoder) (cloud cloud2 : List Byte) (room : Nat) (wh : Bool) (hu : enc.Used F)
    (hl : cloud.length = cloud2.length)
    (h : ∀ i < cloud.length / enc.info.point_step.toNat,
      SamePoint F enc.info (cloud.drop (i * enc.info.point_step.toNat)) (cloud2.drop (i * enc.info.point_step.toNat))) :
    encodeView F C enc cloud room wh = encodeView F C enc cloud2 room wh := by
  unfold encodeView
  rw [← hl]
  split
  · rfl
  split
  · rfl
  next h0 hmod =>
  have hs : 0 < enc.info.point_step.toNat := by
    rcases Nat.eq_zero_or_pos enc.info.point_step.toNat with hz | hz
    · exact absurd (BitVec.eq_of_toNat_eq (by simpa using hz)) h0
    · exact hz
  have hm : cloud.length = cloud.length / enc.info.point_step.toNat * enc.info.point_step.toNat := by
    have := Nat.div_add_mod cloud.length enc.info.point_step.toNat
    rw [Nat.mul_comm] at this
    omega
  have : ∀ w size, encodePayload F C enc (cloud.length / enc.info.point_step.toNat) cloud w size =
      encodePayload F C enc (cloud.length / enc.info.point_step.toNat) cloud2 w size := by
    intro w size
    unfold encodePayload
    split
    · next hv =>
      cases hp : buildV5Plan F enc.info with
      | throw e => simp only [Res.throw_bind]
      | ub u => simp only [Res.ub_bind]
      | ok r =>
        obtain ⟨es, as⟩ := r
        have : ∀ cap, encodeV5Loop F C hashPaletteValue enc.info cap (cloud.length / enc.info.point_step.toNat) es as cloud w size =
            encodeV5Loop F C hashPaletteValue enc.info cap (cloud.length / enc.info.point_step.toNat) es as cloud2 w size := by
          intro cap
          apply v5loop_same _ _ _ _ _ _ _ _ _ _ _ hl
          intro i hi
          obtain ⟨a, b⟩ := plan_same hp (h i hi)
          exact ⟨all_of a, b⟩
        simp only [Res.ok_bind, this]
    · next hv =>
      have hk : ∃ es0, buildV4Encoders F enc.info = .ok es0 ∧ enc.encs.map Enc.reset = es0.map Enc.reset := by
        rcases hu with hu | hu
        · exact absurd hu hv
        · exact hu
      obtain ⟨es0, k1, k2⟩ := hk
      have : ∀ cap, encodeV4Loop F C enc.info cap (cloud.length / enc.info.point_step.toNat) enc.encs cloud w size =
          encodeV4Loop F C enc.info cap (cloud.length / enc.info.point_step.toNat) enc.encs cloud2 w size := by
        intro cap
        apply v4loop_same _ _ _ _ _ _ _ _ _ hm (hl ▸ hm)
        intro i hi
        exact (all_of (v4_same k1 (h i hi))).congr k2
      simp only [this]
  simp only [this]

theorem encodeVector_same (C : Compressor) (enc : Encoder) (hb : Nat) (cloud cloud2 : List Byte) (hu : enc.Used F)
    (hl : cloud.length = cloud2.length)
    (h : ∀ i < cloud.length / enc.info.point_step.toNat,
      SamePoint F enc.info (cloud.drop (i * enc.info.point_step.toNat)) (cloud2.drop (i * enc.info.point_step.toNat))) :
    encodeVector F C enc hb cloud = encodeVector F C enc hb cloud2 := by
  unfold encodeVector
  simp only [← hl, fun room => encodeView_same C enc cloud cloud2 room false hu hl h]

end Cloudini.Alike
