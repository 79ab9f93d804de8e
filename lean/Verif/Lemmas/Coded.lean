import Verif.Lemmas.CloudMain
import Verif.Lemmas.Reuse
import Verif.Lemmas.Bridge

/-!
# What a successful `encode` has been through: every field encoder stepped over every point
-/

namespace Cloudini

/-- The encoder, in some state, has taken the value of this point. -/
def Stepped (F : FloatOps) (mem : List Byte) (e : Enc) : Prop := ∃ (e0 : Enc) (r : Enc × List Byte), e0.reset = e.reset ∧ e0.step F mem = .ok r

theorem stepped_of_reset {F : FloatOps} {mem : List Byte} {es es' : List Enc} (h : es'.map Enc.reset = es.map Enc.reset)
    (hs : ∀ e ∈ es', Stepped F mem e) : ∀ e ∈ es, Stepped F mem e := by
  intro e he
  have : e.reset ∈ es'.map Enc.reset := by rw [h]; exact List.mem_map_of_mem he
  obtain ⟨a, ha, hr⟩ := List.mem_map.1 this
  obtain ⟨e0, r, h1, h2⟩ := hs a ha
  exact ⟨e0, r, h1.trans hr, h2⟩

theorem fields_stepped (F : FloatOps) (mem : List Byte) (es es' : List Enc) (w w' : W) (h : encodeFields F mem es w = .ok (es', w')) :
    (∀ e ∈ es, Stepped F mem e) ∧ es'.map Enc.reset = es.map Enc.reset := by
  induction es generalizing es' w with
  | nil =>
    simp only [encodeFields, Res.ok.injEq, Prod.mk.injEq] at h
    obtain ⟨rfl, _⟩ := h
    exact ⟨by simp, rfl⟩
  | cons e es ih =>
    simp only [encodeFields, Res.bind_eq_ok] at h
    obtain ⟨⟨e1, bs⟩, h1, w1, _, ⟨es1, w2⟩, h3, h4⟩ := h
    simp only [Res.ok.injEq, Prod.mk.injEq] at h4
    obtain ⟨rfl, rfl⟩ := h4
    obtain ⟨i1, i2⟩ := ih _ _ h3
    refine ⟨?_, by rw [List.map_cons, List.map_cons, i2, step_reset F mem e e1 bs h1]⟩
    intro x hx
    rcases List.mem_cons.1 hx with rfl | hx
    · exact ⟨_, _, rfl, h1⟩
    · exact i1 x hx

theorem core_stepped (F : FloatOps) (step n : Nat) (es es' : List Enc) (mem : List Byte) (w w' : W)
    (h : encodeCore F step n es mem w = .ok (es', w')) :
    (∀ i, i < n → ∀ e ∈ es, Stepped F (mem.drop (i * step)) e) ∧ es'.map Enc.reset = es.map Enc.reset := by
  induction n generalizing es mem w with
  | zero =>
    simp only [encodeCore, Res.ok.injEq, Prod.mk.injEq] at h
    obtain ⟨rfl, _⟩ := h
    exact ⟨fun i hi => absurd hi (by omega), rfl⟩
  | succ n ih =>
    simp only [encodeCore, Res.bind_eq_ok] at h
    obtain ⟨⟨es1, w1⟩, h1, h2⟩ := h
    obtain ⟨a1, a2⟩ := fields_stepped F mem es es1 w w1 h1
    obtain ⟨b1, b2⟩ := ih _ _ _ h2
    refine ⟨?_, b2.trans a2⟩
    intro i hi
    cases i with
    | zero => simpa using a1
    | succ i =>
      have := stepped_of_reset a2 (b1 i (by omega))
      rwa [List.drop_drop, Nat.add_comm, ← Nat.succ_mul] at this

theorem range_stepped (F : FloatOps) (step n : Nat) (es es' : List Enc) (as as' : List AField) (mem mem' : List Byte) (w w' : W)
    (h : encodeRangeV5 F step n es as mem w = .ok (es', as', mem', w')) :
    (∀ i, i < n → ∀ e ∈ es, Stepped F (mem.drop (i * step)) e) ∧ es'.map Enc.reset = es.map Enc.reset ∧ mem' = mem.drop (n * step) := by
  induction n generalizing es as mem w with
  | zero =>
    simp only [encodeRangeV5, Res.ok.injEq, Prod.mk.injEq] at h
    obtain ⟨rfl, _, rfl, _⟩ := h
    exact ⟨fun i hi => absurd hi (by omega), rfl, by simp⟩
  | succ n ih =>
    simp only [encodeRangeV5, Res.bind_eq_ok] at h
    obtain ⟨⟨es1, w1⟩, h1, as1, _, h2⟩ := h
    obtain ⟨a1, a2⟩ := fields_stepped F mem es es1 w w1 h1
    obtain ⟨b1, b2, b3⟩ := ih _ _ _ _ h2
    refine ⟨?_, b2.trans a2, by rw [b3, List.drop_drop, Nat.add_comm, ← Nat.succ_mul]⟩
    intro i hi
    cases i with
    | zero => simpa using a1
    | succ i =>
      have := stepped_of_reset a2 (b1 i (by omega))
      rwa [List.drop_drop, Nat.add_comm, ← Nat.succ_mul] at this

theorem points5_stepped (F : FloatOps) (hash : BitVec 64 → BitVec 64) (step n : Nat) (es es' : List Enc) (as as' : List AField)
    (mem mem' : List Byte) (w w' : W) (h : encodePointsV5 F hash step es as mem n w = .ok (es', as', mem', w')) :
    (∀ i, i < n → ∀ e ∈ es, Stepped F (mem.drop (i * step)) e) ∧ es'.map Enc.reset = es.map Enc.reset ∧ mem' = mem.drop (n * step) := by
  unfold encodePointsV5 at h
  by_cases hc : (as.any fun f => !f.committed) ∧ n > kProbePoints
  · rw [if_pos hc] at h
    simp only [Res.bind_eq_ok] at h
    obtain ⟨⟨es1, as1, mem1, w1⟩, h1, as2, _, h2⟩ := h
    obtain ⟨a1, a2, a3⟩ := range_stepped F step _ _ _ _ _ _ _ _ _ h1
    obtain ⟨b1, b2, b3⟩ := range_stepped F step _ _ _ _ _ _ _ _ _ h2
    have hn := hc.2
    generalize kProbePoints = p at *
    subst a3
    refine ⟨?_, b2.trans a2, ?_⟩
    · intro i hi
      by_cases hp : i < p
      · exact a1 i hp
      · have := stepped_of_reset a2 (b1 (i - p) (by omega))
        rwa [List.drop_drop, ← Nat.add_mul, show p + (i - p) = i by omega] at this
    · rw [b3, List.drop_drop, ← Nat.add_mul, show p + (n - p) = n by omega]
  · rw [if_neg hc] at h
    exact range_stepped F step _ _ _ _ _ _ _ _ _ h

theorem stage1V5_stepped (F : FloatOps) (hash : BitVec 64 → BitVec 64) (step cap points : Nat) (es : List Enc) (as : List AField)
    (mem : List Byte) (cs : List (List Byte)) (h : stage1V5 F hash step cap points es as mem = .ok cs) :
    ∀ i, i < points → ∀ e ∈ es, Stepped F (mem.drop (i * step)) e := by
  induction points using Nat.strongRecOn generalizing es as mem cs with
  | ind points ih =>
    intro i hi
    unfold stage1V5 at h
    have hp : points ≠ 0 := by omega
    rw [dif_neg hp, Res.bind_eq_ok] at h
    obtain ⟨⟨es1, as1, mem1, chunk⟩, h1, h⟩ := h
    simp only at h
    rw [Res.bind_eq_ok] at h
    obtain ⟨cs2, h2, _⟩ := h
    unfold encodeV5Chunk at h1
    simp only [Res.bind_eq_ok] at h1
    obtain ⟨⟨esA, asA, memA, wA⟩, hA, ⟨asB, wB⟩, _, hB⟩ := h1
    simp only [Res.ok.injEq, Prod.mk.injEq] at hB
    obtain ⟨rfl, rfl, rfl, rfl⟩ := hB
    obtain ⟨a1, a2, a3⟩ := points5_stepped F hash step _ _ _ _ _ _ _ _ _ hA
    have hK := pos_K
    have hn : min points kPointsPerChunk ≤ points := Nat.min_le_left _ _
    have hn0 : 0 < min points kPointsPerChunk := by omega
    generalize min points kPointsPerChunk = n at *
    have hr : (es.map Enc.reset).map Enc.reset = es.map Enc.reset := map_reset_reset es
    by_cases hlt : i < n
    · exact stepped_of_reset hr (a1 i hlt)
    · have := ih (points - n) (by omega) _ _ _ _ h2 (i - n) (by omega)
      rw [a3, List.drop_drop, ← Nat.add_mul, show n + (i - n) = i by omega] at this
      exact stepped_of_reset (a2.trans hr) this

theorem stage1V4_stepped (F : FloatOps) (step cap points : Nat) (es es' : List Enc) (mem : List Byte) (cs : List (List Byte)) (hstep : 0 < step)
    (hl : mem.length = points * step) (h : stage1V4 F step cap points es mem = .ok (es', cs)) :
    ∀ i, i < points → ∀ e ∈ es, Stepped F (mem.drop (i * step)) e := by
  induction points using Nat.strongRecOn generalizing es es' mem cs with
  | ind points ih =>
    intro i hi
    unfold stage1V4 at h
    have hp : points ≠ 0 := by omega
    rw [dif_neg hp, Res.bind_eq_ok] at h
    obtain ⟨⟨es1, mem1, chunk⟩, h1, h⟩ := h
    simp only at h
    rw [Res.bind_eq_ok] at h
    obtain ⟨⟨es2, cs2⟩, h2, _⟩ := h
    have hK := pos_K
    have hn : min points kPointsPerChunk ≤ points := Nat.min_le_left _ _
    have hnK : min points kPointsPerChunk ≤ kPointsPerChunk := Nat.min_le_right _ _
    have hn0 : 0 < min points kPointsPerChunk := by omega
    generalize hnn : min points kPointsPerChunk = n at *
    have hmem : n * step ≤ mem.length := by rw [hl]; exact Nat.mul_le_mul_right _ hn
    have hend : n < kPointsPerChunk → mem.length = n * step := fun h => by rw [hl, show points = n from by omega]
    unfold encodeV4Chunk at h1
    rw [encodePoints_core F step kPointsPerChunk n (es.map Enc.reset) mem ⟨[], cap⟩ hstep hnK hmem hend] at h1
    simp only [Res.bind_eq_ok] at h1
    obtain ⟨⟨esA, memA, wA⟩, ⟨⟨esB, wB⟩, hcore, hA⟩, hB⟩ := h1
    simp only [Res.ok.injEq, Prod.mk.injEq] at hA hB
    obtain ⟨rfl, rfl, rfl⟩ := hA
    obtain ⟨rfl, rfl, rfl⟩ := hB
    obtain ⟨a1, a2⟩ := core_stepped F step _ _ _ _ _ _ hcore
    have hr : (es.map Enc.reset).map Enc.reset = es.map Enc.reset := map_reset_reset es
    by_cases hlt : i < n
    · exact stepped_of_reset hr (a1 i hlt)
    · have := ih (points - n) (by omega) _ _ _ _ (by rw [List.length_drop, hl, Nat.sub_mul]) h2 (i - n) (by omega)
      rw [List.drop_drop, ← Nat.add_mul, show n + (i - n) = i by omega] at this
      exact stepped_of_reset (a2.trans hr) this

theorem buildAll_mem {α : Type} {mk : PointField → Res α} {fs : List PointField} {as : List α} (h : buildAll mk fs = .ok as) :
    ∀ f ∈ fs, ∃ a ∈ as, mk f = .ok a := by
  induction fs generalizing as with
  | nil => simp
  | cons f fs ih =>
    simp only [buildAll, Res.bind_eq_ok, Res.ok.injEq] at h
    obtain ⟨a, h1, as', h2, rfl⟩ := h
    intro g hg
    rcases List.mem_cons.1 hg with rfl | hg
    · exact ⟨a, List.mem_cons_self, h1⟩
    · obtain ⟨b, hb, hb'⟩ := ih h2 g hg
      exact ⟨b, List.mem_cons_of_mem _ hb, hb'⟩

/-- After a successful `encode` the encoder of every field outside the leading vector, floats of a LOSSY cloud, has taken the value of every point. -/
theorem encode_stepped (F : FloatOps) (C : Compressor) (enc enc' : Encoder) (cloud out : List Byte) (room size : Nat) (wh : Bool)
    (hu : enc.Used F) (hopt : enc.info.encoding_opt = .lossy) (h : encodeView F C enc cloud room wh = .ok (enc', out, size)) :
    ∀ i, i < cloud.length / enc.info.point_step.toNat → ∀ f ∈ enc.info.fields.drop (leadingLossyFloatCount enc.info), isAdaptiveType f.type = false →
      ∃ e, createEncoder F enc.info f = .ok e ∧ Stepped F (cloud.drop (i * enc.info.point_step.toNat)) e := by
  obtain ⟨cs, payload, hstep, hl, hs, _⟩ := encodeView_inv F C enc enc' cloud room wh out size h
  intro i hi f hf ha
  unfold stage1Chunks at hs
  simp only at hs
  by_cases hv : usesV5 enc.info = true
  · rw [if_pos hv] at hs
    simp only [Res.bind_eq_ok] at hs
    obtain ⟨cap, _, ⟨es, as⟩, h1, cs', h2, _⟩ := hs
    unfold buildV5Plan at h1
    simp only [Res.bind_eq_ok, Res.ok.injEq, Prod.mk.injEq] at h1
    obtain ⟨lead, _, rest, h3, rfl, _⟩ := h1
    obtain ⟨e, he, hc⟩ := buildAll_mem h3 f (List.mem_filter.2 ⟨hf, by simp [ha]⟩)
    exact ⟨e, hc, stage1V5_stepped F _ _ _ _ _ _ _ _ h2 i hi e (List.mem_append_right _ he)⟩
  · rw [if_neg hv] at hs
    simp only [Res.bind_eq_ok] at hs
    obtain ⟨m, _, h2⟩ := hs
    rcases hu with hu | ⟨es0, h1, hr⟩
    · exact absurd hu hv
    · unfold buildV4Encoders at h1
      rw [if_neg (by simp [hopt])] at h1
      simp only [Res.bind_eq_ok, Res.ok.injEq] at h1
      obtain ⟨lead, _, rest, h3, rfl⟩ := h1
      obtain ⟨e, he, hc⟩ := buildAll_mem h3 f hf
      have := stage1V4_stepped F _ _ _ _ _ _ _ hstep hl h2 i hi
      exact ⟨e, hc, stepped_of_reset hr this e (List.mem_append_right _ he)⟩

end Cloudini
