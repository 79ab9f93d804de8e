import Verif.Lemmas.Bridge

/-! No out-of-bounds access while encoding, whatever the values are. -/

namespace Cloudini

/-- A property of every outcome: `P` of the result, and no out-of-bounds access. -/
def Safe {α : Type} (r : Res α) (P : α → Prop) : Prop :=
  match r with
  | .ok a => P a
  | .throw _ => True
  | .ub k => k ≠ .mem

theorem Safe.bind {α β : Type} {r : Res α} {f : α → Res β} {P : α → Prop} {Q : β → Prop} (h : Safe r P)
    (hf : ∀ a, P a → Safe (f a) Q) : Safe (r >>= f) Q := by
  cases r with
  | ok a => exact hf a h
  | throw m => trivial
  | ub k => exact h

theorem Safe.mono {α : Type} {r : Res α} {P Q : α → Prop} (h : Safe r P) (hpq : ∀ a, P a → Q a) : Safe r Q := by
  cases r with
  | ok a => exact hpq a h
  | throw m => trivial
  | ub k => exact h

theorem Safe.not_mem {α : Type} {r : Res α} {P : α → Prop} (h : Safe r P) : r ≠ .ub .mem := by
  intro e; rw [e] at h; exact h rfl

theorem readAt_safe {mem : List Byte} {o n : Nat} (h : o + n ≤ mem.length) : Safe (readAt mem o n) fun bs => bs.length = n := by
  rw [readAt_ok h]; exact sub_length h

theorem subI64_safe (a b : BitVec 64) : Safe (subI64 a b) fun _ => True := by
  unfold subI64; split <;> simp [Safe]

/-- The encoder reads inside a point of `step` bytes and its state is one it can get into. -/
def Enc.Sane (step : Nat) : Enc → Prop
  | .copy o s => o + s ≤ step
  | .int o s _ _ => o + s ≤ step
  | .lossy32 o _ _ => o + 4 ≤ step
  | .lossy64 o _ _ => o + 8 ≤ step
  | .xor o s _ => o + s ≤ step
  | .gorilla o s st => o + s ≤ step ∧ (s = 4 ∨ s = 8) ∧ GorillaInv (8 * s) st
  | .floatN ls => 4 ≤ step ∧ ∀ l ∈ ls, l.off + 4 ≤ step

theorem sane_reset {step : Nat} {e : Enc} (h : e.Sane step) : e.reset.Sane step := by
  cases e with
  | gorilla o s st => exact ⟨h.1, h.2.1, gorillaInv_init _⟩
  | floatN ls =>
    refine ⟨h.1, ?_⟩
    intro l hl
    simp only [List.mem_map] at hl
    obtain ⟨l0, h0, rfl⟩ := hl
    exact h.2 l0 h0
  | _ => exact h

theorem lane_safe (F : FloatOps) (step : Nat) (mem : List Byte) (hm : step ≤ mem.length) (l : Lane) (h : l.off + 4 ≤ step) :
    Safe (laneEncode F mem l) fun r => r.1.off = l.off ∧ r.2.length ≤ 5 := by
  unfold laneEncode
  refine (readAt_safe (by omega)).bind fun bs _ => ?_
  simp only
  split
  · exact ⟨rfl, by simp⟩
  · exact ⟨rfl, encodeVarint64_signExtend_length _⟩

theorem lanes_safe (F : FloatOps) (step : Nat) (mem : List Byte) (hm : step ≤ mem.length) (ls : List Lane) (h : ∀ l ∈ ls, l.off + 4 ≤ step) :
    Safe (lanesEncode F mem ls) fun r => (∀ l ∈ r.1, l.off + 4 ≤ step) ∧ r.1.length = ls.length ∧ r.2.length ≤ 5 * ls.length := by
  induction ls with
  | nil => exact ⟨by simp, by simp, by simp⟩
  | cons l ls ih =>
    simp only [lanesEncode]
    refine (lane_safe F step mem hm l (h l (by simp))).bind fun r hr => ?_
    refine (ih fun x hx => h x (by simp [hx])).bind fun s hs => ?_
    refine ⟨?_, by simp [hs.2.1], by simp only [List.length_append, List.length_cons]; have := hr.2; have := hs.2.2; omega⟩
    intro x hx
    simp only [List.mem_cons] at hx
    rcases hx with rfl | hx
    · rw [hr.1]; exact h l (by simp)
    · exact hs.1 x hx

theorem step_safe (F : FloatOps) (step : Nat) (mem : List Byte) (hm : step ≤ mem.length) (e : Enc) (h : e.Sane step) :
    Safe (e.step F mem) fun r => r.1.Sane step ∧ r.1.maxBytes = e.maxBytes ∧ r.2.length ≤ e.maxBytes := by
  cases e with
  | copy o s =>
    simp only [Enc.Sane] at h
    simp only [Enc.step]
    refine (readAt_safe (by omega)).bind fun bs hb => ?_
    exact ⟨h, rfl, by simp [Enc.maxBytes, hb]⟩
  | int o s g p =>
    simp only [Enc.Sane] at h
    simp only [Enc.step]
    refine (readAt_safe (by omega)).bind fun bs hb => ?_
    refine (subI64_safe _ _).bind fun d _ => ?_
    exact ⟨h, rfl, (encodeVarint64_length _).2⟩
  | lossy32 o r p =>
    simp only [Enc.Sane] at h
    simp only [Enc.step]
    refine (readAt_safe (by omega)).bind fun bs hb => ?_
    split
    · exact ⟨h, rfl, by simp [Enc.maxBytes]⟩
    · split
      · simp [Safe]
      · refine (subI64_safe _ _).bind fun d _ => ?_
        exact ⟨h, rfl, (encodeVarint64_length _).2⟩
  | lossy64 o r p =>
    simp only [Enc.Sane] at h
    simp only [Enc.step]
    refine (readAt_safe (by omega)).bind fun bs hb => ?_
    split
    · exact ⟨h, rfl, by simp [Enc.maxBytes]⟩
    · split
      · simp [Safe]
      · refine (subI64_safe _ _).bind fun d _ => ?_
        exact ⟨h, rfl, (encodeVarint64_length _).2⟩
  | xor o s p =>
    simp only [Enc.Sane] at h
    simp only [Enc.step]
    refine (readAt_safe (by omega)).bind fun bs hb => ?_
    exact ⟨h, rfl, by simp [Enc.maxBytes]⟩
  | gorilla o s st =>
    obtain ⟨h1, h2, h3⟩ := h
    simp only [Enc.step]
    refine (readAt_safe (by omega)).bind fun bs hb => ?_
    have hlt : (BitVec.ofNat 64 (fromLE bs)).toNat < 2 ^ (8 * s) := by
      have := fromLE_lt bs
      rw [hb, pow256] at this
      rw [BitVec.toNat_ofNat]
      exact Nat.lt_of_le_of_lt (Nat.mod_le _ _) this
    obtain ⟨g1, _, g2, _⟩ := gorilla_step (8 * s) (by omega) st h3 _ hlt
    exact ⟨⟨h1, h2, g1⟩, rfl, by simp only [Enc.maxBytes]; omega⟩
  | floatN ls =>
    obtain ⟨h1, h2⟩ := h
    simp only [Enc.step]
    refine Safe.bind (P := fun _ => True) ?_ fun _ _ => ?_
    · unfold readUnusedLane
      split
      · exact (readAt_safe (by omega)).mono fun _ _ => trivial
      · trivial
    · refine (lanes_safe F step mem hm ls h2).bind fun r hr => ?_
      exact ⟨⟨h1, hr.1⟩, by simp [Enc.maxBytes, hr.2.1], hr.2.2⟩

theorem encodeFields_safe (F : FloatOps) (step : Nat) (mem : List Byte) (hm : step ≤ mem.length) (es : List Enc)
    (h : ∀ e ∈ es, e.Sane step) (w : W) (hw : sumMax es ≤ w.room) :
    Safe (encodeFields F mem es w) fun r => (∀ e ∈ r.1, e.Sane step) ∧ sumMax r.1 = sumMax es ∧ w.room ≤ r.2.room + sumMax es := by
  induction es generalizing w with
  | nil => exact ⟨by simp, rfl, by simp [sumMax]⟩
  | cons e es ih =>
    have hmax : sumMax (e :: es) = e.maxBytes + sumMax es := by simp [sumMax]
    simp only [encodeFields]
    refine (step_safe F step mem hm e (h e (by simp))).bind fun r hr => ?_
    refine Safe.bind (P := fun w' : W => w'.room = w.room - r.2.length) ?_ fun w' hw' => ?_
    · unfold W.raw
      rw [if_pos (by have := hr.2.2; omega)]
      rfl
    · refine (ih (fun x hx => h x (by simp [hx])) w' (by have := hr.2.2; omega)).bind fun s hs => ?_
      refine ⟨?_, ?_, ?_⟩
      · intro x hx
        simp only [List.mem_cons] at hx
        rcases hx with rfl | hx
        · exact hr.1
        · exact hs.1 x hx
      · have : sumMax (r.1 :: s.1) = r.1.maxBytes + sumMax s.1 := by simp [sumMax]
        rw [this, hmax, hr.2.1, hs.2.1]
      · have h3 := hs.2.2
        have h4 := hr.2.2
        simp only
        omega

theorem encodePoints_safe (F : FloatOps) (step : Nat) (n : Nat) (es : List Enc) (h : ∀ e ∈ es, e.Sane step) (mem : List Byte)
    (hdiv : ∃ k, mem.length = k * step) (hst : 0 < step) (w : W) (hw : n * sumMax es ≤ w.room) :
    Safe (encodePoints F step n es mem w) fun r => (∀ e ∈ r.1, e.Sane step) ∧ sumMax r.1 = sumMax es ∧ ∃ k, r.2.1.length = k * step := by
  induction n generalizing es mem w with
  | zero => exact ⟨h, rfl, hdiv⟩
  | succ n ih =>
    simp only [encodePoints]
    split
    · exact ⟨h, rfl, hdiv⟩
    · next hne =>
      obtain ⟨k, hk⟩ := hdiv
      have hk0 : k ≠ 0 := by rintro rfl; simp at hk; exact hne (by simp [hk])
      have hle : step ≤ mem.length := by
        rw [hk]
        obtain ⟨j, rfl⟩ := Nat.exists_eq_succ_of_ne_zero hk0
        rw [Nat.succ_mul]; omega
      rw [Nat.add_mul, Nat.one_mul] at hw
      refine (encodeFields_safe F step mem hle es h w (by omega)).bind fun r hr => ?_
      rw [if_pos hle]
      refine (ih r.1 hr.1 (mem.drop step) ⟨k - 1, ?_⟩ r.2 ?_).mono fun s hs => ⟨hs.1, hs.2.1.trans hr.2.1, hs.2.2⟩
      · rw [List.length_drop, hk, Nat.sub_mul]; omega
      · rw [hr.2.1]; have := hr.2.2; omega

theorem encodeV4Loop_safe (F : FloatOps) (C : Compressor) (info : EncodingInfo) (cap points : Nat) (es : List Enc)
    (h : ∀ e ∈ es, e.reset.Sane info.point_step.toNat) (mem : List Byte) (hst : 0 < info.point_step.toNat)
    (hdiv : ∃ k, mem.length = k * info.point_step.toNat) (hcap : kPointsPerChunk * sumMax es ≤ cap) (w : W) (size : Nat) :
    Safe (encodeV4Loop F C info cap points es mem w size) fun _ => True := by
  induction points using Nat.strongRecOn generalizing es mem w size with
  | ind points ih =>
    unfold encodeV4Loop
    split
    · trivial
    · next hp =>
      refine Safe.bind (P := fun r => (∀ e ∈ r.1, e.Sane info.point_step.toNat) ∧ sumMax r.1 = sumMax es ∧
        ∃ k, r.2.1.length = k * info.point_step.toNat) ?_ fun r hr => ?_
      · unfold encodeV4Chunk
        have hs : sumMax (es.map Enc.reset) = sumMax es := sumMax_reset es
        refine (encodePoints_safe F _ kPointsPerChunk (es.map Enc.reset) ?_ mem hdiv hst ⟨[], cap⟩ (by rw [hs]; exact hcap)).bind
          fun r hr => ⟨hr.1, hr.2.1.trans hs, hr.2.2⟩
        intro e he
        simp only [List.mem_map] at he
        obtain ⟨e0, h0, rfl⟩ := he
        exact h e0 h0
      · refine Safe.bind (P := fun _ => True) ?_ fun s _ => ?_
        · cases hw : writeStage1Chunk C info.compression_opt r.2.2 w with
          | ok _ => trivial
          | throw _ => trivial
          | ub k => exact absurd hw (writeStage1_not_ub _ _ _ _ _)
        · have := pos_K
          exact ih _ (by omega) r.1 (fun e he => sane_reset (hr.1 e he)) r.2.1 hr.2.2 (by rw [hr.2.1]; exact hcap) _ _

theorem createEncoder_sane (F : FloatOps) (info : EncodingInfo) (f : PointField) (e : Enc) (step : Nat)
    (hin : f.offset.toNat + sizeOf f.type ≤ step) (h : createEncoder F info f = .ok e) : e.Sane step := by
  unfold createEncoder at h
  cases ht : f.type <;> simp only [ht] at h <;> simp only [ht, sizeOf] at hin
  all_goals
    try simp only [mkLossy32Enc, mkLossy64Enc] at h
    repeat' split at h
    all_goals first
      | (simp only [Res.ok.injEq] at h; subst h; simp only [Enc.Sane]
         first
           | omega
           | exact ⟨by omega, by simp, gorillaInv_init _⟩)
      | simp at h

theorem buildAll_sane (F : FloatOps) (info : EncodingInfo) (step : Nat) (fs : List PointField) (es : List Enc)
    (hin : ∀ f ∈ fs, f.offset.toNat + sizeOf f.type ≤ step) (h : buildAll (createEncoder F info) fs = .ok es) : ∀ e ∈ es, e.Sane step := by
  induction fs generalizing es with
  | nil => simp only [buildAll, Res.ok.injEq] at h; subst h; simp
  | cons f fs ih =>
    simp only [buildAll] at h
    rw [Res.bind_eq_ok] at h
    obtain ⟨d, h1, h⟩ := h
    rw [Res.bind_eq_ok] at h
    obtain ⟨ds1, h2, h⟩ := h
    simp only [Res.ok.injEq] at h
    subst h
    intro x hx
    simp only [List.mem_cons] at hx
    rcases hx with rfl | hx
    · exact createEncoder_sane F info f _ step (hin f (by simp)) h1
    · exact ih ds1 (fun f hf => hin f (by simp [hf])) h2 x hx

theorem leadingEncoder_sane (F : FloatOps) (info : EncodingInfo) (es : List Enc) (step : Nat)
    (hin : ∀ f ∈ info.fields, f.offset.toNat + sizeOf f.type ≤ step) (h : leadingEncoder F info = .ok es) : ∀ e ∈ es, e.Sane step := by
  unfold leadingEncoder at h
  simp only at h
  split at h
  · simp only [Res.ok.injEq] at h; subst h; simp
  · next hn =>
    rw [Res.bind_eq_ok] at h
    obtain ⟨d, h1, h⟩ := h
    simp only [Res.ok.injEq] at h
    subst h
    unfold mkFloatNEnc at h1
    split at h1
    · simp at h1
    simp only [Res.ok.injEq] at h1
    subst h1
    have key : ∀ f ∈ info.fields.take (leadingLossyFloatCount info), f.offset.toNat + 4 ≤ step := by
      intro f hf
      have := hin f (List.mem_of_mem_take hf)
      rw [(leadCount_take info f hf).2.1] at this
      exact this
    intro x hx
    simp only [List.mem_singleton] at hx
    subst hx
    refine ⟨?_, ?_⟩
    · have hne : 0 < (info.fields.take (leadingLossyFloatCount info)).length := by
        rw [List.length_take]
        have := leadCount_le info
        omega
      obtain ⟨f, hf⟩ := List.exists_mem_of_length_pos hne
      have := key f hf
      omega
    · intro l hl
      unfold lanesOf at hl
      simp only [List.mem_map] at hl
      obtain ⟨f, hf, rfl⟩ := hl
      exact key f hf

theorem buildV4_sane (F : FloatOps) (info : EncodingInfo) (es : List Enc) (step : Nat)
    (hin : ∀ f ∈ info.fields, f.offset.toNat + sizeOf f.type ≤ step) (h : buildV4Encoders F info = .ok es) : ∀ e ∈ es, e.Sane step := by
  unfold buildV4Encoders at h
  split at h
  · simp only [Res.ok.injEq] at h
    subst h
    intro e he
    simp only [List.mem_map] at he
    obtain ⟨f, hf, rfl⟩ := he
    exact hin f hf
  · rw [Res.bind_eq_ok] at h
    obtain ⟨l, h2, h⟩ := h
    rw [Res.bind_eq_ok] at h
    obtain ⟨r, h3, h⟩ := h
    simp only [Res.ok.injEq] at h
    subst h
    intro e he
    rw [List.mem_append] at he
    rcases he with he | he
    · exact leadingEncoder_sane F info l step hin h2 e he
    · exact buildAll_sane F info step _ r (fun f hf => hin f (List.mem_of_mem_drop hf)) h3 e he

end Cloudini
