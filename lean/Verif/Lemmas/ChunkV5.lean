import Verif.Lemmas.Adaptive
import Verif.Lemmas.Chunks

/-! A whole V5 stage-1 chunk. -/

namespace Cloudini

/-- Two lists related element by element. -/
def All2 {α β : Type} (R : α → β → Prop) : List α → List β → Prop
  | [], [] => True
  | a :: as, b :: bs => R a b ∧ All2 R as bs
  | _, _ => False

theorem All2.imp {α β : Type} {R S : α → β → Prop} {as : List α} {bs : List β} (h : All2 R as bs)
    (hi : ∀ a b, a ∈ as → R a b → S a b) : All2 S as bs := by
  induction as generalizing bs with
  | nil => cases bs <;> simp_all [All2]
  | cons a as ih =>
    cases bs with
    | nil => exact h.elim
    | cons b bs => exact ⟨hi a b (by simp) h.1, ih h.2 (fun x y hx => hi x y (by simp [hx]))⟩

theorem All2.length {α β : Type} {R : α → β → Prop} {as : List α} {bs : List β} (h : All2 R as bs) :
    bs.length = as.length := by
  induction as generalizing bs with
  | nil => cases bs <;> simp_all [All2]
  | cons a as ih =>
    cases bs with
    | nil => exact h.elim
    | cons b bs => simp [ih h.2]

/-- The bytes of a field in `n` consecutive points. -/
def fieldSeq (step off bpv : Nat) : Nat → List Byte → List (List Byte)
  | 0, _ => []
  | n + 1, mem => sub mem off bpv :: fieldSeq step off bpv n (mem.drop step)

@[simp] theorem fieldSeq_length (step off bpv n : Nat) (mem : List Byte) : (fieldSeq step off bpv n mem).length = n := by
  induction n generalizing mem with
  | zero => rfl
  | succ n ih => simp [fieldSeq, ih]

theorem fieldSeq_add (step off bpv a b : Nat) (mem : List Byte) :
    fieldSeq step off bpv (a + b) mem = fieldSeq step off bpv a mem ++ fieldSeq step off bpv b (mem.drop (a * step)) := by
  induction a generalizing mem with
  | zero => simp [fieldSeq]
  | succ a ih =>
    rw [Nat.succ_add]
    simp only [fieldSeq, ih, List.cons_append, List.drop_drop]
    rw [Nat.add_mul, Nat.one_mul, Nat.add_comm step]

/-- One adaptive field over `n` points. -/
def collectOne (step : Nat) : Nat → AField → List Byte → Res AField
  | 0, f, _ => .ok f
  | n + 1, f, mem => do
    let f ← collectValue f mem
    collectOne step n f (mem.drop step)

/-- The field lies inside every point of the chunk. -/
def FitsSeq (step n : Nat) (mem : List Byte) (f : AField) : Prop :=
  ∀ i, i < n → f.offset + f.bpv ≤ (mem.drop (i * step)).length

theorem fitsSeq_succ {step n : Nat} {mem : List Byte} {f : AField} (h : FitsSeq step (n + 1) mem f) :
    f.offset + f.bpv ≤ mem.length ∧ FitsSeq step n (mem.drop step) f := by
  refine ⟨by simpa using h 0 (by omega), fun i hi => ?_⟩
  have := h (i + 1) (by omega)
  rw [List.drop_drop]
  rwa [Nat.add_mul, Nat.one_mul, Nat.add_comm _ step] at this

theorem collectOne_w (step n : Nat) (f : AField) (mem : List Byte) (done : List (List Byte)) (h : ChunkSt f done)
    (ht : TInv f) (hin : FitsSeq step n mem f)
    (hs : Stepping f → SubW 0#64 (ivals f (done ++ fieldSeq step f.offset f.bpv n mem))) :
    ∃ g, collectOne step n f mem = .ok g ∧ ChunkSt g (done ++ fieldSeq step f.offset f.bpv n mem) ∧ TInv g ∧
      SameField g f ∧ g.committed = f.committed ∧ g.mode = f.mode := by
  induction n generalizing f mem done with
  | zero => exact ⟨f, rfl, by simpa [fieldSeq] using h, ht, SameField.refl f, rfl, rfl⟩
  | succ n ih =>
    obtain ⟨hin1, hin2⟩ := fitsSeq_succ hin
    have happ : done ++ fieldSeq step f.offset f.bpv (n + 1) mem =
        (done ++ [sub mem f.offset f.bpv]) ++ fieldSeq step f.offset f.bpv n (mem.drop step) := by simp [fieldSeq]
    have hs1 : Stepping f → SubW 0#64 (ivals f (done ++ [sub mem f.offset f.bpv])) := by
      intro hst
      have hs := hs hst
      rw [happ] at hs
      have : ivals f ((done ++ [sub mem f.offset f.bpv]) ++ fieldSeq step f.offset f.bpv n (mem.drop step)) =
        ivals f (done ++ [sub mem f.offset f.bpv]) ++ ivals f (fieldSeq step f.offset f.bpv n (mem.drop step)) := by
          simp [ivals]
      rw [this, subW_append] at hs
      exact hs.1
    obtain ⟨g, e, c1, c2, c3, c4, c5⟩ := collectValue_w f mem done h ht hin1 hs1
    obtain ⟨g', e', d1, d2, d3, d4, d5⟩ := ih g (mem.drop step) (done ++ [sub mem f.offset f.bpv]) c1 c2
      (fun i hi => by rw [c3.1, c3.2.1]; exact hin2 i hi)
      (fun hst => by
        rw [ivals_same c3, c3.1, c3.2.1, ← happ]
        exact hs (by unfold Stepping at hst ⊢; rw [c4, c5] at hst; exact hst))
    rw [c3.1, c3.2.1, ← happ] at d1
    refine ⟨g', ?_, d1, d2, d3.trans c3, d4.trans c4, d5.trans c5⟩
    simp only [collectOne, e, Res.ok_bind, e']

theorem collectOne_spec (step n : Nat) (f : AField) (mem : List Byte) (done : List (List Byte)) (h : ChunkSt f done)
    (ht : TInv f) (hin : FitsSeq step n mem f)
    (hs : SubOK 0#64 (ivals f (done ++ fieldSeq step f.offset f.bpv n mem))) :
    ∃ g, collectOne step n f mem = .ok g ∧ ChunkSt g (done ++ fieldSeq step f.offset f.bpv n mem) ∧ TInv g ∧
      SameField g f ∧ g.committed = f.committed ∧ g.mode = f.mode :=
  collectOne_w step n f mem done h ht hin fun _ => hs.weak

theorem mapFields_all2 (g : AField → Res AField) (as as' : List AField) (h : All2 (fun f f' => g f = .ok f') as as') :
    mapFields g as = .ok as' := by
  induction as generalizing as' with
  | nil => cases as' <;> simp_all [All2, mapFields]
  | cons a as ih =>
    cases as' with
    | nil => exact h.elim
    | cons b bs => simp only [mapFields, h.1, ih bs h.2, Res.ok_bind]

theorem collectCore_cons (step n : Nat) (f f' : AField) (as as' : List AField) (mem : List Byte)
    (h1 : collectOne step n f mem = .ok f') (h2 : collectCore step n as mem = .ok as') :
    collectCore step n (f :: as) mem = .ok (f' :: as') := by
  induction n generalizing f as mem with
  | zero =>
    simp only [collectOne, collectCore, Res.ok.injEq] at *
    rw [h1, h2]
  | succ n ih =>
    simp only [collectOne] at h1
    simp only [collectCore] at h2 ⊢
    rw [Res.bind_eq_ok] at h1 h2
    obtain ⟨f1, p1, p2⟩ := h1
    obtain ⟨as1, q1, q2⟩ := h2
    simp only [mapFields, p1, q1, Res.ok_bind]
    exact ih f1 as1 (mem.drop step) p2 q2

theorem collectCore_all2 (step n : Nat) (as as' : List AField) (mem : List Byte)
    (h : All2 (fun f f' => collectOne step n f mem = .ok f') as as') : collectCore step n as mem = .ok as' := by
  induction as generalizing as' with
  | nil =>
    cases as' with
    | nil =>
      clear h
      induction n generalizing mem with
      | zero => rfl
      | succ n ih => simp only [collectCore, mapFields, Res.ok_bind]; exact ih _
    | cons b bs => exact h.elim
  | cons a as ih =>
    cases as' with
    | nil => exact h.elim
    | cons b bs => exact collectCore_cons step n a b as bs mem h.1 (ih bs h.2)

theorem all2_exists {α β : Type} {R : α → β → Prop} (as : List α) (h : ∀ a ∈ as, ∃ b, R a b) : ∃ bs, All2 R as bs := by
  induction as with
  | nil => exact ⟨[], trivial⟩
  | cons a as ih =>
    obtain ⟨b, hb⟩ := h a (by simp)
    obtain ⟨bs, hbs⟩ := ih (fun x hx => h x (by simp [hx]))
    exact ⟨b :: bs, hb, hbs⟩

theorem all2_map_left {α β γ : Type} {R : γ → β → Prop} (g : α → γ) (as : List α) (bs : List β) :
    All2 R (as.map g) bs ↔ All2 (fun a b => R (g a) b) as bs := by
  induction as generalizing bs with
  | nil => cases bs <;> simp [All2]
  | cons a as ih => cases bs <;> simp [All2, ih]

theorem all2_trans {α β γ : Type} {R : α → β → Prop} {S : β → γ → Prop} {T : α → γ → Prop} {as : List α} {bs : List β} {cs : List γ}
    (h1 : All2 R as bs) (h2 : All2 S bs cs) (h : ∀ a b c, R a b → S b c → T a c) : All2 T as cs := by
  induction as generalizing bs cs with
  | nil => cases bs <;> cases cs <;> simp_all [All2]
  | cons a as ih =>
    cases bs with
    | nil => exact h1.elim
    | cons b bs =>
      cases cs with
      | nil => exact h2.elim
      | cons c cs => exact ⟨h a b c h1.1 h2.1, ih h1.2 h2.2⟩

/-- An adaptive field may encode the chunk of `n` points at `mem`. -/
structure GoodA (step n : Nat) (mem : List Byte) (f : AField) : Prop where
  fits : FitsSeq step n mem f
  diffs : SubOK 0#64 (ivals f (fieldSeq step f.offset f.bpv n mem))

/-- All adaptive fields have the same commit flag (they are committed together). -/
def SameFlag (as : List AField) : Prop := ∃ c, ∀ f ∈ as, f.committed = c

theorem all2_mem_right {α β : Type} {R : α → β → Prop} {as : List α} {bs : List β} (h : All2 R as bs) :
    ∀ b ∈ bs, ∃ a ∈ as, R a b := by
  induction as generalizing bs with
  | nil => cases bs <;> simp_all [All2]
  | cons a as ih =>
    cases bs with
    | nil => exact h.elim
    | cons b bs =>
      intro x hx
      simp only [List.mem_cons] at hx
      rcases hx with rfl | hx
      · exact ⟨a, by simp, h.1⟩
      · obtain ⟨a', ha, hr⟩ := ih h.2 x hx
        exact ⟨a', by simp [ha], hr⟩

/-- The field at the end of the point loop. -/
structure Collected (step n : Nat) (mem : List Byte) (f g : AField) : Prop where
  st : ChunkSt g (fieldSeq step f.offset f.bpv n mem)
  tinv : TInv g
  same : SameField g f
  small : g.committed = true ∨ n ≤ kProbePoints
  keep : n ≤ kProbePoints → g.committed = f.committed
  stays : f.committed = true → g.mode = f.mode
  picks : f.committed = false → kProbePoints < n → g.committed = true ∧
    g.mode = bestMode f.bpv (ivals f (fieldSeq step f.offset f.bpv kProbePoints mem)) (rvals (fieldSeq step f.offset f.bpv kProbePoints mem))

theorem probed_spec (K : Nat) (hK31 : K ≤ 2 ^ 31) (hKp : kProbePoints = K) (F : FloatOps) (hash : BitVec 64 → BitVec 64) (step n : Nat) (es es' : List Enc)
    (as : List AField) (mem : List Byte) (w w' : W) (hcore : encodeCore F step n es mem w = .ok (es', w'))
    (hcf : ∀ f ∈ as, f.committed = false) (ht : ∀ f ∈ as, TInv f) (hg : ∀ f ∈ as, GoodA step n mem f) (hKn : K < n) :
    ∃ as', (encodeRangeV5 F step K es (as.map prepareField) mem w >>= fun r =>
        mapFields (commitProbed hash) r.2.1 >>= fun as => encodeRangeV5 F step (n - K) r.1 as r.2.2.1 r.2.2.2)
          = .ok (es', as', mem.drop (n * step), w') ∧
      All2 (Collected step n mem) as as' := by
  have hprep := fun f (h : f ∈ as) => prepareField_spec f (ht f h)
  have hsplit : n = K + (n - K) := by omega
  rw [hsplit, encodeCore_add, Res.bind_eq_ok] at hcore
  obtain ⟨⟨es1, w1⟩, hc1, hc2⟩ := hcore
  simp only at hc2
  -- first range
  obtain ⟨as1, h1⟩ := all2_exists (R := fun f g => collectOne step K (prepareField f) mem = .ok g ∧
    ChunkSt g (fieldSeq step f.offset f.bpv K mem) ∧ TInv g ∧ SameField g f ∧ g.committed = false ∧ GoodA step n mem f ∧ f.committed = false)
    as (fun f hfm => by
      obtain ⟨p1, p2, p3, p4, p5⟩ := hprep f hfm
      have hgf := hg f hfm
      obtain ⟨g, e, d1, d2, d3, d4, d5⟩ := collectOne_spec step K (prepareField f) mem [] p1 p3
        (fun i hi => by rw [p2.1, p2.2.1]; exact hgf.fits i (by omega))
        (by
          rw [ivals_same p2, p2.1, p2.2.1, List.nil_append]
          have := hgf.diffs
          rw [hsplit, fieldSeq_add] at this
          unfold ivals at this ⊢
          rw [List.map_append, subOK_append] at this
          exact this.1)
      rw [p2.1, p2.2.1, List.nil_append] at d1
      exact ⟨g, e, d1, d2, d3.trans p2, by rw [d4, p4, hcf f hfm], hgf, hcf f hfm⟩)
  have e1 := collectCore_all2 step K (as.map prepareField) as1 mem
    ((all2_map_left prepareField as as1).2 (h1.imp fun f g _ h => h.1))
  rw [encodeRangeV5_core F step K es es1 _ as1 mem w w1 hc1 e1]
  simp only [Res.ok_bind]
  -- commit
  obtain ⟨as2, h2⟩ := all2_exists (R := fun g g' => commitProbed hash g = .ok g' ∧ TInv g' ∧ SameField g' g ∧ g'.committed = true ∧
      (∀ f, SameField g f → g'.mode = bestMode f.bpv (ivals f (fieldSeq step f.offset f.bpv K mem)) (rvals (fieldSeq step f.offset f.bpv K mem))) ∧
      ∀ f, SameField g f → ChunkSt g (fieldSeq step f.offset f.bpv K mem) →
        ChunkSt g' (fieldSeq step f.offset f.bpv K mem))
    as1 (fun g hgm => by
      obtain ⟨f, hfm, e, d1, d2, d3, d4, d5, _⟩ := all2_mem_right h1 g hgm
      obtain ⟨g', e', k1, k2, k3, k4, k5⟩ := commitProbed_spec hash g _ d2 d4 d1 (by rw [fieldSeq_length]; exact hK31)
        (by
          rw [ivals_same d3]
          have := d5.diffs
          rw [hsplit, fieldSeq_add] at this
          unfold ivals at this ⊢
          rw [List.map_append, subOK_append] at this
          exact this.1)
      refine ⟨g', e', k2, k3, k4, fun f' hs => ?_, fun f' hs _ => ?_⟩
      · rw [← ivals_same hs, ← hs.1, ← hs.2.1, d3.1, d3.2.1]
        rw [d3.2.1] at k5
        exact k5
      rw [← hs.1, ← hs.2.1, d3.1, d3.2.1]
      exact k1)
  have e2 := mapFields_all2 (commitProbed hash) as1 as2 (h2.imp fun f g _ h => h.1)
  rw [e2]
  simp only [Res.ok_bind]
  have h12 : All2 (fun f g' => ChunkSt g' (fieldSeq step f.offset f.bpv K mem) ∧ TInv g' ∧ SameField g' f ∧
      g'.committed = true ∧ GoodA step n mem f ∧ f.committed = false ∧
      g'.mode = bestMode f.bpv (ivals f (fieldSeq step f.offset f.bpv K mem)) (rvals (fieldSeq step f.offset f.bpv K mem))) as as2 :=
    all2_trans h1 h2 (fun f g g' a b =>
      ⟨b.2.2.2.2.2 f a.2.2.2.1 a.2.1, b.2.1, b.2.2.1.trans a.2.2.2.1, b.2.2.2.1, a.2.2.2.2.2.1, a.2.2.2.2.2.2, b.2.2.2.2.1 f a.2.2.2.1⟩)
  -- second range
  obtain ⟨as3, h3⟩ := all2_exists (R := fun g' g'' =>
      collectOne step (n - K) g' (mem.drop (K * step)) = .ok g'' ∧
      ∀ f, SameField g' f → f.committed = false → g'.mode = bestMode f.bpv (ivals f (fieldSeq step f.offset f.bpv K mem)) (rvals (fieldSeq step f.offset f.bpv K mem)) → Collected step n mem f g'')
    as2 (fun g' hgm => by
      obtain ⟨f, hfm, d1, d2, d3, d4, d5, _⟩ := all2_mem_right h12 g' hgm
      have hseq : fieldSeq step f.offset f.bpv n mem = fieldSeq step f.offset f.bpv K mem ++
          fieldSeq step f.offset f.bpv (n - K) (mem.drop (K * step)) := by
        rw [← fieldSeq_add, ← hsplit]
      obtain ⟨g'', e, k1, k2, k3, k4, k5⟩ := collectOne_spec step (n - K) g' (mem.drop (K * step))
        (fieldSeq step f.offset f.bpv K mem) d1 d2
        (fun i hi => by
          rw [d3.1, d3.2.1, List.drop_drop, ← Nat.add_mul]
          exact d5.fits _ (by omega))
        (by rw [d3.1, d3.2.1, ivals_same d3, ← hseq]; exact d5.diffs)
      rw [d3.1, d3.2.1, ← hseq] at k1
      refine ⟨g'', e, fun f' hs hfm' hmode => ⟨?_, k2, k3.trans hs, Or.inl (k4.trans d4), fun h => absurd h (by omega),
        fun h => by rw [hfm'] at h; simp at h, fun _ _ => ⟨k4.trans d4, by rw [hKp]; exact k5.trans hmode⟩⟩⟩
      rw [← hs.1, ← hs.2.1, d3.1, d3.2.1]
      exact k1)
  have e3 := collectCore_all2 step (n - K) as2 as3 _ (h3.imp fun f g _ h => h.1)
  rw [encodeRangeV5_core F step (n - K) es1 es' as2 as3 _ w1 w' hc2 e3]
  refine ⟨as3, ?_, all2_trans h12 h3 fun f g' g'' a b => b.2 f a.2.2.1 a.2.2.2.2.2.1 a.2.2.2.2.2.2⟩
  rw [List.drop_drop, ← Nat.add_mul, ← hsplit]

theorem direct_spec (F : FloatOps) (step n : Nat) (es es' : List Enc) (as : List AField)
    (mem : List Byte) (w w' : W) (hcore : encodeCore F step n es mem w = .ok (es', w'))
    (ht : ∀ f ∈ as, TInv f) (hg : ∀ f ∈ as, GoodA step n mem f)
    (hsmall : ∀ f ∈ as, f.committed = true ∨ n ≤ kProbePoints) :
    ∃ as', encodeRangeV5 F step n es (as.map prepareField) mem w = .ok (es', as', mem.drop (n * step), w') ∧
      All2 (Collected step n mem) as as' := by
  have hprep := fun f (h : f ∈ as) => prepareField_spec f (ht f h)
  obtain ⟨as1, h1⟩ := all2_exists (R := fun f g => collectOne step n (prepareField f) mem = .ok g ∧ Collected step n mem f g)
    as (fun f hfm => by
      obtain ⟨p1, p2, p3, p4, p5⟩ := hprep f hfm
      have hgf := hg f hfm
      obtain ⟨g, e, d1, d2, d3, d4, d5⟩ := collectOne_spec step n (prepareField f) mem [] p1 p3
        (fun i hi => by rw [p2.1, p2.2.1]; exact hgf.fits i (by omega))
        (by rw [ivals_same p2, p2.1, p2.2.1, List.nil_append]; exact hgf.diffs)
      rw [p2.1, p2.2.1, List.nil_append] at d1
      refine ⟨g, e, d1, d2, d3.trans p2, ?_, fun _ => by rw [d4, p4], fun _ => by rw [d5, p5], fun hc hk => ?_⟩
      · rw [d4, p4]
        exact hsmall f hfm
      · rcases hsmall f hfm with h | h
        · rw [hc] at h; simp at h
        · omega)
  have e1 := collectCore_all2 step n (as.map prepareField) as1 mem
    ((all2_map_left prepareField as as1).2 (h1.imp fun f g _ h => h.1))
  exact ⟨as1, encodeRangeV5_core F step n es es' _ as1 mem w w' hcore e1, h1.imp fun f g _ h => h.2⟩

theorem encodePointsV5_spec (F : FloatOps) (hash : BitVec 64 → BitVec 64) (step n : Nat) (es es' : List Enc) (as : List AField)
    (mem : List Byte) (w w' : W) (hcore : encodeCore F step n es mem w = .ok (es', w'))
    (hf : SameFlag as) (ht : ∀ f ∈ as, TInv f) (hg : ∀ f ∈ as, GoodA step n mem f) :
    ∃ as', encodePointsV5 F hash step es (as.map prepareField) mem n w = .ok (es', as', mem.drop (n * step), w') ∧
      All2 (Collected step n mem) as as' := by
  obtain ⟨c, hc⟩ := hf
  have hany : ((as.map prepareField).any fun f => !f.committed) = as.any fun f => !f.committed := by
    clear hcore hg hc
    induction as with
    | nil => rfl
    | cons f as ih =>
      simp only [List.map_cons, List.any_cons, (prepareField_spec f (ht f (by simp))).2.2.2.1]
      rw [ih (fun x hx => ht x (by simp [hx]))]
  unfold encodePointsV5
  rw [hany]
  by_cases hcond : (as.any fun f => !f.committed) = true ∧ n > kProbePoints
  · rw [if_pos hcond]
    have hcf : ∀ f ∈ as, f.committed = false := by
      obtain ⟨h1, _⟩ := hcond
      rw [List.any_eq_true] at h1
      obtain ⟨f, hf, h2⟩ := h1
      intro f' hf'
      rw [hc f' hf', ← hc f hf]
      simpa using h2
    exact probed_spec kProbePoints (by unfold kProbePoints; omega) rfl F hash step n es es' as mem w w' hcore hcf ht hg hcond.2
  · rw [if_neg hcond]
    refine direct_spec F step n es es' as mem w w' hcore ht hg fun f hfm => ?_
    cases hcc : f.committed with
    | true => exact Or.inl rfl
    | false =>
      right
      simp only [not_and, Nat.not_lt] at hcond
      apply hcond
      rw [List.any_eq_true]
      exact ⟨f, hfm, by rw [hcc]; rfl⟩

/-! ### the sections of a chunk -/

/-- The sections, field by field. -/
def allSections (step n : Nat) (mem : List Byte) : List AField → List Byte
  | [] => []
  | g :: gs => sectionOf g (fieldSeq step g.offset g.bpv n mem) ++ allSections step n mem gs

/-- Static facts about an adaptive field kept by every step. -/
structure Settled (f g : AField) : Prop where
  tinv : TInv g
  same : SameField g f
  committed : g.committed = true

theorem appendSections_spec (hash : BitVec 64 → BitVec 64) (step n : Nat) (mem : List Byte) (as gs : List AField) (w : W)
    (h : All2 (Collected step n mem) as gs) (hg : ∀ f ∈ as, GoodA step n mem f) (hn : n ≤ 65535)
    (hroom : (allSections step n mem gs).length ≤ w.room) :
    ∃ gs', appendSections hash gs w = .ok (gs', w.put (allSections step n mem gs)) ∧ All2 Settled as gs' := by
  induction as generalizing gs w with
  | nil =>
    cases gs with
    | nil => exact ⟨[], by simp [appendSections, allSections, W.put_nil], trivial⟩
    | cons g gs => exact h.elim
  | cons f as ih =>
    cases gs with
    | nil => exact h.elim
    | cons g gs =>
      obtain ⟨h1, h2⟩ := h
      simp only [allSections, List.length_append] at hroom
      have hst : ChunkSt g (fieldSeq step g.offset g.bpv n mem) := by rw [h1.same.1, h1.same.2.1]; exact h1.st
      obtain ⟨g', e, t1, t2, t3, t4⟩ := (appendSection_spec hash g _ w h1.tinv hst (by rw [fieldSeq_length]; omega)
        (by rw [ivals_same h1.same, h1.same.1, h1.same.2.1]; exact (hg f (by simp)).diffs)).2 (by omega)
      obtain ⟨gs', e', hs⟩ := ih gs (w.put (sectionOf g (fieldSeq step g.offset g.bpv n mem))) h2
        (fun x hx => hg x (by simp [hx])) (by simp only [W.put]; omega)
      refine ⟨g' :: gs', ?_, ⟨t1, t2.trans h1.same, t3⟩, hs⟩
      simp only [appendSections, e, Res.ok_bind, e', allSections, W.put_put]

/-- The stores of the adaptive sections. -/
def sectionWrites (step n : Nat) (mem : List Byte) (base dstep : Nat) : List AField → List AField → List Write
  | f :: fs, d :: ds => valWrites d.offset base dstep 0 (fieldSeq step f.offset f.bpv n mem) ++
      sectionWrites step n mem base dstep fs ds
  | _, _ => []

/-- An adaptive field of the encoder and its counterpart in the decoder: same width; the place may differ. -/
def AMatch (f d : AField) : Prop := d.bpv = f.bpv ∧ f.bpv ≤ 8

theorem fieldSeq_lengths (step n : Nat) (mem : List Byte) (f : AField) (h : FitsSeq step n mem f) :
    ∀ b ∈ fieldSeq step f.offset f.bpv n mem, b.length = f.bpv := by
  induction n generalizing mem with
  | zero => simp [fieldSeq]
  | succ n ih =>
    obtain ⟨h1, h2⟩ := fitsSeq_succ h
    intro b hb
    simp only [fieldSeq, List.mem_cons] at hb
    rcases hb with rfl | hb
    · exact sub_length h1
    · exact ih _ h2 b hb

theorem leBytes_ivals (f : AField) (bss : List (List Byte)) (h : ∀ b ∈ bss, b.length = f.bpv) (h8 : f.bpv ≤ 8) :
    leBytes f.bpv (ivals f bss) = bss := by
  unfold leBytes ivals
  rw [List.map_map]
  conv => rhs; rw [← List.map_id bss]
  apply List.map_congr_left
  intro b hb
  exact toI64_bytes (h b hb) h8

theorem leBytes_rvals (bpv : Nat) (bss : List (List Byte)) (h : ∀ b ∈ bss, b.length = bpv) (h8 : bpv ≤ 8) :
    leBytes bpv (rvals bss) = bss := by
  unfold leBytes rvals
  rw [List.map_map]
  conv => rhs; rw [← List.map_id bss]
  apply List.map_congr_left
  intro b hb
  exact toLE_ofNat64 (h b hb) h8

theorem rvals_lt (bpv : Nat) (bss : List (List Byte)) (h : ∀ b ∈ bss, b.length = bpv) (h8 : bpv ≤ 8) :
    ∀ v ∈ rvals bss, v.toNat < 256 ^ bpv := by
  intro v hv
  unfold rvals at hv
  simp only [List.mem_map] at hv
  obtain ⟨b, hb, rfl⟩ := hv
  have h1 := fromLE_lt b
  rw [h b hb] at h1
  rw [BitVec.toNat_ofNat]
  exact Nat.lt_of_le_of_lt (Nat.mod_le _ _) h1

/-- One section decoded by the decoder's field. -/
theorem decodeSection_sectionOf (step n : Nat) (mem : List Byte) (f d : AField) (base dstep : Nat) (rest buf : List Byte)
    (hm : AMatch f d) (hg : GoodA step n mem f) (hpos : 0 < n) (hn : n ≤ 65535) :
    decodeSection d base dstep n (sectionOf f (fieldSeq step f.offset f.bpv n mem) ++ rest) buf =
      (applyWrites buf 0 (valWrites d.offset base dstep 0 (fieldSeq step f.offset f.bpv n mem)) >>= fun b => .ok (rest, b)) := by
  have hl := fieldSeq_lengths step n mem f hg.fits
  have := decodeSection_secFor d (sectionMode f (fieldSeq step f.offset f.bpv n mem)) base dstep
    (ivals f (fieldSeq step f.offset f.bpv n mem)) (rvals (fieldSeq step f.offset f.bpv n mem))
    (fieldSeq step f.offset f.bpv n mem) rest buf
    (by rw [hm.1]; exact leBytes_ivals f _ hl hm.2) (by rw [hm.1]; exact leBytes_rvals f.bpv _ hl hm.2) (fun _ _ => hg.diffs)
    (by rw [hm.1]; exact rvals_lt f.bpv _ hl hm.2) (by rw [fieldSeq_length]; exact hpos) (by rw [fieldSeq_length]; exact hn)
  rw [fieldSeq_length, hm.1] at this
  exact this

theorem sectionWrites_same (step n : Nat) (mem : List Byte) (base dstep : Nat) (fs gs ds : List AField)
    (h : All2 (fun f g => SameField g f) fs gs) :
    sectionWrites step n mem base dstep gs ds = sectionWrites step n mem base dstep fs ds := by
  induction fs generalizing gs ds with
  | nil => cases gs <;> simp_all [All2]
  | cons f fs ih =>
    cases gs with
    | nil => exact h.elim
    | cons g gs =>
      cases ds with
      | nil => rfl
      | cons d ds =>
        simp only [sectionWrites]
        rw [ih gs ds h.2, h.1.1, h.1.2.1]

theorem decodeSections_spec (step n : Nat) (mem : List Byte) (fs ds : List AField) (base dstep : Nat)
    (rest buf : List Byte) (hm : All2 AMatch fs ds) (hg : ∀ f ∈ fs, GoodA step n mem f) (hpos : 0 < n) (hn : n ≤ 65535) :
    decodeSections base dstep n ds (allSections step n mem fs ++ rest) buf =
      (applyWrites buf 0 (sectionWrites step n mem base dstep fs ds) >>= fun b => .ok (rest, b)) := by
  induction fs generalizing ds buf with
  | nil =>
    cases ds with
    | nil => simp [decodeSections, allSections, sectionWrites, applyWrites]
    | cons d ds => exact hm.elim
  | cons f fs ih =>
    cases ds with
    | nil => exact hm.elim
    | cons d ds =>
      simp only [decodeSections, allSections, sectionWrites, List.append_assoc]
      rw [decodeSection_sectionOf step n mem f d base dstep _ buf hm.1 (hg f (by simp)) hpos hn, applyWrites_append,
        Res.bind_assoc, Res.bind_assoc]
      congr 1
      funext b
      simp only [Res.ok_bind]
      exact ih ds b hm.2 (fun x hx => hg x (by simp [hx]))

/-! ### sizes -/

theorem sectionOf_length (step n : Nat) (mem : List Byte) (f g : AField) (h : Collected step n mem f g) (h8 : f.bpv ≤ 8)
    (hn : n ≤ 65535) : (sectionOf g (fieldSeq step g.offset g.bpv n mem)).length ≤ 5 + 11 * n ∧
      (g.committed = false → (sectionOf g (fieldSeq step g.offset g.bpv n mem)).length ≤ 1 + 10 * n) := by
  constructor
  · exact secFor_length _ _ _ _ n (by rw [h.same.2.1]; exact h8) (by simp [ivals]) (by simp [rvals]) (by omega)
  · intro hc
    unfold sectionOf sectionMode
    rw [hc]
    simp only [Bool.false_eq_true, if_false]
    refine Nat.le_trans (bestMode_le _ _ _ .deltaVarint) ?_
    have := deltaSec_length (ivals g (fieldSeq step g.offset g.bpv n mem))
    simpa [secFor, ivals] using this

theorem allSections_length (step n : Nat) (mem : List Byte) (as gs : List AField) (h : All2 (Collected step n mem) as gs)
    (h8 : ∀ f ∈ as, f.bpv ≤ 8) (hn : n ≤ 65535) : (allSections step n mem gs).length ≤ as.length * (5 + 11 * n) := by
  induction as generalizing gs with
  | nil => cases gs <;> simp_all [All2, allSections]
  | cons f as ih =>
    cases gs with
    | nil => exact h.elim
    | cons g gs =>
      have h1 := (sectionOf_length step n mem f g h.1 (h8 f (by simp)) hn).1
      have h2 := ih gs h.2 (fun x hx => h8 x (by simp [hx]))
      simp only [allSections, List.length_append, List.length_cons, Nat.add_mul, Nat.one_mul]
      omega

theorem allSections_small (step n : Nat) (mem : List Byte) (as gs : List AField) (h : All2 (Collected step n mem) as gs)
    (h8 : ∀ f ∈ as, f.bpv ≤ 8) (hn : n ≤ 65535) (hc : ∀ g ∈ gs, g.committed = false) :
    (allSections step n mem gs).length ≤ as.length * (1 + 10 * n) := by
  induction as generalizing gs with
  | nil => cases gs <;> simp_all [All2, allSections]
  | cons f as ih =>
    cases gs with
    | nil => exact h.elim
    | cons g gs =>
      have h1 := (sectionOf_length step n mem f g h.1 (h8 f (by simp)) hn).2 (hc g (by simp))
      have h2 := ih gs h.2 (fun x hx => h8 x (by simp [hx])) (fun x hx => hc x (by simp [hx]))
      simp only [allSections, List.length_append, List.length_cons, Nat.add_mul, Nat.one_mul]
      omega

/-! ### the chunk -/

/-- A chunk of the V5 encoder and what the decoder makes of it. -/
theorem chunkV5_roundtrip (F : FloatOps) (hash : BitVec 64 → BitVec 64) (step dstep n cap : Nat) (es : List Enc) (ds : List Dec)
    (as das : List AField) (mem : List Byte) (hm : MatchAll (es.map Enc.reset) (ds.map Dec.reset))
    (hg : ∀ i, i < n → GoodAll F (prevMem none step mem i) (mem.drop (i * step)) es)
    (hf : SameFlag as) (ht : ∀ f ∈ as, TInv f) (hga : ∀ f ∈ as, GoodA step n mem f) (hma : All2 AMatch as das)
    (hpos : 0 < n) (hn : n ≤ 65535)
    (hcap : n * sumMax es + as.length * (5 + 11 * n) ≤ cap) :
    ∃ es' as' ds' bytes, encodeV5Chunk F hash step es as mem n cap = .ok (es', as', mem.drop (n * step), bytes) ∧
      All2 Settled as as' ∧ es'.map Enc.reset = es.map Enc.reset ∧ ds'.map Dec.reset = ds.map Dec.reset ∧
      bytes.length ≤ n * sumMax es + as.length * (5 + 11 * n) ∧
      (n ≤ kProbePoints → (∀ f ∈ as, f.committed = false) → bytes.length ≤ n * sumMax es + as.length * (1 + 10 * n)) ∧
      ∀ buf base buf', base + n * dstep ≤ buf.length →
        applyWrites buf 0 (pointsWrites F step es ds dstep n mem base ++ sectionWrites step n mem base dstep as das) = .ok buf' →
        decodeV5Chunk F ds das dstep n bytes buf base = .ok (ds', buf', base + n * dstep) := by
  have hg' : ∀ i, i < n → GoodAll F (prevMem none step mem i) (mem.drop (i * step)) (es.map Enc.reset) := fun i hi =>
    goodAll_congr (by rw [List.map_map]; apply List.map_congr_left; intro e _; exact (enc_reset_reset e).symm) (hg i hi)
  have h8 : ∀ f ∈ as, f.bpv ≤ 8 := by
    intro f hfm
    clear hcap ht hf hga
    induction as generalizing das with
    | nil => simp at hfm
    | cons a as ih =>
      cases das with
      | nil => exact hma.elim
      | cons d das =>
        simp only [List.mem_cons] at hfm
        rcases hfm with rfl | hfm
        · exact hma.1.2
        · exact ih das hma.2 hfm
  have hsm : sumMax (es.map Enc.reset) = sumMax es := sumMax_reset es
  obtain ⟨es', bs, ds', c1, c3, c4, c5, c6, c7, _⟩ := core_roundtrip F step dstep n (es.map Enc.reset) (ds.map Dec.reset)
    none mem ⟨[], cap⟩ hm hg' (fun e he => by
      simp only [List.mem_map] at he
      obtain ⟨a, _, rfl⟩ := he
      exact reset_prevIs F a) (by rw [hsm]; simp only; omega)
  simp only [List.nil_append] at c1
  rw [hsm] at c6
  obtain ⟨gs, e1, hcol⟩ := encodePointsV5_spec F hash step n (es.map Enc.reset) es' as mem _ _ c1 hf ht hga
  have hlen := allSections_length step n mem as gs hcol h8 hn
  obtain ⟨gs', e2, hset⟩ := appendSections_spec hash step n mem as gs ⟨bs, cap - bs.length⟩ hcol hga hn
    (by simp only; omega)
  have hreset : ∀ es : List Enc, (es.map Enc.reset).map Enc.reset = es.map Enc.reset := fun es => by
    rw [List.map_map]; apply List.map_congr_left; intro e _; exact enc_reset_reset e
  have hdreset : ∀ es : List Dec, (es.map Dec.reset).map Dec.reset = es.map Dec.reset := fun es => by
    rw [List.map_map]; apply List.map_congr_left; intro e _; exact dec_reset_reset e
  refine ⟨es', gs', ds', bs ++ allSections step n mem gs, ?_, hset, c4.trans (hreset es), c5.trans (hdreset ds), ?_, ?_, ?_⟩
  · unfold encodeV5Chunk
    rw [e1]
    simp only [Res.ok_bind, e2]
    rfl
  · rw [List.length_append]; omega
  · intro hsm hcf
    have := allSections_small step n mem as gs hcol h8 hn (fun g hgm => by
      obtain ⟨f, hfm, hc⟩ := all2_mem_right hcol g hgm
      rw [hc.keep hsm, hcf f hfm])
    rw [List.length_append]; omega
  · intro buf base buf' hbuf hw
    rw [applyWrites_append, Res.bind_eq_ok] at hw
    obtain ⟨b1, w1, w2⟩ := hw
    unfold decodeV5Chunk
    rw [if_neg (by omega), if_neg (by omega)]
    rw [pointsWrites_congr F step dstep (hreset es).symm (hdreset ds).symm] at w1
    rw [c7 _ buf base b1 w1]
    simp only [Res.ok_bind]
    have hgs : ∀ g ∈ gs, GoodA step n mem g := by
      intro g hgm
      obtain ⟨f, hfm, hc⟩ := all2_mem_right hcol g hgm
      refine ⟨fun i hi => by rw [hc.same.1, hc.same.2.1]; exact (hga f hfm).fits i hi, ?_⟩
      rw [hc.same.1, hc.same.2.1, ivals_same hc.same]; exact (hga f hfm).diffs
    have hmg : All2 AMatch gs das := by
      have hinv : All2 (fun g f => SameField g f) gs as := by
        clear e1 e2 hlen hgs hset w2 hcap hga ht hf hma h8
        induction as generalizing gs with
        | nil => cases gs <;> simp_all [All2]
        | cons a as ih =>
          cases gs with
          | nil => exact hcol.elim
          | cons g gs => exact ⟨hcol.1.same, ih gs hcol.2⟩
      exact all2_trans hinv hma fun g f d a b => ⟨by rw [a.2.1]; exact b.1, by rw [a.2.1]; exact b.2⟩
    have e3 := decodeSections_spec step n mem gs das base dstep [] b1 hmg hgs hpos hn
    rw [sectionWrites_same step n mem base dstep as gs das (hcol.imp fun f g _ h => h.same), w2] at e3
    rw [List.append_nil] at e3
    rw [e3]
    simp

end Cloudini
