import Verif.Lemmas.ChunkV5
import Verif.Lemmas.MemSafeV5

/-! Adaptive fields whose consecutive values differ by 2^63 or more: streaming and buffering overflow alike. -/

namespace Cloudini

theorem subI64_cases (v p : BitVec 64) : subI64 v p = .ok (v - p) ∨ subI64 v p = .ub .overflow := by
  unfold subI64
  split
  · right; rfl
  · left; rfl

theorem collectValue_ub (f : AField) (mem : List Byte) (bss : List (List Byte)) (h : ChunkSt f bss) (hst : Stepping f)
    (hin : f.offset + f.bpv ≤ mem.length) (hs : SubW 0#64 (ivals f bss))
    (hn : ¬ SubW 0#64 (ivals f (bss ++ [sub mem f.offset f.bpv]))) : collectValue f mem = .ub .overflow := by
  obtain ⟨hc, hr, hp⟩ := hst
  have e1 : readIntAt mem f = .ok (toI64 f.bpv f.signed (sub mem f.offset f.bpv)) := by
    simp only [readIntAt, readAt_ok hin, Res.ok_bind]
  have hi : ivals f (bss ++ [sub mem f.offset f.bpv]) = ivals f bss ++ [toI64 f.bpv f.signed (sub mem f.offset f.bpv)] := by simp [ivals]
  rw [hi, subW_append] at hn
  have hov : subI64 (toI64 f.bpv f.signed (sub mem f.offset f.bpv)) (lastVal 0#64 (ivals f bss)) = .ub .overflow := by
    rcases subI64_cases (toI64 f.bpv f.signed (sub mem f.offset f.bpv)) (lastVal 0#64 (ivals f bss)) with h | h
    · exact absurd ⟨hs, h, trivial⟩ hn
    · exact h
  unfold ChunkSt at h
  simp only [hc, if_true] at h
  unfold collectValue
  simp only [hc, Bool.not_true, Bool.false_eq_true, if_false]
  unfold appendCommittedFromMem
  cases hm : f.mode with
  | rle => exact absurd hm hr
  | palette => exact absurd hm hp
  | deltaVarint =>
    simp only [hm] at h
    simp only [e1, Res.ok_bind, appendDeltaValue, h.2.2, hov]
    rfl
  | deltaRle =>
    simp only [hm] at h
    simp only [e1, Res.ok_bind, appendDeltaRleValue, h.2.2.1, hov]
    rfl

theorem collectOne_ub (step n : Nat) (f : AField) (mem : List Byte) (done : List (List Byte)) (h : ChunkSt f done)
    (ht : TInv f) (hst : Stepping f) (hin : FitsSeq step n mem f) (hs : SubW 0#64 (ivals f done))
    (hn : ¬ SubW 0#64 (ivals f (done ++ fieldSeq step f.offset f.bpv n mem))) : collectOne step n f mem = .ub .overflow := by
  induction n generalizing f mem done with
  | zero => exact absurd (by simpa [fieldSeq] using hs) hn
  | succ n ih =>
    obtain ⟨hin1, hin2⟩ := fitsSeq_succ hin
    have happ : done ++ fieldSeq step f.offset f.bpv (n + 1) mem =
        (done ++ [sub mem f.offset f.bpv]) ++ fieldSeq step f.offset f.bpv n (mem.drop step) := by simp [fieldSeq]
    simp only [collectOne]
    by_cases hs1 : SubW 0#64 (ivals f (done ++ [sub mem f.offset f.bpv]))
    · obtain ⟨g, e, c1, c2, c3, c4, c5⟩ := collectValue_w f mem done h ht hin1 (fun _ => hs1)
      simp only [e, Res.ok_bind]
      refine ih g (mem.drop step) _ c1 c2 (by unfold Stepping at hst ⊢; rw [c4, c5]; exact hst)
        (fun i hi => by rw [c3.1, c3.2.1]; exact hin2 i hi) (by rw [ivals_same c3]; exact hs1) ?_
      rw [ivals_same c3, c3.1, c3.2.1, ← happ]
      exact hn
    · rw [collectValue_ub f mem done h hst hin1 hs hs1]
      rfl

/-- A chunk without regular encoders and with one adaptive field. -/
theorem encodeRangeV5_one (F : FloatOps) (step n : Nat) (f : AField) (mem : List Byte) (w : W) :
    encodeRangeV5 F step n [] [f] mem w = (collectOne step n f mem >>= fun g => .ok ([], [g], mem.drop (n * step), w)) := by
  induction n generalizing f mem with
  | zero => simp [encodeRangeV5, collectOne]
  | succ n ih =>
    simp only [encodeRangeV5, encodeFields, Res.ok_bind, mapFields, collectOne, Res.bind_assoc]
    congr 1
    funext g
    rw [ih, List.drop_drop, Nat.add_mul, Nat.one_mul, Nat.add_comm step]

theorem appendDeltas_ub (vals : List (BitVec 64)) (p : BitVec 64) (w : W) (hs : ¬ SubW p vals) (hr : 10 * vals.length ≤ w.room) :
    appendDeltas vals p w = .ub .overflow := by
  induction vals generalizing p w with
  | nil => exact absurd trivial hs
  | cons v vs ih =>
    simp only [appendDeltas]
    rcases subI64_cases v p with h | h
    · have hl := (encodeVarint64_length (v - p)).2
      simp only [List.length_cons] at hr
      rw [h]
      simp only [Res.ok_bind]
      rw [W.raw_put (by omega)]
      simp only [Res.ok_bind]
      exact ih v _ (fun h' => hs ⟨h, h'⟩) (by simp only [W.put]; omega)
    · rw [h]
      rfl

theorem deltaRunSpan_bad (d x : BitVec 64) (vs : List (BitVec 64)) (n : Nat) (h : ¬ SubW x vs) :
    deltaRunSpan d vs x n = .ub .overflow ∨
      ∃ k last rest, deltaRunSpan d vs x n = .ok (k, last, rest) ∧ rest.length ≤ vs.length ∧ ¬ SubW last rest := by
  induction vs generalizing x n with
  | nil => exact absurd trivial h
  | cons v vs ih =>
    simp only [deltaRunSpan]
    rcases subI64_cases v x with h1 | h1
    · rw [h1]
      simp only [Res.ok_bind]
      by_cases hd : v - x = d
      · rw [if_neg (by simp [hd])]
        rcases ih v (n + 1) (fun h' => h ⟨h1, h'⟩) with h2 | ⟨k, last, rest, h2, h3, h4⟩
        · exact .inl h2
        · exact .inr ⟨k, last, rest, h2, by simp only [List.length_cons]; omega, h4⟩
      · rw [if_pos hd]
        exact .inr ⟨n, x, v :: vs, rfl, Nat.le_refl _, h⟩
    · rw [h1]
      exact .inl rfl

theorem forEachDeltaRun_ub (fuel : Nat) (l : List (BitVec 64)) (p : BitVec 64) (s : W × Nat) (h : l.length ≤ fuel) (hs : ¬ SubW p l)
    (hr : 20 * l.length ≤ s.1.room) :
    forEachDeltaRun (fun (s : W × Nat) diff n => (do
      let w ← s.1.raw (encodeVarint64 diff)
      let w ← w.appendUVarint (BitVec.ofNat 64 n)
      .ok (w, s.2 + 1) : Res (W × Nat))) fuel l p s = .ub .overflow := by
  induction fuel generalizing l p s with
  | zero =>
    have : l = [] := List.length_eq_zero_iff.1 (by omega)
    subst this
    exact absurd trivial hs
  | succ fuel ih =>
    cases l with
    | nil => exact absurd trivial hs
    | cons v vs =>
      simp only [forEachDeltaRun]
      rcases subI64_cases v p with h1 | h1
      · rw [h1]
        simp only [Res.ok_bind]
        rcases deltaRunSpan_bad (v - p) v vs 1 (fun h' => hs ⟨h1, h'⟩) with h2 | ⟨k, last, rest, h2, h3, h4⟩
        · rw [h2]; rfl
        · rw [h2]
          simp only [Res.ok_bind]
          have hl := (encodeVarint64_length (v - p)).2
          have hl2 := lebBytes_length_le_ten (BitVec.ofNat 64 k)
          simp only [List.length_cons] at hr h
          rw [W.raw_put (by omega)]
          simp only [Res.ok_bind, W.appendUVarint]
          rw [W.checked_put (by simp only [W.put]; omega)]
          simp only [Res.ok_bind]
          exact ih rest last _ (by omega) h4 (by simp only [W.put]; omega)
      · rw [h1]; rfl

theorem appendBuffered_ub (f : AField) (w : W) (hm : f.mode = .deltaVarint ∨ f.mode = .deltaRle) (hs : ¬ SubW 0#64 f.values)
    (hr : 5 + 20 * f.values.length ≤ w.room) : appendBuffered f w = .ub .overflow := by
  unfold appendBuffered
  rcases hm with hm | hm
  · simp only [hm, appendDeltaVarintSection, W.appendByte]
    rw [W.checked_put (by simp; omega)]
    simp only [Res.ok_bind]
    exact appendDeltas_ub _ _ _ hs (by simp only [W.put, List.length_cons, List.length_nil]; omega)
  · simp only [hm, appendDeltaRleSection, W.appendByte, W.encodeInt]
    rw [W.checked_put (by simp; omega)]
    simp only [Res.ok_bind]
    rw [W.checked_put (by simp [W.put]; omega)]
    simp only [Res.ok_bind]
    rw [forEachDeltaRun_ub _ _ _ _ (Nat.le_refl _) hs (by simp only [W.put, toLE_length, List.length_cons, List.length_nil]; omega)]
    rfl

/-- The buffered section of a committed mode whose values may overflow in other modes. -/
theorem appendBuffered_any (f : AField) (w : W) (hs : f.mode ≠ .rle → f.mode ≠ .palette → SubW 0#64 f.values)
    (hp : f.mode = .palette → f.palette = firstOcc f.raws ∧ f.indexes = paletteIdx f.raws)
    (hr : (secFor f.mode f.bpv f.values f.raws).length ≤ w.room) :
    appendBuffered f w = .ok (w.put (secFor f.mode f.bpv f.values f.raws)) := by
  unfold appendBuffered
  cases hm : f.mode with
  | deltaVarint =>
    rw [hm] at hr
    exact appendDeltaVarintSection_eq f.values w (hs (by rw [hm]; simp) (by rw [hm]; simp)) hr
  | deltaRle =>
    rw [hm] at hr
    exact appendDeltaRleSection_eq f.values w (hs (by rw [hm]; simp) (by rw [hm]; simp)) hr
  | rle =>
    rw [hm] at hr
    exact appendRleSection_eq f.bpv f.raws w hr
  | palette =>
    rw [hm] at hr
    obtain ⟨h1, h2⟩ := hp hm
    simp only [secFor] at hr ⊢
    rw [← h1, ← h2] at hr ⊢
    exact appendPaletteSection_eq f w hr

/-- The section of a field committed before the chunk. -/
theorem appendSection_committed (hash : BitVec 64 → BitVec 64) (f : AField) (bss : List (List Byte)) (w : W)
    (ht : TInv f) (h : ChunkSt f bss) (hn : bss.length ≤ 2 ^ 31) (hc : f.committed = true)
    (hr : (secFor f.mode f.bpv (ivals f bss) (rvals bss)).length ≤ w.room) :
    ∃ g, appendSection hash f w = .ok (g, w.put (secFor f.mode f.bpv (ivals f bss) (rvals bss))) := by
  by_cases hm : f.mode = .palette
  · have h' := h
    unfold ChunkSt at h'
    simp only [hc, if_true, hm] at h'
    obtain ⟨h1, h2⟩ := h'
    obtain ⟨g, e, gt, gs, gc, gm, gr, gv, gp⟩ := rebuildPalette_spec hash f ht (by rw [h2]; simpa [rvals] using hn)
    have hcm : commitMode hash f = .ok f := by unfold commitMode; rw [if_pos hc]
    have hap : appendSection hash f w = (appendPaletteSection g w >>= fun w => .ok (g, w)) := by
      unfold appendSection
      rw [if_neg (by rw [h1]; simp), hcm]
      simp only [Res.ok_bind, e]
      unfold appendBuffered
      rw [gm, hm]
    have hsec : secFor f.mode f.bpv (ivals f bss) (rvals bss) = paletteSec g.bpv g.palette g.indexes := by
      simp only [hm, secFor]
      rw [(gp hm).1, (gp hm).2, h2, gs.2.1]
    rw [hap]
    rw [hsec] at hr ⊢
    rw [appendPaletteSection_eq g w hr]
    exact ⟨g, rfl⟩
  · obtain ⟨hst, g, e, hk, hsec⟩ := finishSection_spec f bss hc hm h
    refine ⟨g, ?_⟩
    unfold appendSection
    rw [if_pos ⟨hc, hst⟩, e]
    simp only [Res.ok_bind]
    rw [hsec, W.checked_put hr]
    rfl

/-! ### buffered values put at the front of a streamed section -/

theorem appendProbeList_ub (f : AField) (done bss : List (List Byte)) (hst : Stepping f) (h : ChunkSt f done) (hs : SubW 0#64 (ivals f done))
    (hn : ¬ SubW 0#64 (ivals f (done ++ bss))) :
    appendProbeList (bss.map (toI64 f.bpv f.signed)) f = .ub .overflow := by
  induction bss generalizing f done with
  | nil => exact absurd (by simpa using hs) hn
  | cons b bss ih =>
    have happ : done ++ b :: bss = (done ++ [b]) ++ bss := by simp
    simp only [List.map_cons, appendProbeList]
    by_cases hs1 : SubW 0#64 (ivals f (done ++ [b]))
    · obtain ⟨g, e, hk, _, hg⟩ := appendCommittedAt_spec f done b hst.1 hst.2.2 h (fun _ => hs1)
      rw [if_neg hst.2.1] at e
      simp only [e, Res.ok_bind]
      have := ih g (done ++ [b]) (by unfold Stepping at hst ⊢; rw [hk.committed, hk.mode]; exact hst) hg (by rw [ivals_same hk.same]; exact hs1)
        (by rw [ivals_same hk.same, ← happ]; exact hn)
      rw [hk.same.2.1, hk.same.2.2] at this
      exact this
    · have hi : ivals f (done ++ [b]) = ivals f done ++ [toI64 f.bpv f.signed b] := by simp [ivals]
      rw [hi, subW_append] at hs1
      have hov : subI64 (toI64 f.bpv f.signed b) (lastVal 0#64 (ivals f done)) = .ub .overflow := by
        rcases subI64_cases (toI64 f.bpv f.signed b) (lastVal 0#64 (ivals f done)) with h | h
        · exact absurd ⟨hs, h, trivial⟩ hs1
        · exact h
      unfold ChunkSt at h
      simp only [hst.1, if_true] at h
      unfold appendCommittedAt
      cases hm : f.mode with
      | rle => exact absurd hm hst.2.1
      | palette => exact absurd hm hst.2.2
      | deltaVarint =>
        simp only [hm] at h
        simp only [appendDeltaValue, h.2.2, hov]
        rfl
      | deltaRle =>
        simp only [hm] at h
        simp only [appendDeltaRleValue, h.2.2.1, hov]
        rfl

/-- The start of a section after the probe. -/
theorem startProbed_spec (g : AField) (m : AMode) (bss : List (List Byte)) (ht : TInv g) (hc : g.committed = false) (h : ChunkSt g bss)
    (hs : m ≠ .rle → m ≠ .palette → SubW 0#64 (ivals g bss)) :
    ∃ g', appendProbeValues (beginSection { g with committed := true, mode := m }) = .ok g' ∧ ChunkSt g' bss ∧ TInv g' ∧ SameField g' g ∧
      g'.committed = true ∧ g'.mode = m := by
  unfold ChunkSt at h
  simp only [hc, Bool.false_eq_true, if_false] at h
  obtain ⟨h1, h2, h3⟩ := h
  have hbs := beginSection_same { g with committed := true, mode := m }
  unfold appendProbeValues
  rw [beginSection_streaming, beginSection_mode, (beginSection_values _).1, (beginSection_values _).2]
  by_cases hm : m = .palette
  · subst hm
    simp only [ne_eq, not_true, decide_false, Bool.not_false, if_true]
    refine ⟨_, rfl, ?_, beginSection_tinv _ (ht.congr rfl rfl rfl), hbs, beginSection_committed _, beginSection_mode _⟩
    unfold ChunkSt
    rw [beginSection_committed, beginSection_mode]
    simp only [if_true]
    rw [beginSection_streaming, (beginSection_values _).2]
    exact ⟨by simp, h3⟩
  · simp only [ne_eq, hm, not_false_eq_true, decide_true, Bool.not_true, Bool.false_eq_true, if_false]
    obtain ⟨g', e', hk, hst⟩ := appendProbeList_spec (beginSection { g with committed := true, mode := m }) [] bss (beginSection_committed _)
      (by rw [beginSection_mode]; exact hm) (chunkSt_begin_stream _ rfl hm)
      (fun hr => by rw [ivals_same hbs]; exact hs (by rw [beginSection_mode] at hr; exact hr) hm)
    have hl : (if m = AMode.rle then g.raws else g.values) =
        bss.map fun bs => if (beginSection { g with committed := true, mode := m }).mode = .rle then BitVec.ofNat 64 (fromLE bs)
          else toI64 (beginSection { g with committed := true, mode := m }).bpv (beginSection { g with committed := true, mode := m }).signed bs := by
      rw [beginSection_mode, hbs.2.1, hbs.2.2]
      show (if m = AMode.rle then g.raws else g.values) = bss.map fun bs => if m = .rle then BitVec.ofNat 64 (fromLE bs) else toI64 g.bpv g.signed bs
      rw [h2, h3]
      by_cases hr : m = .rle
      · simp only [hr, if_true]; rfl
      · simp only [hr, if_false]; rfl
    rw [hl, e']
    exact ⟨g', rfl, hst, hk.tinv (beginSection_tinv _ (ht.congr rfl rfl rfl)), hk.same.trans hbs, hk.committed.trans (beginSection_committed _),
      hk.mode.trans (beginSection_mode _)⟩

theorem startProbed_ub (g : AField) (m : AMode) (bss : List (List Byte)) (hc : g.committed = false) (h : ChunkSt g bss)
    (hm : m ≠ .rle) (hm' : m ≠ .palette) (hs : ¬ SubW 0#64 (ivals g bss)) :
    appendProbeValues (beginSection { g with committed := true, mode := m }) = .ub .overflow := by
  unfold ChunkSt at h
  simp only [hc, Bool.false_eq_true, if_false] at h
  obtain ⟨h1, h2, h3⟩ := h
  have hbs := beginSection_same { g with committed := true, mode := m }
  unfold appendProbeValues
  rw [beginSection_streaming, beginSection_mode, (beginSection_values _).1]
  simp only [ne_eq, hm', not_false_eq_true, decide_true, Bool.not_true, Bool.false_eq_true, if_false, hm]
  have := appendProbeList_ub (beginSection { g with committed := true, mode := m }) [] bss
    ⟨beginSection_committed _, by rw [beginSection_mode]; exact hm, by rw [beginSection_mode]; exact hm'⟩
    (chunkSt_begin_stream _ rfl hm') (by simp [ivals, SubW]) (by rw [ivals_same hbs]; exact hs)
  rw [hbs.2.1, hbs.2.2] at this
  generalize beginSection { g with committed := true, mode := m } = b at this ⊢
  show appendProbeList g.values b = _
  rw [show g.values = bss.map (toI64 g.bpv g.signed) from h2]
  exact this

/-! ### what identifies a field survives a chunk, whatever the values -/

/-- Success leaves the identity of the field alone. -/
def Keeps (r : Res AField) (f : AField) : Prop := ∀ g, r = .ok g → SameField g f

theorem Keeps.ok {f g : AField} (h : SameField g f) : Keeps (.ok g) f := fun _ e => by cases e; exact h
theorem Keeps.bind {α : Type} {x : Res α} {k : α → Res AField} {f : AField} (h : ∀ a, x = .ok a → Keeps (k a) f) : Keeps (x >>= k) f := by
  intro g e
  obtain ⟨a, e1, e2⟩ := Res.bind_eq_ok.1 e
  exact h a e1 g e2
theorem Keeps.trans {r : Res AField} {f g : AField} (h : Keeps r f) (hs : SameField f g) : Keeps r g := fun a e => (h a e).trans hs

theorem flushDelta_same (f : AField) : SameField (flushDeltaRleRun f) f := by
  obtain ⟨bs, c, r, e⟩ := flushDelta_facts f
  rw [e]; exact ⟨rfl, rfl, rfl⟩
theorem flushRle_same (f : AField) : SameField (flushRleRun f) f := by
  obtain ⟨bs, c, r, e⟩ := flushRle_facts f
  rw [e]; exact ⟨rfl, rfl, rfl⟩

theorem appendDeltaValue_keeps (f : AField) (v : BitVec 64) : Keeps (appendDeltaValue f v) f :=
  .bind fun _ _ => .ok ⟨rfl, rfl, rfl⟩
theorem appendDeltaRleValue_keeps (f : AField) (v : BitVec 64) : Keeps (appendDeltaRleValue f v) f := by
  refine .bind fun d _ => ?_
  simp only
  split
  · exact .ok ⟨rfl, rfl, rfl⟩
  split
  · exact .ok ⟨rfl, rfl, rfl⟩
  · refine .ok ?_
    have := flushDelta_same { f with prev := v }
    exact ⟨this.1, this.2.1, this.2.2⟩
theorem appendRleValue_same (f : AField) (v : BitVec 64) : SameField (appendRleValue f v) f := by
  unfold appendRleValue
  split
  · exact ⟨rfl, rfl, rfl⟩
  split
  · exact ⟨rfl, rfl, rfl⟩
  · have := flushRle_same f
    exact ⟨this.1, this.2.1, this.2.2⟩

theorem collectValue_keeps (f : AField) (mem : List Byte) : Keeps (collectValue f mem) f := by
  unfold collectValue
  split
  · exact .bind fun _ _ => .bind fun _ _ => .ok ⟨rfl, rfl, rfl⟩
  · unfold appendCommittedFromMem
    cases f.mode with
    | deltaVarint => exact .bind fun _ _ => appendDeltaValue_keeps _ _
    | deltaRle => exact .bind fun _ _ => appendDeltaRleValue_keeps _ _
    | rle => exact .bind fun _ _ => .ok (appendRleValue_same _ _)
    | palette => exact .bind fun _ _ => .ok ⟨rfl, rfl, rfl⟩

theorem collectOne_keeps (step n : Nat) (f : AField) (mem : List Byte) : Keeps (collectOne step n f mem) f := by
  induction n generalizing f mem with
  | zero => exact .ok (SameField.refl f)
  | succ n ih => exact .bind fun g e => (ih g _).trans (collectValue_keeps f mem g e)

theorem addPaletteValues_keeps (hash : BitVec 64 → BitVec 64) (vs : List (BitVec 64)) (f : AField) : Keeps (addPaletteValues hash vs f) f := by
  induction vs generalizing f with
  | nil => exact .ok (SameField.refl f)
  | cons v vs ih =>
    intro g e
    simp only [addPaletteValues] at e
    obtain ⟨⟨f1, i⟩, e1, e⟩ := Res.bind_eq_ok.1 e
    have h1 : SameField f1 f := by
      unfold addPaletteValue at e1
      obtain ⟨r, _, e1⟩ := Res.bind_eq_ok.1 e1
      cases r <;> simp only [Res.ok.injEq, Prod.mk.injEq] at e1 <;> (rw [← e1.1]; exact ⟨rfl, rfl, rfl⟩)
    exact (ih _ g e).trans ⟨h1.1, h1.2.1, h1.2.2⟩

theorem buildPalette_keeps (hash : BitVec 64 → BitVec 64) (f : AField) : Keeps (buildPaletteIndexes hash f) f := by
  unfold buildPaletteIndexes
  refine (addPaletteValues_keeps hash _ _).trans ?_
  unfold preparePaletteTable
  simp only
  split <;> (try split) <;> exact ⟨rfl, rfl, rfl⟩

theorem commitMode_keeps (hash : BitVec 64 → BitVec 64) (f : AField) : Keeps (commitMode hash f) f := by
  unfold commitMode
  split
  · exact .ok (SameField.refl f)
  · refine .bind fun d _ => .bind fun g e => .bind fun r _ => .bind fun dr _ => .ok ?_
    have := buildPalette_keeps hash f g e
    exact ⟨this.1, this.2.1, this.2.2⟩

theorem appendCommittedAt_keeps (f : AField) (v : BitVec 64) : Keeps (appendCommittedAt f v) f := by
  unfold appendCommittedAt
  cases f.mode with
  | deltaVarint => exact appendDeltaValue_keeps _ _
  | deltaRle => exact appendDeltaRleValue_keeps _ _
  | rle => exact .ok (appendRleValue_same _ _)
  | palette => exact .ok (SameField.refl f)

theorem appendProbeList_keeps (vs : List (BitVec 64)) (f : AField) : Keeps (appendProbeList vs f) f := by
  induction vs generalizing f with
  | nil => exact .ok (SameField.refl f)
  | cons v vs ih => exact .bind fun g e => (ih g).trans (appendCommittedAt_keeps f v g e)

theorem commitProbed_keeps (hash : BitVec 64 → BitVec 64) (f : AField) : Keeps (commitProbed hash f) f := by
  refine .bind fun g e => ?_
  have h1 := commitMode_keeps hash f g e
  unfold appendProbeValues
  split
  · exact .ok ((beginSection_same g).trans h1)
  · exact (appendProbeList_keeps _ _).trans ((beginSection_same g).trans h1)

theorem patch_keeps (f : AField) : Keeps f.patch f := .bind fun _ _ => .ok ⟨rfl, rfl, rfl⟩

theorem finishSection_keeps (f : AField) : Keeps (finishSection f) f := by
  unfold finishSection
  cases f.mode with
  | deltaVarint => exact .ok (SameField.refl f)
  | deltaRle => exact (patch_keeps _).trans (flushDelta_same f)
  | rle => exact (patch_keeps _).trans (flushRle_same f)
  | palette => exact .ok (SameField.refl f)

theorem appendSection_keeps (hash : BitVec 64 → BitVec 64) (f g : AField) (w w' : W) (e : appendSection hash f w = .ok (g, w')) : SameField g f := by
  unfold appendSection at e
  split at e
  · obtain ⟨h, e1, e⟩ := Res.bind_eq_ok.1 e
    obtain ⟨w1, _, e⟩ := Res.bind_eq_ok.1 e
    simp only [Res.ok.injEq, Prod.mk.injEq] at e
    rw [← e.1]
    exact finishSection_keeps f h e1
  · obtain ⟨h, e1, e⟩ := Res.bind_eq_ok.1 e
    obtain ⟨h2, e2, e⟩ := Res.bind_eq_ok.1 e
    obtain ⟨w1, _, e⟩ := Res.bind_eq_ok.1 e
    simp only [Res.ok.injEq, Prod.mk.injEq] at e
    rw [← e.1]
    have hk : Keeps (rebuildPalette hash h) h := by
      unfold rebuildPalette
      split
      · exact buildPalette_keeps hash h
      · exact .ok (SameField.refl h)
    exact (hk h2 e2).trans (commitMode_keeps hash f h e1)

theorem encodeV5Chunk_one_keeps (F : FloatOps) (hash : BitVec 64 → BitVec 64) (step n cap : Nat) (f f' : AField) (mem mem' bytes : List Byte) (es' : List Enc)
    (hp : SameField (prepareField f) f) (e : encodeV5Chunk F hash step [] [f] mem n cap = .ok (es', [f'], mem', bytes)) : SameField f' f := by
  unfold encodeV5Chunk at e
  obtain ⟨⟨es1, as1, mem1, w1⟩, e1, e⟩ := Res.bind_eq_ok.1 e
  obtain ⟨⟨as2, w2⟩, e2, e⟩ := Res.bind_eq_ok.1 e
  simp only [Res.ok.injEq, Prod.mk.injEq] at e
  obtain ⟨_, rfl, _, _⟩ := e
  have h1 : ∃ g, as1 = [g] ∧ SameField g f := by
    unfold encodePointsV5 at e1
    simp only [List.map_nil, List.map_cons] at e1
    split at e1
    · rw [encodeRangeV5_one] at e1
      obtain ⟨⟨es2, as3, mem2, w3⟩, e3, e1⟩ := Res.bind_eq_ok.1 e1
      obtain ⟨g, e4, e3⟩ := Res.bind_eq_ok.1 e3
      simp only [Res.ok.injEq, Prod.mk.injEq] at e3
      obtain ⟨rfl, rfl, rfl, rfl⟩ := e3
      obtain ⟨as4, e5, e1⟩ := Res.bind_eq_ok.1 e1
      simp only [mapFields] at e5
      obtain ⟨g2, e6, e5⟩ := Res.bind_eq_ok.1 e5
      simp only [Res.ok_bind, Res.ok.injEq] at e5
      subst e5
      rw [encodeRangeV5_one] at e1
      obtain ⟨g3, e7, e1⟩ := Res.bind_eq_ok.1 e1
      simp only [Res.ok.injEq, Prod.mk.injEq] at e1
      exact ⟨g3, e1.2.1.symm, (collectOne_keeps _ _ _ _ g3 e7).trans ((commitProbed_keeps hash g g2 e6).trans
        ((collectOne_keeps _ _ _ _ g e4).trans hp))⟩
    · rw [encodeRangeV5_one] at e1
      obtain ⟨g, e4, e1⟩ := Res.bind_eq_ok.1 e1
      simp only [Res.ok.injEq, Prod.mk.injEq] at e1
      exact ⟨g, e1.2.1.symm, (collectOne_keeps _ _ _ _ g e4).trans hp⟩
  obtain ⟨g, rfl, hg⟩ := h1
  simp only [appendSections] at e2
  obtain ⟨⟨g2, w3⟩, e3, e2⟩ := Res.bind_eq_ok.1 e2
  simp only [Res.ok_bind, Res.ok.injEq, Prod.mk.injEq, List.cons.injEq, and_true] at e2
  obtain ⟨rfl, _⟩ := e2
  exact (appendSection_keeps hash g _ _ _ e3).trans hg

/-! ### the reserved difference -/

theorem decodeVarint_marker (rest : List Byte) : decodeVarint (encodeVarint64 (BitVec.intMin 64) ++ rest) = .throw "decodeVarint: unexpected NaN marker" := by
  have : encodeVarint64 (BitVec.intMin 64) = [0#8] := by decide +kernel
  rw [this]
  simp [decodeVarint, decodeVarintRaw]

theorem subOK_of {p : BitVec 64} {vals : List (BitVec 64)} (h : SubW p vals) (hm : BitVec.intMin 64 ∉ deltas p vals) : SubOK p vals := by
  induction vals generalizing p with
  | nil => trivial
  | cons v vs ih =>
    simp only [deltas, List.mem_cons, not_or] at hm
    exact ⟨h.1, fun e => hm.1 e.symm, ih h.2 hm.2⟩

theorem decodeDeltas_marker (f : AField) (base step : Nat) (vals : List (BitVec 64)) (i : Nat) (p q : BitVec 64) (rest buf : List Byte)
    (h : BitVec.intMin 64 ∈ deltas p vals) (r : List Byte × List Byte) :
    decodeDeltas f base step vals.length i q ((deltas p vals).flatMap encodeVarint64 ++ rest) buf ≠ .ok r := by
  induction vals generalizing i p q buf with
  | nil => simp [deltas] at h
  | cons v vs ih =>
    intro hd
    simp only [deltas, List.flatMap_cons, List.append_assoc, List.length_cons, decodeDeltas] at hd
    by_cases hm : v - p = BitVec.intMin 64
    · rw [hm, decodeVarint_marker] at hd
      cases hd
    · rw [decodeVarint_encode _ _ hm, Res.ok_bind] at hd
      simp only [List.drop_left] at hd
      obtain ⟨w, _, hd⟩ := Res.bind_eq_ok.1 hd
      obtain ⟨b, _, hd⟩ := Res.bind_eq_ok.1 hd
      refine ih _ v _ _ ?_ hd
      simp only [deltas, List.mem_cons] at h
      rcases h with h | h
      · exact absurd h.symm hm
      · exact h

theorem decodeDeltaRleRuns_marker (f : AField) (base step expected : Nat) (rs : List (BitVec 64 × Nat)) (i : Nat) (q : BitVec 64)
    (rest buf : List Byte) (h : ∃ n, (BitVec.intMin 64, n) ∈ rs) (r : Nat × List Byte × List Byte) :
    decodeDeltaRleRuns f base step expected rs.length i q (dRleBytes rs ++ rest) buf ≠ .ok r := by
  induction rs generalizing i q buf with
  | nil => obtain ⟨n, h⟩ := h; simp at h
  | cons x rs ih =>
    obtain ⟨d, k⟩ := x
    intro hd
    have hb : dRleBytes ((d, k) :: rs) ++ rest =
        encodeVarint64 d ++ (lebBytes (BitVec.ofNat 64 k) ++ (dRleBytes rs ++ rest)) := by
      simp [dRleBytes]
    rw [hb, List.length_cons, decodeDeltaRleRuns] at hd
    by_cases hm : d = BitVec.intMin 64
    · rw [hm, decodeVarint_marker] at hd
      cases hd
    · rw [decodeVarint_encode _ _ hm, Res.ok_bind] at hd
      simp only [List.drop_left] at hd
      rw [readUVarint_leb, Res.ok_bind] at hd
      simp only at hd
      by_cases hc : (BitVec.ofNat 64 i + BitVec.ofNat 64 k).toNat > expected
      · rw [if_pos hc] at hd; cases hd
      · rw [if_neg hc] at hd
        obtain ⟨w, _, hd⟩ := Res.bind_eq_ok.1 hd
        refine ih _ _ _ ?_ hd
        obtain ⟨n, h⟩ := h
        simp only [List.mem_cons, Prod.mk.injEq] at h
        rcases h with h | h
        · exact absurd h.1.symm hm
        · exact ⟨n, h⟩

theorem mem_expand {x : BitVec 64} {rs : List (BitVec 64 × Nat)} (h : x ∈ expand rs) : ∃ n, (x, n) ∈ rs := by
  induction rs with
  | nil => simp [expand] at h
  | cons r rs ih =>
    obtain ⟨d, n⟩ := r
    rw [show expand ((d, n) :: rs) = List.replicate n d ++ expand rs from rfl, List.mem_append] at h
    rcases h with h | h
    · have := (List.mem_replicate.1 h).2
      exact ⟨n, by simp [this]⟩
    · obtain ⟨k, hk⟩ := ih h
      exact ⟨k, by simp [hk]⟩

/-- A section in a delta mode one of whose differences is -2^63 cannot be decoded. -/
theorem decodeSection_marker (f : AField) (m : AMode) (hm : m = .deltaVarint ∨ m = .deltaRle) (base step bpv : Nat) (vals raws : List (BitVec 64))
    (rest buf : List Byte) (hn : vals.length < 2 ^ 32) (h : BitVec.intMin 64 ∈ deltas 0#64 vals) (r : List Byte × List Byte) :
    decodeSection f base step vals.length (secFor m bpv vals raws ++ rest) buf ≠ .ok r := by
  rcases hm with rfl | rfl
  · simp only [secFor, deltaSec, AMode.code, List.cons_append, decodeSection, if_true]
    exact decodeDeltas_marker f base step vals 0 0#64 0#64 rest buf h r
  · have hl : (runs (deltas 0#64 vals)).length ≤ vals.length := by
      have := runs_length_le (deltas 0#64 vals)
      rwa [deltas_length] at this
    have e4 : ∀ more, decodeInt 4 (toLE 4 (runs (deltas 0#64 vals)).length ++ more) =
        .ok ((runs (deltas 0#64 vals)).length, more) := by
      intro more
      rw [decodeInt_def]
      rw [if_pos (by simp), (take_drop_le 4 _ _).1, (take_drop_le 4 _ _).2, fromLE_toLE, Nat.mod_eq_of_lt (by omega)]
    simp only [secFor, deltaRleSec, AMode.code, List.cons_append, decodeSection]
    rw [if_neg (by decide), if_neg (by decide), if_neg (by decide), if_pos trivial, List.append_assoc, e4]
    simp only [Res.ok_bind]
    intro hd
    obtain ⟨w, hw, _⟩ := Res.bind_eq_ok.1 hd
    exact decodeDeltaRleRuns_marker f base step _ _ 0 0#64 rest buf (mem_expand (by rw [expand_runs]; exact h)) w hw

end Cloudini
