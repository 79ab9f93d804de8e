import Verif.Lemmas.OneField

/-! Chunks with many adaptive fields: when the sections fit the stage buffer and when they do not. -/

namespace Cloudini

theorem sections_ok (hash : BitVec 64 → BitVec 64) (step n : Nat) (mem : List Byte) (m : AMode) (as gs : List AField) (w : W)
    (h : All2 (Collected step n mem) as gs) (hg : ∀ f ∈ as, GoodA step n mem f) (hn : n ≤ 65535)
    (hc : ∀ g ∈ gs, g.committed = true ∧ g.mode = m)
    (hroom : (allSections step n mem gs).length ≤ w.room) :
    ∃ gs', appendSections hash gs w = .ok (gs', w.put (allSections step n mem gs)) ∧ All2 (fun f g => Settled f g ∧ g.mode = m) as gs' := by
  induction as generalizing gs w with
  | nil =>
    cases gs with
    | nil => exact ⟨[], by simp [appendSections, allSections, W.put_nil], trivial⟩
    | cons g gs => exact h.elim
  | cons f as ih =>
    cases gs with
    | nil => exact h.elim
    | cons g gs =>
      obtain ⟨h1, h2⟩ := h
      simp only [allSections, List.length_append] at hroom
      have hst : ChunkSt g (fieldSeq step g.offset g.bpv n mem) := by rw [h1.same.1, h1.same.2.1]; exact h1.st
      obtain ⟨g', e, t1, t2, t3, t4⟩ := (appendSection_spec hash g _ w h1.tinv hst (by rw [fieldSeq_length]; omega)
        (by rw [ivals_same h1.same, h1.same.1, h1.same.2.1]; exact (hg f (by simp)).diffs)).2 (by omega)
      obtain ⟨gs', e', hs⟩ := ih gs (w.put (sectionOf g (fieldSeq step g.offset g.bpv n mem))) h2
        (fun x hx => hg x (by simp [hx])) (fun x hx => hc x (by simp [hx])) (by simp only [W.put]; omega)
      have hm : sectionMode g (fieldSeq step g.offset g.bpv n mem) = m := by
        unfold sectionMode; rw [(hc g (by simp)).1]; simpa using (hc g (by simp)).2
      refine ⟨g' :: gs', ?_, ⟨⟨t1, t2.trans h1.same, t3⟩, t4.trans hm⟩, hs⟩
      simp only [appendSections, e, Res.ok_bind, e', allSections, W.put_put]

theorem section_full (hash : BitVec 64 → BitVec 64) (g : AField) (bss : List (List Byte)) (w : W) (h : ChunkSt g bss)
    (hc : g.committed = true) (hm : g.mode ≠ .palette) (hroom : w.room < (sectionOf g bss).length) :
    appendSection hash g w = .throw "V5 adaptive int: output buffer full" := by
  obtain ⟨hst, g', e, hk, hsec⟩ := finishSection_spec g bss hc hm h
  have hso : sectionOf g bss = g'.sec := by
    unfold sectionOf sectionMode; rw [hc]; simp only [if_true]; exact hsec.symm
  unfold appendSection
  rw [if_pos ⟨hc, hst⟩, e]
  simp only [Res.ok_bind]
  unfold W.checked
  rw [if_neg (by rw [← hso]; omega)]
  simp only [Res.throw_bind]

theorem sections_full (hash : BitVec 64 → BitVec 64) (step n : Nat) (mem : List Byte) (as gs : List AField) (w : W)
    (h : All2 (Collected step n mem) as gs) (hg : ∀ f ∈ as, GoodA step n mem f) (hn : n ≤ 65535)
    (hc : ∀ g ∈ gs, g.committed = true ∧ g.mode ≠ .palette)
    (hroom : w.room < (allSections step n mem gs).length) :
    appendSections hash gs w = .throw "V5 adaptive int: output buffer full" := by
  induction as generalizing gs w with
  | nil =>
    cases gs with
    | nil => simp [allSections] at hroom
    | cons g gs => exact h.elim
  | cons f as ih =>
    cases gs with
    | nil => exact h.elim
    | cons g gs =>
      obtain ⟨h1, h2⟩ := h
      simp only [allSections, List.length_append] at hroom
      have hst : ChunkSt g (fieldSeq step g.offset g.bpv n mem) := by rw [h1.same.1, h1.same.2.1]; exact h1.st
      by_cases hfit : (sectionOf g (fieldSeq step g.offset g.bpv n mem)).length ≤ w.room
      · obtain ⟨g', e, _⟩ := (appendSection_spec hash g _ w h1.tinv hst (by rw [fieldSeq_length]; omega)
          (by rw [ivals_same h1.same, h1.same.1, h1.same.2.1]; exact (hg f (by simp)).diffs)).2 hfit
        have e' := ih gs (w.put (sectionOf g (fieldSeq step g.offset g.bpv n mem))) h2
          (fun x hx => hg x (by simp [hx])) (fun x hx => hc x (by simp [hx])) (by simp only [W.put]; omega)
        simp only [appendSections, e, Res.ok_bind, e', Res.throw_bind]
      · have e := section_full hash g _ w hst (hc g (by simp)).1 (hc g (by simp)).2 (by omega)
        simp only [appendSections, e, Res.throw_bind]

theorem allSections_const (step n : Nat) (mem : List Byte) (gs : List AField) (L : Nat)
    (h : ∀ g ∈ gs, (sectionOf g (fieldSeq step g.offset g.bpv n mem)).length = L) : (allSections step n mem gs).length = gs.length * L := by
  induction gs with
  | nil => simp [allSections]
  | cons g gs ih =>
    simp only [allSections, List.length_append, List.length_cons, Nat.add_mul, Nat.one_mul]
    rw [h g (by simp), ih (fun x hx => h x (by simp [hx]))]
    omega

theorem all2_length {α β : Type} {R : α → β → Prop} {as : List α} {bs : List β} (h : All2 R as bs) : as.length = bs.length := by
  induction as generalizing bs with
  | nil => cases bs <;> simp_all [All2]
  | cons a as ih =>
    cases bs with
    | nil => exact h.elim
    | cons b bs => simp [ih h.2]

/-- A chunk whose fields are all uncommitted, probed and then written with mode `m`. -/
theorem many_fresh (F : FloatOps) (hash : BitVec 64 → BitVec 64) (step n cap L : Nat) (m : AMode) (as : List AField) (mem : List Byte)
    (ht : ∀ f ∈ as, TInv f) (hga : ∀ f ∈ as, GoodA step n mem f) (hn : n ≤ 65535) (hcf : ∀ f ∈ as, f.committed = false)
    (hprobe : kProbePoints < n)
    (hm : ∀ f ∈ as, bestMode f.bpv (ivals f (fieldSeq step f.offset f.bpv kProbePoints mem)) (rvals (fieldSeq step f.offset f.bpv kProbePoints mem)) = m)
    (hL : ∀ f ∈ as, (secFor m f.bpv (ivals f (fieldSeq step f.offset f.bpv n mem)) (rvals (fieldSeq step f.offset f.bpv n mem))).length = L)
    (hcap : as.length * L ≤ cap) :
    ∃ as' bytes, encodeV5Chunk F hash step [] as mem n cap = .ok ([], as', mem.drop (n * step), bytes) ∧
      bytes.length = as.length * L ∧ All2 (fun f g => Settled f g ∧ g.mode = m) as as' := by
  obtain ⟨gs, e, hcol⟩ := encodePointsV5_spec F hash step n [] [] as mem ⟨[], cap⟩ ⟨[], cap⟩ (encodeCore_nil _ _ _ _ _) ⟨false, hcf⟩ ht hga
  have hgm : ∀ g ∈ gs, g.committed = true ∧ g.mode = m := by
    intro g hg
    obtain ⟨f, hf, hc⟩ := all2_mem_right hcol g hg
    obtain ⟨a, b⟩ := hc.picks (hcf f hf) hprobe
    exact ⟨a, b.trans (hm f hf)⟩
  have hlen : (allSections step n mem gs).length = gs.length * L := by
    refine allSections_const _ _ _ _ _ ?_
    intro g hg
    obtain ⟨f, hf, hc⟩ := all2_mem_right hcol g hg
    unfold sectionOf sectionMode
    rw [(hgm g hg).1, (hgm g hg).2]
    simp only [if_true]
    rw [ivals_same hc.same, hc.same.1, hc.same.2.1]
    exact hL f hf
  have hl := all2_length hcol
  obtain ⟨gs', e', hs⟩ := sections_ok hash step n mem m as gs ⟨[], cap⟩ hcol hga hn hgm (by simp only; rw [hlen, ← hl]; exact hcap)
  refine ⟨gs', allSections step n mem gs, ?_, by rw [hlen, hl], hs⟩
  unfold encodeV5Chunk
  rw [show ([] : List Enc).map Enc.reset = [] from rfl, e]
  simp only [Res.ok_bind, e', W.put, List.nil_append]

/-- A chunk whose fields are all committed to a streamed mode `m`, with sections longer than the stage buffer. -/
theorem many_full (F : FloatOps) (hash : BitVec 64 → BitVec 64) (step n cap L : Nat) (m : AMode) (as : List AField) (mem : List Byte)
    (ht : ∀ f ∈ as, TInv f) (hga : ∀ f ∈ as, GoodA step n mem f) (hn : n ≤ 65535) (hcf : ∀ f ∈ as, f.committed = true ∧ f.mode = m)
    (hpal : m ≠ .palette)
    (hL : ∀ f ∈ as, (secFor m f.bpv (ivals f (fieldSeq step f.offset f.bpv n mem)) (rvals (fieldSeq step f.offset f.bpv n mem))).length = L)
    (hcap : cap < as.length * L) :
    encodeV5Chunk F hash step [] as mem n cap = .throw "V5 adaptive int: output buffer full" := by
  obtain ⟨gs, e, hcol⟩ := encodePointsV5_spec F hash step n [] [] as mem ⟨[], cap⟩ ⟨[], cap⟩ (encodeCore_nil _ _ _ _ _)
    ⟨true, fun f hf => (hcf f hf).1⟩ ht hga
  have hgm : ∀ g ∈ gs, g.committed = true ∧ g.mode = m := by
    intro g hg
    obtain ⟨f, hf, hc⟩ := all2_mem_right hcol g hg
    refine ⟨?_, (hc.stays (hcf f hf).1).trans (hcf f hf).2⟩
    rcases hc.small with h | h
    · exact h
    · rw [hc.keep h]; exact (hcf f hf).1
  have hlen : (allSections step n mem gs).length = gs.length * L := by
    refine allSections_const _ _ _ _ _ ?_
    intro g hg
    obtain ⟨f, hf, hc⟩ := all2_mem_right hcol g hg
    unfold sectionOf sectionMode
    rw [(hgm g hg).1, (hgm g hg).2]
    simp only [if_true]
    rw [ivals_same hc.same, hc.same.1, hc.same.2.1]
    exact hL f hf
  have hl := all2_length hcol
  have e' := sections_full hash step n mem as gs ⟨[], cap⟩ hcol hga hn (fun g hg => ⟨(hgm g hg).1, by rw [(hgm g hg).2]; exact hpal⟩)
    (by simp only; rw [hlen, ← hl]; exact hcap)
  unfold encodeV5Chunk
  rw [show ([] : List Enc).map Enc.reset = [] from rfl, e]
  simp only [Res.ok_bind, e', Res.throw_bind]

/-! ### points made of copies of one value -/

/-- Points of `c` copies of one 64-bit number. -/
def rowsOf (c : Nat) (vs : List (BitVec 64)) : List Byte := vs.flatMap fun v => (List.replicate c (toLE 8 v.toNat)).flatten

theorem row_length (c : Nat) (v : BitVec 64) : ((List.replicate c (toLE 8 v.toNat)).flatten).length = c * 8 := by
  simp [List.length_flatten, toLE_length]

theorem rowsOf_length (c : Nat) (vs : List (BitVec 64)) : (rowsOf c vs).length = vs.length * (c * 8) := by
  induction vs with
  | nil => simp [rowsOf]
  | cons v vs ih =>
    simp only [rowsOf, List.flatMap_cons, List.length_append, row_length, List.length_cons] at *
    rw [ih, Nat.add_mul, Nat.one_mul, Nat.add_comm]

theorem rowsOf_append (c : Nat) (vs ws : List (BitVec 64)) : rowsOf c (vs ++ ws) = rowsOf c vs ++ rowsOf c ws := by
  unfold rowsOf; rw [List.flatMap_append]

theorem row_sub (c i : Nat) (h : i < c) (v : BitVec 64) (rest : List Byte) :
    sub ((List.replicate c (toLE 8 v.toNat)).flatten ++ rest) (i * 8) 8 = toLE 8 v.toNat := by
  obtain ⟨d, rfl⟩ : ∃ d, c = i + (d + 1) := ⟨c - i - 1, by omega⟩
  rw [← List.replicate_append_replicate, List.flatten_append, List.append_assoc]
  unfold sub
  rw [List.drop_left' (row_length i v), List.replicate_succ, List.flatten_cons, List.append_assoc, List.take_left' (toLE_length _ _)]

theorem fieldSeq_rowsOf (c i : Nat) (h : i < c) (vs : List (BitVec 64)) (rest : List Byte) :
    fieldSeq (c * 8) (i * 8) 8 vs.length (rowsOf c vs ++ rest) = vs.map fun v => toLE 8 v.toNat := by
  induction vs with
  | nil => rfl
  | cons v vs ih =>
    have ih' := ih
    unfold rowsOf at ih'
    simp only [List.length_cons, fieldSeq, List.map_cons, rowsOf, List.flatMap_cons, List.append_assoc]
    rw [List.drop_left' (row_length c v), ih', row_sub c i h]

end Cloudini
