import Verif.Lemmas.Stream

/-! Adaptive fields: from the collected values to the section. -/

namespace Cloudini

theorem finish_patch (f : AField) (x : BitVec 64) (code : Byte) (ser : List (BitVec 64 × Nat) → List Byte)
    (rs : List (BitVec 64 × Nat)) (hro : f.runCountOffset = 1) (hc : f.runCount = rs.length)
    (hs : f.sec = code :: (toLE 4 0 ++ ser rs)) :
    f.patch = .ok { f with sec := code :: (toLE 4 rs.length ++ ser rs) } := by
  unfold AField.patch
  have e : writeAt f.sec f.runCountOffset (toLE 4 f.runCount) = .ok (code :: (toLE 4 rs.length ++ ser rs)) := by
    rw [writeAt_eq_ok, hro, hs, hc]
    refine ⟨by simp only [List.length_cons, List.length_append, toLE_length]; omega, ?_⟩
    have := splice_mid [code] (toLE 4 0) (toLE 4 rs.length) (ser rs) (by simp)
    simpa using this.symm
  rw [e]; rfl

theorem finishSection_spec (f : AField) (bss : List (List Byte)) (hc : f.committed = true) (hm : f.mode ≠ .palette)
    (h : ChunkSt f bss) :
    f.streaming = true ∧
    ∃ g, finishSection f = .ok g ∧ Kept f g ∧ g.sec = secFor f.mode f.bpv (ivals f bss) (rvals bss) := by
  unfold ChunkSt at h
  simp only [hc, if_true] at h
  unfold finishSection
  cases hmode : f.mode with
  | palette => exact absurd hmode hm
  | deltaVarint =>
    simp only [hmode] at h ⊢
    exact ⟨h.1, f, rfl, ⟨⟨rfl, rfl, rfl⟩, rfl, rfl, rfl, rfl, rfl, rfl, rfl, rfl⟩, h.2.1⟩
  | deltaRle =>
    simp only [hmode] at h ⊢
    obtain ⟨h1, h2, h3, h4⟩ := h
    refine ⟨h1, ?_⟩
    unfold flushDeltaRleRun
    rcases h4 with ⟨a1, a2, a3, a4⟩ | ⟨a1, rs', a2, a3, a4⟩
    · simp only [a1, Bool.false_eq_true, if_false]
      refine ⟨_, finish_patch f 0#64 3#8 dRleBytes [] h2 (by simpa using a3) (by simpa [dRleBytes] using a4),
        ⟨⟨rfl, rfl, rfl⟩, rfl, rfl, rfl, rfl, rfl, rfl, rfl, rfl⟩, ?_⟩
      simp [secFor, deltaRleSec, a2, AMode.code, dRleBytes]
    · simp only [a1, if_true]
      refine ⟨_, finish_patch _ 0#64 3#8 dRleBytes (rs' ++ [(f.runDiff, f.runLen)]) h2 (by simp [a3])
        (by simp [a4, dRleBytes_snoc]), ⟨⟨rfl, rfl, rfl⟩, rfl, rfl, rfl, rfl, rfl, rfl, rfl, rfl⟩, ?_⟩
      simp only [secFor, deltaRleSec, a2, AMode.code]
  | rle =>
    simp only [hmode] at h ⊢
    obtain ⟨h1, h2, h4⟩ := h
    refine ⟨h1, ?_⟩
    unfold flushRleRun
    rcases h4 with ⟨a1, a2, a3, a4⟩ | ⟨a1, rs', a2, a3, a4⟩
    · simp only [a1, Bool.false_eq_true, if_false]
      refine ⟨_, finish_patch f 0#64 2#8 (rleBytes f.bpv) [] h2 (by simpa using a3) (by simpa [rleBytes] using a4),
        ⟨⟨rfl, rfl, rfl⟩, rfl, rfl, rfl, rfl, rfl, rfl, rfl, rfl⟩, ?_⟩
      simp [secFor, rleSec, a2, AMode.code, rleBytes]
    · simp only [a1, if_true]
      refine ⟨_, finish_patch _ 0#64 2#8 (rleBytes f.bpv) (rs' ++ [(f.runRaw, f.runLen)]) h2 (by simp [a3])
        (by simp [a4, rleBytes_snoc]), ⟨⟨rfl, rfl, rfl⟩, rfl, rfl, rfl, rfl, rfl, rfl, rfl, rfl⟩, ?_⟩
      simp only [secFor, rleSec, a2, AMode.code]

/-! ### committing on the probed values -/

theorem chunkSt_begin_stream (f : AField) (hc : f.committed = true) (hm : f.mode ≠ .palette) :
    ChunkSt (beginSection f) [] := by
  unfold ChunkSt beginSection
  cases hmode : f.mode
  · simp [hc, hmode, ivals, deltaSec, deltas, lastVal, AMode.code]
  · exact absurd hmode hm
  · simp [hc, hmode, rvals, RunSt, runs, AMode.code]
  · simp [hc, hmode, ivals, deltas, lastVal, RunSt, runs, AMode.code]

theorem appendProbeList_spec (f : AField) (done bss : List (List Byte)) (hc : f.committed = true) (hm : f.mode ≠ .palette)
    (h : ChunkSt f done) (hs : f.mode ≠ .rle → SubW 0#64 (ivals f (done ++ bss))) :
    ∃ g, appendProbeList (bss.map fun bs => if f.mode = .rle then BitVec.ofNat 64 (fromLE bs) else toI64 f.bpv f.signed bs) f
        = .ok g ∧ Kept f g ∧ ChunkSt g (done ++ bss) := by
  induction bss generalizing f done with
  | nil => exact ⟨f, rfl, ⟨⟨rfl, rfl, rfl⟩, rfl, rfl, rfl, rfl, rfl, rfl, rfl, rfl⟩, by simpa using h⟩
  | cons b bss ih =>
    have hs' : f.mode ≠ .rle → SubW 0#64 (ivals f (done ++ [b])) := by
      intro hr
      have hs := hs hr
      have : ivals f (done ++ b :: bss) = ivals f (done ++ [b]) ++ ivals f bss := by simp [ivals]
      rw [this, subW_append] at hs
      exact hs.1
    obtain ⟨g, e, hk, _, hst⟩ := appendCommittedAt_spec f done b hc hm h hs'
    have happ : done ++ b :: bss = (done ++ [b]) ++ bss := by simp
    obtain ⟨g', e', hk', hst'⟩ := ih g (done ++ [b]) (hk.committed.trans hc) (by rw [hk.mode]; exact hm) hst
      (fun hr => by rw [← happ, ivals_same hk.same]; exact hs (by rw [hk.mode] at hr; exact hr))
    rw [hk.mode, hk.same.2.1, hk.same.2.2] at e'
    refine ⟨g', ?_, ⟨hk'.same.trans hk.same, hk'.committed.trans hk.committed, hk'.mode.trans hk.mode,
      hk'.streaming.trans hk.streaming, hk'.rco.trans hk.rco, hk'.slots.trans hk.slots, hk'.gens.trans hk.gens,
      hk'.generation.trans hk.generation, hk'.values.trans hk.values⟩, by rw [happ]; exact hst'⟩
    simp only [List.map_cons, appendProbeList, e, Res.ok_bind, e']

theorem beginSection_mode (f : AField) : (beginSection f).mode = f.mode := by
  unfold beginSection; cases f.mode <;> simp
theorem beginSection_same (f : AField) : SameField (beginSection f) f := by
  unfold beginSection SameField; cases f.mode <;> simp
theorem beginSection_committed (f : AField) : (beginSection f).committed = f.committed := by
  unfold beginSection; cases f.mode <;> simp
theorem beginSection_values (f : AField) : (beginSection f).values = f.values ∧ (beginSection f).raws = f.raws := by
  unfold beginSection; cases f.mode <;> simp
theorem beginSection_tinv (f : AField) (ht : TInv f) : TInv (beginSection f) := by
  unfold beginSection; cases f.mode <;> exact ht.congr rfl rfl rfl
theorem beginSection_streaming (f : AField) : (beginSection f).streaming = decide (f.mode ≠ .palette) := by
  unfold beginSection; cases f.mode <;> simp

theorem commitProbed_spec (hash : BitVec 64 → BitVec 64) (f : AField) (bss : List (List Byte)) (ht : TInv f)
    (hc : f.committed = false) (h : ChunkSt f bss) (hn : bss.length ≤ 2 ^ 31) (hs : SubOK 0#64 (ivals f bss)) :
    ∃ g, commitProbed hash f = .ok g ∧ ChunkSt g bss ∧ TInv g ∧ SameField g f ∧ g.committed = true ∧
      g.mode = bestMode f.bpv (ivals f bss) (rvals bss) := by
  unfold ChunkSt at h
  simp only [hc, Bool.false_eq_true, if_false] at h
  obtain ⟨h1, h2, h3⟩ := h
  obtain ⟨slots, gens, gen, e, ht'⟩ := commitMode_eq hash f ht (by rw [h3]; simpa [rvals] using hn) (by rw [h2]; exact hs.weak) hc
  unfold commitProbed
  rw [e]
  simp only [Res.ok_bind]
  generalize hgdef : ({ f with palette := firstOcc f.raws, indexes := paletteIdx f.raws, slots := slots, gens := gens, generation := gen, mode := bestMode f.bpv f.values f.raws, committed := true } : AField) = g0
  have gm : g0.mode = bestMode f.bpv (ivals f bss) (rvals bss) := by rw [← hgdef, ← h2, ← h3]
  have gc : g0.committed = true := by rw [← hgdef]
  have gs : SameField g0 f := by rw [← hgdef]; exact ⟨rfl, rfl, rfl⟩
  have gv : g0.values = f.values ∧ g0.raws = f.raws := by rw [← hgdef]; exact ⟨rfl, rfl⟩
  have gt : TInv g0 := by rw [← hgdef]; exact ht'.congr rfl rfl rfl
  clear hgdef
  have hbs := beginSection_same g0
  unfold appendProbeValues
  rw [beginSection_streaming, beginSection_mode, (beginSection_values g0).1, (beginSection_values g0).2, gv.1, gv.2]
  by_cases hm : g0.mode = .palette
  · simp only [hm, ne_eq, not_true, decide_false, Bool.not_false, if_true]
    refine ⟨_, rfl, ?_, beginSection_tinv _ gt, hbs.trans gs, (beginSection_committed g0).trans gc,
      (beginSection_mode g0).trans gm⟩
    unfold ChunkSt
    rw [beginSection_committed, gc, beginSection_mode, hm]
    simp only [if_true]
    rw [beginSection_streaming, hm, (beginSection_values g0).2, gv.2]
    exact ⟨by simp, h3⟩
  · simp only [ne_eq, hm, not_false_eq_true, decide_true, Bool.not_true, Bool.false_eq_true, if_false]
    obtain ⟨g, e', hk, hst⟩ := appendProbeList_spec (beginSection g0) [] bss ((beginSection_committed g0).trans gc)
      (by rw [beginSection_mode]; exact hm) (chunkSt_begin_stream g0 gc hm)
      (fun _ => by rw [ivals_same (hbs.trans gs)]; exact hs.weak)
    have hl : (if g0.mode = AMode.rle then f.raws else f.values) =
        bss.map fun bs => if (beginSection g0).mode = .rle then BitVec.ofNat 64 (fromLE bs)
          else toI64 (beginSection g0).bpv (beginSection g0).signed bs := by
      rw [beginSection_mode, h2, h3, hbs.2.1, hbs.2.2, gs.2.1, gs.2.2]
      by_cases hr : g0.mode = .rle
      · simp only [hr, if_true]; rfl
      · simp only [hr, if_false]; rfl
    rw [hl, e']
    refine ⟨g, rfl, hst, hk.tinv (beginSection_tinv _ gt), hk.same.trans (hbs.trans gs),
      hk.committed.trans ((beginSection_committed g0).trans gc), hk.mode.trans ((beginSection_mode g0).trans gm)⟩

/-! ### the section -/

/-- The mode the section of the chunk is written in. -/
def sectionMode (f : AField) (bss : List (List Byte)) : AMode :=
  if f.committed then f.mode else bestMode f.bpv (ivals f bss) (rvals bss)

def sectionOf (f : AField) (bss : List (List Byte)) : List Byte :=
  secFor (sectionMode f bss) f.bpv (ivals f bss) (rvals bss)

theorem rebuildPalette_spec (hash : BitVec 64 → BitVec 64) (f : AField) (ht : TInv f) (hn : f.raws.length ≤ 2 ^ 31) :
    ∃ g, rebuildPalette hash f = .ok g ∧ TInv g ∧ SameField g f ∧ g.committed = f.committed ∧ g.mode = f.mode ∧
      g.raws = f.raws ∧ g.values = f.values ∧
      (f.mode = .palette → g.palette = firstOcc f.raws ∧ g.indexes = paletteIdx f.raws) := by
  unfold rebuildPalette
  by_cases hm : f.mode = .palette
  · rw [if_pos hm]
    obtain ⟨slots, gens, gen, e, ht'⟩ := buildPalette_eq hash f ht hn
    exact ⟨_, e, ht'.congr rfl rfl rfl, ⟨rfl, rfl, rfl⟩, rfl, rfl, rfl, rfl, fun _ => ⟨rfl, rfl⟩⟩
  · rw [if_neg hm]
    exact ⟨f, rfl, ht, ⟨rfl, rfl, rfl⟩, rfl, rfl, rfl, rfl, fun h => absurd h hm⟩

theorem appendBuffered_spec (f : AField) (w : W) (hs : SubW 0#64 f.values)
    (hp : f.mode = .palette → f.palette = firstOcc f.raws ∧ f.indexes = paletteIdx f.raws)
    (hr : (secFor f.mode f.bpv f.values f.raws).length ≤ w.room) :
    appendBuffered f w = .ok (w.put (secFor f.mode f.bpv f.values f.raws)) := by
  unfold appendBuffered
  cases hm : f.mode with
  | deltaVarint =>
    rw [hm] at hr
    exact appendDeltaVarintSection_eq f.values w hs hr
  | deltaRle =>
    rw [hm] at hr
    exact appendDeltaRleSection_eq f.values w hs hr
  | rle =>
    rw [hm] at hr
    exact appendRleSection_eq f.bpv f.raws w hr
  | palette =>
    rw [hm] at hr
    obtain ⟨h1, h2⟩ := hp hm
    simp only [secFor] at hr ⊢
    rw [← h1, ← h2] at hr ⊢
    exact appendPaletteSection_eq f w hr

theorem appendRawList_not_ub (bpv : Nat) (vs : List (BitVec 64)) (w : W) : (appendRawList bpv vs w).isUB = false := by
  induction vs generalizing w with
  | nil => rfl
  | cons v vs ih =>
    simp only [appendRawList]
    cases h : w.appendRawBits v bpv with
    | ok w' => simp only [Res.ok_bind]; exact ih w'
    | throw m => rfl
    | ub u =>
      unfold W.appendRawBits W.checked at h
      split at h <;> simp at h

theorem checked_not_ub (w : W) (m : String) (bs : List Byte) : (w.checked m bs).isUB = false := by
  unfold W.checked; split <;> rfl

theorem isUB_bind {α β : Type} {x : Res α} {k : α → Res β} (h : x.isUB = false) (hk : ∀ a, x = .ok a → (k a).isUB = false) :
    (x >>= k).isUB = false := by
  cases x with
  | ok a => exact hk a rfl
  | throw m => rfl
  | ub u => exact h

theorem appendPaletteSection_not_ub (f : AField) (w : W) : (appendPaletteSection f w).isUB = false := by
  unfold appendPaletteSection
  refine isUB_bind (checked_not_ub _ _ _) fun _ _ => isUB_bind (checked_not_ub _ _ _) fun _ _ =>
    isUB_bind (appendRawList_not_ub _ _ _) fun _ _ => checked_not_ub _ _ _

/-- The section written for a chunk.  Without room, a field that was committed before the chunk ended throws. -/
theorem appendSection_spec (hash : BitVec 64 → BitVec 64) (f : AField) (bss : List (List Byte)) (w : W)
    (ht : TInv f) (h : ChunkSt f bss) (hn : bss.length ≤ 2 ^ 31) (hs : SubOK 0#64 (ivals f bss)) :
    (f.committed = true → (appendSection hash f w).isUB = false) ∧
    ((sectionOf f bss).length ≤ w.room →
      ∃ g, appendSection hash f w = .ok (g, w.put (sectionOf f bss)) ∧ TInv g ∧ SameField g f ∧ g.committed = true ∧
        g.mode = sectionMode f bss) := by
  by_cases hc : f.committed = true
  · by_cases hm : f.mode = .palette
    · have h' := h
      unfold ChunkSt at h'
      simp only [hc, if_true, hm] at h'
      obtain ⟨h1, h2⟩ := h'
      obtain ⟨g, e, gt, gs, gc, gm, gr, gv, gp⟩ := rebuildPalette_spec hash f ht (by rw [h2]; simpa [rvals] using hn)
      have hcm : commitMode hash f = .ok f := by unfold commitMode; rw [if_pos hc]
      have hap : appendSection hash f w = (appendPaletteSection g w >>= fun w => .ok (g, w)) := by
        unfold appendSection
        rw [if_neg (by rw [h1]; simp), hcm]
        simp only [Res.ok_bind, e]
        unfold appendBuffered
        rw [gm, hm]
      have hsec : sectionOf f bss = paletteSec g.bpv g.palette g.indexes := by
        unfold sectionOf sectionMode
        rw [hc]
        simp only [if_true, hm, secFor]
        rw [(gp hm).1, (gp hm).2, h2, gs.2.1]
      refine ⟨fun _ => ?_, fun hroom => ⟨g, ?_, gt, gs, gc.trans hc, ?_⟩⟩
      · rw [hap]
        exact isUB_bind (appendPaletteSection_not_ub _ _) fun _ _ => rfl
      · rw [hap, hsec] at *
        rw [appendPaletteSection_eq g w hroom]; rfl
      · unfold sectionMode; rw [hc]; simpa using gm
    · obtain ⟨hst, g, e, hk, hsec⟩ := finishSection_spec f bss hc hm h
      have hso : sectionOf f bss = g.sec := by
        unfold sectionOf sectionMode; rw [hc]; simp only [if_true]; exact hsec.symm
      have hap : appendSection hash f w = (w.checked "V5 adaptive int: output buffer full" g.sec >>= fun w => .ok (g, w)) := by
        unfold appendSection
        rw [if_pos ⟨hc, hst⟩, e]
        simp only [Res.ok_bind]
      refine ⟨fun _ => ?_, fun hroom => ⟨g, ?_, hk.tinv ht, hk.same, hk.committed.trans hc, ?_⟩⟩
      · rw [hap]
        exact isUB_bind (checked_not_ub _ _ _) fun _ _ => rfl
      · rw [hap, ← hso, W.checked_put hroom]; rfl
      · unfold sectionMode; rw [hc]; simpa using hk.mode
  · simp only [Bool.not_eq_true] at hc
    have h' := h
    unfold ChunkSt at h'
    simp only [hc, Bool.false_eq_true, if_false] at h'
    obtain ⟨h1, h2, h3⟩ := h'
    refine ⟨fun hcc => by rw [hc] at hcc; simp at hcc, fun hroom => ?_⟩
    obtain ⟨slots, gens, gen, e, ht'⟩ := commitMode_eq hash f ht (by rw [h3]; simpa [rvals] using hn) (by rw [h2]; exact hs.weak) hc
    generalize hgdef : ({ f with palette := firstOcc f.raws, indexes := paletteIdx f.raws, slots := slots, gens := gens, generation := gen, mode := bestMode f.bpv f.values f.raws, committed := true } : AField) = g0 at e
    have gm : g0.mode = bestMode f.bpv (ivals f bss) (rvals bss) := by rw [← hgdef, ← h2, ← h3]
    have gc : g0.committed = true := by rw [← hgdef]
    have gs : SameField g0 f := by rw [← hgdef]; exact ⟨rfl, rfl, rfl⟩
    have gv : g0.values = f.values ∧ g0.raws = f.raws := by rw [← hgdef]; exact ⟨rfl, rfl⟩
    have gt : TInv g0 := by rw [← hgdef]; exact ht'.congr rfl rfl rfl
    clear hgdef
    obtain ⟨g, e', gt', gs', gc', gm', gr', gv', gp'⟩ := rebuildPalette_spec hash g0 gt
      (by rw [gv.2, h3]; simpa [rvals] using hn)
    have hso : sectionOf f bss = secFor g.mode g.bpv g.values g.raws := by
      unfold sectionOf sectionMode
      rw [hc]
      simp only [Bool.false_eq_true, if_false]
      rw [gm', gm, gs'.2.1, gs.2.1, gv', gr', gv.1, gv.2, h2, h3]
    rw [hso] at hroom
    refine ⟨g, ?_, gt', gs'.trans gs, gc'.trans gc, ?_⟩
    · unfold appendSection
      rw [if_neg (by rw [hc]; simp), e]
      simp only [Res.ok_bind, e']
      rw [appendBuffered_spec g w (by rw [gv', gv.1, h2]; exact hs.weak)
        (fun hm => by rw [gr']; exact gp' (by rw [← gm']; exact hm)) hroom, hso]
      rfl
    · unfold sectionMode; rw [hc]; simpa using gm'.trans gm

/-! ### sizes -/

theorem selectBest_le (m : AMode → Nat) :
    ∀ x, m (selectBest (m .deltaVarint) (m .palette) (m .rle) (m .deltaRle)) ≤ m x := by
  intro x
  unfold selectBest
  by_cases a : m .palette < m .deltaVarint
  · by_cases b : m .rle < m .palette
    · by_cases c : m .deltaRle < m .rle <;> simp only [a, b, c, if_true, if_false] <;> cases x <;> omega
    · by_cases c : m .deltaRle < m .palette <;> simp only [a, b, c, if_true, if_false] <;> cases x <;> omega
  · by_cases b : m .rle < m .deltaVarint
    · by_cases c : m .deltaRle < m .rle <;> simp only [a, b, c, if_true, if_false] <;> cases x <;> omega
    · by_cases c : m .deltaRle < m .deltaVarint <;> simp only [a, b, c, if_true, if_false] <;> cases x <;> omega

theorem bestMode_le (bpv : Nat) (vals raws : List (BitVec 64)) (m : AMode) :
    (secFor (bestMode bpv vals raws) bpv vals raws).length ≤ (secFor m bpv vals raws).length :=
  selectBest_le (fun m => (secFor m bpv vals raws).length) m

theorem flatMap_length_le {α : Type} (g : α → List Byte) (k : Nat) (l : List α) (h : ∀ a ∈ l, (g a).length ≤ k) :
    (l.flatMap g).length ≤ l.length * k := by
  induction l with
  | nil => simp
  | cons a l ih =>
    have := h a (by simp); have := ih (fun b hb => h b (by simp [hb]))
    simp only [List.flatMap_cons, List.length_append, List.length_cons, Nat.add_mul, Nat.one_mul]; omega

theorem deltaSec_length (vals : List (BitVec 64)) : (deltaSec vals).length ≤ 1 + 10 * vals.length := by
  unfold deltaSec
  have := flatMap_length_le encodeVarint64 10 (deltas 0#64 vals) (fun a _ => (encodeVarint64_length a).2)
  rw [deltas_length] at this
  simp only [List.length_cons]; omega

/-- A run length costs no more bytes than the run has elements. -/
theorem leb_run (n : Nat) (h : 1 ≤ n) (h2 : n < 2 ^ 64) : (lebBytes (BitVec.ofNat 64 n)).length ≤ n := by
  have ht : (BitVec.ofNat 64 n).toNat = n := by rw [BitVec.toNat_ofNat]; exact Nat.mod_eq_of_lt h2
  by_cases h1 : n < 128
  · have := lebBytes_length_le (BitVec.ofNat 64 n) 0 (by rw [ht]; simpa using h1)
    omega
  · have := lebBytes_length_le_ten (BitVec.ofNat 64 n)
    omega

theorem runBytes_length (k : Nat) (g : BitVec 64 → List Byte) (rs : List (BitVec 64 × Nat)) (hg : ∀ v, (g v).length ≤ k)
    (hpos : ∀ r ∈ rs, 1 ≤ r.2) (ht : runTotal rs < 2 ^ 64) :
    (rs.flatMap fun r => g r.1 ++ lebBytes (BitVec.ofNat 64 r.2)).length ≤ (k + 1) * runTotal rs := by
  induction rs with
  | nil => simp
  | cons r rs ih =>
    have h1 := hpos r (by simp)
    have h2 : runTotal (r :: rs) = r.2 + runTotal rs := by simp [runTotal]
    rw [h2] at ht ⊢
    have h3 := leb_run r.2 h1 (by omega)
    have h4 := hg r.1
    have h5 := ih (fun a ha => hpos a (by simp [ha])) (by omega)
    have h6 : k ≤ k * r.2 := Nat.le_mul_of_pos_right k h1
    simp only [List.flatMap_cons, List.length_append, Nat.mul_add, Nat.add_mul, Nat.one_mul] at *
    omega

theorem deltaRleSec_length (vals : List (BitVec 64)) (hn : vals.length < 2 ^ 64) :
    (deltaRleSec vals).length ≤ 5 + 11 * vals.length := by
  unfold deltaRleSec dRleBytes
  have := runBytes_length 10 encodeVarint64 (runs (deltas 0#64 vals)) (fun v => (encodeVarint64_length v).2) (runs_pos _)
    (by rw [runs_total, deltas_length]; exact hn)
  rw [runs_total, deltas_length] at this
  simp only [List.length_cons, List.length_append, toLE_length]; omega

theorem rleSec_length (bpv : Nat) (raws : List (BitVec 64)) (hb : bpv ≤ 8) (hn : raws.length < 2 ^ 64) :
    (rleSec bpv raws).length ≤ 5 + 9 * raws.length := by
  unfold rleSec rleBytes
  have := runBytes_length 8 (fun v => toLE bpv v.toNat) (runs raws) (fun v => by simpa using hb) (runs_pos _)
    (by rw [runs_total]; exact hn)
  rw [runs_total] at this
  simp only [List.length_cons, List.length_append, toLE_length]; omega

theorem paletteSec_length (bpv : Nat) (raws : List (BitVec 64)) (hb : bpv ≤ 8) (hn : raws.length ≤ 65536) :
    (paletteSec bpv (firstOcc raws) (paletteIdx raws)).length ≤ 4 + 10 * raws.length := by
  have hb' := firstOcc_bits raws (by omega)
  have hbp := (bitpack_spec _ hb' (paletteIdx raws) (fun i hi => palette_bits _ _ (paletteIdx_lt raws i hi))).2
  have h1 := firstOcc_length raws
  have h2 : bitsForPaletteIndex (firstOcc raws).length ≤ 16 := palette_bits_le _ 16 (by omega)
  have h3 : (firstOcc raws).length * bpv ≤ raws.length * 8 := Nat.mul_le_mul h1 hb
  have h4 : bitsForPaletteIndex (firstOcc raws).length * raws.length ≤ 16 * raws.length := Nat.mul_le_mul_right _ h2
  unfold paletteSec
  simp only [List.length_cons, List.length_append, toLE_length, flatMap_toLE_length, hbp]
  simp only [paletteIdx, List.length_map]
  omega

theorem secFor_length (m : AMode) (bpv : Nat) (vals raws : List (BitVec 64)) (n : Nat) (hb : bpv ≤ 8)
    (h1 : vals.length = n) (h2 : raws.length = n) (hn : n ≤ 65536) :
    (secFor m bpv vals raws).length ≤ 5 + 11 * n := by
  cases m with
  | deltaVarint => have := deltaSec_length vals; simp only [secFor]; omega
  | deltaRle => have := deltaRleSec_length vals (by omega); simp only [secFor]; omega
  | rle => have := rleSec_length bpv raws hb (by omega); simp only [secFor]; omega
  | palette => have := paletteSec_length bpv raws hb (by omega); simp only [secFor]; omega

end Cloudini
