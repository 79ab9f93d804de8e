import Verif.Lemmas.CloudTrip

/-! # What the sections of adaptive fields cost, chunk after chunk (helper lemmas for C86) -/

namespace Cloudini

/-- The mode in which a field is written in a chunk of `n` points, and from then on. -/
def chosen (step n : Nat) (mem : List Byte) (f : AField) : AMode :=
  if f.committed then f.mode
  else bestMode f.bpv (ivals f (fieldSeq step f.offset f.bpv (min n kProbePoints) mem)) (rvals (fieldSeq step f.offset f.bpv (min n kProbePoints) mem))

/-- The length of the section of a field in a chunk, written in mode `m`. -/
def costOf (step n : Nat) (mem : List Byte) (m : AMode) (f : AField) : Nat :=
  (secFor m f.bpv (ivals f (fieldSeq step f.offset f.bpv n mem)) (rvals (fieldSeq step f.offset f.bpv n mem))).length

theorem collected_mode {step n : Nat} {mem : List Byte} {f g : AField} (h : Collected step n mem f g) :
    sectionMode g (fieldSeq step g.offset g.bpv n mem) = chosen step n mem f := by
  unfold sectionMode chosen
  rw [ivals_same h.same, h.same.1, h.same.2.1]
  by_cases hn : n ≤ kProbePoints
  · rw [h.keep hn, Nat.min_eq_left hn]
    by_cases hc : f.committed = true
    · rw [if_pos hc, if_pos hc, h.stays hc]
    · rw [if_neg hc, if_neg hc]
  · have hg : g.committed = true := h.small.resolve_right hn
    rw [if_pos hg, Nat.min_eq_right (by omega)]
    by_cases hc : f.committed = true
    · rw [if_pos hc, h.stays hc]
    · rw [if_neg hc]
      exact (h.picks (by simpa using hc) (by omega)).2

theorem allSections_cost {step n : Nat} {mem : List Byte} {as gs : List AField} (h : All2 (Collected step n mem) as gs) :
    (allSections step n mem gs).length = (as.map fun f => costOf step n mem (chosen step n mem f) f).sum := by
  induction as generalizing gs with
  | nil =>
    cases gs with
    | nil => rfl
    | cons g gs => exact h.elim
  | cons f as ih =>
    cases gs with
    | nil => exact h.elim
    | cons g gs =>
      simp only [allSections, List.length_append, List.map_cons, List.sum_cons]
      rw [ih h.2]
      have e : sectionOf g (fieldSeq step g.offset g.bpv n mem) = secFor (chosen step n mem f) f.bpv
          (ivals f (fieldSeq step f.offset f.bpv n mem)) (rvals (fieldSeq step f.offset f.bpv n mem)) := by
        unfold sectionOf
        rw [collected_mode h.1, ivals_same h.1.same, h.1.same.1, h.1.same.2.1]
      rw [e]
      rfl

/-- The field after a chunk. -/
structure Moded (step n : Nat) (mem : List Byte) (f g : AField) : Prop where
  tinv : TInv g
  same : SameField g f
  committed : g.committed = true
  mode : g.mode = chosen step n mem f

theorem appendSections_modes (hash : BitVec 64 → BitVec 64) (step n : Nat) (mem : List Byte) (as gs : List AField) (w : W)
    (h : All2 (Collected step n mem) as gs) (hg : ∀ f ∈ as, GoodA step n mem f) (hn : n ≤ 65535)
    (hroom : (allSections step n mem gs).length ≤ w.room) :
    ∃ gs', appendSections hash gs w = .ok (gs', w.put (allSections step n mem gs)) ∧ All2 (Moded step n mem) as gs' := by
  induction as generalizing gs w with
  | nil =>
    cases gs with
    | nil => exact ⟨[], by simp [appendSections, allSections, W.put_nil], trivial⟩
    | cons g gs => exact h.elim
  | cons f as ih =>
    cases gs with
    | nil => exact h.elim
    | cons g gs =>
      obtain ⟨h1, h2⟩ := h
      simp only [allSections, List.length_append] at hroom
      have hst : ChunkSt g (fieldSeq step g.offset g.bpv n mem) := by rw [h1.same.1, h1.same.2.1]; exact h1.st
      obtain ⟨g', e, t1, t2, t3, t4⟩ := (appendSection_spec hash g _ w h1.tinv hst (by rw [fieldSeq_length]; omega)
        (by rw [ivals_same h1.same, h1.same.1, h1.same.2.1]; exact (hg f (by simp)).diffs)).2 (by omega)
      obtain ⟨gs', e', hs⟩ := ih gs (w.put (sectionOf g (fieldSeq step g.offset g.bpv n mem))) h2
        (fun x hx => hg x (by simp [hx])) (by simp only [W.put]; omega)
      refine ⟨g' :: gs', ?_, ⟨t1, t2.trans h1.same, t3, t4.trans (collected_mode h1)⟩, hs⟩
      simp only [appendSections, e, Res.ok_bind, e', allSections, W.put_put]

theorem chunkV5_cost (F : FloatOps) (hash : BitVec 64 → BitVec 64) (step n cap : Nat) (es : List Enc) (ds : List Dec)
    (as : List AField) (mem : List Byte) (hm : MatchAll (es.map Enc.reset) (ds.map Dec.reset))
    (hg : ∀ i, i < n → GoodAll F (prevMem none step mem i) (mem.drop (i * step)) es)
    (hf : SameFlag as) (ht : ∀ f ∈ as, TInv f) (hga : ∀ f ∈ as, GoodA step n mem f) (h8 : ∀ f ∈ as, f.bpv ≤ 8)
    (hn : n ≤ 65535) (hcap : n * sumMax es + as.length * (5 + 11 * n) ≤ cap) :
    ∃ es' as' bytes, encodeV5Chunk F hash step es as mem n cap = .ok (es', as', mem.drop (n * step), bytes) ∧
      All2 (Moded step n mem) as as' ∧ es'.map Enc.reset = es.map Enc.reset ∧
      bytes.length ≤ n * sumMax es + (as.map fun f => costOf step n mem (chosen step n mem f) f).sum := by
  have hg' : ∀ i, i < n → GoodAll F (prevMem none step mem i) (mem.drop (i * step)) (es.map Enc.reset) := fun i hi =>
    goodAll_congr (by rw [List.map_map]; apply List.map_congr_left; intro e _; exact (enc_reset_reset e).symm) (hg i hi)
  have hsm : sumMax (es.map Enc.reset) = sumMax es := sumMax_reset es
  obtain ⟨es', bs, ds', c1, c3, c4, c5, c6, c7, _⟩ := core_roundtrip F step step n (es.map Enc.reset) (ds.map Dec.reset)
    none mem ⟨[], cap⟩ hm hg' (fun e he => by
      simp only [List.mem_map] at he
      obtain ⟨a, _, rfl⟩ := he
      exact reset_prevIs F a) (by rw [hsm]; simp only; omega)
  simp only [List.nil_append] at c1
  rw [hsm] at c6
  obtain ⟨gs, e1, hcol⟩ := encodePointsV5_spec F hash step n (es.map Enc.reset) es' as mem _ _ c1 hf ht hga
  have hlen := allSections_length step n mem as gs hcol h8 hn
  obtain ⟨gs', e2, hset⟩ := appendSections_modes hash step n mem as gs ⟨bs, cap - bs.length⟩ hcol hga hn (by simp only; omega)
  have hreset : ∀ es : List Enc, (es.map Enc.reset).map Enc.reset = es.map Enc.reset := fun es => by
    rw [List.map_map]; apply List.map_congr_left; intro e _; exact enc_reset_reset e
  refine ⟨es', gs', bs ++ allSections step n mem gs, ?_, hset, c4.trans (hreset es), ?_⟩
  · unfold encodeV5Chunk
    rw [e1]
    simp only [Res.ok_bind, e2]
    rfl
  · rw [List.length_append, allSections_cost hcol]; omega

theorem chosen_later {step n n' : Nat} {mem mem' : List Byte} {f g : AField} (h : Moded step n mem f g) :
    chosen step n' mem' g = chosen step n mem f := by
  rw [← h.mode]
  unfold chosen
  rw [if_pos h.committed]

theorem costOf_same {step n : Nat} {mem : List Byte} {m : AMode} {f g : AField} (h : SameField g f) : costOf step n mem m g = costOf step n mem m f := by
  unfold costOf
  rw [ivals_same h, h.1, h.2.1]

theorem stage1V5_cost (F : FloatOps) (hash : BitVec 64 → BitVec 64) (step cap : Nat) (es0 : List Enc) (ds0 : List Dec) (as0 : List AField)
    (hm : MatchAll (es0.map Enc.reset) (ds0.map Dec.reset)) (h8 : ∀ f ∈ as0, f.bpv ≤ 8) (points : Nat)
    (hcap : min points kPointsPerChunk * sumMax es0 + as0.length * (5 + 11 * min points kPointsPerChunk) ≤ cap)
    (es : List Enc) (as : List AField) (mem : List Byte) (he : es.map Enc.reset = es0.map Enc.reset)
    (ha : All2 (fun f g => SameField g f) as0 as) (hf : SameFlag as) (ht : ∀ f ∈ as, TInv f)
    (hg : ∀ i, i < points → GoodAll F (chunkPrev step mem i) (mem.drop (i * step)) es0)
    (hga : ∀ f ∈ as0, ∀ c, c * kPointsPerChunk < points →
      GoodA step (min (points - c * kPointsPerChunk) kPointsPerChunk) (mem.drop (c * kPointsPerChunk * step)) f)
    (fixed slope : AField → Nat) 
    (hcost : All2 (fun f g => ∀ c, c * kPointsPerChunk < points →
      costOf step (min (points - c * kPointsPerChunk) kPointsPerChunk) (mem.drop (c * kPointsPerChunk * step)) (chosen step (min points kPointsPerChunk) mem g) f ≤
        fixed f + slope f * min (points - c * kPointsPerChunk) kPointsPerChunk) as0 as)
    (cs : List (List Byte)) (h : stage1V5 F hash step cap points es as mem = .ok cs) :
    ChunkSizes (fun n => n * sumMax es0 + (as0.map fun f => fixed f + slope f * n).sum) points cs := by
  induction points using Nat.strongRecOn generalizing es as mem cs with
  | ind points ih =>
    unfold stage1V5 at h
    by_cases hp : points = 0
    · rw [dif_pos hp] at h
      cases h
      exact hp
    · rw [dif_neg hp] at h
      have hK := pos_K
      have hK2 := K_le
      have hn : min points kPointsPerChunk ≤ points := Nat.min_le_left _ _
      have hnK : min points kPointsPerChunk ≤ kPointsPerChunk := Nat.min_le_right _ _
      have hn0 : 0 < min points kPointsPerChunk := by omega
      generalize hnn : min points kPointsPerChunk = n at *
      have hse : sumMax es = sumMax es0 := by rw [← sumMax_reset es, he, sumMax_reset]
      have hal : as.length = as0.length := ha.length
      obtain ⟨es1, as1, bytes, c1, c2, c3, c4⟩ := chunkV5_cost F hash step n cap es ds0 as mem (by rw [he]; exact hm)
        (fun i hi => by rw [← chunkPrev_first step mem i (by omega)]; exact goodAll_congr he.symm (hg i (by omega))) hf ht
        (fun g hgm => by
          obtain ⟨f, hfm, hs⟩ := all2_mem_right ha g hgm
          exact goodA_congr hs (by simpa [hnn] using hga f hfm 0 (by omega)))
        (fun g hgm => by
          obtain ⟨f, hfm, hs⟩ := all2_mem_right ha g hgm
          rw [hs.2.1]; exact h8 f hfm)
        (by omega) (by rw [hse, hal]; exact hcap)
      rw [hse] at c4
      rw [c1] at h
      simp only [Res.ok_bind] at h
      obtain ⟨cs', h', h⟩ := Res.bind_eq_ok.1 h
      cases h
      have hmn : min (points - n) kPointsPerChunk * sumMax es0 + as0.length * (5 + 11 * min (points - n) kPointsPerChunk) ≤
          n * sumMax es0 + as0.length * (5 + 11 * n) :=
        Nat.add_le_add (Nat.mul_le_mul_right _ (by omega)) (Nat.mul_le_mul_left _ (by omega))
      have ha1 : All2 (fun f g => SameField g f) as0 as1 := all2_trans ha c2 fun f g h a b => b.same.trans a
      have hsum : (as.map fun f => costOf step n mem (chosen step n mem f) f).sum ≤ (as0.map fun f => fixed f + slope f * n).sum := by
        clear h h' c1 c2 c4 ha1 hmn ih hga hcap hf ht h8 hal
        induction as0 generalizing as with
        | nil => cases as <;> simp_all [All2]
        | cons f as0 ih2 =>
          cases as with
          | nil => exact ha.elim
          | cons g as =>
            simp only [List.map_cons, List.sum_cons]
            have h0 := hcost.1 0 (by omega)
            simp only [Nat.zero_mul, Nat.sub_zero, List.drop_zero, hnn] at h0
            rw [costOf_same ha.1]
            exact Nat.add_le_add h0 (ih2 as ha.2 hcost.2)
      refine ⟨hp, ?_, ?_⟩
      · rw [hnn]
        exact Nat.le_trans c4 (Nat.add_le_add_left hsum _)
      · rw [hnn]
        refine ih (points - n) (by omega) (Nat.le_trans hmn hcap) es1 as1 (mem.drop (n * step)) (c3.trans he) ha1
          ⟨true, fun g hgm => by obtain ⟨f, _, hs⟩ := all2_mem_right c2 g hgm; exact hs.committed⟩
          (fun g hgm => by obtain ⟨f, _, hs⟩ := all2_mem_right c2 g hgm; exact hs.tinv)
          (fun i hi => by
            rw [List.drop_drop, ← Nat.add_mul, chunkPrev_later step mem n i (by omega)]
            exact hg (n + i) (by omega))
          (fun f hfm c hc => by
            have hnk : n = kPointsPerChunk := by omega
            rw [List.drop_drop, ← Nat.add_mul, hnk]
            have h1 := hga f hfm (c + 1) (by rw [Nat.add_mul, Nat.one_mul]; omega)
            rw [Nat.add_mul, Nat.one_mul, Nat.add_comm, ← Nat.sub_sub] at h1
            exact h1) ?_ cs' h'
        refine all2_trans hcost c2 ?_
        intro f g g1 hfg hm1 c hc
        rw [chosen_later hm1]
        have hnk : n = kPointsPerChunk := by omega
        have h1 := hfg (c + 1) (by rw [Nat.add_mul, Nat.one_mul]; omega)
        rw [List.drop_drop, ← Nat.add_mul]
        rw [Nat.add_mul c, Nat.one_mul, Nat.add_comm (c * kPointsPerChunk), ← Nat.sub_sub] at h1
        rw [hnk] at h1 ⊢
        exact h1

end Cloudini
