import Verif.Lemmas.MemSafe
import Verif.Lemmas.CloudSize

/-! No out-of-bounds access in the version-5 encoder, whatever the values are. -/

namespace Cloudini

theorem Safe.of_ok {α : Type} {r : Res α} {P : α → Prop} {a : α} (h : r = .ok a) (hp : P a) : Safe r P := by rw [h]; exact hp

theorem checked_safe (w : W) (m : String) (bs : List Byte) : Safe (w.checked m bs) fun _ => True := by
  unfold W.checked; split <;> simp [Safe]

theorem safe_of_not_ub {α : Type} {r : Res α} (h : r.isUB = false) : Safe r fun _ => True := by
  cases r <;> simp_all [Safe, Res.isUB]

/-- Sizing the delta section detects every overflow. -/
theorem subW_of_size (vals : List (BitVec 64)) (p : BitVec 64) (b : Nat) :
    SubW p vals ∨ deltaVarintSize vals p b = .ub .overflow := by
  induction vals generalizing p b with
  | nil => left; trivial
  | cons v vs ih =>
    simp only [deltaVarintSize]
    by_cases h : BitVec.ssubOverflow v p = true
    · right; simp [subI64, h]
    · have e : subI64 v p = .ok (v - p) := by simp [subI64, h]
      rw [e]
      rcases ih v (b + encodedVarint64Size (v - p)) with h' | h'
      · exact Or.inl ⟨e, h'⟩
      · exact Or.inr h'

/-- What the encoder relies on to stay inside its buffers. -/
structure AField.Ok (step n : Nat) (f : AField) : Prop where
  inside : f.offset + f.bpv ≤ step
  tinv : TInv f
  count : f.raws.length ≤ n
  both : f.committed = false → f.values.length = f.raws.length
  patchable : f.committed = true → f.mode = .rle ∨ f.mode = .deltaRle → f.runCountOffset = 1 ∧ 5 ≤ f.sec.length
  stream : f.committed = true → f.mode ≠ .palette → f.streaming = true

theorem beginSection_ok {step n : Nat} {f : AField} (hi : f.offset + f.bpv ≤ step) (ht : TInv f) (hc : f.committed = true)
    (hn : f.raws.length ≤ n) : (beginSection f).Ok step n := by
  refine ⟨?_, beginSection_tinv f ht, ?_, ?_, ?_, ?_⟩
  · have := beginSection_same f; rw [this.1, this.2.1]; exact hi
  · rw [(beginSection_values f).2]; exact hn
  · intro h; rw [beginSection_committed, hc] at h; simp at h
  · intro _ h
    rw [beginSection_mode] at h
    unfold beginSection
    rcases h with h | h <;> simp [h]
  · intro _ h
    rw [beginSection_mode] at h
    rw [beginSection_streaming]; simpa using h

theorem prepareField_ok {step : Nat} {f : AField} (hi : f.offset + f.bpv ≤ step) (ht : TInv f) :
    (prepareField f).Ok step 0 ∧ (prepareField f).committed = f.committed := by
  unfold prepareField
  simp only
  by_cases hc : f.committed = true
  · rw [if_pos hc]
    exact ⟨beginSection_ok hi (ht.congr rfl rfl rfl) hc (by simp), by rw [beginSection_committed]⟩
  · rw [if_neg hc]
    exact ⟨⟨hi, ht.congr rfl rfl rfl, by simp, fun _ => by simp, fun h => absurd h hc, fun h => absurd h hc⟩, rfl⟩

theorem appendDelta_ok {step n : Nat} {f : AField} (h : f.Ok step n) (hc : f.committed = true) (hm : f.mode = .deltaVarint) (v : BitVec 64) :
    Safe (appendDeltaValue f v) fun g => g.Ok step n ∧ g.committed = true ∧ g.mode = f.mode := by
  unfold appendDeltaValue
  refine (subI64_safe _ _).bind fun d _ => ?_
  exact ⟨⟨h.inside, h.tinv.congr rfl rfl rfl, h.count, fun e => by simp [hc] at e, fun _ e => by simp [hm] at e, fun e1 e2 => h.stream e1 e2⟩, hc, rfl⟩

theorem flushDelta_facts (f : AField) : ∃ bs c r, flushDeltaRleRun f = { f with sec := f.sec ++ bs, runCount := c, hasRun := r } := by
  unfold flushDeltaRleRun
  split
  · exact ⟨encodeVarint64 f.runDiff ++ lebBytes (BitVec.ofNat 64 f.runLen), f.runCount + 1, false, by simp only [List.append_assoc]⟩
  · exact ⟨[], f.runCount, f.hasRun, by simp⟩

theorem flushRle_facts (f : AField) : ∃ bs c r, flushRleRun f = { f with sec := f.sec ++ bs, runCount := c, hasRun := r } := by
  unfold flushRleRun
  split
  · exact ⟨toLE f.bpv f.runRaw.toNat ++ lebBytes (BitVec.ofNat 64 f.runLen), f.runCount + 1, false, by simp only [List.append_assoc]⟩
  · exact ⟨[], f.runCount, f.hasRun, by simp⟩

theorem ok_runs {step n : Nat} {f : AField} (h : f.Ok step n) (hc : f.committed = true) (bs : List Byte) (c : Nat) (r : Bool)
    (p d w : BitVec 64) (l : Nat) :
    AField.Ok step n { f with sec := f.sec ++ bs, runCount := c, hasRun := r, prev := p, runDiff := d, runRaw := w, runLen := l } :=
  ⟨h.inside, h.tinv.congr rfl rfl rfl, h.count, fun e => by simp [hc] at e,
    fun e1 e2 => ⟨(h.patchable e1 e2).1, by have := (h.patchable e1 e2).2; simp only [List.length_append]; omega⟩, fun e1 e2 => h.stream e1 e2⟩

theorem appendDeltaRle_ok {step n : Nat} {f : AField} (h : f.Ok step n) (hc : f.committed = true) (v : BitVec 64) :
    Safe (appendDeltaRleValue f v) fun g => g.Ok step n ∧ g.committed = true ∧ g.mode = f.mode := by
  unfold appendDeltaRleValue
  refine (subI64_safe _ _).bind fun d _ => ?_
  simp only
  split
  · have := ok_runs h hc [] f.runCount true v d f.runRaw 1
    simp only [List.append_nil] at this
    exact ⟨this, hc, rfl⟩
  split
  · have := ok_runs h hc [] f.runCount f.hasRun v f.runDiff f.runRaw (f.runLen + 1)
    simp only [List.append_nil] at this
    exact ⟨this, hc, rfl⟩
  · obtain ⟨bs, c, r, e⟩ := flushDelta_facts { f with prev := v }
    rw [e]
    exact ⟨ok_runs h hc bs c true v d f.runRaw 1, hc, rfl⟩

theorem appendRle_ok {step n : Nat} {f : AField} (h : f.Ok step n) (hc : f.committed = true) (v : BitVec 64) :
    (appendRleValue f v).Ok step n ∧ (appendRleValue f v).committed = true ∧ (appendRleValue f v).mode = f.mode := by
  unfold appendRleValue
  split
  · have := ok_runs h hc [] f.runCount true f.prev f.runDiff v 1
    simp only [List.append_nil] at this
    exact ⟨this, hc, rfl⟩
  split
  · have := ok_runs h hc [] f.runCount f.hasRun f.prev f.runDiff f.runRaw (f.runLen + 1)
    simp only [List.append_nil] at this
    exact ⟨this, hc, rfl⟩
  · obtain ⟨bs, c, r, e⟩ := flushRle_facts f
    rw [e]
    exact ⟨ok_runs h hc bs c true f.prev f.runDiff v 1, hc, rfl⟩

theorem AField.Ok.mono {step n m : Nat} {f : AField} (h : f.Ok step n) (hm : n ≤ m) : f.Ok step m :=
  ⟨h.inside, h.tinv, Nat.le_trans h.count hm, h.both, h.patchable, h.stream⟩

theorem collectValue_ok {step n : Nat} {f : AField} (h : f.Ok step n) (mem : List Byte) (hm : step ≤ mem.length) :
    Safe (collectValue f mem) fun g => g.Ok step (n + 1) ∧ g.committed = f.committed := by
  have hi := h.inside
  have hri : Safe (readIntAt mem f) fun _ => True := (readAt_safe (by omega)).bind fun _ _ => trivial
  have hrr : Safe (readRawAt mem f) fun _ => True := (readAt_safe (by omega)).bind fun _ _ => trivial
  unfold collectValue
  by_cases hc : f.committed = true
  · simp only [hc, Bool.not_true, Bool.false_eq_true, if_false]
    unfold appendCommittedFromMem
    cases hmo : f.mode with
    | deltaVarint => exact hri.bind fun v _ => (appendDelta_ok h hc hmo v).mono fun g hg => ⟨hg.1.mono (by omega), hg.2.1⟩
    | deltaRle => exact hri.bind fun v _ => (appendDeltaRle_ok h hc v).mono fun g hg => ⟨hg.1.mono (by omega), hg.2.1⟩
    | rle => exact hrr.bind fun v _ => ⟨(appendRle_ok h hc v).1.mono (by omega), (appendRle_ok h hc v).2.1⟩
    | palette =>
      refine hrr.bind fun v _ => ⟨⟨h.inside, h.tinv.congr rfl rfl rfl, ?_, fun e => by simp [hc] at e, ?_, ?_⟩, hc⟩
      · have := h.count; simp only [List.length_append, List.length_cons, List.length_nil]; omega
      · intro _ e; simp only [hmo] at e; simp at e
      · intro _ e; simp [hmo] at e
  · simp only [Bool.not_eq_true] at hc
    rw [if_pos (by rw [hc]; rfl)]
    refine hri.bind fun v _ => hrr.bind fun r _ => ?_
    refine ⟨⟨h.inside, h.tinv.congr rfl rfl rfl, ?_, ?_, ?_, ?_⟩, rfl⟩
    · have := h.count; simp only [List.length_append, List.length_cons, List.length_nil]; omega
    · intro _; simp only [List.length_append, List.length_cons, List.length_nil, h.both hc]
    · intro e; exact absurd (e.symm.trans hc) (by simp)
    · intro e; exact absurd (e.symm.trans hc) (by simp)

theorem mapFields_safe {g : AField → Res AField} {P Q : AField → Prop} (as : List AField) (h : ∀ f, P f → Safe (g f) Q) (hp : ∀ f ∈ as, P f) :
    Safe (mapFields g as) fun bs => (∀ f ∈ bs, Q f) ∧ bs.length = as.length := by
  induction as with
  | nil => exact ⟨by simp, rfl⟩
  | cons a as ih =>
    simp only [mapFields]
    refine (h a (hp a (by simp))).bind fun b hb => (ih fun f hf => hp f (by simp [hf])).bind fun bs hbs => ?_
    refine ⟨?_, by simp [hbs.2]⟩
    intro f hf
    simp only [List.mem_cons] at hf
    rcases hf with rfl | hf
    · exact hb
    · exact hbs.1 f hf

theorem encodeRangeV5_safe (F : FloatOps) (step k : Nat) (c : Bool) (es : List Enc) (as : List AField) (mem : List Byte) (w : W) (n : Nat)
    (h : ∀ e ∈ es, e.Sane step) (ha : ∀ f ∈ as, f.Ok step n ∧ f.committed = c) (hm : k * step ≤ mem.length) (hst : 0 < step)
    (hw : k * sumMax es ≤ w.room) :
    Safe (encodeRangeV5 F step k es as mem w) fun r => (∀ e ∈ r.1, e.Sane step) ∧ sumMax r.1 = sumMax es ∧
      (∀ f ∈ r.2.1, f.Ok step (n + k) ∧ f.committed = c) ∧ r.2.1.length = as.length ∧ r.2.2.1 = mem.drop (k * step) ∧
      w.room ≤ r.2.2.2.room + k * sumMax es := by
  induction k generalizing es as mem w n with
  | zero => exact ⟨h, rfl, ha, rfl, by simp, by simp⟩
  | succ k ih =>
    rw [Nat.add_mul, Nat.one_mul] at hm hw
    simp only [encodeRangeV5]
    refine (encodeFields_safe F step mem (by omega) es h w (by omega)).bind fun r hr => ?_
    refine (mapFields_safe (P := fun f => f.Ok step n ∧ f.committed = c) (Q := fun f => f.Ok step (n + 1) ∧ f.committed = c) as
      (fun f hf => (collectValue_ok hf.1 mem (by omega)).mono fun g hg => ⟨hg.1, hg.2.trans hf.2⟩) ha).bind fun bs hbs => ?_
    refine (ih r.1 bs (mem.drop step) r.2 (n + 1) hr.1 hbs.1 (by rw [List.length_drop]; omega) (by rw [hr.2.1]; have := hr.2.2; omega)).mono
      fun s hs => ⟨hs.1, hs.2.1.trans hr.2.1, ?_, hs.2.2.2.1.trans hbs.2, ?_, ?_⟩
    · intro f hf
      have := hs.2.2.1 f hf
      rw [show n + (k + 1) = n + 1 + k from by omega]; exact this
    · rw [hs.2.2.2.2.1, List.drop_drop, Nat.add_mul, Nat.one_mul, Nat.add_comm step]
    · have h1 := hs.2.2.2.2.2
      have h2 := hr.2.2
      rw [hr.2.1] at h1
      rw [Nat.add_mul, Nat.one_mul]; omega

theorem commitMode_safe {step n : Nat} (hash : BitVec 64 → BitVec 64) {f : AField} (h : f.Ok step n) (hn : n ≤ 2 ^ 31) (hc : f.committed = false) :
    Safe (commitMode hash f) fun g => SubW 0#64 f.values ∧ g.offset = f.offset ∧ g.bpv = f.bpv ∧ g.values = f.values ∧ g.raws = f.raws ∧
      TInv g ∧ g.committed = true ∧ g.streaming = f.streaming ∧ g.mode = bestMode f.bpv f.values f.raws := by
  rcases subW_of_size f.values 0#64 1 with hs | hs
  · obtain ⟨slots, gens, gen, e, ht⟩ := commitMode_eq hash f h.tinv (Nat.le_trans h.count hn) hs hc
    exact .of_ok e ⟨hs, rfl, rfl, rfl, rfl, ht.congr rfl rfl rfl, rfl, rfl, rfl⟩
  · unfold commitMode
    rw [hc]
    simp only [Bool.false_eq_true, if_false, hs, Res.ub_bind]
    simp [Safe]

theorem appendProbeList_ok {step n : Nat} (vs : List (BitVec 64)) {f : AField} (h : f.Ok step n) (hc : f.committed = true) :
    Safe (appendProbeList vs f) fun g => g.Ok step n ∧ g.committed = true := by
  induction vs generalizing f with
  | nil => exact ⟨h, hc⟩
  | cons v vs ih =>
    simp only [appendProbeList]
    refine Safe.bind (P := fun g => g.Ok step n ∧ g.committed = true) ?_ fun g hg => ih hg.1 hg.2
    unfold appendCommittedAt
    cases hmo : f.mode with
    | deltaVarint => exact (appendDelta_ok h hc hmo v).mono fun g hg => ⟨hg.1, hg.2.1⟩
    | deltaRle => exact (appendDeltaRle_ok h hc v).mono fun g hg => ⟨hg.1, hg.2.1⟩
    | rle => exact ⟨(appendRle_ok h hc v).1, (appendRle_ok h hc v).2.1⟩
    | palette => exact ⟨h, hc⟩

theorem commitProbed_safe {step n : Nat} (hash : BitVec 64 → BitVec 64) {f : AField} (h : f.Ok step n) (hn : n ≤ 2 ^ 31) (hc : f.committed = false) :
    Safe (commitProbed hash f) fun g => g.Ok step n ∧ g.committed = true := by
  unfold commitProbed
  refine (commitMode_safe hash h hn hc).bind fun g hg => ?_
  obtain ⟨_, h1, h2, h3, h4, h5, h6, _, _⟩ := hg
  have hb : (beginSection g).Ok step n := beginSection_ok (by rw [h1, h2]; exact h.inside) h5 h6 (by rw [h4]; exact h.count)
  have hbc : (beginSection g).committed = true := by rw [beginSection_committed]; exact h6
  unfold appendProbeValues
  split
  · exact ⟨hb, hbc⟩
  · exact appendProbeList_ok _ hb hbc

theorem patch_safe (f : AField) (h : f.runCountOffset = 1) (hl : 5 ≤ f.sec.length) :
    Safe f.patch fun g => TInv f → TInv g ∧ g.committed = f.committed ∧ g.offset = f.offset ∧ g.bpv = f.bpv := by
  unfold AField.patch writeAt
  rw [if_pos (by rw [h, toLE_length]; omega)]
  exact fun ht => ⟨ht.congr rfl rfl rfl, rfl, rfl, rfl⟩

/-- What survives a chunk. -/
def AField.Kept (step : Nat) (f : AField) : Prop := f.offset + f.bpv ≤ step ∧ TInv f ∧ f.committed = true

theorem appendSection_safe_committed {step n : Nat} (hash : BitVec 64 → BitVec 64) {f : AField} (h : f.Ok step n) (hn : n ≤ 2 ^ 31)
    (hc : f.committed = true) (w : W) : Safe (appendSection hash f w) fun r => r.1.Kept step := by
  unfold appendSection
  by_cases hs : f.streaming = true
  · rw [if_pos ⟨hc, hs⟩]
    refine Safe.bind (P := fun g => g.Kept step) ?_ fun g hg => (checked_safe _ _ _).bind fun _ _ => hg
    unfold finishSection
    cases hm : f.mode with
    | deltaVarint => exact ⟨h.inside, h.tinv, hc⟩
    | palette => exact ⟨h.inside, h.tinv, hc⟩
    | deltaRle =>
      obtain ⟨bs, c, r, e⟩ := flushDelta_facts f
      have hp := h.patchable hc (Or.inr hm)
      simp only [e]
      refine (patch_safe { f with sec := f.sec ++ bs, runCount := c, hasRun := r } hp.1 (by show 5 ≤ (f.sec ++ bs).length; rw [List.length_append]; omega)).mono fun g hg => ?_
      obtain ⟨t1, t2, t3, t4⟩ := hg (h.tinv.congr rfl rfl rfl)
      exact ⟨by rw [t3, t4]; exact h.inside, t1, t2.trans hc⟩
    | rle =>
      obtain ⟨bs, c, r, e⟩ := flushRle_facts f
      have hp := h.patchable hc (Or.inl hm)
      simp only [e]
      refine (patch_safe { f with sec := f.sec ++ bs, runCount := c, hasRun := r } hp.1 (by show 5 ≤ (f.sec ++ bs).length; rw [List.length_append]; omega)).mono fun g hg => ?_
      obtain ⟨t1, t2, t3, t4⟩ := hg (h.tinv.congr rfl rfl rfl)
      exact ⟨by rw [t3, t4]; exact h.inside, t1, t2.trans hc⟩
  · have hm : f.mode = .palette := by
      apply Classical.byContradiction
      intro hm
      exact hs (h.stream hc hm)
    rw [if_neg (fun e => hs e.2)]
    have hcm : commitMode hash f = .ok f := by unfold commitMode; rw [if_pos hc]
    obtain ⟨g, e, gt, gs, gc, gm, gr, gv, gp⟩ := rebuildPalette_spec hash f h.tinv (Nat.le_trans h.count hn)
    rw [hcm]
    simp only [Res.ok_bind, e]
    unfold appendBuffered
    rw [gm, hm]
    refine (safe_of_not_ub (appendPaletteSection_not_ub g w)).bind fun _ _ => ?_
    exact ⟨by rw [gs.1, gs.2.1]; exact h.inside, gt, gc.trans hc⟩

theorem appendSection_safe_fresh {step n : Nat} (hash : BitVec 64 → BitVec 64) {f : AField} (h : f.Ok step n) (hn : n ≤ 2 ^ 31)
    (hc : f.committed = false) (w : W) (hw : 1 + 10 * n ≤ w.room) :
    Safe (appendSection hash f w) fun r => r.1.Kept step ∧ w.room ≤ r.2.room + (1 + 10 * n) := by
  unfold appendSection
  rw [if_neg (fun e => by rw [hc] at e; simp at e)]
  refine (commitMode_safe hash h hn hc).bind fun g hg => ?_
  obtain ⟨hs, h1, h2, h3, h4, h5, h6, _, h8⟩ := hg
  obtain ⟨g', e, gt, gs, gc, gm, gr, gv, gp⟩ := rebuildPalette_spec hash g h5 (by rw [h4]; exact Nat.le_trans h.count hn)
  rw [e]
  simp only [Res.ok_bind]
  have hlen : (secFor g'.mode g'.bpv g'.values g'.raws).length ≤ 1 + 10 * n := by
    rw [gm, gs.2.1, gv, gr, h8, h2, h3, h4]
    refine Nat.le_trans (bestMode_le f.bpv f.values f.raws .deltaVarint) ?_
    have := deltaSec_length f.values
    rw [h.both hc] at this
    have h9 := h.count
    simp only [secFor]; omega
  rw [appendBuffered_spec g' w (by rw [gv, h3]; exact hs) (fun hm => by rw [gr]; exact gp (by rw [← gm]; exact hm)) (Nat.le_trans hlen hw)]
  refine ⟨⟨by rw [gs.1, gs.2.1, h1, h2]; exact h.inside, gt, gc.trans h6⟩, ?_⟩
  simp only [W.put]; omega

theorem appendSections_safe {step n : Nat} (hash : BitVec 64 → BitVec 64) (c : Bool) (as : List AField) (w : W) (hn : n ≤ 2 ^ 31)
    (h : ∀ f ∈ as, f.Ok step n ∧ f.committed = c) (hw : c = false → as.length * (1 + 10 * n) ≤ w.room) :
    Safe (appendSections hash as w) fun r => (∀ f ∈ r.1, f.Kept step) ∧ r.1.length = as.length := by
  induction as generalizing w with
  | nil => exact ⟨by simp, rfl⟩
  | cons a as ih =>
    simp only [appendSections]
    have ha := h a (by simp)
    refine Safe.bind (P := fun r : AField × W => r.1.Kept step ∧ (c = false → w.room ≤ r.2.room + (1 + 10 * n))) ?_ fun r hr => ?_
    · cases c with
      | true => exact (appendSection_safe_committed hash ha.1 hn ha.2 w).mono fun r hr => ⟨hr, by simp⟩
      | false =>
        refine (appendSection_safe_fresh hash ha.1 hn ha.2 w ?_).mono fun r hr => ⟨hr.1, fun _ => hr.2⟩
        have := hw rfl
        simp only [List.length_cons, Nat.add_mul, Nat.one_mul] at this
        have h0 := Nat.zero_le (as.length * (1 + 10 * n))
        omega
    · refine (ih r.2 (fun f hf => h f (by simp [hf])) ?_).bind fun s hs => ?_
      · intro hcf
        have h1 := hw hcf
        have h2 := hr.2 hcf
        simp only [List.length_cons, Nat.add_mul, Nat.one_mul] at h1
        omega
      · refine ⟨?_, by simp [hs.2]⟩
        intro f hf
        simp only [List.mem_cons] at hf
        rcases hf with rfl | hf
        · exact hr.1
        · exact hs.1 f hf

/-- One chunk, any values: no out-of-bounds access. -/
theorem encodeV5Chunk_safe (F : FloatOps) (hash : BitVec 64 → BitVec 64) (step n cap : Nat) (c : Bool) (es : List Enc) (as : List AField)
    (mem : List Byte) (h : ∀ e ∈ es, e.reset.Sane step) (hst : 0 < step)
    (ha : ∀ f ∈ as, f.offset + f.bpv ≤ step ∧ TInv f ∧ f.committed = c) (hm : n * step ≤ mem.length) (hn : n ≤ 2 ^ 31)
    (hcap : n * sumMax es + as.length * (1 + 10 * n) ≤ cap) :
    Safe (encodeV5Chunk F hash step es as mem n cap) fun r => (∀ e ∈ r.1, e.Sane step) ∧ sumMax r.1 = sumMax es ∧
      (∀ f ∈ r.2.1, f.Kept step) ∧ r.2.1.length = as.length ∧ r.2.2.1 = mem.drop (n * step) := by
  have hs0 : sumMax (es.map Enc.reset) = sumMax es := sumMax_reset es
  have he : ∀ e ∈ es.map Enc.reset, e.Sane step := by
    intro e he
    simp only [List.mem_map] at he
    obtain ⟨e0, h0, rfl⟩ := he
    exact h e0 h0
  have hp : ∀ f ∈ as.map prepareField, f.Ok step 0 ∧ f.committed = c := by
    intro f hf
    simp only [List.mem_map] at hf
    obtain ⟨f0, h0, rfl⟩ := hf
    obtain ⟨h1, h2, h3⟩ := ha f0 h0
    exact ⟨(prepareField_ok h1 h2).1, (prepareField_ok h1 h2).2.trans h3⟩
  unfold encodeV5Chunk
  refine Safe.bind (P := fun r : List Enc × List AField × List Byte × W => (∀ e ∈ r.1, e.Sane step) ∧ sumMax r.1 = sumMax es ∧
      (∃ c', (∀ f ∈ r.2.1, f.Ok step n ∧ f.committed = c')) ∧ r.2.1.length = as.length ∧ r.2.2.1 = mem.drop (n * step) ∧
      cap ≤ r.2.2.2.room + n * sumMax es) ?_ fun r hr => ?_
  · unfold encodePointsV5
    generalize hK : kProbePoints = K
    split
    · next hcond =>
      have hKn : K < n := hcond.2
      have hcf : c = false := by
        obtain ⟨f, hf, h1⟩ := List.any_eq_true.1 hcond.1
        rw [(hp f hf).2] at h1
        simpa using h1
      have hms : K * step ≤ n * step := Nat.mul_le_mul_right _ (by omega)
      have hmx : K * sumMax es ≤ n * sumMax es := Nat.mul_le_mul_right _ (by omega)
      refine (encodeRangeV5_safe F step K c _ _ mem ⟨[], cap⟩ 0 he hp (by omega) hst (by rw [hs0]; simp only; omega)).bind fun r hr => ?_
      obtain ⟨r1, r2, r3, r4, r5, r6⟩ := hr
      rw [hs0] at r2 r6
      refine (mapFields_safe (P := fun f => f.Ok step (0 + K) ∧ f.committed = c) (Q := fun f => f.Ok step (0 + K) ∧ f.committed = true) r.2.1
        (fun f hf => commitProbed_safe hash hf.1 (by omega) (hf.2.trans hcf)) r3).bind fun bs hbs => ?_
      have hsplit : (n - K) * step = n * step - K * step := Nat.sub_mul _ _ _
      have hsplit2 : (n - K) * sumMax es = n * sumMax es - K * sumMax es := Nat.sub_mul _ _ _
      refine (encodeRangeV5_safe F step (n - K) true r.1 bs r.2.2.1 r.2.2.2 (0 + K) r1 hbs.1
        (by rw [r5, List.length_drop]; omega) hst (by rw [r2]; simp only at r6; omega)).mono fun s hs => ?_
      obtain ⟨s1, s2, s3, s4, s5, s6⟩ := hs
      refine ⟨s1, s2.trans r2, ⟨true, fun f hf => ?_⟩, ?_, ?_, ?_⟩
      · have := s3 f hf
        rw [show 0 + K + (n - K) = n from by omega] at this
        exact this
      · rw [s4, hbs.2, r4, List.length_map]
      · rw [s5, r5, List.drop_drop, ← Nat.add_mul]; congr 2; omega
      · rw [r2] at s6; simp only at r6; omega
    · refine (encodeRangeV5_safe F step n c _ _ mem ⟨[], cap⟩ 0 he hp hm hst (by rw [hs0]; simp only; omega)).mono fun r hr => ?_
      obtain ⟨r1, r2, r3, r4, r5, r6⟩ := hr
      rw [hs0] at r2 r6
      refine ⟨r1, r2, ⟨c, fun f hf => ?_⟩, by rw [r4, List.length_map], r5, r6⟩
      have := r3 f hf
      rw [Nat.zero_add] at this
      exact this
  · obtain ⟨r1, r2, ⟨c', r3⟩, r4, r5, r6⟩ := hr
    refine (appendSections_safe hash c' r.2.1 r.2.2.2 hn r3 (fun _ => by rw [r4]; omega)).bind fun s hs => ?_
    exact ⟨r1, r2, hs.1, hs.2.trans r4, r5⟩

end Cloudini

namespace Cloudini

theorem createEncoder_max (F : FloatOps) (info : EncodingInfo) (f : PointField) (e : Enc) (h : createEncoder F info f = .ok e) :
    e.maxBytes ≤ maxSer info.encoding_opt f := by
  unfold createEncoder at h
  unfold maxSer maxSerializedFieldSize
  cases ht : f.type <;> simp only [ht] at h ⊢
  all_goals
    try simp only [mkLossy32Enc, mkLossy64Enc] at h
    repeat' split at h
    all_goals first
      | (simp only [Res.ok.injEq] at h; subst h; simp only [Enc.maxBytes]; (try split) <;> simp_all <;> omega)
      | (simp only [Res.ok.injEq] at h; subst h; simp only [Enc.maxBytes]; (try split) <;> simp_all)
      | simp at h

theorem buildAll_max (F : FloatOps) (info : EncodingInfo) (fs : List PointField) (es : List Enc) (h : buildAll (createEncoder F info) fs = .ok es) :
    sumMax es ≤ (fs.map (maxSer info.encoding_opt)).sum := by
  induction fs generalizing es with
  | nil => simp only [buildAll, Res.ok.injEq] at h; subst h; simp [sumMax]
  | cons f fs ih =>
    simp only [buildAll] at h
    rw [Res.bind_eq_ok] at h
    obtain ⟨d, h1, h⟩ := h
    rw [Res.bind_eq_ok] at h
    obtain ⟨ds1, h2, h⟩ := h
    simp only [Res.ok.injEq] at h
    subst h
    have := createEncoder_max F info f d h1
    have := ih ds1 h2
    have hm : sumMax (d :: ds1) = d.maxBytes + sumMax ds1 := by simp [sumMax]
    simp only [List.map_cons, List.sum_cons, hm]
    omega

theorem leadingEncoder_max (F : FloatOps) (info : EncodingInfo) (es : List Enc) (h : leadingEncoder F info = .ok es) :
    sumMax es ≤ ((info.fields.take (leadingLossyFloatCount info)).map (maxSer info.encoding_opt)).sum := by
  unfold leadingEncoder at h
  simp only at h
  split at h
  · simp only [Res.ok.injEq] at h; subst h; simp [sumMax]
  · next hn =>
    rw [Res.bind_eq_ok] at h
    obtain ⟨d, h1, h⟩ := h
    simp only [Res.ok.injEq] at h
    subst h
    unfold mkFloatNEnc at h1
    split at h1
    · simp at h1
    simp only [Res.ok.injEq] at h1
    subst h1
    have hl : info.encoding_opt = .lossy := by
      apply Classical.byContradiction; intro hl
      exact hn (by unfold leadingLossyFloatCount; rw [if_neg hl])
    have key : ∀ fs : List PointField, (∀ f ∈ fs, f ∈ info.fields.take (leadingLossyFloatCount info)) →
        (fs.map (maxSer info.encoding_opt)).sum = 10 * fs.length := by
      intro fs hfs
      induction fs with
      | nil => rfl
      | cons f fs ih =>
        have hf := leadCount_take info f (hfs f (by simp))
        have h10 : maxSer info.encoding_opt f = 10 := by simp [maxSer, maxSerializedFieldSize, hf.2.1, hf.2.2, hl]
        simp only [List.map_cons, List.sum_cons, h10, ih (fun x hx => hfs x (by simp [hx])), List.length_cons]
        omega
    rw [key _ (fun f hf => hf)]
    simp only [sumMax, List.map_cons, List.map_nil, List.sum_cons, List.sum_nil, Enc.maxBytes, lanesOf, List.length_map]
    omega

theorem known_of_maxSer {opt : EncOpt} {fs : List PointField} {m : Nat} (h : maxSerializedPointSize opt fs = .ok m) :
    (∀ f ∈ fs, KnownType f.type) ∧ m = (fs.map (maxSer opt)).sum := by
  induction fs generalizing m with
  | nil => simp only [maxSerializedPointSize, Res.ok.injEq] at h; subst h; simp
  | cons f fs ih =>
    simp only [maxSerializedPointSize] at h
    rw [Res.bind_eq_ok] at h
    obtain ⟨a, h1, h⟩ := h
    rw [Res.bind_eq_ok] at h
    obtain ⟨b, h2, h⟩ := h
    simp only [Res.ok.injEq] at h
    subst h
    obtain ⟨i1, i2⟩ := ih h2
    have hk : KnownType f.type := by
      unfold maxSerializedFieldSize at h1
      unfold KnownType
      cases ht : f.type <;> simp_all
    refine ⟨?_, ?_⟩
    · intro x hx
      simp only [List.mem_cons] at hx
      rcases hx with rfl | hx
      · exact hk
      · exact i1 x hx
    · rw [maxSer_eq hk] at h1
      simp only [Res.ok.injEq] at h1
      simp only [List.map_cons, List.sum_cons, h1, i2]

theorem buildV4_max (F : FloatOps) (info : EncodingInfo) (es : List Enc) (hk : ∀ f ∈ info.fields, KnownType f.type)
    (h : buildV4Encoders F info = .ok es) : sumMax es ≤ (info.fields.map (maxSer info.encoding_opt)).sum := by
  unfold buildV4Encoders at h
  split at h
  · simp only [Res.ok.injEq] at h
    subst h
    generalize info.fields = fs at hk ⊢
    induction fs with
    | nil => simp [sumMax]
    | cons f fs ih =>
      have := ih (fun x hx => hk x (by simp [hx]))
      have h1 : (Enc.copy f.offset.toNat (sizeOf f.type)).maxBytes ≤ maxSer info.encoding_opt f := by
        have := hk f (by simp)
        unfold maxSer maxSerializedFieldSize
        simp only [Enc.maxBytes]
        cases ht : f.type <;> simp_all [sizeOf, KnownType] <;> split <;> simp_all <;> split <;> simp_all
      simp only [sumMax, List.map_cons, List.sum_cons] at this ⊢
      omega
  · rw [Res.bind_eq_ok] at h
    obtain ⟨l, h2, h⟩ := h
    rw [Res.bind_eq_ok] at h
    obtain ⟨r, h3, h⟩ := h
    simp only [Res.ok.injEq] at h
    subst h
    have h4 := leadingEncoder_max F info l h2
    have h5 := buildAll_max F info _ r h3
    have h6 : sumMax (l ++ r) = sumMax l + sumMax r := by simp [sumMax]
    rw [h6, ← sum_take_drop info.fields (leadingLossyFloatCount info)]
    omega

theorem plan_facts (F : FloatOps) (info : EncodingInfo) (es : List Enc) (as : List AField) (step m : Nat)
    (hin : ∀ f ∈ info.fields, f.offset.toNat + sizeOf f.type ≤ step) (hm : maxSerializedPointSize info.encoding_opt info.fields = .ok m)
    (h : buildV5Plan F info = .ok (es, as)) :
    (∀ e ∈ es, e.Sane step) ∧ (∀ f ∈ as, f.offset + f.bpv ≤ step ∧ TInv f ∧ f.committed = false) ∧
      sumMax es + 10 * as.length ≤ m ∧ as.length ≤ info.fields.length := by
  obtain ⟨hk, rfl⟩ := known_of_maxSer hm
  unfold buildV5Plan at h
  rw [Res.bind_eq_ok] at h
  obtain ⟨l, h2, h⟩ := h
  rw [Res.bind_eq_ok] at h
  obtain ⟨r, h3, h⟩ := h
  simp only [Res.ok.injEq, Prod.mk.injEq] at h
  obtain ⟨rfl, rfl⟩ := h
  refine ⟨?_, ?_, ?_, ?_⟩
  · intro e he
    rw [List.mem_append] at he
    rcases he with he | he
    · exact leadingEncoder_sane F info l step hin h2 e he
    · exact buildAll_sane F info step _ r (fun f hf => hin f (List.mem_of_mem_drop (List.mem_filter.1 hf).1)) h3 e he
  · intro f hf
    simp only [List.mem_map] at hf
    obtain ⟨p, hp, rfl⟩ := hf
    exact ⟨hin p (List.mem_of_mem_drop (List.mem_filter.1 hp).1), tinv_fresh p, rfl⟩
  · have h4 := leadingEncoder_max F info l h2
    have h5 := buildAll_max F info _ r h3
    have h6 : sumMax (l ++ r) = sumMax l + sumMax r := by simp [sumMax]
    have key : ∀ fs : List PointField,
        ((fs.filter fun f => !(info.encoding_opt = .lossy && isAdaptiveType f.type)).map (maxSer info.encoding_opt)).sum +
        10 * (fs.filter fun f => info.encoding_opt = .lossy && isAdaptiveType f.type).length = (fs.map (maxSer info.encoding_opt)).sum := by
      intro fs
      induction fs with
      | nil => rfl
      | cons f fs ih =>
        by_cases ha : (decide (info.encoding_opt = .lossy) && isAdaptiveType f.type) = true
        · have h10 : maxSer info.encoding_opt f = 10 := by
            simp only [Bool.and_eq_true] at ha
            have := ha.2
            unfold maxSer maxSerializedFieldSize
            cases ht : f.type <;> simp_all [isAdaptiveType]
          simp only [List.filter_cons, ha, Bool.not_true, Bool.false_eq_true, if_false, if_true, List.map_cons, List.sum_cons, h10, List.length_cons]
          omega
        · simp only [Bool.not_eq_true] at ha
          simp only [List.filter_cons, ha, Bool.not_false, Bool.false_eq_true, if_false, if_true, List.map_cons, List.sum_cons]
          omega
    have h7 := key (info.fields.drop (leadingLossyFloatCount info))
    rw [h6, ← sum_take_drop info.fields (leadingLossyFloatCount info), List.length_map]
    omega
  · rw [List.length_map]
    refine Nat.le_trans (List.length_filter_le _ _) ?_
    rw [List.length_drop]; omega

theorem encodeV5Loop_safe (F : FloatOps) (C : Compressor) (hash : BitVec 64 → BitVec 64) (info : EncodingInfo) (cap points : Nat) (c : Bool)
    (es : List Enc) (as : List AField) (mem : List Byte) (h : ∀ e ∈ es, e.Sane info.point_step.toNat) (hst : 0 < info.point_step.toNat)
    (ha : ∀ f ∈ as, f.offset + f.bpv ≤ info.point_step.toNat ∧ TInv f ∧ f.committed = c)
    (hm : points * info.point_step.toNat ≤ mem.length)
    (hcap : kPointsPerChunk * sumMax es + as.length * (1 + 10 * kPointsPerChunk) ≤ cap) (w : W) (size : Nat) :
    Safe (encodeV5Loop F C hash info cap points es as mem w size) fun _ => True := by
  induction points using Nat.strongRecOn generalizing c es as mem w size with
  | ind points ih =>
    unfold encodeV5Loop
    split
    · trivial
    · next hp =>
      have hK : kPointsPerChunk ≤ 2 ^ 31 := by decide
      have hpos := pos_K
      generalize hKK : kPointsPerChunk = K at *
      have hmul : min points K * info.point_step.toNat ≤ points * info.point_step.toNat := Nat.mul_le_mul_right _ (Nat.min_le_left _ _)
      have hmul2 : min points K * sumMax es ≤ K * sumMax es := Nat.mul_le_mul_right _ (Nat.min_le_right _ _)
      have hmul3 : as.length * (1 + 10 * min points K) ≤ as.length * (1 + 10 * K) := Nat.mul_le_mul_left _ (by omega)
      refine (encodeV5Chunk_safe F hash info.point_step.toNat (min points K) cap c es as mem (fun e he => sane_reset (h e he)) hst ha
        (by omega) (by omega) (by omega)).bind fun r hr => ?_
      obtain ⟨r1, r2, r3, r4, r5⟩ := hr
      refine Safe.bind (P := fun _ => True) ?_ fun s _ => ?_
      · cases hw : writeStage1Chunk C info.compression_opt r.2.2.2 w with
        | ok _ => trivial
        | throw _ => trivial
        | ub k => exact absurd hw (writeStage1_not_ub _ _ _ _ _)
      · exact ih _ (by omega) true r.1 r.2.1 r.2.2.1 r1 (fun f hf => ⟨(r3 f hf).1, (r3 f hf).2.1, (r3 f hf).2.2⟩)
          (by rw [r5, List.length_drop, Nat.sub_mul]; omega) (by rw [r2, r4]; exact hcap) _ _

theorem maxSerializedPointSize_safe (opt : EncOpt) (fs : List PointField) : Safe (maxSerializedPointSize opt fs) fun _ => True := by
  induction fs with
  | nil => trivial
  | cons f fs ih =>
    simp only [maxSerializedPointSize]
    refine Safe.bind (P := fun _ => True) ?_ fun _ _ => ih.bind fun _ _ => trivial
    unfold maxSerializedFieldSize
    cases f.type <;> simp only
    all_goals first
      | trivial
      | (split <;> trivial)

theorem chunkBound_safe (C : Compressor) (info : EncodingInfo) (per n : Nat) : Safe (chunkBound C info per n) fun _ => True := by
  unfold chunkBound
  cases info.compression_opt <;> simp only
  all_goals first
    | trivial
    | (by_cases hc : n * per + (if usesV5 info = true then info.fields.length * 32 + 1024 else 0) > intMax
       · rw [if_pos hc]; trivial
       · rw [if_neg hc]; trivial)

theorem maxCompressedChunks_safe (C : Compressor) (info : EncodingInfo) (per pts : Nat) :
    Safe (maxCompressedChunks C info per pts) fun _ => True := by
  induction pts using Nat.strongRecOn with
  | ind pts ih =>
    unfold maxCompressedChunks
    split
    · trivial
    · refine Safe.bind (P := fun _ => True) (chunkBound_safe _ _ _ _) fun b _ => Safe.bind (P := fun _ => True) (ih _ ?_) fun _ _ => trivial
      have := pos_K; omega

theorem maxCompressedSize_safe (C : Compressor) (info : EncodingInfo) (pts : Nat) : Safe (maxCompressedSize C info pts) fun _ => True := by
  unfold maxCompressedSize
  split
  · trivial
  · exact (maxSerializedPointSize_safe _ _).bind fun _ _ => maxCompressedChunks_safe _ _ _ _

theorem createEncoder_safe (F : FloatOps) (info : EncodingInfo) (f : PointField) : Safe (createEncoder F info f) fun _ => True := by
  unfold createEncoder
  cases f.type <;> simp only [mkLossy32Enc, mkLossy64Enc]
  all_goals repeat' split
  all_goals trivial

theorem buildAll_safe (F : FloatOps) (info : EncodingInfo) (fs : List PointField) : Safe (buildAll (createEncoder F info) fs) fun _ => True := by
  induction fs with
  | nil => trivial
  | cons f fs ih => exact (createEncoder_safe F info f).bind fun _ _ => ih.bind fun _ _ => trivial

theorem buildV5Plan_safe (F : FloatOps) (info : EncodingInfo) : Safe (buildV5Plan F info) fun _ => True := by
  unfold buildV5Plan
  refine Safe.bind (P := fun _ => True) ?_ fun _ _ => (buildAll_safe F info _).bind fun _ _ => trivial
  unfold leadingEncoder
  simp only
  split
  · trivial
  · refine Safe.bind (P := fun _ => True) ?_ fun _ _ => trivial
    unfold mkFloatNEnc
    split <;> trivial

/-- The whole call: any values, any encoder whose field encoders are sane after a reset. -/
theorem encodeView_safe (F : FloatOps) (C : Compressor) (enc : Encoder) (cloud : List Byte) (room : Nat) (wh : Bool)
    (hin : ∀ f ∈ enc.info.fields, f.offset.toNat + sizeOf f.type ≤ enc.info.point_step.toNat) (hu : enc.Used F) :
    Safe (encodeView F C enc cloud room wh) fun _ => True := by
  unfold encodeView
  split
  · trivial
  next hst0 =>
  split
  · trivial
  next hmod =>
  have hst : 0 < enc.info.point_step.toNat := by
    rcases Nat.eq_zero_or_pos enc.info.point_step.toNat with h | h
    · exact absurd (BitVec.eq_of_toNat_eq (by simpa using h)) hst0
    · exact h
  have hdiv : cloud.length = cloud.length / enc.info.point_step.toNat * enc.info.point_step.toNat :=
    (Nat.div_mul_cancel (Nat.dvd_of_mod_eq_zero (by simpa using hmod))).symm
  simp only
  refine (maxCompressedSize_safe C _ _).bind fun m _ => ?_
  by_cases hroom : room < m + (if wh then enc.header.length else 0)
  · rw [if_pos hroom]; trivial
  rw [if_neg hroom]
  refine Safe.bind (P := fun _ => True) ?_ fun w _ => ?_
  · unfold W.raw
    rw [if_pos]
    · trivial
    · cases wh with
      | true => simp only [if_true] at hroom ⊢; omega
      | false => simp
  refine Safe.bind (P := fun _ => True) ?_ fun r _ => trivial
  unfold encodePayload
  have hsafe := maxSerializedPointSize_safe enc.info.encoding_opt enc.info.fields
  by_cases hv : usesV5 enc.info = true
  · rw [if_pos hv]
    cases hms : maxSerializedPointSize enc.info.encoding_opt enc.info.fields with
    | throw a => simp only [v5StageBufferSize, hms, Res.throw_bind]; trivial
    | ub k => rw [hms] at hsafe; simp only [v5StageBufferSize, hms, Res.ub_bind]; exact hsafe
    | ok m =>
      have hcap : v5StageBufferSize enc.info kPointsPerChunk =
          .ok (kPointsPerChunk * (max enc.info.point_step.toNat m + 64) + enc.info.fields.length * 64 + 1024) := by
        unfold v5StageBufferSize; rw [hms]; rfl
      rw [hcap]
      simp only [Res.ok_bind]
      have hsp := buildV5Plan_safe F enc.info
      cases hpl : buildV5Plan F enc.info with
      | throw a => trivial
      | ub k => rw [hpl] at hsp; exact hsp
      | ok p =>
        obtain ⟨es, as⟩ := p
        obtain ⟨p1, p2, p3, p4⟩ := plan_facts F enc.info es as _ m hin hms hpl
        simp only [Res.ok_bind]
        refine (encodeV5Loop_safe F C _ enc.info _ _ false es as cloud p1 hst p2 (by omega) ?_ _ _).bind fun _ _ => trivial
        generalize kPointsPerChunk = K
        have h1 : K * (sumMax es + 10 * as.length) ≤ K * (max enc.info.point_step.toNat m) := Nat.mul_le_mul_left _ (by omega)
        rw [Nat.mul_add] at h1 ⊢
        rw [Nat.mul_add]
        have h3 : as.length * (10 * K) = K * (10 * as.length) := by rw [Nat.mul_comm, Nat.mul_comm 10 K, Nat.mul_assoc]
        omega
  · rw [if_neg hv]
    cases hms : maxSerializedPointSize enc.info.encoding_opt enc.info.fields with
    | throw a => trivial
    | ub k => rw [hms] at hsafe; exact hsafe
    | ok m =>
      simp only [Res.ok_bind]
      rcases hu with hu | ⟨es0, hb, hr⟩
      · exact absurd hu hv
      obtain ⟨hk, hme⟩ := known_of_maxSer hms
      have h1 := buildV4_max F enc.info es0 hk hb
      have h2 := buildV4_sane F enc.info es0 _ hin hb
      have hsum : sumMax enc.encs = sumMax es0 := by rw [← sumMax_reset enc.encs, hr, sumMax_reset]
      refine (encodeV4Loop_safe F C enc.info _ _ enc.encs ?_ cloud hst ⟨_, hdiv⟩ ?_ _ _).bind fun _ _ => trivial
      · intro e he
        have : e.reset ∈ es0.map Enc.reset := by rw [← hr]; exact List.mem_map_of_mem he
        simp only [List.mem_map] at this
        obtain ⟨e0, h0, h3⟩ := this
        rw [← h3]; exact sane_reset (h2 e0 h0)
      · rw [hsum]
        exact Nat.mul_le_mul_left _ (by omega)

end Cloudini
