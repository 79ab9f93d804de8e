import Verif.Props.C79

/-! # C79 The figures of the replay: every round decodes the same clouds once more -/

namespace Cloudini.Props

open Bench

/-- What one replay of a sample adds to the count of a topic and mode. -/
def gain (F : FloatOps) (C : Compressor) (t : List Byte) (m : Mode) (s : Sample) : Nat :=
  if s.topic = t ∧ s.mode = m ∧ (decodeCloud F C 0 s.info s.encoded (List.replicate s.needed 0#8)).isOk = true then s.raw else 0

theorem replayAll_gain {F : FloatOps} {C : Compressor} {limit : Nat} (t : List Byte) (m : Mode) : ∀ {ss : List Sample} {a b : List Byte → Stats},
    replayAll F C limit ss a = .ok b → ((b t).per m).decIn = ((a t).per m).decIn + (ss.map (gain F C t m)).sum := by
  intro ss
  induction ss with
  | nil => intro a b h; simp only [replayAll, Res.ok.injEq] at h; subst h; simp
  | cons s ss ih =>
    intro a b h
    unfold replayAll at h
    split at h
    · simp at h
    cases hd : decodeCloud F C 0 s.info s.encoded (List.replicate s.needed 0#8) with
    | ub k => rw [hd] at h; simp at h
    | throw e =>
      rw [hd] at h
      rw [ih h, List.map_cons, List.sum_cons]
      have : gain F C t m s = 0 := by unfold gain; rw [hd]; simp [Res.isOk]
      omega
    | ok y =>
      rw [hd] at h
      rw [ih h, List.map_cons, List.sum_cons]
      by_cases ht : s.topic = t
      · by_cases hm : s.mode = m
        · have : gain F C t m s = s.raw := by unfold gain; rw [hd]; simp [Res.isOk, ht, hm]
          rw [this]
          simp [ht, hm]
          omega
        · have : gain F C t m s = 0 := by unfold gain; simp [hm]
          rw [this]
          simp [ht, Ne.symm hm]
      · have : gain F C t m s = 0 := by unfold gain; simp [ht]
        rw [this]
        simp [Ne.symm ht]

theorem rounds_gain {F : FloatOps} {C : Compressor} {limit : Nat} (t : List Byte) (m : Mode) {ss : List Sample} : ∀ {n : Nat} {a b : List Byte → Stats},
    rounds F C limit ss n a = .ok b → ((b t).per m).decIn = ((a t).per m).decIn + n * (ss.map (gain F C t m)).sum := by
  intro n
  induction n with
  | zero => intro a b h; simp only [rounds, Res.ok.injEq] at h; subst h; simp
  | succ n ih =>
    intro a b h
    obtain ⟨c, h1, h⟩ := Res.bind_eq_ok.1 h
    rw [ih h, replayAll_gain t m h1, Nat.succ_mul]
    omega

/-- In replay mode the message loop decodes nothing and keeps the samples. -/
theorem decodeAll_samples {T : FloatText} {F : FloatOps} {C : Compressor} {limit : Nat} {o : Options} {topic : List Byte} {raw : Nat} (hr : o.replay = true)
    (t : List Byte) (m : Mode) :
    ∀ {es : List (Mode × List Byte)} {ms : List Mode} {ss : List Sample}, decodeAll T F C limit o topic raw es = .ok (ms, ss) →
    ms = [] ∧ (ss.map (gain F C t m)).sum =
      if topic = t then raw * (((es.filter fun e => decodes T F C e.2).map (·.1)).filter fun x => x = m).length else 0 := by
  intro es
  induction es with
  | nil =>
    intro ms ss h
    simp only [decodeAll, Res.ok.injEq, Prod.mk.injEq] at h
    obtain ⟨rfl, rfl⟩ := h
    simp
  | cons e es ih =>
    intro ms ss h
    obtain ⟨x, b⟩ := e
    unfold decodeAll at h
    cases hh : decodeHeader T b with
    | ub k => rw [hh] at h; simp at h
    | throw e =>
      rw [hh] at h
      rw [List.filter_cons_of_neg (by simp [decodes, hh])]
      exact ih h
    | ok y =>
      obtain ⟨info, payload⟩ := y
      rw [hh] at h
      simp only at h
      rw [if_pos hr] at h
      obtain ⟨⟨ms', ss'⟩, h1, h⟩ := Res.bind_eq_ok.1 h
      simp only [Res.ok.injEq, Prod.mk.injEq] at h
      obtain ⟨rfl, rfl⟩ := h
      obtain ⟨i1, i2⟩ := ih h1
      refine ⟨i1, ?_⟩
      rw [List.map_cons, List.sum_cons, i2]
      have hd : decodes T F C b = (decodeCloud F C 0 info payload (List.replicate (needed info) 0#8)).isOk := by
        unfold decodes; rw [hh]; rfl
      unfold gain
      simp only [← hd]
      by_cases ht : topic = t
      · by_cases hb : decodes T F C b = true
        · rw [List.filter_cons_of_pos (by simpa using hb), List.map_cons]
          by_cases hm : x = m
          · rw [List.filter_cons_of_pos (by simpa using hm)]
            simp [ht, hb, hm, Nat.mul_succ]
            omega
          · rw [List.filter_cons_of_neg (by simpa using hm)]
            simp [ht, hb, hm]
        · rw [List.filter_cons_of_neg (by simpa using hb)]
          simp [ht, hb]
      · simp [ht]

theorem loop_samples {T : FloatText} {F : FloatOps} {C : Compressor} (hC : C.Mono) {voxel : BitVec 32 → BitVec 32 → BitVec 32} {limit : Nat} {o : Options} (t : List Byte)
    (m : Mode) (hr : o.replay = true) : ∀ {ms : List (List Byte × List Byte)} {st st' : State}, Bench.loop T F C voxel limit o ms st = .ok st' →
    (∀ pc ∈ (selectFrom o (st.seen t) ((ms.filter fun e => e.1 = t).map (·.2))).filterMap measurable, Steady T F C voxel limit o pc) →
    let l := (selectFrom o (st.seen t) ((ms.filter fun e => e.1 = t).map (·.2))).filterMap measurable
    ((st'.stats t).per m).decIn = ((st.stats t).per m).decIn ∧
    (st'.samples.map (gain F C t m)).sum = (st.samples.map (gain F C t m)).sum + if o.encodeOnly then 0 else
      (l.map fun pc => match ownBytes T F C voxel limit o m pc with | some b => if decodes T F C b then pc.data.length else 0 | none => 0).sum := by
  intro ms
  induction ms with
  | nil =>
    intro st st' h _
    simp only [Bench.loop, Res.ok.injEq] at h
    subst h
    simp [selectFrom]
  | cons e ms ih =>
    intro st st' h hst
    obtain ⟨topic, data⟩ := e
    obtain ⟨st1, h1, h⟩ := Res.bind_eq_ok.1 h
    have := ih h
    obtain ⟨hseen, hc⟩ := step_inv h1
    by_cases ht : topic = t
    · subst ht
      rw [List.filter_cons_of_pos (by simp), List.map_cons] at hst ⊢
      rw [show st1.seen topic = st.seen topic + 1 from by rw [hseen]; simp] at this
      unfold selectFrom at hst ⊢
      rcases hc with ⟨hsk, e1, _, e3⟩ | ⟨pc, enc, dec, sm, hsk, hm, henc, hdec, e1, e3⟩
      · rw [e1, e3] at this
        by_cases hs : skipped o (st.seen topic + 1) = true
        · rw [if_pos hs] at hst ⊢; exact this hst
        · rw [if_neg hs, List.filterMap_cons_none (hsk.resolve_left hs)] at hst ⊢; exact this hst
      · rw [if_neg (by simp [hsk]), List.filterMap_cons_some hm] at hst ⊢
        have hst' := this fun pc' hp => hst pc' (List.mem_cons_of_mem _ hp)
        have hown := encodeAll_own hC (hst pc List.mem_cons_self) modes_nodup henc
        rw [e1, e3, List.map_append, List.sum_append] at hst'
        simp only [if_true, account] at hst'
        simp only [List.map_cons, List.sum_cons]
        rw [hst'.1, hst'.2]
        by_cases ho : o.encodeOnly = true
        · rw [if_pos ho] at hdec
          simp only [Res.ok.injEq, Prod.mk.injEq] at hdec
          rw [if_pos ho, if_pos ho, ← hdec.1, ← hdec.2]
          simp
        · rw [if_neg ho] at hdec
          obtain ⟨d1, d2⟩ := decodeAll_samples hr topic m hdec
          rw [if_neg ho, if_neg ho, d1, d2, if_pos rfl, hown, own_decoded]
          refine ⟨by simp, ?_⟩
          cases ownBytes T F C voxel limit o m pc with
          | none => simp
          | some b => cases hd : decodes T F C b <;> simp [hd] <;> omega
    · rw [List.filter_cons_of_neg (by simpa using ht)] at hst ⊢
      rw [show st1.seen t = st.seen t from by rw [hseen]; simp [Ne.symm ht]] at this
      rcases hc with ⟨_, e1, _, e3⟩ | ⟨pc, enc, dec, sm, _, _, _, hdec, e1, e3⟩
      · rw [e1, e3] at this; exact this hst
      · rw [e1, e3, List.map_append, List.sum_append] at this
        simp only [if_neg (Ne.symm ht)] at this
        have hz : (sm.map (gain F C t m)).sum = 0 := by
          by_cases ho : o.encodeOnly = true
          · rw [if_pos ho] at hdec
            simp only [Res.ok.injEq, Prod.mk.injEq] at hdec
            rw [← hdec.2]; rfl
          · rw [if_neg ho] at hdec
            rw [(decodeAll_samples hr t m hdec).2, if_neg ht]
        rw [hz, Nat.add_zero] at this
        exact this hst

/-- **C79, what the replay decodes.** With `--replay` every round (at least one) adds the bytes of the measured clouds whose encoded form can be decoded: the count
is the number of rounds times that of `C79_decoded_partial`. -/
theorem C79_replay_partial (T : FloatText) (F : FloatOps) (C : Compressor) (hC : C.Mono) (voxel : BitVec 32 → BitVec 32 → BitVec 32) (limit : Nat) (o : Options)
    (f : Mcap.File) (r : Report) (hd : DistinctIds f.channels) (hr : o.replay = true) (h : Bench.run T F C voxel limit o f = .ok r) (topic : List Byte) (m : Mode)
    (hst : ∀ pc ∈ measured o f topic, Steady T F C voxel limit o pc) :
    ((r.stats topic).per m).decIn = if o.encodeOnly then 0 else max 1 o.repeats *
      ((measured o f topic).map fun pc => match ownBytes T F C voxel limit o m pc with | some b => if decodes T F C b then pc.data.length else 0 | none => 0).sum := by
  obtain ⟨st, h1, -, h2⟩ := run_inv h
  have key := loop_samples hC topic m hr h1
  rw [clouds_delivered hd, selectFrom_sampled] at key
  obtain ⟨k1, k2⟩ := key hst
  rw [rounds_gain topic m (h2 hr).1, k1, k2]
  unfold measured
  by_cases ho : o.encodeOnly = true
  · rw [if_pos ho, if_pos ho]; simp
  · rw [if_neg ho, if_neg ho]; simp

/-- Three rounds of one cloud of 96 bytes. -/
example : ∃ r, Bench.run bitsText bitsOps storeComp noVoxel (2 ^ 47) { benchOptions with replay := true, repeats := 3 } (oneCloud wasmRaw) = .ok r ∧
    ((r.stats (ascii "/points")).per .v5viz).decIn = 288 := by
  have hruns : (Bench.run bitsText bitsOps storeComp noVoxel (2 ^ 47) { benchOptions with replay := true, repeats := 3 } (oneCloud wasmRaw)).isOk = true := by
    decide +kernel
  cases e : Bench.run bitsText bitsOps storeComp noVoxel (2 ^ 47) { benchOptions with replay := true, repeats := 3 } (oneCloud wasmRaw) with
  | throw m => rw [e] at hruns; simp at hruns
  | ub k => rw [e] at hruns; simp at hruns
  | ok r =>
    have hm := bench_measured wasmRaw_read (by decide +kernel) (by decide +kernel) { benchOptions with replay := true, repeats := 3 }
    have d := C79_replay_partial _ _ _ storeComp_mono _ _ _ _ r (bench_distinct _) rfl e (ascii "/points") .v5viz (by
      rw [hm]; intro pc hp; rw [List.mem_singleton.1 hp]; exact bench_steady)
    rw [hm] at d
    refine ⟨r, rfl, ?_⟩
    rw [d]
    decide +kernel

end Cloudini.Props
