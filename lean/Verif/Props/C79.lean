import Verif.Model.Bench
import Verif.Props.C76
import Verif.Props.C78
import Verif.Props.C64

/-!
# C79: the figures of the codec benchmark

`run` is `mcap_codec_benchmark` without its times.  `delivered f` (Spec/Mcap) is what a reader gets from the file.
-/

namespace Cloudini.Props

open Cloudini.Ros Cloudini.Bench
open Cloudini.Mcap hiding Options

/-! ## Specification -/

/-- The bytes of the clouds of a topic, in order. -/
def topicClouds (f : File) (topic : List Byte) : List (List Byte) :=
  ((delivered f).filter fun v => v.topic = topic ∧ v.schema.name = pointcloudName).map (·.data)

/-- The messages of a list that are to be measured: the first `max` (all, if `max` is 0), and of these every `every`-th, beginning with the first. -/
def sampled {α : Type} (o : Options) (l : List α) : List α :=
  ((Mcap.number 0 l).filter fun e => (o.max = 0 ∨ e.1 < o.max) ∧ e.1 % max 1 o.every = 0).map (·.2)

/-- A message that can be measured: it is a cloud, and not an empty one. -/
def measurable (data : List Byte) : Option Pc2 :=
  match getMessage data with
  | .ok pc => if pc.data = [] ∨ pc.point_step = 0#32 then none else some pc
  | _ => none

/-- The clouds of a topic that are measured. -/
def measured (o : Options) (f : File) (topic : List Byte) : List Pc2 := (sampled o (topicClouds f topic)).filterMap measurable

/-! ## The loop -/

/-- The messages selected when `k` messages of the topic have been seen. -/
def selectFrom {α : Type} (o : Options) : Nat → List α → List α
  | _, [] => []
  | k, x :: xs => if skipped o (k + 1) then selectFrom o (k + 1) xs else x :: selectFrom o (k + 1) xs

theorem selectFrom_number {α : Type} (o : Options) (l : List α) : ∀ k, selectFrom o k l =
    ((Mcap.number k l).filter fun e => (o.max = 0 ∨ e.1 < o.max) ∧ e.1 % max 1 o.every = 0).map (·.2) := by
  induction l with
  | nil => intro k; rfl
  | cons x xs ih =>
    intro k
    unfold selectFrom Mcap.number
    rw [ih (k + 1)]
    by_cases h : skipped o (k + 1) = true
    · rw [if_pos h, List.filter_cons_of_neg]
      simp only [skipped, Bool.decide_or, Bool.decide_and, Bool.or_eq_true, Bool.and_eq_true, decide_eq_true_eq, Nat.add_sub_cancel] at h
      simp only [decide_eq_true_eq, not_and]
      intro h1 h2
      rcases h with h | h
      · omega
      · exact h h2
    · rw [if_neg h, List.filter_cons_of_pos, List.map_cons]
      simp only [skipped, Bool.decide_or, Bool.decide_and, Bool.or_eq_true, Bool.and_eq_true, decide_eq_true_eq, Nat.add_sub_cancel] at h
      simp only [decide_eq_true_eq]
      refine ⟨by omega, ?_⟩
      by_cases hz : k % max 1 o.every = 0
      · exact hz
      · exact absurd (.inr hz) h

theorem selectFrom_sampled {α : Type} (o : Options) (l : List α) : selectFrom o 0 l = sampled o l := selectFrom_number o l 0

/-- The cloud with the resolutions the benchmark gives it. -/
def resolvedFor (o : Options) (pc : Pc2) : Pc2 := { pc with fields := applyProfile (fun _ => none) pc.fields (some o.resolution) }

/-- What a step does, by cases. -/
theorem step_inv {T : FloatText} {F : FloatOps} {C : Compressor} {voxel : BitVec 32 → BitVec 32 → BitVec 32} {limit : Nat} {o : Options} {st st' : State}
    {topic data : List Byte} (h : Bench.step T F C voxel limit o st topic data = .ok st') :
    (st'.seen = fun t => if t = topic then st.seen topic + 1 else st.seen t) ∧
    ((skipped o (st.seen topic + 1) = true ∨ measurable data = none) ∧ st'.stats = st.stats ∧ st'.rooms = st.rooms ∧ st'.samples = st.samples ∨
     ∃ pc encoded decoded samples, skipped o (st.seen topic + 1) = false ∧ measurable data = some pc ∧
      encodeAll T F C voxel limit o (resolvedFor o pc) modes st.rooms = .ok (st'.rooms, encoded) ∧
      (if o.encodeOnly then .ok ([], []) else decodeAll T F C limit o topic pc.data.length encoded : Res (List Mode × List Sample)) = .ok (decoded, samples) ∧
      (st'.stats = fun t => if t = topic then account pc.data.length (pc.data.length / pc.point_step.toNat) encoded decoded (st.stats t) else st.stats t) ∧
      st'.samples = st.samples ++ samples) := by
  unfold Bench.step at h
  simp only at h
  by_cases hs : skipped o (st.seen topic + 1) = true
  · rw [if_pos hs] at h
    simp only [Res.ok.injEq] at h
    subst h
    exact ⟨rfl, .inl ⟨.inl hs, rfl, rfl, rfl⟩⟩
  rw [if_neg hs] at h
  cases hg : getMessage data with
  | ub k => rw [hg] at h; simp at h
  | throw e =>
    rw [hg] at h
    simp only [Res.ok.injEq] at h
    subst h
    exact ⟨rfl, .inl ⟨.inr (by simp [measurable, hg]), rfl, rfl, rfl⟩⟩
  | ok pc =>
    rw [hg] at h
    simp only at h
    by_cases hz : pc.data.length = 0 ∨ pc.point_step = 0#32
    · rw [if_pos hz] at h
      simp only [Res.ok.injEq] at h
      subst h
      refine ⟨rfl, .inl ⟨.inr ?_, rfl, rfl, rfl⟩⟩
      simp only [measurable, hg]
      rw [if_pos]
      simpa using hz
    · rw [if_neg hz] at h
      obtain ⟨⟨rooms, encoded⟩, h1, h⟩ := Res.bind_eq_ok.1 h
      obtain ⟨⟨decoded, samples⟩, h2, h⟩ := Res.bind_eq_ok.1 h
      simp only [Res.ok.injEq] at h
      subst h
      refine ⟨rfl, .inr ⟨pc, encoded, decoded, samples, by simpa using hs, ?_, h1, h2, rfl, rfl⟩⟩
      simp only [measurable, hg]
      rw [if_neg]
      simpa using hz

theorem loop_totals {T : FloatText} {F : FloatOps} {C : Compressor} {voxel : BitVec 32 → BitVec 32 → BitVec 32} {limit : Nat} {o : Options} (t : List Byte) :
    ∀ {ms : List (List Byte × List Byte)} {st st' : State}, Bench.loop T F C voxel limit o ms st = .ok st' →
    let l := (selectFrom o (st.seen t) ((ms.filter fun e => e.1 = t).map (·.2))).filterMap measurable
    (st'.stats t).messages = (st.stats t).messages + l.length ∧
    (st'.stats t).points = (st.stats t).points + (l.map fun pc => pc.data.length / pc.point_step.toNat).sum ∧
    (st'.stats t).inBytes = (st.stats t).inBytes + (l.map fun pc => pc.data.length).sum := by
  intro ms
  induction ms with
  | nil =>
    intro st st' h
    simp only [Bench.loop, Res.ok.injEq] at h
    subst h
    simp [selectFrom]
  | cons e ms ih =>
    intro st st' h
    obtain ⟨topic, data⟩ := e
    obtain ⟨st1, h1, h⟩ := Res.bind_eq_ok.1 h
    have := ih h
    obtain ⟨hseen, hc⟩ := step_inv h1
    by_cases ht : topic = t
    · subst ht
      rw [List.filter_cons_of_pos (by simp), List.map_cons]
      rw [show st1.seen topic = st.seen topic + 1 from by rw [hseen]; simp] at this
      unfold selectFrom
      rcases hc with ⟨hsk, e1, _, _⟩ | ⟨pc, enc, dec, sm, hsk, hm, _, _, e1, _⟩
      · rw [e1] at this
        by_cases hs : skipped o (st.seen topic + 1) = true
        · rw [if_pos hs]; exact this
        · rw [if_neg hs, List.filterMap_cons_none (hsk.resolve_left hs)]; exact this
      · rw [if_neg (by simp [hsk]), List.filterMap_cons_some hm]
        rw [e1] at this
        simp only [if_true, account] at this
        obtain ⟨a, b, c⟩ := this
        simp only [List.length_cons, List.map_cons, List.sum_cons]
        exact ⟨by rw [a]; omega, by rw [b]; omega, by rw [c]; omega⟩
    · rw [List.filter_cons_of_neg (by simpa using ht)]
      rw [show st1.seen t = st.seen t from by rw [hseen]; simp [Ne.symm ht]] at this
      rcases hc with ⟨_, e1, _, _⟩ | ⟨pc, enc, dec, sm, _, _, _, _, e1, _⟩
      · rw [e1] at this; exact this
      · rw [e1] at this
        simp only [if_neg (Ne.symm ht)] at this
        exact this

theorem clouds_delivered {f : File} (hd : DistinctIds f.channels) (t : List Byte) :
    ((clouds f).filter fun e => e.1 = t).map (·.2) = topicClouds f t := by
  unfold clouds topicClouds delivered
  induction f.messages with
  | nil => rfl
  | cons m ms ih =>
    rw [List.filterMap_cons, List.filterMap_cons]
    have key := fun t => cutChannels_find (f := f) f.channels hd m.channel t
    change ∀ t, find (Bench.channels f) m.channel = some t ↔ _ at key
    cases hc : find (Bench.channels f) m.channel with
    | some t' =>
      obtain ⟨c, s, h1, h2, h3, h4⟩ := (key t').1 hc
      have hsee : see f m = some ⟨c.topic, c.encoding, s, m.sequence, m.logTime, m.publishTime, m.data⟩ := by unfold see; rw [h1]; simp only [h2]
      rw [hsee]
      simp only [Option.map_some]
      by_cases ht : t' = t
      · rw [List.filter_cons_of_pos (by simpa using ht), List.filter_cons_of_pos (by simp [h4, ht, h3]), List.map_cons, List.map_cons, ih]
      · rw [List.filter_cons_of_neg (by simpa using ht), List.filter_cons_of_neg (by simp [h4, ht]), ih]
    | none =>
      simp only [Option.map_none]
      cases hsee : see f m with
      | none => simp only; exact ih
      | some v =>
        simp only
        rw [List.filter_cons_of_neg, ih]
        simp only [decide_eq_true_eq, not_and]
        intro _ hn
        unfold see at hsee
        cases h1 : find f.channels m.channel with
        | none => rw [h1] at hsee; simp at hsee
        | some c =>
          rw [h1] at hsee
          simp only at hsee
          cases h2 : find f.schemas c.schema with
          | none => rw [h2] at hsee; simp at hsee
          | some s =>
            rw [h2] at hsee
            simp only [Option.some.injEq] at hsee
            rw [← hsee] at hn
            have := (key c.topic).2 ⟨c, s, h1, h2, hn, rfl⟩
            rw [hc] at this
            simp at this

/-- The replay changes nothing but the number of bytes decoded. -/
theorem replayAll_keeps {F : FloatOps} {C : Compressor} {limit : Nat} : ∀ {ss : List Sample} {s s' : List Byte → Stats}, replayAll F C limit ss s = .ok s' →
    ∀ t, (s' t).messages = (s t).messages ∧ (s' t).points = (s t).points ∧ (s' t).inBytes = (s t).inBytes ∧
      ∀ m, ((s' t).per m).out = ((s t).per m).out ∧ ((s' t).per m).encIn = ((s t).per m).encIn := by
  intro ss
  induction ss with
  | nil => intro s s' h t; simp only [replayAll, Res.ok.injEq] at h; subst h; exact ⟨rfl, rfl, rfl, fun _ => ⟨rfl, rfl⟩⟩
  | cons x ss ih =>
    intro s s' h t
    unfold replayAll at h
    split at h
    · simp at h
    split at h
    · simp at h
    · exact ih h t
    · have := ih h t
      by_cases ht : t = x.topic
      · subst ht
        simp only [if_true] at this
        refine ⟨this.1, this.2.1, this.2.2.1, fun m => ?_⟩
        have h4 := this.2.2.2 m
        by_cases hm : m = x.mode
        · subst hm; simpa using h4
        · rw [if_neg hm] at h4; exact h4
      · simp only [if_neg ht] at this
        exact this

theorem rounds_keep {F : FloatOps} {C : Compressor} {limit : Nat} {ss : List Sample} : ∀ {n : Nat} {s s' : List Byte → Stats}, rounds F C limit ss n s = .ok s' →
    ∀ t, (s' t).messages = (s t).messages ∧ (s' t).points = (s t).points ∧ (s' t).inBytes = (s t).inBytes ∧
      ∀ m, ((s' t).per m).out = ((s t).per m).out ∧ ((s' t).per m).encIn = ((s t).per m).encIn := by
  intro n
  induction n with
  | zero => intro s s' h t; simp only [rounds, Res.ok.injEq] at h; subst h; exact ⟨rfl, rfl, rfl, fun _ => ⟨rfl, rfl⟩⟩
  | succ n ih =>
    intro s s' h t
    obtain ⟨s1, h1, h⟩ := Res.bind_eq_ok.1 h
    obtain ⟨a1, a2, a3, a4⟩ := replayAll_keeps h1 t
    obtain ⟨b1, b2, b3, b4⟩ := ih h t
    exact ⟨by rw [b1, a1], by rw [b2, a2], by rw [b3, a3], fun m => ⟨by rw [(b4 m).1, (a4 m).1], by rw [(b4 m).2, (a4 m).2]⟩⟩

/-- The state behind a report. -/
theorem run_inv {T : FloatText} {F : FloatOps} {C : Compressor} {voxel : BitVec 32 → BitVec 32 → BitVec 32} {limit : Nat} {o : Options} {f : File} {r : Report}
    (h : Bench.run T F C voxel limit o f = .ok r) : ∃ st, Bench.loop T F C voxel limit o (clouds f) {} = .ok st ∧
      (o.replay = false → r.stats = st.stats ∧ r.hashes = none) ∧
      (o.replay = true → rounds F C limit st.samples (max 1 o.repeats) st.stats = .ok r.stats ∧
        (o.hash = false → r.hashes = none) ∧
        (o.hash = true → ∃ bufs hs, hashAll F C limit st.samples (fun _ => []) (fun _ => 0xcbf29ce484222325#64) = .ok (bufs, hs) ∧ r.hashes = some hs)) := by
  unfold Bench.run at h
  split at h
  · simp at h
  obtain ⟨st, h1, h⟩ := Res.bind_eq_ok.1 h
  refine ⟨st, h1, ?_⟩
  by_cases hr : o.replay = true
  · rw [if_pos hr] at h
    refine ⟨fun e => by simp [e] at hr, fun _ => ?_⟩
    by_cases hh : o.hash = true
    · rw [if_pos hh] at h
      obtain ⟨⟨b, hs⟩, h2, h⟩ := Res.bind_eq_ok.1 h
      obtain ⟨s, h3, h⟩ := Res.bind_eq_ok.1 h
      simp only [Res.ok.injEq] at h
      subst h
      exact ⟨h3, fun e => by simp [e] at hh, fun _ => ⟨b, hs, h2, rfl⟩⟩
    · rw [if_neg hh] at h
      obtain ⟨s, h3, h⟩ := Res.bind_eq_ok.1 h
      simp only [Res.ok.injEq] at h
      subst h
      exact ⟨h3, fun _ => rfl, fun e => absurd e hh⟩
  · rw [if_neg hr] at h
    simp only [Res.ok.injEq] at h
    subst h
    exact ⟨fun _ => ⟨rfl, rfl⟩, fun e => absurd e hr⟩

theorem run_keeps {T : FloatText} {F : FloatOps} {C : Compressor} {voxel : BitVec 32 → BitVec 32 → BitVec 32} {limit : Nat} {o : Options} {f : File} {r : Report}
    (h : Bench.run T F C voxel limit o f = .ok r) : ∃ st, Bench.loop T F C voxel limit o (clouds f) {} = .ok st ∧ ∀ t,
      (r.stats t).messages = (st.stats t).messages ∧ (r.stats t).points = (st.stats t).points ∧ (r.stats t).inBytes = (st.stats t).inBytes ∧
      ∀ m, ((r.stats t).per m).out = ((st.stats t).per m).out ∧ ((r.stats t).per m).encIn = ((st.stats t).per m).encIn := by
  obtain ⟨st, h1, h2, h3⟩ := run_inv h
  refine ⟨st, h1, fun t => ?_⟩
  by_cases hr : o.replay = true
  · exact rounds_keep (h3 hr).1 t
  · rw [(h2 (by simpa using hr)).1]
    exact ⟨rfl, rfl, rfl, fun _ => ⟨rfl, rfl⟩⟩

/-- **C79, what is measured.** Whatever the options and the codec do: the number of messages, of points and of bytes shown for a topic are those of its clouds
number 1, 1 + n, 1 + 2n, ... (up to the given maximum) that can be read and are not empty. -/
theorem C79_measured (T : FloatText) (F : FloatOps) (C : Compressor) (voxel : BitVec 32 → BitVec 32 → BitVec 32) (limit : Nat) (o : Options) (f : File) (r : Report)
    (hd : DistinctIds f.channels) (h : Bench.run T F C voxel limit o f = .ok r) (topic : List Byte) :
    (r.stats topic).messages = (measured o f topic).length ∧
    (r.stats topic).points = ((measured o f topic).map fun pc => pc.data.length / pc.point_step.toNat).sum ∧
    (r.stats topic).inBytes = ((measured o f topic).map fun pc => pc.data.length).sum := by
  obtain ⟨st, h1, h2⟩ := run_keeps h
  have := loop_totals topic h1
  rw [clouds_delivered hd, selectFrom_sampled] at this
  obtain ⟨a, b, c⟩ := this
  obtain ⟨a', b', c', _⟩ := h2 topic
  unfold measured
  exact ⟨by rw [a', a]; simp, by rw [b', b]; simp, by rw [c', c]; simp⟩

/-! ## Sizes -/

/-- The bytes a mode gives for a cloud in a buffer of its own; none if the mode is not run or fails. -/
def ownBytes (T : FloatText) (F : FloatOps) (C : Compressor) (voxel : BitVec 32 → BitVec 32 → BitVec 32) (limit : Nat) (o : Options) (m : Mode) (pc : Pc2) :
    Option (List Byte) :=
  if o.only ≠ none ∧ o.only ≠ some m then none
  else
    match prepare voxel o m (resolvedFor o pc) with
    | .ok (pc', info) => match (encodeMode T F C limit 0 info pc'.data).2 with | .ok b => some b | _ => none
    | _ => none

/-- A mode that fails on a cloud in a buffer of its own fails in every buffer.  (It fails to hold only where `MaxCompressedSize` is too small, see C22.) -/
def Steady (T : FloatText) (F : FloatOps) (C : Compressor) (voxel : BitVec 32 → BitVec 32 → BitVec 32) (limit : Nat) (o : Options) (pc : Pc2) : Prop :=
  ∀ m pc' info, prepare voxel o m (resolvedFor o pc) = .ok (pc', info) → (encodeMode T F C limit 0 info pc'.data).2.isOk = false →
    ∀ room, (encodeMode T F C limit room info pc'.data).2.isOk = false

theorem prepare_option {voxel : BitVec 32 → BitVec 32 → BitVec 32} {o : Options} {m : Mode} {pc pc' : Pc2} {info : EncodingInfo}
    (h : prepare voxel o m pc = .ok (pc', info)) : info = configure o m (toEncodingInfo pc') := by
  unfold prepare at h
  split at h
  · obtain ⟨p, _, h⟩ := Res.bind_eq_ok.1 h
    simp only [Res.ok.injEq, Prod.mk.injEq] at h
    obtain ⟨rfl, rfl⟩ := h; rfl
  · simp only [Res.ok.injEq, Prod.mk.injEq] at h
    obtain ⟨rfl, rfl⟩ := h; rfl

theorem configure_lz4 (o : Options) (m : Mode) (info : EncodingInfo) : (configure o m info).compression_opt ≠ .lz4 := by
  unfold configure
  simp only
  split <;> simp

theorem mkEncoder_keeps {F : FloatOps} {info : EncodingInfo} {header : List Byte} {enc : Encoder} (h : mkEncoder F info header = .ok enc) : enc.info = info :=
  (mkEncoder_info h).1

/-- The size of the buffer does not matter to what is encoded. -/
theorem encodeMode_room {T : FloatText} {F : FloatOps} {C : Compressor} (hC : C.Mono) {limit : Nat} {info : EncodingInfo} {data b : List Byte} {room room' : Nat}
    (hlz : info.compression_opt ≠ .lz4) (hle : room ≤ room') (h : (encodeMode T F C limit room info data).2 = .ok b) :
    (encodeMode T F C limit room' info data).2 = .ok b := by
  unfold encodeMode at h ⊢
  cases h1 : mkEncoder F info (encodeHeaderYaml T info) with
  | throw e => rw [h1] at h; simp at h
  | ub k => rw [h1] at h; simp at h
  | ok enc =>
    rw [h1] at h
    simp only at h ⊢
    cases h2 : maxCompressedSize C info (data.length / info.point_step.toNat) with
    | throw e => rw [h2] at h; simp at h
    | ub k => rw [h2] at h; simp at h
    | ok bd =>
      rw [h2] at h
      simp only at h ⊢
      by_cases h3 : limit < headerEstimate T info + bd
      · rw [if_pos h3] at h; simp at h
      · rw [if_neg h3] at h ⊢
        cases h4 : encodeView F C enc data (max room (headerEstimate T info + bd)) true with
        | throw e => rw [h4] at h; simp at h
        | ub k => rw [h4] at h; simp at h
        | ok r =>
          obtain ⟨enc', out, n⟩ := r
          rw [h4] at h
          have := C64_more_room_partial F C hC enc enc' data out _ (max room' (headerEstimate T info + bd)) n true (by omega)
            (fun e => absurd (by rw [← mkEncoder_keeps h1]; exact e) hlz) h4
          rw [this]
          exact h

/-- What the loop over the modes gives, whatever the sizes of the buffers. -/
theorem encodeAll_own {T : FloatText} {F : FloatOps} {C : Compressor} (hC : C.Mono) {voxel : BitVec 32 → BitVec 32 → BitVec 32} {limit : Nat} {o : Options}
    {pc : Pc2} (hst : Steady T F C voxel limit o pc) : ∀ {ms : List Mode} {rooms rooms' : Mode → Nat} {enc : List (Mode × List Byte)}, ms.Nodup →
    encodeAll T F C voxel limit o (resolvedFor o pc) ms rooms = .ok (rooms', enc) →
    enc = ms.filterMap fun m => (ownBytes T F C voxel limit o m pc).map fun b => (m, b) := by
  intro ms
  induction ms with
  | nil => intro rooms rooms' enc _ h; simp only [encodeAll, Res.ok.injEq, Prod.mk.injEq] at h; rw [← h.2]; rfl
  | cons m ms ih =>
    intro rooms rooms' enc hnd h
    rw [List.nodup_cons] at hnd
    unfold encodeAll at h
    rw [List.filterMap_cons]
    by_cases ho : o.only ≠ none ∧ o.only ≠ some m
    · rw [if_pos ho] at h
      have : ownBytes T F C voxel limit o m pc = none := by unfold ownBytes; rw [if_pos ho]
      rw [this]
      exact ih hnd.2 h
    · rw [if_neg ho] at h
      obtain ⟨⟨pc', info⟩, h1, h⟩ := Res.bind_eq_ok.1 h
      have hlz : info.compression_opt ≠ .lz4 := by rw [prepare_option h1]; exact configure_lz4 _ _ _
      have hown : ownBytes T F C voxel limit o m pc = match (encodeMode T F C limit 0 info pc'.data).2 with | .ok b => some b | _ => none := by
        unfold ownBytes; rw [if_neg ho, h1]
      cases h2 : (encodeMode T F C limit 0 info pc'.data).2 with
      | ok b =>
        have h3 := encodeMode_room hC hlz (Nat.zero_le (rooms m)) h2
        simp only [h3] at h
        obtain ⟨⟨r', rest⟩, h4, h⟩ := Res.bind_eq_ok.1 h
        simp only [Res.ok.injEq, Prod.mk.injEq] at h
        rw [hown, h2, ← h.2, ih hnd.2 h4]
        rfl
      | throw e =>
        have h3 := hst m pc' info h1 (by rw [h2]; rfl) (rooms m)
        rw [hown, h2]
        cases h5 : (encodeMode T F C limit (rooms m) info pc'.data).2 with
        | ok b => rw [h5] at h3; simp at h3
        | ub k => simp [h5] at h
        | throw e' => simp only [h5] at h; exact ih hnd.2 h
      | ub k =>
        have h3 := hst m pc' info h1 (by rw [h2]; rfl) (rooms m)
        rw [hown, h2]
        cases h5 : (encodeMode T F C limit (rooms m) info pc'.data).2 with
        | ok b => rw [h5] at h3; simp at h3
        | ub k => simp [h5] at h
        | throw e' => simp only [h5] at h; exact ih hnd.2 h

theorem modes_nodup : modes.Nodup := by decide

/-- The entries of one mode. -/
theorem own_filter {g : Mode → Option (List Byte)} (m : Mode) :
    (modes.filterMap fun x => (g x).map fun b => (x, b)).filter (fun e => e.1 = m) = match g m with | some b => [(m, b)] | none => [] := by
  have h : ∀ x y : Mode, ((g x).map fun b => (x, b)).toList.filter (fun e => decide (e.1 = y)) = if x = y then ((g x).map fun b => (x, b)).toList else [] := by
    intro x y
    cases g x with
    | none => simp
    | some b => by_cases hxy : x = y <;> simp [hxy]
  have e : (modes.filterMap fun x => (g x).map fun b => (x, b)) = modes.flatMap fun x => ((g x).map fun b => (x, b)).toList := by
    rw [List.filterMap_eq_flatMap_toList]
  rw [e]
  simp only [modes, List.flatMap_cons, List.flatMap_nil, List.filter_append, h, List.append_nil]
  cases m <;> simp <;> (cases g _ <;> rfl)

/-- The clouds of a topic that pass through the encoders. -/
theorem loop_sizes {T : FloatText} {F : FloatOps} {C : Compressor} (hC : C.Mono) {voxel : BitVec 32 → BitVec 32 → BitVec 32} {limit : Nat} {o : Options} (t : List Byte)
    (m : Mode) : ∀ {ms : List (List Byte × List Byte)} {st st' : State}, Bench.loop T F C voxel limit o ms st = .ok st' →
    (∀ pc ∈ (selectFrom o (st.seen t) ((ms.filter fun e => e.1 = t).map (·.2))).filterMap measurable, Steady T F C voxel limit o pc) →
    let l := (selectFrom o (st.seen t) ((ms.filter fun e => e.1 = t).map (·.2))).filterMap measurable
    ((st'.stats t).per m).out = ((st.stats t).per m).out + (l.map fun pc => match ownBytes T F C voxel limit o m pc with | some b => b.length | none => 0).sum ∧
    ((st'.stats t).per m).encIn = ((st.stats t).per m).encIn + (l.map fun pc => match ownBytes T F C voxel limit o m pc with | some _ => pc.data.length | none => 0).sum := by
  intro ms
  induction ms with
  | nil =>
    intro st st' h _
    simp only [Bench.loop, Res.ok.injEq] at h
    subst h
    simp [selectFrom]
  | cons e ms ih =>
    intro st st' h hst
    obtain ⟨topic, data⟩ := e
    obtain ⟨st1, h1, h⟩ := Res.bind_eq_ok.1 h
    have := ih h
    obtain ⟨hseen, hc⟩ := step_inv h1
    by_cases ht : topic = t
    · subst ht
      rw [List.filter_cons_of_pos (by simp), List.map_cons] at hst ⊢
      rw [show st1.seen topic = st.seen topic + 1 from by rw [hseen]; simp] at this
      unfold selectFrom at hst ⊢
      rcases hc with ⟨hsk, e1, _, _⟩ | ⟨pc, enc, dec, sm, hsk, hm, henc, _, e1, _⟩
      · rw [e1] at this
        by_cases hs : skipped o (st.seen topic + 1) = true
        · rw [if_pos hs] at hst ⊢; exact this hst
        · rw [if_neg hs, List.filterMap_cons_none (hsk.resolve_left hs)] at hst ⊢; exact this hst
      · rw [if_neg (by simp [hsk]), List.filterMap_cons_some hm] at hst ⊢
        have hst' := this fun pc' hp => hst pc' (List.mem_cons_of_mem _ hp)
        have hown := encodeAll_own hC (hst pc List.mem_cons_self) modes_nodup henc
        rw [e1] at hst'
        simp only [if_true, account, hown, own_filter] at hst'
        obtain ⟨a, b⟩ := hst'
        simp only [List.map_cons, List.sum_cons]
        rw [a, b]
        cases ownBytes T F C voxel limit o m pc <;> simp <;> omega
    · rw [List.filter_cons_of_neg (by simpa using ht)] at hst ⊢
      rw [show st1.seen t = st.seen t from by rw [hseen]; simp [Ne.symm ht]] at this
      rcases hc with ⟨_, e1, _, _⟩ | ⟨pc, enc, dec, sm, _, _, _, _, e1, _⟩
      · rw [e1] at this; exact this hst
      · rw [e1] at this
        simp only [if_neg (Ne.symm ht)] at this
        exact this hst

/-- **C79, the sizes.** The bytes shown for a topic and a mode are the sum of what that mode makes of each of the measured clouds in a buffer of its own: no figure
depends on the messages before it, on other topics, on the other modes or on the size the shared buffers have reached.  Clouds on which a mode fails
contribute nothing to its sum and nothing to the bytes it is said to have read. -/
theorem C79_sizes_partial (T : FloatText) (F : FloatOps) (C : Compressor) (hC : C.Mono) (voxel : BitVec 32 → BitVec 32 → BitVec 32) (limit : Nat) (o : Options)
    (f : File) (r : Report) (hd : DistinctIds f.channels) (h : Bench.run T F C voxel limit o f = .ok r) (topic : List Byte) (m : Mode)
    (hst : ∀ pc ∈ measured o f topic, Steady T F C voxel limit o pc) :
    ((r.stats topic).per m).out =
      ((measured o f topic).map fun pc => match ownBytes T F C voxel limit o m pc with | some b => b.length | none => 0).sum ∧
    ((r.stats topic).per m).encIn =
      ((measured o f topic).map fun pc => match ownBytes T F C voxel limit o m pc with | some _ => pc.data.length | none => 0).sum := by
  obtain ⟨st, h1, h2⟩ := run_keeps h
  have key := loop_sizes hC topic m h1
  rw [clouds_delivered hd, selectFrom_sampled] at key
  obtain ⟨a, b⟩ := key hst
  obtain ⟨_, _, _, h3⟩ := h2 topic
  unfold measured
  exact ⟨by rw [(h3 m).1, a]; simp, by rw [(h3 m).2, b]; simp⟩

theorem encodeAll_only {T : FloatText} {F : FloatOps} {C : Compressor} {voxel : BitVec 32 → BitVec 32 → BitVec 32} {limit : Nat} {o : Options} {pc : Pc2}
    {m' : Mode} (ho : o.only = some m') : ∀ {ms : List Mode} {rooms rooms' : Mode → Nat} {enc : List (Mode × List Byte)},
    encodeAll T F C voxel limit o pc ms rooms = .ok (rooms', enc) → ∀ e ∈ enc, e.1 = m' := by
  intro ms
  induction ms with
  | nil => intro rooms rooms' enc h; simp only [encodeAll, Res.ok.injEq, Prod.mk.injEq] at h; rw [← h.2]; simp
  | cons m ms ih =>
    intro rooms rooms' enc h
    unfold encodeAll at h
    by_cases hx : o.only ≠ none ∧ o.only ≠ some m
    · rw [if_pos hx] at h; exact ih h
    · rw [if_neg hx] at h
      obtain ⟨⟨pc', info⟩, h1, h⟩ := Res.bind_eq_ok.1 h
      have hm : m = m' := by
        rw [ho] at hx
        simp only [ne_eq, reduceCtorEq, not_false_eq_true, Option.some.injEq, true_and, Decidable.not_not] at hx
        exact hx.symm
      cases h5 : (encodeMode T F C limit (rooms m) info pc'.data).2 with
      | ub k => simp [h5] at h
      | throw e' => simp only [h5] at h; exact ih h
      | ok b =>
        simp only [h5] at h
        obtain ⟨⟨r', rest⟩, h4, h⟩ := Res.bind_eq_ok.1 h
        simp only [Res.ok.injEq, Prod.mk.injEq] at h
        rw [← h.2]
        intro e he
        rcases List.mem_cons.1 he with rfl | he
        · exact hm
        · exact ih h4 e he

theorem loop_only {T : FloatText} {F : FloatOps} {C : Compressor} {voxel : BitVec 32 → BitVec 32 → BitVec 32} {limit : Nat} {o : Options} {m m' : Mode}
    (ho : o.only = some m') (hne : m ≠ m') (t : List Byte) : ∀ {ms : List (List Byte × List Byte)} {st st' : State},
    Bench.loop T F C voxel limit o ms st = .ok st' → ((st'.stats t).per m).out = ((st.stats t).per m).out ∧ ((st'.stats t).per m).encIn = ((st.stats t).per m).encIn := by
  intro ms
  induction ms with
  | nil => intro st st' h; simp only [Bench.loop, Res.ok.injEq] at h; subst h; exact ⟨rfl, rfl⟩
  | cons e ms ih =>
    intro st st' h
    obtain ⟨topic, data⟩ := e
    obtain ⟨st1, h1, h⟩ := Res.bind_eq_ok.1 h
    obtain ⟨a, b⟩ := ih h
    obtain ⟨_, hc⟩ := step_inv h1
    rcases hc with ⟨_, e1, _, _⟩ | ⟨pc, enc, dec, sm, _, _, henc, _, e1, _⟩
    · rw [a, b, e1]; exact ⟨rfl, rfl⟩
    · have hx := encodeAll_only ho henc
      have hf : enc.filter (fun e => decide (e.1 = m)) = [] := by
        rw [List.filter_eq_nil_iff]
        intro e he
        have := hx e he
        simp only [decide_eq_true_eq]
        rw [this]; exact Ne.symm hne
      rw [a, b, e1]
      by_cases ht : t = topic
      · simp only [ht, if_true, account, hf]
        simp
      · simp only [if_neg ht]
        exact ⟨trivial, trivial⟩

/-- With `--mode` the other modes show nothing. -/
theorem C79_only (T : FloatText) (F : FloatOps) (C : Compressor) (voxel : BitVec 32 → BitVec 32 → BitVec 32) (limit : Nat) (o : Options)
    (f : File) (r : Report) (h : Bench.run T F C voxel limit o f = .ok r) (topic : List Byte) (m m' : Mode)
    (ho : o.only = some m') (hne : m ≠ m') : ((r.stats topic).per m).out = 0 ∧ ((r.stats topic).per m).encIn = 0 := by
  obtain ⟨st, h1, h2⟩ := run_keeps h
  obtain ⟨a, b⟩ := loop_only ho hne topic h1
  obtain ⟨_, _, _, h3⟩ := h2 topic
  exact ⟨by rw [(h3 m).1, a], by rw [(h3 m).2, b]⟩

/-! ## A mode that fails looks good -/

/-- A cloud whose data is not a whole number of points: the plain modes fail. -/
theorem own_ragged (T : FloatText) (F : FloatOps) (C : Compressor) (voxel : BitVec 32 → BitVec 32 → BitVec 32) (limit : Nat) (o : Options) (m : Mode) (pc : Pc2)
    (hm : m.viz = false) (hr : pc.data.length % pc.point_step.toNat ≠ 0) (info : EncodingInfo) (pc' : Pc2)
    (hp : prepare voxel o m (resolvedFor o pc) = .ok (pc', info)) : ∀ room b, (encodeMode T F C limit room info pc'.data).2 ≠ .ok b := by
  intro room b h
  unfold prepare at hp
  rw [if_neg (by simp [hm])] at hp
  simp only [Res.ok.injEq, Prod.mk.injEq] at hp
  obtain ⟨rfl, rfl⟩ := hp
  unfold encodeMode at h
  cases h1 : mkEncoder F (configure o m (toEncodingInfo (resolvedFor o pc))) (encodeHeaderYaml T (configure o m (toEncodingInfo (resolvedFor o pc)))) with
  | throw e => rw [h1] at h; simp at h
  | ub k => rw [h1] at h; simp at h
  | ok enc =>
    have hi := mkEncoder_keeps h1
    rw [h1] at h
    simp only at h
    split at h
    · simp at h
    · simp at h
    split at h
    · simp at h
    split at h
    · simp at h
    · simp at h
    next h4 =>
    unfold encodeView at h4
    split at h4
    · simp at h4
    rw [if_pos] at h4
    · simp at h4
    · rw [hi]
      exact hr

/-- **C79, failures flatter.** For every topic of which all measured clouds have data that is not a whole number of points: the table shows ratio 0 for the
plain modes — the bytes read are counted, the failing encoder has written none. -/
theorem C79_failures_flatter (T : FloatText) (F : FloatOps) (C : Compressor) (voxel : BitVec 32 → BitVec 32 → BitVec 32) (limit : Nat) (o : Options)
    (f : File) (r : Report) (hd : DistinctIds f.channels) (h : Bench.run T F C voxel limit o f = .ok r) (topic : List Byte) (m : Mode) (hm : m.viz = false)
    (hr : ∀ pc ∈ measured o f topic, pc.data.length % pc.point_step.toNat ≠ 0) (hne : measured o f topic ≠ []) :
    ((r.stats topic).per m).out = 0 ∧ 0 < (r.stats topic).inBytes := by
  obtain ⟨st, h1, h2⟩ := run_keeps h
  obtain ⟨_, _, hin⟩ := C79_measured T F C voxel limit o f r hd h topic
  constructor
  · have key : ∀ (ms : List (List Byte × List Byte)) (st st' : State), Bench.loop T F C voxel limit o ms st = .ok st' →
        (∀ pc ∈ (selectFrom o (st.seen topic) ((ms.filter fun e => e.1 = topic).map (·.2))).filterMap measurable, pc.data.length % pc.point_step.toNat ≠ 0) →
        ((st'.stats topic).per m).out = ((st.stats topic).per m).out := by
      intro ms
      induction ms with
      | nil => intro st st' h _; simp only [Bench.loop, Res.ok.injEq] at h; subst h; rfl
      | cons e ms ih =>
        intro st st' h hst
        obtain ⟨t, data⟩ := e
        obtain ⟨st1, h1, h⟩ := Res.bind_eq_ok.1 h
        have := ih st1 st' h
        obtain ⟨hseen, hc⟩ := step_inv h1
        by_cases ht : t = topic
        · subst ht
          rw [List.filter_cons_of_pos (by simp), List.map_cons] at hst
          rw [show st1.seen t = st.seen t + 1 from by rw [hseen]; simp] at this
          unfold selectFrom at hst
          rcases hc with ⟨hsk, e1, _, _⟩ | ⟨pc, enc, dec, sm, hsk, hmm, henc, _, e1, _⟩
          · rw [e1] at this
            by_cases hs : skipped o (st.seen t + 1) = true
            · rw [if_pos hs] at hst; exact this hst
            · rw [if_neg hs, List.filterMap_cons_none (hsk.resolve_left hs)] at hst; exact this hst
          · rw [if_neg (by simp [hsk]), List.filterMap_cons_some hmm] at hst
            rw [this fun pc' hp => hst pc' (List.mem_cons_of_mem _ hp), e1]
            simp only [if_true, account]
            have hf : ∀ (ms : List Mode) (rooms rooms' : Mode → Nat) (enc : List (Mode × List Byte)),
                encodeAll T F C voxel limit o (resolvedFor o pc) ms rooms = .ok (rooms', enc) → enc.filter (fun e => decide (e.1 = m)) = [] := by
              intro ms
              induction ms with
              | nil => intro rooms rooms' enc h; simp only [encodeAll, Res.ok.injEq, Prod.mk.injEq] at h; rw [← h.2]; rfl
              | cons x xs ih2 =>
                intro rooms rooms' enc h
                unfold encodeAll at h
                split at h
                · exact ih2 _ _ _ h
                · obtain ⟨⟨pc', info⟩, g1, h⟩ := Res.bind_eq_ok.1 h
                  cases g5 : (encodeMode T F C limit (rooms x) info pc'.data).2 with
                  | ub k => simp [g5] at h
                  | throw e' => simp only [g5] at h; exact ih2 _ _ _ h
                  | ok b =>
                    simp only [g5] at h
                    obtain ⟨⟨r', rest⟩, g4, h⟩ := Res.bind_eq_ok.1 h
                    simp only [Res.ok.injEq, Prod.mk.injEq] at h
                    by_cases hxm : x = m
                    · subst hxm
                      exact absurd g5 (own_ragged T F C voxel limit o x pc hm (hst pc List.mem_cons_self) info pc' g1 _ b)
                    · rw [← h.2, List.filter_cons_of_neg (by simpa using hxm)]
                      exact ih2 _ _ _ g4
            rw [hf _ _ _ _ henc]
            rfl
        · rw [List.filter_cons_of_neg (by simpa using ht)] at hst
          rw [show st1.seen topic = st.seen topic from by rw [hseen]; simp [Ne.symm ht]] at this
          rcases hc with ⟨_, e1, _, _⟩ | ⟨pc, enc, dec, sm, _, _, _, _, e1, _⟩
          · rw [e1] at this; exact this hst
          · rw [e1] at this
            simp only [if_neg (Ne.symm ht)] at this
            exact this hst
    rw [((h2 topic).2.2.2 m).1, key _ _ _ h1]
    rw [clouds_delivered hd, selectFrom_sampled]
    exact hr
  · rw [hin]
    cases hl : measured o f topic with
    | nil => exact absurd hl hne
    | cons pc l =>
      have hpc : pc ∈ measured o f topic := by rw [hl]; exact List.mem_cons_self
      have := hr pc hpc
      have hp : pc.data.length ≠ 0 := by intro h0; rw [h0] at this; simp at this
      simp only [List.map_cons, List.sum_cons]
      omega

/-! ## Totals of the file -/

/-- **C79, the file total.** The last table is the sum of the others. -/
theorem C79_total (r : Report) (topics : List (List Byte)) (m : Mode) :
    (total r topics).messages = (topics.map fun t => (r.stats t).messages).sum ∧
    (total r topics).points = (topics.map fun t => (r.stats t).points).sum ∧
    (total r topics).inBytes = (topics.map fun t => (r.stats t).inBytes).sum ∧
    ((total r topics).per m).out = (topics.map fun t => ((r.stats t).per m).out).sum ∧
    ((total r topics).per m).encIn = (topics.map fun t => ((r.stats t).per m).encIn).sum ∧
    ((total r topics).per m).decIn = (topics.map fun t => ((r.stats t).per m).decIn).sum := by
  have key : ∀ (ts : List (List Byte)) (a : Stats), let b := (ts.map r.stats).foldl Stats.add a
      b.messages = a.messages + (ts.map fun t => (r.stats t).messages).sum ∧
      b.points = a.points + (ts.map fun t => (r.stats t).points).sum ∧
      b.inBytes = a.inBytes + (ts.map fun t => (r.stats t).inBytes).sum ∧
      (b.per m).out = (a.per m).out + (ts.map fun t => ((r.stats t).per m).out).sum ∧
      (b.per m).encIn = (a.per m).encIn + (ts.map fun t => ((r.stats t).per m).encIn).sum ∧
      (b.per m).decIn = (a.per m).decIn + (ts.map fun t => ((r.stats t).per m).decIn).sum := by
    intro ts
    induction ts with
    | nil => intro a; simp
    | cons t ts ih =>
      intro a
      have := ih (a.add (r.stats t))
      simp only [List.map_cons, List.foldl_cons, List.sum_cons]
      simp only [Stats.add] at this ⊢
      obtain ⟨h1, h2, h3, h4, h5, h6⟩ := this
      exact ⟨by rw [h1]; omega, by rw [h2]; omega, by rw [h3]; omega, by rw [h4]; omega, by rw [h5]; omega, by rw [h6]; omega⟩
  have := key topics {}
  unfold total
  simpa using this

/-! ## The tool stops -/

/-- A mode that never fails in a buffer of its own is steady. -/
theorem steady_of {T : FloatText} {F : FloatOps} {C : Compressor} {voxel : BitVec 32 → BitVec 32 → BitVec 32} {limit : Nat} {o : Options} {pc : Pc2}
    (h : ∀ m, (match prepare voxel o m (resolvedFor o pc) with | .ok (pc', info) => (encodeMode T F C limit 0 info pc'.data).2.isOk | _ => true) = true) :
    Steady T F C voxel limit o pc := by
  intro m pc' info hp hf
  have := h m
  rw [hp] at this
  simp only at this
  rw [hf] at this
  simp at this

theorem decodeAll_large {T : FloatText} {F : FloatOps} {C : Compressor} {limit : Nat} {o : Options} {topic : List Byte} {raw : Nat} {m : Mode} {b payload : List Byte}
    {info : EncodingInfo} (hr : o.replay = false) (hh : decodeHeader T b = .ok (info, payload)) (hl : limit < needed info) :
    ∀ {es : List (Mode × List Byte)} {r : List Mode × List Sample}, (m, b) ∈ es → decodeAll T F C limit o topic raw es ≠ .ok r := by
  intro es
  induction es with
  | nil => intro r hm; simp at hm
  | cons e es ih =>
    intro r hm h
    obtain ⟨m', b'⟩ := e
    unfold decodeAll at h
    rcases List.mem_cons.1 hm with he | hm
    · simp only [Prod.mk.injEq] at he
      rw [← he.2, hh] at h
      simp [hr, hl] at h
    · split at h
      · simp at h
      · exact ih hm h
      · rw [if_neg (by simp [hr])] at h
        split at h
        · simp at h
        split at h
        · simp at h
        · exact ih hm h
        · obtain ⟨⟨x, y⟩, h1, _⟩ := Res.bind_eq_ok.1 h
          exact ih hm h1

/-- **C79, a message that lies about its size.** If the header a mode writes for one measured cloud declares more bytes than a vector can hold, the whole
benchmark ends without a report: the buffer is enlarged outside the `try` block.  (Encoding accepts such a cloud: it does not compare the declared size with the
data.) -/
theorem C79_lying_message (T : FloatText) (F : FloatOps) (C : Compressor) (hC : C.Mono) (voxel : BitVec 32 → BitVec 32 → BitVec 32) (limit : Nat) (o : Options)
    (f : File) (hd : DistinctIds f.channels) (he : o.encodeOnly = false) (hr : o.replay = false) (topic : List Byte) (pc : Pc2)
    (hpc : pc ∈ measured o f topic) (hst : Steady T F C voxel limit o pc) (m : Mode) (b payload : List Byte) (info : EncodingInfo)
    (hb : ownBytes T F C voxel limit o m pc = some b) (hh : decodeHeader T b = .ok (info, payload)) (hl : limit < needed info) (r : Report) :
    Bench.run T F C voxel limit o f ≠ .ok r := by
  intro h
  obtain ⟨st, h1, -⟩ := run_inv h
  have key : ∀ (ms : List (List Byte × List Byte)) (st st' : State), Bench.loop T F C voxel limit o ms st = .ok st' →
      pc ∉ (selectFrom o (st.seen topic) ((ms.filter fun e => e.1 = topic).map (·.2))).filterMap measurable := by
    intro ms
    induction ms with
    | nil => intro st st' _; simp [selectFrom]
    | cons e ms ih =>
      intro st st' h hm
      obtain ⟨t, data⟩ := e
      obtain ⟨st1, h1, h⟩ := Res.bind_eq_ok.1 h
      have := ih st1 st' h
      obtain ⟨hseen, hc⟩ := step_inv h1
      by_cases ht : t = topic
      · subst ht
        rw [List.filter_cons_of_pos (by simp), List.map_cons] at hm
        rw [show st1.seen t = st.seen t + 1 from by rw [hseen]; simp] at this
        unfold selectFrom at hm
        rcases hc with ⟨hsk, _⟩ | ⟨pc', enc, dec, sm, hsk, hmm, henc, hdec, _⟩
        · by_cases hs : skipped o (st.seen t + 1) = true
          · rw [if_pos hs] at hm; exact this hm
          · rw [if_neg hs, List.filterMap_cons_none (hsk.resolve_left hs)] at hm; exact this hm
        · rw [if_neg (by simp [hsk]), List.filterMap_cons_some hmm] at hm
          rcases List.mem_cons.1 hm with rfl | hm
          · have hown := encodeAll_own hC hst modes_nodup henc
            rw [if_neg (by simp [he])] at hdec
            refine decodeAll_large (m := m) hr hh hl ?_ hdec
            rw [hown, List.mem_filterMap]
            exact ⟨m, by cases m <;> decide, by rw [hb]; rfl⟩
          · exact this hm
      · rw [List.filter_cons_of_neg (by simpa using ht)] at hm
        rw [show st1.seen topic = st.seen topic from by rw [hseen]; simp [Ne.symm ht]] at this
        exact this hm
  have := key _ _ _ h1
  rw [clouds_delivered hd, selectFrom_sampled] at this
  exact this hpc

/-! ## `--explain` -/

theorem vizLoop_fewer {voxel : BitVec 32 → BitVec 32 → BitVec 32} {r : BitVec 32} {stp ox oy oz : Nat} {data : List Byte} : ∀ {n i : Nat} {seen : List (BitVec 64)}
    {out : List Byte} {kept : Nat} {x : List Byte × Nat}, vizLoop voxel r stp ox oy oz data n i seen out kept = .ok x → x.1.length ≤ out.length + n * stp := by
  intro n
  induction n with
  | zero => intro i seen out kept x h; simp only [vizLoop, Res.ok.injEq] at h; subst h; simp
  | succ n ih =>
    intro i seen out kept x h
    have e : (n + 1) * stp = n * stp + stp := Nat.succ_mul n stp
    unfold vizLoop at h
    obtain ⟨bx, _, h⟩ := Res.bind_eq_ok.1 h
    obtain ⟨by', _, h⟩ := Res.bind_eq_ok.1 h
    obtain ⟨bz, _, h⟩ := Res.bind_eq_ok.1 h
    simp only at h
    split at h
    · have := ih h; omega
    split at h
    · have := ih h; omega
    · obtain ⟨p, hp, h⟩ := Res.bind_eq_ok.1 h
      have := ih h
      obtain ⟨hle, rfl⟩ := readAt_eq_ok.1 hp
      simp only [List.length_append, List.length_take, List.length_drop] at this
      omega

theorem applyViz_fewer {voxel : BitVec 32 → BitVec 32 → BitVec 32} {pc pc' : Pc2} (h : applyViz voxel pc = .ok pc') :
    pc'.point_step = pc.point_step ∧ pc'.data.length / pc.point_step.toNat ≤ pc.data.length / pc.point_step.toNat := by
  unfold applyViz at h
  split at h
  · simp only [Res.ok.injEq] at h; subst h; exact ⟨rfl, Nat.le_refl _⟩
  next hs =>
  split at h
  · simp only [Res.ok.injEq] at h; subst h; exact ⟨rfl, Nat.le_refl _⟩
  split at h
  · simp only [Res.ok.injEq] at h; subst h; exact ⟨rfl, Nat.le_refl _⟩
  obtain ⟨⟨out, kept⟩, h1, h⟩ := Res.bind_eq_ok.1 h
  simp only [Res.ok.injEq] at h
  subst h
  have := vizLoop_fewer h1
  simp only [List.length_nil, Nat.zero_add] at this
  refine ⟨rfl, ?_⟩
  have hp : 0 < pc.point_step.toNat := by
    have : pc.point_step ≠ 0#32 := fun e => hs (.inr e)
    have := mt (BitVec.eq_of_toNat_eq (x := pc.point_step) (y := 0#32)) this
    simp at this
    omega
  exact (Nat.div_le_div_right this).trans (by rw [Nat.mul_div_cancel _ hp])

theorem explain_rows {voxel : BitVec 32 → BitVec 32 → BitVec 32} {o : Options} : ∀ {ms : List (List Byte × List Byte)} {done : List (List Byte)}
    {rows : List (List Byte × Nat × Nat)}, explain voxel o ms done = .ok rows →
    (∀ x ∈ rows, x.1 ∉ done ∧ ∃ d pc, ((ms.filter fun e => e.1 = x.1).map (·.2)).head? = some d ∧ getMessage d = .ok pc ∧
      pc.point_step ≠ 0#32 ∧ x.2.1 = pc.data.length / pc.point_step.toNat ∧ x.2.2 ≤ x.2.1) ∧ (rows.map (·.1)).Nodup ∧
    (∀ t d pc, t ∉ done → ((ms.filter fun e => e.1 = t).map (·.2)).head? = some d → getMessage d = .ok pc → t ∈ rows.map (·.1)) := by
  intro ms
  induction ms with
  | nil => intro done rows h; simp only [explain, Res.ok.injEq] at h; subst h; simp
  | cons e ms ih =>
    intro done rows h
    obtain ⟨t, d⟩ := e
    unfold explain at h
    by_cases ht : t ∈ done
    · rw [if_pos ht] at h
      obtain ⟨a, b, c⟩ := ih h
      refine ⟨fun x hx => ?_, b, fun t' d' pc hn hf hg => ?_⟩
      · obtain ⟨h1, d', pc, h2, h3⟩ := a x hx
        refine ⟨h1, d', pc, ?_, h3⟩
        rw [List.filter_cons_of_neg (by simp only [decide_eq_true_eq]; intro e; exact h1 (e ▸ ht))]
        exact h2
      · rw [List.filter_cons_of_neg (by simp only [decide_eq_true_eq]; intro e; exact hn (e ▸ ht))] at hf
        exact c t' d' pc hn hf hg
    · rw [if_neg ht] at h
      cases hg : getMessage d with
      | ub k => rw [hg] at h; simp at h
      | throw m =>
        rw [hg] at h
        obtain ⟨a, b, c⟩ := ih h
        refine ⟨fun x hx => ?_, b, fun t' d' pc hn hf hg' => ?_⟩
        · obtain ⟨h1, d', pc, h2, h3⟩ := a x hx
          simp only [List.mem_cons, not_or] at h1
          refine ⟨h1.2, d', pc, ?_, h3⟩
          rw [List.filter_cons_of_neg (by simpa using Ne.symm h1.1)]
          exact h2
        · by_cases htt : t = t'
          · rw [List.filter_cons_of_pos (by simpa using htt)] at hf
            simp only [List.map_cons, List.head?_cons, Option.some.injEq] at hf
            rw [← hf, hg] at hg'
            simp at hg'
          · rw [List.filter_cons_of_neg (by simpa using htt)] at hf
            exact c t' d' pc (by simp [hn, Ne.symm htt]) hf hg'
      | ok pc =>
        rw [hg] at h
        simp only at h
        obtain ⟨r, h1, h⟩ := Res.bind_eq_ok.1 h
        obtain ⟨rest, h2, h⟩ := Res.bind_eq_ok.1 h
        simp only [Res.ok.injEq] at h
        subst h
        obtain ⟨a, b, c⟩ := ih h2
        refine ⟨fun x hx => ?_, ?_, fun t' d' pc' hn hf hg' => ?_⟩
        · rcases List.mem_cons.1 hx with rfl | hx
          · refine ⟨ht, d, pc, ?_, hg, ?_⟩
            · rw [List.filter_cons_of_pos (by simp)]; rfl
            · unfold explainOne at h1
              split at h1
              · simp at h1
              next hz =>
              obtain ⟨pc', h3, h1⟩ := Res.bind_eq_ok.1 h1
              simp only [Res.ok.injEq] at h1
              subst h1
              obtain ⟨e1, e2⟩ := applyViz_fewer h3
              refine ⟨hz, rfl, ?_⟩
              have hp : 0 < pc.point_step.toNat := by
                have := mt (BitVec.eq_of_toNat_eq (x := pc.point_step) (y := 0#32)) hz
                simp at this
                omega
              simp only
              rw [e1]
              simp only
              rw [show max 1 pc.point_step.toNat = pc.point_step.toNat from by omega]
              exact e2
          · obtain ⟨h3, d', pc', h4, h5⟩ := a x hx
            simp only [List.mem_cons, not_or] at h3
            refine ⟨h3.2, d', pc', ?_, h5⟩
            rw [List.filter_cons_of_neg (by simpa using Ne.symm h3.1)]
            exact h4
        · rw [List.map_cons, List.nodup_cons]
          refine ⟨fun hm => ?_, b⟩
          obtain ⟨x, hx, e⟩ := List.mem_map.1 hm
          exact (a x hx).1 (by simp [e])
        · by_cases htt : t = t'
          · simp [htt]
          · rw [List.filter_cons_of_neg (by simpa using htt)] at hf
            exact List.mem_cons_of_mem _ (c t' d' pc' (by simp [hn, Ne.symm htt]) hf hg')

/-- **C79, `--explain`.** The listing has exactly one entry for every topic whose first cloud can be read, it shows the number of points of that cloud, and what
is left by the visualisation step is never more. -/
theorem C79_explain (voxel : BitVec 32 → BitVec 32 → BitVec 32) (o : Options) (f : File) (hd : DistinctIds f.channels) (rows : List (List Byte × Nat × Nat))
    (h : explain voxel o (clouds f) [] = .ok rows) : (rows.map (·.1)).Nodup ∧
    (∀ topic, topic ∈ rows.map (·.1) ↔ ∃ d pc, (topicClouds f topic).head? = some d ∧ getMessage d = .ok pc) ∧
    ∀ topic n n', (topic, n, n') ∈ rows → ∃ d pc, (topicClouds f topic).head? = some d ∧ getMessage d = .ok pc ∧ n = pc.data.length / pc.point_step.toNat ∧ n' ≤ n := by
  obtain ⟨a, b, c⟩ := explain_rows h
  refine ⟨b, fun topic => ⟨fun hm => ?_, fun ⟨d, pc, h1, h2⟩ => ?_⟩, fun topic n n' hm => ?_⟩
  · obtain ⟨x, hx, rfl⟩ := List.mem_map.1 hm
    obtain ⟨_, d, pc, h1, h2, _⟩ := a x hx
    rw [clouds_delivered hd] at h1
    exact ⟨d, pc, h1, h2⟩
  · exact c topic d pc (by simp) (by rw [clouds_delivered hd]; exact h1) h2
  · obtain ⟨_, d, pc, h1, h2, _, h3, h4⟩ := a _ hm
    rw [clouds_delivered hd] at h1
    exact ⟨d, pc, h1, h2, h3, h4⟩

/-- **C79, `--explain`, negation.** The claim that every readable file can be explained is false whatever the file looks like otherwise: a first cloud of a topic
with point step 0 (the throughput mode leaves it out) is divided by that 0. -/
theorem C79_explain_zero_step (voxel : BitVec 32 → BitVec 32 → BitVec 32) (o : Options) (f : File) (hd : DistinctIds f.channels) (topic d : List Byte) (pc : Pc2)
    (h1 : (topicClouds f topic).head? = some d) (h2 : getMessage d = .ok pc) (hz : pc.point_step = 0#32) (rows : List (List Byte × Nat × Nat)) :
    explain voxel o (clouds f) [] ≠ .ok rows := by
  intro h
  obtain ⟨a, b, c⟩ := explain_rows h
  have hm := c topic d pc (by simp) (by rw [clouds_delivered hd]; exact h1) h2
  obtain ⟨x, hx, rfl⟩ := List.mem_map.1 hm
  obtain ⟨_, d', pc', h3, h4, h5, _⟩ := a x hx
  rw [clouds_delivered hd, h1] at h3
  simp only [Option.some.injEq] at h3
  rw [← h3, h2] at h4
  simp only [Res.ok.injEq] at h4
  exact h5 (h4 ▸ hz)

/-! ## The fingerprints -/

/-- The fingerprint of some clouds, each decoded into a buffer of its own. -/
def freshHash (F : FloatOps) (C : Compressor) (h : BitVec 64) (s : Sample) : BitVec 64 :=
  match decodeCloud F C 0 s.info s.encoded (List.replicate s.needed 0#8) with
  | .ok out => fnv1a h out
  | _ => h

/-- **C79, the fingerprint.** For clouds without padding the fingerprint of a mode is that of its decoded clouds, each in a buffer of its own: it depends neither
on the other modes nor on what the shared buffer held. -/
theorem C79_fingerprint_partial (F : FloatOps) (C : Compressor) (limit : Nat) : ∀ (ss : List Sample) (bufs bufs' : Mode → List Byte) (hs hs' : Mode → BitVec 64),
    (∀ s ∈ ss, s.needed < 2 ^ 64 ∧ 3 ≤ s.info.version.toNat ∧ 0 < s.info.point_step.toNat ∧ (∀ f ∈ s.info.fields, f.offset.toNat ≠ 2 ^ 32 - 1) ∧
      ∀ p, p < s.needed → Declared s.info p) →
    hashAll F C limit ss bufs hs = .ok (bufs', hs') → ∀ m, hs' m = (ss.filter fun s => s.mode = m).foldl (freshHash F C) (hs m) := by
  intro ss
  induction ss with
  | nil => intro bufs bufs' hs hs' _ h m; simp only [hashAll, Res.ok.injEq, Prod.mk.injEq] at h; rw [← h.2]; rfl
  | cons s ss ih =>
    intro bufs bufs' hs hs' hw h m
    unfold hashAll at h
    split at h
    · simp at h
    obtain ⟨out, h1, h⟩ := Res.bind_eq_ok.1 h
    have := ih _ _ _ _ (fun x hx => hw x (List.mem_cons_of_mem _ hx)) h m
    obtain ⟨w1, w2, w3, w4, w5⟩ := hw s List.mem_cons_self
    have hlen : ((bufs s.mode ++ List.replicate (s.needed - (bufs s.mode).length) 0#8).take s.needed).length = s.needed := by
      simp only [List.length_take, List.length_append, List.length_replicate]
      omega
    have hsame := C49_same_output F C s.info s.encoded _ (List.replicate s.needed 0#8) out 0 w2 w3 (by rw [hlen, List.length_replicate]) (by rw [hlen]; exact w1) w4
      (fun p hp => by
        have hge : s.needed ≤ p := by
          rcases Nat.lt_or_ge p s.needed with h | h
          · exact absurd (w5 p h) hp
          · exact h
        rw [List.getElem?_eq_none (by rw [hlen]; exact hge), List.getElem?_eq_none (by simpa using hge)]) h1
    rw [this]
    by_cases hm : s.mode = m
    · subst hm
      rw [if_pos rfl, List.filter_cons_of_pos (by simp), List.foldl_cons]
      unfold freshHash
      rw [hsame]
    · rw [if_neg (Ne.symm hm), List.filter_cons_of_neg (by simpa using hm)]

/-- The claim for all clouds. -/
def FingerprintOfClouds : Prop := ∀ (F : FloatOps) (C : Compressor) (limit : Nat) (ss : List Sample) (bufs' : Mode → List Byte) (hs' : Mode → BitVec 64),
  hashAll F C limit ss (fun _ => []) (fun _ => 0xcbf29ce484222325#64) = .ok (bufs', hs') → ∀ m, hs' m = (ss.filter fun s => s.mode = m).foldl (freshHash F C) 0xcbf29ce484222325#64

/-- A cloud of one point with padding. -/
def gapInfo : EncodingInfo := { byteInfo4 with point_step := 2#32 }

/-- A cloud of two points without. -/
def fullInfo : EncodingInfo := { byteInfo4 with width := 2#32 }

/-- **C79, the fingerprint, negation.** With padding it is false: the padding shows the bytes of an earlier cloud, and they enter the fingerprint. -/
theorem C79_fingerprint_history : ¬ FingerprintOfClouds := by
  intro h
  have h1 : (match hashAll bitsOps storeComp (2 ^ 47) [⟨[], .v4, 2, 2, fullInfo, chunked [[5#8, 6#8]]⟩, ⟨[], .v4, 2, 2, gapInfo, chunked [[7#8]]⟩] (fun _ => [])
      (fun _ => 0xcbf29ce484222325#64) with
      | .ok (_, hs) => decide (hs .v4 ≠ [(⟨[], .v4, 2, 2, fullInfo, chunked [[5#8, 6#8]]⟩ : Sample), ⟨[], .v4, 2, 2, gapInfo, chunked [[7#8]]⟩].foldl (freshHash bitsOps storeComp) 0xcbf29ce484222325#64)
      | _ => false) = true := by decide +kernel
  cases e : hashAll bitsOps storeComp (2 ^ 47) [⟨[], .v4, 2, 2, fullInfo, chunked [[5#8, 6#8]]⟩, ⟨[], .v4, 2, 2, gapInfo, chunked [[7#8]]⟩] (fun _ => [])
      (fun _ => 0xcbf29ce484222325#64) with
  | throw m => rw [e] at h1; simp at h1
  | ub k => rw [e] at h1; simp at h1
  | ok r =>
    obtain ⟨b, hs⟩ := r
    rw [e] at h1
    simp only [decide_eq_true_eq] at h1
    exact h1 (h bitsOps storeComp _ _ b hs e .v4)

/-! ## Cases that meet the hypotheses -/

/-- The options of the examples. -/
def benchOptions : Options := { resolution := 0x3F800000#32 }

theorem bench_distinct (d : List Byte) : DistinctIds (oneCloud d).channels := by
  unfold DistinctIds oneCloud; simp

theorem bench_clouds (d : List Byte) : topicClouds (oneCloud d) (ascii "/points") = [d] := rfl

theorem bench_measured {d : List Byte} {pc : Pc2} (h : getMessage d = .ok pc) (h1 : pc.data ≠ []) (h2 : pc.point_step ≠ 0#32) (o : Options) :
    measured o (oneCloud d) (ascii "/points") = [pc] := by
  unfold measured
  rw [bench_clouds]
  have : sampled o [d] = [d] := by
    unfold sampled
    simp only [Mcap.number]
    rw [List.filter_cons_of_pos]
    · rfl
    · simp; omega
  rw [this]
  simp [measurable, h, h1, h2]

/-- The run on the file with one cloud gives a report. -/
theorem bench_runs : (Bench.run bitsText bitsOps storeComp noVoxel (2 ^ 47) benchOptions (oneCloud wasmRaw)).isOk = true := by decide +kernel

theorem bench_steady : Steady bitsText bitsOps storeComp noVoxel (2 ^ 47) benchOptions wasmPc := by
  apply steady_of
  have h : (modes.all fun m => match prepare noVoxel benchOptions m (resolvedFor benchOptions wasmPc) with
    | .ok (pc', info) => (encodeMode bitsText bitsOps storeComp (2 ^ 47) 0 info pc'.data).2.isOk | _ => true) = true := by decide +kernel
  rw [List.all_eq_true] at h
  intro m
  exact h m (by cases m <;> decide)

example : ∃ r, Bench.run bitsText bitsOps storeComp noVoxel (2 ^ 47) benchOptions (oneCloud wasmRaw) = .ok r ∧
    (r.stats (ascii "/points")).messages = 1 ∧ (r.stats (ascii "/points")).points = 3 ∧ (r.stats (ascii "/points")).inBytes = 96 ∧
    ((r.stats (ascii "/points")).per .v5).encIn = 96 := by
  cases e : Bench.run bitsText bitsOps storeComp noVoxel (2 ^ 47) benchOptions (oneCloud wasmRaw) with
  | throw m => have := bench_runs; rw [e] at this; simp at this
  | ub k => have := bench_runs; rw [e] at this; simp at this
  | ok r =>
    obtain ⟨a, b, c⟩ := C79_measured _ _ _ _ _ _ _ r (bench_distinct _) e (ascii "/points")
    have hm := bench_measured wasmRaw_read (by decide +kernel) (by decide +kernel) benchOptions
    obtain ⟨_, d⟩ := C79_sizes_partial _ _ _ storeComp_mono _ _ _ _ r (bench_distinct _) e (ascii "/points") .v5 (by
      rw [hm]; intro pc hp; rw [List.mem_singleton.1 hp]; exact bench_steady)
    rw [hm] at a b c d
    have hs : (ownBytes bitsText bitsOps storeComp noVoxel (2 ^ 47) benchOptions .v5 wasmPc).isSome = true := by decide +kernel
    refine ⟨r, rfl, a, ?_, ?_, ?_⟩
    · rw [b]; decide +kernel
    · rw [c]; decide +kernel
    · rw [d]
      obtain ⟨x, hx⟩ := Option.isSome_iff_exists.1 hs
      simp only [List.map_cons, List.map_nil, hx]
      decide +kernel

/-- Every third of at most five messages. -/
example : sampled { benchOptions with max := 5, every := 3 } [10, 11, 12, 13, 14, 15, 16] = [10, 13] := rfl

/-- A cloud with a byte too many. -/
def raggedPc : Pc2 := { wasmPc with data := wasmPc.data ++ [0#8] }
def raggedRaw : List Byte := match Cdr.encodeMsg raggedPc.cdr pcTy (pcVal raggedPc raggedPc.data) with | .ok x => x ++ List.replicate 200 0#8 | _ => []
theorem raggedRaw_read : getMessage raggedRaw = .ok raggedPc := by decide +kernel
theorem ragged_runs : (Bench.run bitsText bitsOps storeComp noVoxel (2 ^ 47) benchOptions (oneCloud raggedRaw)).isOk = true := by decide +kernel

example : ∃ r, Bench.run bitsText bitsOps storeComp noVoxel (2 ^ 47) benchOptions (oneCloud raggedRaw) = .ok r ∧
    ((r.stats (ascii "/points")).per .v4).out = 0 ∧ (r.stats (ascii "/points")).inBytes = 97 := by
  cases e : Bench.run bitsText bitsOps storeComp noVoxel (2 ^ 47) benchOptions (oneCloud raggedRaw) with
  | throw m => have := ragged_runs; rw [e] at this; simp at this
  | ub k => have := ragged_runs; rw [e] at this; simp at this
  | ok r =>
    have hm := bench_measured raggedRaw_read (by decide +kernel) (by decide +kernel) benchOptions
    obtain ⟨_, _, c⟩ := C79_measured _ _ _ _ _ _ _ r (bench_distinct _) e (ascii "/points")
    obtain ⟨a, _⟩ := C79_failures_flatter _ _ _ _ _ _ _ r (bench_distinct _) e (ascii "/points") .v4 rfl
      (by rw [hm]; intro pc hp; rw [List.mem_singleton.1 hp]; decide +kernel) (by rw [hm]; simp)
    refine ⟨r, rfl, a, ?_⟩
    rw [c, hm]
    decide +kernel

example : ∃ r, Bench.run bitsText bitsOps storeComp noVoxel (2 ^ 47) { benchOptions with only := some .v5 } (oneCloud wasmRaw) = .ok r ∧
    ((r.stats (ascii "/points")).per .v4).out = 0 := by
  have h : (Bench.run bitsText bitsOps storeComp noVoxel (2 ^ 47) { benchOptions with only := some .v5 } (oneCloud wasmRaw)).isOk = true := by decide +kernel
  cases e : Bench.run bitsText bitsOps storeComp noVoxel (2 ^ 47) { benchOptions with only := some .v5 } (oneCloud wasmRaw) with
  | throw m => rw [e] at h; simp at h
  | ub k => rw [e] at h; simp at h
  | ok r => exact ⟨r, rfl, (C79_only _ _ _ _ _ _ _ r e (ascii "/points") .v4 .v5 rfl (by decide)).1⟩

/-- Three points that are said to be 2 to the power 51. -/
def hugePc : Pc2 := { wasmPc with width := 0x80000000#32, height := 0x100000#32, row_step := 0#32 }
def hugeRaw : List Byte := match Cdr.encodeMsg hugePc.cdr pcTy (pcVal hugePc hugePc.data) with | .ok x => x ++ List.replicate 200 0#8 | _ => []
theorem hugeRaw_read : getMessage hugeRaw = .ok hugePc := by decide +kernel

theorem huge_steady : Steady bitsText bitsOps storeComp noVoxel (2 ^ 47) benchOptions hugePc := by
  apply steady_of
  have h : (modes.all fun m => match prepare noVoxel benchOptions m (resolvedFor benchOptions hugePc) with
    | .ok (pc', info) => (encodeMode bitsText bitsOps storeComp (2 ^ 47) 0 info pc'.data).2.isOk | _ => true) = true := by decide +kernel
  rw [List.all_eq_true] at h
  intro m
  exact h m (by cases m <;> decide)

example : ∀ r, Bench.run bitsText bitsOps storeComp noVoxel (2 ^ 47) benchOptions (oneCloud hugeRaw) ≠ .ok r := by
  intro r
  have h : (match ownBytes bitsText bitsOps storeComp noVoxel (2 ^ 47) benchOptions .v4 hugePc with
    | some b => (match decodeHeader bitsText b with | .ok (info, _) => decide (2 ^ 47 < needed info) | _ => false)
    | none => false) = true := by decide +kernel
  cases hb : ownBytes bitsText bitsOps storeComp noVoxel (2 ^ 47) benchOptions .v4 hugePc with
  | none => rw [hb] at h; simp at h
  | some b =>
    rw [hb] at h
    simp only at h
    cases hh : decodeHeader bitsText b with
    | throw m => rw [hh] at h; simp at h
    | ub k => rw [hh] at h; simp at h
    | ok x =>
      obtain ⟨info, payload⟩ := x
      rw [hh] at h
      simp only [decide_eq_true_eq] at h
      exact C79_lying_message _ _ _ storeComp_mono _ _ _ _ (bench_distinct _) rfl rfl (ascii "/points") hugePc
        (by rw [bench_measured hugeRaw_read (by decide +kernel) (by decide +kernel)]; simp) huge_steady .v4 b payload info hb hh h r

example : explain noVoxel benchOptions (clouds (oneCloud wasmRaw)) [] = .ok [(ascii "/points", 3, 1)] := by decide +kernel

/-- A cloud of point step 0. -/
def zeroPc : Pc2 := { wasmPc with point_step := 0#32, row_step := 0#32 }
def zeroRaw : List Byte := match Cdr.encodeMsg zeroPc.cdr pcTy (pcVal zeroPc zeroPc.data) with | .ok x => x ++ List.replicate 200 0#8 | _ => []
theorem zeroRaw_read : getMessage zeroRaw = .ok zeroPc := by decide +kernel

example : ∀ rows, explain noVoxel benchOptions (clouds (oneCloud zeroRaw)) [] ≠ .ok rows :=
  C79_explain_zero_step _ _ _ (bench_distinct _) (ascii "/points") zeroRaw zeroPc rfl zeroRaw_read rfl

/-- The hypotheses of the fingerprint theorem. -/
example : ∀ hs bufs, hashAll bitsOps storeComp (2 ^ 47) [⟨[], .v4, 2, 2, fullInfo, chunked [[5#8, 6#8]]⟩, ⟨[], .v4, 1, 1, byteInfo4, chunked [[7#8]]⟩] (fun _ => [])
      (fun _ => 0xcbf29ce484222325#64) = .ok (bufs, hs) → hs .v4 = fnv1a (fnv1a 0xcbf29ce484222325#64 [5#8, 6#8]) [7#8] := by
  intro hs bufs h
  have := C79_fingerprint_partial bitsOps storeComp (2 ^ 47) _ _ _ _ _ (by
    intro s hs
    simp only [List.mem_cons, List.not_mem_nil, or_false] at hs
    rcases hs with rfl | rfl
    · refine ⟨by decide, by decide, by decide, by decide, fun p hp => ?_⟩
      exact ⟨p, by simpa [fullInfo, byteInfo4] using hp, _, List.mem_cons_self, by simp [fullInfo, byteInfo4], by simp [fullInfo, byteInfo4, sizeOf]⟩
    · refine ⟨by decide, by decide, by decide, by decide, fun p hp => ?_⟩
      exact ⟨p, by simpa [byteInfo4] using hp, _, List.mem_cons_self, by simp [byteInfo4], by simp [byteInfo4, sizeOf]⟩) h .v4
  rw [this]
  decide +kernel

example : (hashAll bitsOps storeComp (2 ^ 47) [⟨[], .v4, 2, 2, fullInfo, chunked [[5#8, 6#8]]⟩, ⟨[], .v4, 1, 1, byteInfo4, chunked [[7#8]]⟩] (fun _ => [])
      (fun _ => 0xcbf29ce484222325#64)).isOk = true := by decide +kernel

/-! ## What a mode is, what is decoded, and the hash itself -/

/-- **C79, the modes.** The bytes counted for a mode are the library's own: those of an encoder for the cloud (after the visualisation step in the two `viz` modes),
lossy, with zstd if and only if it was asked for, in the format version of the mode, header included. -/
theorem C79_mode_bytes (T : FloatText) (F : FloatOps) (C : Compressor) (voxel : BitVec 32 → BitVec 32 → BitVec 32) (limit : Nat) (o : Options) (m : Mode) (pc : Pc2)
    (b : List Byte) (h : ownBytes T F C voxel limit o m pc = some b) :
    (o.only = none ∨ o.only = some m) ∧
    ∃ (cloud : Pc2) (info : EncodingInfo) (enc enc' : Encoder) (room : Nat),
      (if m = .v4viz ∨ m = .v5viz then applyViz voxel (resolvedFor o pc) = .ok cloud else cloud = resolvedFor o pc) ∧
      info = { toEncodingInfo cloud with
               encoding_opt := .lossy
               compression_opt := if o.zstd then .zstd else .none
               version := if m = .v4 ∨ m = .v4viz then 4#8 else 5#8 } ∧
      mkEncoder F info (encodeHeaderYaml T info) = .ok enc ∧ encodeView F C enc cloud.data room true = .ok (enc', b, b.length) := by
  unfold ownBytes at h
  by_cases ho : o.only ≠ none ∧ o.only ≠ some m
  · rw [if_pos ho] at h; simp at h
  rw [if_neg ho] at h
  refine ⟨?_, ?_⟩
  · by_cases h0 : o.only = none
    · exact .inl h0
    · by_cases h1 : o.only = some m
      · exact .inr h1
      · exact absurd ⟨h0, h1⟩ ho
  cases hp : prepare voxel o m (resolvedFor o pc) with
  | throw e => rw [hp] at h; simp at h
  | ub k => rw [hp] at h; simp at h
  | ok x =>
    obtain ⟨cloud, info⟩ := x
    rw [hp] at h
    simp only at h
    cases he : (encodeMode T F C limit 0 info cloud.data).2 with
    | throw e => rw [he] at h; simp at h
    | ub k => rw [he] at h; simp at h
    | ok b' =>
      rw [he] at h
      simp only [Option.some.injEq] at h
      subst h
      have hi := prepare_option hp
      have hc : if m = .v4viz ∨ m = .v5viz then applyViz voxel (resolvedFor o pc) = .ok cloud else cloud = resolvedFor o pc := by
        unfold prepare at hp
        have key : ∀ q : Pc2, (applyViz voxel (resolvedFor o pc)).bind (fun pc' => .ok (pc', configure o m (toEncodingInfo pc'))) = Res.ok (cloud, info) →
            applyViz voxel (resolvedFor o pc) = .ok cloud := by
          intro _ h
          obtain ⟨p, h1, h⟩ := Res.bind_eq_ok.1 h
          simp only [Res.ok.injEq, Prod.mk.injEq] at h
          rw [h1, h.1]
        cases m with
        | v4 => simp only [Mode.viz, Bool.false_eq_true, if_false, Res.ok.injEq, Prod.mk.injEq] at hp; simp [hp.1]
        | v5 => simp only [Mode.viz, Bool.false_eq_true, if_false, Res.ok.injEq, Prod.mk.injEq] at hp; simp [hp.1]
        | v4viz => simp only [Mode.viz, if_true] at hp; simpa using key pc hp
        | v5viz => simp only [Mode.viz, if_true] at hp; simpa using key pc hp
      unfold encodeMode at he
      cases h1 : mkEncoder F info (encodeHeaderYaml T info) with
      | throw e => rw [h1] at he; simp at he
      | ub k => rw [h1] at he; simp at he
      | ok enc =>
        rw [h1] at he
        simp only at he
        split at he
        · simp at he
        · simp at he
        split at he
        · simp at he
        split at he
        · simp at he
        · simp at he
        next enc' out n h4 =>
        simp only [Res.ok.injEq] at he
        obtain ⟨hs, _, _⟩ := C23_view_size _ _ _ _ _ _ _ _ _ h4
        have hb : b' = out := by rw [← he, hs, List.take_length]
        subst hb
        refine ⟨cloud, info, enc, enc', _, hc, ?_, h1, by rw [← hs]; exact h4⟩
        rw [hi]
        cases m <;> rfl

/-- Whether some encoded bytes are decoded into a buffer of the size their header declares. -/
def decodes (T : FloatText) (F : FloatOps) (C : Compressor) (b : List Byte) : Bool :=
  match decodeHeader T b with
  | .ok (info, payload) =>
    (decodeCloud F C 0 info payload (List.replicate (info.width.toNat * info.height.toNat * info.point_step.toNat % 2 ^ 64) 0#8)).isOk
  | _ => false

theorem decodeAll_modes {T : FloatText} {F : FloatOps} {C : Compressor} {limit : Nat} {o : Options} {topic : List Byte} {raw : Nat} (hr : o.replay = false) :
    ∀ {es : List (Mode × List Byte)} {ms : List Mode} {ss : List Sample}, decodeAll T F C limit o topic raw es = .ok (ms, ss) →
    ms = (es.filter fun e => decodes T F C e.2).map (·.1) := by
  intro es
  induction es with
  | nil => intro ms ss h; simp only [decodeAll, Res.ok.injEq, Prod.mk.injEq] at h; rw [← h.1]; rfl
  | cons e es ih =>
    intro ms ss h
    obtain ⟨m, b⟩ := e
    unfold decodeAll at h
    cases hh : decodeHeader T b with
    | ub k => rw [hh] at h; simp at h
    | throw e =>
      rw [hh] at h
      rw [List.filter_cons_of_neg (by simp [decodes, hh])]
      exact ih h
    | ok x =>
      obtain ⟨info, payload⟩ := x
      rw [hh] at h
      simp only at h
      rw [if_neg (by simp [hr])] at h
      split at h
      · simp at h
      have hd : decodes T F C b = (decodeCloud F C 0 info payload (List.replicate (needed info) 0#8)).isOk := by
        unfold decodes; rw [hh]; rfl
      cases hc : decodeCloud F C 0 info payload (List.replicate (needed info) 0#8) with
      | ub k => rw [hc] at h; simp at h
      | throw e =>
        rw [hc] at h
        rw [List.filter_cons_of_neg (by simp only; rw [hd, hc]; simp [Res.isOk])]
        exact ih h
      | ok y =>
        rw [hc] at h
        obtain ⟨⟨ms', ss'⟩, h1, h⟩ := Res.bind_eq_ok.1 h
        simp only [Res.ok.injEq, Prod.mk.injEq] at h
        rw [List.filter_cons_of_pos (by simp only; rw [hd, hc]; simp [Res.isOk]), List.map_cons, ← h.1, ih h1]

theorem own_decoded {T : FloatText} {F : FloatOps} {C : Compressor} {g : Mode → Option (List Byte)} (m : Mode) :
    ((((modes.filterMap fun x => (g x).map fun b => (x, b)).filter fun e => decodes T F C e.2).map (·.1)).filter fun x => x = m).length =
      match g m with | some b => if decodes T F C b then 1 else 0 | none => 0 := by
  have e : ∀ l : List (Mode × List Byte), ((l.filter fun e => decodes T F C e.2).map (·.1)).filter (fun x => decide (x = m)) =
      ((l.filter fun e => e.1 = m).filter fun e => decodes T F C e.2).map (·.1) := by
    intro l
    rw [List.filter_map, List.filter_filter, List.filter_filter]
    congr 2
    funext x
    simp [Bool.and_comm]
  rw [e, own_filter]
  cases g m with
  | none => rfl
  | some b => cases hd : decodes T F C b <;> simp [hd]

theorem loop_decoded {T : FloatText} {F : FloatOps} {C : Compressor} (hC : C.Mono) {voxel : BitVec 32 → BitVec 32 → BitVec 32} {limit : Nat} {o : Options} (t : List Byte)
    (m : Mode) (hr : o.replay = false) : ∀ {ms : List (List Byte × List Byte)} {st st' : State}, Bench.loop T F C voxel limit o ms st = .ok st' →
    (∀ pc ∈ (selectFrom o (st.seen t) ((ms.filter fun e => e.1 = t).map (·.2))).filterMap measurable, Steady T F C voxel limit o pc) →
    let l := (selectFrom o (st.seen t) ((ms.filter fun e => e.1 = t).map (·.2))).filterMap measurable
    ((st'.stats t).per m).decIn = ((st.stats t).per m).decIn + if o.encodeOnly then 0 else
      (l.map fun pc => match ownBytes T F C voxel limit o m pc with | some b => if decodes T F C b then pc.data.length else 0 | none => 0).sum := by
  intro ms
  induction ms with
  | nil =>
    intro st st' h _
    simp only [Bench.loop, Res.ok.injEq] at h
    subst h
    simp [selectFrom]
  | cons e ms ih =>
    intro st st' h hst
    obtain ⟨topic, data⟩ := e
    obtain ⟨st1, h1, h⟩ := Res.bind_eq_ok.1 h
    have := ih h
    obtain ⟨hseen, hc⟩ := step_inv h1
    by_cases ht : topic = t
    · subst ht
      rw [List.filter_cons_of_pos (by simp), List.map_cons] at hst ⊢
      rw [show st1.seen topic = st.seen topic + 1 from by rw [hseen]; simp] at this
      unfold selectFrom at hst ⊢
      rcases hc with ⟨hsk, e1, _, _⟩ | ⟨pc, enc, dec, sm, hsk, hm, henc, hdec, e1, _⟩
      · rw [e1] at this
        by_cases hs : skipped o (st.seen topic + 1) = true
        · rw [if_pos hs] at hst ⊢; exact this hst
        · rw [if_neg hs, List.filterMap_cons_none (hsk.resolve_left hs)] at hst ⊢; exact this hst
      · rw [if_neg (by simp [hsk]), List.filterMap_cons_some hm] at hst ⊢
        have hst' := this fun pc' hp => hst pc' (List.mem_cons_of_mem _ hp)
        have hown := encodeAll_own hC (hst pc List.mem_cons_self) modes_nodup henc
        rw [e1] at hst'
        simp only [if_true, account] at hst'
        simp only [List.map_cons, List.sum_cons]
        rw [hst']
        by_cases ho : o.encodeOnly = true
        · rw [if_pos ho] at hdec
          simp only [Res.ok.injEq, Prod.mk.injEq] at hdec
          rw [if_pos ho, if_pos ho, ← hdec.1]
          simp
        · rw [if_neg ho] at hdec
          rw [if_neg ho, if_neg ho, decodeAll_modes hr hdec, hown, own_decoded]
          cases ownBytes T F C voxel limit o m pc with
          | none => simp
          | some b => cases hd : decodes T F C b <;> simp [hd] <;> omega
    · rw [List.filter_cons_of_neg (by simpa using ht)] at hst ⊢
      rw [show st1.seen t = st.seen t from by rw [hseen]; simp [Ne.symm ht]] at this
      rcases hc with ⟨_, e1, _, _⟩ | ⟨pc, enc, dec, sm, _, _, _, _, e1, _⟩
      · rw [e1] at this; exact this hst
      · rw [e1] at this
        simp only [if_neg (Ne.symm ht)] at this
        exact this hst

/-- **C79, what is decoded.** Without the replay the bytes a mode is said to have decoded are those of the measured clouds whose encoded form, in a buffer of its
own, can be decoded into a buffer of the declared size; none with `--encode-only`. -/
theorem C79_decoded_partial (T : FloatText) (F : FloatOps) (C : Compressor) (hC : C.Mono) (voxel : BitVec 32 → BitVec 32 → BitVec 32) (limit : Nat) (o : Options)
    (f : File) (r : Report) (hd : DistinctIds f.channels) (hr : o.replay = false) (h : Bench.run T F C voxel limit o f = .ok r) (topic : List Byte) (m : Mode)
    (hst : ∀ pc ∈ measured o f topic, Steady T F C voxel limit o pc) :
    ((r.stats topic).per m).decIn = if o.encodeOnly then 0 else
      ((measured o f topic).map fun pc => match ownBytes T F C voxel limit o m pc with | some b => if decodes T F C b then pc.data.length else 0 | none => 0).sum := by
  obtain ⟨st, h1, h2, -⟩ := run_inv h
  have key := loop_decoded hC topic m hr h1
  rw [clouds_delivered hd, selectFrom_sampled] at key
  have := key hst
  rw [(h2 hr).1]
  unfold measured
  rw [this]
  simp

/-- **C79, the hash.** The fingerprints are 64-bit FNV-1a: the hash of no bytes is the seed, and one more byte is first added bitwise and then multiplied in; the
seed and the prime are those of the published test values. -/
theorem C79_fnv (h : BitVec 64) (data : List Byte) (b : Byte) :
    fnv1a h [] = h ∧ fnv1a h (data ++ [b]) = (fnv1a h data ^^^ b.setWidth 64) * 0x100000001b3#64 ∧
    fnv1a 0xcbf29ce484222325#64 (ascii "a") = 0xaf63dc4c8601ec8c#64 ∧ fnv1a 0xcbf29ce484222325#64 (ascii "foobar") = 0x85944171f73967e8#64 := by
  refine ⟨rfl, ?_, by decide +kernel, by decide +kernel⟩
  unfold fnv1a
  rw [List.foldl_append]
  rfl

example : ∃ b, ownBytes bitsText bitsOps storeComp noVoxel (2 ^ 47) benchOptions .v4 wasmPc = some b ∧ decodes bitsText bitsOps storeComp b = true := by
  have h : (match ownBytes bitsText bitsOps storeComp noVoxel (2 ^ 47) benchOptions .v4 wasmPc with
    | some b => decodes bitsText bitsOps storeComp b | none => false) = true := by decide +kernel
  cases e : ownBytes bitsText bitsOps storeComp noVoxel (2 ^ 47) benchOptions .v4 wasmPc with
  | none => rw [e] at h; simp at h
  | some b => rw [e] at h; exact ⟨b, rfl, h⟩

example : ∃ r, Bench.run bitsText bitsOps storeComp noVoxel (2 ^ 47) benchOptions (oneCloud wasmRaw) = .ok r ∧
    ((r.stats (ascii "/points")).per .v5viz).decIn = 96 := by
  cases e : Bench.run bitsText bitsOps storeComp noVoxel (2 ^ 47) benchOptions (oneCloud wasmRaw) with
  | throw m => have := bench_runs; rw [e] at this; simp at this
  | ub k => have := bench_runs; rw [e] at this; simp at this
  | ok r =>
    have hm := bench_measured wasmRaw_read (by decide +kernel) (by decide +kernel) benchOptions
    have d := C79_decoded_partial _ _ _ storeComp_mono _ _ _ _ r (bench_distinct _) rfl e (ascii "/points") .v5viz (by
      rw [hm]; intro pc hp; rw [List.mem_singleton.1 hp]; exact bench_steady)
    rw [hm] at d
    refine ⟨r, rfl, ?_⟩
    rw [d]
    decide +kernel

end Cloudini.Props
