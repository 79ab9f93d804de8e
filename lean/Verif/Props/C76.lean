import Verif.Model.Web
import Verif.Props.C75
import Verif.Props.C73
import Verif.Props.C11_C12

/-!
# C76: the figures on the web page

`analyze` is `analyzeFile` of the page.  `delivered f` (Spec/Mcap) is what a reader gets from the file.
-/

namespace Cloudini.Props

open Cloudini.Ros Cloudini.Mcap Cloudini.Web
open Cloudini.Foxglove (Heap Malloc)

/-- The bytes of the messages of a topic. -/
def topicBytes (f : File) (topic : List Byte) : List (List Byte) := ((delivered f).filter fun v => v.topic = topic).map (·.data)

/-- The bytes of the clouds of a file. -/
def cloudBytes (f : File) : List (List Byte) := ((delivered f).filter fun v => v.schema.name = pointcloudName).map (·.data)

/-- The sum of the sizes. -/
def totalLength (l : List (List Byte)) : Nat := (l.map List.length).sum

/-- Every topic is used by one channel. -/
def DistinctTopics (f : File) : Prop := (f.channels.map (·.2.topic)).Nodup

/-! ### the loop -/

theorem step_counts {m : Module} {t t' : Tally} {d : List Byte} (h : Web.step m t d = .ok t') : t'.count = t.count + 1 ∧ t'.total = t.total + d.length := by
  unfold Web.step at h
  simp only at h
  split at h
  · simp only [Res.ok.injEq] at h; subst h; exact ⟨rfl, rfl⟩
  split at h
  · simp at h
  split at h
  · simp at h
  · split at h <;> (simp only [Res.ok.injEq] at h; subst h; exact ⟨rfl, rfl⟩)
  · simp only [Res.ok.injEq] at h; subst h; exact ⟨rfl, rfl⟩

theorem loop_counts {m : Module} : ∀ {ds : List (List Byte)} {t t' : Tally}, Web.loop m ds t = .ok t' →
    t'.count = t.count + ds.length ∧ t'.total = t.total + totalLength ds := by
  intro ds
  induction ds with
  | nil => intro t t' h; simp only [Web.loop, Res.ok.injEq] at h; subst h; simp [totalLength]
  | cons d ds ih =>
    intro t t' h
    obtain ⟨t1, h1, h⟩ := Res.bind_eq_ok.1 h
    obtain ⟨a1, a2⟩ := step_counts h1
    obtain ⟨b1, b2⟩ := ih h
    refine ⟨by rw [b1, a1, List.length_cons]; omega, by rw [b2, a2]; simp [totalLength]; omega⟩

theorem rows_spec {m : Module} {f : File} : ∀ {ts : List (List Byte)} {h h' : Heap} {rs : List Row}, Web.rows m f ts h = .ok (rs, h') →
    rs.map (fun r => (r.topic, r.count, r.total)) = ts.map fun t => (t, (ofTopic f t).length, totalLength (ofTopic f t)) := by
  intro ts
  induction ts with
  | nil => intro h h' rs e; simp only [Web.rows, Res.ok.injEq, Prod.mk.injEq] at e; rw [← e.1]; rfl
  | cons t ts ih =>
    intro h h' rs e
    obtain ⟨r, e1, e⟩ := Res.bind_eq_ok.1 e
    obtain ⟨⟨rs', h2⟩, e2, e⟩ := Res.bind_eq_ok.1 e
    simp only [Res.ok.injEq, Prod.mk.injEq] at e
    rw [← e.1]
    obtain ⟨c1, c2⟩ := loop_counts e1
    rw [List.map_cons, List.map_cons, ih e2, c1, c2]
    simp

theorem analyze_inv {m : Module} {f : File} {h : Heap} {r : Report} (e : analyze m f h = .ok r) :
    Web.rows m f (Web.cloudTopics f) h = .ok (r.rows, r.heap) ∧ r.total = (r.rows.map (·.total)).sum ∧ r.compressed = (r.rows.map (·.compressed)).sum := by
  obtain ⟨⟨rs, h'⟩, e1, e⟩ := Res.bind_eq_ok.1 e
  simp only [Res.ok.injEq] at e
  subst e
  exact ⟨e1, rfl, rfl⟩

theorem ofTopic_seen {f : File} (hs : AllSchemas f) (t : List Byte) : ofTopic f t = topicBytes f t := by
  unfold ofTopic topicBytes delivered
  induction f.messages with
  | nil => rfl
  | cons m ms ih =>
    rw [List.filterMap_cons]
    cases h1 : find f.channels m.channel with
    | none =>
      have : see f m = none := by unfold see; rw [h1]
      rw [List.filterMap_cons_none this]
      exact ih
    | some c =>
      have hc : (find f.schemas c.schema).isSome := by
        unfold find at h1
        obtain ⟨e, he, hec⟩ := Option.map_eq_some_iff.1 h1
        rw [← hec]
        exact hs e (List.mem_of_find?_eq_some he)
      obtain ⟨s, hsome⟩ := Option.isSome_iff_exists.1 hc
      have : see f m = some ⟨c.topic, c.encoding, s, m.sequence, m.logTime, m.publishTime, m.data⟩ := by unfold see; rw [h1]; simp only [hsome]
      rw [List.filterMap_cons_some this]
      by_cases ht : c.topic = t
      · rw [List.filter_cons_of_pos (by simpa using ht), List.map_cons, ← ih]
        simp [ht]
      · rw [List.filter_cons_of_neg (by simpa using ht), ← ih]
        simp [ht]

/-- **C76, the rows.** Whatever the module does: one row for each channel with clouds, in their order, with the number of the messages of its topic and the sum
of their sizes. -/
theorem C76_rows (m : Module) (f : File) (h : Heap) (r : Report) (hs : AllSchemas f) (e : analyze m f h = .ok r) :
    r.rows.map (fun r => (r.topic, r.count, r.total)) =
      ((channelsOf f).filter fun c => (c.2.2.map (·.name)) = some pointcloudName).map fun c => (c.1, (topicBytes f c.1).length, totalLength (topicBytes f c.1)) := by
  rw [rows_spec (analyze_inv e).1]
  have : Web.cloudTopics f = ((channelsOf f).filter fun c => (c.2.2.map (·.name)) = some pointcloudName).map (·.1) := by
    unfold Web.cloudTopics channelsOf
    induction f.channels with
    | nil => rfl
    | cons c cs ih =>
      rw [List.filterMap_cons, List.map_cons]
      cases h1 : find f.schemas c.2.schema with
      | none => rw [List.filter_cons_of_neg (by simp), ← ih]
      | some s =>
        by_cases hn : s.name = pointcloudName
        · rw [List.filter_cons_of_pos (by simp [hn]), List.map_cons, ← ih]
          simp [hn]
        · rw [List.filter_cons_of_neg (by simp [hn]), ← ih]
          simp [hn]
  rw [this, List.map_map]
  apply List.map_congr_left
  intro c _
  simp only [Function.comp_apply, ofTopic_seen hs]

/-! ### the totals -/

/-- Summing by topic over distinct topics is summing over the messages of these topics. -/
theorem sum_by_topic (l : List Seen) (g : List Byte → Nat) : ∀ ts : List (List Byte), ts.Nodup →
    (ts.map fun t => (((l.filter fun v => v.topic = t).map (·.data)).map g).sum).sum = (((l.filter fun v => decide (v.topic ∈ ts)).map (·.data)).map g).sum := by
  intro ts hnd
  induction ts with
  | nil => simp
  | cons t ts ih =>
    rw [List.nodup_cons] at hnd
    rw [List.map_cons, List.sum_cons, ih hnd.2]
    clear ih
    induction l with
    | nil => rfl
    | cons v l ih2 =>
      by_cases h1 : v.topic = t
      · have h2 : v.topic ∉ ts := by rw [h1]; exact hnd.1
        rw [List.filter_cons_of_pos (by simpa using h1), List.filter_cons_of_neg (by simpa using h2), List.filter_cons_of_pos (by simp [h1])]
        simp only [List.map_cons, List.sum_cons]
        omega
      · by_cases h2 : v.topic ∈ ts
        · rw [List.filter_cons_of_neg (by simpa using h1), List.filter_cons_of_pos (by simpa using h2), List.filter_cons_of_pos (by simp [h2])]
          simp only [List.map_cons, List.sum_cons]
          omega
        · rw [List.filter_cons_of_neg (by simpa using h1), List.filter_cons_of_neg (by simpa using h2), List.filter_cons_of_neg (by simp [h1, h2])]
          exact ih2

theorem cloudTopics_sublist (f : File) : (Web.cloudTopics f).Sublist (f.channels.map (·.2.topic)) := by
  unfold Web.cloudTopics
  induction f.channels with
  | nil => simp
  | cons c cs ih =>
    rw [List.filterMap_cons, List.map_cons]
    cases find f.schemas c.2.schema with
    | none => exact List.Sublist.cons _ ih
    | some s =>
      by_cases hn : s.name = pointcloudName
      · simp only [hn, if_true]; exact List.Sublist.cons_cons _ ih
      · simp only [hn, if_false]; exact List.Sublist.cons _ ih

theorem nodup_topic {l : List (Nat × Channel)} (hd : (l.map (·.2.topic)).Nodup) {a b : Nat × Channel} (ha : a ∈ l) (hb : b ∈ l) (h : a.2.topic = b.2.topic) : a = b := by
  induction l with
  | nil => simp at ha
  | cons c cs ih =>
    rw [List.map_cons, List.nodup_cons] at hd
    rcases List.mem_cons.1 ha with rfl | ha'
    · rcases List.mem_cons.1 hb with rfl | hb'
      · rfl
      · exact absurd (h ▸ List.mem_map_of_mem (f := (·.2.topic)) hb') hd.1
    · rcases List.mem_cons.1 hb with rfl | hb'
      · exact absurd (h ▸ List.mem_map_of_mem (f := (·.2.topic)) ha') hd.1
      · exact ih hd.2 ha' hb'

theorem cloud_iff_topic {f : File} (ht : DistinctTopics f) {v : Seen} (hv : v ∈ delivered f) : v.topic ∈ Web.cloudTopics f ↔ v.schema.name = pointcloudName := by
  obtain ⟨m, _, hm⟩ := List.mem_filterMap.1 hv
  unfold see at hm
  cases h1 : find f.channels m.channel with
  | none => simp [h1] at hm
  | some c =>
    simp only [h1] at hm
    cases h2 : find f.schemas c.schema with
    | none => simp [h2] at hm
    | some s =>
      simp only [h2, Option.some.injEq] at hm
      subst hm
      have hc : ∃ i, (i, c) ∈ f.channels := by
        unfold find at h1
        obtain ⟨e, he, hec⟩ := Option.map_eq_some_iff.1 h1
        exact ⟨e.1, by rw [← hec]; exact List.mem_of_find?_eq_some he⟩
      obtain ⟨i, hi⟩ := hc
      unfold Web.cloudTopics
      rw [List.mem_filterMap]
      constructor
      · rintro ⟨a, ha, e⟩
        cases h3 : find f.schemas a.2.schema with
        | none => simp [h3] at e
        | some s' =>
          rw [h3] at e
          simp only at e
          split at e
          · next hn =>
            simp only [Option.some.injEq] at e
            have := nodup_topic ht ha hi e
            subst this
            rw [h2] at h3
            simp only [Option.some.injEq] at h3
            subst h3
            exact hn
          · simp at e
      · intro hn
        exact ⟨(i, c), hi, by simp only [h2]; rw [if_pos hn]⟩

theorem clouds_by_topic {f : File} (hs : AllSchemas f) (ht : DistinctTopics f) (g : List Byte → Nat) :
    ((Web.cloudTopics f).map fun t => ((ofTopic f t).map g).sum).sum = ((cloudBytes f).map g).sum := by
  have h1 : ((Web.cloudTopics f).map fun t => ((ofTopic f t).map g).sum) =
      (Web.cloudTopics f).map fun t => ((((delivered f).filter fun v => v.topic = t).map (·.data)).map g).sum := by
    apply List.map_congr_left
    intro t _
    rw [ofTopic_seen hs]; rfl
  rw [h1, sum_by_topic _ g _ ((cloudTopics_sublist f).nodup ht)]
  unfold cloudBytes
  rw [List.filter_congr fun v hv => decide_eq_decide.2 (cloud_iff_topic ht hv)]

/-- **C76, the totals.** If every topic has one channel: the grand total is the sum of the sizes of all clouds of the file, each counted once. -/
theorem C76_totals (m : Module) (f : File) (h : Heap) (r : Report) (hs : AllSchemas f) (ht : DistinctTopics f) (e : analyze m f h = .ok r) :
    r.total = totalLength (cloudBytes f) ∧ (r.rows.map (·.count)).sum = (cloudBytes f).length := by
  obtain ⟨h1, h2, _⟩ := analyze_inv e
  have hr := rows_spec h1
  constructor
  · rw [h2]
    have := congrArg (fun l => (l.map fun x : List Byte × Nat × Nat => x.2.2).sum) hr
    simp only [List.map_map, Function.comp_def] at this
    rw [this]
    exact clouds_by_topic hs ht List.length
  · have := congrArg (fun l => (l.map fun x : List Byte × Nat × Nat => x.2.1).sum) hr
    simp only [List.map_map, Function.comp_def] at this
    rw [this]
    have := clouds_by_topic hs ht fun _ => 1
    simpa using this

/-- **C76 fails for topics with two channels** (two publishers, or a merged file): every message of the topic is counted at least twice. -/
theorem C76_counted_twice (m : Module) (f : File) (h : Heap) (r : Report) (hs : AllSchemas f) (l1 l2 l3 : List (Nat × Channel)) (c d : Nat × Channel)
    (hf : f.channels = l1 ++ c :: (l2 ++ d :: l3)) (htopic : d.2.topic = c.2.topic)
    (hc : ∃ s, find f.schemas c.2.schema = some s ∧ s.name = pointcloudName) (hd : ∃ s, find f.schemas d.2.schema = some s ∧ s.name = pointcloudName)
    (e : analyze m f h = .ok r) : 2 * totalLength (topicBytes f c.2.topic) ≤ r.total := by
  obtain ⟨h1, h2, _⟩ := analyze_inv e
  have hr := rows_spec h1
  rw [h2]
  have := congrArg (fun l => (l.map fun x : List Byte × Nat × Nat => x.2.2).sum) hr
  simp only [List.map_map, Function.comp_def] at this
  rw [this]
  obtain ⟨s1, a1, b1⟩ := hc
  obtain ⟨s2, a2, b2⟩ := hd
  have hsplit : ∃ t1 t2 t3, Web.cloudTopics f = t1 ++ c.2.topic :: (t2 ++ c.2.topic :: t3) := by
    unfold Web.cloudTopics
    rw [hf, List.filterMap_append, List.filterMap_cons, List.filterMap_append, List.filterMap_cons]
    simp only [a1, a2, b1, b2, if_true, htopic]
    exact ⟨_, _, _, rfl⟩
  obtain ⟨t1, t2, t3, hsplit⟩ := hsplit
  rw [hsplit]
  simp only [List.map_append, List.map_cons, List.sum_append, List.sum_cons, ofTopic_seen hs]
  omega

/-! ### the compressed size -/

/-- The module answers every request for memory, and the memory never shrinks. -/
structure Roomy (M : Malloc) : Prop where
  lawful : M.Lawful
  answers : ∀ h n, (M h n).isSome
  grows : ∀ h n a b s, M h n = some (a, b, s) → h.size ≤ s

theorem loop_good {m : Module} (hM : Roomy m.malloc) (g : List Byte → Nat) (room : Nat) : ∀ (ds : List (List Byte)) (t : Tally), room ≤ t.heap.size →
    (∀ d ∈ ds, m.compute d = .ok (g d) ∧ 4 * d.length ≤ room) →
    ∃ t', Web.loop m ds t = .ok t' ∧ t'.compressed = t.compressed + (ds.map g).sum ∧ t'.heap.live = t.heap.live ∧ room ≤ t'.heap.size := by
  intro ds
  induction ds with
  | nil => intro t hr _; exact ⟨t, rfl, by simp, rfl, hr⟩
  | cons d ds ih =>
    intro t hr hall
    obtain ⟨h1, h2⟩ := hall d List.mem_cons_self
    obtain ⟨⟨p, b, s⟩, hm⟩ := Option.isSome_iff_exists.1 (hM.answers t.heap d.length)
    have hstep : Web.step m t d = .ok { t with count := t.count + 1, total := t.total + d.length, compressed := t.compressed + g d, heap := (t.heap.take p s).free p } := by
      unfold Web.step
      simp only
      rw [if_neg (by omega), hm]
      simp only [h1]
    have hg := hM.grows _ _ _ _ _ hm
    obtain ⟨t', e1, e2, e3, e4⟩ := ih { t with count := t.count + 1, total := t.total + d.length, compressed := t.compressed + g d, heap := (t.heap.take p s).free p }
      (by simp only [Foxglove.Heap.free, Foxglove.Heap.take]; omega) (fun d hd => hall d (List.mem_cons_of_mem _ hd))
    refine ⟨t', ?_, ?_, ?_, e4⟩
    · unfold Web.loop
      rw [hstep, Res.ok_bind]
      exact e1
    · rw [e2, List.map_cons, List.sum_cons]; simp only; omega
    · rw [e3]; simp [Foxglove.Heap.free, Foxglove.Heap.take]

theorem rows_good {m : Module} {f : File} (hM : Roomy m.malloc) (g : List Byte → Nat) (room : Nat) : ∀ (ts : List (List Byte)) (h : Heap), room ≤ h.size →
    (∀ t ∈ ts, ∀ d ∈ ofTopic f t, m.compute d = .ok (g d) ∧ 4 * d.length ≤ room) →
    ∃ rs h', Web.rows m f ts h = .ok (rs, h') ∧ rs.map (·.compressed) = ts.map (fun t => ((ofTopic f t).map g).sum) ∧ h'.live = h.live := by
  intro ts
  induction ts with
  | nil => intro h _ _; exact ⟨[], h, rfl, rfl, rfl⟩
  | cons t ts ih =>
    intro h hr hall
    obtain ⟨t', e1, e2, e3, e4⟩ := loop_good hM g room (ofTopic f t) { heap := h } hr (hall t List.mem_cons_self)
    obtain ⟨rs, h', e5, e6, e7⟩ := ih t'.heap e4 (fun t ht => hall t (List.mem_cons_of_mem _ ht))
    refine ⟨⟨t, t'.count, t'.total, t'.compressed⟩ :: rs, h', ?_, ?_, by rw [e7, e3]⟩
    · unfold Web.rows
      rw [e1, Res.ok_bind, e5, Res.ok_bind]
    · rw [List.map_cons, List.map_cons, e6, e2]; simp

theorem topic_clouds {f : File} (hs : AllSchemas f) (ht : DistinctTopics f) {t d : List Byte} (h1 : t ∈ Web.cloudTopics f) (h2 : d ∈ ofTopic f t) : d ∈ cloudBytes f := by
  rw [ofTopic_seen hs] at h2
  obtain ⟨v, hv, rfl⟩ := List.mem_map.1 h2
  obtain ⟨hv, hvt⟩ := List.mem_filter.1 hv
  refine List.mem_map_of_mem (f := (·.data)) (List.mem_filter.2 ⟨hv, ?_⟩)
  have hvt : v.topic = t := by simpa using hvt
  simpa using (cloud_iff_topic ht hv).1 (by rw [hvt]; exact h1)

/-- **C76 (partial).** If every topic has one channel, every cloud of the file can be compressed (`size` is what the function computes for it) and no cloud is
larger than a quarter of the memory: the analysis succeeds, the compressed size is the sum of the compressed sizes of all clouds, and all memory is given
back.  Missing: clouds that cannot be compressed and clouds that are too large (`C76_skipped`). -/
theorem C76_compressed_partial (m : Module) (hM : Roomy m.malloc) (f : File) (h : Heap) (size : List Byte → Nat) (hs : AllSchemas f) (ht : DistinctTopics f)
    (hgood : ∀ d ∈ cloudBytes f, m.compute d = .ok (size d) ∧ 4 * d.length ≤ h.size) :
    ∃ r, analyze m f h = .ok r ∧ r.total = totalLength (cloudBytes f) ∧ r.compressed = ((cloudBytes f).map size).sum ∧ r.heap.live = h.live := by
  obtain ⟨rs, h', e1, e2, e3⟩ := rows_good hM size h.size (Web.cloudTopics f) h (Nat.le_refl _) (fun t h1 d h2 => hgood d (topic_clouds hs ht h1 h2))
  have he : analyze m f h = .ok ⟨rs, (rs.map (·.total)).sum, (rs.map (·.compressed)).sum, h'⟩ := by
    unfold analyze
    rw [e1, Res.ok_bind]
  refine ⟨_, he, (C76_totals m f h _ hs ht he).1, ?_, e3⟩
  simp only
  rw [e2]
  exact clouds_by_topic hs ht size

/-! ### what goes wrong -/

/-- A file with one cloud. -/
def oneCloud (data : List Byte) : File :=
  { profile := ascii "ros2", schemas := [(1, ⟨pointcloudName, ascii "ros2msg", []⟩)], channels := [(1, { topic := ascii "/points", encoding := ascii "cdr", schema := 1 })],
    messages := [⟨1, 1, 1, 1, data⟩] }

theorem analyze_one (m : Module) (h : Heap) (data : List Byte) : analyze m (oneCloud data) h =
    (Web.step m { heap := h } data).bind fun t => .ok ⟨[⟨ascii "/points", t.count, t.total, t.compressed⟩], t.total, t.compressed, t.heap⟩ := by
  have h1 : Web.cloudTopics (oneCloud data) = [ascii "/points"] := rfl
  have h2 : ofTopic (oneCloud data) (ascii "/points") = [data] := rfl
  unfold analyze
  rw [h1]
  unfold Web.rows
  rw [h2]
  unfold Web.loop
  cases Web.step m { heap := h } data with
  | ok t => simp [Web.loop, Web.rows]; rfl
  | throw e => rfl
  | ub k => rfl

/-- **C76 fails for clouds the module cannot handle**: a cloud of more than a quarter of the memory, or one the function answers with an exception, counts in
full in the original size and with nothing in the compressed size: the better the ratio, the more failed. -/
theorem C76_skipped (m : Module) (h : Heap) (data : List Byte)
    (hbad : h.size < 4 * data.length ∨ ((m.malloc h data.length).isSome ∧ (m.compute data).isThrow = true)) :
    ∃ r, analyze m (oneCloud data) h = .ok r ∧ r.total = data.length ∧ r.compressed = 0 := by
  rw [analyze_one]
  rcases hbad with hl | ⟨h1, h2⟩
  · unfold Web.step
    simp only
    rw [if_pos hl]
    exact ⟨_, rfl, by simp, rfl⟩
  · obtain ⟨⟨p, b, s⟩, hm⟩ := Option.isSome_iff_exists.1 h1
    unfold Web.step
    simp only
    by_cases hl : h.size < 4 * data.length
    · rw [if_pos hl]; exact ⟨_, rfl, by simp, rfl⟩
    · rw [if_neg hl, hm]
      simp only
      cases hc : m.compute data with
      | ok n => rw [hc] at h2; simp [Res.isThrow] at h2
      | ub k => rw [hc] at h2; simp [Res.isThrow] at h2
      | throw e =>
        simp only
        by_cases hcat : m.catching = true
        · rw [if_pos hcat]; exact ⟨_, rfl, by simp, rfl⟩
        · rw [if_neg hcat]; exact ⟨_, rfl, by simp, rfl⟩

theorem step_live {m : Module} {t t' : Tally} {d : List Byte} (hc : m.catching = true ∨ (m.compute d).isThrow = false) (h : Web.step m t d = .ok t') :
    t'.heap.live = t.heap.live := by
  unfold Web.step at h
  simp only at h
  split at h
  · simp only [Res.ok.injEq] at h; subst h; rfl
  split at h
  · simp at h
  split at h
  · simp at h
  · next e =>
    rcases hc with hc | hc
    · rw [if_pos hc] at h
      simp only [Res.ok.injEq] at h; subst h
      simp [Foxglove.Heap.free, Foxglove.Heap.take]
    · rw [e] at hc; simp [Res.isThrow] at hc
  · simp only [Res.ok.injEq] at h; subst h
    simp [Foxglove.Heap.free, Foxglove.Heap.take]

/-- **C76, memory.** If the module was built with exception catching, or the function throws for no message of the file, all memory is given back, whatever the
file and the allocator. -/
theorem C76_memory (m : Module) (f : File) (h : Heap) (r : Report) (hc : m.catching = true ∨ ∀ x ∈ f.messages, (m.compute x.data).isThrow = false)
    (e : analyze m f h = .ok r) : r.heap.live = h.live := by
  have hd : ∀ t, ∀ d ∈ ofTopic f t, m.catching = true ∨ (m.compute d).isThrow = false := by
    intro t d hd
    refine hc.imp_right fun hc => ?_
    unfold ofTopic at hd
    obtain ⟨x, hx, hxd⟩ := List.mem_filterMap.1 hd
    split at hxd
    · split at hxd
      · simp only [Option.some.injEq] at hxd; rw [← hxd]; exact hc x hx
      · simp at hxd
    · simp at hxd
  have hloop : ∀ (ds : List (List Byte)) (t t' : Tally), (∀ d ∈ ds, m.catching = true ∨ (m.compute d).isThrow = false) → Web.loop m ds t = .ok t' →
      t'.heap.live = t.heap.live := by
    intro ds
    induction ds with
    | nil => intro t t' _ h; simp only [Web.loop, Res.ok.injEq] at h; rw [h]
    | cons d ds ih =>
      intro t t' hall h
      obtain ⟨t1, h1, h⟩ := Res.bind_eq_ok.1 h
      rw [ih t1 t' (fun d hd => hall d (List.mem_cons_of_mem _ hd)) h, step_live (hall d List.mem_cons_self) h1]
  have hrows : ∀ (ts : List (List Byte)) (h h' : Heap) (rs : List Row), Web.rows m f ts h = .ok (rs, h') → h'.live = h.live := by
    intro ts
    induction ts with
    | nil => intro h h' rs e; simp only [Web.rows, Res.ok.injEq, Prod.mk.injEq] at e; rw [e.2]
    | cons t ts ih =>
      intro h h' rs e
      obtain ⟨r, e1, e⟩ := Res.bind_eq_ok.1 e
      obtain ⟨⟨rs', h2⟩, e2, e⟩ := Res.bind_eq_ok.1 e
      simp only [Res.ok.injEq, Prod.mk.injEq] at e
      rw [← e.2, ih _ _ _ e2, hloop _ _ _ (hd t) e1]
  exact hrows _ _ _ _ (analyze_inv e).1

/-- **C76 fails for the module the page loads** (built without exception catching): every message the function throws on leaves its block allocated. -/
theorem C76_leak (m : Module) (h : Heap) (data : List Byte) (p s : Nat) (b : List Byte) (hcat : m.catching = false) (hfit : 4 * data.length ≤ h.size)
    (hm : m.malloc h data.length = some (p, b, s)) (hthrow : (m.compute data).isThrow = true) :
    ∃ r, analyze m (oneCloud data) h = .ok r ∧ r.heap.live = p :: h.live := by
  rw [analyze_one]
  unfold Web.step
  simp only
  rw [if_neg (by omega), hm]
  simp only
  cases hc : m.compute data with
  | ok n => rw [hc] at hthrow; simp [Res.isThrow] at hthrow
  | ub k => rw [hc] at hthrow; simp [Res.isThrow] at hthrow
  | throw e =>
    simp only
    rw [if_neg (by simp [hcat])]
    exact ⟨_, rfl, rfl⟩

/-- **C76 fails when the memory runs out**: the page writes to address 0. -/
theorem C76_no_memory (m : Module) (h : Heap) (data : List Byte) (hfit : 4 * data.length ≤ h.size) (hm : m.malloc h data.length = none) :
    analyze m (oneCloud data) h = .ub .mem := by
  rw [analyze_one]
  unfold Web.step
  simp only
  rw [if_neg (by omega), hm]
  rfl

/-- **C76, the resolution.** The resolution the page asks for is the `float` nearest to a thousandth. -/
theorem C76_resolution : Nearest32 millimetre (1 / 1000) := by
  have h := (nearest32 (s := false) (q := 1 / 1000) (by simp [IEEE.Fmt.SignOk]) (by
    rw [abs_of_nonneg (by norm_num)]
    exact le_trans (by norm_num) (one_le_zpow₀ (by norm_num : (1 : ℚ) ≤ 2) (by norm_num)))).1
  rw [show IEEE.b32.ofRat false (1 / 1000) = millimetre.toNat by decide +kernel, BitVec.ofNat_toNat, BitVec.setWidth_eq] at h
  exact h

/-- **C76, against the encoder (partial).** The compressed size shown is the sum of the sizes of the messages `cldn_EncodePointcloudMessage` writes for the clouds of
the file with a resolution of a millimetre, if both functions succeed for all of them. -/
theorem C76_encoder_partial (T : FloatText) (F : FloatOps) (C : Compressor) (hfree : CapFree C) (M : Malloc) (hM : Roomy M) (catching : Bool) (f : File) (h : Heap)
    (size : List Byte → Nat) (hs : AllSchemas f) (ht : DistinctTopics f)
    (hgood : ∀ d ∈ cloudBytes f, (∃ b, Wasm.encodeMessage T F C d millimetre = .ok ⟨size d, some b⟩) ∧ size d ≠ 0 ∧
      (∃ k, k ≠ 0 ∧ Wasm.computeSize T F C d millimetre = .ok k) ∧ 4 * d.length ≤ h.size) :
    ∃ r, analyze (.lib T F C M catching) f h = .ok r ∧ r.total = totalLength (cloudBytes f) ∧ r.compressed = ((cloudBytes f).map size).sum ∧ r.heap.live = h.live := by
  refine C76_compressed_partial (.lib T F C M catching) hM f h size hs ht ?_
  intro d hd
  obtain ⟨⟨b, h1⟩, h2, ⟨k, h3, h4⟩, h5⟩ := hgood d hd
  refine ⟨?_, h5⟩
  rw [C54_compute_agrees T F C hfree d b millimetre (size d) k h2 h3 h1 h4]
  exact guardedNat_pos h4 h3

/-! ### examples -/

theorem storeComp_free : CapFree storeComp := by
  intro o x c c' y y' h1 h2
  simp only [storeComp] at h1 h2
  split at h1
  · split at h2
    · simp_all
    · simp at h2
  · simp at h1

theorem bump_roomy : Roomy bump where
  lawful := bump_lawful
  answers := fun _ _ => rfl
  grows := by intro h n a b s e; cases e; exact Nat.le_refl _

/-- The bag of the converter's example. -/
example : ∃ r, analyze (.lib bitsText bitsOps storeComp bump false) bagFile someHeap = .ok r ∧ r.total = wasmRaw.length ∧ r.rows.length = 1 ∧ 0 < r.compressed ∧
    r.heap.live = [5] := by
  have h : (match Wasm.encodeMessage bitsText bitsOps storeComp wasmRaw millimetre, Wasm.computeSize bitsText bitsOps storeComp wasmRaw millimetre with
    | .ok ⟨n, some _⟩, .ok k => decide (n ≠ 0 ∧ k ≠ 0) | _, _ => false) = true := by decide +kernel
  have hc : cloudBytes bagFile = [wasmRaw] := by unfold cloudBytes; rw [bag_delivered]; rfl
  cases e : Wasm.encodeMessage bitsText bitsOps storeComp wasmRaw millimetre with
  | throw m => rw [e] at h; simp at h
  | ub k => rw [e] at h; simp at h
  | ok o =>
    obtain ⟨n, _ | b⟩ := o
    · rw [e] at h; simp at h
    cases e' : Wasm.computeSize bitsText bitsOps storeComp wasmRaw millimetre with
    | throw m => rw [e, e'] at h; simp at h
    | ub k => rw [e, e'] at h; simp at h
    | ok k =>
      rw [e, e'] at h
      simp only [decide_eq_true_eq] at h
      have hs : AllSchemas bagFile := by unfold AllSchemas; decide +kernel
      obtain ⟨r, h1, h2, h3, h4⟩ := C76_encoder_partial bitsText bitsOps storeComp storeComp_free bump bump_roomy false bagFile someHeap (fun _ => n) hs
        (by unfold DistinctTopics; decide +kernel) (by
          intro d hd
          rw [hc, List.mem_singleton] at hd
          subst hd
          exact ⟨⟨b, e⟩, h.1, ⟨k, h.2, e'⟩, by decide +kernel⟩)
      refine ⟨r, h1, by rw [h2, hc]; simp [totalLength], ?_, by rw [h3, hc]; simp; omega, h4⟩
      have := congrArg List.length (C76_rows _ _ _ _ hs h1)
      rw [List.length_map, List.length_map] at this
      rw [this]
      decide +kernel

/-- Two publishers of one topic: a message of four bytes counts as eight. -/
def twiceFile : File := { oneCloud [0#8, 1#8, 0#8, 0#8] with channels := [(1, { topic := ascii "/points", encoding := ascii "cdr", schema := 1 }), (2, { topic := ascii "/points", encoding := ascii "cdr", schema := 1 })] }

example : ∃ r, analyze (.lib bitsText bitsOps storeComp bump false) twiceFile someHeap = .ok r ∧ totalLength (cloudBytes twiceFile) = 4 ∧ r.total = 8 := by
  have h : (match analyze (.lib bitsText bitsOps storeComp bump false) twiceFile someHeap with | .ok r => decide (r.total = 8) | _ => false) = true := by decide +kernel
  cases e : analyze (.lib bitsText bitsOps storeComp bump false) twiceFile someHeap with
  | throw m => rw [e] at h; simp at h
  | ub k => rw [e] at h; simp at h
  | ok r =>
    rw [e] at h
    have := C76_counted_twice _ twiceFile someHeap r (by unfold AllSchemas; decide +kernel) [] [] [] _ _ rfl rfl ⟨_, rfl, rfl⟩ ⟨_, rfl, rfl⟩ e
    exact ⟨r, rfl, by decide +kernel, by simpa using h⟩

/-- Four bytes are no message: they count as four bytes compressed to none, and their block is lost; a module built with exception catching gives it back. -/
example : ∃ r, analyze (.lib bitsText bitsOps storeComp bump false) (oneCloud [0#8, 1#8, 0#8, 0#8]) someHeap = .ok r ∧ r.total = 4 ∧ r.compressed = 0 ∧ r.heap.live = [6, 5] := by
  have ht : ((Module.lib bitsText bitsOps storeComp bump false).compute [0#8, 1#8, 0#8, 0#8]).isThrow = true := by decide +kernel
  obtain ⟨r, h1, h2, h3⟩ := C76_skipped (.lib bitsText bitsOps storeComp bump false) someHeap [0#8, 1#8, 0#8, 0#8] (Or.inr ⟨rfl, ht⟩)
  obtain ⟨r', h4, h5⟩ := C76_leak (.lib bitsText bitsOps storeComp bump false) someHeap [0#8, 1#8, 0#8, 0#8] 6 _ _ rfl (by decide) rfl ht
  rw [h1] at h4
  cases h4
  exact ⟨r, h1, h2, h3, h5⟩

example : ∃ r, analyze (.lib bitsText bitsOps storeComp bump true) (oneCloud [0#8, 1#8, 0#8, 0#8]) someHeap = .ok r ∧ r.heap.live = [5] := by
  obtain ⟨r, h1, _⟩ := C76_skipped (.lib bitsText bitsOps storeComp bump true) someHeap [0#8, 1#8, 0#8, 0#8] (Or.inr ⟨rfl, by decide +kernel⟩)
  exact ⟨r, h1, C76_memory _ _ _ _ (Or.inl rfl) h1⟩

/-- A cloud larger than a quarter of the memory. -/
example : ∃ r, analyze (.lib bitsText bitsOps storeComp bump true) (oneCloud wasmRaw) ⟨64, []⟩ = .ok r ∧ r.total = wasmRaw.length ∧ r.compressed = 0 :=
  C76_skipped (.lib bitsText bitsOps storeComp bump true) ⟨64, []⟩ wasmRaw (Or.inl (by decide +kernel))

/-- An allocator that is out of memory. -/
example : analyze (.lib bitsText bitsOps storeComp (fun _ _ => none) true) (oneCloud [0#8, 1#8, 0#8, 0#8]) someHeap = .ub .mem :=
  C76_no_memory _ _ _ (by decide) rfl

end Cloudini.Props
