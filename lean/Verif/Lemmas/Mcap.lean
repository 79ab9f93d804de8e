import Verif.Spec.Mcap
import Verif.Lemmas.Base

/-!
# Lemmas about the MCAP tools
-/

namespace Cloudini.Mcap

theorem find_cons {α : Type} (e : Nat × α) (l : List (Nat × α)) (id : Nat) : find (e :: l) id = if e.1 = id then some e.2 else find l id := by
  unfold find
  by_cases h : e.1 = id
  · simp [List.find?_cons, h]
  · have : (e.1 == id) = false := by simpa using h
    simp [List.find?_cons, h]

theorem find_number {α : Type} (l : List α) : ∀ n k, find (number n l) (n + k) = l[k]? := by
  induction l with
  | nil => intro n k; rfl
  | cons x xs ih =>
    intro n k
    rw [number, find_cons]
    cases k with
    | zero => simp
    | succ k =>
      rw [if_neg (by simp), show n + (k + 1) = (n + 1) + k by omega, ih]
      simp

theorem number_map {α β : Type} (f : α → β) (l : List α) : ∀ n, (number n l).map (fun e => f e.2) = l.map f := by
  induction l with
  | nil => intro n; rfl
  | cons x xs ih => intro n; simp [number, ih]

/-- Old ids and positions. -/
theorem find_ids {α : Type} (l : List (Nat × α)) (id : Nat) : ∀ n,
    (∃ k x, l[k]? = some (id, x) ∧ find l id = some x ∧ find ((number n l).map fun e => (e.2.1, e.1)) id = some (n + k)) ∨
      (find l id = none ∧ find ((number n l).map fun e => (e.2.1, e.1)) id = none) := by
  induction l with
  | nil => intro n; exact .inr ⟨rfl, rfl⟩
  | cons e l ih =>
    intro n
    obtain ⟨i, x⟩ := e
    rw [number, List.map_cons, find_cons, find_cons]
    by_cases h : i = id
    · subst h
      exact .inl ⟨0, x, by simp⟩
    · simp only [h, if_false]
      rcases ih (n + 1) with ⟨k, y, h1, h2, h3⟩ | ⟨h1, h2⟩
      · exact .inl ⟨k + 1, y, by simpa using h1, h2, by rw [h3]; congr 1; omega⟩
      · exact .inr ⟨h1, h2⟩

theorem newChannels_get {ids : List (Nat × Nat)} {l : List (Nat × Channel)} : ∀ {cs : List Channel}, newChannels ids l = .ok cs →
    cs.length = l.length ∧ ∀ (k : Nat) (c : Nat × Channel), l[k]? = some c → ∃ s, find ids c.2.schema = some s ∧ cs[k]? = some { topic := c.2.topic, encoding := c.2.encoding, schema := s } := by
  induction l with
  | nil => intro cs h; simp only [newChannels, Res.ok.injEq] at h; subst h; exact ⟨rfl, by simp⟩
  | cons c l ih =>
    intro cs h
    unfold newChannels at h
    obtain ⟨x, h1, h⟩ := Res.bind_eq_ok.1 h
    obtain ⟨xs, h2, h⟩ := Res.bind_eq_ok.1 h
    simp only [Res.ok.injEq] at h
    subst h
    obtain ⟨g1, g2⟩ := ih h2
    refine ⟨by simp [g1], ?_⟩
    intro k d hd
    cases k with
    | zero =>
      simp only [List.getElem?_cons_zero, Option.some.injEq] at hd
      subst hd
      unfold newChannel at h1
      obtain ⟨s, e, h1⟩ := Res.bind_eq_ok.1 h1
      simp only [Res.ok.injEq] at h1
      refine ⟨s, ?_, by simp [h1]⟩
      unfold at_ at e
      cases g : find ids c.2.schema with
      | none => rw [g] at e; simp at e
      | some y => rw [g] at e; simp only [Res.ok.injEq] at e; rw [e]
    | succ k =>
      simp only [List.getElem?_cons_succ] at hd ⊢
      exact g2 k d hd

/-- What is known of the file written. -/
structure Written (encoding : Bool) (conv : List Byte → Res (List Byte)) (f g : File) (cs : List Channel) : Prop where
  opened : open_ f = .ok ()
  channels : newChannels (schemaIds f) f.channels = .ok cs
  messages : convertMessages f (channelIds f) (if encoding then pointcloudName else compressedName) conv f.messages = .ok g.messages
  gch : g.channels = number 1 cs
  gsch : g.schemas = number 1 (f.schemas.map fun e => newSchema encoding e.2)
  profile : g.profile = f.profile
  metadata : g.metadata = f.metadata
  attachments : g.attachments = []

theorem convertFile_inv {encoding : Bool} {conv : List Byte → Res (List Byte)} {f g : File} (h : convertFile encoding conv f = .ok g) :
    ∃ cs, Written encoding conv f g cs := by
  unfold convertFile at h
  obtain ⟨u, h1, h⟩ := Res.bind_eq_ok.1 h
  obtain ⟨cs, h2, h⟩ := Res.bind_eq_ok.1 h
  obtain ⟨ms, h3, h⟩ := Res.bind_eq_ok.1 h
  simp only [Res.ok.injEq] at h
  subst h
  exact ⟨cs, h1, h2, h3, rfl, rfl, rfl, rfl, rfl⟩

/-- A channel of the input, in the output. -/
theorem Written.channel {encoding : Bool} {conv : List Byte → Res (List Byte)} {f g : File} {cs : List Channel} (w : Written encoding conv f g cs) {k id : Nat}
    {c : Channel} (hk : f.channels[k]? = some (id, c)) :
    ∃ c', find g.channels (1 + k) = some c' ∧ c'.topic = c.topic ∧ c'.encoding = c.encoding ∧ c'.metadata = [] ∧
      ∃ s, find f.schemas c.schema = some s ∧ find g.schemas c'.schema = some (newSchema encoding s) := by
  obtain ⟨s, h1, h2⟩ := (newChannels_get w.channels).2 k _ hk
  rcases find_ids f.schemas c.schema 1 with ⟨j, x, g1, g2, g3⟩ | ⟨_, g2⟩
  · refine ⟨{ topic := c.topic, encoding := c.encoding, schema := s }, by rw [w.gch, find_number]; exact h2, rfl, rfl, rfl, x, g2, ?_⟩
    simp only
    have : s = 1 + j := by
      have h1 : find ((number 1 f.schemas).map fun e => (e.2.1, e.1)) c.schema = some s := h1
      rw [g3] at h1
      simpa using h1.symm
    rw [this, w.gsch, find_number, List.getElem?_map, g1]
    rfl
  · have h1 : find ((number 1 f.schemas).map fun e => (e.2.1, e.1)) c.schema = some s := h1
    rw [g2] at h1
    simp at h1

theorem newSchema_encoding (b : Bool) (s : Schema) : (newSchema b s).encoding = s.encoding := by
  unfold newSchema
  split
  · rfl
  · split <;> rfl

theorem newSchema_true (s : Schema) : (s.name = pointcloudName → newSchema true s = { s with name := compressedName, data := compressedText }) ∧
    (s.name ≠ pointcloudName → newSchema true s = s) := by
  constructor
  · intro h; simp [newSchema, h]
  · intro h; simp [newSchema, h]

theorem newSchema_false (s : Schema) : (s.name = compressedName → newSchema false s = { s with name := pointcloudName, data := pointcloudText }) ∧
    (s.name ≠ compressedName → newSchema false s = s) := by
  constructor
  · intro h; simp [newSchema, h]
  · intro h; simp [newSchema, h]

/-- What `convertFile` turns one delivered message into. -/
def Turned (encoding : Bool) (conv : List Byte → Res (List Byte)) (v w : Seen) : Prop :=
  w.topic = v.topic ∧ w.encoding = v.encoding ∧ w.schema = newSchema encoding v.schema ∧ w.sequence = v.sequence ∧ w.logTime = v.logTime ∧
    w.publishTime = v.publishTime ∧
    (v.schema.name ≠ (if encoding then pointcloudName else compressedName) → w.data = v.data) ∧
    (v.schema.name = (if encoding then pointcloudName else compressedName) → conv v.data = .ok w.data)

theorem Pairwise.nil {α β : Type} {R : α → β → Prop} : Pairwise R [] [] := ⟨rfl, by simp⟩

theorem Pairwise.cons {α β : Type} {R : α → β → Prop} {v : α} {w : β} {l : List α} {l' : List β} (h : R v w) (hs : Pairwise R l l') :
    Pairwise R (v :: l) (w :: l') := by
  refine ⟨by simp [hs.1], ?_⟩
  intro i x hx
  cases i with
  | zero => simp only [List.getElem?_cons_zero, Option.some.injEq] at hx; subst hx; exact ⟨w, by simp, h⟩
  | succ i => simp only [List.getElem?_cons_succ] at hx ⊢; exact hs.2 i x hx

theorem Pairwise.imp {α β : Type} {R S : α → β → Prop} {l : List α} {l' : List β} (h : ∀ v w, R v w → S v w) (hs : Pairwise R l l') : Pairwise S l l' :=
  ⟨hs.1, fun i v hv => by obtain ⟨w, h1, h2⟩ := hs.2 i v hv; exact ⟨w, h1, h v w h2⟩⟩

theorem Pairwise.trans {α β γ : Type} {R : α → β → Prop} {S : β → γ → Prop} {l : List α} {l' : List β} {l'' : List γ} (h1 : Pairwise R l l')
    (h2 : Pairwise S l' l'') : Pairwise (fun v x => ∃ w, R v w ∧ S w x) l l'' :=
  ⟨h2.1.trans h1.1, fun i v hv => by
    obtain ⟨w, g1, g2⟩ := h1.2 i v hv
    obtain ⟨x, g3, g4⟩ := h2.2 i w g1
    exact ⟨x, g3, w, g2, g4⟩⟩

theorem Written.delivered {encoding : Bool} {conv : List Byte → Res (List Byte)} {f g : File} {cs : List Channel} (w : Written encoding conv f g cs)
    (ms : List Message) : ∀ out, convertMessages f (channelIds f) (if encoding then pointcloudName else compressedName) conv ms = .ok out →
      Pairwise (Turned encoding conv) (ms.filterMap (see f)) (out.filterMap (see g)) := by
  induction ms with
  | nil => intro out h; simp only [convertMessages, Res.ok.injEq] at h; subst h; exact .nil
  | cons m ms ih =>
    intro out h
    unfold convertMessages at h
    rcases find_ids f.channels m.channel 1 with ⟨k, c, g1, g2, g3⟩ | ⟨g2, g3⟩
    · rw [g2] at h
      simp only at h
      obtain ⟨id, h1, h⟩ := Res.bind_eq_ok.1 h
      have hid : id = 1 + k := by
        unfold at_ channelIds at h1
        rw [g3] at h1
        simpa using h1.symm
      subst hid
      obtain ⟨c', e1, e2, e3, _, s, e4, e5⟩ := w.channel g1
      rw [e4] at h
      simp only at h
      have hv : see f m = some ⟨c.topic, c.encoding, s, m.sequence, m.logTime, m.publishTime, m.data⟩ := by
        unfold see; rw [g2]; simp only; rw [e4]
      rw [List.filterMap_cons, hv]
      simp only
      by_cases hn : s.name ≠ (if encoding then pointcloudName else compressedName)
      · rw [if_pos hn] at h
        obtain ⟨rest, h2, h⟩ := Res.bind_eq_ok.1 h
        simp only [Res.ok.injEq] at h
        subst h
        have hw : see g { m with channel := 1 + k } = some ⟨c'.topic, c'.encoding, newSchema encoding s, m.sequence, m.logTime, m.publishTime, m.data⟩ := by
          unfold see; simp only; rw [e1]; simp only; rw [e5]
        rw [List.filterMap_cons, hw]
        exact .cons ⟨e2, e3, rfl, rfl, rfl, rfl, fun _ => rfl, fun h => absurd h hn⟩ (ih _ h2)
      · rw [if_neg hn] at h
        obtain ⟨d, h3, h⟩ := Res.bind_eq_ok.1 h
        obtain ⟨rest, h2, h⟩ := Res.bind_eq_ok.1 h
        simp only [Res.ok.injEq] at h
        subst h
        have hw : see g { m with channel := 1 + k, data := d } = some ⟨c'.topic, c'.encoding, newSchema encoding s, m.sequence, m.logTime, m.publishTime, d⟩ := by
          unfold see; simp only; rw [e1]; simp only; rw [e5]
        rw [List.filterMap_cons, hw]
        exact .cons ⟨e2, e3, rfl, rfl, rfl, rfl, fun h => absurd h hn, fun _ => h3⟩ (ih _ h2)
    · rw [g2] at h
      simp only at h
      have hv : see f m = none := by unfold see; rw [g2]
      rw [List.filterMap_cons, hv]
      exact ih _ h

theorem turned {encoding : Bool} {conv : List Byte → Res (List Byte)} {f g : File} (h : convertFile encoding conv f = .ok g) :
    Pairwise (Turned encoding conv) (delivered f) (delivered g) := by
  obtain ⟨cs, w⟩ := convertFile_inv h
  exact w.delivered f.messages g.messages w.messages

theorem channelsOf_convert {encoding : Bool} {conv : List Byte → Res (List Byte)} {f g : File} (h : convertFile encoding conv f = .ok g) :
    channelsOf g = (channelsOf f).map fun c => (c.1, c.2.1, c.2.2.map (newSchema encoding)) := by
  obtain ⟨cs, w⟩ := convertFile_inv h
  apply List.ext_getElem?
  intro k
  unfold channelsOf
  rw [w.gch, number_map (fun c : Channel => (c.topic, c.encoding, find g.schemas c.schema)), List.map_map, List.getElem?_map, List.getElem?_map]
  have hl := (newChannels_get w.channels).1
  cases hk : f.channels[k]? with
  | none =>
    have : cs[k]? = none := by
      rw [List.getElem?_eq_none_iff] at hk ⊢
      omega
    rw [this]; rfl
  | some e =>
    obtain ⟨id, c⟩ := e
    obtain ⟨c', e1, e2, e3, _, s, e4, e5⟩ := w.channel hk
    have : cs[k]? = some c' := by
      rw [w.gch, find_number] at e1
      exact e1
    rw [this]
    simp [e2, e3, e4, e5]

/-- When every cloud converts, the file is written. -/
theorem convert_ok {encoding : Bool} {conv : List Byte → Res (List Byte)} {f : File} (ho : ∀ c ∈ f.channels, (find f.schemas c.2.schema).isSome)
    (hc : ∀ v ∈ delivered f, v.schema.name = (if encoding then pointcloudName else compressedName) → ∃ d, conv v.data = .ok d) :
    ∃ g, convertFile encoding conv f = .ok g := by
  have h1 : open_ f = .ok () := by
    unfold open_
    rw [if_pos]
    rw [List.all_eq_true]
    exact ho
  have h2 : ∀ l : List (Nat × Channel), (∀ c ∈ l, (find f.schemas c.2.schema).isSome) → ∃ cs, newChannels (schemaIds f) l = .ok cs := by
    intro l
    induction l with
    | nil => intro _; exact ⟨[], rfl⟩
    | cons c l ih =>
      intro h
      obtain ⟨cs, e⟩ := ih fun c hc => h c (by simp [hc])
      have hs := h c (by simp)
      rcases find_ids f.schemas c.2.schema 1 with ⟨j, x, g1, g2, g3⟩ | ⟨g2, _⟩
      · refine ⟨{ topic := c.2.topic, encoding := c.2.encoding, schema := 1 + j } :: cs, ?_⟩
        simp only [newChannels, newChannel, at_, schemaIds] at e ⊢
        rw [g3]
        simp only [Res.ok_bind, e]
      · rw [g2] at hs; simp at hs
  have h3 : ∀ ms : List Message, (∀ v ∈ ms.filterMap (see f), v.schema.name = (if encoding then pointcloudName else compressedName) → ∃ d, conv v.data = .ok d) →
      ∃ out, convertMessages f (channelIds f) (if encoding then pointcloudName else compressedName) conv ms = .ok out := by
    intro ms
    induction ms with
    | nil => intro _; exact ⟨[], rfl⟩
    | cons m ms ih =>
      intro h
      rw [List.filterMap_cons] at h
      unfold convertMessages
      rcases find_ids f.channels m.channel 1 with ⟨k, c, g1, g2, g3⟩ | ⟨g2, g3⟩
      · rw [g2]
        simp only [at_, channelIds]
        rw [g3]
        simp only [Res.ok_bind]
        have hs := ho (m.channel, c) (List.mem_of_getElem? g1)
        obtain ⟨s, e4⟩ := Option.isSome_iff_exists.1 hs
        simp only at e4
        rw [e4]
        simp only
        have hv : see f m = some ⟨c.topic, c.encoding, s, m.sequence, m.logTime, m.publishTime, m.data⟩ := by
          unfold see; rw [g2]; simp only; rw [e4]
        rw [hv] at h
        simp only at h
        obtain ⟨out, e5⟩ := ih fun v hv => h v (by simp [hv])
        simp only [channelIds] at e5
        by_cases hn : s.name ≠ (if encoding then pointcloudName else compressedName)
        · rw [if_pos hn, e5]
          exact ⟨_, rfl⟩
        · rw [if_neg hn]
          obtain ⟨d, e6⟩ := h _ List.mem_cons_self (Classical.not_not.1 hn)
          simp only at e6
          rw [e6, Res.ok_bind, e5]
          exact ⟨_, rfl⟩
      · rw [g2]
        simp only
        have hv : see f m = none := by unfold see; rw [g2]
        rw [hv] at h
        exact ih h
  obtain ⟨cs, e2⟩ := h2 f.channels ho
  obtain ⟨out, e3⟩ := h3 f.messages hc
  unfold convertFile
  rw [h1, Res.ok_bind, e2, Res.ok_bind, e3]
  exact ⟨_, rfl⟩

end Cloudini.Mcap
