import Verif.Model.Topic
import Verif.Props.C61_C62

/-!
# C77: the topic converter node

Messages go through the node one after another; what it publishes, when it stops, whose messages it gets, and what it logs.
-/

namespace Cloudini.Props

open Cloudini.Ros Cloudini.Plugin Cloudini.Topic

/-! ### what is published -/

/-- What a user expects of one message: its conversion, if somebody listens. -/
def expectedOutput (nodes : Nat → Node) (e : Event) : Option (List Byte) :=
  if e.subscribers = 0 then none
  else match (nodes e.node).conv e.raw with
    | .ok b => some b
    | _ => none

/-- A message that is converted and cannot be. -/
def BadEvent (nodes : Nat → Node) (e : Event) : Prop := e.subscribers ≠ 0 ∧ ((nodes e.node).conv e.raw).isOk = false

theorem callback_published {nodes : Nat → Node} {s s' : Topic.State} {e : Event} {f : Effect} (h : callback nodes s e = .ok (s', f)) :
    f.published = expectedOutput nodes e ∧ ¬ BadEvent nodes e ∧ s'.count ≤ s.count + 1 := by
  unfold callback at h
  unfold expectedOutput BadEvent
  by_cases h0 : e.subscribers = 0
  · rw [if_pos h0] at h ⊢
    simp only [Res.ok.injEq, Prod.mk.injEq] at h
    obtain ⟨rfl, rfl⟩ := h
    exact ⟨rfl, fun h => h.1 h0, by omega⟩
  · rw [if_neg h0] at h ⊢
    obtain ⟨out, h1, h⟩ := Res.bind_eq_ok.1 h
    rw [h1]
    have hb : ¬ (e.subscribers ≠ 0 ∧ (Res.ok out).isOk = false) := fun h => by simp [Res.isOk] at h
    split at h
    · simp only [Res.ok.injEq, Prod.mk.injEq] at h
      obtain ⟨rfl, rfl⟩ := h
      exact ⟨rfl, hb, by omega⟩
    split at h
    · simp at h
    split at h <;>
    · simp only [Res.ok.injEq, Prod.mk.injEq] at h
      obtain ⟨rfl, rfl⟩ := h
      exact ⟨rfl, hb, by simp⟩

/-- **C77, output.** Whatever happened before, and however many nodes share the process: every message that was handled has given exactly its own conversion, or
nothing if nobody listened. -/
theorem C77_output (nodes : Nat → Node) (s : Topic.State) (es : List Event) :
    (run nodes s es).1.map (·.published) = (es.take (run nodes s es).1.length).map (expectedOutput nodes) := by
  induction es generalizing s with
  | nil => rfl
  | cons e es ih =>
    unfold run
    cases h : callback nodes s e with
    | ok p =>
      obtain ⟨s', f⟩ := p
      simp only [List.map_cons, List.length_cons, List.take_succ_cons]
      rw [ih s', (callback_published h).1]
    | throw m => rfl
    | ub k => rfl

/-- **C77, survival.** A process handles all messages if each of those that somebody listens to can be converted (and the counter does not overflow). -/
theorem C77_survives (nodes : Nat → Node) (s : Topic.State) (es : List Event) (hgood : ∀ e ∈ es, ¬ BadEvent nodes e) (hcount : s.count + es.length < 2 ^ 31) :
    (run nodes s es).1.length = es.length ∧ (run nodes s es).2.isOk = true := by
  induction es generalizing s with
  | nil => exact ⟨rfl, rfl⟩
  | cons e es ih =>
    rw [List.length_cons] at hcount
    have hok : ∃ p, callback nodes s e = .ok p := by
      unfold callback
      by_cases h0 : e.subscribers = 0
      · rw [if_pos h0]; exact ⟨_, rfl⟩
      · rw [if_neg h0]
        have := hgood e List.mem_cons_self
        unfold BadEvent at this
        cases hc : (nodes e.node).conv e.raw with
        | throw m => rw [hc] at this; exact absurd ⟨h0, rfl⟩ this
        | ub k => rw [hc] at this; exact absurd ⟨h0, rfl⟩ this
        | ok out =>
          rw [Res.ok_bind]
          by_cases hl : (nodes e.node).logging = false
          · rw [if_pos hl]; exact ⟨_, rfl⟩
          · rw [if_neg hl, if_neg (by omega)]
            simp only
            split
            · exact ⟨_, rfl⟩
            · exact ⟨_, rfl⟩
    obtain ⟨⟨s', f⟩, h⟩ := hok
    unfold run
    rw [h]
    simp only [List.length_cons]
    have := (callback_published h).2.2
    obtain ⟨a, b⟩ := ih s' (fun e he => hgood e (List.mem_cons_of_mem _ he)) (by omega)
    exact ⟨by rw [a], b⟩

/-- **C77 fails on the first bad message**: nothing behind it is handled, for no node of the process, and the process does not survive. -/
theorem C77_bad_message (nodes : Nat → Node) (s : Topic.State) (before after : List Event) (e : Event) (hbad : BadEvent nodes e) :
    (run nodes s (before ++ e :: after)).1.length ≤ before.length ∧ (run nodes s (before ++ e :: after)).2.isOk = false := by
  induction before generalizing s with
  | nil =>
    rw [List.nil_append]
    unfold run
    cases h : callback nodes s e with
    | ok p => exact absurd hbad (callback_published (f := p.2) (s' := p.1) h).2.1
    | throw m => exact ⟨Nat.le_refl _, rfl⟩
    | ub k => exact ⟨Nat.le_refl _, rfl⟩
  | cons b before ih =>
    rw [List.cons_append]
    unfold run
    cases h : callback nodes s b with
    | ok p =>
      simp only [List.length_cons]
      obtain ⟨h1, h2⟩ := ih p.1
      exact ⟨by omega, h2⟩
    | throw m => exact ⟨by simp, rfl⟩
    | ub k => exact ⟨by simp, rfl⟩

/-! ### who is heard -/

/-- The rule of DDS: a reader that asks for reliable delivery (for messages from before its time) gets messages only from writers that offer it. -/
def Compatible (request offer : Qos) : Prop :=
  (request.reliability = .reliable → offer.reliability = .reliable) ∧ (request.durability = .transientLocal → offer.durability = .transientLocal)

theorem filter_all {α : Type} {p : α → Bool} {l : List α} (h : (l.filter p).length = l.length) : ∀ x ∈ l, p x = true := by
  induction l with
  | nil => simp
  | cons a l ih =>
    by_cases ha : p a = true
    · rw [List.filter_cons_of_pos ha] at h
      intro x hx
      rcases List.mem_cons.1 hx with rfl | hx
      · exact ha
      · exact ih (by simpa using h) x hx
    · rw [List.filter_cons_of_neg ha] at h
      have := List.length_filter_le p l
      simp at h
      omega

/-- **C77, quality of service.** The subscription is compatible with every publisher known when the node starts. -/
theorem C77_hears_known (p : Params) (offers : List Qos) (u : Setup) (h : setup p offers = .ok u) : ∀ o ∈ offers, Compatible u.request o := by
  intro o ho
  unfold setup at h
  split at h
  · simp at h
  simp only [Res.ok.injEq] at h
  subst h
  have hne : offers.isEmpty = false := by cases offers with
    | nil => simp at ho
    | cons => rfl
  unfold Compatible adapt
  simp only [hne, Bool.false_eq_true, if_false]
  constructor
  · intro h
    split at h
    · next hl => simpa using filter_all hl o ho
    · simp at h
  · intro h
    split at h
    · next hl => simpa using filter_all hl o ho
    · simp at h

/-- **C77, no more than necessary is given up.** If all known publishers offer reliable delivery, it is asked for, and the same for old messages. -/
theorem C77_strongest (p : Params) (offers : List Qos) (u : Setup) (hne : offers ≠ []) (h : setup p offers = .ok u) :
    (u.request.reliability = .reliable ↔ ∀ o ∈ offers, o.reliability = .reliable) ∧
      (u.request.durability = .transientLocal ↔ ∀ o ∈ offers, o.durability = .transientLocal) := by
  refine ⟨⟨fun hr o ho => (C77_hears_known p offers u h o ho).1 hr, fun hall => ?_⟩, ⟨fun hr o ho => (C77_hears_known p offers u h o ho).2 hr, fun hall => ?_⟩⟩
  all_goals
    unfold setup at h
    split at h
    · simp at h
    simp only [Res.ok.injEq] at h
    subst h
    have hne : offers.isEmpty = false := by cases offers with
      | nil => exact absurd rfl hne
      | cons => rfl
    unfold adapt
    simp only [hne, Bool.false_eq_true, if_false]
    rw [if_pos]
    rw [List.filter_eq_self.2]
    intro o ho
    simpa using hall o ho

/-- **C77 fails for publishers that start later**: a node started first asks for reliable delivery and never hears a publisher that does not offer it (most
sensor drivers do not); so does a node all of whose known publishers were reliable. -/
theorem C77_late_publisher (p : Params) (offers : List Qos) (u : Setup) (late : Qos) (hall : ∀ o ∈ offers, o.reliability = .reliable)
    (hlate : late.reliability ≠ .reliable) (h : setup p offers = .ok u) : ¬ Compatible u.request late := by
  intro hc
  apply hlate
  apply hc.1
  by_cases hne : offers = []
  · subst hne
    unfold setup at h
    split at h
    · simp at h
    simp only [Res.ok.injEq] at h
    subst h
    rfl
  · exact (C77_strongest p offers u hne h).1.2 hall

/-- **C77, topics.** Input and output differ (unless the user names the same topic), and the types are those of the direction. -/
theorem C77_topics (p : Params) (offers : List Qos) : (setup p offers).isOk = decide (p.input ≠ []) ∧
    ∀ u, setup p offers = .ok u → u.input = p.input ∧ (p.output ≠ [] → u.output = p.output) ∧ (p.output = [] → u.output ≠ u.input) ∧ u.offer = u.request ∧
      (u.inputType, u.outputType) =
        (if p.compressing then (Mcap.pointcloudName, Mcap.compressedName) else (Mcap.compressedName, Mcap.pointcloudName)) := by
  unfold setup
  by_cases hi : p.input = []
  · rw [if_pos hi]; exact ⟨by simp [Res.isOk, hi], by simp⟩
  · rw [if_neg hi]
    refine ⟨by simp [Res.isOk, hi], fun u hu => ?_⟩
    simp only [Res.ok.injEq] at hu
    subst hu
    refine ⟨rfl, fun ho => by simp only; rw [if_neg ho], fun ho => ?_, rfl, ?_⟩
    · simp only
      rw [if_pos ho]
      intro h
      have := congrArg List.length h
      rw [List.length_append] at this
      have hpos : ∀ b : Bool, (if b = true then ascii "/compressed" else ascii "/decompressed").length ≠ 0 := by decide
      exact hpos p.compressing (by omega)
    · cases p.compressing <;> rfl

/-- Two converters in a row: the second one hears the first, and asks for the same. -/
theorem C77_row (p q : Params) (offers : List Qos) (u v : Setup) (hu : setup p offers = .ok u) (hv : setup q [u.offer] = .ok v) :
    Compatible v.request u.offer ∧ v.request.reliability = u.request.reliability ∧ v.request.durability = u.request.durability := by
  refine ⟨C77_hears_known q _ v hv _ List.mem_cons_self, ?_⟩
  have huo := ((C77_topics p offers).2 u hu).2.2.2.1
  obtain ⟨h1, h2⟩ := C77_strongest q [u.offer] v (by simp) hv
  simp only [List.mem_singleton, forall_eq, huo] at h1 h2
  have hr : ∀ (p : Params) (offers : List Qos) (u : Setup), setup p offers = .ok u →
      (u.request.reliability = .reliable ∨ u.request.reliability = .bestEffort) ∧ (u.request.durability = .transientLocal ∨ u.request.durability = .volatile) := by
    intro p offers u h
    unfold setup at h
    split at h
    · simp at h
    simp only [Res.ok.injEq] at h
    subst h
    simp only
    unfold adapt
    by_cases hem : offers.isEmpty = true
    · rw [if_pos hem]; exact ⟨Or.inl rfl, Or.inr rfl⟩
    · rw [if_neg hem]
      simp only
      exact ⟨by split <;> simp, by split <;> simp⟩
  obtain ⟨a, b⟩ := hr p offers u hu
  obtain ⟨c, d⟩ := hr q _ v hv
  constructor
  · rcases a with a | a <;> rcases c with c | c <;> rw [a, c]
    · rw [a, c] at h1; simp at h1
    · rw [a, c] at h1; simp at h1
  · rcases b with b | b <;> rcases d with d | d <;> rw [b, d]
    · rw [b, d] at h2; simp at h2
    · rw [b, d] at h2; simp at h2

/-! ### the round trip -/

/-- The node of the program. -/
def topicNode (T : FloatText) (F : FloatOps) (C : Compressor) (fuel : Nat) (compressing : Bool) (res : BitVec 64) (logging : Bool) : Node :=
  ⟨convertTopic T F C fuel compressing res, logging⟩

/-- **C77, a row of two converters (partial).** Clouds sent one after another through a compressing node and a decompressing one: what the second node publishes for
each of them has the same metadata and the decoded values of C18, whatever came before.  Missing: as in C62. -/
theorem C77_roundtrip_partial (T : FloatText) (hT : T.Lawful) (F : FloatOps) (C : Compressor) (hC : C.Lawful) (fuel : Nat) (res r2 : BitVec 64) (l1 l2 : Bool)
    (s : Topic.State) (history : List Event) (raw msg : List Byte) (pc : Pc2) (hread : getMessage raw = .ok pc) (hraw : raw.length < 2 ^ 32) (hlittle : pc.cdr.big = false)
    (ok : FileOk T F (toEncodingInfo (resolved pc (Plugin.narrow res))) pc.data)
    (hlim : ∀ enc, mkEncoder F (toEncodingInfo (resolved pc (Plugin.narrow res))) (encodeHeaderYaml T (toEncodingInfo (resolved pc (Plugin.narrow res)))) = .ok enc →
      ChunksWithin F enc pc.data pc.data.length)
    (hmsg : msg.length < 1431260227) (e : expectedOutput (fun _ => topicNode T F C fuel true res l1) ⟨0, 1, raw⟩ = some msg) (fs : List Effect) (f : Effect) (r : Res Topic.State)
    (hrun : run (fun _ => topicNode T F C fuel false r2 l2) s (history ++ [⟨0, 1, msg⟩]) = (fs ++ [f], r)) (hlen : fs.length = history.length) :
    ∃ raw' pc', f.published = some raw' ∧ getMessage raw' = .ok pc' ∧ SameMeta pc' pc ∧ pc'.data.length = pc.data.length ∧
      Decoded F (toEncodingInfo (resolved pc (Plugin.narrow res))) pc.data pc'.data := by
  have e1 : convertTopic T F C fuel true res raw = .ok msg := by
    unfold expectedOutput topicNode at e
    simp only at e
    rw [if_neg (by decide)] at e
    split at e
    · next h => simp only [Option.some.injEq] at e; rw [← e]; exact h
    · simp at e
  obtain ⟨raw', pc', h1, h2, h3, h4, h5, _⟩ := C62_topics_partial T hT F C hC fuel res r2 raw msg pc hread hraw hlittle ok hlim hmsg e1
  refine ⟨raw', pc', ?_, h2, h3, h4, h5⟩
  have := C77_output (fun _ => topicNode T F C fuel false r2 l2) s (history ++ [⟨0, 1, msg⟩])
  rw [hrun] at this
  simp only [List.map_append, List.map_cons, List.map_nil, List.length_append, List.length_cons, List.length_nil, hlen] at this
  rw [List.take_of_length_le (by simp), List.map_append] at this
  have := (List.append_inj' this rfl).2
  simp only [List.map_cons, List.map_nil, List.cons.injEq, and_true] at this
  rw [this]
  unfold expectedOutput topicNode
  simp only
  rw [if_neg (by decide), h1]

/-! ### the statistics -/

/-- The last `n` elements. -/
def lastOf {α : Type} (n : Nat) (l : List α) : List α := l.drop (l.length - n)

/-- What the log of a single node should say after its first `k + 1` messages: at every twentieth message, how many were converted, and the two sizes of
those since the line before. -/
def wantedLine (conv : List Byte → List Byte) (l : List (List Byte)) (said : Nat → Nat) : Option Line :=
  if (l.length - 1) % 20 = 0 then
    let since := lastOf (if l.length ≤ 20 then l.length else 20) l
    some ⟨said l.length, (since.map fun m => (conv m).length).sum, (since.map List.length).sum⟩
  else none

/-- The messages since the last line. -/
def sinceLine {α : Type} (l : List α) : List α := lastOf (if l.length = 0 then 0 else (l.length - 1) % 20) l

theorem lastOf_snoc {α : Type} (n : Nat) (l : List α) (x : α) (h : n ≤ l.length) : lastOf (n + 1) (l ++ [x]) = lastOf n l ++ [x] := by
  unfold lastOf
  rw [List.length_append, List.length_singleton, show l.length + 1 - (n + 1) = l.length - n by omega, List.drop_append_of_le_length (by omega)]

/-- One message of a single node. -/
theorem callback_one {conv : List Byte → List Byte} {nodes : Nat → Node} (hn : nodes 0 = ⟨fun m => .ok (conv m), true⟩) (done : List (List Byte)) (raw : List Byte)
    (subs : Nat) (hs : subs ≠ 0) (s : Topic.State) (hc : s.count = done.length) (hlt : done.length + 1 < 2 ^ 31)
    (ht : s.totals 0 = ⟨((sinceLine done).map List.length).sum, ((sinceLine done).map fun m => (conv m).length).sum⟩) :
    ∃ s', callback nodes s ⟨0, subs, raw⟩ = .ok (s', ⟨some (conv raw), wantedLine conv (done ++ [raw]) (· - 1)⟩) ∧ s'.count = (done ++ [raw]).length ∧
      s'.totals 0 = ⟨((sinceLine (done ++ [raw])).map List.length).sum, ((sinceLine (done ++ [raw])).map fun m => (conv m).length).sum⟩ := by
  have hlen : (done ++ [raw]).length = done.length + 1 := by simp
  have hcb : callback nodes s ⟨0, subs, raw⟩ =
      (if s.count % 20 = 0 then
        .ok (⟨s.count + 1, fun i => if i = 0 then {} else s.totals i⟩, ⟨some (conv raw), some ⟨s.count, (s.totals 0).compressed + (conv raw).length, (s.totals 0).original + raw.length⟩⟩)
      else .ok (⟨s.count + 1, fun i => if i = 0 then ⟨(s.totals 0).original + raw.length, (s.totals 0).compressed + (conv raw).length⟩ else s.totals i⟩, ⟨some (conv raw), none⟩)) := by
    unfold callback
    simp only [hn]
    rw [if_neg hs, Res.ok_bind, if_neg (by simp), if_neg (by omega)]
  rw [hcb]
  by_cases h20 : done.length % 20 = 0
  · rw [if_pos (by rw [hc]; exact h20)]
    have hw : wantedLine conv (done ++ [raw]) (· - 1) = some ⟨s.count, (s.totals 0).compressed + (conv raw).length, (s.totals 0).original + raw.length⟩ := by
      unfold wantedLine
      rw [hlen, if_pos (by simpa using h20)]
      simp only
      have hl : lastOf (if done.length + 1 ≤ 20 then done.length + 1 else 20) (done ++ [raw]) = sinceLine done ++ [raw] ∨ done = [] := by
        by_cases h0 : done.length = 0
        · exact Or.inr (List.eq_nil_of_length_eq_zero h0)
        · left
          rw [if_neg (by omega)]
          unfold sinceLine
          rw [if_neg h0, show (done.length - 1) % 20 = 19 by omega]
          exact lastOf_snoc 19 done raw (by omega)
      rcases hl with hl | hl
      · rw [hl, ht, hc]
        simp
      · subst hl
        rw [ht, hc]
        simp [lastOf, sinceLine]
    rw [hw]
    refine ⟨_, rfl, by rw [hlen, hc], ?_⟩
    unfold sinceLine
    rw [hlen, if_neg (by omega), show (done.length + 1 - 1) % 20 = 0 by simpa using h20]
    simp [lastOf]
  · rw [if_neg (by rw [hc]; exact h20)]
    have hw : wantedLine conv (done ++ [raw]) (· - 1) = none := by
      unfold wantedLine
      rw [hlen, if_neg (by simpa using h20)]
    rw [hw]
    refine ⟨_, rfl, by rw [hlen, hc], ?_⟩
    have hl : sinceLine (done ++ [raw]) = sinceLine done ++ [raw] := by
      unfold sinceLine
      rw [hlen, if_neg (by omega), if_neg (by omega : ¬ done.length = 0), show (done.length + 1 - 1) % 20 = (done.length - 1) % 20 + 1 by omega]
      exact lastOf_snoc _ done raw (by omega)
    rw [hl, ht]
    simp

/-- **C77, the log of a process with one node.** Every twentieth message gives a line, with the sizes of exactly the messages since the line before; but the number of
messages it names is one too small, always. -/
theorem C77_log (conv : List Byte → List Byte) (nodes : Nat → Node) (hn : nodes 0 = ⟨fun m => .ok (conv m), true⟩) (ms : List (List Byte)) (hlen : ms.length < 2 ^ 31) :
    (run nodes {} (ms.map fun m => ⟨0, 1, m⟩)).1.map (·.line) = (List.range ms.length).map fun k => wantedLine conv (ms.take (k + 1)) (· - 1) := by
  have key : ∀ (rest done : List (List Byte)) (s : Topic.State), s.count = done.length → done.length + rest.length < 2 ^ 31 →
      s.totals 0 = ⟨((sinceLine done).map List.length).sum, ((sinceLine done).map fun m => (conv m).length).sum⟩ →
      (run nodes s (rest.map fun m => ⟨0, 1, m⟩)).1.map (·.line) = (List.range rest.length).map fun k => wantedLine conv (done ++ rest.take (k + 1)) (· - 1) := by
    intro rest
    induction rest with
    | nil => intro done s _ _ _; rfl
    | cons raw rest ih =>
      intro done s hc hlt ht
      rw [List.length_cons] at hlt
      obtain ⟨s', h1, h2, h3⟩ := callback_one hn done raw 1 (by decide) s hc (by omega) ht
      rw [List.map_cons]
      unfold run
      rw [h1]
      simp only [List.map_cons, List.length_cons]
      rw [ih (done ++ [raw]) s' h2 (by simp; omega) h3, List.range_succ_eq_map, List.map_cons, List.map_map]
      congr 1
      apply List.map_congr_left
      intro k _
      simp
  have := key ms [] {} rfl (by simpa using hlen) (by simp [sinceLine, lastOf])
  simpa using this

/-- **C77, two nodes in a process (the counter is shared).** If their messages alternate, the second node never logs anything, however long they run. -/
theorem C77_second_silent (nodes : Nat → Node) (h0 : (nodes 0).logging = true) (h1 : (nodes 1).logging = true) (ms : List (List Byte × List Byte)) :
    ∀ i f, (run nodes {} (ms.flatMap fun m => [⟨0, 1, m.1⟩, ⟨1, 1, m.2⟩])).1[2 * i + 1]? = some f → f.line = none := by
  have hone : ∀ (n : Nat) (s s' : Topic.State) (raw : List Byte) (f : Effect), (nodes n).logging = true → callback nodes s ⟨n, 1, raw⟩ = .ok (s', f) →
      s'.count = s.count + 1 ∧ (s.count % 20 ≠ 0 → f.line = none) := by
    intro n s s' raw f hl h
    unfold callback at h
    rw [if_neg (by simp)] at h
    obtain ⟨out, _, h⟩ := Res.bind_eq_ok.1 h
    simp only at h
    rw [if_neg (by rw [hl]; simp)] at h
    split at h
    · simp at h
    split at h
    · next h20 =>
      simp only [Res.ok.injEq, Prod.mk.injEq] at h
      obtain ⟨rfl, rfl⟩ := h
      exact ⟨rfl, fun h => absurd h20 h⟩
    · simp only [Res.ok.injEq, Prod.mk.injEq] at h
      obtain ⟨rfl, rfl⟩ := h
      exact ⟨rfl, fun _ => rfl⟩
  have key : ∀ (ms : List (List Byte × List Byte)) (s : Topic.State), s.count % 2 = 0 →
      ∀ i f, (run nodes s (ms.flatMap fun m => [⟨0, 1, m.1⟩, ⟨1, 1, m.2⟩])).1[2 * i + 1]? = some f → f.line = none := by
    intro ms
    induction ms with
    | nil => intro s _ i f h; simp [run] at h
    | cons m ms ih =>
      intro s hs i f h
      rw [List.flatMap_cons] at h
      simp only [List.cons_append, List.nil_append] at h
      unfold run at h
      cases c0 : callback nodes s ⟨0, 1, m.1⟩ with
      | throw e => rw [c0] at h; simp at h
      | ub k => rw [c0] at h; simp at h
      | ok p =>
        obtain ⟨s1, f1⟩ := p
        rw [c0] at h
        obtain ⟨a1, _⟩ := hone 0 s s1 m.1 f1 h0 c0
        simp only [List.getElem?_cons_succ] at h
        unfold run at h
        cases c1 : callback nodes s1 ⟨1, 1, m.2⟩ with
        | throw e => rw [c1] at h; simp at h
        | ub k => rw [c1] at h; simp at h
        | ok q =>
          obtain ⟨s2, f2⟩ := q
          rw [c1] at h
          obtain ⟨b1, b2⟩ := hone 1 s1 s2 m.2 f2 h1 c1
          simp only at h
          cases i with
          | zero =>
            simp only [Nat.mul_zero, List.getElem?_cons_zero, Option.some.injEq] at h
            rw [← h]
            exact b2 (by omega)
          | succ i =>
            rw [show 2 * (i + 1) = 2 * i + 1 + 1 by omega, List.getElem?_cons_succ] at h
            exact ih s2 (by omega) i f h
  exact key ms {} rfl

/-! ### examples -/

/-- A compressing and a decompressing node. -/
def pressNode : Node := topicNode bitsText bitsOps storeComp 0 true pclRes true
def unpressNode : Node := topicNode bitsText bitsOps storeComp 0 false 0#64 true

theorem press_msg : ∃ msg, expectedOutput (fun _ => pressNode) ⟨0, 1, wasmRaw⟩ = some msg ∧ msg.length < 1431260227 := by
  have h : (match compress bitsText bitsOps storeComp wasmPc 0x3F800000#32 with | .ok b => decide (b.length < 1431260227) | _ => false) = true := by
    decide +kernel
  have hc : convertTopic bitsText bitsOps storeComp 0 true pclRes wasmRaw = compress bitsText bitsOps storeComp wasmPc 0x3F800000#32 := by
    unfold convertTopic
    rw [wasmRaw_read, Res.ok_bind, if_pos rfl, plug_narrow]
  cases e : compress bitsText bitsOps storeComp wasmPc 0x3F800000#32 with
  | throw m => rw [e] at h; simp at h
  | ub k => rw [e] at h; simp at h
  | ok msg =>
    rw [e] at h
    refine ⟨msg, ?_, by simpa using h⟩
    unfold expectedOutput pressNode topicNode
    simp only
    rw [if_neg (by decide), hc, e]

/-- Four bytes are no message. -/
theorem four_bad : BadEvent (fun _ => pressNode) ⟨0, 1, [0#8, 1#8, 0#8, 0#8]⟩ := ⟨by decide, by decide +kernel⟩

/-- One cloud without a listener, one with, then four bytes: the last cloud is lost. -/
example : (run (fun _ => pressNode) {} ([⟨0, 0, wasmRaw⟩, ⟨0, 1, wasmRaw⟩] ++ ⟨0, 1, [0#8, 1#8, 0#8, 0#8]⟩ :: [⟨0, 1, wasmRaw⟩])).1.length ≤ 2 :=
  (C77_bad_message (fun _ => pressNode) {} _ _ _ four_bad).1

/-- The hypotheses of the survival hold for clouds. -/
example : (run (fun _ => pressNode) {} [⟨0, 0, [0#8, 1#8, 0#8, 0#8]⟩, ⟨0, 1, wasmRaw⟩]).1.length = 2 := by
  obtain ⟨msg, h, _⟩ := press_msg
  refine (C77_survives (fun _ => pressNode) {} _ ?_ (by decide)).1
  intro e he hbad
  simp only [List.mem_cons, List.not_mem_nil, or_false] at he
  rcases he with rfl | rfl
  · exact hbad.1 rfl
  · unfold expectedOutput at h
    simp only at h
    rw [if_neg (by decide)] at h
    have := hbad.2
    simp only at this
    split at h
    · next hc => rw [hc] at this; simp [Res.isOk] at this
    · simp at h

/-- A cloud through both nodes. -/
example : ∃ msg fs f r raw' pc', expectedOutput (fun _ => pressNode) ⟨0, 1, wasmRaw⟩ = some msg ∧
    run (fun _ => unpressNode) {} ([⟨0, 0, [9#8]⟩] ++ [⟨0, 1, msg⟩]) = (fs ++ [f], r) ∧ f.published = some raw' ∧ getMessage raw' = .ok pc' ∧ SameMeta pc' wasmPc := by
  obtain ⟨msg, hm, hl⟩ := press_msg
  have hinfo : toEncodingInfo (resolved wasmPc (Plugin.narrow pclRes)) = pclInfo := by decide +kernel
  have hconv : ∃ raw', convertTopic bitsText bitsOps storeComp 0 false 0#64 msg = .ok raw' := by
    have hm' := hm
    unfold expectedOutput pressNode topicNode at hm'
    simp only at hm'
    rw [if_neg (by decide)] at hm'
    split at hm'
    · next h =>
      simp only [Option.some.injEq] at hm'
      subst hm'
      obtain ⟨raw', _, h1, _⟩ := C62_topics_partial bitsText bitsText_lawful bitsOps storeComp storeComp_lawful 0 pclRes 0#64 wasmRaw _ wasmPc wasmRaw_read (by decide +kernel) rfl
        (by rw [hinfo]; exact pcl_ok) (by rw [hinfo]; intro enc he; rw [pcl_enc] at he; cases he; exact pcl_within) hl h
      exact ⟨raw', h1⟩
    · simp at hm'
  obtain ⟨raw', hconv⟩ := hconv
  have hrun : ∃ f r, run (fun _ => unpressNode) {} ([⟨0, 0, [9#8]⟩] ++ [⟨0, 1, msg⟩]) = ([⟨none, none⟩] ++ [f], r) := by
    obtain ⟨p, hp⟩ : ∃ p, callback (fun _ => unpressNode) {} ⟨0, 1, msg⟩ = .ok p := by
      unfold callback unpressNode topicNode
      simp only
      rw [if_neg (by decide), hconv, Res.ok_bind, if_neg (by decide), if_neg (by decide), if_pos trivial]
      exact ⟨_, rfl⟩
    refine ⟨p.2, .ok p.1, ?_⟩
    rw [List.singleton_append]
    unfold run
    have : callback (fun _ => unpressNode) {} ⟨0, 0, [9#8]⟩ = .ok ({}, ⟨none, none⟩) := rfl
    rw [this]
    simp only
    unfold run
    rw [hp]
    rfl
  obtain ⟨f, r, hrun⟩ := hrun
  obtain ⟨raw'', pc', h1, h2, h3, _⟩ := C77_roundtrip_partial bitsText bitsText_lawful bitsOps storeComp storeComp_lawful 0 pclRes 0#64 true true {} [⟨0, 0, [9#8]⟩] wasmRaw msg wasmPc
    wasmRaw_read (by decide +kernel) rfl (by rw [hinfo]; exact pcl_ok) (by rw [hinfo]; intro enc he; rw [pcl_enc] at he; cases he; exact pcl_within) hl hm _ f r hrun rfl
  exact ⟨msg, _, f, r, raw'', pc', hm, hrun, h1, h2, h3⟩

/-- A laser scanner that does not promise delivery and a recorder that does: both are heard; the node gives up reliability. -/
example : ∃ u, setup {} [⟨5, .bestEffort, .volatile⟩, ⟨1, .reliable, .transientLocal⟩] = .ok u ∧ u.output = ascii "/points/compressed" ∧ u.request.reliability = .bestEffort :=
  ⟨_, rfl, by decide, rfl⟩

/-- Started before the scanner, the node does not hear it. -/
example : ∃ u, setup {} [] = .ok u ∧ ¬ Compatible u.request ⟨5, .bestEffort, .volatile⟩ :=
  ⟨_, rfl, C77_late_publisher {} [] _ _ (by simp) (by decide) rfl⟩

/-- Twenty-one messages of three bytes, converted to one byte each: two lines; the second names twenty messages. -/
example : ((run (fun _ => ⟨fun _ => .ok [1#8], true⟩) {} ((List.replicate 21 [7#8, 8#8, 9#8]).map fun m => ⟨0, 1, m⟩)).1.map (·.line)).filterMap id = [⟨0, 1, 3⟩, ⟨20, 20, 60⟩] := by
  rw [C77_log (fun _ => [1#8]) _ rfl _ (by decide)]
  decide +kernel

/-- Two nodes, two messages each: only the first logs. -/
example : (run (fun _ => ⟨fun m => .ok m, true⟩) {} ([([1#8], [2#8]), ([3#8], [4#8])].flatMap fun m => [⟨0, 1, m.1⟩, ⟨1, 1, m.2⟩])).1.map (·.line) =
    [some ⟨0, 1, 1⟩, none, none, none] := by decide +kernel

end Cloudini.Props
