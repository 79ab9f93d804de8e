import Verif.Model.Inspector
import Verif.Props.C58_C59
import Verif.Props.C72

/-!
# C75: the header inspector

`inspect` is `mcap_header_inspector`.  `delivered f` (Spec/Mcap) is what a reader gets from a file, in order.
-/

namespace Cloudini.Props

open Cloudini.Ros Cloudini.Mcap Cloudini.Inspector

/-- The first compressed cloud of a file, as a reader gets it. -/
def firstCloud (name : List Byte) (f : File) : Option Seen := (delivered f).find? fun v => v.schema.name = name

/-- Every channel of the file has a schema. -/
def AllSchemas (f : File) : Prop := ∀ c ∈ f.channels, (find f.schemas c.2.schema).isSome

/-- The printed lines describe `info`. -/
structure Describes (T : FloatText) (info : EncodingInfo) (s : Shown) : Prop where
  yaml : s.yaml = infoToYaml T info
  version : s.version = info.version.toNat
  width : s.width = info.width.toNat
  height : s.height = info.height.toNat
  pointStep : s.pointStep = info.point_step.toNat
  encoding : s.encoding = info.encoding_opt.name
  compression : s.compression = info.compression_opt.name
  fields : s.fields.map (fun l => (l.name, l.offset, l.type)) = info.fields.map fun f => (f.name, f.offset.toNat, f.type.name)

theorem firstMessage_seen {f : File} (hd : DistinctIds f.channels) (ms : List Message) :
    (firstMessage (channels f) ms).map (fun r => (r.2, r.1.logTime, r.1.data)) =
      ((ms.filterMap (see f)).find? fun v => v.schema.name = compressedName).map fun v => (v.topic, v.logTime, v.data) := by
  induction ms with
  | nil => rfl
  | cons m ms ih =>
    have hf := fun t => namedChannels_find (f := f) compressedName f.channels hd m.channel t
    unfold firstMessage
    cases e : find (channels f) m.channel with
    | some t =>
      obtain ⟨c, s, h1, h2, h3, h4⟩ := (hf t).1 e
      have hs : see f m = some ⟨c.topic, c.encoding, s, m.sequence, m.logTime, m.publishTime, m.data⟩ := by unfold see; rw [h1]; simp only [h2]
      rw [List.filterMap_cons_some hs, List.find?_cons_of_pos (by simpa using h3)]
      simp [h4]
    | none =>
      simp only
      rw [ih]
      cases hs : see f m with
      | none => rw [List.filterMap_cons_none hs]
      | some v =>
        rw [List.filterMap_cons_some hs, List.find?_cons_of_neg]
        simp only [decide_eq_true_eq]
        intro hn
        unfold see at hs
        cases h1 : find f.channels m.channel with
        | none => simp [h1] at hs
        | some c =>
          simp only [h1] at hs
          cases h2 : find f.schemas c.schema with
          | none => simp [h2] at hs
          | some s =>
            simp only [h2, Option.some.injEq] at hs
            subst hs
            have := (hf c.topic).2 ⟨c, s, h1, h2, hn, rfl⟩
            rw [show find (channels f) m.channel = some c.topic from this] at e
            simp at e

theorem channels_empty {f : File} : (channels f).isEmpty = true ↔ ∀ c ∈ channelsOf f, ∀ s, c.2.2 = some s → s.name ≠ compressedName := by
  rw [List.isEmpty_iff]
  unfold channels channelsOf
  rw [List.filterMap_eq_nil_iff]
  constructor
  · intro h c hc s hs hn
    obtain ⟨e, he, rfl⟩ := List.mem_map.1 hc
    have := h e he
    simp only at hs
    rw [hs] at this
    simp [hn] at this
  · intro h e he
    cases hs : find f.schemas e.2.schema with
    | none => rfl
    | some s =>
      have := h _ (List.mem_map_of_mem (f := fun c : Nat × Channel => (c.2.topic, c.2.encoding, find f.schemas c.2.schema)) he) s hs
      simp [this]

theorem showMessage_inv {T : FloatText} {t : List Byte} {m : Message} {s : Shown} (h : showMessage T t m = .ok s) :
    ∃ pc info payload, getMessage m.data = .ok pc ∧ decodeHeader T pc.data = .ok (info, payload) ∧ Describes T info s ∧ s.topic = t ∧ s.time = m.logTime ∧
      s.messageSize = m.data.length ∧ s.dataSize = pc.data.length ∧ s.points = info.width.toNat * info.height.toNat % 2 ^ 32 ∧
      s.bytes = info.width.toNat * info.height.toNat * info.point_step.toNat % 2 ^ 32 ∧
      s.fields.map (·.resolution) = info.fields.map (fun f => T.print (f.resolution.getD one32)) := by
  unfold showMessage at h
  obtain ⟨pc, h1, h⟩ := Res.bind_eq_ok.1 h
  obtain ⟨⟨info, payload⟩, h2, h⟩ := Res.bind_eq_ok.1 h
  simp only [Res.ok.injEq] at h
  subst h
  refine ⟨pc, info, payload, h1, h2, ⟨rfl, rfl, rfl, rfl, rfl, rfl, rfl, ?_⟩, rfl, rfl, rfl, rfl, ?_, ?_, ?_⟩
  · simp [fieldLine, Function.comp_def]
  · simp [BitVec.toNat_mul]
  · simp [BitVec.toNat_mul]
  · simp [fieldLine, Function.comp_def]

theorem inspect_first {T : FloatText} {f : File} {v : Seen} (hs : AllSchemas f) (hd : DistinctIds f.channels) (hv : firstCloud compressedName f = some v) :
    ∃ m, m.logTime = v.logTime ∧ m.data = v.data ∧
      inspect T (some f) = finish ((channels f).map (·.2)) (showMessage T v.topic m) := by
  have hall : (f.channels.all fun c => (find f.schemas c.2.schema).isSome) = true := by
    rw [List.all_eq_true]; exact hs
  have hm := firstMessage_seen hd f.messages
  have hv' : ((f.messages.filterMap (see f)).find? fun v => v.schema.name = compressedName) = some v := hv
  rw [hv'] at hm
  cases e : firstMessage (channels f) f.messages with
  | none => rw [e] at hm; simp at hm
  | some r =>
    obtain ⟨m, t⟩ := r
    rw [e] at hm
    simp only [Option.map_some, Option.some.injEq, Prod.mk.injEq] at hm
    refine ⟨m, hm.2.1, hm.2.2, ?_⟩
    have hne : (channels f).isEmpty = false := by
      cases hc : channels f with
      | nil =>
        rw [hc] at e
        exact absurd e (by
          have : ∀ ms, firstMessage [] ms = none := by
            intro ms
            induction ms with
            | nil => rfl
            | cons m ms ih => unfold firstMessage; exact ih
          rw [this]; simp)
      | cons a l => rfl
    unfold inspect
    simp only [hall, hne, e, if_true, Bool.false_eq_true, if_false, hm.1]

/-- **C75.** For a file with at least one compressed cloud whose message and header can be read: the program ends with exit code 0 and describes exactly the
first such message in the order of the file: its topic, time and sizes, and the description in its header; the numbers of points and bytes are those of
the description modulo `2 ^ 32`. -/
theorem C75_first (T : FloatText) (f : File) (v : Seen) (pc : Pc2) (info : EncodingInfo) (payload : List Byte) (hs : AllSchemas f) (hd : DistinctIds f.channels)
    (hv : firstCloud compressedName f = some v) (hm : getMessage v.data = .ok pc) (hh : decodeHeader T pc.data = .ok (info, payload)) :
    ∃ run s, inspect T (some f) = .ok run ∧ run.exit = 0 ∧ run.shown = some s ∧ s.topic = v.topic ∧ s.time = v.logTime ∧ s.messageSize = v.data.length ∧
      s.dataSize = pc.data.length ∧ Describes T info s ∧ s.points = info.width.toNat * info.height.toNat % 2 ^ 32 ∧
      s.bytes = info.width.toNat * info.height.toNat * info.point_step.toNat % 2 ^ 32 := by
  obtain ⟨m, h1, h2, h3⟩ := inspect_first (T := T) hs hd hv
  have hok : ∃ s, showMessage T v.topic m = .ok s := by
    unfold showMessage
    rw [h2, hm, Res.ok_bind, hh]
    exact ⟨_, rfl⟩
  obtain ⟨s, hok⟩ := hok
  obtain ⟨pc', info', payload', g1, g2, g3, g4, g5, g6, g7, g8, g9, _⟩ := showMessage_inv hok
  rw [h2, hm, Res.ok.injEq] at g1
  subst g1
  rw [hh] at g2
  simp only [Res.ok.injEq, Prod.mk.injEq] at g2
  obtain ⟨rfl, rfl⟩ := g2
  exact ⟨⟨0, _, some s⟩, s, by rw [h3, hok]; rfl, rfl, rfl, g4, by rw [g5, h1], by rw [g6, h2], g7, g3, g8, g9⟩

/-- **C75.** Nothing behind the first compressed cloud matters. -/
theorem C75_rest_ignored (T : FloatText) (f : File) (pre post post' : List Message) (m : Message) (hd : DistinctIds f.channels)
    (hm : ∃ v, see f m = some v ∧ v.schema.name = compressedName) :
    inspect T (some { f with messages := pre ++ m :: post }) = inspect T (some { f with messages := pre ++ m :: post' }) := by
  obtain ⟨v, h1, h2⟩ := hm
  have hc : ∀ ms, channels { f with messages := ms } = channels f := fun _ => rfl
  have key : ∃ t, find (channels f) m.channel = some t := by
    unfold see at h1
    cases e1 : find f.channels m.channel with
    | none => simp [e1] at h1
    | some c =>
      simp only [e1] at h1
      cases e2 : find f.schemas c.schema with
      | none => simp [e2] at h1
      | some s =>
        simp only [e2, Option.some.injEq] at h1
        subst h1
        exact ⟨c.topic, (namedChannels_find (f := f) compressedName f.channels hd m.channel c.topic).2 ⟨c, s, e1, e2, h2, rfl⟩⟩
  obtain ⟨t, ht⟩ := key
  have hfirst : ∀ post, firstMessage (channels f) (pre ++ m :: post) = firstMessage (channels f) (pre ++ [m]) := by
    intro post
    induction pre with
    | nil => simp only [List.nil_append, firstMessage, ht]
    | cons a pre ih => simp only [List.cons_append, firstMessage, ih]
  unfold inspect
  simp only [hc, hfirst post, hfirst post']

/-- **C75.** The exit code of every run that ends: 0 exactly when a message was described or the file has no channel for compressed clouds. -/
theorem C75_exit (T : FloatText) (f : Option File) (run : Run) (h : inspect T f = .ok run) :
    run.exit = 0 ↔ run.shown.isSome ∨ ∃ g, f = some g ∧ ∀ c ∈ channelsOf g, ∀ s, c.2.2 = some s → s.name ≠ compressedName := by
  unfold inspect at h
  cases f with
  | none =>
    simp only [Res.ok.injEq] at h
    subst h
    simp
  | some g =>
    simp only at h
    by_cases ha : (g.channels.all fun c => (find g.schemas c.2.schema).isSome) = true
    · rw [if_pos ha] at h
      by_cases he : (channels g).isEmpty = true
      · rw [if_pos he] at h
        simp only [Res.ok.injEq] at h
        subst h
        simp only [Option.isSome_none, Bool.false_eq_true, false_or, true_iff]
        exact ⟨g, rfl, channels_empty.1 he⟩
      · rw [if_neg he] at h
        have hno : ¬ ∃ g', some g = some g' ∧ ∀ c ∈ channelsOf g', ∀ s, c.2.2 = some s → s.name ≠ compressedName := by
          rintro ⟨g', e, hh⟩
          simp only [Option.some.injEq] at e
          subst e
          exact he (channels_empty.2 hh)
        cases em : firstMessage (channels g) g.messages with
        | none =>
          rw [em] at h
          simp only [Res.ok.injEq] at h
          subst h
          simp only [Option.isSome_none, Bool.false_eq_true, false_or]
          exact ⟨fun h => by simp at h, fun h => absurd h hno⟩
        | some r =>
          rw [em] at h
          simp only at h
          cases es : showMessage T r.2 r.1 with
          | ok s =>
            rw [es] at h
            simp only [finish, Res.ok.injEq] at h
            subst h
            simp
          | throw e =>
            rw [es] at h
            simp only [finish, Res.ok.injEq] at h
            subst h
            simp only [Option.isSome_none, Bool.false_eq_true, false_or]
            exact ⟨fun h => by simp at h, fun h => absurd h hno⟩
          | ub k =>
            rw [es] at h
            simp [finish] at h
    · rw [if_neg ha] at h
      simp at h

/-- **C75 fails for files with a channel without schema** (a JSON channel, say), whatever else they hold: the null pointer is dereferenced. -/
theorem C75_null_schema (T : FloatText) (f : File) (id : Nat) (c : Channel) (hc : (id, c) ∈ f.channels) (hn : find f.schemas c.schema = none) :
    inspect T (some f) = .ub .mem := by
  unfold inspect
  simp only
  rw [if_neg]
  rw [List.all_eq_true]
  intro h
  have := h _ hc
  simp [hn] at this

/-- **C75 fails for the resolution**: a field without resolution is printed like a field with resolution 1. -/
theorem C75_resolution (T : FloatText) (f : PointField) :
    fieldLine T { f with resolution := none } = fieldLine T { f with resolution := some one32 } := rfl

/-! ## together with the converter -/

theorem number_distinct {α : Type} (l : List α) : ∀ n, DistinctIds (Mcap.number n l) := by
  unfold DistinctIds
  have hge : ∀ (l : List α) n, ∀ x ∈ (Mcap.number n l).map (·.1), n ≤ x := by
    intro l
    induction l with
    | nil => intro n x hx; simp [Mcap.number] at hx
    | cons a l ih =>
      intro n x hx
      simp only [Mcap.number, List.map_cons, List.mem_cons] at hx
      rcases hx with rfl | hx
      · exact Nat.le_refl _
      · have := ih (n + 1) x hx
        omega
  induction l with
  | nil => intro n; simp [Mcap.number]
  | cons a l ih =>
    intro n
    simp only [Mcap.number, List.map_cons, List.nodup_cons]
    refine ⟨fun h => ?_, ih (n + 1)⟩
    have := hge l (n + 1) n h
    omega

theorem find?_pairwise {α β : Type} {R : α → β → Prop} {p : α → Bool} {q : β → Bool} : ∀ {l : List α} {l' : List β}, Mcap.Pairwise R l l' →
    (∀ a b, a ∈ l → R a b → p a = q b) → ∀ v, l.find? p = some v → ∃ w, l'.find? q = some w ∧ R v w := by
  intro l
  induction l with
  | nil => intro l' _ _ v h; simp at h
  | cons a l ih =>
    intro l' h hpq v hv
    obtain ⟨hl, hr⟩ := h
    cases l' with
    | nil => simp at hl
    | cons b l' =>
      obtain ⟨w, e, r⟩ := hr 0 a rfl
      simp only [List.getElem?_cons_zero, Option.some.injEq] at e
      subst e
      have htail : Mcap.Pairwise R l l' := by
        refine ⟨by simpa using hl, fun i v hi => ?_⟩
        obtain ⟨w, e, r⟩ := hr (i + 1) v (by simpa using hi)
        exact ⟨w, by simpa using e, r⟩
      have h1 := hpq a b List.mem_cons_self r
      cases hp : p a with
      | true =>
        rw [List.find?_cons_of_pos hp] at hv
        simp only [Option.some.injEq] at hv
        subst hv
        exact ⟨b, List.find?_cons_of_pos (by rw [← h1]; exact hp), r⟩
      | false =>
        rw [List.find?_cons_of_neg (by simp [hp])] at hv
        obtain ⟨w, e, r⟩ := ih htail (fun a b ha => hpq a b (List.mem_cons_of_mem _ ha)) v hv
        exact ⟨w, by rw [List.find?_cons_of_neg (by rw [← h1]; simp [hp])]; exact e, r⟩

/-- The header of a message made by `convertPointCloud2ToCompressedCloud` of any description. -/
theorem made_header {T : FloatText} (hT : T.Lawful) {F : FloatOps} {C : Compressor} (hC : C.Lawful) {msg : List Byte} {pc : Pc2} {info : EncodingInfo}
    (hwire : Ros.Wire pc.cdr) (hfits : FitsPc pc) (hlittle : pc.cdr.big = false) (hne : pc.data ≠ []) (ok : FileOk T F info pc.data)
    (hlim : info.compression_opt = .none ∨ ∀ enc, mkEncoder F info (encodeHeaderYaml T info) = .ok enc → ChunksWithin F enc pc.data pc.data.length)
    (hmsg : msg.length < 1431260227) (e : toCompressed T F C pc info = .ok msg) :
    ∃ pc' payload, getMessage msg = .ok pc' ∧ decodeHeader T pc'.data = .ok (info, payload) := by
  obtain ⟨st, m, enc, enc', out, e1, e2, e3, e4, e5, e6⟩ := toCompressed_inv e hne
  have ho : out.length < 1431260227 := by
    obtain ⟨x, rfl⟩ := encString_prefix e6
    rw [Cdr.encPrim_eq _ 1 _ _ (by omega)] at hmsg
    simp only [List.length_append] at hmsg
    omega
  have hal := (writeHeader_aligned (by simp [Cdr.encInit]) e1).1
  obtain ⟨x, hx⟩ := encString_prefix e6
  have hm : getMessage msg = .ok (echo pc out) := by
    rw [hx, ← encBuf_at hlittle (by omega : out.length < 2 ^ 32) hal]
    exact getMessage_encode pc hwire hfits out (by omega) _ x (encode_pc e1)
  obtain ⟨_, payload, t1, _⟩ := view_trip hT hC ok e4 e5 (hlim.imp_right fun h => h enc e4) ho
  exact ⟨_, payload, hm, t1⟩

/-- **C75 (partial).** A file made by the converter from a file without compressed clouds, whose first cloud is not empty and as in C58: the inspector describes the
cloud that went in: topic and time of that message, and the width, height, point step, fields and options it was encoded with; the numbers of points and
bytes are the true ones.  Missing: what `CloudOk` excludes, and an empty first cloud (`C75_empty_first`). -/
theorem C75_converted_partial (T : FloatText) (hT : T.Lawful) (F : FloatOps) (C : Compressor) (hC : C.Lawful) (voxel : BitVec 32 → BitVec 32 → BitVec 32)
    (o : Options) (f g : File) (hplain : ∀ v ∈ delivered f, v.schema.name ≠ compressedName) (h : encodeFile T F C voxel o f = .ok g)
    (v : Seen) (hv : firstCloud pointcloudName f = some v) (pc pc' : Pc2) (hread : getMessage v.data = .ok pc) (hraw : v.data.length < 2 ^ 32)
    (hlittle : pc.cdr.big = false) (hp : Prepared voxel o pc pc') (hne : pc'.data ≠ []) (ok : FileOk T F (cloudInfo o pc') pc'.data)
    (hlim : o.writer = .zstd ∨ ∀ enc, mkEncoder F (cloudInfo o pc') (encodeHeaderYaml T (cloudInfo o pc')) = .ok enc → ChunksWithin F enc pc'.data pc'.data.length)
    (hmsg : ∀ msg, toCompressed T F C pc' (cloudInfo o pc') = .ok msg → msg.length < 1431260227) :
    ∃ run s, inspect T (some g) = .ok run ∧ run.exit = 0 ∧ run.shown = some s ∧ s.topic = v.topic ∧ s.time = v.logTime ∧
      Describes T (cloudInfo o pc') s ∧ s.points = pc'.width.toNat * pc'.height.toNat ∧ s.bytes = pc'.data.length := by
  obtain ⟨h1, h2, _⟩ := C58_encode T F C voxel o f g h
  obtain ⟨cs, w⟩ := convertFile_inv (encodeFile_inv h)
  have hschema : AllSchemas g := by
    intro c hc
    have hm : (c.2.topic, c.2.encoding, find g.schemas c.2.schema) ∈ channelsOf g :=
      List.mem_map_of_mem (f := fun c : Nat × Channel => (c.2.topic, c.2.encoding, find g.schemas c.2.schema)) hc
    rw [h2] at hm
    obtain ⟨⟨t, en, s⟩, hs, e⟩ := List.mem_map.1 hm
    obtain ⟨cc, hcc, e2⟩ := List.mem_map.1 hs
    have ho := w.opened
    unfold open_ at ho
    split at ho
    · next ha =>
      rw [List.all_eq_true] at ha
      have := ha cc hcc
      simp only [Prod.mk.injEq] at e2 e
      rw [← e.2.2]
      rw [← e2.2.2]
      simpa using this
    · simp at ho
  have hd : DistinctIds g.channels := by rw [w.gch]; exact number_distinct cs 1
  obtain ⟨x, hx, c⟩ := find?_pairwise (p := fun v : Seen => decide (v.schema.name = pointcloudName)) (q := fun v : Seen => decide (v.schema.name = compressedName)) h1 (by
    intro a b ha r
    by_cases hn : a.schema.name = pointcloudName
    · have := (r.cloud hn).1
      simp [hn, this]
    · rw [r.other hn]
      have := hplain a ha
      simp [hn, this]) v hv
  have hn : v.schema.name = pointcloudName := by
    have := List.find?_some hv
    simpa using this
  obtain ⟨_, _, e⟩ := c.cloud hn
  unfold encodeCloudMsg at e
  rw [hread, Res.ok_bind] at e
  obtain ⟨pc2, e1, e⟩ := Res.bind_eq_ok.1 e
  have hp' := hp
  unfold Prepared at hp'
  rw [hp'] at e1
  simp only [Res.ok.injEq] at e1
  subst e1
  obtain ⟨f1, f2, f3, f4, f5⟩ := prepared_facts hread hraw hp
  obtain ⟨c1, c2, c3, _, c5⟩ := cloudInfo_shape o pc'
  obtain ⟨pcC, payload, g1, g2⟩ := made_header hT hC f1 f2 (by rw [f5]; exact hlittle) hne ok (hlim.imp_left c5) (hmsg _ e) e
  obtain ⟨run, s, r1, r2, r3, r4, r5, r6, r7, r8, r9, r10⟩ := C75_first T g x pcC _ payload hschema hd hx g1 g2
  have hsz := ok.data.size
  have hstep := ok.valid.step
  refine ⟨run, s, r1, r2, r3, by rw [r4, c.envelope.topic], by rw [r5, c.envelope.logTime], r8, ?_, ?_⟩
  · rw [r9, c1, c2]
    apply Nat.mod_eq_of_lt
    rw [c1, c2] at hsz
    have : pc'.width.toNat * pc'.height.toNat * 1 ≤ pc'.width.toNat * pc'.height.toNat * (cloudInfo o pc').point_step.toNat := Nat.mul_le_mul_left _ hstep
    omega
  · rw [r10, ← hsz]
    exact Nat.mod_eq_of_lt f3

/-- **C75 fails for files that begin with an empty cloud** (the library writes no header for it): whatever follows, the program ends with exit code 1 and
describes nothing. -/
theorem C75_empty_first (T : FloatText) (f : File) (v : Seen) (pc : Pc2) (hs : AllSchemas f) (hd : DistinctIds f.channels)
    (hv : firstCloud compressedName f = some v) (hm : getMessage v.data = .ok pc) (he : pc.data = []) :
    ∃ run, inspect T (some f) = .ok run ∧ run.exit = 1 ∧ run.shown = none := by
  obtain ⟨m, h1, h2, h3⟩ := inspect_first (T := T) hs hd hv
  have hthrow : ∃ e, showMessage T v.topic m = .throw e := by
    unfold showMessage
    rw [h2, hm, Res.ok_bind, he]
    exact ⟨_, rfl⟩
  obtain ⟨e, hthrow⟩ := hthrow
  exact ⟨⟨1, _, none⟩, by rw [h3, hthrow]; rfl, rfl, rfl⟩

/-! ### concrete files -/

/-- The file of C58 through the converter and the inspector: the hypotheses of `C75_converted_partial` hold. -/
theorem bag_first : firstCloud pointcloudName bagFile = some ⟨ascii "/points", ascii "cdr", ⟨pointcloudName, ascii "ros2msg", ascii "...."⟩, 1, 200, 201, wasmRaw⟩ := by
  unfold firstCloud; rw [bag_delivered]; rfl

example : ∃ g run s, encodeFile bitsText bitsOps storeComp noVoxel bagOptions bagFile = .ok g ∧ inspect bitsText (some g) = .ok run ∧ run.exit = 0 ∧
    run.shown = some s ∧ s.topic = ascii "/points" ∧ s.time = 200 ∧ Describes bitsText pclInfo s ∧ s.bytes = wasmPc.data.length := by
  obtain ⟨g, hg⟩ := bag_encodes
  obtain ⟨pc, pc', h1, h2, h3, h4, h5, h6, h7⟩ := bag_ok
  have e1 : pc = wasmPc := by rw [wasmRaw_read, Res.ok.injEq] at h1; exact h1.symm
  subst e1
  have e2 : pc' = bagPc := by
    have := bag_prepared
    unfold Prepared at this h4
    rw [this, Res.ok.injEq] at h4
    exact h4.symm
  subst e2
  obtain ⟨run, s, r1, r2, r3, r4, r5, r6, _, r8⟩ := C75_converted_partial bitsText bitsText_lawful bitsOps storeComp storeComp_lawful noVoxel bagOptions bagFile g
    (by
      intro v hv
      rw [bag_delivered] at hv
      simp only [List.mem_cons, List.not_mem_nil, or_false] at hv
      rcases hv with rfl | rfl | rfl <;> decide) hg _ bag_first wasmPc bagPc h1 h2 h3 h4 (by decide +kernel) h5 h6 h7
  exact ⟨g, run, s, hg, r1, r2, r3, r4, r5, by rw [bag_info] at r6; exact r6, r8⟩

/-- Two channels, one of them with compressed clouds; the messages are given. -/
def clipFile (ms : List Message) : File :=
  { profile := ascii "ros2", schemas := [(4, ⟨ascii "sensor_msgs/msg/Image", ascii "ros2msg", ascii "..."⟩), (9, ⟨compressedName, ascii "ros2msg", ascii "...."⟩)],
    channels := [(2, { topic := ascii "/points", encoding := ascii "cdr", schema := 9 }), (7, { topic := ascii "/image", encoding := ascii "cdr", schema := 4 })],
    messages := ms }

theorem clip_schemas (ms : List Message) : AllSchemas (clipFile ms) := by
  intro c hc
  change c ∈ [_, _] at hc
  simp only [List.mem_cons, List.not_mem_nil, or_false] at hc
  rcases hc with rfl | rfl <;> rfl

theorem clip_distinct (ms : List Message) : DistinctIds (clipFile ms).channels := by
  change [2, 7].Nodup; decide

/-- A header that announces 65536 times 65537 points of one byte: the program says 65536 points. -/
example : ∃ run s, inspect bitsText (some (clipFile [⟨7, 1, 5, 5, [1#8]⟩, ⟨2, 1, 6, 6, pyMsg (encodeHeaderYaml bitsText { pairInfo with width := 0x10000#32, height := 0x10001#32, point_step := 1#32 })⟩])) = .ok run ∧
    run.shown = some s ∧ s.width = 65536 ∧ s.height = 65537 ∧ s.points = 65536 := by
  have h : (match inspect bitsText (some (clipFile [⟨7, 1, 5, 5, [1#8]⟩, ⟨2, 1, 6, 6, pyMsg (encodeHeaderYaml bitsText { pairInfo with width := 0x10000#32, height := 0x10001#32, point_step := 1#32 })⟩])) with
    | .ok ⟨_, _, some s⟩ => decide (s.width = 65536 ∧ s.height = 65537 ∧ s.points = 65536)
    | _ => false) = true := by decide +kernel
  revert h
  cases inspect bitsText (some (clipFile [⟨7, 1, 5, 5, [1#8]⟩, ⟨2, 1, 6, 6, pyMsg (encodeHeaderYaml bitsText { pairInfo with width := 0x10000#32, height := 0x10001#32, point_step := 1#32 })⟩])) with
  | throw m => intro h; simp at h
  | ub k => intro h; simp at h
  | ok run =>
    obtain ⟨x, t, s⟩ := run
    cases s with
    | none => intro h; simp at h
    | some s => intro h; exact ⟨_, s, rfl, rfl, by simpa using h⟩

/-- An empty cloud in front of a good one. -/
example (ms : List Message) : ∃ run, inspect bitsText (some (clipFile (⟨2, 1, 6, 6, pyMsg []⟩ :: ms))) = .ok run ∧ run.exit = 1 ∧ run.shown = none := by
  have hr : ∃ pc, getMessage (pyMsg []) = .ok pc ∧ pc.data = [] := by
    have h : (match getMessage (pyMsg []) with | .ok pc => pc.data.isEmpty | _ => false) = true := by decide +kernel
    revert h
    cases getMessage (pyMsg []) with
    | throw m => intro h; simp at h
    | ub k => intro h; simp at h
    | ok pc => intro h; exact ⟨pc, rfl, by simpa using h⟩
  have hv : firstCloud compressedName (clipFile (⟨2, 1, 6, 6, pyMsg []⟩ :: ms)) =
      some ⟨ascii "/points", ascii "cdr", ⟨compressedName, ascii "ros2msg", ascii "...."⟩, 1, 6, 6, pyMsg []⟩ := rfl
  obtain ⟨pc, hr, he⟩ := hr
  exact C75_empty_first bitsText _ _ pc (clip_schemas _) (clip_distinct _) hv hr he

/-- The hypotheses of the other theorems. -/
example (post post' : List Message) : inspect bitsText (some (clipFile ([⟨7, 1, 5, 5, [1#8]⟩] ++ ⟨2, 1, 6, 6, pyMsg []⟩ :: post))) =
    inspect bitsText (some (clipFile ([⟨7, 1, 5, 5, [1#8]⟩] ++ ⟨2, 1, 6, 6, pyMsg []⟩ :: post'))) :=
  C75_rest_ignored bitsText (clipFile []) _ post post' _ (clip_distinct []) ⟨⟨ascii "/points", ascii "cdr", ⟨compressedName, ascii "ros2msg", ascii "...."⟩, 1, 6, 6, pyMsg []⟩, rfl, rfl⟩

example (T : FloatText) : inspect T (some { clipFile [] with channels := [(1, { topic := ascii "/json", encoding := ascii "json", schema := 0 })] }) = .ub .mem :=
  C75_null_schema T _ 1 _ List.mem_cons_self rfl

example : inspect bitsText (some (clipFile [])) = .ok ⟨1, [ascii "/points"], none⟩ := by rfl
example : inspect bitsText (some { clipFile [] with channels := [] }) = .ok ⟨0, [], none⟩ := by rfl

end Cloudini.Props
