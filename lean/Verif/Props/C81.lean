import Verif.Model.PyMcap
import Verif.Props.C72
import Verif.Props.C76
import Verif.Props.C78

/-!
# C81: `decode_mcap.py` lists the compressed clouds of a file

`delivered f` (Spec/Mcap) is what a reader gets from the file, in order.
-/

namespace Cloudini.Props

open Cloudini.Ros Cloudini.Python Cloudini.PyMcap
open Cloudini.Mcap hiding Options

/-! ## Specification -/

/-- A schema whose name contains the text. -/
def NamesCloud (name : List Byte) : Prop := ∃ a b, name = a ++ ascii "CompressedPointCloud2" ++ b

theorem within_iff (b : List Byte) : ∀ a, within b a = true ↔ ∃ x y, a = x ++ b ++ y := by
  intro a
  induction a with
  | nil =>
    unfold within
    rw [List.isEmpty_iff]
    constructor
    · rintro rfl; exact ⟨[], [], rfl⟩
    · rintro ⟨x, y, h⟩
      have := congrArg List.length h
      simp only [List.length_nil, List.length_append] at this
      exact List.eq_nil_of_length_eq_zero (by omega)
  | cons c a ih =>
    unfold within
    rw [Bool.or_eq_true, ih, List.isPrefixOf_iff_prefix]
    constructor
    · rintro (⟨y, h⟩ | ⟨x, y, h⟩)
      · exact ⟨[], y, by simpa using h.symm⟩
      · exact ⟨c :: x, y, by simp [h]⟩
    · rintro ⟨x, y, h⟩
      cases x with
      | nil => exact .inl ⟨y, by simpa using h.symm⟩
      | cons d x =>
        simp only [List.cons_append, List.cons.injEq] at h
        exact .inr ⟨x, y, h.2⟩

instance (name : List Byte) : Decidable (NamesCloud name) := decidable_of_iff _ (within_iff (ascii "CompressedPointCloud2") name)

/-- The messages to be listed. -/
def wanted (f : File) (max : Int) : List Seen :=
  let l := (delivered f).filter fun v => NamesCloud v.schema.name
  if max ≤ 0 then l else l.take max.toNat

/-! ## The loop -/

theorem compressed_delivered (f : File) : compressed f = ((delivered f).filter fun v => NamesCloud v.schema.name).map fun v => (v.topic, v.logTime, v.data) := by
  unfold compressed delivered
  induction f.messages with
  | nil => rfl
  | cons m ms ih =>
    rw [List.filterMap_cons, List.filterMap_cons, ih]
    unfold see
    cases h1 : find f.channels m.channel with
    | none => rfl
    | some c =>
      simp only
      cases h2 : find f.schemas c.schema with
      | none => rfl
      | some s =>
        simp only
        by_cases h3 : NamesCloud s.name
        · rw [if_pos ((within_iff _ _).2 h3), List.filter_cons_of_pos (by simpa using h3), List.map_cons]
        · rw [if_neg (fun e => h3 ((within_iff _ _).1 e)), List.filter_cons_of_neg (by simpa using h3)]

/-- Decoding does not change the size of the block. -/
theorem decode_block {T : FloatText} {F : FloatOps} {C : Compressor} {fuel : Nat} {block msg b : List Byte} {a : NpArray} {h : Python.Info}
    (hd : Python.decode T F C fuel block msg = .ok (a, h, b)) : b.length = block.length := by
  unfold Python.decode at hd
  obtain ⟨o, h1, hd⟩ := Res.bind_eq_ok.1 hd
  split at hd
  · simp at hd
  next x hx =>
  split at hd
  · simp at hd
  next hret =>
  have hlen : x.length ≤ block.length := by
    unfold Wasm.decodeMessage at h1
    obtain ⟨pc, _, h1⟩ := Res.bind_eq_ok.1 h1
    unfold Wasm.decodeData at h1
    cases h2 : decodeHeader T pc.data with
    | throw e =>
      rw [h2] at h1
      simp only [Wasm.guarded, Res.ok.injEq] at h1
      rw [← h1] at hret
      exact absurd rfl hret
    | ub k => rw [h2] at h1; simp [Wasm.guarded] at h1
    | ok r =>
      obtain ⟨info, payload⟩ := r
      rw [h2] at h1
      simp only at h1
      split at h1
      · simp [Wasm.guarded] at h1
      next hsz =>
      cases h3 : decodeCloud F C fuel info payload (block.take (info.width * info.height * info.point_step).toNat) with
      | throw e =>
        rw [h3] at h1
        simp only [Res.throw_bind, Wasm.guarded, Res.ok.injEq] at h1
        rw [← h1] at hret
        exact absurd rfl hret
      | ub k => rw [h3] at h1; simp [Wasm.guarded] at h1
      | ok buf =>
        rw [h3] at h1
        simp only [Res.ok_bind, Wasm.guarded, Res.ok.injEq] at h1
        rw [← h1] at hx
        simp only [Option.some.injEq] at hx
        subst hx
        rcases C78_two_buffers F C fuel info payload _ _ (rfl : (block.take (info.width * info.height * info.point_step).toNat).length = _) with
          ⟨e, he, _⟩ | ⟨k, hk, _⟩ | ⟨a', b', ha, _, hl', _⟩
        · rw [h3] at he; simp at he
        · rw [h3] at hk; simp at hk
        · rw [h3] at ha
          simp only [Res.ok.injEq] at ha
          rw [ha, hl', List.length_take]
          omega
  obtain ⟨h', _, hd⟩ := Res.bind_eq_ok.1 hd
  split at hd
  · simp at hd
  split at hd
  · simp at hd
  obtain ⟨a', _, hd⟩ := Res.bind_eq_ok.1 hd
  simp only [Res.ok.injEq, Prod.mk.injEq] at hd
  rw [← hd.2.2, List.length_append, List.length_drop]
  omega

/-- The line of a message is what decoding gives with some content of the block. -/
def Shown (T : FloatText) (F : FloatOps) (C : Compressor) (fuel : Nat) (v : List Byte × Nat × List Byte) (l : Line) : Prop :=
  l.topic = v.1 ∧ l.time = v.2.1 ∧ l.size = v.2.2.length ∧ ∃ block, block.length = blockSize ∧
    match l.result with
    | some (a, h) => ∃ b, Python.decode T F C fuel block v.2.2 = .ok (a, h, b)
    | none => ∃ e, Python.decode T F C fuel block v.2.2 = .throw e

/-- How many messages are listed. -/
def cut (limit : Option Nat) (count : Nat) (l : List (List Byte × Nat × List Byte)) : List (List Byte × Nat × List Byte) :=
  match limit with
  | none => l
  | some n => if n = 0 then l else l.take (n - count)

theorem loop_lines {T : FloatText} {F : FloatOps} {C : Compressor} {fuel : Nat} {left : Nat → List Byte} (hleft : ∀ k, (left k).length = blockSize)
    {limit : Option Nat} : ∀ {ms : List (List Byte × Nat × List Byte)} {count : Nat} {block : List Byte} {lines : List Line}, block.length = blockSize →
    (∀ n, limit = some n → n ≠ 0 → count < n) → PyMcap.loop T F C fuel left limit ms count block = .ok lines →
    List.Forall₂ (Shown T F C fuel) (cut limit count ms) lines := by
  intro ms
  induction ms with
  | nil =>
    intro count block lines _ _ h
    simp only [PyMcap.loop, Res.ok.injEq] at h
    rw [← h]
    unfold cut
    cases limit with
    | none => exact .nil
    | some n => simp only; split <;> simp
  | cons m ms ih =>
    intro count block lines hb hn h
    obtain ⟨topic, time, data⟩ := m
    have hcut : ∀ {rest : List Line} {block' : List Byte}, block'.length = blockSize →
        (if stops limit (count + 1) = true then Res.ok []
          else PyMcap.loop T F C fuel left limit ms (count + 1) block') = .ok rest →
        ∀ {l : Line}, Shown T F C fuel (topic, time, data) l → List.Forall₂ (Shown T F C fuel) (cut limit count ((topic, time, data) :: ms)) (l :: rest) := by
      intro rest block' hb' hr l hl
      cases limit with
      | none =>
        simp only [stops, Bool.false_eq_true, if_false] at hr
        exact .cons hl (ih hb' (fun n hn _ => by simp at hn) hr)
      | some n =>
        simp only [cut]
        by_cases h0 : n = 0
        · subst h0
          simp only [stops, ne_eq, not_true_eq_false, decide_false, Bool.false_and, Bool.false_eq_true, if_false] at hr
          rw [if_pos rfl]
          have := ih hb' (fun n hn hn' => by simp only [Option.some.injEq] at hn; exact absurd hn.symm hn') hr
          simp only [cut, if_true] at this
          exact .cons hl this
        · rw [if_neg h0]
          have hlt := hn n rfl h0
          by_cases hstop : count + 1 ≥ n
          · rw [if_pos (by simp [stops, h0, hstop])] at hr
            simp only [Res.ok.injEq] at hr
            rw [← hr, show n - count = 1 from by omega, List.take_succ_cons, List.take_zero]
            exact .cons hl .nil
          · rw [if_neg (by simp [stops, h0]; omega)] at hr
            have := ih hb' (fun n' hn' _ => by simp only [Option.some.injEq] at hn'; omega) hr
            simp only [cut, if_neg h0] at this
            rw [show n - count = (n - (count + 1)) + 1 from by omega, List.take_succ_cons]
            exact .cons hl this
    unfold PyMcap.loop at h
    simp only at h
    cases hd : Python.decode T F C fuel block data with
    | ub k => rw [hd] at h; simp at h
    | throw e =>
      rw [hd] at h
      obtain ⟨rest, h1, h⟩ := Res.bind_eq_ok.1 h
      simp only [Res.ok.injEq] at h
      rw [← h]
      exact hcut (hleft _) h1 ⟨rfl, rfl, rfl, block, hb, e, hd⟩
    | ok r =>
      obtain ⟨a, i, b⟩ := r
      rw [hd] at h
      obtain ⟨rest, h1, h⟩ := Res.bind_eq_ok.1 h
      simp only [Res.ok.injEq] at h
      rw [← h]
      exact hcut (by rw [decode_block hd, hb]) h1 ⟨rfl, rfl, rfl, block, hb, b, hd⟩

/-- **C81, the listing.** Whatever is in the file and whatever failing messages leave behind: the script shows, in order, exactly the messages whose type has
`CompressedPointCloud2` in its name — the first `max` of them, all if `max` is negative or 0 —, each with its topic and time and with what
`decode_message` makes of it, and at the end their number. -/
theorem C81_listing (T : FloatText) (F : FloatOps) (C : Compressor) (fuel : Nat) (left : Nat → List Byte) (hleft : ∀ k, (left k).length = blockSize) (max : Int)
    (block : List Byte) (hb : block.length = blockSize) (f : File) (lines : List Line) (n : Nat)
    (h : PyMcap.run T F C fuel left max true block f = .ok (lines, n)) :
    n = (wanted f max).length ∧ List.Forall₂ (fun (v : Seen) (l : Line) => l.topic = v.topic ∧ l.time = v.logTime ∧ l.size = v.data.length ∧
      ∃ block', block'.length = blockSize ∧
        match l.result with
        | some (a, i) => ∃ b, Python.decode T F C fuel block' v.data = .ok (a, i, b)
        | none => ∃ e, Python.decode T F C fuel block' v.data = .throw e) (wanted f max) lines := by
  unfold PyMcap.run at h
  rw [if_neg (by simp)] at h
  obtain ⟨ls, h1, h⟩ := Res.bind_eq_ok.1 h
  simp only [Res.ok.injEq, Prod.mk.injEq] at h
  obtain ⟨rfl, rfl⟩ := h
  have key := loop_lines hleft hb (fun n _ hn => by omega) h1
  have hc : cut (if max < 0 then none else some max.toNat) 0 (compressed f) = (wanted f max).map fun v => (v.topic, v.logTime, v.data) := by
    rw [compressed_delivered]
    unfold wanted cut
    by_cases hneg : max < 0
    · rw [if_pos hneg, if_pos (by omega)]
    · rw [if_neg hneg]
      simp only
      by_cases hz : max.toNat = 0
      · rw [if_pos hz, if_pos (by omega)]
      · rw [if_neg hz, if_neg (by omega), Nat.sub_zero, List.map_take]
  rw [hc, List.forall₂_map_left_iff] at key
  exact ⟨key.length_eq.symm, key⟩

/-- **C81, no message disturbs another.** A message the library made (as in C72), wherever it stands in the file and whatever was decoded before it, is shown with
the values of its cloud. -/
theorem C81_values_partial (T : FloatText) (hT : T.Lawful) (F : FloatOps) (C : Compressor) (hC : C.Lawful) (fuel : Nat) (left : Nat → List Byte)
    (hleft : ∀ k, (left k).length = blockSize) (max : Int) (block : List Byte) (hb : block.length = blockSize) (f : File) (lines : List Line) (n : Nat)
    (h : PyMcap.run T F C fuel left max true block f = .ok (lines, n)) (k : Nat) (v : Seen) (hk : (wanted f max)[k]? = some v)
    (raw : List Byte) (pc : Pc2) (info : EncodingInfo) (hread : getMessage raw = .ok pc) (hraw : raw.length < 2 ^ 32) (hlittle : pc.cdr.big = false)
    (hne : pc.data ≠ []) (ok : FileOk T F info pc.data)
    (hlim : info.compression_opt = .none ∨ ∀ enc, mkEncoder F info (encodeHeaderYaml T info) = .ok enc → ChunksWithin F enc pc.data pc.data.length)
    (hmsg : v.data.length < 1431260227) (e : toCompressed T F C pc info = .ok v.data)
    (hfit : pc.data.length ≤ blockSize) (hyaml : (infoToYaml T info).length ≤ yamlRoom) (hfields : info.fields ≠ [])
    (hnames : ∀ f ∈ info.fields, PyName f.name) (hconf : info.encoding_config = [] ∨ PyName info.encoding_config) (hd : (info.fields.map (·.name)).Nodup) :
    ∃ l a i, lines[k]? = some l ∧ l.topic = v.topic ∧ l.result = some (a, i) ∧ a.len = info.width.toNat * info.height.toNat ∧
      ∀ j, j < info.width.toNat * info.height.toNat → ∀ x fl, info.fields[x]? = some fl →
        a.item j fl.name = some (pyType fl.type,
          (expected F info x fl (cell pc.data 0 info.point_step.toNat j fl.offset.toNat (sizeOf fl.type))).take (sizeOf (pyType fl.type))) := by
  obtain ⟨_, hf⟩ := C81_listing T F C fuel left hleft max block hb f lines n h
  obtain ⟨hlen, hall⟩ := List.forall₂_iff_get.1 hf
  have hlt : k < (wanted f max).length := by
    rcases Nat.lt_or_ge k (wanted f max).length with h | h
    · exact h
    · rw [List.getElem?_eq_none h] at hk; simp at hk
  have hv : (wanted f max).get ⟨k, hlt⟩ = v := by
    rw [List.getElem?_eq_getElem hlt] at hk
    simpa using hk
  obtain ⟨t1, _, _, block', hb', hres⟩ := hall k hlt (by omega)
  rw [hv] at t1 hres
  obtain ⟨a, i, b, g1, _, g2, _, g3⟩ := C72_roundtrip_partial T hT F C hC fuel raw v.data block' pc info hread hraw hlittle hne ok hlim hmsg e hb' hfit hyaml
    hfields hnames hconf hd
  refine ⟨lines.get ⟨k, by omega⟩, a, i, List.getElem?_eq_getElem (by omega), t1, ?_, g2, g3⟩
  cases hr : (lines.get ⟨k, by omega⟩).result with
  | none => rw [hr] at hres; obtain ⟨e, he⟩ := hres; rw [g1] at he; simp at he
  | some r =>
    obtain ⟨a', i'⟩ := r
    rw [hr] at hres
    obtain ⟨b', hb'⟩ := hres
    rw [g1] at hb'
    simp only [Res.ok.injEq, Prod.mk.injEq] at hb'
    rw [hb'.1, hb'.2.1]

/-- **C81, asking for no messages shows all.** -/
theorem C81_zero_is_all (T : FloatText) (F : FloatOps) (C : Compressor) (fuel : Nat) (left : Nat → List Byte) (summary : Bool) (block : List Byte) (f : File) :
    PyMcap.run T F C fuel left 0 summary block f = PyMcap.run T F C fuel left (-1) summary block f := by
  have key : ∀ (ms : List (List Byte × Nat × List Byte)) (count : Nat) (block : List Byte),
      PyMcap.loop T F C fuel left (some 0) ms count block = PyMcap.loop T F C fuel left none ms count block := by
    intro ms
    induction ms with
    | nil => intros; rfl
    | cons m ms ih =>
      intro count block
      obtain ⟨t, d, x⟩ := m
      unfold PyMcap.loop
      simp only [ih]
      rfl
  unfold PyMcap.run
  simp only [show ((0 : Int) < 0) = False from by simp, show ((-1 : Int) < 0) = True from by simp, if_true, if_false, Int.toNat_zero, key]

/-- **C81, the number at the end counts failures.** If no compressed message can be decoded, they are all shown as parsed. -/
theorem C81_failures_counted (T : FloatText) (F : FloatOps) (C : Compressor) (fuel : Nat) (left : Nat → List Byte) (hleft : ∀ k, (left k).length = blockSize)
    (block : List Byte) (hb : block.length = blockSize) (f : File)
    (hbad : ∀ v ∈ delivered f, NamesCloud v.schema.name → ∀ b, b.length = blockSize → ∃ e, Python.decode T F C fuel b v.data = .throw e) :
    ∃ lines, PyMcap.run T F C fuel left (-1) true block f = .ok (lines, ((delivered f).filter fun v => NamesCloud v.schema.name).length) ∧
      ∀ l ∈ lines, l.result.isSome = false := by
  have key : ∀ (ms : List (List Byte × Nat × List Byte)) (count : Nat) (block : List Byte), block.length = blockSize →
      (∀ m ∈ ms, ∀ b, b.length = blockSize → ∃ e, Python.decode T F C fuel b m.2.2 = .throw e) →
      ∃ lines, PyMcap.loop T F C fuel left none ms count block = .ok lines ∧ lines.length = ms.length ∧ ∀ l ∈ lines, l.result.isSome = false := by
    intro ms
    induction ms with
    | nil => intro count block _ _; exact ⟨[], rfl, rfl, by simp⟩
    | cons m ms ih =>
      intro count block hb hm
      obtain ⟨t, d, x⟩ := m
      obtain ⟨e, he⟩ := hm _ List.mem_cons_self block hb
      obtain ⟨lines, h1, h2, h3⟩ := ih (count + 1) (left (count + 1)) (hleft _) fun m h => hm m (List.mem_cons_of_mem _ h)
      refine ⟨⟨t, d, x.length, none⟩ :: lines, ?_, by simp [h2], ?_⟩
      · unfold PyMcap.loop
        simp only at he
        simp only [he, stops, Bool.false_eq_true, if_false, h1, Res.ok_bind]
      · intro l hl
        rcases List.mem_cons.1 hl with rfl | hl
        · rfl
        · exact h3 l hl
  obtain ⟨lines, h1, h2, h3⟩ := key (compressed f) 0 block hb (by
    rw [compressed_delivered]
    intro m hm b hb
    obtain ⟨v, hv, rfl⟩ := List.mem_map.1 hm
    rw [List.mem_filter] at hv
    exact hbad v hv.1 (by simpa using hv.2) b hb)
  refine ⟨lines, ?_, h3⟩
  unfold PyMcap.run
  rw [if_neg (by simp), if_pos (by simp), h1]
  simp only [Res.ok_bind]
  rw [h2, compressed_delivered, List.length_map]

/-! ## Cases that meet the hypotheses -/

/-- A file with the mixed cloud of C72 twice and an unreadable message between. -/
def pyFile : File :=
  { profile := ascii "ros2", schemas := [(1, ⟨compressedName, ascii "ros2msg", []⟩)], channels := [(1, { topic := ascii "/points", encoding := ascii "cdr", schema := 1 })],
    messages := [⟨1, 1, 1, 1, mixMsg⟩, ⟨1, 2, 2, 2, [0#8, 1#8, 0#8, 0#8]⟩, ⟨1, 3, 3, 3, mixMsg⟩] }

theorem pyFile_wanted : (wanted pyFile 5).map (·.data) = [mixMsg, [0#8, 1#8, 0#8, 0#8], mixMsg] := rfl

theorem bad_throws (b : List Byte) : ∃ e, Python.decode bitsText bitsOps storeComp 0 b [0#8, 1#8, 0#8, 0#8] = .throw e := by
  have h : (getMessage [0#8, 1#8, 0#8, 0#8]).isThrow = true := by decide +kernel
  cases e : getMessage [0#8, 1#8, 0#8, 0#8] with
  | ok pc => rw [e] at h; simp at h
  | ub k => rw [e] at h; simp at h
  | throw m =>
    refine ⟨m, ?_⟩
    unfold Python.decode Wasm.decodeMessage
    rw [e]
    rfl

theorem mix_decoded (block : List Byte) (hb : block.length = blockSize) :
    ∃ r, Python.decode bitsText bitsOps storeComp 0 block mixMsg = .ok r ∧ r.2.2.length = blockSize := by
  obtain ⟨a, h, b, h1, _⟩ := C72_roundtrip_partial bitsText bitsText_lawful bitsOps storeComp storeComp_lawful 0 mixRaw mixMsg block mixPc mixInfo
    mixRaw_read (by decide +kernel) rfl (by decide) mix_ok (Or.inl rfl) (by decide +kernel) mixMsg_eq hb (by decide +kernel) (by decide +kernel)
    (by decide) mix_names (Or.inl rfl) (by decide)
  exact ⟨(a, h, b), h1, by rw [decode_block h1, hb]⟩

theorem pyFile_compressed : compressed pyFile =
    [(ascii "/points", 1, mixMsg), (ascii "/points", 2, [0#8, 1#8, 0#8, 0#8]), (ascii "/points", 3, mixMsg)] := by
  unfold compressed pyFile
  have h : within (ascii "CompressedPointCloud2") compressedName = true := by decide +kernel
  simp only [List.filterMap_cons, List.filterMap_nil, find, List.find?_cons, Option.map_some, h, if_true, BEq.rfl]

theorem three_run {T : FloatText} {F : FloatOps} {C : Compressor} {fuel : Nat} {left : Nat → List Byte} {block : List Byte} {f : File} {t m1 m2 m3 : List Byte}
    (hf : compressed f = [(t, 1, m1), (t, 2, m2), (t, 3, m3)]) {r1 r3 : NpArray × Python.Info × List Byte} {e : String}
    (h1 : Python.decode T F C fuel block m1 = .ok r1) (h2 : Python.decode T F C fuel r1.2.2 m2 = .throw e) (h3 : Python.decode T F C fuel (left 2) m3 = .ok r3) :
    ∃ lines n, PyMcap.run T F C fuel left 5 true block f = .ok (lines, n) := by
  refine ⟨[⟨t, 1, m1.length, some (r1.1, r1.2.1)⟩, ⟨t, 2, m2.length, none⟩, ⟨t, 3, m3.length, some (r3.1, r3.2.1)⟩], 3, ?_⟩
  unfold PyMcap.run
  rw [if_neg (by simp), if_neg (by decide), hf]
  simp only [PyMcap.loop, h1, h2, h3, stops, show (5 : Int).toNat = 5 from rfl]
  simp only [ne_eq, OfNat.ofNat_ne_zero, not_false_eq_true, decide_true, Bool.true_and, ge_iff_le, show (5 ≤ 0 + 1) = False from by simp,
    show (5 ≤ 0 + 1 + 1) = False from by simp, show (5 ≤ 0 + 1 + 1 + 1) = False from by simp, decide_false, Bool.false_eq_true, if_false, Res.ok_bind]
  rfl

theorem pyFile_runs (left : Nat → List Byte) (hleft : ∀ k, (left k).length = blockSize) :
    ∃ lines n, PyMcap.run bitsText bitsOps storeComp 0 left 5 true freshBlock pyFile = .ok (lines, n) := by
  obtain ⟨r1, h1, _⟩ := mix_decoded freshBlock freshBlock_length
  obtain ⟨e, h2⟩ := bad_throws r1.2.2
  obtain ⟨r3, h3, _⟩ := mix_decoded (left 2) (hleft 2)
  exact three_run pyFile_compressed h1 h2 h3

/-- The three messages of the file are listed, the third one with its values though the second failed. -/
example (left : Nat → List Byte) (hleft : ∀ k, (left k).length = blockSize) : ∃ (lines : List Line) (n : Nat) (l : Line) (a : NpArray) (i : Python.Info),
    PyMcap.run bitsText bitsOps storeComp 0 left 5 true freshBlock pyFile = .ok (lines, n) ∧ n = 3 ∧ lines[2]? = some l ∧ l.topic = ascii "/points" ∧
    l.result = some (a, i) ∧ a.item 1 (ascii "r") = some (.uint16, [0xFF#8, 0xFF#8]) := by
  obtain ⟨lines, n, h⟩ := pyFile_runs left hleft
  obtain ⟨h1, _⟩ := C81_listing bitsText bitsOps storeComp 0 left hleft 5 freshBlock freshBlock_length pyFile lines n h
  obtain ⟨l, a, i, g1, g2, g3, _, g4⟩ := C81_values_partial bitsText bitsText_lawful bitsOps storeComp storeComp_lawful 0 left hleft 5 freshBlock freshBlock_length
    pyFile lines n h 2 ⟨ascii "/points", ascii "cdr", ⟨compressedName, ascii "ros2msg", []⟩, 3, 3, 3, mixMsg⟩ rfl mixRaw mixPc mixInfo
    mixRaw_read (by decide +kernel) rfl (by decide) mix_ok (Or.inl rfl) (by decide +kernel) mixMsg_eq (by decide +kernel) (by decide +kernel)
    (by decide) mix_names (Or.inl rfl) (by decide)
  refine ⟨lines, n, l, a, i, h, h1, g1, g2, g3, ?_⟩
  have := g4 1 (by decide) 4 _ rfl
  rw [show ascii "r" = [0x72#8] by decide, this]
  decide +kernel

/-- A file with nothing readable: "1 parsed". -/
example (left : Nat → List Byte) (hleft : ∀ k, (left k).length = blockSize) : ∃ lines,
    PyMcap.run bitsText bitsOps storeComp 0 left (-1) true freshBlock { pyFile with messages := [⟨1, 2, 2, 2, [0#8, 1#8, 0#8, 0#8]⟩] } = .ok (lines, 1) ∧
    ∀ l ∈ lines, l.result.isSome = false :=
  C81_failures_counted bitsText bitsOps storeComp 0 left hleft freshBlock freshBlock_length _ fun v hv _ b _ => by
    have : v.data = [0#8, 1#8, 0#8, 0#8] := by
      simp only [delivered, pyFile, List.filterMap_cons, List.filterMap_nil, see, find, List.find?_cons, Option.map_some, BEq.rfl, List.mem_singleton] at hv
      rw [hv]
    rw [this]
    exact bad_throws b

end Cloudini.Props
