import Verif.Lemmas.Unfold
import Verif.Spec.Ros
import Verif.Lemmas.Cdr
import Verif.Lemmas.CloudMain

namespace Cloudini.Ros

open Cloudini.Cdr (encPrim encString encInit decPrim decString decBuf decInit encode decode encItems decItems Ty)

/-- Go past a call: both sides fail alike, or go on with its result. -/
macro "step " t:term:max n:ident : tactic =>
  `(tactic| (cases $t:term with | throw m => rfl | ub k => rfl | ok $n => ?_; dsimp only [bind, Res.bind]))

/-! ### the messages as CDR types -/

def ofField (v : fieldTy.Val) : PointField :=
  let w : List Byte × BitVec 32 × BitVec 8 × BitVec 32 := v
  { name := w.1, offset := w.2.1, type := FieldType.ofCode w.2.2.1 }

def ofVal (h : Cdr.Header) (v : pcTy.Val) : Pc2 :=
  let w : (BitVec 32 × BitVec 32 × List Byte × BitVec 32 × BitVec 32 × List fieldTy.Val × BitVec 8 × BitVec 32 × BitVec 32) × List Byte × BitVec 8 := v
  { cdr := h, sec := w.1.1, nsec := w.1.2.1, frame := w.1.2.2.1, height := w.1.2.2.2.1, width := w.1.2.2.2.2.1,
    fields := w.1.2.2.2.2.2.1.map ofField, point_step := w.1.2.2.2.2.2.2.2.1, row_step := w.1.2.2.2.2.2.2.2.2, data := w.2.1, dense := w.2.2 }

theorem writeFields_eq (h : Cdr.Header) (fs : List PointField) (st : List Byte) :
    writeFields h fs st = encItems (encode h fieldTy) (fs.map fieldVal) st := by
  induction fs generalizing st with
  | nil => rfl
  | cons f fs ih =>
    simp only [writeFields, List.map_cons, encItems]
    have : encode h fieldTy (fieldVal f) st = (do let st ← encString h f.name st; .ok (encPrim h 4 1 (encPrim h 1 f.type.code.toNat (encPrim h 4 f.offset.toNat st)))) := rfl
    rw [this, Res.bind_assoc]
    congr 1
    funext st
    exact ih _

theorem writeHeader_eq (h : Cdr.Header) (pc : Pc2) (st : List Byte) : writeHeader h pc st = encode h headTy (headVal pc) st := by
  have : encode h headTy (headVal pc) st = (do
      let st ← encString h pc.frame (encPrim h 4 pc.nsec.toNat (encPrim h 4 pc.sec.toNat st))
      let st ← encItems (encode h fieldTy) (pc.fields.map fieldVal) (encPrim h 4 ((pc.fields.map fieldVal).length % 2 ^ 32) (encPrim h 4 pc.width.toNat (encPrim h 4 pc.height.toNat st)))
      .ok (encPrim h 4 (pc.point_step * pc.width).toNat (encPrim h 4 pc.point_step.toNat (encPrim h 1 0 st)))) := rfl
  rw [this]
  unfold writeHeader
  simp only [writeFields_eq, List.length_map]

theorem readFields_eq (h : Cdr.Header) (n : Nat) (d : Cdr.Dec) :
    readFields h n d = (decItems (decode h fieldTy) n d >>= fun q => .ok (q.1.map ofField, q.2)) := by
  induction n generalizing d with
  | zero => rfl
  | succ n ih =>
    simp only [readFields, decItems, ih]
    generalize hg : decItems (decode h fieldTy) n = g
    have hf : decode h fieldTy d = decode h (.pair .str (.pair .u32 (.pair .u8 .u32))) d := rfl
    rw [hf]
    simp only [decode]
    step (decString h d) q1
    step (decPrim h 4 q1.2) q2
    step (decPrim h 1 q2.2) q3
    step (decPrim h 4 q3.2) q4
    step (g q4.2) q5
    rfl

theorem readCommon_eq (h : Cdr.Header) (d : Cdr.Dec) : readCommon h d = (decode h pcTy d >>= fun q => .ok (ofVal h q.1, q.2)) := by
  unfold readCommon pcTy headTy
  simp only [decode, Cdr.decVec, readFields_eq]
  step (decPrim h 4 d) q1
  step (decPrim h 4 q1.2) q2
  step (decString h q2.2) q3
  step (decPrim h 4 q3.2) q4
  step (decPrim h 4 q4.2) q5
  step (decPrim h 4 q5.2) q6
  step (decItems (decode h fieldTy) q6.1 q6.2) q7
  step (decPrim h 1 q7.2) q8
  step (decPrim h 4 q8.2) q9
  step (decPrim h 4 q9.2) q10
  step (decBuf h q10.2) q11
  step (decPrim h 1 q11.2) q12
  rfl

/-! ### what is read fits -/

theorem local_le {α : Type} {f : Cdr.Dec → Res (α × Cdr.Dec)} (hf : Cdr.Local f) {d d' : Cdr.Dec} {v : α} (h : f d = .ok (v, d')) :
    d'.buf.length ≤ d.buf.length := by
  obtain ⟨x, hx, _⟩ := hf.2 d.buf d.pos v d' h
  rw [hx, List.length_append]; omega

theorem trim_eq {d d' : Cdr.Dec} {n : Nat} (h : d.trim n = .ok d') : d' = ⟨d.buf.drop n, d.pos + n⟩ := by
  unfold Cdr.Dec.trim at h
  split at h
  · cases h
  · simpa using h.symm

theorem fromLE_lt4 (bs : List Byte) (h : bs.length ≤ 4) : fromLE bs < 2 ^ 32 := by
  have := fromLE_lt bs
  calc fromLE bs < 256 ^ bs.length := this
    _ ≤ 256 ^ 4 := Nat.pow_le_pow_right (by omega) h
    _ = 2 ^ 32 := rfl

theorem decPrim_lt (h : Cdr.Header) {d d' : Cdr.Dec} {v : Nat} (e : decPrim h 4 d = .ok (v, d')) : v < 2 ^ 32 := by
  rw [Cdr.decPrim_def] at e
  obtain ⟨d1, _, e⟩ := Res.bind_eq_ok.1 e
  split at e
  · cases e
  · obtain ⟨d2, _, e⟩ := Res.bind_eq_ok.1 e
    simp only [Res.ok.injEq, Prod.mk.injEq] at e
    rw [← e.1]
    apply fromLE_lt4
    split <;> simp [List.length_take] <;> omega

theorem decString_fits (h : Cdr.Header) {d d' : Cdr.Dec} {s : List Byte} (e : decString h d = .ok (s, d')) (hd : d.buf.length < 2 ^ 32 - 1) :
    s.length + 1 < 2 ^ 32 := by
  rw [Cdr.decString_def] at e
  obtain ⟨⟨len, d1⟩, e1, e⟩ := Res.bind_eq_ok.1 e
  have := local_le (Cdr.local_prim h 4) e1
  simp only at e
  split at e
  · cases e
  · obtain ⟨d2, _, e⟩ := Res.bind_eq_ok.1 e
    simp only [Res.ok.injEq, Prod.mk.injEq] at e
    rw [← e.1]
    have hl : (d1.buf.take len).length ≤ d1.buf.length := by rw [List.length_take]; omega
    split
    · rw [List.length_dropLast]; omega
    · omega

theorem decBuf_fits (h : Cdr.Header) {d d' : Cdr.Dec} {s : List Byte} (e : decBuf h d = .ok (s, d')) : s.length < 2 ^ 32 := by
  rw [Cdr.decBuf_def] at e
  obtain ⟨⟨len, d1⟩, e1, e⟩ := Res.bind_eq_ok.1 e
  have := decPrim_lt h e1
  simp only at e
  split at e
  · cases e
  · obtain ⟨d2, _, e⟩ := Res.bind_eq_ok.1 e
    simp only [Res.ok.injEq, Prod.mk.injEq] at e
    rw [← e.1, List.length_take]
    omega

theorem decItems_fits {α : Type} {f : Cdr.Dec → Res (α × Cdr.Dec)} (hf : Cdr.Local f) (ok : α → Prop) (N : Nat)
    (hok : ∀ d v d', f d = .ok (v, d') → d.buf.length < N → ok v) (n : Nat) {d d' : Cdr.Dec} {vs : List α} (e : decItems f n d = .ok (vs, d'))
    (hd : d.buf.length < N) : vs.length = n ∧ ∀ v ∈ vs, ok v := by
  induction n generalizing d d' vs with
  | zero =>
    simp only [decItems, Res.ok.injEq, Prod.mk.injEq] at e
    rw [← e.1]; simp
  | succ n ih =>
    simp only [decItems] at e
    obtain ⟨⟨x, d1⟩, e1, e⟩ := Res.bind_eq_ok.1 e
    obtain ⟨⟨xs, d2⟩, e2, e⟩ := Res.bind_eq_ok.1 e
    simp only [Res.ok.injEq, Prod.mk.injEq] at e
    have hle := local_le hf e1
    obtain ⟨i1, i2⟩ := ih e2 (Nat.lt_of_le_of_lt hle hd)
    rw [← e.1]
    refine ⟨by rw [List.length_cons, i1], fun v hv => ?_⟩
    rcases List.mem_cons.1 hv with rfl | hv
    · exact hok d v d1 e1 hd
    · exact i2 v hv

theorem decArr_fits {α : Type} {f : Cdr.Dec → Res (α × Cdr.Dec)} (hf : Cdr.Local f) (ok : α → Prop) (N : Nat)
    (hok : ∀ d v d', f d = .ok (v, d') → d.buf.length < N → ok v) (n : Nat) {d d' : Cdr.Dec} {vs : { l : List α // l.length = n }}
    (e : Cdr.decArr f n d = .ok (vs, d')) (hd : d.buf.length < N) : ∀ v ∈ vs.1, ok v := by
  induction n generalizing d d' with
  | zero =>
    simp only [Cdr.decArr, Res.ok.injEq, Prod.mk.injEq] at e
    rw [← e.1]; simp
  | succ n ih =>
    simp only [Cdr.decArr] at e
    obtain ⟨⟨x, d1⟩, e1, e⟩ := Res.bind_eq_ok.1 e
    obtain ⟨⟨xs, d2⟩, e2, e⟩ := Res.bind_eq_ok.1 e
    simp only [Res.ok.injEq, Prod.mk.injEq] at e
    have hle := local_le hf e1
    have i2 := ih e2 (Nat.lt_of_le_of_lt hle hd)
    rw [← e.1]
    intro v hv
    rcases List.mem_cons.1 hv with rfl | hv
    · exact hok d v d1 e1 hd
    · exact i2 v hv

theorem decode_fits (h : Cdr.Header) (t : Ty) (d d' : Cdr.Dec) (v : t.Val) (e : decode h t d = .ok (v, d')) (hd : d.buf.length < 2 ^ 32 - 1) :
    Cdr.Fits t v := by
  induction t generalizing d d' with
  | u8 => trivial
  | u16 => trivial
  | u32 => trivial
  | u64 => trivial
  | str => exact decString_fits h e hd
  | buf => exact decBuf_fits h e
  | vec t ih =>
    have e : Cdr.decVec h (decode h t) d = .ok (v, d') := e
    unfold Cdr.decVec at e
    obtain ⟨⟨len, d1⟩, e1, e⟩ := Res.bind_eq_ok.1 e
    have h1 := decPrim_lt h e1
    have h2 := local_le (Cdr.local_prim h 4) e1
    obtain ⟨i1, i2⟩ := decItems_fits (Cdr.local_type h t) (Cdr.Fits t) (2 ^ 32 - 1) (fun d v d' => ih d d' v) len e (by omega)
    exact ⟨by show List.length (α := t.Val) v < 2 ^ 32; rw [i1]; exact h1, i2⟩
  | arr n t ih => exact decArr_fits (Cdr.local_type h t) (Cdr.Fits t) (2 ^ 32 - 1) (fun d v d' => ih d d' v) n e hd
  | unit => trivial
  | pair a b iha ihb =>
    simp only [decode] at e
    obtain ⟨⟨x, d1⟩, e1, e⟩ := Res.bind_eq_ok.1 e
    obtain ⟨⟨y, d2⟩, e2, e⟩ := Res.bind_eq_ok.1 e
    have h2 := local_le (Cdr.local_type h a) e1
    have e : ((x, y), d2) = (v, d') := Res.ok.inj e
    have e' : (x, y) = v := congrArg Prod.fst e
    rw [← e']
    exact ⟨iha d d1 x e1 hd, ihb d1 d2 y e2 (Nat.lt_of_le_of_lt h2 hd)⟩

/-! ### messages -/

theorem ofCode_code (c : Byte) : FieldType.ofCode (FieldType.ofCode c).code = FieldType.ofCode c := by
  revert c; decide +kernel

/-- What a reader finds in a message written for `pc` with `data`. -/
def echo (pc : Pc2) (data : List Byte) : Pc2 :=
  { pc with fields := pc.fields.map (fun f => { f with type := FieldType.ofCode f.type.code, resolution := none })
            row_step := pc.point_step * pc.width, data := data }

theorem fits_head {pc : Pc2} (h : FitsPc pc) : Cdr.Fits headTy (headVal pc) := by
  refine ⟨trivial, trivial, h.frame, trivial, trivial, ⟨?_, ?_⟩, trivial, trivial, trivial⟩
  · show (pc.fields.map fieldVal).length < 2 ^ 32
    rw [List.length_map]; exact h.fields
  · intro v hv
    have hv : v ∈ pc.fields.map fieldVal := hv
    obtain ⟨f, hf, rfl⟩ := List.mem_map.1 hv
    exact ⟨h.names f hf, trivial, trivial, trivial⟩

theorem ofVal_pcVal (h : Cdr.Header) (pc : Pc2) (data : List Byte) : ofVal h (pcVal pc data) = { echo pc data with cdr := h } := by
  show ({ cdr := h, sec := pc.sec, nsec := pc.nsec, frame := pc.frame, height := pc.height, width := pc.width, fields := (pc.fields.map fieldVal).map ofField,
          point_step := pc.point_step, row_step := pc.point_step * pc.width, data := data, dense := pc.dense } : Pc2) = _
  rw [List.map_map]
  rfl

/-- The header of a message that was read. -/
def Wire (h : Cdr.Header) : Prop := h.flag = .plain ∧ h.version = .dds

theorem decInit_wire {raw : List Byte} {h : Cdr.Header} {d : Cdr.Dec} (e : decInit .dds raw = .ok (h, d)) : Wire h ∧ d.buf.length + 4 = raw.length := by
  unfold decInit at e
  split at e
  · split at e
    · cases e
    · obtain ⟨flag, e1, e⟩ := Res.bind_eq_ok.1 e
      split at e
      · cases e
      · simp only [Res.ok.injEq, Prod.mk.injEq] at e
        have hf : flag = .plain := by
          unfold Cdr.versionOf at e1
          repeat' split at e1
          all_goals simp_all [Cdr.Version.code]
        subst hf
        obtain ⟨rfl, rfl⟩ := e
        exact ⟨⟨rfl, rfl⟩, by simp⟩
  · cases e

theorem wire_decInit (h : Cdr.Header) (hw : Wire h) (rest : List Byte) : decInit .dds (encInit h ++ rest) = .ok (h, ⟨rest, 0⟩) := by
  obtain ⟨b, f, v⟩ := h
  obtain ⟨rfl, rfl⟩ := hw
  cases b <;> rfl

theorem getMessage_encode (pc : Pc2) (hw : Wire pc.cdr) (hf : FitsPc pc) (data : List Byte) (hd : data.length < 2 ^ 32) (bytes rest : List Byte)
    (e : encode pc.cdr pcTy (pcVal pc data) (encInit pc.cdr) = .ok bytes) : getMessage (bytes ++ rest) = .ok (echo pc data) := by
  obtain ⟨_, x, rfl, hr⟩ := Cdr.reads_type pc.cdr pcTy (pcVal pc data) (encInit pc.cdr) bytes ⟨fits_head hf, hd, trivial⟩ (by simp [encInit]) e
  unfold getMessage
  rw [List.append_assoc, wire_decInit _ hw]
  simp only [Res.ok_bind]
  rw [readCommon_eq]
  have := hr rest
  simp only [encInit, List.length_cons, List.length_nil] at this
  simp only [this, Res.ok_bind]
  rw [ofVal_pcVal]
  rfl

theorem getMessage_inv {raw : List Byte} {pc : Pc2} (e : getMessage raw = .ok pc) (hl : raw.length < 2 ^ 32) :
    Wire pc.cdr ∧ FitsPc pc ∧ pc.data.length < 2 ^ 32 ∧
      pc.fields.map (fun f => { f with type := FieldType.ofCode f.type.code, resolution := none }) = pc.fields := by
  unfold getMessage at e
  obtain ⟨⟨h, d⟩, e1, e⟩ := Res.bind_eq_ok.1 e
  obtain ⟨⟨pc', d'⟩, e2, e⟩ := Res.bind_eq_ok.1 e
  simp only [Res.ok.injEq] at e
  subst e
  obtain ⟨hw, hb⟩ := decInit_wire e1
  rw [readCommon_eq] at e2
  obtain ⟨⟨v, d2⟩, e3, e4⟩ := Res.bind_eq_ok.1 e2
  simp only [Res.ok.injEq, Prod.mk.injEq] at e4
  obtain ⟨rfl, _⟩ := e4
  have hfit := decode_fits h pcTy d d2 v e3 (by omega)
  obtain ⟨⟨_, _, f1, _, _, ⟨f2, f3⟩, _, _, _⟩, f4, _⟩ := hfit
  refine ⟨hw, ⟨f1, ?_, ?_⟩, f4, ?_⟩
  · exact Nat.lt_of_le_of_lt (Nat.le_of_eq (List.length_map ..)) f2
  · intro f hf
    obtain ⟨w, hw', rfl⟩ := List.mem_map.1 hf
    exact (f3 w hw').1
  · show List.map _ (List.map ofField _) = List.map ofField _
    rw [List.map_map]
    apply List.map_congr_left
    intro w _
    simp only [Function.comp, ofField, ofCode_code]

/-! ### converting -/

theorem encPrim4_aligned (h : Cdr.Header) (v : Nat) (st : List Byte) (hs : 4 ≤ st.length) :
    ((encPrim h 4 v st).length - 4) % 4 = 0 ∧ 4 ≤ (encPrim h 4 v st).length := by
  rw [Cdr.encPrim_eq h 4 v st (by omega)]
  have := (Cdr.alignment_spec h 4 (st.length - 4) (by simp)).1
  have e : Cdr.alignOf h 4 = 4 := rfl
  rw [e] at this
  simp only [List.length_append, List.length_replicate, Cdr.primBytes_length]
  omega

theorem encPrim4_at (h : Cdr.Header) (v : Nat) (st : List Byte) (hs : (st.length - 4) % 4 = 0) : encPrim h 4 v st = st ++ Cdr.primBytes h 4 v := by
  rw [Cdr.encPrim_eq h 4 v st (by omega)]
  have := Cdr.alignment_spec h 4 (st.length - 4) (by simp)
  have e : Cdr.alignOf h 4 = 4 := rfl
  rw [e] at this
  have : Cdr.alignment h.align64 4 (st.length - 4) = 0 := by omega
  rw [this]; simp

theorem encString_prefix {h : Cdr.Header} {s st st' : List Byte} (e : encString h s st = .ok st') : ∃ x, st' = st ++ x := by
  unfold encString at e
  split at e
  · simp only [Res.ok.injEq] at e
    rw [Cdr.encPrim_eq h 4 _ st (by omega)] at e
    exact ⟨_, by rw [← e]; simp only [List.append_assoc]; rfl⟩
  · cases e

theorem encItems_grow (h : Cdr.Header) (fs : List PointField) (st st' : List Byte) (e : writeFields h fs st = .ok st') : ∃ x, st' = st ++ x := by
  induction fs generalizing st with
  | nil => simp only [writeFields, Res.ok.injEq] at e; exact ⟨[], by simp [e]⟩
  | cons f fs ih =>
    simp only [writeFields] at e
    obtain ⟨s1, e1, e2⟩ := Res.bind_eq_ok.1 e
    obtain ⟨x, rfl⟩ := encString_prefix e1
    obtain ⟨y, rfl⟩ := ih _ e2
    rw [Cdr.encPrim_eq h 4 _ _ (by omega), Cdr.encPrim_eq h 1 _ _ (by omega), Cdr.encPrim_eq h 4 _ _ (by omega)]
    exact ⟨_, by simp only [List.append_assoc]; rfl⟩

theorem writeHeader_aligned {h : Cdr.Header} {pc : Pc2} {st st' : List Byte} (hs : 4 ≤ st.length) (e : writeHeader h pc st = .ok st') :
    (st'.length - 4) % 4 = 0 ∧ 4 ≤ st'.length := by
  unfold writeHeader at e
  obtain ⟨s1, e1, e⟩ := Res.bind_eq_ok.1 e
  obtain ⟨s2, e2, e⟩ := Res.bind_eq_ok.1 e
  simp only [Res.ok.injEq] at e
  subst e
  have h1 : 4 ≤ s1.length := by
    obtain ⟨x, rfl⟩ := encString_prefix e1
    have := (encPrim4_aligned h pc.sec.toNat st hs).2
    have := (encPrim4_aligned h pc.nsec.toNat _ this).2
    rw [List.length_append]; omega
  have h2 : 4 ≤ s2.length := by
    obtain ⟨x, rfl⟩ := encItems_grow h _ _ _ e2
    have := (encPrim4_aligned h pc.height.toNat s1 h1).2
    have := (encPrim4_aligned h pc.width.toNat _ this).2
    have := (encPrim4_aligned h (pc.fields.length % 2 ^ 32) _ this).2
    rw [List.length_append]; omega
  have h3 : 4 ≤ (encPrim h 1 0 s2).length := by
    rw [Cdr.encPrim_eq h 1 _ _ (by omega)]; rw [List.length_append]; omega
  exact encPrim4_aligned h _ _ (encPrim4_aligned h _ _ h3).2

theorem toCompressed_inv {T : FloatText} {F : FloatOps} {C : Compressor} {pc : Pc2} {info : EncodingInfo} {bytes : List Byte}
    (e : toCompressed T F C pc info = .ok bytes) (hne : pc.data ≠ []) :
    ∃ st m enc enc' out, writeHeader pc.cdr pc (encInit pc.cdr) = .ok st ∧ info.point_step ≠ 0#32 ∧
      maxCompressedSize C info (pc.data.length / info.point_step.toNat) = .ok m ∧ mkEncoder F info (encodeHeaderYaml T info) = .ok enc ∧
      encodeView F C enc pc.data (headerEstimate T info + m) true = .ok (enc', out, out.length) ∧
      encString pc.cdr formatText (encPrim pc.cdr 1 pc.dense.toNat (st ++ toLE 4 out.length ++ out)) = .ok bytes := by
  unfold toCompressed at e
  obtain ⟨st, e1, e⟩ := Res.bind_eq_ok.1 e
  have hl : pc.data.length ≠ 0 := by simpa using hne
  simp only [if_neg hl] at e
  by_cases hp : info.point_step = 0#32
  · rw [if_pos hp] at e; cases e
  rw [if_neg hp] at e
  obtain ⟨m, e2, e⟩ := Res.bind_eq_ok.1 e
  obtain ⟨enc, e3, e⟩ := Res.bind_eq_ok.1 e
  obtain ⟨⟨enc', out, size⟩, e4, e⟩ := Res.bind_eq_ok.1 e
  simp only at e
  obtain ⟨all, e5, e⟩ := Res.bind_eq_ok.1 e
  obtain ⟨_, _, _, _, _, _, _, _, _, hs, hr⟩ := encodeView_inv F C enc enc' pc.data _ true out size e4
  subst hs
  refine ⟨st, m, enc, enc', out, e1, hp, e2, e3, e4, ?_⟩
  have ha := writeHeader_aligned (by simp [encInit]) e1
  rw [encPrim4_at _ _ _ ha.1] at e e5
  unfold writeAt at e5
  split at e5
  · simp only [Res.ok.injEq] at e5
    subst e5
    have : List.take ((st ++ Cdr.primBytes pc.cdr 4 0).length + out.length)
        (splice (st ++ Cdr.primBytes pc.cdr 4 0 ++ out ++ List.replicate (headerEstimate T info + m - out.length) 0#8) st.length (toLE 4 out.length)) =
        st ++ toLE 4 out.length ++ out := by
      unfold splice
      have hq : (Cdr.primBytes pc.cdr 4 0).length = 4 := Cdr.primBytes_length _ _ _
      generalize Cdr.primBytes pc.cdr 4 0 = q at *
      have h1 : (st ++ q ++ out ++ List.replicate (headerEstimate T info + m - out.length) 0#8).take st.length = st := by
        simp only [List.append_assoc, List.take_left]
      have h2 : (st ++ q ++ out ++ List.replicate (headerEstimate T info + m - out.length) 0#8).drop (st.length + (toLE 4 out.length).length) =
          out ++ List.replicate (headerEstimate T info + m - out.length) 0#8 := by
        rw [toLE_length, ← hq, ← List.length_append, List.append_assoc (st ++ q), List.drop_left]
      rw [h1, h2, ← List.append_assoc]
      have h3 : (st ++ q).length + out.length = (st ++ toLE 4 out.length ++ out).length := by
        simp only [List.length_append, toLE_length, hq]
      rw [h3, List.take_left]
    rw [this] at e
    exact e
  · cases e5

theorem encBuf_at {h : Cdr.Header} {b st : List Byte} (hb : h.big = false) (hl : b.length < 2 ^ 32) (ha : (st.length - 4) % 4 = 0) :
    Cdr.encBuf h b st = st ++ toLE 4 b.length ++ b := by
  unfold Cdr.encBuf
  rw [Nat.mod_eq_of_lt hl, List.take_of_length_le (Nat.le_refl _), encPrim4_at _ _ _ ha]
  unfold Cdr.primBytes
  rw [hb]; rfl

theorem encode_pc {h : Cdr.Header} {pc : Pc2} {data st : List Byte} (e : writeHeader h pc (encInit h) = .ok st) :
    encode h pcTy (pcVal pc data) (encInit h) = .ok (encPrim h 1 pc.dense.toNat (Cdr.encBuf h data st)) := by
  have : encode h pcTy (pcVal pc data) (encInit h) = (encode h headTy (headVal pc) (encInit h) >>= fun st => .ok (encPrim h 1 pc.dense.toNat (Cdr.encBuf h data st))) := rfl
  rw [this, ← writeHeader_eq, e]; rfl

theorem encode_compressed {h : Cdr.Header} {pc : Pc2} {data st : List Byte} (e : writeHeader h pc (encInit h) = .ok st) :
    encode h compressedTy (compressedVal pc data) (encInit h) = encString h formatText (encPrim h 1 pc.dense.toNat (Cdr.encBuf h data st)) := by
  have : encode h compressedTy (compressedVal pc data) (encInit h) =
      (encode h headTy (headVal pc) (encInit h) >>= fun st => encString h formatText (encPrim h 1 pc.dense.toNat (Cdr.encBuf h data st))) := rfl
  rw [this, ← writeHeader_eq, e]; rfl

end Cloudini.Ros
