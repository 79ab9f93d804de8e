import Verif.Model.V4
import Verif.Model.V5
import Verif.Lemmas.Writes

/-! Lists of field codecs over many points. -/

namespace Cloudini

/-- A 64-bit integer of magnitude at most 2^62: differences of two such values neither overflow nor hit the
reserved pattern. -/
def R62 (v : BitVec 64) : Prop := -2 ^ 62 ≤ v.toInt ∧ v.toInt < 2 ^ 62

def R30 (v : BitVec 32) : Prop := -2 ^ 30 ≤ v.toInt ∧ v.toInt < 2 ^ 30

/-- The difference of two 64-bit numbers fits and is not the reserved pattern. -/
def Step64 (a b : BitVec 64) : Prop := -2 ^ 63 < a.toInt - b.toInt ∧ a.toInt - b.toInt < 2 ^ 63

/-- The difference of two 32-bit numbers fits. -/
def Step32 (a b : BitVec 32) : Prop := -2 ^ 31 ≤ a.toInt - b.toInt ∧ a.toInt - b.toInt < 2 ^ 31

/-- The integer left by the previous point (`none`: a chunk begins here). -/
def keptI (o s : Nat) (g : Bool) : Option (List Byte) → BitVec 64
  | none => 0#64
  | some m => toI64 s g (sub m o s)

def kept32 (F : FloatOps) (o : Nat) (r : BitVec 32) : Option (List Byte) → BitVec 64
  | none => 0#64
  | some m => if isNaN32 (f32At m o) = true then 0#64 else (F.quant32 r (f32At m o)).getD 0#64

def kept64 (F : FloatOps) (o : Nat) (r : BitVec 32) : Option (List Byte) → BitVec 64
  | none => 0#64
  | some m => if isNaN64 (f64At m o) = true then 0#64 else (F.quant64 r (f64At m o)).getD 0#64

def keptV (F : FloatOps) (o : Nat) (r : BitVec 32) : Option (List Byte) → BitVec 32
  | none => 0#32
  | some m => if isNaN32 (f32At m o) = true then 0#32 else F.quantV r (f32At m o)

/-- The memory holds the encoder's fields and their values follow those of the previous point `pm` within the range of
the codec. -/
def Enc.Good (F : FloatOps) (pm : Option (List Byte)) (mem : List Byte) : Enc → Prop
  | .copy o s => o + s ≤ mem.length
  | .int o s g _ => o + s ≤ mem.length ∧ Step64 (toI64 s g (sub mem o s)) (keptI o s g pm)
  | .lossy32 o r _ => o + 4 ≤ mem.length ∧
      (isNaN32 (f32At mem o) = true ∨ ∃ q, F.quant32 r (f32At mem o) = some q ∧ Step64 q (kept32 F o r pm))
  | .lossy64 o r _ => o + 8 ≤ mem.length ∧
      (isNaN64 (f64At mem o) = true ∨ ∃ q, F.quant64 r (f64At mem o) = some q ∧ Step64 q (kept64 F o r pm))
  | .xor o s _ => o + s ≤ mem.length
  | .gorilla o s _ => o + s ≤ mem.length
  | .floatN ls => (ls.length < 4 → 4 ≤ mem.length) ∧ ∀ l ∈ ls, l.off + 4 ≤ mem.length ∧
      (isNaN32 (f32At mem l.off) = true ∨ Step32 (F.quantV l.res (f32At mem l.off)) (keptV F l.off l.res pm))

/-- The history kept by the encoder is the one left by the point `pm`. -/
def Enc.PrevIs (F : FloatOps) (pm : Option (List Byte)) : Enc → Prop
  | .int o s g p => p = keptI o s g pm
  | .lossy32 o r p => p = kept32 F o r pm
  | .lossy64 o r p => p = kept64 F o r pm
  | .floatN ls => ∀ l ∈ ls, l.prev = keptV F l.off l.res pm
  | _ => True

theorem R62_zero : R62 0#64 := by unfold R62; decide
theorem R30_zero : R30 0#32 := by unfold R30; decide

theorem reset_prevIs (F : FloatOps) (e : Enc) : e.reset.PrevIs F none := by
  cases e <;> simp only [Enc.reset, Enc.PrevIs, keptI, kept32, kept64, keptV]
  intro l hl
  simp only [List.mem_map] at hl
  obtain ⟨a, _, rfl⟩ := hl
  rfl

theorem subI64_step {a b : BitVec 64} (h : Step64 a b) :
    subI64 a b = .ok (a - b) ∧ a - b ≠ BitVec.intMin 64 := by
  unfold Step64 at h
  have hd : (a - b).toInt = a.toInt - b.toInt := by
    rw [BitVec.toInt_sub]; apply Int.bmod_eq_of_le <;> omega
  constructor
  · unfold subI64
    rw [if_neg]
    simp only [BitVec.ssubOverflow, Bool.or_eq_true, decide_eq_true_eq]
    omega
  · intro h
    rw [h] at hd
    have h3 : (BitVec.intMin 64).toInt = -9223372036854775808 := by decide
    omega

theorem step64_R62 {a b : BitVec 64} (ha : R62 a) (hb : R62 b) : Step64 a b := by
  unfold R62 at ha hb
  unfold Step64
  omega

theorem step32_R30 {a b : BitVec 32} (ha : R30 a) (hb : R30 b) : Step32 a b := by
  unfold R30 at ha hb
  unfold Step32
  omega

theorem ssub32_step {a b : BitVec 32} (h : Step32 a b) : BitVec.ssubOverflow a b = false := by
  unfold Step32 at h
  simp only [BitVec.ssubOverflow, Bool.or_eq_false_iff, decide_eq_false_iff_not]
  omega

theorem subI64_R62 {a b : BitVec 64} (ha : R62 a) (hb : R62 b) :
    subI64 a b = .ok (a - b) ∧ a - b ≠ BitVec.intMin 64 := subI64_step (step64_R62 ha hb)

theorem toI64_R62 {s : Nat} {g : Bool} {bs : List Byte} (hl : bs.length = s) (hs : s ≤ 4) : R62 (toI64 s g bs) := by
  have := toI64_range (signed := g) hl hs
  unfold R62; omega

theorem lane_good (F : FloatOps) (pm : Option (List Byte)) (mem : List Byte) (l : Lane) (hp : l.prev = keptV F l.off l.res pm)
    (h : l.off + 4 ≤ mem.length)
    (hv : isNaN32 (f32At mem l.off) = true ∨ Step32 (F.quantV l.res (f32At mem l.off)) (keptV F l.off l.res pm)) :
    LaneClean F mem l ∧ ∃ l' bs, laneEncode F mem l = .ok (l', bs) ∧ l'.prev = keptV F l'.off l'.res (some mem) := by
  refine ⟨?_, ?_⟩
  · rcases hv with hv | hv
    · exact Or.inl hv
    · exact Or.inr (ssub32_step (hp ▸ hv))
  · unfold laneEncode
    rw [readAt_ok h]
    simp only [Res.ok_bind]
    change ∃ l' bs, (if isNaN32 (f32At mem l.off) = true then _ else _) = _ ∧ _
    by_cases hn : isNaN32 (f32At mem l.off) = true
    · rw [if_pos hn]; exact ⟨_, _, rfl, by simp only [keptV]; rw [if_pos hn]⟩
    · rw [if_neg hn]
      exact ⟨_, _, rfl, by simp only [keptV]; rw [if_neg hn]; rfl⟩

theorem lanes_good (F : FloatOps) (pm : Option (List Byte)) (mem : List Byte) (ls : List Lane)
    (hp : ∀ l ∈ ls, l.prev = keptV F l.off l.res pm)
    (h : ∀ l ∈ ls, l.off + 4 ≤ mem.length ∧
      (isNaN32 (f32At mem l.off) = true ∨ Step32 (F.quantV l.res (f32At mem l.off)) (keptV F l.off l.res pm))) :
    ∃ ls' bs, lanesEncode F mem ls = .ok (ls', bs) ∧ ∀ l ∈ ls', l.prev = keptV F l.off l.res (some mem) := by
  induction ls with
  | nil => exact ⟨[], [], rfl, by simp⟩
  | cons l ls ih =>
    obtain ⟨_, l', bs, h1, h2⟩ := lane_good F pm mem l (hp l (by simp)) (h l (by simp)).1 (h l (by simp)).2
    obtain ⟨ls', bs', h3, h4⟩ := ih (fun a ha => hp a (by simp [ha])) (fun a ha => h a (by simp [ha]))
    refine ⟨l' :: ls', bs ++ bs', by simp only [lanesEncode, h1, h3, Res.ok_bind], ?_⟩
    intro a ha
    simp only [List.mem_cons] at ha
    rcases ha with rfl | ha
    · exact h2
    · exact h4 a ha

/-- On good memory an encoder step succeeds, is clean, and leaves the history of this point. -/
theorem step_good (F : FloatOps) (pm : Option (List Byte)) (mem : List Byte) (e : Enc) (hg : e.Good F pm mem) (hp : e.PrevIs F pm) :
    e.Clean F mem ∧ ∃ e' bs, e.step F mem = .ok (e', bs) ∧ e'.PrevIs F (some mem) := by
  cases e with
  | copy o s => exact ⟨trivial, .copy o s, sub mem o s, by simp only [Enc.step, readAt_ok hg, Res.ok_bind], trivial⟩
  | int o s g p =>
    obtain ⟨h, hv⟩ := hg
    simp only [Enc.PrevIs] at hp
    rw [← hp] at hv
    have hs := subI64_step hv
    refine ⟨hs.2, .int o s g (toI64 s g (sub mem o s)), encodeVarint64 (toI64 s g (sub mem o s) - p), ?_, rfl⟩
    simp only [Enc.step, readAt_ok h, Res.ok_bind, hs.1]
  | lossy32 o r p =>
    obtain ⟨h, hv⟩ := hg
    simp only [Enc.PrevIs] at hp
    rw [← hp] at hv
    simp only [Enc.Clean, Enc.step, readAt_ok h, Res.ok_bind]
    by_cases hn : isNaN32 (f32At mem o) = true
    · refine ⟨Or.inl hn, .lossy32 o r 0#64, [0#8], ?_, by simp only [Enc.PrevIs, kept32]; rw [if_pos hn]⟩
      exact if_pos hn
    · rcases hv with hv | ⟨q, hq, hr⟩
      · exact absurd hv hn
      have hs := subI64_step hr
      refine ⟨Or.inr ⟨q, hq, hs.2⟩, .lossy32 o r q, encodeVarint64 (q - p), ?_, by simp only [Enc.PrevIs, kept32]; rw [if_neg hn, hq]; rfl⟩
      refine (if_neg hn).trans ?_
      change (match F.quant32 r (f32At mem o) with | none => _ | some value => _) = _
      simp only [hq, hs.1, Res.ok_bind]
  | lossy64 o r p =>
    obtain ⟨h, hv⟩ := hg
    simp only [Enc.PrevIs] at hp
    rw [← hp] at hv
    simp only [Enc.Clean, Enc.step, readAt_ok h, Res.ok_bind]
    by_cases hn : isNaN64 (f64At mem o) = true
    · refine ⟨Or.inl hn, .lossy64 o r 0#64, [0#8], ?_, by simp only [Enc.PrevIs, kept64]; rw [if_pos hn]⟩
      exact if_pos hn
    · rcases hv with hv | ⟨q, hq, hr⟩
      · exact absurd hv hn
      have hs := subI64_step hr
      refine ⟨Or.inr ⟨q, hq, hs.2⟩, .lossy64 o r q, encodeVarint64 (q - p), ?_, by simp only [Enc.PrevIs, kept64]; rw [if_neg hn, hq]; rfl⟩
      refine (if_neg hn).trans ?_
      change (match F.quant64 r (f64At mem o) with | none => _ | some value => _) = _
      simp only [hq, hs.1, Res.ok_bind]
  | xor o s p =>
    exact ⟨trivial, .xor o s (BitVec.ofNat 64 (fromLE (sub mem o s))),
      toLE s (BitVec.ofNat 64 (fromLE (sub mem o s)) ^^^ p).toNat, by simp only [Enc.step, readAt_ok hg, Res.ok_bind], trivial⟩
  | gorilla o s st =>
    exact ⟨trivial, .gorilla o s (gorillaEncode (8 * s) st (BitVec.ofNat 64 (fromLE (sub mem o s)))).1,
      (gorillaEncode (8 * s) st (BitVec.ofNat 64 (fromLE (sub mem o s)))).2,
      by simp only [Enc.step, readAt_ok hg, Res.ok_bind], trivial⟩
  | floatN ls =>
    obtain ⟨h0, h⟩ := hg
    obtain ⟨ls', bs, h1, h2⟩ := lanes_good F pm mem ls hp h
    refine ⟨fun l hl => (lane_good F pm mem l (hp l hl) (h l hl).1 (h l hl).2).1, .floatN ls', bs, ?_, h2⟩
    have h3 : ∃ x, readUnusedLane mem ls.length = .ok x := by
      unfold readUnusedLane
      by_cases hl : ls.length < 4
      · rw [if_pos hl]
        exact ⟨_, readAt_ok (by have := h0 hl; omega)⟩
      · rw [if_neg hl]; exact ⟨[], rfl⟩
    obtain ⟨x, hx⟩ := h3
    simp only [Enc.step, hx, Res.ok_bind, h1]

/-! ### what depends on the static part only -/

theorem good_reset (F : FloatOps) (pm : Option (List Byte)) (mem : List Byte) (e : Enc) : e.reset.Good F pm mem ↔ e.Good F pm mem := by
  cases e <;> simp only [Enc.reset, Enc.Good]
  simp

theorem vals_reset (F : FloatOps) (mem : List Byte) (e : Enc) : e.reset.vals F mem = e.vals F mem := by
  cases e <;> simp [Enc.reset, Enc.vals]

theorem maxBytes_reset (e : Enc) : e.reset.maxBytes = e.maxBytes := by
  cases e <;> simp [Enc.reset, Enc.maxBytes]

theorem offs_reset (d : Dec) : d.reset.offs = d.offs := by
  cases d <;> simp [Dec.reset, Dec.offs]

theorem minInput_reset (d : Dec) : d.reset.minInputBytes = d.minInputBytes := by
  cases d <;> simp [Dec.reset, Dec.minInputBytes]

theorem enc_reset_reset (e : Enc) : e.reset.reset = e.reset := by
  cases e <;> simp [Enc.reset]

theorem dec_reset_reset (d : Dec) : d.reset.reset = d.reset := by
  cases d <;> simp [Dec.reset]

theorem lanesMatch_reset {as bs : List Lane} (h : LanesMatch as bs) :
    LanesMatch (as.map fun l => { l with prev := 0#32 }) (bs.map fun l => { l with prev := 0#32 }) := by
  induction as generalizing bs with
  | nil => cases bs <;> simp_all [LanesMatch]
  | cons a as ih =>
    cases bs with
    | nil => exact h.elim
    | cons b bs => exact ⟨h.1, rfl, ih h.2.2⟩

theorem matches_reset {e : Enc} {d : Dec} (h : Matches e d) : Matches e.reset d.reset := by
  cases e <;> cases d <;> simp only [Matches] at h <;> try exact h.elim
  · exact h
  · exact ⟨h.1, rfl, h.2.2⟩
  · exact ⟨h.1, rfl⟩
  · exact ⟨h.1, rfl⟩
  · refine ⟨h.1, rfl, h.2.2.1, ?_⟩
    exact Nat.lt_of_lt_of_le (by decide : (0#64).toNat < 1) Nat.one_le_two_pow
  · exact ⟨h.1, rfl, h.2.2.1, gorillaInv_init _⟩
  · refine ⟨by simpa using h.1, lanesMatch_reset h.2⟩

theorem lanesMatch_unique {as bs cs : List Lane} (hb : LanesMatch as bs) (hc : LanesMatch as cs)
    (h : bs.map (fun l => { l with prev := 0#32 }) = cs.map fun l => { l with prev := 0#32 }) : bs = cs := by
  induction as generalizing bs cs with
  | nil => cases bs <;> cases cs <;> simp_all [LanesMatch]
  | cons a as ih =>
    cases bs with
    | nil => exact hb.elim
    | cons b bs =>
      cases cs with
      | nil => exact hc.elim
      | cons c cs =>
        simp only [List.map_cons, List.cons.injEq, Lane.mk.injEq, and_true] at h
        obtain ⟨⟨h1, h2⟩, h3⟩ := h
        have e : b = c := by
          obtain ⟨bo, br, bp⟩ := b
          obtain ⟨co, cr, cp⟩ := c
          have p1 : a.prev = bp := hb.2.1
          have p2 : a.prev = cp := hc.2.1
          simp only at h1 h2
          subst h1 h2
          rw [← p1, ← p2]
        rw [e, ih hb.2.2 hc.2.2 h3]

theorem matches_unique {e : Enc} {d d' : Dec} (h : Matches e d) (h' : Matches e d') (hr : d.reset = d'.reset) :
    d = d' := by
  cases e <;> cases d <;> simp only [Matches] at h <;> try exact h.elim
  all_goals cases d' <;> simp only [Matches] at h' <;> try exact h'.elim
  all_goals simp only [Dec.reset] at hr
  · exact hr
  · injection hr with h1 h2; rw [← h.2.1, ← h'.2.1, h1, h2]
  · injection hr with h1 h2; rw [← h.2, ← h'.2, h1, h2]
  · injection hr with h1 h2; rw [← h.2, ← h'.2, h1, h2]
  · injection hr with h1 h2; rw [← h.2.1, ← h'.2.1, h1, h2]
  · injection hr with h1 h2; rw [← h.2.1, ← h'.2.1, h1, h2]
  · injection hr with h1; rw [lanesMatch_unique h.2 h'.2 h1]

/-! ### one point -/

def MatchAll : List Enc → List Dec → Prop
  | [], [] => True
  | e :: es, d :: ds => Matches e d ∧ MatchAll es ds
  | _, _ => False

theorem matchAll_reset {es : List Enc} {ds : List Dec} (h : MatchAll es ds) :
    MatchAll (es.map Enc.reset) (ds.map Dec.reset) := by
  induction es generalizing ds with
  | nil => cases ds <;> simp_all [MatchAll]
  | cons e es ih =>
    cases ds with
    | nil => exact h.elim
    | cons d ds => exact ⟨matches_reset h.1, ih h.2⟩

theorem matchAll_append {es es' : List Enc} {ds ds' : List Dec} (h : MatchAll es ds) (h' : MatchAll es' ds') :
    MatchAll (es ++ es') (ds ++ ds') := by
  induction es generalizing ds with
  | nil => cases ds <;> simp_all [MatchAll]
  | cons e es ih =>
    cases ds with
    | nil => exact h.elim
    | cons d ds => exact ⟨h.1, ih h.2⟩

def sumMax (es : List Enc) : Nat := (es.map Enc.maxBytes).sum
def sumMin (ds : List Dec) : Nat := (ds.map Dec.minInputBytes).sum

/-- The writes the decoders perform for one point. -/
def pointWrites (F : FloatOps) (mem : List Byte) : List Enc → List Dec → List Write
  | e :: es, d :: ds => storeAll d.offs (e.vals F mem) ++ pointWrites F mem es ds
  | _, _ => []

theorem pointWrites_reset (F : FloatOps) (mem : List Byte) (es : List Enc) (ds : List Dec) :
    pointWrites F mem (es.map Enc.reset) (ds.map Dec.reset) = pointWrites F mem es ds := by
  induction es generalizing ds with
  | nil => rfl
  | cons e es ih =>
    cases ds with
    | nil => rfl
    | cons d ds => simp only [List.map_cons, pointWrites, offs_reset, vals_reset, ih]

theorem pointWrites_congr (F : FloatOps) (mem : List Byte) {es es' : List Enc} {ds ds' : List Dec}
    (he : es.map Enc.reset = es'.map Enc.reset) (hd : ds.map Dec.reset = ds'.map Dec.reset) :
    pointWrites F mem es ds = pointWrites F mem es' ds' := by
  rw [← pointWrites_reset F mem es, ← pointWrites_reset F mem es', he, hd]

theorem sumMax_reset (es : List Enc) : sumMax (es.map Enc.reset) = sumMax es := by
  unfold sumMax; rw [List.map_map]; congr 1; apply List.map_congr_left; intro e _; exact maxBytes_reset e

theorem sumMin_reset (ds : List Dec) : sumMin (ds.map Dec.reset) = sumMin ds := by
  unfold sumMin; rw [List.map_map]; congr 1; apply List.map_congr_left; intro e _; exact minInput_reset e

def GoodAll (F : FloatOps) (pm : Option (List Byte)) (mem : List Byte) (es : List Enc) : Prop := ∀ e ∈ es, e.Good F pm mem

theorem goodAll_congr {F : FloatOps} {pm : Option (List Byte)} {mem : List Byte} {es es' : List Enc}
    (he : es.map Enc.reset = es'.map Enc.reset) (h : GoodAll F pm mem es) : GoodAll F pm mem es' := by
  intro e he'
  have : e.reset ∈ es.map Enc.reset := by rw [he]; exact List.mem_map_of_mem he'
  simp only [List.mem_map] at this
  obtain ⟨a, ha, hr⟩ := this
  rw [← good_reset, ← hr, good_reset]
  exact h a ha

/-- One point through matching encoders and decoders. -/
theorem fields_roundtrip (F : FloatOps) (pm : Option (List Byte)) (mem : List Byte) (es : List Enc) (ds : List Dec) (w : W)
    (hm : MatchAll es ds) (hg : GoodAll F pm mem es) (hp : ∀ e ∈ es, e.PrevIs F pm) (hroom : sumMax es ≤ w.room) :
    ∃ es' bs ds', encodeFields F mem es w = .ok (es', ⟨w.out ++ bs, w.room - bs.length⟩) ∧
      (∀ e ∈ es', e.PrevIs F (some mem)) ∧ MatchAll es' ds' ∧
      es'.map Enc.reset = es.map Enc.reset ∧ ds'.map Dec.reset = ds.map Dec.reset ∧
      sumMin ds ≤ bs.length ∧ bs.length ≤ sumMax es ∧
      ∀ rest buf base buf', applyWrites buf base (pointWrites F mem es ds) = .ok buf' →
        decodeFields F ds (bs ++ rest) buf base = .ok (ds', rest, buf') := by
  induction es generalizing ds w with
  | nil =>
    cases ds with
    | cons d ds => exact hm.elim
    | nil =>
      refine ⟨[], [], [], by simp [encodeFields], by simp, trivial, rfl, rfl, by simp [sumMin], by simp, ?_⟩
      intro rest buf base buf' h
      simp only [pointWrites, applyWrites, Res.ok.injEq] at h
      subst h
      rfl
  | cons e es ih =>
    cases ds with
    | nil => exact hm.elim
    | cons d ds =>
      obtain ⟨hm1, hm2⟩ := hm
      obtain ⟨hc, e', bs, hs, hp'⟩ := step_good F pm mem e (hg e (by simp)) (hp e (by simp))
      obtain ⟨_, s2, s3, s4⟩ := step_roundtrip F mem e e' d bs [] hm1 hs hc
      have hmax : sumMax (e :: es) = e.maxBytes + sumMax es := by simp [sumMax]
      rw [hmax] at hroom
      obtain ⟨es', bs', ds', i1, i2, i3, i4, i5, i6, i7, i8⟩ :=
        ih ds ⟨w.out ++ bs, w.room - bs.length⟩ hm2 (fun a ha => hg a (by simp [ha]))
          (fun a ha => hp a (by simp [ha])) (by simp only; omega)
      -- the decoder state after the step does not depend on the rest of the input
      obtain ⟨⟨d', q1, q2, q3⟩, _⟩ := step_roundtrip F mem e e' d bs [] hm1 hs hc
      refine ⟨e' :: es', bs ++ bs', d' :: ds', ?_, ?_, ⟨q2, i3⟩, ?_, ?_, ?_, ?_, ?_⟩
      · simp only [encodeFields, hs, Res.ok_bind]
        rw [W.raw_ok (by omega)]
        simp only [Res.ok_bind, i1]
        simp only [List.append_assoc, List.length_append, Nat.sub_sub]
      · intro a ha
        simp only [List.mem_cons] at ha
        rcases ha with rfl | ha
        · exact hp'
        · exact i2 a ha
      · simp only [List.map_cons, s2, i4]
      · simp only [List.map_cons, q3, i5]
      · simp only [sumMin, List.map_cons, List.sum_cons, List.length_append] at i6 ⊢; omega
      · rw [hmax, List.length_append]; omega
      · intro rest buf base buf' h
        simp only [pointWrites] at h
        rw [applyWrites_append, Res.bind_eq_ok] at h
        obtain ⟨b1, h1, h2⟩ := h
        obtain ⟨⟨d'', r1, r2, r3⟩, _⟩ := step_roundtrip F mem e e' d bs (bs' ++ rest) hm1 hs hc
        have hdd : d'' = d' := matches_unique r2 q2 (by rw [r3, q3])
        subst hdd
        rw [List.append_assoc]
        simp only [decodeFields, r1, Res.ok_bind, h1]
        rw [i8 rest b1 base buf' h2]
        rfl

end Cloudini
