import Verif.Lemmas.Bridge

/-! How many bytes one point takes in a chunk of the version 3/4 codec, whatever the values are. -/

namespace Cloudini

/-- The most bytes `step` writes. -/
def Enc.width : Enc → Nat
  | .copy _ s => s
  | .int _ s _ _ => if s ≤ 2 then 3 else if s ≤ 4 then 5 else 10
  | .lossy32 _ _ _ => 10
  | .lossy64 _ _ _ => 10
  | .xor _ s _ => s
  | .gorilla _ s _ => s + 2
  | .floatN ls => 5 * ls.length

/-- States the encoders stay in. -/
def Enc.Sound : Enc → Prop
  | .int _ s _ prev => s ≤ 8 ∧ (s ≤ 2 → -2 ^ 15 ≤ prev.toInt ∧ prev.toInt < 2 ^ 16) ∧ (s ≤ 4 → -2 ^ 31 ≤ prev.toInt ∧ prev.toInt < 2 ^ 32)
  | .gorilla _ s st => (s = 4 ∨ s = 8) ∧ GorillaInv (8 * s) st
  | _ => True

/-- The part of `Sound` that does not depend on the history. -/
def Enc.Sized : Enc → Prop
  | .int _ s _ _ => s ≤ 8
  | .gorilla _ s _ => s = 4 ∨ s = 8
  | _ => True

theorem Enc.width_reset (e : Enc) : e.reset.width = e.width := by cases e <;> simp [Enc.reset, Enc.width]
theorem Enc.sized_reset {e : Enc} : e.reset.Sized ↔ e.Sized := by cases e <;> simp [Enc.reset, Enc.Sized]
theorem Enc.sound_reset {e : Enc} (h : e.Sized) : e.reset.Sound := by
  cases e with
  | int o s g p => exact ⟨h, by simp, by simp⟩
  | gorilla o s st => exact ⟨h, gorillaInv_init _⟩
  | _ => trivial

theorem toI64_range2 {size : Nat} {signed : Bool} {bs : List Byte} (hl : bs.length = size) (hs : size ≤ 2) :
    -2 ^ 15 ≤ (toI64 size signed bs).toInt ∧ (toI64 size signed bs).toInt < 2 ^ 16 := by
  have hlt := fromLE_lt bs
  rw [hl, pow256] at hlt
  have hpow : 2 ^ (8 * size) ≤ 2 ^ 16 := Nat.pow_le_pow_right (by decide) (by omega)
  unfold toI64
  cases signed
  · simp only [Bool.false_eq_true, if_false]
    have hn : (BitVec.ofNat 64 (fromLE bs)).toNat = fromLE bs := by
      rw [BitVec.toNat_ofNat]; exact Nat.mod_eq_of_lt (by omega)
    rw [BitVec.toInt_eq_toNat_of_lt (by rw [hn]; omega), hn]
    omega
  · simp only [if_true]
    rw [BitVec.toInt_signExtend_of_le (by omega)]
    have h1 := BitVec.le_toInt (BitVec.ofNat (8 * size) (fromLE bs))
    have h2 := BitVec.toInt_lt (x := BitVec.ofNat (8 * size) (fromLE bs))
    have h3 : (2 : Int) ^ (8 * size - 1) ≤ 2 ^ 15 := by
      have : 2 ^ (8 * size - 1) ≤ 2 ^ 15 := Nat.pow_le_pow_right (by decide) (by omega)
      exact_mod_cast this
    omega

theorem varint_short (v : BitVec 64) (k : Nat) (hk : k < 9) (hv : -2 ^ (7 * k + 6) < v.toInt ∧ v.toInt < 2 ^ (7 * k + 6)) :
    (encodeVarint64 v).length ≤ k + 1 := by
  apply lebBytes_length_le
  have h := zigzagPlus1_toNat v
  have e : (2 : Nat) ^ (7 * (k + 1)) = 2 * 2 ^ (7 * k + 6) := by
    rw [← Nat.pow_succ']; congr 1
  have e2 : ((2 ^ (7 * k + 6) : Nat) : Int) = 2 ^ (7 * k + 6) := by norm_cast
  have hb : (2 : Nat) ^ (7 * k + 6) ≤ 2 ^ 62 := Nat.pow_le_pow_right (by decide) (by omega)
  rw [e]
  omega

theorem sub_toInt {a b d : BitVec 64} (h : subI64 a b = .ok d) : d.toInt = a.toInt - b.toInt := by
  rw [subI64_eq_ok] at h
  obtain ⟨h1, rfl⟩ := h
  rw [BitVec.toInt_sub]
  simp only [BitVec.ssubOverflow, Bool.or_eq_false_iff, decide_eq_false_iff_not] at h1
  apply Int.bmod_eq_of_le <;> omega

theorem lanes_width (F : FloatOps) (mem : List Byte) (ls ls' : List Lane) (bs : List Byte) (h : lanesEncode F mem ls = .ok (ls', bs)) :
    ls'.length = ls.length ∧ bs.length ≤ 5 * ls.length := by
  induction ls generalizing ls' bs with
  | nil => simp only [lanesEncode, Res.ok.injEq, Prod.mk.injEq] at h; obtain ⟨rfl, rfl⟩ := h; simp
  | cons l ls ih =>
    unfold lanesEncode at h
    obtain ⟨⟨l', b⟩, h1, h⟩ := Res.bind_eq_ok.1 h
    obtain ⟨⟨ls'', bs'⟩, h2, h⟩ := Res.bind_eq_ok.1 h
    simp only [Res.ok.injEq, Prod.mk.injEq] at h
    obtain ⟨rfl, rfl⟩ := h
    obtain ⟨i1, i2⟩ := ih _ _ h2
    have hb : b.length ≤ 5 := by
      unfold laneEncode at h1
      obtain ⟨xs, h3, h1⟩ := Res.bind_eq_ok.1 h1
      simp only at h1
      by_cases hn : isNaN32 (BitVec.ofNat 32 (fromLE xs)) = true
      · rw [if_pos hn] at h1
        simp only [Res.ok.injEq, Prod.mk.injEq] at h1
        obtain ⟨_, rfl⟩ := h1
        simp
      · rw [if_neg hn] at h1
        simp only [Res.ok.injEq, Prod.mk.injEq] at h1
        obtain ⟨_, rfl⟩ := h1
        exact encodeVarint64_signExtend_length _
    simp only [List.length_cons, List.length_append]
    omega

theorem step_width (F : FloatOps) (mem : List Byte) (e e' : Enc) (bs : List Byte) (hs : e.Sound) (h : e.step F mem = .ok (e', bs)) :
    bs.length ≤ e.width ∧ e'.width = e.width ∧ e'.Sound := by
  cases e with
  | copy o s =>
    simp only [Enc.step] at h
    obtain ⟨xs, h1, h⟩ := Res.bind_eq_ok.1 h
    simp only [Res.ok.injEq, Prod.mk.injEq] at h
    obtain ⟨rfl, rfl⟩ := h
    obtain ⟨hl, hx⟩ := readAt_eq_ok.1 h1
    have hlen : xs.length = s := by rw [hx]; exact sub_length hl
    exact ⟨by simp only [Enc.width]; omega, rfl, trivial⟩
  | int o s g p =>
    simp only [Enc.step] at h
    obtain ⟨xs, h1, h⟩ := Res.bind_eq_ok.1 h
    obtain ⟨d, h2, h⟩ := Res.bind_eq_ok.1 h
    simp only [Res.ok.injEq, Prod.mk.injEq] at h
    obtain ⟨rfl, rfl⟩ := h
    obtain ⟨hl, hx⟩ := readAt_eq_ok.1 h1
    have hlen : xs.length = s := by rw [hx]; exact sub_length hl
    obtain ⟨s8, s2, s4⟩ := hs
    have hd := sub_toInt h2
    refine ⟨?_, rfl, s8, fun h => toI64_range2 hlen h, fun h => toI64_range hlen h⟩
    simp only [Enc.width]
    by_cases c2 : s ≤ 2
    · rw [if_pos c2]
      have := s2 c2
      have := toI64_range2 (signed := g) hlen c2
      exact varint_short d 2 (by decide) (by rw [hd]; omega)
    by_cases c4 : s ≤ 4
    · rw [if_neg c2, if_pos c4]
      have := s4 c4
      have := toI64_range (signed := g) hlen c4
      exact varint_short d 4 (by decide) (by rw [hd]; omega)
    · rw [if_neg c2, if_neg c4]
      exact (encodeVarint64_length d).2
  | lossy32 o r p =>
    simp only [Enc.step] at h
    obtain ⟨xs, h1, h⟩ := Res.bind_eq_ok.1 h
    by_cases hn : isNaN32 (BitVec.ofNat 32 (fromLE xs)) = true
    · rw [if_pos hn] at h
      simp only [Res.ok.injEq, Prod.mk.injEq] at h
      obtain ⟨rfl, rfl⟩ := h
      exact ⟨by simp [Enc.width], rfl, trivial⟩
    · rw [if_neg hn] at h
      cases hq : F.quant32 r (BitVec.ofNat 32 (fromLE xs)) with
      | none => simp [hq] at h
      | some q =>
        simp only [hq] at h
        obtain ⟨d, h2, h⟩ := Res.bind_eq_ok.1 h
        simp only [Res.ok.injEq, Prod.mk.injEq] at h
        obtain ⟨rfl, rfl⟩ := h
        exact ⟨(encodeVarint64_length d).2, rfl, trivial⟩
  | lossy64 o r p =>
    simp only [Enc.step] at h
    obtain ⟨xs, h1, h⟩ := Res.bind_eq_ok.1 h
    by_cases hn : isNaN64 (BitVec.ofNat 64 (fromLE xs)) = true
    · rw [if_pos hn] at h
      simp only [Res.ok.injEq, Prod.mk.injEq] at h
      obtain ⟨rfl, rfl⟩ := h
      exact ⟨by simp [Enc.width], rfl, trivial⟩
    · rw [if_neg hn] at h
      cases hq : F.quant64 r (BitVec.ofNat 64 (fromLE xs)) with
      | none => simp [hq] at h
      | some q =>
        simp only [hq] at h
        obtain ⟨d, h2, h⟩ := Res.bind_eq_ok.1 h
        simp only [Res.ok.injEq, Prod.mk.injEq] at h
        obtain ⟨rfl, rfl⟩ := h
        exact ⟨(encodeVarint64_length d).2, rfl, trivial⟩
  | xor o s p =>
    simp only [Enc.step] at h
    obtain ⟨xs, h1, h⟩ := Res.bind_eq_ok.1 h
    simp only [Res.ok.injEq, Prod.mk.injEq] at h
    obtain ⟨rfl, rfl⟩ := h
    exact ⟨by simp [Enc.width, toLE_length], rfl, trivial⟩
  | gorilla o s st =>
    simp only [Enc.step] at h
    obtain ⟨xs, h1, h⟩ := Res.bind_eq_ok.1 h
    simp only [Res.ok.injEq, Prod.mk.injEq] at h
    obtain ⟨rfl, rfl⟩ := h
    obtain ⟨hl, hx⟩ := readAt_eq_ok.1 h1
    have hlen : xs.length = s := by rw [hx]; exact sub_length hl
    obtain ⟨h48, hinv⟩ := hs
    have hlt : (BitVec.ofNat 64 (fromLE xs)).toNat < 2 ^ (8 * s) := by
      rw [BitVec.toNat_ofNat]
      have := fromLE_lt xs
      rw [hlen, pow256] at this
      exact Nat.lt_of_le_of_lt (Nat.mod_le _ _) this
    obtain ⟨g1, g2, g3, g4⟩ := gorilla_step (8 * s) (by omega) st hinv _ hlt
    exact ⟨by simp only [Enc.width]; omega, rfl, h48, g1⟩
  | floatN ls =>
    simp only [Enc.step] at h
    obtain ⟨_, _, h⟩ := Res.bind_eq_ok.1 h
    obtain ⟨⟨ls', out⟩, h2, h⟩ := Res.bind_eq_ok.1 h
    simp only [Res.ok.injEq, Prod.mk.injEq] at h
    obtain ⟨rfl, rfl⟩ := h
    obtain ⟨a, b⟩ := lanes_width F mem _ _ _ h2
    exact ⟨b, by simp only [Enc.width, a], trivial⟩

theorem fields_width (F : FloatOps) (mem : List Byte) (es es' : List Enc) (w w' : W) (hs : ∀ e ∈ es, e.Sound)
    (h : encodeFields F mem es w = .ok (es', w')) :
    w'.out.length ≤ w.out.length + (es.map Enc.width).sum ∧ es'.map Enc.width = es.map Enc.width ∧ ∀ e ∈ es', e.Sound := by
  induction es generalizing es' w with
  | nil => simp only [encodeFields, Res.ok.injEq, Prod.mk.injEq] at h; obtain ⟨rfl, rfl⟩ := h; simp
  | cons e es ih =>
    unfold encodeFields at h
    obtain ⟨⟨e1, bs⟩, h1, h⟩ := Res.bind_eq_ok.1 h
    obtain ⟨w1, h2, h⟩ := Res.bind_eq_ok.1 h
    obtain ⟨⟨es1, w2⟩, h3, h⟩ := Res.bind_eq_ok.1 h
    simp only [Res.ok.injEq, Prod.mk.injEq] at h
    obtain ⟨rfl, rfl⟩ := h
    obtain ⟨a1, a2, a3⟩ := step_width F mem e e1 bs (hs e (by simp)) h1
    obtain ⟨b1, b2, b3⟩ := ih _ _ (fun e he => hs e (by simp [he])) h3
    have hw : w1.out.length = w.out.length + bs.length := by
      unfold W.raw at h2
      split at h2
      · simp only [Res.ok.injEq] at h2; rw [← h2]; simp
      · simp at h2
    refine ⟨by simp only [List.map_cons, List.sum_cons]; omega, by simp [a2, b2], fun x hx => ?_⟩
    rcases List.mem_cons.1 hx with rfl | hx
    · exact a3
    · exact b3 x hx

theorem points_width (F : FloatOps) (step n : Nat) (es es' : List Enc) (mem mem' : List Byte) (w w' : W) (hs : ∀ e ∈ es, e.Sound)
    (h : encodePoints F step n es mem w = .ok (es', mem', w')) :
    (∃ k, k ≤ n ∧ mem' = mem.drop (k * step) ∧ k * step ≤ mem.length ∧ w'.out.length ≤ w.out.length + k * (es.map Enc.width).sum) ∧
      es'.map Enc.width = es.map Enc.width ∧ ∀ e ∈ es', e.Sound := by
  induction n generalizing es mem w with
  | zero =>
    simp only [encodePoints, Res.ok.injEq, Prod.mk.injEq] at h
    obtain ⟨rfl, rfl, rfl⟩ := h
    exact ⟨⟨0, by simp⟩, rfl, hs⟩
  | succ n ih =>
    unfold encodePoints at h
    by_cases h0 : mem.length = 0
    · rw [if_pos h0] at h
      simp only [Res.ok.injEq, Prod.mk.injEq] at h
      obtain ⟨rfl, rfl, rfl⟩ := h
      exact ⟨⟨0, by simp⟩, rfl, hs⟩
    rw [if_neg h0] at h
    obtain ⟨⟨es1, w1⟩, h1, h⟩ := Res.bind_eq_ok.1 h
    obtain ⟨a1, a2, a3⟩ := fields_width F mem es es1 w w1 hs h1
    simp only at h
    by_cases hst : step ≤ mem.length
    · rw [if_pos hst] at h
      obtain ⟨⟨k, k1, k2, k3, k4⟩, i2, i3⟩ := ih _ _ _ a3 h
      refine ⟨⟨k + 1, by omega, ?_, ?_, ?_⟩, i2.trans a2, i3⟩
      · rw [k2, List.drop_drop]; congr 1; rw [Nat.succ_mul]; omega
      · rw [List.length_drop] at k3; rw [Nat.succ_mul]; omega
      · rw [a2] at k4; rw [Nat.succ_mul]; omega
    · rw [if_neg hst] at h; simp at h

/-- Every chunk is at most as long as the memory, when a point's encoding is at most as long as the point. -/
theorem stage1V4_width (F : FloatOps) (step cap points : Nat) (es es' : List Enc) (mem : List Byte) (cs : List (List Byte))
    (hs : ∀ e ∈ es, e.Sized) (hw : (es.map Enc.width).sum ≤ step) (h : stage1V4 F step cap points es mem = .ok (es', cs)) :
    ∀ c ∈ cs, c.length ≤ mem.length := by
  induction points using Nat.strongRecOn generalizing es mem cs es' with
  | ind points ih =>
    unfold stage1V4 at h
    by_cases h0 : points = 0
    · rw [dif_pos h0] at h
      simp only [Res.ok.injEq, Prod.mk.injEq] at h
      obtain ⟨_, rfl⟩ := h
      simp
    rw [dif_neg h0] at h
    obtain ⟨⟨es1, mem1, chunk⟩, h1, h⟩ := Res.bind_eq_ok.1 h
    obtain ⟨⟨es2, cs2⟩, h2, h⟩ := Res.bind_eq_ok.1 h
    simp only [Res.ok.injEq, Prod.mk.injEq] at h
    obtain ⟨_, rfl⟩ := h
    unfold encodeV4Chunk at h1
    obtain ⟨⟨es3, mem3, w⟩, h3, h1⟩ := Res.bind_eq_ok.1 h1
    simp only [Res.ok.injEq, Prod.mk.injEq] at h1
    obtain ⟨rfl, rfl, rfl⟩ := h1
    have hrw : (es.map Enc.reset).map Enc.width = es.map Enc.width := by
      rw [List.map_map]; exact List.map_congr_left fun e _ => Enc.width_reset e
    obtain ⟨⟨k, _, k2, k3, k4⟩, i2, i3⟩ := points_width F step _ (es.map Enc.reset) _ mem _ _ _ (by
      intro e he
      obtain ⟨e0, he0, rfl⟩ := List.mem_map.1 he
      exact Enc.sound_reset (hs e0 he0)) h3
    rw [hrw] at k4 i2
    intro c hc
    rcases List.mem_cons.1 hc with rfl | hc
    · have := Nat.mul_le_mul_left k hw
      simp only [List.length_nil] at k4
      omega
    · have := ih _ (by have := pos_K; omega) _ _ _ _ (by
        intro e he
        have := i3 e he
        cases e with
        | int o s g p => exact this.1
        | gorilla o s st => exact this.1
        | _ => trivial) (by rw [i2]; exact hw) h2 c hc
      rw [k2, List.length_drop] at this
      omega

end Cloudini
