import Verif.Lemmas.Unfold
import Verif.Lemmas.Fresh
import Verif.Lemmas.Framing

/-!
# What was decoded does not depend on the bytes that follow

Every decoding step that succeeds on an input succeeds on the input followed by anything, with the same result and the same rest, followed
by the same bytes.
-/

namespace Cloudini

theorem decodeVarint_more {input x : List Byte} {r : BitVec 64} {n : Nat} (h : decodeVarint input = .ok (r, n)) :
    decodeVarint (input ++ x) = .ok (r, n) ∧ (input ++ x).drop n = input.drop n ++ x := by
  obtain ⟨_, h2, _, h4⟩ := decodeVarint_ok h
  refine ⟨?_, List.drop_append_of_le_length h2⟩
  have := h4 (input.drop n ++ x)
  rwa [← List.append_assoc, List.take_append_drop] at this

theorem readUVarintLoop_more (input x rest : List Byte) (s : Nat) (u w : BitVec 64) (h : readUVarintLoop input s u = .ok (w, rest)) :
    readUVarintLoop (input ++ x) s u = .ok (w, rest ++ x) := by
  induction input generalizing s u with
  | nil => simp [readUVarintLoop] at h
  | cons b bs ih =>
    simp only [readUVarintLoop, List.cons_append] at h ⊢
    split at h
    · simp at h
    next h1 =>
    rw [if_neg h1]
    split at h
    · next h2 =>
      rw [if_pos h2]
      simp only [Res.ok.injEq, Prod.mk.injEq] at h
      rw [← h.1, ← h.2]
    · next h2 =>
      rw [if_neg h2]
      split at h
      · simp at h
      · next h3 => rw [if_neg h3]; exact ih _ _ h

theorem readUVarint_more {input x rest : List Byte} {w : BitVec 64} (h : readUVarint input = .ok (w, rest)) :
    readUVarint (input ++ x) = .ok (w, rest ++ x) := readUVarintLoop_more _ _ _ _ _ _ h

theorem decodeInt_more {k v : Nat} {input x rest : List Byte} (h : decodeInt k input = .ok (v, rest)) :
    decodeInt k (input ++ x) = .ok (v, rest ++ x) := by
  rw [decodeInt_def] at h ⊢
  split at h
  · next hk =>
    simp only [Res.ok.injEq, Prod.mk.injEq] at h
    rw [if_pos (by simp; omega), List.take_append_of_le_length hk, List.drop_append_of_le_length hk, h.1, h.2]
  · simp at h

theorem fillTo_more (n : Nat) (input x : List Byte) : ∀ (buf : BitVec 64) (cnt : Nat) (r : BitR), fillTo n buf cnt input = .ok r →
    fillTo n buf cnt (input ++ x) = .ok { r with inp := r.inp ++ x } := by
  induction input with
  | nil =>
    intro buf cnt r h
    rw [fillTo] at h
    split at h
    · simp at h
    · next hc =>
      simp only [Res.ok.injEq] at h
      subst h
      rw [fillTo.eq_def, if_neg hc]
  | cons b bs ih =>
    intro buf cnt r h
    rw [fillTo] at h
    rw [List.cons_append, fillTo]
    split at h
    · next hc =>
      rw [if_pos hc]
      split at h
      · simp at h
      · next h6 => rw [if_neg h6]; exact ih _ _ _ h
    · next hc =>
      simp only [Res.ok.injEq] at h
      subst h
      rw [if_neg hc]; rfl

theorem getBits_more (n : Nat) (r r' : BitR) (v : BitVec 64) (x : List Byte) (h : getBits n r = .ok (v, r')) :
    getBits n { r with inp := r.inp ++ x } = .ok (v, { r' with inp := r'.inp ++ x }) := by
  unfold getBits at h ⊢
  by_cases h1 : n > 56 ∨ r.cnt > 56
  · rw [if_pos h1] at h
    rw [if_pos (by exact h1)]
    simp only at h ⊢
    by_cases h2 : n - min n r.cnt = 0
    · rw [if_pos h2] at h
      rw [if_pos (by exact h2)]
      simp only [Res.ok.injEq, Prod.mk.injEq] at h
      rw [← h.1, ← h.2]
    · rw [if_neg h2] at h
      rw [if_neg (by exact h2)]
      obtain ⟨q, hq, h⟩ := Res.bind_eq_ok.1 h
      rw [fillTo_more _ _ x _ _ _ hq]
      simp only [Res.ok_bind]
      split at h
      · simp at h
      · next h3 =>
        rw [if_neg (by exact h3)]
        simp only [Res.ok.injEq, Prod.mk.injEq] at h
        rw [← h.1, ← h.2]
  · rw [if_neg h1] at h
    rw [if_neg (by exact h1)]
    obtain ⟨q, hq, h⟩ := Res.bind_eq_ok.1 h
    rw [fillTo_more _ _ x _ _ _ hq]
    simp only [Res.ok.injEq, Prod.mk.injEq] at h
    simp only [Res.ok_bind]
    rw [← h.1, ← h.2]

theorem gorillaDecode_more (tb : Nat) (st st' : GorillaState) (v : BitVec 64) (input rest x : List Byte)
    (h : gorillaDecode tb st input = .ok (st', v, rest)) : gorillaDecode tb st (input ++ x) = .ok (st', v, rest ++ x) := by
  unfold gorillaDecode at h ⊢
  simp only at h ⊢
  split at h
  · next h0 =>
    rw [if_pos h0]
    obtain ⟨⟨a, r⟩, h1, h⟩ := Res.bind_eq_ok.1 h
    rw [getBits_more _ _ _ _ x h1]
    simp only [Res.ok.injEq, Prod.mk.injEq] at h
    simp only [Res.ok_bind]
    rw [h.1, h.2.1, h.2.2]
  · next h0 =>
    rw [if_neg h0]
    obtain ⟨⟨a, r⟩, h1, h⟩ := Res.bind_eq_ok.1 h
    rw [getBits_more _ _ _ _ x h1]
    simp only [Res.ok_bind] at h ⊢
    split at h
    · next h2 =>
      rw [if_pos h2]
      simp only [Res.ok.injEq, Prod.mk.injEq] at h
      rw [← h.1, h.2.1, h.2.2]
    · next h2 =>
      rw [if_neg h2]
      obtain ⟨⟨c, r⟩, h3, h⟩ := Res.bind_eq_ok.1 h
      rw [getBits_more _ _ _ _ x h3]
      simp only [Res.ok_bind] at h ⊢
      split at h
      · next h4 =>
        rw [if_pos h4]
        obtain ⟨⟨d, r⟩, h5, h⟩ := Res.bind_eq_ok.1 h
        rw [getBits_more _ _ _ _ x h5]
        simp only [Res.ok_bind] at h ⊢
        obtain ⟨z, h6, h⟩ := Res.bind_eq_ok.1 h
        rw [h6]
        simp only [Res.ok.injEq, Prod.mk.injEq] at h
        simp only [Res.ok_bind]
        rw [h.1, h.2.1, h.2.2]
      · next h4 =>
        rw [if_neg h4]
        obtain ⟨⟨d, r⟩, h5, h⟩ := Res.bind_eq_ok.1 h
        rw [getBits_more _ _ _ _ x h5]
        simp only [Res.ok_bind] at h ⊢
        obtain ⟨⟨e, r⟩, h6, h⟩ := Res.bind_eq_ok.1 h
        rw [getBits_more _ _ _ _ x h6]
        simp only [Res.ok_bind] at h ⊢
        obtain ⟨⟨g, r⟩, h7, h⟩ := Res.bind_eq_ok.1 h
        rw [getBits_more _ _ _ _ x h7]
        simp only [Res.ok_bind] at h ⊢
        obtain ⟨z, h8, h⟩ := Res.bind_eq_ok.1 h
        rw [h8]
        simp only [Res.ok.injEq, Prod.mk.injEq] at h
        simp only [Res.ok_bind]
        rw [h.1, h.2.1, h.2.2]

theorem laneDecode_more (F : FloatOps) (l l' : Lane) (v : BitVec 32) (input rest x : List Byte)
    (h : laneDecode F l input = .ok (l', v, rest)) : laneDecode F l (input ++ x) = .ok (l', v, rest ++ x) := by
  cases input with
  | nil => simp [laneDecode] at h
  | cons b bs =>
    simp only [laneDecode, List.cons_append] at h ⊢
    split at h
    · next hb =>
      rw [if_pos hb]
      simp only [Res.ok.injEq, Prod.mk.injEq] at h
      rw [h.1, h.2.1, h.2.2]
    · next hb =>
      rw [if_neg hb]
      obtain ⟨⟨d, n⟩, h1, h⟩ := Res.bind_eq_ok.1 h
      obtain ⟨h2, h3⟩ := decodeVarint_more (x := x) h1
      rw [List.cons_append] at h2 h3
      rw [h2]
      simp only [Res.ok_bind] at h ⊢
      obtain ⟨w, h4, h⟩ := Res.bind_eq_ok.1 h
      rw [h4, h3]
      simp only [Res.ok.injEq, Prod.mk.injEq] at h
      simp only [Res.ok_bind]
      rw [h.1, h.2.1, h.2.2]

theorem lanesDecode_more (F : FloatOps) (ls : List Lane) : ∀ (ls' : List Lane) (ws : List Write) (input rest x : List Byte),
    lanesDecode F ls input = .ok (ls', ws, rest) → lanesDecode F ls (input ++ x) = .ok (ls', ws, rest ++ x) := by
  induction ls with
  | nil =>
    intro ls' ws input rest x h
    simp only [lanesDecode, Res.ok.injEq, Prod.mk.injEq] at h ⊢
    exact ⟨h.1, h.2.1, by rw [h.2.2]⟩
  | cons l ls ih =>
    intro ls' ws input rest x h
    simp only [lanesDecode] at h ⊢
    obtain ⟨⟨l1, v, i1⟩, h1, h⟩ := Res.bind_eq_ok.1 h
    obtain ⟨⟨ls1, ws1, i2⟩, h2, h⟩ := Res.bind_eq_ok.1 h
    rw [laneDecode_more F l l1 v _ _ x h1]
    simp only [Res.ok_bind]
    rw [ih _ _ _ _ x h2]
    simp only [Res.ok.injEq, Prod.mk.injEq] at h
    simp only [Res.ok_bind]
    rw [h.1, h.2.1, h.2.2]

theorem step_more (F : FloatOps) (d d' : Dec) (ws : List Write) (input rest x : List Byte) (h : d.step F input = .ok (d', ws, rest)) :
    d.step F (input ++ x) = .ok (d', ws, rest ++ x) := by
  cases d with
  | copy o s =>
    simp only [Dec.step] at h ⊢
    split at h
    · next ho =>
      rw [if_pos ho]
      split at h
      · next hl =>
        simp only [Res.ok.injEq, Prod.mk.injEq] at h
        rw [if_pos (by simp; omega), List.take_append_of_le_length hl, List.drop_append_of_le_length hl, h.1, h.2.1, h.2.2]
      · simp at h
    · next ho =>
      rw [if_neg ho]
      split at h
      · next hl =>
        simp only [Res.ok.injEq, Prod.mk.injEq] at h
        rw [if_pos (by simp; omega), List.drop_append_of_le_length hl, h.1, ← h.2.1, h.2.2]
      · simp at h
  | int o s prev =>
    simp only [Dec.step] at h ⊢
    obtain ⟨⟨df, n⟩, h1, h⟩ := Res.bind_eq_ok.1 h
    obtain ⟨h2, h3⟩ := decodeVarint_more (x := x) h1
    rw [h2]
    simp only [Res.ok_bind] at h ⊢
    obtain ⟨w, h4, h⟩ := Res.bind_eq_ok.1 h
    rw [h4, h3]
    simp only [Res.ok.injEq, Prod.mk.injEq] at h
    simp only [Res.ok_bind]
    rw [h.1, h.2.1, h.2.2]
  | lossy32 o r prev =>
    cases input with
    | nil => simp [Dec.step] at h
    | cons b bs =>
      simp only [Dec.step, List.cons_append] at h ⊢
      split at h
      · next hb =>
        rw [if_pos hb]
        simp only [Res.ok.injEq, Prod.mk.injEq] at h
        rw [h.1, h.2.1, h.2.2]
      · next hb =>
        rw [if_neg hb]
        obtain ⟨⟨df, n⟩, h1, h⟩ := Res.bind_eq_ok.1 h
        obtain ⟨h2, h3⟩ := decodeVarint_more (x := x) h1
        rw [List.cons_append] at h2 h3
        rw [h2]
        simp only [Res.ok_bind] at h ⊢
        obtain ⟨w, h4, h⟩ := Res.bind_eq_ok.1 h
        rw [h4, h3]
        simp only [Res.ok.injEq, Prod.mk.injEq] at h
        simp only [Res.ok_bind]
        rw [h.1, h.2.1, h.2.2]
  | lossy64 o r prev =>
    cases input with
    | nil => simp [Dec.step] at h
    | cons b bs =>
      simp only [Dec.step, List.cons_append] at h ⊢
      split at h
      · next hb =>
        rw [if_pos hb]
        simp only [Res.ok.injEq, Prod.mk.injEq] at h
        rw [h.1, h.2.1, h.2.2]
      · next hb =>
        rw [if_neg hb]
        obtain ⟨⟨df, n⟩, h1, h⟩ := Res.bind_eq_ok.1 h
        obtain ⟨h2, h3⟩ := decodeVarint_more (x := x) h1
        rw [List.cons_append] at h2 h3
        rw [h2]
        simp only [Res.ok_bind] at h ⊢
        obtain ⟨w, h4, h⟩ := Res.bind_eq_ok.1 h
        rw [h4, h3]
        simp only [Res.ok.injEq, Prod.mk.injEq] at h
        simp only [Res.ok_bind]
        rw [h.1, h.2.1, h.2.2]
  | xor o s prev =>
    simp only [Dec.step] at h ⊢
    split at h
    · next hl =>
      simp only [Res.ok.injEq, Prod.mk.injEq] at h
      rw [if_pos (by simp; omega), List.take_append_of_le_length hl, List.drop_append_of_le_length hl, h.1, h.2.1, h.2.2]
    · simp at h
  | gorilla o s st =>
    simp only [Dec.step] at h ⊢
    obtain ⟨⟨st1, v, i1⟩, h1, h⟩ := Res.bind_eq_ok.1 h
    rw [gorillaDecode_more _ _ _ _ _ _ x h1]
    simp only [Res.ok.injEq, Prod.mk.injEq] at h
    simp only [Res.ok_bind]
    rw [h.1, h.2.1, h.2.2]
  | floatN lanes =>
    simp only [Dec.step] at h ⊢
    split at h
    · simp at h
    · next h0 =>
      rw [if_neg (by simp; intro hi; simp [hi] at h0)]
      obtain ⟨⟨ls1, ws1, i1⟩, h1, h⟩ := Res.bind_eq_ok.1 h
      rw [lanesDecode_more F _ _ _ _ _ x h1]
      simp only [Res.ok.injEq, Prod.mk.injEq] at h
      simp only [Res.ok_bind]
      rw [h.1, h.2.1, h.2.2]

theorem decodeFields_more (F : FloatOps) (ds : List Dec) : ∀ (ds' : List Dec) (input rest buf buf' x : List Byte) (base : Nat),
    decodeFields F ds input buf base = .ok (ds', rest, buf') → decodeFields F ds (input ++ x) buf base = .ok (ds', rest ++ x, buf') := by
  induction ds with
  | nil =>
    intro ds' input rest buf buf' x base h
    simp only [decodeFields, Res.ok.injEq, Prod.mk.injEq] at h ⊢
    exact ⟨h.1, by rw [h.2.1], h.2.2⟩
  | cons d ds ih =>
    intro ds' input rest buf buf' x base h
    simp only [decodeFields] at h ⊢
    obtain ⟨⟨d1, ws, i1⟩, h1, h⟩ := Res.bind_eq_ok.1 h
    obtain ⟨b1, h2, h⟩ := Res.bind_eq_ok.1 h
    obtain ⟨⟨ds1, i2, b2⟩, h3, h⟩ := Res.bind_eq_ok.1 h
    rw [step_more F _ _ _ _ _ x h1]
    simp only [Res.ok_bind]
    rw [h2]
    simp only [Res.ok_bind]
    rw [ih _ _ _ _ _ x _ h3]
    simp only [Res.ok.injEq, Prod.mk.injEq] at h
    simp only [Res.ok_bind]
    rw [h.1, h.2.1, h.2.2]

theorem decodePointsV4_more (F : FloatOps) (min step n : Nat) : ∀ (ds ds' : List Dec) (input rest buf buf' x : List Byte) (base base' : Nat),
    decodePointsV4 F min step n ds input buf base = .ok (ds', rest, buf', base') →
    decodePointsV4 F min step n ds (input ++ x) buf base = .ok (ds', rest ++ x, buf', base') := by
  induction n with
  | zero =>
    intro ds ds' input rest buf buf' x base base' h
    simp only [decodePointsV4, Res.ok.injEq, Prod.mk.injEq] at h ⊢
    exact ⟨h.1, by rw [h.2.1], h.2.2⟩
  | succ n ih =>
    intro ds ds' input rest buf buf' x base base' h
    simp only [decodePointsV4] at h ⊢
    split at h
    · simp at h
    next h1 =>
    rw [if_neg (by simp; omega)]
    split at h
    · simp at h
    next h2 =>
    rw [if_neg h2]
    obtain ⟨⟨ds1, i1, b1⟩, h3, h⟩ := Res.bind_eq_ok.1 h
    rw [decodeFields_more F _ _ _ _ _ _ x _ h3]
    exact ih _ _ _ _ _ _ x _ _ h

theorem decodePointsV5_more (F : FloatOps) (step n : Nat) : ∀ (ds ds' : List Dec) (input rest buf buf' x : List Byte) (base : Nat),
    decodePointsV5 F step n ds input buf base = .ok (ds', rest, buf') →
    decodePointsV5 F step n ds (input ++ x) buf base = .ok (ds', rest ++ x, buf') := by
  induction n with
  | zero =>
    intro ds ds' input rest buf buf' x base h
    simp only [decodePointsV5, Res.ok.injEq, Prod.mk.injEq] at h ⊢
    exact ⟨h.1, by rw [h.2.1], h.2.2⟩
  | succ n ih =>
    intro ds ds' input rest buf buf' x base h
    simp only [decodePointsV5] at h ⊢
    obtain ⟨⟨ds1, i1, b1⟩, h3, h⟩ := Res.bind_eq_ok.1 h
    rw [decodeFields_more F _ _ _ _ _ _ x _ h3]
    exact ih _ _ _ _ _ _ x _ h

theorem decodeDeltas_more (f : AField) (base step n : Nat) : ∀ (i : Nat) (prev : BitVec 64) (input rest buf buf' x : List Byte),
    decodeDeltas f base step n i prev input buf = .ok (rest, buf') →
    decodeDeltas f base step n i prev (input ++ x) buf = .ok (rest ++ x, buf') := by
  induction n with
  | zero =>
    intro i prev input rest buf buf' x h
    simp only [decodeDeltas, Res.ok.injEq, Prod.mk.injEq] at h ⊢
    exact ⟨by rw [h.1], h.2⟩
  | succ n ih =>
    intro i prev input rest buf buf' x h
    simp only [decodeDeltas] at h ⊢
    obtain ⟨⟨d, k⟩, h1, h⟩ := Res.bind_eq_ok.1 h
    obtain ⟨h2, h3⟩ := decodeVarint_more (x := x) h1
    rw [h2]
    simp only [Res.ok_bind] at h ⊢
    obtain ⟨v, h4, h⟩ := Res.bind_eq_ok.1 h
    rw [h4]
    simp only [Res.ok_bind] at h ⊢
    obtain ⟨b1, h5, h⟩ := Res.bind_eq_ok.1 h
    rw [h5, h3]
    exact ih _ _ _ _ _ _ x h

theorem readPalette_more (bpv n : Nat) : ∀ (vs : List (BitVec 64)) (input rest x : List Byte), readPalette bpv n input = .ok (vs, rest) →
    readPalette bpv n (input ++ x) = .ok (vs, rest ++ x) := by
  induction n with
  | zero =>
    intro vs input rest x h
    simp only [readPalette, Res.ok.injEq, Prod.mk.injEq] at h ⊢
    exact ⟨h.1, by rw [h.2]⟩
  | succ n ih =>
    intro vs input rest x h
    simp only [readPalette_succ] at h ⊢
    split at h
    · simp at h
    next hl =>
    rw [if_neg (by simp; omega), List.take_append_of_le_length (by omega), List.drop_append_of_le_length (by omega)]
    obtain ⟨⟨vs1, i1⟩, h1, h⟩ := Res.bind_eq_ok.1 h
    rw [ih _ _ _ x h1]
    simp only [Res.ok.injEq, Prod.mk.injEq] at h
    simp only [Res.ok_bind]
    rw [h.1, h.2]

theorem fillBits_more (bits fuel : Nat) : ∀ (input rest x : List Byte) (s s' : BitVec 64) (held held' : Nat),
    fillBits bits fuel input s held = .ok (rest, s', held') → fillBits bits fuel (input ++ x) s held = .ok (rest ++ x, s', held') := by
  induction fuel with
  | zero =>
    intro input rest x s s' held held' h
    rw [fillBits] at h ⊢
    split at h
    · simp at h
    · next hh =>
      rw [if_neg hh]
      simp only [Res.ok.injEq, Prod.mk.injEq] at h
      rw [h.1, h.2.1, h.2.2]
  | succ fuel ih =>
    intro input rest x s s' held held' h
    rw [fillBits.eq_def] at h ⊢
    by_cases hh : held < bits
    · simp only [if_pos hh] at h ⊢
      cases input with
      | nil => simp at h
      | cons b bs => simp only [List.cons_append] at h ⊢; exact ih _ _ x _ _ _ _ h
    · simp only [if_neg hh] at h ⊢
      simp only [Res.ok.injEq, Prod.mk.injEq] at h
      rw [h.1, h.2.1, h.2.2]

theorem readBitpackedIndex_more (bits idx : Nat) (input rest x : List Byte) (s s' : BitVec 64) (held held' : Nat)
    (h : readBitpackedIndex bits input s held = .ok (idx, rest, s', held')) :
    readBitpackedIndex bits (input ++ x) s held = .ok (idx, rest ++ x, s', held') := by
  unfold readBitpackedIndex at h ⊢
  split at h
  · next hb =>
    rw [if_pos hb]
    simp only [Res.ok.injEq, Prod.mk.injEq] at h
    rw [← h.1, h.2.1, h.2.2.1, h.2.2.2]
  · next hb =>
    rw [if_neg hb]
    obtain ⟨⟨i1, s1, k1⟩, h1, h⟩ := Res.bind_eq_ok.1 h
    rw [fillBits_more _ _ _ _ x _ _ _ _ h1]
    simp only [Res.ok.injEq, Prod.mk.injEq] at h
    simp only [Res.ok_bind]
    rw [h.1, h.2.1, h.2.2.1, h.2.2.2]

theorem decodePaletteIndexes_more (f : AField) (base step bits : Nat) (pal : List (BitVec 64)) (n : Nat) :
    ∀ (i : Nat) (ptr x : List Byte) (s : BitVec 64) (held : Nat) (buf buf' : List Byte),
    decodePaletteIndexes f base step bits pal n i ptr s held buf = .ok buf' →
    decodePaletteIndexes f base step bits pal n i (ptr ++ x) s held buf = .ok buf' := by
  induction n with
  | zero => intro i ptr x s held buf buf' h; simp only [decodePaletteIndexes] at h ⊢; exact h
  | succ n ih =>
    intro i ptr x s held buf buf' h
    simp only [decodePaletteIndexes] at h ⊢
    obtain ⟨⟨idx, p1, s1, k1⟩, h1, h⟩ := Res.bind_eq_ok.1 h
    rw [readBitpackedIndex_more _ _ _ _ x _ _ _ _ h1]
    simp only [Res.ok_bind] at h ⊢
    cases hp : pal[idx]? with
    | none => rw [hp] at h; simp at h
    | some v =>
      rw [hp] at h
      simp only at h ⊢
      obtain ⟨b1, h2, h⟩ := Res.bind_eq_ok.1 h
      rw [h2]
      exact ih _ _ x _ _ _ _ h

theorem decodeRleRuns_more (f : AField) (base step expected r : Nat) : ∀ (i i' : Nat) (input rest x buf buf' : List Byte),
    decodeRleRuns f base step expected r i input buf = .ok (i', rest, buf') →
    decodeRleRuns f base step expected r i (input ++ x) buf = .ok (i', rest ++ x, buf') := by
  induction r with
  | zero =>
    intro i i' input rest x buf buf' h
    simp only [decodeRleRuns, Res.ok.injEq, Prod.mk.injEq] at h ⊢
    exact ⟨h.1, by rw [h.2.1], h.2.2⟩
  | succ r ih =>
    intro i i' input rest x buf buf' h
    simp only [decodeRleRuns_succ] at h ⊢
    split at h
    · simp at h
    next hl =>
    rw [if_neg (by simp; omega), List.take_append_of_le_length (by omega), List.drop_append_of_le_length (by omega)]
    obtain ⟨⟨w, i1⟩, h1, h⟩ := Res.bind_eq_ok.1 h
    rw [readUVarint_more (x := x) h1]
    simp only [Res.ok_bind] at h ⊢
    split at h
    · simp at h
    next h2 =>
    rw [if_neg h2]
    obtain ⟨b1, h3, h⟩ := Res.bind_eq_ok.1 h
    rw [h3]
    exact ih _ _ _ _ x _ _ h

theorem decodeDeltaRleRuns_more (f : AField) (base step expected r : Nat) : ∀ (i i' : Nat) (prev : BitVec 64) (input rest x buf buf' : List Byte),
    decodeDeltaRleRuns f base step expected r i prev input buf = .ok (i', rest, buf') →
    decodeDeltaRleRuns f base step expected r i prev (input ++ x) buf = .ok (i', rest ++ x, buf') := by
  induction r with
  | zero =>
    intro i i' prev input rest x buf buf' h
    simp only [decodeDeltaRleRuns, Res.ok.injEq, Prod.mk.injEq] at h ⊢
    exact ⟨h.1, by rw [h.2.1], h.2.2⟩
  | succ r ih =>
    intro i i' prev input rest x buf buf' h
    simp only [decodeDeltaRleRuns] at h ⊢
    obtain ⟨⟨d, k⟩, h0, h⟩ := Res.bind_eq_ok.1 h
    obtain ⟨h0', h0''⟩ := decodeVarint_more (x := x) h0
    rw [h0']
    simp only [Res.ok_bind] at h ⊢
    obtain ⟨⟨w, i1⟩, h1, h⟩ := Res.bind_eq_ok.1 h
    rw [h0'', readUVarint_more (x := x) h1]
    simp only [Res.ok_bind] at h ⊢
    split at h
    · simp at h
    next h2 =>
    rw [if_neg h2]
    obtain ⟨⟨p1, b1⟩, h3, h⟩ := Res.bind_eq_ok.1 h
    rw [h3]
    exact ih _ _ _ _ _ x _ _ h

theorem decodeSection_more (f : AField) (base step n : Nat) (input rest x buf buf' : List Byte)
    (h : decodeSection f base step n input buf = .ok (rest, buf')) :
    decodeSection f base step n (input ++ x) buf = .ok (rest ++ x, buf') := by
  cases input with
  | nil => simp [decodeSection] at h
  | cons m input =>
    simp only [decodeSection, List.cons_append] at h ⊢
    split at h
    · next hm => rw [if_pos hm]; exact decodeDeltas_more _ _ _ _ _ _ _ _ _ _ x h
    next hm =>
    rw [if_neg hm]
    split at h
    · next hm =>
      rw [if_pos hm]
      obtain ⟨⟨c, i1⟩, h1, h⟩ := Res.bind_eq_ok.1 h
      rw [decodeInt_more (x := x) h1]
      simp only [Res.ok_bind] at h ⊢
      split at h
      · simp at h
      next hc =>
      rw [if_neg hc]
      obtain ⟨⟨pal, i2⟩, h2, h⟩ := Res.bind_eq_ok.1 h
      rw [readPalette_more _ _ _ _ _ x h2]
      simp only [Res.ok_bind] at h ⊢
      split at h
      · simp at h
      next hl =>
      rw [if_neg (by simp; omega)]
      obtain ⟨b1, h3, h⟩ := Res.bind_eq_ok.1 h
      rw [decodePaletteIndexes_more _ _ _ _ _ _ _ _ x _ _ _ _ h3]
      simp only [Res.ok.injEq, Prod.mk.injEq] at h
      simp only [Res.ok_bind]
      rw [List.drop_append_of_le_length (by omega), h.1, h.2]
    next hm =>
    rw [if_neg hm]
    split at h
    · next hm =>
      rw [if_pos hm]
      obtain ⟨⟨c, i1⟩, h1, h⟩ := Res.bind_eq_ok.1 h
      rw [decodeInt_more (x := x) h1]
      simp only [Res.ok_bind] at h ⊢
      obtain ⟨⟨o, i2, b2⟩, h2, h⟩ := Res.bind_eq_ok.1 h
      rw [decodeRleRuns_more _ _ _ _ _ _ _ _ _ x _ _ h2]
      simp only [Res.ok_bind] at h ⊢
      split at h
      · simp at h
      next ho =>
      rw [if_neg ho]
      simp only [Res.ok.injEq, Prod.mk.injEq] at h
      rw [h.1, h.2]
    next hm =>
    rw [if_neg hm]
    split at h
    · next hm =>
      rw [if_pos hm]
      obtain ⟨⟨c, i1⟩, h1, h⟩ := Res.bind_eq_ok.1 h
      rw [decodeInt_more (x := x) h1]
      simp only [Res.ok_bind] at h ⊢
      obtain ⟨⟨o, i2, b2⟩, h2, h⟩ := Res.bind_eq_ok.1 h
      rw [decodeDeltaRleRuns_more _ _ _ _ _ _ _ _ _ _ x _ _ h2]
      simp only [Res.ok_bind] at h ⊢
      split at h
      · simp at h
      next ho =>
      rw [if_neg ho]
      simp only [Res.ok.injEq, Prod.mk.injEq] at h
      rw [h.1, h.2]
    · simp at h

theorem decodeSections_more (base step n : Nat) (fs : List AField) : ∀ (input rest x buf buf' : List Byte),
    decodeSections base step n fs input buf = .ok (rest, buf') → decodeSections base step n fs (input ++ x) buf = .ok (rest ++ x, buf') := by
  induction fs with
  | nil =>
    intro input rest x buf buf' h
    simp only [decodeSections, Res.ok.injEq, Prod.mk.injEq] at h ⊢
    exact ⟨by rw [h.1], h.2⟩
  | cons f fs ih =>
    intro input rest x buf buf' h
    simp only [decodeSections] at h ⊢
    obtain ⟨⟨i1, b1⟩, h1, h⟩ := Res.bind_eq_ok.1 h
    rw [decodeSection_more _ _ _ _ _ _ x _ _ h1]
    exact ih _ _ x _ _ h

/-- A version-5 chunk is used up exactly: followed by anything, it is refused. -/
theorem decodeV5Chunk_more (F : FloatOps) (ds ds' : List Dec) (as : List AField) (step n : Nat) (input buf buf' : List Byte) (base base' : Nat)
    (h : decodeV5Chunk F ds as step n input buf base = .ok (ds', buf', base')) (x : List Byte) (hx : x ≠ []) :
    (decodeV5Chunk F ds as step n (input ++ x) buf base).isThrow = true := by
  unfold decodeV5Chunk at h ⊢
  split at h
  · simp at h
  next h0 =>
  rw [if_neg h0]
  split at h
  · simp at h
  next h1 =>
  rw [if_neg h1]
  obtain ⟨⟨ds1, i1, b1⟩, h2, h⟩ := Res.bind_eq_ok.1 h
  rw [decodePointsV5_more F _ _ _ _ _ _ _ _ x _ h2]
  simp only [Res.ok_bind] at h ⊢
  obtain ⟨⟨i2, b2⟩, h3, h⟩ := Res.bind_eq_ok.1 h
  rw [decodeSections_more _ _ _ _ _ _ x _ _ h3]
  simp only [Res.ok_bind] at h ⊢
  rw [if_pos (by simp; intro _ hx'; exact hx hx')]
  rfl

/-- The other codec ignores what follows the last point of a chunk. -/
theorem decodeV4Chunk_more (F : FloatOps) (fuel : Nat) (ds ds' : List Dec) (m step n : Nat) (input buf buf' : List Byte) (base base' : Nat)
    (hn : 0 < n) (h : decodeV4Chunk F fuel ds m step n input buf base = .ok (ds', buf', base')) (x : List Byte) :
    decodeV4Chunk F fuel ds m step n (input ++ x) buf base = .ok (ds', buf', base') := by
  unfold decodeV4Chunk at h ⊢
  simp only at h ⊢
  rw [if_pos hn] at h ⊢
  obtain ⟨⟨ds1, i1, b1, p1⟩, h2, h⟩ := Res.bind_eq_ok.1 h
  rw [decodePointsV4_more F _ _ _ _ _ _ _ _ _ x _ _ h2]
  exact h

/-- Replacing the chunk behind `pre` by one that the chunk decoder treats differently. -/
theorem decodeLoop_replace {F : FloatOps} {C : Compressor} {info : EncodingInfo} {min' : Nat} (points : Nat) {ds : List Dec} {buf r : List Byte} {base : Nat}
    (pre : List (List Byte)) (c c2 rest : List Byte) (hpre : ∀ x ∈ pre, x.length < 2 ^ 32) (hc : c.length < 2 ^ 32) (hc2 : c2.length < 2 ^ 32)
    (h : decodeLoop F C info min' points ds (frame pre ++ (toLE 4 c.length ++ c ++ rest)) buf base = .ok r) :
    ∃ points' ds1 buf1 base1 ds2 buf2 base2, points' ≠ 0 ∧
      decodeChunk F C 0 info ds1 min' c buf1 base1 (min points' kPointsPerChunk) = .ok (ds2, buf2, base2) ∧
      decodeLoop F C info min' points ds (frame pre ++ (toLE 4 c2.length ++ c2 ++ rest)) buf base =
        (decodeChunk F C 0 info ds1 min' c2 buf1 base1 (min points' kPointsPerChunk) >>= fun q =>
          decodeLoop F C info min' (points' - min points' kPointsPerChunk) q.1 rest q.2.1 q.2.2) ∧
      decodeLoop F C info min' (points' - min points' kPointsPerChunk) ds2 rest buf2 base2 = .ok r := by
  induction points using Nat.strongRecOn generalizing ds buf base pre with
  | _ points ih =>
    have key : ∀ (p rest' : List Byte), p.length < 2 ^ 32 → decodeLoop F C info min' points ds (toLE 4 p.length ++ p ++ rest') buf base = .ok r →
        points ≠ 0 ∧ ∃ ds' buf' base', decodeChunk F C 0 info ds min' p buf base (min points kPointsPerChunk) = .ok (ds', buf', base') ∧
          decodeLoop F C info min' (points - min points kPointsPerChunk) ds' rest' buf' base' = .ok r := by
      intro p rest' hpl h
      rcases decodeLoop_inv h with ⟨hnil, _, _⟩ | ⟨hp, c', rest2, ds', buf', base', hc', heq, h1, h'⟩
      · have := congrArg List.length hnil; simp [toLE_length] at this
      · have e0 : decodeInt 4 (toLE 4 p.length ++ p ++ rest') = .ok (p.length, p ++ rest') := by
          simp only [List.append_assoc]
          exact decodeInt_toLE 4 _ (by simpa using hpl) _
        rw [heq, List.append_assoc, decodeInt_toLE 4 _ (by simpa using hc')] at e0
        simp only [Res.ok.injEq, Prod.mk.injEq] at e0
        obtain ⟨hpc, hrest⟩ := e0
        obtain ⟨rfl, rfl⟩ := List.append_inj hrest hpc
        exact ⟨hp, ds', buf', base', h1, h'⟩
    cases pre with
    | nil =>
      rw [frame, List.nil_append] at h ⊢
      obtain ⟨hp, ds', buf', base', h1, h'⟩ := key c rest hc h
      refine ⟨points, ds, buf, base, ds', buf', base', hp, h1, ?_, h'⟩
      rw [decodeLoop, if_neg (by simp [toLE_length]), dif_neg hp, List.append_assoc, decodeInt_toLE 4 _ (by simpa using hc2)]
      simp only [Res.ok_bind]
      rw [if_neg (by simp)]
      simp only [List.take_left, List.drop_left]
    | cons p pre =>
      rw [frame, List.append_assoc] at h ⊢
      obtain ⟨hp, ds', buf', base', h1, h'⟩ := key p _ (hpre p (by simp)) h
      rw [decodeLoop_step hp (hpre p (by simp)) h1]
      exact ih _ (by simp only [kPointsPerChunk]; omega) pre (fun x hx => hpre x (by simp [hx])) h'

end Cloudini
