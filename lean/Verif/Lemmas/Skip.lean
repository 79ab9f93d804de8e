import Verif.Lemmas.Unfold
import Verif.Lemmas.Footprint

/-! # Decoding with some fields marked "decode but do not store" (helper lemmas for C31, C48) -/

namespace Cloudini

/-! ### two buffers that agree outside a set of positions -/

def BSim (S : Nat → Prop) (a b : List Byte) : Prop := b.length = a.length ∧ ∀ p, ¬ S p → b[p]? = a[p]?

theorem BSim.refl (S : Nat → Prop) (a : List Byte) : BSim S a a := ⟨rfl, fun _ _ => rfl⟩

theorem writeAt_both {S : Nat → Prop} {a b a' bs : List Byte} {pos : Nat} (hs : BSim S a b) (h : writeAt a pos bs = .ok a') :
    ∃ b', writeAt b pos bs = .ok b' ∧ BSim S a' b' := by
  rw [writeAt_eq_ok] at h
  obtain ⟨h, rfl⟩ := h
  have hb : pos + bs.length ≤ b.length := by rw [hs.1]; exact h
  refine ⟨splice b pos bs, writeAt_eq_ok.2 ⟨hb, rfl⟩, by rw [splice_length hb, splice_length h, hs.1], ?_⟩
  intro p hp
  rw [splice_getElem? _ _ _ _ h, splice_getElem? _ _ _ _ hb]
  split
  · rfl
  · exact hs.2 p hp

theorem writeAt_left {S : Nat → Prop} {a b a' bs : List Byte} {pos : Nat} (hs : BSim S a b) (h : writeAt a pos bs = .ok a')
    (hp : ∀ p, pos ≤ p → p < pos + bs.length → S p) : BSim S a' b := by
  rw [writeAt_eq_ok] at h
  obtain ⟨h, rfl⟩ := h
  refine ⟨by rw [splice_length h, hs.1], ?_⟩
  intro p hn
  rw [splice_getElem? _ _ _ _ h, if_neg]
  · exact hs.2 p hn
  · intro hc; exact hn (hp p hc.1 hc.2)

/-! ### decoders -/

/-- `o'` is `o`, or the skip value for a field in the list of skipped ranges. -/
def OffS (sk : List (Nat × Nat)) (o o' s : Nat) : Prop := o' = o ∨ (o' = kDecodeButSkipStore ∧ (o, s) ∈ sk)

def SkipD (sk : List (Nat × Nat)) : Dec → Dec → Prop
  | .copy o s, .copy o' s' => s' = s ∧ OffS sk o o' s
  | .int o s p, .int o' s' p' => s' = s ∧ p' = p ∧ OffS sk o o' s
  | .lossy32 o r p, .lossy32 o' r' p' => r' = r ∧ p' = p ∧ OffS sk o o' 4
  | .lossy64 o r p, .lossy64 o' r' p' => r' = r ∧ p' = p ∧ OffS sk o o' 8
  | .xor o s p, .xor o' s' p' => s' = s ∧ p' = p ∧ OffS sk o o' s
  | .gorilla o s p, .gorilla o' s' p' => s' = s ∧ p' = p ∧ OffS sk o o' s
  | .floatN ls, .floatN ls' => All2 (fun l l' => l'.res = l.res ∧ l'.prev = l.prev ∧ OffS sk l.off l'.off 4) ls ls'
  | _, _ => False

/-- The second list of stores lacks some stores into skipped ranges. -/
inductive WSim (sk : List (Nat × Nat)) : List Write → List Write → Prop
  | nil : WSim sk [] []
  | both (w : Write) (a b) : WSim sk a b → WSim sk (w :: a) (w :: b)
  | left (w : Write) (a b) : (w.1, w.2.length) ∈ sk → WSim sk a b → WSim sk (w :: a) b

theorem WSim.append {sk : List (Nat × Nat)} {a b c d : List Write} (h : WSim sk a b) (h' : WSim sk c d) : WSim sk (a ++ c) (b ++ d) := by
  induction h with
  | nil => exact h'
  | both w a b _ ih => exact .both w _ _ ih
  | left w a b hw _ ih => exact .left w _ _ hw ih

theorem store_sim {sk : List (Nat × Nat)} {o o' s : Nat} {bs : List Byte} (h : OffS sk o o' s) (hs : bs.length = s) :
    WSim sk (store o bs) (store o' bs) := by
  unfold store
  rcases h with rfl | ⟨rfl, h⟩
  · split
    · exact .nil
    · exact .both _ _ _ .nil
  · rw [if_pos rfl]
    split
    · exact .nil
    · exact .left _ _ _ (by simpa [hs] using h) .nil

theorem reset_sim {sk : List (Nat × Nat)} {d d' : Dec} (h : SkipD sk d d') : SkipD sk d.reset d'.reset := by
  cases d <;> cases d' <;> simp only [SkipD] at h <;> simp only [SkipD, Dec.reset]
  · exact h
  · exact ⟨h.1, trivial, h.2.2⟩
  · exact ⟨h.1, trivial, h.2.2⟩
  · exact ⟨h.1, trivial, h.2.2⟩
  · exact ⟨h.1, trivial, h.2.2⟩
  · exact ⟨h.1, trivial, h.2.2⟩
  · rename_i ls ls'
    induction ls generalizing ls' with
    | nil => cases ls' <;> simp_all [All2]
    | cons l ls ih =>
      cases ls' with
      | nil => exact h.elim
      | cons l' ls' => exact ⟨⟨h.1.1, rfl, h.1.2.2⟩, ih ls' h.2⟩

theorem lanes_sim {F : FloatOps} {sk : List (Nat × Nat)} (ls ls' l1 : List Lane) (input rest : List Byte) (ws : List Write)
    (hs : All2 (fun l l' : Lane => l'.res = l.res ∧ l'.prev = l.prev ∧ OffS sk l.off l'.off 4) ls ls')
    (h : lanesDecode F ls input = .ok (l1, ws, rest)) :
    ∃ l1' ws', lanesDecode F ls' input = .ok (l1', ws', rest) ∧ WSim sk ws ws' ∧
      All2 (fun l l' : Lane => l'.res = l.res ∧ l'.prev = l.prev ∧ OffS sk l.off l'.off 4) l1 l1' := by
  induction ls generalizing ls' l1 input ws with
  | nil =>
    cases ls' with
    | cons _ _ => exact hs.elim
    | nil =>
      simp only [lanesDecode, Res.ok.injEq, Prod.mk.injEq] at h
      obtain ⟨rfl, rfl, rfl⟩ := h
      exact ⟨[], [], rfl, .nil, trivial⟩
  | cons l ls ih =>
    cases ls' with
    | nil => exact hs.elim
    | cons l' ls' =>
      obtain ⟨⟨e1, e2, e3⟩, hs⟩ := hs
      simp only [lanesDecode] at h
      rw [Res.bind_eq_ok] at h
      obtain ⟨⟨m, v, i1⟩, h1, h⟩ := h
      simp only at h
      rw [Res.bind_eq_ok] at h
      obtain ⟨⟨ls1, ws1, i2⟩, h2, h⟩ := h
      simp only [Res.ok.injEq, Prod.mk.injEq] at h
      obtain ⟨rfl, rfl, rfl⟩ := h
      obtain ⟨ls1', ws1', g1, g2, g3⟩ := ih ls' ls1 i1 ws1 hs h2
      have key : ∃ m', laneDecode F l' input = .ok (m', v, i1) ∧ m'.res = m.res ∧ m'.prev = m.prev ∧ m.off = l.off ∧ m'.off = l'.off := by
        unfold laneDecode at h1 ⊢
        split at h1
        · simp at h1
        · split at h1
          · next hb =>
            simp only [Res.ok.injEq, Prod.mk.injEq] at h1
            obtain ⟨rfl, rfl, rfl⟩ := h1
            refine ⟨{ l' with prev := 0#32 }, by simp only [hb, if_true], e1, rfl, rfl, rfl⟩
          · next hb =>
            rw [Res.bind_eq_ok] at h1
            obtain ⟨⟨a, c⟩, hv, h1⟩ := h1
            simp only at h1
            rw [Res.bind_eq_ok] at h1
            obtain ⟨u, hu, h1⟩ := h1
            simp only [Res.ok.injEq, Prod.mk.injEq] at h1
            obtain ⟨rfl, rfl, rfl⟩ := h1
            refine ⟨{ l' with prev := u }, by simp only [hb, if_false, hv, Res.ok_bind, e2, hu, e1], e1, rfl, rfl, rfl⟩
      obtain ⟨m', k1, k2, k3, k4, k5⟩ := key
      refine ⟨m' :: ls1', store l'.off (toLE 4 v.toNat) ++ ws1', ?_, ?_, ?_⟩
      · simp only [lanesDecode, k1, Res.ok_bind, g1]
      · exact (store_sim e3 (by simp)).append g2
      · exact ⟨⟨k2, k3, by rw [k4, k5]; exact e3⟩, g3⟩

theorem step_sim {F : FloatOps} {sk : List (Nat × Nat)} (d d' d1 : Dec) (input rest : List Byte) (ws : List Write)
    (hs : SkipD sk d d') (h : d.step F input = .ok (d1, ws, rest)) :
    ∃ d1' ws', d'.step F input = .ok (d1', ws', rest) ∧ WSim sk ws ws' ∧ SkipD sk d1 d1' := by
  cases d with
  | copy o s =>
    cases d' <;> simp only [SkipD] at hs
    rename_i o' s'
    obtain ⟨rfl, hs⟩ := hs
    simp only [Dec.step] at h ⊢
    by_cases hl : s' ≤ input.length
    · simp only [hl, if_true] at h ⊢
      have h' : d1 = .copy o s' ∧ ws = store o (input.take s') ∧ rest = input.drop s' := by
        unfold store
        split at h
        · next hk =>
          simp only [Res.ok.injEq, Prod.mk.injEq] at h
          rw [if_neg hk]; exact ⟨h.1.symm, h.2.1.symm, h.2.2.symm⟩
        · next hk =>
          simp only [Res.ok.injEq, Prod.mk.injEq] at h
          rw [if_pos (by simpa using hk)]; exact ⟨h.1.symm, h.2.1.symm, h.2.2.symm⟩
      obtain ⟨rfl, rfl, rfl⟩ := h'
      refine ⟨.copy o' s', store o' (input.take s'), ?_, store_sim hs (by simp [hl]), rfl, hs⟩
      unfold store
      by_cases hk : o' = kDecodeButSkipStore
      · simp [hk]
      · simp [hk]
    · simp only [hl, if_false] at h
      split at h <;> simp at h
  | int o s prev =>
    cases d' <;> simp only [SkipD] at hs
    obtain ⟨rfl, rfl, hs⟩ := hs
    simp only [Dec.step] at h ⊢
    rw [Res.bind_eq_ok] at h
    obtain ⟨⟨a, b⟩, h1, h⟩ := h
    simp only at h
    rw [Res.bind_eq_ok] at h
    obtain ⟨v, h2, h⟩ := h
    simp only [Res.ok.injEq, Prod.mk.injEq] at h
    obtain ⟨rfl, rfl, rfl⟩ := h
    simp only [h1, Res.ok_bind, h2]
    exact ⟨_, _, rfl, store_sim hs (by simp), rfl, rfl, hs⟩
  | lossy32 o r prev =>
    cases d' <;> simp only [SkipD] at hs
    obtain ⟨rfl, rfl, hs⟩ := hs
    simp only [Dec.step] at h ⊢
    split at h
    · simp at h
    split at h
    · next hb =>
      simp only [Res.ok.injEq, Prod.mk.injEq] at h
      obtain ⟨rfl, rfl, rfl⟩ := h
      simp only [hb, if_true]
      exact ⟨_, _, rfl, store_sim hs (by simp), rfl, rfl, hs⟩
    · next hb =>
      rw [Res.bind_eq_ok] at h
      obtain ⟨⟨a, b⟩, h1, h⟩ := h
      simp only at h
      rw [Res.bind_eq_ok] at h
      obtain ⟨v, h2, h⟩ := h
      simp only [Res.ok.injEq, Prod.mk.injEq] at h
      obtain ⟨rfl, rfl, rfl⟩ := h
      simp only [hb, if_false, h1, Res.ok_bind, h2]
      exact ⟨_, _, rfl, store_sim hs (by simp), rfl, rfl, hs⟩
  | lossy64 o r prev =>
    cases d' <;> simp only [SkipD] at hs
    obtain ⟨rfl, rfl, hs⟩ := hs
    simp only [Dec.step] at h ⊢
    split at h
    · simp at h
    split at h
    · next hb =>
      simp only [Res.ok.injEq, Prod.mk.injEq] at h
      obtain ⟨rfl, rfl, rfl⟩ := h
      simp only [hb, if_true]
      exact ⟨_, _, rfl, store_sim hs (by simp), rfl, rfl, hs⟩
    · next hb =>
      rw [Res.bind_eq_ok] at h
      obtain ⟨⟨a, b⟩, h1, h⟩ := h
      simp only at h
      rw [Res.bind_eq_ok] at h
      obtain ⟨v, h2, h⟩ := h
      simp only [Res.ok.injEq, Prod.mk.injEq] at h
      obtain ⟨rfl, rfl, rfl⟩ := h
      simp only [hb, if_false, h1, Res.ok_bind, h2]
      exact ⟨_, _, rfl, store_sim hs (by simp), rfl, rfl, hs⟩
  | xor o s prev =>
    cases d' <;> simp only [SkipD] at hs
    obtain ⟨rfl, rfl, hs⟩ := hs
    simp only [Dec.step] at h ⊢
    split at h
    · next hl =>
      simp only [Res.ok.injEq, Prod.mk.injEq] at h
      obtain ⟨rfl, rfl, rfl⟩ := h
      simp only [hl, if_true]
      exact ⟨_, _, rfl, store_sim hs (by simp), rfl, rfl, hs⟩
    · simp at h
  | gorilla o s st =>
    cases d' <;> simp only [SkipD] at hs
    obtain ⟨rfl, rfl, hs⟩ := hs
    simp only [Dec.step] at h ⊢
    rw [Res.bind_eq_ok] at h
    obtain ⟨⟨a, b, c⟩, h1, h⟩ := h
    simp only [Res.ok.injEq, Prod.mk.injEq] at h
    obtain ⟨rfl, rfl, rfl⟩ := h
    simp only [h1, Res.ok_bind]
    exact ⟨_, _, rfl, store_sim hs (by simp), rfl, rfl, hs⟩
  | floatN ls =>
    cases d' <;> simp only [SkipD] at hs
    simp only [Dec.step] at h ⊢
    split at h
    · simp at h
    next hl =>
    rw [Res.bind_eq_ok] at h
    obtain ⟨⟨a, b, c⟩, h1, h⟩ := h
    simp only [Res.ok.injEq, Prod.mk.injEq] at h
    obtain ⟨rfl, rfl, rfl⟩ := h
    obtain ⟨l1', ws', g1, g2, g3⟩ := lanes_sim _ _ _ _ _ _ hs h1
    rw [if_neg hl]
    simp only [g1, Res.ok_bind]
    exact ⟨_, _, rfl, g2, g3⟩

/-- The skipped ranges of the point that starts at `base` lie in `S`. -/
def Cover (S : Nat → Prop) (sk : List (Nat × Nat)) (base : Nat) : Prop :=
  ∀ r ∈ sk, ∀ p, base + r.1 ≤ p → p < base + r.1 + r.2 → S p

theorem applyWrites_sim {S : Nat → Prop} {sk : List (Nat × Nat)} {base : Nat} {a b a' : List Byte} {ws ws' : List Write} (hc : Cover S sk base)
    (hw : WSim sk ws ws') (hs : BSim S a b) (h : applyWrites a base ws = .ok a') :
    ∃ b', applyWrites b base ws' = .ok b' ∧ BSim S a' b' := by
  induction hw generalizing a b with
  | nil => simp only [applyWrites, Res.ok.injEq] at h; subst h; exact ⟨b, rfl, hs⟩
  | both w x y _ ih =>
    obtain ⟨o, v⟩ := w
    simp only [applyWrites] at h ⊢
    rw [Res.bind_eq_ok] at h
    obtain ⟨a1, h1, h⟩ := h
    obtain ⟨b1, g1, g2⟩ := writeAt_both hs h1
    rw [g1]
    exact ih g2 h
  | left w x y hm _ ih =>
    obtain ⟨o, v⟩ := w
    simp only [applyWrites] at h
    rw [Res.bind_eq_ok] at h
    obtain ⟨a1, h1, h⟩ := h
    exact ih (writeAt_left hs h1 (fun p h1 h2 => hc _ hm p h1 h2)) h

theorem decodeFields_sim {F : FloatOps} {S : Nat → Prop} {sk : List (Nat × Nat)} {base : Nat} (hc : Cover S sk base) (ds ds' ds1 : List Dec)
    (input rest a b a' : List Byte) (hd : All2 (SkipD sk) ds ds') (hs : BSim S a b)
    (h : decodeFields F ds input a base = .ok (ds1, rest, a')) :
    ∃ ds1' b', decodeFields F ds' input b base = .ok (ds1', rest, b') ∧ All2 (SkipD sk) ds1 ds1' ∧ BSim S a' b' := by
  induction ds generalizing ds' ds1 input a b with
  | nil =>
    cases ds' with
    | cons _ _ => exact hd.elim
    | nil =>
      simp only [decodeFields, Res.ok.injEq, Prod.mk.injEq] at h
      obtain ⟨rfl, rfl, rfl⟩ := h
      exact ⟨[], b, rfl, trivial, hs⟩
  | cons d ds ih =>
    cases ds' with
    | nil => exact hd.elim
    | cons d' ds' =>
      simp only [decodeFields] at h ⊢
      rw [Res.bind_eq_ok] at h
      obtain ⟨⟨d1, ws, i1⟩, h1, h⟩ := h
      simp only at h
      rw [Res.bind_eq_ok] at h
      obtain ⟨a1, h2, h⟩ := h
      rw [Res.bind_eq_ok] at h
      obtain ⟨⟨ds2, i2, a2⟩, h3, h⟩ := h
      simp only [Res.ok.injEq, Prod.mk.injEq] at h
      obtain ⟨rfl, rfl, rfl⟩ := h
      obtain ⟨d1', ws', g1, g2, g3⟩ := step_sim _ _ _ _ _ _ hd.1 h1
      obtain ⟨b1, k1, k2⟩ := applyWrites_sim hc g2 hs h2
      obtain ⟨ds2', b2, m1, m2, m3⟩ := ih ds' ds2 i1 a1 b1 hd.2 k2 h3
      refine ⟨d1' :: ds2', b2, ?_, ⟨g3, m2⟩, m3⟩
      simp only [g1, Res.ok_bind, k1, m1]

theorem decodePointsV4_sim {F : FloatOps} {S : Nat → Prop} {sk : List (Nat × Nat)} (min step n base base' : Nat)
    (hc : ∀ i, i < n → Cover S sk (base + i * step)) (ds ds' ds1 : List Dec)
    (input rest a b a' : List Byte) (hd : All2 (SkipD sk) ds ds') (hs : BSim S a b)
    (h : decodePointsV4 F min step n ds input a base = .ok (ds1, rest, a', base')) :
    ∃ ds1' b', decodePointsV4 F min step n ds' input b base = .ok (ds1', rest, b', base') ∧ All2 (SkipD sk) ds1 ds1' ∧ BSim S a' b' := by
  induction n generalizing ds ds' input a b base with
  | zero =>
    simp only [decodePointsV4, Res.ok.injEq, Prod.mk.injEq] at h
    obtain ⟨rfl, rfl, rfl, rfl⟩ := h
    exact ⟨ds', b, rfl, hd, hs⟩
  | succ n ih =>
    simp only [decodePointsV4] at h ⊢
    rw [hs.1]
    split at h
    · simp at h
    next c1 =>
    split at h
    · simp at h
    next c2 =>
    rw [if_neg c1, if_neg c2]
    rw [Res.bind_eq_ok] at h
    obtain ⟨⟨ds2, i1, a1⟩, h1, h⟩ := h
    simp only at h
    obtain ⟨ds2', b1, g1, g2, g3⟩ := decodeFields_sim (hc 0 (by omega)) ds ds' ds2 _ _ _ b _ hd hs (by simpa using h1)
    rw [Nat.zero_mul, Nat.add_zero] at g1
    rw [g1]
    refine ih (base + step) (fun i hi => ?_) ds2 ds2' i1 a1 b1 g2 g3 h
    have := hc (i + 1) (by omega)
    rwa [Nat.add_mul, Nat.one_mul, Nat.add_comm (i * step), ← Nat.add_assoc] at this

theorem decodePointsV5_sim {F : FloatOps} {S : Nat → Prop} {sk : List (Nat × Nat)} (step n base : Nat)
    (hc : ∀ i, i < n → Cover S sk (base + i * step)) (ds ds' ds1 : List Dec)
    (input rest a b a' : List Byte) (hd : All2 (SkipD sk) ds ds') (hs : BSim S a b)
    (h : decodePointsV5 F step n ds input a base = .ok (ds1, rest, a')) :
    ∃ ds1' b', decodePointsV5 F step n ds' input b base = .ok (ds1', rest, b') ∧ All2 (SkipD sk) ds1 ds1' ∧ BSim S a' b' := by
  induction n generalizing ds ds' input a b base with
  | zero =>
    simp only [decodePointsV5, Res.ok.injEq, Prod.mk.injEq] at h
    obtain ⟨rfl, rfl, rfl⟩ := h
    exact ⟨ds', b, rfl, hd, hs⟩
  | succ n ih =>
    simp only [decodePointsV5] at h ⊢
    rw [Res.bind_eq_ok] at h
    obtain ⟨⟨ds2, i1, a1⟩, h1, h⟩ := h
    simp only at h
    obtain ⟨ds2', b1, g1, g2, g3⟩ := decodeFields_sim (hc 0 (by omega)) ds ds' ds2 _ _ _ b _ hd hs (by simpa using h1)
    rw [Nat.zero_mul, Nat.add_zero] at g1
    rw [g1]
    refine ih (base + step) (fun i hi => ?_) ds2 ds2' i1 a1 b1 g2 g3 h
    have := hc (i + 1) (by omega)
    rwa [Nat.add_mul, Nat.one_mul, Nat.add_comm (i * step), ← Nat.add_assoc] at this

/-! ### adaptive sections: same stores in both runs -/

theorem decodeDeltas_sim {S : Nat → Prop} {f : AField} (base step k i : Nat) (prev : BitVec 64) (input rest a b a' : List Byte)
    (hs : BSim S a b) (h : decodeDeltas f base step k i prev input a = .ok (rest, a')) :
    ∃ b', decodeDeltas f base step k i prev input b = .ok (rest, b') ∧ BSim S a' b' := by
  induction k generalizing i prev input a b with
  | zero =>
    simp only [decodeDeltas, Res.ok.injEq, Prod.mk.injEq] at h
    obtain ⟨rfl, rfl⟩ := h
    exact ⟨b, rfl, hs⟩
  | succ k ih =>
    simp only [decodeDeltas] at h ⊢
    rw [Res.bind_eq_ok] at h
    obtain ⟨⟨d, c⟩, h1, h⟩ := h
    simp only at h
    rw [Res.bind_eq_ok] at h
    obtain ⟨v, h2, h⟩ := h
    rw [Res.bind_eq_ok] at h
    obtain ⟨a1, h3, h⟩ := h
    obtain ⟨b1, g1, g2⟩ := writeAt_both hs h3
    simp only [h1, Res.ok_bind, h2, writeValue, g1]
    exact ih _ _ _ _ _ g2 h

theorem decodePalette_sim {S : Nat → Prop} {f : AField} (base step bits k i : Nat) (pal : List (BitVec 64)) (ptr : List Byte)
    (scratch : BitVec 64) (held : Nat) (a b a' : List Byte)
    (hs : BSim S a b) (h : decodePaletteIndexes f base step bits pal k i ptr scratch held a = .ok a') :
    ∃ b', decodePaletteIndexes f base step bits pal k i ptr scratch held b = .ok b' ∧ BSim S a' b' := by
  induction k generalizing i ptr scratch held a b with
  | zero =>
    simp only [decodePaletteIndexes, Res.ok.injEq] at h
    subst h
    exact ⟨b, rfl, hs⟩
  | succ k ih =>
    simp only [decodePaletteIndexes] at h ⊢
    rw [Res.bind_eq_ok] at h
    obtain ⟨⟨idx, p1, s1, l1⟩, h1, h⟩ := h
    simp only [h1, Res.ok_bind]
    simp only at h
    split at h
    · simp at h
    next hv =>
    rw [Res.bind_eq_ok] at h
    obtain ⟨a1, h3, h⟩ := h
    obtain ⟨b1, g1, g2⟩ := writeAt_both hs h3
    simp only [writeValue, g1, Res.ok_bind]
    exact ih _ _ _ _ _ _ g2 h

theorem writeRun_sim {S : Nat → Prop} {f : AField} (base step k i : Nat) (v : BitVec 64) (a b a' : List Byte)
    (hs : BSim S a b) (h : writeRun f base step v k i a = .ok a') :
    ∃ b', writeRun f base step v k i b = .ok b' ∧ BSim S a' b' := by
  induction k generalizing i a b with
  | zero => simp only [writeRun, Res.ok.injEq] at h; subst h; exact ⟨b, rfl, hs⟩
  | succ k ih =>
    simp only [writeRun] at h ⊢
    rw [Res.bind_eq_ok] at h
    obtain ⟨a1, h3, h⟩ := h
    obtain ⟨b1, g1, g2⟩ := writeAt_both hs h3
    simp only [writeValue, g1, Res.ok_bind]
    exact ih _ _ _ g2 h

theorem writeDeltaRun_sim {S : Nat → Prop} {f : AField} (base step k i : Nat) (d prev prev' : BitVec 64) (a b a' : List Byte)
    (hs : BSim S a b) (h : writeDeltaRun f base step d k i prev a = .ok (prev', a')) :
    ∃ b', writeDeltaRun f base step d k i prev b = .ok (prev', b') ∧ BSim S a' b' := by
  induction k generalizing i a b prev with
  | zero =>
    simp only [writeDeltaRun, Res.ok.injEq, Prod.mk.injEq] at h
    obtain ⟨rfl, rfl⟩ := h
    exact ⟨b, rfl, hs⟩
  | succ k ih =>
    simp only [writeDeltaRun] at h ⊢
    rw [Res.bind_eq_ok] at h
    obtain ⟨v, h2, h⟩ := h
    rw [Res.bind_eq_ok] at h
    obtain ⟨a1, h3, h⟩ := h
    obtain ⟨b1, g1, g2⟩ := writeAt_both hs h3
    simp only [h2, Res.ok_bind, writeValue, g1]
    exact ih _ _ _ _ g2 h

theorem decodeRle_sim {S : Nat → Prop} {f : AField} (base step n runs i i' : Nat) (input rest a b a' : List Byte)
    (hs : BSim S a b) (h : decodeRleRuns f base step n runs i input a = .ok (i', rest, a')) :
    ∃ b', decodeRleRuns f base step n runs i input b = .ok (i', rest, b') ∧ BSim S a' b' := by
  induction runs generalizing i input a b with
  | zero =>
    simp only [decodeRleRuns, Res.ok.injEq, Prod.mk.injEq] at h
    obtain ⟨rfl, rfl, rfl⟩ := h
    exact ⟨b, rfl, hs⟩
  | succ r ih =>
    simp only [decodeRleRuns_succ] at h ⊢
    split at h
    · simp at h
    next hc =>
    rw [if_neg hc]
    rw [Res.bind_eq_ok] at h
    obtain ⟨⟨len, i1⟩, h1, h⟩ := h
    simp only [h1, Res.ok_bind]
    simp only at h
    split at h
    · simp at h
    next hc =>
    rw [if_neg hc]
    rw [Res.bind_eq_ok] at h
    obtain ⟨a1, h3, h⟩ := h
    obtain ⟨b1, g1, g2⟩ := writeRun_sim _ _ _ _ _ _ _ _ hs h3
    rw [g1]
    exact ih _ _ _ _ g2 h

theorem decodeDeltaRle_sim {S : Nat → Prop} {f : AField} (base step n runs i i' : Nat) (prev : BitVec 64) (input rest a b a' : List Byte)
    (hs : BSim S a b) (h : decodeDeltaRleRuns f base step n runs i prev input a = .ok (i', rest, a')) :
    ∃ b', decodeDeltaRleRuns f base step n runs i prev input b = .ok (i', rest, b') ∧ BSim S a' b' := by
  induction runs generalizing i prev input a b with
  | zero =>
    simp only [decodeDeltaRleRuns, Res.ok.injEq, Prod.mk.injEq] at h
    obtain ⟨rfl, rfl, rfl⟩ := h
    exact ⟨b, rfl, hs⟩
  | succ r ih =>
    simp only [decodeDeltaRleRuns] at h ⊢
    rw [Res.bind_eq_ok] at h
    obtain ⟨⟨d, c⟩, h0, h⟩ := h
    simp only [h0, Res.ok_bind]
    simp only at h
    rw [Res.bind_eq_ok] at h
    obtain ⟨⟨len, i1⟩, h1, h⟩ := h
    simp only [h1, Res.ok_bind]
    simp only at h
    split at h
    · simp at h
    next hc =>
    rw [if_neg hc]
    rw [Res.bind_eq_ok] at h
    obtain ⟨⟨p1, a1⟩, h3, h⟩ := h
    obtain ⟨b1, g1, g2⟩ := writeDeltaRun_sim _ _ _ _ _ _ _ _ _ _ hs h3
    rw [g1]
    exact ih _ _ _ _ _ g2 h

theorem decodeSection_sim {S : Nat → Prop} {f : AField} (base step n : Nat) (input rest a b a' : List Byte)
    (hs : BSim S a b) (h : decodeSection f base step n input a = .ok (rest, a')) :
    ∃ b', decodeSection f base step n input b = .ok (rest, b') ∧ BSim S a' b' := by
  unfold decodeSection at h ⊢
  split at h
  · simp at h
  next m input =>
  simp only
  by_cases c0 : m = 0#8
  · rw [if_pos c0] at h ⊢
    exact decodeDeltas_sim _ _ _ _ _ _ _ _ _ _ hs h
  rw [if_neg c0] at h ⊢
  by_cases c1 : m = 1#8
  · rw [if_pos c1] at h ⊢
    rw [Res.bind_eq_ok] at h
    obtain ⟨⟨cnt, i1⟩, h1, h⟩ := h
    simp only [h1, Res.ok_bind]
    simp only at h
    split at h
    · simp at h
    next hc =>
    rw [if_neg hc]
    rw [Res.bind_eq_ok] at h
    obtain ⟨⟨pal, i2⟩, h2, h⟩ := h
    simp only [h2, Res.ok_bind]
    simp only at h
    split at h
    · simp at h
    next hc =>
    rw [if_neg hc]
    rw [Res.bind_eq_ok] at h
    obtain ⟨a1, h3, h⟩ := h
    obtain ⟨b1, g1, g2⟩ := decodePalette_sim _ _ _ _ _ _ _ _ _ _ _ _ hs h3
    simp only [Res.ok.injEq, Prod.mk.injEq] at h
    obtain ⟨rfl, rfl⟩ := h
    simp only [g1, Res.ok_bind]
    exact ⟨b1, rfl, g2⟩
  rw [if_neg c1] at h ⊢
  by_cases c2 : m = 2#8
  · rw [if_pos c2] at h ⊢
    rw [Res.bind_eq_ok] at h
    obtain ⟨⟨cnt, i1⟩, h1, h⟩ := h
    simp only [h1, Res.ok_bind]
    simp only at h
    rw [Res.bind_eq_ok] at h
    obtain ⟨⟨oi, i2, a1⟩, h3, h⟩ := h
    obtain ⟨b1, g1, g2⟩ := decodeRle_sim _ _ _ _ _ _ _ _ _ _ _ hs h3
    simp only [g1, Res.ok_bind]
    simp only at h
    split at h
    · simp at h
    next hc =>
    rw [if_neg hc]
    simp only [Res.ok.injEq, Prod.mk.injEq] at h
    obtain ⟨rfl, rfl⟩ := h
    exact ⟨b1, rfl, g2⟩
  rw [if_neg c2] at h ⊢
  by_cases c3 : m = 3#8
  · rw [if_pos c3] at h ⊢
    rw [Res.bind_eq_ok] at h
    obtain ⟨⟨cnt, i1⟩, h1, h⟩ := h
    simp only [h1, Res.ok_bind]
    simp only at h
    rw [Res.bind_eq_ok] at h
    obtain ⟨⟨oi, i2, a1⟩, h3, h⟩ := h
    obtain ⟨b1, g1, g2⟩ := decodeDeltaRle_sim _ _ _ _ _ _ _ _ _ _ _ _ hs h3
    simp only [g1, Res.ok_bind]
    simp only at h
    split at h
    · simp at h
    next hc =>
    rw [if_neg hc]
    simp only [Res.ok.injEq, Prod.mk.injEq] at h
    obtain ⟨rfl, rfl⟩ := h
    exact ⟨b1, rfl, g2⟩
  · rw [if_neg c3] at h; simp at h

theorem decodeSections_sim {S : Nat → Prop} (as : List AField) (base step n : Nat) (input rest a b a' : List Byte)
    (hs : BSim S a b) (h : decodeSections base step n as input a = .ok (rest, a')) :
    ∃ b', decodeSections base step n as input b = .ok (rest, b') ∧ BSim S a' b' := by
  induction as generalizing input a b with
  | nil =>
    simp only [decodeSections, Res.ok.injEq, Prod.mk.injEq] at h
    obtain ⟨rfl, rfl⟩ := h
    exact ⟨b, rfl, hs⟩
  | cons f fs ih =>
    simp only [decodeSections] at h ⊢
    rw [Res.bind_eq_ok] at h
    obtain ⟨⟨i1, a1⟩, h1, h⟩ := h
    obtain ⟨b1, g1, g2⟩ := decodeSection_sim _ _ _ _ _ _ _ _ hs h1
    simp only [g1, Res.ok_bind]
    exact ih _ _ _ g2 h

/-! ### building the decoders -/

def SkipF (sk : List (Nat × Nat)) (f g : PointField) : Prop :=
  g.name = f.name ∧ SameKind f g ∧ OffS sk f.offset.toNat g.offset.toNat (sizeOf f.type)

theorem createDecoder_sim {F : FloatOps} {sk : List (Nat × Nat)} {info dinfo : EncodingInfo} (ho : dinfo.encoding_opt = info.encoding_opt)
    (hv : dinfo.version = info.version) (f g : PointField) (d : Dec) (hs : SkipF sk f g) (h : createDecoder F info f = .ok d) :
    ∃ d', createDecoder F dinfo g = .ok d' ∧ SkipD sk d d' := by
  obtain ⟨_, ⟨h1, h2⟩, h3⟩ := hs
  unfold createDecoder at h ⊢
  simp only [h1, h2, ho, hv] at h ⊢
  split at h
  all_goals next ht =>
    simp only [ht, sizeOf] at h3 ⊢
    try simp only [mkLossy32Dec, mkLossy64Dec] at h ⊢
    repeat' split at h
    all_goals first
      | (simp at h; done)
      | (simp only [Res.ok.injEq] at h; subst h; repeat' split
         all_goals simp_all [SkipD])

theorem buildAll_sim {F : FloatOps} {sk : List (Nat × Nat)} {info dinfo : EncodingInfo} (ho : dinfo.encoding_opt = info.encoding_opt)
    (hv : dinfo.version = info.version) (fs gs : List PointField) (ds : List Dec) (hs : All2 (SkipF sk) fs gs)
    (h : buildAll (createDecoder F info) fs = .ok ds) :
    ∃ ds', buildAll (createDecoder F dinfo) gs = .ok ds' ∧ All2 (SkipD sk) ds ds' := by
  induction fs generalizing gs ds with
  | nil =>
    cases gs with
    | cons _ _ => exact hs.elim
    | nil => simp only [buildAll, Res.ok.injEq] at h; subst h; exact ⟨[], rfl, trivial⟩
  | cons f fs ih =>
    cases gs with
    | nil => exact hs.elim
    | cons g gs =>
      simp only [buildAll] at h ⊢
      rw [Res.bind_eq_ok] at h
      obtain ⟨d, h1, h⟩ := h
      rw [Res.bind_eq_ok] at h
      obtain ⟨ds1, h2, h⟩ := h
      simp only [Res.ok.injEq] at h
      subst h
      obtain ⟨d', g1, g2⟩ := createDecoder_sim ho hv f g d hs.1 h1
      obtain ⟨ds', g3, g4⟩ := ih gs ds1 hs.2 h2
      exact ⟨d' :: ds', by simp [g1, g3], g2, g4⟩

theorem lanesOf_sim {sk : List (Nat × Nat)} (fs gs : List PointField) (hs : All2 (SkipF sk) fs gs) (ht : ∀ f ∈ fs, f.type = .float32) :
    All2 (fun l l' : Lane => l'.res = l.res ∧ l'.prev = l.prev ∧ OffS sk l.off l'.off 4) (lanesOf fs) (lanesOf gs) := by
  induction fs generalizing gs with
  | nil =>
    cases gs with
    | cons _ _ => exact hs.elim
    | nil => trivial
  | cons f fs ih =>
    cases gs with
    | nil => exact hs.elim
    | cons g gs =>
      refine ⟨⟨by simp [hs.1.2.1.2], rfl, ?_⟩, ih gs hs.2 fun x hx => ht x (by simp [hx])⟩
      have := hs.1.2.2
      rw [ht f (by simp)] at this
      exact this

theorem skipF_same {sk : List (Nat × Nat)} {fs gs : List PointField} (h : All2 (SkipF sk) fs gs) : All2 SameKind fs gs :=
  h.imp fun _ _ _ h => h.2.1

theorem leadingDecoder_sim {F : FloatOps} {sk : List (Nat × Nat)} {info dinfo : EncodingInfo} (ho : dinfo.encoding_opt = info.encoding_opt)
    (hs : All2 (SkipF sk) info.fields dinfo.fields) (ds : List Dec) (h : leadingDecoder F info = .ok ds) :
    ∃ ds', leadingDecoder F dinfo = .ok ds' ∧ All2 (SkipD sk) ds ds' := by
  have hn := leadCount_same (skipF_same hs) ho
  unfold leadingDecoder at h ⊢
  simp only [hn] at h ⊢
  split at h
  · next hc => simp only [Res.ok.injEq] at h; subst h; rw [if_pos hc]; exact ⟨[], rfl, trivial⟩
  next hc =>
  rw [if_neg hc]
  rw [Res.bind_eq_ok] at h
  obtain ⟨d, h1, h⟩ := h
  simp only [Res.ok.injEq] at h
  subst h
  unfold mkFloatNDec at h1 ⊢
  have hl := lanesOf_sim _ _ (all2_take hs (leadingLossyFloatCount info)).1 (fun f hf => (leadCount_take info f hf).2.1)
  have hany : (lanesOf (dinfo.fields.take (leadingLossyFloatCount info))).any (fun l => F.resNonPos l.res) =
      (lanesOf (info.fields.take (leadingLossyFloatCount info))).any (fun l => F.resNonPos l.res) := by
    revert hl
    generalize lanesOf (dinfo.fields.take (leadingLossyFloatCount info)) = b
    generalize lanesOf (info.fields.take (leadingLossyFloatCount info)) = a
    intro hl
    induction a generalizing b with
    | nil => cases b <;> simp_all [All2]
    | cons x a ih =>
      cases b with
      | nil => exact hl.elim
      | cons y b => simp only [List.any_cons, hl.1.1, ih b hl.2]
  rw [hany]
  split at h1
  · simp at h1
  next hc =>
  rw [if_neg hc]
  simp only [Res.ok.injEq] at h1
  subst h1
  exact ⟨[_], rfl, hl, trivial⟩

theorem minInput_sim {sk : List (Nat × Nat)} (ds ds' : List Dec) (h : All2 (SkipD sk) ds ds') :
    (ds'.map Dec.minInputBytes).sum = (ds.map Dec.minInputBytes).sum := by
  induction ds generalizing ds' with
  | nil => cases ds' <;> simp_all [All2]
  | cons d ds ih =>
    cases ds' with
    | nil => exact h.elim
    | cons d' ds' =>
      simp only [List.map_cons, List.sum_cons, ih ds' h.2]
      congr 1
      have := h.1
      cases d <;> cases d' <;> simp only [SkipD] at this <;> simp only [Dec.minInputBytes]
      · exact this.1
      · exact this.1
      · exact this.length

theorem all2_filter' {R : PointField → PointField → Prop} {q : PointField → Bool} (fs gs : List PointField) (h : All2 R fs gs)
    (hq : ∀ f g, R f g → q g = q f) : All2 R (fs.filter q) (gs.filter q) := by
  induction fs generalizing gs with
  | nil => cases gs <;> simp_all [All2]
  | cons f fs ih =>
    cases gs with
    | nil => exact h.elim
    | cons g gs =>
      simp only [List.filter_cons, hq f g h.1]
      split
      · exact ⟨h.1, ih gs h.2⟩
      · exact ih gs h.2

theorem all2_append {α β : Type} {R : α → β → Prop} {a b : List α} {c d : List β} (h : All2 R a c) (h' : All2 R b d) : All2 R (a ++ b) (c ++ d) := by
  induction a generalizing c with
  | nil => cases c with
    | nil => exact h'
    | cons _ _ => exact h.elim
  | cons x a ih => cases c with
    | nil => exact h.elim
    | cons y c => exact ⟨h.1, ih h.2⟩

theorem copy_sim {sk : List (Nat × Nat)} (fs gs : List PointField) (hs : All2 (SkipF sk) fs gs) :
    All2 (SkipD sk) (fs.map fun f => Dec.copy f.offset.toNat (sizeOf f.type)) (gs.map fun f => Dec.copy f.offset.toNat (sizeOf f.type)) ∧
      (gs.map fun f => sizeOf f.type).sum = (fs.map fun f => sizeOf f.type).sum := by
  induction fs generalizing gs with
  | nil => cases gs <;> simp_all [All2]
  | cons f fs ih =>
    cases gs with
    | nil => exact hs.elim
    | cons g gs =>
      obtain ⟨i1, i2⟩ := ih gs hs.2
      have e : sizeOf g.type = sizeOf f.type := by rw [hs.1.2.1.1]
      refine ⟨⟨⟨e, hs.1.2.2⟩, i1⟩, ?_⟩
      simp only [List.map_cons, List.sum_cons, i2, e]

theorem buildDecoders_sim {F : FloatOps} {sk : List (Nat × Nat)} {info dinfo : EncodingInfo} (ho : dinfo.encoding_opt = info.encoding_opt)
    (hv : dinfo.version = info.version) (hs : All2 (SkipF sk) info.fields dinfo.fields) (ds : List Dec) (m : Nat)
    (h : buildDecoders F info = .ok (ds, m)) :
    ∃ ds', buildDecoders F dinfo = .ok (ds', m) ∧ All2 (SkipD sk) ds ds' := by
  have hn := leadCount_same (skipF_same hs) ho
  have hd := (all2_take hs (leadingLossyFloatCount info)).2
  have hu : usesV5 dinfo = usesV5 info := by
    unfold usesV5
    rw [hv, ho, hn, any_drop_same (all2_take (skipF_same hs) _).2]
  unfold buildDecoders at h ⊢
  rw [hu]
  split at h
  · next hc =>
    rw [if_pos hc]
    rw [Res.bind_eq_ok] at h
    obtain ⟨ds1, h1, h⟩ := h
    simp only [Res.ok.injEq, Prod.mk.injEq] at h
    obtain ⟨rfl, rfl⟩ := h
    unfold buildV5Decoders at h1 ⊢
    rw [Res.bind_eq_ok] at h1
    obtain ⟨l, h2, h1⟩ := h1
    rw [Res.bind_eq_ok] at h1
    obtain ⟨r, h3, h1⟩ := h1
    simp only [Res.ok.injEq] at h1
    subst h1
    obtain ⟨l', g1, g2⟩ := leadingDecoder_sim (F := F) ho hs l h2
    obtain ⟨r', g3, g4⟩ := buildAll_sim (F := F) ho hv _ _ r (all2_filter' _ _ hd (fun f g hfg => by simp only [hfg.2.1.1])) h3
    simp only [hn, g1, Res.ok_bind, g3]
    have := all2_append g2 g4
    exact ⟨l' ++ r', by rw [minInput_sim _ _ this], this⟩
  · next hc =>
    rw [if_neg hc]
    unfold buildV4Decoders at h ⊢
    rw [ho]
    split at h
    · next hc =>
      rw [if_pos hc]
      simp only [Res.ok.injEq, Prod.mk.injEq] at h
      obtain ⟨rfl, rfl⟩ := h
      obtain ⟨k1, k2⟩ := copy_sim info.fields dinfo.fields hs
      exact ⟨_, by rw [k2], k1⟩
    · next hc =>
      rw [if_neg hc]
      rw [Res.bind_eq_ok] at h
      obtain ⟨l, h2, h1⟩ := h
      rw [Res.bind_eq_ok] at h1
      obtain ⟨r, h3, h1⟩ := h1
      simp only [Res.ok.injEq, Prod.mk.injEq] at h1
      obtain ⟨rfl, rfl⟩ := h1
      obtain ⟨l', g1, g2⟩ := leadingDecoder_sim (F := F) ho hs l h2
      obtain ⟨r', g3, g4⟩ := buildAll_sim (F := F) ho hv _ _ r hd h3
      simp only [hn, g1, Res.ok_bind, g3]
      have := all2_append g2 g4
      exact ⟨l' ++ r', by rw [minInput_sim _ _ this], this⟩

/-! ### whole payloads -/

theorem map_reset_sim {sk : List (Nat × Nat)} (ds ds' : List Dec) (h : All2 (SkipD sk) ds ds') :
    All2 (SkipD sk) (ds.map Dec.reset) (ds'.map Dec.reset) := by
  induction ds generalizing ds' with
  | nil => cases ds' <;> simp_all [All2]
  | cons d ds ih =>
    cases ds' with
    | nil => exact h.elim
    | cons d' ds' => exact ⟨reset_sim h.1, ih ds' h.2⟩

theorem decodeChunk_sim {F : FloatOps} {C : Compressor} {S : Nat → Prop} {sk : List (Nat × Nat)} (fuel : Nat) (info dinfo : EncodingInfo)
    (hu : usesV5 dinfo = usesV5 info) (hco : dinfo.compression_opt = info.compression_opt) (hmx : maxDecompressed dinfo = maxDecompressed info)
    (hst : dinfo.point_step = info.point_step) (had : usesV5 info = true → getAdaptiveFields dinfo = getAdaptiveFields info)
    (ds ds' ds1 : List Dec) (m : Nat) (chunk a b a' : List Byte) (base base' n : Nat) (hn : 0 < n)
    (hc : ∀ i, i < n → Cover S sk (base + i * info.point_step.toNat)) (hd : All2 (SkipD sk) ds ds') (hs : BSim S a b)
    (h : decodeChunk F C fuel info ds m chunk a base n = .ok (ds1, a', base')) :
    ∃ ds1' b', decodeChunk F C fuel dinfo ds' m chunk b base n = .ok (ds1', b', base') ∧ All2 (SkipD sk) ds1 ds1' ∧ BSim S a' b' := by
  unfold decodeChunk at h ⊢
  rw [hco, hmx, hu, hst]
  rw [Res.bind_eq_ok] at h
  obtain ⟨view, hview, h⟩ := h
  rw [hview]
  simp only [Res.ok_bind]
  split at h
  · next hv =>
    rw [if_pos hv, had hv]
    unfold decodeV5Chunk at h ⊢
    rw [if_neg (by omega)] at h ⊢
    rw [hs.1]
    split at h
    · simp at h
    next hroom =>
    rw [if_neg hroom]
    rw [Res.bind_eq_ok] at h
    obtain ⟨⟨ds2, i1, a1⟩, h1, h⟩ := h
    simp only at h
    rw [Res.bind_eq_ok] at h
    obtain ⟨⟨i2, a2⟩, h2, h⟩ := h
    simp only at h
    split at h
    · simp at h
    next hl =>
    simp only [Res.ok.injEq, Prod.mk.injEq] at h
    obtain ⟨rfl, rfl, rfl⟩ := h
    obtain ⟨ds2', b1, g1, g2, g3⟩ := decodePointsV5_sim _ n base hc _ _ _ _ _ _ _ _ (map_reset_sim _ _ hd) hs h1
    obtain ⟨b2, k1, k2⟩ := decodeSections_sim _ _ _ _ _ _ _ _ _ g3 h2
    refine ⟨ds2', b2, ?_, g2, k2⟩
    simp only [g1, Res.ok_bind, k1]
    rw [if_neg hl]
  · next hv =>
    rw [if_neg hv]
    unfold decodeV4Chunk at h ⊢
    simp only at h ⊢
    rw [if_pos hn] at h ⊢
    rw [Res.bind_eq_ok] at h
    obtain ⟨⟨ds2, i1, a1, p1⟩, h1, h⟩ := h
    simp only [Res.ok.injEq, Prod.mk.injEq] at h
    obtain ⟨rfl, rfl, rfl⟩ := h
    obtain ⟨ds2', b1, g1, g2, g3⟩ := decodePointsV4_sim _ _ n base _ hc _ _ _ _ _ _ _ _ (map_reset_sim _ _ hd) hs h1
    exact ⟨ds2', b1, by simp only [g1, Res.ok_bind], g2, g3⟩

theorem decodeLoop_sim {F : FloatOps} {C : Compressor} {S : Nat → Prop} {sk : List (Nat × Nat)} (info dinfo : EncodingInfo)
    (hu : usesV5 dinfo = usesV5 info) (hco : dinfo.compression_opt = info.compression_opt) (hmx : maxDecompressed dinfo = maxDecompressed info)
    (hst : dinfo.point_step = info.point_step) (had : usesV5 info = true → getAdaptiveFields dinfo = getAdaptiveFields info)
    (hpos : 0 < info.point_step.toNat) (m points : Nat)
    (ds ds' : List Dec) (data a b a' : List Byte) (base : Nat) (hL : a.length < 2 ^ 64) (hsp : SpotsIn info.fields ds)
    (hc : ∀ i, i < points → Cover S sk (base + i * info.point_step.toNat)) (hd : All2 (SkipD sk) ds ds') (hs : BSim S a b)
    (h : decodeLoop F C info m points ds data a base = .ok a') :
    ∃ b', decodeLoop F C dinfo m points ds' data b base = .ok b' ∧ BSim S a' b' := by
  induction points using Nat.strongRecOn generalizing ds ds' data a b base with
  | ind points ih =>
    unfold decodeLoop at h ⊢
    split at h
    · next c1 =>
      rw [if_pos c1]
      split at h
      · simp at h
      next c2 =>
      rw [if_neg c2]
      simp only [Res.ok.injEq] at h
      subst h
      exact ⟨b, rfl, hs⟩
    next c1 =>
    rw [if_neg c1]
    split at h
    · simp at h
    next hp =>
    rw [dif_neg hp]
    rw [Res.bind_eq_ok] at h
    obtain ⟨⟨sz, d1⟩, h0, h⟩ := h
    simp only [h0, Res.ok_bind]
    simp only at h
    split at h
    · simp at h
    next c3 =>
    rw [if_neg c3]
    rw [Res.bind_eq_ok] at h
    obtain ⟨⟨ds1, a1, base1⟩, h1, h⟩ := h
    simp only at h
    have hK := pos_K
    generalize hnn : min points kPointsPerChunk = n at *
    obtain ⟨f1, f2, rfl⟩ := decodeChunk_foot F C 0 info ds ds1 m _ a a1 base base1 n info.fields hsp (fun _ f hf => (adaptive_declared info f hf).1)
      hpos hL (by omega) h1
    obtain ⟨ds1', b1, g1, g2, g3⟩ := decodeChunk_sim 0 info dinfo hu hco hmx hst had ds ds' ds1 m _ a b a1 base _ n (by omega)
      (fun i hi => hc i (by omega)) hd hs h1
    simp only [g1, Res.ok_bind]
    refine ih (points - n) (by omega) ds1 ds1' _ a1 b1 _ (by rw [f2.1]; exact hL) f1 (fun i hi => ?_) g2 g3 h
    have := hc (n + i) (by omega)
    rwa [Nat.add_mul, ← Nat.add_assoc] at this

end Cloudini
