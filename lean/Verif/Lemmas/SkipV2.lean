import Verif.Lemmas.Skip

/-! # Skipped fields in payloads without chunk framing (helper lemmas for C31, version 2) -/

namespace Cloudini

theorem decodeUntilEmptyV4_sim {F : FloatOps} {S : Nat → Prop} {sk : List (Nat × Nat)} (min step fuel base base' : Nat)
    (hc : ∀ i, Cover S sk (base + i * step)) (ds ds' ds1 : List Dec) (input rest a b a' : List Byte) (hd : All2 (SkipD sk) ds ds') (hs : BSim S a b)
    (h : decodeUntilEmptyV4 F min step fuel ds input a base = .ok (ds1, rest, a', base')) :
    ∃ ds1' b', decodeUntilEmptyV4 F min step fuel ds' input b base = .ok (ds1', rest, b', base') ∧ BSim S a' b' := by
  induction fuel generalizing ds ds' input a b base with
  | zero =>
    simp only [decodeUntilEmptyV4] at h ⊢
    split at h
    · next c =>
      rw [if_pos c]
      simp only [Res.ok.injEq, Prod.mk.injEq] at h
      obtain ⟨rfl, rfl, rfl, rfl⟩ := h
      exact ⟨ds', b, rfl, hs⟩
    · simp at h
  | succ n ih =>
    simp only [decodeUntilEmptyV4] at h ⊢
    rw [hs.1]
    split at h
    · next c =>
      rw [if_pos c]
      simp only [Res.ok.injEq, Prod.mk.injEq] at h
      obtain ⟨rfl, rfl, rfl, rfl⟩ := h
      exact ⟨ds', b, rfl, hs⟩
    next c0 =>
    split at h
    · simp at h
    next c1 =>
    split at h
    · simp at h
    next c2 =>
    rw [if_neg c0, if_neg c1, if_neg c2]
    rw [Res.bind_eq_ok] at h
    obtain ⟨⟨ds2, i1, a1⟩, h1, h⟩ := h
    simp only at h
    obtain ⟨ds2', b1, g1, g2, g3⟩ := decodeFields_sim (hc 0) ds ds' ds2 _ _ _ b _ hd hs (by simpa using h1)
    rw [Nat.zero_mul, Nat.add_zero] at g1
    rw [g1]
    refine ih (base + step) (fun i => ?_) ds2 ds2' i1 a1 b1 g2 g3 h
    have := hc (i + 1)
    rwa [Nat.add_mul, Nat.one_mul, Nat.add_comm (i * step), ← Nat.add_assoc] at this

theorem all2_reset {sk : List (Nat × Nat)} {ds ds' : List Dec} (h : All2 (SkipD sk) ds ds') : All2 (SkipD sk) (ds.map Dec.reset) (ds'.map Dec.reset) := by
  induction ds generalizing ds' with
  | nil => cases ds' <;> simp_all [All2]
  | cons d ds ih =>
    cases ds' with
    | nil => exact h.elim
    | cons d' ds' => exact ⟨reset_sim h.1, ih h.2⟩

end Cloudini
