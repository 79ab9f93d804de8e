import Verif.Lemmas.Bits

/-! One-step round trip of the Gorilla coder. -/

namespace Cloudini

theorem countlZero_spec (w x : Nat) (hx : x ≠ 0) (hw : x < 2 ^ w) :
    countlZero w x < w ∧ x < 2 ^ (w - countlZero w x) := by
  induction w with
  | zero => omega
  | succ w ih =>
    unfold countlZero
    by_cases h : x / 2 ^ w % 2 = 1
    · rw [if_pos h]; exact ⟨by omega, by simpa using hw⟩
    · rw [if_neg h]
      have hlt : x < 2 ^ w := by
        rw [Nat.pow_succ] at hw
        have : x / 2 ^ w < 2 := Nat.div_lt_of_lt_mul hw
        have : x / 2 ^ w = 0 := by
          generalize x / 2 ^ w = y at *; omega
        rcases Nat.div_eq_zero_iff.1 this with h | h
        · have := Nat.two_pow_pos w; omega
        · exact h
      obtain ⟨h1, h2⟩ := ih hlt
      refine ⟨by omega, ?_⟩
      rwa [show w + 1 - (1 + countlZero w x) = w - countlZero w x from by omega]

theorem countrZero_spec (w x : Nat) (hx : x ≠ 0) (hw : x < 2 ^ w) :
    countrZero w x < w ∧ 2 ^ countrZero w x ∣ x := by
  induction w generalizing x with
  | zero => omega
  | succ w ih =>
    unfold countrZero
    by_cases h : x % 2 = 1
    · rw [if_pos h]; exact ⟨by omega, by simp⟩
    · rw [if_neg h]
      obtain ⟨h1, h2⟩ := ih (x / 2) (by omega) (by rw [Nat.pow_succ] at hw; omega)
      refine ⟨by omega, ?_⟩
      rw [Nat.pow_add]
      have : x = 2 * (x / 2) := by omega
      rw [this]
      exact Nat.mul_dvd_mul_left _ (by simpa using h2)

/-- leading + trailing zeros leave at least one bit. -/
theorem clz_add_ctz_lt (w x : Nat) (hx : x ≠ 0) (hw : x < 2 ^ w) :
    countlZero w x + countrZero w x < w := by
  obtain ⟨h1, h2⟩ := countlZero_spec w x hx hw
  obtain ⟨h3, h4⟩ := countrZero_spec w x hx hw
  have hle : 2 ^ countrZero w x ≤ x := Nat.le_of_dvd (by omega) h4
  have := Nat.lt_of_le_of_lt hle h2
  have := (Nat.pow_lt_pow_iff_right (a := 2) (by decide)).1 this
  omega

/-- Invariant of the Gorilla state shared by encoder and decoder. -/
def GorillaInv (tb : Nat) (st : GorillaState) : Prop :=
  st.prev.toNat < 2 ^ tb ∧ (st.first = true → st.leading = 255) ∧
    (st.leading = 255 ∨ (st.leading ≤ 31 ∧ st.leading + st.trailing < tb))

theorem gorillaInv_init (tb : Nat) : GorillaInv tb {} :=
  ⟨Nat.two_pow_pos _, fun _ => rfl, .inl rfl⟩

theorem xor_toNat_lt {a b : BitVec 64} {tb : Nat} (ha : a.toNat < 2 ^ tb) (hb : b.toNat < 2 ^ tb) :
    (a ^^^ b).toNat < 2 ^ tb := by
  rw [BitVec.toNat_xor]; exact Nat.xor_lt_two_pow ha hb

theorem window_bits {x : BitVec 64} {tb L T : Nat} (htb : tb ≤ 64) (hLT : L + T < tb)
    (hx : x.toNat < 2 ^ (tb - L)) (hd : 2 ^ T ∣ x.toNat) :
    (x >>> T).toNat % 2 ^ (tb - L - T) = x.toNat / 2 ^ T ∧
      ∀ v : BitVec 64, v.toNat = x.toNat / 2 ^ T → shlTrunc tb v T = .ok x := by
  have hpos := Nat.two_pow_pos T
  have hdm : x.toNat / 2 ^ T * 2 ^ T = x.toNat := Nat.div_mul_cancel hd
  constructor
  · rw [ushr_toNat]
    apply Nat.mod_eq_of_lt
    apply Nat.div_lt_of_lt_mul
    rw [← Nat.pow_add, show T + (tb - L - T) = tb - L from by omega]
    exact hx
  · intro v hv
    unfold shlTrunc
    rw [if_neg (by omega)]
    congr 1
    apply BitVec.eq_of_toNat_eq
    rw [and_maskN_toNat _ htb, BitVec.toNat_shiftLeft, Nat.shiftLeft_eq, hv, hdm,
      Nat.mod_eq_of_lt x.isLt]
    apply Nat.mod_eq_of_lt
    exact Nat.lt_of_lt_of_le hx (Nat.pow_le_pow_right (by decide) (by omega))

theorem subU8_eq {tb a b : Nat} (h : a + b ≤ tb) (htb : tb ≤ 64) : subU8 tb a b = tb - a - b := by
  unfold subU8
  omega

theorem gorilla_step (tb : Nat) (htb : tb = 32 ∨ tb = 64) (st : GorillaState) (hi : GorillaInv tb st)
    (cur : BitVec 64) (hcur : cur.toNat < 2 ^ tb) :
    GorillaInv tb (gorillaEncode tb st cur).1 ∧
    1 ≤ (gorillaEncode tb st cur).2.length ∧
    (gorillaEncode tb st cur).2.length ≤ (tb + 20) / 8 ∧
    ∀ rest, gorillaDecode tb st ((gorillaEncode tb st cur).2 ++ rest) =
      .ok ((gorillaEncode tb st cur).1, cur, rest) := by
  obtain ⟨hprev, hfirst, hwin⟩ := hi
  have htb64 : tb ≤ 64 := by omega
  unfold gorillaEncode
  by_cases hf : st.first = true
  · -- first value: raw
    rw [if_pos hf]
    simp only
    have hh := holds_flush (holds_put holds_nil cur tb htb64)
    simp only [List.nil_append] at hh
    obtain ⟨hv, hl⟩ := hh
    simp only [tokBits] at hl
    refine ⟨⟨hcur, by simp, .inl (hfirst hf)⟩, by omega, by omega, ?_⟩
    intro rest
    obtain ⟨v, r', g1, g2, g3⟩ := ahead_get (ahead_init _ rest _ hv (by simp only [tokBits]; omega)) htb64
    have hd := ahead_done g3
    unfold gorillaDecode
    simp only [hf, if_true]
    rw [g1]
    simp only [Res.ok_bind]
    have hvc : v &&& maskN tb = cur := by
      apply BitVec.eq_of_toNat_eq
      rw [and_maskN_toNat _ htb64, g2, Nat.mod_mod, Nat.mod_eq_of_lt hcur]
    rw [hvc, hd]
  · rw [if_neg hf]
    have hf' : st.first = false := by simpa using hf
    simp only
    by_cases hx : cur ^^^ st.prev = 0#64
    · -- same value
      rw [if_pos hx]
      simp only
      have hce : st.prev = cur := by
        have := congrArg (· ^^^ st.prev) hx
        simp only [BitVec.xor_assoc, BitVec.xor_self, BitVec.xor_zero, BitVec.zero_xor] at this
        exact this.symm
      have hh := holds_flush (holds_put holds_nil 0#64 1 (by decide))
      simp only [List.nil_append] at hh
      obtain ⟨hv, hl⟩ := hh
      simp only [tokBits] at hl
      refine ⟨⟨hcur, by simp [hf'], hwin⟩, by omega, by omega, ?_⟩
      intro rest
      obtain ⟨v, r', g1, g2, g3⟩ := ahead_get (ahead_init _ rest _ hv (by simp only [tokBits]; omega)) (by decide)
      have hd := ahead_done g3
      unfold gorillaDecode
      simp only [hf', Bool.false_eq_true, if_false]
      rw [g1]
      simp only [Res.ok_bind]
      have hv0 : v = 0#64 := by apply BitVec.eq_of_toNat_eq; rw [g2]; rfl
      rw [if_pos hv0, hd, ← hce, ← hf']
    · rw [if_neg hx]
      have hxlt := xor_toNat_lt hcur hprev
      generalize hxe : cur ^^^ st.prev = x at hx hxlt
      have hxn : x.toNat ≠ 0 := by
        intro h; apply hx; apply BitVec.eq_of_toNat_eq; rw [h]; rfl
      have hdec : x ^^^ st.prev = cur := by
        rw [← hxe, BitVec.xor_assoc, BitVec.xor_self, BitVec.xor_zero]
      obtain ⟨hl1, hl2⟩ := countlZero_spec tb x.toNat hxn hxlt
      obtain ⟨ht1, ht2⟩ := countrZero_spec tb x.toNat hxn hxlt
      have hlt := clz_add_ctz_lt tb x.toNat hxn hxlt
      by_cases hw : st.leading ≠ 255 ∧ countlZero tb x.toNat ≥ st.leading ∧ countrZero tb x.toNat ≥ st.trailing
      · -- reuse the window
        rw [if_pos hw]
        simp only
        obtain ⟨hw1, hw2, hw3⟩ := hw
        have hwin' : st.leading ≤ 31 ∧ st.leading + st.trailing < tb := by
          rcases hwin with h | h
          · exact absurd h hw1
          · exact h
        rw [subU8_eq (by omega) htb64]
        have hxL : x.toNat < 2 ^ (tb - st.leading) :=
          Nat.lt_of_lt_of_le hl2 (Nat.pow_le_pow_right (by decide) (by omega))
        have hxT : 2 ^ st.trailing ∣ x.toNat :=
          Nat.dvd_trans (Nat.pow_dvd_pow 2 hw3) ht2
        obtain ⟨hm, hsh⟩ := window_bits htb64 hwin'.2 hxL hxT
        have hh := holds_flush (holds_put (holds_put (holds_put holds_nil 1#64 1 (by decide)) 0#64 1 (by decide))
          (x >>> st.trailing) (tb - st.leading - st.trailing) (by omega))
        simp only [List.nil_append, List.cons_append] at hh
        obtain ⟨hv, hl⟩ := hh
        simp only [tokBits] at hl
        refine ⟨⟨hcur, by simp [hf'], .inr hwin'⟩, by omega, by omega, ?_⟩
        intro rest
        obtain ⟨v1, r1, a1, a2, a3⟩ := ahead_get (ahead_init _ rest _ hv (by simp only [tokBits]; omega)) (by decide)
        obtain ⟨v2, r2, b1, b2, b3⟩ := ahead_get a3 (by decide)
        obtain ⟨v3, r3, c1, c2, c3⟩ := ahead_get b3 (by omega)
        have hd := ahead_done c3
        unfold gorillaDecode
        simp only [hf', Bool.false_eq_true, if_false]
        rw [a1]
        simp only [Res.ok_bind]
        have hv1 : ¬ v1 = 0#64 := by rintro rfl; simp at a2
        rw [if_neg hv1, b1]
        simp only [Res.ok_bind]
        have hv2 : v2 = 0#64 := by apply BitVec.eq_of_toNat_eq; rw [b2]; rfl
        rw [if_pos hv2, subU8_eq (by omega) htb64, c1]
        simp only [Res.ok_bind]
        rw [hsh v3 (by rw [c2, hm])]
        simp only [Res.ok_bind]
        rw [hdec, hd]
      · -- new window
        rw [if_neg hw]
        simp only
        have hst : ∃ stored, (if countlZero tb x.toNat > 31 then 31 else countlZero tb x.toNat) = stored ∧
            stored ≤ 31 ∧ stored ≤ countlZero tb x.toNat := by
          refine ⟨_, rfl, ?_, ?_⟩ <;> split <;> omega
        obtain ⟨stored, hse, hs1, hs2⟩ := hst
        rw [hse, subU8_eq (by omega) htb64]
        generalize hT : countrZero tb x.toNat = T at *
        have hxL : x.toNat < 2 ^ (tb - stored) :=
          Nat.lt_of_lt_of_le hl2 (Nat.pow_le_pow_right (by decide) (by omega))
        obtain ⟨hm, hsh⟩ := window_bits (L := stored) htb64 (by omega) hxL ht2
        have hh := holds_flush (holds_put (holds_put (holds_put (holds_put
          (holds_put holds_nil 1#64 1 (by decide)) 1#64 1 (by decide))
          (BitVec.ofNat 64 stored) 5 (by decide)) (BitVec.ofNat 64 (tb - stored - T - 1)) 6 (by decide))
          (x >>> T) (tb - stored - T) (by omega))
        simp only [List.nil_append, List.cons_append] at hh
        obtain ⟨hv, hl⟩ := hh
        simp only [tokBits] at hl
        refine ⟨⟨hcur, by simp [hf'], .inr ⟨hs1, by simp only; omega⟩⟩, by omega, by omega, ?_⟩
        intro rest
        obtain ⟨v1, r1, a1, a2, a3⟩ := ahead_get (ahead_init _ rest _ hv (by simp only [tokBits]; omega)) (by decide)
        obtain ⟨v2, r2, b1, b2, b3⟩ := ahead_get a3 (by decide)
        obtain ⟨v3, r3, c1, c2, c3⟩ := ahead_get b3 (by decide)
        obtain ⟨v4, r4, d1, d2, d3⟩ := ahead_get c3 (by decide)
        obtain ⟨v5, r5, e1, e2, e3⟩ := ahead_get d3 (by omega)
        have hd := ahead_done e3
        unfold gorillaDecode
        simp only [hf', Bool.false_eq_true, if_false]
        rw [a1]
        simp only [Res.ok_bind]
        have hv1 : ¬ v1 = 0#64 := by rintro rfl; simp at a2
        rw [if_neg hv1, b1]
        simp only [Res.ok_bind]
        have hv2 : ¬ v2 = 0#64 := by rintro rfl; simp at b2
        rw [if_neg hv2, c1]
        simp only [Res.ok_bind]
        rw [d1]
        simp only [Res.ok_bind]
        have hv3 : v3.toNat % 256 = stored := by
          rw [c2, BitVec.toNat_ofNat]; omega
        have hv4 : (v4.toNat + 1) % 256 = tb - stored - T := by
          rw [d2, BitVec.toNat_ofNat]; omega
        rw [hv4, e1]
        simp only [Res.ok_bind]
        have hsu : subU8 tb stored (tb - stored - T) = T := by
          rw [subU8_eq (by omega) htb64]; omega
        rw [hv3, hsu, hsh v5 (by rw [e2, hm])]
        simp only [Res.ok_bind]
        rw [hdec, hd]

end Cloudini
