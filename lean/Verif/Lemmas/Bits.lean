import Verif.Model.Gorilla
import Verif.Lemmas.Base

/-! Bit accumulators as arithmetic on the number they hold. -/

namespace Cloudini

theorem lowMask_toNat {n : Nat} (h : n < 64) : (lowMask n).toNat = 2 ^ n - 1 := by
  unfold lowMask
  have hp : 2 ^ n < 2 ^ 64 := Nat.pow_lt_pow_right (by decide) h
  have h1 : 1 ≤ 2 ^ n := Nat.one_le_two_pow
  have e : (1#64 <<< n).toNat = 2 ^ n := by
    rw [BitVec.toNat_shiftLeft, Nat.shiftLeft_eq]
    simp [Nat.mod_eq_of_lt hp]
  rw [BitVec.toNat_sub_of_le]
  · rw [e]; rfl
  · rw [BitVec.le_def, e]; exact h1

theorem and_lowMask_toNat (b : BitVec 64) {n : Nat} (h : n < 64) :
    (b &&& lowMask n).toNat = b.toNat % 2 ^ n := by
  rw [BitVec.toNat_and, lowMask_toNat h, Nat.and_two_pow_sub_one_eq_mod]

theorem and_maskN_toNat (b : BitVec 64) {n : Nat} (h : n ≤ 64) :
    (b &&& maskN n).toNat = b.toNat % 2 ^ n := by
  unfold maskN
  split
  · next h => exact and_lowMask_toNat b h
  · have : n = 64 := by omega
    subst this
    rw [BitVec.and_allOnes, Nat.mod_eq_of_lt b.isLt]

theorem or_shl_toNat (a b : BitVec 64) (c : Nat) (ha : a.toNat < 2 ^ c) (hb : b.toNat * 2 ^ c < 2 ^ 64) :
    (a ||| (b <<< c)).toNat = a.toNat + 2 ^ c * b.toNat := by
  rw [BitVec.toNat_or, BitVec.toNat_shiftLeft, Nat.shiftLeft_eq, Nat.mod_eq_of_lt hb, Nat.or_comm,
    Nat.mul_comm b.toNat, ← Nat.two_pow_add_eq_or_of_lt ha, Nat.add_comm]

/-- Number held by a bit writer: output bytes, then the buffer. -/
def BitW.val (w : BitW) : Nat := fromLE w.out + 256 ^ w.out.length * w.buf.toNat
/-- Number of bits held. -/
def BitW.bits (w : BitW) : Nat := 8 * w.out.length + w.cnt
/-- Well-formedness between operations. -/
def BitW.WF (w : BitW) : Prop := w.cnt < 8 ∧ w.buf.toNat < 2 ^ w.cnt

theorem pow256 (n : Nat) : (256 : Nat) ^ n = 2 ^ (8 * n) := by
  rw [Nat.pow_mul]

theorem setWidth8_toNat (b : BitVec 64) : (b.setWidth 8).toNat = b.toNat % 256 := by
  rw [BitVec.toNat_setWidth]

theorem ushr_toNat (b : BitVec 64) (n : Nat) : (b >>> n).toNat = b.toNat / 2 ^ n := by
  rw [BitVec.toNat_ushiftRight, Nat.shiftRight_eq_div_pow]

theorem drain_spec (w : BitW) (hc : w.buf.toNat < 2 ^ w.cnt) :
    (drain w).WF ∧ (drain w).val = w.val ∧ (drain w).bits = w.bits := by
  induction w using drain.induct with
  | case1 w h ih =>
    rw [drain, if_pos h]
    have hb : (w.buf >>> 8).toNat < 2 ^ (w.cnt - 8) := by
      rw [ushr_toNat]
      apply Nat.div_lt_of_lt_mul
      rw [← Nat.pow_add]
      rwa [show 8 + (w.cnt - 8) = w.cnt from by omega]
    obtain ⟨h1, h2, h3⟩ := ih hb
    refine ⟨h1, ?_, ?_⟩
    · rw [h2]
      simp only [BitW.val, fromLE_append, fromLE, List.length_append, List.length_cons, List.length_nil,
        setWidth8_toNat, ushr_toNat]
      rw [Nat.pow_add, Nat.add_assoc, Nat.mul_assoc, ← Nat.mul_add]
      congr 2
      omega
    · rw [h3]; simp only [BitW.bits, List.length_append, List.length_cons, List.length_nil]; omega
  | case2 w h =>
    rw [drain, if_neg h]
    exact ⟨⟨by omega, hc⟩, rfl, rfl⟩

theorem putBits_spec (b : BitVec 64) (n : Nat) (w : BitW) (hw : w.WF) (hn : n ≤ 64) :
    (putBits b n w).WF ∧ (putBits b n w).bits = w.bits + n ∧
      (putBits b n w).val = w.val + 2 ^ w.bits * (b.toNat % 2 ^ n) := by
  obtain ⟨hc, hb⟩ := hw
  -- the masked argument
  generalize hbb : (if n < 64 then b &&& lowMask n else b) = b'
  have hb' : b'.toNat = b.toNat % 2 ^ n := by
    rw [← hbb]
    split
    · next h => exact and_lowMask_toNat b h
    · have : n = 64 := by omega
      subst this; rw [Nat.mod_eq_of_lt b.isLt]
  have hlt : b'.toNat < 2 ^ n := by rw [hb']; exact Nat.mod_lt _ (Nat.two_pow_pos _)
  rw [← hb']
  unfold putBits
  simp only [hbb]
  have hwb : 2 ^ w.bits = 256 ^ w.out.length * 2 ^ w.cnt := by
    rw [pow256, BitW.bits, Nat.pow_add]
  by_cases hs : n > 64 - w.cnt
  · rw [if_pos hs]
    have hc0 : 0 < w.cnt := by omega
    rw [if_neg (by omega)]
    -- first half
    have hsp : 64 - w.cnt < 64 := by omega
    have hlow : (b' &&& lowMask (64 - w.cnt)).toNat = b'.toNat % 2 ^ (64 - w.cnt) :=
      and_lowMask_toNat b' hsp
    have hpp : 2 ^ (64 - w.cnt) * 2 ^ w.cnt = 2 ^ 64 := by rw [← Nat.pow_add]; congr 1; omega
    have hlow2 : (b' &&& lowMask (64 - w.cnt)).toNat * 2 ^ w.cnt < 2 ^ 64 := by
      rw [hlow, ← hpp]
      exact Nat.mul_lt_mul_of_pos_right (Nat.mod_lt _ (Nat.two_pow_pos _)) (Nat.two_pow_pos _)
    have hbuf1 := or_shl_toNat w.buf _ w.cnt hb hlow2
    generalize hw1 : ({ w with buf := w.buf ||| ((b' &&& lowMask (64 - w.cnt)) <<< w.cnt), cnt := w.cnt + (64 - w.cnt) } : BitW) = w1
    have hw1b : w1.buf.toNat < 2 ^ w1.cnt := by
      rw [← hw1]
      simp only
      rw [show w.cnt + (64 - w.cnt) = 64 from by omega]
      exact BitVec.isLt _
    obtain ⟨d1, d2, d3⟩ := drain_spec w1 hw1b
    have w1bits : w1.bits = w.bits + (64 - w.cnt) := by rw [← hw1]; simp [BitW.bits]; omega
    have w1val : w1.val = w.val + 2 ^ w.bits * (b'.toNat % 2 ^ (64 - w.cnt)) := by
      rw [← hw1]; simp only [BitW.val]
      rw [hbuf1, hlow, hwb, Nat.mul_add, Nat.mul_assoc]; omega
    -- after draining 64 bits the count is 0
    have hd0 : (drain w1).cnt = 0 := by
      have := d3
      have h1 := d1.1
      rw [w1bits] at this
      simp only [BitW.bits] at this
      omega
    -- second half
    have hhi : (b' >>> (64 - w.cnt)).toNat = b'.toNat / 2 ^ (64 - w.cnt) := ushr_toNat _ _
    have hhi2 : b'.toNat / 2 ^ (64 - w.cnt) < 2 ^ (n - (64 - w.cnt)) := by
      apply Nat.div_lt_of_lt_mul
      rw [← Nat.pow_add]
      rwa [show 64 - w.cnt + (n - (64 - w.cnt)) = n from by omega]
    have hbuf2 := or_shl_toNat (drain w1).buf (b' >>> (64 - w.cnt)) (drain w1).cnt d1.2 (by
      rw [hd0]; have := (b' >>> (64 - w.cnt)).isLt; omega)
    have hbz : (drain w1).buf.toNat = 0 := by have := d1.2; rw [hd0] at this; omega
    generalize hw2 : ({ drain w1 with buf := (drain w1).buf ||| ((b' >>> (64 - w.cnt)) <<< (drain w1).cnt), cnt := (drain w1).cnt + (n - (64 - w.cnt)) } : BitW) = w2
    have hw2b : w2.buf.toNat < 2 ^ w2.cnt := by
      rw [← hw2]; simp only
      rw [hbuf2, hbz, hd0, hhi]; simpa using hhi2
    obtain ⟨e1, e2, e3⟩ := drain_spec w2 hw2b
    refine ⟨e1, ?_, ?_⟩
    · rw [e3, ← hw2]; simp only [BitW.bits] at d3 w1bits ⊢; omega
    · rw [e2, ← hw2]
      simp only [BitW.val]
      rw [hbuf2, hbz, hhi]
      have hv := d2
      simp only [BitW.val] at hv
      rw [hbz] at hv
      have hbits1 : 8 * (drain w1).out.length = w.bits + (64 - w.cnt) := by
        have := d3; rw [w1bits] at this; simp only [BitW.bits] at this ⊢; omega
      rw [hd0]
      rw [Nat.mul_zero, Nat.add_zero] at hv
      rw [hv]
      rw [show w1.val = fromLE w1.out + 256 ^ w1.out.length * w1.buf.toNat from rfl] at w1val
      rw [w1val, pow256, hbits1]
      have := Nat.div_add_mod b'.toNat (2 ^ (64 - w.cnt))
      rw [show w.val = fromLE w.out + 256 ^ w.out.length * w.buf.toNat from rfl]
      rw [Nat.pow_add 2 w.bits]
      conv => rhs; rw [← this]
      rw [Nat.mul_add (2 ^ w.bits)]
      simp only [Nat.mul_assoc, Nat.zero_add, Nat.pow_zero, Nat.one_mul]
      omega
  · rw [if_neg hs]
    have hb2 : b'.toNat * 2 ^ w.cnt < 2 ^ 64 := by
      calc b'.toNat * 2 ^ w.cnt < 2 ^ n * 2 ^ w.cnt :=
            Nat.mul_lt_mul_of_pos_right hlt (Nat.two_pow_pos _)
        _ = 2 ^ (n + w.cnt) := by rw [Nat.pow_add]
        _ ≤ 2 ^ 64 := Nat.pow_le_pow_right (by decide) (by omega)
    have hbuf1 := or_shl_toNat w.buf b' w.cnt hb hb2
    generalize hw1 : ({ w with buf := w.buf ||| (b' <<< w.cnt), cnt := w.cnt + n } : BitW) = w1
    have hw1b : w1.buf.toNat < 2 ^ w1.cnt := by
      rw [← hw1]; simp only
      rw [hbuf1, Nat.pow_add]
      calc w.buf.toNat + 2 ^ w.cnt * b'.toNat < 2 ^ w.cnt + 2 ^ w.cnt * b'.toNat := by omega
        _ = 2 ^ w.cnt * (b'.toNat + 1) := by rw [Nat.mul_add]; omega
        _ ≤ 2 ^ w.cnt * 2 ^ n := Nat.mul_le_mul_left _ hlt
    obtain ⟨d1, d2, d3⟩ := drain_spec w1 hw1b
    refine ⟨d1, ?_, ?_⟩
    · rw [d3, ← hw1]; simp only [BitW.bits]; omega
    · rw [d2, ← hw1]; simp only [BitW.val]
      rw [hbuf1, hwb, Nat.mul_add, Nat.mul_assoc]; omega

theorem flushBits_spec (w : BitW) (hw : w.WF) :
    fromLE (flushBits w) = w.val ∧ (flushBits w).length = (w.bits + 7) / 8 := by
  obtain ⟨hc, hb⟩ := hw
  unfold flushBits
  split
  · have h8 : w.buf.toNat < 256 :=
      Nat.lt_of_lt_of_le hb (by
        rw [show 256 = 2 ^ 8 from rfl]; exact Nat.pow_le_pow_right (by decide) (by omega))
    simp only [fromLE_append, fromLE, setWidth8_toNat, BitW.val, BitW.bits, List.length_append,
      List.length_cons, List.length_nil, Nat.mod_eq_of_lt h8, Nat.mul_zero, Nat.add_zero]
    refine ⟨trivial, ?_⟩
    omega
  · have h0 : w.cnt = 0 := by omega
    rw [h0] at hb
    simp only [BitW.val, BitW.bits, h0]
    have : w.buf.toNat = 0 := by omega
    rw [this]; omega

/-! ### reading -/

/-- Number still to be read: buffer, then the remaining input. -/
def BitR.cur (r : BitR) : Nat := r.buf.toNat + 2 ^ r.cnt * fromLE r.inp
/-- Number of bits available. -/
def BitR.avail (r : BitR) : Nat := r.cnt + 8 * r.inp.length
def BitR.WF (r : BitR) : Prop := r.cnt < 8 ∧ r.buf.toNat < 2 ^ r.cnt

theorem fillTo_spec (n : Nat) (buf : BitVec 64) (cnt : Nat) (inp : List Byte)
    (hn : cnt < n → n ≤ 56 ∨ (n ≤ 64 ∧ cnt % 8 = 0)) (hb : buf.toNat < 2 ^ cnt)
    (ha : n ≤ cnt + 8 * inp.length) :
    ∃ r, fillTo n buf cnt inp = .ok r ∧ n ≤ r.cnt ∧ (r.cnt = cnt ∨ r.cnt < n + 8) ∧ r.buf.toNat < 2 ^ r.cnt ∧
      (cnt ≤ 64 → r.cnt ≤ 64) ∧
      r.cur = buf.toNat + 2 ^ cnt * fromLE inp ∧ r.avail = cnt + 8 * inp.length ∧ r.inp <:+ inp := by
  induction inp generalizing buf cnt with
  | nil =>
    have h : n ≤ cnt := by simpa using ha
    unfold fillTo
    rw [if_neg (by omega)]
    exact ⟨_, rfl, h, .inl rfl, hb, id, rfl, rfl, List.suffix_refl _⟩
  | cons b rest ih =>
    unfold fillTo
    by_cases hlt : cnt < n
    · rw [if_pos hlt]
      simp only
      have hn' := hn hlt
      have h56 : cnt ≤ 56 := by omega
      rw [if_neg (by omega)]
      have hbt : (b.setWidth 64).toNat = b.toNat := by
        rw [BitVec.toNat_setWidth]; have := b.isLt; omega
      have hov : (b.setWidth 64).toNat * 2 ^ cnt < 2 ^ 64 := by
        rw [hbt]
        calc b.toNat * 2 ^ cnt < 2 ^ 8 * 2 ^ cnt := Nat.mul_lt_mul_of_pos_right b.isLt (Nat.two_pow_pos _)
          _ = 2 ^ (8 + cnt) := by rw [Nat.pow_add]
          _ ≤ 2 ^ 64 := Nat.pow_le_pow_right (by decide) (by omega)
      have hbuf := or_shl_toNat buf (b.setWidth 64) cnt hb hov
      rw [hbt] at hbuf
      have hb' : (buf ||| b.setWidth 64 <<< cnt).toNat < 2 ^ (cnt + 8) := by
        rw [hbuf, Nat.pow_add]
        have h1 : 2 ^ cnt * b.toNat ≤ 2 ^ cnt * 255 := Nat.mul_le_mul_left _ (by have := b.isLt; omega)
        omega
      obtain ⟨r, h1, h2, h3, h4, h5, h6, h7, h8⟩ := ih (buf ||| b.setWidth 64 <<< cnt) (cnt + 8)
        (by intro _; omega) hb' (by simp only [List.length_cons] at ha; omega)
      refine ⟨r, h1, h2, ?_, h4, fun _ => h5 (by omega), ?_, ?_, List.IsSuffix.trans h8 (List.suffix_cons _ _)⟩
      · right; omega
      · rw [h6, hbuf, Nat.pow_add]; simp only [fromLE]
        rw [Nat.mul_add, Nat.add_assoc, Nat.mul_assoc]
      · rw [h7]; simp only [List.length_cons]; omega
    · rw [if_neg hlt]
      exact ⟨_, rfl, by simpa using Nat.le_of_not_lt hlt, .inl rfl, hb, id, rfl, rfl, List.suffix_refl _⟩

theorem add_mul_pow_mod (a b c n : Nat) (h : n ≤ c) : (a + 2 ^ c * b) % 2 ^ n = a % 2 ^ n := by
  rw [show c = n + (c - n) from by omega, Nat.pow_add, Nat.mul_assoc, Nat.add_mul_mod_self_left]

theorem add_mul_pow_div (a b c n : Nat) (h : n ≤ c) :
    (a + 2 ^ c * b) / 2 ^ n = a / 2 ^ n + 2 ^ (c - n) * b := by
  conv => lhs; rw [show c = n + (c - n) from by omega, Nat.pow_add, Nat.mul_assoc]
  rw [Nat.add_mul_div_left _ _ (Nat.two_pow_pos n)]

theorem getBits_spec (n : Nat) (r : BitR) (hw : r.WF) (hn : n ≤ 64) (ha : n ≤ r.avail) :
    ∃ v r', getBits n r = .ok (v, r') ∧ v.toNat = r.cur % 2 ^ n ∧ r'.cur = r.cur / 2 ^ n ∧
      r'.avail = r.avail - n ∧ r'.WF ∧ r'.inp <:+ r.inp := by
  obtain ⟨hc, hb⟩ := hw
  unfold getBits
  by_cases hn56 : n > 56 ∨ r.cnt > 56
  · rw [if_pos hn56]
    have hmin : min n r.cnt = r.cnt := by omega
    simp only [hmin]
    rw [if_neg (by omega), if_pos (by omega)]
    have hbuf0 : (r.buf >>> r.cnt).toNat = 0 := by
      rw [ushr_toNat]; exact Nat.div_eq_of_lt hb
    have hlow : (r.buf &&& maskN r.cnt).toNat = r.buf.toNat := by
      rw [and_maskN_toNat _ (by omega), Nat.mod_eq_of_lt hb]
    obtain ⟨r1, f1, f2, f3, f4, f5, f6, f7, f8⟩ := fillTo_spec (n - r.cnt) (r.buf >>> r.cnt) (r.cnt - r.cnt) r.inp
      (by intro _; right; omega) (by rw [hbuf0]; exact Nat.two_pow_pos _)
      (by unfold BitR.avail at ha; omega)
    rw [f1]
    simp only [Res.ok_bind]
    rw [if_neg (by omega)]
    have hcur1 : r1.cur = fromLE r.inp := by rw [f6, hbuf0, Nat.sub_self]; simp
    have hr1 : r1.cnt ≤ 64 := f5 (by omega)
    have hhigh : (r1.buf &&& maskN (n - r.cnt)).toNat = r1.cur % 2 ^ (n - r.cnt) := by
      rw [and_maskN_toNat _ (by omega), BitR.cur, add_mul_pow_mod _ _ _ _ f2]
    have hcur : r.cur = r.buf.toNat + 2 ^ r.cnt * fromLE r.inp := rfl
    have hv : (r.buf &&& maskN r.cnt ||| (r1.buf &&& maskN (n - r.cnt)) <<< r.cnt).toNat = r.cur % 2 ^ n := by
      rw [or_shl_toNat _ _ _ (by rw [hlow]; exact hb)]
      · rw [hlow, hhigh, hcur1, hcur]
        rw [show n = r.cnt + (n - r.cnt) from by omega, Nat.pow_add, Nat.mod_mul]
        rw [Nat.add_mul_mod_self_left, Nat.mod_eq_of_lt hb, Nat.add_mul_div_left _ _ (Nat.two_pow_pos _),
          Nat.div_eq_of_lt hb, Nat.zero_add]
        congr 4; omega
      · rw [hhigh]
        calc r1.cur % 2 ^ (n - r.cnt) * 2 ^ r.cnt < 2 ^ (n - r.cnt) * 2 ^ r.cnt :=
              Nat.mul_lt_mul_of_pos_right (Nat.mod_lt _ (Nat.two_pow_pos _)) (Nat.two_pow_pos _)
          _ = 2 ^ n := by rw [← Nat.pow_add]; congr 1; omega
          _ ≤ 2 ^ 64 := Nat.pow_le_pow_right (by decide) hn
    refine ⟨_, _, rfl, hv, ?_, ?_, ?_, f8⟩
    · -- cur
      have hbuf2 : (if n - r.cnt < 64 then r1.buf >>> (n - r.cnt) else 0#64).toNat = r1.buf.toNat / 2 ^ (n - r.cnt) := by
        split
        · rw [ushr_toNat]
        · have : n - r.cnt = 64 := by omega
          rw [this, Nat.div_eq_of_lt r1.buf.isLt]; rfl
      simp only [BitR.cur]
      rw [hbuf2, ← add_mul_pow_div _ _ _ _ f2]
      have : r1.buf.toNat + 2 ^ r1.cnt * fromLE r1.inp = fromLE r.inp := hcur1
      rw [this]
      rw [show n = r.cnt + (n - r.cnt) from by omega, Nat.pow_add, ← Nat.div_div_eq_div_mul,
        Nat.add_mul_div_left _ _ (Nat.two_pow_pos _), Nat.div_eq_of_lt hb, Nat.zero_add]
      congr 2; omega
    · simp only [BitR.avail] at f7 ⊢; omega
    · refine ⟨by simp only; omega, ?_⟩
      simp only
      have hbuf2 : (if n - r.cnt < 64 then r1.buf >>> (n - r.cnt) else 0#64).toNat = r1.buf.toNat / 2 ^ (n - r.cnt) := by
        split
        · rw [ushr_toNat]
        · have : n - r.cnt = 64 := by omega
          rw [this, Nat.div_eq_of_lt r1.buf.isLt]; rfl
      rw [hbuf2]
      apply Nat.div_lt_of_lt_mul
      rw [← Nat.pow_add]
      rwa [show n - r.cnt + (r1.cnt - (n - r.cnt)) = r1.cnt from by omega]
  · rw [if_neg hn56]
    obtain ⟨r1, f1, f2, f3, f4, f5, f6, f7, f8⟩ := fillTo_spec n r.buf r.cnt r.inp
      (by intro _; left; omega) hb ha
    rw [f1]
    simp only [Res.ok_bind]
    have hcur : r1.cur = r.cur := f6
    refine ⟨_, _, rfl, ?_, ?_, ?_, ?_, f8⟩
    · rw [and_maskN_toNat _ hn, ← hcur, BitR.cur, add_mul_pow_mod _ _ _ _ f2]
    · rw [← hcur]
      simp only [BitR.cur]
      rw [ushr_toNat, ← add_mul_pow_div _ _ _ _ f2]
    · simp only [BitR.avail] at f7 ⊢; omega
    · refine ⟨by simp only; omega, ?_⟩
      simp only
      rw [ushr_toNat]
      apply Nat.div_lt_of_lt_mul
      rw [← Nat.pow_add]
      rwa [show n + (r1.cnt - n) = r1.cnt from by omega]

/-! ### token streams -/

/-- Number formed by concatenating bit fields `(value, width)`, least significant first. -/
def packToks : List (Nat × Nat) → Nat
  | [] => 0
  | (b, n) :: ts => b % 2 ^ n + 2 ^ n * packToks ts

def tokBits : List (Nat × Nat) → Nat
  | [] => 0
  | (_, n) :: ts => n + tokBits ts

theorem packToks_append (a : List (Nat × Nat)) (b n : Nat) :
    packToks (a ++ [(b, n)]) = packToks a + 2 ^ tokBits a * (b % 2 ^ n) := by
  induction a with
  | nil => simp [packToks, tokBits]
  | cons t a ih =>
    obtain ⟨c, m⟩ := t
    simp only [List.cons_append, packToks, tokBits, ih, Nat.pow_add]
    rw [Nat.mul_add, Nat.mul_assoc]; omega

theorem tokBits_append (a : List (Nat × Nat)) (b n : Nat) : tokBits (a ++ [(b, n)]) = tokBits a + n := by
  induction a with
  | nil => simp [tokBits]
  | cons t a ih => simp [tokBits, ih]; omega

theorem packToks_lt (a : List (Nat × Nat)) : packToks a < 2 ^ tokBits a := by
  induction a with
  | nil => simp [packToks, tokBits]
  | cons t a ih =>
    obtain ⟨c, m⟩ := t
    simp only [packToks, tokBits, Nat.pow_add]
    have h1 : c % 2 ^ m < 2 ^ m := Nat.mod_lt _ (Nat.two_pow_pos _)
    have h2 : 2 ^ m * (packToks a + 1) ≤ 2 ^ m * 2 ^ tokBits a := Nat.mul_le_mul_left _ ih
    rw [Nat.mul_add] at h2
    omega

/-- The writer holds exactly the tokens written so far. -/
def Holds (w : BitW) (ts : List (Nat × Nat)) : Prop :=
  w.WF ∧ w.bits = tokBits ts ∧ w.val = packToks ts

theorem holds_nil : Holds {} [] := ⟨⟨by decide, by decide⟩, rfl, rfl⟩

theorem holds_put {w : BitW} {ts : List (Nat × Nat)} (h : Holds w ts) (b : BitVec 64) (n : Nat) (hn : n ≤ 64) :
    Holds (putBits b n w) (ts ++ [(b.toNat, n)]) := by
  obtain ⟨h1, h2, h3⟩ := h
  obtain ⟨p1, p2, p3⟩ := putBits_spec b n w h1 hn
  refine ⟨p1, ?_, ?_⟩
  · rw [p2, h2, tokBits_append]
  · rw [p3, h3, packToks_append, h2]

theorem holds_flush {w : BitW} {ts : List (Nat × Nat)} (h : Holds w ts) :
    fromLE (flushBits w) = packToks ts ∧ (flushBits w).length = (tokBits ts + 7) / 8 := by
  obtain ⟨h1, h2, h3⟩ := h
  have := flushBits_spec w h1
  rw [← h2, ← h3]; exact this

/-- The reader still has exactly these tokens ahead of it, then padding to the byte boundary, then `rest`. -/
def Ahead (r : BitR) (ts : List (Nat × Nat)) (rest : List Byte) : Prop :=
  r.WF ∧ (∃ J, r.cur = packToks ts + 2 ^ tokBits ts * J) ∧
    8 * rest.length + tokBits ts ≤ r.avail ∧ r.avail < 8 * rest.length + tokBits ts + 8 ∧ rest <:+ r.inp

theorem ahead_init (out rest : List Byte) (ts : List (Nat × Nat)) (hv : fromLE out = packToks ts)
    (hl : out.length = (tokBits ts + 7) / 8) : Ahead { inp := out ++ rest } ts rest := by
  refine ⟨⟨Nat.zero_lt_succ _, Nat.zero_lt_one⟩, ?_, ?_, ?_, List.suffix_append _ _⟩
  · simp only [BitR.cur, fromLE_append]
    rw [hv]
    refine ⟨2 ^ (8 * out.length - tokBits ts) * fromLE rest, ?_⟩
    rw [← Nat.mul_assoc, ← Nat.pow_add, show tokBits ts + (8 * out.length - tokBits ts) = 8 * out.length from by omega,
      pow256]
    simp
  · simp only [BitR.avail, List.length_append]; omega
  · simp only [BitR.avail, List.length_append]; omega

theorem ahead_get {r : BitR} {b n : Nat} {ts : List (Nat × Nat)} {rest : List Byte}
    (h : Ahead r ((b, n) :: ts) rest) (hn : n ≤ 64) :
    ∃ v r', getBits n r = .ok (v, r') ∧ v.toNat = b % 2 ^ n ∧ Ahead r' ts rest := by
  obtain ⟨hw, ⟨J, hJ⟩, h1, h2, h3⟩ := h
  simp only [packToks, tokBits] at hJ h1 h2
  obtain ⟨v, r', g1, g2, g3, g4, g5, g6⟩ := getBits_spec n r hw hn (by omega)
  have hcur : r.cur = b % 2 ^ n + 2 ^ n * (packToks ts + 2 ^ tokBits ts * J) := by
    rw [hJ, Nat.pow_add, Nat.mul_add, Nat.mul_assoc]; omega
  refine ⟨v, r', g1, ?_, g5, ⟨J, ?_⟩, by omega, by omega, ?_⟩
  · rw [g2, hcur, Nat.add_mul_mod_self_left, Nat.mod_mod]
  · rw [g3, hcur, Nat.add_mul_div_left _ _ (Nat.two_pow_pos _),
      Nat.div_eq_of_lt (Nat.mod_lt _ (Nat.two_pow_pos _)), Nat.zero_add]
  · apply List.suffix_of_suffix_length_le h3 g6
    have : r'.cnt < 8 := g5.1
    have : r'.avail = r'.cnt + 8 * r'.inp.length := rfl
    omega

theorem ahead_done {r : BitR} {rest : List Byte} (h : Ahead r [] rest) : r.inp = rest := by
  obtain ⟨hw, _, h1, h2, h3⟩ := h
  have hc : r.cnt < 8 := hw.1
  have ha : r.avail = r.cnt + 8 * r.inp.length := rfl
  simp only [tokBits] at h1 h2
  exact (h3.eq_of_length (by omega)).symm

end Cloudini
