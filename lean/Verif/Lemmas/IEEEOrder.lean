import Verif.Lemmas.IEEELink
import Verif.Lemmas.FloatText

/-!
# Rounding keeps order and is symmetric
-/

namespace Cloudini.IEEE
open Props

theorem roundEven_mono {a b : ℚ} (h : a ≤ b) : roundEven a ≤ roundEven b := by
  rcases lt_or_eq_of_le h with h | h
  · by_contra hc
    have h1 := abs_le.1 (roundEven_err a)
    have h2 := abs_le.1 (roundEven_err b)
    have h3 : roundEven b + 1 ≤ roundEven a := by omega
    have h4 : (roundEven b : ℚ) + 1 ≤ roundEven a := by exact_mod_cast h3
    linarith
  · rw [h]

theorem roundAway_mono {a b : ℚ} (h : a ≤ b) : roundAway a ≤ roundAway b := by
  rcases lt_or_eq_of_le h with h | h
  · by_contra hc
    have h1 := abs_le.1 (roundAway_err a)
    have h2 := abs_le.1 (roundAway_err b)
    have h3 : roundAway b + 1 ≤ roundAway a := by omega
    have h4 : (roundAway b : ℚ) + 1 ≤ roundAway a := by exact_mod_cast h3
    linarith
  · rw [h]

theorem roundAway_neg (a : ℚ) : roundAway (-a) = -roundAway a := by
  unfold roundAway
  rcases lt_trichotomy a 0 with h | h | h
  · rw [if_pos (by linarith), if_neg (by linarith)]; ring
  · subst h; norm_num
  · rw [if_neg (by linarith), if_pos h.le]; simp

theorem roundEven_tie {q : ℚ} (h : q - ⌊q⌋ = 1 / 2) : roundEven q = if ⌊q⌋ % 2 = 0 then ⌊q⌋ else ⌊q⌋ + 1 := by
  unfold roundEven
  rw [if_neg (by rw [h]; norm_num), if_neg (by rw [h]; norm_num)]

theorem roundEven_neg (a : ℚ) : roundEven (-a) = -roundEven a := by
  have h1 := Int.floor_le a
  have h2 := Int.lt_floor_add_one a
  by_cases c1 : |(roundEven a : ℚ) - a| < 1 / 2
  · apply roundEven_of_close
    push_cast
    rw [← abs_neg]
    convert c1 using 2
    ring
  · -- a tie
    have e := roundEven_err a
    have e' : |(roundEven a : ℚ) - a| = 1 / 2 := le_antisymm e (not_lt.1 c1)
    have ha : a - ⌊a⌋ = 1 / 2 := by
      unfold roundEven at e'
      split at e'
      · rw [abs_sub_comm, abs_of_nonneg (by linarith)] at e'; exact e'
      · split at e'
        · push_cast at e'
          rw [abs_of_nonneg (by linarith)] at e'
          linarith
        · linarith
    have hf : ⌊-a⌋ = -⌊a⌋ - 1 := by
      rw [Int.floor_eq_iff]
      push_cast
      constructor <;> linarith
    have hb : -a - ((-⌊a⌋ - 1 : Int) : ℚ) = 1 / 2 := by push_cast; linarith
    rw [roundEven_tie ha, roundEven_tie (q := -a) (by rw [hf]; exact hb), hf]
    split <;> split <;> omega

theorem ilog2_mono {a b : ℚ} (ha : 0 < a) (h : a ≤ b) : ilog2 a ≤ ilog2 b := by
  by_contra hc
  have h1 := (ilog2_spec ha).1
  have h2 := (ilog2_spec (lt_of_lt_of_le ha h)).2
  have h3 : (2 : ℚ) ^ (ilog2 b + 1) ≤ 2 ^ ilog2 a := zpow_le_of_le (by omega)
  linarith

namespace Fmt
variable (F : Fmt)

theorem round_mono {a b : ℚ} (ha : 0 ≤ a) (h : a ≤ b) : F.round a ≤ F.round b := by
  rcases lt_or_eq_of_le ha with ha | ha
  · have hb : 0 < b := lt_of_lt_of_le ha h
    rw [F.round_pos ha, F.round_pos hb]
    refine min_le_min_right _ ?_
    obtain ⟨m1, m2, m3, _, _⟩ := F.mant_facts ha
    obtain ⟨n1, n2, n3, _, _⟩ := F.mant_facts hb
    have l1 := F.lo_le_expo a
    have l2 := F.lo_le_expo b
    have he : F.expo a ≤ F.expo b := by
      unfold expo
      exact max_le_max_right _ (by have := ilog2_mono ha h; omega)
    rcases lt_or_eq_of_le he with he | he
    · have hn : 2 ^ F.mb ≤ F.mant b := by
        rcases n3 with n3 | n3
        · omega
        · exact n3
      have hk : (F.expo a - F.lo).toNat + 1 ≤ (F.expo b - F.lo).toNat := by omega
      have := Nat.mul_le_mul_right (2 ^ F.mb) hk
      rw [Nat.add_mul] at this
      rw [Nat.pow_succ] at m2
      omega
    · rw [← he]
      apply Nat.add_le_add_left
      unfold mant
      rw [← he]
      apply Int.toNat_le_toNat
      exact roundEven_mono (div_le_div_of_nonneg_right h (two_zpow_pos _).le)
  · subst ha
    rw [F.round_zero]
    exact Nat.zero_le _

theorem round_lt_sgn (q : ℚ) : F.round q < F.sgn := by
  refine lt_of_le_of_lt ?_ F.inf_lt_sgn
  unfold round
  split
  · exact Nat.zero_le _
  · exact min_le_right _ _

/-- The number an operation with the exact result `q` returns. -/
def rnd (q : ℚ) : ℚ := if 0 ≤ q then F.magVal (F.round q) else -F.magVal (F.round (-q))

theorem magVal_mono {a b : Nat} (h : a ≤ b) : F.magVal a ≤ F.magVal b := by
  rcases lt_or_eq_of_le h with h | h
  · exact (FloatTxt.magVal_strict F h).le
  · rw [h]

theorem rnd_mono {a b : ℚ} (h : a ≤ b) : F.rnd a ≤ F.rnd b := by
  unfold rnd
  split
  · rw [if_pos (by linarith)]
    exact F.magVal_mono (F.round_mono (by assumption) h)
  · split
    · have := F.magVal_nonneg (F.round (-a)); have := F.magVal_nonneg (F.round b); linarith
    · have := F.magVal_mono (F.round_mono (a := -b) (b := -a) (by linarith) (by linarith))
      linarith

theorem rnd_zero : F.rnd 0 = 0 := by unfold rnd; rw [if_pos le_rfl, F.round_zero, F.magVal_zero]

theorem rnd_neg (a : ℚ) : F.rnd (-a) = -F.rnd a := by
  rcases lt_trichotomy a 0 with h | h | h
  · unfold rnd; rw [if_pos (by linarith), if_neg (by linarith)]; ring
  · subst h; rw [neg_zero, F.rnd_zero]; ring
  · unfold rnd; rw [if_neg (by linarith), if_pos h.le, neg_neg]

theorem val_ofRat {s : Bool} {q : ℚ} (hs : SignOk s q) : F.val (F.ofRat s q) = F.rnd q := by
  have h2 := F.round_lt_sgn |q|
  have hv : F.val (F.ofRat s q) = if s then -F.magVal (F.round |q|) else F.magVal (F.round |q|) := by
    unfold val ofRat
    rw [F.mag_ofRat h2, F.neg_ofRat h2]
  rw [hv]
  unfold rnd
  cases s
  · simp only [SignOk, Bool.false_eq_true, if_false] at hs ⊢
    rw [if_pos hs, abs_of_nonneg hs]
  · simp only [SignOk, if_true] at hs ⊢
    rw [abs_of_nonpos hs]
    split
    · have : q = 0 := le_antisymm hs (by assumption)
      subst this
      rw [neg_zero, F.round_zero, F.magVal_zero]; ring
    · rfl

theorem ofRat_lt (s : Bool) (q : ℚ) : F.ofRat s q < 2 * F.sgn := by
  have h2 := F.round_lt_sgn |q|
  unfold ofRat
  split <;> omega

theorem val_mul {a b : Nat} (ha : F.isFin a = true) (hb : F.isFin b = true) : F.val (F.mul a b) = F.rnd (F.val a * F.val b) := by
  rw [F.mul_eq ha hb, F.val_ofRat (sign_mul (F.val_sign a) (F.val_sign b))]

theorem val_ofInt (z : Int) : F.val (F.ofInt z) = F.rnd z := by
  unfold ofInt
  apply F.val_ofRat
  unfold SignOk
  by_cases h : z < 0
  · simp only [h, decide_true, if_true]; exact_mod_cast h.le
  · simp only [h, decide_false, Bool.false_eq_true, if_false]; exact_mod_cast (not_lt.1 h)

end Fmt
/-- A number through the lossy codec: multiplied, rounded to an integer, converted back, multiplied, each operation rounded. -/
def through (F : Fmt) (toInt : ℚ → Int) (m r x : ℚ) : ℚ := F.rnd (F.rnd (toInt (F.rnd (x * m))) * r)

theorem through_mono (F : Fmt) {toInt : ℚ → Int} (ht : ∀ {a b}, a ≤ b → toInt a ≤ toInt b) {m r x y : ℚ} (hm : 0 ≤ m) (hr : 0 ≤ r) (h : x ≤ y) :
    through F toInt m r x ≤ through F toInt m r y := by
  unfold through
  apply F.rnd_mono
  apply mul_le_mul_of_nonneg_right _ hr
  apply F.rnd_mono
  exact_mod_cast ht (F.rnd_mono (mul_le_mul_of_nonneg_right h hm))

theorem through_neg (F : Fmt) {toInt : ℚ → Int} (ht : ∀ a, toInt (-a) = -toInt a) (m r x : ℚ) : through F toInt m r (-x) = -through F toInt m r x := by
  unfold through
  rw [neg_mul, F.rnd_neg, ht]
  push_cast
  rw [F.rnd_neg, neg_mul, F.rnd_neg]

theorem ofInt_fin (F : Fmt) (hF : F.Ok) (hn : F.lo + F.mb ≤ 0) (ht : 127 ≤ F.top) {z : Int} (h1 : -2 ^ 63 ≤ z) (h2 : z ≤ 2 ^ 63) : F.isFin (F.ofInt z) = true := by
  refine (F.ofInt_spec hF hn ?_).1
  have h3 : |z| ≤ 2 ^ 63 := abs_le.2 ⟨h1, h2⟩
  have h4 : |(z : ℚ)| ≤ 2 ^ 63 := by exact_mod_cast h3
  exact h4.trans (le_trans (by norm_num) (zpow_le_of_le ht))

theorem dequant32_val {r : BitVec 32} (hr : Finite32 r) (n : BitVec 64) : real32 (ops.dequant32 r n) = b32.rnd (b32.rnd n.toInt * real32 r) := by
  have hn := ofInt_fin b32 Fmt.b32_ok (by decide) (by rw [b32_top]) (z := n.toInt) (by simpa using n.le_toInt) (by simpa using n.toInt_lt.le)
  have hr' := (fin32_iff r).2 hr
  have hlt : b32.mul (b32.ofInt n.toInt) r.toNat < 2 * b32.sgn := by rw [b32.mul_eq hn hr']; exact b32.ofRat_lt _ _
  have hv : (ops.dequant32 r n).toNat = b32.mul (b32.ofInt n.toInt) r.toNat := toNat_ofNat32 hlt
  rw [real32_eq, real32_eq, hv, b32.val_mul hn hr', b32.val_ofInt]

theorem dequantV_val {r : BitVec 32} (hr : Finite32 r) (n : BitVec 32) : real32 (ops.dequantV r n) = b32.rnd (b32.rnd n.toInt * real32 r) := by
  have e : (n.signExtend 64).toInt = n.toInt := BitVec.toInt_signExtend_of_le (by decide)
  have := dequant32_val hr (n.signExtend 64)
  rw [e] at this
  rw [← this]
  show real32 (BitVec.ofNat 32 (b32.mul (b32.ofInt n.toInt) r.toNat)) = real32 (BitVec.ofNat 32 (b32.mul (b32.ofInt (n.signExtend 64).toInt) r.toNat))
  rw [e]

theorem toI64_toInt (F : Fmt) {p : Nat} {n : BitVec 64} (h : toI64 F p = some n) : n.toInt = roundAway (F.val p) := by
  unfold toI64 at h
  split at h
  · rename_i c
    simp only [Option.some.injEq] at h
    rw [← h]
    exact ofInt64_toInt c.2.1 c.2.2
  · cases h

/-- What the scalar codec makes of a number. -/
theorem through32 {r x : BitVec 32} {n : BitVec 64} (hr : GoodRes r) (hx : Finite32 x) (h : ops.quant32 r x = some n) :
    real32 (ops.dequant32 r n) = through b32 roundAway (b32.val (mult32 r)) (real32 r) (real32 x) := by
  obtain ⟨r1, r2, r3, r4⟩ := good_res hr
  obtain ⟨m1, _⟩ := mult32_spec r1 r2 r3
  rw [dequant32_val hr.1, toI64_toInt b32 h, b32.val_mul ((fin32_iff x).2 hx) m1, ← real32_eq x]
  rfl

theorem mult32_nonneg {r : BitVec 32} (hr : GoodRes r) : 0 ≤ b32.val (mult32 r) := by
  obtain ⟨r1, r2, r3, r4⟩ := good_res hr
  obtain ⟨_, m2⟩ := mult32_spec r1 r2 r3
  have h := abs_le.1 m2
  have hq : 0 < 1 / b32.val r.toNat := by positivity
  have : a32 * (1 / b32.val r.toNat) ≤ 1 * (1 / b32.val r.toNat) := mul_le_mul_of_nonneg_right (by unfold a32; norm_num) hq.le
  linarith

theorem multV_nonneg {r : BitVec 32} (hr : GoodRes r) : 0 ≤ b32.val (multV r) := by
  obtain ⟨r1, r2, r3, r4⟩ := good_res hr
  obtain ⟨_, m2, _⟩ := multV_spec r1 (le_trans (zpow_le_of_le (by norm_num)) r2) (r3.trans (zpow_le_of_le (by norm_num)))
  have h := abs_le.1 m2
  have hq : 0 < 1 / b32.val r.toNat := by positivity
  have : (2 : ℚ) ^ (-24 : Int) * (1 / b32.val r.toNat) ≤ 1 * (1 / b32.val r.toNat) := mul_le_mul_of_nonneg_right (by norm_num) hq.le
  linarith

/-- What the vector codec makes of a number. -/
theorem throughV {r x : BitVec 32} (hr : GoodRes r) (hx : Finite32 x) (h : ops.quantV r x ≠ BitVec.intMin 32) :
    real32 (ops.dequantV r (ops.quantV r x)) = through b32 roundEven (b32.val (multV r)) (real32 r) (real32 x) := by
  obtain ⟨r1, r2, r3, r4⟩ := good_res hr
  obtain ⟨m1, m2, _⟩ := multV_spec r1 (le_trans (zpow_le_of_le (by norm_num)) r2) (r3.trans (zpow_le_of_le (by norm_num)))
  have hq : (ops.quantV r x).toInt = roundEven (b32.val (b32.mul x.toNat (multV r))) := by
    have e : ops.quantV r x = toI32 (b32.mul x.toNat (multV r)) := rfl
    rw [e] at h ⊢
    unfold toI32 at h ⊢
    split
    · rename_i c; exact ofInt32_toInt c.2.1 c.2.2
    · rename_i c; rw [if_neg c] at h; exact absurd rfl h
  rw [dequantV_val hr.1, hq, b32.val_mul ((fin32_iff x).2 hx) m1, ← real32_eq x]
  rfl

theorem dequant64_val {r : BitVec 32} (hr : GoodRes r) (n : BitVec 64) : real64 (ops.dequant64 r n) = b64.rnd (b64.rnd n.toInt * real32 r) := by
  have hn := ofInt_fin b64 Fmt.b64_ok (by decide) (by rw [b64_top]; norm_num) (z := n.toInt) (by simpa using n.le_toInt) (by simpa using n.toInt_lt.le)
  obtain ⟨w1, w2⟩ := widen_spec ((fin32_iff r).2 hr.1)
  have hlt : b64.mul (b64.ofInt n.toInt) (widen r.toNat) < 2 * b64.sgn := by rw [b64.mul_eq hn w1]; exact b64.ofRat_lt _ _
  have hv : (ops.dequant64 r n).toNat = b64.mul (b64.ofInt n.toInt) (widen r.toNat) := toNat_ofNat64 hlt
  rw [real64_eq, hv, b64.val_mul hn w1, b64.val_ofInt, w2, real32_eq]

/-- What the codec of doubles makes of a number. -/
theorem through64 {r : BitVec 32} {x n : BitVec 64} (hr : GoodRes r) (hx : Finite64 x) (h : ops.quant64 r x = some n) :
    real64 (ops.dequant64 r n) = through b64 roundAway (b64.val (mult64 r)) (real32 r) (real64 x) := by
  obtain ⟨r1, r2, r3, r4⟩ := good_res hr
  obtain ⟨m1, _, _⟩ := mult64_spec r1 (le_trans (zpow_le_of_le (by norm_num)) r2) (r3.trans (zpow_le_of_le (by norm_num)))
  rw [dequant64_val hr, toI64_toInt b64 h, b64.val_mul ((fin64_iff x).2 hx) m1, ← real64_eq x]
  rfl

theorem mult64_nonneg {r : BitVec 32} (hr : GoodRes r) : 0 ≤ b64.val (mult64 r) := by
  obtain ⟨r1, r2, r3, r4⟩ := good_res hr
  exact (mult64_spec r1 (le_trans (zpow_le_of_le (by norm_num)) r2) (r3.trans (zpow_le_of_le (by norm_num)))).2.2

end Cloudini.IEEE
