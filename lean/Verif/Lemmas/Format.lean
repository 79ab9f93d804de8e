import Verif.Spec.Format
import Verif.Lemmas.CostColumn
import Verif.Lemmas.Gorilla

/-! # The bytes of the field codecs in the terms of `Spec/Format` (helper lemmas for C90) -/

namespace Cloudini

/-! ### numbers -/

theorem format_le (n v : Nat) : Format.le n v = toLE n v := by
  induction n generalizing v with
  | zero => rfl
  | succ n ih =>
    simp only [Format.le, toLE, ih]
    congr 1
    apply BitVec.eq_of_toNat_eq
    simp

theorem format_unle (bs : List Byte) : Format.unle bs = fromLE bs := by
  induction bs with
  | nil => rfl
  | cons b bs ih => simp only [Format.unle, fromLE, ih]

theorem format_groups (v : BitVec 64) : Format.groups v.toNat = lebBytes v := by
  induction v using lebBytes.induct with
  | case1 v h ih =>
    rw [lebBytes, dif_pos h, Format.groups, if_neg (by omega), ← ih, ushr7_toNat]
    congr 1
    apply BitVec.eq_of_toNat_eq
    rw [contByte_toNat, BitVec.toNat_ofNat]
    omega
  | case2 v h =>
    rw [lebBytes, dif_neg h, Format.groups, if_pos (by omega)]
    apply congrArg (fun b => [b])
    apply BitVec.eq_of_toNat_eq
    simp

theorem format_groups_nat (n : Nat) (h : n < 2 ^ 64) : Format.groups n = lebBytes (BitVec.ofNat 64 n) := by
  rw [← format_groups, BitVec.toNat_ofNat, Nat.mod_eq_of_lt h]

theorem format_signed (d : BitVec 64) : Format.signed d.toInt = encodeVarint64 d := by
  unfold Format.signed encodeVarint64
  rw [← format_groups]
  congr 1
  have h := zigzagPlus1_toNat d
  have h1 := d.le_toInt
  have h2 := d.toInt_lt
  by_cases a : d.toInt = -2 ^ 63
  · rw [if_pos a] at h
    rw [if_neg (by omega)]
    omega
  · rw [if_neg a] at h
    split at h
    · next b => rw [if_pos b]; omega
    · next b => rw [if_neg b]; omega

theorem sub_toInt {a b d : BitVec 64} (h : subI64 a b = .ok d) : d.toInt = a.toInt - b.toInt := by
  rw [subI64_eq_ok] at h
  obtain ⟨h1, rfl⟩ := h
  simp only [BitVec.ssubOverflow, Bool.or_eq_false_iff, decide_eq_false_iff_not] at h1
  rw [BitVec.toInt_sub]
  apply Int.bmod_eq_of_le <;> omega

/-- The number of an integer field. -/
theorem format_number {s : Nat} {g : Bool} {bs : List Byte} (hl : bs.length = s) (hs : 0 < s) (h8 : s ≤ 8) :
    (toI64 s g bs).toInt = Format.number (g || s == 8) bs := by
  have hb := fromLE_bound bs s (by omega)
  unfold toI64 Format.number
  rw [format_unle, hl]
  have hp : 2 ^ (8 * s) ≤ 2 ^ 64 := Nat.pow_le_pow_right (by decide) (by omega)
  cases g
  · simp only [Bool.false_eq_true, if_false, Bool.false_or, beq_iff_eq]
    rw [BitVec.toInt_eq_toNat_cond, BitVec.toNat_ofNat, Nat.mod_eq_of_lt (by omega)]
    by_cases h : s = 8
    · subst h
      simp only [Nat.reduceMul, true_and] at hb ⊢
      split <;> split <;> omega
    · have : 2 ^ (8 * s) ≤ 2 ^ 56 := Nat.pow_le_pow_right (by decide) (by omega)
      rw [if_pos (by omega), if_neg (fun h' : s = 8 ∧ _ => h h'.1)]
  · simp only [if_true, Bool.true_or, true_and]
    rw [BitVec.toInt_signExtend_of_le (by omega), BitVec.toInt_eq_toNat_cond, BitVec.toNat_ofNat, Nat.mod_eq_of_lt hb]
    have e : ((2 ^ (8 * s) : Nat) : Int) = 2 ^ (8 * s) := by simp
    split <;> split <;> omega

theorem format_nan32 (bs : List Byte) (hl : bs.length = 4) : Format.nan32 bs ↔ isNaN32 (BitVec.ofNat 32 (fromLE bs)) = true := by
  have hb := fromLE_bound bs 4 (by omega)
  unfold Format.nan32 isNaN32
  rw [format_unle, BitVec.toNat_ofNat, Nat.mod_eq_of_lt hb, decide_eq_true_eq]
  omega

theorem format_nan64 (bs : List Byte) (hl : bs.length = 8) : Format.nan64 bs ↔ isNaN64 (BitVec.ofNat 64 (fromLE bs)) = true := by
  have hb := fromLE_bound bs 8 (by omega)
  unfold Format.nan64 isNaN64
  rw [format_unle, BitVec.toNat_ofNat, Nat.mod_eq_of_lt hb, decide_eq_true_eq]
  omega

theorem format_joined (ts : List (Nat × Nat)) : Format.joined ts = packToks ts := by
  induction ts with
  | nil => rfl
  | cons t ts ih => simp only [Format.joined, packToks, ih]

theorem tokBits_sum (ts : List (Nat × Nat)) : (ts.map (·.2)).sum = tokBits ts := by
  induction ts with
  | nil => rfl
  | cons t ts ih => simp only [List.map_cons, List.sum_cons, tokBits, ih]

theorem format_packed {w : BitW} {ts : List (Nat × Nat)} (h : Holds w ts) : flushBits w = Format.packed ts := by
  obtain ⟨h1, h2⟩ := holds_flush h
  unfold Format.packed
  rw [format_le, format_joined, tokBits_sum, ← h1, ← h2, toLE_fromLE]

/-! ### the zeros around a number -/

theorem clz_format (w x : Nat) (hx : x ≠ 0) (hw : x < 2 ^ w) : countlZero w x = Format.zerosBefore w x := by
  unfold Format.zerosBefore
  induction w with
  | zero => omega
  | succ w ih =>
    unfold countlZero
    by_cases h : x / 2 ^ w % 2 = 1
    · rw [if_pos h]
      have : 2 ^ w ≤ x := by
        refine Nat.le_of_not_lt fun hlt => ?_
        rw [Nat.div_eq_of_lt hlt] at h
        omega
      have := (Nat.le_log2 hx).2 this
      have := (Nat.log2_lt hx).2 hw
      omega
    · rw [if_neg h]
      have hlt : x < 2 ^ w := by
        refine Nat.lt_of_not_le fun hle => h ?_
        have h1 : x / 2 ^ w = 1 := by
          rw [Nat.pow_succ] at hw
          have : x / 2 ^ w < 2 := Nat.div_lt_of_lt_mul hw
          have : 1 ≤ x / 2 ^ w := (Nat.le_div_iff_mul_le (Nat.two_pow_pos w)).2 (by omega)
          omega
        rw [h1]
      have := (Nat.log2_lt hx).2 hlt
      rw [ih hlt]
      omega

theorem findIdx_range_succ (p : Nat → Bool) (n : Nat) :
    (List.range (n + 1)).findIdx p = if p 0 then 0 else 1 + (List.range n).findIdx fun j => p (j + 1) := by
  rw [List.range_succ_eq_map, List.findIdx_cons]
  cases h : p 0
  · simp only [cond_false, Bool.false_eq_true, if_false]
    rw [List.findIdx_map, Nat.add_comm]
    rfl
  · simp

theorem ctz_range (w x n : Nat) (hx : x ≠ 0) (hw : x < 2 ^ w) (hn : w ≤ n) :
    countrZero w x = (List.range n).findIdx fun j => x.testBit j := by
  induction w generalizing x n with
  | zero => omega
  | succ w ih =>
    cases n with
    | zero => omega
    | succ n =>
      rw [findIdx_range_succ, countrZero]
      have h0 : x.testBit 0 = decide (x % 2 = 1) := Nat.testBit_zero x
      by_cases h : x % 2 = 1
      · rw [if_pos h, if_pos (by rw [h0]; simpa using h)]
      · rw [if_neg h, if_neg (by rw [h0]; simpa using h), ih (x / 2) n (by omega) (by rw [Nat.pow_succ] at hw; omega) (by omega)]
        simp only [Nat.testBit_succ]

theorem ctz_format (w x : Nat) (hx : x ≠ 0) (hw : x < 2 ^ w) (h64 : w ≤ 64) : countrZero w x = Format.zerosBehind x :=
  ctz_range w x 64 hx hw h64

/-! ### the codecs -/

/-- The bytes of a field over the points of a chunk that starts at `mem`. -/
def colOf (step : Nat) (mem : List Byte) (o s j : Nat) : List Byte := sub (mem.drop (j * step)) o s

/-- The fields an encoder writes: where they are and how they are written. -/
def Enc.parts : Enc → List (Nat × Nat × Format.Kind)
  | .copy o s => [(o, s, .raw)]
  | .int o s g _ => [(o, s, .delta (g || s == 8))]
  | .lossy32 o r _ => [(o, 4, .steps32 r)]
  | .lossy64 o r _ => [(o, 8, .steps64 r)]
  | .xor o s _ => [(o, s, .changed)]
  | .gorilla o s _ => [(o, s, .window)]
  | .floatN ls => ls.map fun l => (l.off, 4, .lane l.res)

def Enc.SizeOK : Enc → Prop
  | .int _ s _ _ => 0 < s ∧ s ≤ 8
  | .xor _ s _ => s ≤ 8
  | .gorilla _ s _ => s = 4 ∨ s = 8
  | _ => True

/-- What an encoder remembers before point `i`. -/
def Enc.At (F : FloatOps) (step : Nat) (mem : List Byte) (i : Nat) : Enc → Prop
  | .copy _ _ => True
  | .int o s g p => p.toInt = Format.before 0 (fun j => Format.number (g || s == 8) (colOf step mem o s j)) i
  | .lossy32 o r p => p.toInt = Format.before 0 (fun j => (Format.stepsOf32 F r (colOf step mem o 4 j)).getD 0) i
  | .lossy64 o r p => p.toInt = Format.before 0 (fun j => (Format.stepsOf64 F r (colOf step mem o 8 j)).getD 0) i
  | .xor o s p => p.toNat = Format.before 0 (fun j => Format.unle (colOf step mem o s j)) i
  | .gorilla o s st => GorillaInv (8 * s) st ∧ st.first = decide (i = 0) ∧
      (i ≠ 0 → st.prev.toNat = Format.unle (colOf step mem o s (i - 1))) ∧
      Format.remembered (8 * s) (colOf step mem o s) i = if st.leading = 255 then none else some (st.leading, st.trailing)
  | .floatN ls => ∀ l ∈ ls, l.prev.toInt = Format.before 0 (fun j => (Format.stepsOfLane F l.res (colOf step mem l.off 4 j)).getD 0) i

/-- The bytes of point `i`. -/
def partBytes (F : FloatOps) (step : Nat) (mem : List Byte) (i : Nat) (p : Nat × Nat × Format.Kind) : List Byte :=
  Format.valueBytes F p.2.2 (colOf step mem p.1 p.2.1) i

theorem parts_reset (e : Enc) : e.reset.parts = e.parts := by
  cases e <;> simp [Enc.reset, Enc.parts]

theorem sized_reset {e : Enc} (h : e.SizeOK) : e.reset.SizeOK := by
  cases e <;> simpa [Enc.reset, Enc.SizeOK] using h

theorem reset_at (F : FloatOps) (step : Nat) (mem : List Byte) (e : Enc) : e.reset.At F step mem 0 := by
  cases e with
  | gorilla o s st => exact ⟨gorillaInv_init _, rfl, by simp, by simp [Format.remembered]⟩
  | _ => simp [Enc.reset, Enc.At, Format.before]

theorem before_succ {α : Type} (a : α) (v : Nat → α) (i : Nat) : Format.before a v (i + 1) = v i := by
  simp [Format.before]

theorem before_map {α β : Type} (g : α → β) (a : α) (v : Nat → α) (i : Nat) : g (Format.before a v i) = Format.before (g a) (fun j => g (v j)) i := by
  unfold Format.before; split <;> rfl

theorem zipWith_xor_LE (n a b : Nat) : List.zipWith (fun x y : Byte => x ^^^ y) (toLE n a) (toLE n b) = toLE n (a ^^^ b) := by
  induction n generalizing a b with
  | zero => rfl
  | succ n ih =>
    simp only [toLE, List.zipWith_cons_cons, ih]
    congr 1
    · apply BitVec.eq_of_toNat_eq
      simp only [BitVec.toNat_xor, BitVec.toNat_ofNat]
      exact (Nat.xor_mod_two_pow (n := 8)).symm
    · congr 1
      exact (Nat.xor_div_two_pow (n := 8)).symm

theorem unle_replicate (n : Nat) : toLE n 0 = List.replicate n 0#8 := by
  induction n with
  | zero => rfl
  | succ n ih => simp [toLE, ih, List.replicate_succ]

/-- The Gorilla coder writes what `windowed` says. -/
theorem gorilla_bytes (tb : Nat) (htb : tb = 32 ∨ tb = 64) (st : GorillaState) (hi : GorillaInv tb st) (hf : st.first = false)
    (cur : BitVec 64) (hcur : cur.toNat < 2 ^ tb) (last : Option (Nat × Nat))
    (hlast : last = if st.leading = 255 then none else some (st.leading, st.trailing)) :
    (gorillaEncode tb st cur).2 = Format.packed (Format.windowed tb last (cur.toNat ^^^ st.prev.toNat)).1 ∧
      (gorillaEncode tb st cur).1.first = false ∧ (gorillaEncode tb st cur).1.prev = cur ∧
      (Format.windowed tb last (cur.toNat ^^^ st.prev.toNat)).2 =
        if (gorillaEncode tb st cur).1.leading = 255 then none else some ((gorillaEncode tb st cur).1.leading, (gorillaEncode tb st cur).1.trailing) := by
  obtain ⟨hprev, hfirst, hwin⟩ := hi
  have htb64 : tb ≤ 64 := by omega
  generalize hres : gorillaEncode tb st cur = res
  unfold gorillaEncode at hres
  rw [if_neg (by rw [hf]; simp)] at hres
  simp only at hres
  have hxn : (cur ^^^ st.prev).toNat = cur.toNat ^^^ st.prev.toNat := BitVec.toNat_xor _ _
  have hlt := xor_toNat_lt hcur hprev
  rw [hxn] at hlt
  unfold Format.windowed
  simp only
  by_cases hx : cur ^^^ st.prev = 0#64
  · rw [if_pos hx] at hres
    subst hres
    rw [if_pos (by rw [← hxn, hx]; rfl)]
    exact ⟨format_packed (holds_put holds_nil 0#64 1 (by omega)), hf, rfl, hlast⟩
  · have hx0 : cur.toNat ^^^ st.prev.toNat ≠ 0 := by
      rw [← hxn]; intro h; exact hx (BitVec.eq_of_toNat_eq (by rw [h]; rfl))
    rw [if_neg hx, hxn, clz_format _ _ hx0 hlt, ctz_format _ _ hx0 hlt htb64] at hres
    rw [if_neg hx0]
    have hsum := clz_add_ctz_lt tb _ hx0 hlt
    rw [clz_format _ _ hx0 hlt, ctz_format _ _ hx0 hlt htb64] at hsum
    generalize hX : cur.toNat ^^^ st.prev.toNat = x at *
    generalize hL : Format.zerosBefore tb x = L at *
    generalize hT : Format.zerosBehind x = T at *
    have hmin : (if L > 31 then 31 else L) = min 31 L := by split <;> omega
    -- the new window
    have hfresh : flushBits (putBits ((cur ^^^ st.prev) >>> T) (subU8 tb (if L > 31 then 31 else L) T)
          (putBits (BitVec.ofNat 64 (subU8 tb (if L > 31 then 31 else L) T - 1)) 6
            (putBits (BitVec.ofNat 64 (if L > 31 then 31 else L)) 5 (putBits 1#64 1 (putBits 1#64 1 {}))))) =
        Format.packed [(1, 1), (1, 1), (min 31 L, 5), (tb - min 31 L - T - 1, 6), (x / 2 ^ T, tb - min 31 L - T)] := by
      rw [hmin, subU8_eq (by omega) htb64]
      have h1 := holds_put (holds_put (holds_put (holds_put (holds_put holds_nil 1#64 1 (by omega)) 1#64 1 (by omega))
        (BitVec.ofNat 64 (min 31 L)) 5 (by omega)) (BitVec.ofNat 64 (tb - min 31 L - T - 1)) 6 (by omega))
        ((cur ^^^ st.prev) >>> T) (tb - min 31 L - T) (by omega)
      rw [format_packed h1]
      simp only [List.nil_append, List.cons_append, BitVec.toNat_ofNat, ushr_toNat, hxn, hX]
      rw [Nat.mod_eq_of_lt (a := min 31 L) (by omega), Nat.mod_eq_of_lt (a := tb - min 31 L - T - 1) (by omega)]
    have hlead : (if L > 31 then 31 else L) ≠ 255 := by split <;> omega
    by_cases h255 : st.leading = 255
    · rw [if_neg (fun h => h.1 h255)] at hres
      subst hres
      rw [if_pos h255] at hlast
      subst hlast
      refine ⟨hfresh, hf, rfl, ?_⟩
      rw [if_neg hlead, hmin]
    · have hw := hwin.resolve_left h255
      rw [if_neg h255] at hlast
      subst hlast
      simp only
      by_cases hk : L ≥ st.leading ∧ T ≥ st.trailing
      · rw [if_pos ⟨h255, hk⟩] at hres
        subst hres
        rw [if_pos (show st.leading ≤ L ∧ st.trailing ≤ T from hk)]
        refine ⟨?_, hf, rfl, ?_⟩
        · rw [subU8_eq (by omega) htb64]
          have h1 := holds_put (holds_put (holds_put holds_nil 1#64 1 (by omega)) 0#64 1 (by omega))
            ((cur ^^^ st.prev) >>> st.trailing) (tb - st.leading - st.trailing) (by omega)
          rw [format_packed h1]
          simp only [List.nil_append, List.cons_append, BitVec.toNat_ofNat, ushr_toNat, hxn, hX]
        · simp only [if_neg h255]
      · rw [if_neg (fun h => hk h.2)] at hres
        subst hres
        rw [if_neg (show ¬ (st.leading ≤ L ∧ st.trailing ≤ T) from hk)]
        refine ⟨hfresh, hf, rfl, ?_⟩
        rw [if_neg hlead, hmin]

theorem colOf_read {step o s i : Nat} {mem bs : List Byte} (h : readAt (mem.drop (i * step)) o s = .ok bs) :
    bs = colOf step mem o s i ∧ bs.length = s := by
  rw [readAt_eq_ok] at h
  obtain ⟨h1, rfl⟩ := h
  exact ⟨rfl, by rw [List.length_take, List.length_drop]; omega⟩

theorem lane_bytes (F : FloatOps) (step : Nat) (mem : List Byte) (i : Nat) (l l' : Lane) (bs : List Byte)
    (hat : l.prev.toInt = Format.before 0 (fun j => (Format.stepsOfLane F l.res (colOf step mem l.off 4 j)).getD 0) i)
    (h : laneEncode F (mem.drop (i * step)) l = .ok (l', bs)) :
    bs = Format.valueBytes F (.lane l.res) (colOf step mem l.off 4) i ∧ l'.off = l.off ∧ l'.res = l.res ∧
      l'.prev.toInt = (Format.stepsOfLane F l.res (colOf step mem l.off 4 i)).getD 0 := by
  unfold laneEncode at h
  obtain ⟨b, hb, h⟩ := Res.bind_eq_ok.1 h
  obtain ⟨hb, hl⟩ := colOf_read hb
  simp only at h
  have hnan := format_nan32 b hl
  rw [hb] at hnan h
  simp only [Format.valueBytes, Format.stepsOfLane]
  by_cases hn : isNaN32 (BitVec.ofNat 32 (fromLE (colOf step mem l.off 4 i))) = true
  · rw [if_pos hn] at h
    cases h
    rw [if_pos (hnan.2 hn)]
    exact ⟨rfl, rfl, rfl, rfl⟩
  · rw [if_neg hn] at h
    cases h
    rw [if_neg (fun h => hn (hnan.1 h)), format_unle]
    refine ⟨?_, rfl, rfl, rfl⟩
    simp only
    rw [← format_signed, BitVec.toInt_signExtend_of_le (by omega), BitVec.toInt_sub, hat]
    rfl

theorem lanes_bytes (F : FloatOps) (step : Nat) (mem : List Byte) (i : Nat) (ls ls' : List Lane) (bs : List Byte)
    (hat : ∀ l ∈ ls, l.prev.toInt = Format.before 0 (fun j => (Format.stepsOfLane F l.res (colOf step mem l.off 4 j)).getD 0) i)
    (h : lanesEncode F (mem.drop (i * step)) ls = .ok (ls', bs)) :
    bs = (ls.map fun l => ((l.off, 4, .lane l.res) : Nat × Nat × Format.Kind)).flatMap (partBytes F step mem i) ∧
      (ls'.map fun l => ((l.off, 4, .lane l.res) : Nat × Nat × Format.Kind)) = (ls.map fun l => (l.off, 4, .lane l.res)) ∧
      ∀ l ∈ ls', l.prev.toInt = (Format.stepsOfLane F l.res (colOf step mem l.off 4 i)).getD 0 := by
  induction ls generalizing ls' bs with
  | nil => cases h; exact ⟨rfl, rfl, by simp⟩
  | cons l ls ih =>
    unfold lanesEncode at h
    obtain ⟨⟨l1, b1⟩, h1, h⟩ := Res.bind_eq_ok.1 h
    obtain ⟨⟨ls1, b2⟩, h2, h⟩ := Res.bind_eq_ok.1 h
    cases h
    obtain ⟨r1, r2, r3, r4⟩ := lane_bytes F step mem i l l1 b1 (hat l (by simp)) h1
    obtain ⟨s1, s2, s3⟩ := ih ls1 b2 (fun x hx => hat x (by simp [hx])) h2
    refine ⟨?_, ?_, ?_⟩
    · rw [List.map_cons, List.flatMap_cons, ← s1, r1]; rfl
    · rw [List.map_cons, List.map_cons, s2, r2, r3]
    · intro x hx
      simp only [List.mem_cons] at hx
      rcases hx with rfl | hx
      · rw [r2, r3]; exact r4
      · exact s3 x hx

theorem step_bytes (F : FloatOps) (step : Nat) (mem : List Byte) (i : Nat) (e e' : Enc) (bs : List Byte) (hs : e.SizeOK)
    (hat : e.At F step mem i) (h : e.step F (mem.drop (i * step)) = .ok (e', bs)) :
    bs = e.parts.flatMap (partBytes F step mem i) ∧ e'.At F step mem (i + 1) ∧ e'.parts = e.parts ∧ e'.SizeOK := by
  cases e with
  | copy o s =>
    unfold Enc.step at h
    obtain ⟨b, hb, h⟩ := Res.bind_eq_ok.1 h
    cases h
    obtain ⟨rfl, hl⟩ := colOf_read hb
    refine ⟨?_, trivial, rfl, trivial⟩
    simp [Enc.parts, partBytes, Format.valueBytes]
  | int o s g p =>
    unfold Enc.step at h
    obtain ⟨b, hb, h⟩ := Res.bind_eq_ok.1 h
    obtain ⟨d, hd, h⟩ := Res.bind_eq_ok.1 h
    cases h
    obtain ⟨hb, hl⟩ := colOf_read hb
    have hn := format_number (g := g) hl hs.1 hs.2
    refine ⟨?_, ?_, rfl, hs⟩
    · simp only [Enc.parts, partBytes, Format.valueBytes, List.flatMap_cons, List.flatMap_nil, List.append_nil]
      rw [← format_signed, sub_toInt hd, hn, hat, hb]
    · simp only [Enc.At, before_succ]
      rw [hn, hb]
  | lossy32 o r p =>
    unfold Enc.step at h
    obtain ⟨b, hb, h⟩ := Res.bind_eq_ok.1 h
    obtain ⟨hb, hl⟩ := colOf_read hb
    have hnan := format_nan32 b hl
    simp only [Enc.parts, partBytes, Format.valueBytes, List.flatMap_cons, List.flatMap_nil, List.append_nil]
    simp only [Enc.At] at hat
    simp only at h
    by_cases hn : isNaN32 (BitVec.ofNat 32 (fromLE b)) = true
    · rw [if_pos hn] at h
      cases h
      have e0 : Format.stepsOf32 F r (colOf step mem o 4 i) = none := by
        unfold Format.stepsOf32; rw [← hb, if_pos (hnan.2 hn)]
      refine ⟨by rw [e0], ?_, rfl, trivial⟩
      simp only [Enc.At, before_succ, e0]
      rfl
    · rw [if_neg hn] at h
      cases hq : F.quant32 r (BitVec.ofNat 32 (fromLE b)) with
      | none => rw [hq] at h; cases h
      | some q =>
        rw [hq] at h
        simp only at h
        obtain ⟨d, hd, h⟩ := Res.bind_eq_ok.1 h
        cases h
        have e0 : Format.stepsOf32 F r (colOf step mem o 4 i) = some q.toInt := by
          unfold Format.stepsOf32; rw [← hb, if_neg (fun h => hn (hnan.1 h)), format_unle, hq]; rfl
        refine ⟨?_, ?_, rfl, trivial⟩
        · rw [e0]
          simp only
          rw [← hat, ← sub_toInt hd, format_signed]
        · simp only [Enc.At, before_succ, e0]
          rfl
  | lossy64 o r p =>
    unfold Enc.step at h
    obtain ⟨b, hb, h⟩ := Res.bind_eq_ok.1 h
    obtain ⟨hb, hl⟩ := colOf_read hb
    have hnan := format_nan64 b hl
    simp only [Enc.parts, partBytes, Format.valueBytes, List.flatMap_cons, List.flatMap_nil, List.append_nil]
    simp only [Enc.At] at hat
    simp only at h
    by_cases hn : isNaN64 (BitVec.ofNat 64 (fromLE b)) = true
    · rw [if_pos hn] at h
      cases h
      have e0 : Format.stepsOf64 F r (colOf step mem o 8 i) = none := by
        unfold Format.stepsOf64; rw [← hb, if_pos (hnan.2 hn)]
      refine ⟨by rw [e0], ?_, rfl, trivial⟩
      simp only [Enc.At, before_succ, e0]
      rfl
    · rw [if_neg hn] at h
      cases hq : F.quant64 r (BitVec.ofNat 64 (fromLE b)) with
      | none => rw [hq] at h; cases h
      | some q =>
        rw [hq] at h
        simp only at h
        obtain ⟨d, hd, h⟩ := Res.bind_eq_ok.1 h
        cases h
        have e0 : Format.stepsOf64 F r (colOf step mem o 8 i) = some q.toInt := by
          unfold Format.stepsOf64; rw [← hb, if_neg (fun h => hn (hnan.1 h)), format_unle, hq]; rfl
        refine ⟨?_, ?_, rfl, trivial⟩
        · rw [e0]
          simp only
          rw [← hat, ← sub_toInt hd, format_signed]
        · simp only [Enc.At, before_succ, e0]
          rfl
  | xor o s p =>
    unfold Enc.step at h
    obtain ⟨b, hb, h⟩ := Res.bind_eq_ok.1 h
    cases h
    obtain ⟨hb, hl⟩ := colOf_read hb
    have hbd : fromLE b < 2 ^ 64 := Nat.lt_of_lt_of_le (fromLE_bound b s (by omega)) (Nat.pow_le_pow_right (by decide) (by have := hs; simp only [Enc.SizeOK] at this; omega))
    have htn : (BitVec.ofNat 64 (fromLE b)).toNat = fromLE b := by rw [BitVec.toNat_ofNat, Nat.mod_eq_of_lt hbd]
    refine ⟨?_, ?_, rfl, hs⟩
    · simp only [Enc.parts, partBytes, Format.valueBytes, List.flatMap_cons, List.flatMap_nil, List.append_nil]
      simp only [Enc.At] at hat
      rw [BitVec.toNat_xor, htn, hat, ← zipWith_xor_LE, toLE_fromLE' hl, ← hb, hl]
      congr 1
      unfold Format.before
      by_cases hi : i = 0
      · rw [if_pos hi, if_pos hi, unle_replicate]
      · rw [if_neg hi, if_neg hi]
        simp only [format_unle]
        refine toLE_fromLE' ?_
        have h2 : (colOf step mem o s i).length = s := by rw [← hb]; exact hl
        unfold colOf sub at h2 ⊢
        simp only [List.length_take, List.length_drop] at h2 ⊢
        have : (i - 1) * step ≤ i * step := Nat.mul_le_mul_right _ (by omega)
        omega
    · simp only [Enc.At, before_succ]
      rw [htn, hb, format_unle]
  | gorilla o s st =>
    unfold Enc.step at h
    obtain ⟨b, hb, h⟩ := Res.bind_eq_ok.1 h
    simp only [Res.ok.injEq, Prod.mk.injEq] at h
    obtain ⟨rfl, rfl⟩ := h
    obtain ⟨hb, hl⟩ := colOf_read hb
    have hs' : s = 4 ∨ s = 8 := hs
    have hbd := fromLE_bound b s (by omega)
    have htn : (BitVec.ofNat 64 (fromLE b)).toNat = fromLE b := by
      rw [BitVec.toNat_ofNat, Nat.mod_eq_of_lt (Nat.lt_of_lt_of_le hbd (Nat.pow_le_pow_right (by decide) (by omega)))]
    obtain ⟨a1, a2, a3, a4⟩ := hat
    have hcur : (BitVec.ofNat 64 (fromLE b)).toNat < 2 ^ (8 * s) := by rw [htn]; exact hbd
    have hinv := (gorilla_step (8 * s) (by omega) st a1 (BitVec.ofNat 64 (fromLE b)) hcur).1
    simp only [Enc.parts, partBytes, Format.valueBytes, List.flatMap_cons, List.flatMap_nil, List.append_nil]
    by_cases hi : i = 0
    · subst hi
      have hf : st.first = true := by rw [a2]; rfl
      have h255 := a1.2.1 hf
      have e1 : (gorillaEncode (8 * s) st (BitVec.ofNat 64 (fromLE b))) =
          ({ st with first := false, prev := BitVec.ofNat 64 (fromLE b) }, flushBits (putBits (BitVec.ofNat 64 (fromLE b)) (8 * s) {})) := by
        unfold gorillaEncode; rw [if_pos hf]
      rw [e1] at hinv ⊢
      refine ⟨?_, ⟨hinv, rfl, fun _ => ?_, ?_⟩, trivial, hs⟩
      · rw [if_pos rfl, ← hb]
        have hh := holds_flush (holds_put holds_nil (BitVec.ofNat 64 (fromLE b)) (8 * s) (by omega))
        simp only [List.nil_append, packToks, tokBits] at hh
        rw [Nat.mul_zero, Nat.add_zero, Nat.mod_eq_of_lt hcur, htn] at hh
        exact fromLE_inj (by rw [hh.2, hl]; omega) hh.1
      · simp only
        rw [htn, format_unle, hb]
      · simp only [Format.remembered, if_true, if_pos h255]
    · have hf : st.first = false := by rw [a2]; simpa using hi
      obtain ⟨g1, g2, g3, g4⟩ := gorilla_bytes (8 * s) (by omega) st a1 hf (BitVec.ofNat 64 (fromLE b)) hcur _ rfl
      have hflip : Format.flips (colOf step mem o s) i = (BitVec.ofNat 64 (fromLE b)).toNat ^^^ st.prev.toNat := by
        unfold Format.flips
        rw [htn, a3 hi, ← hb, format_unle b]
      have hlen : (colOf step mem o s i).length = s := by rw [← hb]; exact hl
      refine ⟨?_, ⟨hinv, ?_, fun _ => ?_, ?_⟩, trivial, hs⟩
      · rw [if_neg hi, hlen, a4, hflip]
        exact g1
      · rw [g2]; simp
      · rw [g3, htn, format_unle, hb]; rfl
      · simp only [Format.remembered]
        rw [if_neg hi, a4, hflip]
        exact g4
  | floatN ls =>
    unfold Enc.step at h
    obtain ⟨_, _, h⟩ := Res.bind_eq_ok.1 h
    obtain ⟨⟨ls1, b⟩, h1, h⟩ := Res.bind_eq_ok.1 h
    cases h
    obtain ⟨s1, s2, s3⟩ := lanes_bytes F step mem i ls ls1 bs hat h1
    refine ⟨s1, ?_, s2, trivial⟩
    intro l hl
    rw [before_succ]
    exact s3 l hl

theorem fields_bytes (F : FloatOps) (step : Nat) (mem : List Byte) (i : Nat) (es es' : List Enc) (w w' : W)
    (hs : ∀ e ∈ es, e.SizeOK) (hat : ∀ e ∈ es, e.At F step mem i) (h : encodeFields F (mem.drop (i * step)) es w = .ok (es', w')) :
    w'.out = w.out ++ (es.flatMap Enc.parts).flatMap (partBytes F step mem i) ∧ (∀ e ∈ es', e.SizeOK) ∧
      (∀ e ∈ es', e.At F step mem (i + 1)) ∧ es'.map Enc.parts = es.map Enc.parts := by
  induction es generalizing es' w with
  | nil => cases h; simp
  | cons e es ih =>
    unfold encodeFields at h
    obtain ⟨⟨e1, b⟩, h1, h⟩ := Res.bind_eq_ok.1 h
    obtain ⟨w1, h2, h⟩ := Res.bind_eq_ok.1 h
    obtain ⟨⟨es1, w2⟩, h3, h⟩ := Res.bind_eq_ok.1 h
    cases h
    rw [W.raw_eq_ok] at h2
    obtain ⟨_, rfl⟩ := h2
    obtain ⟨r1, r2, r3, r4⟩ := step_bytes F step mem i e e1 b (hs e (by simp)) (hat e (by simp)) h1
    obtain ⟨s1, s2, s3, s4⟩ := ih es1 _ (fun x hx => hs x (by simp [hx])) (fun x hx => hat x (by simp [hx])) h3
    refine ⟨?_, ?_, ?_, ?_⟩
    · rw [s1, r1, List.flatMap_cons, List.flatMap_append, List.append_assoc]
    · intro x hx
      simp only [List.mem_cons] at hx
      rcases hx with rfl | hx
      · exact r4
      · exact s2 x hx
    · intro x hx
      simp only [List.mem_cons] at hx
      rcases hx with rfl | hx
      · exact r2
      · exact s3 x hx
    · rw [List.map_cons, List.map_cons, r3, s4]

theorem flatMap_parts {es es' : List Enc} (h : es'.map Enc.parts = es.map Enc.parts) : es'.flatMap Enc.parts = es.flatMap Enc.parts := by
  rw [List.flatMap_def, List.flatMap_def, h]

/-- The points of a chunk, one after the other. -/
theorem core_bytes (F : FloatOps) (step : Nat) (mem : List Byte) (n i : Nat) (es es' : List Enc) (w w' : W)
    (hs : ∀ e ∈ es, e.SizeOK) (hat : ∀ e ∈ es, e.At F step mem i) (h : encodeCore F step n es (mem.drop (i * step)) w = .ok (es', w')) :
    w'.out = w.out ++ (List.range n).flatMap (fun j => (es.flatMap Enc.parts).flatMap (partBytes F step mem (i + j))) ∧
      (∀ e ∈ es', e.SizeOK) ∧ es'.map Enc.parts = es.map Enc.parts := by
  induction n generalizing i es w with
  | zero => cases h; simp only [List.range_zero, List.flatMap_nil, List.append_nil]; exact ⟨trivial, hs, trivial⟩
  | succ n ih =>
    unfold encodeCore at h
    obtain ⟨⟨es1, w1⟩, h1, h⟩ := Res.bind_eq_ok.1 h
    obtain ⟨r1, r2, r3, r4⟩ := fields_bytes F step mem i es es1 w w1 hs hat h1
    simp only [List.drop_drop] at h
    rw [← Nat.succ_mul] at h
    obtain ⟨s1, s2, s3⟩ := ih (i + 1) es1 w1 r2 r3 h
    refine ⟨?_, s2, s3.trans r4⟩
    rw [s1, r1, List.range_succ_eq_map, List.flatMap_cons, List.append_assoc, flatMap_parts r4, List.flatMap_map]
    congr 3
    funext j
    rw [Nat.add_assoc, Nat.add_comm 1]

end Cloudini
