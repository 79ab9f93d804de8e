import Verif.Model.FieldCodec
import Verif.Lemmas.Varint
import Verif.Lemmas.Gorilla

/-! One-step simulation between field encoders and field decoders. -/

namespace Cloudini

/-- Bytes `[off, off+n)` of a list (total; used in specifications). -/
def sub (mem : List Byte) (off n : Nat) : List Byte := (mem.drop off).take n

theorem sub_length {mem : List Byte} {off n : Nat} (h : off + n ≤ mem.length) : (sub mem off n).length = n := by
  simp [sub]; omega

theorem readAt_ok {mem : List Byte} {off n : Nat} (h : off + n ≤ mem.length) :
    readAt mem off n = .ok (sub mem off n) := by
  unfold readAt sub; rw [if_pos h]

/-! ### integers -/

theorem toI64_bytes {size : Nat} {signed : Bool} {bs : List Byte} (hl : bs.length = size) (hs : size ≤ 8) :
    toLE size (toI64 size signed bs).toNat = bs := by
  have hlt := fromLE_lt bs
  rw [hl] at hlt
  have hpow : 256 ^ size ≤ 2 ^ 64 := by
    rw [pow256]; exact Nat.pow_le_pow_right (by decide) (by omega)
  unfold toI64
  cases signed
  · simp only [Bool.false_eq_true, if_false, BitVec.toNat_ofNat]
    rw [Nat.mod_eq_of_lt (by omega)]
    exact toLE_fromLE' hl
  · simp only [if_true]
    rw [BitVec.toNat_signExtend]
    rw [BitVec.toNat_setWidth, BitVec.toNat_ofNat]
    have e : fromLE bs % 2 ^ (8 * size) = fromLE bs := by
      rw [← pow256]; exact Nat.mod_eq_of_lt hlt
    rw [e, Nat.mod_eq_of_lt (a := fromLE bs) (by omega)]
    rw [← toLE_mod]
    have : (fromLE bs + if (BitVec.ofNat (8 * size) (fromLE bs)).msb = true then 2 ^ 64 - 2 ^ (8 * size) else 0) % 256 ^ size
        = fromLE bs := by
      split
      · rw [pow256]
        have : 2 ^ 64 - 2 ^ (8 * size) = 2 ^ (8 * size) * (2 ^ (64 - 8 * size) - 1) := by
          rw [Nat.mul_sub, ← Nat.pow_add, show 8 * size + (64 - 8 * size) = 64 from by omega, Nat.mul_one]
        rw [this, Nat.add_mul_mod_self_left, e]
      · rw [Nat.add_zero]; exact Nat.mod_eq_of_lt hlt
    rw [this]
    exact toLE_fromLE' hl

theorem toI64_range {size : Nat} {signed : Bool} {bs : List Byte} (hl : bs.length = size) (hs : size ≤ 4) :
    -2 ^ 31 ≤ (toI64 size signed bs).toInt ∧ (toI64 size signed bs).toInt < 2 ^ 32 := by
  have hlt := fromLE_lt bs
  rw [hl, pow256] at hlt
  have hpow : 2 ^ (8 * size) ≤ 2 ^ 32 := Nat.pow_le_pow_right (by decide) (by omega)
  unfold toI64
  cases signed
  · simp only [Bool.false_eq_true, if_false]
    have hn : (BitVec.ofNat 64 (fromLE bs)).toNat = fromLE bs := by
      rw [BitVec.toNat_ofNat]; exact Nat.mod_eq_of_lt (by omega)
    rw [BitVec.toInt_eq_toNat_of_lt (by rw [hn]; omega), hn]
    omega
  · simp only [if_true]
    rw [BitVec.toInt_signExtend_of_le (by omega)]
    have h1 := BitVec.le_toInt (BitVec.ofNat (8 * size) (fromLE bs))
    have h2 := BitVec.toInt_lt (x := BitVec.ofNat (8 * size) (fromLE bs))
    have h3 : (2 : Int) ^ (8 * size - 1) ≤ 2 ^ 31 := by
      have : 2 ^ (8 * size - 1) ≤ 2 ^ 31 := Nat.pow_le_pow_right (by decide) (by omega)
      exact_mod_cast this
    omega

/-! ### specification of the decoded values -/

/-- What a lossy `float` decodes to: NaN stays NaN, anything else is quantised and dequantised. -/
def lossy32Val (F : FloatOps) (r x : BitVec 32) : BitVec 32 :=
  if isNaN32 x then qNaN32 else F.dequant32 r ((F.quant32 r x).getD 0)

def lossy64Val (F : FloatOps) (r : BitVec 32) (x : BitVec 64) : BitVec 64 :=
  if isNaN64 x then qNaN64 else F.dequant64 r ((F.quant64 r x).getD 0)

def lossyVVal (F : FloatOps) (r x : BitVec 32) : BitVec 32 :=
  if isNaN32 x then qNaN32 else F.dequantV r (F.quantV r x)

/-- The float stored little-endian at an offset. -/
def f32At (mem : List Byte) (off : Nat) : BitVec 32 := BitVec.ofNat 32 (fromLE (sub mem off 4))
def f64At (mem : List Byte) (off : Nat) : BitVec 64 := BitVec.ofNat 64 (fromLE (sub mem off 8))

/-- Decoded bytes for each scalar the encoder handles. -/
def Enc.vals (F : FloatOps) (mem : List Byte) : Enc → List (List Byte)
  | .copy o s => [sub mem o s]
  | .int o s _ _ => [sub mem o s]
  | .lossy32 o r _ => [toLE 4 (lossy32Val F r (f32At mem o)).toNat]
  | .lossy64 o r _ => [toLE 8 (lossy64Val F r (f64At mem o)).toNat]
  | .xor o s _ => [sub mem o s]
  | .gorilla o s _ => [sub mem o s]
  | .floatN ls => ls.map fun l => toLE 4 (lossyVVal F l.res (f32At mem l.off)).toNat

/-- Destination offsets of a decoder. -/
def Dec.offs : Dec → List Nat
  | .copy o _ => [o]
  | .int o _ _ => [o]
  | .lossy32 o _ _ => [o]
  | .lossy64 o _ _ => [o]
  | .xor o _ _ => [o]
  | .gorilla o _ _ => [o]
  | .floatN ls => ls.map (·.off)

def storeAll : List Nat → List (List Byte) → List Write
  | o :: os, v :: vs => store o v ++ storeAll os vs
  | _, _ => []

/-- Lanes of encoder and decoder agree on resolution and history. -/
def LanesMatch : List Lane → List Lane → Prop
  | [], [] => True
  | a :: as, b :: bs => a.res = b.res ∧ a.prev = b.prev ∧ LanesMatch as bs
  | _, _ => False

/-- Encoder and decoder of the same kind with the same history (offsets may differ). -/
def Matches : Enc → Dec → Prop
  | .copy _ s, .copy _ s' => s = s'
  | .int _ s _ p, .int _ s' p' => s = s' ∧ p = p' ∧ s ≤ 8
  | .lossy32 _ r p, .lossy32 _ r' p' => r = r' ∧ p = p'
  | .lossy64 _ r p, .lossy64 _ r' p' => r = r' ∧ p = p'
  | .xor _ s p, .xor _ s' p' => s = s' ∧ p = p' ∧ s ≤ 8 ∧ p.toNat < 2 ^ (8 * s)
  | .gorilla _ s st, .gorilla _ s' st' => s = s' ∧ st = st' ∧ (s = 4 ∨ s = 8) ∧ GorillaInv (8 * s) st
  | .floatN ls, .floatN ls' => ls ≠ [] ∧ LanesMatch ls ls'
  | _, _ => False

/-- The values at this point avoid the reserved difference INT64_MIN (and, for the vector path, 32-bit
overflow of the difference). -/
def LaneClean (F : FloatOps) (mem : List Byte) (l : Lane) : Prop :=
  isNaN32 (f32At mem l.off) = true ∨ BitVec.ssubOverflow (F.quantV l.res (f32At mem l.off)) l.prev = false

def Enc.Clean (F : FloatOps) (mem : List Byte) : Enc → Prop
  | .int o s g p => toI64 s g (sub mem o s) - p ≠ BitVec.intMin 64
  | .lossy32 o r p =>
    isNaN32 (f32At mem o) = true ∨ ∃ q, F.quant32 r (f32At mem o) = some q ∧ q - p ≠ BitVec.intMin 64
  | .lossy64 o r p =>
    isNaN64 (f64At mem o) = true ∨ ∃ q, F.quant64 r (f64At mem o) = some q ∧ q - p ≠ BitVec.intMin 64
  | .floatN ls => ∀ l ∈ ls, LaneClean F mem l
  | _ => True

/-- Upper bound on the bytes one call writes. -/
def Enc.maxBytes : Enc → Nat
  | .copy _ s => s
  | .int _ _ _ _ => 10
  | .lossy32 _ _ _ => 10
  | .lossy64 _ _ _ => 10
  | .xor _ s _ => s
  | .gorilla _ s _ => s + 2
  | .floatN ls => 5 * ls.length

/-! ### lanes -/

theorem LanesMatch.length {as bs : List Lane} (h : LanesMatch as bs) : bs.length = as.length := by
  induction as generalizing bs with
  | nil => cases bs <;> simp_all [LanesMatch]
  | cons a as ih =>
    cases bs with
    | nil => exact h.elim
    | cons b bs => simp [ih h.2.2]

theorem addI32_sub {a b : BitVec 32} (h : BitVec.ssubOverflow a b = false) :
    addI32 (a - b) b = .ok a := by
  unfold addI32
  rw [BitVec.sub_add_cancel, if_neg]
  simp only [BitVec.saddOverflow, BitVec.ssubOverflow, Bool.or_eq_true, Bool.or_eq_false_iff,
    decide_eq_true_eq, decide_eq_false_iff_not] at h ⊢
  have h2 : (a - b).toInt = a.toInt - b.toInt := by
    rw [BitVec.toInt_sub]
    apply Int.bmod_eq_of_le <;> omega
  rw [h2]
  have := a.toInt_lt; have := a.le_toInt
  omega

theorem signExtend32_ne_intMin (x : BitVec 32) : x.signExtend 64 ≠ BitVec.intMin 64 := by
  intro h
  have h1 : (x.signExtend 64).toInt = x.toInt := BitVec.toInt_signExtend_of_le (by decide)
  rw [h] at h1
  have h2 := BitVec.le_toInt x
  have h3 : (BitVec.intMin 64).toInt = -9223372036854775808 := by decide
  omega

theorem signExtend_setWidth (x : BitVec 32) : (x.signExtend 64).setWidth 32 = x := by
  apply BitVec.eq_of_toNat_eq
  rw [BitVec.toNat_setWidth, BitVec.toNat_signExtend, BitVec.toNat_setWidth]
  have := x.isLt
  split <;> omega

theorem zigzagPlus1_signExtend_lt (x : BitVec 32) : (zigzagPlus1 (x.signExtend 64)).toNat ≤ 2 ^ 32 := by
  unfold zigzagPlus1
  rw [sshiftRight63]
  have hm : (x.signExtend 64).msb = x.msb := by
    rw [BitVec.msb_signExtend]; simp
  rw [hm, BitVec.toNat_add]
  cases h : x.msb
  · simp only [Bool.false_eq_true, if_false, BitVec.xor_zero]
    rw [BitVec.toNat_shiftLeft, BitVec.toNat_signExtend, h]
    have hlt : x.toNat < 2 ^ 31 := by
      rw [BitVec.msb_eq_decide] at h; simpa using h
    simp [Nat.shiftLeft_eq]; omega
  · simp only [if_true, BitVec.xor_allOnes]
    rw [BitVec.toNat_not, BitVec.toNat_shiftLeft, BitVec.toNat_signExtend, h]
    have hge : 2 ^ 31 ≤ x.toNat := by
      rw [BitVec.msb_eq_decide] at h; simpa using h
    have := x.isLt
    rw [BitVec.toNat_setWidth]
    simp [Nat.shiftLeft_eq]; omega

theorem encodeVarint64_signExtend_length (x : BitVec 32) : (encodeVarint64 (x.signExtend 64)).length ≤ 5 := by
  unfold encodeVarint64
  apply lebBytes_length_le _ 4
  have := zigzagPlus1_signExtend_lt x
  omega

theorem cons_of_length_pos {l : List Byte} (h : 1 ≤ l.length) : ∃ b bs, l = b :: bs := by
  cases l with
  | nil => simp at h
  | cons b bs => exact ⟨b, bs, rfl⟩

/-- A non-marker varint in front of the decoder: the "NaN" test on the first byte fails. -/
theorem varint_cons (v : BitVec 64) (h : v ≠ BitVec.intMin 64) (rest : List Byte) :
    ∃ b bs, encodeVarint64 v ++ rest = b :: bs ∧ b ≠ 0#8 := by
  obtain ⟨b, bs, e⟩ := cons_of_length_pos (encodeVarint64_length v).1
  refine ⟨b, bs ++ rest, by rw [e]; rfl, ?_⟩
  rintro rfl
  exact h ((encodeVarint64_head v).1 (by rw [e]; rfl))

theorem lane_roundtrip (F : FloatOps) (mem : List Byte) (a a' b : Lane) (bs rest : List Byte)
    (hr : a.res = b.res) (hp : a.prev = b.prev) (hs : laneEncode F mem a = .ok (a', bs))
    (hc : LaneClean F mem a) :
    (∃ b', laneDecode F b (bs ++ rest) = .ok (b', lossyVVal F a.res (f32At mem a.off), rest) ∧
      a'.res = b'.res ∧ a'.prev = b'.prev ∧ b'.off = b.off ∧ b'.res = b.res) ∧
    a'.off = a.off ∧ a'.res = a.res ∧ 1 ≤ bs.length ∧ bs.length ≤ 5 := by
  unfold laneEncode at hs
  rw [Res.bind_eq_ok] at hs
  obtain ⟨vb, hv, hs⟩ := hs
  rw [readAt_eq_ok] at hv
  obtain ⟨hlen, rfl⟩ := hv
  change (if isNaN32 (f32At mem a.off) = true then _ else _) = _ at hs
  by_cases hn : isNaN32 (f32At mem a.off) = true
  · rw [if_pos hn] at hs
    injection hs with hs
    injection hs with h1 h2
    subst h1 h2
    refine ⟨⟨{ b with prev := 0#32 }, ?_, hr, rfl, rfl, rfl⟩, rfl, rfl, by simp, by simp⟩
    simp only [List.cons_append, List.nil_append, laneDecode, if_true]
    unfold lossyVVal; rw [if_pos hn]
  · rw [if_neg hn] at hs
    injection hs with hs
    injection hs with h1 h2
    subst h1 h2
    have hov : BitVec.ssubOverflow (F.quantV a.res (f32At mem a.off)) a.prev = false := by
      rcases hc with h | h
      · exact absurd h hn
      · exact h
    refine ⟨⟨{ b with prev := F.quantV a.res (f32At mem a.off) }, ?_, hr, rfl, rfl, rfl⟩, rfl, rfl,
      (encodeVarint64_length _).1, encodeVarint64_signExtend_length _⟩
    have hne := signExtend32_ne_intMin (F.quantV a.res (f32At mem a.off) - a.prev)
    obtain ⟨c, cs, e, hc0⟩ := varint_cons _ hne rest
    change laneDecode F b (encodeVarint64 ((F.quantV a.res (f32At mem a.off) - a.prev).signExtend 64) ++ rest) = _
    have hd := decodeVarint_encode _ rest hne
    unfold laneDecode
    rw [e]
    simp only
    rw [if_neg hc0, ← e, hd]
    simp only [Res.ok_bind]
    rw [signExtend_setWidth, ← hp, addI32_sub hov]
    simp only [Res.ok_bind]
    rw [List.drop_left, ← hr]
    unfold lossyVVal
    rw [if_neg hn]

theorem lanes_roundtrip (F : FloatOps) (mem : List Byte) (as as' bs : List Lane) (out rest : List Byte)
    (hm : LanesMatch as bs) (hs : lanesEncode F mem as = .ok (as', out))
    (hc : ∀ l ∈ as, LaneClean F mem l) :
    (∃ bs', lanesDecode F bs (out ++ rest) = .ok (bs',
        storeAll (bs.map (·.off)) (as.map fun l => toLE 4 (lossyVVal F l.res (f32At mem l.off)).toNat), rest) ∧
      LanesMatch as' bs' ∧ bs'.map (fun l => { l with prev := 0#32 }) = bs.map (fun l => { l with prev := 0#32 })) ∧
    as'.map (fun l => { l with prev := 0#32 }) = as.map (fun l => { l with prev := 0#32 }) ∧
    as.length ≤ out.length ∧ out.length ≤ 5 * as.length := by
  induction as generalizing bs as' out with
  | nil =>
    cases bs with
    | nil =>
      simp only [lanesEncode, Res.ok.injEq, Prod.mk.injEq] at hs
      obtain ⟨rfl, rfl⟩ := hs
      exact ⟨⟨[], rfl, trivial, rfl⟩, rfl, by simp, by simp⟩
    | cons b bs => exact hm.elim
  | cons a as ih =>
    cases bs with
    | nil => exact hm.elim
    | cons b bs =>
      obtain ⟨hr, hp, hm⟩ := hm
      simp only [lanesEncode] at hs
      rw [Res.bind_eq_ok] at hs
      obtain ⟨⟨a1, o1⟩, h1, hs⟩ := hs
      simp only at hs
      rw [Res.bind_eq_ok] at hs
      obtain ⟨⟨as1, o2⟩, h2, hs⟩ := hs
      simp only [Res.ok.injEq, Prod.mk.injEq] at hs
      obtain ⟨rfl, rfl⟩ := hs
      obtain ⟨⟨b1, l1, l2, l3, l4, l5⟩, l6, l7, l8, l9⟩ :=
        lane_roundtrip F mem a a1 b o1 (o2 ++ rest) hr hp h1 (hc a (by simp))
      obtain ⟨⟨bs1, m1, m2, m3⟩, m4, m5, m6⟩ := ih as1 bs o2 hm h2 (fun l hl => hc l (by simp [hl]))
      refine ⟨⟨b1 :: bs1, ?_, ⟨l2, l3, m2⟩, ?_⟩, ?_, ?_, ?_⟩
      · rw [List.append_assoc]
        simp only [lanesDecode, l1, Res.ok_bind, m1]
        rfl
      · simp only [List.map_cons, m3, l4, l5]
      · simp only [List.map_cons, m4, l6, l7]
      · simp only [List.length_cons, List.length_append]; omega
      · simp only [List.length_cons, List.length_append]; omega

/-! ### the step lemma -/

theorem xor_cancel (a b : BitVec 64) : (a ^^^ b) ^^^ b = a := by
  rw [BitVec.xor_assoc, BitVec.xor_self, BitVec.xor_zero]

theorem toLE_ofNat64 {s : Nat} {bs : List Byte} (hl : bs.length = s) (hs : s ≤ 8) :
    toLE s (BitVec.ofNat 64 (fromLE bs)).toNat = bs := by
  have hlt := fromLE_lt bs
  have hpow : 256 ^ bs.length ≤ 2 ^ 64 := by
    rw [pow256]; exact Nat.pow_le_pow_right (by decide) (by omega)
  rw [BitVec.toNat_ofNat, Nat.mod_eq_of_lt (by omega)]
  exact toLE_fromLE' hl

theorem step_roundtrip (F : FloatOps) (mem : List Byte) (e e' : Enc) (d : Dec) (bs rest : List Byte)
    (hm : Matches e d) (hs : e.step F mem = .ok (e', bs)) (hc : e.Clean F mem) :
    (∃ d', d.step F (bs ++ rest) = .ok (d', storeAll d.offs (e.vals F mem), rest) ∧ Matches e' d' ∧
      d'.reset = d.reset) ∧ e'.reset = e.reset ∧ d.minInputBytes ≤ bs.length ∧ bs.length ≤ e.maxBytes := by
  cases e with
  | copy o s =>
    cases d <;> simp only [Matches] at hm
    next o' s' =>
    subst hm
    simp only [Enc.step] at hs
    rw [Res.bind_eq_ok] at hs
    obtain ⟨v, hv, hs⟩ := hs
    rw [readAt_eq_ok] at hv
    obtain ⟨hl, rfl⟩ := hv
    simp only [Res.ok.injEq, Prod.mk.injEq] at hs
    obtain ⟨rfl, rfl⟩ := hs
    have hlen := sub_length hl
    refine ⟨⟨.copy o' s, ?_, rfl, rfl⟩, rfl, ?_, ?_⟩
    · change Dec.step F (sub mem o s ++ rest) (.copy o' s) = _
      simp only [Dec.step, Dec.offs, Enc.vals, storeAll, store, List.append_nil]
      have h1 : s ≤ (sub mem o s ++ rest).length := by rw [List.length_append, hlen]; omega
      have h2 : (sub mem o s ++ rest).take s = sub mem o s := by
        rw [List.take_append_of_le_length (by omega), List.take_of_length_le (by omega)]
      have h3 : (sub mem o s ++ rest).drop s = rest := by
        rw [List.drop_append_of_le_length (by omega), List.drop_of_length_le (by omega), List.nil_append]
      by_cases ho : o' = kDecodeButSkipStore
      · rw [if_neg (by simpa using ho), if_pos h1, if_pos ho, h3]
      · rw [if_pos ho, if_pos h1, if_neg ho, h2, h3]
    · change s ≤ (sub mem o s).length; omega
    · change (sub mem o s).length ≤ s; omega
  | int o s g p =>
    cases d <;> simp only [Matches] at hm
    next o' s' p' =>
    obtain ⟨rfl, rfl, h8⟩ := hm
    simp only [Enc.step] at hs
    rw [Res.bind_eq_ok] at hs
    obtain ⟨v, hv, hs⟩ := hs
    rw [readAt_eq_ok] at hv
    obtain ⟨hl, rfl⟩ := hv
    change (subI64 (toI64 s g (sub mem o s)) p >>= _) = _ at hs
    rw [Res.bind_eq_ok] at hs
    obtain ⟨diff, hd, hs⟩ := hs
    simp only [Res.ok.injEq, Prod.mk.injEq] at hs
    obtain ⟨rfl, rfl⟩ := hs
    have hd2 := (subI64_eq_ok.1 hd).2
    have hne : diff ≠ BitVec.intMin 64 := by rw [hd2]; exact hc
    refine ⟨⟨.int o' s (toI64 s g (sub mem o s)), ?_, ⟨rfl, rfl, h8⟩, rfl⟩, rfl, (encodeVarint64_length _).1,
      (encodeVarint64_length _).2⟩
    simp only [Dec.step, decodeVarint_encode _ rest hne, Res.ok_bind, addI64_sub hd, Dec.offs, Enc.vals, storeAll,
      List.drop_left, List.append_nil, toI64_bytes (sub_length hl) h8]
  | lossy32 o r p =>
    cases d <;> simp only [Matches] at hm
    next o' r' p' =>
    obtain ⟨rfl, rfl⟩ := hm
    simp only [Enc.step] at hs
    rw [Res.bind_eq_ok] at hs
    obtain ⟨v, hv, hs⟩ := hs
    rw [readAt_eq_ok] at hv
    obtain ⟨hl, rfl⟩ := hv
    change (if isNaN32 (f32At mem o) = true then _ else _) = _ at hs
    simp only [Enc.Clean] at hc
    by_cases hn : isNaN32 (f32At mem o) = true
    · rw [if_pos hn] at hs
      simp only [Res.ok.injEq, Prod.mk.injEq] at hs
      obtain ⟨rfl, rfl⟩ := hs
      refine ⟨⟨.lossy32 o' r 0#64, ?_, ⟨rfl, rfl⟩, rfl⟩, rfl, by simp [Dec.minInputBytes], by simp [Enc.maxBytes]⟩
      simp [Dec.step, Dec.offs, Enc.vals, storeAll, lossy32Val, hn]
    · rw [if_neg hn] at hs
      rcases hc with hc | ⟨q, hq, hc⟩
      · exact absurd hc hn
      change (match F.quant32 r (f32At mem o) with | none => _ | some value => _) = _ at hs
      rw [hq] at hs
      simp only at hs
      rw [Res.bind_eq_ok] at hs
      obtain ⟨diff, hd, hs⟩ := hs
      simp only [Res.ok.injEq, Prod.mk.injEq] at hs
      obtain ⟨rfl, rfl⟩ := hs
      have hd2 := (subI64_eq_ok.1 hd).2
      have hne : diff ≠ BitVec.intMin 64 := by rw [hd2]; exact hc
      refine ⟨⟨.lossy32 o' r q, ?_, ⟨rfl, rfl⟩, rfl⟩, rfl, (encodeVarint64_length _).1, (encodeVarint64_length _).2⟩
      obtain ⟨c, cs, ec, hc0⟩ := varint_cons _ hne rest
      simp only [Dec.step, ec, if_neg hc0]
      rw [← ec, decodeVarint_encode _ rest hne]
      simp only [Res.ok_bind, addI64_sub hd, Dec.offs, Enc.vals, storeAll, List.drop_left, List.append_nil,
        lossy32Val, if_neg hn, hq, Option.getD_some]
  | lossy64 o r p =>
    cases d <;> simp only [Matches] at hm
    next o' r' p' =>
    obtain ⟨rfl, rfl⟩ := hm
    simp only [Enc.step] at hs
    rw [Res.bind_eq_ok] at hs
    obtain ⟨v, hv, hs⟩ := hs
    rw [readAt_eq_ok] at hv
    obtain ⟨hl, rfl⟩ := hv
    change (if isNaN64 (f64At mem o) = true then _ else _) = _ at hs
    simp only [Enc.Clean] at hc
    by_cases hn : isNaN64 (f64At mem o) = true
    · rw [if_pos hn] at hs
      simp only [Res.ok.injEq, Prod.mk.injEq] at hs
      obtain ⟨rfl, rfl⟩ := hs
      refine ⟨⟨.lossy64 o' r 0#64, ?_, ⟨rfl, rfl⟩, rfl⟩, rfl, by simp [Dec.minInputBytes], by simp [Enc.maxBytes]⟩
      simp [Dec.step, Dec.offs, Enc.vals, storeAll, lossy64Val, hn]
    · rw [if_neg hn] at hs
      rcases hc with hc | ⟨q, hq, hc⟩
      · exact absurd hc hn
      change (match F.quant64 r (f64At mem o) with | none => _ | some value => _) = _ at hs
      rw [hq] at hs
      simp only at hs
      rw [Res.bind_eq_ok] at hs
      obtain ⟨diff, hd, hs⟩ := hs
      simp only [Res.ok.injEq, Prod.mk.injEq] at hs
      obtain ⟨rfl, rfl⟩ := hs
      have hd2 := (subI64_eq_ok.1 hd).2
      have hne : diff ≠ BitVec.intMin 64 := by rw [hd2]; exact hc
      refine ⟨⟨.lossy64 o' r q, ?_, ⟨rfl, rfl⟩, rfl⟩, rfl, (encodeVarint64_length _).1, (encodeVarint64_length _).2⟩
      obtain ⟨c, cs, ec, hc0⟩ := varint_cons _ hne rest
      simp only [Dec.step, ec, if_neg hc0]
      rw [← ec, decodeVarint_encode _ rest hne]
      simp only [Res.ok_bind, addI64_sub hd, Dec.offs, Enc.vals, storeAll, List.drop_left, List.append_nil,
        lossy64Val, if_neg hn, hq, Option.getD_some]
  | xor o s p =>
    cases d <;> simp only [Matches] at hm
    next o' s' p' =>
    obtain ⟨rfl, rfl, h8, hp⟩ := hm
    simp only [Enc.step] at hs
    rw [Res.bind_eq_ok] at hs
    obtain ⟨v, hv, hs⟩ := hs
    rw [readAt_eq_ok] at hv
    obtain ⟨hl, rfl⟩ := hv
    simp only [Res.ok.injEq, Prod.mk.injEq] at hs
    change Enc.xor o s (BitVec.ofNat 64 (fromLE (sub mem o s))) = e' ∧
      toLE s (BitVec.ofNat 64 (fromLE (sub mem o s)) ^^^ p).toNat = bs at hs
    obtain ⟨rfl, rfl⟩ := hs
    generalize hcur : BitVec.ofNat 64 (fromLE (sub mem o s)) = cur
    have hcb : toLE s cur.toNat = sub mem o s := by rw [← hcur]; exact toLE_ofNat64 (sub_length hl) h8
    have hlt : cur.toNat < 2 ^ (8 * s) := by
      rw [← hcur, BitVec.toNat_ofNat]
      have := fromLE_lt (sub mem o s)
      rw [sub_length hl, pow256] at this
      exact Nat.lt_of_le_of_lt (Nat.mod_le _ _) this
    have hx : (cur ^^^ p).toNat < 2 ^ (8 * s) := by
      rw [BitVec.toNat_xor]; exact Nat.xor_lt_two_pow hlt hp
    have hdec : BitVec.ofNat 64 (fromLE (toLE s (cur ^^^ p).toNat)) ^^^ p = cur := by
      rw [fromLE_toLE, pow256, Nat.mod_eq_of_lt hx, BitVec.ofNat_toNat, BitVec.setWidth_eq, xor_cancel]
    refine ⟨⟨.xor o' s cur, ?_, ⟨rfl, rfl, h8, hlt⟩, rfl⟩, rfl,
      by simp [Dec.minInputBytes], by simp [Enc.maxBytes]⟩
    have h1 : s ≤ (toLE s (cur ^^^ p).toNat ++ rest).length := by simp
    have h2 : (toLE s (cur ^^^ p).toNat ++ rest).take s = toLE s (cur ^^^ p).toNat := by
      rw [List.take_append_of_le_length (by simp), List.take_of_length_le (by simp)]
    have h3 : (toLE s (cur ^^^ p).toNat ++ rest).drop s = rest := by
      rw [List.drop_append_of_le_length (by simp), List.drop_of_length_le (by simp), List.nil_append]
    simp only [Dec.step, if_pos h1, h2, h3, Dec.offs, Enc.vals, storeAll, List.append_nil, hdec, hcb]
  | gorilla o s st =>
    cases d <;> simp only [Matches] at hm
    next o' s' st' =>
    obtain ⟨rfl, rfl, h48, hinv⟩ := hm
    simp only [Enc.step] at hs
    rw [Res.bind_eq_ok] at hs
    obtain ⟨v, hv, hs⟩ := hs
    rw [readAt_eq_ok] at hv
    obtain ⟨hl, rfl⟩ := hv
    simp only [Res.ok.injEq, Prod.mk.injEq] at hs
    obtain ⟨rfl, rfl⟩ := hs
    have hlen := sub_length hl
    have hlt : (BitVec.ofNat 64 (fromLE (sub mem o s))).toNat < 2 ^ (8 * s) := by
      rw [BitVec.toNat_ofNat]
      have := fromLE_lt (sub mem o s)
      rw [hlen, pow256] at this
      exact Nat.lt_of_le_of_lt (Nat.mod_le _ _) this
    obtain ⟨g1, g2, g3, g4⟩ := gorilla_step (8 * s) (by omega) st hinv _ hlt
    refine ⟨⟨.gorilla o' s (gorillaEncode (8 * s) st (BitVec.ofNat 64 (fromLE (sub mem o s)))).1, ?_,
      ⟨rfl, rfl, h48, g1⟩, rfl⟩, rfl, Nat.zero_le _, ?_⟩
    · change Dec.step F ((gorillaEncode (8 * s) st (BitVec.ofNat 64 (fromLE (sub mem o s)))).2 ++ rest) _ = _
      simp only [Dec.step, g4, Res.ok_bind, Dec.offs, Enc.vals, storeAll, List.append_nil,
        toLE_ofNat64 hlen (by omega : s ≤ 8)]
    · change (gorillaEncode (8 * s) st (BitVec.ofNat 64 (fromLE (sub mem o s)))).2.length ≤ s + 2
      omega
  | floatN ls =>
    cases d <;> simp only [Matches] at hm
    next ls' =>
    obtain ⟨hne, hm⟩ := hm
    simp only [Enc.step] at hs
    rw [Res.bind_eq_ok] at hs
    obtain ⟨_, _, hs⟩ := hs
    rw [Res.bind_eq_ok] at hs
    obtain ⟨⟨ls1, out⟩, h1, hs⟩ := hs
    simp only [Res.ok.injEq, Prod.mk.injEq] at hs
    obtain ⟨rfl, rfl⟩ := hs
    obtain ⟨⟨bs', m1, m2, m3⟩, m4, m5, m6⟩ := lanes_roundtrip F mem ls ls1 ls' out rest hm h1 hc
    have hpos : 0 < ls.length := List.length_pos_iff.2 hne
    have hne1 : ls1 ≠ [] := by
      have := congrArg List.length m4
      simp only [List.length_map] at this
      intro h; rw [h] at this; simp at this; omega
    have hlen' : ls'.length = ls.length := hm.length
    refine ⟨⟨.floatN bs', ?_, ⟨hne1, m2⟩, ?_⟩, ?_, ?_, ?_⟩
    · simp only [Dec.step]
      rw [if_neg (by rw [List.length_append]; omega), m1]
      simp only [Res.ok_bind, Dec.offs, Enc.vals]
    · simp only [Dec.reset, m3]
    · simp only [Enc.reset, m4]
    · simp only [Dec.minInputBytes]; omega
    · simp only [Enc.maxBytes]; omega

end Cloudini
