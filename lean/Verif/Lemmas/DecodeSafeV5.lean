import Verif.Lemmas.DecodeSafe
import Verif.Lemmas.VarintExact
import Verif.Lemmas.Unfold

/-! No out-of-bounds access while decoding arbitrary bytes with the version-5 codec, as long as no run length reaches 2^63. -/

namespace Cloudini

open Props (IsGroup groupNumber)

/-- No nine consecutive bytes all have their top bit set. -/
def Calm (l : List Byte) : Prop := ∀ k, k + 9 ≤ l.length → ∃ j, j < 9 ∧ ∃ b, l[k + j]? = some b ∧ b.toNat < 128

theorem Calm.suffix {l s : List Byte} (h : Calm l) (hs : s <:+ l) : Calm s := by
  obtain ⟨p, rfl⟩ := hs
  intro k hk
  obtain ⟨j, hj, b, hb, hlt⟩ := h (p.length + k) (by simp; omega)
  refine ⟨j, hj, b, ?_, hlt⟩
  rw [List.getElem?_append_right (by omega)] at hb
  rw [← hb]; congr 1; omega

/-! ### what is left is a suffix -/

theorem fillTo_suffix (n : Nat) (inp : List Byte) : ∀ (buf : BitVec 64) (cnt : Nat) (r : BitR), fillTo n buf cnt inp = .ok r → r.inp <:+ inp := by
  induction inp with
  | nil =>
    intro buf cnt r h
    rw [fillTo] at h
    split at h
    · simp at h
    · simp only [Res.ok.injEq] at h; subst h; exact List.suffix_refl _
  | cons b bs ih =>
    intro buf cnt r h
    rw [fillTo] at h
    split at h
    · split at h
      · simp at h
      · exact (ih _ _ _ h).trans (List.suffix_cons _ _)
    · simp only [Res.ok.injEq] at h; subst h; exact List.suffix_refl _

theorem getBits_suffix (n : Nat) (r r' : BitR) (v : BitVec 64) (h : getBits n r = .ok (v, r')) : r'.inp <:+ r.inp := by
  unfold getBits at h
  split at h
  · simp only at h
    split at h
    · simp only [Res.ok.injEq, Prod.mk.injEq] at h; rw [← h.2]; exact List.suffix_refl _
    · obtain ⟨q, hq, h⟩ := Res.bind_eq_ok.1 h
      split at h
      · simp at h
      · simp only [Res.ok.injEq, Prod.mk.injEq] at h; rw [← h.2]; have := fillTo_suffix _ _ _ _ _ hq; exact this
  · obtain ⟨q, hq, h⟩ := Res.bind_eq_ok.1 h
    simp only [Res.ok.injEq, Prod.mk.injEq] at h; rw [← h.2]; have := fillTo_suffix _ _ _ _ _ hq; exact this

theorem gorillaDecode_suffix (tb : Nat) (st st' : GorillaState) (v : BitVec 64) (input rest : List Byte)
    (h : gorillaDecode tb st input = .ok (st', v, rest)) : rest <:+ input := by
  unfold gorillaDecode at h
  simp only at h
  split at h
  · obtain ⟨⟨a, r⟩, h1, h⟩ := Res.bind_eq_ok.1 h
    simp only [Res.ok.injEq, Prod.mk.injEq] at h
    rw [← h.2.2]; exact getBits_suffix _ _ _ _ h1
  · obtain ⟨⟨a, r⟩, h1, h⟩ := Res.bind_eq_ok.1 h
    have s1 := getBits_suffix _ _ _ _ h1
    simp only at h
    split at h
    · simp only [Res.ok.injEq, Prod.mk.injEq] at h
      rw [← h.2.2]; exact s1
    · obtain ⟨⟨c, r2⟩, h3, h⟩ := Res.bind_eq_ok.1 h
      have s2 := (getBits_suffix _ _ _ _ h3).trans s1
      simp only at h
      split at h
      · obtain ⟨⟨d, r3⟩, h5, h⟩ := Res.bind_eq_ok.1 h
        have s3 := (getBits_suffix _ _ _ _ h5).trans s2
        obtain ⟨z, _, h⟩ := Res.bind_eq_ok.1 h
        simp only [Res.ok.injEq, Prod.mk.injEq] at h
        rw [← h.2.2]; exact s3
      · obtain ⟨⟨d, r3⟩, h5, h⟩ := Res.bind_eq_ok.1 h
        have s3 := (getBits_suffix _ _ _ _ h5).trans s2
        obtain ⟨⟨e, r4⟩, h6, h⟩ := Res.bind_eq_ok.1 h
        have s4 := (getBits_suffix _ _ _ _ h6).trans s3
        obtain ⟨⟨g, r5⟩, h7, h⟩ := Res.bind_eq_ok.1 h
        have s5 := (getBits_suffix _ _ _ _ h7).trans s4
        obtain ⟨z, _, h⟩ := Res.bind_eq_ok.1 h
        simp only [Res.ok.injEq, Prod.mk.injEq] at h
        rw [← h.2.2]; exact s5

theorem lanesDecode_suffix (F : FloatOps) (ls : List Lane) : ∀ (ls' : List Lane) (ws : List Write) (input rest : List Byte),
    lanesDecode F ls input = .ok (ls', ws, rest) → rest <:+ input := by
  induction ls with
  | nil =>
    intro ls' ws input rest h
    simp only [lanesDecode, Res.ok.injEq, Prod.mk.injEq] at h
    rw [h.2.2]; exact List.suffix_refl _
  | cons l ls ih =>
    intro ls' ws input rest h
    simp only [lanesDecode] at h
    obtain ⟨⟨l1, v, i1⟩, h1, h⟩ := Res.bind_eq_ok.1 h
    obtain ⟨⟨ls1, ws1, i2⟩, h2, h⟩ := Res.bind_eq_ok.1 h
    simp only [Res.ok.injEq, Prod.mk.injEq] at h
    rw [← h.2.2]
    refine (ih _ _ _ _ h2).trans ?_
    unfold laneDecode at h1
    split at h1
    · simp at h1
    · split at h1
      · simp only [Res.ok.injEq, Prod.mk.injEq] at h1
        rw [← h1.2.2]; exact List.suffix_cons _ _
      · obtain ⟨⟨d, n⟩, _, h1⟩ := Res.bind_eq_ok.1 h1
        obtain ⟨w, _, h1⟩ := Res.bind_eq_ok.1 h1
        simp only [Res.ok.injEq, Prod.mk.injEq] at h1
        rw [← h1.2.2]; exact List.drop_suffix _ _

theorem step_suffix (F : FloatOps) (d d' : Dec) (ws : List Write) (input rest : List Byte) (h : d.step F input = .ok (d', ws, rest)) :
    rest <:+ input := by
  cases d with
  | copy o s =>
    simp only [Dec.step] at h
    repeat' split at h
    all_goals first
      | simp at h; done
      | (simp only [Res.ok.injEq, Prod.mk.injEq] at h; rw [← h.2.2]; exact List.drop_suffix _ _)
  | int o s prev =>
    simp only [Dec.step] at h
    obtain ⟨⟨df, n⟩, _, h⟩ := Res.bind_eq_ok.1 h
    obtain ⟨w, _, h⟩ := Res.bind_eq_ok.1 h
    simp only [Res.ok.injEq, Prod.mk.injEq] at h; rw [← h.2.2]; exact List.drop_suffix _ _
  | lossy32 o r prev =>
    cases input with
    | nil => simp [Dec.step] at h
    | cons b bs =>
      simp only [Dec.step] at h
      split at h
      · simp only [Res.ok.injEq, Prod.mk.injEq] at h; rw [← h.2.2]; exact List.suffix_cons _ _
      · obtain ⟨⟨df, n⟩, _, h⟩ := Res.bind_eq_ok.1 h
        obtain ⟨w, _, h⟩ := Res.bind_eq_ok.1 h
        simp only [Res.ok.injEq, Prod.mk.injEq] at h; rw [← h.2.2]; exact List.drop_suffix _ _
  | lossy64 o r prev =>
    cases input with
    | nil => simp [Dec.step] at h
    | cons b bs =>
      simp only [Dec.step] at h
      split at h
      · simp only [Res.ok.injEq, Prod.mk.injEq] at h; rw [← h.2.2]; exact List.suffix_cons _ _
      · obtain ⟨⟨df, n⟩, _, h⟩ := Res.bind_eq_ok.1 h
        obtain ⟨w, _, h⟩ := Res.bind_eq_ok.1 h
        simp only [Res.ok.injEq, Prod.mk.injEq] at h; rw [← h.2.2]; exact List.drop_suffix _ _
  | xor o s prev =>
    simp only [Dec.step] at h
    split at h
    · simp only [Res.ok.injEq, Prod.mk.injEq] at h; rw [← h.2.2]; exact List.drop_suffix _ _
    · simp at h
  | gorilla o s st =>
    simp only [Dec.step] at h
    obtain ⟨⟨st1, v, i1⟩, h1, h⟩ := Res.bind_eq_ok.1 h
    simp only [Res.ok.injEq, Prod.mk.injEq] at h; rw [← h.2.2]; exact gorillaDecode_suffix _ _ _ _ _ _ h1
  | floatN lanes =>
    simp only [Dec.step] at h
    split at h
    · simp at h
    · obtain ⟨⟨ls1, ws1, i1⟩, h1, h⟩ := Res.bind_eq_ok.1 h
      simp only [Res.ok.injEq, Prod.mk.injEq] at h; rw [← h.2.2]; exact lanesDecode_suffix F _ _ _ _ _ h1

theorem decodeFields_suffix (F : FloatOps) (ds : List Dec) : ∀ (ds' : List Dec) (input rest buf buf' : List Byte) (base : Nat),
    decodeFields F ds input buf base = .ok (ds', rest, buf') → rest <:+ input := by
  induction ds with
  | nil =>
    intro ds' input rest buf buf' base h
    simp only [decodeFields, Res.ok.injEq, Prod.mk.injEq] at h
    rw [h.2.1]; exact List.suffix_refl _
  | cons d ds ih =>
    intro ds' input rest buf buf' base h
    simp only [decodeFields] at h
    obtain ⟨⟨d1, ws, i1⟩, h1, h⟩ := Res.bind_eq_ok.1 h
    obtain ⟨b1, h2, h⟩ := Res.bind_eq_ok.1 h
    obtain ⟨⟨ds1, i2, b2⟩, h3, h⟩ := Res.bind_eq_ok.1 h
    simp only [Res.ok.injEq, Prod.mk.injEq] at h
    rw [← h.2.1]
    exact (ih _ _ _ _ _ _ h3).trans (step_suffix F _ _ _ _ _ h1)

/-- The point loop of version 5 with decoders that check for themselves. -/
theorem decodePointsV5_safe (F : FloatOps) (step n : Nat) : ∀ (ds : List Dec) (input buf : List Byte) (base : Nat), readsOk ds 0 →
    (∀ d ∈ ds, d.Inside step) → base + n * step ≤ buf.length →
    Safe (decodePointsV5 F step n ds input buf base) fun r => r.1.map Dec.reset = ds.map Dec.reset ∧ r.2.2.length = buf.length ∧ r.2.1 <:+ input := by
  induction n with
  | zero => intro ds input buf base _ _ _; exact ⟨rfl, rfl, List.suffix_refl _⟩
  | succ n ih =>
    intro ds input buf base h hi hb
    rw [Nat.succ_mul] at hb
    rw [decodePointsV5]
    have h1 := decodeFields_safe F step ds 0 input buf base (by omega) h hi (by omega)
    cases hs : decodeFields F ds input buf base with
    | throw _ => trivial
    | ub k => rw [hs] at h1; exact h1
    | ok r =>
      obtain ⟨ds', rest, b⟩ := r
      rw [hs] at h1
      have h1' : b.length = buf.length := h1
      have hreset := decodeFields_reset F ds ds' input rest buf b base hs
      simp only [Res.ok_bind]
      refine (ih ds' rest b (base + step) ?_ ?_ (by omega)).mono fun r hr => ?_
      · rw [← readsOk_reset, hreset, readsOk_reset]; exact h
      · intro d hd
        have : d.reset ∈ ds.map Dec.reset := by rw [← hreset]; exact List.mem_map_of_mem hd
        obtain ⟨d0, hd0, he⟩ := List.mem_map.1 this
        rw [← inside_reset, ← he, inside_reset]
        exact hi d0 hd0
      · exact ⟨by rw [hr.1, hreset], by rw [hr.2.1, h1'], hr.2.2.trans (decodeFields_suffix F _ _ _ _ _ _ _ hs)⟩

/-! ### the integer sections -/

theorem writeValue_safe (buf : List Byte) (base step n i : Nat) (f : AField) (v : BitVec 64) (hin : f.offset + f.bpv ≤ step) (hi : i < n)
    (hb : base + n * step ≤ buf.length) : Safe (writeValue buf base step f i v) fun b => b.length = buf.length := by
  have h1 : (i + 1) * step ≤ n * step := Nat.mul_le_mul_right _ hi
  rw [Nat.succ_mul] at h1
  unfold writeValue writeAt
  rw [if_pos (by rw [toLE_length]; omega)]
  exact splice_length (by rw [toLE_length]; omega)

theorem decodeDeltas_safe (f : AField) (base step n k : Nat) : ∀ (i : Nat) (prev : BitVec 64) (input buf : List Byte), i + k ≤ n →
    f.offset + f.bpv ≤ step → base + n * step ≤ buf.length →
    Safe (decodeDeltas f base step k i prev input buf) fun r => r.1 <:+ input ∧ r.2.length = buf.length := by
  induction k with
  | zero => intro i prev input buf _ _ _; exact ⟨List.suffix_refl _, rfl⟩
  | succ k ih =>
    intro i prev input buf hk hin hb
    rw [decodeDeltas]
    refine Safe.bind (decodeVarint_safe _) fun r _ => Safe.bind (addI64_safe _ _) fun v _ => ?_
    refine Safe.bind (writeValue_safe buf base step n i f v hin (by omega) hb) fun b hbl => ?_
    refine (ih _ _ _ b (by omega) hin (by omega)).mono fun q hq => ?_
    exact ⟨hq.1.trans (List.drop_suffix _ _), by rw [hq.2, hbl]⟩

theorem readPalette_safe (bpv k : Nat) : ∀ input : List Byte, Safe (readPalette bpv k input) fun r => r.2 <:+ input := by
  induction k with
  | zero => intro input; exact List.suffix_refl _
  | succ k ih =>
    intro input
    rw [readPalette]
    split
    · trivial
    · next h =>
      rw [readAt_zero (by omega)]
      simp only [Res.ok_bind]
      exact Safe.bind (ih _) fun q hq => hq.trans (List.drop_suffix _ _)

theorem fillBits_safe (bits fuel : Nat) : ∀ (input : List Byte) (s : BitVec 64) (held : Nat), bits ≤ 8 * input.length + held →
    Safe (fillBits bits fuel input s held) fun r => 8 * r.1.length + r.2.2 = 8 * input.length + held ∧ bits ≤ r.2.2 := by
  induction fuel with
  | zero =>
    intro input s held h
    rw [fillBits]
    split
    · simp [Safe]
    · next hh => exact ⟨rfl, by simp only; omega⟩
  | succ fuel ih =>
    intro input s held h
    rw [fillBits.eq_def]
    by_cases hh : held < bits
    · simp only [if_pos hh]
      cases input with
      | nil => simp at h; omega
      | cons b bs =>
        simp only [List.length_cons] at h ⊢
        exact (ih bs _ (held + 8) (by omega)).mono fun r hr => ⟨by rw [hr.1]; omega, hr.2⟩
    · simp only [if_neg hh]
      exact ⟨rfl, by simp only; omega⟩

theorem readBitpackedIndex_safe (bits : Nat) (input : List Byte) (s : BitVec 64) (held : Nat) (h : bits ≤ 8 * input.length + held) :
    Safe (readBitpackedIndex bits input s held) fun r => 8 * r.2.1.length + r.2.2.2 + bits = 8 * input.length + held := by
  unfold readBitpackedIndex
  split
  · next hb => subst hb; exact rfl
  · exact Safe.bind (fillBits_safe bits bits input s held h) fun r hr => by
      show 8 * r.1.length + (r.2.2 - bits) + bits = _
      have := hr.2
      omega

theorem decodePaletteIndexes_safe (f : AField) (base step bits n : Nat) (pal : List (BitVec 64)) (k : Nat) :
    ∀ (i : Nat) (ptr : List Byte) (s : BitVec 64) (held : Nat) (buf : List Byte), i + k ≤ n → f.offset + f.bpv ≤ step → base + n * step ≤ buf.length →
    bits * k ≤ 8 * ptr.length + held →
    Safe (decodePaletteIndexes f base step bits pal k i ptr s held buf) fun b => b.length = buf.length := by
  induction k with
  | zero => intro i ptr s held buf _ _ _ _; exact rfl
  | succ k ih =>
    intro i ptr s held buf hk hin hb hbits
    rw [Nat.mul_succ] at hbits
    rw [decodePaletteIndexes]
    refine Safe.bind (readBitpackedIndex_safe bits ptr s held (by omega)) fun r hr => ?_
    obtain ⟨idx, p1, s1, h1⟩ := r
    simp only at hr ⊢
    split
    · trivial
    · refine Safe.bind (writeValue_safe buf base step n i f _ hin (by omega) hb) fun b hbl => ?_
      exact (ih _ _ _ _ b (by omega) hin (by omega) (by omega)).mono fun c hc => by rw [hc, hbl]

theorem groupNumber_lt (g : List Byte) : groupNumber g < 2 ^ (7 * g.length) := by
  induction g with
  | nil => simp [groupNumber]
  | cons b bs ih =>
    simp only [groupNumber, List.length_cons]
    rw [show 7 * (bs.length + 1) = 7 + 7 * bs.length by omega, Nat.pow_add]
    have : b.toNat % 128 < 128 := Nat.mod_lt _ (by decide)
    have h1 : groupNumber bs + 1 ≤ 2 ^ (7 * bs.length) := ih
    have h2 : (2 : Nat) ^ 7 * (groupNumber bs + 1) ≤ 2 ^ 7 * 2 ^ (7 * bs.length) := Nat.mul_le_mul_left _ h1
    simp only [Nat.reducePow] at h2 ⊢
    omega

theorem group_long (g : List Byte) (hg : IsGroup g) : ∀ j, j + 1 < g.length → ∀ b, g[j]? = some b → 128 ≤ b.toNat := by
  induction g with
  | nil => intro j hj; simp at hj
  | cons c cs ih =>
    intro j hj b hb
    unfold IsGroup at hg
    have hne : cs ≠ [] := by rintro rfl; simp at hj
    rw [if_neg hne] at hg
    cases j with
    | zero => simp at hb; rw [← hb]; exact hg.1
    | succ j => exact ih hg.2 j (by simpa using hj) b (by simpa using hb)

/-- In calm data every unsigned varint is below 2^63. -/
theorem readUVarint_calm {input rest : List Byte} {w : BitVec 64} (hc : Calm input) (h : readUVarint input = .ok (w, rest)) :
    w.toNat < 2 ^ 63 ∧ rest <:+ input := by
  obtain ⟨g, rfl, hg, hl, hw⟩ := (readUVarintLoop_iff input 0 0#64 w rest (by omega) (by simp)).1 h
  refine ⟨?_, List.suffix_append _ _⟩
  have h9 : g.length ≤ 9 := by
    apply Classical.byContradiction
    intro hlt
    obtain ⟨j, hj, b, hb, hlt'⟩ := hc 0 (by simp; omega)
    rw [Nat.zero_add, List.getElem?_append_left (by omega)] at hb
    have := group_long g hg j (by omega) b hb
    omega
  have h1 := groupNumber_lt g
  have h2 : (2 : Nat) ^ (7 * g.length) ≤ 2 ^ 63 := Nat.pow_le_pow_right (by decide) (by omega)
  simp only [BitVec.toNat_ofNat, Nat.zero_mod, Nat.mul_zero, Nat.pow_zero, Nat.one_mul, Nat.zero_add] at hw
  rw [hw, Nat.mod_eq_of_lt (by omega)]
  omega

theorem readUVarint_safe {input : List Byte} (hc : Calm input) :
    Safe (readUVarint input) fun r => r.1.toNat < 2 ^ 63 ∧ r.2 <:+ input := by
  cases h : readUVarint input with
  | ok r => exact readUVarint_calm hc h
  | throw m => trivial
  | ub k =>
    have := readUVarintLoop_not_ub input 0 0#64 (by omega)
    unfold readUVarint at h
    rw [h] at this; simp at this

theorem run_fits {i n : Nat} {r : BitVec 64} (hi : i ≤ n) (hn : n < 2 ^ 63) (hr : r.toNat < 2 ^ 63)
    (h : ¬ (BitVec.ofNat 64 i + r).toNat > n) : i + r.toNat ≤ n := by
  rw [BitVec.toNat_add, BitVec.toNat_ofNat, Nat.mod_eq_of_lt (a := i) (by omega), Nat.mod_eq_of_lt (by omega)] at h
  omega

theorem writeRun_safe (f : AField) (base step n : Nat) (v : BitVec 64) (k : Nat) : ∀ (i : Nat) (buf : List Byte), i + k ≤ n →
    f.offset + f.bpv ≤ step → base + n * step ≤ buf.length → Safe (writeRun f base step v k i buf) fun b => b.length = buf.length := by
  induction k with
  | zero => intro i buf _ _ _; exact rfl
  | succ k ih =>
    intro i buf hk hin hb
    rw [writeRun]
    refine Safe.bind (writeValue_safe buf base step n i f v hin (by omega) hb) fun b hbl => ?_
    exact (ih _ b (by omega) hin (by omega)).mono fun c hc => by rw [hc, hbl]

theorem writeDeltaRun_safe (f : AField) (base step n : Nat) (d : BitVec 64) (k : Nat) : ∀ (i : Nat) (prev : BitVec 64) (buf : List Byte), i + k ≤ n →
    f.offset + f.bpv ≤ step → base + n * step ≤ buf.length →
    Safe (writeDeltaRun f base step d k i prev buf) fun r => r.2.length = buf.length := by
  induction k with
  | zero => intro i prev buf _ _ _; exact rfl
  | succ k ih =>
    intro i prev buf hk hin hb
    rw [writeDeltaRun]
    refine Safe.bind (addI64_safe _ _) fun v _ => ?_
    refine Safe.bind (writeValue_safe buf base step n i f v hin (by omega) hb) fun b hbl => ?_
    exact (ih _ _ b (by omega) hin (by omega)).mono fun c hc => by rw [hc, hbl]

theorem decodeRleRuns_safe (f : AField) (base step n r : Nat) : ∀ (i : Nat) (input buf : List Byte), i ≤ n → n < 2 ^ 63 → Calm input →
    f.offset + f.bpv ≤ step → base + n * step ≤ buf.length →
    Safe (decodeRleRuns f base step n r i input buf) fun q => q.2.1 <:+ input ∧ q.2.2.length = buf.length := by
  induction r with
  | zero => intro i input buf _ _ _ _ _; exact ⟨List.suffix_refl _, rfl⟩
  | succ r ih =>
    intro i input buf hi hn hc hin hb
    rw [decodeRleRuns]
    split
    · trivial
    next hl =>
    rw [readAt_zero (by omega)]
    simp only [Res.ok_bind]
    refine Safe.bind (readUVarint_safe (hc.suffix (List.drop_suffix _ _))) fun q hq => ?_
    split
    · trivial
    next hgt =>
    have hfit := run_fits hi hn hq.1 hgt
    refine Safe.bind (writeRun_safe f base step n _ _ i buf hfit hin hb) fun b hbl => ?_
    have hs := hq.2.trans (List.drop_suffix f.bpv input)
    exact (ih _ _ b hfit hn (hc.suffix hs) hin (by omega)).mono fun c hc' => ⟨hc'.1.trans hs, by rw [hc'.2, hbl]⟩

theorem decodeDeltaRleRuns_safe (f : AField) (base step n r : Nat) : ∀ (i : Nat) (prev : BitVec 64) (input buf : List Byte), i ≤ n → n < 2 ^ 63 → Calm input →
    f.offset + f.bpv ≤ step → base + n * step ≤ buf.length →
    Safe (decodeDeltaRleRuns f base step n r i prev input buf) fun q => q.2.1 <:+ input ∧ q.2.2.length = buf.length := by
  induction r with
  | zero => intro i prev input buf _ _ _ _ _; exact ⟨List.suffix_refl _, rfl⟩
  | succ r ih =>
    intro i prev input buf hi hn hc hin hb
    rw [decodeDeltaRleRuns]
    refine Safe.bind (decodeVarint_safe _) fun d _ => ?_
    refine Safe.bind (readUVarint_safe (hc.suffix (List.drop_suffix _ _))) fun q hq => ?_
    simp only
    split
    · trivial
    next hgt =>
    have hfit := run_fits hi hn hq.1 hgt
    refine Safe.bind (writeDeltaRun_safe f base step n _ _ i prev buf hfit hin hb) fun b hbl => ?_
    have hs := hq.2.trans (List.drop_suffix d.2 input)
    exact (ih _ _ _ b.2 hfit hn (hc.suffix hs) hin (by omega)).mono fun c hc' => ⟨hc'.1.trans hs, by rw [hc'.2, hbl]⟩

theorem decodeInt_safe (k : Nat) (input : List Byte) : Safe (decodeInt k input) fun r => r.2 <:+ input := by
  rw [decodeInt_def]
  split
  · exact List.drop_suffix _ _
  · trivial

theorem decodeSection_safe (f : AField) (base step n : Nat) (input buf : List Byte) (hn : n < 2 ^ 63) (hc : Calm input)
    (hin : f.offset + f.bpv ≤ step) (hb : base + n * step ≤ buf.length) :
    Safe (decodeSection f base step n input buf) fun q => q.1 <:+ input ∧ q.2.length = buf.length := by
  cases input with
  | nil => trivial
  | cons m input =>
    have hc' := hc.suffix (List.suffix_cons m input)
    simp only [decodeSection]
    split
    · exact (decodeDeltas_safe f base step n n 0 0#64 input buf (by omega) hin hb).mono fun q hq => ⟨hq.1.trans (List.suffix_cons _ _), hq.2⟩
    split
    · refine Safe.bind (decodeInt_safe 2 input) fun q hq => ?_
      split
      · trivial
      refine Safe.bind (readPalette_safe f.bpv q.1 q.2) fun p hp => ?_
      split
      · trivial
      next hl =>
      refine Safe.bind (decodePaletteIndexes_safe f base step _ n p.1 n 0 p.2 0#64 0 buf (by omega) hin hb (by omega)) fun b hbl => ?_
      exact ⟨(List.drop_suffix _ _).trans (hp.trans (hq.trans (List.suffix_cons _ _))), hbl⟩
    split
    · refine Safe.bind (decodeInt_safe 4 input) fun q hq => ?_
      refine Safe.bind (decodeRleRuns_safe f base step n q.1 0 q.2 buf (by omega) hn (hc'.suffix hq) hin hb) fun p hp => ?_
      split
      · trivial
      · exact ⟨hp.1.trans (hq.trans (List.suffix_cons _ _)), hp.2⟩
    split
    · refine Safe.bind (decodeInt_safe 4 input) fun q hq => ?_
      refine Safe.bind (decodeDeltaRleRuns_safe f base step n q.1 0 0#64 q.2 buf (by omega) hn (hc'.suffix hq) hin hb) fun p hp => ?_
      split
      · trivial
      · exact ⟨hp.1.trans (hq.trans (List.suffix_cons _ _)), hp.2⟩
    · trivial

theorem decodeSections_safe (base step n : Nat) (hn : n < 2 ^ 63) (fs : List AField) : ∀ (input buf : List Byte), Calm input →
    (∀ f ∈ fs, f.offset + f.bpv ≤ step) → base + n * step ≤ buf.length →
    Safe (decodeSections base step n fs input buf) fun q => q.2.length = buf.length := by
  induction fs with
  | nil => intro input buf _ _ _; exact rfl
  | cons f fs ih =>
    intro input buf hc hin hb
    rw [decodeSections]
    refine Safe.bind (decodeSection_safe f base step n input buf hn hc (hin f (by simp)) hb) fun q hq => ?_
    exact (ih q.1 q.2 (hc.suffix hq.1) (fun g hg => hin g (by simp [hg])) (by omega)).mono fun p hp => by rw [hp, hq.2]

theorem decodeV5Chunk_safe (F : FloatOps) (ds : List Dec) (as : List AField) (step n : Nat) (input buf : List Byte) (base : Nat) (hn : n < 2 ^ 63)
    (hc : Calm input) (h : readsOk ds 0) (hi : ∀ d ∈ ds, d.Inside step) (ha : ∀ f ∈ as, f.offset + f.bpv ≤ step) (hb : base ≤ buf.length) :
    Safe (decodeV5Chunk F ds as step n input buf base) fun r => r.1.map Dec.reset = ds.map Dec.reset ∧ r.2.2 ≤ r.2.1.length := by
  unfold decodeV5Chunk
  split
  · trivial
  split
  · trivial
  next hroom =>
  refine Safe.bind (decodePointsV5_safe F step n (ds.map Dec.reset) input buf base ((readsOk_reset _ _).2 h)
    (by intro d hd; obtain ⟨d0, hd0, rfl⟩ := List.mem_map.1 hd; exact inside_reset.2 (hi d0 hd0)) (by omega)) fun q hq => ?_
  refine Safe.bind (decodeSections_safe base step n hn as q.2.1 q.2.2 (hc.suffix hq.2.2) ha (by rw [hq.2.1]; omega)) fun p hp => ?_
  simp only
  split
  · trivial
  · refine ⟨by show q.1.map Dec.reset = _; rw [hq.1, dmap_reset_reset], ?_⟩
    show base + n * step ≤ p.2.length
    rw [hp, hq.2.1]; omega

/-- The chunk loop: as long as every chunk expands to calm data. -/
theorem decodeLoopV5_safe (F : FloatOps) (C : Compressor) (info : EncodingInfo) (hv : usesV5 info = true) (min' points : Nat) :
    ∀ (ds : List Dec) (data buf : List Byte) (base : Nat), readsOk ds 0 → (∀ d ∈ ds, d.Inside info.point_step.toNat) →
    (∀ f ∈ getAdaptiveFields info, f.offset + f.bpv ≤ info.point_step.toNat) → base ≤ buf.length →
    (∀ pre c post view, data = pre ++ c ++ post → decompressChunk C info.compression_opt c (maxDecompressed info) = .ok view → Calm view) →
    Safe (decodeLoop F C info min' points ds data buf base) fun _ => True := by
  induction points using Nat.strongRecOn with
  | _ points ih =>
    intro ds data buf base h hi ha hb hcalm
    rw [decodeLoop]
    split
    · split <;> trivial
    split
    · trivial
    next hp =>
    cases hd : decodeInt 4 data with
    | throw _ => trivial
    | ub k => have := decodeInt_safe 4 data; rw [hd] at this; exact this
    | ok r =>
    have hsuf := decodeInt_safe 4 data
    rw [hd] at hsuf
    obtain ⟨pre, hpre⟩ : r.2 <:+ data := hsuf
    simp only [Res.ok_bind]
    split
    · trivial
    have hnn : min points kPointsPerChunk < 2 ^ 63 := by simp only [kPointsPerChunk]; omega
    have hch : Safe (decodeChunk F C 0 info ds min' (r.2.take r.1) buf base (min points kPointsPerChunk)) fun q =>
        q.1.map Dec.reset = ds.map Dec.reset ∧ q.2.2 ≤ q.2.1.length := by
      unfold decodeChunk
      cases hdc : decompressChunk C info.compression_opt (r.2.take r.1) (maxDecompressed info) with
      | throw _ => trivial
      | ub k => have := decompressChunk_safe C info.compression_opt (r.2.take r.1) (maxDecompressed info); rw [hdc] at this; exact this
      | ok view =>
        simp only [Res.ok_bind, hv, if_true]
        exact decodeV5Chunk_safe F ds _ _ _ view buf base hnn
          (hcalm pre (r.2.take r.1) (r.2.drop r.1) view (by rw [List.append_assoc, List.take_append_drop, hpre]) hdc) h hi ha hb
    refine Safe.bind hch fun q hq => ?_
    refine ih _ (by simp only [kPointsPerChunk]; omega) q.1 _ q.2.1 q.2.2 ?_ ?_ ha hq.2 ?_
    · rw [← readsOk_reset, hq.1, readsOk_reset]; exact h
    · intro d hd
      have : d.reset ∈ ds.map Dec.reset := by rw [← hq.1]; exact List.mem_map_of_mem hd
      obtain ⟨d0, hd0, he⟩ := List.mem_map.1 this
      rw [← inside_reset, ← he, inside_reset]
      exact hi d0 hd0
    · intro p c post view he
      refine hcalm (pre ++ r.2.take r.1 ++ p) c post view ?_
      rw [← hpre]
      conv => lhs; rw [← List.take_append_drop r.1 r.2, he]
      simp only [List.append_assoc]

end Cloudini
