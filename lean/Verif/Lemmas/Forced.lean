import Verif.Lemmas.CloudMain
import Verif.Lemmas.Bridge

/-! What a successful decode says about the values that were encoded, for the codecs without quantisation. -/

namespace Cloudini

/-- The encoders that do not quantise. -/
def Enc.Exact : Enc → Prop
  | .copy .. | .int .. | .xor .. | .gorilla .. => True
  | _ => False

theorem exact_reset (e : Enc) : e.reset.Exact ↔ e.Exact := by
  cases e <;> simp [Enc.reset, Enc.Exact]

theorem exact_congr {es es' : List Enc} (he : es.map Enc.reset = es'.map Enc.reset) (h : ∀ e ∈ es', e.Exact) : ∀ e ∈ es, e.Exact := by
  intro e hm
  have : e.reset ∈ es'.map Enc.reset := by rw [← he]; exact List.mem_map_of_mem hm
  simp only [List.mem_map] at this
  obtain ⟨a, ha, hr⟩ := this
  rw [← exact_reset, ← hr, exact_reset]
  exact h a ha

theorem step64_of_sub {a b d : BitVec 64} (h : subI64 a b = .ok d) (hne : d ≠ BitVec.intMin 64) : Step64 a b := by
  rw [subI64_eq_ok] at h
  obtain ⟨ho, rfl⟩ := h
  simp only [BitVec.ssubOverflow, Bool.or_eq_false_iff, decide_eq_false_iff_not] at ho
  unfold Step64
  have hd : (a - b).toInt = a.toInt - b.toInt := by
    rw [BitVec.toInt_sub]; apply Int.bmod_eq_of_le <;> omega
  have h3 : (BitVec.intMin 64).toInt = -9223372036854775808 := by decide
  have : (a - b).toInt ≠ -9223372036854775808 := fun hh => hne (BitVec.eq_of_toInt_eq (by rw [hh, h3]))
  omega

/-- When the decoder accepts what an exact encoder wrote, the value was in order. -/
theorem step_forced (F : FloatOps) (pm : Option (List Byte)) (mem : List Byte) (e e' : Enc) (d : Dec) (bs rest : List Byte)
    (hx : e.Exact) (hm : Matches e d) (hp : e.PrevIs F pm) (hs : e.step F mem = .ok (e', bs))
    (hd : ∃ r, d.step F (bs ++ rest) = .ok r) : e.Good F pm mem := by
  cases e with
  | copy o s =>
    simp only [Enc.step, Res.bind_eq_ok] at hs
    obtain ⟨v, hv, _⟩ := hs
    exact (readAt_eq_ok.1 hv).1
  | xor o s p =>
    simp only [Enc.step, Res.bind_eq_ok] at hs
    obtain ⟨v, hv, _⟩ := hs
    exact (readAt_eq_ok.1 hv).1
  | gorilla o s st =>
    simp only [Enc.step, Res.bind_eq_ok] at hs
    obtain ⟨v, hv, _⟩ := hs
    exact (readAt_eq_ok.1 hv).1
  | int o s g p =>
    cases d <;> simp only [Matches] at hm
    next o' s' p' =>
    simp only [Enc.step] at hs
    rw [Res.bind_eq_ok] at hs
    obtain ⟨v, hv, hs⟩ := hs
    rw [readAt_eq_ok] at hv
    obtain ⟨hl, rfl⟩ := hv
    change (subI64 (toI64 s g (sub mem o s)) p >>= _) = _ at hs
    rw [Res.bind_eq_ok] at hs
    obtain ⟨diff, hdiff, hs⟩ := hs
    simp only [Res.ok.injEq, Prod.mk.injEq] at hs
    obtain ⟨_, rfl⟩ := hs
    simp only [Enc.PrevIs] at hp
    refine ⟨hl, ?_⟩
    rw [← hp]
    refine step64_of_sub hdiff ?_
    intro hm'
    subst hm'
    have h0 : encodeVarint64 (BitVec.intMin 64) = [0#8] := by decide +kernel
    obtain ⟨r, hd⟩ := hd
    rw [h0] at hd
    simp [Dec.step, decodeVarint, decodeVarintRaw] at hd
  | lossy32 o r p => exact hx.elim
  | lossy64 o r p => exact hx.elim
  | floatN ls => exact hx.elim

theorem encodeFields_out (F : FloatOps) (mem : List Byte) (es es' : List Enc) (w w' : W) (h : encodeFields F mem es w = .ok (es', w')) :
    ∃ bs, w' = ⟨w.out ++ bs, w.room - bs.length⟩ := by
  induction es generalizing es' w with
  | nil =>
    simp only [encodeFields, Res.ok.injEq, Prod.mk.injEq] at h
    obtain ⟨_, rfl⟩ := h
    exact ⟨[], by simp⟩
  | cons e es ih =>
    simp only [encodeFields, Res.bind_eq_ok] at h
    obtain ⟨⟨e1, b1⟩, _, w1, hw, ⟨es1, w2⟩, h2, h⟩ := h
    simp only [Res.ok.injEq, Prod.mk.injEq] at h
    obtain ⟨_, rfl⟩ := h
    rw [W.raw_eq_ok] at hw
    obtain ⟨_, rfl⟩ := hw
    obtain ⟨bs, hb⟩ := ih _ _ h2
    exact ⟨b1 ++ bs, by rw [hb]; simp only [List.append_assoc, List.length_append, Nat.sub_sub]⟩

theorem encodeCore_out (F : FloatOps) (step n : Nat) (mem : List Byte) (es es' : List Enc) (w w' : W)
    (h : encodeCore F step n es mem w = .ok (es', w')) : ∃ bs, w' = ⟨w.out ++ bs, w.room - bs.length⟩ := by
  induction n generalizing es mem w with
  | zero =>
    simp only [encodeCore, Res.ok.injEq, Prod.mk.injEq] at h
    obtain ⟨_, rfl⟩ := h
    exact ⟨[], by simp⟩
  | succ n ih =>
    simp only [encodeCore, Res.bind_eq_ok] at h
    obtain ⟨⟨es1, w1⟩, h1, h2⟩ := h
    obtain ⟨b1, rfl⟩ := encodeFields_out F mem es es1 w w1 h1
    obtain ⟨b2, hb⟩ := ih _ _ _ h2
    exact ⟨b1 ++ b2, by rw [hb]; simp only [List.append_assoc, List.length_append, Nat.sub_sub]⟩

theorem fields_forced (F : FloatOps) (pm : Option (List Byte)) (mem : List Byte) (es es' : List Enc) (ds : List Dec) (w : W) (room' : Nat)
    (bs rest buf : List Byte) (base : Nat) (hx : ∀ e ∈ es, e.Exact) (hm : MatchAll es ds) (hp : ∀ e ∈ es, e.PrevIs F pm)
    (hs : encodeFields F mem es w = .ok (es', ⟨w.out ++ bs, room'⟩))
    (hd : ∃ r, decodeFields F ds (bs ++ rest) buf base = .ok r) :
    GoodAll F pm mem es ∧ ∃ buf', applyWrites buf base (pointWrites F mem es ds) = .ok buf' := by
  induction es generalizing es' ds w bs buf with
  | nil =>
    cases ds with
    | cons d ds => exact hm.elim
    | nil => exact ⟨by simp [GoodAll], buf, rfl⟩
  | cons e es ih =>
    cases ds with
    | nil => exact hm.elim
    | cons d ds =>
      simp only [encodeFields, Res.bind_eq_ok] at hs
      obtain ⟨⟨e1, b1⟩, h1, w1, hw, ⟨es1, w2⟩, h2, hs⟩ := hs
      simp only [Res.ok.injEq, Prod.mk.injEq] at hs
      obtain ⟨_, hw2⟩ := hs
      rw [W.raw_eq_ok] at hw
      obtain ⟨_, rfl⟩ := hw
      obtain ⟨b2, hb2⟩ := encodeFields_out F mem es es1 _ w2 h2
      have hbs : bs = b1 ++ b2 := by
        rw [hb2] at hw2
        simp only [W.mk.injEq, List.append_assoc] at hw2
        exact (List.append_cancel_left hw2.1).symm
      subst hbs
      rw [List.append_assoc] at hd
      obtain ⟨r, hd⟩ := hd
      simp only [decodeFields, Res.bind_eq_ok] at hd
      obtain ⟨⟨d1, ws, in1⟩, g1, buf1, g2, ⟨ds1, in2, buf2⟩, g3, _⟩ := hd
      have hgood := step_forced F pm mem e e1 d b1 (b2 ++ rest) (hx e (by simp)) hm.1 (hp e (by simp)) h1 ⟨_, g1⟩
      obtain ⟨hc, _⟩ := step_good F pm mem e hgood (hp e (by simp))
      obtain ⟨⟨d', q1, _, _⟩, _⟩ := step_roundtrip F mem e e1 d b1 (b2 ++ rest) hm.1 h1 hc
      rw [q1] at g1
      simp only [Res.ok.injEq, Prod.mk.injEq] at g1
      obtain ⟨rfl, rfl, rfl⟩ := g1
      obtain ⟨i1, buf', i2⟩ := ih es1 ds ⟨w.out ++ b1, w.room - b1.length⟩ b2 buf1 (fun a ha => hx a (by simp [ha])) hm.2
        (fun a ha => hp a (by simp [ha])) (by rw [h2, hb2, show w.room - b1.length - b2.length = room' from ?_]; 
                                              rw [hb2] at hw2; simp only [W.mk.injEq] at hw2; exact hw2.2) ⟨_, g3⟩
      refine ⟨?_, buf', ?_⟩
      · intro a ha
        simp only [List.mem_cons] at ha
        rcases ha with rfl | ha
        · exact hgood
        · exact i1 a ha
      · simp only [pointWrites, applyWrites_append, g2, Res.ok_bind, i2]

theorem core_forced (F : FloatOps) (step dstep n min : Nat) (es es' : List Enc) (ds : List Dec) (pm : Option (List Byte)) (mem : List Byte)
    (w : W) (room' : Nat) (bs rest buf : List Byte) (base : Nat)
    (hx : ∀ e ∈ es, e.Exact) (hm : MatchAll es ds) (hp : ∀ e ∈ es, e.PrevIs F pm) (hroom : n * sumMax es ≤ w.room)
    (hs : encodeCore F step n es mem w = .ok (es', ⟨w.out ++ bs, room'⟩))
    (hd : ∃ r, decodePointsV4 F min dstep n ds (bs ++ rest) buf base = .ok r) :
    (∀ i, i < n → GoodAll F (prevMem pm step mem i) (mem.drop (i * step)) es) ∧
      ∃ buf', applyWrites buf 0 (pointsWrites F step es ds dstep n mem base) = .ok buf' := by
  induction n generalizing es ds pm mem w bs buf base with
  | zero => exact ⟨fun i hi => absurd hi (by omega), buf, rfl⟩
  | succ n ih =>
    have hsucc : (n + 1) * sumMax es = n * sumMax es + sumMax es := by rw [Nat.add_mul, Nat.one_mul]
    rw [hsucc] at hroom
    simp only [encodeCore, Res.bind_eq_ok] at hs
    obtain ⟨⟨es1, w1⟩, h1, h2⟩ := hs
    obtain ⟨b1, rfl⟩ := encodeFields_out F mem es es1 w w1 h1
    obtain ⟨b2, hb2⟩ := encodeCore_out F step n _ _ _ _ _ h2
    simp only [W.mk.injEq, List.append_assoc] at hb2
    obtain ⟨hb2, hr2⟩ := hb2
    have hbs : bs = b1 ++ b2 := List.append_cancel_left hb2
    subst hbs
    obtain ⟨r, hd⟩ := hd
    unfold decodePointsV4 at hd
    by_cases c1 : (b1 ++ b2 ++ rest).length < min
    · rw [if_pos c1] at hd; simp at hd
    rw [if_neg c1] at hd
    by_cases c2 : buf.length - base < dstep
    · rw [if_pos c2] at hd; simp at hd
    rw [if_neg c2, Res.bind_eq_ok] at hd
    obtain ⟨⟨ds1, in1, buf1⟩, d1, d2⟩ := hd
    rw [List.append_assoc] at d1
    obtain ⟨g1, bf, g2⟩ := fields_forced F pm mem es es1 ds w _ b1 (b2 ++ rest) buf base hx hm hp h1 ⟨_, d1⟩
    obtain ⟨es1', b1', ds1', f1, f2, f3, f4, f5, f6, f7, f8⟩ := fields_roundtrip F pm mem es ds w hm g1 hp (by omega)
    rw [h1] at f1
    simp only [Res.ok.injEq, Prod.mk.injEq, W.mk.injEq] at f1
    obtain ⟨rfl, f1, _⟩ := f1
    have : b1 = b1' := List.append_cancel_left f1
    subst this
    have hs1 : sumMax es1 = sumMax es := by rw [← sumMax_reset es1, f4, sumMax_reset]
    rw [f8 (b2 ++ rest) buf base bf g2] at d1
    simp only [Res.ok.injEq, Prod.mk.injEq] at d1
    obtain ⟨rfl, rfl, rfl⟩ := d1
    obtain ⟨i1, buf', i2⟩ := ih es1 ds1' (some mem) (mem.drop step) ⟨w.out ++ b1, w.room - b1.length⟩ b2 bf (base + dstep)
      (exact_congr f4 hx) f3 f2 (by rw [hs1]; simp only; omega) (by rw [h2]; simp only [List.append_assoc]) ⟨_, d2⟩
    refine ⟨?_, buf', ?_⟩
    · intro i hi
      cases i with
      | zero => simpa [prevMem] using g1
      | succ i =>
        have := i1 i (by omega)
        rw [List.drop_drop, prevMem_succ pm] at this
        rw [show (i + 1) * step = step + i * step from by rw [Nat.add_mul, Nat.one_mul, Nat.add_comm]]
        exact goodAll_congr f4 this
    · simp only [pointsWrites]
      rw [applyWrites_append, ← applyWrites_shift, g2, Res.ok_bind, ← pointsWrites_congr F step dstep f4 f5]
      exact i2

theorem stage1V4_forced (F : FloatOps) (dinfo : EncodingInfo) (step cap min' : Nat) (es0 : List Enc) (ds0 : List Dec)
    (hv : usesV5 dinfo = false) (hx : ∀ e ∈ es0, e.Exact) (hm : MatchAll (es0.map Enc.reset) (ds0.map Dec.reset)) (hstep : 0 < step)
    (hmin : min' ≤ sumMin ds0)
    (points : Nat) (hcap : min points kPointsPerChunk * sumMax es0 ≤ cap) (es es' : List Enc) (ds : List Dec) (mem : List Byte)
    (cs : List (List Byte)) (buf : List Byte) (base : Nat)
    (he : es.map Enc.reset = es0.map Enc.reset) (hd : ds.map Dec.reset = ds0.map Dec.reset)
    (hl : mem.length = points * step) (hbuf : base + points * dinfo.point_step.toNat ≤ buf.length)
    (hs : stage1V4 F step cap points es mem = .ok (es', cs))
    (hdec : ∃ buf', decodeStage1 F dinfo min' points ds cs buf base = .ok buf') :
    ∀ i, i < points → GoodAll F (chunkPrev step mem i) (mem.drop (i * step)) es0 := by
  induction points using Nat.strongRecOn generalizing es ds mem cs buf base with
  | ind points ih =>
    intro i hi
    unfold stage1V4 at hs
    have hp : points ≠ 0 := by omega
    rw [dif_neg hp, Res.bind_eq_ok] at hs
    obtain ⟨⟨es1, mem1, chunk⟩, h1, hs⟩ := hs
    simp only at hs
    rw [Res.bind_eq_ok] at hs
    obtain ⟨⟨es2, cs2⟩, h2, hs⟩ := hs
    simp only [Res.ok.injEq, Prod.mk.injEq] at hs
    obtain ⟨rfl, rfl⟩ := hs
    obtain ⟨buf', hdec⟩ := hdec
    unfold decodeStage1 at hdec
    rw [if_neg hp, Res.bind_eq_ok] at hdec
    obtain ⟨⟨ds1, buf1, base1⟩, d1, d2⟩ := hdec
    simp only at d2
    have hK := pos_K
    have hn : min points kPointsPerChunk ≤ points := Nat.min_le_left _ _
    have hnK : min points kPointsPerChunk ≤ kPointsPerChunk := Nat.min_le_right _ _
    have hn0 : 0 < min points kPointsPerChunk := by omega
    generalize hnn : min points kPointsPerChunk = n at *
    have hse : sumMax es = sumMax es0 := by rw [← sumMax_reset es, he, sumMax_reset]
    have hsd : sumMin ds = sumMin ds0 := by rw [← sumMin_reset ds, hd, sumMin_reset]
    have hsr : sumMax (es.map Enc.reset) = sumMax es := sumMax_reset es
    have hmem : n * step ≤ mem.length := by rw [hl]; exact Nat.mul_le_mul_right _ hn
    have hend : n < kPointsPerChunk → mem.length = n * step := fun h => by rw [hl, show points = n from by omega]
    have hms : MatchAll (es.map Enc.reset) (ds.map Dec.reset) := by rw [he, hd]; exact hm
    -- the first chunk
    have h1' := h1
    unfold encodeV4Chunk at h1'
    rw [encodePoints_core F step kPointsPerChunk n (es.map Enc.reset) mem ⟨[], cap⟩ hstep hnK hmem hend] at h1'
    simp only [Res.bind_eq_ok] at h1'
    obtain ⟨⟨esA, memA, wA⟩, ⟨⟨esB, wB⟩, hcore, hA⟩, hB⟩ := h1'
    simp only [Res.ok.injEq, Prod.mk.injEq] at hA hB
    obtain ⟨rfl, rfl, rfl⟩ := hA
    obtain ⟨rfl, rfl, rfl⟩ := hB
    unfold decodeStage1Chunk at d1
    rw [hv] at d1
    simp only [Bool.false_eq_true, if_false] at d1
    have d1' := d1
    unfold decodeV4Chunk at d1'
    simp only at d1'
    rw [if_pos hn0, Res.bind_eq_ok] at d1'
    obtain ⟨rA, dA, _⟩ := d1'
    have hw : wB = ⟨([] : List Byte) ++ wB.out, wB.room⟩ := by simp
    obtain ⟨c1, bf, c2⟩ := core_forced F step dinfo.point_step.toNat n min' (es.map Enc.reset) esB (ds.map Dec.reset) none mem ⟨[], cap⟩ wB.room
      wB.out [] buf base
      (exact_congr ((map_reset_reset es).trans he) hx) hms
      (fun e he => by
        simp only [List.mem_map] at he
        obtain ⟨a, _, rfl⟩ := he
        exact reset_prevIs F a) (by rw [hsr, hse]; exact hcap) (by rw [hcore, ← hw]) ⟨rA, by rw [List.append_nil]; exact dA⟩
    have hgood : ∀ j, j < n → GoodAll F (prevMem none step mem j) (mem.drop (j * step)) es := fun j hj =>
      goodAll_congr (map_reset_reset es) (c1 j hj)
    obtain ⟨es1', ds1', bytes, q1, q2, q3, q4, q5⟩ := chunkV4_roundtrip F step dinfo.point_step.toNat n kPointsPerChunk cap es ds mem
      hms hgood hstep hnK hmem hend (by rw [hse]; exact hcap) hn0
    rw [h1] at q1
    simp only [Res.ok.injEq, Prod.mk.injEq] at q1
    obtain ⟨rfl, _, rfl⟩ := q1
    have hmul : points * dinfo.point_step.toNat = n * dinfo.point_step.toNat + (points - n) * dinfo.point_step.toNat := by
      rw [← Nat.add_mul, show n + (points - n) = points from by omega]
    rw [pointsWrites_congr F step _ (map_reset_reset es) (dmap_reset_reset ds)] at c2
    rw [q5 min' 0 buf base bf (by rw [hsd]; exact hmin) (by omega) c2] at d1
    simp only [Res.ok.injEq, Prod.mk.injEq] at d1
    obtain ⟨rfl, rfl, rfl⟩ := d1
    have hlen := applyWrites_length c2
    by_cases hin : i < n
    · rw [chunkPrev_first step mem i (by omega)]
      exact goodAll_congr he (hgood i hin)
    · have hmn : min (points - n) kPointsPerChunk * sumMax es0 ≤ n * sumMax es0 := Nat.mul_le_mul_right _ (by omega)
      have := ih (points - n) (by omega) (Nat.le_trans hmn hcap) _ _ _ cs2 _ _ (q2.trans he) (q3.trans hd)
        (drop_mul_length hl hn) (by rw [hlen]; omega) h2 ⟨_, d2⟩ (i - n) (by omega)
      rw [List.drop_drop, ← Nat.add_mul, chunkPrev_later step mem n (i - n) (by omega), show n + (i - n) = i from by omega] at this
      exact this

end Cloudini
