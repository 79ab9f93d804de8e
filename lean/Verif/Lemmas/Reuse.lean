import Verif.Lemmas.Unfold
import Verif.Lemmas.Footprint

/-! Histories: encoders used before, clouds split at chunk boundaries. -/

namespace Cloudini

theorem lane_reset (F : FloatOps) (mem : List Byte) (l l' : Lane) (bs : List Byte) (h : laneEncode F mem l = .ok (l', bs)) :
    ({ l' with prev := 0#32 } : Lane) = { l with prev := 0#32 } := by
  unfold laneEncode at h
  rw [Res.bind_eq_ok] at h
  obtain ⟨b, _, h⟩ := h
  simp only at h
  split at h <;> simp only [Res.ok.injEq, Prod.mk.injEq] at h <;> rw [← h.1]

theorem lanes_reset (F : FloatOps) (mem : List Byte) (ls ls' : List Lane) (bs : List Byte) (h : lanesEncode F mem ls = .ok (ls', bs)) :
    (ls'.map fun l => ({ l with prev := 0#32 } : Lane)) = ls.map fun l => { l with prev := 0#32 } := by
  induction ls generalizing ls' bs with
  | nil => simp only [lanesEncode, Res.ok.injEq, Prod.mk.injEq] at h; rw [← h.1]
  | cons l ls ih =>
    simp only [lanesEncode] at h
    rw [Res.bind_eq_ok] at h
    obtain ⟨⟨l1, b1⟩, h1, h⟩ := h
    simp only at h
    rw [Res.bind_eq_ok] at h
    obtain ⟨⟨ls1, b2⟩, h2, h⟩ := h
    simp only [Res.ok.injEq, Prod.mk.injEq] at h
    obtain ⟨rfl, rfl⟩ := h
    rw [List.map_cons, List.map_cons, ih _ _ h2, lane_reset F mem _ _ _ h1]

/-- Encoding a value changes nothing but the history an encoder keeps. -/
theorem step_reset (F : FloatOps) (mem : List Byte) (e e' : Enc) (bs : List Byte) (h : e.step F mem = .ok (e', bs)) :
    e'.reset = e.reset := by
  cases e with
  | copy o s =>
    simp only [Enc.step] at h
    rw [Res.bind_eq_ok] at h
    obtain ⟨b, _, h⟩ := h
    simp only [Res.ok.injEq, Prod.mk.injEq] at h; rw [← h.1]
  | int o s g p =>
    simp only [Enc.step] at h
    rw [Res.bind_eq_ok] at h
    obtain ⟨b, _, h⟩ := h
    rw [Res.bind_eq_ok] at h
    obtain ⟨d, _, h⟩ := h
    simp only [Res.ok.injEq, Prod.mk.injEq] at h; rw [← h.1]; rfl
  | lossy32 o r p =>
    simp only [Enc.step] at h
    rw [Res.bind_eq_ok] at h
    obtain ⟨b, _, h⟩ := h
    split at h
    · simp only [Res.ok.injEq, Prod.mk.injEq] at h; rw [← h.1]; rfl
    · split at h
      · simp at h
      · rw [Res.bind_eq_ok] at h
        obtain ⟨d, _, h⟩ := h
        simp only [Res.ok.injEq, Prod.mk.injEq] at h; rw [← h.1]; rfl
  | lossy64 o r p =>
    simp only [Enc.step] at h
    rw [Res.bind_eq_ok] at h
    obtain ⟨b, _, h⟩ := h
    split at h
    · simp only [Res.ok.injEq, Prod.mk.injEq] at h; rw [← h.1]; rfl
    · split at h
      · simp at h
      · rw [Res.bind_eq_ok] at h
        obtain ⟨d, _, h⟩ := h
        simp only [Res.ok.injEq, Prod.mk.injEq] at h; rw [← h.1]; rfl
  | xor o s p =>
    simp only [Enc.step] at h
    rw [Res.bind_eq_ok] at h
    obtain ⟨b, _, h⟩ := h
    simp only [Res.ok.injEq, Prod.mk.injEq] at h; rw [← h.1]; rfl
  | gorilla o s st =>
    simp only [Enc.step] at h
    rw [Res.bind_eq_ok] at h
    obtain ⟨b, _, h⟩ := h
    simp only [Res.ok.injEq, Prod.mk.injEq] at h; rw [← h.1]; rfl
  | floatN ls =>
    simp only [Enc.step] at h
    rw [Res.bind_eq_ok] at h
    obtain ⟨_, _, h⟩ := h
    rw [Res.bind_eq_ok] at h
    obtain ⟨⟨ls', b⟩, h1, h⟩ := h
    simp only [Res.ok.injEq, Prod.mk.injEq] at h
    rw [← h.1]
    simp only [Enc.reset, lanes_reset F mem _ _ _ h1]

theorem encodeFields_reset (F : FloatOps) (mem : List Byte) (es es' : List Enc) (w w' : W) (h : encodeFields F mem es w = .ok (es', w')) :
    es'.map Enc.reset = es.map Enc.reset := by
  induction es generalizing es' w with
  | nil => simp only [encodeFields, Res.ok.injEq, Prod.mk.injEq] at h; rw [← h.1]
  | cons e es ih =>
    simp only [encodeFields] at h
    rw [Res.bind_eq_ok] at h
    obtain ⟨⟨e1, bs⟩, h1, h⟩ := h
    simp only at h
    rw [Res.bind_eq_ok] at h
    obtain ⟨w1, h2, h⟩ := h
    rw [Res.bind_eq_ok] at h
    obtain ⟨⟨es1, w2⟩, h3, h⟩ := h
    simp only [Res.ok.injEq, Prod.mk.injEq] at h
    obtain ⟨rfl, rfl⟩ := h
    rw [List.map_cons, List.map_cons, step_reset F mem _ _ _ h1, ih _ _ h3]

theorem encodePoints_reset (F : FloatOps) (step n : Nat) (es es' : List Enc) (mem mem' : List Byte) (w w' : W)
    (h : encodePoints F step n es mem w = .ok (es', mem', w')) : es'.map Enc.reset = es.map Enc.reset := by
  induction n generalizing es mem w with
  | zero => simp only [encodePoints, Res.ok.injEq, Prod.mk.injEq] at h; rw [← h.1]
  | succ n ih =>
    simp only [encodePoints] at h
    split at h
    · simp only [Res.ok.injEq, Prod.mk.injEq] at h; rw [← h.1]
    · rw [Res.bind_eq_ok] at h
      obtain ⟨⟨es1, w1⟩, h1, h⟩ := h
      simp only at h
      split at h
      · rw [ih _ _ _ h, encodeFields_reset F mem _ _ _ _ h1]
      · simp at h

theorem encodeV4Chunk_reset (F : FloatOps) (step : Nat) (es es' : List Enc) (mem mem' chunk : List Byte) (K cap : Nat)
    (h : encodeV4Chunk F step es mem K cap = .ok (es', mem', chunk)) : es'.map Enc.reset = es.map Enc.reset := by
  unfold encodeV4Chunk at h
  rw [Res.bind_eq_ok] at h
  obtain ⟨⟨es1, m1, w1⟩, h1, h⟩ := h
  simp only [Res.ok.injEq, Prod.mk.injEq] at h
  obtain ⟨rfl, rfl, rfl⟩ := h
  rw [encodePoints_reset F step K _ _ _ _ _ _ h1, map_reset_reset]

theorem encodeV4Chunk_congr (F : FloatOps) (step : Nat) (es es' : List Enc) (mem : List Byte) (K cap : Nat)
    (h : es.map Enc.reset = es'.map Enc.reset) : encodeV4Chunk F step es mem K cap = encodeV4Chunk F step es' mem K cap := by
  unfold encodeV4Chunk; rw [h]

theorem encodeV4Loop_reset (F : FloatOps) (C : Compressor) (info : EncodingInfo) (cap points : Nat) (es es' : List Enc) (mem : List Byte)
    (w w' : W) (size size' : Nat) (h : encodeV4Loop F C info cap points es mem w size = .ok (es', w', size')) :
    es'.map Enc.reset = es.map Enc.reset := by
  induction points using Nat.strongRecOn generalizing es mem w size with
  | ind points ih =>
    unfold encodeV4Loop at h
    split at h
    · simp only [Res.ok.injEq, Prod.mk.injEq] at h; rw [← h.1]
    · rw [Res.bind_eq_ok] at h
      obtain ⟨⟨es1, m1, c⟩, h1, h⟩ := h
      simp only at h
      rw [Res.bind_eq_ok] at h
      obtain ⟨⟨w1, n⟩, _, h⟩ := h
      simp only at h
      have := pos_K
      rw [ih _ (by omega) es1 m1 w1 _ h, encodeV4Chunk_reset F _ _ _ _ _ _ _ _ h1]

theorem encodeV4Loop_congr (F : FloatOps) (C : Compressor) (info : EncodingInfo) (cap points : Nat) (es es' : List Enc) (mem : List Byte)
    (w : W) (size : Nat) (h : es.map Enc.reset = es'.map Enc.reset) :
    (encodeV4Loop F C info cap points es mem w size >>= fun r => .ok (r.2.1, r.2.2)) =
      (encodeV4Loop F C info cap points es' mem w size >>= fun r => .ok (r.2.1, r.2.2)) := by
  unfold encodeV4Loop
  split
  · rfl
  · rw [encodeV4Chunk_congr F _ _ _ _ _ _ h]

/-- What a call produces: the bytes and the returned size, or the failure. -/
def encodeOut (F : FloatOps) (C : Compressor) (enc : Encoder) (cloud : List Byte) (room : Nat) (wh : Bool) : Res (List Byte × Nat) :=
  encodeView F C enc cloud room wh >>= fun r => .ok (r.2.1, r.2.2)

theorem encodePayload_congr (F : FloatOps) (C : Compressor) (enc enc' : Encoder) (points : Nat) (cloud : List Byte) (w : W) (size : Nat)
    (hi : enc.info = enc'.info) (h : enc.encs.map Enc.reset = enc'.encs.map Enc.reset) :
    (encodePayload F C enc points cloud w size >>= fun r => .ok (r.2.1.out, r.2.2)) =
      (encodePayload F C enc' points cloud w size >>= fun r => .ok (r.2.1.out, r.2.2)) := by
  unfold encodePayload
  rw [← hi]
  split
  · simp only [Res.bind_assoc, Res.ok_bind]
  · simp only [Res.bind_assoc, Res.ok_bind]
    congr 1
    funext m
    have := congrArg (fun x => x >>= fun r => Res.ok (r.1.out, r.2)) (encodeV4Loop_congr F C enc.info
      (kPointsPerChunk * max enc.info.point_step.toNat m) points enc.encs enc'.encs cloud w size h)
    simpa only [Res.bind_assoc, Res.ok_bind] using this

theorem encodeOut_congr (F : FloatOps) (C : Compressor) (enc enc' : Encoder) (cloud : List Byte) (room : Nat) (wh : Bool)
    (hi : enc.info = enc'.info) (hh : enc.header = enc'.header) (h : enc.encs.map Enc.reset = enc'.encs.map Enc.reset) :
    encodeOut F C enc cloud room wh = encodeOut F C enc' cloud room wh := by
  unfold encodeOut encodeView
  rw [← hi, ← hh]
  split
  · rfl
  split
  · rfl
  simp only [Res.bind_assoc]
  congr 1
  funext m
  by_cases hroom : room < m + (if wh then enc.header.length else 0)
  · rw [if_pos hroom, if_pos hroom]
  rw [if_neg hroom, if_neg hroom]
  rw [Res.bind_assoc, Res.bind_assoc]
  congr 1
  funext w
  rw [Res.bind_assoc, Res.bind_assoc]
  have := encodePayload_congr F C enc enc' (cloud.length / enc.info.point_step.toNat) cloud w (if wh then enc.header.length else 0) hi h
  simpa only [Res.bind_assoc, Res.ok_bind] using this

theorem encodeView_reset (F : FloatOps) (C : Compressor) (enc enc' : Encoder) (cloud out : List Byte) (room size : Nat) (wh : Bool)
    (h : encodeView F C enc cloud room wh = .ok (enc', out, size)) :
    enc'.info = enc.info ∧ enc'.header = enc.header ∧ enc'.encs.map Enc.reset = enc.encs.map Enc.reset := by
  unfold encodeView at h
  split at h
  · simp at h
  split at h
  · simp at h
  rw [Res.bind_eq_ok] at h
  obtain ⟨m, hm, h⟩ := h
  by_cases hroom : room < m + (if wh then enc.header.length else 0)
  · rw [if_pos hroom] at h; simp at h
  rw [if_neg hroom] at h
  rw [Res.bind_eq_ok] at h
  obtain ⟨w, hw, h⟩ := h
  rw [Res.bind_eq_ok] at h
  obtain ⟨⟨enc1, w1, s1⟩, hp, h⟩ := h
  simp only [Res.ok.injEq, Prod.mk.injEq] at h
  obtain ⟨rfl, rfl, rfl⟩ := h
  unfold encodePayload at hp
  split at hp
  · rw [Res.bind_eq_ok] at hp
    obtain ⟨cap, _, hp⟩ := hp
    rw [Res.bind_eq_ok] at hp
    obtain ⟨⟨es, as⟩, _, hp⟩ := hp
    simp only at hp
    rw [Res.bind_eq_ok] at hp
    obtain ⟨⟨w2, s2⟩, _, hp⟩ := hp
    simp only [Res.ok.injEq, Prod.mk.injEq] at hp
    rw [← hp.1]
    exact ⟨rfl, rfl, rfl⟩
  · rw [Res.bind_eq_ok] at hp
    obtain ⟨mm, _, hp⟩ := hp
    rw [Res.bind_eq_ok] at hp
    obtain ⟨⟨es, w2, s2⟩, h3, hp⟩ := hp
    simp only [Res.ok.injEq, Prod.mk.injEq] at hp
    rw [← hp.1]
    exact ⟨rfl, rfl, encodeV4Loop_reset F C _ _ _ _ _ _ _ _ _ _ h3⟩

/-! ### splitting a cloud -/

theorem readAt_append {mem x bs : List Byte} {o n : Nat} (h : readAt mem o n = .ok bs) : readAt (mem ++ x) o n = .ok bs := by
  unfold readAt at h ⊢
  split at h
  · next hl =>
    simp only [Res.ok.injEq] at h
    rw [if_pos (by rw [List.length_append]; omega), ← h]
    congr 1
    rw [List.drop_append_of_le_length (by omega), List.take_append_of_le_length (by rw [List.length_drop]; omega)]
  · simp at h

theorem lanesEncode_append (F : FloatOps) (mem x : List Byte) (ls ls' : List Lane) (bs : List Byte)
    (h : lanesEncode F mem ls = .ok (ls', bs)) : lanesEncode F (mem ++ x) ls = .ok (ls', bs) := by
  induction ls generalizing ls' bs with
  | nil => exact h
  | cons l ls ih =>
    simp only [lanesEncode] at h ⊢
    rw [Res.bind_eq_ok] at h
    obtain ⟨⟨l1, b1⟩, h1, h⟩ := h
    simp only at h
    rw [Res.bind_eq_ok] at h
    obtain ⟨⟨ls1, b2⟩, h2, h⟩ := h
    have : laneEncode F (mem ++ x) l = .ok (l1, b1) := by
      unfold laneEncode at h1 ⊢
      rw [Res.bind_eq_ok] at h1
      obtain ⟨b, hb, h1⟩ := h1
      rw [readAt_append hb]
      exact h1
    rw [this]
    simp only [Res.ok_bind]
    rw [ih _ _ h2]
    exact h

theorem step_append (F : FloatOps) (mem x : List Byte) (e e' : Enc) (bs : List Byte) (h : e.step F mem = .ok (e', bs)) :
    e.step F (mem ++ x) = .ok (e', bs) := by
  cases e with
  | floatN ls =>
    simp only [Enc.step] at h ⊢
    rw [Res.bind_eq_ok] at h
    obtain ⟨b, hb, h⟩ := h
    rw [Res.bind_eq_ok] at h
    obtain ⟨⟨ls', b'⟩, h1, h⟩ := h
    have : ∃ b2, readUnusedLane (mem ++ x) ls.length = .ok b2 := by
      unfold readUnusedLane at hb ⊢
      split at hb
      · next hl => rw [if_pos hl]; exact ⟨_, readAt_append hb⟩
      · next hl => rw [if_neg hl]; exact ⟨_, rfl⟩
    obtain ⟨b2, hb2⟩ := this
    rw [hb2]
    simp only [Res.ok_bind]
    rw [lanesEncode_append F mem x _ _ _ h1]
    exact h
  | _ =>
    simp only [Enc.step] at h ⊢
    rw [Res.bind_eq_ok] at h
    obtain ⟨b, hb, h⟩ := h
    rw [readAt_append hb]
    exact h

theorem encodeFields_append (F : FloatOps) (mem x : List Byte) (es es' : List Enc) (w w' : W)
    (h : encodeFields F mem es w = .ok (es', w')) : encodeFields F (mem ++ x) es w = .ok (es', w') := by
  induction es generalizing es' w w' with
  | nil => exact h
  | cons e es ih =>
    simp only [encodeFields] at h ⊢
    rw [Res.bind_eq_ok] at h
    obtain ⟨⟨e1, bs⟩, h1, h⟩ := h
    simp only at h
    rw [Res.bind_eq_ok] at h
    obtain ⟨w1, h2, h⟩ := h
    rw [Res.bind_eq_ok] at h
    obtain ⟨⟨es1, w2⟩, h3, h⟩ := h
    rw [step_append F mem x _ _ _ h1]
    simp only [Res.ok_bind]
    rw [h2]
    simp only [Res.ok_bind]
    rw [ih _ _ _ h3]
    exact h

theorem encodePoints_append (F : FloatOps) (step n : Nat) (hst : 0 < step) (es es' : List Enc) (mem mem' x : List Byte) (w w' : W)
    (hl : n * step ≤ mem.length) (h : encodePoints F step n es mem w = .ok (es', mem', w')) :
    encodePoints F step n es (mem ++ x) w = .ok (es', mem' ++ x, w') ∧ mem' = mem.drop (n * step) := by
  induction n generalizing es mem w with
  | zero =>
    simp only [encodePoints, Res.ok.injEq, Prod.mk.injEq] at h ⊢
    obtain ⟨rfl, rfl, rfl⟩ := h
    simp
  | succ n ih =>
    rw [Nat.add_mul, Nat.one_mul] at hl
    simp only [encodePoints] at h ⊢
    rw [if_neg (by omega)] at h
    rw [if_neg (by rw [List.length_append]; omega)]
    rw [Res.bind_eq_ok] at h
    obtain ⟨⟨es1, w1⟩, h1, h⟩ := h
    simp only at h
    rw [if_pos (by omega)] at h
    rw [encodeFields_append F mem x _ _ _ _ h1]
    simp only [Res.ok_bind]
    rw [if_pos (by rw [List.length_append]; omega), List.drop_append_of_le_length (by omega)]
    obtain ⟨e1, e2⟩ := ih es1 (mem.drop step) w1 (by rw [List.length_drop]; omega) h
    refine ⟨e1, ?_⟩
    rw [e2, List.drop_drop, Nat.add_mul, Nat.one_mul, Nat.add_comm]

theorem stage1V4_cons (F : FloatOps) (step cap points n : Nat) (es es2 : List Enc) (mem : List Byte) (cs : List (List Byte))
    (hp : points ≠ 0) (hn : min points kPointsPerChunk = n) (h : stage1V4 F step cap points es mem = .ok (es2, cs)) :
    ∃ es3 m3 c3 cs3, encodeV4Chunk F step es mem kPointsPerChunk cap = .ok (es3, m3, c3) ∧
      stage1V4 F step cap (points - n) es3 m3 = .ok (es2, cs3) ∧ cs = c3 :: cs3 := by
  rw [stage1V4.eq_def] at h
  rw [dif_neg hp, Res.bind_eq_ok] at h
  obtain ⟨⟨es3, m3, c3⟩, h3, h⟩ := h
  simp only at h
  rw [Res.bind_eq_ok] at h
  obtain ⟨⟨es4, cs4⟩, h4, h⟩ := h
  simp only [Res.ok.injEq, Prod.mk.injEq] at h
  obtain ⟨rfl, rfl⟩ := h
  rw [hn] at h4
  exact ⟨_, _, _, _, h3, h4, rfl⟩

theorem stage1V4_cons_eq (F : FloatOps) (step cap points n : Nat) (es es2 es3 : List Enc) (mem m3 c3 : List Byte) (cs3 : List (List Byte))
    (hp : points ≠ 0) (hn : min points kPointsPerChunk = n)
    (h3 : encodeV4Chunk F step es mem kPointsPerChunk cap = .ok (es3, m3, c3))
    (h4 : stage1V4 F step cap (points - n) es3 m3 = .ok (es2, cs3)) : stage1V4 F step cap points es mem = .ok (es2, c3 :: cs3) := by
  rw [stage1V4.eq_def, dif_neg hp, h3]
  simp only [Res.ok_bind]
  rw [hn, h4]
  rfl

theorem stage1V4_append (F : FloatOps) (step cap k b K : Nat) (hKK : kPointsPerChunk = K) (hst : 0 < step) (es es1 es2 : List Enc)
    (ma mb : List Byte)
    (cs1 cs2 : List (List Byte)) (hl : ma.length = k * K * step)
    (h1 : stage1V4 F step cap (k * K) es ma = .ok (es1, cs1)) (h2 : stage1V4 F step cap b es1 mb = .ok (es2, cs2)) :
    stage1V4 F step cap (k * K + b) es (ma ++ mb) = .ok (es2, cs1 ++ cs2) := by
  have hK := pos_K
  induction k generalizing es ma cs1 with
  | zero =>
    unfold stage1V4 at h1
    rw [Nat.zero_mul, dif_pos rfl] at h1
    simp only [Res.ok.injEq, Prod.mk.injEq] at h1
    obtain ⟨rfl, rfl⟩ := h1
    have : ma = [] := by rw [← List.length_eq_zero_iff]; simpa using hl
    subst this
    simpa using h2
  | succ k ih =>
    have e1 : (k + 1) * K = k * K + K := by rw [Nat.add_mul, Nat.one_mul]
    obtain ⟨es5, m5, c5, cs4, h3, h4, rfl⟩ := stage1V4_cons F step cap _ K es es1 ma cs1 (by omega) (by omega) h1
    rw [hKK] at h3
    have h3' := h3
    unfold encodeV4Chunk at h3
    rw [Res.bind_eq_ok] at h3
    obtain ⟨⟨es6, m6, w5⟩, h5, h3⟩ := h3
    simp only [Res.ok.injEq, Prod.mk.injEq] at h3
    obtain ⟨rfl, rfl, rfl⟩ := h3
    have hle : K * step ≤ ma.length := by rw [hl]; exact Nat.mul_le_mul_right _ (by omega)
    obtain ⟨e5, e6⟩ := encodePoints_append F step K hst _ _ _ _ mb _ _ hle h5
    have hch : encodeV4Chunk F step es (ma ++ mb) K cap = .ok (es6, m6 ++ mb, w5.out) := by
      unfold encodeV4Chunk
      rw [e5]
      rfl
    rw [show (k + 1) * K - K = k * K from by omega] at h4
    have hml : m6.length = k * K * step := by rw [e6, List.length_drop, hl, e1, Nat.add_mul]; omega
    have := ih es6 m6 cs4 hml h4
    exact stage1V4_cons_eq F step cap _ K es es2 es6 (ma ++ mb) (m6 ++ mb) w5.out (cs4 ++ cs2) (by omega) (by omega)
      (by rw [hKK]; exact hch) (by rw [show (k + 1) * K + b - K = k * K + b from by omega]; exact this)

/-- Decoding is chunk by chunk: a prefix of full chunks can be decoded first, the rest afterwards by new decoders. -/
theorem decodeChunk_congr (F : FloatOps) (C : Compressor) (fuel : Nat) (info : EncodingInfo) (ds ds' : List Dec) (m : Nat)
    (chunk buf : List Byte) (base n : Nat) (h : ds.map Dec.reset = ds'.map Dec.reset) :
    decodeChunk F C fuel info ds m chunk buf base n = decodeChunk F C fuel info ds' m chunk buf base n := by
  unfold decodeChunk decodeV5Chunk decodeV4Chunk
  rw [h]

theorem decodeLoop_congr (F : FloatOps) (C : Compressor) (info : EncodingInfo) (m points : Nat) (ds ds' : List Dec)
    (data buf : List Byte) (base : Nat) (h : ds.map Dec.reset = ds'.map Dec.reset) :
    decodeLoop F C info m points ds data buf base = decodeLoop F C info m points ds' data buf base := by
  unfold decodeLoop
  split
  · rfl
  split
  · rfl
  · congr 1
    funext x
    simp only
    rw [decodeChunk_congr F C 0 info ds ds' m _ _ _ _ h]

theorem dlanes_reset (F : FloatOps) (ls ls' : List Lane) (input rest : List Byte) (ws : List Write)
    (h : lanesDecode F ls input = .ok (ls', ws, rest)) :
    (ls'.map fun l => ({ l with prev := 0#32 } : Lane)) = ls.map fun l => { l with prev := 0#32 } := by
  induction ls generalizing ls' input ws rest with
  | nil => simp only [lanesDecode, Res.ok.injEq, Prod.mk.injEq] at h; rw [← h.1]
  | cons l ls ih =>
    simp only [lanesDecode] at h
    rw [Res.bind_eq_ok] at h
    obtain ⟨⟨l1, v, i1⟩, h1, h⟩ := h
    simp only at h
    rw [Res.bind_eq_ok] at h
    obtain ⟨⟨ls1, ws1, i2⟩, h2, h⟩ := h
    simp only [Res.ok.injEq, Prod.mk.injEq] at h
    obtain ⟨rfl, rfl, rfl⟩ := h
    have hl : ({ l1 with prev := 0#32 } : Lane) = { l with prev := 0#32 } := by
      unfold laneDecode at h1
      split at h1
      · simp at h1
      · split at h1
        · simp only [Res.ok.injEq, Prod.mk.injEq] at h1; rw [← h1.1]
        · rw [Res.bind_eq_ok] at h1
          obtain ⟨⟨d, c⟩, _, h1⟩ := h1
          simp only at h1
          rw [Res.bind_eq_ok] at h1
          obtain ⟨v', _, h1⟩ := h1
          simp only [Res.ok.injEq, Prod.mk.injEq] at h1; rw [← h1.1]
    rw [List.map_cons, List.map_cons, hl, ih _ _ _ _ h2]

theorem dstep_reset (F : FloatOps) (d d' : Dec) (input rest : List Byte) (ws : List Write)
    (h : d.step F input = .ok (d', ws, rest)) : d'.reset = d.reset := by
  cases d with
  | copy o s =>
    simp only [Dec.step] at h
    repeat' split at h
    all_goals first | (simp only [Res.ok.injEq, Prod.mk.injEq] at h; rw [← h.1]) | simp at h
  | int o s prev =>
    simp only [Dec.step] at h
    rw [Res.bind_eq_ok] at h
    obtain ⟨⟨a, b⟩, _, h⟩ := h
    simp only at h
    rw [Res.bind_eq_ok] at h
    obtain ⟨v, _, h⟩ := h
    simp only [Res.ok.injEq, Prod.mk.injEq] at h
    rw [← h.1]; rfl
  | lossy32 o r prev =>
    simp only [Dec.step] at h
    split at h
    · simp at h
    split at h
    · simp only [Res.ok.injEq, Prod.mk.injEq] at h; rw [← h.1]; rfl
    · rw [Res.bind_eq_ok] at h
      obtain ⟨⟨a, b⟩, _, h⟩ := h
      simp only at h
      rw [Res.bind_eq_ok] at h
      obtain ⟨v, _, h⟩ := h
      simp only [Res.ok.injEq, Prod.mk.injEq] at h
      rw [← h.1]; rfl
  | lossy64 o r prev =>
    simp only [Dec.step] at h
    split at h
    · simp at h
    split at h
    · simp only [Res.ok.injEq, Prod.mk.injEq] at h; rw [← h.1]; rfl
    · rw [Res.bind_eq_ok] at h
      obtain ⟨⟨a, b⟩, _, h⟩ := h
      simp only at h
      rw [Res.bind_eq_ok] at h
      obtain ⟨v, _, h⟩ := h
      simp only [Res.ok.injEq, Prod.mk.injEq] at h
      rw [← h.1]; rfl
  | xor o s prev =>
    simp only [Dec.step] at h
    split at h
    · simp only [Res.ok.injEq, Prod.mk.injEq] at h; rw [← h.1]; rfl
    · simp at h
  | gorilla o s st =>
    simp only [Dec.step] at h
    rw [Res.bind_eq_ok] at h
    obtain ⟨⟨a, b, c⟩, _, h⟩ := h
    simp only [Res.ok.injEq, Prod.mk.injEq] at h
    rw [← h.1]; rfl
  | floatN ls =>
    simp only [Dec.step] at h
    split at h
    · simp at h
    · rw [Res.bind_eq_ok] at h
      obtain ⟨⟨a, b, c⟩, h1, h⟩ := h
      simp only [Res.ok.injEq, Prod.mk.injEq] at h
      rw [← h.1]
      simp only [Dec.reset, dlanes_reset F _ _ _ _ _ h1]

theorem decodeFields_reset (F : FloatOps) (ds ds' : List Dec) (input rest buf buf' : List Byte) (base : Nat)
    (h : decodeFields F ds input buf base = .ok (ds', rest, buf')) : ds'.map Dec.reset = ds.map Dec.reset := by
  induction ds generalizing ds' input buf with
  | nil => simp only [decodeFields, Res.ok.injEq, Prod.mk.injEq] at h; rw [← h.1]
  | cons d ds ih =>
    simp only [decodeFields] at h
    rw [Res.bind_eq_ok] at h
    obtain ⟨⟨d1, ws, i1⟩, h1, h⟩ := h
    simp only at h
    rw [Res.bind_eq_ok] at h
    obtain ⟨b1, h2, h⟩ := h
    rw [Res.bind_eq_ok] at h
    obtain ⟨⟨ds1, i2, b2⟩, h3, h⟩ := h
    simp only [Res.ok.injEq, Prod.mk.injEq] at h
    obtain ⟨rfl, rfl, rfl⟩ := h
    rw [List.map_cons, List.map_cons, dstep_reset F _ _ _ _ _ h1, ih _ _ _ h3]

theorem decodePointsV4_reset (F : FloatOps) (min step n : Nat) (ds ds' : List Dec) (input rest buf buf' : List Byte) (base base' : Nat)
    (h : decodePointsV4 F min step n ds input buf base = .ok (ds', rest, buf', base')) :
    ds'.map Dec.reset = ds.map Dec.reset ∧ base' = base + n * step := by
  induction n generalizing ds input buf base with
  | zero =>
    simp only [decodePointsV4, Res.ok.injEq, Prod.mk.injEq] at h
    rw [← h.1, ← h.2.2.2]; simp
  | succ n ih =>
    simp only [decodePointsV4] at h
    split at h
    · simp at h
    split at h
    · simp at h
    rw [Res.bind_eq_ok] at h
    obtain ⟨⟨ds1, i1, b1⟩, h1, h⟩ := h
    simp only at h
    obtain ⟨e1, e2⟩ := ih _ _ _ _ h
    refine ⟨e1.trans (decodeFields_reset F _ _ _ _ _ _ _ h1), ?_⟩
    rw [e2, Nat.add_mul]; omega

theorem decodePointsV5_reset (F : FloatOps) (step n : Nat) (ds ds' : List Dec) (input rest buf buf' : List Byte) (base : Nat)
    (h : decodePointsV5 F step n ds input buf base = .ok (ds', rest, buf')) : ds'.map Dec.reset = ds.map Dec.reset := by
  induction n generalizing ds input buf base with
  | zero => simp only [decodePointsV5, Res.ok.injEq, Prod.mk.injEq] at h; rw [← h.1]
  | succ n ih =>
    simp only [decodePointsV5] at h
    rw [Res.bind_eq_ok] at h
    obtain ⟨⟨ds1, i1, b1⟩, h1, h⟩ := h
    simp only at h
    exact (ih _ _ _ _ h).trans (decodeFields_reset F _ _ _ _ _ _ _ h1)

theorem decodeChunk_reset (F : FloatOps) (C : Compressor) (info : EncodingInfo) (ds ds' : List Dec) (m : Nat)
    (chunk buf buf' : List Byte) (base base' n fuel : Nat) (hn : 0 < n)
    (h : decodeChunk F C fuel info ds m chunk buf base n = .ok (ds', buf', base')) :
    ds'.map Dec.reset = ds.map Dec.reset ∧ base' = base + n * info.point_step.toNat := by
  unfold decodeChunk at h
  rw [Res.bind_eq_ok] at h
  obtain ⟨view, _, h⟩ := h
  split at h
  · unfold decodeV5Chunk at h
    rw [if_neg (by omega)] at h
    split at h
    · simp at h
    rw [Res.bind_eq_ok] at h
    obtain ⟨⟨ds1, i1, b1⟩, h1, h⟩ := h
    simp only at h
    rw [Res.bind_eq_ok] at h
    obtain ⟨⟨i2, b2⟩, h2, h⟩ := h
    simp only at h
    split at h
    · simp at h
    simp only [Res.ok.injEq, Prod.mk.injEq] at h
    obtain ⟨rfl, rfl, rfl⟩ := h
    exact ⟨(decodePointsV5_reset F _ n _ _ _ _ _ _ _ h1).trans (dmap_reset_reset ds), rfl⟩
  · unfold decodeV4Chunk at h
    simp only at h
    rw [if_pos hn] at h
    rw [Res.bind_eq_ok] at h
    obtain ⟨⟨ds1, i1, b1, p1⟩, h1, h⟩ := h
    simp only [Res.ok.injEq, Prod.mk.injEq] at h
    obtain ⟨rfl, rfl, rfl⟩ := h
    obtain ⟨e1, e2⟩ := decodePointsV4_reset F _ _ n _ _ _ _ _ _ _ _ h1
    exact ⟨e1.trans (dmap_reset_reset ds), e2⟩

theorem decodeLoop_cons (F : FloatOps) (C : Compressor) (info : EncodingInfo) (m points n : Nat) (ds : List Dec) (data buf buf1 : List Byte)
    (base : Nat) (hp : points ≠ 0) (hn : min points kPointsPerChunk = n)
    (h : decodeLoop F C info m points ds data buf base = .ok buf1) :
    4 ≤ data.length ∧ fromLE (data.take 4) ≤ (data.drop 4).length ∧ ∃ ds1 b1, ds1.map Dec.reset = ds.map Dec.reset ∧
      decodeChunk F C 0 info ds m ((data.drop 4).take (fromLE (data.take 4))) buf base n =
        .ok (ds1, b1, base + n * info.point_step.toNat) ∧
      decodeLoop F C info m (points - n) ds ((data.drop 4).drop (fromLE (data.take 4))) b1 (base + n * info.point_step.toNat) = .ok buf1 := by
  have hn0 : 0 < n := by have := pos_K; omega
  rw [decodeLoop.eq_def] at h
  by_cases h0 : data.length = 0
  · rw [if_pos h0, if_pos hp] at h; simp at h
  rw [if_neg h0, dif_neg hp] at h
  rw [Res.bind_eq_ok] at h
  obtain ⟨⟨sz, d1⟩, h1, h⟩ := h
  simp only at h
  rw [decodeInt_def] at h1
  split at h1
  · next h4 =>
    simp only [Res.ok.injEq, Prod.mk.injEq] at h1
    obtain ⟨rfl, rfl⟩ := h1
    split at h
    · simp at h
    next hsz =>
    rw [Res.bind_eq_ok] at h
    obtain ⟨⟨ds1, b1, base1⟩, h2, h⟩ := h
    simp only at h
    rw [hn] at h2 h
    obtain ⟨r1, rfl⟩ := decodeChunk_reset F C info _ _ _ _ _ _ _ _ _ _ hn0 h2
    exact ⟨h4, by omega, ds1, b1, r1, h2, by rw [← h]; exact decodeLoop_congr F C info m _ ds ds1 _ _ _ r1.symm⟩
  · simp at h1

theorem decodeLoop_cons_eq (F : FloatOps) (C : Compressor) (info : EncodingInfo) (m points n : Nat) (ds ds1 : List Dec) (data buf b1 : List Byte)
    (base : Nat) (hp : points ≠ 0) (hn : min points kPointsPerChunk = n) (h4 : 4 ≤ data.length)
    (hsz : fromLE (data.take 4) ≤ (data.drop 4).length) (hr : ds1.map Dec.reset = ds.map Dec.reset)
    (h2 : decodeChunk F C 0 info ds m ((data.drop 4).take (fromLE (data.take 4))) buf base n = .ok (ds1, b1, base + n * info.point_step.toNat)) :
    decodeLoop F C info m points ds data buf base =
      decodeLoop F C info m (points - n) ds ((data.drop 4).drop (fromLE (data.take 4))) b1 (base + n * info.point_step.toNat) := by
  rw [decodeLoop.eq_def]
  rw [if_neg (by omega), dif_neg hp]
  rw [decodeInt_def]
  rw [if_pos h4]
  simp only [Res.ok_bind]
  rw [if_neg (by omega), hn, h2]
  simp only [Res.ok_bind]
  exact decodeLoop_congr F C info m _ ds1 ds _ _ _ hr

theorem decodeLoop_append (F : FloatOps) (C : Compressor) (info : EncodingInfo) (m k b K : Nat) (hKK : kPointsPerChunk = K)
    (ds : List Dec) (p1 p2 buf buf1 : List Byte)
    (base : Nat) (h : decodeLoop F C info m (k * K) ds p1 buf base = .ok buf1) :
    decodeLoop F C info m (k * K + b) ds (p1 ++ p2) buf base =
      decodeLoop F C info m b ds p2 buf1 (base + k * K * info.point_step.toNat) := by
  have hK := pos_K
  induction k generalizing p1 buf base with
  | zero =>
    unfold decodeLoop at h
    split at h
    · next h0 =>
      simp only [Nat.zero_mul, ne_eq, not_true_eq_false, if_false, Res.ok.injEq] at h
      have : p1 = [] := List.length_eq_zero_iff.1 h0
      subst this h
      simp
    · rw [dif_pos (by simp)] at h
      simp at h
  | succ k ih =>
    have e1 : (k + 1) * K = k * K + K := by rw [Nat.add_mul, Nat.one_mul]
    have hK0 : 0 < K := by omega
    obtain ⟨h4, hsz, ds1, b1, r1, h2, h3⟩ := decodeLoop_cons F C info m _ K ds p1 buf buf1 base (by omega) (by omega) h
    have t4 : (p1 ++ p2).take 4 = p1.take 4 := List.take_append_of_le_length h4
    have d4 : (p1 ++ p2).drop 4 = p1.drop 4 ++ p2 := List.drop_append_of_le_length h4
    rw [decodeLoop_cons_eq F C info m ((k + 1) * K + b) K ds ds1 (p1 ++ p2) buf b1 base (by omega) (by omega)
      (by rw [List.length_append]; omega) (by rw [t4, d4, List.length_append]; omega) r1
      (by rw [t4, d4, List.take_append_of_le_length hsz]; exact h2)]
    rw [t4, d4, List.drop_append_of_le_length hsz]
    rw [show (k + 1) * K - K = k * K from by omega] at h3
    rw [show (k + 1) * K + b - K = k * K + b from by omega]
    rw [ih _ b1 _ h3]
    congr 1
    rw [e1, Nat.add_mul]; omega

end Cloudini
