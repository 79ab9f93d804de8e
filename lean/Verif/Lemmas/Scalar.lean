import Verif.Model.Scalar
import Verif.Lemmas.IEEELink
import Verif.Lemmas.Bridge

/-!
# Builds with and without SSE: what they share
-/

namespace Cloudini.Scalar
open Cloudini

/-- The operations the decoder uses agree. -/
structure SameDec (F G : FloatOps) : Prop where
  res : F.resNonPos = G.resNonPos
  d32 : F.dequant32 = G.dequant32
  d64 : F.dequant64 = G.dequant64
  dV : F.dequantV = G.dequantV

section dec
variable {F G : FloatOps} (h : SameDec F G)
include h

theorem laneDecode_same (l : Lane) (input : List Byte) : laneDecode F l input = laneDecode G l input := by
  unfold laneDecode; rw [h.dV]

theorem lanesDecode_same (ls : List Lane) (input : List Byte) : lanesDecode F ls input = lanesDecode G ls input := by
  induction ls generalizing input with
  | nil => rfl
  | cons l ls ih =>
    unfold lanesDecode
    rw [laneDecode_same h]
    simp only [ih]

theorem decStep_same (d : Dec) (input : List Byte) : d.step F input = d.step G input := by
  cases d <;> simp only [Dec.step, h.d32, h.d64, lanesDecode_same h]

theorem decodeFields_same (ds : List Dec) (input buf : List Byte) (base : Nat) :
    decodeFields F ds input buf base = decodeFields G ds input buf base := by
  induction ds generalizing input buf with
  | nil => rfl
  | cons d ds ih => simp only [decodeFields, decStep_same h, ih]

theorem decodePointsV4_same (min step n : Nat) (ds : List Dec) (input buf : List Byte) (base : Nat) :
    decodePointsV4 F min step n ds input buf base = decodePointsV4 G min step n ds input buf base := by
  induction n generalizing ds input buf base with
  | zero => rfl
  | succ n ih => simp only [decodePointsV4, decodeFields_same h, ih]

theorem decodeUntilEmptyV4_same (min step n : Nat) (ds : List Dec) (input buf : List Byte) (base : Nat) :
    decodeUntilEmptyV4 F min step n ds input buf base = decodeUntilEmptyV4 G min step n ds input buf base := by
  induction n generalizing ds input buf base with
  | zero => rfl
  | succ n ih => simp only [decodeUntilEmptyV4, decodeFields_same h, ih]

theorem decodePointsV5_same (step n : Nat) (ds : List Dec) (input buf : List Byte) (base : Nat) :
    decodePointsV5 F step n ds input buf base = decodePointsV5 G step n ds input buf base := by
  induction n generalizing ds input buf base with
  | zero => rfl
  | succ n ih => simp only [decodePointsV5, decodeFields_same h, ih]

theorem decodeChunk_same (C : Compressor) (fuel : Nat) (info : EncodingInfo) (ds : List Dec) (min : Nat)
    (chunk buf : List Byte) (base expected : Nat) :
    decodeChunk F C fuel info ds min chunk buf base expected = decodeChunk G C fuel info ds min chunk buf base expected := by
  simp only [decodeChunk, decodeV5Chunk, decodeV4Chunk, decodePointsV5_same h, decodePointsV4_same h, decodeUntilEmptyV4_same h]

theorem decodeLoop_same (C : Compressor) (info : EncodingInfo) (min' : Nat) (points : Nat) (ds : List Dec)
    (data buf : List Byte) (base : Nat) :
    decodeLoop F C info min' points ds data buf base = decodeLoop G C info min' points ds data buf base := by
  induction points using Nat.strongRecOn generalizing ds data buf base with
  | ind points ih =>
    conv => lhs; unfold decodeLoop
    conv => rhs; unfold decodeLoop
    by_cases hp : points = 0
    · simp only [hp, ↓reduceDIte]
    · have hlt : points - min points kPointsPerChunk < points := by simp only [kPointsPerChunk]; omega
      simp only [hp, ↓reduceDIte, decodeChunk_same h, ih _ hlt]

theorem createDecoder_same (info : EncodingInfo) : createDecoder F info = createDecoder G info := by
  funext f
  unfold createDecoder mkLossy32Dec mkLossy64Dec
  rw [h.res]

theorem leadingDecoder_same (info : EncodingInfo) : leadingDecoder F info = leadingDecoder G info := by
  unfold leadingDecoder mkFloatNDec
  rw [h.res]

theorem buildDecoders_same (info : EncodingInfo) : buildDecoders F info = buildDecoders G info := by
  unfold buildDecoders buildV5Decoders buildV4Decoders
  rw [leadingDecoder_same h, createDecoder_same h]

theorem decodeCloud_same (C : Compressor) (fuel : Nat) (info : EncodingInfo) (data buf : List Byte) :
    decodeCloud F C fuel info data buf = decodeCloud G C fuel info data buf := by
  simp only [decodeCloud, buildDecoders_same h, decodeLoop_same h, decodeChunk_same h]

end dec

theorem same : SameDec IEEE.ops ops := ⟨rfl, rfl, rfl, rfl⟩

/-! ### encoding -/

/-- The operations the encoder uses agree, apart from the vector quantisation. -/
structure SameEnc (F G : FloatOps) : Prop where
  res : F.resNonPos = G.resNonPos
  inv : F.invNonPos = G.invNonPos
  q32 : F.quant32 = G.quant32
  q64 : F.quant64 = G.quant64

theorem sameEnc : SameEnc IEEE.ops ops := ⟨rfl, rfl, rfl, rfl⟩

/-- Where a lane reads and with which resolution. -/
def keys : Enc → List (Nat × BitVec 32)
  | .floatN ls => ls.map fun l => (l.off, l.res)
  | _ => []

/-- The vector quantisations agree on a value. -/
def AgreeAt (F G : FloatOps) (mem : List Byte) (k : Nat × BitVec 32) : Prop :=
  isNaN32 (f32At mem k.1) = true ∨ F.quantV k.2 (f32At mem k.1) = G.quantV k.2 (f32At mem k.1)

section enc
variable {F G : FloatOps} (h : SameEnc F G)

theorem readAt_sub {mem : List Byte} {o n : Nat} {bs : List Byte} (h : readAt mem o n = .ok bs) : bs = sub mem o n := by
  rw [readAt_eq_ok] at h
  exact h.2

theorem laneEncode_agree {mem : List Byte} {l : Lane} (ha : AgreeAt F G mem (l.off, l.res)) :
    laneEncode F mem l = laneEncode G mem l := by
  unfold laneEncode
  cases hr : readAt mem l.off 4 with
  | ok bs =>
    have hb := readAt_sub hr
    subst hb
    simp only [Res.ok_bind]
    by_cases hn : isNaN32 (BitVec.ofNat 32 (fromLE (sub mem l.off 4))) = true
    · simp only [hn, ↓reduceIte]
    · rcases ha with ha | ha
      · exact absurd ha hn
      · have ha' : F.quantV l.res (BitVec.ofNat 32 (fromLE (sub mem l.off 4))) = G.quantV l.res (BitVec.ofNat 32 (fromLE (sub mem l.off 4))) := ha
        rw [if_neg hn, if_neg hn]
        simp only [ha']
  | throw e => simp only [Res.throw_bind]
  | ub u => simp only [Res.ub_bind]

theorem lanesEncode_agree {mem : List Byte} {ls : List Lane} (ha : ∀ l ∈ ls, AgreeAt F G mem (l.off, l.res)) :
    lanesEncode F mem ls = lanesEncode G mem ls := by
  induction ls with
  | nil => rfl
  | cons l ls ih =>
    unfold lanesEncode
    rw [laneEncode_agree (ha l (by simp)), ih fun l' hl => ha l' (by simp [hl])]

include h in
theorem encStep_agree {mem : List Byte} {e : Enc} (ha : ∀ k ∈ keys e, AgreeAt F G mem k) : e.step F mem = e.step G mem := by
  cases e with
  | floatN ls =>
    simp only [Enc.step]
    rw [lanesEncode_agree fun l hl => ha _ (List.mem_map.2 ⟨l, hl, rfl⟩)]
  | _ => simp only [Enc.step, h.q32, h.q64]

theorem lanesEncode_keys {mem : List Byte} {ls ls' : List Lane} {bs : List Byte} (h : lanesEncode F mem ls = .ok (ls', bs)) :
    (ls'.map fun l => (l.off, l.res)) = ls.map fun l => (l.off, l.res) := by
  induction ls generalizing ls' bs with
  | nil => simp only [lanesEncode, Res.ok.injEq, Prod.mk.injEq] at h; rw [← h.1]
  | cons l ls ih =>
    unfold lanesEncode at h
    obtain ⟨⟨l1, b1⟩, h1, h⟩ := Res.bind_eq_ok.1 h
    obtain ⟨⟨l2, b2⟩, h2, h⟩ := Res.bind_eq_ok.1 h
    simp only [Res.ok.injEq, Prod.mk.injEq] at h
    rw [← h.1, List.map_cons, List.map_cons, ih h2]
    congr 1
    unfold laneEncode at h1
    obtain ⟨bs', h3, h1⟩ := Res.bind_eq_ok.1 h1
    simp only at h1
    split at h1 <;> simp only [Res.ok.injEq, Prod.mk.injEq] at h1 <;> rw [← h1.1]

theorem encStep_keys {mem : List Byte} {e e' : Enc} {bs : List Byte} (h : e.step F mem = .ok (e', bs)) : keys e' = keys e := by
  cases e with
  | floatN ls =>
    simp only [Enc.step] at h
    obtain ⟨_, _, h⟩ := Res.bind_eq_ok.1 h
    obtain ⟨⟨ls', b⟩, h2, h⟩ := Res.bind_eq_ok.1 h
    simp only [Res.ok.injEq, Prod.mk.injEq] at h
    rw [← h.1]
    exact lanesEncode_keys h2
  | copy o s =>
    simp only [Enc.step] at h
    obtain ⟨_, _, h⟩ := Res.bind_eq_ok.1 h
    simp only [Res.ok.injEq, Prod.mk.injEq] at h; rw [← h.1]
  | int o s g p =>
    simp only [Enc.step] at h
    obtain ⟨_, _, h⟩ := Res.bind_eq_ok.1 h
    obtain ⟨_, _, h⟩ := Res.bind_eq_ok.1 h
    simp only [Res.ok.injEq, Prod.mk.injEq] at h; rw [← h.1]; rfl
  | lossy32 o r p =>
    simp only [Enc.step] at h
    obtain ⟨_, _, h⟩ := Res.bind_eq_ok.1 h
    split at h
    · simp only [Res.ok.injEq, Prod.mk.injEq] at h; rw [← h.1]; rfl
    split at h
    · simp at h
    obtain ⟨_, _, h⟩ := Res.bind_eq_ok.1 h
    simp only [Res.ok.injEq, Prod.mk.injEq] at h; rw [← h.1]; rfl
  | lossy64 o r p =>
    simp only [Enc.step] at h
    obtain ⟨_, _, h⟩ := Res.bind_eq_ok.1 h
    split at h
    · simp only [Res.ok.injEq, Prod.mk.injEq] at h; rw [← h.1]; rfl
    split at h
    · simp at h
    obtain ⟨_, _, h⟩ := Res.bind_eq_ok.1 h
    simp only [Res.ok.injEq, Prod.mk.injEq] at h; rw [← h.1]; rfl
  | xor o s p =>
    simp only [Enc.step] at h
    obtain ⟨_, _, h⟩ := Res.bind_eq_ok.1 h
    simp only [Res.ok.injEq, Prod.mk.injEq] at h; rw [← h.1]; rfl
  | gorilla o s st =>
    simp only [Enc.step] at h
    obtain ⟨_, _, h⟩ := Res.bind_eq_ok.1 h
    simp only [Res.ok.injEq, Prod.mk.injEq] at h; rw [← h.1]; rfl

theorem reset_keys (e : Enc) : keys e.reset = keys e := by
  cases e <;> simp [Enc.reset, keys]

/-- The keys of a list of encoders. -/
def allKeys (es : List Enc) : List (Nat × BitVec 32) := es.flatMap keys

theorem allKeys_reset (es : List Enc) : allKeys (es.map Enc.reset) = allKeys es := by
  unfold allKeys
  induction es with
  | nil => rfl
  | cons e es ih => simp only [List.map_cons, List.flatMap_cons, reset_keys, ih]

include h in
theorem encodeFields_agree {mem : List Byte} {es : List Enc} (ha : ∀ k ∈ allKeys es, AgreeAt F G mem k) (w : W) :
    encodeFields F mem es w = encodeFields G mem es w := by
  induction es generalizing w with
  | nil => rfl
  | cons e es ih =>
    unfold encodeFields
    rw [encStep_agree h fun k hk => ha k (by unfold allKeys; simp [hk])]
    have := fun w => ih (fun k hk => ha k (by unfold allKeys at hk ⊢; rw [List.flatMap_cons]; exact List.mem_append_right _ hk)) w
    simp only [this]

theorem encodeFields_keys {mem : List Byte} {es es' : List Enc} {w w' : W} (h : encodeFields F mem es w = .ok (es', w')) :
    allKeys es' = allKeys es := by
  induction es generalizing es' w w' with
  | nil => simp only [encodeFields, Res.ok.injEq, Prod.mk.injEq] at h; rw [← h.1]
  | cons e es ih =>
    unfold encodeFields at h
    obtain ⟨⟨e1, b1⟩, h1, h⟩ := Res.bind_eq_ok.1 h
    obtain ⟨w1, h2, h⟩ := Res.bind_eq_ok.1 h
    obtain ⟨⟨es1, w2⟩, h3, h⟩ := Res.bind_eq_ok.1 h
    simp only [Res.ok.injEq, Prod.mk.injEq] at h
    rw [← h.1]
    have := ih h3
    unfold allKeys at this ⊢
    rw [List.flatMap_cons, List.flatMap_cons, this, encStep_keys h1]

include h in
theorem encodePoints_agree {step n : Nat} {mem : List Byte} {es : List Enc}
    (ha : ∀ i < n, mem.length ≤ i * step ∨ ∀ k ∈ allKeys es, AgreeAt F G (mem.drop (i * step)) k) (w : W) :
    encodePoints F step n es mem w = encodePoints G step n es mem w := by
  induction n generalizing es mem w with
  | zero => rfl
  | succ n ih =>
    unfold encodePoints
    by_cases h0 : mem.length = 0
    · rw [if_pos h0, if_pos h0]
    rw [if_neg h0, if_neg h0]
    have h1 : ∀ k ∈ allKeys es, AgreeAt F G mem k := by
      have := ha 0 (by omega)
      simp only [Nat.zero_mul, List.drop_zero] at this
      rcases this with this | this
      · omega
      · exact this
    rw [encodeFields_agree h h1]
    cases hf : encodeFields G mem es w with
    | throw e => simp only [Res.throw_bind]
    | ub u => simp only [Res.ub_bind]
    | ok r =>
      obtain ⟨es', w'⟩ := r
      have hk := encodeFields_keys hf
      simp only [Res.ok_bind]
      by_cases hs : step ≤ mem.length
      · rw [if_pos hs, if_pos hs]
        apply ih
        intro i hi
        rw [hk, List.drop_drop, List.length_drop]
        have := ha (i + 1) (by omega)
        rw [show (i + 1) * step = step + i * step by rw [Nat.succ_mul]; omega] at this
        rcases this with this | this
        · exact Or.inl (by omega)
        · exact Or.inr this
      · rw [if_neg hs, if_neg hs]

theorem encodePoints_keys {step n : Nat} {mem mem' : List Byte} {es es' : List Enc} {w w' : W}
    (h : encodePoints F step n es mem w = .ok (es', mem', w')) :
    allKeys es' = allKeys es ∧ (mem' = mem.drop (n * step) ∨ mem' = [] ∧ mem.length ≤ n * step) := by
  induction n generalizing es es' mem mem' w w' with
  | zero =>
    simp only [encodePoints, Res.ok.injEq, Prod.mk.injEq] at h
    obtain ⟨rfl, rfl, _⟩ := h
    exact ⟨rfl, Or.inl (by simp)⟩
  | succ n ih =>
    unfold encodePoints at h
    split at h
    · next h0 =>
      simp only [Res.ok.injEq, Prod.mk.injEq] at h
      obtain ⟨rfl, rfl, _⟩ := h
      have : mem = [] := List.length_eq_zero_iff.1 h0
      exact ⟨rfl, Or.inr ⟨this, by rw [h0]; omega⟩⟩
    obtain ⟨⟨es1, w1⟩, h1, h⟩ := Res.bind_eq_ok.1 h
    simp only at h
    split at h
    · next hs =>
      obtain ⟨i1, i2⟩ := ih h
      refine ⟨i1.trans (encodeFields_keys h1), ?_⟩
      rw [List.drop_drop, List.length_drop] at i2
      rw [Nat.succ_mul]
      rcases i2 with i2 | ⟨i2, i3⟩
      · left; rw [i2]; congr 1; omega
      · right; exact ⟨i2, by omega⟩
    · simp at h

include h in
theorem encodeRangeV5_agree {step n : Nat} {mem : List Byte} {es : List Enc} {as : List AField}
    (ha : ∀ i < n, ∀ k ∈ allKeys es, AgreeAt F G (mem.drop (i * step)) k) (w : W) :
    encodeRangeV5 F step n es as mem w = encodeRangeV5 G step n es as mem w := by
  induction n generalizing es as mem w with
  | zero => rfl
  | succ n ih =>
    unfold encodeRangeV5
    rw [encodeFields_agree h (by simpa using ha 0 (by omega))]
    cases hf : encodeFields G mem es w with
    | throw e => simp only [Res.throw_bind]
    | ub u => simp only [Res.ub_bind]
    | ok r =>
      obtain ⟨es', w'⟩ := r
      have hk := encodeFields_keys hf
      simp only [Res.ok_bind]
      have : ∀ as, encodeRangeV5 F step n es' as (mem.drop step) w' = encodeRangeV5 G step n es' as (mem.drop step) w' := by
        intro as
        apply ih
        intro i hi
        rw [hk, List.drop_drop]
        have := ha (i + 1) (by omega)
        rwa [show (i + 1) * step = step + i * step by rw [Nat.succ_mul]; omega] at this
      simp only [this]

theorem encodeRangeV5_keys {step n : Nat} {mem mem' : List Byte} {es es' : List Enc} {as as' : List AField} {w w' : W}
    (h : encodeRangeV5 F step n es as mem w = .ok (es', as', mem', w')) :
    allKeys es' = allKeys es ∧ mem' = mem.drop (n * step) := by
  induction n generalizing es es' as as' mem mem' w w' with
  | zero =>
    simp only [encodeRangeV5, Res.ok.injEq, Prod.mk.injEq] at h
    obtain ⟨rfl, _, rfl, _⟩ := h
    exact ⟨rfl, by simp⟩
  | succ n ih =>
    unfold encodeRangeV5 at h
    obtain ⟨⟨es1, w1⟩, h1, h⟩ := Res.bind_eq_ok.1 h
    obtain ⟨as1, h2, h⟩ := Res.bind_eq_ok.1 h
    obtain ⟨i1, i2⟩ := ih h
    refine ⟨i1.trans (encodeFields_keys h1), ?_⟩
    rw [i2, List.drop_drop, Nat.succ_mul]
    congr 1; omega

include h in
theorem probed_agree (kp : Nat) (hash : BitVec 64 → BitVec 64) {step n : Nat} {mem : List Byte} {es : List Enc} {as : List AField}
    (hkp : kp < n) (ha : ∀ i < n, ∀ k ∈ allKeys es, AgreeAt F G (mem.drop (i * step)) k) (w : W) :
    (encodeRangeV5 F step kp es as mem w >>= fun r => mapFields (commitProbed hash) r.2.1 >>= fun as =>
      encodeRangeV5 F step (n - kp) r.1 as r.2.2.1 r.2.2.2) =
    (encodeRangeV5 G step kp es as mem w >>= fun r => mapFields (commitProbed hash) r.2.1 >>= fun as =>
      encodeRangeV5 G step (n - kp) r.1 as r.2.2.1 r.2.2.2) := by
  rw [encodeRangeV5_agree h fun i hi => ha i (by omega)]
  cases hf : encodeRangeV5 G step kp es as mem w with
  | throw e => simp only [Res.throw_bind]
  | ub u => simp only [Res.ub_bind]
  | ok r =>
    obtain ⟨es', as', mem', w'⟩ := r
    obtain ⟨k1, k2⟩ := encodeRangeV5_keys hf
    simp only [Res.ok_bind]
    have : ∀ as, encodeRangeV5 F step (n - kp) es' as mem' w' = encodeRangeV5 G step (n - kp) es' as mem' w' := by
      intro as
      apply encodeRangeV5_agree h
      intro i hi
      rw [k1, k2, List.drop_drop]
      have := ha (kp + i) (by omega)
      rwa [Nat.add_mul] at this
    simp only [this]

theorem probed_keys (kp : Nat) {hash : BitVec 64 → BitVec 64} {step n : Nat} {mem mem' : List Byte} {es es' : List Enc} {as as' : List AField}
    {w w' : W} (hkp : kp < n) (h : (encodeRangeV5 F step kp es as mem w >>= fun r => mapFields (commitProbed hash) r.2.1 >>= fun as =>
      encodeRangeV5 F step (n - kp) r.1 as r.2.2.1 r.2.2.2) = .ok (es', as', mem', w')) :
    allKeys es' = allKeys es ∧ mem' = mem.drop (n * step) := by
  obtain ⟨⟨es1, as1, m1, w1⟩, h1, h⟩ := Res.bind_eq_ok.1 h
  obtain ⟨as2, h2, h⟩ := Res.bind_eq_ok.1 h
  obtain ⟨a1, a2⟩ := encodeRangeV5_keys h1
  obtain ⟨b1, b2⟩ := encodeRangeV5_keys h
  refine ⟨b1.trans a1, ?_⟩
  rw [b2, a2, List.drop_drop, ← Nat.add_mul]
  congr 2; omega

include h in
theorem encodePointsV5_agree {hash : BitVec 64 → BitVec 64} {step n : Nat} {mem : List Byte} {es : List Enc} {as : List AField}
    (ha : ∀ i < n, ∀ k ∈ allKeys es, AgreeAt F G (mem.drop (i * step)) k) (w : W) :
    encodePointsV5 F hash step es as mem n w = encodePointsV5 G hash step es as mem n w := by
  unfold encodePointsV5
  by_cases hc : (as.any fun f => !f.committed) = true ∧ n > kProbePoints
  · rw [if_pos hc, if_pos hc]
    exact probed_agree h kProbePoints hash hc.2 ha w
  · rw [if_neg hc, if_neg hc]
    exact encodeRangeV5_agree h ha w

theorem encodePointsV5_keys {hash : BitVec 64 → BitVec 64} {step n : Nat} {mem mem' : List Byte} {es es' : List Enc} {as as' : List AField}
    {w w' : W} (h : encodePointsV5 F hash step es as mem n w = .ok (es', as', mem', w')) :
    allKeys es' = allKeys es ∧ mem' = mem.drop (n * step) := by
  unfold encodePointsV5 at h
  by_cases hc : (as.any fun f => !f.committed) = true ∧ n > kProbePoints
  · rw [if_pos hc] at h
    exact probed_keys kProbePoints hc.2 h
  · rw [if_neg hc] at h
    exact encodeRangeV5_keys h

include h in
theorem encodeV4Chunk_agree {step n points cap : Nat} {es : List Enc} {mem : List Byte} (hm : mem.length = points * step)
    (ha : ∀ i < points, ∀ k ∈ allKeys es, AgreeAt F G (mem.drop (i * step)) k) :
    encodeV4Chunk F step es mem n cap = encodeV4Chunk G step es mem n cap := by
  unfold encodeV4Chunk
  rw [encodePoints_agree h (fun i _ => by
    rcases Nat.lt_or_ge i points with hi | hi
    · right; rw [allKeys_reset]; exact ha i hi
    · left; rw [hm]; exact Nat.mul_le_mul_right _ hi)]

theorem encodeV4Chunk_keys {step n points cap : Nat} {es es' : List Enc} {mem mem' out : List Byte} (hm : mem.length = points * step)
    (h : encodeV4Chunk F step es mem n cap = .ok (es', mem', out)) :
    allKeys es' = allKeys es ∧ mem' = mem.drop (min points n * step) := by
  unfold encodeV4Chunk at h
  obtain ⟨⟨e1, m1, w1⟩, h1, h⟩ := Res.bind_eq_ok.1 h
  simp only [Res.ok.injEq, Prod.mk.injEq] at h
  obtain ⟨rfl, rfl, _⟩ := h
  obtain ⟨k1, k2⟩ := encodePoints_keys h1
  rw [allKeys_reset] at k1
  refine ⟨k1, ?_⟩
  rcases Nat.le_total points n with hle | hle
  · rw [Nat.min_eq_left hle, ← hm, List.drop_length]
    rcases k2 with k2 | k2
    · rw [k2]
      apply List.drop_eq_nil_of_le
      rw [hm]; exact Nat.mul_le_mul_right _ hle
    · exact k2.1
  · rw [Nat.min_eq_right hle]
    rcases k2 with k2 | ⟨k2, k3⟩
    · exact k2
    · rw [k2]; exact (List.drop_eq_nil_of_le k3).symm

include h in
theorem encodeV4Loop_agree (C : Compressor) (info : EncodingInfo) (cap points : Nat) (es : List Enc) (mem : List Byte) (w : W) (size : Nat)
    (hm : mem.length = points * info.point_step.toNat)
    (ha : ∀ i < points, ∀ k ∈ allKeys es, AgreeAt F G (mem.drop (i * info.point_step.toNat)) k) :
    encodeV4Loop F C info cap points es mem w size = encodeV4Loop G C info cap points es mem w size := by
  induction points using Nat.strongRecOn generalizing es mem w size with
  | ind points ih =>
    conv => lhs; unfold encodeV4Loop
    conv => rhs; unfold encodeV4Loop
    by_cases hp : points = 0
    · simp only [hp, ↓reduceDIte]
    have hlt : points - min points kPointsPerChunk < points := by simp only [kPointsPerChunk]; omega
    simp only [hp, ↓reduceDIte]
    rw [encodeV4Chunk_agree h hm ha]
    cases hf : encodeV4Chunk G info.point_step.toNat es mem kPointsPerChunk cap with
    | throw e => simp only [Res.throw_bind]
    | ub u => simp only [Res.ub_bind]
    | ok r =>
      obtain ⟨es', mem', w'⟩ := r
      obtain ⟨k1, hmem⟩ := encodeV4Chunk_keys hm hf
      simp only [Res.ok_bind]
      have : ∀ w size, encodeV4Loop F C info cap (points - min points kPointsPerChunk) es' mem' w size =
          encodeV4Loop G C info cap (points - min points kPointsPerChunk) es' mem' w size := by
        intro w size
        apply ih _ hlt
        · rw [hmem, List.length_drop, hm, Nat.sub_mul]
        · intro i hi
          rw [k1, hmem, List.drop_drop, ← Nat.add_mul]
          exact ha _ (by omega)
      simp only [this]

include h in
theorem encodeV5Loop_agree (C : Compressor) (hash : BitVec 64 → BitVec 64) (info : EncodingInfo) (cap points : Nat) (es : List Enc)
    (as : List AField) (mem : List Byte) (w : W) (size : Nat)
    (ha : ∀ i < points, ∀ k ∈ allKeys es, AgreeAt F G (mem.drop (i * info.point_step.toNat)) k) :
    encodeV5Loop F C hash info cap points es as mem w size = encodeV5Loop G C hash info cap points es as mem w size := by
  induction points using Nat.strongRecOn generalizing es as mem w size with
  | ind points ih =>
    conv => lhs; unfold encodeV5Loop
    conv => rhs; unfold encodeV5Loop
    by_cases hp : points = 0
    · simp only [hp, ↓reduceDIte]
    have hlt : points - min points kPointsPerChunk < points := by simp only [kPointsPerChunk]; omega
    simp only [hp, ↓reduceDIte, encodeV5Chunk]
    rw [encodePointsV5_agree h (fun i hi => by rw [allKeys_reset]; exact ha i (by omega))]
    cases hf : encodePointsV5 G hash info.point_step.toNat (es.map Enc.reset) (as.map prepareField) mem (min points kPointsPerChunk) ⟨[], cap⟩ with
    | throw e => simp only [Res.throw_bind]
    | ub u => simp only [Res.ub_bind]
    | ok r =>
      obtain ⟨es', as', mem', w'⟩ := r
      obtain ⟨k1, k2⟩ := encodePointsV5_keys hf
      rw [allKeys_reset] at k1
      have : ∀ as w size, encodeV5Loop F C hash info cap (points - min points kPointsPerChunk) es' as mem' w size =
          encodeV5Loop G C hash info cap (points - min points kPointsPerChunk) es' as mem' w size := by
        intro as w size
        apply ih _ hlt
        intro i hi
        rw [k1, k2, List.drop_drop, ← Nat.add_mul]
        exact ha _ (by omega)
      simp only [Res.ok_bind, Res.bind_assoc, this]

include h in
theorem createEncoder_same (info : EncodingInfo) : createEncoder F info = createEncoder G info := by
  funext f
  unfold createEncoder mkLossy32Enc mkLossy64Enc
  rw [h.res]

include h in
theorem leadingEncoder_same (info : EncodingInfo) : leadingEncoder F info = leadingEncoder G info := by
  unfold leadingEncoder mkFloatNEnc
  rw [h.inv]

include h in
theorem buildV4Encoders_same (info : EncodingInfo) : buildV4Encoders F info = buildV4Encoders G info := by
  unfold buildV4Encoders
  rw [leadingEncoder_same h, createEncoder_same h]

include h in
theorem buildV5Plan_same (info : EncodingInfo) : buildV5Plan F info = buildV5Plan G info := by
  unfold buildV5Plan
  rw [leadingEncoder_same h, createEncoder_same h]

include h in
theorem mkEncoder_same (info : EncodingInfo) (header : List Byte) : mkEncoder F info header = mkEncoder G info header := by
  unfold mkEncoder
  rw [buildV4Encoders_same h]

/-- The keys of the leading group. -/
def groupKeys (info : EncodingInfo) : List (Nat × BitVec 32) := (group info).map fun f => (f.offset.toNat, f.resolution.getD 0#32)

theorem createEncoder_keys {info : EncodingInfo} {f : PointField} {e : Enc} (h : createEncoder F info f = .ok e) : keys e = [] := by
  unfold createEncoder mkLossy32Enc mkLossy64Enc at h
  repeat' split at h
  all_goals (first | (simp at h; done) | (simp only [Res.ok.injEq] at h; rw [← h]; rfl))

theorem buildAll_keys {info : EncodingInfo} {fs : List PointField} {es : List Enc} (h : buildAll (createEncoder F info) fs = .ok es) :
    allKeys es = [] := by
  induction fs generalizing es with
  | nil => simp only [buildAll, Res.ok.injEq] at h; rw [← h]; rfl
  | cons f fs ih =>
    unfold buildAll at h
    obtain ⟨e, h1, h⟩ := Res.bind_eq_ok.1 h
    obtain ⟨es1, h2, h⟩ := Res.bind_eq_ok.1 h
    simp only [Res.ok.injEq] at h
    rw [← h]
    have := ih h2
    unfold allKeys at this ⊢
    rw [List.flatMap_cons, this, createEncoder_keys h1]
    rfl

theorem leading_keys {info : EncodingInfo} {es : List Enc} (h : leadingEncoder F info = .ok es) : allKeys es = groupKeys info := by
  unfold leadingEncoder at h
  simp only at h
  unfold groupKeys group
  split at h
  · next h0 =>
    simp only [Res.ok.injEq] at h
    rw [← h, h0]; rfl
  · obtain ⟨e, h1, h⟩ := Res.bind_eq_ok.1 h
    simp only [Res.ok.injEq] at h
    unfold mkFloatNEnc at h1
    split at h1
    · simp at h1
    · simp only [Res.ok.injEq] at h1
      rw [← h, ← h1]
      simp [allKeys, keys, lanesOf, Function.comp_def]

theorem plan_keys {info : EncodingInfo} {es : List Enc} {as : List AField} (h : buildV5Plan F info = .ok (es, as)) :
    allKeys es = groupKeys info := by
  unfold buildV5Plan at h
  obtain ⟨l, h1, h⟩ := Res.bind_eq_ok.1 h
  obtain ⟨r, h2, h⟩ := Res.bind_eq_ok.1 h
  simp only [Res.ok.injEq, Prod.mk.injEq] at h
  rw [← h.1]
  have a := leading_keys h1
  have b := buildAll_keys h2
  unfold allKeys at a b ⊢
  rw [List.flatMap_append, a, b, List.append_nil]

theorem v4_keys {info : EncodingInfo} {es : List Enc} (h : buildV4Encoders F info = .ok es) : allKeys es = groupKeys info := by
  unfold buildV4Encoders at h
  split at h
  · next h0 =>
    simp only [Res.ok.injEq] at h
    rw [← h]
    unfold groupKeys group leadingLossyFloatCount
    rw [if_neg (by rw [h0]; simp)]
    unfold allKeys
    rw [List.flatMap_map]
    simp [keys]
  · obtain ⟨l, h1, h⟩ := Res.bind_eq_ok.1 h
    obtain ⟨r, h2, h⟩ := Res.bind_eq_ok.1 h
    simp only [Res.ok.injEq] at h
    rw [← h]
    have a := leading_keys h1
    have b := buildAll_keys h2
    unfold allKeys at a b ⊢
    rw [List.flatMap_append, a, b, List.append_nil]

/-- The whole call: if the two quantisations agree on every value of the leading group, the calls do the same. -/
theorem encodeView_agree (h : SameEnc F G) (C : Compressor) (enc : Encoder) (cloud : List Byte) (room : Nat) (wh : Bool)
    (hu : usesV5 enc.info = true ∨ allKeys enc.encs = groupKeys enc.info)
    (ha : ∀ i < cloud.length / enc.info.point_step.toNat, ∀ k ∈ groupKeys enc.info,
      AgreeAt F G (cloud.drop (i * enc.info.point_step.toNat)) k) :
    Cloudini.encodeView F C enc cloud room wh = Cloudini.encodeView G C enc cloud room wh := by
  unfold Cloudini.encodeView
  split
  · rfl
  split
  · rfl
  next h0 hmod =>
  have hs : 0 < enc.info.point_step.toNat := by
    rcases Nat.eq_zero_or_pos enc.info.point_step.toNat with hz | hz
    · exact absurd (BitVec.eq_of_toNat_eq (by simpa using hz)) h0
    · exact hz
  have hm : cloud.length = cloud.length / enc.info.point_step.toNat * enc.info.point_step.toNat := by
    have := Nat.div_add_mod cloud.length enc.info.point_step.toNat
    rw [Nat.mul_comm] at this
    omega
  have : ∀ w size, encodePayload F C enc (cloud.length / enc.info.point_step.toNat) cloud w size =
      encodePayload G C enc (cloud.length / enc.info.point_step.toNat) cloud w size := by
    intro w size
    unfold encodePayload
    split
    · next hv =>
      rw [buildV5Plan_same h]
      cases hp : buildV5Plan G enc.info with
      | throw e => simp only [Res.throw_bind]
      | ub u => simp only [Res.ub_bind]
      | ok r =>
        obtain ⟨es, as⟩ := r
        have hk := plan_keys hp
        have : ∀ cap, encodeV5Loop F C hashPaletteValue enc.info cap (cloud.length / enc.info.point_step.toNat) es as cloud w size =
            encodeV5Loop G C hashPaletteValue enc.info cap (cloud.length / enc.info.point_step.toNat) es as cloud w size := by
          intro cap
          apply encodeV5Loop_agree h
          rw [hk]; exact ha
        simp only [Res.ok_bind, this]
    · next hv =>
      have hk : allKeys enc.encs = groupKeys enc.info := by
        rcases hu with hu | hu
        · exact absurd hu hv
        · exact hu
      have : ∀ cap, encodeV4Loop F C enc.info cap (cloud.length / enc.info.point_step.toNat) enc.encs cloud w size =
          encodeV4Loop G C enc.info cap (cloud.length / enc.info.point_step.toNat) enc.encs cloud w size := by
        intro cap
        apply encodeV4Loop_agree h _ _ _ _ _ _ _ _ hm
        rw [hk]; exact ha
      simp only [this]
  simp only [this]

end enc
end Cloudini.Scalar
