import Verif.Lemmas.Bridge
import Verif.Lemmas.Reuse
import Verif.Lemmas.StreamFull
import Verif.Lemmas.Scalar

/-! Two clouds that look the same to every field encoder are encoded into the same bytes. -/

namespace Cloudini.Alike

/-- The same as a number: both NaN, or neither and with the same integer. -/
def SameQ {α β : Type} (nan : α → Bool) (q : α → β) (x y : α) : Prop := nan x = nan y ∧ (nan x = false → q x = q y)

theorem SameQ.rfl' {α β : Type} {nan : α → Bool} {q : α → β} (x : α) : SameQ nan q x x := ⟨rfl, fun _ => rfl⟩

def f32 (m : List Byte) (o : Nat) : BitVec 32 := BitVec.ofNat 32 (fromLE (sub m o 4))
def f64 (m : List Byte) (o : Nat) : BitVec 64 := BitVec.ofNat 64 (fromLE (sub m o 8))

/-- The two points look the same to the encoder. -/
def Same (F : FloatOps) (m m2 : List Byte) : Enc → Prop
  | .copy o s => sub m o s = sub m2 o s
  | .int o s _ _ => sub m o s = sub m2 o s
  | .lossy32 o r _ => SameQ isNaN32 (F.quant32 r) (f32 m o) (f32 m2 o)
  | .lossy64 o r _ => SameQ isNaN64 (F.quant64 r) (f64 m o) (f64 m2 o)
  | .xor o s _ => sub m o s = sub m2 o s
  | .gorilla o s _ => sub m o s = sub m2 o s
  | .floatN ls => ∀ l ∈ ls, SameQ isNaN32 (F.quantV l.res) (f32 m l.off) (f32 m2 l.off)

variable {F : FloatOps} {m m2 : List Byte}

theorem same_reset (e : Enc) : Same F m m2 e.reset ↔ Same F m m2 e := by
  cases e <;> simp [Same, Enc.reset]

theorem readAt_same {o n : Nat} (hl : m.length = m2.length) (h : sub m o n = sub m2 o n) : readAt m o n = readAt m2 o n := by
  unfold readAt
  rw [hl]
  split
  · exact congrArg Res.ok h
  · rfl

/-- Reading the two points and doing the same with what is read. -/
theorem read_bind {α : Type} {o n : Nat} {k k2 : List Byte → Res α} (hl : m.length = m2.length) (h : k (sub m o n) = k2 (sub m2 o n)) :
    (readAt m o n >>= k) = (readAt m2 o n >>= k2) := by
  unfold readAt
  rw [hl]
  split
  · exact h
  · rfl

theorem lane_same (hl : m.length = m2.length) (l : Lane) (h : SameQ isNaN32 (F.quantV l.res) (f32 m l.off) (f32 m2 l.off)) :
    laneEncode F m l = laneEncode F m2 l := by
  unfold laneEncode
  apply read_bind hl
  change (if isNaN32 (f32 m l.off) = true then _ else _) = (if isNaN32 (f32 m2 l.off) = true then _ else _)
  rw [← h.1]
  by_cases hn : isNaN32 (f32 m l.off) = true
  · rw [if_pos hn, if_pos hn]
  · rw [if_neg hn, if_neg hn]
    have := h.2 (by simpa using hn)
    unfold f32 at this
    simp only [this]

theorem lanes_same (hl : m.length = m2.length) (ls : List Lane) (h : ∀ l ∈ ls, SameQ isNaN32 (F.quantV l.res) (f32 m l.off) (f32 m2 l.off)) :
    lanesEncode F m ls = lanesEncode F m2 ls := by
  induction ls with
  | nil => rfl
  | cons l ls ih =>
    simp only [lanesEncode, lane_same hl l (h l (by simp)), ih fun l hl => h l (by simp [hl])]

theorem unused_same (hl : m.length = m2.length) (n : Nat) {α : Type} (k : Res α) :
    (readUnusedLane m n >>= fun _ => k) = (readUnusedLane m2 n >>= fun _ => k) := by
  unfold readUnusedLane
  by_cases hn : n < 4
  · rw [if_pos hn, if_pos hn]
    exact read_bind hl rfl
  · rw [if_neg hn, if_neg hn]

theorem step_same (hl : m.length = m2.length) (e : Enc) (h : Same F m m2 e) : e.step F m = e.step F m2 := by
  cases e with
  | copy o s => simp only [Enc.step, readAt_same hl h]
  | int o s g p => simp only [Enc.step, readAt_same hl h]
  | xor o s p => simp only [Enc.step, readAt_same hl h]
  | gorilla o s st => simp only [Enc.step, readAt_same hl h]
  | lossy32 o r p =>
    simp only [Enc.step]
    apply read_bind hl
    change (if isNaN32 (f32 m o) = true then _ else _) = (if isNaN32 (f32 m2 o) = true then _ else _)
    rw [← h.1]
    by_cases hn : isNaN32 (f32 m o) = true
    · rw [if_pos hn, if_pos hn]
    · rw [if_neg hn, if_neg hn]
      have := h.2 (by simpa using hn)
      unfold f32 at this
      simp only [this]
  | lossy64 o r p =>
    simp only [Enc.step]
    apply read_bind hl
    change (if isNaN64 (f64 m o) = true then _ else _) = (if isNaN64 (f64 m2 o) = true then _ else _)
    rw [← h.1]
    by_cases hn : isNaN64 (f64 m o) = true
    · rw [if_pos hn, if_pos hn]
    · rw [if_neg hn, if_neg hn]
      have := h.2 (by simpa using hn)
      unfold f64 at this
      simp only [this]
  | floatN ls =>
    simp only [Enc.step, lanes_same hl ls h]
    exact unused_same hl _ _

/-- All encoders of a list, up to their state. -/
def All (F : FloatOps) (m m2 : List Byte) (es : List Enc) : Prop := ∀ e ∈ es.map Enc.reset, Same F m m2 e

theorem all_of {es : List Enc} (h : ∀ e ∈ es, Same F m m2 e) : All F m m2 es := by
  intro e he
  obtain ⟨e0, h0, rfl⟩ := List.mem_map.1 he
  exact (same_reset e0).2 (h e0 h0)

theorem All.congr {es es' : List Enc} (h : All F m m2 es) (he : es'.map Enc.reset = es.map Enc.reset) : All F m m2 es' := by
  unfold All; rw [he]; exact h

theorem fields_same (hl : m.length = m2.length) (es : List Enc) (h : All F m m2 es) (w : W) : encodeFields F m es w = encodeFields F m2 es w := by
  induction es generalizing w with
  | nil => rfl
  | cons e es ih =>
    have h1 : Same F m m2 e := (same_reset e).1 (h _ (by simp))
    have h2 : All F m m2 es := fun x hx => h x (by rw [List.map_cons]; exact List.mem_cons_of_mem _ hx)
    simp only [encodeFields, step_same hl e h1, fun w => ih h2 w]

/-- The point loop of version 4 and below. -/
theorem points_same (step n : Nat) (es : List Enc) (m m2 : List Byte) (w : W) (hl : m.length = m2.length)
    (h : ∀ i < n, m.length ≤ i * step ∨ All F (m.drop (i * step)) (m2.drop (i * step)) es) :
    encodePoints F step n es m2 w =
      (encodePoints F step n es m w >>= fun r => .ok (r.1, m2.drop (m2.length - r.2.1.length), r.2.2)) := by
  induction n generalizing es m m2 w with
  | zero => simp [encodePoints, hl]
  | succ n ih =>
    unfold encodePoints
    by_cases h0 : m.length = 0
    · rw [if_pos h0, if_pos (by omega)]
      simp [← hl, h0]
    rw [if_neg h0, if_neg (by omega)]
    have h1 : All F m m2 es := by
      have := h 0 (by omega)
      simp only [Nat.zero_mul, List.drop_zero] at this
      rcases this with this | this
      · omega
      · exact this
    rw [fields_same hl es h1]
    cases hf : encodeFields F m2 es w with
    | throw e => simp only [Res.throw_bind]
    | ub u => simp only [Res.ub_bind]
    | ok r =>
      obtain ⟨es', w'⟩ := r
      have hr := encodeFields_reset F m2 _ _ _ _ hf
      simp only [Res.ok_bind]
      by_cases hs : step ≤ m.length
      · rw [if_pos hs, if_pos (by omega), ih es' (m.drop step) (m2.drop step) w' (by rw [List.length_drop, List.length_drop, hl])]
        · cases hp : encodePoints F step n es' (m.drop step) w' with
          | throw e => simp only [Res.throw_bind]
          | ub u => simp only [Res.ub_bind]
          | ok q =>
            obtain ⟨a, b, c⟩ := q
            obtain ⟨_, hb⟩ := Scalar.encodePoints_keys hp
            have hbl : b.length ≤ m2.length - step := by
              rcases hb with hb | hb
              · rw [hb, List.length_drop, List.length_drop]; omega
              · rw [hb.1]; simp
            simp only [Res.ok_bind, List.drop_drop, List.length_drop]
            rw [show step + (m2.length - step - b.length) = m2.length - b.length by omega]
        · intro i hi
          rw [List.drop_drop, List.drop_drop, List.length_drop]
          have := h (i + 1) (by omega)
          rw [show (i + 1) * step = step + i * step by rw [Nat.succ_mul]; omega] at this
          rcases this with this | this
          · exact .inl (by omega)
          · exact .inr (this.congr hr)
      · rw [if_neg hs, if_neg (by omega)]
        simp only [Res.throw_bind]

theorem v4chunk_same (step n points cap : Nat) (es : List Enc) (m m2 : List Byte) (hm : m.length = points * step) (hm2 : m2.length = points * step)
    (h : ∀ i < points, All F (m.drop (i * step)) (m2.drop (i * step)) es) :
    encodeV4Chunk F step es m2 n cap =
      (encodeV4Chunk F step es m n cap >>= fun r => .ok (r.1, m2.drop (min points n * step), r.2.2)) := by
  have hp := points_same (F := F) step n (es.map Enc.reset) m m2 ⟨[], cap⟩ (by omega) (fun i _ => by
    rcases Nat.lt_or_ge i points with hi | hi
    · right; exact (h i hi).congr (map_reset_reset es)
    · left; rw [hm]; exact Nat.mul_le_mul_right _ hi)
  cases hc : encodeV4Chunk F step es m n cap with
  | throw e =>
    unfold encodeV4Chunk at hc ⊢
    rw [hp, Res.bind_assoc]
    cases hq : encodePoints F step n (es.map Enc.reset) m ⟨[], cap⟩ with
    | throw e' => rw [hq] at hc; simpa using hc
    | ub u => rw [hq] at hc; cases hc
    | ok q => rw [hq] at hc; cases hc
  | ub u =>
    unfold encodeV4Chunk at hc ⊢
    rw [hp, Res.bind_assoc]
    cases hq : encodePoints F step n (es.map Enc.reset) m ⟨[], cap⟩ with
    | throw e' => rw [hq] at hc; cases hc
    | ub u => rw [hq] at hc; simpa using hc
    | ok q => rw [hq] at hc; cases hc
  | ok r =>
    obtain ⟨_, hk⟩ := Scalar.encodeV4Chunk_keys hm hc
    unfold encodeV4Chunk at hc ⊢
    rw [hp, Res.bind_assoc]
    obtain ⟨q, hq, hr⟩ := Res.bind_eq_ok.1 hc
    rw [hq]
    simp only [Res.ok.injEq] at hr
    subst hr
    simp only [Res.ok_bind]
    simp only at hk
    have : min points n * step ≤ points * step := Nat.mul_le_mul_right _ (Nat.min_le_left _ _)
    rw [hk, List.length_drop, show m2.length - (m.length - min points n * step) = min points n * step by omega]

theorem v4loop_same (C : Compressor) (info : EncodingInfo) (cap points : Nat) (es : List Enc) (m m2 : List Byte) (w : W) (size : Nat)
    (hm : m.length = points * info.point_step.toNat) (hm2 : m2.length = points * info.point_step.toNat)
    (h : ∀ i < points, All F (m.drop (i * info.point_step.toNat)) (m2.drop (i * info.point_step.toNat)) es) :
    encodeV4Loop F C info cap points es m w size = encodeV4Loop F C info cap points es m2 w size := by
  induction points using Nat.strongRecOn generalizing es m m2 w size with
  | ind points ih =>
    conv => lhs; unfold encodeV4Loop
    conv => rhs; unfold encodeV4Loop
    by_cases hp : points = 0
    · simp only [hp, ↓reduceDIte]
    have hlt : points - min points kPointsPerChunk < points := by simp only [kPointsPerChunk]; omega
    simp only [hp, ↓reduceDIte]
    rw [v4chunk_same _ _ _ _ _ _ _ hm hm2 h]
    cases hf : encodeV4Chunk F info.point_step.toNat es m kPointsPerChunk cap with
    | throw e => simp only [Res.throw_bind]
    | ub u => simp only [Res.ub_bind]
    | ok r =>
      obtain ⟨es', m', w'⟩ := r
      obtain ⟨_, hmem⟩ := Scalar.encodeV4Chunk_keys hm hf
      have hr := encodeV4Chunk_reset F _ _ _ _ _ _ _ _ hf
      simp only [Res.ok_bind]
      have : ∀ w size, encodeV4Loop F C info cap (points - min points kPointsPerChunk) es' m' w size =
          encodeV4Loop F C info cap (points - min points kPointsPerChunk) es' (m2.drop (min points kPointsPerChunk * info.point_step.toNat)) w size := by
        intro w size
        apply ih _ hlt
        · rw [hmem, List.length_drop, hm, Nat.sub_mul]
        · rw [List.length_drop, hm2, Nat.sub_mul]
        · intro i hi
          rw [hmem, List.drop_drop, List.drop_drop, ← Nat.add_mul]
          exact (h _ (by omega)).congr hr
      simp only [this]

/-! ### version 5 -/

/-- The adaptive fields see the same bytes. -/
def Same5 (m m2 : List Byte) (ks : List (Nat × Nat)) : Prop := ∀ k ∈ ks, sub m k.1 k.2 = sub m2 k.1 k.2

def places (as : List AField) : List (Nat × Nat) := as.map fun f => (f.offset, f.bpv)

theorem collect_same (hl : m.length = m2.length) (f : AField) (h : sub m f.offset f.bpv = sub m2 f.offset f.bpv) :
    collectValue f m = collectValue f m2 := by
  have h1 : readIntAt m f = readIntAt m2 f := by unfold readIntAt; rw [readAt_same hl h]
  have h2 : readRawAt m f = readRawAt m2 f := by unfold readRawAt; rw [readAt_same hl h]
  unfold collectValue appendCommittedFromMem
  simp only [h1, h2]

theorem mapCollect_same (hl : m.length = m2.length) (as : List AField) (h : Same5 m m2 (places as)) :
    mapFields (fun f => collectValue f m) as = mapFields (fun f => collectValue f m2) as := by
  induction as with
  | nil => rfl
  | cons f as ih =>
    simp only [mapFields, collect_same hl f (h (f.offset, f.bpv) (by simp [places])), ih fun k hk => h k (by simp [places] at hk ⊢; exact .inr hk)]

theorem mapFields_places {g : AField → Res AField} (hg : ∀ f, Keeps (g f) f) (as as' : List AField) (h : mapFields g as = .ok as') :
    places as' = places as := by
  induction as generalizing as' with
  | nil => simp only [mapFields, Res.ok.injEq] at h; rw [← h]
  | cons f as ih =>
    simp only [mapFields] at h
    obtain ⟨a, h1, h⟩ := Res.bind_eq_ok.1 h
    obtain ⟨b, h2, h⟩ := Res.bind_eq_ok.1 h
    simp only [Res.ok.injEq] at h
    subst h
    have hs := hg f a h1
    have := ih b h2
    unfold places at this ⊢
    rw [List.map_cons, List.map_cons, this, hs.1, hs.2.1]

theorem range_same (step n : Nat) (es : List Enc) (as : List AField) (m m2 : List Byte) (w : W) (hl : m.length = m2.length)
    (h : ∀ i < n, All F (m.drop (i * step)) (m2.drop (i * step)) es ∧ Same5 (m.drop (i * step)) (m2.drop (i * step)) (places as)) :
    encodeRangeV5 F step n es as m2 w =
      (encodeRangeV5 F step n es as m w >>= fun r => .ok (r.1, r.2.1, m2.drop (n * step), r.2.2.2)) ∧
    ∀ es' as' m' w', encodeRangeV5 F step n es as m w = .ok (es', as', m', w') →
      es'.map Enc.reset = es.map Enc.reset ∧ places as' = places as ∧ m' = m.drop (n * step) := by
  induction n generalizing es as m m2 w with
  | zero =>
    refine ⟨by simp [encodeRangeV5], ?_⟩
    intro es' as' m' w' he
    simp only [encodeRangeV5, Res.ok.injEq, Prod.mk.injEq] at he
    obtain ⟨rfl, rfl, rfl, _⟩ := he
    simp
  | succ n ih =>
    have h0 := h 0 (by omega)
    simp only [Nat.zero_mul, List.drop_zero] at h0
    unfold encodeRangeV5
    rw [fields_same hl es h0.1, mapCollect_same hl as h0.2]
    cases hf : encodeFields F m2 es w with
    | throw e => simp only [Res.throw_bind]; exact ⟨trivial, fun _ _ _ _ he => by cases he⟩
    | ub u => simp only [Res.ub_bind]; exact ⟨trivial, fun _ _ _ _ he => by cases he⟩
    | ok r =>
      obtain ⟨es1, w1⟩ := r
      have hr := encodeFields_reset F m2 _ _ _ _ hf
      simp only [Res.ok_bind]
      cases hc : mapFields (fun f => collectValue f m2) as with
      | throw e => simp only [Res.throw_bind]; exact ⟨trivial, fun _ _ _ _ he => by cases he⟩
      | ub u => simp only [Res.ub_bind]; exact ⟨trivial, fun _ _ _ _ he => by cases he⟩
      | ok as1 =>
        have hpl := mapFields_places (fun f => collectValue_keeps f m2) as as1 hc
        simp only [Res.ok_bind]
        obtain ⟨i1, i2⟩ := ih es1 as1 (m.drop step) (m2.drop step) w1 (by rw [List.length_drop, List.length_drop, hl]) (by
          intro i hi
          rw [List.drop_drop, List.drop_drop]
          have := h (i + 1) (by omega)
          rw [show (i + 1) * step = step + i * step by rw [Nat.succ_mul]; omega] at this
          exact ⟨this.1.congr hr, by rw [hpl]; exact this.2⟩)
        refine ⟨?_, ?_⟩
        · rw [i1, List.drop_drop, show (n + 1) * step = step + n * step by rw [Nat.succ_mul]; omega]
        · intro es' as' m' w' he
          obtain ⟨j1, j2, j3⟩ := i2 es' as' m' w' he
          refine ⟨j1.trans hr, j2.trans hpl, ?_⟩
          rw [j3, List.drop_drop, show (n + 1) * step = step + n * step by rw [Nat.succ_mul]; omega]

/-- Stage 1 of a chunk, with the probe after `kp` points or without it. -/
theorem probed_same (kp : Nat) (hash : BitVec 64 → BitVec 64) (step n : Nat) (es : List Enc) (as : List AField) (m m2 : List Byte) (w : W)
    (hkp : kp < n) (hl : m.length = m2.length)
    (h : ∀ i < n, All F (m.drop (i * step)) (m2.drop (i * step)) es ∧ Same5 (m.drop (i * step)) (m2.drop (i * step)) (places as)) :
    (encodeRangeV5 F step kp es as m2 w >>= fun r => mapFields (commitProbed hash) r.2.1 >>= fun as =>
      encodeRangeV5 F step (n - kp) r.1 as r.2.2.1 r.2.2.2) =
    ((encodeRangeV5 F step kp es as m w >>= fun r => mapFields (commitProbed hash) r.2.1 >>= fun as =>
      encodeRangeV5 F step (n - kp) r.1 as r.2.2.1 r.2.2.2) >>= fun r => .ok (r.1, r.2.1, m2.drop (n * step), r.2.2.2)) ∧
    ∀ es' as' m' w', (encodeRangeV5 F step kp es as m w >>= fun r => mapFields (commitProbed hash) r.2.1 >>= fun as =>
      encodeRangeV5 F step (n - kp) r.1 as r.2.2.1 r.2.2.2) = .ok (es', as', m', w') →
      es'.map Enc.reset = es.map Enc.reset ∧ places as' = places as ∧ m' = m.drop (n * step) := by
  obtain ⟨a1, a2⟩ := range_same (F := F) step kp es as m m2 w hl fun i hi => h i (by omega)
  rw [a1]
  cases hf : encodeRangeV5 F step kp es as m w with
  | throw e => simp only [Res.throw_bind]; exact ⟨trivial, fun _ _ _ _ he => by cases he⟩
  | ub u => simp only [Res.ub_bind]; exact ⟨trivial, fun _ _ _ _ he => by cases he⟩
  | ok r =>
    obtain ⟨es1, as1, m1, w1⟩ := r
    obtain ⟨b1, b2, b3⟩ := a2 _ _ _ _ hf
    simp only [Res.ok_bind]
    cases hc : mapFields (commitProbed hash) as1 with
    | throw e => simp only [Res.throw_bind]; exact ⟨trivial, fun _ _ _ _ he => by cases he⟩
    | ub u => simp only [Res.ub_bind]; exact ⟨trivial, fun _ _ _ _ he => by cases he⟩
    | ok as2 =>
      have hpl := mapFields_places (fun f => commitProbed_keeps hash f) as1 as2 hc
      simp only [Res.ok_bind]
      obtain ⟨i1, i2⟩ := range_same (F := F) step (n - kp) es1 as2 m1 (m2.drop (kp * step)) w1
        (by rw [b3, List.length_drop, List.length_drop, hl]) (by
          intro i hi
          rw [b3, List.drop_drop, List.drop_drop, ← Nat.add_mul]
          have := h (kp + i) (by omega)
          exact ⟨this.1.congr b1, by rw [hpl, b2]; exact this.2⟩)
      have hk : kp * step + (n - kp) * step = n * step := by rw [← Nat.add_mul]; congr 1; omega
      refine ⟨by rw [i1, List.drop_drop, hk], ?_⟩
      intro es' as' m' w' he
      obtain ⟨j1, j2, j3⟩ := i2 es' as' m' w' he
      exact ⟨j1.trans b1, (j2.trans hpl).trans b2, by rw [j3, b3, List.drop_drop, hk]⟩

theorem points5_same (hash : BitVec 64 → BitVec 64) (step n : Nat) (es : List Enc) (as : List AField) (m m2 : List Byte) (w : W)
    (hl : m.length = m2.length)
    (h : ∀ i < n, All F (m.drop (i * step)) (m2.drop (i * step)) es ∧ Same5 (m.drop (i * step)) (m2.drop (i * step)) (places as)) :
    encodePointsV5 F hash step es as m2 n w =
      (encodePointsV5 F hash step es as m n w >>= fun r => .ok (r.1, r.2.1, m2.drop (n * step), r.2.2.2)) ∧
    ∀ es' as' m' w', encodePointsV5 F hash step es as m n w = .ok (es', as', m', w') →
      es'.map Enc.reset = es.map Enc.reset ∧ places as' = places as ∧ m' = m.drop (n * step) := by
  unfold encodePointsV5
  by_cases hc : (as.any fun f => !f.committed) = true ∧ n > kProbePoints
  · rw [if_pos hc, if_pos hc]
    exact probed_same kProbePoints hash step n es as m m2 w hc.2 hl h
  · rw [if_neg hc, if_neg hc]
    exact range_same step n es as m m2 w hl h

theorem prepare_places (as : List AField) : places (as.map prepareField) = places as := by
  unfold places
  rw [List.map_map]
  apply List.map_congr_left
  intro f _
  have : (prepareField f).offset = f.offset ∧ (prepareField f).bpv = f.bpv := by
    unfold prepareField
    by_cases hc : f.committed = true
    · simp only [hc, if_true]
      unfold beginSection; cases f.mode <;> exact ⟨rfl, rfl⟩
    · simp only [hc]
      exact ⟨rfl, rfl⟩
  simp only [Function.comp, this.1, this.2]

theorem appendSections_places (hash : BitVec 64 → BitVec 64) (as as' : List AField) (w w' : W) (h : appendSections hash as w = .ok (as', w')) :
    places as' = places as := by
  induction as generalizing as' w with
  | nil => simp only [appendSections, Res.ok.injEq, Prod.mk.injEq] at h; rw [← h.1]
  | cons f as ih =>
    simp only [appendSections] at h
    obtain ⟨⟨a, w1⟩, h1, h⟩ := Res.bind_eq_ok.1 h
    obtain ⟨⟨b, w2⟩, h2, h⟩ := Res.bind_eq_ok.1 h
    simp only [Res.ok.injEq, Prod.mk.injEq] at h
    obtain ⟨rfl, rfl⟩ := h
    have hs := appendSection_keeps hash f a w w1 h1
    have := ih b w1 h2
    unfold places at this ⊢
    rw [List.map_cons, List.map_cons, this, hs.1, hs.2.1]

theorem v5loop_same (C : Compressor) (hash : BitVec 64 → BitVec 64) (info : EncodingInfo) (cap points : Nat) (es : List Enc)
    (as : List AField) (m m2 : List Byte) (w : W) (size : Nat) (hl : m.length = m2.length)
    (h : ∀ i < points, All F (m.drop (i * info.point_step.toNat)) (m2.drop (i * info.point_step.toNat)) es ∧
      Same5 (m.drop (i * info.point_step.toNat)) (m2.drop (i * info.point_step.toNat)) (places as)) :
    encodeV5Loop F C hash info cap points es as m w size = encodeV5Loop F C hash info cap points es as m2 w size := by
  induction points using Nat.strongRecOn generalizing es as m m2 w size with
  | ind points ih =>
    conv => lhs; unfold encodeV5Loop
    conv => rhs; unfold encodeV5Loop
    by_cases hp : points = 0
    · simp only [hp, ↓reduceDIte]
    have hlt : points - min points kPointsPerChunk < points := by simp only [kPointsPerChunk]; omega
    simp only [hp, ↓reduceDIte, encodeV5Chunk]
    obtain ⟨a1, a2⟩ := points5_same (F := F) hash info.point_step.toNat (min points kPointsPerChunk) (es.map Enc.reset) (as.map prepareField)
      m m2 ⟨[], cap⟩ hl (fun i hi => by
        have := h i (by omega)
        exact ⟨this.1.congr (map_reset_reset es), by rw [prepare_places]; exact this.2⟩)
    rw [a1]
    cases hf : encodePointsV5 F hash info.point_step.toNat (es.map Enc.reset) (as.map prepareField) m (min points kPointsPerChunk) ⟨[], cap⟩ with
    | throw e => simp only [Res.throw_bind]
    | ub u => simp only [Res.ub_bind]
    | ok r =>
      obtain ⟨es', as', m', w'⟩ := r
      obtain ⟨k1, k2, k3⟩ := a2 _ _ _ _ hf
      rw [map_reset_reset] at k1
      rw [prepare_places] at k2
      simp only [Res.ok_bind, Res.bind_assoc]
      cases hs : appendSections hash as' w' with
      | throw e => simp only [Res.throw_bind]
      | ub u => simp only [Res.ub_bind]
      | ok q =>
        obtain ⟨as2, w2⟩ := q
        have hpl := appendSections_places hash as' as2 w' w2 hs
        have : ∀ w size, encodeV5Loop F C hash info cap (points - min points kPointsPerChunk) es' as2 m' w size =
            encodeV5Loop F C hash info cap (points - min points kPointsPerChunk) es' as2 (m2.drop (min points kPointsPerChunk * info.point_step.toNat)) w size := by
          intro w size
          apply ih _ hlt
          · rw [k3, List.length_drop, List.length_drop, hl]
          · intro i hi
            rw [k3, List.drop_drop, List.drop_drop, ← Nat.add_mul]
            have := h (min points kPointsPerChunk + i) (by omega)
            exact ⟨this.1.congr k1, by rw [hpl, k2]; exact this.2⟩
        simp only [Res.ok_bind, this]

end Cloudini.Alike
