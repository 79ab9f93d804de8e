import Verif.Lemmas.Unfold
import Verif.Lemmas.CloudSize

/-! Which bytes of the caller's buffer a decode call may change. -/

namespace Cloudini

/-- Only the declared fields of the `n` points stored from `base` on differ. -/
def Foot (fs : List PointField) (step base n : Nat) (buf buf' : List Byte) : Prop :=
  buf'.length = buf.length ∧ ∀ p, (∀ i, i < n → ∀ f ∈ fs, p < base + i * step + f.offset.toNat ∨
    base + i * step + f.offset.toNat + sizeOf f.type ≤ p) → buf'[p]? = buf[p]?

theorem Foot.refl (fs : List PointField) (step base n : Nat) (buf : List Byte) : Foot fs step base n buf buf := ⟨rfl, fun _ _ => rfl⟩

theorem Foot.trans {fs : List PointField} {step base n : Nat} {a b c : List Byte} (h : Foot fs step base n a b) (h' : Foot fs step base n b c) :
    Foot fs step base n a c := ⟨h'.1.trans h.1, fun p hp => (h'.2 p hp).trans (h.2 p hp)⟩

theorem Foot.append {fs : List PointField} {step base a b : Nat} {x y z : List Byte} (h : Foot fs step base a x y)
    (h' : Foot fs step (base + a * step) b y z) : Foot fs step base (a + b) x z := by
  refine ⟨h'.1.trans h.1, fun p hp => (h'.2 p ?_).trans (h.2 p ?_)⟩
  · intro i hi f hf
    have := hp (a + i) (by omega) f hf
    rw [Nat.add_mul] at this
    omega
  · intro i hi f hf
    exact hp i (by omega) f hf

theorem Foot.mono {fs : List PointField} {step base a b : Nat} {x y : List Byte} (h : Foot fs step base a x y) (hab : a ≤ b) :
    Foot fs step base b x y := ⟨h.1, fun p hp => h.2 p fun i hi f hf => hp i (by omega) f hf⟩

theorem writeAt_other {buf buf' bs : List Byte} {pos : Nat} (h : writeAt buf pos bs = .ok buf') (p : Nat)
    (hp : p < pos ∨ pos + bs.length ≤ p) : buf'[p]? = buf[p]? := by
  have h2 : applyWrites buf 0 [(pos, bs)] = .ok buf' := by simp [applyWrites, h]
  refine applyWrites_unwritten h2 p ?_
  intro w hw
  simp only [List.mem_singleton] at hw
  subst hw
  exact hp

/-- Places a decoder may write. -/
def Dec.spots : Dec → List (Nat × Nat)
  | .copy o s => [(o, s)]
  | .int o s _ => [(o, s)]
  | .lossy32 o _ _ => [(o, 4)]
  | .lossy64 o _ _ => [(o, 8)]
  | .xor o s _ => [(o, s)]
  | .gorilla o s _ => [(o, s)]
  | .floatN ls => ls.map fun l => (l.off, 4)

theorem mem_store {o : Nat} {v : List Byte} {w : Write} (h : w ∈ store o v) : w = (o, v) := by
  unfold store at h; split at h <;> simp_all

theorem mem_store_skip {o : Nat} {v : List Byte} {w : Write} (h : w ∈ store o v) : o ≠ kDecodeButSkipStore := by
  unfold store at h; split at h <;> simp_all

theorem lanes_spots (F : FloatOps) (ls ls' : List Lane) (input rest : List Byte) (ws : List Write)
    (h : lanesDecode F ls input = .ok (ls', ws, rest)) :
    (ls'.map fun l => (l.off, 4)) = (ls.map fun l => (l.off, 4)) ∧
      ∀ w ∈ ws, ∃ sp ∈ (ls.map fun l => (l.off, 4)), w.1 = sp.1 ∧ w.2.length = sp.2 ∧ sp.1 ≠ kDecodeButSkipStore := by
  induction ls generalizing ls' input rest ws with
  | nil =>
    simp only [lanesDecode, Res.ok.injEq, Prod.mk.injEq] at h
    obtain ⟨rfl, rfl, rfl⟩ := h
    simp
  | cons l ls ih =>
    simp only [lanesDecode] at h
    rw [Res.bind_eq_ok] at h
    obtain ⟨⟨l1, v, i1⟩, h1, h⟩ := h
    simp only at h
    rw [Res.bind_eq_ok] at h
    obtain ⟨⟨ls1, ws1, i2⟩, h2, h⟩ := h
    simp only [Res.ok.injEq, Prod.mk.injEq] at h
    obtain ⟨rfl, rfl, rfl⟩ := h
    obtain ⟨e1, e2⟩ := ih _ _ _ _ h2
    have hl : l1.off = l.off := by
      unfold laneDecode at h1
      split at h1
      · simp at h1
      · split at h1
        · simp only [Res.ok.injEq, Prod.mk.injEq] at h1; rw [← h1.1]
        · rw [Res.bind_eq_ok] at h1
          obtain ⟨⟨d, c⟩, _, h1⟩ := h1
          simp only at h1
          rw [Res.bind_eq_ok] at h1
          obtain ⟨v', _, h1⟩ := h1
          simp only [Res.ok.injEq, Prod.mk.injEq] at h1; rw [← h1.1]
    refine ⟨by simp only [List.map_cons, hl, e1], ?_⟩
    intro w hw
    rw [List.mem_append] at hw
    rcases hw with hw | hw
    · have := mem_store hw
      have hk := mem_store_skip hw
      subst this
      exact ⟨(l.off, 4), by simp, rfl, by simp, hk⟩
    · obtain ⟨sp, hsp, hx⟩ := e2 w hw
      exact ⟨sp, List.mem_cons_of_mem _ hsp, hx⟩

theorem step_spots (F : FloatOps) (d d' : Dec) (input rest : List Byte) (ws : List Write)
    (h : d.step F input = .ok (d', ws, rest)) :
    d'.spots = d.spots ∧ ∀ w ∈ ws, ∃ sp ∈ d.spots, w.1 = sp.1 ∧ w.2.length = sp.2 ∧ sp.1 ≠ kDecodeButSkipStore := by
  cases d with
  | copy o s =>
    simp only [Dec.step] at h
    split at h
    · next hk =>
      split at h
      · next hs =>
        simp only [Res.ok.injEq, Prod.mk.injEq] at h
        obtain ⟨rfl, rfl, rfl⟩ := h
        refine ⟨rfl, fun w hw => ⟨(o, s), by simp [Dec.spots], ?_⟩⟩
        simp only [List.mem_singleton] at hw
        subst hw
        exact ⟨rfl, by simp [hs], hk⟩
      · simp at h
    · split at h
      · simp only [Res.ok.injEq, Prod.mk.injEq] at h
        obtain ⟨rfl, rfl, rfl⟩ := h
        simp [Dec.spots]
      · simp at h
  | int o s prev =>
    simp only [Dec.step] at h
    rw [Res.bind_eq_ok] at h
    obtain ⟨⟨a, b⟩, _, h⟩ := h
    simp only at h
    rw [Res.bind_eq_ok] at h
    obtain ⟨v, _, h⟩ := h
    simp only [Res.ok.injEq, Prod.mk.injEq] at h
    obtain ⟨rfl, rfl, rfl⟩ := h
    refine ⟨rfl, fun w hw => ⟨(o, s), by simp [Dec.spots], ?_⟩⟩
    have hk := mem_store_skip hw
    rw [mem_store hw]
    exact ⟨rfl, by simp, hk⟩
  | lossy32 o r prev =>
    simp only [Dec.step] at h
    split at h
    · simp at h
    split at h
    · simp only [Res.ok.injEq, Prod.mk.injEq] at h
      obtain ⟨rfl, rfl, rfl⟩ := h
      refine ⟨rfl, fun w hw => ⟨(o, 4), by simp [Dec.spots], ?_⟩⟩
      have hk := mem_store_skip hw
      rw [mem_store hw]
      exact ⟨rfl, by simp, hk⟩
    · rw [Res.bind_eq_ok] at h
      obtain ⟨⟨a, b⟩, _, h⟩ := h
      simp only at h
      rw [Res.bind_eq_ok] at h
      obtain ⟨v, _, h⟩ := h
      simp only [Res.ok.injEq, Prod.mk.injEq] at h
      obtain ⟨rfl, rfl, rfl⟩ := h
      refine ⟨rfl, fun w hw => ⟨(o, 4), by simp [Dec.spots], ?_⟩⟩
      have hk := mem_store_skip hw
      rw [mem_store hw]
      exact ⟨rfl, by simp, hk⟩
  | lossy64 o r prev =>
    simp only [Dec.step] at h
    split at h
    · simp at h
    split at h
    · simp only [Res.ok.injEq, Prod.mk.injEq] at h
      obtain ⟨rfl, rfl, rfl⟩ := h
      refine ⟨rfl, fun w hw => ⟨(o, 8), by simp [Dec.spots], ?_⟩⟩
      have hk := mem_store_skip hw
      rw [mem_store hw]
      exact ⟨rfl, by simp, hk⟩
    · rw [Res.bind_eq_ok] at h
      obtain ⟨⟨a, b⟩, _, h⟩ := h
      simp only at h
      rw [Res.bind_eq_ok] at h
      obtain ⟨v, _, h⟩ := h
      simp only [Res.ok.injEq, Prod.mk.injEq] at h
      obtain ⟨rfl, rfl, rfl⟩ := h
      refine ⟨rfl, fun w hw => ⟨(o, 8), by simp [Dec.spots], ?_⟩⟩
      have hk := mem_store_skip hw
      rw [mem_store hw]
      exact ⟨rfl, by simp, hk⟩
  | xor o s prev =>
    simp only [Dec.step] at h
    split at h
    · simp only [Res.ok.injEq, Prod.mk.injEq] at h
      obtain ⟨rfl, rfl, rfl⟩ := h
      refine ⟨rfl, fun w hw => ⟨(o, s), by simp [Dec.spots], ?_⟩⟩
      have hk := mem_store_skip hw
      rw [mem_store hw]
      exact ⟨rfl, by simp, hk⟩
    · simp at h
  | gorilla o s st =>
    simp only [Dec.step] at h
    rw [Res.bind_eq_ok] at h
    obtain ⟨⟨a, b, c⟩, _, h⟩ := h
    simp only [Res.ok.injEq, Prod.mk.injEq] at h
    obtain ⟨rfl, rfl, rfl⟩ := h
    refine ⟨rfl, fun w hw => ⟨(o, s), by simp [Dec.spots], ?_⟩⟩
    have hk := mem_store_skip hw
    rw [mem_store hw]
    exact ⟨rfl, by simp, hk⟩
  | floatN ls =>
    simp only [Dec.step] at h
    split at h
    · simp at h
    · rw [Res.bind_eq_ok] at h
      obtain ⟨⟨a, b, c⟩, h1, h⟩ := h
      simp only [Res.ok.injEq, Prod.mk.injEq] at h
      obtain ⟨rfl, rfl, rfl⟩ := h
      exact lanes_spots F _ _ _ _ _ h1

theorem spots_reset (d : Dec) : d.reset.spots = d.spots := by
  cases d <;> simp [Dec.reset, Dec.spots]

/-- The decoders write declared fields only. -/
def SpotsIn (fs : List PointField) (ds : List Dec) : Prop :=
  ∀ d ∈ ds, ∀ sp ∈ d.spots, sp.1 ≠ kDecodeButSkipStore → ∃ f ∈ fs, sp = (f.offset.toNat, sizeOf f.type)

theorem spotsIn_reset {fs : List PointField} {ds : List Dec} (h : SpotsIn fs ds) : SpotsIn fs (ds.map Dec.reset) := by
  intro d hd sp hsp
  simp only [List.mem_map] at hd
  obtain ⟨d0, hd0, rfl⟩ := hd
  rw [spots_reset] at hsp
  exact h d0 hd0 sp hsp

theorem applyWrites_foot {fs : List PointField} {step base : Nat} {buf buf' : List Byte} {ws : List Write}
    (h : applyWrites buf base ws = .ok buf') (hw : ∀ w ∈ ws, ∃ f ∈ fs, w.1 = f.offset.toNat ∧ w.2.length = sizeOf f.type) :
    Foot fs step base 1 buf buf' := by
  refine ⟨applyWrites_length h, ?_⟩
  intro p hp
  induction ws generalizing buf with
  | nil => simp only [applyWrites, Res.ok.injEq] at h; rw [h]
  | cons w ws ih =>
    simp only [applyWrites] at h
    rw [Res.bind_eq_ok] at h
    obtain ⟨b1, h1, h⟩ := h
    rw [ih h (fun x hx => hw x (by simp [hx]))]
    obtain ⟨f, hf, e1, e2⟩ := hw w (by simp)
    have := hp 0 (by omega) f hf
    exact writeAt_other h1 p (by rw [e1, e2]; omega)

theorem decodeFields_foot (F : FloatOps) (fs : List PointField) (step base : Nat) (ds ds' : List Dec) (input rest buf buf' : List Byte)
    (hs : SpotsIn fs ds) (h : decodeFields F ds input buf base = .ok (ds', rest, buf')) :
    SpotsIn fs ds' ∧ Foot fs step base 1 buf buf' := by
  induction ds generalizing ds' input buf with
  | nil =>
    simp only [decodeFields, Res.ok.injEq, Prod.mk.injEq] at h
    obtain ⟨rfl, rfl, rfl⟩ := h
    exact ⟨hs, .refl ..⟩
  | cons d ds ih =>
    simp only [decodeFields] at h
    rw [Res.bind_eq_ok] at h
    obtain ⟨⟨d1, ws, i1⟩, h1, h⟩ := h
    simp only at h
    rw [Res.bind_eq_ok] at h
    obtain ⟨b1, h2, h⟩ := h
    rw [Res.bind_eq_ok] at h
    obtain ⟨⟨ds1, i2, b2⟩, h3, h⟩ := h
    simp only [Res.ok.injEq, Prod.mk.injEq] at h
    obtain ⟨rfl, rfl, rfl⟩ := h
    obtain ⟨e1, e2⟩ := step_spots F _ _ _ _ _ h1
    obtain ⟨r1, r2⟩ := ih ds1 i1 b1 (fun x hx => hs x (by simp [hx])) h3
    refine ⟨?_, (applyWrites_foot h2 fun w hw => ?_).trans r2⟩
    · intro x hx
      simp only [List.mem_cons] at hx
      rcases hx with rfl | hx
      · rw [e1]; exact hs d (by simp)
      · exact r1 x hx
    · obtain ⟨sp, hsp, e3, e4, e5⟩ := e2 w hw
      obtain ⟨f, hf, rfl⟩ := hs d (by simp) sp hsp e5
      exact ⟨f, hf, e3, e4⟩

theorem decodePointsV4_foot (F : FloatOps) (fs : List PointField) (min step n : Nat) (ds ds' : List Dec) (input rest buf buf' : List Byte)
    (base base' : Nat) (hs : SpotsIn fs ds) (h : decodePointsV4 F min step n ds input buf base = .ok (ds', rest, buf', base')) :
    SpotsIn fs ds' ∧ Foot fs step base n buf buf' ∧ base' = base + n * step := by
  induction n generalizing ds input buf base with
  | zero =>
    simp only [decodePointsV4, Res.ok.injEq, Prod.mk.injEq] at h
    obtain ⟨rfl, rfl, rfl, rfl⟩ := h
    exact ⟨hs, .refl .., by simp⟩
  | succ n ih =>
    simp only [decodePointsV4] at h
    split at h
    · simp at h
    split at h
    · simp at h
    rw [Res.bind_eq_ok] at h
    obtain ⟨⟨ds1, i1, b1⟩, h1, h⟩ := h
    simp only at h
    obtain ⟨e1, e2⟩ := decodeFields_foot F fs step base _ _ _ _ _ _ hs h1
    obtain ⟨r1, r2, r3⟩ := ih ds1 i1 b1 _ e1 h
    refine ⟨r1, ?_, by rw [r3, Nat.add_mul]; omega⟩
    rw [Nat.add_comm n 1]
    exact e2.append (by rw [Nat.one_mul]; exact r2)

theorem decodeUntilEmptyV4_foot (F : FloatOps) (fs : List PointField) (min step fuel : Nat) (ds ds' : List Dec) (input rest buf buf' : List Byte)
    (base base' : Nat) (hst : 0 < step) (hs : SpotsIn fs ds) (h : decodeUntilEmptyV4 F min step fuel ds input buf base = .ok (ds', rest, buf', base')) :
    Foot fs step base ((buf.length - base) / step) buf buf' := by
  induction fuel generalizing ds input buf base with
  | zero =>
    simp only [decodeUntilEmptyV4] at h
    split at h
    · simp only [Res.ok.injEq, Prod.mk.injEq] at h
      obtain ⟨rfl, rfl, rfl, rfl⟩ := h
      exact .refl ..
    · simp at h
  | succ fuel ih =>
    simp only [decodeUntilEmptyV4] at h
    split at h
    · simp only [Res.ok.injEq, Prod.mk.injEq] at h
      obtain ⟨rfl, rfl, rfl, rfl⟩ := h
      exact .refl ..
    split at h
    · simp at h
    split at h
    · simp at h
    next hroom =>
    rw [Res.bind_eq_ok] at h
    obtain ⟨⟨ds1, i1, b1⟩, h1, h⟩ := h
    simp only at h
    obtain ⟨e1, e2⟩ := decodeFields_foot F fs step base _ _ _ _ _ _ hs h1
    have e3 := ih ds1 i1 b1 (base + step) e1 h
    rw [e2.1] at e3
    have hq : (buf.length - base) / step = 1 + (buf.length - (base + step)) / step := by
      rw [show buf.length - base = (buf.length - (base + step)) + step from by omega, Nat.add_div_right _ hst]; omega
    rw [hq]
    exact e2.append (by rw [Nat.one_mul]; exact e3)

theorem decodePointsV5_foot (F : FloatOps) (fs : List PointField) (step n : Nat) (ds ds' : List Dec) (input rest buf buf' : List Byte)
    (base : Nat) (hs : SpotsIn fs ds) (h : decodePointsV5 F step n ds input buf base = .ok (ds', rest, buf')) :
    SpotsIn fs ds' ∧ Foot fs step base n buf buf' := by
  induction n generalizing ds input buf base with
  | zero =>
    simp only [decodePointsV5, Res.ok.injEq, Prod.mk.injEq] at h
    obtain ⟨rfl, rfl, rfl⟩ := h
    exact ⟨hs, .refl ..⟩
  | succ n ih =>
    simp only [decodePointsV5] at h
    rw [Res.bind_eq_ok] at h
    obtain ⟨⟨ds1, i1, b1⟩, h1, h⟩ := h
    simp only at h
    obtain ⟨e1, e2⟩ := decodeFields_foot F fs step base _ _ _ _ _ _ hs h1
    obtain ⟨r1, r2⟩ := ih ds1 i1 b1 _ e1 h
    refine ⟨r1, ?_⟩
    rw [Nat.add_comm n 1]
    exact e2.append (by rw [Nat.one_mul]; exact r2)

/-! ### adaptive sections -/

theorem writeValue_foot {fs : List PointField} {base step n i : Nat} {f : AField} {v : BitVec 64} {buf buf' : List Byte}
    (hf : ∃ p ∈ fs, f.offset = p.offset.toNat ∧ f.bpv = sizeOf p.type) (hi : i < n)
    (h : writeValue buf base step f i v = .ok buf') : Foot fs step base n buf buf' := by
  obtain ⟨p, hp, e1, e2⟩ := hf
  unfold writeValue at h
  refine ⟨writeAt_length h, fun q hq => writeAt_other h q ?_⟩
  have := hq i hi p hp
  rw [toLE_length, e1, e2]
  omega

theorem decodeDeltas_foot {fs : List PointField} {f : AField} (base step n k i : Nat) (prev : BitVec 64) (input rest buf buf' : List Byte)
    (hf : ∃ p ∈ fs, f.offset = p.offset.toNat ∧ f.bpv = sizeOf p.type) (hk : i + k ≤ n)
    (h : decodeDeltas f base step k i prev input buf = .ok (rest, buf')) : Foot fs step base n buf buf' := by
  induction k generalizing i prev input buf with
  | zero =>
    simp only [decodeDeltas, Res.ok.injEq, Prod.mk.injEq] at h
    rw [h.2]; exact .refl ..
  | succ k ih =>
    simp only [decodeDeltas] at h
    rw [Res.bind_eq_ok] at h
    obtain ⟨⟨a, b⟩, _, h⟩ := h
    simp only at h
    rw [Res.bind_eq_ok] at h
    obtain ⟨v, _, h⟩ := h
    rw [Res.bind_eq_ok] at h
    obtain ⟨b1, h1, h⟩ := h
    exact (writeValue_foot hf (by omega) h1).trans (ih (i + 1) v _ b1 (by omega) h)

theorem decodePalette_foot {fs : List PointField} {f : AField} (base step bits n k i : Nat) (pal : List (BitVec 64)) (ptr : List Byte)
    (scratch : BitVec 64) (held : Nat) (buf buf' : List Byte)
    (hf : ∃ p ∈ fs, f.offset = p.offset.toNat ∧ f.bpv = sizeOf p.type) (hk : i + k ≤ n)
    (h : decodePaletteIndexes f base step bits pal k i ptr scratch held buf = .ok buf') : Foot fs step base n buf buf' := by
  induction k generalizing i ptr scratch held buf with
  | zero =>
    simp only [decodePaletteIndexes, Res.ok.injEq] at h
    rw [h]; exact .refl ..
  | succ k ih =>
    simp only [decodePaletteIndexes] at h
    rw [Res.bind_eq_ok] at h
    obtain ⟨⟨a, b, c, d⟩, _, h⟩ := h
    simp only at h
    split at h
    · simp at h
    · rw [Res.bind_eq_ok] at h
      obtain ⟨b1, h1, h⟩ := h
      exact (writeValue_foot hf (by omega) h1).trans (ih (i + 1) _ _ _ b1 (by omega) h)

/-- The buffer of a run that was written completely was large enough for it. -/
theorem writeRun_room {f : AField} (base step k i : Nat) (v : BitVec 64) (buf buf' : List Byte) (hb : 0 < f.bpv) (hst : 0 < step)
    (h : writeRun f base step v k i buf = .ok buf') : buf'.length = buf.length ∧ (0 < k → i + k ≤ buf.length) := by
  induction k generalizing i buf with
  | zero => simp only [writeRun, Res.ok.injEq] at h; rw [h]; simp
  | succ k ih =>
    simp only [writeRun] at h
    rw [Res.bind_eq_ok] at h
    obtain ⟨b1, h1, h⟩ := h
    obtain ⟨e1, e2⟩ := ih (i + 1) b1 h
    unfold writeValue at h1
    have hl := writeAt_length h1
    refine ⟨by omega, fun _ => ?_⟩
    by_cases hk : 0 < k
    · have := e2 hk; omega
    · unfold writeAt at h1
      split at h1
      · next hle =>
        rw [toLE_length] at hle
        have : i * 1 ≤ i * step := Nat.mul_le_mul_left _ hst
        omega
      · simp at h1

theorem writeRun_foot {fs : List PointField} {f : AField} (base step n k i : Nat) (v : BitVec 64) (buf buf' : List Byte)
    (hf : ∃ p ∈ fs, f.offset = p.offset.toNat ∧ f.bpv = sizeOf p.type) (hk : i + k ≤ n)
    (h : writeRun f base step v k i buf = .ok buf') : Foot fs step base n buf buf' := by
  induction k generalizing i buf with
  | zero => simp only [writeRun, Res.ok.injEq] at h; rw [h]; exact .refl ..
  | succ k ih =>
    simp only [writeRun] at h
    rw [Res.bind_eq_ok] at h
    obtain ⟨b1, h1, h⟩ := h
    exact (writeValue_foot hf (by omega) h1).trans (ih (i + 1) b1 (by omega) h)

theorem writeDeltaRun_room {f : AField} (base step k i : Nat) (d prev prev' : BitVec 64) (buf buf' : List Byte) (hb : 0 < f.bpv) (hst : 0 < step)
    (h : writeDeltaRun f base step d k i prev buf = .ok (prev', buf')) : buf'.length = buf.length ∧ (0 < k → i + k ≤ buf.length) := by
  induction k generalizing i buf prev with
  | zero => simp only [writeDeltaRun, Res.ok.injEq, Prod.mk.injEq] at h; rw [h.2]; simp
  | succ k ih =>
    simp only [writeDeltaRun] at h
    rw [Res.bind_eq_ok] at h
    obtain ⟨v, _, h⟩ := h
    rw [Res.bind_eq_ok] at h
    obtain ⟨b1, h1, h⟩ := h
    obtain ⟨e1, e2⟩ := ih (i + 1) v b1 h
    unfold writeValue at h1
    have hl := writeAt_length h1
    refine ⟨by omega, fun _ => ?_⟩
    by_cases hk : 0 < k
    · have := e2 hk; omega
    · unfold writeAt at h1
      split at h1
      · next hle =>
        rw [toLE_length] at hle
        have : i * 1 ≤ i * step := Nat.mul_le_mul_left _ hst
        omega
      · simp at h1

theorem writeDeltaRun_foot {fs : List PointField} {f : AField} (base step n k i : Nat) (d prev prev' : BitVec 64) (buf buf' : List Byte)
    (hf : ∃ p ∈ fs, f.offset = p.offset.toNat ∧ f.bpv = sizeOf p.type) (hk : i + k ≤ n)
    (h : writeDeltaRun f base step d k i prev buf = .ok (prev', buf')) : Foot fs step base n buf buf' := by
  induction k generalizing i buf prev with
  | zero => simp only [writeDeltaRun, Res.ok.injEq, Prod.mk.injEq] at h; rw [h.2]; exact .refl ..
  | succ k ih =>
    simp only [writeDeltaRun] at h
    rw [Res.bind_eq_ok] at h
    obtain ⟨v, _, h⟩ := h
    rw [Res.bind_eq_ok] at h
    obtain ⟨b1, h1, h⟩ := h
    exact (writeValue_foot hf (by omega) h1).trans (ih (i + 1) v b1 (by omega) h)

theorem no_wrap {a n L : Nat} {r : BitVec 64} (ha : a ≤ n) (hL : L < 2 ^ 64) (hn : n ≤ L)
    (h : ¬ (BitVec.ofNat 64 a + r).toNat > n) (hr : 0 < r.toNat → a + r.toNat ≤ L) : a + r.toNat ≤ n := by
  by_cases h0 : 0 < r.toNat
  · have := hr h0
    rw [BitVec.toNat_add, BitVec.toNat_ofNat] at h
    rw [Nat.mod_eq_of_lt (a := a) (by omega), Nat.mod_eq_of_lt (by omega)] at h
    omega
  · omega

theorem decodeRle_foot {fs : List PointField} {f : AField} (base step n runs i i' : Nat) (input rest buf buf' : List Byte)
    (hf : ∃ p ∈ fs, f.offset = p.offset.toNat ∧ f.bpv = sizeOf p.type) (hb : 0 < f.bpv) (hst : 0 < step)
    (hL : buf.length < 2 ^ 64) (hn : n ≤ buf.length) (hi : i ≤ n)
    (h : decodeRleRuns f base step n runs i input buf = .ok (i', rest, buf')) : Foot fs step base n buf buf' := by
  induction runs generalizing i input buf with
  | zero =>
    simp only [decodeRleRuns, Res.ok.injEq, Prod.mk.injEq] at h
    rw [h.2.2]; exact .refl ..
  | succ runs ih =>
    simp only [decodeRleRuns_succ] at h
    split at h
    · simp at h
    rw [Res.bind_eq_ok] at h
    obtain ⟨⟨r, i1⟩, _, h⟩ := h
    simp only at h
    split at h
    · simp at h
    next hgt =>
    rw [Res.bind_eq_ok] at h
    obtain ⟨b1, h1, h⟩ := h
    obtain ⟨hl, hroom⟩ := writeRun_room base step _ _ _ _ _ hb hst h1
    have hle := no_wrap hi hL hn hgt hroom
    exact (writeRun_foot base step n _ i _ buf b1 hf hle h1).trans
      (ih _ _ b1 (by omega) (by omega) hle h)

theorem decodeDeltaRle_foot {fs : List PointField} {f : AField} (base step n runs i i' : Nat) (prev : BitVec 64) (input rest buf buf' : List Byte)
    (hf : ∃ p ∈ fs, f.offset = p.offset.toNat ∧ f.bpv = sizeOf p.type) (hb : 0 < f.bpv) (hst : 0 < step)
    (hL : buf.length < 2 ^ 64) (hn : n ≤ buf.length) (hi : i ≤ n)
    (h : decodeDeltaRleRuns f base step n runs i prev input buf = .ok (i', rest, buf')) : Foot fs step base n buf buf' := by
  induction runs generalizing i prev input buf with
  | zero =>
    simp only [decodeDeltaRleRuns, Res.ok.injEq, Prod.mk.injEq] at h
    rw [h.2.2]; exact .refl ..
  | succ runs ih =>
    simp only [decodeDeltaRleRuns] at h
    rw [Res.bind_eq_ok] at h
    obtain ⟨⟨d, c⟩, _, h⟩ := h
    simp only at h
    rw [Res.bind_eq_ok] at h
    obtain ⟨⟨r, i1⟩, _, h⟩ := h
    simp only at h
    split at h
    · simp at h
    next hgt =>
    rw [Res.bind_eq_ok] at h
    obtain ⟨⟨p1, b1⟩, h1, h⟩ := h
    obtain ⟨hl, hroom⟩ := writeDeltaRun_room base step _ _ _ _ _ _ _ hb hst h1
    have hle := no_wrap hi hL hn hgt hroom
    exact (writeDeltaRun_foot base step n _ i _ _ _ buf b1 hf hle h1).trans
      (ih _ _ _ b1 (by omega) (by omega) hle h)

theorem decodeSection_foot {fs : List PointField} {f : AField} (base step n : Nat) (input rest buf buf' : List Byte)
    (hf : ∃ p ∈ fs, f.offset = p.offset.toNat ∧ f.bpv = sizeOf p.type) (hb : 0 < f.bpv) (hst : 0 < step)
    (hL : buf.length < 2 ^ 64) (hn : n ≤ buf.length)
    (h : decodeSection f base step n input buf = .ok (rest, buf')) : Foot fs step base n buf buf' := by
  unfold decodeSection at h
  split at h
  · simp at h
  split at h
  · exact decodeDeltas_foot base step n n 0 _ _ _ _ _ hf (by omega) h
  split at h
  · rw [Res.bind_eq_ok] at h
    obtain ⟨⟨c, i1⟩, _, h⟩ := h
    simp only at h
    split at h
    · simp at h
    rw [Res.bind_eq_ok] at h
    obtain ⟨⟨pal, i2⟩, _, h⟩ := h
    simp only at h
    split at h
    · simp at h
    rw [Res.bind_eq_ok] at h
    obtain ⟨b1, h1, h⟩ := h
    simp only [Res.ok.injEq, Prod.mk.injEq] at h
    rw [← h.2]
    exact decodePalette_foot base step _ n n 0 _ _ _ _ _ _ hf (by omega) h1
  split at h
  · rw [Res.bind_eq_ok] at h
    obtain ⟨⟨c, i1⟩, _, h⟩ := h
    simp only at h
    rw [Res.bind_eq_ok] at h
    obtain ⟨⟨o, i2, b1⟩, h1, h⟩ := h
    simp only at h
    split at h
    · simp at h
    simp only [Res.ok.injEq, Prod.mk.injEq] at h
    rw [← h.2]
    exact decodeRle_foot base step n _ 0 _ _ _ _ _ hf hb hst hL hn (by omega) h1
  split at h
  · rw [Res.bind_eq_ok] at h
    obtain ⟨⟨c, i1⟩, _, h⟩ := h
    simp only at h
    rw [Res.bind_eq_ok] at h
    obtain ⟨⟨o, i2, b1⟩, h1, h⟩ := h
    simp only at h
    split at h
    · simp at h
    simp only [Res.ok.injEq, Prod.mk.injEq] at h
    rw [← h.2]
    exact decodeDeltaRle_foot base step n _ 0 _ _ _ _ _ _ hf hb hst hL hn (by omega) h1
  · simp at h

theorem decodeSections_foot {fs : List PointField} (as : List AField) (base step n : Nat) (input rest buf buf' : List Byte)
    (hf : ∀ f ∈ as, ∃ p ∈ fs, f.offset = p.offset.toNat ∧ f.bpv = sizeOf p.type) (hb : ∀ f ∈ as, 0 < f.bpv) (hst : 0 < step)
    (hL : buf.length < 2 ^ 64) (hn : n ≤ buf.length)
    (h : decodeSections base step n as input buf = .ok (rest, buf')) : Foot fs step base n buf buf' := by
  induction as generalizing input buf with
  | nil =>
    simp only [decodeSections, Res.ok.injEq, Prod.mk.injEq] at h
    rw [h.2]; exact .refl ..
  | cons f as ih =>
    simp only [decodeSections] at h
    rw [Res.bind_eq_ok] at h
    obtain ⟨⟨i1, b1⟩, h1, h⟩ := h
    have e := decodeSection_foot base step n _ _ _ _ (hf f (by simp)) (hb f (by simp)) hst hL hn h1
    exact e.trans (ih i1 b1 (fun x hx => hf x (by simp [hx])) (fun x hx => hb x (by simp [hx])) (by rw [e.1]; exact hL) (by rw [e.1]; exact hn) h)

/-! ### decoders of an info -/

theorem createDecoder_spots (F : FloatOps) (info : EncodingInfo) (f : PointField) (d : Dec) (h : createDecoder F info f = .ok d) :
    ∀ sp ∈ d.spots, sp = (f.offset.toNat, sizeOf f.type) := by
  unfold createDecoder at h
  simp only at h
  split at h
  all_goals next ht =>
    try simp only [mkLossy32Dec, mkLossy64Dec] at h
    repeat' split at h
    all_goals first
      | (simp only [Res.ok.injEq] at h; subst h; simp [Dec.spots, sizeOf, ht])
      | simp at h

theorem buildAll_spots (F : FloatOps) (info : EncodingInfo) (fs : List PointField) (ds : List Dec)
    (h : buildAll (createDecoder F info) fs = .ok ds) : SpotsIn fs ds := by
  induction fs generalizing ds with
  | nil => simp only [buildAll, Res.ok.injEq] at h; subst h; intro d hd; simp at hd
  | cons f fs ih =>
    simp only [buildAll] at h
    rw [Res.bind_eq_ok] at h
    obtain ⟨d, h1, h⟩ := h
    rw [Res.bind_eq_ok] at h
    obtain ⟨ds1, h2, h⟩ := h
    simp only [Res.ok.injEq] at h
    subst h
    intro x hx sp hsp hk
    simp only [List.mem_cons] at hx
    rcases hx with rfl | hx
    · exact ⟨f, by simp, createDecoder_spots F info f _ h1 sp hsp⟩
    · obtain ⟨g, hg, e⟩ := ih ds1 h2 x hx sp hsp hk
      exact ⟨g, by simp [hg], e⟩

theorem SpotsIn.mono {fs gs : List PointField} {ds : List Dec} (h : SpotsIn fs ds) (hs : ∀ f ∈ fs, f ∈ gs) : SpotsIn gs ds := by
  intro d hd sp hsp hk
  obtain ⟨f, hf, e⟩ := h d hd sp hsp hk
  exact ⟨f, hs f hf, e⟩

theorem SpotsIn.append {fs : List PointField} {ds es : List Dec} (h : SpotsIn fs ds) (h' : SpotsIn fs es) : SpotsIn fs (ds ++ es) := by
  intro d hd
  rw [List.mem_append] at hd
  rcases hd with hd | hd
  · exact h d hd
  · exact h' d hd

theorem leadingDecoder_spots (F : FloatOps) (info : EncodingInfo) (ds : List Dec) (h : leadingDecoder F info = .ok ds) :
    SpotsIn info.fields ds := by
  unfold leadingDecoder at h
  simp only at h
  split at h
  · simp only [Res.ok.injEq] at h; subst h; intro d hd; simp at hd
  · rw [Res.bind_eq_ok] at h
    obtain ⟨d, h1, h⟩ := h
    simp only [Res.ok.injEq] at h
    subst h
    unfold mkFloatNDec at h1
    split at h1
    · simp at h1
    simp only [Res.ok.injEq] at h1
    subst h1
    intro x hx sp hsp hk
    simp only [List.mem_singleton] at hx
    subst hx
    simp only [Dec.spots, lanesOf, List.map_map, List.mem_map] at hsp
    obtain ⟨f, hf, rfl⟩ := hsp
    refine ⟨f, List.mem_of_mem_take hf, ?_⟩
    simp only [Function.comp, Prod.mk.injEq, true_and]
    rw [(leadCount_take info f hf).2.1]; rfl

theorem buildDecoders_spots (F : FloatOps) (info : EncodingInfo) (ds : List Dec) (m : Nat) (h : buildDecoders F info = .ok (ds, m)) :
    SpotsIn info.fields ds := by
  unfold buildDecoders at h
  split at h
  · rw [Res.bind_eq_ok] at h
    obtain ⟨ds1, h1, h⟩ := h
    simp only [Res.ok.injEq, Prod.mk.injEq] at h
    obtain ⟨rfl, rfl⟩ := h
    unfold buildV5Decoders at h1
    rw [Res.bind_eq_ok] at h1
    obtain ⟨l, h2, h1⟩ := h1
    rw [Res.bind_eq_ok] at h1
    obtain ⟨r, h3, h1⟩ := h1
    simp only [Res.ok.injEq] at h1
    subst h1
    exact (leadingDecoder_spots F info l h2).append ((buildAll_spots F info _ r h3).mono fun f hf =>
      List.mem_of_mem_drop (List.mem_filter.1 hf).1)
  · unfold buildV4Decoders at h
    split at h
    · simp only [Res.ok.injEq, Prod.mk.injEq] at h
      obtain ⟨rfl, rfl⟩ := h
      intro d hd sp hsp _
      simp only [List.mem_map] at hd
      obtain ⟨f, hf, rfl⟩ := hd
      simp only [Dec.spots, List.mem_singleton] at hsp
      exact ⟨f, hf, hsp⟩
    · rw [Res.bind_eq_ok] at h
      obtain ⟨l, h2, h1⟩ := h
      rw [Res.bind_eq_ok] at h1
      obtain ⟨r, h3, h1⟩ := h1
      simp only [Res.ok.injEq, Prod.mk.injEq] at h1
      obtain ⟨rfl, rfl⟩ := h1
      exact (leadingDecoder_spots F info l h2).append ((buildAll_spots F info _ r h3).mono fun f hf =>
        List.mem_of_mem_drop hf)

theorem adaptive_declared (info : EncodingInfo) : ∀ f ∈ getAdaptiveFields info,
    (∃ p ∈ info.fields, f.offset = p.offset.toNat ∧ f.bpv = sizeOf p.type) ∧ 0 < f.bpv := by
  intro f hf
  unfold getAdaptiveFields at hf
  split at hf
  · simp only [List.mem_map] at hf
    obtain ⟨p, hp, rfl⟩ := hf
    rw [List.mem_filter] at hp
    refine ⟨⟨p, List.mem_of_mem_drop hp.1, rfl, rfl⟩, ?_⟩
    have := hp.2
    simp only [mkAField]
    cases hpt : p.type <;> simp_all [isAdaptiveType, sizeOf]
  · simp at hf

/-! ### whole payloads -/

theorem decodeChunk_foot (F : FloatOps) (C : Compressor) (fuel : Nat) (info : EncodingInfo) (ds ds' : List Dec) (m : Nat)
    (chunk buf buf' : List Byte) (base base' n : Nat) (fs : List PointField) (hs : SpotsIn fs ds)
    (ha : usesV5 info = true → ∀ f ∈ getAdaptiveFields info, ∃ p ∈ fs, f.offset = p.offset.toNat ∧ f.bpv = sizeOf p.type) (hst : 0 < info.point_step.toNat)
    (hL : buf.length < 2 ^ 64) (hn : 0 < n)
    (h : decodeChunk F C fuel info ds m chunk buf base n = .ok (ds', buf', base')) :
    SpotsIn fs ds' ∧ Foot fs info.point_step.toNat base n buf buf' ∧ base' = base + n * info.point_step.toNat := by
  unfold decodeChunk at h
  rw [Res.bind_eq_ok] at h
  obtain ⟨view, _, h⟩ := h
  split at h
  · next hv =>
    unfold decodeV5Chunk at h
    rw [if_neg (by omega)] at h
    split at h
    · simp at h
    next hroom =>
    rw [Res.bind_eq_ok] at h
    obtain ⟨⟨ds1, i1, b1⟩, h1, h⟩ := h
    simp only at h
    rw [Res.bind_eq_ok] at h
    obtain ⟨⟨i2, b2⟩, h2, h⟩ := h
    simp only at h
    split at h
    · simp at h
    simp only [Res.ok.injEq, Prod.mk.injEq] at h
    obtain ⟨rfl, rfl, rfl⟩ := h
    obtain ⟨e1, e2⟩ := decodePointsV5_foot F fs _ n _ _ _ _ _ _ base (spotsIn_reset hs) h1
    have hmul : n * 1 ≤ n * info.point_step.toNat := Nat.mul_le_mul_left _ hst
    have e3 := decodeSections_foot (fs := fs) (getAdaptiveFields info) base _ n _ _ _ _ (ha hv)
      (fun f hf => (adaptive_declared info f hf).2) hst (by rw [e2.1]; exact hL) (by rw [e2.1]; omega) h2
    exact ⟨e1, e2.trans e3, rfl⟩
  · unfold decodeV4Chunk at h
    simp only at h
    rw [if_pos hn] at h
    rw [Res.bind_eq_ok] at h
    obtain ⟨⟨ds1, i1, b1, p1⟩, h1, h⟩ := h
    simp only [Res.ok.injEq, Prod.mk.injEq] at h
    obtain ⟨rfl, rfl, rfl⟩ := h
    exact decodePointsV4_foot F fs _ _ n _ _ _ _ _ _ base _ (spotsIn_reset hs) h1

theorem decodeLoop_foot (F : FloatOps) (C : Compressor) (info : EncodingInfo) (m points : Nat) (ds : List Dec) (data buf buf' : List Byte)
    (base : Nat) (fs : List PointField) (hs : SpotsIn fs ds)
    (ha : usesV5 info = true → ∀ f ∈ getAdaptiveFields info, ∃ p ∈ fs, f.offset = p.offset.toNat ∧ f.bpv = sizeOf p.type) (hst : 0 < info.point_step.toNat) (hL : buf.length < 2 ^ 64)
    (h : decodeLoop F C info m points ds data buf base = .ok buf') : Foot fs info.point_step.toNat base points buf buf' := by
  induction points using Nat.strongRecOn generalizing ds data buf base with
  | ind points ih =>
    unfold decodeLoop at h
    split at h
    · split at h
      · simp at h
      · simp only [Res.ok.injEq] at h; rw [h]; exact .refl ..
    split at h
    · simp at h
    next hp =>
    rw [Res.bind_eq_ok] at h
    obtain ⟨⟨sz, d1⟩, _, h⟩ := h
    simp only at h
    split at h
    · simp at h
    rw [Res.bind_eq_ok] at h
    obtain ⟨⟨ds1, b1, base1⟩, h1, h⟩ := h
    simp only at h
    have hK := pos_K
    generalize hnn : min points kPointsPerChunk = n at *
    obtain ⟨e1, e2, rfl⟩ := decodeChunk_foot F C 0 info ds ds1 m _ buf b1 base base1 n fs hs ha hst hL (by omega) h1
    have e3 := ih (points - n) (by omega) ds1 _ b1 _ e1 (by rw [e2.1]; exact hL) h
    have := e2.append e3
    rw [show n + (points - n) = points from by omega] at this
    exact this

end Cloudini
