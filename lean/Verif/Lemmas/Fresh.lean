import Verif.Lemmas.Unfold
import Verif.Lemmas.Footprint

/-!
# What an accepted payload writes does not depend on what the buffer held before
-/

namespace Cloudini

/-- Same length, same bytes at the positions in `S`. -/
def SameOn (S : Nat → Prop) (a b : List Byte) : Prop := a.length = b.length ∧ ∀ p, S p → a[p]? = b[p]?

theorem SameOn.mono {S T : Nat → Prop} {a b : List Byte} (h : SameOn S a b) (hst : ∀ p, T p → S p) : SameOn T a b :=
  ⟨h.1, fun p hp => h.2 p (hst p hp)⟩

/-- Position `p` belongs to the field at `off` (`sz` bytes) of one of the points `lo ≤ j < hi`. -/
def Cov (base step off sz lo hi p : Nat) : Prop :=
  ∃ j, lo ≤ j ∧ j < hi ∧ base + j * step + off ≤ p ∧ p < base + j * step + off + sz

theorem Cov.split {base step off sz lo mid hi p : Nat} (h : Cov base step off sz lo hi p) :
    Cov base step off sz lo mid p ∨ Cov base step off sz mid hi p := by
  obtain ⟨j, h1, h2, h3, h4⟩ := h
  by_cases hj : j < mid
  · exact .inl ⟨j, h1, hj, h3, h4⟩
  · exact .inr ⟨j, by omega, h2, h3, h4⟩

theorem splice_in {a : List Byte} {pos : Nat} {bs : List Byte} (h : pos + bs.length ≤ a.length) (p : Nat) :
    (splice a pos bs)[p]? = if pos ≤ p ∧ p < pos + bs.length then bs[p - pos]? else a[p]? := by
  unfold splice
  have hl : (a.take pos).length = pos := by rw [List.length_take]; omega
  rw [List.append_assoc, List.getElem?_append, hl]
  split
  · rw [if_neg (by omega), List.getElem?_take, if_pos (by omega)]
  · rw [List.getElem?_append]
    split
    · rw [if_pos (by omega)]
    · rw [if_neg (by omega), List.getElem?_drop]
      congr 1; omega

theorem writeAt_agree {S : Nat → Prop} {a b a' bs : List Byte} {pos : Nat} (hs : SameOn S a b) (h : writeAt a pos bs = .ok a') :
    ∃ b', writeAt b pos bs = .ok b' ∧ SameOn (fun p => S p ∨ (pos ≤ p ∧ p < pos + bs.length)) a' b' := by
  unfold writeAt at h ⊢
  split at h
  · next hr =>
    simp only [Res.ok.injEq] at h
    subst h
    have hb : pos + bs.length ≤ b.length := by rw [← hs.1]; exact hr
    rw [if_pos hb]
    refine ⟨_, rfl, ?_, ?_⟩
    · have := hs.1
      simp only [splice, List.length_append, List.length_take, List.length_drop]; omega
    · intro p hp
      rw [splice_in hr, splice_in hb]
      split
      · rfl
      · next hn =>
        rcases hp with hp | hp
        · exact hs.2 p hp
        · exact absurd hp hn
  · simp at h

theorem applyWrites_agree {S : Nat → Prop} {a b a' : List Byte} {base : Nat} {ws : List Write} (hs : SameOn S a b)
    (h : applyWrites a base ws = .ok a') :
    ∃ b', applyWrites b base ws = .ok b' ∧
      SameOn (fun p => S p ∨ ∃ w ∈ ws, base + w.1 ≤ p ∧ p < base + w.1 + w.2.length) a' b' := by
  induction ws generalizing S a b with
  | nil =>
    simp only [applyWrites, Res.ok.injEq] at h ⊢
    subst h
    exact ⟨b, rfl, hs.mono fun p hp => by simpa using hp⟩
  | cons w ws ih =>
    simp only [applyWrites] at h ⊢
    obtain ⟨a1, h1, h⟩ := Res.bind_eq_ok.1 h
    obtain ⟨b1, e1, hs1⟩ := writeAt_agree hs h1
    obtain ⟨b', e2, hs2⟩ := ih hs1 h
    refine ⟨b', by rw [e1]; exact e2, hs2.mono fun p hp => ?_⟩
    rcases hp with hp | ⟨x, hx, hp⟩
    · exact .inl (.inl hp)
    · simp only [List.mem_cons] at hx
      rcases hx with rfl | hx
      · exact .inl (.inr hp)
      · exact .inr ⟨x, hx, hp⟩

theorem store_covers {o : Nat} {v : List Byte} (h : o ≠ kDecodeButSkipStore) : (o, v) ∈ store o v := by
  unfold store; rw [if_neg h]; simp

theorem lanes_cover (F : FloatOps) (ls ls' : List Lane) (input rest : List Byte) (ws : List Write)
    (h : lanesDecode F ls input = .ok (ls', ws, rest)) :
    ∀ sp ∈ (ls.map fun l => (l.off, 4)), sp.1 ≠ kDecodeButSkipStore → ∃ w ∈ ws, w.1 = sp.1 ∧ w.2.length = sp.2 := by
  induction ls generalizing ls' input rest ws with
  | nil => simp
  | cons l ls ih =>
    simp only [lanesDecode] at h
    obtain ⟨⟨l1, v, i1⟩, h1, h⟩ := Res.bind_eq_ok.1 h
    obtain ⟨⟨ls1, ws1, i2⟩, h2, h⟩ := Res.bind_eq_ok.1 h
    simp only [Res.ok.injEq, Prod.mk.injEq] at h
    obtain ⟨rfl, rfl, rfl⟩ := h
    intro sp hsp hk
    simp only [List.map_cons, List.mem_cons] at hsp
    rcases hsp with rfl | hsp
    · exact ⟨(l.off, toLE 4 v.toNat), by simp [store_covers hk], rfl, by simp⟩
    · obtain ⟨w, hw, e⟩ := ih _ _ _ _ h2 sp hsp hk
      exact ⟨w, by simp [hw], e⟩

/-- A successful field decoder writes every byte of its field, unless told to skip it. -/
theorem step_covers (F : FloatOps) (d d' : Dec) (input rest : List Byte) (ws : List Write)
    (h : d.step F input = .ok (d', ws, rest)) :
    ∀ sp ∈ d.spots, sp.1 ≠ kDecodeButSkipStore → ∃ w ∈ ws, w.1 = sp.1 ∧ w.2.length = sp.2 := by
  have key : ∀ (o s : Nat) (v : List Byte), v.length = s → ∀ sp ∈ [(o, s)], sp.1 ≠ kDecodeButSkipStore →
      ∃ w ∈ store o v, w.1 = sp.1 ∧ w.2.length = sp.2 := by
    intro o s v hv sp hsp hk
    simp only [List.mem_singleton] at hsp
    subst hsp
    exact ⟨(o, v), store_covers hk, rfl, hv⟩
  cases d with
  | copy o s =>
    simp only [Dec.step] at h
    intro sp hsp hk
    simp only [Dec.spots, List.mem_singleton] at hsp
    subst hsp
    rw [if_pos hk] at h
    split at h
    · next hs =>
      simp only [Res.ok.injEq, Prod.mk.injEq] at h
      obtain ⟨rfl, rfl, rfl⟩ := h
      exact ⟨(o, input.take s), by simp, rfl, by simp [hs]⟩
    · simp at h
  | int o s prev =>
    simp only [Dec.step] at h
    obtain ⟨⟨a, b⟩, _, h⟩ := Res.bind_eq_ok.1 h
    obtain ⟨v, _, h⟩ := Res.bind_eq_ok.1 h
    simp only [Res.ok.injEq, Prod.mk.injEq] at h
    obtain ⟨rfl, rfl, rfl⟩ := h
    exact key _ _ _ (by simp)
  | lossy32 o r prev =>
    simp only [Dec.step] at h
    split at h
    · simp at h
    split at h
    · simp only [Res.ok.injEq, Prod.mk.injEq] at h
      obtain ⟨rfl, rfl, rfl⟩ := h
      exact key _ _ _ (by simp)
    · obtain ⟨⟨a, b⟩, _, h⟩ := Res.bind_eq_ok.1 h
      obtain ⟨v, _, h⟩ := Res.bind_eq_ok.1 h
      simp only [Res.ok.injEq, Prod.mk.injEq] at h
      obtain ⟨rfl, rfl, rfl⟩ := h
      exact key _ _ _ (by simp)
  | lossy64 o r prev =>
    simp only [Dec.step] at h
    split at h
    · simp at h
    split at h
    · simp only [Res.ok.injEq, Prod.mk.injEq] at h
      obtain ⟨rfl, rfl, rfl⟩ := h
      exact key _ _ _ (by simp)
    · obtain ⟨⟨a, b⟩, _, h⟩ := Res.bind_eq_ok.1 h
      obtain ⟨v, _, h⟩ := Res.bind_eq_ok.1 h
      simp only [Res.ok.injEq, Prod.mk.injEq] at h
      obtain ⟨rfl, rfl, rfl⟩ := h
      exact key _ _ _ (by simp)
  | xor o s prev =>
    simp only [Dec.step] at h
    split at h
    · simp only [Res.ok.injEq, Prod.mk.injEq] at h
      obtain ⟨rfl, rfl, rfl⟩ := h
      exact key _ _ _ (by simp)
    · simp at h
  | gorilla o s st =>
    simp only [Dec.step] at h
    obtain ⟨⟨a, b, c⟩, _, h⟩ := Res.bind_eq_ok.1 h
    simp only [Res.ok.injEq, Prod.mk.injEq] at h
    obtain ⟨rfl, rfl, rfl⟩ := h
    exact key _ _ _ (by simp)
  | floatN ls =>
    simp only [Dec.step] at h
    split at h
    · simp at h
    · obtain ⟨⟨a, b, c⟩, h1, h⟩ := Res.bind_eq_ok.1 h
      simp only [Res.ok.injEq, Prod.mk.injEq] at h
      obtain ⟨rfl, rfl, rfl⟩ := h
      exact lanes_cover F _ _ _ _ _ h1

/-- The places the decoders store to. -/
def spotsOf (ds : List Dec) : List (Nat × Nat) := ds.flatMap Dec.spots

/-- Position `p` is stored to by one of the decoders at a point `lo ≤ j < hi`. -/
def CovD (ds : List Dec) (base step lo hi p : Nat) : Prop :=
  ∃ sp ∈ spotsOf ds, sp.1 ≠ kDecodeButSkipStore ∧ Cov base step sp.1 sp.2 lo hi p

theorem decodeFields_agree (F : FloatOps) {S : Nat → Prop} (step base : Nat) (ds ds' : List Dec) (input rest a b a' : List Byte)
    (hs : SameOn S a b) (h : decodeFields F ds input a base = .ok (ds', rest, a')) :
    spotsOf ds' = spotsOf ds ∧ ∃ b', decodeFields F ds input b base = .ok (ds', rest, b') ∧
      SameOn (fun p => S p ∨ CovD ds base step 0 1 p) a' b' := by
  induction ds generalizing S ds' input a b with
  | nil =>
    simp only [decodeFields, Res.ok.injEq, Prod.mk.injEq] at h ⊢
    obtain ⟨rfl, rfl, rfl⟩ := h
    exact ⟨rfl, b, ⟨rfl, rfl, rfl⟩, hs.mono fun p hp => by simpa [CovD, spotsOf] using hp⟩
  | cons d ds ih =>
    simp only [decodeFields] at h ⊢
    obtain ⟨⟨d1, ws, i1⟩, h1, h⟩ := Res.bind_eq_ok.1 h
    obtain ⟨a1, h2, h⟩ := Res.bind_eq_ok.1 h
    obtain ⟨⟨ds1, i2, a2⟩, h3, h⟩ := Res.bind_eq_ok.1 h
    simp only [Res.ok.injEq, Prod.mk.injEq] at h
    obtain ⟨rfl, rfl, rfl⟩ := h
    have hsp := (step_spots F _ _ _ _ _ h1).1
    have hcov := step_covers F _ _ _ _ _ h1
    obtain ⟨b1, e1, hs1⟩ := applyWrites_agree hs h2
    obtain ⟨es, b2, e2, hs2⟩ := ih ds1 i1 a1 b1 hs1 h3
    refine ⟨by simp only [spotsOf, List.flatMap_cons] at es ⊢; rw [hsp, es], b2, ?_, hs2.mono fun p hp => ?_⟩
    · rw [h1]; simp only [Res.ok_bind]; rw [e1]; simp only [Res.ok_bind]; rw [e2]; rfl
    · rcases hp with hp | ⟨sp, hm, hk, hc⟩
      · exact .inl (.inl hp)
      · simp only [spotsOf, List.flatMap_cons, List.mem_append] at hm
        rcases hm with hm | hm
        · obtain ⟨w, hw, e1, e2⟩ := hcov sp hm hk
          obtain ⟨j, _, hj, h4, h5⟩ := hc
          obtain rfl : j = 0 := by omega
          refine .inl (.inr ⟨w, hw, ?_, ?_⟩) <;> rw [e1] <;> try rw [e2]
          all_goals omega
        · exact .inr ⟨sp, hm, hk, hc⟩

theorem Cov.shift {base step off sz n p : Nat} (h : Cov base step off sz 1 (n + 1) p) : Cov (base + step) step off sz 0 n p := by
  obtain ⟨j, h1, h2, h3, h4⟩ := h
  obtain ⟨k, rfl⟩ : ∃ k, j = k + 1 := ⟨j - 1, by omega⟩
  rw [Nat.succ_mul] at h3 h4
  exact ⟨k, by omega, by omega, by omega, by omega⟩

theorem CovD.step {ds ds' : List Dec} {base step n p : Nat} (he : spotsOf ds' = spotsOf ds) (h : CovD ds base step 0 (n + 1) p) :
    CovD ds base step 0 1 p ∨ CovD ds' (base + step) step 0 n p := by
  obtain ⟨sp, hm, hk, hc⟩ := h
  rcases hc.split (mid := 1) with hc | hc
  · exact .inl ⟨sp, hm, hk, hc⟩
  · exact .inr ⟨sp, by rw [he]; exact hm, hk, hc.shift⟩

theorem decodePointsV4_agree (F : FloatOps) {S : Nat → Prop} (min step n : Nat) (ds ds' : List Dec) (input rest a b a' : List Byte)
    (base base' : Nat) (hs : SameOn S a b) (h : decodePointsV4 F min step n ds input a base = .ok (ds', rest, a', base')) :
    spotsOf ds' = spotsOf ds ∧ base' = base + n * step ∧ ∃ b', decodePointsV4 F min step n ds input b base = .ok (ds', rest, b', base') ∧
      SameOn (fun p => S p ∨ CovD ds base step 0 n p) a' b' := by
  induction n generalizing S ds input a b base with
  | zero =>
    simp only [decodePointsV4, Res.ok.injEq, Prod.mk.injEq] at h ⊢
    obtain ⟨rfl, rfl, rfl, rfl⟩ := h
    refine ⟨rfl, by simp, b, ⟨rfl, rfl, rfl, rfl⟩, hs.mono fun p hp => ?_⟩
    rcases hp with hp | ⟨_, _, _, j, _, hj, _⟩
    · exact hp
    · omega
  | succ n ih =>
    simp only [decodePointsV4] at h ⊢
    split at h
    · simp at h
    next hin =>
    split at h
    · simp at h
    next hroom =>
    obtain ⟨⟨ds1, i1, a1⟩, h1, h⟩ := Res.bind_eq_ok.1 h
    obtain ⟨es, b1, e1, hs1⟩ := decodeFields_agree F step base _ _ _ _ _ _ _ hs h1
    obtain ⟨es', hb, b2, e2, hs2⟩ := ih ds1 i1 a1 b1 _ hs1 h
    refine ⟨es'.trans es, by rw [hb, Nat.succ_mul]; omega, b2, ?_, hs2.mono fun p hp => ?_⟩
    · rw [if_neg hin, if_neg (by rw [← hs.1]; exact hroom), e1]
      exact e2
    · rcases hp with hp | hp
      · exact .inl (.inl hp)
      · rcases hp.step es with hp | hp
        · exact .inl (.inr hp)
        · exact .inr hp

theorem decodePointsV5_agree (F : FloatOps) {S : Nat → Prop} (step n : Nat) (ds ds' : List Dec) (input rest a b a' : List Byte)
    (base : Nat) (hs : SameOn S a b) (h : decodePointsV5 F step n ds input a base = .ok (ds', rest, a')) :
    spotsOf ds' = spotsOf ds ∧ ∃ b', decodePointsV5 F step n ds input b base = .ok (ds', rest, b') ∧
      SameOn (fun p => S p ∨ CovD ds base step 0 n p) a' b' := by
  induction n generalizing S ds input a b base with
  | zero =>
    simp only [decodePointsV5, Res.ok.injEq, Prod.mk.injEq] at h ⊢
    obtain ⟨rfl, rfl, rfl⟩ := h
    refine ⟨rfl, b, ⟨rfl, rfl, rfl⟩, hs.mono fun p hp => ?_⟩
    rcases hp with hp | ⟨_, _, _, j, _, hj, _⟩
    · exact hp
    · omega
  | succ n ih =>
    simp only [decodePointsV5] at h ⊢
    obtain ⟨⟨ds1, i1, a1⟩, h1, h⟩ := Res.bind_eq_ok.1 h
    obtain ⟨es, b1, e1, hs1⟩ := decodeFields_agree F step base _ _ _ _ _ _ _ hs h1
    obtain ⟨es', b2, e2, hs2⟩ := ih ds1 i1 a1 b1 _ hs1 h
    refine ⟨es'.trans es, b2, by rw [e1]; exact e2, hs2.mono fun p hp => ?_⟩
    rcases hp with hp | hp
    · exact .inl (.inl hp)
    · rcases hp.step es with hp | hp
      · exact .inl (.inr hp)
      · exact .inr hp

/-! ### adaptive sections -/

theorem writeValue_agree {S : Nat → Prop} {base step i : Nat} {f : AField} {v : BitVec 64} {a b a' : List Byte} (hs : SameOn S a b)
    (h : writeValue a base step f i v = .ok a') :
    ∃ b', writeValue b base step f i v = .ok b' ∧ SameOn (fun p => S p ∨ Cov base step f.offset f.bpv i (i + 1) p) a' b' := by
  unfold writeValue at h ⊢
  obtain ⟨b', e, hs'⟩ := writeAt_agree hs h
  refine ⟨b', e, hs'.mono fun p hp => ?_⟩
  rcases hp with hp | ⟨j, h1, h2, h3, h4⟩
  · exact .inl hp
  · obtain rfl : j = i := by omega
    exact .inr ⟨by omega, by rw [toLE_length]; omega⟩

theorem Cov.none {base step off sz i p : Nat} : ¬ Cov base step off sz i i p := by
  rintro ⟨j, h1, h2, _⟩; omega

theorem decodeDeltas_agree {S : Nat → Prop} {f : AField} (base step k i : Nat) (prev : BitVec 64) (input rest a b a' : List Byte)
    (hs : SameOn S a b) (h : decodeDeltas f base step k i prev input a = .ok (rest, a')) :
    ∃ b', decodeDeltas f base step k i prev input b = .ok (rest, b') ∧
      SameOn (fun p => S p ∨ Cov base step f.offset f.bpv i (i + k) p) a' b' := by
  induction k generalizing S i prev input a b with
  | zero =>
    simp only [decodeDeltas, Res.ok.injEq, Prod.mk.injEq] at h ⊢
    obtain ⟨rfl, rfl⟩ := h
    exact ⟨b, ⟨rfl, rfl⟩, hs.mono fun p hp => hp.resolve_right Cov.none⟩
  | succ k ih =>
    simp only [decodeDeltas] at h ⊢
    obtain ⟨⟨d, c⟩, h1, h⟩ := Res.bind_eq_ok.1 h
    obtain ⟨v, h2, h⟩ := Res.bind_eq_ok.1 h
    obtain ⟨a1, h3, h⟩ := Res.bind_eq_ok.1 h
    obtain ⟨b1, e1, hs1⟩ := writeValue_agree hs h3
    obtain ⟨b2, e2, hs2⟩ := ih _ _ _ _ _ hs1 h
    refine ⟨b2, ?_, hs2.mono fun p hp => ?_⟩
    · rw [h1]; simp only [Res.ok_bind]; rw [h2]; simp only [Res.ok_bind]; rw [e1]; exact e2
    · rcases hp with hp | hp
      · exact .inl (.inl hp)
      · rcases hp.split (mid := i + 1) with hp | hp
        · exact .inl (.inr hp)
        · exact .inr (by rw [show i + 1 + k = i + (k + 1) from by omega]; exact hp)

theorem decodePalette_agree {S : Nat → Prop} {f : AField} (base step bits k i : Nat) (pal : List (BitVec 64)) (ptr : List Byte)
    (scratch : BitVec 64) (held : Nat) (a b a' : List Byte)
    (hs : SameOn S a b) (h : decodePaletteIndexes f base step bits pal k i ptr scratch held a = .ok a') :
    ∃ b', decodePaletteIndexes f base step bits pal k i ptr scratch held b = .ok b' ∧
      SameOn (fun p => S p ∨ Cov base step f.offset f.bpv i (i + k) p) a' b' := by
  induction k generalizing S i ptr scratch held a b with
  | zero =>
    simp only [decodePaletteIndexes, Res.ok.injEq] at h ⊢
    subst h
    exact ⟨b, rfl, hs.mono fun p hp => hp.resolve_right Cov.none⟩
  | succ k ih =>
    simp only [decodePaletteIndexes] at h ⊢
    obtain ⟨⟨idx, ptr1, s1, held1⟩, h1, h⟩ := Res.bind_eq_ok.1 h
    simp only at h
    cases hp : pal[idx]? with
    | none => rw [hp] at h; simp at h
    | some v =>
      rw [hp] at h
      simp only at h
      obtain ⟨a1, h3, h⟩ := Res.bind_eq_ok.1 h
      obtain ⟨b1, e1, hs1⟩ := writeValue_agree hs h3
      obtain ⟨b2, e2, hs2⟩ := ih _ _ _ _ _ _ hs1 h
      refine ⟨b2, ?_, hs2.mono fun p hp => ?_⟩
      · rw [h1]; simp only [Res.ok_bind]; rw [hp]; simp only; rw [e1]; exact e2
      · rcases hp with hp | hp
        · exact .inl (.inl hp)
        · rcases hp.split (mid := i + 1) with hp | hp
          · exact .inl (.inr hp)
          · exact .inr (by rw [show i + 1 + k = i + (k + 1) from by omega]; exact hp)

theorem writeRun_agree {S : Nat → Prop} {f : AField} (base step k i : Nat) (v : BitVec 64) (a b a' : List Byte)
    (hs : SameOn S a b) (h : writeRun f base step v k i a = .ok a') :
    ∃ b', writeRun f base step v k i b = .ok b' ∧ SameOn (fun p => S p ∨ Cov base step f.offset f.bpv i (i + k) p) a' b' := by
  induction k generalizing S i a b with
  | zero =>
    simp only [writeRun, Res.ok.injEq] at h ⊢
    subst h
    exact ⟨b, rfl, hs.mono fun p hp => hp.resolve_right Cov.none⟩
  | succ k ih =>
    simp only [writeRun] at h ⊢
    obtain ⟨a1, h3, h⟩ := Res.bind_eq_ok.1 h
    obtain ⟨b1, e1, hs1⟩ := writeValue_agree hs h3
    obtain ⟨b2, e2, hs2⟩ := ih _ _ _ hs1 h
    refine ⟨b2, by rw [e1]; exact e2, hs2.mono fun p hp => ?_⟩
    rcases hp with hp | hp
    · exact .inl (.inl hp)
    · rcases hp.split (mid := i + 1) with hp | hp
      · exact .inl (.inr hp)
      · exact .inr (by rw [show i + 1 + k = i + (k + 1) from by omega]; exact hp)

theorem writeDeltaRun_agree {S : Nat → Prop} {f : AField} (base step k i : Nat) (d prev prev' : BitVec 64) (a b a' : List Byte)
    (hs : SameOn S a b) (h : writeDeltaRun f base step d k i prev a = .ok (prev', a')) :
    ∃ b', writeDeltaRun f base step d k i prev b = .ok (prev', b') ∧
      SameOn (fun p => S p ∨ Cov base step f.offset f.bpv i (i + k) p) a' b' := by
  induction k generalizing S i prev a b with
  | zero =>
    simp only [writeDeltaRun, Res.ok.injEq, Prod.mk.injEq] at h ⊢
    obtain ⟨rfl, rfl⟩ := h
    exact ⟨b, ⟨rfl, rfl⟩, hs.mono fun p hp => hp.resolve_right Cov.none⟩
  | succ k ih =>
    simp only [writeDeltaRun] at h ⊢
    obtain ⟨v, h2, h⟩ := Res.bind_eq_ok.1 h
    obtain ⟨a1, h3, h⟩ := Res.bind_eq_ok.1 h
    obtain ⟨b1, e1, hs1⟩ := writeValue_agree hs h3
    obtain ⟨b2, e2, hs2⟩ := ih _ _ _ _ hs1 h
    refine ⟨b2, by rw [h2]; simp only [Res.ok_bind]; rw [e1]; exact e2, hs2.mono fun p hp => ?_⟩
    rcases hp with hp | hp
    · exact .inl (.inl hp)
    · rcases hp.split (mid := i + 1) with hp | hp
      · exact .inl (.inr hp)
      · exact .inr (by rw [show i + 1 + k = i + (k + 1) from by omega]; exact hp)

theorem decodeRle_agree {S : Nat → Prop} {f : AField} (base step n runs i i' : Nat) (input rest a b a' : List Byte)
    (hs : SameOn S a b) (h : decodeRleRuns f base step n runs i input a = .ok (i', rest, a')) :
    i ≤ i' ∧ ∃ b', decodeRleRuns f base step n runs i input b = .ok (i', rest, b') ∧
      SameOn (fun p => S p ∨ Cov base step f.offset f.bpv i i' p) a' b' := by
  induction runs generalizing S i input a b with
  | zero =>
    simp only [decodeRleRuns, Res.ok.injEq, Prod.mk.injEq] at h ⊢
    obtain ⟨rfl, rfl, rfl⟩ := h
    exact ⟨by omega, b, ⟨rfl, rfl, rfl⟩, hs.mono fun p hp => hp.resolve_right Cov.none⟩
  | succ runs ih =>
    simp only [decodeRleRuns_succ] at h ⊢
    split at h
    · simp at h
    next hin =>
    rw [if_neg hin]
    obtain ⟨⟨r, i1⟩, h1, h⟩ := Res.bind_eq_ok.1 h
    simp only at h
    split at h
    · simp at h
    next hgt =>
    obtain ⟨a1, h2, h⟩ := Res.bind_eq_ok.1 h
    obtain ⟨b1, e1, hs1⟩ := writeRun_agree _ _ _ _ _ _ _ _ hs h2
    obtain ⟨hle, b2, e2, hs2⟩ := ih _ _ _ _ hs1 h
    refine ⟨by omega, b2, ?_, hs2.mono fun p hp => ?_⟩
    · rw [h1]; simp only [Res.ok_bind]; rw [if_neg hgt, e1]; exact e2
    · rcases hp with hp | hp
      · exact .inl (.inl hp)
      · rcases hp.split (mid := i + r.toNat) with hp | hp
        · exact .inl (.inr hp)
        · exact .inr hp

theorem decodeDeltaRle_agree {S : Nat → Prop} {f : AField} (base step n runs i i' : Nat) (prev : BitVec 64) (input rest a b a' : List Byte)
    (hs : SameOn S a b) (h : decodeDeltaRleRuns f base step n runs i prev input a = .ok (i', rest, a')) :
    i ≤ i' ∧ ∃ b', decodeDeltaRleRuns f base step n runs i prev input b = .ok (i', rest, b') ∧
      SameOn (fun p => S p ∨ Cov base step f.offset f.bpv i i' p) a' b' := by
  induction runs generalizing S i prev input a b with
  | zero =>
    simp only [decodeDeltaRleRuns, Res.ok.injEq, Prod.mk.injEq] at h ⊢
    obtain ⟨rfl, rfl, rfl⟩ := h
    exact ⟨by omega, b, ⟨rfl, rfl, rfl⟩, hs.mono fun p hp => hp.resolve_right Cov.none⟩
  | succ runs ih =>
    simp only [decodeDeltaRleRuns] at h ⊢
    obtain ⟨⟨d, c⟩, h0, h⟩ := Res.bind_eq_ok.1 h
    obtain ⟨⟨r, i1⟩, h1, h⟩ := Res.bind_eq_ok.1 h
    simp only at h
    split at h
    · simp at h
    next hgt =>
    obtain ⟨⟨p1, a1⟩, h2, h⟩ := Res.bind_eq_ok.1 h
    obtain ⟨b1, e1, hs1⟩ := writeDeltaRun_agree _ _ _ _ _ _ _ _ _ _ hs h2
    obtain ⟨hle, b2, e2, hs2⟩ := ih _ _ _ _ _ hs1 h
    refine ⟨by omega, b2, ?_, hs2.mono fun p hp => ?_⟩
    · rw [h0]; simp only [Res.ok_bind]; rw [h1]; simp only [Res.ok_bind]; rw [if_neg hgt, e1]; exact e2
    · rcases hp with hp | hp
      · exact .inl (.inl hp)
      · rcases hp.split (mid := i + r.toNat) with hp | hp
        · exact .inl (.inr hp)
        · exact .inr hp

theorem decodeSection_agree {S : Nat → Prop} {f : AField} (base step n : Nat) (input rest a b a' : List Byte)
    (hs : SameOn S a b) (h : decodeSection f base step n input a = .ok (rest, a')) :
    ∃ b', decodeSection f base step n input b = .ok (rest, b') ∧
      SameOn (fun p => S p ∨ Cov base step f.offset f.bpv 0 n p) a' b' := by
  cases input with
  | nil => simp [decodeSection] at h
  | cons m input =>
    simp only [decodeSection] at h ⊢
    by_cases h0 : m = 0#8
    · rw [if_pos h0] at h ⊢
      obtain ⟨b', e, hs'⟩ := decodeDeltas_agree _ _ _ _ _ _ _ _ _ _ hs h
      exact ⟨b', e, by simpa using hs'⟩
    rw [if_neg h0] at h ⊢
    by_cases h1 : m = 1#8
    · rw [if_pos h1] at h ⊢
      obtain ⟨⟨c, i1⟩, h2, h⟩ := Res.bind_eq_ok.1 h
      simp only at h
      rw [h2]
      simp only [Res.ok_bind]
      split at h
      · simp at h
      next hc =>
      rw [if_neg hc]
      obtain ⟨⟨pal, i2⟩, h3, h⟩ := Res.bind_eq_ok.1 h
      simp only at h
      rw [h3]
      simp only [Res.ok_bind]
      split at h
      · simp at h
      next hl =>
      rw [if_neg hl]
      obtain ⟨a1, h4, h⟩ := Res.bind_eq_ok.1 h
      simp only [Res.ok.injEq, Prod.mk.injEq] at h
      obtain ⟨rfl, rfl⟩ := h
      obtain ⟨b', e, hs'⟩ := decodePalette_agree _ _ _ _ _ _ _ _ _ _ _ _ hs h4
      exact ⟨b', by rw [e]; rfl, by simpa using hs'⟩
    rw [if_neg h1] at h ⊢
    by_cases h2 : m = 2#8
    · rw [if_pos h2] at h ⊢
      obtain ⟨⟨c, i1⟩, h2, h⟩ := Res.bind_eq_ok.1 h
      simp only at h
      rw [h2]
      simp only [Res.ok_bind]
      obtain ⟨⟨o, i2, a1⟩, h3, h⟩ := Res.bind_eq_ok.1 h
      simp only at h
      split at h
      · simp at h
      next ho =>
      simp only [Res.ok.injEq, Prod.mk.injEq] at h
      obtain ⟨rfl, rfl⟩ := h
      obtain ⟨_, b', e, hs'⟩ := decodeRle_agree _ _ _ _ _ _ _ _ _ _ _ hs h3
      have ho' : o = n := by simpa using ho
      refine ⟨b', ?_, by rw [← ho']; exact hs'⟩
      rw [e]; simp only [Res.ok_bind]; rw [if_neg ho]
    rw [if_neg h2] at h ⊢
    by_cases h3 : m = 3#8
    · rw [if_pos h3] at h ⊢
      obtain ⟨⟨c, i1⟩, h2, h⟩ := Res.bind_eq_ok.1 h
      simp only at h
      rw [h2]
      simp only [Res.ok_bind]
      obtain ⟨⟨o, i2, a1⟩, h3, h⟩ := Res.bind_eq_ok.1 h
      simp only at h
      split at h
      · simp at h
      next ho =>
      simp only [Res.ok.injEq, Prod.mk.injEq] at h
      obtain ⟨rfl, rfl⟩ := h
      obtain ⟨_, b', e, hs'⟩ := decodeDeltaRle_agree _ _ _ _ _ _ _ _ _ _ _ _ hs h3
      have ho' : o = n := by simpa using ho
      refine ⟨b', ?_, by rw [← ho']; exact hs'⟩
      rw [e]; simp only [Res.ok_bind]; rw [if_neg ho]
    · rw [if_neg h3] at h; simp at h

theorem decodeSections_agree {S : Nat → Prop} (as : List AField) (base step n : Nat) (input rest a b a' : List Byte)
    (hs : SameOn S a b) (h : decodeSections base step n as input a = .ok (rest, a')) :
    ∃ b', decodeSections base step n as input b = .ok (rest, b') ∧
      SameOn (fun p => S p ∨ ∃ f ∈ as, Cov base step f.offset f.bpv 0 n p) a' b' := by
  induction as generalizing S input a b with
  | nil =>
    simp only [decodeSections, Res.ok.injEq, Prod.mk.injEq] at h ⊢
    obtain ⟨rfl, rfl⟩ := h
    exact ⟨b, ⟨rfl, rfl⟩, hs.mono fun p hp => by simpa using hp⟩
  | cons f as ih =>
    simp only [decodeSections] at h ⊢
    obtain ⟨⟨i1, a1⟩, h1, h⟩ := Res.bind_eq_ok.1 h
    obtain ⟨b1, e1, hs1⟩ := decodeSection_agree _ _ _ _ _ _ _ _ hs h1
    obtain ⟨b2, e2, hs2⟩ := ih _ _ _ hs1 h
    refine ⟨b2, by rw [e1]; exact e2, hs2.mono fun p hp => ?_⟩
    rcases hp with hp | ⟨g, hg, hc⟩
    · exact .inl (.inl hp)
    · simp only [List.mem_cons] at hg
      rcases hg with rfl | hg
      · exact .inl (.inr hc)
      · exact .inr ⟨g, hg, hc⟩

/-! ### chunks and payloads -/

/-- Position `p` is stored to by the decoders or, in version 5, by a section. -/
def CovC (info : EncodingInfo) (ds : List Dec) (base lo hi p : Nat) : Prop :=
  CovD ds base info.point_step.toNat lo hi p ∨
    (usesV5 info = true ∧ ∃ f ∈ getAdaptiveFields info, Cov base info.point_step.toNat f.offset f.bpv lo hi p)

theorem spotsOf_reset (ds : List Dec) : spotsOf (ds.map Dec.reset) = spotsOf ds := by
  induction ds with
  | nil => rfl
  | cons d ds ih => simp only [spotsOf, List.map_cons, List.flatMap_cons] at ih ⊢; rw [ih, spots_reset]

theorem decodeChunk_agree (F : FloatOps) (C : Compressor) {S : Nat → Prop} (fuel : Nat) (info : EncodingInfo) (ds ds' : List Dec) (m : Nat)
    (chunk a b a' : List Byte) (base base' n : Nat) (hn : 0 < n) (hs : SameOn S a b)
    (h : decodeChunk F C fuel info ds m chunk a base n = .ok (ds', a', base')) :
    spotsOf ds' = spotsOf ds ∧ base' = base + n * info.point_step.toNat ∧
      ∃ b', decodeChunk F C fuel info ds m chunk b base n = .ok (ds', b', base') ∧
      SameOn (fun p => S p ∨ CovC info ds base 0 n p) a' b' := by
  unfold decodeChunk at h ⊢
  obtain ⟨view, h0, h⟩ := Res.bind_eq_ok.1 h
  rw [h0]
  simp only [Res.ok_bind]
  by_cases hv : usesV5 info = true
  · rw [if_pos hv] at h ⊢
    unfold decodeV5Chunk at h ⊢
    rw [if_neg (by omega)] at h ⊢
    split at h
    · simp at h
    next hroom =>
    rw [if_neg (by rw [← hs.1]; exact hroom)]
    obtain ⟨⟨ds1, i1, a1⟩, h1, h⟩ := Res.bind_eq_ok.1 h
    obtain ⟨⟨i2, a2⟩, h2, h⟩ := Res.bind_eq_ok.1 h
    simp only at h
    split at h
    · simp at h
    next hr =>
    simp only [Res.ok.injEq, Prod.mk.injEq] at h
    obtain ⟨rfl, rfl, rfl⟩ := h
    obtain ⟨es, b1, e1, hs1⟩ := decodePointsV5_agree F _ _ _ _ _ _ _ _ _ _ hs h1
    obtain ⟨b2, e2, hs2⟩ := decodeSections_agree _ _ _ _ _ _ _ _ _ hs1 h2
    refine ⟨by rw [es, spotsOf_reset], rfl, b2, ?_, hs2.mono fun p hp => ?_⟩
    · rw [e1]; simp only [Res.ok_bind]; rw [e2]; simp only [Res.ok_bind]; rw [if_neg hr]
    · rcases hp with hp | hp | ⟨_, hp⟩
      · exact .inl (.inl hp)
      · refine .inl (.inr ?_)
        unfold CovD at hp ⊢
        rw [spotsOf_reset]; exact hp
      · exact .inr hp
  · rw [if_neg hv] at h ⊢
    unfold decodeV4Chunk at h ⊢
    simp only at h ⊢
    rw [if_pos hn] at h ⊢
    obtain ⟨⟨ds1, i1, a1, base1⟩, h1, h⟩ := Res.bind_eq_ok.1 h
    simp only [Res.ok.injEq, Prod.mk.injEq] at h
    obtain ⟨rfl, rfl, rfl⟩ := h
    obtain ⟨es, hb, b1, e1, hs1⟩ := decodePointsV4_agree F _ _ _ _ _ _ _ _ _ _ _ _ hs h1
    refine ⟨by rw [es, spotsOf_reset], hb, b1, by rw [e1]; rfl, hs1.mono fun p hp => ?_⟩
    rcases hp with hp | hp | ⟨h5, _⟩
    · exact .inl hp
    · refine .inr ?_
      unfold CovD at hp ⊢
      rw [spotsOf_reset]; exact hp
    · exact absurd h5 hv

theorem CovC.step {info : EncodingInfo} {ds ds' : List Dec} {base n k p : Nat} (he : spotsOf ds' = spotsOf ds)
    (h : CovC info ds base 0 (n + k) p) :
    CovC info ds base 0 n p ∨ CovC info ds' (base + n * info.point_step.toNat) 0 k p := by
  have hsh : ∀ off sz, Cov base info.point_step.toNat off sz n (n + k) p → Cov (base + n * info.point_step.toNat) info.point_step.toNat off sz 0 k p := by
    rintro off sz ⟨j, h1, h2, h3, h4⟩
    obtain ⟨i, rfl⟩ : ∃ i, j = n + i := ⟨j - n, by omega⟩
    rw [Nat.add_mul] at h3 h4
    exact ⟨i, by omega, by omega, by omega, by omega⟩
  rcases h with ⟨sp, hm, hk, hc⟩ | ⟨h5, f, hf, hc⟩
  · rcases hc.split (mid := n) with hc | hc
    · exact .inl (.inl ⟨sp, hm, hk, hc⟩)
    · exact .inr (.inl ⟨sp, by rw [he]; exact hm, hk, hsh _ _ hc⟩)
  · rcases hc.split (mid := n) with hc | hc
    · exact .inl (.inr ⟨h5, f, hf, hc⟩)
    · exact .inr (.inr ⟨h5, f, hf, hsh _ _ hc⟩)

theorem decodeLoop_agree (F : FloatOps) (C : Compressor) (info : EncodingInfo) (m points : Nat) : ∀ {S : Nat → Prop} (ds : List Dec)
    (data a b a' : List Byte) (base : Nat), SameOn S a b → decodeLoop F C info m points ds data a base = .ok a' →
    ∃ b', decodeLoop F C info m points ds data b base = .ok b' ∧ SameOn (fun p => S p ∨ CovC info ds base 0 points p) a' b' := by
  induction points using Nat.strongRecOn with
  | _ points ih =>
    intro S ds data a b a' base hs h
    rw [decodeLoop] at h ⊢
    split at h
    · next hd =>
      rw [if_pos hd]
      split at h
      · simp at h
      · next hp =>
        simp only [Res.ok.injEq] at h
        subst h
        have hp : points = 0 := by simpa using hp
        subst hp
        rw [if_neg (by simp)]
        refine ⟨b, rfl, hs.mono fun p hp => ?_⟩
        rcases hp with hp | ⟨_, _, _, j, _, hj, _⟩ | ⟨_, _, _, j, _, hj, _⟩
        · exact hp
        · omega
        · omega
    · next hd =>
      rw [if_neg hd]
      split at h
      · simp at h
      next hp =>
      rw [dif_neg hp]
      obtain ⟨⟨sz, d1⟩, h0, h⟩ := Res.bind_eq_ok.1 h
      rw [h0]
      simp only [Res.ok_bind] at h ⊢
      split at h
      · simp at h
      next hsz =>
      rw [if_neg hsz]
      obtain ⟨⟨ds1, a1, base1⟩, h1, h⟩ := Res.bind_eq_ok.1 h
      simp only at h
      have hK := pos_K
      generalize hnn : min points kPointsPerChunk = n at *
      obtain ⟨es, rfl, b1, e1, hs1⟩ := decodeChunk_agree F C 0 info ds ds1 m _ a b a1 base base1 n (by omega) hs h1
      obtain ⟨b2, e2, hs2⟩ := ih (points - n) (by omega) ds1 _ a1 b1 a' _ hs1 h
      refine ⟨b2, by rw [e1]; exact e2, hs2.mono fun p hp => ?_⟩
      rcases hp with hp | hp
      · exact .inl (.inl hp)
      · rw [show points = n + (points - n) from by omega] at hp
        rcases hp.step es with hp | hp
        · exact .inl (.inr hp)
        · exact .inr hp

/-! ### the decoders cover the declared fields -/

theorem createDecoder_has_spot (F : FloatOps) (info : EncodingInfo) (f : PointField) (d : Dec) (h : createDecoder F info f = .ok d) :
    (f.offset.toNat, sizeOf f.type) ∈ d.spots := by
  unfold createDecoder at h
  simp only at h
  split at h
  all_goals next ht =>
    try simp only [mkLossy32Dec, mkLossy64Dec] at h
    repeat' split at h
    all_goals first
      | (simp only [Res.ok.injEq] at h; subst h; simp [Dec.spots, sizeOf, ht])
      | simp at h

theorem buildAll_has_spots (F : FloatOps) (info : EncodingInfo) (fs : List PointField) (ds : List Dec)
    (h : buildAll (createDecoder F info) fs = .ok ds) : ∀ f ∈ fs, (f.offset.toNat, sizeOf f.type) ∈ spotsOf ds := by
  induction fs generalizing ds with
  | nil => simp
  | cons f fs ih =>
    simp only [buildAll] at h
    obtain ⟨d, h1, h⟩ := Res.bind_eq_ok.1 h
    obtain ⟨ds1, h2, h⟩ := Res.bind_eq_ok.1 h
    simp only [Res.ok.injEq] at h
    subst h
    intro g hg
    simp only [spotsOf, List.flatMap_cons, List.mem_append]
    simp only [List.mem_cons] at hg
    rcases hg with rfl | hg
    · exact .inl (createDecoder_has_spot F info _ _ h1)
    · exact .inr (ih ds1 h2 g hg)

theorem leadingDecoder_has_spots (F : FloatOps) (info : EncodingInfo) (ds : List Dec) (h : leadingDecoder F info = .ok ds) :
    ∀ f ∈ info.fields.take (leadingLossyFloatCount info), (f.offset.toNat, sizeOf f.type) ∈ spotsOf ds := by
  unfold leadingDecoder at h
  simp only at h
  split at h
  · next h0 => rw [h0]; simp
  · obtain ⟨d, h1, h⟩ := Res.bind_eq_ok.1 h
    simp only [Res.ok.injEq] at h
    subst h
    unfold mkFloatNDec at h1
    split at h1
    · simp at h1
    simp only [Res.ok.injEq] at h1
    subst h1
    intro f hf
    simp only [spotsOf, List.flatMap_cons, List.flatMap_nil, List.append_nil, Dec.spots, lanesOf, List.map_map, List.mem_map]
    refine ⟨f, hf, ?_⟩
    simp only [Function.comp, Prod.mk.injEq, true_and]
    rw [(leadCount_take info f hf).2.1]; rfl

theorem spotsOf_append (a b : List Dec) : spotsOf (a ++ b) = spotsOf a ++ spotsOf b := by simp [spotsOf]

theorem buildDecoders_cover (F : FloatOps) (info : EncodingInfo) (ds : List Dec) (m : Nat) (h : buildDecoders F info = .ok (ds, m))
    (f : PointField) (hf : f ∈ info.fields) : (f.offset.toNat, sizeOf f.type) ∈ spotsOf ds ∨
      (usesV5 info = true ∧ ∃ g ∈ getAdaptiveFields info, g.offset = f.offset.toNat ∧ g.bpv = sizeOf f.type) := by
  have hsplit : f ∈ info.fields.take (leadingLossyFloatCount info) ∨ f ∈ info.fields.drop (leadingLossyFloatCount info) := by
    rw [← List.mem_append, List.take_append_drop]; exact hf
  unfold buildDecoders at h
  by_cases hv : usesV5 info = true
  · rw [if_pos hv] at h
    obtain ⟨ds1, h1, h⟩ := Res.bind_eq_ok.1 h
    simp only [Res.ok.injEq, Prod.mk.injEq] at h
    obtain ⟨rfl, rfl⟩ := h
    unfold buildV5Decoders at h1
    obtain ⟨l, h2, h1⟩ := Res.bind_eq_ok.1 h1
    obtain ⟨r, h3, h1⟩ := Res.bind_eq_ok.1 h1
    simp only [Res.ok.injEq] at h1
    subst h1
    rw [spotsOf_append, List.mem_append]
    rcases hsplit with hm | hm
    · exact .inl (.inl (leadingDecoder_has_spots F info l h2 f hm))
    · by_cases ha : isAdaptiveType f.type = true
      · refine .inr ⟨hv, mkAField f, ?_, rfl, rfl⟩
        have hl : info.encoding_opt = .lossy := by
          unfold usesV5 at hv
          simp only [Bool.and_eq_true, decide_eq_true_eq] at hv
          exact hv.1.2
        unfold getAdaptiveFields
        rw [if_pos hl]
        exact List.mem_map_of_mem (List.mem_filter.2 ⟨hm, ha⟩)
      · exact .inl (.inr (buildAll_has_spots F info _ r h3 f (List.mem_filter.2 ⟨hm, by simpa using ha⟩)))
  · rw [if_neg hv] at h
    unfold buildV4Decoders at h
    split at h
    · simp only [Res.ok.injEq, Prod.mk.injEq] at h
      obtain ⟨rfl, rfl⟩ := h
      refine .inl ?_
      simp only [spotsOf, List.mem_flatMap, List.mem_map]
      exact ⟨_, ⟨f, hf, rfl⟩, by simp [Dec.spots]⟩
    · obtain ⟨l, h2, h1⟩ := Res.bind_eq_ok.1 h
      obtain ⟨r, h3, h1⟩ := Res.bind_eq_ok.1 h1
      simp only [Res.ok.injEq, Prod.mk.injEq] at h1
      obtain ⟨rfl, rfl⟩ := h1
      rw [spotsOf_append, List.mem_append]
      rcases hsplit with hm | hm
      · exact .inl (.inl (leadingDecoder_has_spots F info l h2 f hm))
      · exact .inl (.inr (buildAll_has_spots F info _ r h3 f hm))

end Cloudini
