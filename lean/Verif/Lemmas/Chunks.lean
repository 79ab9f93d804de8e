import Verif.Lemmas.Points

/-! The regular (per-point) part of a chunk. -/

namespace Cloudini

/-- Absolute writes for `n` consecutive points, the first at `base`. -/
def pointsWrites (F : FloatOps) (step : Nat) (es : List Enc) (ds : List Dec) (dstep : Nat) :
    Nat → List Byte → Nat → List Write
  | 0, _, _ => []
  | n + 1, mem, base =>
    shiftWrites base (pointWrites F mem es ds) ++ pointsWrites F step es ds dstep n (mem.drop step) (base + dstep)

theorem pointsWrites_congr (F : FloatOps) (step dstep : Nat) {es es' : List Enc} {ds ds' : List Dec}
    (he : es.map Enc.reset = es'.map Enc.reset) (hd : ds.map Dec.reset = ds'.map Dec.reset) (n : Nat)
    (mem : List Byte) (base : Nat) :
    pointsWrites F step es ds dstep n mem base = pointsWrites F step es' ds' dstep n mem base := by
  induction n generalizing mem base with
  | zero => rfl
  | succ n ih => simp only [pointsWrites, ih, pointWrites_congr F mem he hd]

/-- The encoders applied to `n` points, no tests (the common core of V4 and V5). -/
def encodeCore (F : FloatOps) (step : Nat) : Nat → List Enc → List Byte → W → Res (List Enc × W)
  | 0, es, _, w => .ok (es, w)
  | n + 1, es, mem, w => do
    let (es, w) ← encodeFields F mem es w
    encodeCore F step n es (mem.drop step) w

/-- The memory of the point before point `i`, when the points start after `pm`. -/
def prevMem (pm : Option (List Byte)) (step : Nat) (mem : List Byte) : Nat → Option (List Byte)
  | 0 => pm
  | i + 1 => some (mem.drop (i * step))

theorem prevMem_succ (pm : Option (List Byte)) (step : Nat) (mem : List Byte) (i : Nat) :
    prevMem (some mem) step (mem.drop step) i = prevMem pm step mem (i + 1) := by
  cases i with
  | zero => simp [prevMem]
  | succ i =>
    simp only [prevMem, List.drop_drop]
    rw [Nat.add_mul, Nat.one_mul, Nat.add_comm step]

theorem core_roundtrip (F : FloatOps) (step dstep n : Nat) (es : List Enc) (ds : List Dec) (pm : Option (List Byte)) (mem : List Byte) (w : W)
    (hm : MatchAll es ds) (hg : ∀ i, i < n → GoodAll F (prevMem pm step mem i) (mem.drop (i * step)) es)
    (hp : ∀ e ∈ es, e.PrevIs F pm)
    (hroom : n * sumMax es ≤ w.room) :
    ∃ es' bs ds', encodeCore F step n es mem w = .ok (es', ⟨w.out ++ bs, w.room - bs.length⟩) ∧
      MatchAll es' ds' ∧
      es'.map Enc.reset = es.map Enc.reset ∧ ds'.map Dec.reset = ds.map Dec.reset ∧ bs.length ≤ n * sumMax es ∧
      (∀ rest buf base buf', applyWrites buf 0 (pointsWrites F step es ds dstep n mem base) = .ok buf' →
        decodePointsV5 F dstep n ds (bs ++ rest) buf base = .ok (ds', rest, buf')) ∧
      (∀ min rest buf base buf', min ≤ sumMin ds → base + n * dstep ≤ buf.length →
        applyWrites buf 0 (pointsWrites F step es ds dstep n mem base) = .ok buf' →
        decodePointsV4 F min dstep n ds (bs ++ rest) buf base = .ok (ds', rest, buf', base + n * dstep)) := by
  induction n generalizing es ds pm mem w with
  | zero =>
    refine ⟨es, [], ds, by simp [encodeCore], hm, rfl, rfl, by simp, ?_, ?_⟩
    · intro rest buf base buf' h
      simp only [pointsWrites, applyWrites, Res.ok.injEq] at h
      subst h; rfl
    · intro min rest buf base buf' _ _ h
      simp only [pointsWrites, applyWrites, Res.ok.injEq] at h
      subst h; simp [decodePointsV4]
  | succ n ih =>
    have hsucc : (n + 1) * sumMax es = n * sumMax es + sumMax es := by rw [Nat.add_mul, Nat.one_mul]
    rw [hsucc] at hroom
    obtain ⟨es1, b1, ds1, f1, f2, f3, f4, f5, f6, f7, f8⟩ :=
      fields_roundtrip F pm mem es ds w hm (by simpa [prevMem] using hg 0 (by omega)) hp (by omega)
    have hs1 : sumMax es1 = sumMax es := by rw [← sumMax_reset es1, f4, sumMax_reset]
    have hsm : sumMin ds1 = sumMin ds := by rw [← sumMin_reset ds1, f5, sumMin_reset]
    obtain ⟨es2, b2, ds2, c1, c3, c4, c5, c6, c7, c8⟩ :=
      ih es1 ds1 (some mem) (mem.drop step) ⟨w.out ++ b1, w.room - b1.length⟩ f3
        (fun i hi => by
          rw [List.drop_drop, prevMem_succ pm]
          have := hg (i + 1) (by omega)
          rw [show (i + 1) * step = step + i * step from by rw [Nat.add_mul, Nat.one_mul, Nat.add_comm]] at this
          exact goodAll_congr f4.symm this) f2 (by rw [hs1]; simp only; omega)
    rw [hs1] at c6
    refine ⟨es2, b1 ++ b2, ds2, ?_, c3, c4.trans f4, c5.trans f5, ?_, ?_, ?_⟩
    · simp only [encodeCore, f1, Res.ok_bind, c1]
      simp only [List.append_assoc, List.length_append, Nat.sub_sub]
    · rw [List.length_append]; omega
    · intro rest buf base buf' h
      simp only [pointsWrites] at h
      rw [applyWrites_append, Res.bind_eq_ok] at h
      obtain ⟨bf, h1, h2⟩ := h
      rw [← applyWrites_shift] at h1
      rw [← pointsWrites_congr F step dstep f4 f5] at h2
      rw [List.append_assoc]
      simp only [decodePointsV5, f8 (b2 ++ rest) buf base bf h1, Res.ok_bind]
      exact c7 rest bf (base + dstep) buf' h2
    · intro min rest buf base buf' hmin hbuf h
      simp only [pointsWrites] at h
      rw [applyWrites_append, Res.bind_eq_ok] at h
      obtain ⟨bf, h1, h2⟩ := h
      rw [← applyWrites_shift] at h1
      rw [← pointsWrites_congr F step dstep f4 f5] at h2
      have hd : (n + 1) * dstep = n * dstep + dstep := by rw [Nat.add_mul, Nat.one_mul]
      rw [hd] at hbuf ⊢
      rw [List.append_assoc]
      simp only [decodePointsV4]
      rw [if_neg (by rw [List.length_append]; omega), if_neg (by omega)]
      simp only [f8 (b2 ++ rest) buf base bf h1, Res.ok_bind]
      have hlen := applyWrites_length h1
      rw [c8 min rest bf (base + dstep) buf' (by omega) (by omega) h2]
      rw [show base + dstep + n * dstep = base + (n * dstep + dstep) from by omega]

/-- The V4 loop stops at the end of the cloud or after `n` points. -/
theorem encodePoints_core (F : FloatOps) (step n k : Nat) (es : List Enc) (mem : List Byte) (w : W)
    (hstep : 0 < step) (hk : k ≤ n) (hmem : k * step ≤ mem.length) (hend : k < n → mem.length = k * step) :
    encodePoints F step n es mem w =
      (encodeCore F step k es mem w >>= fun r => .ok (r.1, mem.drop (k * step), r.2)) := by
  induction k generalizing n es mem w with
  | zero =>
    cases n with
    | zero => simp [encodePoints, encodeCore]
    | succ n =>
      have : mem.length = 0 := by simpa using hend (by omega)
      simp [encodePoints, encodeCore, this]
  | succ k ih =>
    cases n with
    | zero => omega
    | succ n =>
      have hs : (k + 1) * step = k * step + step := by rw [Nat.add_mul, Nat.one_mul]
      rw [hs] at hmem hend ⊢
      simp only [encodePoints, encodeCore]
      rw [if_neg (by omega), Res.bind_assoc]
      congr 1
      funext r
      obtain ⟨es1, w1⟩ := r
      simp only
      rw [if_pos (by omega), ih n es1 (mem.drop step) w1 (by omega) (by rw [List.length_drop]; omega)
        (fun h => by rw [List.length_drop, hend (by omega)]; omega)]
      congr 1
      funext r
      rw [List.drop_drop, Nat.add_comm step]

/-- V5: the regular encoders and the adaptive fields do not interact. -/
def collectCore (step : Nat) : Nat → List AField → List Byte → Res (List AField)
  | 0, as, _ => .ok as
  | n + 1, as, mem => do
    let as ← mapFields (fun f => collectValue f mem) as
    collectCore step n as (mem.drop step)

theorem encodeRangeV5_core (F : FloatOps) (step n : Nat) (es es' : List Enc) (as as' : List AField)
    (mem : List Byte) (w w' : W) (h1 : encodeCore F step n es mem w = .ok (es', w'))
    (h2 : collectCore step n as mem = .ok as') :
    encodeRangeV5 F step n es as mem w = .ok (es', as', mem.drop (n * step), w') := by
  induction n generalizing es as mem w with
  | zero =>
    simp only [encodeCore, Res.ok.injEq, Prod.mk.injEq, collectCore] at h1 h2
    obtain ⟨rfl, rfl⟩ := h1
    subst h2
    simp [encodeRangeV5]
  | succ n ih =>
    simp only [encodeCore] at h1
    simp only [collectCore] at h2
    rw [Res.bind_eq_ok] at h1 h2
    obtain ⟨⟨es1, w1⟩, p1, p2⟩ := h1
    obtain ⟨as1, q1, q2⟩ := h2
    simp only at p2
    simp only [encodeRangeV5, p1, q1, Res.ok_bind]
    rw [ih es1 as1 (mem.drop step) w1 p2 q2, List.drop_drop, Nat.add_mul, Nat.one_mul, Nat.add_comm step]

theorem encodeCore_add (F : FloatOps) (step a b : Nat) (es : List Enc) (mem : List Byte) (w : W) :
    encodeCore F step (a + b) es mem w =
      (encodeCore F step a es mem w >>= fun r => encodeCore F step b r.1 (mem.drop (a * step)) r.2) := by
  induction a generalizing es mem w with
  | zero => simp [encodeCore]
  | succ a ih =>
    rw [Nat.succ_add]
    simp only [encodeCore]
    rw [Res.bind_assoc]
    congr 1
    funext r
    rw [ih, List.drop_drop, Nat.add_mul, Nat.one_mul, Nat.add_comm step]

end Cloudini
