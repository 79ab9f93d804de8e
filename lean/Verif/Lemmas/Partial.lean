import Verif.Model.Partial
import Verif.Lemmas.Unfold
import Verif.Lemmas.Base
import Verif.Lemmas.Footprint
import Verif.Lemmas.Framing

/-! The decoder with the output as a state (`Model/Partial`) and the decoder of `Model/Cloud`. -/

namespace Cloudini.Partial

/-- Outcome and output of a success agree. -/
def Same {α β : Type} (mk : α → List Byte → β) (g : List Byte → Res β) (t : Tr α) : Prop :=
  ∀ b, g b = (t b).2 >>= fun x => .ok (mk x (t b).1)

theorem bind_def {α β : Type} (t : Tr α) (k : α → Tr β) (b : List Byte) : (t >>= k) b = Tr.bind t k b := rfl

theorem bind_ok {α β : Type} {t : Tr α} {k : α → Tr β} {b : List Byte} {x : α} (h : (t b).2 = .ok x) : (t >>= k) b = k x (t b).1 := by
  rw [bind_def]; unfold Tr.bind; rw [h]

theorem bind_throw {α β : Type} {t : Tr α} {k : α → Tr β} {b : List Byte} {e : String} (h : (t b).2 = .throw e) :
    (t >>= k) b = ((t b).1, .throw e) := by
  rw [bind_def]; unfold Tr.bind; rw [h]

theorem bind_ub {α β : Type} {t : Tr α} {k : α → Tr β} {b : List Byte} {u : UB} (h : (t b).2 = .ub u) : (t >>= k) b = ((t b).1, .ub u) := by
  rw [bind_def]; unfold Tr.bind; rw [h]

theorem Same.pure {α β : Type} {mk : α → List Byte → β} (x : α) : Same mk (fun b => .ok (mk x b)) (Pure.pure x) := fun _ => rfl

theorem Same.throw {α β : Type} {mk : α → List Byte → β} (e : String) : Same mk (fun _ => .throw e) (fail e) := fun _ => rfl

theorem Same.ub {α β : Type} {mk : α → List Byte → β} (u : UB) : Same mk (fun _ => .ub u) (lift (.ub u)) := fun _ => rfl

theorem Same.bind {α β γ δ : Type} {mk : α → List Byte → β} {mk' : γ → List Byte → δ} {g : List Byte → Res β} {k : β → Res δ}
    {t : Tr α} {k' : α → Tr γ} (hg : Same mk g t) (hk : ∀ x, Same mk' (fun b => k (mk x b)) (k' x)) :
    Same mk' (fun b => g b >>= k) (t >>= k') := by
  intro b
  show (g b >>= k) = _
  rw [hg b]
  cases h : (t b).2 with
  | ok x => rw [bind_ok h]; simp only [Res.ok_bind]; exact hk x _
  | throw e => rw [bind_throw h]; rfl
  | ub u => rw [bind_ub h]; rfl

theorem Same.let_ {α β γ : Type} {mk : α → List Byte → β} {e : Res γ} {k : γ → List Byte → Res β} {k' : γ → Tr α}
    (hk : ∀ x, e = .ok x → Same mk (k x) (k' x)) : Same mk (fun b => e >>= fun x => k x b) (lift e >>= k') := by
  intro b
  cases e with
  | ok x => exact hk x rfl b
  | throw e => rfl
  | ub u => rfl

theorem Same.ite {α β : Type} {mk : α → List Byte → β} {p : Prop} [Decidable p] {g h : List Byte → Res β} {t s : Tr α}
    (hg : p → Same mk g t) (hh : ¬ p → Same mk h s) : Same mk (fun b => if p then g b else h b) (if p then t else s) := by
  by_cases hp : p
  · simp only [if_pos hp]; exact hg hp
  · simp only [if_neg hp]; exact hh hp

theorem Same.len {α β : Type} {mk : α → List Byte → β} {p : Nat → Prop} [DecidablePred p] {g h : List Byte → Res β} {t s : Tr α}
    (hg : Same mk g t) (hh : Same mk h s) :
    Same mk (fun b => if p b.length then g b else h b) (size >>= fun n => if p n then t else s) := by
  intro b
  show (if p b.length then g b else h b) = _
  rw [bind_ok (x := b.length) rfl]
  by_cases hp : p b.length
  · simp only [if_pos hp]; exact hg b
  · simp only [if_neg hp]; exact hh b

theorem Same.congr {α β : Type} {mk : α → List Byte → β} {g g' : List Byte → Res β} {t : Tr α} (h : Same mk g t) (e : ∀ b, g' b = g b) :
    Same mk g' t := fun b => by rw [e b]; exact h b

/-! ### the functions of the decoder -/

theorem put_same (pos : Nat) (bs : List Byte) : Same (fun _ b => b) (fun b => writeAt b pos bs) (put pos bs) := by
  intro b
  unfold put
  by_cases h : pos + bs.length ≤ b.length
  · simp only [if_pos h, Res.ok_bind]; exact writeAt_eq_ok.2 ⟨h, rfl⟩
  · simp only [if_neg h, Res.ub_bind]; unfold writeAt; rw [if_neg h]

theorem puts_same (base : Nat) (ws : List Write) : Same (fun _ b => b) (fun b => applyWrites b base ws) (puts base ws) := by
  induction ws with
  | nil => exact Same.pure (mk := fun (_ : Unit) b => b) ()
  | cons w ws ih => exact (put_same (base + w.1) w.2).bind fun _ => ih

theorem fields_same (F : FloatOps) (base : Nat) (ds : List Dec) (input : List Byte) :
    Same (fun x b => (x.1, x.2, b)) (fun b => decodeFields F ds input b base) (fields F ds input base) := by
  induction ds generalizing input with
  | nil => exact Same.pure (mk := fun (x : List Dec × List Byte) b => (x.1, x.2, b)) ([], input)
  | cons d ds ih =>
    refine Same.let_ fun x _ => ?_
    obtain ⟨d', ws, input'⟩ := x
    refine (puts_same base ws).bind fun _ => ?_
    refine (ih input').bind fun y => ?_
    exact Same.pure (mk := fun (x : List Dec × List Byte) b => (x.1, x.2, b)) (d' :: y.1, y.2)

theorem pointsV4_same (F : FloatOps) (min step n : Nat) (ds : List Dec) (input : List Byte) (base : Nat) :
    Same (fun x b => (x.1, x.2.1, b, x.2.2)) (fun b => decodePointsV4 F min step n ds input b base) (pointsV4 F min step n ds input base) := by
  induction n generalizing ds input base with
  | zero => exact Same.pure (mk := fun (x : List Dec × List Byte × Nat) b => (x.1, x.2.1, b, x.2.2)) (ds, input, base)
  | succ n ih =>
    refine Same.ite (fun _ => Same.throw _) fun _ => ?_
    refine Same.len (p := fun l => l - base < step) (Same.throw _) ?_
    exact (fields_same F base ds input).bind fun y => ih y.1 y.2 (base + step)

theorem untilEmptyV4_same (F : FloatOps) (min step fuel : Nat) (ds : List Dec) (input : List Byte) (base : Nat) :
    Same (fun x b => (x.1, x.2.1, b, x.2.2)) (fun b => decodeUntilEmptyV4 F min step fuel ds input b base)
      (untilEmptyV4 F min step fuel ds input base) := by
  induction fuel generalizing ds input base with
  | zero =>
    refine Same.ite (fun _ => ?_) fun _ => Same.ub _
    exact Same.pure (mk := fun (x : List Dec × List Byte × Nat) b => (x.1, x.2.1, b, x.2.2)) (ds, input, base)
  | succ n ih =>
    refine Same.ite (fun _ => ?_) fun _ => ?_
    · exact Same.pure (mk := fun (x : List Dec × List Byte × Nat) b => (x.1, x.2.1, b, x.2.2)) (ds, input, base)
    refine Same.ite (fun _ => Same.throw _) fun _ => ?_
    refine Same.len (p := fun l => l - base < step) (Same.throw _) ?_
    exact (fields_same F base ds input).bind fun y => ih y.1 y.2 (base + step)

theorem chunkV4_same (F : FloatOps) (fuel : Nat) (ds : List Dec) (min step expected : Nat) (input : List Byte) (base : Nat) :
    Same (fun x b => (x.1, b, x.2)) (fun b => decodeV4Chunk F fuel ds min step expected input b base)
      (chunkV4 F fuel ds min step expected input base) := by
  unfold decodeV4Chunk chunkV4
  refine Same.ite (fun _ => ?_) fun _ => ?_
  · refine (pointsV4_same F min step expected (ds.map Dec.reset) input base).bind fun y => ?_
    exact Same.pure (mk := fun (x : List Dec × Nat) b => (x.1, b, x.2)) (y.1, y.2.2)
  · refine (untilEmptyV4_same F min step fuel (ds.map Dec.reset) input base).bind fun y => ?_
    exact Same.pure (mk := fun (x : List Dec × Nat) b => (x.1, b, x.2)) (y.1, y.2.2)

theorem value_same (base step : Nat) (f : AField) (i : Nat) (v : BitVec 64) :
    Same (fun _ b => b) (fun b => writeValue b base step f i v) (value base step f i v) := put_same _ _

theorem deltas_same (f : AField) (base step n i : Nat) (prev : BitVec 64) (input : List Byte) :
    Same (fun x b => (x, b)) (fun b => decodeDeltas f base step n i prev input b) (deltas f base step n i prev input) := by
  induction n generalizing i prev input with
  | zero => exact Same.pure (mk := fun (x : List Byte) b => (x, b)) input
  | succ n ih =>
    refine Same.let_ fun x _ => ?_
    refine Same.let_ fun v _ => ?_
    exact (value_same base step f i v).bind fun _ => ih (i + 1) v _

theorem paletteIndexes_same (f : AField) (base step bits : Nat) (palette : List (BitVec 64)) (n i : Nat) (ptr : List Byte)
    (scratch : BitVec 64) (held : Nat) :
    Same (fun _ b => b) (fun b => decodePaletteIndexes f base step bits palette n i ptr scratch held b)
      (paletteIndexes f base step bits palette n i ptr scratch held) := by
  induction n generalizing i ptr scratch held with
  | zero => exact Same.pure (mk := fun (_ : Unit) b => b) ()
  | succ n ih =>
    refine Same.let_ fun x _ => ?_
    obtain ⟨idx, ptr', scratch', held'⟩ := x
    simp only
    cases hv : palette[idx]? with
    | none => exact (Same.throw _)
    | some v => exact (value_same base step f i v).bind (mk' := fun (_ : Unit) b => b) fun _ => ih (i + 1) ptr' scratch' held'

theorem run_same (f : AField) (base step : Nat) (v : BitVec 64) (k i : Nat) :
    Same (fun _ b => b) (fun b => writeRun f base step v k i b) (run f base step v k i) := by
  induction k generalizing i with
  | zero => exact Same.pure (mk := fun (_ : Unit) b => b) ()
  | succ k ih => exact (value_same base step f i v).bind fun _ => ih (i + 1)

theorem rleRuns_same (f : AField) (base step expected r i : Nat) (input : List Byte) :
    Same (fun x b => (x.1, x.2, b)) (fun b => decodeRleRuns f base step expected r i input b) (rleRuns f base step expected r i input) := by
  induction r generalizing i input with
  | zero => exact Same.pure (mk := fun (x : Nat × List Byte) b => (x.1, x.2, b)) (i, input)
  | succ r ih =>
    refine Same.ite (fun _ => Same.throw _) fun _ => ?_
    refine Same.let_ fun bs _ => ?_
    refine Same.let_ fun x _ => ?_
    refine Same.ite (fun _ => Same.throw _) fun _ => ?_
    exact (run_same f base step _ _ i).bind fun _ => ih _ _

theorem deltaRun_same (f : AField) (base step : Nat) (d : BitVec 64) (k i : Nat) (prev : BitVec 64) :
    Same (fun x b => (x, b)) (fun b => writeDeltaRun f base step d k i prev b) (deltaRun f base step d k i prev) := by
  induction k generalizing i prev with
  | zero => exact Same.pure (mk := fun (x : BitVec 64) b => (x, b)) prev
  | succ k ih =>
    refine Same.let_ fun v _ => ?_
    exact (value_same base step f i v).bind fun _ => ih (i + 1) v

theorem deltaRleRuns_same (f : AField) (base step expected r i : Nat) (prev : BitVec 64) (input : List Byte) :
    Same (fun x b => (x.1, x.2, b)) (fun b => decodeDeltaRleRuns f base step expected r i prev input b)
      (deltaRleRuns f base step expected r i prev input) := by
  induction r generalizing i prev input with
  | zero => exact Same.pure (mk := fun (x : Nat × List Byte) b => (x.1, x.2, b)) (i, input)
  | succ r ih =>
    refine Same.let_ fun x _ => ?_
    refine Same.let_ fun y _ => ?_
    refine Same.ite (fun _ => Same.throw _) fun _ => ?_
    exact (deltaRun_same f base step _ _ i prev).bind fun z => ih _ z _

theorem section_same (f : AField) (base step expected : Nat) (input : List Byte) :
    Same (fun x b => (x, b)) (fun b => decodeSection f base step expected input b) (section_ f base step expected input) := by
  cases input with
  | nil => exact Same.throw _
  | cons m input =>
    refine Same.ite (fun _ => deltas_same f base step expected 0 0#64 input) fun _ => ?_
    refine Same.ite (fun _ => ?_) fun _ => ?_
    · refine Same.let_ fun x _ => ?_
      refine Same.ite (fun _ => Same.throw _) fun _ => ?_
      refine Same.let_ fun y _ => ?_
      refine Same.ite (fun _ => Same.throw _) fun _ => ?_
      refine (paletteIndexes_same f base step _ y.1 expected 0 y.2 0#64 0).bind fun _ => ?_
      exact Same.pure (mk := fun (x : List Byte) b => (x, b)) _
    refine Same.ite (fun _ => ?_) fun _ => ?_
    · refine Same.let_ fun x _ => ?_
      refine (rleRuns_same f base step expected x.1 0 x.2).bind fun y => ?_
      refine Same.ite (fun _ => Same.throw _) fun _ => ?_
      exact Same.pure (mk := fun (x : List Byte) b => (x, b)) _
    refine Same.ite (fun _ => ?_) fun _ => Same.throw _
    · refine Same.let_ fun x _ => ?_
      refine (deltaRleRuns_same f base step expected x.1 0 0#64 x.2).bind fun y => ?_
      refine Same.ite (fun _ => Same.throw _) fun _ => ?_
      exact Same.pure (mk := fun (x : List Byte) b => (x, b)) _

theorem sections_same (base step expected : Nat) (as : List AField) (input : List Byte) :
    Same (fun x b => (x, b)) (fun b => decodeSections base step expected as input b) (sections base step expected as input) := by
  induction as generalizing input with
  | nil => exact Same.pure (mk := fun (x : List Byte) b => (x, b)) input
  | cons f as ih => exact (section_same f base step expected input).bind fun x => ih x

theorem pointsV5_same (F : FloatOps) (step n : Nat) (ds : List Dec) (input : List Byte) (base : Nat) :
    Same (fun x b => (x.1, x.2, b)) (fun b => decodePointsV5 F step n ds input b base) (pointsV5 F step n ds input base) := by
  induction n generalizing ds input base with
  | zero => exact Same.pure (mk := fun (x : List Dec × List Byte) b => (x.1, x.2, b)) (ds, input)
  | succ n ih => exact (fields_same F base ds input).bind fun y => ih y.1 y.2 (base + step)

theorem chunkV5_same (F : FloatOps) (ds : List Dec) (as : List AField) (step expected : Nat) (input : List Byte) (base : Nat) :
    Same (fun x b => (x.1, b, x.2)) (fun b => decodeV5Chunk F ds as step expected input b base) (chunkV5 F ds as step expected input base) := by
  refine Same.ite (fun _ => Same.throw _) fun _ => ?_
  refine Same.len (p := fun l => l - base < expected * step) (Same.throw _) ?_
  refine (pointsV5_same F step expected (ds.map Dec.reset) input base).bind fun y => ?_
  refine (sections_same base step expected as y.2).bind fun z => ?_
  refine Same.ite (fun _ => Same.throw _) fun _ => ?_
  exact Same.pure (mk := fun (x : List Dec × Nat) b => (x.1, b, x.2)) (y.1, base + expected * step)

theorem chunk_same (F : FloatOps) (C : Compressor) (fuel : Nat) (info : EncodingInfo) (ds : List Dec) (min : Nat) (data : List Byte)
    (base expected : Nat) : Same (fun x b => (x.1, b, x.2)) (fun b => decodeChunk F C fuel info ds min data b base expected)
      (chunk F C fuel info ds min data base expected) := by
  refine Same.let_ fun view _ => ?_
  refine Same.ite (fun _ => ?_) fun _ => ?_
  · exact chunkV5_same F ds _ _ expected view base
  · exact chunkV4_same F fuel ds min _ expected view base

theorem loop_same (F : FloatOps) (C : Compressor) (info : EncodingInfo) (m points : Nat) : ∀ (ds : List Dec) (data : List Byte) (base : Nat),
    Same (fun _ b => b) (fun b => decodeLoop F C info m points ds data b base) (loop F C info m points ds data base) := by
  induction points using Nat.strongRecOn with
  | _ points ih =>
  intro ds data base
  rw [loop]
  refine Same.congr (g := fun buf => if data.length = 0 then
    (if points ≠ 0 then .throw "Encoded data ended before all declared points were decoded" else .ok buf)
    else if _h : points = 0 then .throw "Encoded data contains more chunks than declared points"
    else do
      let (size, data) ← decodeInt 4 data
      if size > data.length then .throw "Invalid chunk size found while decoding"
      else do
        let n := min points kPointsPerChunk
        let (ds, buf, base) ← decodeChunk F C 0 info ds m (data.take size) buf base n
        decodeLoop F C info m (points - n) ds (data.drop size) buf base) ?_ (fun buf => by rw [decodeLoop])
  refine Same.ite (fun _ => ?_) fun _ => ?_
  · refine Same.ite (fun _ => Same.throw _) fun _ => ?_
    exact Same.pure (mk := fun (_ : Unit) b => b) ()
  by_cases hp : points = 0
  · simp only [dif_pos hp]; exact Same.throw _
  simp only [dif_neg hp]
  refine Same.let_ fun x _ => ?_
  refine Same.ite (fun _ => Same.throw _) fun _ => ?_
  refine (chunk_same F C 0 info ds m _ base _).bind fun y => ?_
  exact ih (points - min points kPointsPerChunk) (by simp only [kPointsPerChunk]; omega) y.1 _ y.2

theorem decode_same (F : FloatOps) (C : Compressor) (fuel : Nat) (info : EncodingInfo) (data : List Byte) :
    Same (fun _ b => b) (fun b => decodeCloud F C fuel info data b) (decode F C fuel info data) := by
  unfold decodeCloud decode
  refine Same.let_ fun x _ => ?_
  refine Same.ite (fun _ => Same.throw _) fun _ => ?_
  refine Same.ite (fun _ => loop_same F C info _ _ _ _ _) fun _ => ?_
  refine (chunk_same F C fuel info x.1 x.2 data 0 0).bind fun y => ?_
  exact Same.pure (mk := fun (_ : Unit) b => b) ()

theorem Same.ok {α β : Type} {mk : α → List Byte → β} {g : List Byte → Res β} {t : Tr α} (h : Same mk g t) {b : List Byte} {x : α}
    (hx : (t b).2 = .ok x) : g b = .ok (mk x (t b).1) := by rw [h b, hx]; rfl

/-! ### what an exception leaves -/

/-- When `t` throws, the output it leaves is related to the one it found. -/
def Kept {α : Type} (R : List Byte → List Byte → Prop) (t : Tr α) (b : List Byte) : Prop := ∀ e, (t b).2 = .throw e → R b (t b).1

theorem Kept.bind {α β : Type} {R : List Byte → List Byte → Prop} {t : Tr α} {k : α → Tr β} {b : List Byte} (h : Kept R t b)
    (hk : ∀ x, (t b).2 = .ok x → Kept (fun _ b' => R b b') (k x) (t b).1) : Kept R (t >>= k) b := by
  intro e he
  cases hx : (t b).2 with
  | ok x => rw [bind_ok hx] at he ⊢; exact hk x hx e he
  | throw e' => rw [bind_throw hx]; exact h e' hx
  | ub u => rw [bind_ub hx] at he; cases he

theorem Kept.let_ {α β : Type} {R : List Byte → List Byte → Prop} {r : Res α} {k : α → Tr β} {b : List Byte} (hr : R b b)
    (hk : ∀ x, r = .ok x → Kept R (k x) b) : Kept R (lift r >>= k) b :=
  Kept.bind (fun _ _ => hr) fun x hx => hk x hx

theorem Kept.pure {α : Type} {R : List Byte → List Byte → Prop} {x : α} {b : List Byte} : Kept R (Pure.pure x : Tr α) b :=
  fun _ h => by cases h

theorem Kept.fail {α : Type} {R : List Byte → List Byte → Prop} {e : String} {b : List Byte} (hr : R b b) : Kept R (fail e : Tr α) b :=
  fun _ _ => hr

theorem Kept.ite {α : Type} {R : List Byte → List Byte → Prop} {p : Prop} [Decidable p] {t s : Tr α} {b : List Byte}
    (ht : p → Kept R t b) (hs : ¬ p → Kept R s b) : Kept R (if p then t else s) b := by
  by_cases hp : p
  · rw [if_pos hp]; exact ht hp
  · rw [if_neg hp]; exact hs hp

theorem Kept.size {α : Type} {R : List Byte → List Byte → Prop} {k : Nat → Tr α} {b : List Byte} (hr : R b b) (hk : Kept R (k b.length) b) :
    Kept R (size >>= k) b :=
  Kept.bind (fun _ h => by cases h) fun x hx => by cases hx; exact hk

theorem put_kept {R : List Byte → List Byte → Prop} (pos : Nat) (bs b : List Byte) : Kept R (put pos bs) b := by
  intro e he
  unfold put at he
  split at he <;> cases he

theorem puts_kept {R : List Byte → List Byte → Prop} (base : Nat) (ws : List Write) (b : List Byte) : Kept R (puts base ws) b := by
  induction ws generalizing R b with
  | nil => exact Kept.pure
  | cons w ws ih => exact Kept.bind (put_kept _ _ _) fun x hx => ih _

theorem fields_kept (F : FloatOps) (fs : List PointField) (step base : Nat) (ds : List Dec) (input b : List Byte) (hs : SpotsIn fs ds) :
    Kept (Foot fs step base 1) (fields F ds input base) b := by
  induction ds generalizing input b with
  | nil => exact Kept.pure
  | cons d ds ih =>
    refine Kept.let_ (.refl ..) fun x h1 => ?_
    obtain ⟨d', ws, input'⟩ := x
    refine Kept.bind (puts_kept _ _ _) fun _ h2 => ?_
    obtain ⟨e1, e2⟩ := step_spots F _ _ _ _ _ h1
    have hf : Foot fs step base 1 b (puts base ws b).1 := applyWrites_foot ((puts_same base ws).ok h2) fun w hw => by
      obtain ⟨sp, hsp, e3, e4, e5⟩ := e2 w hw
      obtain ⟨f, hf, rfl⟩ := hs d (by simp) sp hsp e5
      exact ⟨f, hf, e3, e4⟩
    refine Kept.bind (fun e he => hf.trans (ih input' _ (fun x hx => hs x (by simp [hx])) e he)) fun _ _ => Kept.pure

theorem pointsV4_kept (F : FloatOps) (fs : List PointField) (min step n : Nat) (ds : List Dec) (input b : List Byte) (base : Nat)
    (hs : SpotsIn fs ds) : Kept (Foot fs step base n) (pointsV4 F min step n ds input base) b := by
  induction n generalizing ds input b base with
  | zero => exact Kept.pure
  | succ n ih =>
    refine Kept.ite (fun _ => Kept.fail (.refl ..)) fun _ => ?_
    refine Kept.size (.refl ..) ?_
    refine Kept.ite (fun _ => Kept.fail (.refl ..)) fun _ => ?_
    refine Kept.bind (fun e he => (fields_kept F fs step base ds input b hs e he).mono (by omega)) fun x hx e he => ?_
    obtain ⟨h1, h2⟩ := decodeFields_foot F fs step base _ _ _ _ _ _ hs ((fields_same F base ds input).ok hx)
    have h3 := ih x.1 x.2 (fields F ds input base b).1 (base + step) h1 e he
    rw [Nat.add_comm n 1]
    exact h2.append (by rw [Nat.one_mul]; exact h3)

theorem untilEmptyV4_kept (F : FloatOps) (fs : List PointField) (min step fuel : Nat) (ds : List Dec) (input b : List Byte) (base : Nat)
    (hst : 0 < step) (hs : SpotsIn fs ds) : Kept (Foot fs step base ((b.length - base) / step)) (untilEmptyV4 F min step fuel ds input base) b := by
  induction fuel generalizing ds input b base with
  | zero => exact Kept.ite (fun _ => Kept.pure) fun _ => fun e he => by cases he
  | succ n ih =>
    refine Kept.ite (fun _ => Kept.pure) fun _ => ?_
    refine Kept.ite (fun _ => Kept.fail (.refl ..)) fun _ => ?_
    refine Kept.size (.refl ..) ?_
    refine Kept.ite (fun _ => Kept.fail (.refl ..)) fun hroom => ?_
    have hq : (b.length - base) / step = 1 + (b.length - (base + step)) / step := by
      rw [show b.length - base = (b.length - (base + step)) + step from by omega, Nat.add_div_right _ hst]; omega
    refine Kept.bind (fun e he => (fields_kept F fs step base ds input b hs e he).mono (by rw [hq]; exact Nat.le_add_right _ _)) fun x hx e he => ?_
    obtain ⟨h1, h2⟩ := decodeFields_foot F fs step base _ _ _ _ _ _ hs ((fields_same F base ds input).ok hx)
    have h3 := ih x.1 x.2 (fields F ds input base b).1 (base + step) h1 e he
    rw [h2.1] at h3
    rw [hq]
    exact h2.append (by rw [Nat.one_mul]; exact h3)

theorem chunkV4_kept (F : FloatOps) (fs : List PointField) (fuel : Nat) (ds : List Dec) (min step n : Nat) (input b : List Byte) (base : Nat)
    (hs : SpotsIn fs ds) (hn : 0 < n) : Kept (Foot fs step base n) (chunkV4 F fuel ds min step n input base) b := by
  unfold chunkV4
  rw [if_pos hn]
  exact Kept.bind (pointsV4_kept F fs min step n _ input b base (spotsIn_reset hs)) fun _ _ => Kept.pure

theorem value_kept {R : List Byte → List Byte → Prop} (base step : Nat) (f : AField) (i : Nat) (v : BitVec 64) (b : List Byte) :
    Kept R (value base step f i v) b := put_kept _ _ _

theorem deltas_kept {fs : List PointField} {f : AField} (base step n k i : Nat) (prev : BitVec 64) (input b : List Byte)
    (hf : ∃ p ∈ fs, f.offset = p.offset.toNat ∧ f.bpv = sizeOf p.type) (hk : i + k ≤ n) :
    Kept (Foot fs step base n) (deltas f base step k i prev input) b := by
  induction k generalizing i prev input b with
  | zero => exact Kept.pure
  | succ k ih =>
    refine Kept.let_ (.refl ..) fun x _ => ?_
    refine Kept.let_ (.refl ..) fun v _ => ?_
    refine Kept.bind (value_kept _ _ _ _ _ _) fun _ h e he => ?_
    exact (writeValue_foot hf (by omega) ((value_same base step f i v).ok h)).trans (ih (i + 1) v _ _ (by omega) e he)

theorem paletteIndexes_kept {fs : List PointField} {f : AField} (base step bits n k i : Nat) (pal : List (BitVec 64)) (ptr : List Byte)
    (scratch : BitVec 64) (held : Nat) (b : List Byte)
    (hf : ∃ p ∈ fs, f.offset = p.offset.toNat ∧ f.bpv = sizeOf p.type) (hk : i + k ≤ n) :
    Kept (Foot fs step base n) (paletteIndexes f base step bits pal k i ptr scratch held) b := by
  induction k generalizing i ptr scratch held b with
  | zero => exact Kept.pure
  | succ k ih =>
    refine Kept.let_ (.refl ..) fun x _ => ?_
    obtain ⟨idx, ptr', scratch', held'⟩ := x
    simp only
    cases hv : pal[idx]? with
    | none => exact Kept.fail (.refl ..)
    | some v =>
      refine Kept.bind (value_kept _ _ _ _ _ _) fun _ h e he => ?_
      exact (writeValue_foot hf (by omega) ((value_same base step f i v).ok h)).trans (ih (i + 1) _ _ _ _ (by omega) e he)

theorem run_kept {R : List Byte → List Byte → Prop} (f : AField) (base step : Nat) (v : BitVec 64) (k i : Nat) (b : List Byte) :
    Kept R (run f base step v k i) b := by
  induction k generalizing R i b with
  | zero => exact Kept.pure
  | succ k ih => exact Kept.bind (value_kept _ _ _ _ _ _) fun _ _ => ih _ _

theorem addI64_not_throw (a b : BitVec 64) (e : String) : addI64 a b ≠ .throw e := by
  unfold addI64; split <;> simp

theorem deltaRun_kept {R : List Byte → List Byte → Prop} (f : AField) (base step : Nat) (d : BitVec 64) (k i : Nat) (prev : BitVec 64)
    (b : List Byte) : Kept R (deltaRun f base step d k i prev) b := by
  induction k generalizing R i prev b with
  | zero => exact Kept.pure
  | succ k ih =>
    refine Kept.bind (fun e he => absurd he (addI64_not_throw _ _ _)) fun v hv => ?_
    exact Kept.bind (value_kept _ _ _ _ _ _) fun _ _ => ih _ _ _

theorem rleRuns_kept {fs : List PointField} {f : AField} (base step n runs i : Nat) (input b : List Byte)
    (hf : ∃ p ∈ fs, f.offset = p.offset.toNat ∧ f.bpv = sizeOf p.type) (hb : 0 < f.bpv) (hst : 0 < step)
    (hL : b.length < 2 ^ 64) (hn : n ≤ b.length) (hi : i ≤ n) : Kept (Foot fs step base n) (rleRuns f base step n runs i input) b := by
  induction runs generalizing i input b with
  | zero => exact Kept.pure
  | succ runs ih =>
    refine Kept.ite (fun _ => Kept.fail (.refl ..)) fun _ => ?_
    refine Kept.let_ (.refl ..) fun bs _ => ?_
    refine Kept.let_ (.refl ..) fun x _ => ?_
    refine Kept.ite (fun _ => Kept.fail (.refl ..)) fun hgt => ?_
    refine Kept.bind (run_kept _ _ _ _ _ _ _) fun _ h e he => ?_
    have h1 := (run_same f base step _ _ i).ok h
    obtain ⟨hl, hroom⟩ := writeRun_room base step _ _ _ _ _ hb hst h1
    have hle := no_wrap hi hL hn hgt hroom
    exact (writeRun_foot base step n _ i _ b _ hf hle h1).trans
      (ih _ _ _ (by omega) (by omega) hle e he)

theorem deltaRleRuns_kept {fs : List PointField} {f : AField} (base step n runs i : Nat) (prev : BitVec 64) (input b : List Byte)
    (hf : ∃ p ∈ fs, f.offset = p.offset.toNat ∧ f.bpv = sizeOf p.type) (hb : 0 < f.bpv) (hst : 0 < step)
    (hL : b.length < 2 ^ 64) (hn : n ≤ b.length) (hi : i ≤ n) : Kept (Foot fs step base n) (deltaRleRuns f base step n runs i prev input) b := by
  induction runs generalizing i prev input b with
  | zero => exact Kept.pure
  | succ runs ih =>
    refine Kept.let_ (.refl ..) fun x _ => ?_
    refine Kept.let_ (.refl ..) fun y _ => ?_
    refine Kept.ite (fun _ => Kept.fail (.refl ..)) fun hgt => ?_
    refine Kept.bind (deltaRun_kept _ _ _ _ _ _ _ _) fun z h e he => ?_
    have h1 := (deltaRun_same f base step _ _ i prev).ok h
    obtain ⟨hl, hroom⟩ := writeDeltaRun_room base step _ _ _ _ _ _ _ hb hst h1
    have hle := no_wrap hi hL hn hgt hroom
    exact (writeDeltaRun_foot base step n _ i _ _ _ b _ hf hle h1).trans
      (ih _ _ _ _ (by omega) (by omega) hle e he)

theorem section_kept {fs : List PointField} {f : AField} (base step n : Nat) (input b : List Byte)
    (hf : ∃ p ∈ fs, f.offset = p.offset.toNat ∧ f.bpv = sizeOf p.type) (hb : 0 < f.bpv) (hst : 0 < step)
    (hL : b.length < 2 ^ 64) (hn : n ≤ b.length) : Kept (Foot fs step base n) (section_ f base step n input) b := by
  cases input with
  | nil => exact Kept.fail (.refl ..)
  | cons m input =>
    refine Kept.ite (fun _ => deltas_kept base step n n 0 _ _ _ hf (by omega)) fun _ => ?_
    refine Kept.ite (fun _ => ?_) fun _ => ?_
    · refine Kept.let_ (.refl ..) fun x _ => ?_
      refine Kept.ite (fun _ => Kept.fail (.refl ..)) fun _ => ?_
      refine Kept.let_ (.refl ..) fun y _ => ?_
      refine Kept.ite (fun _ => Kept.fail (.refl ..)) fun _ => ?_
      exact Kept.bind (paletteIndexes_kept base step _ n n 0 _ _ _ _ _ hf (by omega)) fun _ _ => Kept.pure
    refine Kept.ite (fun _ => ?_) fun _ => ?_
    · refine Kept.let_ (.refl ..) fun x _ => ?_
      refine Kept.bind (rleRuns_kept base step n _ 0 _ _ hf hb hst hL hn (by omega)) fun y h => ?_
      have h1 := decodeRle_foot base step n _ 0 _ _ _ _ _ hf hb hst hL hn (by omega) ((rleRuns_same f base step n x.1 0 x.2).ok h)
      exact Kept.ite (fun _ => Kept.fail h1) fun _ => Kept.pure
    refine Kept.ite (fun _ => ?_) fun _ => Kept.fail (.refl ..)
    · refine Kept.let_ (.refl ..) fun x _ => ?_
      refine Kept.bind (deltaRleRuns_kept base step n _ 0 _ _ _ hf hb hst hL hn (by omega)) fun y h => ?_
      have h1 := decodeDeltaRle_foot base step n _ 0 _ _ _ _ _ _ hf hb hst hL hn (by omega)
        ((deltaRleRuns_same f base step n x.1 0 0#64 x.2).ok h)
      exact Kept.ite (fun _ => Kept.fail h1) fun _ => Kept.pure

theorem sections_kept {fs : List PointField} (as : List AField) (base step n : Nat) (input b : List Byte)
    (hf : ∀ f ∈ as, ∃ p ∈ fs, f.offset = p.offset.toNat ∧ f.bpv = sizeOf p.type) (hb : ∀ f ∈ as, 0 < f.bpv) (hst : 0 < step)
    (hL : b.length < 2 ^ 64) (hn : n ≤ b.length) : Kept (Foot fs step base n) (sections base step n as input) b := by
  induction as generalizing input b with
  | nil => exact Kept.pure
  | cons f as ih =>
    refine Kept.bind (section_kept base step n _ _ (hf f (by simp)) (hb f (by simp)) hst hL hn) fun x h e he => ?_
    have h1 := decodeSection_foot base step n _ _ _ _ (hf f (by simp)) (hb f (by simp)) hst hL hn ((section_same f base step n input).ok h)
    exact h1.trans (ih x _ (fun x hx => hf x (by simp [hx])) (fun x hx => hb x (by simp [hx])) (by rw [h1.1]; exact hL)
      (by rw [h1.1]; exact hn) e he)

theorem pointsV5_kept (F : FloatOps) (fs : List PointField) (step n : Nat) (ds : List Dec) (input b : List Byte) (base : Nat)
    (hs : SpotsIn fs ds) : Kept (Foot fs step base n) (pointsV5 F step n ds input base) b := by
  induction n generalizing ds input b base with
  | zero => exact Kept.pure
  | succ n ih =>
    refine Kept.bind (fun e he => (fields_kept F fs step base ds input b hs e he).mono (by omega)) fun x hx e he => ?_
    obtain ⟨h1, h2⟩ := decodeFields_foot F fs step base _ _ _ _ _ _ hs ((fields_same F base ds input).ok hx)
    have h3 := ih x.1 x.2 (fields F ds input base b).1 (base + step) h1 e he
    rw [Nat.add_comm n 1]
    exact h2.append (by rw [Nat.one_mul]; exact h3)

theorem chunkV5_kept (F : FloatOps) (fs : List PointField) (ds : List Dec) (as : List AField) (step n : Nat) (input b : List Byte) (base : Nat)
    (hs : SpotsIn fs ds) (hf : ∀ f ∈ as, ∃ p ∈ fs, f.offset = p.offset.toNat ∧ f.bpv = sizeOf p.type) (hb : ∀ f ∈ as, 0 < f.bpv)
    (hst : 0 < step) (hL : b.length < 2 ^ 64) : Kept (Foot fs step base n) (chunkV5 F ds as step n input base) b := by
  refine Kept.ite (fun _ => Kept.fail (.refl ..)) fun hn => ?_
  refine Kept.size (.refl ..) ?_
  refine Kept.ite (fun _ => Kept.fail (.refl ..)) fun hroom => ?_
  have hmul : n * 1 ≤ n * step := Nat.mul_le_mul_left _ hst
  refine Kept.bind (pointsV5_kept F fs step n _ input b base (spotsIn_reset hs)) fun x hx => ?_
  obtain ⟨h1, h2⟩ := decodePointsV5_foot F fs _ n _ _ _ _ _ _ base (spotsIn_reset hs) ((pointsV5_same F step n _ input base).ok hx)
  have hL' : (pointsV5 F step n (ds.map Dec.reset) input base b).1.length < 2 ^ 64 := by rw [h2.1]; exact hL
  have hn' : n ≤ (pointsV5 F step n (ds.map Dec.reset) input base b).1.length := by rw [h2.1]; omega
  refine Kept.bind (fun e he => h2.trans (sections_kept as base step n _ _ hf hb hst hL' hn' e he)) fun y hy => ?_
  have h3 := decodeSections_foot as base step n _ _ _ _ hf hb hst hL' hn' ((sections_same base step n as x.2).ok hy)
  exact Kept.ite (fun _ => Kept.fail (h2.trans h3)) fun _ => Kept.pure

theorem chunk_kept (F : FloatOps) (C : Compressor) (fuel : Nat) (info : EncodingInfo) (ds : List Dec) (m : Nat) (data b : List Byte)
    (base n : Nat) (fs : List PointField) (hs : SpotsIn fs ds)
    (ha : usesV5 info = true → ∀ f ∈ getAdaptiveFields info, ∃ p ∈ fs, f.offset = p.offset.toNat ∧ f.bpv = sizeOf p.type)
    (hst : 0 < info.point_step.toNat) (hL : b.length < 2 ^ 64) (hn : 0 < n) :
    Kept (Foot fs info.point_step.toNat base n) (chunk F C fuel info ds m data base n) b := by
  refine Kept.let_ (.refl ..) fun view _ => ?_
  refine Kept.ite (fun hv => ?_) fun _ => ?_
  · exact chunkV5_kept F fs ds _ _ n view b base hs (ha hv) (fun f hf => (adaptive_declared info f hf).2) hst hL
  · exact chunkV4_kept F fs fuel ds m _ n view b base hs hn

theorem loop_kept (F : FloatOps) (C : Compressor) (info : EncodingInfo) (m points : Nat) (ds : List Dec) (data b : List Byte)
    (base : Nat) (fs : List PointField) (hs : SpotsIn fs ds)
    (ha : usesV5 info = true → ∀ f ∈ getAdaptiveFields info, ∃ p ∈ fs, f.offset = p.offset.toNat ∧ f.bpv = sizeOf p.type)
    (hst : 0 < info.point_step.toNat) (hL : b.length < 2 ^ 64) :
    Kept (Foot fs info.point_step.toNat base points) (loop F C info m points ds data base) b := by
  induction points using Nat.strongRecOn generalizing ds data b base with
  | ind points ih =>
    rw [loop]
    refine Kept.ite (fun _ => Kept.ite (fun _ => Kept.fail (.refl ..)) fun _ => Kept.pure) fun _ => ?_
    by_cases hp : points = 0
    · rw [dif_pos hp]; exact Kept.fail (.refl ..)
    rw [dif_neg hp]
    refine Kept.let_ (.refl ..) fun x _ => ?_
    refine Kept.ite (fun _ => Kept.fail (.refl ..)) fun _ => ?_
    have hK := pos_K
    generalize hnn : min points kPointsPerChunk = n at *
    refine Kept.bind (fun e he => (chunk_kept F C 0 info ds m _ b base n fs hs ha hst hL (by omega) e he).mono (by omega)) fun y hy e he => ?_
    obtain ⟨e1, e2, e3⟩ := decodeChunk_foot F C 0 info ds _ m _ b _ base _ n fs hs ha hst hL (by omega) ((chunk_same F C 0 info ds m _ base n).ok hy)
    have e4 := ih (points - n) (by omega) y.1 _ _ y.2 e1 (by rw [e2.1]; exact hL) e he
    obtain ⟨y1, y2⟩ := y
    simp only at e3
    subst e3
    have := e2.append e4
    rw [show n + (points - n) = points from by omega] at this
    exact this

/-- Whatever the outcome, unless it is undefined behaviour. -/
theorem loop_foot (F : FloatOps) (C : Compressor) (info : EncodingInfo) (m points : Nat) (ds : List Dec) (data b : List Byte)
    (base : Nat) (fs : List PointField) (hs : SpotsIn fs ds)
    (ha : usesV5 info = true → ∀ f ∈ getAdaptiveFields info, ∃ p ∈ fs, f.offset = p.offset.toNat ∧ f.bpv = sizeOf p.type)
    (hst : 0 < info.point_step.toNat) (hL : b.length < 2 ^ 64) (hu : ∀ u, (loop F C info m points ds data base b).2 ≠ .ub u) :
    Foot fs info.point_step.toNat base points b (loop F C info m points ds data base b).1 := by
  cases hx : (loop F C info m points ds data base b).2 with
  | ok x => exact decodeLoop_foot F C info m points ds data b _ base fs hs ha hst hL ((loop_same F C info m points ds data base).ok hx)
  | throw e => exact loop_kept F C info m points ds data b base fs hs ha hst hL e hx
  | ub u => exact absurd hx (hu u)

theorem _root_.Cloudini.Foot.below {fs : List PointField} {step base n : Nat} {x y : List Byte} (h : Foot fs step base n x y) (p : Nat) (hp : p < base) :
    y[p]? = x[p]? := h.2 p fun i _ f _ => Or.inl (by omega)

theorem chunk_ok {F : FloatOps} {C : Compressor} {fuel : Nat} {info : EncodingInfo} {ds ds' : List Dec} {m : Nat} {data b b' : List Byte}
    {base n base' : Nat} (h : decodeChunk F C fuel info ds m data b base n = .ok (ds', b', base')) :
    chunk F C fuel info ds m data base n b = (b', .ok (ds', base')) := by
  have e := chunk_same F C fuel info ds m data base n b
  simp only at e
  rw [h] at e
  cases hx : chunk F C fuel info ds m data base n b with
  | mk b1 r =>
    rw [hx] at e
    cases r with
    | ok x =>
      simp only [Res.ok_bind, Res.ok.injEq, Prod.mk.injEq] at e
      obtain ⟨rfl, rfl, rfl⟩ := e
      rfl
    | throw e' => cases e
    | ub u => cases e

theorem loop_step {F : FloatOps} {C : Compressor} {info : EncodingInfo} {m points : Nat} {ds ds' : List Dec} {c b b' : List Byte}
    {base base' : Nat} (hp : points ≠ 0) (hc : c.length < 2 ^ 32)
    (h : decodeChunk F C 0 info ds m c b base (min points kPointsPerChunk) = .ok (ds', b', base')) (rest : List Byte) :
    loop F C info m points ds (toLE 4 c.length ++ c ++ rest) base b =
      loop F C info m (points - min points kPointsPerChunk) ds' rest base' b' := by
  rw [loop, if_neg (by simp [toLE_length]), dif_neg hp, List.append_assoc, decodeInt_toLE 4 _ (by simpa using hc)]
  rw [bind_ok (x := (c.length, c ++ rest)) rfl]
  simp only
  rw [if_neg (by simp), List.take_left, List.drop_left]
  have e := chunk_ok h
  have e2 : (chunk F C 0 info ds m c base (min points kPointsPerChunk) b).2 = .ok (ds', base') := by rw [e]
  show (chunk F C 0 info ds m c base (min points kPointsPerChunk) >>= _) b = _
  rw [bind_ok e2, e]

/-- The frames two payloads have in common. -/
theorem frame_head {c c' rest rest' : List Byte} (h : toLE 4 c.length ++ c ++ rest = toLE 4 c'.length ++ c' ++ rest')
    (hc : c.length < 2 ^ 32) (hc' : c'.length < 2 ^ 32) : c = c' ∧ rest = rest' := by
  have e0 : decodeInt 4 (toLE 4 c.length ++ (c ++ rest)) = .ok (c.length, c ++ rest) := decodeInt_toLE 4 _ (by simpa using hc) _
  rw [← List.append_assoc, h, List.append_assoc, decodeInt_toLE 4 _ (by simpa using hc')] at e0
  simp only [Res.ok.injEq, Prod.mk.injEq] at e0
  obtain ⟨h1, h2⟩ := List.append_inj e0.2 e0.1
  exact ⟨h1.symm, h2.symm⟩

theorem loop_prefix (F : FloatOps) (C : Compressor) (info : EncodingInfo) (m points : Nat) (ds : List Dec) (chunks : List (List Byte))
    (rest rest' b out : List Byte) (base : Nat) (fs : List PointField) (hs : SpotsIn fs ds)
    (ha : usesV5 info = true → ∀ f ∈ getAdaptiveFields info, ∃ p ∈ fs, f.offset = p.offset.toNat ∧ f.bpv = sizeOf p.type)
    (hst : 0 < info.point_step.toNat) (hL : b.length < 2 ^ 64) (hc : ∀ c ∈ chunks, c.length < 2 ^ 32)
    (h : decodeLoop F C info m points ds (frame chunks ++ rest) b base = .ok out)
    (hu : ∀ u, (loop F C info m points ds (frame chunks ++ rest') base b).2 ≠ .ub u) :
    ∀ p, p < base + min points (chunks.length * kPointsPerChunk) * info.point_step.toNat →
      (loop F C info m points ds (frame chunks ++ rest') base b).1[p]? = out[p]? := by
  induction chunks generalizing points ds b base with
  | nil =>
    intro p hp
    simp only [List.length_nil, Nat.zero_mul, Nat.min_zero, Nat.add_zero] at hp
    rw [(loop_foot F C info m points ds _ b base fs hs ha hst hL hu).below p hp,
      (decodeLoop_foot F C info m points ds _ b out base fs hs ha hst hL h).below p hp]
  | cons c cs ih =>
    intro p hp
    rcases decodeLoop_inv h with ⟨hnil, _, _⟩ | ⟨hp0, c', r0, ds', b', base', hc', heq, h1, h'⟩
    · have := congrArg List.length hnil; simp [frame, toLE_length] at this
    · simp only [frame, List.append_assoc] at heq
      rw [← List.append_assoc, ← List.append_assoc (toLE 4 c'.length)] at heq
      obtain ⟨rfl, rfl⟩ := frame_head heq (hc c (by simp)) hc'
      have hK := pos_K
      obtain ⟨e1, e2, rfl⟩ := decodeChunk_foot F C 0 info ds ds' m _ b b' base base' _ fs hs ha hst hL (by omega) h1
      have es : loop F C info m points ds (frame (c :: cs) ++ rest') base b =
          loop F C info m (points - min points kPointsPerChunk) ds' (frame cs ++ rest') (base + min points kPointsPerChunk * info.point_step.toNat) b' := by
        rw [frame, List.append_assoc]; exact loop_step hp0 hc' h1 _
      rw [es] at hu ⊢
      refine ih (points - min points kPointsPerChunk) ds' b' _ e1 (by rw [e2.1]; exact hL) (fun x hx => hc x (by simp [hx])) h' hu p ?_
      rw [Nat.add_assoc, ← Nat.add_mul]
      refine Nat.lt_of_lt_of_le hp (Nat.add_le_add_left (Nat.mul_le_mul_right _ ?_) _)
      rw [List.length_cons, Nat.add_mul]
      omega

theorem loop_cut (F : FloatOps) (C : Compressor) (info : EncodingInfo) (m points : Nat) (ds : List Dec) (chunks : List (List Byte))
    (c tail part b out : List Byte) (base : Nat) (fs : List PointField) (hs : SpotsIn fs ds)
    (ha : usesV5 info = true → ∀ f ∈ getAdaptiveFields info, ∃ p ∈ fs, f.offset = p.offset.toNat ∧ f.bpv = sizeOf p.type)
    (hst : 0 < info.point_step.toNat) (hL : b.length < 2 ^ 64) (hc : ∀ c ∈ chunks, c.length < 2 ^ 32) (hcl : c.length < 2 ^ 32)
    (h : decodeLoop F C info m points ds (frame chunks ++ (toLE 4 c.length ++ c ++ tail)) b base = .ok out)
    (hpart : part <+: toLE 4 c.length ++ c) (hlen : part.length < 4 + c.length) :
    ∃ e, (loop F C info m points ds (frame chunks ++ part) base b).2 = .throw e ∧
      Foot fs info.point_step.toNat base (chunks.length * kPointsPerChunk) b (loop F C info m points ds (frame chunks ++ part) base b).1 ∧
      chunks.length * kPointsPerChunk < points := by
  induction chunks generalizing points ds b base with
  | nil =>
    simp only [frame, List.nil_append, List.length_nil, Nat.zero_mul] at h ⊢
    have hp0 : points ≠ 0 := by
      rcases decodeLoop_inv h with ⟨hnil, _, _⟩ | ⟨hp0, _⟩
      · have := congrArg List.length hnil; simp [toLE_length] at this
      · exact hp0
    suffices hs : ∃ e, loop F C info m points ds part base b = (b, .throw e) by
      obtain ⟨e, he⟩ := hs
      rw [he]; exact ⟨e, rfl, .refl .., by omega⟩
    rw [loop]
    by_cases h0 : part.length = 0
    · rw [if_pos h0, if_pos hp0]; exact ⟨_, rfl⟩
    rw [if_neg h0, dif_neg hp0]
    by_cases h4 : part.length < 4
    · rw [decodeInt_def, if_neg (by omega)]; exact ⟨_, rfl⟩
    · obtain ⟨r, hr⟩ : ∃ r, part = toLE 4 c.length ++ r := by
        obtain ⟨t, ht⟩ := hpart
        have h1 : toLE 4 c.length <+: part := by
          refine List.prefix_of_prefix_length_le (l₃ := toLE 4 c.length ++ c) (List.prefix_append _ _) ⟨t, ht⟩ (by rw [toLE_length]; omega)
        obtain ⟨r, hr⟩ := h1
        exact ⟨r, hr.symm⟩
      rw [hr, decodeInt_toLE 4 _ (by simpa using hcl), bind_ok (x := (c.length, r)) rfl]
      rw [hr, List.length_append, toLE_length] at hlen
      simp only
      rw [if_pos (by omega)]
      exact ⟨_, rfl⟩
  | cons d cs ih =>
    rcases decodeLoop_inv h with ⟨hnil, _, _⟩ | ⟨hp0, c', r0, ds', b', base', hc', heq, h1, h'⟩
    · have := congrArg List.length hnil; simp [frame, toLE_length] at this
    · have heq' : toLE 4 d.length ++ d ++ (frame cs ++ (toLE 4 c.length ++ c ++ tail)) = toLE 4 c'.length ++ c' ++ r0 := by
        rw [← heq, frame]; simp only [List.append_assoc]
      obtain ⟨rfl, rfl⟩ := frame_head heq' (hc d (by simp)) hc'
      have hK := pos_K
      obtain ⟨e1, e2, rfl⟩ := decodeChunk_foot F C 0 info ds ds' m _ b b' base base' _ fs hs ha hst hL (by omega) h1
      have es : loop F C info m points ds (frame (d :: cs) ++ part) base b =
          loop F C info m (points - min points kPointsPerChunk) ds' (frame cs ++ part) (base + min points kPointsPerChunk * info.point_step.toNat) b' := by
        rw [frame, List.append_assoc]; exact loop_step hp0 hc' h1 _
      rw [es]
      obtain ⟨e, h2, h3, h4⟩ := ih (points - min points kPointsPerChunk) ds' b' _ e1 (by rw [e2.1]; exact hL) (fun x hx => hc x (by simp [hx])) h'
      have hn : min points kPointsPerChunk = kPointsPerChunk := by omega
      rw [hn] at h2 h3 h4 e2 ⊢
      refine ⟨e, h2, ?_, ?_⟩
      · rw [List.length_cons, Nat.add_mul, Nat.one_mul, Nat.add_comm]
        exact e2.append h3
      · rw [List.length_cons, Nat.add_mul]; omega

theorem loop_longer (F : FloatOps) (C : Compressor) (info : EncodingInfo) (m points : Nat) (ds : List Dec) (data b out extra : List Byte)
    (base : Nat) (h : decodeLoop F C info m points ds data b base = .ok out) (he : extra ≠ []) :
    ∃ e, loop F C info m points ds (data ++ extra) base b = (out, .throw e) := by
  induction points using Nat.strongRecOn generalizing ds data b base with
  | _ points ih =>
    rcases decodeLoop_inv h with ⟨rfl, rfl, rfl⟩ | ⟨hp, c, rest, ds', buf', base', hc, rfl, h1, h'⟩
    · rw [loop, List.nil_append, if_neg (by simpa using he), dif_pos rfl]; exact ⟨_, rfl⟩
    · rw [List.append_assoc, loop_step hp hc h1]
      exact ih _ (by simp only [kPointsPerChunk]; omega) _ _ _ _ h'

end Cloudini.Partial
