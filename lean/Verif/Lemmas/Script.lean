import Verif.Lemmas.Unfold
import Verif.Lemmas.Base
import Verif.Model.Cloud

/-!
# Decoding is a script of byte stores

Every decoding function of the model is a sequence of stores chosen by the input, the plan and the *length* of the output buffer.
-/

namespace Cloudini

/-- Store the bytes of a script, in order: each entry is a position and the byte that goes there. -/
def paint (ws : List (Nat × Byte)) (buf : List Byte) : List Byte := ws.foldl (fun b w => b.set w.1 w.2) buf

theorem paint_length (ws : List (Nat × Byte)) (buf : List Byte) : (paint ws buf).length = buf.length := by
  induction ws generalizing buf with
  | nil => rfl
  | cons w ws ih => simp only [paint, List.foldl_cons] at ih ⊢; rw [ih, List.length_set]

theorem paint_append (ws ws' : List (Nat × Byte)) (buf : List Byte) : paint (ws ++ ws') buf = paint ws' (paint ws buf) := by
  simp [paint, List.foldl_append]

/-- The entries of a write of `bs` at `pos`. -/
def entries (pos : Nat) : List Byte → List (Nat × Byte)
  | [] => []
  | b :: bs => (pos, b) :: entries (pos + 1) bs

theorem entries_in (pos : Nat) (bs : List Byte) : ∀ w ∈ entries pos bs, pos ≤ w.1 ∧ w.1 < pos + bs.length := by
  induction bs generalizing pos with
  | nil => intro w hw; cases hw
  | cons b bs ih =>
    intro w hw
    rcases List.mem_cons.1 hw with rfl | hw
    · simp
    · have := ih (pos + 1) w hw
      simp only [List.length_cons]; omega

theorem splice_paint (buf bs : List Byte) (pos : Nat) (h : pos + bs.length ≤ buf.length) :
    splice buf pos bs = paint (entries pos bs) buf := by
  induction bs generalizing buf pos with
  | nil => simp [splice, entries, paint]
  | cons b bs ih =>
    simp only [List.length_cons] at h
    simp only [entries, paint, List.foldl_cons]
    have := ih (buf.set pos b) (pos + 1) (by rw [List.length_set]; omega)
    simp only [paint] at this
    rw [← this]
    refine List.ext_getElem? fun i => ?_
    rw [splice_getElem? _ _ _ _ (by simp only [List.length_cons]; omega),
      splice_getElem? _ _ _ _ (by rw [List.length_set]; omega), List.getElem?_set]
    simp only [List.length_cons]
    by_cases h1 : i = pos
    · subst h1
      rw [if_pos (by omega), if_neg (by omega), if_pos rfl, if_pos (by omega)]
      simp
    · by_cases h2 : pos ≤ i ∧ i < pos + (bs.length + 1)
      · rw [if_pos h2, if_pos (by omega)]
        obtain ⟨j, hj⟩ : ∃ j, i = pos + 1 + j := ⟨i - pos - 1, by omega⟩
        subst hj
        rw [show pos + 1 + j - pos = j + 1 from by omega, List.getElem?_cons_succ, show pos + 1 + j - (pos + 1) = j from by omega]
      · rw [if_neg h2, if_neg (by omega), if_neg (Ne.symm h1)]

/-- `g` acts on buffers of `L` bytes as one fixed outcome: the same exception, the same undefined behaviour, or one script inside the
buffer together with one value. -/
def Scripted {α β : Type} (L : Nat) (mk : α → List Byte → β) (g : List Byte → Res β) : Prop :=
  ∃ r : Res (α × List (Nat × Byte)), (∀ x ws, r = .ok (x, ws) → ∀ w ∈ ws, w.1 < L) ∧
    ∀ buf, buf.length = L → g buf = r >>= fun p => .ok (mk p.1 (paint p.2 buf))

theorem Scripted.throw {α β : Type} {L : Nat} {mk : α → List Byte → β} (e : String) : Scripted L mk (fun _ => .throw e) :=
  ⟨.throw e, (fun _ _ h => by simp at h), fun _ _ => rfl⟩

theorem Scripted.ub {α β : Type} {L : Nat} {mk : α → List Byte → β} (k : UB) : Scripted L mk (fun _ => .ub k) :=
  ⟨.ub k, (fun _ _ h => by simp at h), fun _ _ => rfl⟩

theorem Scripted.pure {α β : Type} {L : Nat} {mk : α → List Byte → β} (x : α) : Scripted L mk (fun buf => .ok (mk x buf)) :=
  ⟨.ok (x, []), (fun _ _ h => by simp only [Res.ok.injEq, Prod.mk.injEq] at h; simp [← h.2]), fun _ _ => rfl⟩

theorem Scripted.congr {α β : Type} {L : Nat} {mk : α → List Byte → β} {g g' : List Byte → Res β} (h : Scripted L mk g)
    (he : ∀ buf, buf.length = L → g' buf = g buf) : Scripted L mk g' := by
  obtain ⟨r, hi, hr⟩ := h
  exact ⟨r, hi, fun buf hb => by rw [he buf hb, hr buf hb]⟩

theorem Scripted.bind {α β γ δ : Type} {L : Nat} {mk : α → List Byte → β} {mk' : γ → List Byte → δ} {g : List Byte → Res β}
    {k : β → Res δ} (hg : Scripted L mk g) (hk : ∀ x, Scripted L mk' (fun buf => k (mk x buf))) :
    Scripted L mk' (fun buf => g buf >>= k) := by
  obtain ⟨r, hi, hr⟩ := hg
  cases r with
  | throw e => exact (Scripted.throw e).congr fun buf hb => by rw [hr buf hb]; rfl
  | ub u => exact (Scripted.ub u).congr fun buf hb => by rw [hr buf hb]; rfl
  | ok p =>
    obtain ⟨x, ws⟩ := p
    obtain ⟨r', hi', hr'⟩ := hk x
    refine ⟨r' >>= fun q => .ok (q.1, ws ++ q.2), ?_, ?_⟩
    · intro y us h w hw
      obtain ⟨⟨z, vs⟩, h1, h2⟩ := Res.bind_eq_ok.1 h
      simp only [Res.ok.injEq, Prod.mk.injEq] at h2
      rw [← h2.2, List.mem_append] at hw
      exact hw.elim (hi x ws rfl w) (hi' z vs h1 w)
    · intro buf hb
      show (g buf >>= k) = _
      rw [hr buf hb]
      simp only [Res.ok_bind]
      have e := hr' (paint ws buf) (by rw [paint_length, hb])
      simp only at e
      rw [e]
      cases r' with
      | throw e => rfl
      | ub u => rfl
      | ok q => simp only [Res.ok_bind]; rw [paint_append]

/-- A step that does not look at the buffer. -/
theorem Scripted.let_ {α β γ : Type} {L : Nat} {mk : α → List Byte → β} {e : Res γ} {k : γ → List Byte → Res β}
    (hk : ∀ x, e = .ok x → Scripted L mk (k x)) : Scripted L mk (fun buf => e >>= fun x => k x buf) := by
  cases e with
  | throw e => exact Scripted.throw e
  | ub u => exact Scripted.ub u
  | ok x => exact (hk x rfl).congr fun buf _ => rfl

theorem Scripted.ite {α β : Type} {L : Nat} {mk : α → List Byte → β} {p : Prop} [Decidable p] {g h : List Byte → Res β}
    (hg : p → Scripted L mk g) (hh : ¬ p → Scripted L mk h) : Scripted L mk (fun buf => if p then g buf else h buf) := by
  by_cases hp : p
  · exact (hg hp).congr fun _ _ => if_pos hp
  · exact (hh hp).congr fun _ _ => if_neg hp

theorem Scripted.len {α β : Type} {L : Nat} {mk : α → List Byte → β} {p : Nat → Prop} [DecidablePred p] {g h : List Byte → Res β}
    (hg : p L → Scripted L mk g) (hh : ¬ p L → Scripted L mk h) : Scripted L mk (fun buf => if p buf.length then g buf else h buf) := by
  by_cases hp : p L
  · exact (hg hp).congr fun _ hb => if_pos (hb ▸ hp)
  · exact (hh hp).congr fun _ hb => if_neg (hb ▸ hp)

theorem Scripted.mk_congr {α β γ : Type} {L : Nat} {mk : α → List Byte → β} {mk' : γ → List Byte → β} {g : List Byte → Res β}
    (h : Scripted L mk g) (f : α → γ) (hf : ∀ x b, mk x b = mk' (f x) b) : Scripted L mk' g := by
  obtain ⟨r, hi, hr⟩ := h
  refine ⟨r >>= fun p => .ok (f p.1, p.2), ?_, fun buf hb => ?_⟩
  · intro x ws h
    obtain ⟨⟨y, vs⟩, h1, h2⟩ := Res.bind_eq_ok.1 h
    simp only [Res.ok.injEq, Prod.mk.injEq] at h2
    rw [← h2.2]; exact hi y vs h1
  · rw [hr buf hb]
    cases r with
    | throw e => rfl
    | ub u => rfl
    | ok q => simp only [Res.ok_bind]; rw [hf]

/-! ### the functions of the decoder -/

theorem writeAt_scripted (L pos : Nat) (bs : List Byte) : Scripted (α := Unit) L (fun _ b => b) (fun buf => writeAt buf pos bs) := by
  by_cases h : pos + bs.length ≤ L
  · refine ⟨.ok ((), entries pos bs), ?_, fun buf hb => ?_⟩
    · intro x ws he w hw
      simp only [Res.ok.injEq, Prod.mk.injEq] at he
      rw [← he.2] at hw
      have := entries_in pos bs w hw
      omega
    · show writeAt buf pos bs = _
      rw [writeAt_eq_ok.2 ⟨by omega, rfl⟩, splice_paint _ _ _ (by omega)]; rfl
  · exact (Scripted.ub .mem).congr fun buf hb => by unfold writeAt; rw [if_neg (by omega)]

theorem applyWrites_scripted (L base : Nat) (ws : List Write) :
    Scripted (α := Unit) L (fun _ b => b) (fun buf => applyWrites buf base ws) := by
  induction ws with
  | nil => exact Scripted.pure (mk := fun (_ : Unit) b => b) ()
  | cons w ws ih => exact (writeAt_scripted L (base + w.1) w.2).bind fun _ => ih

theorem decodeFields_scripted (F : FloatOps) (L base : Nat) (ds : List Dec) (input : List Byte) :
    Scripted (α := List Dec × List Byte) L (fun x b => (x.1, x.2, b)) (fun buf => decodeFields F ds input buf base) := by
  induction ds generalizing input with
  | nil => exact Scripted.pure (mk := fun (x : List Dec × List Byte) b => (x.1, x.2, b)) ([], input)
  | cons d ds ih =>
    refine Scripted.let_ fun x _ => ?_
    obtain ⟨d', ws, input'⟩ := x
    refine (applyWrites_scripted L base ws).bind fun _ => ?_
    refine (ih input').bind fun y => ?_
    exact Scripted.pure (mk := fun (x : List Dec × List Byte) b => (x.1, x.2, b)) (d' :: y.1, y.2)

theorem decodePointsV4_scripted (F : FloatOps) (L min step n : Nat) (ds : List Dec) (input : List Byte) (base : Nat) :
    Scripted (α := List Dec × List Byte × Nat) L (fun x b => (x.1, x.2.1, b, x.2.2))
      (fun buf => decodePointsV4 F min step n ds input buf base) := by
  induction n generalizing ds input base with
  | zero => exact Scripted.pure (mk := fun (x : List Dec × List Byte × Nat) b => (x.1, x.2.1, b, x.2.2)) (ds, input, base)
  | succ n ih =>
    refine Scripted.ite (fun _ => Scripted.throw _) fun _ => ?_
    refine Scripted.len (p := fun l => l - base < step) (fun _ => Scripted.throw _) fun _ => ?_
    exact (decodeFields_scripted F L base ds input).bind fun y => ih y.1 y.2 (base + step)

theorem decodeUntilEmptyV4_scripted (F : FloatOps) (L min step fuel : Nat) (ds : List Dec) (input : List Byte) (base : Nat) :
    Scripted (α := List Dec × List Byte × Nat) L (fun x b => (x.1, x.2.1, b, x.2.2))
      (fun buf => decodeUntilEmptyV4 F min step fuel ds input buf base) := by
  induction fuel generalizing ds input base with
  | zero =>
    refine Scripted.ite (fun _ => ?_) fun _ => Scripted.ub _
    exact Scripted.pure (mk := fun (x : List Dec × List Byte × Nat) b => (x.1, x.2.1, b, x.2.2)) (ds, input, base)
  | succ n ih =>
    refine Scripted.ite (fun _ => ?_) fun _ => ?_
    · exact Scripted.pure (mk := fun (x : List Dec × List Byte × Nat) b => (x.1, x.2.1, b, x.2.2)) (ds, input, base)
    refine Scripted.ite (fun _ => Scripted.throw _) fun _ => ?_
    refine Scripted.len (p := fun l => l - base < step) (fun _ => Scripted.throw _) fun _ => ?_
    exact (decodeFields_scripted F L base ds input).bind fun y => ih y.1 y.2 (base + step)

theorem decodeV4Chunk_scripted (F : FloatOps) (fuel L : Nat) (ds : List Dec) (min step expected : Nat) (input : List Byte) (base : Nat) :
    Scripted (α := List Dec × Nat) L (fun x b => (x.1, b, x.2))
      (fun buf => decodeV4Chunk F fuel ds min step expected input buf base) := by
  unfold decodeV4Chunk
  refine Scripted.ite (fun _ => ?_) fun _ => ?_
  · refine (decodePointsV4_scripted F L min step expected (ds.map Dec.reset) input base).bind fun y => ?_
    exact Scripted.pure (mk := fun (x : List Dec × Nat) b => (x.1, b, x.2)) (y.1, y.2.2)
  · refine (decodeUntilEmptyV4_scripted F L min step fuel (ds.map Dec.reset) input base).bind fun y => ?_
    exact Scripted.pure (mk := fun (x : List Dec × Nat) b => (x.1, b, x.2)) (y.1, y.2.2)

theorem writeValue_scripted (L base step : Nat) (f : AField) (i : Nat) (v : BitVec 64) :
    Scripted (α := Unit) L (fun _ b => b) (fun buf => writeValue buf base step f i v) := writeAt_scripted L _ _

theorem decodeDeltas_scripted (L : Nat) (f : AField) (base step n i : Nat) (prev : BitVec 64) (input : List Byte) :
    Scripted (α := List Byte) L (fun x b => (x, b)) (fun buf => decodeDeltas f base step n i prev input buf) := by
  induction n generalizing i prev input with
  | zero => exact Scripted.pure (mk := fun (x : List Byte) b => (x, b)) input
  | succ n ih =>
    refine Scripted.let_ fun x _ => ?_
    refine Scripted.let_ fun v _ => ?_
    exact (writeValue_scripted L base step f i v).bind fun _ => ih (i + 1) v _

theorem decodePaletteIndexes_scripted (L : Nat) (f : AField) (base step bits : Nat) (palette : List (BitVec 64)) (n i : Nat)
    (ptr : List Byte) (scratch : BitVec 64) (held : Nat) :
    Scripted (α := Unit) L (fun _ b => b) (fun buf => decodePaletteIndexes f base step bits palette n i ptr scratch held buf) := by
  induction n generalizing i ptr scratch held with
  | zero => exact Scripted.pure (mk := fun (_ : Unit) b => b) ()
  | succ n ih =>
    refine Scripted.let_ fun x _ => ?_
    obtain ⟨idx, ptr', scratch', held'⟩ := x
    cases hv : palette[idx]? with
    | none => exact (Scripted.throw _).congr fun buf _ => by simp only [hv]; rfl
    | some v =>
      have := (writeValue_scripted L base step f i v).bind (mk' := fun (_ : Unit) b => b) fun _ => ih (i + 1) ptr' scratch' held'
      exact this.congr fun buf _ => by simp only [hv]

theorem writeRun_scripted (L : Nat) (f : AField) (base step : Nat) (v : BitVec 64) (k i : Nat) :
    Scripted (α := Unit) L (fun _ b => b) (fun buf => writeRun f base step v k i buf) := by
  induction k generalizing i with
  | zero => exact Scripted.pure (mk := fun (_ : Unit) b => b) ()
  | succ k ih => exact (writeValue_scripted L base step f i v).bind fun _ => ih (i + 1)

theorem decodeRleRuns_scripted (L : Nat) (f : AField) (base step expected r i : Nat) (input : List Byte) :
    Scripted (α := Nat × List Byte) L (fun x b => (x.1, x.2, b)) (fun buf => decodeRleRuns f base step expected r i input buf) := by
  induction r generalizing i input with
  | zero => exact Scripted.pure (mk := fun (x : Nat × List Byte) b => (x.1, x.2, b)) (i, input)
  | succ r ih =>
    refine Scripted.ite (fun _ => Scripted.throw _) fun _ => ?_
    refine Scripted.let_ fun bs _ => ?_
    refine Scripted.let_ fun x _ => ?_
    refine Scripted.ite (fun _ => Scripted.throw _) fun _ => ?_
    exact (writeRun_scripted L f base step _ _ i).bind fun _ => ih _ _

theorem writeDeltaRun_scripted (L : Nat) (f : AField) (base step : Nat) (d : BitVec 64) (k i : Nat) (prev : BitVec 64) :
    Scripted (α := BitVec 64) L (fun x b => (x, b)) (fun buf => writeDeltaRun f base step d k i prev buf) := by
  induction k generalizing i prev with
  | zero => exact Scripted.pure (mk := fun (x : BitVec 64) b => (x, b)) prev
  | succ k ih =>
    refine Scripted.let_ fun v _ => ?_
    exact (writeValue_scripted L base step f i v).bind fun _ => ih (i + 1) v

theorem decodeDeltaRleRuns_scripted (L : Nat) (f : AField) (base step expected r i : Nat) (prev : BitVec 64) (input : List Byte) :
    Scripted (α := Nat × List Byte) L (fun x b => (x.1, x.2, b))
      (fun buf => decodeDeltaRleRuns f base step expected r i prev input buf) := by
  induction r generalizing i prev input with
  | zero => exact Scripted.pure (mk := fun (x : Nat × List Byte) b => (x.1, x.2, b)) (i, input)
  | succ r ih =>
    refine Scripted.let_ fun x _ => ?_
    refine Scripted.let_ fun y _ => ?_
    refine Scripted.ite (fun _ => Scripted.throw _) fun _ => ?_
    exact (writeDeltaRun_scripted L f base step _ _ i prev).bind fun z => ih _ z _

theorem decodeSection_scripted (L : Nat) (f : AField) (base step expected : Nat) (input : List Byte) :
    Scripted (α := List Byte) L (fun x b => (x, b)) (fun buf => decodeSection f base step expected input buf) := by
  cases input with
  | nil => exact Scripted.throw _
  | cons m input =>
    refine Scripted.ite (fun _ => decodeDeltas_scripted L f base step expected 0 0#64 input) fun _ => ?_
    refine Scripted.ite (fun _ => ?_) fun _ => ?_
    · refine Scripted.let_ fun x _ => ?_
      refine Scripted.ite (fun _ => Scripted.throw _) fun _ => ?_
      refine Scripted.let_ fun y _ => ?_
      refine Scripted.ite (fun _ => Scripted.throw _) fun _ => ?_
      refine (decodePaletteIndexes_scripted L f base step _ y.1 expected 0 y.2 0#64 0).bind fun _ => ?_
      exact Scripted.pure (mk := fun (x : List Byte) b => (x, b)) _
    refine Scripted.ite (fun _ => ?_) fun _ => ?_
    · refine Scripted.let_ fun x _ => ?_
      refine (decodeRleRuns_scripted L f base step expected x.1 0 x.2).bind fun y => ?_
      refine Scripted.ite (fun _ => Scripted.throw _) fun _ => ?_
      exact Scripted.pure (mk := fun (x : List Byte) b => (x, b)) _
    refine Scripted.ite (fun _ => ?_) fun _ => Scripted.throw _
    · refine Scripted.let_ fun x _ => ?_
      refine (decodeDeltaRleRuns_scripted L f base step expected x.1 0 0#64 x.2).bind fun y => ?_
      refine Scripted.ite (fun _ => Scripted.throw _) fun _ => ?_
      exact Scripted.pure (mk := fun (x : List Byte) b => (x, b)) _

theorem decodeSections_scripted (L base step expected : Nat) (as : List AField) (input : List Byte) :
    Scripted (α := List Byte) L (fun x b => (x, b)) (fun buf => decodeSections base step expected as input buf) := by
  induction as generalizing input with
  | nil => exact Scripted.pure (mk := fun (x : List Byte) b => (x, b)) input
  | cons f as ih => exact (decodeSection_scripted L f base step expected input).bind fun x => ih x

theorem decodePointsV5_scripted (F : FloatOps) (L step n : Nat) (ds : List Dec) (input : List Byte) (base : Nat) :
    Scripted (α := List Dec × List Byte) L (fun x b => (x.1, x.2, b)) (fun buf => decodePointsV5 F step n ds input buf base) := by
  induction n generalizing ds input base with
  | zero => exact Scripted.pure (mk := fun (x : List Dec × List Byte) b => (x.1, x.2, b)) (ds, input)
  | succ n ih => exact (decodeFields_scripted F L base ds input).bind fun y => ih y.1 y.2 (base + step)

theorem decodeV5Chunk_scripted (F : FloatOps) (L : Nat) (ds : List Dec) (as : List AField) (step expected : Nat) (input : List Byte)
    (base : Nat) : Scripted (α := List Dec × Nat) L (fun x b => (x.1, b, x.2))
      (fun buf => decodeV5Chunk F ds as step expected input buf base) := by
  refine Scripted.ite (fun _ => Scripted.throw _) fun _ => ?_
  refine Scripted.len (p := fun l => l - base < expected * step) (fun _ => Scripted.throw _) fun _ => ?_
  refine (decodePointsV5_scripted F L step expected (ds.map Dec.reset) input base).bind fun y => ?_
  refine (decodeSections_scripted L base step expected as y.2).bind fun z => ?_
  refine Scripted.ite (fun _ => Scripted.throw _) fun _ => ?_
  exact Scripted.pure (mk := fun (x : List Dec × Nat) b => (x.1, b, x.2)) (y.1, base + expected * step)

theorem decodeChunk_scripted (F : FloatOps) (C : Compressor) (fuel L : Nat) (info : EncodingInfo) (ds : List Dec) (min : Nat)
    (chunk : List Byte) (base expected : Nat) : Scripted (α := List Dec × Nat) L (fun x b => (x.1, b, x.2))
      (fun buf => decodeChunk F C fuel info ds min chunk buf base expected) := by
  refine Scripted.let_ fun view _ => ?_
  refine Scripted.ite (fun _ => ?_) fun _ => ?_
  · exact decodeV5Chunk_scripted F L ds _ _ expected view base
  · exact decodeV4Chunk_scripted F fuel L ds min _ expected view base

theorem decodeLoop_scripted (F : FloatOps) (C : Compressor) (L : Nat) (info : EncodingInfo) (m points : Nat) :
    ∀ (ds : List Dec) (data : List Byte) (base : Nat),
    Scripted (α := Unit) L (fun _ b => b) (fun buf => decodeLoop F C info m points ds data buf base) := by
  induction points using Nat.strongRecOn with
  | _ points ih =>
  intro ds data base
  refine Scripted.congr (g := fun buf => if data.length = 0 then
    (if points ≠ 0 then .throw "Encoded data ended before all declared points were decoded" else .ok buf)
    else if _h : points = 0 then .throw "Encoded data contains more chunks than declared points"
    else do
      let (size, data) ← decodeInt 4 data
      if size > data.length then .throw "Invalid chunk size found while decoding"
      else do
        let n := min points kPointsPerChunk
        let (ds, buf, base) ← decodeChunk F C 0 info ds m (data.take size) buf base n
        decodeLoop F C info m (points - n) ds (data.drop size) buf base) ?_ (fun buf _ => by rw [decodeLoop])
  refine Scripted.ite (fun _ => ?_) fun _ => ?_
  · refine Scripted.ite (fun _ => Scripted.throw _) fun _ => ?_
    exact Scripted.pure (mk := fun (_ : Unit) b => b) ()
  by_cases hp : points = 0
  · exact (Scripted.throw _).congr fun buf _ => by rw [dif_pos hp]
  refine Scripted.congr ?_ (fun buf _ => dif_neg hp)
  refine Scripted.let_ fun x _ => ?_
  refine Scripted.ite (fun _ => Scripted.throw _) fun _ => ?_
  refine (decodeChunk_scripted F C 0 L info ds m _ base _).bind fun y => ?_
  exact ih (points - min points kPointsPerChunk) (by simp only [kPointsPerChunk]; omega) y.1 _ y.2

theorem decodeCloud_scripted (F : FloatOps) (C : Compressor) (fuel L : Nat) (info : EncodingInfo) (data : List Byte) :
    Scripted (α := Unit) L (fun _ b => b) (fun buf => decodeCloud F C fuel info data buf) := by
  unfold decodeCloud
  refine Scripted.let_ fun x _ => ?_
  refine Scripted.ite (fun _ => Scripted.throw _) fun _ => ?_
  refine Scripted.ite (fun _ => decodeLoop_scripted F C L info _ _ _ _ _) fun _ => ?_
  refine (decodeChunk_scripted F C fuel L info x.1 x.2 data 0 0).bind fun y => ?_
  exact Scripted.pure (mk := fun (_ : Unit) b => b) ()

end Cloudini
