import Verif.Model.CodecCommon
import Verif.Lemmas.FieldCodec

/-! Writable views and the effect of a list of absolute writes. -/

namespace Cloudini

theorem W.raw_ok {w : W} {bs : List Byte} (h : bs.length ≤ w.room) :
    w.raw bs = .ok ⟨w.out ++ bs, w.room - bs.length⟩ := by
  unfold W.raw; rw [if_pos h]

theorem W.raw_eq_ok {w w' : W} {bs : List Byte} :
    w.raw bs = .ok w' ↔ bs.length ≤ w.room ∧ w' = ⟨w.out ++ bs, w.room - bs.length⟩ := by
  unfold W.raw; split
  · next h => simp [h, eq_comm]
  · next h => simp [h]

theorem W.checked_ok {w : W} {msg : String} {bs : List Byte} (h : bs.length ≤ w.room) :
    w.checked msg bs = .ok ⟨w.out ++ bs, w.room - bs.length⟩ := by
  unfold W.checked; rw [if_pos h]

theorem W.checked_eq_ok {w w' : W} {msg : String} {bs : List Byte} :
    w.checked msg bs = .ok w' ↔ bs.length ≤ w.room ∧ w' = ⟨w.out ++ bs, w.room - bs.length⟩ := by
  unfold W.checked; split
  · next h => simp [h, eq_comm]
  · next h => simp [h]

/-- Shift relative writes to absolute positions. -/
def shiftWrites (base : Nat) (ws : List Write) : List Write := ws.map fun w => (base + w.1, w.2)

theorem applyWrites_append (buf : List Byte) (base : Nat) (xs ys : List Write) :
    applyWrites buf base (xs ++ ys) = (applyWrites buf base xs >>= fun b => applyWrites b base ys) := by
  induction xs generalizing buf with
  | nil => rfl
  | cons x xs ih =>
    obtain ⟨o, v⟩ := x
    simp only [List.cons_append, applyWrites]
    rw [Res.bind_assoc]
    congr 1
    funext b
    exact ih b

theorem applyWrites_shift (buf : List Byte) (base : Nat) (ws : List Write) :
    applyWrites buf base ws = applyWrites buf 0 (shiftWrites base ws) := by
  induction ws generalizing buf with
  | nil => rfl
  | cons x xs ih =>
    obtain ⟨o, v⟩ := x
    simp only [applyWrites, shiftWrites, List.map_cons, Nat.zero_add]
    congr 1
    funext b
    exact ih b

theorem writeAt_length {buf buf' bs : List Byte} {pos : Nat} (h : writeAt buf pos bs = .ok buf') :
    buf'.length = buf.length := by
  rw [writeAt_eq_ok] at h
  obtain ⟨h, rfl⟩ := h
  exact splice_length h

theorem applyWrites_length {buf buf' : List Byte} {base : Nat} {ws : List Write}
    (h : applyWrites buf base ws = .ok buf') : buf'.length = buf.length := by
  induction ws generalizing buf with
  | nil => simp only [applyWrites, Res.ok.injEq] at h; rw [h]
  | cons x xs ih =>
    obtain ⟨o, v⟩ := x
    simp only [applyWrites] at h
    rw [Res.bind_eq_ok] at h
    obtain ⟨b, h1, h2⟩ := h
    rw [ih h2, writeAt_length h1]

/-- Every write lies inside a buffer of `len` bytes. -/
def FitsAll (len : Nat) (ws : List Write) : Prop := ∀ w ∈ ws, w.1 + w.2.length ≤ len

theorem applyWrites_fits {buf : List Byte} {ws : List Write} (h : FitsAll buf.length ws) :
    ∃ buf', applyWrites buf 0 ws = .ok buf' := by
  induction ws generalizing buf with
  | nil => exact ⟨buf, rfl⟩
  | cons x xs ih =>
    obtain ⟨o, v⟩ := x
    have h1 : o + v.length ≤ buf.length := h (o, v) (by simp)
    have h2 : writeAt buf (0 + o) v = .ok (splice buf (0 + o) v) := writeAt_eq_ok.2 ⟨by omega, rfl⟩
    have hl := writeAt_length h2
    obtain ⟨b', hb⟩ := ih (buf := splice buf (0 + o) v) (fun w hw => by rw [hl]; exact h w (by simp [hw]))
    exact ⟨b', by simp only [applyWrites, h2, Res.ok_bind, hb]⟩

/-- All writes agree with a target contents. -/
def Agrees (target : Nat → Option Byte) (ws : List Write) : Prop :=
  ∀ w ∈ ws, ∀ j (hj : j < w.2.length), target (w.1 + j) = some w.2[j]

/-- Position `p` is written. -/
def Written (ws : List Write) (p : Nat) : Prop := ∃ w ∈ ws, w.1 ≤ p ∧ p < w.1 + w.2.length

/-- If all writes agree with a target, the result has the target's bytes where something was written and the
old bytes elsewhere: the order of the writes does not matter. -/
theorem applyWrites_target {buf buf' : List Byte} {ws : List Write} (target : Nat → Option Byte)
    (ha : Agrees target ws) (h : applyWrites buf 0 ws = .ok buf') (p : Nat) (hp : p < buf.length) :
    (Written ws p → buf'[p]? = target p) ∧ (¬ Written ws p → buf'[p]? = buf[p]?) := by
  induction ws generalizing buf with
  | nil =>
    simp only [applyWrites, Res.ok.injEq] at h
    subst h
    refine ⟨fun ⟨w, hw, _⟩ => by simp at hw, fun _ => rfl⟩
  | cons x xs ih =>
    obtain ⟨o, v⟩ := x
    simp only [applyWrites] at h
    rw [Res.bind_eq_ok] at h
    obtain ⟨b, h1, h2⟩ := h
    have hl := writeAt_length h1
    rw [writeAt_eq_ok] at h1
    obtain ⟨hfit, rfl⟩ := h1
    have hih := ih (fun w hw => ha w (by simp [hw])) h2 (by rw [hl]; exact hp)
    have hsp := splice_getElem? buf v (0 + o) p hfit
    simp only [Nat.zero_add] at *
    by_cases hx : Written xs p
    · refine ⟨fun _ => hih.1 hx, fun hn => absurd ?_ hn⟩
      obtain ⟨w, hw, hb⟩ := hx
      exact ⟨w, by simp [hw], hb⟩
    · have hb := hih.2 hx
      by_cases hin : o ≤ p ∧ p < o + v.length
      · refine ⟨fun _ => ?_, fun hn => absurd ⟨(o, v), by simp, hin⟩ hn⟩
        have := ha (o, v) (by simp) (p - o) (by simp only; omega)
        simp only at this
        rw [show o + (p - o) = p from by omega] at this
        rw [hb, this, hsp, if_pos hin, List.getElem?_eq_getElem (by omega)]
      · refine ⟨fun ⟨w, hw, hb2⟩ => ?_, fun _ => ?_⟩
        · simp only [List.mem_cons] at hw
          rcases hw with rfl | hw
          · exact absurd hb2 hin
          · exact absurd ⟨w, hw, hb2⟩ hx
        · rw [hb, hsp, if_neg hin]

/-! ### writes that do not disturb each other -/

/-- Two writes touch no common byte. -/
def Apart (a b : Write) : Prop := a.1 + a.2.length ≤ b.1 ∨ b.1 + b.2.length ≤ a.1

theorem applyWrites_unwritten {buf buf' : List Byte} {ws : List Write} (h : applyWrites buf 0 ws = .ok buf') (p : Nat)
    (hn : ∀ w ∈ ws, p < w.1 ∨ w.1 + w.2.length ≤ p) : buf'[p]? = buf[p]? := by
  induction ws generalizing buf with
  | nil => simp only [applyWrites, Res.ok.injEq] at h; rw [h]
  | cons x xs ih =>
    obtain ⟨o, v⟩ := x
    simp only [applyWrites] at h
    rw [Res.bind_eq_ok] at h
    obtain ⟨b, h1, h2⟩ := h
    rw [writeAt_eq_ok] at h1
    obtain ⟨hfit, rfl⟩ := h1
    rw [ih h2 (fun w hw => hn w (by simp [hw])), splice_getElem? _ _ _ _ hfit, if_neg]
    have := hn (o, v) (by simp)
    simp only at this
    omega

theorem sub_ext {a b : List Byte} {o n : Nat} (h : ∀ p, o ≤ p → p < o + n → a[p]? = b[p]?) : sub a o n = sub b o n := by
  unfold sub
  apply List.ext_getElem?
  intro i
  rw [List.getElem?_take, List.getElem?_take]
  split
  · rw [List.getElem?_drop, List.getElem?_drop]
    exact h _ (by omega) (by omega)
  · rfl

theorem applyWrites_keeps {buf buf' : List Byte} {ws : List Write} (h : applyWrites buf 0 ws = .ok buf') (w : Write)
    (hw : sub buf w.1 w.2.length = w.2) (ha : ∀ w' ∈ ws, w' = w ∨ Apart w' w) : sub buf' w.1 w.2.length = w.2 := by
  induction ws generalizing buf with
  | nil => simp only [applyWrites, Res.ok.injEq] at h; rw [← h]; exact hw
  | cons x xs ih =>
    obtain ⟨o, v⟩ := x
    simp only [applyWrites] at h
    rw [Res.bind_eq_ok] at h
    obtain ⟨b, h1, h2⟩ := h
    rw [writeAt_eq_ok] at h1
    obtain ⟨hfit, rfl⟩ := h1
    refine ih h2 ?_ (fun w' hw' => ha w' (by simp [hw']))
    rcases ha (o, v) (by simp) with e | e
    · subst e
      simp only [Nat.zero_add] at hfit ⊢
      unfold sub splice
      rw [List.append_assoc, List.drop_append_of_le_length (by rw [List.length_take]; omega),
        List.drop_of_length_le (by rw [List.length_take]; omega), List.nil_append, List.take_left]
    · refine Eq.trans (sub_ext ?_) hw
      intro p hp1 hp2
      rw [splice_getElem? _ _ _ _ hfit, if_neg]
      unfold Apart at e
      simp only at e
      omega

/-- A write that no other write disturbs is found in the result. -/
theorem applyWrites_found {buf buf' : List Byte} {ws : List Write} (h : applyWrites buf 0 ws = .ok buf') (w : Write)
    (hw : w ∈ ws) (ha : ∀ w' ∈ ws, w' = w ∨ Apart w' w) : sub buf' w.1 w.2.length = w.2 := by
  induction ws generalizing buf with
  | nil => simp at hw
  | cons x xs ih =>
    obtain ⟨o, v⟩ := x
    simp only [applyWrites] at h
    rw [Res.bind_eq_ok] at h
    obtain ⟨b, h1, h2⟩ := h
    simp only [List.mem_cons] at hw
    rcases hw with rfl | hw
    · rw [writeAt_eq_ok] at h1
      obtain ⟨hfit, rfl⟩ := h1
      refine applyWrites_keeps h2 (o, v) ?_ (fun w' hw' => ha w' (by simp [hw']))
      simp only [Nat.zero_add] at hfit ⊢
      unfold sub splice
      rw [List.append_assoc, List.drop_append_of_le_length (by rw [List.length_take]; omega),
        List.drop_of_length_le (by rw [List.length_take]; omega), List.nil_append, List.take_left]
    · exact ih h2 hw (fun w' hw' => ha w' (by simp [hw']))

end Cloudini
