import Verif.Lemmas.Threads
import Verif.Lemmas.CloudMain

/-! The chunk-by-chunk work of the worker against `encodeView`. -/

namespace Cloudini.Threads

/-- Both succeed with the same value or both throw. -/
def Same {α : Type} (a b : Res α) : Prop := (∃ x, a = .ok x ∧ b = .ok x) ∨ (∃ m m', a = .throw m ∧ b = .throw m')

theorem workerChunk_same (C : Compressor) (opt : CompOpt) (ho : opt ≠ .none) (data : List Byte) (w : W) :
    Same (writeStage1Chunk C opt data w) (workerChunk C opt data w) := by
  unfold writeStage1Chunk workerChunk
  by_cases h1 : data.length > u32Max
  · rw [if_pos h1]
    by_cases h2 : w.room < 4
    · rw [if_pos h2]; exact Or.inr ⟨_, _, rfl, rfl⟩
    · rw [if_neg h2]
      have : compressChunk C opt data (w.room - 4) = .throw "Chunk too large" := by unfold compressChunk; rw [if_pos h1]
      rw [this]; exact Or.inr ⟨_, _, rfl, rfl⟩
  · rw [if_neg h1, if_neg ho]
    by_cases h2 : w.room < 4
    · rw [if_pos h2, if_pos h2]; exact Or.inr ⟨_, _, rfl, rfl⟩
    · rw [if_neg h2, if_neg h2]
      cases hc : compressChunk C opt data (w.room - 4) with
      | ok y =>
        simp only [Res.ok_bind, W.checked]
        by_cases h3 : y.length ≤ w.room - 4
        · rw [if_pos h3, if_pos h3]
          exact Or.inl ⟨_, rfl, by simp⟩
        · rw [if_neg h3, if_neg h3]
          exact Or.inr ⟨_, _, rfl, rfl⟩
      | throw m => exact Or.inr ⟨m, m, rfl, rfl⟩
      | ub k => exact absurd hc (compressChunk_noUB C opt _ _ k)

theorem Same.bind {α β : Type} {a b : Res α} {f g : α → Res β} (h : Same a b) (hf : ∀ x, a = .ok x → Same (f x) (g x)) : Same (a >>= f) (b >>= g) := by
  rcases h with ⟨x, rfl, rfl⟩ | ⟨m, m', rfl, rfl⟩
  · exact hf x rfl
  · exact Or.inr ⟨m, m', rfl, rfl⟩

theorem v4_same (F : FloatOps) (C : Compressor) (info : EncodingInfo) (ho : info.compression_opt ≠ .none) (cap points : Nat) (es : List Enc)
    (mem : List Byte) (w : W) (size : Nat) (es' : List Enc) (cs : List (List Byte))
    (h : stage1V4 F info.point_step.toNat cap points es mem = .ok (es', cs)) :
    Same (encodeV4Loop F C info cap points es mem w size) (seqRun C info.compression_opt cs (w, size) >>= fun r => .ok (es', r.1, r.2)) := by
  induction points using Nat.strongRecOn generalizing es mem w size cs with
  | ind points ih =>
    unfold encodeV4Loop
    unfold stage1V4 at h
    by_cases hp : points = 0
    · rw [dif_pos hp] at h ⊢
      simp only [Res.ok.injEq, Prod.mk.injEq] at h
      obtain ⟨rfl, rfl⟩ := h
      exact Or.inl ⟨_, rfl, rfl⟩
    · rw [dif_neg hp] at h ⊢
      rw [Res.bind_eq_ok] at h
      obtain ⟨⟨es1, mem1, chunk⟩, h1, h⟩ := h
      simp only at h
      rw [Res.bind_eq_ok] at h
      obtain ⟨⟨es2, cs2⟩, h2, h⟩ := h
      simp only [Res.ok.injEq, Prod.mk.injEq] at h
      obtain ⟨rfl, rfl⟩ := h
      have hlt : points - min points kPointsPerChunk < points := by have := pos_K; omega
      have hw := workerChunk_same C info.compression_opt ho chunk w
      simp only [h1, Res.ok_bind, seqRun]
      rcases hw with ⟨⟨w1, n⟩, e1, e2⟩ | ⟨m, m', e1, e2⟩
      · rw [e1, e2]
        exact ih _ hlt es1 mem1 w1 (size + n) cs2 h2
      · rw [e1, e2]
        exact Or.inr ⟨m, m', rfl, rfl⟩

theorem v5_same (F : FloatOps) (C : Compressor) (hash : BitVec 64 → BitVec 64) (info : EncodingInfo) (ho : info.compression_opt ≠ .none)
    (cap points : Nat) (es : List Enc) (as : List AField) (mem : List Byte) (w : W) (size : Nat) (cs : List (List Byte))
    (h : stage1V5 F hash info.point_step.toNat cap points es as mem = .ok cs) :
    Same (encodeV5Loop F C hash info cap points es as mem w size) (seqRun C info.compression_opt cs (w, size)) := by
  induction points using Nat.strongRecOn generalizing es as mem w size cs with
  | ind points ih =>
    unfold encodeV5Loop
    unfold stage1V5 at h
    by_cases hp : points = 0
    · rw [dif_pos hp] at h ⊢
      simp only [Res.ok.injEq] at h
      subst h
      exact Or.inl ⟨_, rfl, rfl⟩
    · rw [dif_neg hp] at h ⊢
      rw [Res.bind_eq_ok] at h
      obtain ⟨⟨es1, as1, mem1, chunk⟩, h1, h⟩ := h
      simp only at h
      rw [Res.bind_eq_ok] at h
      obtain ⟨cs2, h2, h⟩ := h
      simp only [Res.ok.injEq] at h
      subst h
      have hlt : points - min points kPointsPerChunk < points := by have := pos_K; omega
      have hw := workerChunk_same C info.compression_opt ho chunk w
      simp only [h1, Res.ok_bind, seqRun]
      rcases hw with ⟨⟨w1, n⟩, e1, e2⟩ | ⟨m, m', e1, e2⟩
      · rw [e1, e2]
        exact ih _ hlt es1 as1 mem1 w1 (size + n) cs2 h2
      · rw [e1, e2]
        exact Or.inr ⟨m, m', rfl, rfl⟩

theorem payload_same (F : FloatOps) (C : Compressor) (enc : Encoder) (ho : enc.info.compression_opt ≠ .none) (cloud : List Byte) (w : W) (size : Nat)
    (es : List Enc) (cs : List (List Byte)) (h : stage1Chunks F enc cloud = .ok (es, cs)) :
    Same (encodePayload F C enc (cloud.length / enc.info.point_step.toNat) cloud w size)
      (seqRun C enc.info.compression_opt cs (w, size) >>= fun r => .ok ({ enc with encs := es }, r.1, r.2)) := by
  unfold stage1Chunks at h
  simp only at h
  unfold encodePayload
  by_cases hv : usesV5 enc.info = true
  · rw [if_pos hv] at h ⊢
    rw [Res.bind_eq_ok] at h
    obtain ⟨cap, h1, h⟩ := h
    rw [Res.bind_eq_ok] at h
    obtain ⟨⟨e, a⟩, h2, h⟩ := h
    simp only at h
    rw [Res.bind_eq_ok] at h
    obtain ⟨cs', h3, h⟩ := h
    simp only [Res.ok.injEq, Prod.mk.injEq] at h
    obtain ⟨rfl, rfl⟩ := h
    simp only [h1, h2, Res.ok_bind]
    exact (v5_same F C _ enc.info ho cap _ e a cloud w size cs' h3).bind (fun x _ => Or.inl ⟨_, rfl, rfl⟩)
  · rw [if_neg hv] at h ⊢
    rw [Res.bind_eq_ok] at h
    obtain ⟨m, h1, h⟩ := h
    simp only [h1, Res.ok_bind]
    have := v4_same F C enc.info ho _ _ enc.encs cloud w size es cs h
    rcases this with ⟨⟨e, w1, n⟩, a1, a2⟩ | ⟨m, m', a1, a2⟩
    · rw [a1]
      rw [Res.bind_eq_ok] at a2
      obtain ⟨r, b1, b2⟩ := a2
      simp only [Res.ok.injEq, Prod.mk.injEq] at b2
      obtain ⟨rfl, rfl, rfl⟩ := b2
      rw [b1]
      exact Or.inl ⟨_, rfl, rfl⟩
    · rw [a1]
      right
      cases hr : seqRun C enc.info.compression_opt cs (w, size) with
      | ok r => rw [hr] at a2; simp at a2
      | throw q => exact ⟨m, q, rfl, rfl⟩
      | ub k => rw [hr] at a2; simp at a2

/-- What a call of `encode` hands to the threaded machinery once the checks at its top have passed. -/
def callOf (enc : Encoder) (room : Nat) (wh : Bool) (chunks : List (List Byte)) : Call :=
  { header := if wh then enc.header else [], room := room, chunks := chunks }

theorem encodeView_same (F : FloatOps) (C : Compressor) (enc : Encoder) (ho : enc.info.compression_opt ≠ .none) (cloud : List Byte) (room : Nat) (wh : Bool)
    (es : List Enc) (cs : List (List Byte)) (m : Nat) (h0 : enc.info.point_step ≠ 0#32) (h1 : cloud.length % enc.info.point_step.toNat = 0)
    (hm : maxCompressedSize C enc.info (cloud.length / enc.info.point_step.toNat) = .ok m)
    (hr : m + (if wh then enc.header.length else 0) ≤ room) (h : stage1Chunks F enc cloud = .ok (es, cs)) :
    Same (encodeView F C enc cloud room wh)
      (seqRun C enc.info.compression_opt cs (start (callOf enc room wh cs)) >>= fun r => .ok ({ enc with encs := es }, r.1.out, r.2)) := by
  unfold encodeView
  rw [if_neg h0, if_neg (by omega)]
  simp only [hm, Res.ok_bind]
  rw [if_neg (by omega)]
  have hw : (⟨[], room⟩ : W).raw (if wh then enc.header else []) = .ok ⟨if wh then enc.header else [], room - (if wh then enc.header else []).length⟩ := by
    rw [W.raw_eq_ok]
    refine ⟨?_, by simp⟩
    cases wh <;> simp at hr ⊢
    omega
  rw [hw]
  have hs : start (callOf enc room wh cs) = (⟨if wh then enc.header else [], room - (if wh then enc.header else []).length⟩, if wh then enc.header.length else 0) := by
    cases wh <;> simp [start, callOf]
  rw [hs]
  simp only [Res.ok_bind]
  have := payload_same F C enc ho cloud ⟨if wh then enc.header else [], room - (if wh then enc.header else []).length⟩ (if wh then enc.header.length else 0) es cs h
  rcases this with ⟨⟨e, w1, n⟩, a1, a2⟩ | ⟨m, m', a1, a2⟩
  · rw [a1]
    rw [Res.bind_eq_ok] at a2
    obtain ⟨r, b1, b2⟩ := a2
    simp only [Res.ok.injEq, Prod.mk.injEq] at b2
    obtain ⟨rfl, rfl, rfl⟩ := b2
    rw [b1]
    exact Or.inl ⟨_, rfl, rfl⟩
  · rw [a1]
    right
    cases hr : seqRun C enc.info.compression_opt cs (⟨if wh then enc.header else [], room - (if wh then enc.header else []).length⟩, if wh then enc.header.length else 0) with
    | ok r => rw [hr] at a2; simp at a2
    | throw q => exact ⟨m, q, rfl, rfl⟩
    | ub k => rw [hr] at a2; simp at a2

end Cloudini.Threads
