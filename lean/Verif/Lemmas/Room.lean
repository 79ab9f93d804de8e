import Verif.Lemmas.CloudMain

/-!
# More room in the output changes nothing
-/

namespace Cloudini

/-- What the two libraries do: a destination larger than one that sufficed gives the same bytes. -/
def Compressor.Mono (C : Compressor) : Prop := ∀ o x cap cap' y, C.compress o x cap = some y → cap ≤ cap' → C.compress o x cap' = some y

/-- The same writer behind `p`, with `d` more bytes of room. -/
def W.plus (w : W) (p : List Byte) (d : Nat) : W := ⟨p ++ w.out, w.room + d⟩

theorem compressChunk_plus {C : Compressor} (hC : C.Mono) {opt : CompOpt} {data y : List Byte} {room room' : Nat} (hle : room ≤ room')
    (hlz : opt = .lz4 → room' ≤ intMax) (h : compressChunk C opt data room = .ok y) : compressChunk C opt data room' = .ok y := by
  unfold compressChunk at h ⊢
  split at h
  · simp at h
  next h0 =>
  rw [if_neg h0]
  cases opt with
  | lz4 =>
    simp only at h ⊢
    split at h
    · simp at h
    next h1 =>
    have hlz := hlz rfl
    rw [if_neg (by omega)]
    cases e : C.compress .lz4 data room with
    | none => rw [e] at h; simp at h
    | some z =>
      rw [e] at h
      rw [hC _ _ _ _ _ e hle]
      exact h
  | zstd =>
    simp only at h ⊢
    cases e : C.compress .zstd data room with
    | none => rw [e] at h; simp at h
    | some z =>
      rw [e] at h
      rw [hC _ _ _ _ _ e hle]
      exact h
  | _ => simp at h

theorem raw_plus {w w' : W} {bs : List Byte} (p : List Byte) (d : Nat) (h : w.raw bs = .ok w') : (w.plus p d).raw bs = .ok (w'.plus p d) := by
  unfold W.raw at h ⊢
  split at h
  next h0 =>
    simp only [Res.ok.injEq] at h
    subst h
    rw [if_pos (by simp only [W.plus]; omega)]
    simp only [W.plus, Res.ok.injEq, W.mk.injEq, List.append_assoc, true_and]
    omega
  · simp at h

theorem checked_plus {w w' : W} {bs : List Byte} {s : String} (p : List Byte) (d : Nat) (h : w.checked s bs = .ok w') : (w.plus p d).checked s bs = .ok (w'.plus p d) := by
  unfold W.checked at h ⊢
  split at h
  next h0 =>
    simp only [Res.ok.injEq] at h
    subst h
    rw [if_pos (by simp only [W.plus]; omega)]
    simp only [W.plus, Res.ok.injEq, W.mk.injEq, List.append_assoc, true_and]
    omega
  · simp at h

theorem writeStage1Chunk_plus {C : Compressor} (hC : C.Mono) {opt : CompOpt} {data : List Byte} {w w' : W} {n : Nat} (p : List Byte) (d : Nat)
    (hlz : opt = .lz4 → w.room + d ≤ intMax) (h : writeStage1Chunk C opt data w = .ok (w', n)) :
    writeStage1Chunk C opt data (w.plus p d) = .ok (w'.plus p d, n) ∧ w'.room ≤ w.room := by
  unfold writeStage1Chunk at h ⊢
  split at h
  · simp at h
  next h0 =>
  rw [if_neg h0]
  split at h
  next h1 =>
    rw [if_pos h1]
    obtain ⟨w1, e1, h⟩ := Res.bind_eq_ok.1 h
    obtain ⟨w2, e2, h⟩ := Res.bind_eq_ok.1 h
    simp only [Res.ok.injEq, Prod.mk.injEq] at h
    obtain ⟨rfl, rfl⟩ := h
    constructor
    · unfold W.encodeInt at e1 ⊢
      rw [checked_plus p d e1, Res.ok_bind, checked_plus p d e2]
      rfl
    · unfold W.encodeInt W.checked at e1
      unfold W.checked at e2
      split at e1
      · simp only [Res.ok.injEq] at e1
        subst e1
        split at e2
        · simp only [Res.ok.injEq] at e2
          subst e2
          show _ - _ - _ ≤ _
          omega
        · simp at e2
      · simp at e1
  next h1 =>
    rw [if_neg h1]
    split at h
    · simp at h
    next h2 =>
    rw [if_neg (by simp only [W.plus]; omega)]
    obtain ⟨y, e1, h⟩ := Res.bind_eq_ok.1 h
    obtain ⟨w2, e2, h⟩ := Res.bind_eq_ok.1 h
    simp only [Res.ok.injEq, Prod.mk.injEq] at h
    obtain ⟨rfl, rfl⟩ := h
    constructor
    · rw [compressChunk_plus hC (room' := (w.plus p d).room - 4) (by simp only [W.plus]; omega) (fun h => by have := hlz h; simp only [W.plus]; omega) e1, Res.ok_bind]
      have := checked_plus p d e2
      simp only [W.plus, ← List.append_assoc] at this ⊢
      rw [show w.room + d - 4 = w.room - 4 + d by omega, this]
      rfl
    · unfold W.checked at e2
      split at e2
      · simp only [Res.ok.injEq] at e2
        subst e2
        show _ - _ - _ ≤ _
        omega
      · simp at e2

theorem encodeV4Loop_plus {F : FloatOps} {C : Compressor} (hC : C.Mono) {info : EncodingInfo} {cap : Nat} (p : List Byte) (d : Nat) :
    ∀ {points : Nat} {es es' : List Enc} {mem : List Byte} {w w' : W} {size size' : Nat}, (info.compression_opt = .lz4 → w.room + d ≤ intMax) →
      encodeV4Loop F C info cap points es mem w size = .ok (es', w', size') →
      ∀ k, encodeV4Loop F C info cap points es mem (w.plus p d) (size + k) = .ok (es', w'.plus p d, size' + k) := by
  intro points
  induction points using Nat.strongRecOn with
  | _ points ih =>
    intro es es' mem w w' size size' hlz h k
    unfold encodeV4Loop at h ⊢
    by_cases h0 : points = 0
    · rw [dif_pos h0] at h ⊢
      simp only [Res.ok.injEq, Prod.mk.injEq] at h
      obtain ⟨rfl, rfl, rfl⟩ := h
      rfl
    · rw [dif_neg h0] at h ⊢
      obtain ⟨⟨es1, mem1, chunk⟩, e1, h⟩ := Res.bind_eq_ok.1 h
      obtain ⟨⟨w1, n⟩, e2, h⟩ := Res.bind_eq_ok.1 h
      obtain ⟨g1, g2⟩ := writeStage1Chunk_plus hC p d hlz e2
      rw [e1, Res.ok_bind]
      simp only [g1, Res.ok_bind]
      rw [show size + k + n = size + n + k by omega]
      exact ih _ (by simp only [kPointsPerChunk]; omega) (fun h => by have := hlz h; omega) h k

theorem encodeV5Loop_plus {F : FloatOps} {C : Compressor} (hC : C.Mono) {hash : BitVec 64 → BitVec 64} {info : EncodingInfo} {cap : Nat} (p : List Byte) (d : Nat) :
    ∀ {points : Nat} {es : List Enc} {as : List AField} {mem : List Byte} {w w' : W} {size size' : Nat},
      (info.compression_opt = .lz4 → w.room + d ≤ intMax) →
      encodeV5Loop F C hash info cap points es as mem w size = .ok (w', size') →
      ∀ k, encodeV5Loop F C hash info cap points es as mem (w.plus p d) (size + k) = .ok (w'.plus p d, size' + k) := by
  intro points
  induction points using Nat.strongRecOn with
  | _ points ih =>
    intro es as mem w w' size size' hlz h k
    unfold encodeV5Loop at h ⊢
    by_cases h0 : points = 0
    · rw [dif_pos h0] at h ⊢
      simp only [Res.ok.injEq, Prod.mk.injEq] at h
      obtain ⟨rfl, rfl⟩ := h
      rfl
    · rw [dif_neg h0] at h ⊢
      obtain ⟨⟨es1, as1, mem1, chunk⟩, e1, h⟩ := Res.bind_eq_ok.1 h
      obtain ⟨⟨w1, n⟩, e2, h⟩ := Res.bind_eq_ok.1 h
      obtain ⟨g1, g2⟩ := writeStage1Chunk_plus hC p d hlz e2
      rw [e1, Res.ok_bind]
      simp only [g1, Res.ok_bind]
      rw [show size + k + n = size + n + k by omega]
      exact ih _ (by simp only [kPointsPerChunk]; omega) (fun h => by have := hlz h; omega) h k

theorem encodePayload_plus {F : FloatOps} {C : Compressor} (hC : C.Mono) {enc enc' : Encoder} {points : Nat} {cloud : List Byte} {w w' : W}
    {size size' : Nat} (p : List Byte) (d : Nat) (hlz : enc.info.compression_opt = .lz4 → w.room + d ≤ intMax)
    (h : encodePayload F C enc points cloud w size = .ok (enc', w', size')) :
    ∀ k, encodePayload F C enc points cloud (w.plus p d) (size + k) = .ok (enc', w'.plus p d, size' + k) := by
  intro k
  unfold encodePayload at h ⊢
  split at h
  next h0 =>
    rw [if_pos h0]
    obtain ⟨cap, e1, h⟩ := Res.bind_eq_ok.1 h
    obtain ⟨⟨es, as⟩, e2, h⟩ := Res.bind_eq_ok.1 h
    obtain ⟨⟨w1, s1⟩, e3, h⟩ := Res.bind_eq_ok.1 h
    simp only [Res.ok.injEq, Prod.mk.injEq] at h
    obtain ⟨rfl, rfl, rfl⟩ := h
    simp only [e1, e2, Res.ok_bind, encodeV5Loop_plus hC p d hlz e3 k]
  next h0 =>
    rw [if_neg h0]
    obtain ⟨m, e1, h⟩ := Res.bind_eq_ok.1 h
    obtain ⟨⟨es, w1, s1⟩, e3, h⟩ := Res.bind_eq_ok.1 h
    simp only [Res.ok.injEq, Prod.mk.injEq] at h
    obtain ⟨rfl, rfl, rfl⟩ := h
    simp only [e1, Res.ok_bind, encodeV4Loop_plus hC p d hlz e3 k]

theorem raw_room {w w' : W} {bs : List Byte} (h : w.raw bs = .ok w') : w'.room ≤ w.room ∧ w'.out = w.out ++ bs ∧ w'.room + bs.length = w.room := by
  unfold W.raw at h
  split at h
  · simp only [Res.ok.injEq] at h
    subst h
    exact ⟨by show _ - _ ≤ _; omega, rfl, by show _ - _ + _ = _; omega⟩
  · simp at h

/-- More room gives the same result, and the header in front changes nothing. -/
theorem encodeView_plus {F : FloatOps} {C : Compressor} (hC : C.Mono) {enc enc' : Encoder} {cloud out : List Byte} {room room' n : Nat} (wh : Bool)
    (hle : room + (if wh then enc.header.length else 0) ≤ room') (hlz : enc.info.compression_opt = .lz4 → room' ≤ intMax)
    (h : encodeView F C enc cloud room false = .ok (enc', out, n)) :
    encodeView F C enc cloud room' wh = .ok (enc', (if wh then enc.header else []) ++ out, n + (if wh then enc.header.length else 0)) := by
  unfold encodeView at h ⊢
  split at h
  · simp at h
  next h0 =>
  rw [if_neg h0]
  split at h
  · simp at h
  next h1 =>
  rw [if_neg h1]
  obtain ⟨m, e1, h⟩ := Res.bind_eq_ok.1 h
  simp only [e1, Res.ok_bind]
  by_cases h2 : room < m + (if false = true then enc.header.length else 0)
  · rw [if_pos h2] at h
    simp at h
  rw [if_neg h2] at h
  simp only [Bool.false_eq_true, if_false] at h2
  rw [if_neg (by omega)]
  obtain ⟨w, e2, h⟩ := Res.bind_eq_ok.1 h
  obtain ⟨⟨enc1, w1, s1⟩, e3, h⟩ := Res.bind_eq_ok.1 h
  simp only [Res.ok.injEq, Prod.mk.injEq] at h
  obtain ⟨rfl, rfl, rfl⟩ := h
  simp only [Bool.false_eq_true, if_false] at e2 e3
  have hw : w = ⟨[], room⟩ := by
    unfold W.raw at e2
    simp only [List.length_nil, Nat.zero_le, if_true, List.append_nil, Nat.sub_zero, Res.ok.injEq] at e2
    exact e2.symm
  subst hw
  have hl : (if wh then enc.header else []).length = (if wh then enc.header.length else 0) := by split <;> rfl
  have hraw : (⟨[], room'⟩ : W).raw (if wh then enc.header else []) =
      .ok (W.plus ⟨[], room⟩ (if wh then enc.header else []) (room' - (if wh then enc.header.length else 0) - room)) := by
    unfold W.raw W.plus
    rw [if_pos (by show _ ≤ room'; omega), hl]
    simp only [List.nil_append, List.append_nil, Res.ok.injEq, W.mk.injEq, true_and]
    omega
  rw [hraw, Res.ok_bind]
  have := encodePayload_plus hC (if wh then enc.header else []) (room' - (if wh then enc.header.length else 0) - room) (w := ⟨[], room⟩)
    (fun h => by have := hlz h; simp only; omega) e3 (if wh then enc.header.length else 0)
  rw [Nat.zero_add] at this
  simp only [this, Res.ok_bind]
  rfl

/-- More room gives the same result. -/
theorem encodeView_more {F : FloatOps} {C : Compressor} (hC : C.Mono) {enc enc' : Encoder} {cloud out : List Byte} {room room' n : Nat} {wh : Bool}
    (hle : room ≤ room') (hlz : enc.info.compression_opt = .lz4 → room' ≤ intMax) (h : encodeView F C enc cloud room wh = .ok (enc', out, n)) :
    encodeView F C enc cloud room' wh = .ok (enc', out, n) := by
  obtain ⟨d, rfl⟩ : ∃ d, room' = room + d := ⟨room' - room, by omega⟩
  unfold encodeView at h ⊢
  split at h
  · simp at h
  next h0 =>
  rw [if_neg h0]
  split at h
  · simp at h
  next h1 =>
  rw [if_neg h1]
  obtain ⟨m, e1, h⟩ := Res.bind_eq_ok.1 h
  simp only [e1, Res.ok_bind]
  by_cases h2 : room < m + (if wh then enc.header.length else 0)
  · rw [if_pos h2] at h
    simp at h
  rw [if_neg h2] at h
  rw [if_neg (by omega)]
  obtain ⟨w, e2, h⟩ := Res.bind_eq_ok.1 h
  obtain ⟨⟨enc1, w1, s1⟩, e3, h⟩ := Res.bind_eq_ok.1 h
  simp only [Res.ok.injEq, Prod.mk.injEq] at h
  obtain ⟨rfl, rfl, rfl⟩ := h
  have hp := raw_plus [] d e2
  change (⟨[], room + d⟩ : W).raw _ = _ at hp
  rw [hp, Res.ok_bind]
  have := encodePayload_plus hC [] d (w := w) (fun h => by have := hlz h; have := (raw_room e2).1; simp only at this; omega) e3 0
  simp only [Nat.add_zero] at this
  simp only [this, Res.ok_bind]
  rfl

/-- The vector form, in terms of a view with the header. -/
theorem encodeVector_view {F : FloatOps} {C : Compressor} (hC : C.Mono) {enc enc' : Encoder} {cloud out : List Byte} {hb m room n : Nat}
    (hm : maxCompressedSize C enc.info (cloud.length / enc.info.point_step.toNat) = .ok m) (hle : hb + m ≤ room)
    (hlz : enc.info.compression_opt = .lz4 → room ≤ intMax) (h : encodeVector F C enc hb cloud = .ok (enc', out, n)) :
    encodeView F C enc cloud room true = .ok (enc', out, n) := by
  unfold encodeVector at h
  split at h
  · simp at h
  split at h
  · simp at h
  rw [hm, Res.ok_bind] at h
  obtain ⟨w, e1, h⟩ := Res.bind_eq_ok.1 h
  obtain ⟨⟨enc1, o1, n1⟩, e2, h⟩ := Res.bind_eq_ok.1 h
  simp only [Res.ok.injEq, Prod.mk.injEq] at h
  obtain ⟨rfl, rfl, rfl⟩ := h
  obtain ⟨_, g1, g2⟩ := raw_room e1
  simp only [List.nil_append] at g1 g2
  obtain ⟨_, _, _, _, _, _, hh, _, _, hs, _⟩ := encodeView_inv F C enc enc1 cloud _ false o1 n1 e2
  have := encodeView_plus hC true (room' := room) (by simp only [if_true]; omega) hlz e2
  rw [this, g1, hh, hs]
  simp only [if_true, Res.ok.injEq, Prod.mk.injEq, true_and]
  refine ⟨?_, by omega⟩
  rw [List.take_of_length_le]
  rw [List.length_append]
  omega

end Cloudini
