import Verif.Lemmas.CloudMain

/-! Sizes: when the output buffer suffices. -/

namespace Cloudini

/-- Stage 2 of all chunks. -/
def writeAll (C : Compressor) (opt : CompOpt) : List (List Byte) → W → Nat → Res (W × Nat)
  | [], w, size => .ok (w, size)
  | c :: cs, w, size => do
    let (w, n) ← writeStage1Chunk C opt c w
    writeAll C opt cs w (size + n)

theorem encodeV4Loop_eq (F : FloatOps) (C : Compressor) (info : EncodingInfo) (cap points : Nat) (es es' : List Enc) (mem : List Byte)
    (cs : List (List Byte)) (w : W) (size : Nat) (h : stage1V4 F info.point_step.toNat cap points es mem = .ok (es', cs)) :
    encodeV4Loop F C info cap points es mem w size =
      (writeAll C info.compression_opt cs w size >>= fun r => .ok (es', r.1, r.2)) := by
  induction points using Nat.strongRecOn generalizing es mem w size cs with
  | ind points ih =>
    unfold stage1V4 at h
    unfold encodeV4Loop
    by_cases hp : points = 0
    · rw [dif_pos hp] at h ⊢
      simp only [Res.ok.injEq, Prod.mk.injEq] at h
      obtain ⟨rfl, rfl⟩ := h
      rfl
    · rw [dif_neg hp] at h ⊢
      rw [Res.bind_eq_ok] at h
      obtain ⟨⟨es1, mem1, chunk⟩, h1, h⟩ := h
      simp only at h
      rw [Res.bind_eq_ok] at h
      obtain ⟨⟨es2, cs2⟩, h2, h⟩ := h
      simp only [Res.ok.injEq, Prod.mk.injEq] at h
      obtain ⟨rfl, rfl⟩ := h
      have := pos_K
      rw [h1]
      simp only [Res.ok_bind, writeAll, Res.bind_assoc]
      congr 1
      funext r
      exact ih _ (by omega) es1 mem1 cs2 r.1 (size + r.2) h2

theorem encodeV5Loop_eq (F : FloatOps) (C : Compressor) (hash : BitVec 64 → BitVec 64) (info : EncodingInfo) (cap points : Nat)
    (es : List Enc) (as : List AField) (mem : List Byte)
    (cs : List (List Byte)) (w : W) (size : Nat) (h : stage1V5 F hash info.point_step.toNat cap points es as mem = .ok cs) :
    encodeV5Loop F C hash info cap points es as mem w size = writeAll C info.compression_opt cs w size := by
  induction points using Nat.strongRecOn generalizing es as mem w size cs with
  | ind points ih =>
    unfold stage1V5 at h
    unfold encodeV5Loop
    by_cases hp : points = 0
    · rw [dif_pos hp] at h ⊢
      simp only [Res.ok.injEq] at h
      subst h
      rfl
    · rw [dif_neg hp] at h ⊢
      rw [Res.bind_eq_ok] at h
      obtain ⟨⟨es1, as1, mem1, chunk⟩, h1, h⟩ := h
      simp only at h
      rw [Res.bind_eq_ok] at h
      obtain ⟨cs2, h2, h⟩ := h
      simp only [Res.ok.injEq] at h
      subst h
      have := pos_K
      rw [h1]
      simp only [Res.ok_bind, writeAll]
      congr 1
      funext r
      exact ih _ (by omega) es1 as1 mem1 cs2 r.1 (size + r.2) h2

theorem encodePayload_eq (F : FloatOps) (C : Compressor) (enc : Encoder) (cloud : List Byte) (w : W) (size : Nat)
    (es' : List Enc) (cs : List (List Byte)) (h : stage1Chunks F enc cloud = .ok (es', cs)) :
    encodePayload F C enc (cloud.length / enc.info.point_step.toNat) cloud w size =
      (writeAll C enc.info.compression_opt cs w size >>= fun r => .ok ({ enc with encs := es' }, r.1, r.2)) := by
  unfold stage1Chunks at h
  unfold encodePayload
  simp only at h
  by_cases hv : usesV5 enc.info = true
  · rw [if_pos hv] at h ⊢
    rw [Res.bind_eq_ok] at h
    obtain ⟨cap, h1, h⟩ := h
    rw [Res.bind_eq_ok] at h
    obtain ⟨⟨es, as⟩, h2, h⟩ := h
    simp only at h
    rw [Res.bind_eq_ok] at h
    obtain ⟨cs1, h3, h⟩ := h
    simp only [Res.ok.injEq, Prod.mk.injEq] at h
    obtain ⟨rfl, rfl⟩ := h
    rw [h1, h2]
    simp only [Res.ok_bind]
    rw [encodeV5Loop_eq F C _ _ _ _ _ _ _ _ _ _ h3]
  · rw [if_neg hv] at h ⊢
    rw [Res.bind_eq_ok] at h
    obtain ⟨m, h1, h⟩ := h
    rw [h1]
    simp only [Res.ok_bind]
    rw [encodeV4Loop_eq F C _ _ _ _ _ _ _ _ _ h]
    simp only [Res.bind_assoc, Res.ok_bind]

theorem writeStage1_not_ub (C : Compressor) (opt : CompOpt) (c : List Byte) (w : W) (k : UB) : writeStage1Chunk C opt c w ≠ .ub k := by
  unfold writeStage1Chunk
  split
  · simp
  split
  · intro h
    rw [Res.bind_eq_ub] at h
    rcases h with h | ⟨w1, h1, h⟩
    · unfold W.encodeInt W.checked at h; split at h <;> simp at h
    · rw [Res.bind_eq_ub] at h
      rcases h with h | ⟨w2, h2, h⟩
      · unfold W.checked at h; split at h <;> simp at h
      · simp at h
  split
  · simp
  · intro h
    rw [Res.bind_eq_ub] at h
    rcases h with h | ⟨w1, h1, h⟩
    · unfold compressChunk at h
      split at h
      · simp at h
      split at h
      · split at h
        · simp at h
        · split at h <;> simp at h
      · split at h
        · simp at h
        · split at h <;> simp at h
      · simp at h
    · rw [Res.bind_eq_ub] at h
      rcases h with h | ⟨w2, h2, h⟩
      · unfold W.checked at h; split at h <;> simp at h
      · simp at h

theorem writeAll_not_ub (C : Compressor) (opt : CompOpt) (cs : List (List Byte)) (w : W) (size : Nat) (k : UB) :
    writeAll C opt cs w size ≠ .ub k := by
  induction cs generalizing w size with
  | nil => simp [writeAll]
  | cons c cs ih =>
    intro h
    simp only [writeAll] at h
    rw [Res.bind_eq_ub] at h
    rcases h with h | ⟨r, h1, h⟩
    · exact writeStage1_not_ub _ _ _ _ _ h
    · exact ih _ _ h

/-- One chunk fits into its bound. -/
theorem writeStage1_fits (C : Compressor) (hC : C.Lawful) (info : EncodingInfo) (per n b : Nat) (c : List Byte) (w : W)
    (hb : chunkBound C info per n = .ok b)
    (hc : c.length ≤ n * per + (if usesV5 info then info.fields.length * 32 + 1024 else 0))
    (hroom : 4 + b ≤ w.room) (hu : b ≤ u32Max) (hi : n * per + (if usesV5 info then info.fields.length * 32 + 1024 else 0) ≤ u32Max)
    (hlz : info.compression_opt = .lz4 → w.room ≤ intMax + 4 ∧
      n * per + (if usesV5 info then info.fields.length * 32 + 1024 else 0) ≤ lz4MaxInput) :
    ∃ w' k, writeStage1Chunk C info.compression_opt c w = .ok (w', k) ∧ k ≤ 4 + b ∧ w'.room = w.room - k := by
  unfold chunkBound at hb
  generalize hin : n * per + (if usesV5 info then info.fields.length * 32 + 1024 else 0) = input at *
  simp only at hb
  unfold writeStage1Chunk
  rw [if_neg (by omega)]
  cases ho : info.compression_opt with
  | none =>
    rw [ho] at hb
    simp only [Res.ok.injEq] at hb
    subst hb
    rw [if_pos rfl]
    simp only [W.encodeInt, W.checked, toLE_length]
    rw [if_pos (by omega)]
    simp only [Res.ok_bind]
    rw [if_pos (by omega)]
    exact ⟨_, _, rfl, by omega, by simp only; omega⟩
  | bad x => rw [ho] at hb; simp at hb
  | lz4 =>
    rw [ho] at hb
    obtain ⟨hz1, hz2⟩ := hlz ho
    simp only at hb
    split at hb
    · simp at hb
    simp only [Res.ok.injEq] at hb
    subst hb
    rw [if_neg (by simp), if_neg (by omega)]
    have hm := hC.bound_mono .lz4 c.length input hc (fun _ => hz2)
    obtain ⟨y, hy, hyl⟩ := hC.bound_ok .lz4 c (w.room - 4) (fun _ => by omega) (by omega) (by omega)
    have hli : lz4MaxInput ≤ intMax := by decide
    unfold compressChunk
    rw [if_neg (by omega)]
    simp only
    rw [if_neg (by omega), hy]
    simp only [Res.ok_bind, W.checked]
    rw [if_pos (by omega)]
    exact ⟨_, _, rfl, by omega, by simp only; omega⟩
  | zstd =>
    rw [ho] at hb
    simp only [Res.ok.injEq] at hb
    subst hb
    rw [if_neg (by simp), if_neg (by omega)]
    have hm := hC.bound_mono .zstd c.length input hc (by simp)
    obtain ⟨y, hy, hyl⟩ := hC.bound_ok .zstd c (w.room - 4) (by simp) (by omega) (by omega)
    unfold compressChunk
    rw [if_neg (by omega)]
    simp only [hy]
    rw [if_neg (by omega)]
    simp only [Res.ok_bind, W.checked]
    rw [if_pos (by omega)]
    exact ⟨_, _, rfl, by omega, by simp only; omega⟩

theorem writeAll_fits (C : Compressor) (hC : C.Lawful) (info : EncodingInfo) (per points m : Nat) (cs : List (List Byte)) (w : W) (size : Nat)
    (hm : maxCompressedChunks C info per points = .ok m)
    (hcs : ChunkSizes (fun n => n * per + (if usesV5 info then info.fields.length * 32 + 1024 else 0)) points cs)
    (hroom : m ≤ w.room) (hu : ∀ n b, n ≤ kPointsPerChunk → chunkBound C info per n = .ok b → b ≤ u32Max)
    (hi : kPointsPerChunk * per + (if usesV5 info then info.fields.length * 32 + 1024 else 0) ≤ u32Max)
    (hlz : info.compression_opt = .lz4 → w.room ≤ intMax + 4 ∧
      kPointsPerChunk * per + (if usesV5 info then info.fields.length * 32 + 1024 else 0) ≤ lz4MaxInput) :
    ∃ r, writeAll C info.compression_opt cs w size = .ok r := by
  induction cs generalizing points m w size with
  | nil => exact ⟨(w, size), rfl⟩
  | cons c cs ih =>
    obtain ⟨h0, h1, h2⟩ := hcs
    unfold maxCompressedChunks at hm
    rw [dif_neg h0, Res.bind_eq_ok] at hm
    obtain ⟨b, hb, hm⟩ := hm
    rw [Res.bind_eq_ok] at hm
    obtain ⟨rest, hr, hm⟩ := hm
    simp only [Res.ok.injEq] at hm
    have hmul : min points kPointsPerChunk * per ≤ kPointsPerChunk * per := Nat.mul_le_mul_right _ (Nat.min_le_right _ _)
    obtain ⟨w', k, e1, e2, e3⟩ := writeStage1_fits C hC info per _ b c w hb h1 (by omega) (hu _ b (Nat.min_le_right _ _) hb) (by omega)
      (fun h => ⟨(hlz h).1, by have := (hlz h).2; omega⟩)
    simp only [writeAll, e1, Res.ok_bind]
    exact ih _ rest w' (size + k) hr h2 (by omega) (fun h => ⟨by have := (hlz h).1; omega, (hlz h).2⟩)

end Cloudini
