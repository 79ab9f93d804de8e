import Verif.Lemmas.Unfold
import Verif.Lemmas.Plan

/-! The chunk loops of encode and decode. -/

namespace Cloudini

theorem pos_K : 0 < kPointsPerChunk := by unfold kPointsPerChunk; omega
theorem K_le : kPointsPerChunk ≤ 65535 := by unfold kPointsPerChunk; omega

/-! ### stage 1 on its own -/

/-- The chunks of the V4 loop before compression. -/
def stage1V4 (F : FloatOps) (step cap points : Nat) (es : List Enc) (mem : List Byte) : Res (List Enc × List (List Byte)) :=
  if _h : points = 0 then .ok (es, [])
  else do
    let (es, mem, chunk) ← encodeV4Chunk F step es mem kPointsPerChunk cap
    let (es, cs) ← stage1V4 F step cap (points - min points kPointsPerChunk) es mem
    .ok (es, chunk :: cs)
termination_by points
decreasing_by have := pos_K; omega

/-- The chunks of the V5 loop before compression. -/
def stage1V5 (F : FloatOps) (hash : BitVec 64 → BitVec 64) (step cap points : Nat) (es : List Enc) (as : List AField)
    (mem : List Byte) : Res (List (List Byte)) :=
  if _h : points = 0 then .ok []
  else do
    let (es, as, mem, chunk) ← encodeV5Chunk F hash step es as mem (min points kPointsPerChunk) cap
    let cs ← stage1V5 F hash step cap (points - min points kPointsPerChunk) es as mem
    .ok (chunk :: cs)
termination_by points
decreasing_by have := pos_K; omega

/-- One chunk on the wire: the bytes `y` behind the length prefix. -/
def Wire (C : Compressor) (opt : CompOpt) (c y : List Byte) : Prop :=
  y.length < 2 ^ 32 ∧ ((opt = .none ∧ y = c) ∨ (opt ≠ .none ∧ ∃ room, compressChunk C opt c room = .ok y))

/-- A payload made of the given chunks. -/
inductive Framed (C : Compressor) (opt : CompOpt) : List (List Byte) → List Byte → Prop
  | nil : Framed C opt [] []
  | cons (c y : List Byte) (cs : List (List Byte)) (rest : List Byte) : Wire C opt c y → Framed C opt cs rest →
      Framed C opt (c :: cs) (toLE 4 y.length ++ (y ++ rest))

theorem writeStage1_inv (C : Compressor) (opt : CompOpt) (c : List Byte) (w w' : W) (n : Nat)
    (h : writeStage1Chunk C opt c w = .ok (w', n)) :
    ∃ y, Wire C opt c y ∧ n = y.length + 4 ∧ y.length + 4 ≤ w.room ∧
      w' = ⟨w.out ++ (toLE 4 y.length ++ y), w.room - (y.length + 4)⟩ := by
  unfold writeStage1Chunk at h
  split at h
  · simp at h
  next hlen =>
  have hu : u32Max = 2 ^ 32 - 1 := by decide
  split at h
  · next ho =>
    simp only [W.encodeInt] at h
    rw [Res.bind_eq_ok] at h
    obtain ⟨w1, h1, h⟩ := h
    rw [Res.bind_eq_ok] at h
    obtain ⟨w2, h2, h⟩ := h
    rw [W.checked_eq_ok] at h1 h2
    obtain ⟨h1, rfl⟩ := h1
    obtain ⟨h2, rfl⟩ := h2
    simp only [Res.ok.injEq, Prod.mk.injEq, toLE_length] at h h1 h2
    obtain ⟨rfl, rfl⟩ := h
    exact ⟨c, ⟨by omega, Or.inl ⟨ho, rfl⟩⟩, by omega, by omega, by
      simp only [W.mk.injEq, List.append_assoc, true_and]; omega⟩
  · next ho =>
    split at h
    · simp at h
    next hr =>
    rw [Res.bind_eq_ok] at h
    obtain ⟨y, hy, h⟩ := h
    rw [Res.bind_eq_ok] at h
    obtain ⟨w2, h2, h⟩ := h
    rw [W.checked_eq_ok] at h2
    obtain ⟨h2, rfl⟩ := h2
    simp only [Res.ok.injEq, Prod.mk.injEq] at h h2
    obtain ⟨rfl, rfl⟩ := h
    have hy32 : y.length < 2 ^ 32 := by
      unfold compressChunk at hy
      split at hy
      · simp at hy
      · split at hy
        · split at hy
          · simp at hy
          · next h3 =>
            have hi : intMax < 2 ^ 31 := by decide
            omega
        · split at hy
          · simp at hy
          · split at hy
            · simp at hy
            · simp only [Res.ok.injEq] at hy; subst hy; omega
        · simp at hy
    exact ⟨y, ⟨hy32, Or.inr ⟨ho, _, hy⟩⟩, rfl, by omega, by
      simp only [W.mk.injEq, List.append_assoc, true_and]; omega⟩

theorem encodeV4Loop_inv (F : FloatOps) (C : Compressor) (info : EncodingInfo) (cap points : Nat) (es : List Enc) (mem : List Byte)
    (w : W) (size : Nat) (es' : List Enc) (w' : W) (size' : Nat)
    (h : encodeV4Loop F C info cap points es mem w size = .ok (es', w', size')) :
    ∃ cs payload, stage1V4 F info.point_step.toNat cap points es mem = .ok (es', cs) ∧ Framed C info.compression_opt cs payload ∧
      payload.length ≤ w.room ∧ w' = ⟨w.out ++ payload, w.room - payload.length⟩ ∧ size' = size + payload.length := by
  induction points using Nat.strongRecOn generalizing es mem w size with
  | ind points ih =>
    unfold encodeV4Loop at h
    unfold stage1V4
    by_cases hp : points = 0
    · rw [dif_pos hp] at h ⊢
      simp only [Res.ok.injEq, Prod.mk.injEq] at h
      obtain ⟨rfl, rfl, rfl⟩ := h
      exact ⟨[], [], rfl, .nil, by simp, by simp, by simp⟩
    · rw [dif_neg hp] at h ⊢
      rw [Res.bind_eq_ok] at h
      obtain ⟨⟨es1, mem1, chunk⟩, h1, h⟩ := h
      simp only at h
      rw [Res.bind_eq_ok] at h
      obtain ⟨⟨w1, n⟩, h2, h⟩ := h
      simp only at h
      obtain ⟨y, y1, y2, y3, y4⟩ := writeStage1_inv C _ chunk w w1 n h2
      have := pos_K
      obtain ⟨cs, payload, i1, i2, i3, i4, i5⟩ := ih _ (by omega) es1 mem1 w1 (size + n) h
      subst y4
      simp only at i3 i4
      refine ⟨chunk :: cs, toLE 4 y.length ++ (y ++ payload), ?_, .cons _ _ _ _ y1 i2, ?_, ?_, ?_⟩
      · simp only [h1, Res.ok_bind, i1]
      · simp only [List.length_append, toLE_length]; omega
      · rw [i4]
        simp only [W.mk.injEq, List.append_assoc, true_and, List.length_append, toLE_length]; omega
      · rw [i5]; simp only [List.length_append, toLE_length]; omega

theorem encodeV5Loop_inv (F : FloatOps) (C : Compressor) (hash : BitVec 64 → BitVec 64) (info : EncodingInfo) (cap points : Nat)
    (es : List Enc) (as : List AField) (mem : List Byte) (w : W) (size : Nat) (w' : W) (size' : Nat)
    (h : encodeV5Loop F C hash info cap points es as mem w size = .ok (w', size')) :
    ∃ cs payload, stage1V5 F hash info.point_step.toNat cap points es as mem = .ok cs ∧ Framed C info.compression_opt cs payload ∧
      payload.length ≤ w.room ∧ w' = ⟨w.out ++ payload, w.room - payload.length⟩ ∧ size' = size + payload.length := by
  induction points using Nat.strongRecOn generalizing es as mem w size with
  | ind points ih =>
    unfold encodeV5Loop at h
    unfold stage1V5
    by_cases hp : points = 0
    · rw [dif_pos hp] at h ⊢
      simp only [Res.ok.injEq, Prod.mk.injEq] at h
      obtain ⟨rfl, rfl⟩ := h
      exact ⟨[], [], rfl, .nil, by simp, by simp, by simp⟩
    · rw [dif_neg hp] at h ⊢
      rw [Res.bind_eq_ok] at h
      obtain ⟨⟨es1, as1, mem1, chunk⟩, h1, h⟩ := h
      simp only at h
      rw [Res.bind_eq_ok] at h
      obtain ⟨⟨w1, n⟩, h2, h⟩ := h
      simp only at h
      obtain ⟨y, y1, y2, y3, y4⟩ := writeStage1_inv C _ chunk w w1 n h2
      have := pos_K
      obtain ⟨cs, payload, i1, i2, i3, i4, i5⟩ := ih _ (by omega) es1 as1 mem1 w1 (size + n) h
      subst y4
      simp only at i3 i4
      refine ⟨chunk :: cs, toLE 4 y.length ++ (y ++ payload), ?_, .cons _ _ _ _ y1 i2, ?_, ?_, ?_⟩
      · simp only [h1, Res.ok_bind, i1]
      · simp only [List.length_append, toLE_length]; omega
      · rw [i4]
        simp only [W.mk.injEq, List.append_assoc, true_and, List.length_append, toLE_length]; omega
      · rw [i5]; simp only [List.length_append, toLE_length]; omega

/-! ### decoding a framed payload -/

/-- Stage 1 of the decoder on a chunk. -/
def decodeStage1Chunk (F : FloatOps) (info : EncodingInfo) (ds : List Dec) (min' : Nat) (view buf : List Byte) (base expected : Nat) :
    Res (List Dec × List Byte × Nat) :=
  if usesV5 info then decodeV5Chunk F ds (getAdaptiveFields info) info.point_step.toNat expected view buf base
  else decodeV4Chunk F 0 ds min' info.point_step.toNat expected view buf base

/-- Stage 1 of the decoder on a list of chunks. -/
def decodeStage1 (F : FloatOps) (info : EncodingInfo) (min' : Nat) : Nat → List Dec → List (List Byte) → List Byte → Nat → Res (List Byte)
  | points, _, [], buf, _ =>
    if points ≠ 0 then .throw "Encoded data ended before all declared points were decoded" else .ok buf
  | points, ds, c :: cs, buf, base =>
    if points = 0 then .throw "Encoded data contains more chunks than declared points"
    else do
      let (ds, buf, base) ← decodeStage1Chunk F info ds min' c buf base (min points kPointsPerChunk)
      decodeStage1 F info min' (points - min points kPointsPerChunk) ds cs buf base

theorem decompress_wire (C : Compressor) (hC : C.Lawful) (opt : CompOpt) (c y : List Byte) (lim : Nat) (h : Wire C opt c y)
    (hlim : opt = .none ∨ c.length ≤ lim) (hlz : opt = .lz4 → lim ≤ intMax) : decompressChunk C opt y lim = .ok c := by
  obtain ⟨hy, h⟩ := h
  rcases h with ⟨rfl, rfl⟩ | ⟨hne, room, hc⟩
  · rfl
  · have hl : c.length ≤ lim := by
      rcases hlim with h | h
      · exact absurd h hne
      · exact h
    unfold compressChunk at hc
    split at hc
    · simp at hc
    cases opt with
    | none => exact absurd rfl hne
    | bad b => simp at hc
    | lz4 =>
      simp only at hc
      split at hc
      · simp at hc
      next hi =>
      have hlz := hlz rfl
      cases hcc : C.compress .lz4 c room with
      | none => rw [hcc] at hc; simp at hc
      | some z =>
        rw [hcc] at hc
        simp only [Res.ok.injEq] at hc
        subst hc
        have hf := hC.compress_fits _ _ _ _ hcc
        unfold decompressChunk
        simp only
        rw [if_neg (by omega), hC.inverse _ _ _ _ lim hcc hl]
    | zstd =>
      simp only at hc
      cases hcc : C.compress .zstd c room with
      | none => rw [hcc] at hc; simp at hc
      | some z =>
        rw [hcc] at hc
        simp only at hc
        split at hc
        · simp at hc
        simp only [Res.ok.injEq] at hc
        subst hc
        unfold decompressChunk
        simp only
        rw [hC.inverse _ _ _ _ lim hcc hl]

theorem decodeInt_toLE4 (n : Nat) (h : n < 2 ^ 32) (rest : List Byte) : decodeInt 4 (toLE 4 n ++ rest) = .ok (n, rest) := by
  rw [decodeInt_def]
  rw [if_pos (by simp), List.take_append_of_le_length (by simp), List.take_of_length_le (by simp),
    List.drop_append_of_le_length (by simp), List.drop_of_length_le (by simp), fromLE_toLE, Nat.mod_eq_of_lt (by simpa using h)]
  rfl

theorem decodeLoop_framed (F : FloatOps) (C : Compressor) (hC : C.Lawful) (info : EncodingInfo) (min' points : Nat) (ds : List Dec)
    (cs : List (List Byte)) (payload buf : List Byte) (base : Nat) (h : Framed C info.compression_opt cs payload)
    (hlim : info.compression_opt = .none ∨ ∀ c ∈ cs, c.length ≤ maxDecompressed info)
    (hlz : info.compression_opt = .lz4 → maxDecompressed info ≤ intMax) :
    decodeLoop F C info min' points ds payload buf base = decodeStage1 F info min' points ds cs buf base := by
  induction h generalizing points ds buf base with
  | nil =>
    unfold decodeLoop decodeStage1
    simp
  | cons c y cs rest hw hf ih =>
    unfold decodeLoop decodeStage1
    rw [if_neg (by simp [toLE])]
    by_cases hp : points = 0
    · rw [dif_pos hp, if_pos hp]
    · rw [dif_neg hp, if_neg hp, decodeInt_toLE4 _ hw.1]
      simp only [Res.ok_bind]
      rw [if_neg (by simp)]
      have e1 : (y ++ rest).take y.length = y := by simp
      have e2 : (y ++ rest).drop y.length = rest := by simp
      rw [e1, e2]
      have hd := decompress_wire C hC _ c y (maxDecompressed info) hw (by
        rcases hlim with h | h
        · exact Or.inl h
        · exact Or.inr (h c (by simp))) hlz
      have : decodeChunk F C 0 info ds min' y buf base (min points kPointsPerChunk) =
          decodeStage1Chunk F info ds min' c buf base (min points kPointsPerChunk) := by
        unfold decodeChunk decodeStage1Chunk
        rw [hd]
        simp only [Res.ok_bind]
      rw [this]
      congr 1
      funext r
      obtain ⟨ds1, buf1, base1⟩ := r
      simp only
      exact ih _ ds1 buf1 base1 (by
        rcases hlim with h | h
        · exact Or.inl h
        · exact Or.inr fun x hx => h x (by simp [hx]))

end Cloudini
