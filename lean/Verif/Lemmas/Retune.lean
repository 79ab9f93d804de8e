import Verif.Lemmas.Scalar
import Verif.Lemmas.Cloud
import Verif.Lemmas.IEEELink

/-!
# Decoding with slightly different resolutions

The header of a file holds the resolutions in decimal; what is read back may differ from what the encoder used.
-/

namespace Cloudini.Retune
open Cloudini

/-- The description with other resolutions. -/
def withRes (σ : BitVec 32 → BitVec 32) (info : EncodingInfo) : EncodingInfo :=
  { info with fields := info.fields.map fun f => { f with resolution := f.resolution.map σ } }

/-- `F`, but dequantising with `σ r` in place of `r`. -/
def shifted (F : FloatOps) (σ : BitVec 32 → BitVec 32) : FloatOps :=
  { F with dequant32 := fun r n => F.dequant32 (σ r) n, dequant64 := fun r n => F.dequant64 (σ r) n,
           dequantV := fun r n => F.dequantV (σ r) n }

def lane (σ : BitVec 32 → BitVec 32) (l : Lane) : Lane := { l with res := σ l.res }

/-- A decoder with other resolutions. -/
def dec (σ : BitVec 32 → BitVec 32) : Dec → Dec
  | .lossy32 o r p => .lossy32 o (σ r) p
  | .lossy64 o r p => .lossy64 o (σ r) p
  | .floatN ls => .floatN (ls.map (lane σ))
  | d => d

theorem dec_reset (σ : BitVec 32 → BitVec 32) (d : Dec) : (dec σ d).reset = dec σ d.reset := by
  cases d <;> simp [dec, Dec.reset, lane]

theorem dec_min (σ : BitVec 32 → BitVec 32) (d : Dec) : (dec σ d).minInputBytes = d.minInputBytes := by
  cases d <;> simp [dec, Dec.minInputBytes]

section
variable (F : FloatOps) (σ : BitVec 32 → BitVec 32)

theorem laneDecode_shift (l : Lane) (input : List Byte) :
    laneDecode F (lane σ l) input = laneDecode (shifted F σ) l input >>= fun x => .ok (lane σ x.1, x.2) := by
  unfold laneDecode
  cases input with
  | nil => simp only [Res.throw_bind]
  | cons b rest =>
    simp only
    split
    · simp only [Res.ok_bind]; rfl
    · simp only [Res.bind_assoc]
      congr 1

theorem lanesDecode_shift (ls : List Lane) (input : List Byte) :
    lanesDecode F (ls.map (lane σ)) input = lanesDecode (shifted F σ) ls input >>= fun x => .ok (x.1.map (lane σ), x.2) := by
  induction ls generalizing input with
  | nil => rfl
  | cons l ls ih =>
    simp only [List.map_cons, lanesDecode, laneDecode_shift, Res.bind_assoc, Res.ok_bind]
    congr 1
    funext x
    simp only [ih, Res.bind_assoc, Res.ok_bind]
    congr 1

theorem step_shift (d : Dec) (input : List Byte) :
    (dec σ d).step F input = d.step (shifted F σ) input >>= fun x => .ok (dec σ x.1, x.2) := by
  cases d with
  | copy o s =>
    simp only [dec, Dec.step]
    split
    · split
      · simp only [Res.ok_bind, dec]
      · simp only [Res.ub_bind]
    · split
      · simp only [Res.ok_bind, dec]
      · simp only [Res.throw_bind]
  | int o s p => simp only [dec, Dec.step, Res.bind_assoc, Res.ok_bind]
  | lossy32 o r p =>
    simp only [dec, Dec.step]
    cases input with
    | nil => simp only [Res.ub_bind]
    | cons b rest =>
      simp only
      split
      · simp only [Res.ok_bind, dec]
      · simp only [Res.bind_assoc, Res.ok_bind, dec]; rfl
  | lossy64 o r p =>
    simp only [dec, Dec.step]
    cases input with
    | nil => simp only [Res.ub_bind]
    | cons b rest =>
      simp only
      split
      · simp only [Res.ok_bind, dec]
      · simp only [Res.bind_assoc, Res.ok_bind, dec]; rfl
  | xor o s p =>
    simp only [dec, Dec.step]
    split
    · simp only [Res.ok_bind, dec]
    · simp only [Res.ub_bind]
  | gorilla o s st => simp only [dec, Dec.step, Res.bind_assoc, Res.ok_bind]
  | floatN ls =>
    simp only [dec, Dec.step]
    split
    · simp only [Res.throw_bind]
    · simp only [lanesDecode_shift, Res.bind_assoc, Res.ok_bind, dec]

theorem decodeFields_shift (ds : List Dec) (input buf : List Byte) (base : Nat) :
    decodeFields F (ds.map (dec σ)) input buf base =
      decodeFields (shifted F σ) ds input buf base >>= fun x => .ok (x.1.map (dec σ), x.2) := by
  induction ds generalizing input buf with
  | nil => rfl
  | cons d ds ih =>
    simp only [List.map_cons, decodeFields, step_shift, Res.bind_assoc, Res.ok_bind]
    congr 1
    funext x
    simp only [ih, Res.bind_assoc, Res.ok_bind]

theorem decodePointsV4_shift (min step n : Nat) (ds : List Dec) (input buf : List Byte) (base : Nat) :
    decodePointsV4 F min step n (ds.map (dec σ)) input buf base =
      decodePointsV4 (shifted F σ) min step n ds input buf base >>= fun x => .ok (x.1.map (dec σ), x.2) := by
  induction n generalizing ds input buf base with
  | zero => rfl
  | succ n ih =>
    simp only [decodePointsV4, decodeFields_shift, Res.bind_assoc, Res.ok_bind]
    split
    · simp only [Res.throw_bind]
    · split
      · simp only [Res.throw_bind]
      · simp only [Res.bind_assoc, Res.ok_bind]
        congr 1
        funext x
        exact ih _ _ _ _

theorem decodeUntilEmptyV4_shift (min step n : Nat) (ds : List Dec) (input buf : List Byte) (base : Nat) :
    decodeUntilEmptyV4 F min step n (ds.map (dec σ)) input buf base =
      decodeUntilEmptyV4 (shifted F σ) min step n ds input buf base >>= fun x => .ok (x.1.map (dec σ), x.2) := by
  induction n generalizing ds input buf base with
  | zero =>
    simp only [decodeUntilEmptyV4]
    split
    · simp only [Res.ok_bind]
    · simp only [Res.ub_bind]
  | succ n ih =>
    simp only [decodeUntilEmptyV4, decodeFields_shift, Res.bind_assoc, Res.ok_bind]
    split
    · simp only [Res.ok_bind]
    · split
      · simp only [Res.throw_bind]
      · split
        · simp only [Res.throw_bind]
        · simp only [Res.bind_assoc, Res.ok_bind]
          congr 1
          funext x
          exact ih _ _ _ _

theorem decodePointsV5_shift (step n : Nat) (ds : List Dec) (input buf : List Byte) (base : Nat) :
    decodePointsV5 F step n (ds.map (dec σ)) input buf base =
      decodePointsV5 (shifted F σ) step n ds input buf base >>= fun x => .ok (x.1.map (dec σ), x.2) := by
  induction n generalizing ds input buf base with
  | zero => rfl
  | succ n ih =>
    simp only [decodePointsV5, decodeFields_shift, Res.bind_assoc, Res.ok_bind]
    congr 1
    funext x
    exact ih _ _ _ _

theorem reset_shift (ds : List Dec) : (ds.map (dec σ)).map Dec.reset = (ds.map Dec.reset).map (dec σ) := by
  rw [List.map_map, List.map_map]
  apply List.map_congr_left
  intro d _
  exact dec_reset σ d

theorem decodeV4Chunk_shift (fuel : Nat) (ds : List Dec) (min step expected : Nat) (input buf : List Byte) (base : Nat) :
    decodeV4Chunk F fuel (ds.map (dec σ)) min step expected input buf base =
      decodeV4Chunk (shifted F σ) fuel ds min step expected input buf base >>= fun x => .ok (x.1.map (dec σ), x.2) := by
  simp only [decodeV4Chunk, reset_shift]
  split
  · simp only [decodePointsV4_shift, Res.bind_assoc, Res.ok_bind]
  · simp only [decodeUntilEmptyV4_shift, Res.bind_assoc, Res.ok_bind]

theorem decodeV5Chunk_shift (ds : List Dec) (as : List AField) (step expected : Nat) (input buf : List Byte) (base : Nat) :
    decodeV5Chunk F (ds.map (dec σ)) as step expected input buf base =
      decodeV5Chunk (shifted F σ) ds as step expected input buf base >>= fun x => .ok (x.1.map (dec σ), x.2) := by
  simp only [decodeV5Chunk, reset_shift]
  split
  · simp only [Res.throw_bind]
  · split
    · simp only [Res.throw_bind]
    · simp only [decodePointsV5_shift, Res.bind_assoc, Res.ok_bind]
      congr 1
      funext x
      congr 1
      funext y
      split
      · simp only [Res.throw_bind]
      · simp only [Res.ok_bind]

/-! ## descriptions -/

theorem leadingFloats_res (fs : List PointField) :
    leadingFloats (fs.map fun f => { f with resolution := f.resolution.map σ }) = leadingFloats fs := by
  induction fs with
  | nil => rfl
  | cons f fs ih => simp only [List.map_cons, leadingFloats, Option.isSome_map, ih]

theorem leadCount_res (info : EncodingInfo) : leadingLossyFloatCount (withRes σ info) = leadingLossyFloatCount info := by
  unfold leadingLossyFloatCount withRes
  simp only [leadingFloats_res]

theorem usesV5_res (info : EncodingInfo) : usesV5 (withRes σ info) = usesV5 info := by
  unfold usesV5
  rw [leadCount_res]
  simp only [withRes, ← List.map_drop, List.any_map]
  rfl

theorem adaptive_res (info : EncodingInfo) : getAdaptiveFields (withRes σ info) = getAdaptiveFields info := by
  unfold getAdaptiveFields
  rw [leadCount_res]
  simp only [withRes, ← List.map_drop, List.filter_map, List.map_map]
  rfl

variable {F σ}

theorem createDecoder_shift (info : EncodingInfo) (f : PointField) (h : ∀ r, f.resolution = some r → F.resNonPos (σ r) = F.resNonPos r) :
    createDecoder F (withRes σ info) { f with resolution := f.resolution.map σ } =
      createDecoder (shifted F σ) info f >>= fun d => .ok (dec σ d) := by
  have hr : ∀ r, (shifted F σ).resNonPos r = F.resNonPos r := fun _ => rfl
  unfold createDecoder
  simp only [withRes]
  cases ht : f.type <;> simp only [Res.ok_bind, Res.throw_bind, dec]
  · cases hf : f.resolution with
    | none =>
      simp only [Option.map_none]
      by_cases hc : info.encoding_opt = .lossless
      · simp only [if_pos hc, Res.ok_bind, dec]; exact if_pos hc
      · simp only [if_neg hc, Res.ok_bind, dec]; exact if_neg hc
    | some r =>
      simp only [Option.map_some, mkLossy32Dec, h r hf, hr]
      split
      · split
        · simp only [Res.throw_bind]
        · simp only [Res.ok_bind, dec]
      · split
        · simp only [Res.ok_bind, dec]
        · split
          · simp only [Res.throw_bind]
          · simp only [Res.ok_bind, dec]
  · cases hf : f.resolution with
    | none =>
      simp only [Option.map_none]
      by_cases hc : info.version ≥ 4#8
      · simp only [if_pos hc, Res.ok_bind, dec]; exact if_pos hc
      · simp only [if_neg hc, Res.ok_bind, dec]; exact if_neg hc
    | some r =>
      simp only [Option.map_some, mkLossy64Dec, h r hf, hr]
      split
      · split
        · simp only [Res.throw_bind]
        · simp only [Res.ok_bind, dec]
      · simp only [Res.ok_bind, dec]

theorem buildAll_shift (info : EncodingInfo) (fs : List PointField)
    (h : ∀ f ∈ fs, ∀ r, f.resolution = some r → F.resNonPos (σ r) = F.resNonPos r) :
    buildAll (createDecoder F (withRes σ info)) (fs.map fun f => { f with resolution := f.resolution.map σ }) =
      buildAll (createDecoder (shifted F σ) info) fs >>= fun ds => .ok (ds.map (dec σ)) := by
  induction fs with
  | nil => rfl
  | cons f fs ih =>
    simp only [List.map_cons, buildAll]
    rw [createDecoder_shift info f (h f (by simp)), ih fun g hg => h g (by simp [hg])]
    simp only [Res.bind_assoc, Res.ok_bind, List.map_cons]

theorem lanesOf_shift (fs : List PointField) (hs : ∀ f ∈ fs, f.resolution.isSome) :
    lanesOf (fs.map fun f => { f with resolution := f.resolution.map σ }) = (lanesOf fs).map (lane σ) := by
  unfold lanesOf
  rw [List.map_map, List.map_map]
  apply List.map_congr_left
  intro f hf
  obtain ⟨r, hr⟩ := Option.isSome_iff_exists.1 (hs f hf)
  simp only [Function.comp, hr, Option.map_some, Option.getD_some, lane]

theorem leadingDecoder_shift (info : EncodingInfo) (h : ∀ f ∈ info.fields, ∀ r, f.resolution = some r → F.resNonPos (σ r) = F.resNonPos r) :
    leadingDecoder F (withRes σ info) = leadingDecoder (shifted F σ) info >>= fun ds => .ok (ds.map (dec σ)) := by
  unfold leadingDecoder
  simp only [leadCount_res]
  split
  · rfl
  · have hs : ∀ f ∈ info.fields.take (leadingLossyFloatCount info), f.resolution.isSome := fun f hf => (leadCount_take info f hf).2.2
    have e : (withRes σ info).fields.take (leadingLossyFloatCount info) =
        (info.fields.take (leadingLossyFloatCount info)).map fun f => { f with resolution := f.resolution.map σ } := by
      simp only [withRes, List.map_take]
    rw [e]
    unfold mkFloatNDec
    rw [lanesOf_shift _ hs]
    have ha : ((lanesOf (info.fields.take (leadingLossyFloatCount info))).map (lane σ)).any (fun l => F.resNonPos l.res) =
        (lanesOf (info.fields.take (leadingLossyFloatCount info))).any (fun l => (shifted F σ).resNonPos l.res) := by
      rw [List.any_map]
      unfold lanesOf
      rw [List.any_map, List.any_map]
      rw [Bool.eq_iff_iff, List.any_eq_true, List.any_eq_true]
      constructor <;> rintro ⟨f, hf, hx⟩ <;> refine ⟨f, hf, ?_⟩ <;> obtain ⟨r, hr⟩ := Option.isSome_iff_exists.1 (hs f hf) <;>
        have := h f (List.mem_of_mem_take hf) r hr <;>
        simp only [Function.comp, lane, hr, Option.getD_some, shifted] at hx ⊢
      · rw [← this]; exact hx
      · rw [this]; exact hx
    rw [ha]
    split
    · simp only [Res.throw_bind]
    · simp only [Res.ok_bind]; rfl

theorem sum_min (ds : List Dec) : ((ds.map (dec σ)).map Dec.minInputBytes).sum = (ds.map Dec.minInputBytes).sum := by
  rw [List.map_map]
  congr 1
  apply List.map_congr_left
  intro d _
  exact dec_min σ d

theorem buildDecoders_shift (info : EncodingInfo) (h : ∀ f ∈ info.fields, ∀ r, f.resolution = some r → F.resNonPos (σ r) = F.resNonPos r) :
    buildDecoders F (withRes σ info) = buildDecoders (shifted F σ) info >>= fun x => .ok (x.1.map (dec σ), x.2) := by
  have hd : ∀ k, ∀ f ∈ info.fields.drop k, ∀ r, f.resolution = some r → F.resNonPos (σ r) = F.resNonPos r :=
    fun k f hf => h f (List.mem_of_mem_drop hf)
  unfold buildDecoders
  rw [usesV5_res]
  split
  · unfold buildV5Decoders
    rw [leadingDecoder_shift info h, leadCount_res]
    have e : ((withRes σ info).fields.drop (leadingLossyFloatCount info)).filter (fun f => !isAdaptiveType f.type) =
        ((info.fields.drop (leadingLossyFloatCount info)).filter fun f => !isAdaptiveType f.type).map
          fun f => { f with resolution := f.resolution.map σ } := by
      simp only [withRes, ← List.map_drop, List.filter_map]
      rfl
    rw [e, buildAll_shift info _ fun f hf => hd _ f (List.mem_of_mem_filter hf)]
    simp only [Res.bind_assoc, Res.ok_bind, ← List.map_append, sum_min]
  · unfold buildV4Decoders
    rw [leadingDecoder_shift info h, leadCount_res]
    have e : (withRes σ info).fields.drop (leadingLossyFloatCount info) =
        (info.fields.drop (leadingLossyFloatCount info)).map fun f => { f with resolution := f.resolution.map σ } := by
      simp only [withRes, List.map_drop]
    rw [e, buildAll_shift info _ (hd _)]
    have e2 : (withRes σ info).encoding_opt = info.encoding_opt := rfl
    rw [e2]
    split
    · simp only [withRes, List.map_map, Res.ok_bind]
      congr 1
    · simp only [Res.bind_assoc, Res.ok_bind, ← List.map_append, sum_min]

theorem decodeChunk_shift (C : Compressor) (fuel : Nat) (info : EncodingInfo) (ds : List Dec) (min : Nat) (chunk buf : List Byte)
    (base expected : Nat) :
    decodeChunk F C fuel (withRes σ info) (ds.map (dec σ)) min chunk buf base expected =
      decodeChunk (shifted F σ) C fuel info ds min chunk buf base expected >>= fun x => .ok (x.1.map (dec σ), x.2) := by
  unfold decodeChunk
  rw [usesV5_res, adaptive_res]
  simp only [decodeV5Chunk_shift, decodeV4Chunk_shift]
  have e1 : maxDecompressed (withRes σ info) = maxDecompressed info := rfl
  have e2 : (withRes σ info).compression_opt = info.compression_opt := rfl
  have e3 : (withRes σ info).point_step = info.point_step := rfl
  rw [e1, e2, e3, Res.bind_assoc]
  congr 1
  funext view
  split <;> rfl

theorem decodeLoop_shift (C : Compressor) (info : EncodingInfo) (min' : Nat) (points : Nat) (ds : List Dec)
    (data buf : List Byte) (base : Nat) :
    decodeLoop F C (withRes σ info) min' points (ds.map (dec σ)) data buf base =
      decodeLoop (shifted F σ) C info min' points ds data buf base := by
  induction points using Nat.strongRecOn generalizing ds data buf base with
  | ind points ih =>
    conv => lhs; unfold decodeLoop
    conv => rhs; unfold decodeLoop
    by_cases hp : points = 0
    · simp only [hp, ↓reduceDIte]
    · have hlt : points - min points kPointsPerChunk < points := by simp only [kPointsPerChunk]; omega
      simp only [hp, ↓reduceDIte, decodeChunk_shift, Res.bind_assoc, Res.ok_bind, ih _ hlt]

/-- Decoding with the resolutions `σ r` is decoding with the resolutions `r` and an arithmetic that dequantises with `σ r`. -/
theorem decodeCloud_shift (C : Compressor) (fuel : Nat) (info : EncodingInfo) (data buf : List Byte)
    (h : ∀ f ∈ info.fields, ∀ r, f.resolution = some r → F.resNonPos (σ r) = F.resNonPos r) :
    decodeCloud F C fuel (withRes σ info) data buf = decodeCloud (shifted F σ) C fuel info data buf := by
  unfold decodeCloud
  rw [buildDecoders_shift info h, Res.bind_assoc]
  congr 1
  funext x
  simp only [Res.ok_bind, decodeLoop_shift, decodeChunk_shift, Res.bind_assoc]
  rfl

/-! ## encoding does not dequantise -/

theorem same (F : FloatOps) (σ : BitVec 32 → BitVec 32) : Scalar.SameEnc F (shifted F σ) := ⟨rfl, rfl, rfl, rfl⟩

theorem agree (F : FloatOps) (σ : BitVec 32 → BitVec 32) (mem : List Byte) (k : Nat × BitVec 32) : Scalar.AgreeAt F (shifted F σ) mem k :=
  Or.inr rfl

variable (F : FloatOps) (σ : BitVec 32 → BitVec 32)

theorem encodeV4Chunk_shift (step : Nat) (es : List Enc) (mem : List Byte) (n cap : Nat) :
    encodeV4Chunk (shifted F σ) step es mem n cap = encodeV4Chunk F step es mem n cap := by
  unfold encodeV4Chunk
  rw [Scalar.encodePoints_agree (same F σ) (fun _ _ => Or.inr fun k _ => agree F σ _ k)]

theorem encodeV5Chunk_shift (hash : BitVec 64 → BitVec 64) (step : Nat) (es : List Enc) (as : List AField) (mem : List Byte) (n cap : Nat) :
    encodeV5Chunk (shifted F σ) hash step es as mem n cap = encodeV5Chunk F hash step es as mem n cap := by
  unfold encodeV5Chunk
  rw [Scalar.encodePointsV5_agree (same F σ) (fun _ _ k _ => agree F σ _ k)]

theorem stage1V4_shift (step cap points : Nat) (es : List Enc) (mem : List Byte) :
    stage1V4 (shifted F σ) step cap points es mem = stage1V4 F step cap points es mem := by
  induction points using Nat.strongRecOn generalizing es mem with
  | ind points ih =>
    conv => lhs; unfold stage1V4
    conv => rhs; unfold stage1V4
    by_cases hp : points = 0
    · simp only [hp, ↓reduceDIte]
    · have hlt : points - min points kPointsPerChunk < points := by simp only [kPointsPerChunk]; omega
      simp only [hp, ↓reduceDIte, encodeV4Chunk_shift, ih _ hlt]

theorem stage1V5_shift (hash : BitVec 64 → BitVec 64) (step cap points : Nat) (es : List Enc) (as : List AField) (mem : List Byte) :
    stage1V5 (shifted F σ) hash step cap points es as mem = stage1V5 F hash step cap points es as mem := by
  induction points using Nat.strongRecOn generalizing es as mem with
  | ind points ih =>
    conv => lhs; unfold stage1V5
    conv => rhs; unfold stage1V5
    by_cases hp : points = 0
    · simp only [hp, ↓reduceDIte]
    · have hlt : points - min points kPointsPerChunk < points := by simp only [kPointsPerChunk]; omega
      simp only [hp, ↓reduceDIte, encodeV5Chunk_shift, ih _ hlt]

theorem stage1Chunks_shift (enc : Encoder) (cloud : List Byte) :
    stage1Chunks (shifted F σ) enc cloud = stage1Chunks F enc cloud := by
  unfold stage1Chunks
  simp only [stage1V4_shift, stage1V5_shift, ← Scalar.buildV5Plan_same (same F σ)]

theorem encodeV4Loop_shift (C : Compressor) (info : EncodingInfo) (cap points : Nat) (es : List Enc) (mem : List Byte) (w : W) (size : Nat) :
    encodeV4Loop (shifted F σ) C info cap points es mem w size = encodeV4Loop F C info cap points es mem w size := by
  induction points using Nat.strongRecOn generalizing es mem w size with
  | ind points ih =>
    conv => lhs; unfold encodeV4Loop
    conv => rhs; unfold encodeV4Loop
    by_cases hp : points = 0
    · simp only [hp, ↓reduceDIte]
    · have hlt : points - min points kPointsPerChunk < points := by simp only [kPointsPerChunk]; omega
      simp only [hp, ↓reduceDIte, encodeV4Chunk_shift, ih _ hlt]

theorem encodePayload_shift (C : Compressor) (enc : Encoder) (points : Nat) (cloud : List Byte) (w : W) (size : Nat) :
    encodePayload (shifted F σ) C enc points cloud w size = encodePayload F C enc points cloud w size := by
  unfold encodePayload
  simp only [encodeV4Loop_shift, ← Scalar.buildV5Plan_same (same F σ),
    ← Scalar.encodeV5Loop_agree (same F σ) C _ _ _ _ _ _ _ _ _ (fun _ _ k _ => agree F σ _ k)]

theorem encodeView_shift (C : Compressor) (enc : Encoder) (cloud : List Byte) (room : Nat) (wh : Bool) :
    encodeView (shifted F σ) C enc cloud room wh = encodeView F C enc cloud room wh := by
  unfold encodeView
  simp only [encodePayload_shift]

theorem mkEncoder_shift (info : EncodingInfo) (header : List Byte) :
    mkEncoder (shifted F σ) info header = mkEncoder F info header := (Scalar.mkEncoder_same (same F σ) info header).symm

end
end Cloudini.Retune

namespace Cloudini.IEEE
open Cloudini.Props

/-! ## accuracy when the decoder multiplies by a slightly different resolution -/

/-- Quantise `x` with `M ≈ 1/R`, dequantise with `R'` within six millionths of `R`. -/
theorem retune (F : Fmt) (hF : F.Ok) (hn0 : F.lo + F.mb ≤ 0) (htop : 127 ≤ F.top) (hu : F.u ≤ 2 ^ (-24 : Int))
    (hh : F.h ≤ 2 ^ (-25 : Int)) {x R R' M : Nat} {a : ℚ} (ha0 : 0 ≤ a) (ha : a ≤ 2 ^ (-23 : Int))
    (hx : F.isFin x = true) (hR' : F.isFin R' = true) (hM : F.isFin M = true) (hr : 0 < F.val R)
    (hm : |F.val M - 1 / F.val R| ≤ a * (1 / F.val R)) (hx1 : |F.val x| ≤ 2 ^ (F.top - 1))
    (hr1 : F.val R ≤ 2 ^ (F.top - 2)) (hx2 : |F.val x| ≤ 2 ^ 61 * F.val R)
    (hd : |F.val R' - F.val R| ≤ 6 / 10 ^ 6 * F.val R) (hhR : F.h ≤ 2 ^ (-25 : Int) * F.val R) :
    ∀ n : Int, |(n : ℚ) - F.val (F.mul x M)| ≤ 1 / 2 →
      F.isFin (F.mul (F.ofInt n) R') = true ∧ F.mul (F.ofInt n) R' < 2 * F.sgn ∧
      |F.val (F.mul (F.ofInt n) R') - F.val x| ≤ F.val R / 2 + 4 / 10 ^ 6 * F.val R + 7 / 10 ^ 6 * |F.val x| := by
  have hu0 := F.u_pos
  have hh0 := F.h_pos
  obtain ⟨d1, d2⟩ := abs_le.1 hd
  have hr' : 0 < F.val R' := by nlinarith
  have hu1 : F.u ≤ 1 / 16777216 := by refine hu.trans (le_of_eq ?_); norm_num
  have hh1 : F.h ≤ 1 / 33554432 := by refine hh.trans (le_of_eq ?_); norm_num
  have ha1 : a ≤ 1 / 8388608 := by refine ha.trans (le_of_eq ?_); norm_num
  have hm' : |F.val M - 1 / F.val R'| ≤ 62 / 10 ^ 7 * (1 / F.val R') := by
    have e1 : |1 / F.val R - 1 / F.val R'| ≤ 6 / 10 ^ 6 * (1 / F.val R') := by
      have : 1 / F.val R - 1 / F.val R' = (F.val R' - F.val R) / F.val R * (1 / F.val R') := by field_simp
      rw [this, abs_mul, abs_of_pos (show 0 < 1 / F.val R' by positivity), abs_div, abs_of_pos hr]
      apply mul_le_mul_of_nonneg_right _ (by positivity)
      rw [div_le_iff₀ hr]; exact hd
    have e2 : 1 / F.val R ≤ (1 + 6 / 10 ^ 6) * (1 / F.val R') := by
      have := (abs_le.1 e1).2; linarith
    have e3 : a * (1 / F.val R) ≤ 1 / 8388608 * ((1 + 6 / 10 ^ 6) * (1 / F.val R')) :=
      (mul_le_mul_of_nonneg_right ha1 (by positivity)).trans (mul_le_mul_of_nonneg_left e2 (by norm_num))
    have e4 := abs_sub_le (F.val M) (1 / F.val R) (1 / F.val R')
    have hp : 0 < 1 / F.val R' := by positivity
    linarith
  have ht : (2 : ℚ) ^ (F.top - 1) = 2 * 2 ^ (F.top - 2) := by
    rw [show F.top - 1 = 1 + (F.top - 2) by ring, zpow_add₀ (by norm_num)]; norm_num
  obtain ⟨p1, p2⟩ := cycle_wide F hF hn0 htop hu (hh.trans (zpow_le_of_le (by norm_num))) (a := 62 / 10 ^ 7) (by norm_num) (by norm_num) hx hR' hM hr' hm' hx1
    (by rw [ht]; have : (0 : ℚ) < 2 ^ (F.top - 2) := by positivity
        linarith)
    (hx2.trans (by linarith))
  intro n hn
  obtain ⟨_, q2, q3, q4⟩ := p2 n hn
  refine ⟨q2, q3, q4.trans ?_⟩
  have hu2 : (1 + F.u) ^ 2 ≤ 1 + 1 / 8000000 := by nlinarith
  have hu20 : 0 ≤ (1 + F.u) ^ 2 := by positivity
  have c1 : (1 + F.u) ^ 2 * (62 / 10 ^ 7 + F.u * (1 + 62 / 10 ^ 7)) + 2 * F.u + F.u ^ 2 ≤ 7 / 10 ^ 6 := by
    have t1 : 62 / 10 ^ 7 + F.u * (1 + 62 / 10 ^ 7) ≤ 63 / 10 ^ 7 := by linarith
    have t2 := mul_le_mul hu2 t1 (by positivity) (by norm_num)
    have t3 : F.u ^ 2 ≤ 1 / 16777216 := by nlinarith
    linarith
  have c2 : (1 + F.u) ^ 2 * (1 / 2 + F.h) ≤ 1 / 2 + 1 / 8000000 := by
    have := mul_le_mul hu2 (show 1 / 2 + F.h ≤ 1 / 2 + 1 / 33554432 by linarith) (by positivity) (by norm_num)
    linarith
  have k1 := mul_le_mul_of_nonneg_right c1 (abs_nonneg (F.val x))
  have k2 := mul_le_mul_of_nonneg_right c2 hr'.le
  have k3 : F.h ≤ 1 / 33554432 * F.val R := by refine hhR.trans (le_of_eq ?_); norm_num
  linarith

/-- The resolution the decoder uses: within six millionths of the one the encoder used. -/
def Near6 (r r' : BitVec 32) : Prop := Finite32 r' ∧ |real32 r' - real32 r| ≤ 6 / 10 ^ 6 * real32 r

theorem toI64_inv {F : Fmt} {p : Nat} {n : Int} (h : toI64 F p = some (BitVec.ofInt 64 n)) (hn : (BitVec.ofInt 64 n).toInt = n) :
    n = roundAway (F.val p) := by
  unfold toI64 at h
  split at h
  · rename_i hc
    rw [Option.some.injEq] at h
    rw [← hn, ← h]
    exact ofInt64_toInt hc.2.1 hc.2.2
  · simp at h

theorem toI32_inv {p : Nat} {n : Int} (h : toI32 p = BitVec.ofInt 32 n) (hn : (BitVec.ofInt 32 n).toInt = n)
    (hf : Fits30 (BitVec.ofInt 32 n)) : n = roundEven (b32.val p) := by
  unfold toI32 at h
  split at h
  · rename_i hc
    rw [← hn, ← h]
    exact ofInt32_toInt hc.2.1 hc.2.2
  · unfold Fits30 at hf
    rw [← h] at hf
    exact absurd hf (by decide)

theorem h32_res {r : BitVec 32} (r2 : (2 : ℚ) ^ (-125 : Int) ≤ b32.val r.toNat) : b32.h ≤ 2 ^ (-25 : Int) * b32.val r.toNat := by
  rw [b32_h]
  calc (2 : ℚ) ^ (-150 : Int) = 2 ^ (-25 : Int) * 2 ^ (-125 : Int) := by rw [← zpow_add₀ (by norm_num)]; norm_num
    _ ≤ _ := mul_le_mul_of_nonneg_left r2 (by positivity)

theorem loose32 {r r' x : BitVec 32} (hr : GoodRes r) (hn : Near6 r r') (hx : Finite32 x) (hx1 : |real32 x| ≤ 2 ^ (126 : Int))
    (hx2 : |real32 x| ≤ 2 ^ 61 * real32 r) :
    ∃ q, ops.quant32 r x = some q ∧ Finite32 (ops.dequant32 r' q) ∧
      |real32 (ops.dequant32 r' q) - real32 x| ≤ real32 r / 2 + 4 / 10 ^ 6 * real32 r + 7 / 10 ^ 6 * |real32 x| := by
  obtain ⟨r1, r2, r3, r4⟩ := good_res hr
  obtain ⟨m1, m2⟩ := mult32_spec r1 r2 r3
  obtain ⟨n, e1, e2, e3, _⟩ := cycle32 hr hx hx1 hx2
  obtain ⟨hf, hd⟩ := hn
  refine ⟨_, e1, ?_⟩
  have he := toI64_inv e1 e2
  simp only [real32_eq] at hx1 hx2 hd ⊢
  obtain ⟨q1, q2, q3⟩ := retune b32 Fmt.b32_ok (by decide) (by decide) (by rw [b32_u]) (by rw [b32_h]; exact zpow_le_of_le (by norm_num))
    a32_nonneg (by unfold a32; norm_num) ((fin32_iff x).2 hx) ((fin32_iff r').2 hf) m1 r4 m2 (by rw [b32_top]; exact hx1)
    (by rw [b32_top]; exact r3) hx2 hd (h32_res r2) n (by rw [he]; exact roundAway_err _)
  have hvn : (ops.dequant32 r' (BitVec.ofInt 64 n)).toNat = b32.mul (b32.ofInt n) r'.toNat := by
    have : (ops.dequant32 r' (BitVec.ofInt 64 n)) = BitVec.ofNat 32 (b32.mul (b32.ofInt n) r'.toNat) := by
      show BitVec.ofNat 32 _ = _; rw [e2]
    rw [this]; exact toNat_ofNat32 q2
  exact ⟨by rw [← fin32_iff, hvn]; exact q1, by rw [hvn]; exact q3⟩

theorem looseV {r r' x : BitVec 32} (hr : GoodRes r) (hn : Near6 r r') (hx : Finite32 x) (hx1 : |real32 x| ≤ 2 ^ (126 : Int))
    (hx2 : |real32 x| ≤ 2 ^ 29 * real32 r) :
    Finite32 (ops.dequantV r' (ops.quantV r x)) ∧
      |real32 (ops.dequantV r' (ops.quantV r x)) - real32 x| ≤ real32 r / 2 + 4 / 10 ^ 6 * real32 r + 7 / 10 ^ 6 * |real32 x| := by
  obtain ⟨r1, r2, r3, r4⟩ := good_res hr
  obtain ⟨m1, m2, _⟩ := multV_spec r1 (le_trans (zpow_le_of_le (by norm_num)) r2) (r3.trans (zpow_le_of_le (by norm_num)))
  obtain ⟨n, e1, e2, e3, _⟩ := cycleV hr hx hx1 hx2
  obtain ⟨hf, hd⟩ := hn
  rw [e1]
  have he := toI32_inv e1 e2 e3
  simp only [real32_eq] at hx1 hx2 hd ⊢
  obtain ⟨q1, q2, q3⟩ := retune b32 Fmt.b32_ok (by decide) (by decide) (by rw [b32_u]) (by rw [b32_h]; exact zpow_le_of_le (by norm_num))
    (two_zpow_pos _).le (zpow_le_of_le (by norm_num)) ((fin32_iff x).2 hx) ((fin32_iff r').2 hf) m1 r4 m2 (by rw [b32_top]; exact hx1)
    (by rw [b32_top]; exact r3) (hx2.trans (mul_le_mul_of_nonneg_right (by norm_num) r4.le)) hd (h32_res r2) n (by rw [he]; exact roundEven_err _)
  have hvn : (ops.dequantV r' (BitVec.ofInt 32 n)).toNat = b32.mul (b32.ofInt n) r'.toNat := by
    have : (ops.dequantV r' (BitVec.ofInt 32 n)) = BitVec.ofNat 32 (b32.mul (b32.ofInt n) r'.toNat) := by
      show BitVec.ofNat 32 _ = _; rw [e2]
    rw [this]; exact toNat_ofNat32 q2
  exact ⟨by rw [← fin32_iff, hvn]; exact q1, by rw [hvn]; exact q3⟩

theorem loose64 {r r' : BitVec 32} {x : BitVec 64} (hr : GoodRes r) (hn : Near6 r r') (hx : Finite64 x)
    (hx2 : |real64 x| ≤ 2 ^ 61 * real32 r) :
    ∃ q, ops.quant64 r x = some q ∧ Finite64 (ops.dequant64 r' q) ∧
      |real64 (ops.dequant64 r' q) - real64 x| ≤ real32 r / 2 + 4 / 10 ^ 6 * real32 r + 7 / 10 ^ 6 * |real64 x| := by
  obtain ⟨r1, r2, r3, r4⟩ := good_res hr
  obtain ⟨m1, m2, _⟩ := mult64_spec r1 (le_trans (zpow_le_of_le (by norm_num)) r2) (r3.trans (zpow_le_of_le (by norm_num)))
  obtain ⟨w1, w2⟩ := widen_spec r1
  obtain ⟨n, e1, e2, e3, _⟩ := cycle64 hr hx hx2
  obtain ⟨hf, hd⟩ := hn
  obtain ⟨v1, v2⟩ := widen_spec ((fin32_iff r').2 hf)
  refine ⟨_, e1, ?_⟩
  have he := toI64_inv e1 e2
  simp only [real32_eq, real64_eq] at hx2 hd ⊢
  rw [← w2] at r2 r3 r4 m2 hx2 hd ⊢
  rw [← v2] at hd
  obtain ⟨q1, q2, q3⟩ := retune b64 Fmt.b64_ok (by decide) (by decide) (by rw [b64_u]; exact zpow_le_of_le (by norm_num))
    (by rw [b64_h]; exact zpow_le_of_le (by norm_num)) (two_zpow_pos _).le (zpow_le_of_le (by norm_num)) ((fin64_iff x).2 hx) v1 m1 r4 m2
    (by rw [b64_top]
        refine hx2.trans ?_
        calc 2 ^ 61 * b64.val (widen r.toNat) ≤ 2 ^ 61 * 2 ^ (125 : Int) := mul_le_mul_of_nonneg_left r3 (by norm_num)
          _ = 2 ^ (186 : Int) := by norm_num
          _ ≤ _ := zpow_le_of_le (by norm_num))
    (by rw [b64_top]; exact r3.trans (zpow_le_of_le (by norm_num))) hx2 hd
    (by rw [b64_h]
        calc (2 : ℚ) ^ (-1075 : Int) ≤ 2 ^ (-150 : Int) := zpow_le_of_le (by norm_num)
          _ = 2 ^ (-25 : Int) * 2 ^ (-125 : Int) := by rw [← zpow_add₀ (by norm_num)]; norm_num
          _ ≤ _ := mul_le_mul_of_nonneg_left r2 (by positivity)) n (by rw [he]; exact roundAway_err _)
  have hvn : (ops.dequant64 r' (BitVec.ofInt 64 n)).toNat = b64.mul (b64.ofInt n) (widen r'.toNat) := by
    have : (ops.dequant64 r' (BitVec.ofInt 64 n)) = BitVec.ofNat 64 (b64.mul (b64.ofInt n) (widen r'.toNat)) := by
      show BitVec.ofNat 64 _ = _; rw [e2]
    rw [this]; exact toNat_ofNat64 q2
  exact ⟨by rw [← fin64_iff, hvn]; exact q1, by rw [hvn]; exact q3⟩

end Cloudini.IEEE
