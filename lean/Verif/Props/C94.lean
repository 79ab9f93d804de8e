import Verif.Lemmas.Volume
import Verif.Lemmas.FormatCloud
import Verif.Props.C87

/-!
# C94: a header cannot claim more points than the payload can hold

`decode` takes the number of points from the header.  If it returns, the payload was long enough for that number; a header that claims more is
not believed.
-/

namespace Cloudini.Props

/-- Chunks of 32768 points. -/
def chunkCount (n : Nat) : Nat := (n + 32767) / 32768

/-- The fewest bytes the values of a point take in the point stream: their own size if they are copied, else one per field that is there. -/
def leastPoint (info : EncodingInfo) : Nat :=
  if info.encoding_opt = .none then (info.fields.map fun f => sizeOf f.type).sum
  else (info.fields.filter fun f => !(Format.sectioned info && Format.wide f)).length

/-- The sections of a chunk. -/
def sectionCount (info : EncodingInfo) : Nat := (info.fields.filter fun f => Format.sectioned info && Format.wide f).length

theorem chunkCount_step (n : Nat) (h : 0 < n) : chunkCount n = chunkCount (n - min n 32768) + 1 := by
  unfold chunkCount
  by_cases hn : n ≤ 32768
  · rw [Nat.min_eq_left hn]
    simp only [Nat.sub_self]
    omega
  · rw [Nat.min_eq_right (by omega)]
    omega

theorem buildAll_weight {F : FloatOps} {info : EncodingInfo} (fs : List PointField) : ∀ ds, buildAll (createDecoder F info) fs = .ok ds → fs.length ≤ weightOf ds := by
  induction fs with
  | nil => intro ds _; exact Nat.zero_le _
  | cons f fs ih =>
    intro ds h
    rw [buildAll] at h
    obtain ⟨d, h1, h⟩ := Res.bind_eq_ok.1 h
    obtain ⟨ds', h2, h⟩ := Res.bind_eq_ok.1 h
    simp only [Res.ok.injEq] at h
    subst h
    have := ih _ h2
    have he := createDecoder_eats F info f d h1
    have hw : 1 ≤ d.weight := by cases d <;> simp only [Dec.Eats] at he <;> simp only [Dec.weight] <;> first | omega | (exact List.length_pos_iff.2 he)
    unfold weightOf at *
    rw [List.map_cons, List.sum_cons, List.length_cons]
    omega

theorem leading_weight {F : FloatOps} {info : EncodingInfo} {ds : List Dec} (h : leadingDecoder F info = .ok ds) : leadingLossyFloatCount info ≤ weightOf ds := by
  unfold leadingDecoder at h
  simp only at h
  split at h
  · omega
  · obtain ⟨d, h1, h⟩ := Res.bind_eq_ok.1 h
    simp only [Res.ok.injEq] at h
    subst h
    unfold mkFloatNDec at h1
    split at h1
    · cases h1
    · simp only [Res.ok.injEq] at h1
      subst h1
      have := leadCount_le info
      simp only [weightOf, List.map_cons, List.map_nil, List.sum_cons, List.sum_nil, Dec.weight, lanesOf, List.length_map, List.length_take]
      omega

theorem weightOf_append (a b : List Dec) : weightOf (a ++ b) = weightOf a + weightOf b := by
  unfold weightOf; rw [List.map_append, List.sum_append]

theorem sectioned_of_v5 {info : EncodingInfo} (h : usesV5 info = true) : Format.sectioned info = true := by
  unfold usesV5 at h
  simp only [Bool.and_eq_true, decide_eq_true_eq] at h
  unfold Format.sectioned
  simp only [Bool.and_eq_true, decide_eq_true_eq]
  exact ⟨by simpa [BitVec.le_def] using h.1.1, h.1.2⟩

theorem lead_not_wide (info : EncodingInfo) : ((info.fields.take (leadingLossyFloatCount info)).filter fun f => isAdaptiveType f.type) = [] := by
  rw [List.filter_eq_nil_iff]
  intro f hf
  rw [(leadCount_take info f hf).2.1]
  simp [isAdaptiveType]

theorem not_v5_not_wide {info : EncodingInfo} (h : usesV5 info = false) : ∀ f ∈ info.fields, (Format.sectioned info && Format.wide f) = false := by
  intro f hf
  rw [wide_adaptive]
  rw [← List.take_append_drop (leadingLossyFloatCount info) info.fields] at hf
  rcases List.mem_append.1 hf with hf | hf
  · rw [(leadCount_take info f hf).2.1]; simp [isAdaptiveType]
  · cases hs : Format.sectioned info with
    | false => rfl
    | true =>
      unfold Format.sectioned at hs
      simp only [Bool.and_eq_true, decide_eq_true_eq] at hs
      unfold usesV5 at h
      have hv : decide (info.version ≥ 5#8) = true := by simp only [decide_eq_true_eq]; simpa [BitVec.le_def] using hs.1
      rw [hv, hs.2] at h
      simp only [decide_true, Bool.and_self, Bool.true_and] at h
      have := (List.any_eq_false.1 h) f hf
      simpa using this

/-- The decoders take at least that much. -/
theorem decoders_weight (F : FloatOps) (info : EncodingInfo) (ds : List Dec) (m : Nat) (h : buildDecoders F info = .ok (ds, m)) : leastPoint info ≤ weightOf ds := by
  unfold buildDecoders at h
  unfold leastPoint
  cases h5 : usesV5 info with
  | true =>
    rw [if_pos h5] at h
    have hsec := sectioned_of_v5 h5
    have hopt : info.encoding_opt ≠ .none := by
      unfold Format.sectioned at hsec
      simp only [Bool.and_eq_true, decide_eq_true_eq] at hsec
      rw [hsec.2]; simp
    rw [if_neg hopt]
    obtain ⟨ds', h1, h⟩ := Res.bind_eq_ok.1 h
    simp only [Res.ok.injEq, Prod.mk.injEq] at h
    rw [← h.1]
    unfold buildV5Decoders at h1
    obtain ⟨lead, h2, h1⟩ := Res.bind_eq_ok.1 h1
    obtain ⟨rest, h3, h1⟩ := Res.bind_eq_ok.1 h1
    simp only [Res.ok.injEq] at h1
    rw [← h1, weightOf_append]
    have a1 := leading_weight h2
    have a2 := buildAll_weight _ _ h3
    have a3 : (info.fields.filter fun f => !(Format.sectioned info && Format.wide f)).length =
        ((info.fields.take (leadingLossyFloatCount info)).filter fun f => !isAdaptiveType f.type).length +
          ((info.fields.drop (leadingLossyFloatCount info)).filter fun f => !isAdaptiveType f.type).length := by
      rw [← List.length_append, ← List.filter_append, List.take_append_drop]
      simp only [hsec, Bool.true_and, wide_adaptive]
    have a4 := List.length_filter_le (fun f : PointField => !isAdaptiveType f.type) (info.fields.take (leadingLossyFloatCount info))
    have a5 := List.length_take_le (leadingLossyFloatCount info) info.fields
    omega
  | false =>
    rw [if_neg (by simp [h5])] at h
    unfold buildV4Decoders at h
    by_cases ho : info.encoding_opt = .none
    · rw [if_pos ho] at h ⊢
      simp only [Res.ok.injEq, Prod.mk.injEq] at h
      rw [← h.1]
      unfold weightOf
      rw [List.map_map]
      exact Nat.le_refl _
    · rw [if_neg ho] at h ⊢
      obtain ⟨lead, h2, h⟩ := Res.bind_eq_ok.1 h
      obtain ⟨rest, h3, h⟩ := Res.bind_eq_ok.1 h
      simp only [Res.ok.injEq, Prod.mk.injEq] at h
      rw [← h.1, weightOf_append]
      have a1 := leading_weight h2
      have a2 := buildAll_weight _ _ h3
      rw [List.length_drop] at a2
      have a3 := List.length_filter_le (fun f : PointField => !(Format.sectioned info && Format.wide f)) info.fields
      omega

theorem sections_count {info : EncodingInfo} (h : usesV5 info = true) : (getAdaptiveFields info).length = sectionCount info := by
  have hsec := sectioned_of_v5 h
  have hl : info.encoding_opt = .lossy := by
    unfold Format.sectioned at hsec
    simp only [Bool.and_eq_true, decide_eq_true_eq] at hsec
    exact hsec.2
  unfold getAdaptiveFields sectionCount
  rw [if_pos hl, List.length_map]
  conv => rhs; rw [← List.take_append_drop (leadingLossyFloatCount info) info.fields]
  rw [List.filter_append, List.length_append]
  simp only [hsec, Bool.true_and, wide_adaptive]
  rw [lead_not_wide, List.length_nil, Nat.zero_add]

/-- One chunk. -/
theorem decodeChunk_volume (F : FloatOps) (C : Compressor) (info : EncodingInfo) (hc : info.compression_opt = .none) (fuel m n : Nat) (hn : 0 < n) (ds ds' : List Dec)
    (chunk buf buf' : List Byte) (base base' : Nat) (h : decodeChunk F C fuel info ds m chunk buf base n = .ok (ds', buf', base')) :
    weightOf ds' = weightOf ds ∧ n * weightOf ds + 2 * sectionCount info ≤ chunk.length := by
  unfold decodeChunk at h
  rw [hc] at h
  simp only [decompressChunk, Res.ok_bind] at h
  cases h5 : usesV5 info with
  | true =>
    rw [if_pos h5] at h
    unfold decodeV5Chunk at h
    rw [if_neg (by omega)] at h
    split at h
    · cases h
    · have hv := decodePointsV5_weight F info.point_step.toNat n (ds.map Dec.reset) chunk buf base
      obtain ⟨⟨ds1, in1, buf1⟩, h1, h⟩ := Res.bind_eq_ok.1 h
      rw [h1] at hv
      obtain ⟨hv1, hv2⟩ := hv
      rw [weightOf_reset] at hv1 hv2
      have hs := decodeSections_takes base info.point_step.toNat n hn (getAdaptiveFields info) in1 buf1
      obtain ⟨⟨in2, buf2⟩, h2, h⟩ := Res.bind_eq_ok.1 h
      rw [h2] at hs
      rw [sections_count h5] at hs
      simp only at h
      split at h
      · cases h
      · simp only [Res.ok.injEq, Prod.mk.injEq] at h
        rw [← h.1]
        refine ⟨hv1, ?_⟩
        simp only [Halts] at hs hv2
        omega
  | false =>
    rw [if_neg (by simp [h5])] at h
    unfold decodeV4Chunk at h
    simp only [if_pos (show n > 0 from hn)] at h
    have hv := decodePointsV4_weight F m info.point_step.toNat n (ds.map Dec.reset) chunk buf base
    obtain ⟨⟨ds1, in1, buf1, base1⟩, h1, h⟩ := Res.bind_eq_ok.1 h
    rw [h1] at hv
    obtain ⟨hv1, hv2⟩ := hv
    rw [weightOf_reset] at hv1 hv2
    simp only [Res.ok.injEq, Prod.mk.injEq] at h
    rw [← h.1]
    refine ⟨hv1, ?_⟩
    have h0 : sectionCount info = 0 := by
      unfold sectionCount
      rw [List.length_eq_zero_iff, List.filter_eq_nil_iff]
      intro f hf
      rw [not_v5_not_wide h5 f hf]
      simp
    simp only at hv2
    omega

theorem loop_frames (F : FloatOps) (C : Compressor) (info : EncodingInfo) (m : Nat) (points : Nat) : ∀ (ds : List Dec) (data buf : List Byte) (base : Nat) (out : List Byte),
    decodeLoop F C info m points ds data buf base = .ok out → 4 * chunkCount points ≤ data.length := by
  induction points using Nat.strongRecOn with
  | _ points ih =>
    intro ds data buf base out h
    rw [decodeLoop] at h
    split at h
    · split at h
      · cases h
      · rename_i hp
        simp only [ne_eq, Decidable.not_not] at hp
        subst hp
        exact Nat.zero_le _
    · split at h
      · cases h
      · rename_i hp
        have hi := decodeInt_takes 4 data
        obtain ⟨⟨size, data1⟩, h1, h⟩ := Res.bind_eq_ok.1 h
        rw [h1] at hi
        simp only [Halts] at hi
        simp only at h
        split at h
        · cases h
        · obtain ⟨⟨ds2, buf2, base2⟩, h2, h⟩ := Res.bind_eq_ok.1 h
          have hk : kPointsPerChunk = 32768 := rfl
          have := ih _ (by rw [hk]; omega) _ _ _ _ _ h
          rw [chunkCount_step points (by omega)]
          rw [hk] at this
          simp only [List.length_drop] at this
          omega

theorem loop_volume (F : FloatOps) (C : Compressor) (info : EncodingInfo) (hc : info.compression_opt = .none) (m w : Nat) (points : Nat) :
    ∀ (ds : List Dec) (data buf : List Byte) (base : Nat) (out : List Byte), weightOf ds = w → decodeLoop F C info m points ds data buf base = .ok out →
      (4 + 2 * sectionCount info) * chunkCount points + points * w ≤ data.length := by
  induction points using Nat.strongRecOn with
  | _ points ih =>
    intro ds data buf base out hw h
    rw [decodeLoop] at h
    split at h
    · split at h
      · cases h
      · rename_i hp
        simp only [ne_eq, Decidable.not_not] at hp
        subst hp
        simp [chunkCount]
    · split at h
      · cases h
      · rename_i hp
        have hi := decodeInt_takes 4 data
        obtain ⟨⟨size, data1⟩, h1, h⟩ := Res.bind_eq_ok.1 h
        rw [h1] at hi
        simp only [Halts] at hi
        simp only at h
        split at h
        · cases h
        · rename_i hsz
          obtain ⟨⟨ds2, buf2, base2⟩, h2, h⟩ := Res.bind_eq_ok.1 h
          have hk : kPointsPerChunk = 32768 := rfl
          rw [hk] at h2 h
          have hmin : 0 < min points 32768 := by omega
          obtain ⟨g1, g2⟩ := decodeChunk_volume F C info hc _ _ _ hmin _ _ _ _ _ _ _ h2
          have := ih _ (by omega) _ _ _ _ _ (g1.trans hw) h
          rw [chunkCount_step points (by omega)]
          simp only [List.length_drop, List.length_take] at this g2
          rw [hw] at g2
          have hmul : points * w = (points - min points 32768) * w + min points 32768 * w := by
            rw [← Nat.add_mul]; congr 1; omega
          rw [hmul, Nat.mul_add, Nat.mul_one]
          omega

/-- **C94, frames.** Any version from 3 on, any compression: a cloud of `n` points is accepted only from a payload with four bytes for each of its chunks. -/
theorem C94_frames (F : FloatOps) (C : Compressor) (fuel : Nat) (info : EncodingInfo) (hv : 3 ≤ info.version.toNat) (payload buf out : List Byte)
    (h : decodeCloud F C fuel info payload buf = .ok out) : 4 * chunkCount (info.width.toNat * info.height.toNat) ≤ payload.length := by
  unfold decodeCloud at h
  obtain ⟨⟨ds, m⟩, _, h⟩ := Res.bind_eq_ok.1 h
  simp only at h
  split at h
  · cases h
  · rw [if_pos (by simpa [BitVec.le_def] using hv)] at h
    exact loop_frames F C info m _ ds payload buf 0 out h

/-- In other words: at most 32768 points for four bytes. -/
theorem C94_amplification (F : FloatOps) (C : Compressor) (fuel : Nat) (info : EncodingInfo) (hv : 3 ≤ info.version.toNat) (payload buf out : List Byte)
    (h : decodeCloud F C fuel info payload buf = .ok out) : info.width.toNat * info.height.toNat ≤ 8192 * payload.length := by
  have := C94_frames F C fuel info hv payload buf out h
  unfold chunkCount at this
  omega

/-- **C94, values.** Without compression the payload has in addition the bytes of every value that is not in a section, and two bytes for each section of each
chunk. -/
theorem C94_values (F : FloatOps) (C : Compressor) (fuel : Nat) (info : EncodingInfo) (hv : 3 ≤ info.version.toNat) (hc : info.compression_opt = .none)
    (payload buf out : List Byte) (h : decodeCloud F C fuel info payload buf = .ok out) :
    (4 + 2 * sectionCount info) * chunkCount (info.width.toNat * info.height.toNat) + info.width.toNat * info.height.toNat * leastPoint info ≤ payload.length := by
  unfold decodeCloud at h
  obtain ⟨⟨ds, m⟩, hb, h⟩ := Res.bind_eq_ok.1 h
  simp only at h
  split at h
  · cases h
  · rw [if_pos (by simpa [BitVec.le_def] using hv)] at h
    have := loop_volume F C info hc m _ _ ds payload buf 0 out rfl h
    have hw := decoders_weight F info ds m hb
    have := Nat.mul_le_mul_left (info.width.toNat * info.height.toNat) hw
    omega

/-- So a header that claims more points than that is never believed, whatever buffer is offered. -/
theorem C94_claims_rejected (F : FloatOps) (C : Compressor) (fuel : Nat) (info : EncodingInfo) (hv : 3 ≤ info.version.toNat) (payload : List Byte)
    (h : 8192 * payload.length < info.width.toNat * info.height.toNat) : ∀ buf out, decodeCloud F C fuel info payload buf ≠ .ok out := by
  intro buf out e
  have := C94_amplification F C fuel info hv payload buf out e
  omega

/-! ### the bound is attained -/

theorem points_attained (F : FloatOps) (step : Nat) (n : Nat) : ∀ (buf : List Byte) (base : Nat), base + n * step ≤ buf.length →
    decodePointsV4 F 0 step n [] [] buf base = .ok ([], [], buf, base + n * step) := by
  induction n with
  | zero => intro buf base _; simp [decodePointsV4]
  | succ n ih =>
    intro buf base h
    rw [Nat.succ_mul] at h
    rw [decodePointsV4, if_neg (by simp), if_neg (by omega)]
    simp only [decodeFields, Res.ok_bind]
    rw [ih _ _ (by omega), Nat.succ_mul]
    congr 4
    omega

theorem loop_attained (F : FloatOps) (C : Compressor) (info : EncodingInfo) (hf : info.fields = []) (hc : info.compression_opt = .none) (points : Nat) :
    ∀ (buf : List Byte) (base : Nat), base + points * info.point_step.toNat ≤ buf.length →
      decodeLoop F C info 0 points [] (List.replicate (4 * chunkCount points) 0#8) buf base = .ok buf := by
  have h5 : usesV5 info = false := by unfold usesV5; rw [hf]; simp
  induction points using Nat.strongRecOn with
  | _ points ih =>
    intro buf base h
    rw [decodeLoop]
    by_cases hp : points = 0
    · subst hp
      simp [chunkCount]
    · have hpos : 0 < points := by omega
      have e : (List.replicate (4 * chunkCount points) 0#8 : List Byte) = toLE 4 0 ++ List.replicate (4 * chunkCount (points - min points 32768)) 0#8 := by
        rw [chunkCount_step points hpos, Nat.mul_add, Nat.add_comm, ← List.replicate_append_replicate]
        rfl
      have hne : (List.replicate (4 * chunkCount points) 0#8 : List Byte).length ≠ 0 := by
        rw [List.length_replicate, chunkCount_step points hpos]; omega
      rw [if_neg hne, dif_neg hp, e, decodeInt_toLE4 0 (by decide)]
      simp only [Res.ok_bind, List.take_zero, List.drop_zero]
      rw [if_neg (by omega)]
      have hk : kPointsPerChunk = 32768 := rfl
      rw [hk]
      have hmul : points * info.point_step.toNat = min points 32768 * info.point_step.toNat + (points - min points 32768) * info.point_step.toNat := by
        rw [← Nat.add_mul]; congr 1; omega
      have hchunk : decodeChunk F C 0 info [] 0 [] buf base (min points 32768) = .ok ([], buf, base + min points 32768 * info.point_step.toNat) := by
        unfold decodeChunk
        rw [hc]
        simp only [decompressChunk, Res.ok_bind, h5, Bool.false_eq_true, if_false]
        unfold decodeV4Chunk
        have hm : min points 32768 > 0 := by omega
        simp only [List.map_nil, if_pos hm]
        rw [points_attained F _ _ _ _ (by omega)]
        rfl
      rw [hchunk]
      simp only [Res.ok_bind]
      exact ih _ (by omega) _ _ (by omega)

/-- **C94, no better bound.** Without fields, four zero bytes per chunk are enough: the bounds of `C94_frames` and `C94_values` are attained for every number of
points, and the buffer comes back as it was. -/
theorem C94_attained (F : FloatOps) (C : Compressor) (fuel : Nat) (info : EncodingInfo) (hv : 3 ≤ info.version.toNat) (hf : info.fields = []) (hc : info.compression_opt = .none)
    (buf : List Byte) (hb : info.width.toNat * info.height.toNat * info.point_step.toNat ≤ buf.length) :
    decodeCloud F C fuel info (List.replicate (4 * chunkCount (info.width.toNat * info.height.toNat)) 0#8) buf = .ok buf := by
  have hbd : buildDecoders F info = .ok ([], 0) := by
    unfold buildDecoders usesV5
    rw [hf]
    simp only [List.any_nil, Bool.and_false, Bool.false_eq_true, if_false, List.drop_nil]
    unfold buildV4Decoders
    split
    · rw [hf]; rfl
    · have hl : leadingLossyFloatCount info = 0 := by
        have := leadCount_le info
        rw [hf] at this
        simpa using this
      unfold leadingDecoder
      simp only [hl, hf, List.drop_nil, buildAll]
      rfl
  unfold decodeCloud
  rw [hbd]
  simp only [Res.ok_bind]
  rw [if_neg, if_pos (by simpa [BitVec.le_def] using hv)]
  · exact loop_attained F C info hf hc _ buf 0 (by omega)
  · intro h
    have hh : (0x43#8 : Byte) ∈ (List.replicate (4 * chunkCount (info.width.toNat * info.height.toNat)) 0#8).take 10 := by rw [h]; simp [magic]
    have := List.eq_of_mem_replicate (List.mem_of_mem_take hh)
    exact absurd this (by decide)

/-! ### cases -/

/-- The mixed cloud of `Props/Witness`: one chunk; the bound is 4 + 2·sections + 3·(fields outside), the encoder's 73 bytes are above it. -/
example : (4 + 2 * sectionCount mixInfo) * chunkCount 3 + 3 * leastPoint mixInfo ≤ mixOut.length := by
  have h := mix_decode_ok
  cases he : decodeCloud bitsOps storeComp 0 mixInfo mixOut (List.replicate 108 0#8) with
  | ok out => exact C94_values bitsOps storeComp 0 mixInfo (by decide) rfl mixOut _ out he
  | throw e => rw [he] at h; cases h
  | ub k => rw [he] at h; cases h

example : sectionCount mixInfo = 2 ∧ leastPoint mixInfo = 5 := by decide +kernel

/-- Four thousand million points, announced over a payload of a million bytes. -/
example (payload : List Byte) (hp : payload.length = 1000000) (info : EncodingInfo) (hv : info.version = 5#8) (hw : info.width = 4000000000#32) (hh : info.height = 3#32) :
    ∀ buf out, decodeCloud bitsOps storeComp 0 info payload buf ≠ .ok out :=
  C94_claims_rejected _ _ _ info (by rw [hv]; decide) payload (by rw [hp, hw, hh]; decide)

/-- A hundred thousand points of no field from sixteen bytes. -/
example (buf : List Byte) : decodeCloud bitsOps storeComp 0 { width := 100000#32, height := 1#32, compression_opt := .none, version := 5#8 } (List.replicate 16 0#8) buf = .ok buf :=
  C94_attained bitsOps storeComp 0 { width := 100000#32, height := 1#32, compression_opt := .none, version := 5#8 } (by decide) rfl rfl buf (Nat.zero_le _)

end Cloudini.Props
