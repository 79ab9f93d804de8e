import Verif.Lemmas.Tight
import Verif.Props.C31_C46_C48

/-!
# C18, C46: clouds whose chunks are never longer than the cloud

The decoder refuses a compressed chunk that is longer than the whole cloud (C46).  These theorems say which descriptions rule that out.
-/

namespace Cloudini.Props

/-- The most bytes field number `k` of a point takes before compression, outside version-5 adaptive clouds. -/
def longest (info : EncodingInfo) (k : Nat) (f : PointField) : Nat :=
  if info.encoding_opt = .none then sizeOf f.type
  else if k < groupSize info then 5
  else match f.type with
    | .int8 | .uint8 => 1
    | .int16 | .uint16 => 3
    | .int32 | .uint32 => 5
    | .int64 | .uint64 => 10
    | .float32 => if info.encoding_opt = .lossy ∧ f.resolution.isSome then 10 else 4
    | .float64 => if info.encoding_opt ≠ .lossy ∧ f.resolution.isSome ∨ info.version < 4#8 ∧ f.resolution = none then 8 else 10
    | _ => 0

/-- The description is not one of those the adaptive codec of version 5 is used for. -/
def NotAdaptive (info : EncodingInfo) : Prop :=
  info.version.toNat < 5 ∨ info.encoding_opt ≠ .lossy ∨
    ∀ f ∈ info.fields, f.type ∉ [.int16, .uint16, .int32, .uint32, .int64, .uint64]

instance (info : EncodingInfo) : Decidable (NotAdaptive info) := by unfold NotAdaptive; infer_instance

theorem notAdaptive_v5 {info : EncodingInfo} (h : NotAdaptive info) : usesV5 info = false := by
  rw [Bool.eq_false_iff]
  intro hc
  simp only [usesV5, Bool.and_eq_true, decide_eq_true_eq, List.any_eq_true] at hc
  obtain ⟨⟨h1, h2⟩, f, hf, ha⟩ := hc
  rcases h with h | h | h
  · exact absurd (show 5 ≤ info.version.toNat from h1) (by omega)
  · exact h h2
  · exact absurd ha (by
      have := h f (List.mem_of_mem_drop hf)
      revert this
      cases f.type <;> simp [isAdaptiveType])

theorem create_width (F : FloatOps) (info : EncodingInfo) (f : PointField) (e : Enc) (k : Nat) (hk : groupSize info ≤ k)
    (ho : info.encoding_opt ≠ .none) (h : createEncoder F info f = .ok e) : e.Sized ∧ e.width ≤ longest info k f := by
  unfold longest
  rw [if_neg ho, if_neg (by omega)]
  unfold createEncoder at h
  cases ht : f.type <;> simp only [ht] at h ⊢
  all_goals first
    | (simp at h; done)
    | (simp only [Res.ok.injEq] at h; subst h; simp [Enc.Sized, Enc.width]; done)
    | skip
  · cases hr : f.resolution with
    | some r =>
      simp only [hr] at h
      by_cases hl : info.encoding_opt = .lossy
      · rw [if_pos hl] at h
        unfold mkLossy32Enc at h
        split at h
        · simp at h
        · simp only [Res.ok.injEq] at h; subst h; simp [Enc.Sized, Enc.width, hl]
      · rw [if_neg hl] at h
        split at h <;> simp only [Res.ok.injEq] at h <;> subst h <;> simp [Enc.Sized, Enc.width, hl]
    | none =>
      simp only [hr] at h
      split at h <;> simp only [Res.ok.injEq] at h <;> subst h <;> simp [Enc.Sized, Enc.width]
  · cases hr : f.resolution with
    | some r =>
      simp only [hr] at h
      by_cases hl : info.encoding_opt = .lossy
      · rw [if_pos hl] at h
        unfold mkLossy64Enc at h
        split at h
        · simp at h
        · simp only [Res.ok.injEq] at h; subst h; simp [Enc.Sized, Enc.width, hl]
      · rw [if_neg hl] at h
        simp only [Res.ok.injEq] at h; subst h; simp [Enc.Sized, Enc.width, hl]
    | none =>
      simp only [hr] at h
      by_cases hv : info.version ≥ 4#8
      · rw [if_pos hv] at h
        simp only [Res.ok.injEq] at h; subst h; simp only [Enc.Sized, Enc.width]
        refine ⟨by simp, ?_⟩
        split <;> rename_i hc
        · simp at hc; exact absurd hv (by simpa using hc)
        · omega
      · rw [if_neg hv] at h
        simp only [Res.ok.injEq] at h; subst h
        have : info.version < 4#8 := by simpa using hv
        simp [Enc.Sized, Enc.width, this]

theorem buildAll_width (F : FloatOps) (info : EncodingInfo) (ho : info.encoding_opt ≠ .none) (fs : List PointField) (es : List Enc) (k : Nat)
    (hk : groupSize info ≤ k) (h : buildAll (createEncoder F info) fs = .ok es) :
    (∀ e ∈ es, e.Sized) ∧ (es.map Enc.width).sum ≤ (fs.mapIdx fun i f => longest info (i + k) f).sum := by
  induction fs generalizing es k with
  | nil => simp only [buildAll, Res.ok.injEq] at h; subst h; simp
  | cons f fs ih =>
    unfold buildAll at h
    obtain ⟨e, h1, h⟩ := Res.bind_eq_ok.1 h
    obtain ⟨es', h2, h⟩ := Res.bind_eq_ok.1 h
    simp only [Res.ok.injEq] at h
    subst h
    obtain ⟨a1, a2⟩ := create_width F info f e k hk ho h1
    obtain ⟨b1, b2⟩ := ih es' (k + 1) (by omega) h2
    refine ⟨fun x hx => ?_, ?_⟩
    · rcases List.mem_cons.1 hx with rfl | hx
      · exact a1
      · exact b1 x hx
    · rw [List.mapIdx_cons]
      simp only [List.map_cons, List.sum_cons, Nat.zero_add]
      have : (fs.mapIdx fun i f => longest info (i + 1 + k) f) = fs.mapIdx fun i f => longest info (i + (k + 1)) f := by
        congr 1; funext i f; rw [Nat.add_assoc, Nat.add_comm 1 k]
      rw [this]
      omega

theorem mapIdx_const (c : Nat) (fs : List PointField) (g : Nat → PointField → Nat) (h : ∀ i, i < fs.length → ∀ f, g i f = c) :
    (fs.mapIdx g).sum = c * fs.length := by
  induction fs generalizing g with
  | nil => simp
  | cons f fs ih =>
    rw [List.mapIdx_cons, List.sum_cons, h 0 (by simp), ih _ fun i hi f => h (i + 1) (by simpa using hi) f]
    simp only [List.length_cons, Nat.mul_add]
    omega

theorem leading_le (info : EncodingInfo) : leadingLossyFloatCount info ≤ info.fields.length := by
  rw [← groupSize_eq]
  unfold groupSize
  simp only
  have := List.takeWhile_sublist (l := info.fields) (p := fun f => f.type = .float32 && f.resolution.isSome) |>.length_le
  split <;> omega

theorem build_width (F : FloatOps) (info : EncodingInfo) (es : List Enc) (h : buildV4Encoders F info = .ok es) :
    (∀ e ∈ es, e.Sized) ∧ (es.map Enc.width).sum ≤ (info.fields.mapIdx (longest info)).sum := by
  unfold buildV4Encoders at h
  by_cases ho : info.encoding_opt = .none
  · rw [if_pos ho] at h
    simp only [Res.ok.injEq] at h
    subst h
    constructor
    · intro e he
      obtain ⟨f, _, rfl⟩ := List.mem_map.1 he
      trivial
    · rw [show longest info = fun _ f => sizeOf f.type by funext k f; simp [longest, ho]]
      rw [List.map_map]
      have : ∀ fs : List PointField, (fs.map (Enc.width ∘ fun f => Enc.copy f.offset.toNat (sizeOf f.type))).sum =
          (fs.mapIdx fun _ f => sizeOf f.type).sum := by
        intro fs
        induction fs with
        | nil => rfl
        | cons f fs ih => rw [List.mapIdx_cons, List.map_cons, List.sum_cons, List.sum_cons, ih]; rfl
      rw [this]
      exact Nat.le_refl _
  · rw [if_neg ho] at h
    obtain ⟨lead, h1, h⟩ := Res.bind_eq_ok.1 h
    obtain ⟨rest, h2, h⟩ := Res.bind_eq_ok.1 h
    simp only [Res.ok.injEq] at h
    subst h
    have hn := leading_le info
    have hg := groupSize_eq info
    have hsplit : (info.fields.mapIdx (longest info)).sum = 5 * leadingLossyFloatCount info +
        ((info.fields.drop (leadingLossyFloatCount info)).mapIdx fun i f => longest info (i + leadingLossyFloatCount info) f).sum := by
      conv => lhs; rw [← List.take_append_drop (leadingLossyFloatCount info) info.fields]
      rw [List.mapIdx_append, List.sum_append, List.length_take, Nat.min_eq_left hn,
        mapIdx_const 5 _ _ fun i hi f => by
          rw [List.length_take, Nat.min_eq_left hn] at hi
          unfold longest
          rw [if_neg ho, if_pos (by omega)]]
      rw [List.length_take, Nat.min_eq_left hn]
    rw [hsplit]
    obtain ⟨b1, b2⟩ := buildAll_width F info ho _ rest (leadingLossyFloatCount info) (by omega) h2
    have hl : (∀ e ∈ lead, e.Sized) ∧ (lead.map Enc.width).sum ≤ 5 * leadingLossyFloatCount info := by
      unfold leadingEncoder at h1
      simp only at h1
      by_cases h0 : leadingLossyFloatCount info = 0
      · rw [if_pos h0] at h1
        simp only [Res.ok.injEq] at h1
        subst h1
        simp
      · rw [if_neg h0] at h1
        obtain ⟨e, h3, h1⟩ := Res.bind_eq_ok.1 h1
        simp only [Res.ok.injEq] at h1
        subst h1
        unfold mkFloatNEnc at h3
        split at h3
        · simp at h3
        · simp only [Res.ok.injEq] at h3
          subst h3
          simp [Enc.Sized, Enc.width, lanesOf]
          omega
    refine ⟨fun e he => ?_, by rw [List.map_append, List.sum_append]; omega⟩
    rcases List.mem_append.1 he with he | he
    · exact hl.1 e he
    · exact b1 e he

/-- **C18/C46, sizes.** Outside version-5 adaptive clouds: when the worst cases of the fields add up to at most `point_step`, no chunk of any cloud, whatever
the values and whatever the encoder did before, is longer than the cloud, which is what `C18_cloud_roundtrip_partial` asks of compressed clouds. -/
theorem C18_short_points (F : FloatOps) (C : Compressor) (info : EncodingInfo) (header : List Byte) (enc : Encoder) (cloud : List Byte)
    (hreach : Reach F C info header enc) (ha : NotAdaptive info) (hw : (info.fields.mapIdx (longest info)).sum ≤ info.point_step.toNat) :
    ChunksWithin F enc cloud cloud.length := by
  obtain ⟨rfl, rfl, hused⟩ := reach_used hreach
  have hv := notAdaptive_v5 ha
  rcases hused with hu | ⟨es0, b1, b2⟩
  · rw [hv] at hu; simp at hu
  obtain ⟨s1, s2⟩ := build_width F enc.info es0 b1
  have hmem : ∀ e ∈ enc.encs, e.Sized := by
    intro e he
    have : e.reset ∈ es0.map Enc.reset := by rw [← b2]; exact List.mem_map_of_mem he
    obtain ⟨e0, he0, hr⟩ := List.mem_map.1 this
    rw [← Enc.sized_reset, ← hr, Enc.sized_reset]
    exact s1 e0 he0
  have hsum : enc.encs.map Enc.width = es0.map Enc.width := by
    have h1 : ∀ es : List Enc, (es.map Enc.reset).map Enc.width = es.map Enc.width := fun es => by
      rw [List.map_map]; exact List.map_congr_left fun e _ => Enc.width_reset e
    rw [← h1, b2, h1]
  intro es cs h
  unfold stage1Chunks at h
  simp only [hv, Bool.false_eq_true, if_false] at h
  obtain ⟨m, _, h⟩ := Res.bind_eq_ok.1 h
  exact stage1V4_width F _ _ _ _ _ _ _ hmem (by rw [hsum]; omega) h

/-! ### fields copied as they are -/

/-- How much of a field lies before byte `n` of the point. -/
def before (n : Nat) (f : PointField) : Nat := min n (f.offset.toNat + sizeOf f.type) - min n f.offset.toNat

theorem before_succ (n : Nat) (f : PointField) :
    before (n + 1) f = before n f + (if f.offset.toNat ≤ n ∧ n < f.offset.toNat + sizeOf f.type then 1 else 0) := by
  unfold before
  split <;> omega

theorem one_field_at (n : Nat) (fs : List PointField) (h : fs.Pairwise Disjoint) :
    (fs.map fun f => if f.offset.toNat ≤ n ∧ n < f.offset.toNat + sizeOf f.type then 1 else 0).sum ≤ 1 := by
  induction fs with
  | nil => simp
  | cons f fs ih =>
    rw [List.pairwise_cons] at h
    rw [List.map_cons, List.sum_cons]
    by_cases hf : f.offset.toNat ≤ n ∧ n < f.offset.toNat + sizeOf f.type
    · rw [if_pos hf]
      have : (fs.map fun f => if f.offset.toNat ≤ n ∧ n < f.offset.toNat + sizeOf f.type then 1 else 0).sum = 0 := by
        rw [List.sum_eq_zero_iff_forall_eq_nat]
        intro x hx
        obtain ⟨g, hg, rfl⟩ := List.mem_map.1 hx
        have := h.1 g hg
        unfold Disjoint at this
        rw [if_neg (by omega)]
      omega
    · rw [if_neg hf]
      have := ih h.2
      omega

theorem before_le (n : Nat) (fs : List PointField) (h : fs.Pairwise Disjoint) : (fs.map (before n)).sum ≤ n := by
  induction n with
  | zero =>
    have : fs.map (before 0) = fs.map fun _ => 0 := List.map_congr_left fun f _ => by unfold before; omega
    rw [this, List.map_const', List.sum_replicate_nat]
    simp
  | succ n ih =>
    have h1 : ∀ fs : List PointField, (fs.map (before (n + 1))).sum = (fs.map (before n)).sum +
        (fs.map fun f => if f.offset.toNat ≤ n ∧ n < f.offset.toNat + sizeOf f.type then 1 else 0).sum := by
      intro fs
      induction fs with
      | nil => rfl
      | cons f fs ih => rw [List.map_cons, List.map_cons, List.map_cons, List.sum_cons, List.sum_cons, List.sum_cons, ih, before_succ]; omega
    rw [h1]
    have := one_field_at n fs h
    omega

theorem sizes_le (step : Nat) (fs : List PointField) (h : fs.Pairwise Disjoint) (hi : ∀ f ∈ fs, f.offset.toNat + sizeOf f.type ≤ step) :
    (fs.mapIdx fun _ f => sizeOf f.type).sum ≤ step := by
  refine Nat.le_trans (Nat.le_of_eq ?_) (before_le step fs h)
  clear h
  induction fs with
  | nil => rfl
  | cons f fs ih =>
    rw [List.mapIdx_cons, List.map_cons, List.sum_cons, List.sum_cons, ih fun g hg => hi g (by simp [hg])]
    have := hi f (by simp)
    unfold before
    omega

/-- **C18/C46, without encoding.** `EncodingOptions::NONE` with compression: no chunk is longer than the cloud. -/
theorem C18_plain_chunks (F : FloatOps) (C : Compressor) (info : EncodingInfo) (header : List Byte) (enc : Encoder) (cloud : List Byte)
    (hreach : Reach F C info header enc) (ho : info.encoding_opt = .none) (hd : info.fields.Pairwise Disjoint)
    (hi : ∀ f ∈ info.fields, f.offset.toNat + sizeOf f.type ≤ info.point_step.toNat) : ChunksWithin F enc cloud cloud.length := by
  apply C18_short_points F C info header enc cloud hreach (Or.inr (Or.inl (by rw [ho]; decide)))
  rw [show longest info = fun _ f => sizeOf f.type by funext k f; simp [longest, ho]]
  exact sizes_le _ _ hd hi

/-! ## The condition is necessary -/

theorem wire_fits {C : Compressor} (hC : C.Lawful) (hcons : Consistent C) {opt : CompOpt} (ho : opt ≠ .none) {c y x : List Byte} {lim : Nat}
    (hw : Wire C opt c y) (h : decompressChunk C opt y lim = .ok x) : c.length ≤ lim ∧ (opt = .lz4 → lim ≤ intMax) := by
  obtain ⟨_, hw⟩ := hw
  rcases hw with ⟨h0, _⟩ | ⟨_, room, hw⟩
  · exact (ho h0).elim
  have key : ∀ o, C.compress o c room = some y → C.decompress o y lim = some x → c.length ≤ lim := by
    intro o h1 h2
    have h3 := hC.inverse o c room y c.length h1 (Nat.le_refl _)
    have h4 := hC.decompress_fits _ _ _ _ h2
    rw [hcons _ _ _ _ _ _ h2 h3] at h4
    exact h4
  unfold compressChunk at hw
  by_cases hu : c.length > u32Max
  · rw [if_pos hu] at hw; simp at hw
  rw [if_neg hu] at hw
  cases opt with
  | none => exact (ho rfl).elim
  | lz4 =>
    simp only at hw
    by_cases hi : c.length > intMax ∨ room > intMax
    · rw [if_pos hi] at hw; simp at hw
    rw [if_neg hi] at hw
    unfold decompressChunk at h
    simp only at h
    by_cases hj : y.length > intMax ∨ lim > intMax
    · rw [if_pos hj] at h; simp at h
    rw [if_neg hj] at h
    cases hc : C.compress .lz4 c room with
    | none => rw [hc] at hw; simp at hw
    | some y' =>
      rw [hc] at hw
      simp only [Res.ok.injEq] at hw
      subst hw
      cases hd : C.decompress .lz4 y' lim with
      | none => rw [hd] at h; simp at h
      | some x' =>
        rw [hd] at h
        simp only [Res.ok.injEq] at h
        subst h
        exact ⟨key _ hc hd, fun _ => by omega⟩
  | zstd =>
    simp only at hw
    unfold decompressChunk at h
    simp only at h
    cases hc : C.compress .zstd c room with
    | none => rw [hc] at hw; simp at hw
    | some y' =>
      rw [hc] at hw
      simp only at hw
      split at hw
      · simp at hw
      simp only [Res.ok.injEq] at hw
      subst hw
      cases hd : C.decompress .zstd y' lim with
      | none => rw [hd] at h; simp at h
      | some x' =>
        rw [hd] at h
        simp only [Res.ok.injEq] at h
        subst h
        exact ⟨key _ hc hd, fun h => by simp at h⟩
  | bad k => simp at hw

theorem loop_chunks (F : FloatOps) {C : Compressor} (hC : C.Lawful) (hcons : Consistent C) (info : EncodingInfo) (ho : info.compression_opt ≠ .none)
    (min' points : Nat) (ds : List Dec) (cs : List (List Byte)) (payload buf buf' : List Byte) (base : Nat)
    (hf : Framed C info.compression_opt cs payload) (h : decodeLoop F C info min' points ds payload buf base = .ok buf') :
    ∀ c ∈ cs, c.length ≤ maxDecompressed info ∧ (info.compression_opt = .lz4 → maxDecompressed info ≤ intMax) := by
  induction hf generalizing points ds buf base with
  | nil => simp
  | cons c y cs rest hw hrest ih =>
    unfold decodeLoop at h
    rw [if_neg (by simp)] at h
    by_cases h0 : points = 0
    · rw [dif_pos h0] at h; simp at h
    rw [dif_neg h0, decodeInt_toLE4 _ hw.1] at h
    simp only [Res.ok_bind, List.length_append] at h
    rw [if_neg (by omega), List.take_left', List.drop_left'] at h
    · obtain ⟨⟨ds1, buf1, base1⟩, h1, h⟩ := Res.bind_eq_ok.1 h
      unfold decodeChunk at h1
      obtain ⟨view, h2, _⟩ := Res.bind_eq_ok.1 h1
      intro c' hc'
      rcases List.mem_cons.1 hc' with rfl | hc'
      · exact wire_fits hC hcons ho hw h2
      · exact ih _ _ _ _ h c' hc'
    · rfl
    · rfl

/-- **C18/C46: the conditions on compressed clouds are exact.** With any compressor that follows the contract, a valid cloud that was encoded without error
can be decoded if and only if no chunk before compression is longer than the cloud and, for LZ4, the cloud is empty or no longer than `INT_MAX` bytes. -/
theorem C46_exact_partial (F : FloatOps) (C : Compressor) (hC : C.Lawful) (hcons : Consistent C) (info : EncodingInfo) (header : List Byte)
    (enc enc' : Encoder) (cloud out : List Byte) (room size fuel : Nat) (hinfo : ValidInfo F info) (hcloud : ValidCloud F info cloud)
    (hreach : Reach F C info header enc) (henc : encodeView F C enc cloud room false = .ok (enc', out, size)) (h64 : FieldLimit info)
    (ho : info.compression_opt ≠ .none) (hmagic : out.take 10 ≠ magic) (buf : List Byte) (hbuf : cloud.length ≤ buf.length) :
    (∃ buf', decodeCloud F C fuel info out buf = .ok buf') ↔
      ChunksWithin F enc cloud cloud.length ∧ (info.compression_opt = .lz4 → cloud.length ≤ intMax) := by
  have hi : enc.info = info := (reach_used hreach).1
  have hmax : maxDecompressed info = cloud.length := by
    unfold maxDecompressed; rw [← hcloud.size, Nat.mod_eq_of_lt hcloud.addressable]
  constructor
  · rintro ⟨buf', hd⟩
    obtain ⟨cs, payload, p0, psz, hst, _, _, hf, hout, _, _⟩ := encodeView_inv F C _ _ _ _ _ _ _ henc
    simp only [Bool.false_eq_true, if_false, List.nil_append] at hout
    subst hout
    rw [hi] at hf
    unfold decodeCloud at hd
    obtain ⟨⟨ds, m⟩, _, hd⟩ := Res.bind_eq_ok.1 hd
    simp only at hd
    rw [if_neg hmagic, if_pos (show info.version ≥ 3#8 from hinfo.version)] at hd
    have hl := loop_chunks F hC hcons info ho _ _ _ cs out buf buf' 0 hf hd
    rw [hmax] at hl
    refine ⟨fun es cs' h' c hc => ?_, fun hlz => ?_⟩
    · rw [hst] at h'
      simp only [Res.ok.injEq, Prod.mk.injEq] at h'
      obtain ⟨_, rfl⟩ := h'
      exact (hl c hc).1
    · cases cs with
      | nil =>
        cases hf
        unfold decodeLoop at hd
        simp only [List.length_nil, if_true] at hd
        by_cases hp : info.width.toNat * info.height.toNat = 0
        · rw [hcloud.size, hp]; simp [intMax]
        · rw [if_pos hp] at hd; simp at hd
      | cons c cs => exact (hl c (by simp)).2 hlz
  · rintro ⟨h1, h2⟩
    obtain ⟨buf', hd, _⟩ := C18_cloud_roundtrip_partial F C hC info header enc enc' cloud out room size fuel hinfo hcloud hreach henc h64 (Or.inr h1) h2 hmagic
      buf hbuf
    exact ⟨buf', hd⟩

/-! ## The theorems applied to concrete data -/

/-- Three coordinates with a resolution and an intensity without, in 20 bytes. -/
example (F : FloatOps) (C : Compressor) (header : List Byte) (enc : Encoder) (cloud : List Byte) (r : BitVec 32)
    (hreach : Reach F C { fields := [⟨[0x78#8], 0#32, .float32, some r⟩, ⟨[0x79#8], 4#32, .float32, some r⟩, ⟨[0x7a#8], 8#32, .float32, some r⟩,
      ⟨[0x69#8], 12#32, .float32, none⟩], point_step := 20#32 } header enc) : ChunksWithin F enc cloud cloud.length :=
  C18_short_points F C _ header enc cloud hreach (by simp [NotAdaptive]) (by simp [longest, groupSize, List.mapIdx_cons])

/-- A field of 2 bytes in a point of 5, copied. -/
example (F : FloatOps) (C : Compressor) (header : List Byte) (enc : Encoder) (cloud : List Byte)
    (hreach : Reach F C { fields := [⟨[0x78#8], 3#32, .uint16, none⟩], point_step := 5#32, encoding_opt := .none } header enc) :
    ChunksWithin F enc cloud cloud.length :=
  C18_plain_chunks F C _ header enc cloud hreach rfl (by simp) (by simp [sizeOf])

theorem storeComp_consistent : Consistent storeComp := by
  intro o y lim lim' x x' h1 h2
  simp only [storeComp] at h1 h2
  split at h1 <;> simp at h1
  split at h2 <;> simp at h2
  rw [← h1, ← h2]

def u16Enc : Encoder := ⟨u16Info .lossless .zstd 5#8, [], [.int 0 2 false 0#64]⟩

theorem u16_any (n : Nat) : ValidCloud bitsOps (u16Info .lossless .zstd 5#8) (toLE 2 n) where
  size := by simp [u16Info]
  addressable := by simp
  range := by
    intro i _ k f hk
    cases k with
    | zero => simp only [u16Info, List.getElem?_cons_zero, Option.some.injEq] at hk; subst hk; trivial
    | succ k => simp [u16Info] at hk

/-- Of two clouds of one UINT16, 5 can be decoded and 65535 cannot. -/
example (n : Nat) (hn : n = 5 ∨ n = 65535) :
    ∃ enc' out size, encodeView bitsOps storeComp u16Enc (toLE 2 n) 1000 false = .ok (enc', out, size) ∧
      ((∃ buf', decodeCloud bitsOps storeComp 0 (u16Info .lossless .zstd 5#8) out [0#8, 0#8] = .ok buf') ↔ n = 5) := by
  have hreach : Reach bitsOps storeComp (u16Info .lossless .zstd 5#8) [] u16Enc := .fresh _ (by decide +kernel)
  have hok : ∀ n, n = 5 ∨ n = 65535 → (encodeView bitsOps storeComp u16Enc (toLE 2 n) 1000 false).isOk = true ∧
      (match encodeView bitsOps storeComp u16Enc (toLE 2 n) 1000 false with | .ok r => decide (r.2.1.take 10 ≠ magic) | _ => false) = true ∧
      (match stage1Chunks bitsOps u16Enc (toLE 2 n) with | .ok r => decide ((∀ c ∈ r.2, c.length ≤ 2) ↔ n = 5) | _ => false) = true := by
    rintro n (rfl | rfl) <;> decide +kernel
  obtain ⟨h1, h2, h3⟩ := hok n hn
  cases he : encodeView bitsOps storeComp u16Enc (toLE 2 n) 1000 false with
  | throw e => rw [he] at h1; simp at h1
  | ub k => rw [he] at h1; simp at h1
  | ok r =>
    rw [he] at h2
    refine ⟨r.1, r.2.1, r.2.2, rfl, ?_⟩
    rw [C46_exact_partial bitsOps storeComp storeComp_lawful storeComp_consistent _ [] u16Enc r.1 (toLE 2 n) r.2.1 1000 r.2.2 0 (u16_valid .zstd) (u16_any n) hreach he
      (by decide) (by decide) (by simpa using h2) _ (by simp)]
    cases hs : stage1Chunks bitsOps u16Enc (toLE 2 n) with
    | throw e => rw [hs] at h3; simp at h3
    | ub k => rw [hs] at h3; simp at h3
    | ok q =>
      rw [hs] at h3
      have h3 : (∀ c ∈ q.2, c.length ≤ 2) ↔ n = 5 := by simpa using h3
      rw [← h3]
      constructor
      · intro h c hc
        have := h.1 q.1 q.2 (by rw [hs]) c hc
        simpa using this
      · intro h
        refine ⟨fun es cs hx c hc => ?_, fun hx => by simp [u16Info] at hx⟩
        rw [hs] at hx
        simp only [Res.ok.injEq] at hx
        rw [hx] at h
        simpa using h c hc

end Cloudini.Props
