import Verif.Props.C18_C20
import Verif.Lemmas.MemSafeV5
import Verif.Lemmas.OneField

/-!
# C21, C22, C46: buffers that are large enough
-/

namespace Cloudini.Props

/-! ## C21 -/

/-- **C21.** With every declared field inside the point, no call of either overload, with any encoder history, any bytes
as cloud (any length, any values), any room in the output view, with any compression library, reads or writes outside
an object.  (`.ub .mem` is what the model returns for every write past the stage buffer or the output view and every
read past the cloud.) -/
theorem C21_no_out_of_bounds (F : FloatOps) (C : Compressor) (info : EncodingInfo) (header : List Byte) (enc : Encoder)
    (hreach : Reach F C info header enc) (hin : ∀ f ∈ info.fields, f.offset.toNat + sizeOf f.type ≤ info.point_step.toNat)
    (cloud : List Byte) (room : Nat) (wh : Bool) : encodeView F C enc cloud room wh ≠ .ub .mem := by
  obtain ⟨rfl, _, hused⟩ := reach_used hreach
  exact (encodeView_safe F C enc cloud room wh hin hused).not_mem

/-- **C21**, the vector overload, given that `MaxCompressedSize`'s estimate of the header is one. -/
theorem C21_no_out_of_bounds_vector (F : FloatOps) (C : Compressor) (info : EncodingInfo) (header : List Byte) (enc : Encoder)
    (hreach : Reach F C info header enc) (hin : ∀ f ∈ info.fields, f.offset.toNat + sizeOf f.type ≤ info.point_step.toNat)
    (cloud : List Byte) (hb : Nat) (hheader : header.length ≤ hb) : encodeVector F C enc hb cloud ≠ .ub .mem := by
  obtain ⟨rfl, rfl, hused⟩ := reach_used hreach
  intro h
  unfold encodeVector at h
  split at h
  · simp at h
  split at h
  · simp at h
  rw [Res.bind_eq_ub] at h
  rcases h with h | ⟨m, _, h⟩
  · exact (maxCompressedSize_safe C enc.info _).not_mem h
  rw [Res.bind_eq_ub] at h
  rcases h with h | ⟨w, _, h⟩
  · unfold W.raw at h
    rw [if_pos (by simp only; omega)] at h
    simp at h
  rw [Res.bind_eq_ub] at h
  rcases h with h | ⟨r, _, h⟩
  · exact (encodeView_safe F C enc cloud _ false hin hused).not_mem h
  · simp at h

/-- For clouds whose values follow one another (`ValidCloud`) there is no undefined behaviour of any kind. -/
theorem C21_no_ub (F : FloatOps) (C : Compressor) (info : EncodingInfo) (header : List Byte) (enc : Encoder)
    (hreach : Reach F C info header enc) (hinfo : ValidInfo F info) (h64 : FieldLimit info)
    (cloud : List Byte) (hcloud : ValidCloud F info cloud) (room : Nat) (wh : Bool) (k : UB) :
    encodeView F C enc cloud room wh ≠ .ub k := by
  obtain ⟨rfl, rfl, hused⟩ := reach_used hreach
  obtain ⟨es', cs, ds, min', ws, s1, _⟩ := stage1_cloud F enc enc.info cloud (enc.info.width.toNat * enc.info.height.toNat)
    (valid_agree hinfo (all2_refl_same _) rfl rfl rfl) hused hinfo.step hcloud.size (validCloud_points hinfo hcloud) (fieldLimit_v5 h64)
    (fun _ g hg _ => valid_noSkip hinfo g hg)
  have safe := encodeView_safe F C enc cloud room wh hinfo.inside hused
  intro h
  unfold encodeView at h
  split at h
  · simp at h
  split at h
  · simp at h
  rw [Res.bind_eq_ub] at h
  rcases h with h | ⟨m, _, h⟩
  · unfold maxCompressedSize at h
    split at h
    · simp at h
    rw [maxSerializedPointSize_eq (fun f hf => (known_of_types (hinfo.types f hf)).1)] at h
    simp only [Res.ok_bind] at h
    revert h
    generalize cloud.length / enc.info.point_step.toNat = points
    generalize (enc.info.fields.map (maxSer enc.info.encoding_opt)).sum = per
    induction points using Nat.strongRecOn with
    | ind points ih =>
      intro h
      unfold maxCompressedChunks at h
      split at h
      · simp at h
      rw [Res.bind_eq_ub] at h
      rcases h with h | ⟨b, _, h⟩
      · unfold chunkBound at h
        simp only at h
        split at h
        · simp at h
        · repeat' split at h
          all_goals simp at h
        · simp at h
        · simp at h
      rw [Res.bind_eq_ub] at h
      rcases h with h | ⟨r, _, h⟩
      · exact ih _ (by have := pos_K; omega) h
      · simp at h
  simp only at h
  by_cases hroom : room < m + (if wh = true then enc.header.length else 0)
  · rw [if_pos hroom] at h; simp at h
  rw [if_neg hroom, Res.bind_eq_ub] at h
  rcases h with h | ⟨w, _, h⟩
  · unfold W.raw at h
    rw [if_pos (by simp only; split <;> simp_all; omega)] at h
    simp at h
  rw [Res.bind_eq_ub] at h
  rcases h with h | ⟨r, _, h⟩
  · rw [encodePayload_eq F C enc cloud w _ es' cs s1, Res.bind_eq_ub] at h
    rcases h with h | ⟨r, _, h⟩
    · exact writeAll_not_ub _ _ _ _ _ _ h
    · simp at h
  · simp at h

/-! ## C22 -/

/-- A cloud of `n` points in which every value can be stored after the one before it (`n` need not be the declared `width * height`: encode does not look
at those). -/
structure CloudOf (F : FloatOps) (info : EncodingInfo) (n : Nat) (cloud : List Byte) : Prop where
  size : cloud.length = n * info.point_step.toNat
  range : ∀ i, i < n → ∀ k f, info.fields[k]? = some f →
    Follows F info k f (previous info cloud i f) (cell cloud 0 info.point_step.toNat i f.offset.toNat (sizeOf f.type))

theorem cloudOf_points {F : FloatOps} {info : EncodingInfo} {n : Nat} {cloud : List Byte} (h : ValidInfo F info)
    (hc : CloudOf F info n cloud) : ∀ i, i < n →
      PointGood F info (chunkPrev info.point_step.toNat cloud i) (cloud.drop (i * info.point_step.toNat)) :=
  follows_points h hc.size hc.range

/-- The largest input of one chunk's stage 2, as `MaxCompressedSize` computes it from the bytes per point. -/
def fullChunk (info : EncodingInfo) (perPoint : Nat) : Nat :=
  kPointsPerChunk * perPoint + (if usesV5 info then info.fields.length * 32 + 1024 else 0)

theorem chunkBound_mono (C : Compressor) (hC : C.Lawful) (info : EncodingInfo) (per q k b : Nat) (hpq : per ≤ q) (hk : k ≤ kPointsPerChunk)
    (hlz : info.compression_opt = .lz4 → fullChunk info q ≤ lz4MaxInput) (h : chunkBound C info q k = .ok b) :
    ∃ a, chunkBound C info per k = .ok a ∧ a ≤ b := by
  unfold chunkBound at h ⊢
  simp only at h ⊢
  have h1 : k * per ≤ k * q := Nat.mul_le_mul_left _ hpq
  have h2 : k * q ≤ kPointsPerChunk * q := Nat.mul_le_mul_right _ hk
  unfold fullChunk at hlz
  generalize (if usesV5 info then info.fields.length * 32 + 1024 else 0) = e at *
  cases ho : info.compression_opt with
  | none => simp only [ho, Res.ok.injEq] at h ⊢; exact ⟨_, rfl, by omega⟩
  | lz4 =>
    simp only [ho] at h ⊢
    by_cases hi : k * q + e > intMax
    · rw [if_pos hi] at h; simp at h
    rw [if_neg hi] at h
    simp only [Res.ok.injEq] at h
    rw [if_neg (by omega)]
    exact ⟨_, rfl, by have := hC.bound_mono .lz4 (k * per + e) (k * q + e) (by omega) (fun _ => by have := hlz ho; omega); omega⟩
  | zstd =>
    simp only [ho, Res.ok.injEq] at h ⊢
    exact ⟨_, rfl, by have := hC.bound_mono .zstd (k * per + e) (k * q + e) (by omega) (by simp); omega⟩
  | bad x => simp [ho] at h

theorem maxCompressedChunks_mono (C : Compressor) (hC : C.Lawful) (info : EncodingInfo) (per q : Nat) (hpq : per ≤ q)
    (hlz : info.compression_opt = .lz4 → fullChunk info q ≤ lz4MaxInput) (n m : Nat) (h : maxCompressedChunks C info q n = .ok m) :
    ∃ a, maxCompressedChunks C info per n = .ok a ∧ a ≤ m := by
  induction n using Nat.strongRecOn generalizing m with
  | ind n ih =>
    unfold maxCompressedChunks at h ⊢
    by_cases h0 : n = 0
    · rw [dif_pos h0] at h ⊢
      simp only [Res.ok.injEq] at h
      exact ⟨0, rfl, by omega⟩
    rw [dif_neg h0] at h ⊢
    obtain ⟨b, h1, h⟩ := Res.bind_eq_ok.1 h
    obtain ⟨r, h2, h⟩ := Res.bind_eq_ok.1 h
    simp only [Res.ok.injEq] at h
    obtain ⟨a, ha, hab⟩ := chunkBound_mono C hC info per q _ b hpq (Nat.min_le_right _ _) hlz h1
    obtain ⟨a', ha', hab'⟩ := ih _ (by have := pos_K; omega) r h2
    refine ⟨4 + a + a', ?_, by omega⟩
    rw [ha, ha']
    rfl

/-- The common part: encode succeeds when the view has the room that counting `q` bytes per point gives, if chunks cannot be longer than that. -/
theorem encode_fits (F : FloatOps) (C : Compressor) (hC : C.Lawful) (info : EncodingInfo) (header : List Byte) (enc : Encoder)
    (hinfo : ValidInfo F info) (hreach : Reach F C info header enc) (n : Nat) (cloud : List Byte) (hcloud : CloudOf F info n cloud)
    (per q m room : Nat) (wh : Bool) (hper : maxSerializedPointSize info.encoding_opt info.fields = .ok per) (hpq : per ≤ q)
    (hmc : maxCompressedChunks C info q n = .ok m) (hroom : m + (if wh then header.length else 0) ≤ room)
    (hv5 : usesV5 info = true → n ≤ kProbePoints ∨ per + info.fields.length ≤ q) (h64 : FieldLimit info)
    (hchunk : fullChunk info q ≤ u32Max) (hbound : info.compression_opt ≠ .none → C.bound info.compression_opt (fullChunk info q) ≤ u32Max)
    (hlz : info.compression_opt = .lz4 → room ≤ intMax + 4 ∧ fullChunk info q ≤ lz4MaxInput) :
    ∃ r, encodeView F C enc cloud room wh = .ok r := by
  obtain ⟨rfl, rfl, hused⟩ := reach_used hreach
  have hst : 0 < enc.info.point_step.toNat := hinfo.step
  have hkn : ∀ f ∈ enc.info.fields, KnownType f.type := fun f hf => (known_of_types (hinfo.types f hf)).1
  obtain ⟨es', cs, ds, min', ws, s1, _, _, s4, s5, _⟩ := stage1_cloud F enc enc.info cloud n
    (valid_agree hinfo (all2_refl_same _) rfl rfl rfl) hused hst hcloud.size (cloudOf_points hinfo hcloud) (fieldLimit_v5 h64)
    (fun _ g hg _ => valid_noSkip hinfo g hg)
  have hp : cloud.length / enc.info.point_step.toNat = n := by rw [hcloud.size]; exact Nat.mul_div_cancel _ hst
  rw [maxSerializedPointSize_eq hkn] at hper
  simp only [Res.ok.injEq] at hper
  have hcs : ChunkSizes (fun n => n * q + (if usesV5 enc.info then enc.info.fields.length * 32 + 1024 else 0)) n cs := by
    by_cases hv : usesV5 enc.info = true
    · rcases hv5 hv with hn | hq
      · refine (s5 hn).mono ?_
        intro k
        simp only [hv, if_true, hper]
        have := Nat.mul_le_mul_left k hpq
        omega
      · refine s4.mono ?_
        intro k
        simp only [hv, if_true, hper]
        have := Nat.mul_le_mul_left k hq
        omega
    · refine s4.mono ?_
      intro k
      simp only [hv, Bool.false_eq_true, if_false, hper, Nat.add_zero]
      have := Nat.mul_le_mul_left k hpq
      omega
  obtain ⟨m0, hm0, hle0⟩ := maxCompressedChunks_mono C hC enc.info per q hpq (fun h => (hlz h).2) n m hmc
  have hm : maxCompressedSize C enc.info n = .ok m0 := by
    unfold maxCompressedSize
    rw [if_neg (by intro h; rw [h] at hst; simp at hst), maxSerializedPointSize_eq hkn]
    simpa only [Res.ok_bind, hper] using hm0
  unfold encodeView
  have h0 : ¬ enc.info.point_step = 0#32 := by intro h; rw [h] at hst; simp at hst
  rw [if_neg h0, if_neg (by rw [hcloud.size, Nat.mul_mod_left]; simp)]
  simp only [hp, hm, Res.ok_bind]
  rw [if_neg (by omega)]
  have hwr : (⟨[], room⟩ : W).raw (if wh = true then enc.header else []) =
      .ok ⟨(if wh = true then enc.header else []), room - (if wh = true then enc.header.length else 0)⟩ := by
    unfold W.raw
    cases wh
    · simp
    · simp only [if_true] at hroom ⊢
      rw [if_pos (by omega)]
      simp
  rw [hwr]
  simp only [Res.ok_bind]
  have hchunkU : ∀ k b, k ≤ kPointsPerChunk → chunkBound C enc.info q k = .ok b → b ≤ u32Max := by
    intro k b hk hb
    have hkp : k * q ≤ kPointsPerChunk * q := Nat.mul_le_mul_right _ hk
    unfold fullChunk at hchunk hbound hlz
    have hle : k * q + (if usesV5 enc.info then enc.info.fields.length * 32 + 1024 else 0) ≤
      kPointsPerChunk * q + (if usesV5 enc.info then enc.info.fields.length * 32 + 1024 else 0) := by omega
    unfold chunkBound at hb
    simp only at hb
    generalize k * q + (if usesV5 enc.info then enc.info.fields.length * 32 + 1024 else 0) = a at *
    generalize kPointsPerChunk * q + (if usesV5 enc.info then enc.info.fields.length * 32 + 1024 else 0) = c at *
    cases ho : enc.info.compression_opt with
    | none => simp only [ho, Res.ok.injEq] at hb; omega
    | lz4 =>
      simp only [ho] at hb
      by_cases hi : a > intMax
      · rw [if_pos hi] at hb; simp at hb
      · rw [if_neg hi] at hb
        simp only [Res.ok.injEq] at hb
        rw [ho] at hbound
        have := hC.bound_mono .lz4 _ _ hle (fun _ => (hlz ho).2)
        have := hbound (by simp)
        omega
    | zstd =>
      simp only [ho, Res.ok.injEq] at hb
      rw [ho] at hbound
      have := hC.bound_mono .zstd _ _ hle (by simp)
      have := hbound (by simp)
      omega
    | bad x => simp [ho] at hb
  obtain ⟨r, hr⟩ := writeAll_fits C hC enc.info q n m cs
    ⟨(if wh = true then enc.header else []), room - (if wh = true then enc.header.length else 0)⟩
    (if wh = true then enc.header.length else 0) hmc hcs (by simp only; omega) hchunkU hchunk
    (fun h => ⟨by have := (hlz h).1; simp only; omega, (hlz h).2⟩)
  have he := encodePayload_eq F C enc cloud ⟨(if wh = true then enc.header else []), room - (if wh = true then enc.header.length else 0)⟩
    (if wh = true then enc.header.length else 0) es' cs s1
  rw [hp] at he
  rw [he, hr]
  exact ⟨_, rfl⟩

/-- **C22 (partial).** Any view with room for `MaxCompressedSize(info, n, false)` bytes plus the header suffices: encode
succeeds.  Missing: version-5 adaptive clouds with more than 4096 points, for which the claim is false
(`C22_v5_bound_too_small`; for a corrected bound see `C22_corrected_partial`), or more than 64 wide integer fields; values out of range (`C05_int64_fails`); chunks so large (over 4 GiB,
over 2 GiB with LZ4) that encode refuses them by design; LZ4 with a view above 2 GiB (encode throws). -/
theorem C22_bound_partial (F : FloatOps) (C : Compressor) (hC : C.Lawful) (info : EncodingInfo) (header : List Byte) (enc : Encoder)
    (hinfo : ValidInfo F info) (hreach : Reach F C info header enc) (n : Nat) (cloud : List Byte) (hcloud : CloudOf F info n cloud)
    (per m room : Nat) (wh : Bool) (hper : maxSerializedPointSize info.encoding_opt info.fields = .ok per)
    (hm : maxCompressedSize C info n = .ok m) (hroom : m + (if wh then header.length else 0) ≤ room)
    (hv5 : usesV5 info = true → n ≤ kProbePoints) (h64 : FieldLimit info)
    (hchunk : fullChunk info per ≤ u32Max) (hbound : info.compression_opt ≠ .none → C.bound info.compression_opt (fullChunk info per) ≤ u32Max)
    (hlz : info.compression_opt = .lz4 → room ≤ intMax + 4 ∧ fullChunk info per ≤ lz4MaxInput) :
    ∃ r, encodeView F C enc cloud room wh = .ok r := by
  have hm' : maxCompressedChunks C info per n = .ok m := by
    unfold maxCompressedSize at hm
    split at hm
    · simp at hm
    rw [hper] at hm
    simpa only [Res.ok_bind] using hm
  exact encode_fits F C hC info header enc hinfo hreach n cloud hcloud per per m room wh hper (Nat.le_refl _) hm' hroom
    (fun h => Or.inl (hv5 h)) h64 hchunk hbound hlz

/-- What `MaxCompressedSize` would have to count per point for its promise to hold: one byte more for every field of a version-5 cloud. -/
def perCorrected (info : EncodingInfo) (per : Nat) : Nat := per + (if usesV5 info then info.fields.length else 0)

/-- **C22, corrected.** With one byte more per point and field of version-5 clouds, the formula of `MaxCompressedSize` is enough for any number of points. -/
theorem C22_corrected_partial (F : FloatOps) (C : Compressor) (hC : C.Lawful) (info : EncodingInfo) (header : List Byte) (enc : Encoder)
    (hinfo : ValidInfo F info) (hreach : Reach F C info header enc) (n : Nat) (cloud : List Byte) (hcloud : CloudOf F info n cloud)
    (per m room : Nat) (wh : Bool) (hper : maxSerializedPointSize info.encoding_opt info.fields = .ok per)
    (hm : maxCompressedChunks C info (perCorrected info per) n = .ok m) (hroom : m + (if wh then header.length else 0) ≤ room)
    (h64 : FieldLimit info)
    (hchunk : fullChunk info (perCorrected info per) ≤ u32Max)
    (hbound : info.compression_opt ≠ .none → C.bound info.compression_opt (fullChunk info (perCorrected info per)) ≤ u32Max)
    (hlz : info.compression_opt = .lz4 → room ≤ intMax + 4 ∧ fullChunk info (perCorrected info per) ≤ lz4MaxInput) :
    ∃ r, encodeView F C enc cloud room wh = .ok r :=
  encode_fits F C hC info header enc hinfo hreach n cloud hcloud per (perCorrected info per) m room wh hper (Nat.le_add_right _ _) hm hroom
    (fun h => Or.inr (by unfold perCorrected; rw [if_pos h]; omega)) h64 hchunk hbound hlz

/-! ### the bound is too small for version 5 -/

/-- One UINT64 field per point, nothing else, no stage-2 compression, current version, two chunks of points. -/
def badInfo : EncodingInfo :=
  { fields := [{ name := [0x69#8, 0x64#8], offset := 0#32, type := .uint64 }], width := 65536#32, height := 1#32,
    point_step := 8#32, encoding_opt := .lossy, compression_opt := .none, version := 5#8 }

def up : BitVec 64 := 0x2000000000000000#64
def down : BitVec 64 := 0xE000000000000000#64

/-- `z` zeros (so that the encoder commits to delta run lengths), then `m` values alternating between ±2^61. -/
def badVals1 (z m : Nat) : List (BitVec 64) := List.replicate z 0#64 ++ altern up down m
def bytesOf (vs : List (BitVec 64)) : List Byte := vs.flatMap fun v => toLE 8 v.toNat
/-- 4096 zeros, then 61440 values alternating between ±2^61. -/
def badCloud : List Byte := bytesOf (badVals1 4096 28672) ++ bytesOf (altern up down 32768)

theorem bytesOf_length (vs : List (BitVec 64)) : (bytesOf vs).length = vs.length * 8 := by
  induction vs with
  | nil => rfl
  | cons v vs ih => simp only [bytesOf, List.flatMap_cons, List.length_append, toLE_length, List.length_cons] at *; omega

theorem fieldSeq_bytesOf (vs : List (BitVec 64)) (rest : List Byte) :
    fieldSeq 8 0 8 vs.length (bytesOf vs ++ rest) = vs.map fun v => toLE 8 v.toNat := by
  induction vs with
  | nil => rfl
  | cons v vs ih =>
    simp only [List.length_cons, fieldSeq, List.map_cons, bytesOf, List.flatMap_cons, List.append_assoc] at ih ⊢
    rw [List.drop_left' (by simp), ih, sub]
    simp [List.take_left']

theorem mem_fieldSeq (step off bpv n : Nat) (mem : List Byte) (i : Nat) (h : i < n) :
    sub (mem.drop (i * step)) off bpv ∈ fieldSeq step off bpv n mem := by
  induction n generalizing mem i with
  | zero => omega
  | succ n ih =>
    simp only [fieldSeq, List.mem_cons]
    cases i with
    | zero => left; simp
    | succ i =>
      right
      have := ih (mem.drop step) i (by omega)
      rwa [List.drop_drop, show step + i * step = (i + 1) * step by rw [Nat.add_mul]; omega] at this

theorem toI64_toLE8 (v : BitVec 64) (signed : Bool) : toI64 8 signed (toLE 8 v.toNat) = v := by
  rw [toI64_full, fromLE_toLE]
  rw [Nat.mod_eq_of_lt (by have := v.isLt; omega)]
  simp

def badField : AField := mkAField { name := [0x69#8, 0x64#8], offset := 0#32, type := .uint64 }

theorem bad_ivals (vs : List (BitVec 64)) (f : AField) (hf : SameField f badField) :
    ivals f (vs.map fun v => toLE 8 v.toNat) = vs := by
  unfold ivals
  rw [List.map_map, hf.2.1]
  conv => rhs; rw [← List.map_id vs]
  apply List.map_congr_left
  intro v _
  exact toI64_toLE8 v _

theorem bad_rvals (vs : List (BitVec 64)) : rvals (vs.map fun v => toLE 8 v.toNat) = vs := by
  unfold rvals
  rw [List.map_map]
  conv => rhs; rw [← List.map_id vs]
  apply List.map_congr_left
  intro v _
  exact (toI64_full false _).symm.trans (toI64_toLE8 v false)

theorem bad_good (vs : List (BitVec 64)) (rest : List Byte) (f : AField) (hf : SameField f badField) (hs : SubOK 0#64 vs) :
    GoodA 8 vs.length (bytesOf vs ++ rest) f := by
  constructor
  · intro i hi
    rw [hf.1, hf.2.1, List.length_drop, List.length_append, bytesOf_length]
    have : (i + 1) * 8 ≤ vs.length * 8 := Nat.mul_le_mul_right _ hi
    show 0 + 8 ≤ _
    omega
  · rw [show f.offset = 0 from hf.1, show f.bpv = 8 from hf.2.1, fieldSeq_bytesOf, bad_ivals _ _ hf]
    exact hs

theorem bad_sub1 (z m : Nat) : SubOK 0#64 (badVals1 z m) := by
  unfold badVals1
  induction z with
  | zero => exact subOK_altern _ _ _ _ ⟨by decide, by decide, by decide, by decide, by decide, by decide, trivial⟩
  | succ z ih => rw [List.replicate_succ, List.cons_append]; exact ⟨by decide, by decide, ih⟩

theorem bad_size2 (k : Nat) : 11 * k ≤ (deltaRleSec (altern up down (k + 1))).length := by
  unfold deltaRleSec
  rw [deltas_altern]
  have h := dRleBytes_altern (down - up) (up - down) (by decide) (by decide +kernel) (by decide +kernel) k
  cases k with
  | zero => omega
  | succ k =>
    rw [show altern (down - up) (up - down) (k + 1) = (down - up) :: altern (up - down) (down - up) k from rfl] at h ⊢
    rw [runs_cons_ne _ _ _ (by decide)]
    simp only [dRleBytes, List.flatMap_cons, List.length_cons, List.length_append] at h ⊢
    omega

theorem bad_size1 (z k : Nat) : 11 * k ≤ (deltaRleSec (badVals1 (z + 1) (k + 1))).length := by
  have h2 := bad_size2 k
  unfold deltaRleSec at h2 ⊢
  unfold badVals1
  rw [deltas_replicate_app]
  rw [deltas_altern] at h2 ⊢
  rw [runs_replicate_app _ _ _ (by decide)]
  simp only [dRleBytes, List.flatMap_cons, List.length_cons, List.length_append, toLE_length] at h2 ⊢
  omega

/-- Stage 1 of the cloud, for any split into two chunks of `K` points. -/
theorem bad_stage1 (F : FloatOps) (K z m cap : Nat) (hK : kPointsPerChunk = K) (hz : kProbePoints = z + 1) (hzm : z + 1 + (m + 1) = K)
    (hK2 : K ≤ 65535) (hz8 : z ≤ 8000) (hz32 : 32 ≤ z) (hcap : 5 + 11 * K ≤ cap) :
    stage1V5 F hashPaletteValue 8 cap (K + K) [] [badField] (bytesOf (badVals1 (z + 1) (m + 1)) ++ bytesOf (altern up down K)) =
      .ok [deltaRleSec (badVals1 (z + 1) (m + 1)), deltaRleSec (altern up down K)] := by
  have hl1 : (badVals1 (z + 1) (m + 1)).length = K := by
    unfold badVals1; rw [List.length_append, List.length_replicate, altern_length, hzm]
  have hl2 : (altern up down K).length = K := altern_length _ _ _
  have hmem : bytesOf (badVals1 (z + 1) (m + 1)) ++ bytesOf (altern up down K) =
      bytesOf (List.replicate (z + 1) 0#64) ++ (bytesOf (altern up down (m + 1)) ++ bytesOf (altern up down K)) := by
    unfold badVals1 bytesOf; rw [List.flatMap_append, List.append_assoc]
  have hseq1 := fieldSeq_bytesOf (badVals1 (z + 1) (m + 1)) (bytesOf (altern up down K))
  have hseqz := fieldSeq_bytesOf (List.replicate (z + 1) 0#64) (bytesOf (altern up down (m + 1)) ++ bytesOf (altern up down K))
  rw [← hmem, List.length_replicate] at hseqz
  rw [hl1] at hseq1
  have hb : SameField badField badField := SameField.refl _
  have hg1 := bad_good (badVals1 (z + 1) (m + 1)) (bytesOf (altern up down K)) badField hb (bad_sub1 _ _)
  rw [hl1] at hg1
  obtain ⟨g, e1, t1, s1, c1, m1⟩ := one_fresh F hashPaletteValue 8 K cap badField .deltaRle
    (bytesOf (badVals1 (z + 1) (m + 1)) ++ bytesOf (altern up down K)) (z + 1) hz (by omega) (tinv_fresh _) hg1 hK2 rfl
    (by
      rw [show badField.offset = 0 from rfl, show badField.bpv = 8 from rfl, hseqz, bad_ivals _ _ hb, bad_rvals]
      exact bestMode_zeros z hz8 hz32)
    (by
      rw [show badField.offset = 0 from rfl, show badField.bpv = 8 from rfl, hseq1, bad_ivals _ _ hb, bad_rvals]
      have := deltaRleSec_length (badVals1 (z + 1) (m + 1)) (by omega)
      simp only [secFor]
      omega)
  rw [show badField.offset = 0 from rfl, show badField.bpv = 8 from rfl, hseq1, bad_ivals _ _ hb, bad_rvals] at e1
  rw [List.drop_left' (by rw [bytesOf_length, hl1])] at e1
  have hseq2 := fieldSeq_bytesOf (altern up down K) []
  rw [List.append_nil, hl2] at hseq2
  have hg2 := bad_good (altern up down K) [] g s1 (subOK_altern _ _ _ _ ⟨by decide, by decide, by decide, by decide, by decide, by decide, trivial⟩)
  rw [List.append_nil, hl2] at hg2
  obtain ⟨g2, e2, _⟩ := one_committed F hashPaletteValue 8 K cap g .deltaRle (bytesOf (altern up down K)) t1 hg2 hK2 c1 m1
    (by
      rw [show g.offset = 0 from s1.1, show g.bpv = 8 from s1.2.1, hseq2, bad_ivals _ _ s1, bad_rvals]
      have := deltaRleSec_length (altern up down K) (by omega)
      simp only [secFor]
      omega)
  rw [show g.offset = 0 from s1.1, show g.bpv = 8 from s1.2.1, hseq2, bad_ivals _ _ s1, bad_rvals] at e2
  unfold stage1V5
  rw [dif_neg (by omega), hK, show min (K + K) K = K by omega, e1]
  simp only [Res.ok_bind]
  unfold stage1V5
  rw [hK, show K + K - K = K by omega, dif_neg (by omega), show min K K = K by omega, e2]
  simp only [Res.ok_bind]
  unfold stage1V5
  rw [dif_pos (by omega)]
  rfl

theorem bad_valid (F : FloatOps) : ValidInfo F badInfo where
  step := by decide
  version := by decide
  option := by decide
  types := by decide
  inside := by decide
  disjoint := by simp [badInfo]
  resolution := by
    intro _ f hf r hr
    simp only [badInfo, List.mem_singleton] at hf
    subst hf
    simp at hr

theorem altern_mem {α : Type} (a b x : α) (n : Nat) (h : x ∈ altern a b n) : x = a ∨ x = b := by
  induction n generalizing a b with
  | zero => simp [altern] at h
  | succ n ih =>
    simp only [altern, List.mem_cons] at h
    rcases h with h | h
    · exact Or.inl h
    · exact (ih b a h).symm

theorem bad_cloudOf (F : FloatOps) (z m k n : Nat) (hn : z + m + k = n) :
    CloudOf F badInfo n (bytesOf (badVals1 z m) ++ bytesOf (altern up down k)) := by
  have hall : bytesOf (badVals1 z m) ++ bytesOf (altern up down k) = bytesOf (badVals1 z m ++ altern up down k) := by
    unfold bytesOf; rw [List.flatMap_append]
  have hl : (badVals1 z m ++ altern up down k).length = n := by
    unfold badVals1; rw [List.length_append, List.length_append, List.length_replicate, altern_length, altern_length, hn]
  rw [hall]
  constructor
  · rw [bytesOf_length, hl]; rfl
  · refine follows_of_range ?_
    intro i hi j f hf
    cases j with
    | succ j => simp [badInfo] at hf
    | zero =>
      simp only [badInfo, List.getElem?_cons_zero, Option.some.injEq] at hf
      subst hf
      rw [cell_eq_sub]
      have hm := mem_fieldSeq 8 0 8 n (bytesOf (badVals1 z m ++ altern up down k)) i hi
      have hs := fieldSeq_bytesOf (badVals1 z m ++ altern up down k) []
      rw [List.append_nil, hl] at hs
      rw [hs, List.mem_map] at hm
      obtain ⟨v, hv, he⟩ := hm
      show InRange F badInfo 0 _ (sub ((bytesOf (badVals1 z m ++ altern up down k)).drop (i * 8)) 0 8)
      rw [← he]
      have hr : BitVec.ofNat 64 (fromLE (toLE 8 v.toNat)) = v := (toI64_full false _).symm.trans (toI64_toLE8 v false)
      show Fits62 (BitVec.ofNat 64 (fromLE (toLE 8 v.toNat)))
      rw [hr]
      have : v = 0#64 ∨ v = up ∨ v = down := by
        unfold badVals1 at hv
        simp only [List.mem_append, List.mem_replicate] at hv
        rcases hv with (⟨_, h⟩ | h) | h
        · exact Or.inl h
        · exact Or.inr (altern_mem _ _ _ _ h)
        · exact Or.inr (altern_mem _ _ _ _ h)
      rcases this with rfl | rfl | rfl <;> (unfold Fits62; decide)

theorem encodePayload_at (F : FloatOps) (C : Compressor) (enc : Encoder) (cloud : List Byte) (w : W) (size : Nat)
    (es' : List Enc) (cs : List (List Byte)) (n : Nat) (hn : cloud.length / enc.info.point_step.toNat = n)
    (h : stage1Chunks F enc cloud = .ok (es', cs)) :
    encodePayload F C enc n cloud w size =
      (writeAll C enc.info.compression_opt cs w size >>= fun r => .ok ({ enc with encs := es' }, r.1, r.2)) := by
  subst hn; exact encodePayload_eq F C enc cloud w size es' cs h

theorem bad_max (C : Compressor) : maxCompressedSize C badInfo 65536 = .ok 657480 := by
  have hv : usesV5 badInfo = true := by decide
  unfold maxCompressedSize
  rw [if_neg (by decide), show maxSerializedPointSize badInfo.encoding_opt badInfo.fields = .ok 10 from by decide]
  simp only [Res.ok_bind]
  generalize hK : kPointsPerChunk = K
  have hK' : K = 32768 := by rw [← hK]; rfl
  have hb : chunkBound C badInfo 10 K = .ok 328736 := by
    unfold chunkBound; rw [hv, hK']; rfl
  unfold maxCompressedChunks
  rw [dif_neg (by omega), hK, show min 65536 K = K by omega, hb]
  simp only [Res.ok_bind]
  unfold maxCompressedChunks
  rw [dif_neg (by omega), hK, show min (65536 - K) K = K by omega, hb]
  simp only [Res.ok_bind]
  unfold maxCompressedChunks
  rw [dif_pos (by omega)]
  rfl

theorem bad_payload (F : FloatOps) (C : Compressor) (c1 c2 cl : List Byte) (enc : Encoder) (hi : enc.info = badInfo)
    (hcl : cl.length = 65536 * 8) (hs : stage1Chunks F enc cl = .ok ([], [c1, c2]))
    (h1 : 11 * 28671 ≤ c1.length) (h2 : 11 * 32767 ≤ c2.length) (u1 : c1.length ≤ 5 + 11 * 32768) (u2 : c2.length ≤ 5 + 11 * 32768) :
    encodeView F C enc cl 657480 false = .throw "Output buffer too small for uncompressed chunk" := by
  have hpts : cl.length / enc.info.point_step.toNat = 65536 := by rw [hcl, hi]; rfl
  have hm : maxCompressedSize C enc.info 65536 = .ok 657480 := by rw [hi]; exact bad_max C
  have hp := encodePayload_at F C enc cl ⟨[], 657480⟩ 0 _ _ 65536 hpts hs
  unfold encodeView
  rw [if_neg (by rw [hi]; decide), if_neg (by rw [hcl, hi]; decide)]
  simp only [hpts, hm, Res.ok_bind]
  rw [if_neg (by simp)]
  simp only [Bool.false_eq_true, if_false, W_raw_empty, Res.ok_bind]
  rw [hp]
  simp only [writeAll]
  unfold writeStage1Chunk
  simp only [show enc.info.compression_opt = .none from by rw [hi]; rfl, if_true, W.encodeInt, W.checked, toLE_length]
  have hu : u32Max = 4294967295 := rfl
  rw [if_neg (by omega), if_pos (by omega)]
  simp only [Res.ok_bind]
  rw [if_pos (by omega)]
  simp only [Res.ok_bind]
  rw [if_neg (by omega), if_pos (by omega)]
  simp only [Res.ok_bind]
  rw [if_neg (by omega)]
  rfl

theorem bad_main (F : FloatOps) (C : Compressor) (z m K n : Nat) (hz : kProbePoints = z + 1) (hm : m + 1 = 28672) (hK : kPointsPerChunk = K)
    (hn : n = 65536) (enc : Encoder) (hi : enc.info = badInfo) (hes : enc.encs = []) :
    CloudOf F badInfo n (bytesOf (badVals1 (z + 1) (m + 1)) ++ bytesOf (altern up down K)) ∧
      encodeView F C enc (bytesOf (badVals1 (z + 1) (m + 1)) ++ bytesOf (altern up down K)) 657480 false =
        .throw "Output buffer too small for uncompressed chunk" := by
  have hv : usesV5 badInfo = true := by decide
  have hK' : K = 32768 := by rw [← hK]; rfl
  have hz' : z + 1 = 4096 := by rw [← hz]; rfl
  have hof := bad_cloudOf F (z + 1) (m + 1) K n (by omega)
  refine ⟨hof, ?_⟩
  have hcl : (bytesOf (badVals1 (z + 1) (m + 1)) ++ bytesOf (altern up down K)).length = 65536 * 8 := by
    rw [hof.size, hn]; rfl
  have hl1 : (badVals1 (z + 1) (m + 1)).length = 32768 := by
    unfold badVals1; rw [List.length_append, List.length_replicate, altern_length]; omega
  have u1 := deltaRleSec_length (badVals1 (z + 1) (m + 1)) (by omega)
  have u2 := deltaRleSec_length (altern up down K) (by rw [altern_length]; omega)
  rw [hl1] at u1
  rw [altern_length, hK'] at u2
  obtain ⟨k, hk⟩ : ∃ k, K = k + 1 := ⟨K - 1, by omega⟩
  have h1 := bad_size1 z m
  have h2 := bad_size2 k
  rw [← hk] at h2
  rw [← hK'] at u2
  refine bad_payload F C (deltaRleSec (badVals1 (z + 1) (m + 1))) (deltaRleSec (altern up down K)) _ enc hi hcl ?_ (by omega) (by omega) u1 (by omega)
  unfold stage1Chunks
  rw [hi, hv]
  simp only [if_true]
  rw [hcl, show v5StageBufferSize badInfo kPointsPerChunk = .ok (kPointsPerChunk * 74 + 64 + 1024) from rfl]
  simp only [Res.ok_bind]
  rw [show buildV5Plan F badInfo = .ok ([], [badField]) from rfl]
  simp only [Res.ok_bind]
  rw [show 65536 * 8 / badInfo.point_step.toNat = 65536 from rfl, show 65536 = K + K by omega, hK,
    show badInfo.point_step.toNat = 8 from rfl, bad_stage1 F K z m (K * 74 + 64 + 1024) hK hz (by omega) (by omega) (by omega) (by omega) (by omega)]
  simp only [Res.ok_bind, hes]

/-- **C22 is false for version 5**: a cloud of 65536 points with ordinary UINT64 values, encoded with a fresh encoder into
a view of exactly `MaxCompressedSize` bytes, makes encode throw for lack of space.  (657480 bytes are reserved, at least
675818 needed: a run of length one costs 11 bytes where the bound counts 10.) -/
theorem C22_v5_bound_too_small (F : FloatOps) (C : Compressor) :
    ∃ enc, mkEncoder F badInfo [] = .ok enc ∧ ValidInfo F badInfo ∧ CloudOf F badInfo 65536 badCloud ∧
      maxCompressedSize C badInfo 65536 = .ok 657480 ∧
      encodeView F C enc badCloud 657480 false = .throw "Output buffer too small for uncompressed chunk" := by
  obtain ⟨a, b⟩ := bad_main F C 4095 28671 32768 65536 rfl rfl rfl rfl ⟨badInfo, [], []⟩ rfl rfl
  exact ⟨⟨badInfo, [], []⟩, by unfold mkEncoder; rw [if_pos (by decide)], bad_valid F, a, bad_max C, b⟩

/-! ## The theorems applied to concrete data -/

example (room : Nat) (wh : Bool) (cloud : List Byte) : encodeView bitsOps storeComp mixEnc cloud room wh ≠ .ub .mem :=
  C21_no_out_of_bounds bitsOps storeComp mixInfo [] mixEnc (mix_reach _) (by decide) cloud room wh
example (cloud : List Byte) : encodeVector bitsOps storeComp mixEncZ 2 cloud ≠ .ub .mem :=
  C21_no_out_of_bounds_vector bitsOps storeComp mixInfoZ [1#8, 2#8] mixEncZ (mixZ_reach _) (by decide) cloud 2 (by decide)
example (room : Nat) (wh : Bool) (k : UB) : encodeView bitsOps storeComp mixEnc mixCloud room wh ≠ .ub k :=
  C21_no_ub bitsOps storeComp mixInfo [] mixEnc (mix_reach _) mix_valid (by decide) mixCloud mix_cloud room wh k
/-- The mixed cloud fits the bound, uncompressed and compressed. -/
example : ∃ m r, maxCompressedSize storeComp mixInfo 3 = .ok m ∧ encodeView bitsOps storeComp mixEnc mixCloud m false = .ok r := by
  have hm : (maxCompressedSize storeComp mixInfo 3).isOk = true := by decide +kernel
  have hp : (maxSerializedPointSize mixInfo.encoding_opt mixInfo.fields) = .ok 68 := by decide +kernel
  cases h : maxCompressedSize storeComp mixInfo 3 with
  | throw e => rw [h] at hm; simp at hm
  | ub e => rw [h] at hm; simp at hm
  | ok m =>
    obtain ⟨r, hr⟩ := C22_bound_partial bitsOps storeComp storeComp_lawful mixInfo [] mixEnc mix_valid (mix_reach _) 3 mixCloud
      ⟨by decide +kernel, follows_of_range (range_of (by decide +kernel))⟩ 68 m m false hp h (by simp) (fun _ => by decide) (by decide) (by decide +kernel)
      (by intro h; simp [mixInfo] at h) (by intro h; simp [mixInfo] at h)
    exact ⟨m, r, rfl, hr⟩

/-- The cloud that `MaxCompressedSize` is too small for is encoded into a view of the corrected size. -/
example (F : FloatOps) : ∃ enc r, mkEncoder F badInfo [] = .ok enc ∧ encodeView F storeComp enc badCloud 723016 false = .ok r := by
  obtain ⟨enc, he, hv, hc, _⟩ := C22_v5_bound_too_small F storeComp
  obtain ⟨r, hr⟩ := C22_corrected_partial F storeComp storeComp_lawful badInfo [] enc hv (.fresh enc he) 65536 badCloud hc 10 723016 723016 false
    (by decide) (by decide +kernel) (by simp) (by decide) (by decide +kernel) (by intro h; simp [badInfo] at h) (by intro h; simp [badInfo] at h)
  exact ⟨enc, r, he, hr⟩

/-! ### C20 over a chunk boundary -/

/-- One byte per point, copied. -/
def byteInfo : EncodingInfo :=
  { fields := [{ name := [0x61#8], offset := 0#32, type := .uint8 }], width := 5#32, height := 1#32, point_step := 1#32,
    encoding_opt := .lossless, compression_opt := .zstd, version := 4#8 }

theorem byte_valid (F : FloatOps) : ValidInfo F byteInfo where
  step := by decide
  version := by decide
  option := by decide
  types := by decide
  inside := by decide
  disjoint := by decide
  resolution := by intro h; simp [byteInfo] at h

theorem byte_cloudOf (F : FloatOps) (cloud : List Byte) : CloudOf F byteInfo cloud.length cloud where
  size := by show _ = _ * 1; omega
  range := by
    intro i _ k f hf
    cases k with
    | zero => simp only [byteInfo, List.getElem?_cons_zero, Option.some.injEq] at hf; subst hf; trivial
    | succ k => simp [byteInfo] at hf

theorem byte_bound (points : Nat) : ∃ m, maxCompressedChunks storeComp byteInfo 1 points = .ok m := by
  induction points using Nat.strongRecOn with
  | ind n ih =>
    unfold maxCompressedChunks
    split
    · exact ⟨0, rfl⟩
    · next h0 =>
      obtain ⟨m, hm⟩ := ih (n - min n kPointsPerChunk) (by unfold kPointsPerChunk; omega)
      have hb : ∃ b, chunkBound storeComp byteInfo 1 (min n kPointsPerChunk) = .ok b := ⟨_, rfl⟩
      obtain ⟨b, hb⟩ := hb
      exact ⟨4 + b + m, by simp only [hb, hm, Res.ok_bind]⟩

theorem byte_encodes (F : FloatOps) (enc : Encoder) (h : Reach F storeComp byteInfo [] enc) (cloud : List Byte) :
    ∃ room r, encodeView F storeComp enc cloud room false = .ok r := by
  have hp : maxSerializedPointSize byteInfo.encoding_opt byteInfo.fields = .ok 1 := by decide
  obtain ⟨m, hc⟩ := byte_bound cloud.length
  have hm : maxCompressedSize storeComp byteInfo cloud.length = .ok m := by
    unfold maxCompressedSize
    rw [if_neg (by decide), hp]
    exact hc
  exact ⟨m, C22_bound_partial F storeComp storeComp_lawful byteInfo [] enc (byte_valid F) h _ cloud (byte_cloudOf F cloud) 1 m m false hp hm (by simp)
      (by intro h; simp [usesV5, byteInfo] at h) (by decide) (by decide +kernel) (by intro _; decide +kernel) (by intro h; simp [byteInfo] at h)⟩

/-- Two full chunks followed by anything: the output is the two outputs behind each other. -/
example (F : FloatOps) (a b : List Byte) (ha : a.length = 65536) (enc : Encoder) (h : Reach F storeComp byteInfo [] enc) :
    ∃ room roomA roomB outA outB r rA rB, encodeView F storeComp enc a roomA false = .ok (rA, outA, outA.length) ∧
      encodeView F storeComp enc b roomB false = .ok (rB, outB, outB.length) ∧
      encodeView F storeComp enc (a ++ b) room false = .ok (r, outA ++ outB, outA.length + outB.length) := by
  obtain ⟨roomA, ⟨rA, outA, nA⟩, hA⟩ := byte_encodes F enc h a
  obtain ⟨roomB, ⟨rB, outB, nB⟩, hB⟩ := byte_encodes F enc h b
  obtain ⟨room, ⟨r, out, n⟩, hAB⟩ := byte_encodes F enc h (a ++ b)
  have e := C20_concat F storeComp byteInfo [] (Or.inr (by
    intro o x c c' y y' h1 h2
    simp only [storeComp] at h1 h2
    split at h1 <;> split at h2 <;> simp_all)) (by decide) enc enc enc r rA rB a b out outA outB room roomA roomB n nA nB 2 h h h
    (by rw [ha]; decide) hA hB hAB
  have n1 := (C23_view_size _ _ _ _ _ _ _ _ _ hA).1
  have n2 := (C23_view_size _ _ _ _ _ _ _ _ _ hB).1
  have n3 := (C23_view_size _ _ _ _ _ _ _ _ _ hAB).1
  subst e
  subst n1 n2
  rw [List.length_append] at n3
  subst n3
  exact ⟨room, roomA, roomB, outA, outB, r, rA, rB, hA, hB, hAB⟩

end Cloudini.Props
