import Verif.Lemmas.Skip
import Verif.Model.Pcl
import Verif.Props.C21_C22

/-!
# C31, C46, C48
-/

namespace Cloudini.Props

/-! ## C31 -/

/-- What a caller does to skip fields: set the offset of the selected ones (by position) to the reserved value. -/
def skipFields (sel : Nat → Bool) (info : EncodingInfo) : EncodingInfo :=
  { info with fields := info.fields.mapIdx fun k f => if sel k then { f with offset := 0xFFFFFFFF#32 } else f }

/-- Position `p` of the output buffer belongs to field number `k` of a declared point, for some `k` with `sel k = b`. -/
def InFields (info : EncodingInfo) (sel : Nat → Bool) (b : Bool) (p : Nat) : Prop :=
  ∃ i, i < info.width.toNat * info.height.toNat ∧ ∃ k f, info.fields[k]? = some f ∧ sel k = b ∧
    i * info.point_step.toNat + f.offset.toNat ≤ p ∧ p < i * info.point_step.toNat + f.offset.toNat + sizeOf f.type

theorem all2_mapIdx {R : PointField → PointField → Prop} (fs : List PointField) (g : Nat → PointField → PointField)
    (h : ∀ k f, fs[k]? = some f → R f (g k f)) : All2 R fs (fs.mapIdx g) := by
  induction fs generalizing g with
  | nil => trivial
  | cons f fs ih =>
    rw [List.mapIdx_cons]
    exact ⟨h 0 f rfl, ih _ fun k f hk => h (k + 1) f (by simpa using hk)⟩

theorem adaptive_same {fs gs : List PointField} (h : All2 (fun f g => g.type = f.type ∧ (isAdaptiveType f.type = true → g = f)) fs gs) :
    (gs.filter fun f => isAdaptiveType f.type).map mkAField = (fs.filter fun f => isAdaptiveType f.type).map mkAField := by
  induction fs generalizing gs with
  | nil => cases gs <;> simp_all [All2]
  | cons f fs ih =>
    cases gs with
    | nil => exact h.elim
    | cons g gs =>
      simp only [List.filter_cons, h.1.1]
      split
      · next ha => rw [List.map_cons, List.map_cons, ih h.2, h.1.2 ha]
      · exact ih h.2

/-- **C31 (partial).** For every payload whatsoever that decodes with `info`: with the selected fields marked as skipped it
still decodes, every byte outside the selected fields is what it was with `info`, and every byte outside the other fields is
what the caller's buffer held before.  Missing: 16- to 64-bit integer fields of version-5 lossy clouds, for which the
claim is false (`C31_adaptive_skip_fails`); version-2 payloads are in `C31_version2` (Props/C31_V2). -/
theorem C31_skip_partial (F : FloatOps) (C : Compressor) (info : EncodingInfo) (sel : Nat → Bool) (payload buf buf' : List Byte) (fuel : Nat)
    (hstep : 0 < info.point_step.toNat) (hver : 3 ≤ info.version.toNat) (hbuf : buf.length < 2 ^ 64)
    (hsel : info.version.toNat < 5 ∨ info.encoding_opt ≠ .lossy ∨ ∀ k f, info.fields[k]? = some f → sel k = true →
      f.type ∉ [.int16, .uint16, .int32, .uint32, .int64, .uint64])
    (h : decodeCloud F C fuel info payload buf = .ok buf') :
    ∃ buf'', decodeCloud F C fuel (skipFields sel info) payload buf = .ok buf'' ∧ buf''.length = buf.length ∧
      (∀ p, ¬ InFields info sel true p → buf''[p]? = buf'[p]?) ∧ (∀ p, ¬ InFields info sel false p → buf''[p]? = buf[p]?) := by
  have hsk : usesV5 info = true → ∀ k f, info.fields[k]? = some f → sel k = true → isAdaptiveType f.type = false := by
    intro hu k f hk hs
    unfold usesV5 at hu
    simp only [Bool.and_eq_true, decide_eq_true_eq] at hu
    rcases hsel with h1 | h1 | h1
    · exact absurd (show 5 ≤ info.version.toNat from hu.1.1) (by omega)
    · exact absurd hu.1.2 h1
    · have := h1 k f hk hs
      cases hf : f.type <;> simp_all [isAdaptiveType]
  let sk : List (Nat × Nat) := (info.fields.mapIdx fun k f => (sel k, f.offset.toNat, sizeOf f.type)).filterMap fun r => if r.1 then some r.2 else none
  have hmem : ∀ r, r ∈ sk ↔ ∃ k f, info.fields[k]? = some f ∧ sel k = true ∧ r = (f.offset.toNat, sizeOf f.type) := by
    intro r
    simp only [sk, List.mem_filterMap]
    constructor
    · rintro ⟨a, ha, hr⟩
      obtain ⟨k, hk⟩ := List.mem_iff_getElem?.1 ha
      simp only [List.getElem?_mapIdx, Option.map_eq_some_iff] at hk
      obtain ⟨f, hf, rfl⟩ := hk
      simp only at hr
      split at hr
      · next hs => simp only [Option.some.injEq] at hr; exact ⟨k, f, hf, hs, hr.symm⟩
      · simp at hr
    · rintro ⟨k, f, hf, hs, rfl⟩
      exact ⟨(sel k, f.offset.toNat, sizeOf f.type), List.mem_iff_getElem?.2 ⟨k, by simp [hf]⟩, by simp [hs]⟩
  let S : Nat → Prop := fun p => InFields info sel true p
  have hsf : All2 (SkipF sk) info.fields (skipFields sel info).fields := by
    refine all2_mapIdx _ _ fun k f hk => ?_
    split
    · next hs => exact ⟨rfl, ⟨rfl, rfl⟩, Or.inr ⟨rfl, (hmem _).2 ⟨k, f, hk, hs, rfl⟩⟩⟩
    · exact ⟨rfl, ⟨rfl, rfl⟩, Or.inl rfl⟩
  have hn : leadingLossyFloatCount (skipFields sel info) = leadingLossyFloatCount info := leadCount_same (skipF_same hsf) rfl
  have hu : usesV5 (skipFields sel info) = usesV5 info := by
    unfold usesV5
    rw [hn, any_drop_same (all2_take (skipF_same hsf) _).2]
    rfl
  have had : usesV5 info = true → getAdaptiveFields (skipFields sel info) = getAdaptiveFields info := by
    intro hv
    unfold getAdaptiveFields
    rw [hn]
    show (if info.encoding_opt = .lossy then _ else _) = _
    split
    · refine adaptive_same (all2_take ?_ _).2
      refine all2_mapIdx _ _ fun k f hk => ?_
      split
      · next hs => exact ⟨rfl, fun ha => by rw [hsk hv k f hk hs] at ha; simp at ha⟩
      · exact ⟨rfl, fun _ => rfl⟩
    · rfl
  unfold decodeCloud at h ⊢
  rw [Res.bind_eq_ok] at h
  obtain ⟨⟨ds, m⟩, hb, h⟩ := h
  simp only at h
  obtain ⟨ds', hb', hd⟩ := buildDecoders_sim (F := F) (info := info) (dinfo := skipFields sel info) rfl rfl hsf ds m hb
  rw [hb']
  simp only [Res.ok_bind]
  split at h
  · simp at h
  next hmag =>
  rw [if_neg hmag]
  rw [if_pos (show info.version ≥ 3#8 from hver)] at h
  rw [if_pos (show (skipFields sel info).version ≥ 3#8 from hver)]
  have hc : ∀ i, i < info.width.toNat * info.height.toNat → Cover S sk (0 + i * info.point_step.toNat) := by
    intro i hi r hr p h1 h2
    obtain ⟨k, f, hk, hs, rfl⟩ := (hmem r).1 hr
    exact ⟨i, hi, k, f, hk, hs, by simpa using h1, by simpa using h2⟩
  obtain ⟨b', g1, g2⟩ := decodeLoop_sim info (skipFields sel info) hu rfl rfl rfl had hstep m _ ds ds' payload buf buf buf' 0 hbuf
    (buildDecoders_spots F info ds m hb) hc hd (.refl _ _) h
  refine ⟨b', g1, ?_, g2.2, ?_⟩
  · have := decodeLoop_foot F C info m _ ds payload buf buf' 0 info.fields (buildDecoders_spots F info ds m hb)
      (fun _ f hf => (adaptive_declared info f hf).1) hstep hbuf h
    rw [g2.1, this.1]
  · let keep : List PointField := (info.fields.mapIdx fun k f => (sel k, f)).filterMap fun r => if r.1 then none else some r.2
    have hkeep : ∀ f, f ∈ keep ↔ ∃ k, info.fields[k]? = some f ∧ sel k = false := by
      intro f
      simp only [keep, List.mem_filterMap]
      constructor
      · rintro ⟨a, ha, hr⟩
        obtain ⟨k, hk⟩ := List.mem_iff_getElem?.1 ha
        simp only [List.getElem?_mapIdx, Option.map_eq_some_iff] at hk
        obtain ⟨f', hf, rfl⟩ := hk
        simp only at hr
        split at hr
        · simp at hr
        · next hs => simp only [Option.some.injEq] at hr; subst hr; exact ⟨k, hf, by simpa using hs⟩
      · rintro ⟨k, hf, hs⟩
        exact ⟨(sel k, f), List.mem_iff_getElem?.2 ⟨k, by simp [hf]⟩, by simp [hs]⟩
    have hsp : SpotsIn keep ds' := by
      intro d hdm sp hspm hne
      obtain ⟨g, hg, rfl⟩ := buildDecoders_spots F _ ds' m hb' d hdm sp hspm hne
      obtain ⟨k, hk⟩ := List.mem_iff_getElem?.1 hg
      simp only [skipFields, List.getElem?_mapIdx, Option.map_eq_some_iff] at hk
      obtain ⟨f, hf, rfl⟩ := hk
      split
      · next hs => rw [if_pos hs] at hne; exact absurd rfl hne
      · next hs => exact ⟨f, (hkeep f).2 ⟨k, hf, by simpa using hs⟩, rfl⟩
    have hfoot : usesV5 info = true → ∀ f ∈ getAdaptiveFields (skipFields sel info), ∃ p ∈ keep, f.offset = p.offset.toNat ∧ f.bpv = sizeOf p.type := by
      intro hv f hf
      rw [had hv] at hf
      unfold getAdaptiveFields at hf
      split at hf
      · simp only [List.mem_map] at hf
        obtain ⟨p, hp, rfl⟩ := hf
        rw [List.mem_filter] at hp
        obtain ⟨k, hk⟩ := List.mem_iff_getElem?.1 (List.mem_of_mem_drop hp.1)
        refine ⟨p, (hkeep p).2 ⟨k, hk, ?_⟩, rfl, rfl⟩
        cases hs : sel k with
        | false => rfl
        | true => have := hsk hv k p hk hs; rw [this] at hp; simp at hp
      · simp at hf
    have := decodeLoop_foot F C (skipFields sel info) m _ ds' payload buf b' 0 keep hsp (fun hv => hfoot (by rw [← hu]; exact hv)) hstep hbuf g1
    intro p hp
    refine this.2 p ?_
    intro i hi f hf
    apply Classical.byContradiction
    intro hcon
    obtain ⟨k, hk, hs⟩ := (hkeep f).1 hf
    simp only [skipFields] at hcon
    exact hp ⟨i, hi, k, f, hk, hs, by omega, by omega⟩

/-- The hypotheses are met by the mixed version-5 cloud with its copied float and its double skipped. -/
example : ∃ buf', decodeCloud bitsOps storeComp 0 mixInfo mixOut (List.replicate 108 9#8) = .ok buf' ∧
    (3 ≤ mixInfo.version.toNat ∧ ∀ k f, mixInfo.fields[k]? = some f → (k == 3 || k == 5) = true →
      f.type ∉ [FieldType.int16, .uint16, .int32, .uint32, .int64, .uint64]) := by
  have hk : (decodeCloud bitsOps storeComp 0 mixInfo mixOut (List.replicate 108 9#8)).isOk = true := by decide +kernel
  refine ⟨(match decodeCloud bitsOps storeComp 0 mixInfo mixOut (List.replicate 108 9#8) with | .ok b => b | _ => []), ?_, by decide, ?_⟩
  · revert hk
    cases decodeCloud bitsOps storeComp 0 mixInfo mixOut (List.replicate 108 9#8) <;> simp
  · intro k f hk hs
    simp only [Bool.or_eq_true, beq_iff_eq] at hs
    rcases hs with rfl | rfl
    · simp only [mixInfo, List.getElem?_cons_succ, List.getElem?_cons_zero, Option.some.injEq] at hk; subst hk; simp
    · simp only [mixInfo, List.getElem?_cons_succ, List.getElem?_cons_zero, Option.some.injEq] at hk; subst hk; simp

/-- One UINT16 field, one point. -/
def u16Info (opt : EncOpt) (comp : CompOpt) (version : Byte) : EncodingInfo :=
  { fields := [{ name := [0x69#8], offset := 0#32, type := .uint16 }], width := 1#32, height := 1#32,
    point_step := 2#32, encoding_opt := opt, compression_opt := comp, version := version }

/-- For 16- to 64-bit integer fields of version-5 clouds the skip value is not honoured: the value is written 4 GiB behind the
output buffer.  `payload` is what the encoder produces for the value 5. -/
theorem C31_adaptive_skip_ub :
    decodeCloud bitsOps storeComp 0 (u16Info .lossy .none 5#8) [2#8, 0#8, 0#8, 0#8, 0#8, 11#8] [0#8, 0#8] = .ok [5#8, 0#8] ∧
    decodeCloud bitsOps storeComp 0 (skipFields (fun _ => true) (u16Info .lossy .none 5#8)) [2#8, 0#8, 0#8, 0#8, 0#8, 11#8] [0#8, 0#8] = .ub .mem := by
  constructor <;> decide +kernel

/-- So C31 is false without the restriction on the selected fields. -/
theorem C31_adaptive_skip_fails : ¬ ∀ (F : FloatOps) (C : Compressor) (info : EncodingInfo) (sel : Nat → Bool) (payload buf buf' : List Byte)
    (fuel : Nat), 0 < info.point_step.toNat → 3 ≤ info.version.toNat → buf.length < 2 ^ 64 → decodeCloud F C fuel info payload buf = .ok buf' →
    ∃ buf'', decodeCloud F C fuel (skipFields sel info) payload buf = .ok buf'' := by
  intro h
  obtain ⟨b, hb⟩ := h bitsOps storeComp _ (fun _ => true) _ _ _ 0 (by decide) (by decide) (by decide) C31_adaptive_skip_ub.1
  rw [C31_adaptive_skip_ub.2] at hb
  simp at hb

/-! ## C46 -/

/-- **C46 (partial).** The decoder's limit `width * height * point_step` is at least the size of every stage-1 chunk of every cloud
that is large compared to the worst case of one chunk.  Missing: smaller clouds, for which the claim is false
(`C46_small_cloud_rejected`); clouds stored without compression are not affected (`C18_cloud_roundtrip_partial`). -/
theorem C46_limit_partial (F : FloatOps) (C : Compressor) (info : EncodingInfo) (header : List Byte) (enc : Encoder) (cloud : List Byte)
    (m : Nat) (hinfo : ValidInfo F info) (hcloud : ValidCloud F info cloud) (hreach : Reach F C info header enc)
    (h64 : FieldLimit info) (hm : maxSerializedPointSize info.encoding_opt info.fields = .ok m)
    (hlarge : min (info.width.toNat * info.height.toNat) kPointsPerChunk * (m + info.fields.length) + 5 * info.fields.length ≤ cloud.length) :
    ∀ es chunks, stage1Chunks F enc cloud = .ok (es, chunks) → ∀ c ∈ chunks, c.length ≤ maxDecompressed info := by
  have hmax : maxDecompressed info = cloud.length := by
    unfold maxDecompressed; rw [← hcloud.size, Nat.mod_eq_of_lt hcloud.addressable]
  rw [hmax]
  exact C18_large_clouds F C info header enc cloud m hinfo hcloud hreach h64 hm hlarge

/-- Decompressing the same bytes with different destination sizes never gives different contents (true of both libraries). -/
def Consistent (C : Compressor) : Prop := ∀ o y lim lim' x x', C.decompress o y lim = some x → C.decompress o y lim' = some x' → x = x'

theorem u16_valid (comp : CompOpt) : ValidInfo bitsOps (u16Info .lossless comp 5#8) where
  step := by simp [u16Info]
  version := by simp [u16Info]
  option := by simp [u16Info]
  types := by simp [u16Info]
  inside := by simp [u16Info, sizeOf]
  disjoint := by simp [u16Info]
  resolution := fun h => by simp [u16Info] at h

theorem u16_range (comp : CompOpt) : ValidCloud bitsOps (u16Info .lossless comp 5#8) (toLE 2 65535) where
  size := rfl
  addressable := by simp
  range := by
    intro i _ k f hk
    cases k with
    | zero => simp only [u16Info, List.getElem?_cons_zero, Option.some.injEq] at hk; subst hk; trivial
    | succ k => simp [u16Info] at hk

/-- **C46 is false.** A valid one-point cloud with one UINT16 field and ZSTD: for every compressor that follows the contract,
encoding succeeds and the decoder rejects the result, whatever buffer it is given: the stage-1 chunk has 3 bytes, the limit is 2. -/
theorem C46_small_cloud_rejected (C : Compressor) (hC : C.Lawful) (hcons : Consistent C) (hbound : C.bound .zstd 327680 ≤ u32Max) :
    ∃ (enc enc' : Encoder) (room : Nat) (out : List Byte), Reach bitsOps C (u16Info .lossless .zstd 5#8) [] enc ∧
      encodeView bitsOps C enc (toLE 2 65535) room false = .ok (enc', out, out.length) ∧
      ∀ fuel buf, (decodeCloud bitsOps C fuel (u16Info .lossless .zstd 5#8) out buf).isThrow = true := by
  have hmk : mkEncoder bitsOps (u16Info .lossless .zstd 5#8) [] = .ok ⟨u16Info .lossless .zstd 5#8, [], [.int 0 2 false 0#64]⟩ := by decide +kernel
  have hreach : Reach bitsOps C (u16Info .lossless .zstd 5#8) [] ⟨u16Info .lossless .zstd 5#8, [], [.int 0 2 false 0#64]⟩ := .fresh _ hmk
  have hmax : maxCompressedSize C (u16Info .lossless .zstd 5#8) 1 = .ok (4 + C.bound .zstd 10) := by
    unfold maxCompressedSize
    rw [if_neg (by decide)]
    rw [show maxSerializedPointSize (u16Info .lossless .zstd 5#8).encoding_opt (u16Info .lossless .zstd 5#8).fields = .ok 10 from by decide]
    simp only [Res.ok_bind]
    unfold maxCompressedChunks
    rw [dif_neg (by omega)]
    have hch : chunkBound C (u16Info .lossless .zstd 5#8) 10 1 = .ok (C.bound .zstd 10) := by
      unfold chunkBound
      rw [show usesV5 (u16Info .lossless .zstd 5#8) = false from by decide]
      rfl
    rw [show min 1 kPointsPerChunk = 1 from by decide]
    rw [hch]
    simp only [Res.ok_bind]
    unfold maxCompressedChunks
    simp
  obtain ⟨⟨enc', out, size⟩, henc⟩ := C22_bound_partial bitsOps C hC _ [] _ (u16_valid .zstd) hreach 1 (toLE 2 65535)
    ⟨rfl, (u16_range .zstd).range⟩ 10 _ (4 + C.bound .zstd 10) false (by decide) hmax (by simp)
    (fun h => absurd h (by decide)) (by decide) (by decide) (fun _ => by
      rw [show fullChunk (u16Info .lossless .zstd 5#8) 10 = 327680 from by decide]; exact hbound) (fun h => by simp [u16Info] at h)
  obtain ⟨cs, payload, _, _, hst, _, _, hf, ho, hsz, _⟩ := encodeView_inv bitsOps C _ _ _ _ _ _ _ henc
  subst hsz
  refine ⟨_, enc', _, out, hreach, henc, ?_⟩
  simp only [Bool.false_eq_true, if_false, List.nil_append] at ho
  subst ho
  have hst' : stage1Chunks bitsOps ⟨u16Info .lossless .zstd 5#8, [], [.int 0 2 false 0#64]⟩ (toLE 2 65535) =
      .ok ([.int 0 2 false 65535#64], [[0xff#8, 0xff#8, 7#8]]) := by decide +kernel
  rw [hst'] at hst
  simp only [Res.ok.injEq, Prod.mk.injEq] at hst
  obtain ⟨_, rfl⟩ := hst
  cases hf with
  | cons _ y _ rest hw hrest =>
    cases hrest with
    | nil =>
      intro fuel buf
      obtain ⟨hlen, hw⟩ := hw
      obtain ⟨room, hcomp⟩ : ∃ room, C.compress .zstd [0xff#8, 0xff#8, 7#8] room = some y := by
        rcases hw with ⟨h, _⟩ | ⟨_, room, hw⟩
        · simp [u16Info] at h
        · refine ⟨room, ?_⟩
          unfold compressChunk at hw
          rw [if_neg (by decide)] at hw
          simp only [u16Info] at hw
          split at hw
          · simp at hw
          · next y' e =>
            split at hw
            · simp at hw
            · simp only [Res.ok.injEq] at hw; rw [e, hw]
      have h3 := hC.inverse .zstd _ room y 3 hcomp (by decide)
      unfold decodeCloud
      rw [show buildDecoders bitsOps (u16Info .lossless .zstd 5#8) = .ok ([.int 0 2 0#64], 1) from by decide]
      simp only [Res.ok_bind]
      split
      · rfl
      rw [if_pos (by decide)]
      unfold decodeLoop
      rw [if_neg (by simp), dif_neg (by decide)]
      rw [decodeInt_toLE4 _ hlen]
      simp only [Res.ok_bind, List.append_nil, Nat.lt_irrefl, gt_iff_lt, if_false, List.take_length]
      unfold decodeChunk decompressChunk
      rw [show maxDecompressed (u16Info .lossless .zstd 5#8) = 2 from by decide]
      show Res.isThrow (((match C.decompress .zstd y 2 with | none => _ | some x => _ : Res (List Byte)) >>= _) >>= _) = true
      cases hd : C.decompress .zstd y 2 with
      | none => rfl
      | some x =>
        have := hC.decompress_fits _ _ _ _ hd
        rw [hcons _ _ _ _ _ _ hd h3] at this
        simp at this

/-- Compressors with these properties exist. -/
example : storeComp.Lawful ∧ Consistent storeComp ∧ storeComp.bound .zstd 327680 ≤ u32Max := by
  refine ⟨storeComp_lawful, ?_, by decide⟩
  intro o y lim lim' x x' h1 h2
  simp only [storeComp] at h1 h2
  split at h1 <;> simp at h1
  split at h2 <;> simp at h2
  rw [← h1, ← h2]

/-! ## C48 -/

/-- Remapping succeeds when equally named fields have equal types; each field then has the offset of the target field of its
name, or the skip value. -/
theorem remap_ok (target : List PointField) (fs : List PointField) (ht : ∀ f ∈ fs, ∀ t ∈ target, t.name = f.name → t.type = f.type) :
    ∃ gs, remapFields target fs = .ok gs ∧ All2 (fun f g => g.name = f.name ∧ SameKind f g ∧
      ((∃ t ∈ target, t.name = f.name ∧ g.offset = t.offset) ∨
        ((∀ t ∈ target, t.name ≠ f.name) ∧ g.offset.toNat = kDecodeButSkipStore))) fs gs := by
  induction fs with
  | nil => exact ⟨[], rfl, trivial⟩
  | cons f fs ih =>
    obtain ⟨gs, h1, h2⟩ := ih fun f hf => ht f (by simp [hf])
    unfold remapFields remapField
    cases hfind : target.find? (fun t => t.name = f.name) with
    | some t =>
      have hm := List.mem_of_find?_eq_some hfind
      have hn : t.name = f.name := by simpa using List.find?_some hfind
      have hty := ht f (by simp) t hm hn
      simp only [hty, ne_eq, not_true_eq_false, if_false, Res.ok_bind, h1]
      exact ⟨_, rfl, ⟨rfl, ⟨rfl, rfl⟩, Or.inl ⟨t, hm, hn, rfl⟩⟩, h2⟩
    | none =>
      simp only [Res.ok_bind, h1]
      refine ⟨_, rfl, ⟨rfl, ⟨rfl, rfl⟩, Or.inr ⟨?_, show (BitVec.ofNat 32 kDecodeButSkipStore).toNat = _ by decide⟩⟩, h2⟩
      intro t hm
      have := List.find?_eq_none.1 hfind t hm
      simpa using this

theorem all2_mem_right {R : PointField → PointField → Prop} {fs gs : List PointField} (h : All2 R fs gs) :
    ∀ g ∈ gs, ∃ f ∈ fs, R f g := by
  induction fs generalizing gs with
  | nil => cases gs <;> simp_all [All2]
  | cons f fs ih =>
    cases gs with
    | nil => simp
    | cons g gs =>
      intro g' hg'
      rcases List.mem_cons.1 hg' with rfl | hg'
      · exact ⟨f, by simp, h.1⟩
      · obtain ⟨f', hf', hr⟩ := ih h.2 g' hg'
        exact ⟨f', by simp [hf'], hr⟩

theorem pairwise_all2 {R : PointField → PointField → Prop} {P Q : PointField → PointField → Prop} {fs gs : List PointField}
    (h : All2 R fs gs) (hp : fs.Pairwise P) (hpq : ∀ f f' g g', R f g → R f' g' → P f f' → Q g g') : gs.Pairwise Q := by
  induction fs generalizing gs with
  | nil => cases gs <;> simp_all [All2]
  | cons f fs ih =>
    cases gs with
    | nil => exact h.elim
    | cons g gs =>
      rw [List.pairwise_cons] at hp ⊢
      refine ⟨?_, ih h.2 hp.2⟩
      intro g' hg'
      obtain ⟨f', hf', hr⟩ := all2_mem_right h.2 g' hg'
      exact hpq f f' g g' h.1 hr (hp.1 f' hf')

theorem all2_of_get {R : PointField → PointField → Prop} {fs gs : List PointField} (h : All2 R fs gs) {k : Nat} {f : PointField}
    (hk : fs[k]? = some f) : ∃ g, gs[k]? = some g ∧ R f g := by
  induction fs generalizing gs k with
  | nil => simp at hk
  | cons f' fs ih =>
    cases gs with
    | nil => exact h.elim
    | cons g gs =>
      cases k with
      | zero => simp only [List.getElem?_cons_zero, Option.some.injEq] at hk; subst hk; exact ⟨g, rfl, h.1⟩
      | succ k => exact ih h.2 (by simpa using hk)

/-- **C48 (partial).** A cloud encoded with layout `info` and decoded into a point type whose fields are `target`: every encoded
field that has a namesake in the target ends up there with the value C18 promises, every other byte of the target keeps its
initial value.  Missing: target types whose `sizeof` differs from the encoded `point_step`, for which the claim is false
(`C48_stride_mismatch`); 16- to 64-bit integers missing from the target in version-5 lossy clouds, for which it is false because
of `C31_adaptive_skip_fails`; and the restrictions of C18. -/
theorem C48_partial (F : FloatOps) (C : Compressor) (hC : C.Lawful) (info : EncodingInfo) (header : List Byte)
    (enc enc' : Encoder) (cloud out : List Byte) (room size fuel : Nat) (target : List PointField) (sizeofPoint : Nat)
    (hinfo : ValidInfo F info) (hcloud : ValidCloud F info cloud) (hreach : Reach F C info header enc)
    (henc : encodeView F C enc cloud room false = .ok (enc', out, size)) (h64 : FieldLimit info)
    (hlim : info.compression_opt = .none ∨ ChunksWithin F enc cloud cloud.length)
    (hlz : info.compression_opt = .lz4 → cloud.length ≤ intMax) (hmagic : out.take 10 ≠ magic)
    (hstride : sizeofPoint = info.point_step.toNat)
    (hnames : (info.fields.map PointField.name).Nodup) (htnames : (target.map PointField.name).Nodup)
    (htin : ∀ t ∈ target, t.offset.toNat + sizeOf t.type ≤ sizeofPoint) (htdis : target.Pairwise Disjoint)
    (htypes : ∀ f ∈ info.fields, ∀ t ∈ target, t.name = f.name → t.type = f.type)
    (hskip : 5 ≤ info.version.toNat → info.encoding_opt = .lossy → ∀ f ∈ info.fields,
      f.type ∈ [.int16, .uint16, .int32, .uint32, .int64, .uint64] → ∃ t ∈ target, t.name = f.name)
    (points : List Byte) (hpoints : points.length = info.width.toNat * info.height.toNat * sizeofPoint) :
    ∃ points', pclDecode F C fuel target info out points = .ok points' ∧ points'.length = points.length ∧
      (∀ i, i < info.width.toNat * info.height.toNat → ∀ k f t, info.fields[k]? = some f → t ∈ target → t.name = f.name →
        cell points' 0 sizeofPoint i t.offset.toNat (sizeOf t.type) =
          expected F info k f (cell cloud 0 info.point_step.toNat i f.offset.toNat (sizeOf f.type))) ∧
      ∀ p, (∀ i, i < info.width.toNat * info.height.toNat → ∀ f ∈ info.fields, ∀ t ∈ target, t.name = f.name →
          p < i * sizeofPoint + t.offset.toNat ∨ i * sizeofPoint + t.offset.toNat + sizeOf t.type ≤ p) →
        points'[p]? = points[p]? := by
  subst hstride
  obtain ⟨rfl, rfl, hused⟩ := reach_used hreach
  obtain ⟨gs, hgs, hall⟩ := remap_ok target enc.info.fields htypes
  have huniq : ∀ t ∈ target, ∀ t' ∈ target, t.name = t'.name → t = t' := by
    intro t ht t' ht' hn
    obtain ⟨a, ha⟩ := List.mem_iff_getElem?.1 ht
    obtain ⟨b, hb⟩ := List.mem_iff_getElem?.1 ht'
    have hab := (List.getElem?_inj (i := a) (j := b) (by
      obtain ⟨h, _⟩ := List.getElem?_eq_some_iff.1 ha; simpa using h) htnames).1 (by simp [ha, hb, hn])
    subst hab
    rw [ha] at hb
    simpa using hb
  have hdisj : ∀ t ∈ target, ∀ t' ∈ target, t.name ≠ t'.name → Disjoint t t' := by
    intro t ht t' ht' hn
    rcases List.pairwise_iff_getElem.1 htdis with h
    obtain ⟨a, ha, rfl⟩ := List.mem_iff_getElem.1 ht
    obtain ⟨b, hb, rfl⟩ := List.mem_iff_getElem.1 ht'
    rcases Nat.lt_trichotomy a b with hab | hab | hab
    · exact h a b ha hb hab
    · subst hab; simp at hn
    · exact (h b a hb ha hab).symm
  have hskipv : ∀ t ∈ target, t.offset.toNat ≤ enc.info.point_step.toNat := fun t ht => by have := htin t ht; omega
  have hstep := hinfo.step
  have hlt32 := enc.info.point_step.isLt
  have hmax : maxDecompressed { enc.info with fields := gs } = cloud.length := by
    unfold maxDecompressed; rw [show ({ enc.info with fields := gs } : EncodingInfo).width.toNat * _ * _ = _ from hcloud.size.symm, Nat.mod_eq_of_lt hcloud.addressable]
  have hcase : ∀ g ∈ gs, g.offset.toNat ≠ kDecodeButSkipStore → ∃ f ∈ enc.info.fields, ∃ t ∈ target, t.name = f.name ∧ g.name = f.name ∧
      g.offset = t.offset ∧ g.type = t.type := by
    intro g hg hne
    obtain ⟨f, hf, h1, h2, h3⟩ := all2_mem_right hall g hg
    rcases h3 with ⟨t, ht, hn, ho⟩ | ⟨_, ho⟩
    · exact ⟨f, hf, t, ht, hn, h1, ho, by rw [h2.1, htypes f hf t ht hn]⟩
    · exact absurd ho hne
  have hpn : enc.info.fields.Pairwise fun f f' => f.name ≠ f'.name := List.pairwise_map.1 hnames
  obtain ⟨buf', h1, h2, h3, h4⟩ := cloud_roundtrip F C hC enc enc' { enc.info with fields := gs } cloud room false out size
    (enc.info.width.toNat * enc.info.height.toNat) fuel henc
    (valid_agree hinfo (hall.imp fun _ _ _ h => h.2.1) rfl rfl rfl) hused hcloud.size rfl
    (by have := hinfo.version; exact this) (validCloud_points hinfo hcloud) (fieldLimit_v5 h64)
    (by
      intro hv g hg had
      unfold usesV5 at hv
      simp only [Bool.and_eq_true, decide_eq_true_eq] at hv
      obtain ⟨f, hf, h1, h2, h3⟩ := all2_mem_right hall g hg
      obtain ⟨t, ht, hn⟩ := hskip hv.1.1 hv.1.2 f hf (by rw [← h2.1]; cases hq : g.type <;> simp_all [isAdaptiveType])
      rcases h3 with ⟨t', ht', _, ho⟩ | ⟨hno, _⟩
      · rw [ho]
        have h5 := htin t' ht'
        have h6 : 0 < sizeOf t'.type := by
          rw [htypes f hf t' ht' ‹_›, ← h2.1]
          cases hq : g.type <;> simp_all [isAdaptiveType, sizeOf]
        show _ ≠ 0xFFFFFFFF
        omega
      · exact absurd hn (hno t ht))
    (by
      intro g hg hne
      obtain ⟨f, hf, t, ht, _, _, ho, hty⟩ := hcase g hg hne
      rw [ho, hty]; exact htin t ht)
    (by
      refine pairwise_all2 (P := fun f f' => f.name ≠ f'.name) (R := fun f g => g.name = f.name ∧ SameKind f g ∧ f ∈ enc.info.fields ∧
        ((∃ t ∈ target, t.name = f.name ∧ g.offset = t.offset) ∨ ((∀ t ∈ target, t.name ≠ f.name) ∧ g.offset.toNat = kDecodeButSkipStore))) ?_ hpn ?_
      · have : ∀ (l : List PointField) (gs : List PointField), (∀ f ∈ l, f ∈ enc.info.fields) → All2 (fun f g => g.name = f.name ∧ SameKind f g ∧
            ((∃ t ∈ target, t.name = f.name ∧ g.offset = t.offset) ∨ ((∀ t ∈ target, t.name ≠ f.name) ∧ g.offset.toNat = kDecodeButSkipStore))) l gs →
            All2 (fun f g => g.name = f.name ∧ SameKind f g ∧ f ∈ enc.info.fields ∧
            ((∃ t ∈ target, t.name = f.name ∧ g.offset = t.offset) ∨ ((∀ t ∈ target, t.name ≠ f.name) ∧ g.offset.toNat = kDecodeButSkipStore))) l gs := by
          intro l
          induction l with
          | nil => intro gs _ h; cases gs <;> simp_all [All2]
          | cons f l ih =>
            intro gs hl h
            cases gs with
            | nil => exact h.elim
            | cons g gs => exact ⟨⟨h.1.1, h.1.2.1, hl f (by simp), h.1.2.2⟩, ih gs (fun f hf => hl f (by simp [hf])) h.2⟩
        exact this _ _ (fun _ h => h) hall
      · rintro f f' g g' ⟨a1, a2, a3, a4⟩ ⟨b1, b2, b3, b4⟩ hne n1 n2
        rcases a4 with ⟨t, ht, hn, ho⟩ | ⟨_, ho⟩
        · rcases b4 with ⟨t', ht', hn', ho'⟩ | ⟨_, ho'⟩
          · rw [ho, ho', a2.1, b2.1, ← htypes f a3 t ht hn, ← htypes f' b3 t' ht' hn']
            exact hdisj t ht t' ht' (by rw [hn, hn']; exact hne)
          · exact absurd ho' n2
        · exact absurd ho n1)
    (by simpa using hmagic) (by rw [hmax]; exact hlim) (by rw [hmax]; exact hlz) points (by rw [hpoints]; exact Nat.le_refl _)
  refine ⟨buf', ?_, h2, ?_, ?_⟩
  · unfold pclDecode
    rw [hgs]
    simpa using h1
  · intro i hi k f t hk ht hn
    obtain ⟨g, hg, hn', hs, hcs⟩ := all2_of_get hall hk
    have hfm := List.mem_of_getElem? hk
    rcases hcs with ⟨t', ht', hnt, ho⟩ | ⟨hno, _⟩
    · obtain rfl := huniq t ht t' ht' (by rw [hn, hnt])
      have hpos : 0 < sizeOf f.type := by
        have := hinfo.types f hfm
        revert this
        cases f.type <;> simp [sizeOf]
      have hne : g.offset.toNat ≠ kDecodeButSkipStore := by
        have h5 := htin t ht
        rw [htypes f hfm t ht hn] at h5
        rw [ho]
        show _ ≠ 0xFFFFFFFF
        omega
      have := h3 i hi k f g hk hg hne
      have hr := hcloud.range i hi k f hk
      rw [cell_eq_sub] at hr
      rw [cell_eq_sub cloud, expected_eq F enc.info k f _ _ hr, ← this, ho, htypes f hfm t ht hn]
      simp only [cell, Nat.zero_add]
      rfl
    · exact absurd hn (hno t ht)
  · intro p hp
    refine h4 p ?_
    intro i hi g hg hne
    obtain ⟨f, hf, t, ht, hn, _, ho, hty⟩ := hcase g hg hne
    rw [ho, hty]
    exact hp i hi f hf t ht hn

/-- A target type with the fields in another order, without the copied float and the double, and with one field more, meets the hypotheses
for the mixed version-5 cloud. -/
def mixTarget : List PointField :=
  [{ name := [0x73#8], offset := 0#32, type := .uint64 }, { name := [0x7a#8], offset := 8#32, type := .float32 },
   { name := [0x79#8], offset := 12#32, type := .float32 }, { name := [0x78#8], offset := 16#32, type := .float32 },
   { name := [0x71#8], offset := 20#32, type := .float32 }, { name := [0x72#8], offset := 32#32, type := .uint16 }]

example : ∃ points', pclDecode bitsOps storeComp 0 mixTarget mixInfo mixOut (List.replicate 108 9#8) = .ok points' ∧ points'.length = 108 := by
  obtain ⟨b, h1, h2, _⟩ := C48_partial bitsOps storeComp storeComp_lawful mixInfo [] mixEnc mixEnc mixCloud mixOut 10000 73 0 mixTarget 36
    mix_valid mix_cloud (mix_reach _) mix_encode (by decide) (Or.inl rfl) (fun h => by simp [mixInfo] at h) (by decide +kernel) rfl
    (by decide) (by decide) (by decide) (by decide) (by decide) (by decide) (List.replicate 108 9#8) (by decide +kernel)
  exact ⟨b, h1, by simpa using h2⟩

/-- One FLOAT32 field "x", two points. -/
def xInfo : EncodingInfo :=
  { fields := [{ name := [0x78#8], offset := 0#32, type := .float32 }], width := 2#32, height := 1#32, point_step := 4#32,
    encoding_opt := .lossless, compression_opt := .none, version := 5#8 }

/-- **C48 is false for a target of another size.** A two-point cloud with only "x" decoded into an 8-byte point type whose "x" is at
offset 0: the second point's x is stored at byte 4, inside the first point, and the second point is never written, because decoding
advances by the encoded `point_step` instead of `sizeof(PointT)`. -/
theorem C48_stride_mismatch :
    ∃ enc enc' out, Reach bitsOps storeComp xInfo [] enc ∧
      encodeView bitsOps storeComp enc (toLE 4 0x3f800000 ++ toLE 4 0x40000000) 100 false = .ok (enc', out, out.length) ∧
      pclDecode bitsOps storeComp 0 [{ name := [0x78#8], offset := 0#32, type := .float32 }, { name := [0x79#8], offset := 4#32, type := .float32 }] xInfo out
        (List.replicate 16 9#8) = .ok (toLE 4 0x3f800000 ++ toLE 4 0x40000000 ++ List.replicate 8 9#8) := by
  refine ⟨⟨xInfo, [], [.xor 0 4 0#64]⟩, ⟨xInfo, [], [.xor 0 4 0x40000000#64]⟩,
    [8#8, 0#8, 0#8, 0#8, 0#8, 0#8, 0x80#8, 0x3f#8, 0#8, 0#8, 0x80#8, 0x7f#8], .fresh _ ?_, ?_, ?_⟩ <;> decide +kernel

/-- **C48, types.** A field whose namesake in the target type has another type is never stored: decoding throws before anything is written, whatever the
payload. -/
theorem C48_type_mismatch (F : FloatOps) (C : Compressor) (fuel : Nat) (target : List PointField) (header : EncodingInfo) (payload buf : List Byte)
    (f t : PointField) (hf : f ∈ header.fields) (ht : t ∈ target) (hnames : (target.map PointField.name).Nodup) (hname : t.name = f.name)
    (htype : t.type ≠ f.type) : (pclDecode F C fuel target header payload buf).isThrow = true := by
  have hfind : target.find? (fun u => u.name = f.name) = some t := by
    clear hf
    induction target with
    | nil => cases ht
    | cons u us ih =>
      simp only [List.map_cons, List.nodup_cons] at hnames
      rcases List.mem_cons.1 ht with e | e
      · subst e; simp [List.find?, hname]
      · have hne : u.name ≠ f.name := fun he => hnames.1 (List.mem_map.2 ⟨t, e, by rw [hname, he]⟩)
        simp only [List.find?, hne, decide_false]
        exact ih e hnames.2
  have hone : ∃ m, remapField target f = .throw m := by
    unfold remapField
    rw [hfind]
    exact ⟨_, if_pos (Ne.symm htype)⟩
  have hall : ∀ fs : List PointField, f ∈ fs → ∃ m, remapFields target fs = .throw m := by
    intro fs
    induction fs with
    | nil => intro h; cases h
    | cons g gs ih =>
      intro h
      unfold remapFields
      rcases List.mem_cons.1 h with e | e
      · subst e
        obtain ⟨m, hm⟩ := hone
        exact ⟨m, by rw [hm]; rfl⟩
      · cases hg : remapField target g with
        | throw m => exact ⟨m, rfl⟩
        | ub k =>
          unfold remapField at hg
          split at hg
          · split at hg <;> cases hg
          · cases hg
        | ok g' =>
          obtain ⟨m, hm⟩ := ih e
          exact ⟨m, by rw [hm]; rfl⟩
  obtain ⟨m, hm⟩ := hall header.fields hf
  unfold pclDecode
  rw [hm]
  rfl

/-- The mixed cloud into a type whose "x" is a double. -/
example : (pclDecode bitsOps storeComp 0 [{ name := [0x78#8], offset := 0#32, type := .float64 }] xInfo [] []).isThrow = true :=
  C48_type_mismatch bitsOps storeComp 0 _ xInfo [] [] { name := [0x78#8], offset := 0#32, type := .float32 }
    { name := [0x78#8], offset := 0#32, type := .float64 } (by decide) (by decide) (by decide) rfl (by decide)

/-! ## The theorems applied to concrete data -/

/-- The mixed cloud decoded without its copied float and its double: what is skipped keeps the 9s of the buffer. -/
example : ∃ buf'', decodeCloud bitsOps storeComp 0 (skipFields (fun k => k == 3 || k == 5) mixInfo) mixOut (List.replicate 108 9#8) = .ok buf'' ∧
    buf''[12]? = some 9#8 ∧ buf''[0]? = some 0xE8#8 := by
  have hok : (match decodeCloud bitsOps storeComp 0 mixInfo mixOut (List.replicate 108 9#8) with | .ok b => b[0]? == some 0xE8#8 | _ => false) = true := by decide +kernel
  cases h : decodeCloud bitsOps storeComp 0 mixInfo mixOut (List.replicate 108 9#8) with
  | throw e => rw [h] at hok; simp at hok
  | ub e => rw [h] at hok; simp at hok
  | ok buf' =>
    rw [h] at hok
    obtain ⟨buf'', h1, _, h2, h3⟩ := C31_skip_partial bitsOps storeComp mixInfo (fun k => k == 3 || k == 5) mixOut (List.replicate 108 9#8) buf' 0
      (by decide) (by decide) (by decide) (Or.inr (Or.inr (by
        intro k f hf hk
        have hlt : k < 7 := (List.getElem?_eq_some_iff.1 hf).1
        have : ∀ k, k < 7 → ∀ f ∈ mixInfo.fields[k]?, (k == 3 || k == 5) = true → f.type ∉ [FieldType.int16, .uint16, .int32, .uint32, .int64, .uint64] := by decide
        exact this k hlt f (by rw [hf]; rfl) hk))) h
    have e1 : ∀ b, ¬ InFields mixInfo (fun k => k == 3 || k == 5) b (if b then 0 else 12) := by
      intro b
      rintro ⟨i, hi, k, f, hf, hk, g1, g2⟩
      have hlt : k < 7 := (List.getElem?_eq_some_iff.1 hf).1
      have key : ∀ b, ∀ i, i < 3 → ∀ k, k < 7 → ∀ f ∈ mixInfo.fields[k]?, (k == 3 || k == 5) = b →
        ¬ (i * 36 + f.offset.toNat ≤ (if b then 0 else 12) ∧ (if b then 0 else 12) < i * 36 + f.offset.toNat + sizeOf f.type) := by decide
      exact key b i hi k hlt f (by rw [hf]; rfl) hk ⟨g1, g2⟩
    exact ⟨buf'', h1, (h3 12 (e1 false)).trans (by simp), (h2 0 (e1 true)).trans (by simpa using hok)⟩

example (F : FloatOps) (C : Compressor) : ∃ enc, Reach F C sparseInfo [] enc ∧
    ∀ es chunks, stage1Chunks F enc sparseCloud = .ok (es, chunks) → ∀ c ∈ chunks, c.length ≤ 20 := by
  obtain ⟨enc, h⟩ := sparse_reach F C
  refine ⟨enc, h, fun es chunks hs c hc => ?_⟩
  have := C46_limit_partial F C sparseInfo [] enc sparseCloud 1 (sparse_valid F) (sparse_cloud F) h (by decide) (by decide) (by decide +kernel) es chunks hs c hc
  exact this
example : ∃ (enc enc' : Encoder) (room : Nat) (out : List Byte), Reach bitsOps storeComp (u16Info .lossless .zstd 5#8) [] enc ∧
    encodeView bitsOps storeComp enc (toLE 2 65535) room false = .ok (enc', out, out.length) ∧
    ∀ fuel buf, (decodeCloud bitsOps storeComp fuel (u16Info .lossless .zstd 5#8) out buf).isThrow = true :=
  C46_small_cloud_rejected storeComp storeComp_lawful (by
    intro o y lim lim' x x' h1 h2
    simp only [storeComp] at h1 h2
    split at h1 <;> simp at h1
    split at h2 <;> simp at h2
    rw [← h1, ← h2]) (by decide)

end Cloudini.Props
