import Verif.Lemmas.Shared
import Verif.Props.C18_C20
import Verif.Model.IEEE

/-!
# C98 Fields that share bytes

Descriptions may name the same bytes twice (`rgb` and `rgba`).  C18 asks that no two fields overlap; here fields may overlap, in any way, as long
as the overlapping ones are coded without loss.  Vocabulary: `Spec/Shared`.
-/

namespace Cloudini.Props

theorem shared_agree {F : FloatOps} {info : EncodingInfo} (h : SharedInfo F info) : Agree F info info :=
  { same := all2_refl_same _, opt := rfl, version := rfl, comp := rfl
    known := fun f hf => (known_of_types (h.types f hf)).1
    option := h.option
    res := fun f hf hl r hr => h.resolution hl f hf r hr }

theorem shared_noSkip {F : FloatOps} {info : EncodingInfo} (h : SharedInfo F info) : ∀ f ∈ info.fields, f.offset.toNat ≠ kDecodeButSkipStore := by
  intro f hf
  have h1 := h.inside f hf
  have h2 := (known_of_types (h.types f hf)).2
  have h3 := info.point_step.isLt
  unfold kDecodeButSkipStore
  omega

theorem shared_points {F : FloatOps} {info : EncodingInfo} {cloud : List Byte} {n : Nat} (h : SharedInfo F info)
    (hsize : cloud.length = n * info.point_step.toNat)
    (hr : ∀ i, i < n → ∀ k f, info.fields[k]? = some f →
      Follows F info k f (previous info cloud i f) (cell cloud 0 info.point_step.toNat i f.offset.toNat (sizeOf f.type))) :
    ∀ i, i < n → PointGood F info (chunkPrev info.point_step.toNat cloud i) (cloud.drop (i * info.point_step.toNat)) := by
  have hsz : ∀ i, i < n → ∀ f ∈ info.fields, f.offset.toNat + sizeOf f.type ≤ (cloud.drop (i * info.point_step.toNat)).length := by
    intro i hi f hf
    have h1 := h.inside f hf
    rw [List.length_drop, hsize]
    have h2 : (i + 1) * info.point_step.toNat ≤ n * info.point_step.toNat := Nat.mul_le_mul_right _ (by omega)
    rw [Nat.add_mul, Nat.one_mul] at h2
    omega
  intro i hi
  refine pointGood_of (hsz i hi) ?_ ?_
  · intro m hm
    unfold chunkPrev at hm
    split at hm
    · simp at hm
    · simp only [Option.some.injEq] at hm
      subst hm
      exact hsz (i - 1) (by omega)
  · intro k f hk
    have := hr i hi k f hk
    rw [cell_eq_sub] at this
    have he : prevSub (chunkPrev info.point_step.toNat cloud i) f = previous info cloud i f := by
      unfold prevSub chunkPrev previous
      change Option.map _ (if i % 32768 = 0 then none else some _) = _
      by_cases hz : i % 32768 = 0
      · rw [if_pos hz, if_pos hz]; rfl
      · rw [if_neg hz, if_neg hz, Option.map_some, cell_eq_sub]
    rw [he]
    exact this

theorem fieldVal_exact {F : FloatOps} {info : EncodingInfo} {f : PointField} {lead : Bool} {mem : List Byte} (h : Exact info f) :
    fieldVal F info.encoding_opt lead f mem = sub mem f.offset.toNat (sizeOf f.type) := by
  unfold Exact at h
  unfold fieldVal
  cases hf : f.type <;> cases hr : f.resolution <;> simp_all [sizeOf]

theorem shared_meets {F : FloatOps} {info : EncodingInfo} {points : Nat} {cloud : List Byte} (h : SharedInfo F info)
    (hsize : cloud.length = points * info.point_step.toNat)
    (a b : Write) (ha : CloudWrite F info info points cloud a) (hb : CloudWrite F info info points cloud b) : Meets a b := by
  have hin : ∀ f ∈ info.fields, ∀ i, i < points → f.offset.toNat + sizeOf f.type ≤ (cloud.drop (i * info.point_step.toNat)).length := by
    intro f hf i hi
    have h1 := h.inside f hf
    rw [List.length_drop, hsize]
    have h2 : (i + 1) * info.point_step.toNat ≤ points * info.point_step.toNat := Nat.mul_le_mul_right _ (by omega)
    rw [Nat.add_mul, Nat.one_mul] at h2
    omega
  obtain ⟨i, hi, v, ⟨k, f, g, e1, e2, e3⟩, rfl⟩ := ha
  obtain ⟨i', hi', v', ⟨k', f', g', e1', e2', e3'⟩, rfl⟩ := hb
  rw [e1] at e2
  rw [e1'] at e2'
  cases e2
  cases e2'
  have hf := List.mem_of_getElem? e1
  have hf' := List.mem_of_getElem? e1'
  unfold store at e3 e3'
  rw [if_neg (shared_noSkip h f hf), List.mem_singleton] at e3
  rw [if_neg (shared_noSkip h f' hf'), List.mem_singleton] at e3'
  subst e3 e3'
  have hl := fieldVal_length (F := F) (opt := info.encoding_opt) (lead := decide (k < leadingLossyFloatCount info)) (hin f hf i hi)
  have hl' := fieldVal_length (F := F) (opt := info.encoding_opt) (lead := decide (k' < leadingLossyFloatCount info)) (hin f' hf' i' hi')
  have hs := h.inside f hf
  have hs' := h.inside f' hf'
  rcases Nat.lt_trichotomy i i' with hlt | heq | hgt
  · refine meets_of_apart (Or.inr (Or.inl ?_))
    have h1 : (i + 1) * info.point_step.toNat ≤ i' * info.point_step.toNat := Nat.mul_le_mul_right _ (by omega)
    rw [Nat.add_mul, Nat.one_mul] at h1
    simp only [hl]
    omega
  · subst heq
    have key : k ≠ k' → MayShare info f f' := by
      intro hne
      rcases Nat.lt_or_gt_of_ne hne with hlt | hgt
      · have hp := List.pairwise_iff_getElem.1 h.sharing k k' (List.getElem?_eq_some_iff.1 e1).1 (List.getElem?_eq_some_iff.1 e1').1 hlt
        rwa [(List.getElem?_eq_some_iff.1 e1).2, (List.getElem?_eq_some_iff.1 e1').2] at hp
      · have hp := List.pairwise_iff_getElem.1 h.sharing k' k (List.getElem?_eq_some_iff.1 e1').1 (List.getElem?_eq_some_iff.1 e1).1 hgt
        rw [(List.getElem?_eq_some_iff.1 e1).2, (List.getElem?_eq_some_iff.1 e1').2] at hp
        rcases hp with hp | hp
        · exact Or.inl (Or.symm hp)
        · exact Or.inr ⟨hp.2, hp.1⟩
    by_cases hk : k = k'
    · subst hk
      rw [e1] at e1'
      cases e1'
      exact meets_of_apart (Or.inl rfl)
    · rcases key hk with hd | ⟨he, he'⟩
      · refine meets_of_apart (Or.inr ?_)
        unfold Disjoint at hd
        unfold Apart
        simp only [hl, hl']
        omega
      · rw [fieldVal_exact he, fieldVal_exact he']
        intro j j' hj hj' e
        simp only [sub, List.getElem_take, List.getElem_drop] at e ⊢
        have : i * info.point_step.toNat + (f.offset.toNat + j) = i * info.point_step.toNat + (f'.offset.toNat + j') := by omega
        simp only [this]
  · refine meets_of_apart (Or.inr (Or.inr ?_))
    have h1 : (i' + 1) * info.point_step.toNat ≤ i * info.point_step.toNat := Nat.mul_le_mul_right _ (by omega)
    rw [Nat.add_mul, Nat.one_mul] at h1
    simp only [hl']
    omega

/-- **C98.** If fields share bytes only where both are coded without loss, the cloud comes back as promised: every field of every point, shared or
not, has the value C18 promises, and bytes outside every field keep what the buffer held. -/
theorem C98_shared_fields (F : FloatOps) (C : Compressor) (hC : C.Lawful) (info : EncodingInfo) (header : List Byte)
    (enc enc' : Encoder) (cloud out : List Byte) (room size fuel : Nat)
    (hinfo : SharedInfo F info) (hcloud : ValidCloud F info cloud) (hreach : Reach F C info header enc)
    (henc : encodeView F C enc cloud room false = .ok (enc', out, size))
    (h64 : FieldLimit info)
    (hlim : info.compression_opt = .none ∨ ChunksWithin F enc cloud cloud.length)
    (hlz : info.compression_opt = .lz4 → cloud.length ≤ intMax)
    (hmagic : out.take 10 ≠ magic)
    (buf : List Byte) (hbuf : cloud.length ≤ buf.length) :
    ∃ buf', decodeCloud F C fuel info out buf = .ok buf' ∧ buf'.length = buf.length ∧
      (∀ i, i < info.width.toNat * info.height.toNat → ∀ k f, info.fields[k]? = some f →
        cell buf' 0 info.point_step.toNat i f.offset.toNat (sizeOf f.type) =
          expected F info k f (cell cloud 0 info.point_step.toNat i f.offset.toNat (sizeOf f.type))) ∧
      ∀ p, (∀ i, i < info.width.toNat * info.height.toNat → ∀ f ∈ info.fields,
          p < i * info.point_step.toNat + f.offset.toNat ∨ i * info.point_step.toNat + f.offset.toNat + sizeOf f.type ≤ p) →
        buf'[p]? = buf[p]? := by
  obtain ⟨rfl, rfl, hused⟩ := reach_used hreach
  have hmax : maxDecompressed enc.info = cloud.length := by
    unfold maxDecompressed; rw [← hcloud.size, Nat.mod_eq_of_lt hcloud.addressable]
  obtain ⟨buf', h1, h2, h3, h4⟩ := cloud_roundtrip_meets F C hC enc enc' enc.info cloud room false out size
    (enc.info.width.toNat * enc.info.height.toNat) fuel henc (shared_agree hinfo) hused hcloud.size rfl
    (by have := hinfo.version; exact this) (shared_points hinfo hcloud.size hcloud.range) (fieldLimit_v5 h64)
    (fun _ g hg _ => shared_noSkip hinfo g hg) (fun g hg _ => hinfo.inside g hg)
    (shared_meets hinfo hcloud.size) (by simpa using hmagic) (by rw [hmax]; exact hlim) (by rw [hmax]; exact hlz) buf
    (by rw [← hcloud.size]; exact hbuf)
  refine ⟨buf', by simpa using h1, h2, ?_, fun p hp => h4 p fun i hi g hg _ => hp i hi g hg⟩
  intro i hi k f hk
  have := h3 i hi k f f hk hk (shared_noSkip hinfo f (List.mem_of_getElem? hk))
  have hr := hcloud.range i hi k f hk
  rw [cell_eq_sub] at hr
  rw [cell_eq_sub cloud, expected_eq F enc.info k f _ _ hr, ← this]
  simp only [cell, Nat.zero_add]
  rfl

/-- **C98, without loss.** With the options NONE and LOSSLESS fields may share bytes as they like; every byte that belongs to some field is what it was. -/
theorem C98_lossless (F : FloatOps) (C : Compressor) (hC : C.Lawful) (info : EncodingInfo) (header : List Byte)
    (enc enc' : Encoder) (cloud out : List Byte) (room size fuel : Nat)
    (hstep : 0 < info.point_step.toNat) (hver : 3 ≤ info.version.toNat) (hopt : info.encoding_opt = .none ∨ info.encoding_opt = .lossless)
    (htypes : ∀ f ∈ info.fields, f.type ∈ [.int8, .uint8, .int16, .uint16, .int32, .uint32, .float32, .float64, .int64, .uint64])
    (hinside : ∀ f ∈ info.fields, f.offset.toNat + sizeOf f.type ≤ info.point_step.toNat)
    (hcloud : ValidCloud F info cloud) (hreach : Reach F C info header enc)
    (henc : encodeView F C enc cloud room false = .ok (enc', out, size))
    (hlim : info.compression_opt = .none ∨ ChunksWithin F enc cloud cloud.length)
    (hlz : info.compression_opt = .lz4 → cloud.length ≤ intMax)
    (hmagic : out.take 10 ≠ magic)
    (buf : List Byte) (hbuf : cloud.length ≤ buf.length) :
    ∃ buf', decodeCloud F C fuel info out buf = .ok buf' ∧ buf'.length = buf.length ∧
      ∀ i, i < info.width.toNat * info.height.toNat → ∀ f ∈ info.fields,
        cell buf' 0 info.point_step.toNat i f.offset.toNat (sizeOf f.type) = cell cloud 0 info.point_step.toNat i f.offset.toNat (sizeOf f.type) := by
  have hnl : info.encoding_opt ≠ .lossy := by rcases hopt with h | h <;> simp [h]
  have hex : ∀ f, Exact info f := fun f h => absurd h hnl
  obtain ⟨buf', h1, h2, h3, _⟩ := C98_shared_fields F C hC info header enc enc' cloud out room size fuel
    ⟨hstep, hver, by rcases hopt with h | h <;> simp [h], htypes, hinside,
      List.pairwise_iff_getElem.2 fun _ _ _ _ _ => Or.inr ⟨hex _, hex _⟩, fun h => absurd h hnl⟩ hcloud hreach henc (fun _ h => absurd h hnl)
    hlim hlz hmagic buf hbuf
  refine ⟨buf', h1, h2, ?_⟩
  intro i hi f hf
  obtain ⟨k, hk⟩ := List.mem_iff_getElem?.1 hf
  rw [h3 i hi k f hk]
  unfold expected
  cases hh : info.encoding_opt <;> simp_all

/-- Positions quantised, a colour named three times: as a float without resolution, as a 32-bit integer, and its last byte as alpha. -/
def unionInfo : EncodingInfo :=
  { fields := [⟨[0x78#8], 0#32, .float32, some 0x3a83126f#32⟩, ⟨[0x72#8, 0x67#8, 0x62#8], 4#32, .float32, none⟩,
      ⟨[0x72#8, 0x67#8, 0x62#8, 0x61#8], 4#32, .uint32, none⟩, ⟨[0x61#8], 7#32, .uint8, none⟩],
    width := 3#32, height := 1#32, point_step := 8#32, encoding_opt := .lossy, compression_opt := .none, version := 5#8 }

def unionCloud : List Byte :=
  toLE 4 0x3f800000 ++ toLE 4 0xff112233 ++ (toLE 4 0x40000000 ++ toLE 4 0x00ffffff) ++ (toLE 4 0 ++ toLE 4 0x80000001)

theorem union_info : SharedInfo bitsOps unionInfo where
  step := by decide
  version := by decide
  option := by decide
  types := by decide
  inside := by decide
  sharing := by decide
  resolution := fun _ f _ r _ => ⟨rfl, rfl⟩

theorem union_cloud : ValidCloud bitsOps unionInfo unionCloud where
  size := by decide +kernel
  addressable := by decide +kernel
  range := follows_by (by decide +kernel)

def unionEnc : Encoder :=
  match mkEncoder bitsOps unionInfo [] with
  | .ok e => e
  | _ => ⟨unionInfo, [], []⟩

def unionOut : Encoder × List Byte × Nat :=
  match encodeView bitsOps storeComp unionEnc unionCloud 10000 false with
  | .ok r => r
  | _ => (unionEnc, [], 0)

/-- The colours come back, under all their names. -/
example : ¬ unionInfo.fields.Pairwise Disjoint ∧
    ∃ buf', decodeCloud bitsOps storeComp 0 unionInfo unionOut.2.1 (List.replicate 24 0#8) = .ok buf' ∧ cell buf' 0 8 0 4 4 = toLE 4 0xff112233 ∧
      cell buf' 0 8 2 7 1 = [0x80#8] := by
  obtain ⟨buf', h1, _, h2, _⟩ := C98_shared_fields bitsOps storeComp storeComp_lawful unionInfo [] unionEnc unionOut.1 unionCloud unionOut.2.1 10000
    unionOut.2.2 0 union_info union_cloud (.fresh _ (by decide +kernel)) (by decide +kernel) (by decide) (Or.inl rfl) (fun h => by simp [unionInfo] at h)
    (by decide +kernel) (List.replicate 24 0#8) (by decide +kernel)
  refine ⟨by decide, buf', h1, (h2 0 (by decide) 2 _ rfl).trans (by decide +kernel), (h2 2 (by decide) 3 _ rfl).trans (by decide +kernel)⟩

/-- The same four bytes as an integer and as a number quantised to whole units. -/
def aliasInfo (version : Byte) : EncodingInfo :=
  { fields := [⟨[0x62#8], 0#32, .int32, none⟩, ⟨[0x61#8], 0#32, .float32, some 0x3f800000#32⟩], width := 1#32, height := 1#32, point_step := 4#32,
    encoding_opt := .lossy, compression_opt := .none, version := version }

def aliasEnc (version : Byte) : Encoder :=
  match mkEncoder IEEE.ops (aliasInfo version) [] with
  | .ok e => e
  | _ => ⟨aliasInfo version, [], []⟩

/-- **C98 needs exact fields** (IEEE arithmetic): the bytes of 1.5 are declared as an integer and as a number with resolution 1. Without an error,
version 4 returns 2.0 and so destroys the integer (integer fields are said to be exact); version 5 returns the original 1.5, the two fields having
been written in another order: what is delivered depends on the version. -/
theorem C98_quantised_fails :
    mkEncoder IEEE.ops (aliasInfo 4#8) [] = .ok (aliasEnc 4#8) ∧ mkEncoder IEEE.ops (aliasInfo 5#8) [] = .ok (aliasEnc 5#8) ∧
    (encodeView IEEE.ops storeComp (aliasEnc 4#8) (toLE 4 0x3fc00000) 10000 false >>= fun r =>
      decodeCloud IEEE.ops storeComp 0 (aliasInfo 4#8) r.2.1 [0#8, 0#8, 0#8, 0#8]) = .ok (toLE 4 0x40000000) ∧
    (encodeView IEEE.ops storeComp (aliasEnc 5#8) (toLE 4 0x3fc00000) 10000 false >>= fun r =>
      decodeCloud IEEE.ops storeComp 0 (aliasInfo 5#8) r.2.1 [0#8, 0#8, 0#8, 0#8]) = .ok (toLE 4 0x3fc00000) := by
  refine ⟨?_, ?_, ?_, ?_⟩ <;> decide +kernel

end Cloudini.Props
