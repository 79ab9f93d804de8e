import Verif.Lemmas.SkipV2
import Verif.Props.C31_C46_C48

/-!
# C31 for version-2 payloads

They have no chunk framing and no point count: the decoder goes on until the payload is empty, possibly behind the declared points (`C19_version2_extra_points`).
-/

namespace Cloudini.Props

/-- Position `p` belongs to field number `k` of some point of the buffer, declared or not, for some `k` with `sel k = b`. -/
def InPointFields (info : EncodingInfo) (sel : Nat → Bool) (b : Bool) (p : Nat) : Prop :=
  ∃ i k f, info.fields[k]? = some f ∧ sel k = b ∧
    i * info.point_step.toNat + f.offset.toNat ≤ p ∧ p < i * info.point_step.toNat + f.offset.toNat + sizeOf f.type

/-- **C31, version 2.** Every payload without framing that decodes with `info` decodes with any fields skipped: every byte outside the selected fields is what it was with
`info`, and every byte outside the other fields is what the caller's buffer held before. -/
theorem C31_version2 (F : FloatOps) (C : Compressor) (info : EncodingInfo) (sel : Nat → Bool) (payload buf buf' : List Byte) (fuel : Nat)
    (hstep : 0 < info.point_step.toNat) (hver : info.version.toNat < 3) (h : decodeCloud F C fuel info payload buf = .ok buf') :
    ∃ buf'', decodeCloud F C fuel (skipFields sel info) payload buf = .ok buf'' ∧ buf''.length = buf.length ∧
      (∀ p, ¬ InPointFields info sel true p → buf''[p]? = buf'[p]?) ∧ (∀ p, ¬ InPointFields info sel false p → buf''[p]? = buf[p]?) := by
  let sk : List (Nat × Nat) := (info.fields.mapIdx fun k f => (sel k, f.offset.toNat, sizeOf f.type)).filterMap fun r => if r.1 then some r.2 else none
  have hmem : ∀ r, r ∈ sk ↔ ∃ k f, info.fields[k]? = some f ∧ sel k = true ∧ r = (f.offset.toNat, sizeOf f.type) := by
    intro r
    simp only [sk, List.mem_filterMap]
    constructor
    · rintro ⟨a, ha, hr⟩
      obtain ⟨k, hk⟩ := List.mem_iff_getElem?.1 ha
      simp only [List.getElem?_mapIdx, Option.map_eq_some_iff] at hk
      obtain ⟨f, hf, rfl⟩ := hk
      simp only at hr
      split at hr
      · next hs => simp only [Option.some.injEq] at hr; exact ⟨k, f, hf, hs, hr.symm⟩
      · simp at hr
    · rintro ⟨k, f, hf, hs, rfl⟩
      exact ⟨(sel k, f.offset.toNat, sizeOf f.type), List.mem_iff_getElem?.2 ⟨k, by simp [hf]⟩, by simp [hs]⟩
  let S : Nat → Prop := fun p => InPointFields info sel true p
  have hsf : All2 (SkipF sk) info.fields (skipFields sel info).fields := by
    refine all2_mapIdx _ _ fun k f hk => ?_
    split
    · next hs => exact ⟨rfl, ⟨rfl, rfl⟩, Or.inr ⟨rfl, (hmem _).2 ⟨k, f, hk, hs, rfl⟩⟩⟩
    · exact ⟨rfl, ⟨rfl, rfl⟩, Or.inl rfl⟩
  have hv5 : ∀ info : EncodingInfo, info.version.toNat < 3 → usesV5 info = false := by
    intro info hv
    unfold usesV5
    rw [decide_eq_false (show ¬ info.version ≥ 5#8 from fun hc => absurd (show 5 ≤ info.version.toNat from hc) (by omega))]
    rfl
  have hno : ¬ info.version ≥ 3#8 := fun hc => absurd (show 3 ≤ info.version.toNat from hc) (by omega)
  unfold decodeCloud at h ⊢
  rw [Res.bind_eq_ok] at h
  obtain ⟨⟨ds, m⟩, hb, h⟩ := h
  simp only at h
  obtain ⟨ds', hb', hd⟩ := buildDecoders_sim (F := F) (info := info) (dinfo := skipFields sel info) rfl rfl hsf ds m hb
  rw [hb']
  simp only [Res.ok_bind]
  split at h
  · simp at h
  next hmag =>
  rw [if_neg hmag]
  rw [Res.bind_eq_ok] at h
  rw [if_neg (show ¬ (skipFields sel info).version ≥ 3#8 from hno)]
  obtain ⟨⟨ds1, b1, base1⟩, h1, h⟩ := h
  simp only [Res.ok.injEq] at h
  subst h
  unfold decodeChunk at h1 ⊢
  rw [Res.bind_eq_ok] at h1
  obtain ⟨view, hview, h1⟩ := h1
  rw [show decompressChunk C (skipFields sel info).compression_opt payload (maxDecompressed (skipFields sel info)) = .ok view from hview]
  rw [hv5 info hver] at h1
  simp only [Res.ok_bind]
  rw [hv5 (skipFields sel info) hver]
  simp only [Bool.false_eq_true, if_false] at h1 ⊢
  unfold decodeV4Chunk at h1 ⊢
  simp only [gt_iff_lt, Nat.lt_irrefl, if_false] at h1 ⊢
  rw [Res.bind_eq_ok] at h1
  obtain ⟨⟨ds2, i2, b2, p2⟩, h2, h1⟩ := h1
  simp only [Res.ok.injEq, Prod.mk.injEq] at h1
  obtain ⟨rfl, rfl, rfl⟩ := h1
  have hc : ∀ i, Cover S sk (0 + i * info.point_step.toNat) := by
    intro i r hr p h1 h2
    obtain ⟨k, f, hk, hs, rfl⟩ := (hmem r).1 hr
    exact ⟨i, k, f, hk, hs, by simpa using h1, by simpa using h2⟩
  obtain ⟨ds2', b', g1, g2⟩ := decodeUntilEmptyV4_sim m info.point_step.toNat fuel 0 p2 hc _ _ ds2 view i2 buf buf b2 (all2_reset hd) (.refl _ _) h2
  rw [show (skipFields sel info).point_step = info.point_step from rfl, g1]
  have hlen := (decodeUntilEmptyV4_foot F info.fields _ _ _ _ _ _ _ _ _ _ _ hstep (spotsIn_reset (buildDecoders_spots F info ds m hb)) h2).1
  refine ⟨b', rfl, by rw [g2.1, hlen], g2.2, ?_⟩
  let keep : List PointField := (info.fields.mapIdx fun k f => (sel k, f)).filterMap fun r => if r.1 then none else some r.2
  have hkeep : ∀ f, f ∈ keep ↔ ∃ k, info.fields[k]? = some f ∧ sel k = false := by
    intro f
    simp only [keep, List.mem_filterMap]
    constructor
    · rintro ⟨a, ha, hr⟩
      obtain ⟨k, hk⟩ := List.mem_iff_getElem?.1 ha
      simp only [List.getElem?_mapIdx, Option.map_eq_some_iff] at hk
      obtain ⟨f', hf, rfl⟩ := hk
      simp only at hr
      split at hr
      · simp at hr
      · next hs => simp only [Option.some.injEq] at hr; subst hr; exact ⟨k, hf, by simpa using hs⟩
    · rintro ⟨k, hf, hs⟩
      exact ⟨(sel k, f), List.mem_iff_getElem?.2 ⟨k, by simp [hf]⟩, by simp [hs]⟩
  have hsp : SpotsIn keep ds' := by
    intro d hdm sp hspm hne
    obtain ⟨g, hg, rfl⟩ := buildDecoders_spots F _ ds' m hb' d hdm sp hspm hne
    obtain ⟨k, hk⟩ := List.mem_iff_getElem?.1 hg
    simp only [skipFields, List.getElem?_mapIdx, Option.map_eq_some_iff] at hk
    obtain ⟨f, hf, rfl⟩ := hk
    split
    · next hs => rw [if_pos hs] at hne; exact absurd rfl hne
    · next hs => exact ⟨f, (hkeep f).2 ⟨k, hf, by simpa using hs⟩, rfl⟩
  have foot := decodeUntilEmptyV4_foot F keep _ _ _ _ _ _ _ _ _ _ _ hstep (spotsIn_reset hsp) g1
  intro p hp
  refine foot.2 p ?_
  intro i hi f hf
  apply Classical.byContradiction
  intro hcon
  obtain ⟨k, hk, hs⟩ := (hkeep f).1 hf
  exact hp ⟨i, k, f, hk, hs, by omega, by omega⟩

/-- Two UINT8 fields of version 2, the first one skipped; the payload has one point more than declared. -/
def pairInfo2 : EncodingInfo :=
  { fields := [{ name := [0x61#8], offset := 0#32, type := .uint8 }, { name := [0x62#8], offset := 1#32, type := .uint8 }], width := 1#32, height := 1#32,
    point_step := 3#32, encoding_opt := .lossy, compression_opt := .none, version := 2#8 }

example : ∃ buf'', decodeCloud bitsOps storeComp 10 (skipFields (fun k => k == 0) pairInfo2) [1#8, 2#8, 3#8, 4#8] [9#8, 9#8, 9#8, 9#8, 9#8, 9#8, 9#8] = .ok buf'' ∧
    buf'' = [9#8, 2#8, 9#8, 9#8, 4#8, 9#8, 9#8] := by
  have h : decodeCloud bitsOps storeComp 10 pairInfo2 [1#8, 2#8, 3#8, 4#8] [9#8, 9#8, 9#8, 9#8, 9#8, 9#8, 9#8] = .ok [1#8, 2#8, 9#8, 3#8, 4#8, 9#8, 9#8] := by decide +kernel
  obtain ⟨b, h1, -⟩ := C31_version2 bitsOps storeComp pairInfo2 (fun k => k == 0) _ _ _ 10 (by decide) (by decide) h
  refine ⟨b, h1, ?_⟩
  have h2 : decodeCloud bitsOps storeComp 10 (skipFields (fun k => k == 0) pairInfo2) [1#8, 2#8, 3#8, 4#8] [9#8, 9#8, 9#8, 9#8, 9#8, 9#8, 9#8] =
      .ok [9#8, 2#8, 9#8, 9#8, 4#8, 9#8, 9#8] := by decide +kernel
  rw [h2] at h1
  simpa using h1.symm

end Cloudini.Props
