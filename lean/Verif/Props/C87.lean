import Verif.Lemmas.Ends
import Verif.Props.C29_C30
import Verif.Props.Witness

/-!
# C87: decoding ends

`.ub .loop` is the outcome "still running": the loops of the code that are not driven by a counter are given a number of turns, and this is
what comes out when the turns are used up and the loop wants another one.  Only the loop over version-2 data takes its number of turns from
the caller (`fuel`); a decoder that hangs is one for which no number of turns is enough.
-/

namespace Cloudini.Props

open Cloudini

/-- A point of this cloud takes no room in the output and no byte of the payload: a point size of zero, and no field of a known type. -/
def WeightlessPoints (info : EncodingInfo) : Prop :=
  info.point_step = 0#32 ∧ (info.fields = [] ∨ info.encoding_opt = .none ∧ ∀ f ∈ info.fields, sizeOf f.type = 0)

/-- **C87, versions 3 to 5.** Whatever the header says and whatever the payload and the output buffer hold, decoding ends. -/
theorem C87_framed_ends (F : FloatOps) (C : Compressor) (info : EncodingInfo) (hv : 3 ≤ info.version.toNat) (data buf : List Byte) :
    ∃ r, r ≠ .ub .loop ∧ ∀ fuel, decodeCloud F C fuel info data buf = r := by
  refine ⟨decodeCloud F C 0 info data buf, ?_, fun fuel => ?_⟩
  · unfold decodeCloud
    refine (Halts.bind (ends_of (buildDecoders_noUB F info)) fun p _ => ?_).not_loop (P := fun _ => True)
    simp only
    split
    · trivial
    · rw [if_pos (by simpa [BitVec.le_def] using hv)]
      exact decodeLoop_ends _ _ _ _ _ _ _ _ _
  · unfold decodeCloud
    have hv' : info.version ≥ 3#8 := by simpa [BitVec.le_def] using hv
    simp only [if_pos hv']

theorem createDecoder_eats (F : FloatOps) (info : EncodingInfo) (f : PointField) (d : Dec) (h : createDecoder F info f = .ok d) : d.Eats := by
  unfold createDecoder mkLossy32Dec mkLossy64Dec at h
  simp only at h
  repeat' split at h
  all_goals first
    | (simp at h; done)
    | (simp only [Res.ok.injEq] at h; subst h; simp [Dec.Eats])

theorem decoders_eat (F : FloatOps) (info : EncodingInfo) (ho : info.encoding_opt ≠ .none) (hf : info.fields ≠ []) (ds : List Dec) (m : Nat)
    (h : buildV4Decoders F info = .ok (ds, m)) : ∃ d ∈ ds, d.Eats := by
  unfold buildV4Decoders at h
  rw [if_neg ho] at h
  obtain ⟨lead, h1, h⟩ := Res.bind_eq_ok.1 h
  obtain ⟨rest, h2, h⟩ := Res.bind_eq_ok.1 h
  simp only [Res.ok.injEq, Prod.mk.injEq] at h
  rw [← h.1]
  by_cases hn : leadingLossyFloatCount info = 0
  · rw [hn, List.drop_zero] at h2
    cases hfs : info.fields with
    | nil => exact absurd hfs hf
    | cons f fs =>
      rw [hfs, buildAll] at h2
      obtain ⟨d, h3, h2⟩ := Res.bind_eq_ok.1 h2
      obtain ⟨rest', h4, h2⟩ := Res.bind_eq_ok.1 h2
      simp only [Res.ok.injEq] at h2
      refine ⟨d, ?_, createDecoder_eats F info f d h3⟩
      rw [← h2]; simp
  · unfold leadingDecoder at h1
    simp only at h1
    rw [if_neg hn] at h1
    obtain ⟨d, h3, h1⟩ := Res.bind_eq_ok.1 h1
    simp only [Res.ok.injEq] at h1
    refine ⟨d, by rw [← h1]; simp, ?_⟩
    unfold mkFloatNDec at h3
    split at h3
    · simp at h3
    · simp only [Res.ok.injEq] at h3
      rw [← h3]
      simp only [Dec.Eats, lanesOf, ne_eq, List.map_eq_nil_iff]
      intro e
      rw [List.take_eq_nil_iff] at e
      exact e.elim hn hf

/-- What `decodeCloud` does with data of version 2. -/
theorem decode_unframed (F : FloatOps) (C : Compressor) (fuel : Nat) (info : EncodingInfo) (hv : info.version.toNat < 3) (data buf : List Byte) :
    decodeCloud F C fuel info data buf = (do
      let p ← buildV4Decoders F info
      if data.take 10 = magic then .throw "compressed_data contains the header. You should use DecodeHeader first"
      else do
        let view ← decompressChunk C info.compression_opt data (maxDecompressed info)
        let r ← decodeUntilEmptyV4 F p.2 info.point_step.toNat fuel (p.1.map Dec.reset) view buf 0
        .ok r.2.2.1) := by
  have h5 : usesV5 info = false := by
    unfold usesV5
    have : ¬ info.version ≥ 5#8 := by simp [BitVec.lt_def]; omega
    simp [this]
  have hv' : ¬ info.version ≥ 3#8 := by simpa [BitVec.lt_def] using hv
  unfold decodeCloud buildDecoders decodeChunk decodeV4Chunk
  rw [h5]
  simp only [if_neg hv', Bool.false_eq_true, if_false, gt_iff_lt, Nat.lt_irrefl, Res.bind_assoc, Res.ok_bind]

theorem decompress_small {C : Compressor} (hC : C.Lawful) {info : EncodingInfo} {data view : List Byte}
    (h : decompressChunk C info.compression_opt data (maxDecompressed info) = .ok view) (hs : info.point_step = 0#32) :
    view.length ≤ data.length ∧ (info.compression_opt ≠ .none → view = []) := by
  have hz : maxDecompressed info = 0 := by unfold maxDecompressed; rw [hs]; simp
  rw [hz] at h
  unfold decompressChunk at h
  split at h
  · next e => simp only [Res.ok.injEq] at h; rw [h]; exact ⟨Nat.le_refl _, fun hne => absurd e hne⟩
  · split at h
    · simp at h
    · split at h
      · simp at h
      · next y hy => simp only [Res.ok.injEq] at h; subst h; have := hC.decompress_fits _ _ _ _ hy; exact ⟨by omega, fun _ => List.length_eq_zero_iff.1 (by omega)⟩
  · split at h
    · simp at h
    · next y hy => simp only [Res.ok.injEq] at h; subst h; have := hC.decompress_fits _ _ _ _ hy; exact ⟨by omega, fun _ => List.length_eq_zero_iff.1 (by omega)⟩
  · simp at h

/-- **C87, version 2 (partial).** Decoding ends after at most one turn per byte of the payload and of the output buffer, unless a point takes
neither room nor input.  Missing: such points, for which it does not end (`C87_hangs`). -/
theorem C87_unframed_ends_partial (F : FloatOps) (C : Compressor) (hC : C.Lawful) (info : EncodingInfo) (hw : ¬ WeightlessPoints info)
    (data buf : List Byte) : ∃ r, r ≠ .ub .loop ∧ ∀ fuel, data.length + buf.length < fuel → decodeCloud F C fuel info data buf = r := by
  by_cases hv : 3 ≤ info.version.toNat
  · obtain ⟨r, h1, h2⟩ := C87_framed_ends F C info hv data buf
    exact ⟨r, h1, fun fuel _ => h2 fuel⟩
  have hv : info.version.toNat < 3 := by omega
  have key : decodeCloud F C (data.length + buf.length + 1) info data buf ≠ .ub .loop ∧
      ∀ k, decodeCloud F C (data.length + buf.length + 1 + k) info data buf = decodeCloud F C (data.length + buf.length + 1) info data buf := by
    simp only [decode_unframed F C _ info hv]
    have hb : (buildV4Decoders F info).isUB = false := by
      have := buildDecoders_noUB F info
      unfold buildDecoders at this
      have h5 : usesV5 info = false := by
        unfold usesV5
        have : ¬ info.version ≥ 5#8 := by simp [BitVec.lt_def]; omega
        simp [this]
      rw [h5] at this
      simpa using this
    cases hbd : buildV4Decoders F info with
    | ub k => rw [hbd] at hb; simp at hb
    | throw e => exact ⟨by simp, fun _ => rfl⟩
    | ok p =>
      obtain ⟨ds, m⟩ := p
      simp only [Res.ok_bind]
      by_cases hm : data.take 10 = magic
      · simp only [if_pos hm]; exact ⟨by simp, fun _ => trivial⟩
      · simp only [if_neg hm]
        cases hd : decompressChunk C info.compression_opt data (maxDecompressed info) with
        | ub k => have := decompressChunk_ends C info.compression_opt data (maxDecompressed info); rw [hd] at this; exact ⟨by simpa [Halts] using this, fun _ => rfl⟩
        | throw e => exact ⟨by simp, fun _ => rfl⟩
        | ok view =>
          simp only [Res.ok_bind]
          have hend : Halts (decodeUntilEmptyV4 F m info.point_step.toNat (data.length + buf.length + 1) (ds.map Dec.reset) view buf 0) fun _ => True := by
            by_cases hs : info.point_step = 0#32
            · refine untilEmpty_eats F m _ _ _ _ _ _ ?_ ?_
              · have hfo : info.fields ≠ [] ∧ ¬ (info.encoding_opt = .none ∧ ∀ f ∈ info.fields, sizeOf f.type = 0) :=
                  ⟨fun e => hw ⟨hs, .inl e⟩, fun e => hw ⟨hs, .inr e⟩⟩
                have : ∃ d ∈ ds, d.Eats := by
                  by_cases ho : info.encoding_opt = .none
                  · have : ∃ f ∈ info.fields, ¬ sizeOf f.type = 0 := by
                      refine Classical.byContradiction fun hne => hfo.2 ⟨ho, fun f hf => Classical.byContradiction fun hz => hne ⟨f, hf, hz⟩⟩
                    obtain ⟨f, hf, hz⟩ := this
                    unfold buildV4Decoders at hbd
                    rw [if_pos ho] at hbd
                    simp only [Res.ok.injEq, Prod.mk.injEq] at hbd
                    refine ⟨.copy f.offset.toNat (sizeOf f.type), ?_, by simp only [Dec.Eats]; omega⟩
                    rw [← hbd.1]; exact List.mem_map.2 ⟨f, hf, rfl⟩
                  · exact decoders_eat F info ho hfo.1 ds m hbd
                obtain ⟨d, hd, he⟩ := this
                exact ⟨d.reset, List.mem_map.2 ⟨d, hd, rfl⟩, eats_reset.2 he⟩
              · have := (decompress_small hC hd hs).1
                omega
            · have hpos : 0 < info.point_step.toNat := by
                refine Nat.pos_of_ne_zero fun e => hs (BitVec.eq_of_toNat_eq (by simpa using e))
              refine untilEmpty_room F m _ hpos _ _ _ _ _ ?_
              have : (data.length + buf.length + 1) * 1 ≤ (data.length + buf.length + 1) * info.point_step.toNat := Nat.mul_le_mul_left _ hpos
              omega
          refine ⟨(Halts.bind (f := fun r => Res.ok r.2.2.1) (Q := fun _ => True) hend fun _ _ => trivial).not_loop, fun k => ?_⟩
          rw [untilEmpty_more F m _ _ k _ _ _ _ hend.not_loop]
  refine ⟨_, key.1, fun fuel hf => ?_⟩
  have := key.2 (fuel - (data.length + buf.length + 1))
  rwa [show data.length + buf.length + 1 + (fuel - (data.length + buf.length + 1)) = fuel from by omega] at this

theorem build_weightless (F : FloatOps) (info : EncodingInfo) (hw : WeightlessPoints info) :
    buildV4Decoders F info = .ok (info.fields.map fun f => .copy f.offset.toNat 0, 0) := by
  unfold buildV4Decoders
  obtain ⟨_, he | ⟨ho, hz⟩⟩ := hw
  · by_cases ho : info.encoding_opt = .none
    · rw [if_pos ho, he]; rfl
    · have hl : leadingLossyFloatCount info = 0 := by unfold leadingLossyFloatCount; rw [he]; simp [leadingFloats]
      unfold leadingDecoder
      rw [if_neg ho, hl, he]
      rfl
  · rw [if_pos ho]
    have e1 : info.fields.map (fun f => Dec.copy f.offset.toNat (sizeOf f.type)) = info.fields.map fun f => .copy f.offset.toNat 0 :=
      List.map_congr_left fun f hf => by rw [hz f hf]
    have e2 : info.fields.map (fun f => sizeOf f.type) = info.fields.map fun _ => 0 := List.map_congr_left fun f hf => hz f hf
    have e3 : ∀ l : List PointField, (l.map fun _ => 0).sum = 0 := by
      intro l; induction l with
      | nil => rfl
      | cons _ l ih => rw [List.map_cons, List.sum_cons, ih]
    rw [e1, e2, e3]

theorem weightless_point (F : FloatOps) (input buf : List Byte) : ∀ fs : List PointField,
    ((∀ f ∈ fs, f.offset.toNat = kDecodeButSkipStore ∨ f.offset.toNat ≤ buf.length) →
      decodeFields F (fs.map fun f => .copy f.offset.toNat 0) input buf 0 = .ok (fs.map fun f => .copy f.offset.toNat 0, input, buf)) ∧
    (¬ (∀ f ∈ fs, f.offset.toNat = kDecodeButSkipStore ∨ f.offset.toNat ≤ buf.length) →
      decodeFields F (fs.map fun f => .copy f.offset.toNat 0) input buf 0 = .ub .mem) := by
  intro fs
  induction fs with
  | nil => exact ⟨fun _ => rfl, fun h => absurd (by simp) h⟩
  | cons f fs ih =>
    rw [List.map_cons, decodeFields]
    by_cases hs : f.offset.toNat = kDecodeButSkipStore
    · have e : Dec.step F input (.copy f.offset.toNat 0) = .ok (.copy f.offset.toNat 0, [], input) := by
        simp only [Dec.step]; rw [if_neg (by simpa using hs), if_pos (Nat.zero_le _), List.drop_zero]
      rw [e]
      simp only [Res.ok_bind, applyWrites]
      constructor
      · intro h
        rw [ih.1 fun g hg => h g (List.mem_cons_of_mem _ hg)]; rfl
      · intro h
        rw [ih.2 fun h' => h fun g hg => (List.mem_cons.1 hg).elim (fun e => by rw [e]; exact .inl hs) (h' g)]; rfl
    · have e : Dec.step F input (.copy f.offset.toNat 0) = .ok (.copy f.offset.toNat 0, [(f.offset.toNat, [])], input) := by
        simp only [Dec.step]; rw [if_pos hs, if_pos (Nat.zero_le _), List.drop_zero, List.take_zero]
      rw [e]
      simp only [Res.ok_bind, applyWrites, writeAt, Nat.zero_add, List.length_nil, Nat.add_zero]
      by_cases ho : f.offset.toNat ≤ buf.length
      · rw [if_pos ho]
        have es : splice buf f.offset.toNat [] = buf := by simp [splice]
        simp only [Res.ok_bind, es]
        constructor
        · intro h
          rw [ih.1 fun g hg => h g (List.mem_cons_of_mem _ hg)]; rfl
        · intro h
          rw [ih.2 fun h' => h fun g hg => (List.mem_cons.1 hg).elim (fun e => by rw [e]; exact .inr ho) (h' g)]; rfl
      · rw [if_neg ho]
        exact ⟨fun h => ((h f (List.mem_cons_self ..)).elim hs ho).elim, fun _ => rfl⟩

theorem weightless_hangs (F : FloatOps) (C : Compressor) (info : EncodingInfo) (data buf : List Byte) (hv : info.version.toNat < 3)
    (hw : WeightlessPoints info) (ho : ∀ f ∈ info.fields, f.offset.toNat = kDecodeButSkipStore ∨ f.offset.toNat ≤ buf.length)
    (hcn : info.compression_opt = .none) (hd : data ≠ []) (hm : data.take 10 ≠ magic) (fuel : Nat) :
    decodeCloud F C fuel info data buf = .ub .loop := by
  have hs0 : info.point_step.toNat = 0 := by rw [hw.1]; rfl
  have hreset : (info.fields.map fun f => Dec.copy f.offset.toNat 0).map Dec.reset = info.fields.map fun f => .copy f.offset.toNat 0 := by
    rw [List.map_map]; rfl
  rw [decode_unframed F C _ info hv, build_weightless F info hw]
  simp only [Res.ok_bind, hs0, hreset]
  rw [if_neg hm, hcn]
  simp only [decompressChunk, Res.ok_bind]
  rw [untilEmpty_hangs F _ data buf hd ((weightless_point F data buf info.fields).1 ho) fuel]
  rfl

/-- **C87 is false for version 2**: the payloads for which decoding never ends are exactly the non-empty uncompressed ones (without the magic
string in front) under a header whose points take neither room nor input. -/
theorem C87_hangs (F : FloatOps) (C : Compressor) (hC : C.Lawful) (info : EncodingInfo) (data buf : List Byte) :
    (∀ fuel, decodeCloud F C fuel info data buf = .ub .loop) ↔
      info.version.toNat < 3 ∧ WeightlessPoints info ∧ (∀ f ∈ info.fields, f.offset.toNat = kDecodeButSkipStore ∨ f.offset.toNat ≤ buf.length) ∧
        info.compression_opt = .none ∧ data ≠ [] ∧ data.take 10 ≠ magic := by
  constructor
  · intro h
    have hv : info.version.toNat < 3 := by
      refine Nat.lt_of_not_le fun hv => ?_
      obtain ⟨r, h1, h2⟩ := C87_framed_ends F C info hv data buf
      exact h1 ((h2 0).symm.trans (h 0))
    have hw : WeightlessPoints info := by
      refine Classical.byContradiction fun hw => ?_
      obtain ⟨r, h1, h2⟩ := C87_unframed_ends_partial F C hC info hw data buf
      exact h1 ((h2 _ (Nat.lt_succ_self _)).symm.trans (h _))
    have hs0 : info.point_step.toNat = 0 := by rw [hw.1]; rfl
    have hreset : (info.fields.map fun f => Dec.copy f.offset.toNat 0).map Dec.reset = info.fields.map fun f => .copy f.offset.toNat 0 := by
      rw [List.map_map]; rfl
    have h1 := h 1
    rw [decode_unframed F C _ info hv, build_weightless F info hw] at h1
    simp only [Res.ok_bind, hs0, hreset] at h1
    by_cases hm : data.take 10 = magic
    · rw [if_pos hm] at h1; simp at h1
    rw [if_neg hm] at h1
    cases hd : decompressChunk C info.compression_opt data (maxDecompressed info) with
    | ub k => rw [hd] at h1; have := decompressChunk_ends C info.compression_opt data (maxDecompressed info); rw [hd] at this; simp at h1; exact absurd h1 this
    | throw e => rw [hd] at h1; simp at h1
    | ok view =>
      rw [hd] at h1
      simp only [Res.ok_bind] at h1
      have hview : view ≠ [] := by
        intro e; rw [e, decodeUntilEmptyV4, if_pos List.length_nil] at h1; simp at h1
      have hcn : info.compression_opt = .none :=
        Classical.byContradiction fun hne => hview ((decompress_small hC hd hw.1).2 hne)
      refine ⟨hv, hw, ?_, hcn, ?_, hm⟩
      · refine Classical.byContradiction fun hne => ?_
        rw [decodeUntilEmptyV4, if_neg (fun e => hview (List.length_eq_zero_iff.1 e)), if_neg (by omega), if_neg (by omega),
          (weightless_point F view buf info.fields).2 hne] at h1
        simp at h1
      · rw [hcn] at hd
        simp only [decompressChunk, Res.ok.injEq] at hd
        rw [hd]; exact hview
  · rintro ⟨hv, hw, ho, hcn, hd, hm⟩ fuel
    exact weightless_hangs F C info data buf hv hw ho hcn hd hm fuel

/-- A file on which decoding never ends: `DecodeHeader` accepts its header, and no number of turns is enough for the one byte behind it,
even into an empty buffer, which is what the header asks for. -/
theorem C87_hang_file (T : FloatText) (F : FloatOps) (C : Compressor) : ∃ bytes info payload, decodeHeader T bytes = .ok (info, payload) ∧
    info.width.toNat * info.height.toNat * info.point_step.toNat = 0 ∧ ∀ fuel, decodeCloud F C fuel info payload [] = .ub .loop := by
  obtain ⟨bs, _, h⟩ := C25_binary_roundtrip_partial T
    { fields := [], width := 1#32, height := 1#32, point_step := 0#32, encoding_opt := .lossy, compression_opt := .none, version := 2#8 }
    ⟨rfl, rfl, by intro f hf; simp at hf⟩ (by decide) (by decide) (by decide) rfl (by decide) (by simp)
  exact ⟨_, _, _, h [1#8], rfl, weightless_hangs F C _ [1#8] [] (by decide) ⟨rfl, .inl rfl⟩ (by simp) rfl (by simp) (by decide)⟩

/-- Every cloud with points of some size is outside the exception, so a version-2 payload of any bytes for it ends. -/
example (F : FloatOps) (data buf : List Byte) : ∃ r, r ≠ .ub .loop ∧ ∀ fuel, data.length + buf.length < fuel →
    decodeCloud F storeComp fuel { mixInfo with version := 2#8 } data buf = r :=
  C87_unframed_ends_partial F storeComp storeComp_lawful _ (fun h => absurd h.1 (by decide)) data buf

/-- So is one with a field of a known type, whatever its point size. -/
example (F : FloatOps) (data buf : List Byte) : ∃ r, r ≠ .ub .loop ∧ ∀ fuel, data.length + buf.length < fuel →
    decodeCloud F storeComp fuel { mixInfo with version := 2#8, point_step := 0#32 } data buf = r :=
  C87_unframed_ends_partial F storeComp storeComp_lawful _ (by rintro ⟨_, h | ⟨h, _⟩⟩ <;> exact absurd h (by decide)) data buf

/-- Version 5 with points of no size: it ends. -/
example (F : FloatOps) (data : List Byte) : ∃ r, r ≠ .ub .loop ∧ ∀ fuel,
    decodeCloud F storeComp fuel { mixInfo with point_step := 0#32 } data [] = r :=
  C87_framed_ends F storeComp _ (by decide) data []

/-- The exception with fields: two fields of unknown type copied from nowhere to nowhere. -/
example (F : FloatOps) (buf : List Byte) : ∀ fuel, decodeCloud F storeComp fuel
    { fields := [{ name := [0x61#8] }, { name := [0x62#8] }], width := 3#32, height := 1#32, point_step := 0#32, encoding_opt := .none,
      compression_opt := .none, version := 2#8 } [7#8, 8#8] buf = .ub .loop :=
  (C87_hangs F storeComp storeComp_lawful _ _ buf).2
    ⟨by decide, ⟨rfl, .inr ⟨rfl, by simp [sizeOf]⟩⟩, by simp, rfl, by simp, by decide⟩

end Cloudini.Props
