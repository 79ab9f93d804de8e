import Verif.Lemmas.Miscount
import Verif.Lemmas.Partial
import Verif.Lemmas.FileTrip
import Verif.Props.C90
import Verif.Props.C94
import Verif.Props.C18_C20

/-!
# C97 A cloud of the wrong size

The description says how many points a cloud has (`width * height`); `encode` is handed bytes and takes as many points as there are.
What happens when the two numbers differ: which decodes notice it, and what is delivered when they do not.
`m` is the number of points of the bytes, `n` = `width * height` the number in the description.
-/

namespace Cloudini.Props

/-- What is common to the theorems of this file: the stage-1 chunks of an encoded cloud and how the decoder sees them. -/
theorem miscount_setup (F : FloatOps) (C : Compressor) (hC : C.Lawful) (info : EncodingInfo) (header : List Byte) (enc enc' : Encoder)
    (cloud out : List Byte) (room size m : Nat) (hinfo : ValidInfo F info) (hno : usesV5 info = false) (hcloud : CloudOf F info m cloud)
    (hreach : Reach F C info header enc) (henc : encodeView F C enc cloud room false = .ok (enc', out, size))
    (haddr : info.width.toNat * info.height.toNat * info.point_step.toNat < 2 ^ 64)
    (hlim : info.compression_opt = .none ∨ ChunksWithin F enc cloud (info.width.toNat * info.height.toNat * info.point_step.toNat))
    (hlz : info.compression_opt = .lz4 → info.width.toNat * info.height.toNat * info.point_step.toNat ≤ intMax)
    (hmagic : out.take 10 ≠ magic) (fuel : Nat) :
    ∃ es ds min' cap es' cs, (∀ buf, decodeCloud F C fuel info out buf = decodeStage1 F info min' (info.width.toNat * info.height.toNat) ds cs buf 0) ∧
      stage1V4 F info.point_step.toNat cap m enc.encs cloud = .ok (es', cs) ∧ enc.encs.map Enc.reset = es.map Enc.reset ∧
      min m kPointsPerChunk * sumMax es ≤ cap ∧ min' = sumMin ds ∧ MatchAll es ds ∧
      (∀ mem, pointWrites F mem es ds = stores F info (fun _ => true) mem info.fields info.fields) ∧
      (∀ i, i < m → GoodAll F (chunkPrev info.point_step.toNat cloud i) (cloud.drop (i * info.point_step.toNat)) es) ∧
      buildDecoders F info = .ok (ds, min') := by
  obtain ⟨rfl, rfl, hused⟩ := reach_used hreach
  have hagree : Agree F enc.info enc.info := valid_agree hinfo (all2_refl_same _) rfl rfl rfl
  obtain ⟨cs, payload, p1, p2, p3, p4, p5, p6, p7, p8, _⟩ := encodeView_inv F C enc enc' cloud room false out size henc
  have hout : out = payload := by simpa using p7
  subst hout
  obtain ⟨es0, ds0, min', b1, b2, b3, b4, b5, b6, b7⟩ := build_v4 F enc.info enc.info hagree
  rcases hused with hh | ⟨es0', hb, hreset⟩
  · rw [hno] at hh; simp at hh
  rw [b1] at hb
  simp only [Res.ok.injEq] at hb
  subst hb
  have hbd : buildDecoders F enc.info = .ok (ds0, min') := by
    unfold buildDecoders; rw [hno]; simpa using b2
  have hmax : maxDecompressed enc.info = enc.info.width.toNat * enc.info.height.toNat * enc.info.point_step.toNat := by
    unfold maxDecompressed; rw [Nat.mod_eq_of_lt haddr]
  have hpts : cloud.length / enc.info.point_step.toNat = m := by
    rw [hcloud.size]; exact Nat.mul_div_cancel _ p1
  have p3' := p3
  unfold stage1Chunks at p3
  simp only [hno, Bool.false_eq_true, if_false, hpts] at p3
  rw [maxSerializedPointSize_eq hagree.known, Res.ok_bind] at p3
  refine ⟨es0, ds0, min', _, _, cs, ?_, p3, hreset, Nat.mul_le_mul (Nat.min_le_right _ _) (Nat.le_trans b6 (Nat.le_max_right _ _)), b3, b4, b5,
    fun i hi => b7 _ _ (cloudOf_points hinfo hcloud i hi), hbd⟩
  intro buf
  unfold decodeCloud
  rw [hbd, Res.ok_bind]
  simp only
  rw [if_neg hmagic, if_pos (by have := hinfo.version; exact this)]
  rw [decodeLoop_framed F C hC enc.info min' _ ds0 cs out buf 0 p6 (by
    rw [hmax]
    rcases hlim with hl | hl
    · exact Or.inl hl
    · exact Or.inr (hl _ cs p3')) (by rw [hmax]; exact hlz)]

/-- **C97, another number of chunks.** Whatever the values, the version, the codec and the buffer: if the bytes hold another number of chunks of 32768
points than the description asks for, the decoder does not accept them. -/
theorem C97_other_chunks (F : FloatOps) (C : Compressor) (info : EncodingInfo) (cloud payload : List Byte) (m fuel : Nat)
    (hver : 3 ≤ info.version.toNat) (hpay : Format.Encoded F C info cloud m payload)
    (hcount : (m + 32767) / 32768 ≠ (info.width.toNat * info.height.toNat + 32767) / 32768) (buf : List Byte) :
    ∀ buf', decodeCloud F C fuel info payload buf ≠ .ok buf' := by
  intro buf' h
  rw [decodeCloud_loop hver] at h
  obtain ⟨⟨ds, mn⟩, h0, h⟩ := Res.bind_eq_ok.1 h
  simp only at h
  split at h
  · simp at h
  obtain ⟨chunks, e1, e2, e3⟩ := decodeLoop_framed_of_ok _ h
  obtain ⟨st, s1, s2, s3⟩ := hpay
  have key : ∀ (as bs : List (List Byte)), (as.flatMap fun y => Format.le 4 y.length ++ y) = frame bs → (∀ a ∈ as, a.length < 2 ^ 32) →
      (∀ b ∈ bs, b.length < 2 ^ 32) → as.length = bs.length := by
    intro as
    induction as with
    | nil =>
      intro bs he _ _
      cases bs with
      | nil => rfl
      | cons b bs =>
        have := congrArg List.length he
        simp only [frame, List.flatMap_nil, List.length_nil, List.length_append, toLE_length] at this
        omega
    | cons a as ih =>
      intro bs he ha hb
      cases bs with
      | nil =>
        have := congrArg List.length he
        simp only [frame, List.flatMap_cons, format_le, List.length_nil, List.length_append, toLE_length] at this
        omega
      | cons b bs =>
        rw [List.flatMap_cons, format_le] at he
        obtain ⟨_, h2⟩ := Partial.frame_head (c := a) (c' := b) he (ha a (by simp)) (hb b (by simp))
        rw [List.length_cons, List.length_cons, ih bs h2 (fun x hx => ha x (by simp [hx])) fun x hx => hb x (by simp [hx])]
  have := key st chunks (s3 ▸ e1) (fun a ha => by
    obtain ⟨i, hi⟩ := List.mem_iff_getElem?.1 ha
    exact (s2 i a hi).2) e3
  omega

/-- **C97, too few points.** Without sections, in a description with at least one field: if the bytes have fewer points than the description says, the
decoder does not accept them, whatever the buffer. -/
theorem C97_too_few (F : FloatOps) (C : Compressor) (hC : C.Lawful) (info : EncodingInfo) (header : List Byte) (enc enc' : Encoder)
    (cloud out : List Byte) (room size m : Nat) (hinfo : ValidInfo F info) (hfields : info.fields ≠ [])
    (hno : ∀ f ∈ info.fields, Format.sectioned info = true → Format.wide f = false) (hcloud : CloudOf F info m cloud)
    (hreach : Reach F C info header enc) (henc : encodeView F C enc cloud room false = .ok (enc', out, size))
    (haddr : info.width.toNat * info.height.toNat * info.point_step.toNat < 2 ^ 64)
    (hlim : info.compression_opt = .none ∨ ChunksWithin F enc cloud (info.width.toNat * info.height.toNat * info.point_step.toNat))
    (hlz : info.compression_opt = .lz4 → info.width.toNat * info.height.toNat * info.point_step.toNat ≤ intMax)
    (hm : m < info.width.toNat * info.height.toNat) (buf : List Byte) (hbuf : buf.length < 2 ^ 64) (fuel : Nat) :
    ∀ buf', decodeCloud F C fuel info out buf ≠ .ok buf' := by
  intro buf' h
  have hno5 : usesV5 info = false := by
    rw [uses_sections, List.any_eq_false]
    intro f hf
    simp only [Bool.and_eq_true, not_and, Bool.not_eq_true]
    exact fun hs => hno f hf hs
  have hver : 3 ≤ info.version.toNat := by have := hinfo.version; simpa [BitVec.le_def] using this
  by_cases hsame : (info.width.toNat * info.height.toNat + 32767) / 32768 = (m + 32767) / 32768
  · have hroom := decodeCloud_room hinfo.step hver hbuf h
    have hmagic : out.take 10 ≠ magic := by
      intro hmag
      unfold decodeCloud at h
      obtain ⟨r, _, h⟩ := Res.bind_eq_ok.1 h
      simp only at h
      rw [if_pos hmag] at h
      simp at h
    obtain ⟨es, ds, min', cap, es', cs, h1, h2, h3, h4, h5, h6, h7, h8, h9⟩ := miscount_setup F C hC info header enc enc' cloud out room size m hinfo hno5 hcloud
      hreach henc haddr hlim hlz hmagic fuel
    rw [h1] at h
    have hmr : m * info.point_step.toNat ≤ buf.length := Nat.le_trans (Nat.mul_le_mul_right _ (by omega)) hroom
    have hw : 0 < weightOf ds := by
      refine Nat.lt_of_lt_of_le ?_ (decoders_weight F info ds min' h9)
      unfold leastPoint
      obtain ⟨f, fs, hf⟩ := List.exists_cons_of_ne_nil hfields
      split
      · rw [hf, List.map_cons, List.sum_cons]
        have := hinfo.types f (by rw [hf]; simp)
        have : 0 < sizeOf f.type := by revert this; cases f.type <;> simp [sizeOf]
        omega
      · rw [List.filter_eq_self.2 (fun f hf => by simp only [not_v5_not_wide hno5 f hf, Bool.not_false]), hf]
        simp
    have hfits : FitsAll buf.length (pointsWrites F info.point_step.toNat es ds info.point_step.toNat m cloud 0) := by
      intro w hw
      rw [mem_pointsWrites] at hw
      obtain ⟨i, hi, v, hv, rfl⟩ := hw
      rw [h7, mem_stores_all F _ _ (all2_refl_same _)] at hv
      obtain ⟨k, f, g, e1, e2, e3⟩ := hv
      rw [e1] at e2
      cases e2
      unfold Cloudini.store at e3
      split at e3
      · simp at e3
      simp only [List.mem_singleton] at e3
      subst e3
      have hin := hinfo.inside f (List.mem_of_getElem? e1)
      have hle : (i + 1) * info.point_step.toNat ≤ m * info.point_step.toNat := Nat.mul_le_mul_right _ (by omega)
      rw [Nat.add_mul, Nat.one_mul] at hle
      have hl := fieldVal_length (F := F) (opt := info.encoding_opt) (lead := decide (k < leadingLossyFloatCount info)) (f := f)
        (mem := cloud.drop (i * info.point_step.toNat)) (by rw [List.length_drop, hcloud.size]; omega)
      simp only [hl]
      omega
    obtain ⟨b, hb⟩ := applyWrites_fits hfits
    exact stage1V4_over F info info.point_step.toNat cap es ds hno5 (matchAll_reset h6) hinfo.step hw m h4 enc.encs es' ds cloud cs h3 rfl hcloud.size h8 h2 _ hm
      hsame min' buf 0 b (by omega) (by omega) hb buf' h
  · have := C90_bytes_plain F C info header enc enc' hreach hno cloud room false out size henc
    obtain ⟨p, e1, e2⟩ := this
    have e1 : out = p := by simpa using e1
    subst e1
    rw [hcloud.size, Nat.mul_div_cancel _ hinfo.step] at e2
    exact C97_other_chunks F C info cloud out m fuel hver e2 (fun hh => hsame hh.symm) buf buf' h

/-- **C97, too many points, unnoticed.** Without sections: if the bytes have more points than the description says, but no more chunks, the decoder
accepts them and delivers the first points as if the others had never been there. -/
theorem C97_too_many (F : FloatOps) (C : Compressor) (hC : C.Lawful) (info : EncodingInfo) (header : List Byte) (enc enc' : Encoder)
    (cloud out : List Byte) (room size m : Nat) (hinfo : ValidInfo F info)
    (hno : ∀ f ∈ info.fields, Format.sectioned info = true → Format.wide f = false) (hcloud : CloudOf F info m cloud)
    (hreach : Reach F C info header enc) (henc : encodeView F C enc cloud room false = .ok (enc', out, size))
    (haddr : info.width.toNat * info.height.toNat * info.point_step.toNat < 2 ^ 64)
    (hlim : info.compression_opt = .none ∨ ChunksWithin F enc cloud (info.width.toNat * info.height.toNat * info.point_step.toNat))
    (hlz : info.compression_opt = .lz4 → info.width.toNat * info.height.toNat * info.point_step.toNat ≤ intMax)
    (hm : info.width.toNat * info.height.toNat ≤ m)
    (hsame : (m + 32767) / 32768 = (info.width.toNat * info.height.toNat + 32767) / 32768)
    (hmagic : out.take 10 ≠ magic) (buf : List Byte) (hbuf : info.width.toNat * info.height.toNat * info.point_step.toNat ≤ buf.length) (fuel : Nat) :
    ∃ buf', decodeCloud F C fuel info out buf = .ok buf' ∧ buf'.length = buf.length ∧
      ∀ i, i < info.width.toNat * info.height.toNat → ∀ k f, info.fields[k]? = some f →
        cell buf' 0 info.point_step.toNat i f.offset.toNat (sizeOf f.type) =
          expected F info k f (cell cloud 0 info.point_step.toNat i f.offset.toNat (sizeOf f.type)) := by
  have hno5 : usesV5 info = false := by
    rw [uses_sections, List.any_eq_false]
    intro f hf
    simp only [Bool.and_eq_true, not_and, Bool.not_eq_true]
    exact fun hs => hno f hf hs
  obtain ⟨es, ds, min', cap, es', cs, h1, h2, h3, h4, h5, h6, h7, h8, h9⟩ := miscount_setup F C hC info header enc enc' cloud out room size m hinfo hno5 hcloud
    hreach henc haddr hlim hlz hmagic fuel
  have hwr : ∀ w, w ∈ pointsWrites F info.point_step.toNat es ds info.point_step.toNat (info.width.toNat * info.height.toNat) cloud 0 ↔
      CloudWrite F info info (info.width.toNat * info.height.toNat) cloud w := by
    intro w
    rw [mem_pointsWrites]
    unfold CloudWrite
    constructor
    · rintro ⟨i, hi, v, hv2, rfl⟩
      rw [h7, mem_stores_all F _ _ (all2_refl_same _)] at hv2
      exact ⟨i, hi, v, hv2, by simp⟩
    · rintro ⟨i, hi, v, hv2, rfl⟩
      refine ⟨i, hi, v, ?_, by simp⟩
      rw [h7, mem_stores_all F _ _ (all2_refl_same _)]
      exact hv2
  have hin : ∀ f ∈ info.fields, ∀ i, i < info.width.toNat * info.height.toNat →
      f.offset.toNat + sizeOf f.type ≤ (cloud.drop (i * info.point_step.toNat)).length := by
    intro f hf i hi
    have := hinfo.inside f hf
    have hle : (i + 1) * info.point_step.toNat ≤ m * info.point_step.toNat := Nat.mul_le_mul_right _ (by omega)
    rw [Nat.add_mul, Nat.one_mul] at hle
    rw [List.length_drop, hcloud.size]
    omega
  have hfits : FitsAll buf.length (pointsWrites F info.point_step.toNat es ds info.point_step.toNat (info.width.toNat * info.height.toNat) cloud 0) := by
    intro w hw
    rw [hwr] at hw
    obtain ⟨i, hi, v, ⟨k, f, g, e1, e2, e3⟩, rfl⟩ := hw
    rw [e1] at e2
    cases e2
    unfold Cloudini.store at e3
    split at e3
    · simp at e3
    simp only [List.mem_singleton] at e3
    subst e3
    have hl := fieldVal_length (F := F) (opt := info.encoding_opt) (lead := decide (k < leadingLossyFloatCount info))
      (hin f (List.mem_of_getElem? e1) i hi)
    have hf := hinfo.inside f (List.mem_of_getElem? e1)
    simp only [hl]
    have hle : (i + 1) * info.point_step.toNat ≤ info.width.toNat * info.height.toNat * info.point_step.toNat := Nat.mul_le_mul_right _ (by omega)
    rw [Nat.add_mul, Nat.one_mul] at hle
    omega
  obtain ⟨buf', hb⟩ := applyWrites_fits hfits
  refine ⟨buf', ?_, Cloudini.applyWrites_length hb, ?_⟩
  · rw [h1]
    exact stage1V4_under F info info.point_step.toNat cap es ds hno5 (matchAll_reset h6) hinfo.step m h4 enc.encs es' ds cloud cs h3 rfl hcloud.size h8 h2 _ hm
      hsame.symm min' buf 0 buf' (by omega) (by omega) hb
  · intro i hi k f hk
    have hns := valid_noSkip hinfo f (List.mem_of_getElem? hk)
    have hr := hcloud.range i (by omega) k f hk
    rw [cell_eq_sub] at hr
    rw [cell_eq_sub cloud, expected_eq F info k f _ _ hr]
    have hmem : (i * info.point_step.toNat + f.offset.toNat,
        fieldVal F info.encoding_opt (decide (k < leadingLossyFloatCount info)) f (cloud.drop (i * info.point_step.toNat))) ∈
          pointsWrites F info.point_step.toNat es ds info.point_step.toNat (info.width.toNat * info.height.toNat) cloud 0 := by
      rw [hwr]
      exact ⟨i, hi, (f.offset.toNat, fieldVal F info.encoding_opt (decide (k < leadingLossyFloatCount info)) f
        (cloud.drop (i * info.point_step.toNat))), ⟨k, f, f, hk, hk, by unfold Cloudini.store; rw [if_neg hns]; exact List.mem_singleton.2 rfl⟩, rfl⟩
    have := applyWrites_found hb _ hmem (fun w' hw' => cloudWrite_apart hin (all2_refl_same _) (fun g hg _ => hinfo.inside g hg)
      (hinfo.disjoint.imp fun h _ _ => h) ((hwr _).1 hw') ((hwr _).1 hmem))
    simp only at this
    rw [fieldVal_length (hin f (List.mem_of_getElem? hk) i hi)] at this
    simp only [cell, Nat.zero_add]
    exact this

/-- **C97, when the mistake is noticed (partial: without sections).** A cloud of `m` points is accepted under a description of `n` points exactly if
`n = m`, or `n < m` and both make the same number of chunks. -/
theorem C97_accepted_iff_partial (F : FloatOps) (C : Compressor) (hC : C.Lawful) (info : EncodingInfo) (header : List Byte) (enc enc' : Encoder)
    (cloud out : List Byte) (room size m : Nat) (hinfo : ValidInfo F info) (hfields : info.fields ≠ [])
    (hno : ∀ f ∈ info.fields, Format.sectioned info = true → Format.wide f = false) (hcloud : CloudOf F info m cloud)
    (hreach : Reach F C info header enc) (henc : encodeView F C enc cloud room false = .ok (enc', out, size))
    (haddr : info.width.toNat * info.height.toNat * info.point_step.toNat < 2 ^ 64)
    (hlim : info.compression_opt = .none ∨ ChunksWithin F enc cloud (info.width.toNat * info.height.toNat * info.point_step.toNat))
    (hlz : info.compression_opt = .lz4 → info.width.toNat * info.height.toNat * info.point_step.toNat ≤ intMax)
    (hmagic : out.take 10 ≠ magic) (buf : List Byte) (hbuf : info.width.toNat * info.height.toNat * info.point_step.toNat ≤ buf.length)
    (hb64 : buf.length < 2 ^ 64) (fuel : Nat) :
    (∃ buf', decodeCloud F C fuel info out buf = .ok buf') ↔
      info.width.toNat * info.height.toNat ≤ m ∧ (m + 32767) / 32768 = (info.width.toNat * info.height.toNat + 32767) / 32768 := by
  have hver : 3 ≤ info.version.toNat := by have := hinfo.version; simpa [BitVec.le_def] using this
  constructor
  · rintro ⟨buf', h⟩
    constructor
    · refine Classical.byContradiction fun hlt => ?_
      exact C97_too_few F C hC info header enc enc' cloud out room size m hinfo hfields hno hcloud hreach henc haddr hlim hlz (by omega) buf hb64 fuel buf' h
    · refine Classical.byContradiction fun hne => ?_
      obtain ⟨p, e1, e2⟩ := C90_bytes_plain F C info header enc enc' hreach hno cloud room false out size henc
      have e1 : out = p := by simpa using e1
      subst e1
      rw [hcloud.size, Nat.mul_div_cancel _ hinfo.step] at e2
      exact C97_other_chunks F C info cloud out m fuel hver e2 hne buf buf' h
  · rintro ⟨h1, h2⟩
    obtain ⟨buf', h, _⟩ := C97_too_many F C hC info header enc enc' cloud out room size m hinfo hno hcloud hreach henc haddr hlim hlz h1 h2 hmagic buf hbuf fuel
    exact ⟨buf', h⟩

/-- Points of a 32-bit and a 16-bit integer, version 4, `w` of them according to the description. -/
def shortInfo (w : BitVec 32) : EncodingInfo :=
  { fields := [⟨[0x61#8], 0#32, .int32, none⟩, ⟨[0x62#8], 4#32, .uint16, none⟩], width := w, height := 1#32, point_step := 6#32,
    encoding_opt := .lossy, compression_opt := .none, version := 4#8 }

theorem short_info (w : BitVec 32) : ValidInfo bitsOps (shortInfo w) where
  step := by show 0 < (6#32).toNat; decide
  version := by show 3 ≤ (4#8).toNat; decide
  option := Or.inr (Or.inl rfl)
  types := by simp [shortInfo]
  inside := by simp [shortInfo, sizeOf]
  disjoint := by simp [shortInfo, Disjoint, sizeOf]
  resolution := fun _ f hf r hr => by
    simp only [shortInfo, List.mem_cons, List.not_mem_nil, or_false] at hf
    rcases hf with rfl | rfl <;> simp at hr

/-- Three points. -/
def shortCloud : List Byte := toLE 4 7 ++ toLE 2 65535 ++ toLE 4 (2 ^ 32 - 1) ++ toLE 2 0 ++ toLE 4 1000000 ++ toLE 2 300

def shortEnc (w : BitVec 32) : Encoder :=
  match mkEncoder bitsOps (shortInfo w) [] with
  | .ok e => e
  | _ => ⟨shortInfo w, [], []⟩

def shortOut (w : BitVec 32) : Encoder × List Byte × Nat :=
  match encodeView bitsOps storeComp (shortEnc w) shortCloud 10000 false with
  | .ok r => r
  | _ => (shortEnc w, [], 0)

/-- Two of the three points: delivered, the third one is gone. -/
example : ∃ buf', decodeCloud bitsOps storeComp 0 (shortInfo 2#32) (shortOut 2#32).2.1 (List.replicate 12 0#8) = .ok buf' ∧
    cell buf' 0 6 1 0 4 = toLE 4 (2 ^ 32 - 1) := by
  obtain ⟨buf', h, _, h2⟩ := C97_too_many bitsOps storeComp storeComp_lawful (shortInfo 2#32) [] (shortEnc 2#32) (shortOut 2#32).1 shortCloud (shortOut 2#32).2.1
    10000 (shortOut 2#32).2.2 3 (short_info _) (by decide) ⟨by decide +kernel, follows_by (by decide +kernel)⟩ (.fresh _ (by decide +kernel))
    (by decide +kernel) (by decide) (Or.inl rfl) (fun h => by simp [shortInfo] at h) (by decide) (by decide) (by decide +kernel)
    (List.replicate 12 0#8) (by decide +kernel) 0
  refine ⟨buf', h, (h2 1 (by decide) 0 _ rfl).trans ?_⟩
  decide +kernel

/-- Four points asked for: refused. -/
example : ∀ buf', decodeCloud bitsOps storeComp 0 (shortInfo 4#32) (shortOut 4#32).2.1 (List.replicate 24 0#8) ≠ .ok buf' :=
  C97_too_few bitsOps storeComp storeComp_lawful (shortInfo 4#32) [] (shortEnc 4#32) (shortOut 4#32).1 shortCloud (shortOut 4#32).2.1
    10000 (shortOut 4#32).2.2 3 (short_info _) (by decide) (by decide) ⟨by decide +kernel, follows_by (by decide +kernel)⟩ (.fresh _ (by decide +kernel))
    (by decide +kernel) (by decide) (Or.inl rfl) (fun h => by simp [shortInfo] at h) (by decide) (List.replicate 24 0#8) (by decide +kernel) 0

/-- So many points asked for that there must be another chunk: refused, whatever the two agree on otherwise. -/
example : ∀ buf', decodeCloud bitsOps storeComp 0 (shortInfo 32769#32) (shortOut 32769#32).2.1 [] ≠ .ok buf' := by
  obtain ⟨p, e1, e2⟩ := C90_bytes_plain bitsOps storeComp (shortInfo 32769#32) [] (shortEnc 32769#32) (shortOut 32769#32).1 (.fresh _ (by decide +kernel))
    (by decide) shortCloud 10000 false (shortOut 32769#32).2.1 (shortOut 32769#32).2.2 (by decide +kernel)
  have e1 : (shortOut 32769#32).2.1 = p := by simpa using e1
  rw [e1]
  exact C97_other_chunks bitsOps storeComp (shortInfo 32769#32) shortCloud p 3 0 (by decide)
    (by rw [show (3 : Nat) = shortCloud.length / (shortInfo 32769#32).point_step.toNat from by decide +kernel]; exact e2) (by decide) []

/-- Points of one 16-bit integer, version 5, `w` of them according to the description. -/
def inventInfo (w : BitVec 32) : EncodingInfo :=
  { fields := [⟨[0x61#8], 0#32, .uint16, none⟩], width := w, height := 1#32, point_step := 2#32,
    encoding_opt := .lossy, compression_opt := .none, version := 5#8 }

def inventEnc (w : BitVec 32) : Encoder :=
  match mkEncoder bitsOps (inventInfo w) [] with
  | .ok e => e
  | _ => ⟨inventInfo w, [], []⟩

/-- Nine points: 4096, 0, 4096, 0, …. -/
def inventCloud : List Byte := (List.range 9).flatMap fun i => toLE 2 (if i % 2 = 0 then 4096 else 0)

/-- **C97 is false of version 5**: nine points encoded under a description of ten are decoded without an error into ten points. The tenth one was
never there. -/
theorem C97_v5_invents :
    mkEncoder bitsOps (inventInfo 10#32) [] = .ok (inventEnc 10#32) ∧ inventCloud.length = 9 * 2 ∧
    ∃ enc' out size, encodeView bitsOps storeComp (inventEnc 10#32) inventCloud 10000 false = .ok (enc', out, size) ∧
      decodeCloud bitsOps storeComp 0 (inventInfo 10#32) out (List.replicate 20 0xff#8) = .ok (inventCloud ++ toLE 2 4096) := by
  cases he : encodeView bitsOps storeComp (inventEnc 10#32) inventCloud 10000 false with
  | ok r =>
    refine ⟨by decide +kernel, by decide +kernel, r.1, r.2.1, r.2.2, rfl, ?_⟩
    have h : (encodeView bitsOps storeComp (inventEnc 10#32) inventCloud 10000 false >>= fun r =>
      decodeCloud bitsOps storeComp 0 (inventInfo 10#32) r.2.1 (List.replicate 20 0xff#8)) = .ok (inventCloud ++ toLE 2 4096) := by decide +kernel
    rw [he] at h
    exact h
  | throw e =>
    have h : (encodeView bitsOps storeComp (inventEnc 10#32) inventCloud 10000 false).isOk = true := by decide +kernel
    rw [he] at h; simp at h
  | ub e =>
    have h : (encodeView bitsOps storeComp (inventEnc 10#32) inventCloud 10000 false).isOk = true := by decide +kernel
    rw [he] at h; simp at h

end Cloudini.Props
