import Verif.Lemmas.Forced
import Verif.Props.C18_C20
import Verif.Model.IEEE

/-!
# C96 Without quantisation a cloud comes back exactly or not at all

For the options NONE and LOSSLESS: whatever the values of the cloud, if encoding and decoding both succeed then every field of
every point has its original bytes.  `C18_cloud_roundtrip_partial` starts from clouds whose 64-bit integers follow each other
within the range of the codec; here nothing is assumed of the values, and the exact condition for success is derived.
-/

namespace Cloudini.Props

theorem buildAll_mem {α : Type} {mk : PointField → Res α} {fs : List PointField} {as : List α} (h : buildAll mk fs = .ok as) :
    (∀ f ∈ fs, ∃ a ∈ as, mk f = .ok a) ∧ ∀ a ∈ as, ∃ f ∈ fs, mk f = .ok a := by
  induction fs generalizing as with
  | nil =>
    simp only [buildAll, Res.ok.injEq] at h
    subst h
    simp
  | cons f fs ih =>
    simp only [buildAll, Res.bind_eq_ok] at h
    obtain ⟨a, h1, as', h2, h⟩ := h
    simp only [Res.ok.injEq] at h
    subst h
    obtain ⟨i1, i2⟩ := ih h2
    constructor
    · intro g hg
      simp only [List.mem_cons] at hg
      rcases hg with rfl | hg
      · exact ⟨a, by simp, h1⟩
      · obtain ⟨b, hb, hm⟩ := i1 g hg
        exact ⟨b, by simp [hb], hm⟩
    · intro b hb
      simp only [List.mem_cons] at hb
      rcases hb with rfl | hb
      · exact ⟨f, by simp, h1⟩
      · obtain ⟨g, hg, hm⟩ := i2 b hb
        exact ⟨g, by simp [hg], hm⟩

/-- Without quantisation: no vector group, every field has an exact encoder, and LOSSLESS 64-bit integers are delta-coded. -/
theorem exact_plan {F : FloatOps} {info : EncodingInfo} {es : List Enc} (hopt : info.encoding_opt = .none ∨ info.encoding_opt = .lossless)
    (h : buildV4Encoders F info = .ok es) :
    (∀ e ∈ es, e.Exact) ∧ (info.encoding_opt = .lossless → ∀ f ∈ info.fields, f.type = .int64 ∨ f.type = .uint64 →
      ∃ g, .int f.offset.toNat 8 g 0#64 ∈ es) := by
  have hz : leadingLossyFloatCount info = 0 := by
    unfold leadingLossyFloatCount
    rcases hopt with h | h <;> simp [h]
  unfold buildV4Encoders at h
  rcases hopt with ho | ho
  · rw [if_pos ho] at h
    simp only [Res.ok.injEq] at h
    subst h
    refine ⟨?_, fun hh => by rw [ho] at hh; simp at hh⟩
    intro e he
    simp only [List.mem_map] at he
    obtain ⟨f, _, rfl⟩ := he
    trivial
  · rw [if_neg (by rw [ho]; simp)] at h
    unfold leadingEncoder at h
    simp only [hz, if_true, Res.ok_bind, List.drop_zero, Res.bind_eq_ok] at h
    obtain ⟨rest, h1, h⟩ := h
    simp only [List.nil_append, Res.ok.injEq] at h
    subst h
    obtain ⟨m1, m2⟩ := buildAll_mem h1
    constructor
    · intro e he
      obtain ⟨f, _, hm⟩ := m2 e he
      unfold createEncoder at hm
      simp only [ho] at hm
      cases hf : f.type <;> cases hr : f.resolution <;> simp only [hf, hr] at hm <;>
        simp at hm <;> first | (subst hm; trivial) | (split at hm <;> simp at hm <;> subst hm <;> trivial)
    · intro _ f hf ht
      obtain ⟨a, ha, hm⟩ := m1 f hf
      rcases ht with ht | ht
      · unfold createEncoder at hm
        simp only [ht, Res.ok.injEq] at hm
        subst hm
        exact ⟨true, ha⟩
      · unfold createEncoder at hm
        simp only [ht, Res.ok.injEq] at hm
        subst hm
        exact ⟨false, ha⟩

/-- Every value of the cloud follows the one before it (in the sense of `ValidCloud`): with LOSSLESS only 64-bit integers are
restricted, to differences of less than 2^63 from the previous point (from 0 at points 0, 32768, 65536, ...). -/
def InOrder (F : FloatOps) (info : EncodingInfo) (cloud : List Byte) : Prop :=
  ∀ i, i < info.width.toNat * info.height.toNat → ∀ k f, info.fields[k]? = some f →
    Follows F info k f (previous info cloud i f) (cell cloud 0 info.point_step.toNat i f.offset.toNat (sizeOf f.type))

theorem forced_order (F : FloatOps) (C : Compressor) (hC : C.Lawful) (info : EncodingInfo) (header : List Byte)
    (enc enc' : Encoder) (cloud out : List Byte) (room size fuel : Nat)
    (hinfo : ValidInfo F info) (hopt : info.encoding_opt = .none ∨ info.encoding_opt = .lossless)
    (hsize : cloud.length = info.width.toNat * info.height.toNat * info.point_step.toNat) (haddr : cloud.length < 2 ^ 64)
    (hreach : Reach F C info header enc)
    (henc : encodeView F C enc cloud room false = .ok (enc', out, size))
    (hlim : info.compression_opt = .none ∨ ChunksWithin F enc cloud cloud.length)
    (hlz : info.compression_opt = .lz4 → cloud.length ≤ intMax)
    (buf buf' : List Byte) (hbuf : cloud.length ≤ buf.length)
    (hdec : decodeCloud F C fuel info out buf = .ok buf') : InOrder F info cloud ∧ out.take 10 ≠ magic := by
  obtain ⟨rfl, rfl, hused⟩ := reach_used hreach
  have hmax : maxDecompressed enc.info = cloud.length := by
    unfold maxDecompressed; rw [← hsize, Nat.mod_eq_of_lt haddr]
  have hnl : enc.info.encoding_opt ≠ .lossy := by rcases hopt with h | h <;> simp [h]
  have hv : usesV5 enc.info = false := by simp [usesV5, hnl]
  have hagree : Agree F enc.info enc.info := valid_agree hinfo (all2_refl_same _) rfl rfl rfl
  obtain ⟨cs, payload, p1, p2, p3, p4, p5, p6, p7, p8, _⟩ := encodeView_inv F C enc enc' cloud room false out size henc
  have hout : out = payload := by simpa using p7
  subst hout
  obtain ⟨es0, ds0, min', b1, b2, b3, b4, b5, b6, b7⟩ := build_v4 F enc.info enc.info hagree
  rcases hused with hh | ⟨es0', hb, hreset⟩
  · rw [hv] at hh; simp at hh
  rw [b1] at hb
  simp only [Res.ok.injEq] at hb
  subst hb
  unfold decodeCloud at hdec
  have hbd : buildDecoders F enc.info = .ok (ds0, min') := by
    unfold buildDecoders; rw [hv]; simpa using b2
  rw [hbd, Res.ok_bind] at hdec
  simp only at hdec
  by_cases hmagic : out.take 10 = magic
  · rw [if_pos hmagic] at hdec; simp at hdec
  rw [if_neg hmagic, if_pos (by have := hinfo.version; exact this)] at hdec
  rw [decodeLoop_framed F C hC enc.info min' _ ds0 cs out buf 0 p6 (by
    rw [hmax]
    rcases hlim with hl | hl
    · exact Or.inl hl
    · exact Or.inr (hl _ cs p3)) (by rw [hmax]; exact hlz)] at hdec
  have hpts : cloud.length / enc.info.point_step.toNat = enc.info.width.toNat * enc.info.height.toNat := by
    rw [hsize]; exact Nat.mul_div_cancel _ p1
  unfold stage1Chunks at p3
  simp only [hv, Bool.false_eq_true, if_false, hpts] at p3
  rw [maxSerializedPointSize_eq hagree.known, Res.ok_bind] at p3
  obtain ⟨x1, x2⟩ := exact_plan hopt b1
  have hgood := stage1V4_forced F enc.info enc.info.point_step.toNat _ min' es0 ds0 hv x1 (matchAll_reset b4) p1 (Nat.le_of_eq b3)
    (enc.info.width.toNat * enc.info.height.toNat)
    (Nat.mul_le_mul (Nat.min_le_right _ _) (Nat.le_trans b6 (Nat.le_max_right _ _)))
    enc.encs _ ds0 cloud cs buf 0 hreset rfl hsize (by rw [Nat.zero_add, ← hsize]; exact hbuf) p3 ⟨_, hdec⟩
  refine ⟨?_, hmagic⟩
  intro i hi k f hk
  have hgi := hgood i hi
  unfold Follows
  rcases hopt with ho | ho
  · simp only [ho]
  · have hmain : f.type = .int64 ∨ f.type = .uint64 →
        Step63 (BitVec.ofNat 64 (fromLE (cell cloud 0 enc.info.point_step.toNat i f.offset.toNat (sizeOf f.type))))
          ((previous enc.info cloud i f).elim 0#64 fun p => BitVec.ofNat 64 (fromLE p)) := by
      intro ht
      obtain ⟨g, hg⟩ := x2 ho f (List.mem_of_getElem? hk) ht
      have := (hgi _ hg).2
      rw [toI64_full] at this
      have h8 : sizeOf f.type = 8 := by rcases ht with ht | ht <;> rw [ht] <;> rfl
      rw [h8, cell_eq_sub]
      unfold previous
      unfold chunkPrev at this
      change Step64 _ (keptI _ _ _ (if i % 32768 = 0 then none else some _)) at this
      by_cases hz : i % 32768 = 0
      · rw [if_pos hz] at this ⊢
        exact this
      · rw [if_neg hz] at this ⊢
        simp only [keptI, toI64_full] at this
        rw [h8, cell_eq_sub]
        exact this
    cases hf : f.type <;> cases hr : f.resolution <;> simp only [ho] <;> rw [hf] at hmain <;>
      first
      | exact trivial
      | exact hmain (Or.inl rfl)
      | exact hmain (Or.inr rfl)

/-- **C96, exact or not at all.**  With the options NONE and LOSSLESS, for any values and any history of the encoder: when both
calls succeed, every field of every point has the bytes it had in the cloud. -/
theorem C96_exact_or_rejected (F : FloatOps) (C : Compressor) (hC : C.Lawful) (info : EncodingInfo) (header : List Byte)
    (enc enc' : Encoder) (cloud out : List Byte) (room size fuel : Nat)
    (hinfo : ValidInfo F info) (hopt : info.encoding_opt = .none ∨ info.encoding_opt = .lossless)
    (hsize : cloud.length = info.width.toNat * info.height.toNat * info.point_step.toNat) (haddr : cloud.length < 2 ^ 64)
    (hreach : Reach F C info header enc)
    (henc : encodeView F C enc cloud room false = .ok (enc', out, size))
    (hlim : info.compression_opt = .none ∨ ChunksWithin F enc cloud cloud.length)
    (hlz : info.compression_opt = .lz4 → cloud.length ≤ intMax)
    (buf buf' : List Byte) (hbuf : cloud.length ≤ buf.length)
    (hdec : decodeCloud F C fuel info out buf = .ok buf') :
    buf'.length = buf.length ∧ ∀ i, i < info.width.toNat * info.height.toNat → ∀ f ∈ info.fields,
      cell buf' 0 info.point_step.toNat i f.offset.toNat (sizeOf f.type) =
        cell cloud 0 info.point_step.toNat i f.offset.toNat (sizeOf f.type) := by
  obtain ⟨ho, hmagic⟩ := forced_order F C hC info header enc enc' cloud out room size fuel hinfo hopt hsize haddr hreach henc hlim hlz
    buf buf' hbuf hdec
  have hnl : info.encoding_opt ≠ .lossy := by rcases hopt with h | h <;> simp [h]
  obtain ⟨buf2, h1, h2, h3⟩ := C18_cloud_roundtrip_partial F C hC info header enc enc' cloud out room size fuel hinfo ⟨hsize, haddr, ho⟩
    hreach henc (fun _ h => absurd h hnl) hlim hlz hmagic buf hbuf
  rw [hdec] at h1
  simp only [Res.ok.injEq] at h1
  subst h1
  refine ⟨h2, ?_⟩
  intro i hi f hf
  rw [List.mem_iff_getElem?] at hf
  obtain ⟨k, hk⟩ := hf
  rw [h3 i hi k f hk]
  unfold expected
  cases hh : info.encoding_opt <;> simp_all

/-- **C96, when.**  The decoder accepts the encoded cloud exactly when all 64-bit integers follow each other within the range of
the codec and the payload does not start with the magic string. -/
theorem C96_accepted_iff (F : FloatOps) (C : Compressor) (hC : C.Lawful) (info : EncodingInfo) (header : List Byte)
    (enc enc' : Encoder) (cloud out : List Byte) (room size fuel : Nat)
    (hinfo : ValidInfo F info) (hopt : info.encoding_opt = .none ∨ info.encoding_opt = .lossless)
    (hsize : cloud.length = info.width.toNat * info.height.toNat * info.point_step.toNat) (haddr : cloud.length < 2 ^ 64)
    (hreach : Reach F C info header enc)
    (henc : encodeView F C enc cloud room false = .ok (enc', out, size))
    (hlim : info.compression_opt = .none ∨ ChunksWithin F enc cloud cloud.length)
    (hlz : info.compression_opt = .lz4 → cloud.length ≤ intMax)
    (buf : List Byte) (hbuf : cloud.length ≤ buf.length) :
    (∃ buf', decodeCloud F C fuel info out buf = .ok buf') ↔ InOrder F info cloud ∧ out.take 10 ≠ magic := by
  constructor
  · rintro ⟨buf', h⟩
    exact forced_order F C hC info header enc enc' cloud out room size fuel hinfo hopt hsize haddr hreach henc hlim hlz buf buf' hbuf h
  · rintro ⟨ho, hmagic⟩
    have hnl : info.encoding_opt ≠ .lossy := by rcases hopt with h | h <;> simp [h]
    obtain ⟨buf2, h1, _⟩ := C18_cloud_roundtrip_partial F C hC info header enc enc' cloud out room size fuel hinfo ⟨hsize, haddr, ho⟩
      hreach henc (fun _ h => absurd h hnl) hlim hlz hmagic buf hbuf
    exact ⟨buf2, h1⟩

/-- A LOSSLESS cloud of three points with a 64-bit integer and a float. -/
def exactInfo : EncodingInfo :=
  { fields := [⟨[0x61#8], 0#32, .int64, none⟩, ⟨[0x62#8], 8#32, .float32, some 0x3a83126f#32⟩], width := 3#32, height := 1#32, point_step := 12#32,
    encoding_opt := .lossless, compression_opt := .none, version := 5#8 }

theorem exact_info : ValidInfo bitsOps exactInfo where
  step := by decide
  version := by decide
  option := by decide
  types := by decide
  inside := by decide
  disjoint := by decide
  resolution := fun h => by simp [exactInfo] at h

/-- Integers 5, 2^63 - 1, 0 and floats with signalling-NaN, negative-zero and ordinary bits: exact. -/
def exactCloud : List Byte :=
  toLE 8 5 ++ toLE 4 0x7f800001 ++ toLE 8 (2 ^ 63 - 1) ++ toLE 4 0x80000000 ++ toLE 8 0 ++ toLE 4 0x3f800000

/-- The second integer lies 2^63 below the first: encoding succeeds, decoding refuses. -/
def exactBad : List Byte :=
  toLE 8 5 ++ toLE 4 0x7f800001 ++ toLE 8 (2 ^ 63 + 5) ++ toLE 4 0x80000000 ++ toLE 8 0 ++ toLE 4 0x3f800000

def exactEnc : Encoder :=
  match mkEncoder bitsOps exactInfo [] with
  | .ok e => e
  | _ => ⟨exactInfo, [], []⟩

def exactOut (cloud : List Byte) : Encoder × List Byte × Nat :=
  match encodeView bitsOps storeComp exactEnc cloud 10000 false with
  | .ok r => r
  | _ => (exactEnc, [], 0)

theorem exact_ok : encodeView bitsOps storeComp exactEnc exactCloud 10000 false = .ok (exactOut exactCloud) := by decide +kernel
theorem exactBad_ok : encodeView bitsOps storeComp exactEnc exactBad 10000 false = .ok (exactOut exactBad) := by decide +kernel

example : ∃ buf', decodeCloud bitsOps storeComp 0 exactInfo (exactOut exactCloud).2.1 (List.replicate 36 0#8) = .ok buf' ∧
    ∀ i, i < 3 → ∀ f ∈ exactInfo.fields, cell buf' 0 12 i f.offset.toNat (sizeOf f.type) = cell exactCloud 0 12 i f.offset.toNat (sizeOf f.type) := by
  obtain ⟨buf', h⟩ := (C96_accepted_iff bitsOps storeComp storeComp_lawful exactInfo [] exactEnc _ exactCloud _ 10000 _ 0 exact_info (by decide)
    (by decide +kernel) (by decide +kernel) (.fresh _ (by decide +kernel)) exact_ok (Or.inl rfl) (fun h => by simp [exactInfo] at h)
    (List.replicate 36 0#8) (by decide +kernel)).2 ⟨follows_by (by decide +kernel), by decide +kernel⟩
  exact ⟨buf', h, (C96_exact_or_rejected bitsOps storeComp storeComp_lawful exactInfo [] exactEnc _ exactCloud _ 10000 _ 0 exact_info (by decide)
    (by decide +kernel) (by decide +kernel) (.fresh _ (by decide +kernel)) exact_ok (Or.inl rfl) (fun h => by simp [exactInfo] at h)
    (List.replicate 36 0#8) buf' (by decide +kernel) h).2⟩

example : ¬ ∃ buf', decodeCloud bitsOps storeComp 0 exactInfo (exactOut exactBad).2.1 (List.replicate 36 0#8) = .ok buf' := by
  intro h
  have := ((C96_accepted_iff bitsOps storeComp storeComp_lawful exactInfo [] exactEnc _ exactBad _ 10000 _ 0 exact_info (by decide)
    (by decide +kernel) (by decide +kernel) (.fresh _ (by decide +kernel)) exactBad_ok (Or.inl rfl) (fun h => by simp [exactInfo] at h)
    (List.replicate 36 0#8) (by decide +kernel)).1 h).1 1 (by decide) 0 _ rfl
  have h2 : Step63 (BitVec.ofNat 64 (2 ^ 63 + 5)) 5#64 := this
  revert h2
  unfold Step63
  decide +kernel

/-- A one-point LOSSY cloud of version 4 with a float field of resolution 1. -/
def holeInfo : EncodingInfo :=
  { fields := [⟨[0x61#8], 0#32, .float32, some 0x3f800000#32⟩], width := 1#32, height := 1#32, point_step := 4#32,
    encoding_opt := .lossy, compression_opt := .none, version := 4#8 }

def holeEnc : Encoder :=
  match mkEncoder IEEE.ops holeInfo [] with
  | .ok e => e
  | _ => ⟨holeInfo, [], []⟩

/-- **C96 does not hold for LOSSY clouds** (IEEE arithmetic): the number -2^63 with resolution 1 is encoded and decoded without an
error, and comes back as NaN. -/
theorem C96_lossy_fails :
    mkEncoder IEEE.ops holeInfo [] = .ok holeEnc ∧
    ∃ enc' out size, encodeView IEEE.ops storeComp holeEnc (toLE 4 0xdf000000) 1000 false = .ok (enc', out, size) ∧
      decodeCloud IEEE.ops storeComp 0 holeInfo out [0#8, 0#8, 0#8, 0#8] = .ok (toLE 4 0x7fc00000) := by
  refine ⟨by decide +kernel, ⟨holeInfo, [], [.lossy32 0 0x3f800000#32 (BitVec.intMin 64)]⟩, [1#8, 0#8, 0#8, 0#8, 0#8], 5, by decide +kernel, by decide +kernel⟩

end Cloudini.Props
