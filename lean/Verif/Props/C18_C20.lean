import Verif.Lemmas.Bridge
import Verif.Props.Witness

/-!
# C18–C20, C23, C24: whole clouds

`Reach F C info header enc`: `enc` is an encoder object for `info` with any history (Verif.Spec.Cloud).
`encodeView F C enc cloud room wh` is `PointcloudEncoder::encode(ConstBufferView, BufferView&, bool)` into a view of
`room` bytes; it returns the encoder afterwards, the bytes written and the value returned.  `decodeCloud F C fuel info
payload buf` is `PointcloudDecoder::decode` into the caller's buffer `buf` (`fuel` only matters for version-2 data).
-/

namespace Cloudini.Props

/-! ## C18 -/

/-- The stage-1 chunks of the cloud (what is handed to stage 2) are not longer than the cloud itself. -/
def ChunksWithin (F : FloatOps) (enc : Encoder) (cloud : List Byte) (limit : Nat) : Prop :=
  ∀ es cs, stage1Chunks F enc cloud = .ok (es, cs) → ∀ c ∈ cs, c.length ≤ limit

/-- **C18 (partial).** Missing: values that do not follow the one before them within the codec's 64-bit (32-bit) difference
(needed: `C05_int64_fails`, `C09_intMin_step_fails`);
compressed clouds with a stage-1 chunk longer than the whole cloud (needed: `C46_small_cloud_rejected`);
LZ4 clouds above 2 GiB (the decoder rejects them); version-5 lossy clouds with more than 64 integer fields of 16 to 64 bits (`C18_many_fields`); payloads that start with
the magic string, which need a first chunk of 1.4 GB (`C18_magic`). -/
theorem C18_cloud_roundtrip_partial (F : FloatOps) (C : Compressor) (hC : C.Lawful) (info : EncodingInfo) (header : List Byte)
    (enc enc' : Encoder) (cloud out : List Byte) (room size fuel : Nat)
    (hinfo : ValidInfo F info) (hcloud : ValidCloud F info cloud) (hreach : Reach F C info header enc)
    (henc : encodeView F C enc cloud room false = .ok (enc', out, size))
    (h64 : FieldLimit info)
    (hlim : info.compression_opt = .none ∨ ChunksWithin F enc cloud cloud.length)
    (hlz : info.compression_opt = .lz4 → cloud.length ≤ intMax)
    (hmagic : out.take 10 ≠ magic)
    (buf : List Byte) (hbuf : cloud.length ≤ buf.length) :
    ∃ buf', decodeCloud F C fuel info out buf = .ok buf' ∧ buf'.length = buf.length ∧
      ∀ i, i < info.width.toNat * info.height.toNat → ∀ k f, info.fields[k]? = some f →
        cell buf' 0 info.point_step.toNat i f.offset.toNat (sizeOf f.type) =
          expected F info k f (cell cloud 0 info.point_step.toNat i f.offset.toNat (sizeOf f.type)) := by
  obtain ⟨rfl, rfl, hused⟩ := reach_used hreach
  have hmax : maxDecompressed enc.info = cloud.length := by
    unfold maxDecompressed; rw [← hcloud.size, Nat.mod_eq_of_lt hcloud.addressable]
  obtain ⟨buf', h1, h2, h3, _⟩ := cloud_roundtrip F C hC enc enc' enc.info cloud room false out size
    (enc.info.width.toNat * enc.info.height.toNat) fuel henc (valid_agree hinfo (all2_refl_same _) rfl rfl rfl) hused hcloud.size rfl
    (by have := hinfo.version; exact this) (validCloud_points hinfo hcloud) (fieldLimit_v5 h64)
    (fun _ g hg _ => valid_noSkip hinfo g hg) (fun g hg _ => hinfo.inside g hg)
    (hinfo.disjoint.imp fun h _ _ => h) (by simpa using hmagic) (by rw [hmax]; exact hlim) (by rw [hmax]; exact hlz) buf
    (by rw [← hcloud.size]; exact hbuf)
  refine ⟨buf', by simpa using h1, h2, ?_⟩
  intro i hi k f hk
  have := h3 i hi k f f hk hk (valid_noSkip hinfo f (List.mem_of_getElem? hk))
  have hr := hcloud.range i hi k f hk
  rw [cell_eq_sub] at hr
  rw [cell_eq_sub cloud, expected_eq F enc.info k f _ _ hr, ← this]
  simp only [cell, Nat.zero_add]
  rfl

/-- The mixed version-5 cloud of `Verif.Props.Witness` meets every hypothesis (with and without compression). -/
example : ∃ buf', decodeCloud bitsOps storeComp 0 mixInfo mixOut (List.replicate 108 0#8) = .ok buf' ∧ buf'.length = 108 := by
  obtain ⟨buf', h1, h2, _⟩ := C18_cloud_roundtrip_partial bitsOps storeComp storeComp_lawful mixInfo [] mixEnc mixEnc mixCloud mixOut 10000 73 0
    mix_valid mix_cloud (mix_reach _) mix_encode (by decide) (Or.inl rfl) (fun h => by simp [mixInfo] at h) (by decide +kernel)
    (List.replicate 108 0#8) (by decide +kernel)
  exact ⟨buf', h1, by simpa using h2⟩

example : ∃ buf', decodeCloud bitsOps storeComp 0 mixInfoZ mixOutZ.2.1 (List.replicate 108 0#8) = .ok buf' ∧ buf'.length = 108 := by
  obtain ⟨buf', h1, h2, _⟩ := C18_cloud_roundtrip_partial bitsOps storeComp storeComp_lawful mixInfoZ [1#8, 2#8] mixEncZ mixOutZ.1 mixCloud
    mixOutZ.2.1 10000 mixOutZ.2.2 0 mixZ_valid mixZ_cloud (mixZ_reach _) mixZ_encode (by decide)
    (Or.inr (by
      intro es cs h c hc
      have h' : stage1Chunks bitsOps mixEncZ mixCloud = .ok ((mixOutZ.1).encs, [(mixOutZ.2.1).drop 5]) := by decide +kernel
      rw [h'] at h
      simp only [Res.ok.injEq, Prod.mk.injEq] at h
      obtain ⟨_, rfl⟩ := h
      simp only [List.mem_singleton] at hc
      subst hc
      decide +kernel))
    (fun h => by simp [mixInfoZ] at h) (by decide +kernel) (List.replicate 108 0#8) (by decide +kernel)
  exact ⟨buf', h1, by simpa using h2⟩

/-- Integers at the ends of the 64-bit range: INT64 values 2^63 - 1, 0, 1 - 2^63 and UINT64 values 2^64 - 1, 2^64 - 5, 3. -/
def edgeInfo : EncodingInfo :=
  { fields := [⟨[0x61#8], 0#32, .int64, none⟩, ⟨[0x62#8], 8#32, .uint64, none⟩], width := 3#32, height := 1#32, point_step := 16#32,
    encoding_opt := .lossy, compression_opt := .none, version := 5#8 }

def edgeCloud : List Byte :=
  toLE 8 (2 ^ 63 - 1) ++ toLE 8 (2 ^ 64 - 1) ++ toLE 8 0 ++ toLE 8 (2 ^ 64 - 5) ++ toLE 8 (2 ^ 63 + 1) ++ toLE 8 3

theorem edge_valid : ValidInfo bitsOps edgeInfo where
  step := by decide
  version := by decide
  option := by decide
  types := by decide
  inside := by decide
  disjoint := by decide
  resolution := fun _ f _ r _ => ⟨rfl, rfl⟩

theorem edge_cloud : ValidCloud bitsOps edgeInfo edgeCloud where
  size := by decide +kernel
  addressable := by decide +kernel
  range := follows_by (by decide +kernel)

/-- Payloads below 1.4 GB never start with the magic string: their first four bytes are the length of the first chunk. -/
theorem C18_magic (F : FloatOps) (C : Compressor) (enc enc' : Encoder) (cloud out : List Byte) (room size : Nat)
    (henc : encodeView F C enc cloud room false = .ok (enc', out, size)) (hl : out.length < 1431260227) : out.take 10 ≠ magic := by
  obtain ⟨cs, payload, _, _, _, _, _, hf, ho, _⟩ := encodeView_inv F C enc enc' cloud room false out size henc
  have : out = payload := by simpa using ho
  subst this
  exact payload_magic hf (by omega)

/-- They come back exactly. -/
example : ∃ enc' out size buf', encodeView bitsOps storeComp ⟨edgeInfo, [], []⟩ edgeCloud 10000 false = .ok (enc', out, size) ∧
    decodeCloud bitsOps storeComp 0 edgeInfo out (List.replicate 48 0#8) = .ok buf' ∧ buf'.length = 48 := by
  cases he : encodeView bitsOps storeComp ⟨edgeInfo, [], []⟩ edgeCloud 10000 false with
  | ok r =>
    have hl : r.2.1.length < 1431260227 := by
      have : (match encodeView bitsOps storeComp ⟨edgeInfo, [], []⟩ edgeCloud 10000 false with
        | .ok r => decide (r.2.1.length < 1431260227) | _ => false) = true := by decide +kernel
      rw [he] at this
      simpa using this
    obtain ⟨buf', h1, h2, _⟩ := C18_cloud_roundtrip_partial bitsOps storeComp storeComp_lawful edgeInfo [] ⟨edgeInfo, [], []⟩ r.1 edgeCloud r.2.1
      10000 r.2.2 0 edge_valid edge_cloud (.fresh _ (by decide +kernel)) he (by decide) (Or.inl rfl) (fun h => by simp [edgeInfo] at h)
      (C18_magic _ _ _ _ _ _ _ _ he hl) (List.replicate 48 0#8) (by decide +kernel)
    exact ⟨r.1, r.2.1, r.2.2, buf', rfl, h1, by simpa using h2⟩
  | throw e =>
    have : (encodeView bitsOps storeComp ⟨edgeInfo, [], []⟩ edgeCloud 10000 false).isOk = true := by decide +kernel
    rw [he] at this; simp at this
  | ub e =>
    have : (encodeView bitsOps storeComp ⟨edgeInfo, [], []⟩ edgeCloud 10000 false).isOk = true := by decide +kernel
    rw [he] at this; simp at this

/-- The condition on the chunk sizes holds for every cloud that is large compared to one chunk's worst case. -/
theorem C18_large_clouds (F : FloatOps) (C : Compressor) (info : EncodingInfo) (header : List Byte) (enc : Encoder) (cloud : List Byte)
    (m : Nat) (hinfo : ValidInfo F info) (hcloud : ValidCloud F info cloud) (hreach : Reach F C info header enc)
    (h64 : FieldLimit info) (hm : maxSerializedPointSize info.encoding_opt info.fields = .ok m)
    (hlarge : min (info.width.toNat * info.height.toNat) kPointsPerChunk * (m + info.fields.length) + 5 * info.fields.length ≤ cloud.length) :
    ChunksWithin F enc cloud cloud.length := by
  obtain ⟨rfl, rfl, hused⟩ := reach_used hreach
  obtain ⟨es', cs, ds, min', ws, s1, _, _, s4, _⟩ := stage1_cloud F enc enc.info cloud (enc.info.width.toNat * enc.info.height.toNat)
    (valid_agree hinfo (all2_refl_same _) rfl rfl rfl) hused hinfo.step hcloud.size (validCloud_points hinfo hcloud) (fieldLimit_v5 h64)
    (fun _ g hg _ => valid_noSkip hinfo g hg)
  intro es cs2 h2
  rw [s1] at h2
  simp only [Res.ok.injEq, Prod.mk.injEq] at h2
  obtain ⟨_, rfl⟩ := h2
  rw [maxSerializedPointSize_eq (fun f hf => (known_of_types (hinfo.types f hf)).1)] at hm
  simp only [Res.ok.injEq] at hm
  subst hm
  refine s4.all fun n hn => Nat.le_trans ?_ hlarge
  have h1 : (if usesV5 enc.info = true then enc.info.fields.length else 0) ≤ enc.info.fields.length := by split <;> omega
  have h2 : (if usesV5 enc.info = true then 5 * enc.info.fields.length else 0) ≤ 5 * enc.info.fields.length := by split <;> omega
  have h3 := Nat.mul_le_mul hn (Nat.add_le_add_left h1 (enc.info.fields.map (maxSer enc.info.encoding_opt)).sum)
  omega

/-- A cloud large compared to one chunk exists: 400000 points of 10 UINT8 fields' worth of padding and one byte field. -/
example : (min 400000 kPointsPerChunk) * (1 + 1) + 5 * 1 ≤ 400000 * 10 := by decide

/-! ## C19 -/

/-- Position `p` of the output buffer belongs to a declared field of a declared point. -/
def Declared (info : EncodingInfo) (p : Nat) : Prop :=
  ∃ i, i < info.width.toNat * info.height.toNat ∧ ∃ f ∈ info.fields,
    i * info.point_step.toNat + f.offset.toNat ≤ p ∧ p < i * info.point_step.toNat + f.offset.toNat + sizeOf f.type

/-- **C19.** For every payload whatsoever (valid or not) that decodes without error, the length of the caller's buffer
is unchanged and so is every byte that does not belong to a declared field of a declared point. -/
theorem C19_untouched (F : FloatOps) (C : Compressor) (info : EncodingInfo) (payload buf buf' : List Byte) (fuel : Nat)
    (hstep : 0 < info.point_step.toNat) (hver : 3 ≤ info.version.toNat) (hbuf : buf.length < 2 ^ 64)
    (h : decodeCloud F C fuel info payload buf = .ok buf') :
    buf'.length = buf.length ∧ ∀ p, ¬ Declared info p → buf'[p]? = buf[p]? := by
  unfold decodeCloud at h
  rw [Res.bind_eq_ok] at h
  obtain ⟨⟨ds, m⟩, hb, h⟩ := h
  simp only at h
  split at h
  · simp at h
  rw [if_pos (show info.version ≥ 3#8 from hver)] at h
  have := decodeLoop_foot F C info m _ ds payload buf buf' 0 info.fields (buildDecoders_spots F info ds m hb)
    (fun _ f hf => (adaptive_declared info f hf).1) hstep hbuf h
  refine ⟨this.1, fun p hp => this.2 p ?_⟩
  intro i hi f hf
  apply Classical.byContradiction
  intro hc
  exact hp ⟨i, hi, f, hf, by omega, by omega⟩

example : ∃ buf', decodeCloud bitsOps storeComp 0 mixInfo mixOut (List.replicate 110 9#8) = .ok buf' ∧ buf'[18]? = some 9#8 ∧
    buf'[109]? = some 9#8 ∧ ¬ Declared mixInfo 18 ∧ ¬ Declared mixInfo 109 := by
  obtain ⟨buf', h, h1, h2⟩ : ∃ buf', decodeCloud bitsOps storeComp 0 mixInfo mixOut (List.replicate 110 9#8) = .ok buf' ∧
      ¬ Declared mixInfo 18 ∧ ¬ Declared mixInfo 109 := by
    have hk : (decodeCloud bitsOps storeComp 0 mixInfo mixOut (List.replicate 110 9#8)).isOk = true := by decide +kernel
    revert hk
    cases decodeCloud bitsOps storeComp 0 mixInfo mixOut (List.replicate 110 9#8) with
    | ok b =>
      refine fun _ => ⟨b, rfl, ?_, ?_⟩ <;>
      · rintro ⟨i, hi, f, hf, h1, h2⟩
        have hi' : i < 3 := hi
        simp only [mixInfo, List.mem_cons, List.not_mem_nil, or_false] at hf
        rcases hf with rfl | rfl | rfl | rfl | rfl | rfl | rfl <;> simp [mixInfo, sizeOf] at h1 h2 <;> omega
    | throw m => simp
    | ub k => simp
  obtain ⟨_, g⟩ := C19_untouched bitsOps storeComp mixInfo mixOut _ buf' 0 (by decide) (by decide) (by rw [List.length_replicate]; decide) h
  refine ⟨buf', h, ?_, ?_, h1, h2⟩
  · rw [g 18 h1]; rfl
  · rw [g 109 h2]; rfl

/-- Position `p` belongs to a declared field of some point of the buffer. -/
def InSomeField (info : EncodingInfo) (p : Nat) : Prop :=
  ∃ i, ∃ f ∈ info.fields, i * info.point_step.toNat + f.offset.toNat ≤ p ∧ p < i * info.point_step.toNat + f.offset.toNat + sizeOf f.type

/-- **C19, version 2.** Version-2 payloads have no chunk framing; decoding them may fill more points than `width * height`
(`C19_version2_extra_points`), but never touches padding. -/
theorem C19_version2_partial (F : FloatOps) (C : Compressor) (info : EncodingInfo) (payload buf buf' : List Byte) (fuel : Nat)
    (hstep : 0 < info.point_step.toNat) (hver : info.version.toNat < 3)
    (h : decodeCloud F C fuel info payload buf = .ok buf') :
    buf'.length = buf.length ∧ ∀ p, ¬ InSomeField info p → buf'[p]? = buf[p]? := by
  unfold decodeCloud at h
  rw [Res.bind_eq_ok] at h
  obtain ⟨⟨ds, m⟩, hb, h⟩ := h
  simp only at h
  split at h
  · simp at h
  rw [if_neg (show ¬ info.version ≥ 3#8 from fun hc => absurd (show 3 ≤ info.version.toNat from hc) (by omega))] at h
  rw [Res.bind_eq_ok] at h
  obtain ⟨⟨ds1, b1, base1⟩, h1, h⟩ := h
  simp only [Res.ok.injEq] at h
  subst h
  unfold decodeChunk at h1
  rw [Res.bind_eq_ok] at h1
  obtain ⟨view, _, h1⟩ := h1
  have hv5 : usesV5 info = false := by
    unfold usesV5
    rw [decide_eq_false (show ¬ info.version ≥ 5#8 from fun hc => absurd (show 5 ≤ info.version.toNat from hc) (by omega))]
    rfl
  rw [hv5] at h1
  simp only [Bool.false_eq_true, if_false] at h1
  unfold decodeV4Chunk at h1
  simp only [gt_iff_lt, Nat.lt_irrefl, if_false] at h1
  rw [Res.bind_eq_ok] at h1
  obtain ⟨⟨ds2, i2, b2, p2⟩, h2, h1⟩ := h1
  simp only [Res.ok.injEq, Prod.mk.injEq] at h1
  obtain ⟨rfl, rfl, rfl⟩ := h1
  have := decodeUntilEmptyV4_foot F info.fields _ _ _ _ _ _ _ _ _ _ _ hstep (spotsIn_reset (buildDecoders_spots F info ds m hb)) h2
  refine ⟨this.1, fun p hp => this.2 p ?_⟩
  intro i hi f hf
  apply Classical.byContradiction
  intro hc
  exact hp ⟨i, f, hf, by omega, by omega⟩

/-- One UINT8 field, one declared point. -/
def byteInfo2 : EncodingInfo :=
  { fields := [{ name := [0x61#8], offset := 0#32, type := .uint8 }], width := 1#32, height := 1#32, point_step := 1#32,
    encoding_opt := .lossy, compression_opt := .none, version := 2#8 }

/-- With version-2 data the claim is false as stated: the second point, which is not declared, is overwritten too. -/
theorem C19_version2_extra_points : ¬ ∀ (F : FloatOps) (C : Compressor) (info : EncodingInfo) (payload buf buf' : List Byte) (fuel : Nat),
    0 < info.point_step.toNat → 2 ≤ info.version.toNat → buf.length < 2 ^ 64 → decodeCloud F C fuel info payload buf = .ok buf' →
    ∀ p, ¬ Declared info p → buf'[p]? = buf[p]? := by
  intro h
  have := h bitsOps storeComp byteInfo2 [5#8, 6#8] [0#8, 0#8] [5#8, 6#8] 10 (by decide) (by decide) (by decide) (by decide +kernel) 1 (by
    rintro ⟨i, hi, f, hf, h1, h2⟩
    have hi' : i < 1 := hi
    simp only [byteInfo2, List.mem_singleton] at hf
    subst hf
    simp [byteInfo2, sizeOf] at h1 h2
    omega)
  simp at this

example : ∃ buf', decodeCloud bitsOps storeComp 10 byteInfo2 [5#8] [0#8] = .ok buf' := ⟨[5#8], by decide +kernel⟩

/-! ## C20 -/

/-- The compressed bytes do not depend on the size of the destination (true of both libraries when they succeed). -/
def CapFree (C : Compressor) : Prop := ∀ o x cap cap' y y', C.compress o x cap = some y → C.compress o x cap' = some y' → y = y'

theorem compressChunk_free {C : Compressor} (h : CapFree C) {o : CompOpt} {x y y' : List Byte} {r r' : Nat}
    (h1 : compressChunk C o x r = .ok y) (h2 : compressChunk C o x r' = .ok y') : y = y' := by
  have key : ∀ o' , (∃ cap, C.compress o' x cap = some y) → (∃ cap, C.compress o' x cap = some y') → y = y' :=
    fun o' ⟨c1, e1⟩ ⟨c2, e2⟩ => h o' x c1 c2 y y' e1 e2
  unfold compressChunk at h1 h2
  split at h1
  · simp at h1
  split at h2
  · simp at h2
  cases o with
  | none => simp at h1
  | bad => simp at h1
  | lz4 =>
    simp only at h1 h2
    refine key .lz4 ⟨r, ?_⟩ ⟨r', ?_⟩
    · split at h1
      · simp at h1
      · split at h1
        · simp at h1
        · next e => simp only [Res.ok.injEq] at h1; rw [e, h1]
    · split at h2
      · simp at h2
      · split at h2
        · simp at h2
        · next e => simp only [Res.ok.injEq] at h2; rw [e, h2]
  | zstd =>
    simp only at h1 h2
    refine key .zstd ⟨r, ?_⟩ ⟨r', ?_⟩
    · split at h1
      · simp at h1
      · next e =>
        split at h1
        · simp at h1
        · simp only [Res.ok.injEq] at h1; rw [e, h1]
    · split at h2
      · simp at h2
      · next e =>
        split at h2
        · simp at h2
        · simp only [Res.ok.injEq] at h2; rw [e, h2]

theorem framed_append {C : Compressor} {o : CompOpt} (h : o = .none ∨ CapFree C) {cs1 cs2 : List (List Byte)} {p1 p2 p : List Byte}
    (h1 : Framed C o cs1 p1) (h2 : Framed C o cs2 p2) (h3 : Framed C o (cs1 ++ cs2) p) : p = p1 ++ p2 := by
  have uniq : ∀ {c y y' : List Byte}, Wire C o c y → Wire C o c y' → y = y' := by
    rintro c y y' ⟨_, w1⟩ ⟨_, w2⟩
    rcases w1 with ⟨e1, rfl⟩ | ⟨n1, r1, w1⟩
    · rcases w2 with ⟨_, rfl⟩ | ⟨n2, _⟩
      · rfl
      · exact absurd e1 n2
    · rcases w2 with ⟨e2, _⟩ | ⟨_, r2, w2⟩
      · exact absurd e2 n1
      · rcases h with h | h
        · exact absurd h n1
        · exact compressChunk_free h w1 w2
  have det : ∀ {cs : List (List Byte)} {a b : List Byte}, Framed C o cs a → Framed C o cs b → a = b := by
    intro cs a b ha hb
    induction ha generalizing b with
    | nil => cases hb; rfl
    | cons c y cs rest w _ ih =>
      cases hb with
      | cons _ y' _ rest' w' hb =>
        rw [uniq w w', ih hb]
  induction h1 generalizing p with
  | nil => exact det h3 h2
  | cons c y cs rest w hf ih =>
    cases h3 with
    | cons _ y' _ rest' w' hb =>
      rw [uniq w' w, ih hb]
      simp [List.append_assoc]

theorem stage1V4_congr (F : FloatOps) (step cap points : Nat) (es es' : List Enc) (mem : List Byte)
    (h : es.map Enc.reset = es'.map Enc.reset) :
    (stage1V4 F step cap points es mem >>= fun r => .ok r.2) = (stage1V4 F step cap points es' mem >>= fun r => .ok r.2) := by
  unfold stage1V4
  split
  · rfl
  · rw [encodeV4Chunk_congr F _ _ _ _ _ _ h]

/-- **C20, encoder.** For versions 3 and 4 (and version 5 without adaptive fields), encoding a cloud whose first part
`a` is a whole number of 32768-point chunks gives the payload of `a` followed by the payload of the rest `b`, whatever
encoder objects (with whatever history) and output sizes are used for the three calls. -/
theorem C20_concat (F : FloatOps) (C : Compressor) (info : EncodingInfo) (header : List Byte) (hfree : info.compression_opt = .none ∨ CapFree C)
    (hv4 : usesV5 info = false) (enc encA encB enc' encA' encB' : Encoder) (a b out outA outB : List Byte) (room roomA roomB size sizeA sizeB k : Nat)
    (h1 : Reach F C info header enc) (h2 : Reach F C info header encA) (h3 : Reach F C info header encB)
    (hk : a.length = k * (kPointsPerChunk * info.point_step.toNat))
    (hA : encodeView F C encA a roomA false = .ok (encA', outA, sizeA))
    (hB : encodeView F C encB b roomB false = .ok (encB', outB, sizeB))
    (hAB : encodeView F C enc (a ++ b) room false = .ok (enc', out, size)) : out = outA ++ outB := by
  obtain ⟨e0, h0, r1, _, r2⟩ := reach_same h1
  obtain ⟨e0', h0', _, _, r2A⟩ := reach_same h2
  obtain ⟨e0'', h0'', _, _, r2B⟩ := reach_same h3
  rw [h0] at h0' h0''
  simp only [Res.ok.injEq] at h0' h0''
  subst h0' h0''
  obtain ⟨i1, _, _⟩ := reach_used h1
  obtain ⟨i2, _, _⟩ := reach_used h2
  obtain ⟨i3, _, _⟩ := reach_used h3
  obtain ⟨csA, pA, a1, a2, a3, _, _, a4, a5, _⟩ := encodeView_inv F C _ _ _ _ _ _ _ hA
  obtain ⟨csB, pB, _, b2, b3, _, _, b4, b5, _⟩ := encodeView_inv F C _ _ _ _ _ _ _ hB
  obtain ⟨cs, p, _, c2, c3, _, _, c4, c5, _⟩ := encodeView_inv F C _ _ _ _ _ _ _ hAB
  simp only [Bool.false_eq_true, if_false, List.nil_append] at a5 b5 c5
  subst a5 b5 c5
  rw [i1] at c2 c4
  rw [i2] at a1 a2 a4
  rw [i3] at b2 b4
  unfold stage1Chunks at a3 b3 c3
  simp only [i1, i2, i3, hv4, Bool.false_eq_true, if_false] at a3 b3 c3
  rw [Res.bind_eq_ok] at a3 b3 c3
  obtain ⟨m, hm, a3⟩ := a3
  obtain ⟨m1, hm1, b3⟩ := b3
  obtain ⟨m2, hm2, c3⟩ := c3
  rw [hm] at hm1 hm2
  simp only [Res.ok.injEq] at hm1 hm2
  subst hm1 hm2
  generalize hcap : kPointsPerChunk * max info.point_step.toNat m = cap at *
  generalize hKK : kPointsPerChunk = K at *
  have hda : a.length / info.point_step.toNat = k * K := by
    rw [hk, ← Nat.mul_assoc]; exact Nat.mul_div_cancel _ a1
  have hdab : (a ++ b).length / info.point_step.toNat = k * K + b.length / info.point_step.toNat := by
    rw [List.length_append, hk, ← Nat.mul_assoc, Nat.add_comm, Nat.add_mul_div_right _ _ a1, Nat.add_comm]
  rw [hda] at a3
  rw [hdab] at c3
  -- the three encoders and the state after `a` agree up to reset
  have hsame : encA'.encs.map Enc.reset = encB.encs.map Enc.reset := by
    rw [(encodeView_reset F C _ _ _ _ _ _ _ hA).2.2, r2A, r2B]
  have hb' := stage1V4_congr F info.point_step.toNat cap (b.length / info.point_step.toNat) encA'.encs encB.encs b hsame
  rw [b3] at hb'
  simp only [Res.ok_bind] at hb'
  rw [Res.bind_eq_ok] at hb'
  obtain ⟨⟨es2, csB'⟩, hb2, hb3⟩ := hb'
  simp only [Res.ok.injEq] at hb3
  subst hb3
  have happ := stage1V4_append F info.point_step.toNat cap k (b.length / info.point_step.toNat) K hKK a1 encA.encs encA'.encs es2 a b csA csB'
    (by rw [hk, Nat.mul_assoc]) a3 hb2
  have hc' := stage1V4_congr F info.point_step.toNat cap (k * K + b.length / info.point_step.toNat) enc.encs encA.encs (a ++ b) (by rw [r2, r2A])
  rw [c3, happ] at hc'
  simp only [Res.ok_bind, Res.ok.injEq] at hc'
  subst hc'
  exact framed_append hfree a4 b4 c4

/-- The hypotheses are met by the empty prefix and the mixed cloud, and by any two clouds that encode. -/
example : mixOutZ.2.1 = [] ++ mixOutZ.2.1 := by
  have h : ∃ e, encodeView bitsOps storeComp mixEncZ [] 10000 false = .ok (e, [], 0) := ⟨mixEncZ, by decide +kernel⟩
  obtain ⟨e, h⟩ := h
  refine C20_concat bitsOps storeComp mixInfoZ [1#8, 2#8] (Or.inr ?_) (by decide +kernel) mixEncZ mixEncZ mixEncZ mixOutZ.1 e mixOutZ.1 [] mixCloud
    mixOutZ.2.1 [] mixOutZ.2.1 10000 10000 10000 mixOutZ.2.2 0 mixOutZ.2.2 0 (mixZ_reach _) (mixZ_reach _) (mixZ_reach _) (by simp) h
    mixZ_encode mixZ_encode
  intro o x cap cap' y y' h1 h2
  simp only [storeComp] at h1 h2
  split at h1 <;> simp at h1
  split at h2 <;> simp at h2
  rw [← h1, ← h2]

/-- **C20, decoder.** For every payload `p1` (valid or not) that decodes as `k` full chunks, decoding `p1 ++ p2` is:
decode `p1`, then decode `p2` with decoders `ds` in their initial state at the position after those points.  (`decodeLoop`
is the chunk loop of `decode`, given the number of points left, the decoders and the output position.) -/
theorem C20_decode_split (F : FloatOps) (C : Compressor) (info : EncodingInfo) (minBytes k b base : Nat) (ds : List Dec)
    (p1 p2 buf buf1 : List Byte) (h : decodeLoop F C info minBytes (k * kPointsPerChunk) ds p1 buf base = .ok buf1) :
    decodeLoop F C info minBytes (k * kPointsPerChunk + b) ds (p1 ++ p2) buf base =
      decodeLoop F C info minBytes b ds p2 buf1 (base + k * kPointsPerChunk * info.point_step.toNat) := by
  generalize hK : kPointsPerChunk = K at *
  exact decodeLoop_append F C info minBytes k b K hK ds p1 p2 buf buf1 base h

/-- The state left in the decoders by earlier chunks is irrelevant. -/
theorem C20_decoder_history (F : FloatOps) (C : Compressor) (info : EncodingInfo) (minBytes points base : Nat) (ds ds' : List Dec)
    (data buf : List Byte) (h : ds.map Dec.reset = ds'.map Dec.reset) :
    decodeLoop F C info minBytes points ds data buf base = decodeLoop F C info minBytes points ds' data buf base :=
  decodeLoop_congr F C info minBytes points ds ds' data buf base h

/-! ## C23 -/

/-- **C23, view overload.** The value returned is the number of bytes written, which fit the view; with the header they
are the header followed by what a call without header (with the remaining room) would write. -/
theorem C23_view_size (F : FloatOps) (C : Compressor) (enc enc' : Encoder) (cloud out : List Byte) (room size : Nat) (wh : Bool)
    (h : encodeView F C enc cloud room wh = .ok (enc', out, size)) :
    size = out.length ∧ out.length ≤ room ∧ (wh = true → enc.header <+: out) := by
  obtain ⟨cs, payload, _, _, _, _, _, _, ho, hs, hr⟩ := encodeView_inv F C enc enc' cloud room wh out size h
  refine ⟨hs, hr, fun hw => ?_⟩
  rw [ho, hw]
  exact ⟨payload, by simp⟩

theorem writeAll_shift (C : Compressor) (opt : CompOpt) (cs : List (List Byte)) (o o' : List Byte) (room s s' : Nat) (w : W) (n : Nat)
    (h : writeAll C opt cs ⟨o, room⟩ s = .ok (w, n)) :
    ∃ p, w = ⟨o ++ p, w.room⟩ ∧ n = s + p.length ∧ writeAll C opt cs ⟨o', room⟩ s' = .ok (⟨o' ++ p, w.room⟩, s' + p.length) := by
  induction cs generalizing o o' room s s' with
  | nil =>
    simp only [writeAll, Res.ok.injEq, Prod.mk.injEq] at h
    obtain ⟨rfl, rfl⟩ := h
    exact ⟨[], by simp, by simp, by simp [writeAll]⟩
  | cons c cs ih =>
    simp only [writeAll] at h ⊢
    rw [Res.bind_eq_ok] at h
    obtain ⟨⟨w1, n1⟩, h1, h⟩ := h
    simp only at h
    obtain ⟨y, hw, e1, e2, e3⟩ := writeStage1_inv C opt c _ _ _ h1
    have h1' : writeStage1Chunk C opt c ⟨o', room⟩ = .ok (⟨o' ++ (toLE 4 y.length ++ y), room - (y.length + 4)⟩, n1) := by
      revert h1
      unfold writeStage1Chunk
      split
      · simp
      split
      · intro h1
        rw [Res.bind_eq_ok] at h1
        obtain ⟨w2, g1, h1⟩ := h1
        rw [Res.bind_eq_ok] at h1
        obtain ⟨w3, g2, h1⟩ := h1
        simp only [Res.ok.injEq, Prod.mk.injEq] at h1
        obtain ⟨rfl, rfl⟩ := h1
        simp only [W.encodeInt] at g1 ⊢
        rw [W.checked_eq_ok] at g1 g2
        obtain ⟨g1, rfl⟩ := g1
        obtain ⟨g2, rfl⟩ := g2
        simp only [W.mk.injEq] at e3
        have hy : toLE 4 c.length ++ c = toLE 4 y.length ++ y := by
          have := e3.1
          rw [List.append_assoc] at this
          exact List.append_cancel_left this
        simp only at g1 g2
        rw [show (⟨o', room⟩ : W).checked "encode: not enough output buffer space" (toLE 4 c.length) =
          .ok ⟨o' ++ toLE 4 c.length, room - (toLE 4 c.length).length⟩ from by unfold W.checked; rw [if_pos g1]]
        simp only [Res.ok_bind]
        rw [show (⟨o' ++ toLE 4 c.length, room - (toLE 4 c.length).length⟩ : W).checked "Output buffer too small for uncompressed chunk" c =
          .ok ⟨o' ++ toLE 4 c.length ++ c, room - (toLE 4 c.length).length - c.length⟩ from by unfold W.checked; rw [if_pos g2]]
        simp only [Res.ok_bind, Res.ok.injEq, Prod.mk.injEq, W.mk.injEq, and_true]
        refine ⟨by rw [List.append_assoc, hy], e3.2⟩
      split
      · simp
      · intro h1
        rw [Res.bind_eq_ok] at h1
        obtain ⟨y', g1, h1⟩ := h1
        rw [Res.bind_eq_ok] at h1
        obtain ⟨w3, g2, h1⟩ := h1
        simp only [Res.ok.injEq, Prod.mk.injEq] at h1
        obtain ⟨rfl, rfl⟩ := h1
        rw [W.checked_eq_ok] at g2
        obtain ⟨g2, rfl⟩ := g2
        simp only [W.mk.injEq] at e3
        simp only at g1 g2 e3
        have hy : toLE 4 y'.length ++ y' = toLE 4 y.length ++ y := by
          have := e3.1
          rw [List.append_assoc] at this
          exact List.append_cancel_left this
        simp only
        rw [g1]
        simp only [Res.ok_bind]
        unfold W.checked
        rw [if_pos g2]
        simp only [Res.ok_bind, Res.ok.injEq, Prod.mk.injEq, W.mk.injEq, and_true]
        exact ⟨by rw [List.append_assoc, hy], e3.2⟩
    rw [h1']
    simp only [Res.ok_bind]
    rw [e3] at h
    obtain ⟨p, f1, f2, f3⟩ := ih _ (o' ++ (toLE 4 y.length ++ y)) _ _ (s' + n1) h
    refine ⟨toLE 4 y.length ++ y ++ p, ?_, ?_, ?_⟩
    · rw [f1]; simp [List.append_assoc]
    · rw [f2, e1]; simp; omega
    · rw [f3]
      simp only [Res.ok.injEq, Prod.mk.injEq, W.mk.injEq, and_true]
      refine ⟨by simp [List.append_assoc], by rw [e1]; simp; omega⟩

/-- **C23, header.** Writing the header first leaves the payload unchanged: the output is the header followed by what the
same call without header writes into the rest of the view. -/
theorem C23_header_then_payload (F : FloatOps) (C : Compressor) (enc enc' : Encoder) (cloud out : List Byte) (room size : Nat)
    (h : encodeView F C enc cloud room true = .ok (enc', out, size)) :
    ∃ payload n, encodeView F C enc cloud (room - enc.header.length) false = .ok (enc', payload, n) ∧ out = enc.header ++ payload := by
  unfold encodeView at h ⊢
  split at h
  · simp at h
  next h0 =>
  rw [if_neg h0]
  split at h
  · simp at h
  next hm0 =>
  rw [if_neg hm0]
  rw [Res.bind_eq_ok] at h
  obtain ⟨m, hm, h⟩ := h
  simp only [hm]
  simp only [Res.ok_bind, if_true, Bool.false_eq_true, if_false, Nat.add_zero] at h ⊢
  by_cases hroom : room < m + enc.header.length
  · rw [if_pos hroom] at h; simp at h
  rw [if_neg hroom] at h
  rw [if_neg (by omega), W_raw_empty]
  simp only [Res.ok_bind]
  rw [Res.bind_eq_ok] at h
  obtain ⟨w, hw, h⟩ := h
  unfold W.raw at hw
  split at hw
  · simp only [Res.ok.injEq, List.nil_append] at hw
    subst hw
    rw [Res.bind_eq_ok] at h
    obtain ⟨⟨e1, w1, s1⟩, hp, h⟩ := h
    simp only [Res.ok.injEq, Prod.mk.injEq] at h
    obtain ⟨rfl, rfl, rfl⟩ := h
    obtain ⟨cs, payload, p1, p2, p3, p4, p5, p6, p7⟩ := encodePayload_inv F C enc e1 cloud _ w1 _ s1 hp
    have q := encodePayload_eq F C enc cloud ⟨enc.header, room - enc.header.length⟩ enc.header.length _ cs p1
    rw [hp] at q
    have q := q.symm
    rw [Res.bind_eq_ok] at q
    obtain ⟨⟨w2, n2⟩, q1, q2⟩ := q
    simp only [Res.ok.injEq, Prod.mk.injEq] at q2
    obtain ⟨q3, rfl, rfl⟩ := q2
    obtain ⟨p, f1, f2, f3⟩ := writeAll_shift C _ cs _ [] _ _ 0 _ _ q1
    refine ⟨p, p.length, ?_, ?_⟩
    · rw [encodePayload_eq F C enc cloud ⟨[], room - enc.header.length⟩ 0 _ cs p1, f3]
      simp [q3]
    · rw [f1]
  · simp at hw

/-- **C23, vector overload.** The vector holds exactly the header followed by the payload the view overload writes (for some
output size), the value returned is its length. -/
theorem C23_vector_agrees (F : FloatOps) (C : Compressor) (enc enc' : Encoder) (hb : Nat) (cloud out : List Byte) (size : Nat)
    (h : encodeVector F C enc hb cloud = .ok (enc', out, size)) :
    ∃ room payload n, encodeView F C enc cloud room false = .ok (enc', payload, n) ∧ out = enc.header ++ payload ∧ size = out.length := by
  obtain ⟨room, pay, added, h1, h2, h3⟩ := encodeVector_inv F C enc enc' hb cloud out size h
  have hs := (C23_view_size F C _ _ _ _ _ _ _ h1).1
  refine ⟨room, pay, added, h1, ?_, ?_⟩
  · rw [h2, List.take_of_length_le]; rw [List.length_append]; omega
  · rw [h2, List.length_take, List.length_append]; omega

/-! ## C24 -/

/-- **C24.** Every encoder object with any history (successful or failed calls, either overload) produces for every cloud,
output size and header choice exactly what a fresh one does: the same bytes and value, or the same failure. -/
theorem C24_reuse (F : FloatOps) (C : Compressor) (info : EncodingInfo) (header : List Byte) (fresh enc : Encoder)
    (h0 : mkEncoder F info header = .ok fresh) (h : Reach F C info header enc) (cloud : List Byte) (room : Nat) (wh : Bool) :
    (encodeView F C enc cloud room wh >>= fun r => .ok (r.2.1, r.2.2)) =
      (encodeView F C fresh cloud room wh >>= fun r => .ok (r.2.1, r.2.2)) := by
  obtain ⟨e0, g0, g1, g2, g3⟩ := reach_same h
  rw [h0] at g0
  simp only [Res.ok.injEq] at g0
  subst g0
  exact encodeOut_congr F C enc fresh cloud room wh g1 g2 g3

/-- **C24**, the vector overload. -/
theorem C24_reuse_vector (F : FloatOps) (C : Compressor) (info : EncodingInfo) (header : List Byte) (fresh enc : Encoder)
    (h0 : mkEncoder F info header = .ok fresh) (h : Reach F C info header enc) (cloud : List Byte) (hb : Nat) :
    (encodeVector F C enc hb cloud >>= fun r => .ok (r.2.1, r.2.2)) =
      (encodeVector F C fresh hb cloud >>= fun r => .ok (r.2.1, r.2.2)) := by
  have key := fun room => C24_reuse F C info header fresh enc h0 h cloud room false
  obtain ⟨e0, g0, g1, g2, g3⟩ := reach_same h
  rw [h0] at g0
  simp only [Res.ok.injEq] at g0
  subst g0
  unfold encodeVector
  rw [g1, g2]
  split
  · rfl
  split
  · rfl
  simp only [Res.bind_assoc]
  congr 1
  funext m
  congr 1
  funext w
  have hk := key w.room
  have fix : ∀ e : Encoder, e.header = fresh.header →
      (encodeView F C e cloud w.room false >>= fun r : Encoder × List Byte × Nat =>
        (Res.ok (r.1, (w.out ++ r.2.1).take (r.1.header.length + r.2.2), r.1.header.length + r.2.2) >>= fun r => Res.ok (r.2.1, r.2.2))) =
      ((encodeView F C e cloud w.room false >>= fun r => Res.ok (r.2.1, r.2.2)) >>= fun r : List Byte × Nat =>
        Res.ok ((w.out ++ r.1).take (fresh.header.length + r.2), fresh.header.length + r.2)) := by
    intro e he
    cases hv : encodeView F C e cloud w.room false with
    | ok r =>
      obtain ⟨e1, o1, s1⟩ := r
      have := (encodeView_reset F C _ _ _ _ _ _ _ hv).2.1
      simp only [Res.ok_bind, this, he]
    | throw m => rfl
    | ub k => rfl
  rw [fix enc g2, fix fresh rfl, hk]

/-! ## The theorems applied to concrete data -/

/-- A version-2 cloud with a stray byte between the points. -/
example : ∃ buf', decodeCloud bitsOps storeComp 10 { byteInfo2 with point_step := 2#32 } [5#8, 6#8] [1#8, 2#8, 3#8, 4#8] = .ok buf' ∧ buf'[1]? = some 2#8 ∧ buf'[3]? = some 4#8 := by
  have he : decodeCloud bitsOps storeComp 10 { byteInfo2 with point_step := 2#32 } [5#8, 6#8] [1#8, 2#8, 3#8, 4#8] = .ok [5#8, 2#8, 6#8, 4#8] := by decide +kernel
  obtain ⟨_, h⟩ := C19_version2_partial _ _ _ _ _ _ _ (by decide) (by decide) he
  refine ⟨_, he, h 1 ?_, h 3 ?_⟩ <;>
  · rintro ⟨i, f, hf, h1, h2⟩
    simp only [byteInfo2, List.mem_singleton] at hf
    subst hf
    simp [sizeOf] at h1 h2
    omega

/-- Decoders left over from another chunk decode like fresh ones. -/
example (F : FloatOps) (C : Compressor) (info : EncodingInfo) (data buf : List Byte) :
    decodeLoop F C info 1 5 [.int 0 4 77#64, .lossy32 4 9 3#64] data buf 0 = decodeLoop F C info 1 5 [.int 0 4 0#64, .lossy32 4 9 0#64] data buf 0 :=
  C20_decoder_history F C info 1 5 0 _ _ data buf rfl

/-- The mixed cloud decoded from byte 108 on, behind a full buffer. -/
example : mixOut.length = 73 ∧ mixOut.length ≤ 10000 := by
  obtain ⟨h1, h2, _⟩ := C23_view_size _ _ _ _ _ _ _ _ _ mix_encode
  exact ⟨h1.symm, h2⟩
example : mixOut.take 10 ≠ magic :=
  C18_magic _ _ _ _ _ _ _ _ mix_encode (by have := (C23_view_size _ _ _ _ _ _ _ _ _ mix_encode).1; omega)
example : ∃ payload n, encodeView bitsOps storeComp mixEncZ mixCloud 9998 false = .ok (mixOutZ.1, payload, n) ∧
    encodeView bitsOps storeComp mixEncZ mixCloud 10000 true = .ok (mixOutZ.1, [1#8, 2#8] ++ payload, 96) := by
  have he : encodeView bitsOps storeComp mixEncZ mixCloud 10000 true = .ok (mixOutZ.1, [1#8, 2#8] ++ mixOutZ.2.1, 96) := by decide +kernel
  obtain ⟨payload, n, h1, h2⟩ := C23_header_then_payload _ _ _ _ _ _ _ _ he
  exact ⟨payload, n, h1, by rw [he]; congr 3⟩
/-- An encoder that has encoded a cloud gives the bytes of a fresh one, with either overload. -/
theorem mixZ_used : Reach bitsOps storeComp mixInfoZ [1#8, 2#8] mixOutZ.1 := .view _ _ _ _ _ _ _ (mixZ_reach _) mixZ_encode
example : (encodeView bitsOps storeComp mixOutZ.1 mixCloud 10000 false >>= fun r => .ok (r.2.1, r.2.2)) = .ok (mixOutZ.2.1, mixOutZ.2.2) := by
  rw [C24_reuse bitsOps storeComp mixInfoZ [1#8, 2#8] mixEncZ mixOutZ.1 (by decide +kernel) mixZ_used, mixZ_encode]
  rfl
example : (encodeVector bitsOps storeComp mixOutZ.1 2 mixCloud >>= fun r => .ok (r.2.1, r.2.2)) =
    (encodeVector bitsOps storeComp mixEncZ 2 mixCloud >>= fun r => .ok (r.2.1, r.2.2)) :=
  C24_reuse_vector bitsOps storeComp mixInfoZ [1#8, 2#8] mixEncZ mixOutZ.1 (by decide +kernel) mixZ_used mixCloud 2
example : (encodeVector bitsOps storeComp mixEncZ 2 mixCloud).isOk = true := by decide +kernel

/-- One byte per point in points of ten bytes: a cloud large enough for the decoder's limit. -/
def sparseInfo : EncodingInfo :=
  { fields := [{ name := [0x61#8], offset := 3#32, type := .uint8 }], width := 2#32, height := 1#32, point_step := 10#32,
    encoding_opt := .lossy, compression_opt := .zstd, version := 5#8 }
def sparseCloud : List Byte := (List.range 20).map fun i => BitVec.ofNat 8 i
theorem sparse_valid (F : FloatOps) : ValidInfo F sparseInfo where
  step := by decide
  version := by decide
  option := by decide
  types := by decide
  inside := by decide
  disjoint := by decide
  resolution := by intro _ f hf r hr; simp only [sparseInfo, List.mem_singleton] at hf; subst hf; simp at hr
theorem sparse_cloud (F : FloatOps) : ValidCloud F sparseInfo sparseCloud where
  size := by decide +kernel
  addressable := by decide +kernel
  range := by
    intro i _ k f hf
    cases k with
    | zero => simp only [sparseInfo, List.getElem?_cons_zero, Option.some.injEq] at hf; subst hf; trivial
    | succ k => simp [sparseInfo] at hf
theorem sparse_reach (F : FloatOps) (C : Compressor) : ∃ enc, Reach F C sparseInfo [] enc := by
  have h : ∃ enc, mkEncoder F sparseInfo [] = .ok enc := ⟨_, rfl⟩
  obtain ⟨enc, h⟩ := h
  exact ⟨enc, .fresh _ h⟩
example (F : FloatOps) (C : Compressor) : ∃ enc, Reach F C sparseInfo [] enc ∧ ChunksWithin F enc sparseCloud sparseCloud.length := by
  obtain ⟨enc, h⟩ := sparse_reach F C
  exact ⟨enc, h, C18_large_clouds F C sparseInfo [] enc sparseCloud 1 (sparse_valid F) (sparse_cloud F) h (by decide) (by decide) (by decide +kernel)⟩

end Cloudini.Props
