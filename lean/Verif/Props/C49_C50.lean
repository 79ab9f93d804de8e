import Verif.Lemmas.Fresh
import Verif.Lemmas.Prefix
import Verif.Props.C29_C30

/-!
# C49, C50: what a successful decode leaves in the output, and trailing bytes inside a chunk
-/

namespace Cloudini.Props

/-! ## C49 -/

/-- Position `p` of the output buffer belongs to a stored field (one that is not marked "decode but skip store") of a declared point. -/
def DeclaredStored (info : EncodingInfo) (p : Nat) : Prop :=
  ∃ i, i < info.width.toNat * info.height.toNat ∧ ∃ f ∈ info.fields, f.offset.toNat ≠ 2 ^ 32 - 1 ∧
    i * info.point_step.toNat + f.offset.toNat ≤ p ∧ p < i * info.point_step.toNat + f.offset.toNat + sizeOf f.type

/-- **C49.** For every info of version 3 or later, every payload (valid or not) and every two output buffers of the same size: if the
payload is accepted into the first, it is accepted into the second, and afterwards the two hold the same byte at every position of a
stored field of a declared point.  So acceptance and every decoded value depend on the payload alone: nothing the caller left in the
buffer survives in a declared field, in no point of no chunk. -/
theorem C49_no_leftovers (F : FloatOps) (C : Compressor) (info : EncodingInfo) (payload a b a' : List Byte) (fuel : Nat)
    (hver : 3 ≤ info.version.toNat) (hlen : a.length = b.length) (h : decodeCloud F C fuel info payload a = .ok a') :
    ∃ b', decodeCloud F C fuel info payload b = .ok b' ∧ b'.length = a'.length ∧ ∀ p, DeclaredStored info p → a'[p]? = b'[p]? := by
  rw [decodeCloud_loop hver] at h ⊢
  obtain ⟨⟨ds, m⟩, h0, h⟩ := Res.bind_eq_ok.1 h
  rw [h0]
  simp only [Res.ok_bind] at h ⊢
  split at h
  · simp at h
  next hm =>
  rw [if_neg hm]
  obtain ⟨b', e, hl, hp⟩ := decodeLoop_agree F C info m _ (S := fun _ => False) ds payload a b a' 0 ⟨hlen, fun p hp => hp.elim⟩ h
  refine ⟨b', e, hl.symm, fun p => ?_⟩
  rintro ⟨i, hi, f, hf, hs, h1, h2⟩
  refine hp p (.inr ?_)
  rcases buildDecoders_cover F info ds m h0 f hf with hc | ⟨hv, g, hg, ho, hb⟩
  · exact .inl ⟨_, hc, hs, i, Nat.zero_le _, hi, by simp only; omega, by simp only; omega⟩
  · exact .inr ⟨hv, g, hg, i, Nat.zero_le _, hi, by rw [ho]; omega, by rw [ho, hb]; omega⟩

/-- The whole output in one statement: two buffers of the same size that agree outside the declared fields of the declared points end up
identical (when no field is skipped). -/
theorem C49_same_output (F : FloatOps) (C : Compressor) (info : EncodingInfo) (payload a b a' : List Byte) (fuel : Nat)
    (hver : 3 ≤ info.version.toNat) (hstep : 0 < info.point_step.toNat) (hlen : a.length = b.length) (ha : a.length < 2 ^ 64)
    (hns : ∀ f ∈ info.fields, f.offset.toNat ≠ 2 ^ 32 - 1) (hpad : ∀ p, ¬ Declared info p → a[p]? = b[p]?)
    (h : decodeCloud F C fuel info payload a = .ok a') : decodeCloud F C fuel info payload b = .ok a' := by
  obtain ⟨b', h', hl, hb⟩ := C49_no_leftovers F C info payload a b a' fuel hver hlen h
  rw [h']
  congr 1
  refine List.ext_getElem? fun p => ?_
  by_cases hd : Declared info p
  · obtain ⟨i, hi, f, hf, h1, h2⟩ := hd
    exact (hb p ⟨i, hi, f, hf, hns f hf, h1, h2⟩).symm
  · rw [(C19_untouched F C info payload a a' fuel hstep hver ha h).2 p hd,
      (C19_untouched F C info payload b b' fuel hstep hver (by omega) h').2 p hd, hpad p hd]

example : ∃ a' b', decodeCloud bitsOps storeComp 0 mixInfo mixOut (List.replicate 108 0#8) = .ok a' ∧
    decodeCloud bitsOps storeComp 0 mixInfo mixOut (List.replicate 108 0xAA#8) = .ok b' ∧ a' ≠ b' ∧
    (∀ p, DeclaredStored mixInfo p → a'[p]? = b'[p]?) ∧ DeclaredStored mixInfo 40 := by
  have hk := mix_decode_ok
  cases hd : decodeCloud bitsOps storeComp 0 mixInfo mixOut (List.replicate 108 0#8) with
  | ok a' =>
    obtain ⟨b', e, _, hp⟩ := C49_no_leftovers bitsOps storeComp mixInfo mixOut _ (List.replicate 108 0xAA#8) a' 0 (by decide)
      (by rw [List.length_replicate, List.length_replicate]) hd
    refine ⟨a', b', rfl, e, ?_, hp, ?_⟩
    · have : decodeCloud bitsOps storeComp 0 mixInfo mixOut (List.replicate 108 0#8) ≠
        decodeCloud bitsOps storeComp 0 mixInfo mixOut (List.replicate 108 0xAA#8) := by decide +kernel
      intro hab
      rw [hd, e, hab] at this
      exact this rfl
    · exact ⟨1, by decide, mixInfo.fields[1], by decide, by decide, by decide, by decide⟩
  | throw m => rw [hd] at hk; simp at hk
  | ub k => rw [hd] at hk; simp at hk

/-! ## C50 -/

/-- The stage-1 bytes of a chunk: the chunk itself, or what the compression library expands it to. -/
def Expands (C : Compressor) (info : EncodingInfo) (chunk view : List Byte) : Prop :=
  decompressChunk C info.compression_opt chunk (maxDecompressed info) = .ok view

theorem decode_replace {F : FloatOps} {C : Compressor} {fuel : Nat} {info : EncodingInfo} (hver : 3 ≤ info.version.toNat)
    {pre post : List (List Byte)} {c c2 buf buf' : List Byte} (hpre : ∀ x ∈ pre, x.length < 2 ^ 32) (hc : c.length < 2 ^ 32) (hc2 : c2.length < 2 ^ 32)
    (h : decodeCloud F C fuel info (chunked (pre ++ c :: post)) buf = .ok buf') :
    ∃ (ds : List Dec) (m points : Nat) (ds1 : List Dec) (buf1 : List Byte) (base1 : Nat) (ds2 : List Dec) (buf2 : List Byte) (base2 : Nat), points ≠ 0 ∧
      decodeChunk F C 0 info ds1 m c buf1 base1 (min points kPointsPerChunk) = .ok (ds2, buf2, base2) ∧
      decodeCloud F C fuel info (chunked (pre ++ c2 :: post)) buf =
        (if (chunked (pre ++ c2 :: post)).take 10 = magic then .throw "compressed_data contains the header. You should use DecodeHeader first"
        else decodeChunk F C 0 info ds1 m c2 buf1 base1 (min points kPointsPerChunk) >>= fun q =>
          decodeLoop F C info m (points - min points kPointsPerChunk) q.1 (frame post) q.2.1 q.2.2) ∧
      decodeLoop F C info m (points - min points kPointsPerChunk) ds2 (frame post) buf2 base2 = .ok buf' := by
  have e : ∀ z : List Byte, frame (pre ++ z :: post) = frame pre ++ (toLE 4 z.length ++ z ++ frame post) := fun z => by rw [frame_append]; rfl
  rw [decodeCloud_loop hver] at h ⊢
  obtain ⟨⟨ds, m⟩, h0, h⟩ := Res.bind_eq_ok.1 h
  rw [h0]
  simp only [Res.ok_bind] at h ⊢
  split at h
  · simp at h
  rw [chunked_eq, e] at h
  obtain ⟨pt, ds1, b1, p1, ds2, b2, p2, hp, h1, h2, h3⟩ := decodeLoop_replace _ pre c c2 (frame post) hpre hc hc2 h
  refine ⟨ds, m, pt, ds1, b1, p1, ds2, b2, p2, hp, h1, ?_, h3⟩
  rw [← h2, chunked_eq, e]

/-- **C50, version 5.** Any chunk of any accepted payload that the version-5 codec decodes is used up to its last byte: with the chunk
replaced by one whose expansion is longer — the same bytes followed by anything — decoding throws. -/
theorem C50_v5_trailing (F : FloatOps) (C : Compressor) (fuel : Nat) (info : EncodingInfo) (hver : 3 ≤ info.version.toNat) (hv5 : usesV5 info = true)
    (pre post : List (List Byte)) (c c2 v x buf buf' : List Byte) (hpre : ∀ y ∈ pre, y.length < 2 ^ 32) (hc : c.length < 2 ^ 32) (hc2 : c2.length < 2 ^ 32)
    (h : decodeCloud F C fuel info (chunked (pre ++ c :: post)) buf = .ok buf')
    (he : Expands C info c v) (he2 : Expands C info c2 (v ++ x)) (hx : x ≠ []) :
    (decodeCloud F C fuel info (chunked (pre ++ c2 :: post)) buf).isThrow = true := by
  obtain ⟨ds, m, pt, ds1, b1, p1, ds2, b2, p2, hp, h1, h2, h3⟩ := decode_replace (c2 := c2) hver hpre hc hc2 h
  rw [h2]
  split
  · rfl
  refine throw_bind_isThrow _ ?_
  unfold decodeChunk at h1 ⊢
  unfold Expands at he he2
  rw [he] at h1
  rw [he2]
  simp only [Res.ok_bind, if_pos hv5] at h1 ⊢
  exact decodeV5Chunk_more F _ _ _ _ _ _ _ _ _ _ h1 x hx

/-- **C50, the other codec.** Bytes behind the last point of a chunk change nothing: the payload is accepted with the same output. -/
theorem C50_v4_trailing (F : FloatOps) (C : Compressor) (fuel : Nat) (info : EncodingInfo) (hver : 3 ≤ info.version.toNat) (hv4 : usesV5 info = false)
    (pre post : List (List Byte)) (c c2 v x buf buf' : List Byte) (hpre : ∀ y ∈ pre, y.length < 2 ^ 32) (hc : c.length < 2 ^ 32) (hc2 : c2.length < 2 ^ 32)
    (h : decodeCloud F C fuel info (chunked (pre ++ c :: post)) buf = .ok buf')
    (he : Expands C info c v) (he2 : Expands C info c2 (v ++ x)) (hm : (chunked (pre ++ c2 :: post)).take 10 ≠ magic) :
    decodeCloud F C fuel info (chunked (pre ++ c2 :: post)) buf = .ok buf' := by
  obtain ⟨ds, m, pt, ds1, b1, p1, ds2, b2, p2, hp, h1, h2, h3⟩ := decode_replace (c2 := c2) hver hpre hc hc2 h
  rw [h2, if_neg hm]
  have hK := pos_K
  have : decodeChunk F C 0 info ds1 m c2 b1 p1 (min pt kPointsPerChunk) = .ok (ds2, b2, p2) := by
    unfold decodeChunk at h1 ⊢
    unfold Expands at he he2
    rw [he] at h1
    rw [he2]
    simp only [Res.ok_bind, hv4, Bool.false_eq_true, if_false] at h1 ⊢
    exact decodeV4Chunk_more F 0 _ _ _ _ _ _ _ _ _ _ (by omega) h1 x
  rw [this]
  exact h3

/-- Without compression: the chunk itself followed by stray bytes, and the chunk cut short anywhere, are never accepted (version 5). -/
theorem C50_v5_exact (F : FloatOps) (C : Compressor) (fuel : Nat) (info : EncodingInfo) (hver : 3 ≤ info.version.toNat) (hv5 : usesV5 info = true)
    (hno : info.compression_opt = .none) (pre post : List (List Byte)) (c x buf buf' : List Byte) (hpre : ∀ y ∈ pre, y.length < 2 ^ 32)
    (hcx : (c ++ x).length < 2 ^ 32) (hx : x ≠ []) :
    (decodeCloud F C fuel info (chunked (pre ++ c :: post)) buf = .ok buf' →
      (decodeCloud F C fuel info (chunked (pre ++ (c ++ x) :: post)) buf).isThrow = true) ∧
    (decodeCloud F C fuel info (chunked (pre ++ (c ++ x) :: post)) buf = .ok buf' →
      (decodeCloud F C fuel info (chunked (pre ++ c :: post)) buf).isOk = false) := by
  have hc : c.length < 2 ^ 32 := by simp only [List.length_append] at hcx; omega
  have key : ∀ r, decodeCloud F C fuel info (chunked (pre ++ c :: post)) buf = .ok r →
      (decodeCloud F C fuel info (chunked (pre ++ (c ++ x) :: post)) buf).isThrow = true := fun r h =>
    C50_v5_trailing F C fuel info hver hv5 pre post c (c ++ x) c x buf r hpre hc hcx h (by simp [Expands, decompressChunk, hno])
      (by simp [Expands, decompressChunk, hno]) hx
  refine ⟨key _, fun h => ?_⟩
  cases hd : decodeCloud F C fuel info (chunked (pre ++ c :: post)) buf with
  | ok r =>
    have := key r hd
    rw [h] at this
    simp at this
  | throw m => rfl
  | ub k => rfl

/-- The witness payload of version 5 is one chunk; followed by a stray byte inside the chunk it throws. -/
example : (decodeCloud bitsOps storeComp 0 mixInfo (chunked [mixOut.drop 4 ++ [0#8]]) (List.replicate 108 0#8)).isThrow = true := by
  have hk := mix_decode_ok
  have e : mixOut = chunked [mixOut.drop 4] := by decide +kernel
  cases hd : decodeCloud bitsOps storeComp 0 mixInfo mixOut (List.replicate 108 0#8) with
  | ok a' =>
    rw [e] at hd
    exact (C50_v5_exact bitsOps storeComp 0 mixInfo (by decide) (by decide) rfl [] [] (mixOut.drop 4) [0#8] _ a' (by simp) (by decide +kernel) (by simp)).1 hd
  | throw m => rw [hd] at hk; simp at hk
  | ub k => rw [hd] at hk; simp at hk

/-- The same points, version 4: one byte field, chunk `[5, 6]` for one point is accepted and the 6 is ignored. -/
def byteInfo4 : EncodingInfo :=
  { fields := [{ name := [0x61#8], offset := 0#32, type := .uint8 }], width := 1#32, height := 1#32, point_step := 1#32,
    encoding_opt := .lossy, compression_opt := .none, version := 4#8 }

example : decodeCloud bitsOps storeComp 0 byteInfo4 (chunked [[5#8] ++ [6#8]]) [0#8] = .ok [5#8] :=
  C50_v4_trailing bitsOps storeComp 0 byteInfo4 (by decide) (by decide) [] [] [5#8] ([5#8] ++ [6#8]) [5#8] [6#8] _ _ (by simp) (by decide) (by decide)
    (by decide +kernel) rfl rfl (by decide)

/-- Two buffers that differ inside the fields only: the mixed cloud without its padding. -/
example : ∃ a', decodeCloud bitsOps storeComp 0 byteInfo4 (chunked [[5#8]]) [7#8] = .ok a' ∧ decodeCloud bitsOps storeComp 0 byteInfo4 (chunked [[5#8]]) [8#8] = .ok a' := by
  have he : decodeCloud bitsOps storeComp 0 byteInfo4 (chunked [[5#8]]) [7#8] = .ok [5#8] := by decide +kernel
  refine ⟨_, he, C49_same_output bitsOps storeComp byteInfo4 _ [7#8] [8#8] _ 0 (by decide) (by decide) rfl (by decide) (by decide) ?_ he⟩
  intro p hp
  cases p with
  | succ p => rfl
  | zero => exact absurd ⟨0, by decide, ⟨_, List.mem_singleton.2 rfl, by decide, by decide⟩⟩ hp

end Cloudini.Props
