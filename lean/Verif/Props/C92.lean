import Verif.Lemmas.FormatRead

/-!
# C92: the reader accepts every writer of the format

`C90` says what the encoder writes.  A writer in another language, or a later version of this one, need not pick the same way for
every section, nor the same second-stage bytes: the decoder reads all of them, and gets the same cloud.
-/

namespace Cloudini.Props

/-- **C92.** Whatever way is chosen for whatever section of whatever chunk, and whatever bytes the second stage stores for a chunk so long as
they can be read: the cloud comes back.  The conditions on the cloud are those of `C18_cloud_roundtrip_partial`; there is no bound on the number of fields. -/
theorem C92_any_writer_partial (F : FloatOps) (C : Compressor) (info : EncodingInfo) (cloud payload : List Byte) (fuel : Nat)
    (hinfo : ValidInfo F info) (hcloud : ValidCloud F info cloud) (way : Nat → PointField → Nat)
    (hpay : Format.EncodedBy F C info cloud way (info.width.toNat * info.height.toNat) payload)
    (hcomp : info.compression_opt = .none ∨ info.compression_opt = .lz4 ∨ info.compression_opt = .zstd)
    (hlim : info.compression_opt = .none ∨ ∀ c, c * 32768 < info.width.toNat * info.height.toNat →
      (Format.chunkBy F info cloud way (info.width.toNat * info.height.toNat) c).length ≤ cloud.length)
    (hlz : info.compression_opt = .lz4 → cloud.length ≤ intMax)
    (hmagic : payload.take 10 ≠ magic) (buf : List Byte) (hbuf : cloud.length ≤ buf.length) :
    ∃ buf', decodeCloud F C fuel info payload buf = .ok buf' ∧ buf'.length = buf.length ∧
      ∀ i, i < info.width.toNat * info.height.toNat → ∀ k f, info.fields[k]? = some f →
        cell buf' 0 info.point_step.toNat i f.offset.toNat (sizeOf f.type) =
          expected F info k f (cell cloud 0 info.point_step.toNat i f.offset.toNat (sizeOf f.type)) := by
  have hmax : maxDecompressed info = cloud.length := by
    unfold maxDecompressed; rw [← hcloud.size, Nat.mod_eq_of_lt hcloud.addressable]
  obtain ⟨buf', h1, h2, h3⟩ := decode_encodedBy F C info info cloud (info.width.toNat * info.height.toNat) fuel
    (valid_agree hinfo (all2_refl_same _) rfl rfl rfl) hinfo.step hcloud.size rfl (by have := hinfo.version; exact this) (validCloud_points hinfo hcloud)
    (fun _ g hg _ => valid_noSkip hinfo g hg) (fun g hg _ => hinfo.inside g hg) (hinfo.disjoint.imp fun h _ _ => h) way payload hpay hmagic hcomp
    (by rw [hmax]; exact hlim) (by rw [hmax]; exact hlz) buf (by rw [← hcloud.size]; exact hbuf)
  refine ⟨buf', h1, h2, ?_⟩
  intro i hi k f hk
  have := h3 i hi k f f hk hk (valid_noSkip hinfo f (List.mem_of_getElem? hk))
  have hr := hcloud.range i hi k f hk
  rw [cell_eq_sub] at hr
  rw [cell_eq_sub cloud, expected_eq F info k f _ _ hr, ← this]
  simp only [cell, Nat.zero_add]
  rfl

/-- What this encoder writes is one of these: the shortest way everywhere. -/
theorem C92_own_output (F : FloatOps) (C : Compressor) (hC : C.Lawful) (info : EncodingInfo) (cloud payload : List Byte) (total : Nat)
    (h : Format.Encoded F C info cloud total payload) (hlz : info.compression_opt = .lz4 → payload.length ≤ 2 ^ 31 - 1) :
    Format.EncodedBy F C info cloud
      (fun _ f => Format.shortest (Format.twosComplement f.type) (Format.cells info cloud f 0 (min total 4096))) total payload := by
  obtain ⟨st, s1, s2, s3⟩ := h
  refine ⟨st, s1, ?_, s3⟩
  intro c y hy
  obtain ⟨h1, h2⟩ := s2 c y hy
  refine ⟨?_, h2⟩
  unfold Format.Stored at h1
  unfold Format.Readable
  by_cases hc : info.compression_opt = .none
  · rw [if_pos hc] at h1 ⊢; exact h1
  · rw [if_neg hc] at h1 ⊢
    obtain ⟨room, h1⟩ := h1
    refine ⟨fun r hr => hC.inverse _ _ _ _ r h1 hr, fun hl => ?_⟩
    have hlen : y.length ≤ payload.length := by
      have hm : y ∈ st := List.mem_of_getElem? hy
      rw [s3]
      clear s1 s2 s3 hy h1 h2
      induction st with
      | nil => cases hm
      | cons z st ih =>
        rw [List.flatMap_cons, List.length_append, List.length_append]
        rcases List.mem_cons.1 hm with rfl | hm
        · omega
        · have := ih hm; omega
    have := hlz hl
    omega

/-- Two writers, one cloud: whatever the ways, the decoder ends with the same declared bytes. -/
theorem C92_writers_agree_partial (F : FloatOps) (C : Compressor) (info : EncodingInfo) (cloud p q : List Byte) (fuel : Nat)
    (hinfo : ValidInfo F info) (hcloud : ValidCloud F info cloud) (way way' : Nat → PointField → Nat) (hcomp : info.compression_opt = .none)
    (hp : Format.EncodedBy F C info cloud way (info.width.toNat * info.height.toNat) p)
    (hq : Format.EncodedBy F C info cloud way' (info.width.toNat * info.height.toNat) q)
    (hpm : p.take 10 ≠ magic) (hqm : q.take 10 ≠ magic) (buf : List Byte) (hbuf : cloud.length ≤ buf.length) (hb64 : buf.length < 2 ^ 64) :
    ∃ b b', decodeCloud F C fuel info p buf = .ok b ∧ decodeCloud F C fuel info q buf = .ok b' ∧ b.length = b'.length ∧
      (∀ i, i < info.width.toNat * info.height.toNat → ∀ (k : Nat) f, info.fields[k]? = some f →
        cell b 0 info.point_step.toNat i f.offset.toNat (sizeOf f.type) = cell b' 0 info.point_step.toNat i f.offset.toNat (sizeOf f.type)) ∧
      ∀ pos, ¬ Declared info pos → b[pos]? = b'[pos]? := by
  obtain ⟨b, h1, h2, h3⟩ := C92_any_writer_partial F C info cloud p fuel hinfo hcloud way hp (.inl hcomp) (.inl hcomp) (by rw [hcomp]; simp) hpm buf hbuf
  obtain ⟨b', g1, g2, g3⟩ := C92_any_writer_partial F C info cloud q fuel hinfo hcloud way' hq (.inl hcomp) (.inl hcomp) (by rw [hcomp]; simp) hqm buf hbuf
  refine ⟨b, b', h1, g1, h2.trans g2.symm, fun i hi k f hf => (h3 i hi k f hf).trans (g3 i hi k f hf).symm, fun pos hpos => ?_⟩
  rw [(C19_untouched F C info p buf b fuel hinfo.step hinfo.version hb64 h1).2 pos hpos,
    (C19_untouched F C info q buf b' fuel hinfo.step hinfo.version hb64 g1).2 pos hpos]

/-- A payload means one thing: if the same bytes are what one writer writes for one cloud and another writer, with other ways, for another cloud, then the two clouds have
the same values in every field of every point. -/
theorem C92_unambiguous_partial (F : FloatOps) (C : Compressor) (info : EncodingInfo) (cloud cloud' p : List Byte)
    (hinfo : ValidInfo F info) (hcloud : ValidCloud F info cloud) (hcloud' : ValidCloud F info cloud') (way way' : Nat → PointField → Nat)
    (hcomp : info.compression_opt = .none)
    (hp : Format.EncodedBy F C info cloud way (info.width.toNat * info.height.toNat) p)
    (hq : Format.EncodedBy F C info cloud' way' (info.width.toNat * info.height.toNat) p) (hpm : p.take 10 ≠ magic) :
    ∀ i, i < info.width.toNat * info.height.toNat → ∀ (k : Nat) f, info.fields[k]? = some f →
      expected F info k f (cell cloud 0 info.point_step.toNat i f.offset.toNat (sizeOf f.type)) =
        expected F info k f (cell cloud' 0 info.point_step.toNat i f.offset.toNat (sizeOf f.type)) := by
  obtain ⟨b, h1, _, h3⟩ := C92_any_writer_partial F C info cloud p 0 hinfo hcloud way hp (.inl hcomp) (.inl hcomp) (by rw [hcomp]; simp) hpm cloud (Nat.le_refl _)
  obtain ⟨b', g1, _, g3⟩ := C92_any_writer_partial F C info cloud' p 0 hinfo hcloud' way' hq (.inl hcomp) (.inl hcomp) (by rw [hcomp]; simp) hpm cloud
    (by rw [hcloud.size, hcloud'.size]; exact Nat.le_refl _)
  rw [h1] at g1
  cases g1
  intro i hi k f hf
  rw [← h3 i hi k f hf, ← g3 i hi k f hf]

/-- Payloads below 1.4 GB never start with the magic string. -/
theorem C92_magic (F : FloatOps) (C : Compressor) (info : EncodingInfo) (cloud payload : List Byte) (way : Nat → PointField → Nat) (total : Nat)
    (h : Format.EncodedBy F C info cloud way total payload) (hl : payload.length < 1431260227) : payload.take 10 ≠ magic := by
  obtain ⟨st, _, s2, rfl⟩ := h
  cases st with
  | nil => simp [magic]
  | cons y st =>
    intro he
    have hy := (s2 0 y rfl).2
    rw [List.flatMap_cons, List.append_assoc, format_le] at he
    have h4 : (toLE 4 y.length ++ (y ++ st.flatMap fun y => Format.le 4 y.length ++ y)).take 4 = magic.take 4 := by
      rw [← he, List.take_take]
      rfl
    rw [List.take_append_of_le_length (by simp), List.take_of_length_le (by simp)] at h4
    have := congrArg fromLE h4
    rw [fromLE_toLE] at this
    have hm : fromLE (magic.take 4) = 0x554F4C43 := by decide
    rw [hm, Nat.mod_eq_of_lt (by simpa using hy)] at this
    rw [List.flatMap_cons, List.length_append, List.length_append] at hl
    omega

/-- Three points with one 16-bit number each: 7, 7, 9. -/
def ringInfo : EncodingInfo :=
  { fields := [⟨[0x72#8], 0#32, .uint16, none⟩], width := 3#32, height := 1#32, point_step := 2#32, encoding_opt := .lossy, compression_opt := .none, version := 5#8 }
def ringCloud : List Byte := [7#8, 0#8, 7#8, 0#8, 9#8, 0#8]

theorem ring_valid : ValidInfo bitsOps ringInfo where
  step := by decide
  version := by decide
  option := by decide
  types := by decide
  inside := by decide
  disjoint := by decide
  resolution := fun _ f hf r hr => ⟨rfl, rfl⟩

theorem ring_cloud : ValidCloud bitsOps ringInfo ringCloud where
  size := by decide
  addressable := by decide
  range := follows_by (by decide +kernel)

/-- The encoder would write the differences; a writer that uses a palette, 8 bytes, is read all the same. -/
example : ∃ buf', decodeCloud bitsOps storeComp 0 ringInfo [8#8, 0#8, 0#8, 0#8, 1#8, 2#8, 0#8, 7#8, 0#8, 9#8, 0#8, 4#8] (List.replicate 6 0#8) = .ok buf' ∧
    buf'.length = 6 := by
  have hpay : Format.EncodedBy bitsOps storeComp ringInfo ringCloud (fun _ _ => 1) (ringInfo.width.toNat * ringInfo.height.toNat)
      [8#8, 0#8, 0#8, 0#8, 1#8, 2#8, 0#8, 7#8, 0#8, 9#8, 0#8, 4#8] := by
    refine ⟨[[1#8, 2#8, 0#8, 7#8, 0#8, 9#8, 0#8, 4#8]], by decide, ?_, by decide⟩
    intro c y hy
    cases c with
    | zero =>
      simp only [List.getElem?_cons_zero, Option.some.injEq] at hy
      subst hy
      unfold Format.Readable
      rw [if_pos (show ringInfo.compression_opt = .none from rfl)]
      exact ⟨by decide +kernel, by decide⟩
    | succ c => simp at hy
  obtain ⟨buf', h1, h2, _⟩ := C92_any_writer_partial bitsOps storeComp ringInfo ringCloud _ 0 ring_valid ring_cloud (fun _ _ => 1) hpay
    (Or.inl rfl) (Or.inl rfl) (fun h => by simp [ringInfo] at h) (by decide) (List.replicate 6 0#8) (by decide)
  exact ⟨buf', h1, by simpa using h2⟩

/-- The same numbers with a byte of padding after each: two clouds that differ in the padding, one payload. -/
def padInfo : EncodingInfo := { ringInfo with point_step := 3#32 }
def padCloud (x : Byte) : List Byte := [7#8, 0#8, x, 7#8, 0#8, x, 9#8, 0#8, 5#8]
theorem pad_valid : ValidInfo bitsOps padInfo where
  step := by decide
  version := by decide
  option := by decide
  types := by decide
  inside := by decide
  disjoint := by decide
  resolution := fun _ f hf r hr => ⟨rfl, rfl⟩
theorem pad_encoded (x : Byte) (h : Format.chunkBy bitsOps padInfo (padCloud x) (fun _ _ => 1) 3 0 = [1#8, 2#8, 0#8, 7#8, 0#8, 9#8, 0#8, 4#8]) :
    Format.EncodedBy bitsOps storeComp padInfo (padCloud x) (fun _ _ => 1) (padInfo.width.toNat * padInfo.height.toNat)
      [8#8, 0#8, 0#8, 0#8, 1#8, 2#8, 0#8, 7#8, 0#8, 9#8, 0#8, 4#8] := by
  refine ⟨[[1#8, 2#8, 0#8, 7#8, 0#8, 9#8, 0#8, 4#8]], by decide, ?_, by decide⟩
  intro c y hy
  cases c with
  | zero =>
    simp only [List.getElem?_cons_zero, Option.some.injEq] at hy
    subst hy
    unfold Format.Readable
    rw [if_pos (show padInfo.compression_opt = .none from rfl)]
    exact ⟨h.symm, by decide⟩
  | succ c => simp at hy
example : padCloud 1#8 ≠ padCloud 2#8 ∧ ∀ i, i < 3 → ∀ (k : Nat) f, padInfo.fields[k]? = some f →
      expected bitsOps padInfo k f (cell (padCloud 1#8) 0 3 i f.offset.toNat (sizeOf f.type)) =
        expected bitsOps padInfo k f (cell (padCloud 2#8) 0 3 i f.offset.toNat (sizeOf f.type)) :=
  ⟨by decide, C92_unambiguous_partial bitsOps storeComp padInfo (padCloud 1#8) (padCloud 2#8) _ pad_valid
    ⟨by decide, by decide, follows_by (by decide +kernel)⟩ ⟨by decide, by decide, follows_by (by decide +kernel)⟩ _ _ rfl
    (pad_encoded 1#8 (by decide +kernel)) (pad_encoded 2#8 (by decide +kernel)) (by decide)⟩

/-- The encoder's own bytes of the mixed cloud. -/
example : ∃ buf', decodeCloud bitsOps storeComp 0 mixInfo mixOut (List.replicate 108 0#8) = .ok buf' ∧ buf'.length = 108 := by
  obtain ⟨p, hp, he⟩ := C90_bytes bitsOps storeComp mixInfo [] mixEnc mixEnc mix_valid (mix_reach _) 3 mixCloud ⟨mix_cloud.size, mix_cloud.range⟩ (by decide)
    10000 false mixOut 73 mix_encode
  simp only [Bool.false_eq_true, if_false, List.nil_append] at hp
  subst hp
  obtain ⟨buf', h1, h2, _⟩ := C92_any_writer_partial bitsOps storeComp mixInfo mixCloud mixOut 0 mix_valid mix_cloud _
    (C92_own_output bitsOps storeComp storeComp_lawful mixInfo mixCloud mixOut 3 he (fun h => by simp [mixInfo] at h))
    (Or.inl rfl) (Or.inl rfl) (fun h => by simp [mixInfo] at h) (by decide +kernel) (List.replicate 108 0#8) (by decide +kernel)
  exact ⟨buf', h1, by simpa using h2⟩

end Cloudini.Props
