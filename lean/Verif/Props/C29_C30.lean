import Verif.Lemmas.Framing
import Verif.Lemmas.DecodeSafe
import Verif.Lemmas.DecodeSafeV5
import Verif.Props.C18_C20
import Verif.Props.C25_C28

/-!
# C29, C30: malformed and hostile payloads
-/

namespace Cloudini.Props

/-! ## C29 -/

/-- A payload of length-prefixed chunks: for each chunk its length as 4 little-endian bytes, then the chunk. -/
def chunked (chunks : List (List Byte)) : List Byte := (chunks.map fun c => toLE 4 c.length ++ c).flatten

theorem chunked_eq (cs : List (List Byte)) : chunked cs = frame cs := by
  induction cs with
  | nil => rfl
  | cons c cs ih => simp only [chunked, List.map_cons, List.flatten_cons] at ih ⊢; rw [ih]; rfl

theorem decodeCloud_loop {F : FloatOps} {C : Compressor} {fuel : Nat} {info : EncodingInfo} (hv : 3 ≤ info.version.toNat) (data buf : List Byte) :
    decodeCloud F C fuel info data buf = (buildDecoders F info >>= fun r =>
      if data.take 10 = magic then .throw "compressed_data contains the header. You should use DecodeHeader first"
      else decodeLoop F C info r.2 (info.width.toNat * info.height.toNat) r.1 data buf 0) := by
  unfold decodeCloud
  congr 1
  funext ⟨ds, m⟩
  have : info.version ≥ 3#8 := hv
  simp only [if_pos this]

/-- **C29, acceptance.** Whatever the info (version 3 or later), the bytes and the buffer: a payload is accepted only if it consists
of exactly ceil(points / 32768) length-prefixed chunks. -/
theorem C29_accepted (F : FloatOps) (C : Compressor) (fuel : Nat) (info : EncodingInfo) (hv : 3 ≤ info.version.toNat) (data buf buf' : List Byte)
    (h : decodeCloud F C fuel info data buf = .ok buf') :
    ∃ chunks, data = chunked chunks ∧ chunks.length = (info.width.toNat * info.height.toNat + 32767) / 32768 ∧ ∀ c ∈ chunks, c.length < 2 ^ 32 := by
  rw [decodeCloud_loop hv] at h
  obtain ⟨⟨ds, m⟩, _, h⟩ := Res.bind_eq_ok.1 h
  simp only at h
  split at h
  · simp at h
  obtain ⟨cs, h1, h2, h3⟩ := decodeLoop_framed_of_ok _ h
  exact ⟨cs, by rw [chunked_eq]; exact h1, h2, h3⟩

/-- **C29, truncation.** Every proper prefix of an accepted payload (a missing final chunk, a cut chunk, a cut length field) throws. -/
theorem C29_truncated (F : FloatOps) (C : Compressor) (fuel : Nat) (info : EncodingInfo) (hv : 3 ≤ info.version.toNat) (data buf buf' : List Byte)
    (h : decodeCloud F C fuel info data buf = .ok buf') (k : Nat) (hk : k < data.length) :
    (decodeCloud F C fuel info (data.take k) buf).isThrow = true := by
  rw [decodeCloud_loop hv] at h ⊢
  obtain ⟨⟨ds, m⟩, h0, h⟩ := Res.bind_eq_ok.1 h
  rw [h0]
  simp only [Res.ok_bind] at h ⊢
  split at h
  · simp at h
  split
  · rfl
  · exact decodeLoop_shorter _ h k hk

/-- **C29, extra data.** An accepted payload followed by anything (an extra chunk, stray bytes) throws. -/
theorem C29_extended (F : FloatOps) (C : Compressor) (fuel : Nat) (info : EncodingInfo) (hv : 3 ≤ info.version.toNat) (data buf buf' : List Byte)
    (h : decodeCloud F C fuel info data buf = .ok buf') (extra : List Byte) (he : extra ≠ []) :
    (decodeCloud F C fuel info (data ++ extra) buf).isThrow = true := by
  rw [decodeCloud_loop hv] at h ⊢
  obtain ⟨⟨ds, m⟩, h0, h⟩ := Res.bind_eq_ok.1 h
  rw [h0]
  simp only [Res.ok_bind] at h ⊢
  split at h
  · simp at h
  split
  · rfl
  · exact decodeLoop_longer _ h extra he

/-- **C29, bad length.** An accepted payload in which the length field of any chunk is replaced by one that exceeds the bytes behind
it throws. -/
theorem C29_bad_length (F : FloatOps) (C : Compressor) (fuel : Nat) (info : EncodingInfo) (hv : 3 ≤ info.version.toNat)
    (pre post : List (List Byte)) (c buf buf' : List Byte) (hpre : ∀ x ∈ pre, x.length < 2 ^ 32)
    (h : decodeCloud F C fuel info (chunked (pre ++ c :: post)) buf = .ok buf') (n : Nat) (hn : n < 2 ^ 32) (hlong : (c ++ chunked post).length < n) :
    (decodeCloud F C fuel info (chunked pre ++ toLE 4 n ++ c ++ chunked post) buf).isThrow = true := by
  simp only [chunked_eq] at *
  have e : frame (pre ++ c :: post) = frame pre ++ (toLE 4 c.length ++ c ++ frame post) := by rw [frame_append]; rfl
  rw [e] at h
  rw [decodeCloud_loop hv] at h ⊢
  obtain ⟨⟨ds, m⟩, h0, h⟩ := Res.bind_eq_ok.1 h
  rw [h0]
  simp only [Res.ok_bind] at h ⊢
  split at h
  · simp at h
  split
  · rfl
  · simp only [List.append_assoc] at h ⊢
    have := decodeLoop_badLength _ pre c (frame post) hpre (by simpa only [List.append_assoc] using h) n hn hlong
    simpa only [List.append_assoc] using this

/-- **C29, no bytes / short length.** With points declared, fewer than four bytes where the first length is due throw, whatever they are. -/
theorem C29_short (F : FloatOps) (C : Compressor) (fuel : Nat) (info : EncodingInfo) (hv : 3 ≤ info.version.toNat) (data buf : List Byte)
    (hd : data.length < 4) (hp : info.width.toNat * info.height.toNat ≠ 0) (hds : (buildDecoders F info).isUB = false) :
    (decodeCloud F C fuel info data buf).isThrow = true := by
  rw [decodeCloud_loop hv]
  cases hb : buildDecoders F info with
  | throw _ => rfl
  | ub k => rw [hb] at hds; simp at hds
  | ok r =>
    simp only [Res.ok_bind]
    split
    · rfl
    · exact decodeLoop_tail _ _ _ _ _ _ _ _ _ hd hp

/-- The version-5 payload of the witness cloud is accepted; it meets the hypotheses of the theorems above. -/
theorem mix_decode_ok : (decodeCloud bitsOps storeComp 0 mixInfo mixOut (List.replicate 108 0#8)).isOk = true := by decide +kernel

example : (decodeCloud bitsOps storeComp 0 mixInfo (mixOut.take 40) (List.replicate 108 0#8)).isThrow = true := by
  have h := mix_decode_ok
  cases hd : decodeCloud bitsOps storeComp 0 mixInfo mixOut (List.replicate 108 0#8) with
  | ok b => exact C29_truncated _ _ _ _ (by decide) _ _ b hd 40 (by decide +kernel)
  | throw m => rw [hd] at h; simp at h
  | ub k => rw [hd] at h; simp at h

example : (decodeCloud bitsOps storeComp 0 mixInfo (mixOut ++ mixOut) (List.replicate 108 0#8)).isThrow = true := by
  have h := mix_decode_ok
  cases hd : decodeCloud bitsOps storeComp 0 mixInfo mixOut (List.replicate 108 0#8) with
  | ok b => exact C29_extended _ _ _ _ (by decide) _ _ b hd mixOut (by decide +kernel)
  | throw m => rw [hd] at h; simp at h
  | ub k => rw [hd] at h; simp at h

/-! ## C30 -/

/-- The number of payload bytes of a field whose decoder copies (or XORs) that many bytes without looking at what is left. -/
def verbatim (info : EncodingInfo) (f : PointField) : Option Nat :=
  if info.encoding_opt = .none then some (sizeOf f.type)
  else match f.type with
    | .int8 | .uint8 => some 1
    | .float32 => if f.resolution.isSome ∧ info.encoding_opt ≠ .lossless then none else some 4
    | .float64 =>
      if f.resolution.isSome then (if info.encoding_opt ≠ .lossless then none else some 8)
      else if 4 ≤ info.version.toNat then none else some 8
    | _ => none

/-- A float that is quantised on its own: its decoder looks at one byte without testing that it is there. -/
def single (info : EncodingInfo) (f : PointField) : Bool :=
  (f.type == .float32 || f.type == .float64) && f.resolution.isSome && info.encoding_opt != .lossless && info.encoding_opt != .none

/-- No field whose decoder reads without a test of its own comes behind a field of variable encoded length (so the test at the
start of each point covers it). -/
structure Guarded (info : EncodingInfo) : Prop where
  behind : (info.fields.drop (groupSize info)).Pairwise fun f g => verbatim info f = none → verbatim info g = none ∧ single info g = false
  group : groupSize info ≠ 0 → ∀ g ∈ info.fields.drop (groupSize info), verbatim info g = none ∧ single info g = false

theorem checked_reads (F : FloatOps) (info : EncodingInfo) (hn : info.encoding_opt ≠ .none) (fs : List PointField) (ds : List Dec)
    (hb : buildAll (createDecoder F info) fs = .ok ds) (h : ∀ g ∈ fs, verbatim info g = none ∧ single info g = false) : readsOk ds 0 := by
  induction fs generalizing ds with
  | nil => simp only [buildAll, Res.ok.injEq] at hb; subst hb; trivial
  | cons f fs ih =>
    simp only [buildAll] at hb
    obtain ⟨d, h1, hb⟩ := Res.bind_eq_ok.1 hb
    obtain ⟨ds', h2, hb⟩ := Res.bind_eq_ok.1 hb
    simp only [Res.ok.injEq] at hb
    subst hb
    have ih' := ih ds' h2 fun g hg => h g (by simp [hg])
    obtain ⟨hv, hs⟩ := h f (by simp)
    unfold createDecoder at h1
    unfold verbatim at hv
    unfold single at hs
    rw [if_neg hn] at hv
    cases ht : f.type <;> cases hr : f.resolution <;> simp only [ht, hr] at h1 hv hs <;> simp_all
    all_goals first | (rw [← h1]; exact ih') | skip
    rw [if_pos (show (4#8 : BitVec 8) ≤ info.version from hv)] at h1
    simp only [Res.ok.injEq] at h1
    rw [← h1]; exact ih'

theorem guarded_reads (F : FloatOps) (info : EncodingInfo) (hn : info.encoding_opt ≠ .none) (fs : List PointField) (ds : List Dec)
    (hb : buildAll (createDecoder F info) fs = .ok ds)
    (h : fs.Pairwise fun f g => verbatim info f = none → verbatim info g = none ∧ single info g = false) :
    readsOk ds (ds.map Dec.minInputBytes).sum := by
  induction fs generalizing ds with
  | nil => simp only [buildAll, Res.ok.injEq] at hb; subst hb; trivial
  | cons f fs ih =>
    simp only [buildAll] at hb
    obtain ⟨d, h1, hb⟩ := Res.bind_eq_ok.1 hb
    obtain ⟨ds', h2, hb⟩ := Res.bind_eq_ok.1 hb
    simp only [Res.ok.injEq] at hb
    subst hb
    rw [List.pairwise_cons] at h
    have ih' := ih ds' h2 h.2
    by_cases hv : verbatim info f = none
    · have h0 := checked_reads F info hn fs ds' h2 fun g hg => h.1 g hg hv
      simp only [List.map_cons, List.sum_cons]
      cases d with
      | copy o s => exact ⟨by simp [Dec.minInputBytes], by simpa [Dec.minInputBytes] using ih'⟩
      | xor o s p => exact ⟨by simp [Dec.minInputBytes], by simpa [Dec.minInputBytes] using ih'⟩
      | lossy32 o r p => exact ⟨by simp [Dec.minInputBytes], h0⟩
      | lossy64 o r p => exact ⟨by simp [Dec.minInputBytes], h0⟩
      | int o s p => exact h0
      | gorilla o s p => exact h0
      | floatN ls => exact h0
    · unfold createDecoder at h1
      unfold verbatim at hv
      rw [if_neg hn] at hv
      have key : (∃ o s, d = .copy o s) ∨ ∃ o s p, d = .xor o s p := by
        cases ht : f.type <;> cases hr : f.resolution <;> simp only [ht, hr] at h1 hv <;> simp_all
        all_goals first
          | (simp [← h1])
          | (split at h1 <;> simp_all)
          | skip
        all_goals first | (simp [← h1]) | skip
        rename_i h4
        have : 4 ≤ info.version.toNat := h4
        omega
      simp only [List.map_cons, List.sum_cons]
      rcases key with ⟨o, s, rfl⟩ | ⟨o, s, p, rfl⟩
      · exact ⟨by simp [Dec.minInputBytes], by simpa [Dec.minInputBytes] using ih'⟩
      · exact ⟨by simp [Dec.minInputBytes], by simpa [Dec.minInputBytes] using ih'⟩

theorem copies_reads (fs : List PointField) :
    readsOk (fs.map fun f => .copy f.offset.toNat (sizeOf f.type)) (fs.map fun f => sizeOf f.type).sum := by
  induction fs with
  | nil => trivial
  | cons f fs ih => exact ⟨by simp, by simpa using ih⟩

theorem guarded_decoders (F : FloatOps) (info : EncodingInfo) (h : Guarded info) (ds : List Dec) (m : Nat)
    (hb : buildV4Decoders F info = .ok (ds, m)) : readsOk ds m := by
  unfold buildV4Decoders at hb
  by_cases hn : info.encoding_opt = .none
  · rw [if_pos hn] at hb
    simp only [Res.ok.injEq, Prod.mk.injEq] at hb
    obtain ⟨rfl, rfl⟩ := hb
    exact copies_reads _
  · rw [if_neg hn] at hb
    obtain ⟨lead, h1, hb⟩ := Res.bind_eq_ok.1 hb
    obtain ⟨rest, h2, hb⟩ := Res.bind_eq_ok.1 hb
    simp only [Res.ok.injEq, Prod.mk.injEq] at hb
    obtain ⟨rfl, rfl⟩ := hb
    rw [← groupSize_eq] at h2
    unfold leadingDecoder at h1
    rw [← groupSize_eq] at h1
    by_cases hg : groupSize info = 0
    · simp only [hg, if_true, Res.ok.injEq] at h1
      subst h1
      exact guarded_reads F info hn _ _ h2 h.behind
    · simp only [hg, if_false] at h1
      obtain ⟨d, h3, h1⟩ := Res.bind_eq_ok.1 h1
      simp only [Res.ok.injEq] at h1
      subst h1
      unfold mkFloatNDec at h3
      split at h3
      · simp at h3
      simp only [Res.ok.injEq] at h3
      subst h3
      exact checked_reads F info hn _ _ h2 (h.group hg)

theorem buildAll_noUB (F : FloatOps) (info : EncodingInfo) (fs : List PointField) : (buildAll (createDecoder F info) fs).isUB = false := by
  induction fs with
  | nil => rfl
  | cons f fs ih =>
    rw [buildAll]
    refine noUB_bind ?_ fun _ _ => noUB_bind ih fun _ _ => rfl
    unfold createDecoder mkLossy32Dec mkLossy64Dec
    cases f.type <;> cases f.resolution <;> simp only <;> (repeat' split) <;> rfl

theorem buildDecoders_noUB (F : FloatOps) (info : EncodingInfo) : (buildDecoders F info).isUB = false := by
  have hl : (leadingDecoder F info).isUB = false := by
    unfold leadingDecoder mkFloatNDec
    simp only
    split
    · rfl
    · refine noUB_bind ?_ fun _ _ => rfl
      split <;> rfl
  unfold buildDecoders buildV4Decoders buildV5Decoders
  split
  · exact noUB_bind (noUB_bind hl fun _ _ => noUB_bind (buildAll_noUB _ _ _) fun _ _ => rfl) fun _ _ => rfl
  · split
    · rfl
    · exact noUB_bind hl fun _ _ => noUB_bind (buildAll_noUB _ _ _) fun _ _ => rfl

/-- **C30 (partial).** Whatever the payload bytes and the buffer: decoding an info of version 3 or later that does not use the
version-5 integer sections never reads outside the payload nor writes outside the buffer, provided every stored field lies inside the
point and no unchecked field follows one of variable length (`Guarded`).  This covers all clouds with encoding NONE, quantised x/y/z(/w)
with integers of 16 to 64 bits and unquantised doubles behind them, and clouds of integers and unquantised floats ordered so.
Missing: everything else, where it is false (below). -/
theorem C30_memory_safe_partial (F : FloatOps) (C : Compressor) (fuel : Nat) (info : EncodingInfo) (hv : 3 ≤ info.version.toNat)
    (h5 : usesV5 info = false) (hg : Guarded info)
    (hin : ∀ f ∈ info.fields, f.offset.toNat = kDecodeButSkipStore ∨ f.offset.toNat + sizeOf f.type ≤ info.point_step.toNat)
    (data buf : List Byte) : decodeCloud F C fuel info data buf ≠ .ub .mem := by
  rw [decodeCloud_loop hv]
  cases hb : buildDecoders F info with
  | throw _ => simp
  | ub k =>
    have := buildDecoders_noUB F info
    rw [hb] at this; simp at this
  | ok r =>
    obtain ⟨ds, m⟩ := r
    simp only [Res.ok_bind]
    split
    · simp
    · refine (decodeLoop_safe F C info h5 m _ ds data buf 0 ?_ ?_ (by omega)).not_mem
      · unfold buildDecoders at hb
        rw [h5] at hb
        exact guarded_decoders F info hg ds m hb
      · intro d hd sp hsp hne
        obtain ⟨f, hf, rfl⟩ := buildDecoders_spots F info ds m hb d hd sp hsp hne
        rcases hin f hf with h | h <;> simp_all

/-- All copied fields are guarded. -/
theorem guarded_none (info : EncodingInfo) (h : info.encoding_opt = .none) : Guarded info where
  behind := by
    have : ∀ fs : List PointField, fs.Pairwise fun f g => verbatim info f = none → verbatim info g = none ∧ single info g = false := by
      intro fs
      induction fs with
      | nil => exact .nil
      | cons f fs ih => exact .cons (fun g _ hv => by simp [verbatim, h] at hv) ih
    exact this _
  group := by intro hg; simp [groupSize, h] at hg

instance (info : EncodingInfo) : Decidable (Guarded info) :=
  decidable_of_iff ((info.fields.drop (groupSize info)).Pairwise (fun f g => verbatim info f = none → verbatim info g = none ∧ single info g = false) ∧
    (groupSize info ≠ 0 → ∀ g ∈ info.fields.drop (groupSize info), verbatim info g = none ∧ single info g = false))
    ⟨fun h => ⟨h.1, h.2⟩, fun h => ⟨h.behind, h.group⟩⟩

/-- Quantised x, y, z, an integer and a double behind them: any payload bytes at all. -/
example (data buf : List Byte) : decodeCloud bitsOps storeComp 0
    { fields := [{ name := [0x78#8], offset := 0#32, type := .float32, resolution := some 0x3a83126f#32 },
                 { name := [0x79#8], offset := 4#32, type := .float32, resolution := some 0x3a83126f#32 },
                 { name := [0x7a#8], offset := 8#32, type := .float32, resolution := some 0x3a83126f#32 },
                 { name := [0x72#8], offset := 12#32, type := .uint32 },
                 { name := [0x74#8], offset := 16#32, type := .float64 }],
      width := 1000#32, height := 3#32, point_step := 24#32, encoding_opt := .lossy, compression_opt := .zstd, version := 4#8 } data buf ≠ .ub .mem :=
  C30_memory_safe_partial _ _ _ _ (by decide) (by decide) (by decide) (by decide) data buf

theorem first_chunk_ub {F : FloatOps} {C : Compressor} {info : EncodingInfo} {ds : List Dec} {m : Nat} {c rest buf : List Byte} {k : UB}
    (hv : 3 ≤ info.version.toNat) (hb : buildDecoders F info = .ok (ds, m)) (hm : (toLE 4 c.length ++ c ++ rest).take 10 ≠ magic)
    (hp : info.width.toNat * info.height.toNat ≠ 0) (hc : c.length < 2 ^ 32)
    (h : decodeChunk F C 0 info ds m c buf 0 (min (info.width.toNat * info.height.toNat) kPointsPerChunk) = .ub k) :
    decodeCloud F C 0 info (toLE 4 c.length ++ c ++ rest) buf = .ub k := by
  rw [decodeCloud_loop hv, hb]
  simp only [Res.ok_bind]
  rw [if_neg hm, decodeLoop, if_neg (by simp [toLE_length]), dif_neg hp, List.append_assoc, decodeInt_toLE 4 _ (by simpa using hc)]
  simp only [Res.ok_bind]
  rw [if_neg (by simp)]
  simp only [List.take_left, List.drop_left]
  rw [h]
  rfl

/-- **C30 is false: reading past the payload.** A 9-byte-point cloud (an INT64 and a byte behind it): the per-point test asks for two
bytes only, the integer takes both, and the byte behind it is read outside the payload. -/
theorem C30_overread (F : FloatOps) (C : Compressor) :
    decodeCloud F C 0 { fields := [{ name := [0x61#8], offset := 0#32, type := .int64 }, { name := [0x62#8], offset := 8#32, type := .uint8 }],
                        width := 1#32, height := 1#32, point_step := 9#32, encoding_opt := .lossless, compression_opt := .none, version := 4#8 }
      [2#8, 0#8, 0#8, 0#8, 0x81#8, 0x01#8] (List.replicate 9 0#8) = .ub .mem := by
  exact first_chunk_ub (ds := [.int 0 8 0#64, .copy 8 1]) (m := 2) (c := [0x81#8, 0x01#8]) (rest := []) (by decide) rfl
    (by decide) (by decide) (by decide) rfl

/-- The same as one byte string: `DecodeHeader` accepts its header, and decoding the rest into a buffer of width * height * point_step
bytes reads past its end. -/
theorem C30_overread_file (T : FloatText) (F : FloatOps) (C : Compressor) : ∃ bytes info payload, decodeHeader T bytes = .ok (info, payload) ∧
    decodeCloud F C 0 info payload (List.replicate (info.width.toNat * info.height.toNat * info.point_step.toNat) 0#8) = .ub .mem := by
  obtain ⟨bs, _, h⟩ := C25_binary_roundtrip_partial T
    { fields := [{ name := [0x61#8], offset := 0#32, type := .int64 }, { name := [0x62#8], offset := 8#32, type := .uint8 }],
      width := 1#32, height := 1#32, point_step := 9#32, encoding_opt := .lossless, compression_opt := .none, version := 4#8 }
    ⟨rfl, rfl, by intro f hf; simp only [List.mem_cons, List.not_mem_nil, or_false] at hf; rcases hf with rfl | rfl <;> rfl⟩ (by decide) (by decide) (by decide) rfl (by decide) (by simp)
  exact ⟨_, _, _, h [2#8, 0#8, 0#8, 0#8, 0x81#8, 0x01#8], C30_overread F C⟩

/-- **C30 is false: writing past the buffer (offsets).** A header may declare a field outside its point; its bytes are written there. -/
theorem C30_offset_outside (F : FloatOps) (C : Compressor) :
    decodeCloud F C 0 { fields := [{ name := [0x61#8], offset := 1000#32, type := .uint8 }],
                        width := 1#32, height := 1#32, point_step := 1#32, encoding_opt := .none, compression_opt := .none, version := 4#8 }
      [1#8, 0#8, 0#8, 0#8, 0x55#8] [0#8] = .ub .mem := by
  exact first_chunk_ub (ds := [.copy 1000 1]) (m := 1) (c := [0x55#8]) (rest := []) (by decide) rfl
    (by decide) (by decide) (by decide) rfl

/-- **C30 is false: writing past the buffer (run lengths).** In a version-5 section the sum of run lengths wraps around at 2^64: a run
of 1 followed by a run of 2^64 - 1 passes the test and is written far beyond the buffer. -/
theorem C30_rle_wrap (F : FloatOps) (C : Compressor) :
    decodeCloud F C 0 { fields := [{ name := [0x61#8], offset := 0#32, type := .uint16 }],
                        width := 4#32, height := 1#32, point_step := 2#32, encoding_opt := .lossy, compression_opt := .none, version := 5#8 }
      (toLE 4 20 ++ [2#8] ++ toLE 4 2 ++ (toLE 2 7 ++ [1#8]) ++ (toLE 2 9 ++ List.replicate 9 0xff#8 ++ [1#8])) (List.replicate 8 0#8) = .ub .mem := by
  exact first_chunk_ub (ds := []) (m := 0) (c := ([2#8] ++ toLE 4 2 ++ (toLE 2 7 ++ [1#8]) ++ (toLE 2 9 ++ List.replicate 9 0xff#8 ++ [1#8]))) (rest := []) (by decide) rfl
    (by decide) (by decide) (by decide) rfl

/-- **C30, version 5 (partial).** Whatever the payload bytes and the buffer: decoding with the version-5 codec goes outside the payload or
outside the buffer only if some chunk of the payload expands to data with nine consecutive bytes of 128 or more — without them no run
length reaches 2^63, the only values whose sum wraps around (`C30_rle_wrap`) — provided every stored field lies inside the point and no
field outside the integer sections is read unchecked.  Missing: payloads with such bytes, and layouts with 8-bit fields, unquantised floats or
single quantised floats, where the claim is false (`C30_v5_overread`). -/
theorem C30_v5_memory_safe_partial (F : FloatOps) (C : Compressor) (fuel : Nat) (info : EncodingInfo) (hv : 3 ≤ info.version.toNat)
    (h5 : usesV5 info = true)
    (hself : ∀ g ∈ info.fields.drop (groupSize info), isAdaptiveType g.type = false → verbatim info g = none ∧ single info g = false)
    (hin : ∀ f ∈ info.fields, f.offset.toNat + sizeOf f.type ≤ info.point_step.toNat)
    (data buf : List Byte) (h : decodeCloud F C fuel info data buf = .ub .mem) :
    ∃ pre c post view a nine b, data = pre ++ c ++ post ∧ decompressChunk C info.compression_opt c (maxDecompressed info) = .ok view ∧
      view = a ++ nine ++ b ∧ nine.length = 9 ∧ ∀ x ∈ nine, 128 ≤ x.toNat := by
  apply Classical.byContradiction
  intro hno
  have hcalm : ∀ pre c post view, data = pre ++ c ++ post → decompressChunk C info.compression_opt c (maxDecompressed info) = .ok view → Calm view := by
    intro pre c post view he hd k hk
    apply Classical.byContradiction
    intro hcon
    refine hno ⟨pre, c, post, view, view.take k, (view.drop k).take 9, (view.drop k).drop 9, he, hd,
      by rw [List.append_assoc, List.take_append_drop, List.take_append_drop], by simp; omega, ?_⟩
    intro x hx
    obtain ⟨j, hj, hjx⟩ := List.mem_iff_getElem.1 hx
    simp only [List.length_take, List.length_drop] at hj
    apply Classical.byContradiction
    intro hlt
    refine hcon ⟨j, by omega, x, ?_, by omega⟩
    rw [← hjx, List.getElem_take, List.getElem_drop, List.getElem?_eq_getElem]
  revert h
  rw [decodeCloud_loop hv]
  cases hb : buildDecoders F info with
  | throw _ => simp
  | ub k =>
    have := buildDecoders_noUB F info
    rw [hb] at this; simp at this
  | ok r =>
    obtain ⟨ds, m⟩ := r
    simp only [Res.ok_bind]
    split
    · simp
    · refine (decodeLoopV5_safe F C info h5 m _ ds data buf 0 ?_ ?_ ?_ (by omega) hcalm).not_mem
      · unfold buildDecoders at hb
        rw [if_pos h5] at hb
        obtain ⟨ds1, h1, hb⟩ := Res.bind_eq_ok.1 hb
        simp only [Res.ok.injEq, Prod.mk.injEq] at hb
        obtain ⟨rfl, rfl⟩ := hb
        unfold buildV5Decoders at h1
        obtain ⟨l, h2, h1⟩ := Res.bind_eq_ok.1 h1
        obtain ⟨rs, h3, h1⟩ := Res.bind_eq_ok.1 h1
        simp only [Res.ok.injEq] at h1
        subst h1
        have hl : info.encoding_opt = .lossy := by
          unfold usesV5 at h5
          simp only [Bool.and_eq_true, decide_eq_true_eq] at h5
          exact h5.1.2
        rw [← groupSize_eq] at h3
        have hr := checked_reads F info (by rw [hl]; decide) _ rs h3 (by
          intro g hg
          obtain ⟨hg1, hg2⟩ := List.mem_filter.1 hg
          exact hself g hg1 (by simpa using hg2))
        unfold leadingDecoder at h2
        simp only at h2
        split at h2
        · simp only [Res.ok.injEq] at h2; subst h2; exact hr
        · obtain ⟨d, h4, h2⟩ := Res.bind_eq_ok.1 h2
          simp only [Res.ok.injEq] at h2
          subst h2
          unfold mkFloatNDec at h4
          split at h4
          · simp at h4
          simp only [Res.ok.injEq] at h4
          subst h4
          exact hr
      · intro d hd sp hsp hne
        obtain ⟨f, hf, rfl⟩ := buildDecoders_spots F info ds m hb d hd sp hsp hne
        exact hin f hf
      · intro f hf
        obtain ⟨p, hp, h1, h2⟩ := (adaptive_declared info f hf).1
        rw [h1, h2]
        exact hin p hp

/-- x, y, z quantised with two integer fields behind them: no hostile payload without nine such bytes reaches outside. -/
example (data buf : List Byte) (hd : ∀ b ∈ data, b.toNat < 128) : decodeCloud bitsOps storeComp 0
    { fields := [{ name := [0x78#8], offset := 0#32, type := .float32, resolution := some 0x3a83126f#32 },
                 { name := [0x79#8], offset := 4#32, type := .float32, resolution := some 0x3a83126f#32 },
                 { name := [0x7a#8], offset := 8#32, type := .float32, resolution := some 0x3a83126f#32 },
                 { name := [0x72#8], offset := 12#32, type := .uint32 },
                 { name := [0x74#8], offset := 16#32, type := .float64 }],
      width := 1000#32, height := 3#32, point_step := 24#32, encoding_opt := .lossy, compression_opt := .none, version := 5#8 } data buf ≠ .ub .mem := by
  intro h
  obtain ⟨pre, c, post, view, a, nine, b, h1, h2, h3, h4, h5⟩ := C30_v5_memory_safe_partial _ _ _ _ (by decide) (by decide) (by decide) (by decide) data buf h
  simp only [decompressChunk, Res.ok.injEq] at h2
  subst h2
  match nine, h4 with
  | x :: _, _ =>
    have := hd x (by rw [h1, h3]; simp)
    have := h5 x (by simp)
    omega

/-- **C30 is false: version 5, reading past the payload.** An 8-bit field next to an integer field: the version-5 codec has no per-point
test, and the byte is read from an empty chunk. -/
theorem C30_v5_overread (F : FloatOps) (C : Compressor) :
    decodeCloud F C 0 { fields := [{ name := [0x61#8], offset := 0#32, type := .uint8 }, { name := [0x62#8], offset := 1#32, type := .uint16 }],
                        width := 1#32, height := 1#32, point_step := 3#32, encoding_opt := .lossy, compression_opt := .none, version := 5#8 }
      [0#8, 0#8, 0#8, 0#8] (List.replicate 3 0#8) = .ub .mem := by
  exact first_chunk_ub (ds := [.copy 0 1]) (m := 1) (c := []) (rest := []) (by decide) rfl
    (by decide) (by decide) (by decide) rfl

/-! ## C29 applied to concrete data -/

theorem mix_chunked : mixOut = chunked [mixOut.drop 4] := by decide +kernel
/-- The only accepted form of a payload for the mixed cloud: one chunk. -/
example (data buf buf' : List Byte) (h : decodeCloud bitsOps storeComp 0 mixInfo data buf = .ok buf') : ∃ c, data = toLE 4 c.length ++ c := by
  obtain ⟨chunks, h1, h2, _⟩ := C29_accepted bitsOps storeComp 0 mixInfo (by decide) data buf buf' h
  match chunks, h2 with
  | [c], _ => exact ⟨c, by rw [h1]; simp [chunked]⟩
/-- A length prefix that claims 200 bytes where 69 follow. -/
example : (decodeCloud bitsOps storeComp 0 mixInfo (toLE 4 200 ++ mixOut.drop 4) (List.replicate 108 0#8)).isThrow = true := by
  have hd : ∃ buf', decodeCloud bitsOps storeComp 0 mixInfo mixOut (List.replicate 108 0#8) = .ok buf' := by
    have : (decodeCloud bitsOps storeComp 0 mixInfo mixOut (List.replicate 108 0#8)).isOk = true := by decide +kernel
    cases h : decodeCloud bitsOps storeComp 0 mixInfo mixOut (List.replicate 108 0#8) with
    | ok b => exact ⟨b, rfl⟩
    | throw e => rw [h] at this; simp at this
    | ub e => rw [h] at this; simp at this
  obtain ⟨buf', hd⟩ := hd
  rw [mix_chunked] at hd
  have := C29_bad_length bitsOps storeComp 0 mixInfo (by decide) [] [] (mixOut.drop 4) _ buf' (by simp) hd 200 (by decide) (by decide +kernel)
  simpa [chunked] using this
example (buf : List Byte) : (decodeCloud bitsOps storeComp 0 mixInfo [1#8, 0#8, 0#8] buf).isThrow = true :=
  C29_short bitsOps storeComp 0 mixInfo (by decide) _ buf (by decide) (by decide) (by decide +kernel)

end Cloudini.Props
