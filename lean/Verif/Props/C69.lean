import Verif.Lemmas.AlikeCloud
import Verif.Props.C11_cloud
import Verif.Props.C68

/-!
# C69: the compressed bytes depend only on the values of the declared fields

`SameStored` (Spec/Cloud) says when two values of a field are the same to the format.
-/

namespace Cloudini.Props
open IEEE (ops)

/-- Every declared field of every point is stored the same way. -/
def SameValues (F : FloatOps) (info : EncodingInfo) (cloud cloud2 : List Byte) : Prop :=
  ∀ i < cloud.length / info.point_step.toNat, ∀ (k : Nat) (f : PointField), info.fields[k]? = some f →
    SameStored F info k f (cell cloud 0 info.point_step.toNat i f.offset.toNat (sizeOf f.type))
      (cell cloud2 0 info.point_step.toNat i f.offset.toNat (sizeOf f.type))

theorem SameValues.points {F : FloatOps} {info : EncodingInfo} {cloud cloud2 : List Byte} (h : SameValues F info cloud cloud2) :
    ∀ i < cloud.length / info.point_step.toNat,
      Alike.SamePoint F info (cloud.drop (i * info.point_step.toNat)) (cloud2.drop (i * info.point_step.toNat)) := by
  intro i hi k f hk
  have := h i hi k f hk
  rw [cell_eq_sub, cell_eq_sub] at this
  exact this

/-- **C69.** Two clouds of the same size whose fields are stored the same way are encoded by the same encoder with the same
result - bytes, size, exception and the encoder afterwards - whatever the float arithmetic, the compressor, the version,
the option, and whatever the encoder did before. -/
theorem C69_depends_on_values (F : FloatOps) (C : Compressor) (info : EncodingInfo) (header : List Byte) (enc : Encoder)
    (hreach : Reach F C info header enc) (cloud cloud2 : List Byte) (hlen : cloud.length = cloud2.length)
    (hsame : SameValues F info cloud cloud2) (room : Nat) (wh : Bool) :
    encodeView F C enc cloud room wh = encodeView F C enc cloud2 room wh := by
  obtain ⟨rfl, rfl, hused⟩ := reach_used hreach
  exact Alike.encodeView_same C enc cloud cloud2 room wh hused hlen hsame.points

/-- **C69**, the vector overload. -/
theorem C69_depends_on_values_vector (F : FloatOps) (C : Compressor) (info : EncodingInfo) (header : List Byte) (enc : Encoder)
    (hreach : Reach F C info header enc) (cloud cloud2 : List Byte) (hlen : cloud.length = cloud2.length)
    (hsame : SameValues F info cloud cloud2) (hb : Nat) :
    encodeVector F C enc hb cloud = encodeVector F C enc hb cloud2 := by
  obtain ⟨rfl, rfl, hused⟩ := reach_used hreach
  exact Alike.encodeVector_same C enc hb cloud cloud2 hused hlen hsame.points

theorem sameStored_refl (F : FloatOps) (info : EncodingInfo) (k : Nat) (f : PointField) (bs : List Byte) : SameStored F info k f bs bs := by
  unfold SameStored
  split
  · refine ⟨rfl, fun _ => ?_⟩
    split <;> rfl
  · exact ⟨rfl, fun _ => rfl⟩
  · rfl

/-- **C69, padding.** Bytes of a point that belong to no declared field - alignment gaps, fields left out of the description -
do not influence the output. -/
theorem C69_padding (F : FloatOps) (C : Compressor) (info : EncodingInfo) (header : List Byte) (enc : Encoder)
    (hreach : Reach F C info header enc) (cloud cloud2 : List Byte) (hlen : cloud.length = cloud2.length)
    (hfields : ∀ i < cloud.length / info.point_step.toNat, ∀ f ∈ info.fields,
      cell cloud 0 info.point_step.toNat i f.offset.toNat (sizeOf f.type) =
        cell cloud2 0 info.point_step.toNat i f.offset.toNat (sizeOf f.type)) (room : Nat) (wh : Bool) :
    encodeView F C enc cloud room wh = encodeView F C enc cloud2 room wh := by
  apply C69_depends_on_values F C info header enc hreach cloud cloud2 hlen
  intro i hi k f hk
  rw [hfields i hi f (List.mem_of_getElem? hk)]
  exact sameStored_refl F info k f _

/-! ## Compressing what was decompressed -/

theorem stored_twice {info : EncodingInfo} (hi : SensibleInfo info) {k : Nat} {f : PointField} (hk : info.fields[k]? = some f)
    {bs : List Byte} (h : WithinSteps 4194300 4194300 (2 ^ 51 - 4) info k f bs) :
    SameStored ops info k f bs (expected ops info k f bs) := by
  obtain ⟨_, w2⟩ := h
  have hf := List.mem_of_getElem? hk
  have hq : isNaN32 qNaN32 = true := by decide
  have hq64 : isNaN64 qNaN64 = true := by decide
  by_cases ho : info.encoding_opt = .lossy
  swap
  · unfold SameStored expected
    cases ho' : info.encoding_opt <;> first | rfl | exact absurd ho' ho
  cases hr : f.resolution with
  | none => unfold SameStored expected; cases ht : f.type <;> simp only [ho, hr, ht]
  | some r =>
    have hg := hi.resolution f hf _ hr
    cases ht : f.type with
    | float32 =>
      have w := (w2 ho _ hr).1 ht
      have e : ∀ y : BitVec 32, BitVec.ofNat 32 (fromLE (toLE 4 y.toNat)) = y := asFloat_toLE
      unfold SameStored expected
      simp only [ho, ht, hr, e]
      change isNaN32 (asFloat bs) = isNaN32 (if k < groupSize info then memorylessV ops r (asFloat bs) else memoryless32 ops r (asFloat bs)) ∧
        (isNaN32 (asFloat bs) = false → if k < groupSize info then
          ops.quantV r (asFloat bs) = ops.quantV r (if k < groupSize info then memorylessV ops r (asFloat bs) else memoryless32 ops r (asFloat bs))
          else ops.quant32 r (asFloat bs) = ops.quant32 r (if k < groupSize info then memorylessV ops r (asFloat bs) else memoryless32 ops r (asFloat bs)))
      by_cases hlt : k < groupSize info
      · simp only [if_pos hlt] at w ⊢
        rcases w with w | ⟨a, b, c⟩
        · have : memorylessV ops r (asFloat bs) = qNaN32 := by unfold memorylessV; rw [w]; rfl
          rw [this, w, hq]
          exact ⟨rfl, fun h => by cases h⟩
        · obtain ⟨v1, ⟨v2, v3⟩, v4⟩ := C12_vector_values r _ hg a b c
          rw [IEEE.fin32_not_nan a, IEEE.fin32_not_nan v1]
          exact ⟨rfl, fun _ => v3.symm⟩
      · simp only [if_neg hlt] at w ⊢
        rcases w with w | ⟨a, b, c⟩
        · have : memoryless32 ops r (asFloat bs) = qNaN32 := by unfold memoryless32; rw [w]; rfl
          rw [this, w, hq]
          exact ⟨rfl, fun h => by cases h⟩
        · obtain ⟨v1, ⟨q, v2, _, v3⟩, v4⟩ := C12_float32_values r _ hg a b c
          rw [IEEE.fin32_not_nan a, IEEE.fin32_not_nan v1]
          exact ⟨rfl, fun _ => v2.trans v3.symm⟩
    | float64 =>
      have w := (w2 ho _ hr).2 ht
      have e : ∀ y : BitVec 64, BitVec.ofNat 64 (fromLE (toLE 8 y.toNat)) = y := asDouble_toLE
      unfold SameStored expected
      simp only [ho, ht, hr, e]
      change isNaN64 (asDouble bs) = isNaN64 (memoryless64 ops r (asDouble bs)) ∧
        (isNaN64 (asDouble bs) = false → ops.quant64 r (asDouble bs) = ops.quant64 r (memoryless64 ops r (asDouble bs)))
      rcases w with w | ⟨a, c⟩
      · have : memoryless64 ops r (asDouble bs) = qNaN64 := by unfold memoryless64; rw [w]; rfl
        rw [this, w, hq64]
        exact ⟨rfl, fun h => by cases h⟩
      · obtain ⟨v1, ⟨q, v2, _, v3⟩, v4⟩ := C12_float64_values r _ hg a c
        rw [IEEE.fin64_not_nan a, IEEE.fin64_not_nan v1]
        exact ⟨rfl, fun _ => v2.trans v3.symm⟩
    | _ => unfold SameStored expected; simp only [ho, ht, hr]

/-- The buffer decoded from the encoding of a cloud within the limits has values that are stored like those of the cloud. -/
theorem decoded_same (C : Compressor) (hC : C.Lawful) (info : EncodingInfo) (header : List Byte) (enc enc' : Encoder)
    (cloud out : List Byte) (room size fuel : Nat)
    (hinfo : SensibleInfo info) (hcloud : CloudWithin 4194300 4194300 (2 ^ 51 - 4) info cloud) (h64 : FieldLimit info)
    (hreach : Reach ops C info header enc) (henc : encodeView ops C enc cloud room false = .ok (enc', out, size))
    (hlim : info.compression_opt = .none ∨ ChunksWithin ops enc cloud cloud.length)
    (hlz : info.compression_opt = .lz4 → cloud.length ≤ intMax) (hmagic : out.take 10 ≠ magic)
    (buf once : List Byte) (hbuf : buf.length = cloud.length) (hdec : decodeCloud ops C fuel info out buf = .ok once) :
    cloud.length = once.length ∧ SameValues ops info cloud once := by
  have hwide : CloudWithin (2 ^ 29) (2 ^ 61) (2 ^ 61) info cloud := within_mono hinfo hcloud (by norm_num) (by norm_num) (by norm_num)
  obtain ⟨once', d1, d2, d3⟩ := C18_cloud_roundtrip_partial ops C hC info header enc enc' cloud out room size fuel (sensible_valid hinfo)
    (within_valid hinfo hwide) hreach henc h64 hlim hlz hmagic buf (by omega)
  rw [hdec, Res.ok.injEq] at d1
  subst d1
  refine ⟨by omega, ?_⟩
  intro i hi k f hk
  have hi : i < info.width.toNat * info.height.toNat := by
    rw [hcloud.size, Nat.mul_div_cancel _ (Nat.pos_of_ne_zero fun h => by
      rw [h] at hi; simp at hi)] at hi
    exact hi
  rw [d3 i hi k f hk]
  exact stored_twice hinfo hk (hcloud.range i hi k f hk)

/-- **C69, re-encoding (partial).** Encode a cloud of at most 4194300 steps (2^51 - 4 for doubles), decode it, and give the decoded
buffer to any encoder for the same description: it produces the very same bytes.  Missing: more steps (then the second
quantisation may differ: `C12_float32_fails`), and what C18 leaves out. -/
theorem C69_reencode_partial (C : Compressor) (hC : C.Lawful) (info : EncodingInfo) (header : List Byte)
    (enc enc' enc2 : Encoder) (cloud out : List Byte) (room size fuel : Nat)
    (hinfo : SensibleInfo info) (hcloud : CloudWithin 4194300 4194300 (2 ^ 51 - 4) info cloud) (h64 : FieldLimit info)
    (hreach : Reach ops C info header enc) (henc : encodeView ops C enc cloud room false = .ok (enc', out, size))
    (hlim : info.compression_opt = .none ∨ ChunksWithin ops enc cloud cloud.length)
    (hlz : info.compression_opt = .lz4 → cloud.length ≤ intMax) (hmagic : out.take 10 ≠ magic)
    (buf once : List Byte) (hbuf : buf.length = cloud.length) (hdec : decodeCloud ops C fuel info out buf = .ok once)
    (hreach2 : Reach ops C info header enc2) :
    ∃ enc2', encodeView ops C enc2 once room false = .ok (enc2', out, size) := by
  obtain ⟨hl, hs⟩ := decoded_same C hC info header enc enc' cloud out room size fuel hinfo hcloud h64 hreach henc hlim hlz hmagic buf once hbuf hdec
  rw [← C69_depends_on_values ops C info header enc2 hreach2 cloud once hl hs room false]
  obtain ⟨e0, g0, g1, g2, g3⟩ := reach_same hreach
  obtain ⟨e1, k0, k1, k2, k3⟩ := reach_same hreach2
  rw [g0, Res.ok.injEq] at k0
  subst k0
  have hc := encodeOut_congr ops C enc enc2 cloud room false (g1.trans k1.symm) (g2.trans k2.symm) (g3.trans k3.symm)
  unfold encodeOut at hc
  rw [henc] at hc
  obtain ⟨⟨a, b, c⟩, h1, h2⟩ := Res.bind_eq_ok.1 hc.symm
  simp only [Res.ok.injEq, Prod.mk.injEq] at h2
  obtain ⟨rfl, rfl⟩ := h2
  exact ⟨a, h1⟩

/-- **C12 and C69 for files (partial).** Compress a cloud within the limits to a file, decompress it, compress the result with a
new encoder for the same description: the second file is the first, byte for byte. -/
theorem C69_same_file_partial (C : Compressor) (hC : C.Lawful) (T : FloatText) (info : EncodingInfo) (enc enc' : Encoder)
    (cloud file : List Byte) (hb size fuel : Nat)
    (hinfo : SensibleInfo info) (hcloud : CloudWithin 4194300 4194300 (2 ^ 51 - 4) info cloud) (h64 : FieldLimit info)
    (h0 : mkEncoder ops info (encodeHeaderYaml T info) = .ok enc) (henc : encodeVector ops C enc hb cloud = .ok (enc', file, size))
    (hlim : info.compression_opt = .none ∨ ChunksWithin ops enc cloud cloud.length)
    (hlz : info.compression_opt = .lz4 → cloud.length ≤ intMax) (hsize : file.length < 1431260227)
    (buf once : List Byte) (hbuf : buf.length = cloud.length)
    (hdec : decodeCloud ops C fuel info (file.drop (encodeHeaderYaml T info).length) buf = .ok once) :
    encodeVector ops C enc hb once = .ok (enc', file, size) := by
  obtain ⟨room, payload, n, e1, e2, e3⟩ := C23_vector_agrees ops C enc enc' hb cloud file size henc
  have hh : enc.header = encodeHeaderYaml T info := (mkEncoder_info h0).2.1
  have hreach : Reach ops C info (encodeHeaderYaml T info) enc := .fresh enc h0
  rw [hh] at e2
  rw [e2, List.drop_left] at hdec
  obtain ⟨hl, hs⟩ := decoded_same C hC info _ enc enc' cloud payload room n fuel hinfo hcloud h64 hreach e1 hlim hlz
    (C18_magic ops C enc enc' cloud payload room n e1 (by rw [e2, List.length_append] at hsize; omega)) buf once hbuf hdec
  rw [← C69_depends_on_values_vector ops C info _ enc hreach cloud once hl hs hb]
  exact henc

/-! ## The other direction -/

/-- **C69, no collisions (partial).** Two clouds with the same compressed bytes have, in every field of every point, values that
decode to the same thing (`expected`, Spec/Cloud: the value itself unless it is a quantised float).  Missing: what C18 leaves out. -/
theorem C69_no_collision_partial (F : FloatOps) (C : Compressor) (hC : C.Lawful) (info : EncodingInfo) (header header2 : List Byte)
    (enc enc' enc2 enc2' : Encoder) (cloud cloud2 out : List Byte) (room room2 size size2 : Nat)
    (hinfo : ValidInfo F info) (hcloud : ValidCloud F info cloud) (hcloud2 : ValidCloud F info cloud2)
    (hreach : Reach F C info header enc) (hreach2 : Reach F C info header2 enc2)
    (henc : encodeView F C enc cloud room false = .ok (enc', out, size))
    (henc2 : encodeView F C enc2 cloud2 room2 false = .ok (enc2', out, size2))
    (h64 : FieldLimit info)
    (hlim : info.compression_opt = .none ∨ (ChunksWithin F enc cloud cloud.length ∧ ChunksWithin F enc2 cloud2 cloud2.length))
    (hlz : info.compression_opt = .lz4 → cloud.length ≤ intMax) (hmagic : out.take 10 ≠ magic) :
    ∀ i < info.width.toNat * info.height.toNat, ∀ (k : Nat) (f : PointField), info.fields[k]? = some f →
      expected F info k f (cell cloud 0 info.point_step.toNat i f.offset.toNat (sizeOf f.type)) =
        expected F info k f (cell cloud2 0 info.point_step.toNat i f.offset.toNat (sizeOf f.type)) := by
  have hl : cloud.length = cloud2.length := by rw [hcloud.size, hcloud2.size]
  obtain ⟨b1, a1, _, a3⟩ := C18_cloud_roundtrip_partial F C hC info header enc enc' cloud out room size 0 hinfo hcloud hreach henc h64
    (hlim.imp id And.left) hlz hmagic (List.replicate cloud.length 0#8) (by simp)
  obtain ⟨b2, c1, _, c3⟩ := C18_cloud_roundtrip_partial F C hC info header2 enc2 enc2' cloud2 out room2 size2 0 hinfo hcloud2 hreach2 henc2 h64
    (hlim.imp id And.right) (by rw [← hl]; exact hlz) hmagic (List.replicate cloud.length 0#8) (by simp [hl])
  rw [a1, Res.ok.injEq] at c1
  subst c1
  intro i hi k f hk
  rw [← a3 i hi k f hk, ← c3 i hi k f hk]

/-! ## Concrete clouds -/

/-- `numCloud` with other bytes after the 16-bit intensity, another NaN and a slightly different x. -/
def dirtyCloud : List Byte :=
  toLE 4 0x4145851e ++ toLE 4 0xba03126f ++ toLE 4 0xffc00001 ++ toLE 2 7 ++ [0xde#8, 0xad#8] ++ toLE 4 0x42c8e979 ++ toLE 8 0x41d954fc4007e5c9 ++
  (toLE 4 0xc0500000 ++ toLE 4 0x3089705f ++ toLE 4 0x457a0000 ++ toLE 2 8 ++ [0xbe#8, 0xef#8] ++ toLE 4 0x7fc00000 ++ toLE 8 0x41d954fc400e4c30)

theorem dirty_same : SameValues ops numInfo numCloud dirtyCloud := by
  intro i hi k f hk
  have hi : i < 2 := hi
  have hlt : k < 6 := (List.getElem?_eq_some_iff.1 hk).1
  have h1 : i = 0 ∨ i = 1 := by omega
  have h2 : k = 0 ∨ k = 1 ∨ k = 2 ∨ k = 3 ∨ k = 4 ∨ k = 5 := by omega
  rcases h1 with rfl | rfl <;> rcases h2 with rfl | rfl | rfl | rfl | rfl | rfl <;>
    simp only [numInfo, List.getElem?_cons_zero, List.getElem?_cons_succ, Option.some.injEq] at hk <;> subst hk <;>
    decide +kernel

theorem dirty_within : CloudWithin 4194300 4194300 (2 ^ 51 - 4) numInfo dirtyCloud where
  size := by decide +kernel
  addressable := by decide +kernel
  range := by
    intro i hi k f hk
    have hi : i < 2 := hi
    have hlt : k < 6 := (List.getElem?_eq_some_iff.1 hk).1
    have h1 : i = 0 ∨ i = 1 := by omega
    have h2 : k = 0 ∨ k = 1 ∨ k = 2 ∨ k = 3 ∨ k = 4 ∨ k = 5 := by omega
    rcases h1 with rfl | rfl <;> rcases h2 with rfl | rfl | rfl | rfl | rfl | rfl <;>
      simp only [numInfo, List.getElem?_cons_zero, List.getElem?_cons_succ, Option.some.injEq] at hk <;> subst hk <;>
      refine ⟨fun h => by simp at h, fun _ r hr => ?_⟩ <;> simp at hr <;> subst hr <;>
      refine ⟨fun h => ?_, fun h => ?_⟩ <;> first | (simp at h; done) | decide +kernel

/-- The two clouds differ; their encodings do not. -/
example : numCloud ≠ dirtyCloud ∧ encodeView ops storeComp numEnc dirtyCloud 10000 false = .ok (numEnc, numOut, numOut.length) :=
  ⟨by decide +kernel, by
    rw [← C69_depends_on_values ops storeComp numInfo [] numEnc (num_reach _) numCloud dirtyCloud (by decide +kernel) dirty_same]
    exact num_encode⟩

/-- A declared byte does matter. -/
example : ∃ c2, c2.length = numCloud.length ∧ ¬SameValues ops numInfo numCloud c2 ∧
    encodeView ops storeComp numEnc c2 10000 false ≠ encodeView ops storeComp numEnc numCloud 10000 false :=
  ⟨numCloud.set 12 9#8, by decide +kernel, fun h => absurd (h 0 (by decide +kernel) 3 _ rfl) (by decide +kernel), by decide +kernel⟩

/-- Re-encoding the decoded buffer of `C11_cloud`. -/
example : ∃ enc2', encodeView ops storeComp numEnc numOnce 10000 false = .ok (enc2', numOut, numOut.length) :=
  C69_reencode_partial storeComp storeComp_lawful numInfo [] numEnc numEnc numEnc numCloud numOut 10000 numOut.length 0 num_sensible num_within
    (by decide) (num_reach _) num_encode (Or.inl rfl) (fun h => by simp [numInfo] at h) (by decide +kernel) (List.replicate 56 0#8) numOnce
    (by decide +kernel) num_decode (num_reach _)

/-- Padding alone. -/
example : encodeView ops storeComp numEnc ((numCloud.set 14 0xaa#8).set 42 0x55#8) 10000 false = .ok (numEnc, numOut, numOut.length) := by
  rw [C69_padding ops storeComp numInfo [] numEnc (num_reach _) ((numCloud.set 14 0xaa#8).set 42 0x55#8) numCloud (by decide +kernel)
    (by
      intro i hi
      exact (by decide +kernel : ∀ i < 2, ∀ f ∈ numInfo.fields,
        cell ((numCloud.set 14 0xaa#8).set 42 0x55#8) 0 numInfo.point_step.toNat i f.offset.toNat (sizeOf f.type) =
          cell numCloud 0 numInfo.point_step.toNat i f.offset.toNat (sizeOf f.type)) i hi)]
  exact num_encode

def numOnceFile : List Byte :=
  match decodeCloud ops storeComp 0 numInfo (numFile.2.1.drop (encodeHeaderYaml FloatTxt.text numInfo).length) (List.replicate 56 0x11#8) with
  | .ok r => r
  | _ => []

/-- A whole file: decompressed into a buffer that already held other bytes, and compressed again. -/
example : numOnceFile ≠ numCloud ∧
    encodeVector ops storeComp numFileEnc (encodeHeaderYaml FloatTxt.text numInfo).length numOnceFile = .ok numFile :=
  ⟨by decide +kernel,
    C69_same_file_partial storeComp storeComp_lawful FloatTxt.text numInfo numFileEnc numFile.1 numCloud numFile.2.1
      (encodeHeaderYaml FloatTxt.text numInfo).length numFile.2.2 0 num_sensible num_within (by decide) (by decide +kernel) (by decide +kernel)
      (Or.inl rfl) (fun h => by simp [numInfo] at h) (by decide +kernel) (List.replicate 56 0x11#8) numOnceFile (by decide +kernel) (by decide +kernel)⟩

/-- `numCloud` and `dirtyCloud` have the same bytes, and so the same values after decoding. -/
example : ∀ i < 2, ∀ (k : Nat) (f : PointField), numInfo.fields[k]? = some f →
    expected ops numInfo k f (cell numCloud 0 28 i f.offset.toNat (sizeOf f.type)) =
      expected ops numInfo k f (cell dirtyCloud 0 28 i f.offset.toNat (sizeOf f.type)) :=
  C69_no_collision_partial ops storeComp storeComp_lawful numInfo [] [] numEnc numEnc numEnc numEnc numCloud dirtyCloud numOut 10000 10000
    numOut.length numOut.length (sensible_valid num_sensible)
    (within_valid num_sensible (within_mono num_sensible num_within (by norm_num) (by norm_num) (by norm_num)))
    (within_valid num_sensible (within_mono num_sensible dirty_within (by norm_num) (by norm_num) (by norm_num)))
    (num_reach _) (num_reach _) num_encode (by decide +kernel) (by decide) (Or.inl rfl) (fun h => by simp [numInfo] at h) (by decide +kernel)

end Cloudini.Props
