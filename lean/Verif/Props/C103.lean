import Verif.Props.C101

/-!
# C103 Compressing and selecting points commute

Points may be dropped, repeated or reordered before a cloud is compressed or after it was decompressed: the result is the same.  In particular the
order in which a cloud lists its points has no influence on what becomes of a point.
-/

namespace Cloudini.Props
open IEEE (ops)

/-- `back` is a buffer into which somebody decoded the encoding of `cloud`: with any lawful compression library, an encoder of any history, any room and
any buffer to start with. -/
structure Trip (F : FloatOps) (info : EncodingInfo) (cloud back : List Byte) : Prop where
  trip : ∃ (C : Compressor) (header : List Byte) (enc enc' : Encoder) (out : List Byte) (room size fuel : Nat) (buf : List Byte),
    C.Lawful ∧ Reach F C info header enc ∧ encodeView F C enc cloud room false = .ok (enc', out, size) ∧
    (info.compression_opt = .none ∨ ChunksWithin F enc cloud cloud.length) ∧ (info.compression_opt = .lz4 → cloud.length ≤ intMax) ∧
    out.take 10 ≠ magic ∧ cloud.length ≤ buf.length ∧ decodeCloud F C fuel info out buf = .ok back

/-- Same fields, same step, same option: the descriptions may differ in width, height, version, compression and thread. -/
structure SameLayout (a b : EncodingInfo) : Prop where
  fields : a.fields = b.fields
  step : a.point_step = b.point_step
  option : a.encoding_opt = b.encoding_opt

/-- Point `j` of cloud `b` has the declared fields of point `i` of cloud `a`. -/
def SamePoint (info : EncodingInfo) (a b : List Byte) (i j : Nat) : Prop :=
  ∀ f ∈ info.fields, cell b 0 info.point_step.toNat j f.offset.toNat (sizeOf f.type) = cell a 0 info.point_step.toNat i f.offset.toNat (sizeOf f.type)

theorem trip_expected {F : FloatOps} {info : EncodingInfo} {cloud back : List Byte} (hinfo : ValidInfo F info) (hcloud : ValidCloud F info cloud)
    (h64 : FieldLimit info) (h : Trip F info cloud back) (i : Nat) (hi : i < info.width.toNat * info.height.toNat) (k : Nat) (f : PointField)
    (hk : info.fields[k]? = some f) :
    cell back 0 info.point_step.toNat i f.offset.toNat (sizeOf f.type) =
      expected F info k f (cell cloud 0 info.point_step.toNat i f.offset.toNat (sizeOf f.type)) := by
  obtain ⟨C, header, enc, enc', out, room, size, fuel, buf, hC, hreach, henc, hlim, hlz, hmagic, hbuf, hdec⟩ := h.trip
  obtain ⟨buf', d1, _, d3⟩ := C18_cloud_roundtrip_partial F C hC info header enc enc' cloud out room size fuel hinfo hcloud hreach henc h64 hlim hlz
    hmagic buf hbuf
  rw [hdec, Res.ok.injEq] at d1
  subst d1
  exact d3 i hi k f hk

/-- **C103 (partial).** Let the points of cloud `b` be points of cloud `a`: its `j`-th is the `pick j`-th of `a`.  Then after the trip the `j`-th point of `b` is
the `pick j`-th of `a`, whatever the compressions, versions and histories were.  Missing: what C18 leaves out. -/
theorem C103_selection_partial (F : FloatOps) (infoA infoB : EncodingInfo) (hsame : SameLayout infoA infoB) (a b backA backB : List Byte)
    (hA : ValidInfo F infoA) (hB : ValidInfo F infoB) (ha : ValidCloud F infoA a) (hb : ValidCloud F infoB b) (hlA : FieldLimit infoA) (hlB : FieldLimit infoB)
    (hta : Trip F infoA a backA) (htb : Trip F infoB b backB) (pick : Nat → Nat)
    (hpick : ∀ j, j < infoB.width.toNat * infoB.height.toNat → pick j < infoA.width.toNat * infoA.height.toNat ∧ SamePoint infoA a b (pick j) j) :
    ∀ j, j < infoB.width.toNat * infoB.height.toNat → SamePoint infoA backA backB (pick j) j := by
  intro j hj f hf
  obtain ⟨h1, h2⟩ := hpick j hj
  obtain ⟨k, hk⟩ := List.getElem?_of_mem hf
  have e1 := trip_expected hA ha hlA hta (pick j) h1 k f hk
  have e2 := trip_expected hB hb hlB htb j hj k f (by rw [← hsame.fields]; exact hk)
  rw [← hsame.step] at e2
  rw [e1, e2, h2 f hf]
  unfold expected groupSize
  rw [hsame.fields, hsame.option]

/-- Special case: two points with the same declared fields, at whatever places of one cloud, are the same point afterwards. -/
theorem C103_duplicates_partial (F : FloatOps) (info : EncodingInfo) (cloud back : List Byte) (hinfo : ValidInfo F info) (hcloud : ValidCloud F info cloud)
    (h64 : FieldLimit info) (ht : Trip F info cloud back) (i j : Nat) (hi : i < info.width.toNat * info.height.toNat)
    (hj : j < info.width.toNat * info.height.toNat) (h : SamePoint info cloud cloud i j) : SamePoint info back back i j := by
  intro f hf
  obtain ⟨k, hk⟩ := List.getElem?_of_mem hf
  rw [trip_expected hinfo hcloud h64 ht i hi k f hk, trip_expected hinfo hcloud h64 ht j hj k f hk, h f hf]

/-! ## The two points of `Props/C101` in the other order, in the version before -/

def swapInfo : EncodingInfo := { nearInfo with width := 1#32, height := 2#32, version := 4#8 }
def swapCloud : List Byte := nearCloud.drop 12 ++ nearCloud.take 12

theorem swap_sensible : SensibleInfo swapInfo where
  step := by decide
  version := by decide
  option := by decide
  types := by decide
  inside := by decide
  disjoint := by decide
  resolution := near_sensible.resolution

theorem swap_within : CloudWithin (2 ^ 29) (2 ^ 61) (2 ^ 61) swapInfo swapCloud where
  size := by decide +kernel
  addressable := by decide +kernel
  range := by
    intro i hi k f hk
    have hi : i < 2 := hi
    have hlt : k < 3 := (List.getElem?_eq_some_iff.1 hk).1
    have h1 : i = 0 ∨ i = 1 := by omega
    have h2 : k = 0 ∨ k = 1 ∨ k = 2 := by omega
    rcases h1 with rfl | rfl <;> rcases h2 with rfl | rfl | rfl <;>
      simp only [swapInfo, nearInfo, List.getElem?_cons_zero, List.getElem?_cons_succ, Option.some.injEq] at hk <;> subst hk <;>
      refine ⟨fun h => by simp at h, fun _ r hr => ?_⟩ <;> simp at hr <;> subst hr <;>
      refine ⟨fun h => ?_, fun h => ?_⟩ <;> first | (simp at h; done) | decide +kernel

def swapEnc : Encoder :=
  match mkEncoder ops swapInfo [] with
  | .ok e => e
  | _ => ⟨swapInfo, [], []⟩
def swapOut : Encoder × List Byte × Nat :=
  match encodeView ops storeComp swapEnc swapCloud 10000 false with
  | .ok r => r
  | _ => (swapEnc, [], 0)
def swapBack : List Byte :=
  match decodeCloud ops storeComp 0 swapInfo swapOut.2.1 (List.replicate 30 1#8) with
  | .ok b => b
  | _ => []

theorem near_trip : Trip ops nearInfo nearCloud nearBack :=
  ⟨storeComp, [], nearEnc, nearOut.1, nearOut.2.1, 10000, nearOut.2.2, 0, List.replicate 24 0#8, storeComp_lawful, .fresh _ (by decide +kernel), near_encode,
    Or.inl rfl, fun h => by simp [nearInfo] at h, by decide +kernel, by decide +kernel, by decide +kernel⟩

theorem swap_trip : Trip ops swapInfo swapCloud swapBack :=
  ⟨storeComp, [], swapEnc, swapOut.1, swapOut.2.1, 10000, swapOut.2.2, 0, List.replicate 30 1#8, storeComp_lawful, .fresh _ (by decide +kernel),
    by decide +kernel, Or.inl rfl, fun h => by simp [swapInfo, nearInfo] at h, by decide +kernel, by decide +kernel, by decide +kernel⟩

example : SamePoint nearInfo nearBack swapBack 1 0 ∧ SamePoint nearInfo nearBack swapBack 0 1 := by
  have h := C103_selection_partial ops nearInfo swapInfo ⟨rfl, rfl, rfl⟩ nearCloud swapCloud nearBack swapBack (sensible_valid near_sensible)
    (sensible_valid swap_sensible) (within_valid near_sensible near_within) (within_valid swap_sensible swap_within) (by decide) (by decide) near_trip swap_trip
    (fun j => 1 - j) (by
      intro j hj
      have hj : j < 2 := hj
      have hc : j = 0 ∨ j = 1 := by omega
      rcases hc with rfl | rfl <;> refine ⟨by decide, ?_⟩ <;> unfold SamePoint <;> decide +kernel)
  exact ⟨h 0 (by decide), h 1 (by decide)⟩

/-- The trip did change the points. -/
example : ¬ SamePoint nearInfo nearCloud nearBack 1 1 := by unfold SamePoint; decide +kernel

end Cloudini.Props
