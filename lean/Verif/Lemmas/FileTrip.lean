import Verif.Props.C25_C28
import Verif.Props.C18_C20
import Verif.Spec.File

/-!
# A whole file: `encode` into a vector, `DecodeHeader`, `decode`
-/

namespace Cloudini.Props

theorem applyWrites_length (ws : List Write) : ∀ (buf buf' : List Byte) (base : Nat), applyWrites buf base ws = .ok buf' → buf'.length = buf.length := by
  induction ws with
  | nil => intro buf buf' base h; simp only [applyWrites, Res.ok.injEq] at h; rw [h]
  | cons w ws ih =>
    obtain ⟨o, v⟩ := w
    intro buf buf' base h
    unfold applyWrites at h
    obtain ⟨b1, h1, h⟩ := Res.bind_eq_ok.1 h
    rw [ih _ _ _ h, writeAt_length h1]

theorem decodeFields_length (F : FloatOps) (ds : List Dec) : ∀ (ds' : List Dec) (input rest buf buf' : List Byte) (base : Nat),
    decodeFields F ds input buf base = .ok (ds', rest, buf') → buf'.length = buf.length := by
  induction ds with
  | nil => intro ds' input rest buf buf' base h; simp only [decodeFields, Res.ok.injEq, Prod.mk.injEq] at h; rw [h.2.2]
  | cons d ds ih =>
    intro ds' input rest buf buf' base h
    unfold decodeFields at h
    obtain ⟨⟨d', ws, i1⟩, h1, h⟩ := Res.bind_eq_ok.1 h
    obtain ⟨b1, h2, h⟩ := Res.bind_eq_ok.1 h
    obtain ⟨⟨ds1, i2, b2⟩, h3, h⟩ := Res.bind_eq_ok.1 h
    simp only [Res.ok.injEq, Prod.mk.injEq] at h
    obtain ⟨_, _, rfl⟩ := h
    rw [ih _ _ _ _ _ _ h3, applyWrites_length _ _ _ _ h2]

theorem decodePointsV4_room (F : FloatOps) (m step n : Nat) : ∀ (ds ds' : List Dec) (input rest buf buf' : List Byte) (base base' : Nat),
    decodePointsV4 F m step n ds input buf base = .ok (ds', rest, buf', base') → 0 < n → 0 < step →
      buf'.length = buf.length ∧ base + n * step ≤ buf.length ∧ base' = base + n * step := by
  induction n with
  | zero => intro _ _ _ _ _ _ _ _ _ h; omega
  | succ n ih =>
    intro ds ds' input rest buf buf' base base' h _ hs
    unfold decodePointsV4 at h
    split at h
    · simp at h
    split at h
    · simp at h
    next hr =>
    obtain ⟨⟨d1, i1, b1⟩, h1, h⟩ := Res.bind_eq_ok.1 h
    have hl := decodeFields_length F _ _ _ _ _ _ _ h1
    simp only at h
    by_cases hn : n = 0
    · subst hn
      simp only [decodePointsV4, Res.ok.injEq, Prod.mk.injEq] at h
      obtain ⟨_, _, rfl, rfl⟩ := h
      exact ⟨hl, by omega, by omega⟩
    · obtain ⟨e1, e2, e3⟩ := ih _ _ _ _ _ _ _ _ h (by omega) hs
      rw [Nat.add_mul]
      exact ⟨e1.trans hl, by omega, by omega⟩

theorem decodeChunk_room (F : FloatOps) (C : Compressor) (fuel : Nat) (info : EncodingInfo) (ds ds' : List Dec) (m : Nat) (chunk buf buf' : List Byte)
    (base base' n : Nat) (hn : 0 < n) (hs : 0 < info.point_step.toNat)
    (h : decodeChunk F C fuel info ds m chunk buf base n = .ok (ds', buf', base')) : base + n * info.point_step.toNat ≤ buf.length := by
  unfold decodeChunk at h
  obtain ⟨view, _, h⟩ := Res.bind_eq_ok.1 h
  split at h
  · unfold decodeV5Chunk at h
    rw [if_neg (by omega)] at h
    split at h
    · simp at h
    · have : 0 < n * info.point_step.toNat := Nat.mul_pos hn hs
      omega
  · unfold decodeV4Chunk at h
    simp only [gt_iff_lt, hn, if_true] at h
    obtain ⟨⟨d1, i1, b1, s1⟩, h1, h⟩ := Res.bind_eq_ok.1 h
    exact (decodePointsV4_room F _ _ n _ _ _ _ _ _ _ _ h1 hn hs).2.1

theorem decodeLoop_room (F : FloatOps) (C : Compressor) (info : EncodingInfo) (m points : Nat) (ds : List Dec) (data buf buf' : List Byte)
    (base : Nat) (fs : List PointField) (hs : SpotsIn fs ds)
    (ha : usesV5 info = true → ∀ f ∈ getAdaptiveFields info, ∃ p ∈ fs, f.offset = p.offset.toNat ∧ f.bpv = sizeOf p.type) (hst : 0 < info.point_step.toNat) (hL : buf.length < 2 ^ 64)
    (hb : base ≤ buf.length)
    (h : decodeLoop F C info m points ds data buf base = .ok buf') : base + points * info.point_step.toNat ≤ buf.length := by
  induction points using Nat.strongRecOn generalizing ds data buf base with
  | ind points ih =>
    unfold decodeLoop at h
    split at h
    · split at h
      · simp at h
      · next hp =>
        have : points = 0 := by omega
        subst this
        simpa using hb
    split at h
    · simp at h
    next hp =>
    obtain ⟨⟨sz, d1⟩, _, h⟩ := Res.bind_eq_ok.1 h
    simp only at h
    split at h
    · simp at h
    obtain ⟨⟨ds1, b1, base1⟩, h1, h⟩ := Res.bind_eq_ok.1 h
    simp only at h
    have hK := pos_K
    generalize hnn : min points kPointsPerChunk = n at *
    obtain ⟨e1, e2, rfl⟩ := decodeChunk_foot F C 0 info ds ds1 m _ buf b1 base base1 n fs hs ha hst hL (by omega) h1
    have hr := decodeChunk_room F C 0 info ds ds1 m _ buf b1 base _ n (by omega) hst h1
    have e3 := ih (points - n) (by omega) ds1 _ b1 _ e1 (by rw [e2.1]; exact hL) (by rw [e2.1]; exact hr) h
    rw [e2.1, Nat.add_assoc, ← Nat.add_mul, show n + (points - n) = points by omega] at e3
    exact e3

/-- A successful decode means that the output had room for every declared point. -/
theorem decodeCloud_room {F : FloatOps} {C : Compressor} {info : EncodingInfo} {payload buf buf' : List Byte} {fuel : Nat}
    (hstep : 0 < info.point_step.toNat) (hver : 3 ≤ info.version.toNat) (hbuf : buf.length < 2 ^ 64)
    (h : decodeCloud F C fuel info payload buf = .ok buf') : info.width.toNat * info.height.toNat * info.point_step.toNat ≤ buf.length := by
  unfold decodeCloud at h
  obtain ⟨⟨ds, m⟩, hb, h⟩ := Res.bind_eq_ok.1 h
  simp only at h
  split at h
  · simp at h
  rw [if_pos (show info.version ≥ 3#8 from hver)] at h
  have := decodeLoop_room F C info m _ ds payload buf buf' 0 info.fields (buildDecoders_spots F info ds m hb)
    (fun _ f hf => (adaptive_declared info f hf).1) hstep hbuf (Nat.zero_le _) h
  omega

theorem header_trip {T : FloatText} (hT : T.Lawful) {F : FloatOps} {info : EncodingInfo} {cloud : List Byte} (ok : FileOk T F info cloud)
    (payload : List Byte) : decodeHeader T (encodeHeaderYaml T info ++ payload) = .ok (info, payload) := by
  rw [C26_yaml_roundtrip_partial T hT info ⟨by have := ok.valid.version; omega, ok.version⟩ ok.valid.option ok.comp ok.valid.types ok.config ok.names id
    ok.resolutions payload]
  have : (info.fields.map fun f => { f with resolution := f.resolution.map id }) = info.fields := by
    conv => rhs; rw [← List.map_id info.fields]
    apply List.map_congr_left
    intro f _
    simp
  rw [this]

/-- `encode` (into a view of any size or into a vector) wrote header and payload: reading the header gives the description back, and decoding the
rest gives the cloud. -/
theorem payload_trip {T : FloatText} (hT : T.Lawful) {F : FloatOps} {C : Compressor} (hC : C.Lawful) {info : EncodingInfo} {cloud : List Byte}
    (ok : FileOk T F info cloud) {enc enc' : Encoder} {room n : Nat} {payload : List Byte}
    (h0 : mkEncoder F info (encodeHeaderYaml T info) = .ok enc) (h1 : encodeView F C enc cloud room false = .ok (enc', payload, n))
    (hlim : info.compression_opt = .none ∨ ChunksWithin F enc cloud cloud.length) (hsize : payload.length < 1431260227) :
    decodeHeader T (encodeHeaderYaml T info ++ payload) = .ok (info, payload) ∧
      ∀ fuel buf, cloud.length ≤ buf.length → ∃ buf', decodeCloud F C fuel info payload buf = .ok buf' ∧ buf'.length = buf.length ∧
        Decoded F info cloud buf' := by
  refine ⟨header_trip hT ok payload, fun fuel buf hb => ?_⟩
  exact C18_cloud_roundtrip_partial F C hC info (encodeHeaderYaml T info) enc enc' cloud payload room n fuel ok.valid ok.data
    (.fresh enc h0) h1 ok.count hlim ok.lz4 (C18_magic F C enc enc' cloud payload room n h1 hsize) buf hb

theorem vector_trip {T : FloatText} (hT : T.Lawful) {F : FloatOps} {C : Compressor} (hC : C.Lawful) {info : EncodingInfo} {cloud : List Byte}
    (ok : FileOk T F info cloud) {enc enc' : Encoder} {hb n : Nat} {out : List Byte}
    (h0 : mkEncoder F info (encodeHeaderYaml T info) = .ok enc) (h1 : encodeVector F C enc hb cloud = .ok (enc', out, n))
    (hlim : info.compression_opt = .none ∨ ChunksWithin F enc cloud cloud.length) (hsize : out.length < 1431260227) :
    n = out.length ∧ ∃ payload, decodeHeader T out = .ok (info, payload) ∧
      ∀ fuel buf, cloud.length ≤ buf.length → ∃ buf', decodeCloud F C fuel info payload buf = .ok buf' ∧ buf'.length = buf.length ∧
        Decoded F info cloud buf' := by
  obtain ⟨room, payload, k, e1, e2, e3⟩ := C23_vector_agrees F C enc enc' hb cloud out n h1
  have hh : enc.header = encodeHeaderYaml T info := (mkEncoder_info h0).2.1
  rw [hh] at e2
  have := payload_trip hT hC ok h0 e1 hlim (by rw [e2, List.length_append] at hsize; omega)
  rw [← e2] at this
  exact ⟨e3, payload, this⟩

/-- The same for a view with the header in front. -/
theorem view_trip {T : FloatText} (hT : T.Lawful) {F : FloatOps} {C : Compressor} (hC : C.Lawful) {info : EncodingInfo} {cloud : List Byte}
    (ok : FileOk T F info cloud) {enc enc' : Encoder} {room n : Nat} {out : List Byte}
    (h0 : mkEncoder F info (encodeHeaderYaml T info) = .ok enc) (h1 : encodeView F C enc cloud room true = .ok (enc', out, n))
    (hlim : info.compression_opt = .none ∨ ChunksWithin F enc cloud cloud.length) (hsize : out.length < 1431260227) :
    n = out.length ∧ ∃ payload, decodeHeader T out = .ok (info, payload) ∧
      ∀ fuel buf, cloud.length ≤ buf.length → ∃ buf', decodeCloud F C fuel info payload buf = .ok buf' ∧ buf'.length = buf.length ∧
        Decoded F info cloud buf' := by
  obtain ⟨payload, k, e1, e2⟩ := C23_header_then_payload F C enc enc' cloud out room n h1
  have hh : enc.header = encodeHeaderYaml T info := (mkEncoder_info h0).2.1
  rw [hh] at e2
  have := payload_trip hT hC ok h0 e1 hlim (by rw [e2, List.length_append] at hsize; omega)
  rw [← e2] at this
  exact ⟨(C23_view_size F C _ _ _ _ _ _ _ h1).1, payload, this⟩

end Cloudini.Props
