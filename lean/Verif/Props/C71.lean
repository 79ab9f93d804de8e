import Verif.Props.C18_sizes
import Verif.Props.C25_C28

/-!
# C71: format versions

`EncodingInfo::version` is an input of the encoder ("callers can request an older wire format for backward compatibility with old readers",
cloudini.cpp:300-301).
-/

namespace Cloudini.Props

/-- The same description, for format version `v`. -/
def forVersion (info : EncodingInfo) (v : BitVec 8) : EncodingInfo := { info with version := v }

theorem forVersion_valid {F : FloatOps} {info : EncodingInfo} (h : ValidInfo F info) {v : BitVec 8} (hv : 3 ≤ v.toNat) : ValidInfo F (forVersion info v) :=
  ⟨h.step, hv, h.option, h.types, h.inside, h.disjoint, h.resolution⟩

theorem forVersion_follows {F : FloatOps} {info : EncodingInfo} {v : BitVec 8} {k : Nat} {f : PointField} {prev : Option (List Byte)} {bs : List Byte}
    (h : Follows F info k f prev bs) : Follows F (forVersion info v) k f prev bs := h

theorem forVersion_cloud {F : FloatOps} {info : EncodingInfo} {cloud : List Byte} (h : ValidCloud F info cloud) (v : BitVec 8) :
    ValidCloud F (forVersion info v) cloud := ⟨h.size, h.addressable, fun i hi k f hk => forVersion_follows (h.range i hi k f hk)⟩

/-- **C71, values (partial).** Written for any two of the versions 3, 4 and 5, the same cloud decodes to the same field values.  Missing: what C18 leaves out. -/
theorem C71_same_values_partial (F : FloatOps) (C C' : Compressor) (hC : C.Lawful) (hC' : C'.Lawful) (info : EncodingInfo) (v v' : BitVec 8)
    (hv : 3 ≤ v.toNat) (hv' : 3 ≤ v'.toNat) (header header' : List Byte) (enc e1 enc' e1' : Encoder) (cloud out out' : List Byte)
    (room room' size size' fuel fuel' : Nat) (hinfo : ValidInfo F info) (hcloud : ValidCloud F info cloud)
    (hr : Reach F C (forVersion info v) header enc) (hr' : Reach F C' (forVersion info v') header' enc')
    (he : encodeView F C enc cloud room false = .ok (e1, out, size)) (he' : encodeView F C' enc' cloud room' false = .ok (e1', out', size'))
    (h64 : FieldLimit (forVersion info v)) (h64' : FieldLimit (forVersion info v'))
    (hlim : info.compression_opt = .none ∨ (ChunksWithin F enc cloud cloud.length ∧ ChunksWithin F enc' cloud cloud.length))
    (hlz : info.compression_opt = .lz4 → cloud.length ≤ intMax) (hm : out.take 10 ≠ magic) (hm' : out'.take 10 ≠ magic)
    (buf buf' : List Byte) (hbuf : cloud.length ≤ buf.length) (hbuf' : cloud.length ≤ buf'.length) :
    ∃ res res', decodeCloud F C fuel (forVersion info v) out buf = .ok res ∧ decodeCloud F C' fuel' (forVersion info v') out' buf' = .ok res' ∧
      ∀ i, i < info.width.toNat * info.height.toNat → ∀ f ∈ info.fields,
        cell res 0 info.point_step.toNat i f.offset.toNat (sizeOf f.type) = cell res' 0 info.point_step.toNat i f.offset.toNat (sizeOf f.type) := by
  obtain ⟨res, a1, _, a3⟩ := C18_cloud_roundtrip_partial F C hC _ header enc e1 cloud out room size fuel (forVersion_valid hinfo hv) (forVersion_cloud hcloud v)
    hr he h64 (hlim.imp_right And.left) hlz hm buf hbuf
  obtain ⟨res', b1, _, b3⟩ := C18_cloud_roundtrip_partial F C' hC' _ header' enc' e1' cloud out' room' size' fuel' (forVersion_valid hinfo hv')
    (forVersion_cloud hcloud v') hr' he' h64' (hlim.imp_right And.right) hlz hm' buf' hbuf'
  refine ⟨res, res', a1, b1, fun i hi f hf => ?_⟩
  obtain ⟨k, hk⟩ := List.getElem?_of_mem hf
  exact (a3 i hi k f hk).trans (b3 i hi k f hk).symm

/-! ## Bytes -/

theorem buildAll_congr {β : Type} (g h : PointField → Res β) (l : List PointField) (e : ∀ x ∈ l, g x = h x) : buildAll g l = buildAll h l := by
  induction l with
  | nil => rfl
  | cons x l ih =>
    unfold buildAll
    rw [e x (by simp), ih fun y hy => e y (by simp [hy])]

/-- No field of the description is stored differently by the two versions: none is adaptive in one of them, and no FLOAT64 without resolution is XORed in
one and Gorilla-coded in the other. -/
structure SameCodec (info : EncodingInfo) (v v' : BitVec 8) : Prop where
  left : NotAdaptive (forVersion info v)
  right : NotAdaptive (forVersion info v')
  doubles : info.encoding_opt = .none ∨ (4 ≤ v.toNat ↔ 4 ≤ v'.toNat) ∨ ∀ f ∈ info.fields, f.type = .float64 → f.resolution ≠ none

theorem same_encoders (F : FloatOps) (info : EncodingInfo) (v v' : BitVec 8) (h : SameCodec info v v') :
    buildV4Encoders F (forVersion info v) = buildV4Encoders F (forVersion info v') := by
  unfold buildV4Encoders
  by_cases hn : info.encoding_opt = .none
  · rw [if_pos (show (forVersion info v).encoding_opt = .none from hn), if_pos (show (forVersion info v').encoding_opt = .none from hn)]; rfl
  rw [if_neg (show ¬ (forVersion info v).encoding_opt = .none from hn), if_neg (show ¬ (forVersion info v').encoding_opt = .none from hn)]
  have h1 : leadingEncoder F (forVersion info v) = leadingEncoder F (forVersion info v') := rfl
  have h2 : buildAll (createEncoder F (forVersion info v)) (info.fields.drop (leadingLossyFloatCount info)) =
      buildAll (createEncoder F (forVersion info v')) (info.fields.drop (leadingLossyFloatCount info)) := by
    apply buildAll_congr
    intro f hf
    have hmem := List.mem_of_mem_drop hf
    unfold createEncoder
    cases ht : f.type with
    | float64 =>
      cases hr : f.resolution with
      | some r => rfl
      | none =>
        have hv : (4#8 ≤ v) ↔ (4#8 ≤ v') := by
          rw [BitVec.le_def, BitVec.le_def]
          rcases h.doubles with hd | hd | hd
          · exact (hn hd).elim
          · exact hd
          · exact (hd f hmem ht hr).elim
        change (if v ≥ 4#8 then _ else _) = (if v' ≥ 4#8 then _ else _)
        by_cases hc : 4#8 ≤ v
        · rw [if_pos hc, if_pos (hv.1 hc)]
        · rw [if_neg hc, if_neg (fun h => hc (hv.2 h))]
    | _ => rfl
  rw [h1]
  change (leadingEncoder F (forVersion info v') >>= fun lead => buildAll (createEncoder F (forVersion info v)) (info.fields.drop (leadingLossyFloatCount info)) >>= _) = _
  rw [h2]
  rfl

theorem v4Loop_version (F : FloatOps) (C : Compressor) (a b : EncodingInfo) (hs : a.point_step = b.point_step) (hc : a.compression_opt = b.compression_opt)
    (cap points : Nat) (es : List Enc) (mem : List Byte) (w : W) (size : Nat) :
    encodeV4Loop F C a cap points es mem w size = encodeV4Loop F C b cap points es mem w size := by
  induction points using Nat.strongRecOn generalizing es mem w size with
  | ind points ih =>
    unfold encodeV4Loop
    by_cases h : points = 0
    · rw [dif_pos h, dif_pos h]
    · rw [dif_neg h, dif_neg h, hs, hc]
      congr 1; funext r
      obtain ⟨es, mem, chunk⟩ := r
      simp only
      congr 1; funext q
      exact ih _ (by unfold kPointsPerChunk; omega) _ _ _ _

theorem maxChunks_version (C : Compressor) (a b : EncodingInfo) (ha : usesV5 a = false) (hb : usesV5 b = false) (hc : a.compression_opt = b.compression_opt)
    (q points : Nat) : maxCompressedChunks C a q points = maxCompressedChunks C b q points := by
  induction points using Nat.strongRecOn with
  | ind points ih =>
    unfold maxCompressedChunks
    by_cases h : points = 0
    · rw [dif_pos h, dif_pos h]
    · rw [dif_neg h, dif_neg h, ih _ (by unfold kPointsPerChunk; omega)]
      unfold chunkBound
      simp only [ha, hb, hc, Bool.false_eq_true, if_false]

/-- **C71, bytes.** If the two versions code no field differently, encoders for them write the same payload, whatever the cloud: only the version in the header differs. -/
theorem C71_same_bytes (F : FloatOps) (C : Compressor) (info : EncodingInfo) (v v' : BitVec 8) (h : SameCodec info v v') (header header' : List Byte)
    (enc enc' : Encoder) (h0 : mkEncoder F (forVersion info v) header = .ok enc) (h0' : mkEncoder F (forVersion info v') header' = .ok enc')
    (cloud out : List Byte) (room n : Nat) :
    (∃ e, encodeView F C enc cloud room false = .ok (e, out, n)) ↔ ∃ e, encodeView F C enc' cloud room false = .ok (e, out, n) := by
  have ha := notAdaptive_v5 h.left
  have hb := notAdaptive_v5 h.right
  unfold mkEncoder at h0 h0'
  rw [ha] at h0
  rw [hb] at h0'
  simp only [Bool.false_eq_true, if_false] at h0 h0'
  rw [← same_encoders F info v v' h] at h0'
  obtain ⟨es, e1, e2⟩ := Res.bind_eq_ok.1 h0
  obtain ⟨es', e1', e2'⟩ := Res.bind_eq_ok.1 h0'
  rw [e1] at e1'
  simp only [Res.ok.injEq] at e1' e2 e2'
  subst e1' e2 e2'
  have hmax : ∀ k, maxCompressedSize C (forVersion info v) k = maxCompressedSize C (forVersion info v') k := by
    intro k
    unfold maxCompressedSize
    change (if info.point_step = 0#32 then _ else (maxSerializedPointSize info.encoding_opt info.fields >>= _)) =
      (if info.point_step = 0#32 then _ else (maxSerializedPointSize info.encoding_opt info.fields >>= _))
    split
    · rfl
    · congr 1; funext m
      exact maxChunks_version C _ _ ha hb rfl m k
  have core : ∀ (x : BitVec 8) (hd : List Byte), usesV5 (forVersion info x) = false →
      ((∃ e, encodeView F C ⟨forVersion info x, hd, es⟩ cloud room false = .ok (e, out, n)) ↔
        ¬ info.point_step = 0#32 ∧ cloud.length % info.point_step.toNat = 0 ∧
        (∃ m, maxCompressedSize C (forVersion info x) (cloud.length / info.point_step.toNat) = .ok m ∧ m ≤ room) ∧
        ∃ p es' w', maxSerializedPointSize info.encoding_opt info.fields = .ok p ∧
          encodeV4Loop F C (forVersion info x) (kPointsPerChunk * max info.point_step.toNat p) (cloud.length / info.point_step.toNat) es cloud ⟨[], room⟩ 0 =
            .ok (es', w', n) ∧ w'.out = out) := by
    intro x hd hx
    unfold encodeView encodePayload
    change (∃ e, (if info.point_step = 0#32 then Res.throw _ else if cloud.length % info.point_step.toNat ≠ 0 then Res.throw _ else
      (maxCompressedSize C (forVersion info x) (cloud.length / info.point_step.toNat) >>= fun m => if room < m + 0 then Res.throw _ else
        ((⟨[], room⟩ : W).raw [] >>= fun w => (if usesV5 (forVersion info x) = true then _ else
          (maxSerializedPointSize info.encoding_opt info.fields >>= fun p =>
            (encodeV4Loop F C (forVersion info x) (kPointsPerChunk * max info.point_step.toNat p) (cloud.length / info.point_step.toNat) es cloud w 0 >>= fun r =>
              Res.ok ((⟨forVersion info x, hd, r.1⟩ : Encoder), r.2.1, r.2.2)))) >>= fun r => Res.ok (r.1, r.2.1.out, r.2.2)))) = _) ↔ _
    have hraw : (⟨[], room⟩ : W).raw [] = .ok ⟨[], room⟩ := by simp [W.raw]
    by_cases h1 : info.point_step = 0#32
    · simp [h1]
    by_cases h2 : cloud.length % info.point_step.toNat = 0
    · rw [if_neg h1, if_neg (by simp [h2]), hraw]
      simp only [hx, Bool.false_eq_true, if_false, Res.ok_bind, Nat.add_zero, h1, h2, not_false_eq_true, true_and]
      constructor
      · rintro ⟨e, h⟩
        obtain ⟨m, e1, h⟩ := Res.bind_eq_ok.1 h
        by_cases hm : room < m
        · rw [if_pos hm] at h; simp at h
        rw [if_neg hm] at h
        obtain ⟨r, e2, h⟩ := Res.bind_eq_ok.1 h
        obtain ⟨p, e3, e2⟩ := Res.bind_eq_ok.1 e2
        obtain ⟨q, e4, e2⟩ := Res.bind_eq_ok.1 e2
        simp only [Res.ok.injEq] at e2
        subst e2
        simp only [Res.ok.injEq, Prod.mk.injEq] at h
        obtain ⟨_, h3, h4⟩ := h
        exact ⟨⟨m, e1, by omega⟩, p, q.1, q.2.1, e3, by rw [e4, ← h4], h3⟩
      · rintro ⟨⟨m, e1, hm⟩, p, es', w', e3, e4, e5⟩
        refine ⟨⟨forVersion info x, hd, es'⟩, ?_⟩
        rw [e1, Res.ok_bind, if_neg (by omega), e3, Res.ok_bind, e4]
        simp only [Res.ok_bind, e5]
    · rw [if_neg h1, if_pos (by simpa using h2)]
      simp [h2]
  rw [core v header ha, core v' header' hb]
  have hloop : ∀ cap k w s, encodeV4Loop F C (forVersion info v) cap k es cloud w s = encodeV4Loop F C (forVersion info v') cap k es cloud w s :=
    fun cap k w s => v4Loop_version F C (forVersion info v) (forVersion info v') rfl rfl cap k es cloud w s
  simp only [hmax, hloop]

/-! ## Versions that cannot be read -/

/-- **C71, refused.** `EncodeHeader` writes a header for every version; for 0, 1 and every two-digit version after 5 no decoder of this release accepts the file. -/
theorem C71_unreadable_versions (T : FloatText) (info : EncodingInfo) (payload : List Byte) (hv : info.version.toNat < 100)
    (h : info.version.toNat < 2 ∨ 5 < info.version.toNat) :
    (decodeHeader T (encodeHeaderYaml T info ++ payload)).isThrow = true ∧
    ∀ hd, encodeHeaderBinary info = .ok hd → (decodeHeader T (hd ++ payload)).isThrow = true := by
  have key : ∀ rest, (decodeHeader T (magicBytes info.version ++ rest)).isThrow = true := by
    intro rest
    apply C27_rejected
    rintro ⟨a, b, body, he, h1, h2⟩
    unfold magicBytes at he
    rw [show magic = ascii "CLOUDINI_V" from rfl, List.append_assoc] at he
    have he := List.append_cancel_left he
    simp only [List.cons_append, List.nil_append, List.cons.injEq] at he
    obtain ⟨ha, hb, _⟩ := he
    subst ha hb
    have e1 : versionDigit (BitVec.ofNat 8 (48 + info.version.toNat / 10)) = info.version.toNat / 10 := by
      unfold versionDigit
      rw [BitVec.toNat_ofNat, Nat.mod_eq_of_lt (by omega), if_pos (by omega)]; omega
    have e2 : versionDigit (BitVec.ofNat 8 (48 + info.version.toNat % 10)) = info.version.toNat % 10 := by
      unfold versionDigit
      rw [BitVec.toNat_ofNat, Nat.mod_eq_of_lt (by omega), if_pos (by omega)]; omega
    rw [e1, e2] at h1 h2
    omega
  constructor
  · unfold encodeHeaderYaml
    rw [List.append_assoc, List.append_assoc, List.append_assoc]
    exact key _
  · intro hd he
    obtain ⟨r, e1, _⟩ := encodeHeaderBinary_ok info
    rw [e1] at he
    simp only [Res.ok.injEq] at he
    subst he
    unfold binaryBytes
    simp only [List.append_assoc]
    exact key _

example (T : FloatText) : (decodeHeader T (encodeHeaderYaml T (forVersion mixInfo 6#8) ++ mixOut)).isThrow = true :=
  (C71_unreadable_versions T (forVersion mixInfo 6#8) mixOut (by decide) (by decide)).1

/-! ## Version 2 -/

/-- One field of one byte, stored as it is, for version 2. -/
def byteInfoV2 : EncodingInfo := { byteInfo with width := 1#32, encoding_opt := .none, compression_opt := .none, version := 2#8 }

/-- **C71, negation for version 2.** The claim "what the encoder writes for version 2 decodes to what was encoded". -/
def Version2Survives : Prop := ∀ (F : FloatOps) (C : Compressor) (info : EncodingInfo) (header : List Byte) (enc e1 : Encoder) (cloud out : List Byte) (room n fuel : Nat),
  C.Lawful → info.version = 2#8 → mkEncoder F info header = .ok enc → encodeView F C enc cloud room false = .ok (e1, out, n) →
  (decodeCloud F C fuel info out (List.replicate cloud.length 0#8)).isOk = true

/-- The encoder accepts version 2 but frames its chunks, which version 2 did not: its decoder takes the length of the chunk for points. -/
theorem C71_version2_lost : ¬ Version2Survives := by
  intro h
  have := h bitsOps storeComp byteInfoV2 [] ⟨byteInfoV2, [], [.copy 0 1]⟩ ⟨byteInfoV2, [], [.copy 0 1]⟩ [7#8] [1#8, 0#8, 0#8, 0#8, 7#8] 100 5 10
    storeComp_lawful rfl (by decide +kernel) (by decide +kernel)
  revert this
  decide +kernel

/-- With room for five points it returns five wrong ones. -/
example : decodeCloud bitsOps storeComp 10 byteInfoV2 [1#8, 0#8, 0#8, 0#8, 7#8] (List.replicate 5 0#8) = .ok [1#8, 0#8, 0#8, 0#8, 7#8] := by decide +kernel

/-! ## Examples -/

/-- The mixed cloud of seven fields, written for version 4 and for version 5: other bytes, same values. -/
def mixEnc4 : Encoder := match mkEncoder bitsOps (forVersion mixInfo 4#8) [] with
  | .ok e => e
  | _ => mixEnc

def mixOut4 : Encoder × List Byte × Nat := match encodeView bitsOps storeComp mixEnc4 mixCloud 10000 false with
  | .ok r => r
  | _ => (mixEnc, [], 0)

example : ∃ res res', decodeCloud bitsOps storeComp 0 mixInfo mixOut (List.replicate 108 0#8) = .ok res ∧
    decodeCloud bitsOps storeComp 0 (forVersion mixInfo 4#8) mixOut4.2.1 (List.replicate 108 0#8) = .ok res' ∧ mixOut ≠ mixOut4.2.1 ∧
    cell res 0 36 2 20 8 = cell res' 0 36 2 20 8 := by
  have h4 : mkEncoder bitsOps (forVersion mixInfo 4#8) [] = .ok mixEnc4 := by decide +kernel
  obtain ⟨res, res', h1, h2, h3⟩ := C71_same_values_partial bitsOps storeComp storeComp storeComp_lawful storeComp_lawful mixInfo 5#8 4#8 (by decide) (by decide)
    [] [] mixEnc mixEnc mixEnc4 mixOut4.1 mixCloud mixOut mixOut4.2.1 10000 10000 73 mixOut4.2.2 0 0 mix_valid mix_cloud (mix_reach _) (.fresh _ h4)
    mix_encode (by decide +kernel) (by decide) (by decide) (Or.inl rfl) (fun h => by simp [mixInfo] at h) (by decide +kernel) (by decide +kernel)
    (List.replicate 108 0#8) (List.replicate 108 0#8) (by decide +kernel) (by decide +kernel)
  exact ⟨res, res', h1, h2, by decide +kernel, h3 2 (by decide) { name := [0x74#8], offset := 20#32, type := .float64 } (by decide)⟩

/-- Lossless version 4 and version 5 files differ in the header only; the mixed cloud, compressed. -/
example : ∃ e5 e, mkEncoder bitsOps (forVersion mixInfoZ 5#8) [] = .ok e5 ∧ encodeView bitsOps storeComp e5 mixCloud 10000 false = .ok (e, mixOutZ.2.1, mixOutZ.2.2) := by
  have hs : SameCodec mixInfoZ 4#8 5#8 := ⟨by decide, by decide, Or.inr (Or.inl (by decide))⟩
  have h4 : mkEncoder bitsOps (forVersion mixInfoZ 4#8) [1#8, 2#8] = .ok mixEncZ := by decide +kernel
  have h5 : (mkEncoder bitsOps (forVersion mixInfoZ 5#8) []).isOk = true := by decide +kernel
  revert h5
  cases e : mkEncoder bitsOps (forVersion mixInfoZ 5#8) [] with
  | ok e5 =>
    intro _
    obtain ⟨e', h⟩ := (C71_same_bytes bitsOps storeComp mixInfoZ 4#8 5#8 hs [1#8, 2#8] [] mixEncZ e5 h4 e mixCloud mixOutZ.2.1 10000 mixOutZ.2.2).1 ⟨_, mixZ_encode⟩
    exact ⟨e5, e', rfl, h⟩
  | throw _ => intro h; simp [Res.isOk] at h
  | ub _ => intro h; simp [Res.isOk] at h

/-- Version 3 XORs doubles where version 4 packs them: the bytes differ. -/
example : ¬ SameCodec mixInfoZ 3#8 4#8 := fun h => by
  rcases h.doubles with h | h | h
  · revert h; decide
  · revert h; decide
  · exact h _ (show { name := [0x74#8], offset := 20#32, type := FieldType.float64 } ∈ mixInfoZ.fields by decide) rfl rfl

end Cloudini.Props
