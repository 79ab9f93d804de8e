import Verif.Lemmas.Bridge
import Verif.Spec.Shared

/-! # Fields that share bytes (helper lemmas for C98) -/

namespace Cloudini

/-- Two writes put the same bytes where they meet. -/
def Meets (a b : Write) : Prop := ∀ j j', (hj : j < a.2.length) → (hj' : j' < b.2.length) → a.1 + j = b.1 + j' → a.2[j] = b.2[j']

theorem meets_of_apart {a b : Write} (h : a = b ∨ Apart a b) : Meets a b := by
  intro j j' hj hj' e
  rcases h with rfl | h | h
  · obtain rfl : j = j' := by omega
    rfl
  · omega
  · omega

open Classical in
/-- If the writes agree wherever they meet, every one of them is found afterwards. -/
theorem applyWrites_meets {buf buf' : List Byte} {ws : List Write} (h : applyWrites buf 0 ws = .ok buf') (hfit : FitsAll buf.length ws)
    (hm : ∀ a ∈ ws, ∀ b ∈ ws, Meets a b) (w : Write) (hw : w ∈ ws) : sub buf' w.1 w.2.length = w.2 := by
  let target : Nat → Option Byte := fun p =>
    if hx : ∃ b : Byte, ∃ w ∈ ws, ∃ j, ∃ hj : j < w.2.length, w.1 + j = p ∧ w.2[j] = b then some hx.choose else none
  have hag : Agrees target ws := by
    intro a ha j hj
    have hx : ∃ b : Byte, ∃ w ∈ ws, ∃ j', ∃ hj' : j' < w.2.length, w.1 + j' = a.1 + j ∧ w.2[j'] = b := ⟨_, a, ha, j, hj, rfl, rfl⟩
    show (if hx : ∃ b : Byte, ∃ w ∈ ws, ∃ j', ∃ hj' : j' < w.2.length, w.1 + j' = a.1 + j ∧ w.2[j'] = b then some hx.choose else none) = _
    rw [dif_pos hx]
    obtain ⟨w', hw', j', hj', e, e2⟩ := hx.choose_spec
    rw [← e2, hm w' hw' a ha j' j hj' hj e]
  have hlen := applyWrites_length h
  have hf := hfit w hw
  unfold sub
  apply List.ext_getElem?
  intro j
  by_cases hj : j < w.2.length
  · rw [List.getElem?_take, if_pos hj, List.getElem?_drop]
    rw [(applyWrites_target target hag h (w.1 + j) (by omega)).1 ⟨w, hw, by omega, by omega⟩, hag w hw j hj, List.getElem?_eq_getElem hj]
  · rw [List.getElem?_eq_none (by rw [List.length_take]; omega), List.getElem?_eq_none (by omega)]

/-- The whole round trip, with fields that may share bytes. -/
theorem cloud_roundtrip_meets (F : FloatOps) (C : Compressor) (hC : C.Lawful) (enc enc' : Encoder) (dinfo : EncodingInfo) (cloud : List Byte)
    (room : Nat) (wh : Bool) (out : List Byte) (size points fuel : Nat)
    (henc : encodeView F C enc cloud room wh = .ok (enc', out, size))
    (h : Agree F enc.info dinfo) (hu : enc.Used F)
    (hpts : cloud.length = points * enc.info.point_step.toNat)
    (hwh : dinfo.width.toNat * dinfo.height.toNat = points) (hver : 3#8 ≤ dinfo.version)
    (hg : ∀ i, i < points → PointGood F enc.info (chunkPrev enc.info.point_step.toNat cloud i) (cloud.drop (i * enc.info.point_step.toNat)))
    (h64 : usesV5 enc.info = true → (enc.info.fields.filter fun f => isAdaptiveType f.type).length ≤ 64) (hskip : NoAdaptiveSkip enc.info dinfo)
    (hfit : ∀ g ∈ dinfo.fields, g.offset.toNat ≠ kDecodeButSkipStore → g.offset.toNat + sizeOf g.type ≤ dinfo.point_step.toNat)
    (hmeet : ∀ a b, CloudWrite F enc.info dinfo points cloud a → CloudWrite F enc.info dinfo points cloud b → Meets a b)
    (hmagic : (out.drop (if wh then enc.header.length else 0)).take 10 ≠ magic)
    (hlim : dinfo.compression_opt = .none ∨ ∀ es cs, stage1Chunks F enc cloud = .ok (es, cs) → ∀ c ∈ cs, c.length ≤ maxDecompressed dinfo)
    (hlz : dinfo.compression_opt = .lz4 → maxDecompressed dinfo ≤ intMax)
    (buf : List Byte) (hbuf : points * dinfo.point_step.toNat ≤ buf.length) :
    ∃ buf', decodeCloud F C fuel dinfo (out.drop (if wh then enc.header.length else 0)) buf = .ok buf' ∧ buf'.length = buf.length ∧
      (∀ i, i < points → ∀ k f g, enc.info.fields[k]? = some f → dinfo.fields[k]? = some g → g.offset.toNat ≠ kDecodeButSkipStore →
        sub buf' (i * dinfo.point_step.toNat + g.offset.toNat) (sizeOf f.type) =
          fieldVal F enc.info.encoding_opt (decide (k < leadingLossyFloatCount enc.info)) f (cloud.drop (i * enc.info.point_step.toNat))) ∧
      ∀ p, (∀ i, i < points → ∀ g ∈ dinfo.fields, g.offset.toNat ≠ kDecodeButSkipStore →
          p < i * dinfo.point_step.toNat + g.offset.toNat ∨ i * dinfo.point_step.toNat + g.offset.toNat + sizeOf g.type ≤ p) →
        buf'[p]? = buf[p]? := by
  obtain ⟨cs, payload, p1, p2, p3, p4, p5, p6, p7, p8, _⟩ := encodeView_inv F C enc enc' cloud room wh out size henc
  have hdrop : out.drop (if wh then enc.header.length else 0) = payload := by rw [p7]; cases wh <;> simp
  rw [hdrop] at hmagic ⊢
  obtain ⟨es', cs', ds, min', ws, s1, s2, s3, s4, _, s5, s6⟩ := stage1_cloud F enc dinfo cloud points h hu p1 hpts hg h64 hskip
  rw [p3] at s1
  simp only [Res.ok.injEq, Prod.mk.injEq] at s1
  obtain ⟨_, rfl⟩ := s1
  have hin : ∀ f ∈ enc.info.fields, ∀ i, i < points → f.offset.toNat + sizeOf f.type ≤ (cloud.drop (i * enc.info.point_step.toNat)).length := by
    intro f hf i hi
    have hgi := hg i hi
    rw [← List.take_append_drop (leadingLossyFloatCount enc.info) enc.info.fields, List.mem_append] at hf
    rcases hf with hf | hf
    · exact (hgi.1 f hf).1
    · exact (hgi.2 f hf).1
  have hfits : FitsAll buf.length ws := by
    intro w hw
    rw [s5] at hw
    obtain ⟨i, hi, v, ⟨k, f, g, e1, e2, e3⟩, rfl⟩ := hw
    unfold store at e3
    split at e3
    · simp at e3
    next hns =>
    simp only [List.mem_singleton] at e3
    subst e3
    have hl := fieldVal_length (F := F) (opt := enc.info.encoding_opt) (lead := decide (k < leadingLossyFloatCount enc.info))
      (hin f (List.mem_of_getElem? e1) i hi)
    have hf := hfit g (List.mem_of_getElem? e2) hns
    rw [(all2_getElem h.same k e1 e2).1] at hf
    simp only [hl]
    have h1 : (i + 1) * dinfo.point_step.toNat ≤ points * dinfo.point_step.toNat := Nat.mul_le_mul_right _ (by omega)
    rw [Nat.add_mul, Nat.one_mul] at h1
    omega
  obtain ⟨buf', hw⟩ := applyWrites_fits hfits
  have hdec := s6 buf buf' hbuf hw
  refine ⟨buf', ?_, applyWrites_length hw, ?_, ?_⟩
  · unfold decodeCloud
    rw [s3]
    simp only [Res.ok_bind]
    rw [if_neg hmagic, if_pos hver, hwh, decodeLoop_framed F C hC dinfo min' points ds cs payload buf 0 (by rw [h.comp]; exact p6)
      (by
        rcases hlim with hl | hl
        · exact Or.inl hl
        · exact Or.inr (hl _ cs p3)) hlz]
    exact hdec
  · intro i hi k f g e1 e2 hns
    have hmem : (i * dinfo.point_step.toNat + g.offset.toNat,
        fieldVal F enc.info.encoding_opt (decide (k < leadingLossyFloatCount enc.info)) f (cloud.drop (i * enc.info.point_step.toNat))) ∈ ws := by
      rw [s5]
      exact ⟨i, hi, (g.offset.toNat, fieldVal F enc.info.encoding_opt (decide (k < leadingLossyFloatCount enc.info)) f
        (cloud.drop (i * enc.info.point_step.toNat))), ⟨k, f, g, e1, e2, by unfold store; rw [if_neg hns]; exact List.mem_singleton.2 rfl⟩, rfl⟩
    have := applyWrites_meets hw hfits (fun a ha b hb => hmeet a b ((s5 _).1 ha) ((s5 _).1 hb)) _ hmem
    simp only at this
    rw [fieldVal_length (hin f (List.mem_of_getElem? e1) i hi)] at this
    exact this
  · intro p hp
    refine applyWrites_unwritten hw p ?_
    intro w hww
    rw [s5] at hww
    obtain ⟨i, hi, v, ⟨k, f, g, e1, e2, e3⟩, rfl⟩ := hww
    unfold store at e3
    split at e3
    · simp at e3
    next hns =>
    simp only [List.mem_singleton] at e3
    subst e3
    have hl := fieldVal_length (F := F) (opt := enc.info.encoding_opt) (lead := decide (k < leadingLossyFloatCount enc.info))
      (hin f (List.mem_of_getElem? e1) i hi)
    have := hp i hi g (List.mem_of_getElem? e2) hns
    rw [(all2_getElem h.same k e1 e2).1] at this
    simp only [hl]
    omega

end Cloudini
