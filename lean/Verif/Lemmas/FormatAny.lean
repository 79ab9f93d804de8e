import Verif.Lemmas.FormatV5
import Verif.Lemmas.CloudMain

/-! # Decoding whatever follows the format (helper lemmas for C92) -/

namespace Cloudini

theorem flatMap_same {α : Type} (l : List α) (f g : α → List Byte) (h : ∀ a ∈ l, f a = g a) : l.flatMap f = l.flatMap g := by
  induction l with
  | nil => rfl
  | cons a l ih => rw [List.flatMap_cons, List.flatMap_cons, h a (by simp), ih fun x hx => h x (by simp [hx])]

/-- The mode for the number of a way. -/
def AMode.ofWay : Nat → AMode
  | 0 => .deltaVarint
  | 1 => .palette
  | 2 => .rle
  | _ => .deltaRle

theorem section_ofWay (twos : Bool) (w : Nat) (cells : List (List Byte)) :
    Format.section_ twos (AMode.ofWay w).way cells = Format.section_ twos w cells := by
  match w with
  | 0 => rfl
  | 1 => rfl
  | 2 => rfl
  | _ + 3 => rfl

/-- The sections of the fields `ps`, field `p` in mode `m p`. -/
def sectionsIn (step n : Nat) (mem : List Byte) (m : PointField → AMode) (ps : List PointField) : List Byte :=
  ps.flatMap fun p => secFor (m p) (mkAField p).bpv (ivals (mkAField p) (fieldSeq step (mkAField p).offset (mkAField p).bpv n mem))
    (rvals (fieldSeq step (mkAField p).offset (mkAField p).bpv n mem))

theorem decodeSections_any (step n : Nat) (mem : List Byte) (m : PointField → AMode) (ps : List PointField) (ds : List AField)
    (base dstep : Nat) (rest buf : List Byte) (hm : All2 AMatch (ps.map mkAField) ds) (hg : ∀ p ∈ ps, GoodA step n mem (mkAField p))
    (hpos : 0 < n) (hn : n ≤ 65535) :
    decodeSections base dstep n ds (sectionsIn step n mem m ps ++ rest) buf =
      (applyWrites buf 0 (sectionWrites step n mem base dstep (ps.map mkAField) ds) >>= fun b => .ok (rest, b)) := by
  induction ps generalizing ds buf with
  | nil =>
    cases ds with
    | nil => simp [decodeSections, sectionsIn, sectionWrites, applyWrites]
    | cons d ds => exact hm.elim
  | cons p ps ih =>
    cases ds with
    | nil => exact hm.elim
    | cons d ds =>
      have hg1 := hg p (by simp)
      obtain ⟨hm1, hm2⟩ := hm
      have hl := fieldSeq_lengths step n mem (mkAField p) hg1.fits
      have hdec : ∀ rest buf, decodeSection d base dstep n (secFor (m p) (mkAField p).bpv
          (ivals (mkAField p) (fieldSeq step (mkAField p).offset (mkAField p).bpv n mem))
          (rvals (fieldSeq step (mkAField p).offset (mkAField p).bpv n mem)) ++ rest) buf =
          (applyWrites buf 0 (valWrites d.offset base dstep 0 (fieldSeq step (mkAField p).offset (mkAField p).bpv n mem)) >>= fun b => .ok (rest, b)) := by
        intro rest buf
        have := decodeSection_secFor d (m p) base dstep
          (ivals (mkAField p) (fieldSeq step (mkAField p).offset (mkAField p).bpv n mem)) (rvals (fieldSeq step (mkAField p).offset (mkAField p).bpv n mem))
          (fieldSeq step (mkAField p).offset (mkAField p).bpv n mem) rest buf
          (by rw [hm1.1]; exact leBytes_ivals _ _ hl hm1.2) (by rw [hm1.1]; exact leBytes_rvals _ _ hl hm1.2) (fun _ _ => hg1.diffs)
          (by rw [hm1.1]; exact rvals_lt _ _ hl hm1.2) (by rw [fieldSeq_length]; exact hpos) (by rw [fieldSeq_length]; exact hn)
        rw [fieldSeq_length, hm1.1] at this
        exact this
      simp only [sectionsIn] at ih
      simp only [decodeSections, sectionsIn, sectionWrites, List.map_cons, List.flatMap_cons, List.append_assoc]
      rw [hdec, applyWrites_append, Res.bind_assoc, Res.bind_assoc]
      congr 1
      funext b
      simp only [Res.ok_bind]
      exact ih ds b hm2 (fun x hx => hg x (by simp [hx]))

/-- A chunk with sections in any modes. -/
theorem chunkV5_any (F : FloatOps) (step dstep n : Nat) (es : List Enc) (ds : List Dec) (m : PointField → AMode) (ps : List PointField)
    (das : List AField) (mem : List Byte) (hm : MatchAll (es.map Enc.reset) (ds.map Dec.reset))
    (hg : ∀ i, i < n → GoodAll F (prevMem none step mem i) (mem.drop (i * step)) es) (hsz : ∀ e ∈ es, e.SizeOK)
    (hga : ∀ p ∈ ps, GoodA step n mem (mkAField p)) (hma : All2 AMatch (ps.map mkAField) das) (hpos : 0 < n) (hn : n ≤ 65535) :
    ∃ ds', ds'.map Dec.reset = ds.map Dec.reset ∧ ∀ buf base buf', base + n * dstep ≤ buf.length →
      applyWrites buf 0 (pointsWrites F step es ds dstep n mem base ++ sectionWrites step n mem base dstep (ps.map mkAField) das) = .ok buf' →
      decodeV5Chunk F ds das dstep n (((List.range n).flatMap fun j => (es.flatMap Enc.parts).flatMap (partBytes F step mem j)) ++
        sectionsIn step n mem m ps) buf base = .ok (ds', buf', base + n * dstep) := by
  have hg' : ∀ i, i < n → GoodAll F (prevMem none step mem i) (mem.drop (i * step)) (es.map Enc.reset) := fun i hi =>
    goodAll_congr (by rw [List.map_map]; apply List.map_congr_left; intro e _; exact (enc_reset_reset e).symm) (hg i hi)
  have hsm : sumMax (es.map Enc.reset) = sumMax es := sumMax_reset es
  obtain ⟨es', bs, ds', c1, c3, c4, c5, c6, c7, _⟩ := core_roundtrip F step dstep n (es.map Enc.reset) (ds.map Dec.reset)
    none mem ⟨[], n * sumMax es⟩ hm hg' (fun e he => by
      simp only [List.mem_map] at he
      obtain ⟨a, _, rfl⟩ := he
      exact reset_prevIs F a) (by rw [hsm]; exact Nat.le_refl _)
  simp only [List.nil_append] at c1
  have hb := core_bytes F step mem n 0 (es.map Enc.reset) es' ⟨[], n * sumMax es⟩ _ (by
      intro e he
      simp only [List.mem_map] at he
      obtain ⟨x, hx, rfl⟩ := he
      exact sized_reset (hsz x hx)) (by
      intro e he
      simp only [List.mem_map] at he
      obtain ⟨x, _, rfl⟩ := he
      exact reset_at F step mem x) (by rw [Nat.zero_mul, List.drop_zero]; exact c1)
  have hpf : (es.map Enc.reset).flatMap Enc.parts = es.flatMap Enc.parts :=
    flatMap_parts (by rw [List.map_map]; exact List.map_congr_left fun e _ => parts_reset e)
  have hb1 := hb.1
  simp only [List.nil_append, Nat.zero_add, hpf] at hb1
  have hreset : ∀ es : List Enc, (es.map Enc.reset).map Enc.reset = es.map Enc.reset := fun es => by
    rw [List.map_map]; apply List.map_congr_left; intro e _; exact enc_reset_reset e
  have hdreset : ∀ es : List Dec, (es.map Dec.reset).map Dec.reset = es.map Dec.reset := fun es => by
    rw [List.map_map]; apply List.map_congr_left; intro e _; exact dec_reset_reset e
  refine ⟨ds', c5.trans (hdreset ds), ?_⟩
  intro buf base buf' hbuf hw
  rw [applyWrites_append, Res.bind_eq_ok] at hw
  obtain ⟨b1, w1, w2⟩ := hw
  unfold decodeV5Chunk
  rw [if_neg (by omega), if_neg (by omega), ← hb1]
  rw [pointsWrites_congr F step dstep (hreset es).symm (hdreset ds).symm] at w1
  rw [c7 _ buf base b1 w1]
  simp only [Res.ok_bind]
  have e3 := decodeSections_any step n mem m ps das base dstep [] b1 hma hga hpos hn
  rw [w2, List.append_nil] at e3
  rw [e3]
  simp

/-- All chunks with sections in any modes; `m c p` is the mode of field `p` in chunk `c`. -/
theorem stage1V5_any (F : FloatOps) (dinfo : EncodingInfo) (step : Nat) (es0 : List Enc) (ds0 : List Dec) (ps : List PointField)
    (hv : usesV5 dinfo = true) (hm : MatchAll (es0.map Enc.reset) (ds0.map Dec.reset))
    (hma : All2 AMatch (ps.map mkAField) (getAdaptiveFields dinfo)) (hsz : ∀ e ∈ es0, e.SizeOK) (points : Nat)
    (m : Nat → PointField → AMode) (ds : List Dec) (mem : List Byte) (hd : ds.map Dec.reset = ds0.map Dec.reset)
    (hg : ∀ i, i < points → GoodAll F (chunkPrev step mem i) (mem.drop (i * step)) es0)
    (hga : ∀ p ∈ ps, ∀ c, c * kPointsPerChunk < points →
      GoodA step (min (points - c * kPointsPerChunk) kPointsPerChunk) (mem.drop (c * kPointsPerChunk * step)) (mkAField p))
    (cs : List (List Byte)) (hlen : cs.length = (points + (kPointsPerChunk - 1)) / kPointsPerChunk)
    (hcs : ∀ c y, cs[c]? = some y → y = ((List.range (min (points - c * kPointsPerChunk) kPointsPerChunk)).flatMap fun j =>
        (es0.flatMap Enc.parts).flatMap (partBytes F step (mem.drop (c * kPointsPerChunk * step)) j)) ++
        sectionsIn step (min (points - c * kPointsPerChunk) kPointsPerChunk) (mem.drop (c * kPointsPerChunk * step)) (m c) ps)
    (min' : Nat) (buf : List Byte) (base : Nat) (buf' : List Byte) (hbuf : base + points * dinfo.point_step.toNat ≤ buf.length)
    (hw : applyWrites buf 0 (writesV5 F step dinfo.point_step.toNat es0 ds0 (ps.map mkAField) (getAdaptiveFields dinfo) points mem base) = .ok buf') :
    decodeStage1 F dinfo min' points ds cs buf base = .ok buf' := by
  have hK := pos_K
  have hK2 := K_le
  induction points using Nat.strongRecOn generalizing ds mem cs m buf base with
  | ind points ih =>
    by_cases hp : points = 0
    · subst hp
      have hc0 : cs = [] := by
        rw [Nat.zero_add, Nat.div_eq_of_lt (by omega)] at hlen
        exact List.length_eq_zero_iff.1 hlen
      subst hc0
      unfold writesV5 at hw
      rw [dif_pos rfl] at hw
      simp only [applyWrites, Res.ok.injEq] at hw
      subst hw
      simp [decodeStage1]
    · have hcnt := chunk_count points _ hK hp
      obtain ⟨y, cs, rfl⟩ : ∃ y cs', cs = y :: cs' := by
        cases cs with
        | nil =>
          rw [List.length_nil, hcnt, Nat.add_comm] at hlen
          exact absurd hlen.symm (Nat.succ_ne_zero _)
        | cons y cs => exact ⟨y, cs, rfl⟩
      have hn : min points kPointsPerChunk ≤ points := Nat.min_le_left _ _
      have hnK : min points kPointsPerChunk ≤ kPointsPerChunk := Nat.min_le_right _ _
      have hn0 : 0 < min points kPointsPerChunk := by omega
      generalize hnn : min points kPointsPerChunk = n at *
      have hy := hcs 0 y rfl
      simp only [Nat.zero_mul, Nat.sub_zero, List.drop_zero, hnn] at hy
      obtain ⟨ds1, c4, c6⟩ := chunkV5_any F step dinfo.point_step.toNat n es0 ds (m 0) ps (getAdaptiveFields dinfo) mem
        (by rw [hd]; exact hm) (fun i hi => by rw [← chunkPrev_first step mem i (by omega)]; exact hg i (by omega)) hsz
        (fun p hp => by simpa [hnn] using hga p hp 0 (by omega)) hma hn0 (by omega)
      unfold writesV5 at hw
      rw [dif_neg hp, hnn, applyWrites_append, Res.bind_eq_ok] at hw
      obtain ⟨b1, w1, w2⟩ := hw
      have hmul : points * dinfo.point_step.toNat = n * dinfo.point_step.toNat + (points - n) * dinfo.point_step.toNat := by
        rw [← Nat.add_mul]; congr 1; omega
      have hlen' := applyWrites_length w1
      rw [pointsWrites_congr F step _ (rfl : es0.map Enc.reset = _) hd.symm] at w1
      unfold decodeStage1
      rw [if_neg hp, hnn]
      unfold decodeStage1Chunk
      rw [hv]
      simp only [if_true]
      rw [hy, c6 buf base b1 (by omega) w1]
      simp only [Res.ok_bind]
      refine ih (points - n) (by omega) (fun c => m (c + 1)) ds1 (mem.drop (n * step)) (c4.trans hd) ?_ ?_ cs ?_ ?_ b1 _ (by omega) w2
      · intro i hi
        rw [List.drop_drop, ← Nat.add_mul, chunkPrev_later step mem n i (by omega)]
        exact hg (n + i) (by omega)
      · intro p hpm c hc
        have hnk : n = kPointsPerChunk := by omega
        rw [List.drop_drop, ← Nat.add_mul, hnk]
        have h1 := hga p hpm (c + 1) (by rw [Nat.add_mul, Nat.one_mul]; omega)
        rw [Nat.add_mul, Nat.one_mul, Nat.add_comm, ← Nat.sub_sub] at h1
        exact h1
      · rw [List.length_cons, hcnt] at hlen; omega
      · intro c z hz
        have hlt := (List.getElem?_eq_some_iff.1 hz).1
        have hnk : n = kPointsPerChunk := by
          refine Classical.byContradiction fun hne => ?_
          have : points - n = 0 := by omega
          rw [List.length_cons, hcnt, this] at hlen
          have h0 : (0 + (kPointsPerChunk - 1)) / kPointsPerChunk = 0 := Nat.div_eq_of_lt (by omega)
          rw [h0] at hlen
          omega
        have h1 := hcs (c + 1) z (by simpa using hz)
        rw [List.drop_drop, ← Nat.add_mul, hnk]
        have e1 : points - kPointsPerChunk - c * kPointsPerChunk = points - (c + 1) * kPointsPerChunk := by
          rw [Nat.add_mul, Nat.one_mul]; omega
        have e2 : kPointsPerChunk + c * kPointsPerChunk = (c + 1) * kPointsPerChunk := by rw [Nat.add_mul, Nat.one_mul, Nat.add_comm]
        rw [e1, e2]
        exact h1

/-! ### framing -/

/-- The loop over chunks whose second stage gives back the chunks `cs`. -/
theorem decodeLoop_readable (F : FloatOps) (C : Compressor) (info : EncodingInfo) (min' points : Nat) (ds : List Dec)
    (st cs : List (List Byte)) (buf : List Byte) (base : Nat)
    (h : All2 (fun y c => y.length < 2 ^ 32 ∧ decompressChunk C info.compression_opt y (maxDecompressed info) = .ok c) st cs) :
    decodeLoop F C info min' points ds (st.flatMap fun y => toLE 4 y.length ++ y) buf base = decodeStage1 F info min' points ds cs buf base := by
  induction st generalizing points ds buf base cs with
  | nil =>
    cases cs with
    | nil => unfold decodeLoop decodeStage1; simp
    | cons c cs => exact h.elim
  | cons y st ih =>
    cases cs with
    | nil => exact h.elim
    | cons c cs =>
      obtain ⟨⟨h1, h2⟩, h3⟩ := h
      unfold decodeLoop decodeStage1
      rw [if_neg (by simp [toLE])]
      by_cases hp : points = 0
      · rw [dif_pos hp, if_pos hp]
      · rw [dif_neg hp, if_neg hp, List.flatMap_cons, List.append_assoc, decodeInt_toLE4 _ h1]
        simp only [Res.ok_bind]
        rw [if_neg (by simp)]
        have e1 : ∀ rest, (y ++ rest).take y.length = y := by simp
        have e2 : ∀ rest, (y ++ rest).drop y.length = rest := by simp
        rw [e1, e2]
        have : decodeChunk F C 0 info ds min' y buf base (min points kPointsPerChunk) =
            decodeStage1Chunk F info ds min' c buf base (min points kPointsPerChunk) := by
          unfold decodeChunk decodeStage1Chunk
          rw [h2]
          simp only [Res.ok_bind]
        rw [this]
        congr 1
        funext r
        obtain ⟨ds1, buf1, base1⟩ := r
        simp only
        exact ih _ ds1 _ buf1 base1 h3

end Cloudini
