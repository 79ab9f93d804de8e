import Verif.Lemmas.Unfold
import Verif.Lemmas.ChunkV5
import Verif.Lemmas.StreamFull
import Verif.Lemmas.Column
import Verif.Model.IEEE

/-!
# C13–C17: adaptive integer sections of version 5

Model functions used in the statements (all in `Verif.Model.V5`): `encodeV5Chunk F hash step [] [f] mem n cap` is
the chunk encoder run on a message whose only field is the adaptive field `f`; `decodeSection` is the section
decoder; `buildPaletteIndexes`, `bitpack`, `readBitpackedIndex`, `commitMode` and the four size functions are the
parts named by the properties.  `hash` is any function: nothing is assumed of the palette's hash.
-/

namespace Cloudini.Props

/-! ## C13 sections round-trip in every mode -/

/-- The states of an adaptive field between chunks: fresh, or after any number of chunks of any points. -/
inductive FieldReach (F : FloatOps) (hash : BitVec 64 → BitVec 64) (p : PointField) : AField → Prop
  | fresh : FieldReach F hash p (mkAField p)
  | chunk {f f' : AField} (step n cap : Nat) (mem : List Byte) (es' : List Enc) (mem' bytes : List Byte) :
      FieldReach F hash p f → 0 < n → n ≤ kPointsPerChunk → 5 + 11 * n ≤ cap →
      InCloud mem step p.offset.toNat (sizeOf p.type) n →
      encodeV5Chunk F hash step [] [f] mem n cap = .ok (es', [f'], mem', bytes) → FieldReach F hash p f'

theorem one_field_chunk (F : FloatOps) (hash : BitVec 64 → BitVec 64) (f : AField) (step n cap : Nat) (mem : List Byte)
    (ht : TInv f) (h8 : f.bpv ≤ 8) (hn0 : 0 < n) (hn : n ≤ 65535) (hcap : 5 + 11 * n ≤ cap)
    (hin : InCloud mem step f.offset f.bpv n) (hd : DiffsFit 0 (intHistory mem step f.offset f.bpv f.signed n)) :
    ∃ f' bytes, encodeV5Chunk F hash step [] [f] mem n cap = .ok ([], [f'], mem.drop (n * step), bytes) ∧ Settled f f' ∧
      bytes.length ≤ 5 + 11 * n ∧
      ∀ following buf base dstep doff, base + n * dstep ≤ buf.length → doff + f.bpv ≤ dstep →
        ∃ buf', decodeSection { f with offset := doff } base dstep n (bytes ++ following) buf = .ok (following, buf') ∧
          buf'.length = buf.length ∧
          (∀ i, i < n → cell buf' base dstep i doff f.bpv = cell mem 0 step i f.offset f.bpv) ∧
          (∀ p, (∀ i, i < n → p < base + i * dstep + doff ∨ base + i * dstep + doff + f.bpv ≤ p) → buf'[p]? = buf[p]?) := by
  have hga := goodA_of_spec hin hd
  obtain ⟨gs, e1, hcol⟩ := encodePointsV5_spec F hash step n [] [] [f] mem ⟨[], cap⟩ ⟨[], cap⟩
    (by
      clear hin hd hga hn0 hn hcap
      induction n generalizing mem with
      | zero => rfl
      | succ n ih => simp only [encodeCore, encodeFields, Res.ok_bind]; exact ih _)
    ⟨f.committed, by simp⟩ (by simpa using ht) (by simpa using hga)
  have hlen := allSections_length step n mem [f] gs hcol (by simpa using h8) hn
  obtain ⟨gs', e2, hset⟩ := appendSections_spec hash step n mem [f] gs ⟨[], cap⟩ hcol (by simpa using hga) hn
    (by simp only [List.length_singleton, Nat.one_mul] at hlen; simp only; omega)
  cases gs' with
  | nil => exact hset.elim
  | cons f' gs'' =>
    cases gs'' with
    | cons x xs => exact hset.2.elim
    | nil =>
      cases gs with
      | nil => exact hcol.elim
      | cons g gs0 =>
        cases gs0 with
        | cons x xs => exact hcol.2.elim
        | nil =>
          refine ⟨f', allSections step n mem [g], ?_, hset.1, by simpa using hlen, ?_⟩
          · unfold encodeV5Chunk
            simp only [List.map_nil, e1, Res.ok_bind, e2]
            rfl
          · intro following buf base dstep doff hbuf hdo
            obtain ⟨buf', hb, hl, hc, hu⟩ := column_written (buf := buf) (dstep := dstep) (doff := doff) (base := base) hin hbuf hdo
            have hsame := hcol.1.same
            have hgg : GoodA step n mem g :=
              ⟨fun i hi => by rw [hsame.1, hsame.2.1]; exact hga.fits i hi,
               by rw [hsame.1, hsame.2.1, ivals_same hsame]; exact hga.diffs⟩
            have e3 := decodeSection_sectionOf step n mem g { f with offset := doff } base dstep following buf
              ⟨hsame.2.1.symm, by rw [hsame.2.1]; exact h8⟩ hgg hn0 hn
            rw [hsame.1, hsame.2.1] at e3
            refine ⟨buf', ?_, hl, hc, hu⟩
            simp only [allSections, List.append_nil]
            rw [hsame.1, hsame.2.1, e3]
            show (applyWrites buf 0 (valWrites doff base dstep 0 (fieldSeq step f.offset f.bpv n mem)) >>= _) = _
            rw [hb]; rfl

theorem adaptive_pos (t : FieldType) (h : isAdaptiveType t = true) : 0 < sizeOf t := by
  cases t <;> simp_all [isAdaptiveType, sizeOf]

theorem reach_inv {F : FloatOps} {hash : BitVec 64 → BitVec 64} {p : PointField} (ha : isAdaptiveType p.type = true)
    {f : AField} (h : FieldReach F hash p f) : TInv f ∧ SameField f (mkAField p) := by
  induction h with
  | fresh => exact ⟨tinv_fresh p, SameField.refl _⟩
  | chunk step n cap mem es' mem' bytes hr hn0 hn hcap hin he ih =>
    rename_i f0 f1
    obtain ⟨ht, hs⟩ := ih
    have e1 : f0.offset = p.offset.toNat := hs.1
    have e2 : f0.bpv = sizeOf p.type := hs.2.1
    have hpos := adaptive_pos _ ha
    have h2 := hin.2
    have hsafe := encodeV5Chunk_safe F hash step n cap f0.committed [] [f0] mem (by simp) (by omega)
      (by simp only [List.mem_singleton]; rintro f rfl; exact ⟨by rw [e1, e2]; exact h2, ht, rfl⟩) hin.1
      (by unfold kPointsPerChunk at hn; omega) (by simp [sumMax]; omega)
    rw [he] at hsafe
    have hk := hsafe.2.2.1 f1 (by simp)
    exact ⟨hk.2.1, (encodeV5Chunk_one_keeps F hash step n cap f0 f1 mem mem' bytes es' (prepareField_spec f0 ht).2.1 he).trans hs⟩

/-- The section decoder uses only the place and the width of the field. -/
theorem decodeSection_place (base dstep n : Nat) (buf : List Byte) (a b : AField) (inp : List Byte) (ho : a.offset = b.offset)
    (hb : a.bpv = b.bpv) : decodeSection a base dstep n inp buf = decodeSection b base dstep n inp buf := by
  have hw : writeValue = fun buf base step (f : AField) i v => writeAt buf (base + i * step + f.offset) (toLE f.bpv v.toNat) := rfl
  have h1 : ∀ k i prev inp buf, decodeDeltas a base dstep k i prev inp buf = decodeDeltas b base dstep k i prev inp buf := by
    intro k
    induction k with
    | zero => intros; rfl
    | succ k ih => intros; simp only [decodeDeltas, hw, ho, hb, ih]
  have h2 : ∀ v k i buf, writeRun a base dstep v k i buf = writeRun b base dstep v k i buf := by
    intro v k
    induction k with
    | zero => intros; rfl
    | succ k ih => intros; simp only [writeRun, hw, ho, hb, ih]
  have h3 : ∀ k o inp buf, decodeRleRuns a base dstep n k o inp buf = decodeRleRuns b base dstep n k o inp buf := by
    intro k
    induction k with
    | zero => intros; rfl
    | succ k ih => intros; simp only [decodeRleRuns_succ, hb, h2, ih]
  have h4 : ∀ d k i prev buf, writeDeltaRun a base dstep d k i prev buf = writeDeltaRun b base dstep d k i prev buf := by
    intro d k
    induction k with
    | zero => intros; rfl
    | succ k ih => intros; simp only [writeDeltaRun, hw, ho, hb, ih]
  have h5 : ∀ k o prev inp buf, decodeDeltaRleRuns a base dstep n k o prev inp buf = decodeDeltaRleRuns b base dstep n k o prev inp buf := by
    intro k
    induction k with
    | zero => intros; rfl
    | succ k ih => intros; simp only [decodeDeltaRleRuns, h4, ih]
  have h6 : ∀ bits pal k i ptr s h buf, decodePaletteIndexes a base dstep bits pal k i ptr s h buf =
      decodePaletteIndexes b base dstep bits pal k i ptr s h buf := by
    intro bits pal k
    induction k with
    | zero => intros; rfl
    | succ k ih =>
      intros
      simp only [decodePaletteIndexes, hw, ho, hb, ih]
  unfold decodeSection
  cases inp with
  | nil => rfl
  | cons m inp => simp only [h1, h3, h5, h6, hb]

/-- **C13 (partial).**  For a 16-, 32- or 64-bit integer field `p`, whatever the field's history of earlier chunks (and
so whatever mode it is committed to, or none), whatever the hash: a chunk of `n` points is encoded into `bytes` that the
section decoder turns back into exactly the values of these points, at the places of the destination layout, changing
nothing else and consuming exactly `bytes`.
Full property: for all values.  Missing: sequences of 64-bit values with a step of 2^63 or more (`DiffsFit`), where
it is false because the differences overflow (`C05_int64_fails`); 16- and 32-bit fields need no such condition
(`C13_small_values`). -/
theorem C13_section_roundtrip_partial (F : FloatOps) (hash : BitVec 64 → BitVec 64) (p : PointField) (hp : isAdaptiveType p.type = true)
    (f : AField) (hf : FieldReach F hash p f) (step n cap : Nat) (mem : List Byte)
    (hn0 : 0 < n) (hn : n ≤ kPointsPerChunk) (hcap : 5 + 11 * n ≤ cap)
    (hin : InCloud mem step p.offset.toNat (sizeOf p.type) n)
    (hd : DiffsFit 0 (intHistory mem step p.offset.toNat (sizeOf p.type) (isSignedType p.type) n)) :
    ∃ f' bytes, encodeV5Chunk F hash step [] [f] mem n cap = .ok ([], [f'], mem.drop (n * step), bytes) ∧
      FieldReach F hash p f' ∧
      ∀ following buf base dstep doff, base + n * dstep ≤ buf.length → doff.toNat + sizeOf p.type ≤ dstep →
        ∃ buf', decodeSection (mkAField { p with offset := doff }) base dstep n (bytes ++ following) buf = .ok (following, buf') ∧
          buf'.length = buf.length ∧
          (∀ i, i < n → cell buf' base dstep i doff.toNat (sizeOf p.type) = cell mem 0 step i p.offset.toNat (sizeOf p.type)) ∧
          (∀ q, (∀ i, i < n → q < base + i * dstep + doff.toNat ∨ base + i * dstep + doff.toNat + sizeOf p.type ≤ q) →
            buf'[q]? = buf[q]?) := by
  obtain ⟨ht, hs⟩ := reach_inv hp hf
  have e1 : f.offset = p.offset.toNat := hs.1
  have e2 : f.bpv = sizeOf p.type := hs.2.1
  have e3 : f.signed = isSignedType p.type := hs.2.2
  obtain ⟨f', bytes, he, hset, _, hdec⟩ := one_field_chunk F hash f step n cap mem ht (by rw [e2]; exact adaptive_size _ hp) hn0
    (by unfold kPointsPerChunk at hn; omega) hcap (by rw [e1, e2]; exact hin) (by rw [e1, e2, e3]; exact hd)
  refine ⟨f', bytes, he, .chunk step n cap mem [] _ bytes hf hn0 hn hcap hin he, ?_⟩
  intro following buf base dstep doff hbuf hdo
  obtain ⟨buf', q1, q2, q3, q4⟩ := hdec following buf base dstep doff.toNat hbuf (by rw [e2]; exact hdo)
  rw [e2, e1] at q3
  rw [e2] at q4
  refine ⟨buf', ?_, q2, q3, q4⟩
  rw [← q1]
  exact decodeSection_place _ _ _ _ _ _ _ rfl e2.symm

/-- For fields of up to 32 bits the condition on differences always holds. -/
theorem C13_small_values (mem : List Byte) (step off size : Nat) (signed : Bool) (n : Nat) (hs : size ≤ 4)
    (hin : InCloud mem step off size n) : DiffsFit 0 (intHistory mem step off size signed n) := by
  unfold intHistory
  have h : ∀ (l : List Nat), (∀ i ∈ l, i < n) → ∀ p : Int, -2 ^ 31 ≤ p → p < 2 ^ 32 →
      DiffsFit p (l.map fun i => some (toI64 size signed (cell mem 0 step i off size)).toInt) := by
    intro l
    induction l with
    | nil => intros; trivial
    | cons i l ih =>
      intro hl p h1 h2
      have hr := toI64_range (signed := signed) (cell_length hin (hl i (by simp))) hs
      exact ⟨by omega, by omega, ih (fun j hj => hl j (by simp [hj])) _ hr.1 hr.2⟩
  exact h _ (fun i hi => List.mem_range.1 hi) 0 (by omega) (by omega)

/-- **C13 for fields committed to run lengths or to a palette.**  Once such a field has chosen one of the two modes that store the
values themselves, its sections round-trip whatever the values: nothing is asked of the differences. -/
theorem C13_literal_modes (F : FloatOps) (hash : BitVec 64 → BitVec 64) (p : PointField) (hp : isAdaptiveType p.type = true)
    (f : AField) (hf : FieldReach F hash p f) (hc : f.committed = true) (hm : f.mode = .rle ∨ f.mode = .palette)
    (step n cap : Nat) (mem : List Byte) (hn0 : 0 < n) (hn : n ≤ kPointsPerChunk) (hcap : 5 + 11 * n ≤ cap)
    (hin : InCloud mem step p.offset.toNat (sizeOf p.type) n) :
    ∃ f' bytes, encodeV5Chunk F hash step [] [f] mem n cap = .ok ([], [f'], mem.drop (n * step), bytes) ∧
      FieldReach F hash p f' ∧
      ∀ following buf base dstep doff, base + n * dstep ≤ buf.length → doff.toNat + sizeOf p.type ≤ dstep →
        ∃ buf', decodeSection (mkAField { p with offset := doff }) base dstep n (bytes ++ following) buf = .ok (following, buf') ∧
          buf'.length = buf.length ∧
          (∀ i, i < n → cell buf' base dstep i doff.toNat (sizeOf p.type) = cell mem 0 step i p.offset.toNat (sizeOf p.type)) ∧
          (∀ q, (∀ i, i < n → q < base + i * dstep + doff.toNat ∨ base + i * dstep + doff.toNat + sizeOf p.type ≤ q) →
            buf'[q]? = buf[q]?) := by
  obtain ⟨ht, hs⟩ := reach_inv hp hf
  have e1 : f.offset = p.offset.toNat := hs.1
  have e2 : f.bpv = sizeOf p.type := hs.2.1
  have h8 : f.bpv ≤ 8 := by rw [e2]; exact adaptive_size _ hp
  have hn' : n ≤ 65535 := by unfold kPointsPerChunk at hn; omega
  have hinf : InCloud mem step f.offset f.bpv n := by rw [e1, e2]; exact hin
  have hfit := fitsSeq_of_inCloud (f := f) hinf
  have hlit : ∀ g : AField, g.mode = f.mode → ¬ Stepping g := fun g e h => by
    rcases hm with h1 | h1
    · exact h.2.1 (by rw [e, h1])
    · exact h.2.2 (by rw [e, h1])
  have hl := fieldSeq_lengths step n mem f hfit
  have hlen := fieldSeq_length step f.offset f.bpv n mem
  obtain ⟨p1, p2, p3, p4, p5⟩ := prepareField_spec f ht
  obtain ⟨g, c0, c1, c2, c3, c4, c5⟩ := collectOne_w step n _ mem [] p1 p3
    (fun i hi => by rw [p2.1, p2.2.1]; exact hfit i hi) (fun h => absurd h (hlit _ p5))
  rw [p2.1, p2.2.1, List.nil_append] at c1
  have hsame : SameField g f := c3.trans p2
  have hmode : g.mode = f.mode := by rw [c5, p5]
  have hsl := secFor_length f.mode f.bpv (ivals f (fieldSeq step f.offset f.bpv n mem)) (rvals (fieldSeq step f.offset f.bpv n mem)) n h8
    (by simpa [ivals] using hlen) (by simpa [rvals] using hlen) (by omega)
  obtain ⟨g', e⟩ := appendSection_committed hash g _ ⟨[], cap⟩ c2 c1 (by rw [hlen]; omega) (by rw [c4, p4, hc])
    (by rw [hmode, hsame.2.1, ivals_same hsame]; exact Nat.le_trans hsl hcap)
  rw [hmode, hsame.2.1, ivals_same hsame] at e
  have he : encodeV5Chunk F hash step [] [f] mem n cap = .ok ([], [g'], mem.drop (n * step),
      secFor f.mode f.bpv (ivals f (fieldSeq step f.offset f.bpv n mem)) (rvals (fieldSeq step f.offset f.bpv n mem))) := by
    unfold encodeV5Chunk encodePointsV5
    simp only [List.map_nil, List.map_cons]
    rw [if_neg (by simp [p4, hc]), encodeRangeV5_one, c0]
    simp only [Res.ok_bind, appendSections, e]
    rfl
  refine ⟨g', _, he, .chunk step n cap mem [] _ _ hf hn0 hn hcap hin he, ?_⟩
  intro following buf base dstep doff hbuf hdo
  obtain ⟨buf', hb, q2, q3, q4⟩ := column_written (buf := buf) (dstep := dstep) (doff := doff.toNat) (base := base) hin hbuf hdo
  refine ⟨buf', ?_, q2, q3, q4⟩
  rw [decodeSection_place base dstep n buf (mkAField { p with offset := doff }) { f with offset := doff.toNat } _ rfl e2.symm]
  have := decodeSection_secFor { f with offset := doff.toNat } f.mode base dstep (ivals f (fieldSeq step f.offset f.bpv n mem))
    (rvals (fieldSeq step f.offset f.bpv n mem)) (fieldSeq step f.offset f.bpv n mem) following buf
    (leBytes_ivals f _ hl h8) (leBytes_rvals f.bpv _ hl h8)
    (fun h1 h2 => by rcases hm with h | h <;> contradiction)
    (rvals_lt f.bpv _ hl h8) (by rw [hlen]; exact hn0) (by rw [hlen]; exact hn')
  rw [hlen] at this
  simp only at this
  rw [this, e1, e2, hb]
  rfl

theorem history_eq (f : AField) (step n : Nat) (mem : List Byte) :
    intHistory mem step f.offset f.bpv f.signed n = (ivals f (fieldSeq step f.offset f.bpv n mem)).map fun v => some v.toInt := by
  rw [fieldSeq_eq]
  unfold ivals intHistory
  rw [List.map_map, List.map_map]
  rfl

theorem diffsFit_of_subOK (p : BitVec 64) (vs : List (BitVec 64)) (h : SubOK p vs) : DiffsFit p.toInt (vs.map fun v => some v.toInt) := by
  induction vs generalizing p with
  | nil => trivial
  | cons v vs ih =>
    have := diff_ok.1 ⟨h.1, h.2.1⟩
    exact ⟨this.1, this.2, ih v h.2.2⟩

/-- A chunk of `n` points of the field survives: it is encoded, and its bytes, followed by anything, are decoded into any buffer and
layout with room for it to the same values, nothing else being changed. -/
def SectionSurvives (F : FloatOps) (hash : BitVec 64 → BitVec 64) (p : PointField) (f : AField) (step n cap : Nat) (mem : List Byte) : Prop :=
  ∃ f' bytes, encodeV5Chunk F hash step [] [f] mem n cap = .ok ([], [f'], mem.drop (n * step), bytes) ∧
    ∀ following buf base dstep doff, base + n * dstep ≤ buf.length → doff.toNat + sizeOf p.type ≤ dstep →
      ∃ buf', decodeSection (mkAField { p with offset := doff }) base dstep n (bytes ++ following) buf = .ok (following, buf') ∧
        buf'.length = buf.length ∧
        (∀ i, i < n → cell buf' base dstep i doff.toNat (sizeOf p.type) = cell mem 0 step i p.offset.toNat (sizeOf p.type)) ∧
        (∀ q, (∀ i, i < n → q < base + i * dstep + doff.toNat ∨ base + i * dstep + doff.toNat + sizeOf p.type ≤ q) →
          buf'[q]? = buf[q]?)

/-- **C13, exactly.**  For a field that has committed to a mode (at the latest in its first chunk), a chunk survives exactly if the mode
stores the values themselves or all differences of consecutive values lie strictly between -2^63 and 2^63. -/
theorem C13_committed_iff (F : FloatOps) (hash : BitVec 64 → BitVec 64) (p : PointField) (hp : isAdaptiveType p.type = true)
    (f : AField) (hf : FieldReach F hash p f) (hc : f.committed = true)
    (step n cap : Nat) (mem : List Byte) (hn0 : 0 < n) (hn : n ≤ kPointsPerChunk) (hcap : 5 + 20 * n ≤ cap)
    (hin : InCloud mem step p.offset.toNat (sizeOf p.type) n) :
    SectionSurvives F hash p f step n cap mem ↔
      (f.mode = .rle ∨ f.mode = .palette ∨
        DiffsFit 0 (intHistory mem step p.offset.toNat (sizeOf p.type) (isSignedType p.type) n)) := by
  have hcap' : 5 + 11 * n ≤ cap := by omega
  constructor
  · rintro ⟨f', bytes, he, hd⟩
    cases Classical.em (f.mode = .rle ∨ f.mode = .palette) with
    | inl h => exact h.elim .inl fun h => .inr (.inl h)
    | inr hm =>
    refine .inr (.inr ?_)
    have hmd : f.mode = .deltaVarint ∨ f.mode = .deltaRle := by
      revert hm; cases f.mode <;> simp
    obtain ⟨ht, hs⟩ := reach_inv hp hf
    have e1 : f.offset = p.offset.toNat := hs.1
    have e2 : f.bpv = sizeOf p.type := hs.2.1
    have e3 : f.signed = isSignedType p.type := hs.2.2
    have h8 : f.bpv ≤ 8 := by rw [e2]; exact adaptive_size _ hp
    have hn' : n ≤ 65535 := by unfold kPointsPerChunk at hn; omega
    have hfit := fitsSeq_of_inCloud (f := f) (by rw [e1, e2]; exact hin)
    have hlen := fieldSeq_length step f.offset f.bpv n mem
    obtain ⟨p1, p2, p3, p4, p5⟩ := prepareField_spec f ht
    have hst : Stepping (prepareField f) := ⟨by rw [p4, hc], by rw [p5]; exact fun h => hm (.inl h), by rw [p5]; exact fun h => hm (.inr h)⟩
    have hfit' : FitsSeq step n mem (prepareField f) := fun i hi => by rw [p2.1, p2.2.1]; exact hfit i hi
    have hrun : encodeV5Chunk F hash step [] [f] mem n cap =
        (collectOne step n (prepareField f) mem >>= fun g => appendSection hash g ⟨[], cap⟩ >>= fun r =>
          .ok ([], [r.1], mem.drop (n * step), r.2.out)) := by
      unfold encodeV5Chunk encodePointsV5
      simp only [List.map_nil, List.map_cons]
      rw [if_neg (by simp [p4, hc]), encodeRangeV5_one]
      simp only [Res.bind_assoc, Res.ok_bind, appendSections]
    by_cases hw : SubW 0#64 (ivals f (fieldSeq step f.offset f.bpv n mem))
    · obtain ⟨g, c0, c1, c2, c3, c4, c5⟩ := collectOne_w step n _ mem [] p1 p3 hfit'
        (fun _ => by rw [ivals_same p2, p2.1, p2.2.1, List.nil_append]; exact hw)
      rw [p2.1, p2.2.1, List.nil_append] at c1
      have hsame : SameField g f := c3.trans p2
      have hmode : g.mode = f.mode := by rw [c5, p5]
      have hsl := secFor_length f.mode f.bpv (ivals f (fieldSeq step f.offset f.bpv n mem)) (rvals (fieldSeq step f.offset f.bpv n mem)) n h8
        (by simpa [ivals] using hlen) (by simpa [rvals] using hlen) (by omega)
      obtain ⟨g', e⟩ := appendSection_committed hash g _ ⟨[], cap⟩ c2 c1 (by rw [hlen]; omega) (by rw [c4, p4, hc])
        (by rw [hmode, hsame.2.1, ivals_same hsame]; exact Nat.le_trans hsl hcap')
      rw [hmode, hsame.2.1, ivals_same hsame] at e
      rw [hrun, c0, Res.ok_bind, e, Res.ok_bind] at he
      simp only [Res.ok.injEq, Prod.mk.injEq, W.put, List.nil_append] at he
      obtain ⟨_, _, _, rfl⟩ := he
      have hnot : BitVec.intMin 64 ∉ deltas 0#64 (ivals f (fieldSeq step f.offset f.bpv n mem)) := by
        intro hmem
        obtain ⟨buf', hb, _⟩ := hd [] (List.replicate (n * step) 0#8) 0 step p.offset (by simp) hin.2
        have hil : (ivals f (fieldSeq step f.offset f.bpv n mem)).length = n := by simpa [ivals] using hlen
        have := decodeSection_marker (mkAField { p with offset := p.offset }) f.mode hmd 0 step f.bpv
          (ivals f (fieldSeq step f.offset f.bpv n mem)) (rvals (fieldSeq step f.offset f.bpv n mem)) [] (List.replicate (n * step) 0#8)
          (by rw [hil]; omega) hmem ([], buf')
        rw [hil] at this
        exact this hb
      have hok := subOK_of hw hnot
      rw [← e1, ← e2, ← e3, history_eq]
      exact diffsFit_of_subOK _ _ hok
    · exfalso
      have c0 := collectOne_ub step n _ mem [] p1 p3 hst hfit' trivial
        (by rw [ivals_same p2, p2.1, p2.2.1, List.nil_append]; exact hw)
      rw [hrun, c0] at he
      cases he
  · rintro (h | h | h)
    · obtain ⟨f', bytes, he, _, hd⟩ := C13_literal_modes F hash p hp f hf hc (.inl h) step n cap mem hn0 hn hcap' hin
      exact ⟨f', bytes, he, hd⟩
    · obtain ⟨f', bytes, he, _, hd⟩ := C13_literal_modes F hash p hp f hf hc (.inr h) step n cap mem hn0 hn hcap' hin
      exact ⟨f', bytes, he, hd⟩
    · obtain ⟨f', bytes, he, _, hd⟩ := C13_section_roundtrip_partial F hash p hp f hf step n cap mem hn0 hn hcap' hin h
      exact ⟨f', bytes, he, hd⟩

/-! ## C14 streaming and buffering write identical sections -/

/-- The section written point by point by a field committed to mode `m` before the chunk. -/
def streamedSection (F : FloatOps) (hash : BitVec 64 → BitVec 64) (f : AField) (m : AMode) (step n : Nat) (mem : List Byte)
    (room : Nat) : Res (List Byte) := do
  let (_, gs, _, _) ← encodeRangeV5 F step n [] [prepareField { f with committed := true, mode := m }] mem ⟨[], 0⟩
  let (_, w) ← appendSections hash gs ⟨[], room⟩
  .ok w.out

/-- The section written in mode `m` from the complete vector of values of the chunk. -/
def bufferedSection (F : FloatOps) (hash : BitVec 64 → BitVec 64) (f : AField) (m : AMode) (step n : Nat) (mem : List Byte)
    (room : Nat) : Res (List Byte) := do
  let (_, gs, _, _) ← encodeRangeV5 F step n [] [prepareField { f with committed := false }] mem ⟨[], 0⟩
  let (_, w) ← appendSections hash (gs.map fun g => { g with committed := true, mode := m }) ⟨[], room⟩
  .ok w.out

/-- The section written in mode `m` when the mode was chosen after the first `k` values had been buffered: these are put
at the front of the section, the others are written point by point. -/
def splitSection (F : FloatOps) (hash : BitVec 64 → BitVec 64) (f : AField) (m : AMode) (step k n : Nat) (mem : List Byte)
    (room : Nat) : Res (List Byte) := do
  let (_, gs, mem, _) ← encodeRangeV5 F step k [] [prepareField { f with committed := false }] mem ⟨[], 0⟩
  let gs ← mapFields (fun g => appendProbeValues (beginSection { g with committed := true, mode := m })) gs
  let (_, gs, _, _) ← encodeRangeV5 F step (n - k) [] gs mem ⟨[], 0⟩
  let (_, w) ← appendSections hash gs ⟨[], room⟩
  .ok w.out

/-- Every difference of consecutive values, the first one from `p`, is a 64-bit integer. -/
def DiffsHold : Int → List (Option Int) → Prop
  | _, [] => True
  | _, none :: xs => DiffsHold 0 xs
  | p, some v :: xs => -2 ^ 63 ≤ v - p ∧ v - p < 2 ^ 63 ∧ DiffsHold v xs

instance DiffsHold.dec : ∀ p xs, Decidable (DiffsHold p xs)
  | _, [] => isTrue trivial
  | _, none :: xs => DiffsHold.dec 0 xs
  | p, some v :: xs =>
    have := DiffsHold.dec v xs
    inferInstanceAs (Decidable (-2 ^ 63 ≤ v - p ∧ v - p < 2 ^ 63 ∧ DiffsHold v xs))

theorem subW_iff (p : BitVec 64) (vs : List (BitVec 64)) : SubW p vs ↔ DiffsHold p.toInt (vs.map fun v => some v.toInt) := by
  induction vs generalizing p with
  | nil => exact Iff.rfl
  | cons v vs ih =>
    have h : subI64 v p = .ok (v - p) ↔ -2 ^ 63 ≤ v.toInt - p.toInt ∧ v.toInt - p.toInt < 2 ^ 63 := by
      rw [subI64_eq_ok]
      simp only [BitVec.ssubOverflow, Bool.or_eq_false_iff, decide_eq_false_iff_not, and_true]
      omega
    simp only [List.map_cons, SubW, DiffsHold, h, ih, and_assoc]

/-- The streamed section, as a function of the collected field. -/
theorem streamed_eq (F : FloatOps) (hash : BitVec 64 → BitVec 64) (f : AField) (m : AMode) (step n : Nat) (mem : List Byte) (room : Nat) :
    streamedSection F hash f m step n mem room =
      (collectOne step n (prepareField { f with committed := true, mode := m }) mem >>= fun g =>
        appendSection hash g ⟨[], room⟩ >>= fun r => .ok r.2.out) := by
  unfold streamedSection
  rw [encodeRangeV5_one]
  simp only [Res.bind_assoc, Res.ok_bind, appendSections]

theorem buffered_eq (F : FloatOps) (hash : BitVec 64 → BitVec 64) (f : AField) (m : AMode) (step n : Nat) (mem : List Byte) (room : Nat) :
    bufferedSection F hash f m step n mem room =
      (collectOne step n (prepareField { f with committed := false }) mem >>= fun g =>
        appendSection hash { g with committed := true, mode := m } ⟨[], room⟩ >>= fun r => .ok r.2.out) := by
  unfold bufferedSection
  rw [encodeRangeV5_one]
  simp only [Res.bind_assoc, Res.ok_bind, List.map_cons, List.map_nil, appendSections]

theorem split_eq (F : FloatOps) (hash : BitVec 64 → BitVec 64) (f : AField) (m : AMode) (step k n : Nat) (mem : List Byte) (room : Nat) :
    splitSection F hash f m step k n mem room =
      (collectOne step k (prepareField { f with committed := false }) mem >>= fun g =>
        appendProbeValues (beginSection { g with committed := true, mode := m }) >>= fun g =>
        collectOne step (n - k) g (mem.drop (k * step)) >>= fun g =>
        appendSection hash g ⟨[], room⟩ >>= fun r => .ok r.2.out) := by
  unfold splitSection
  rw [encodeRangeV5_one]
  simp only [Res.bind_assoc, Res.ok_bind, mapFields, encodeRangeV5_one, appendSections]

/-- Buffering values never fails. -/
theorem buffer_all (f : AField) (step n : Nat) (mem : List Byte) (ht : TInv f) (hin : FitsSeq step n mem f) :
    ∃ g, collectOne step n (prepareField { f with committed := false }) mem = .ok g ∧ ChunkSt g (fieldSeq step f.offset f.bpv n mem) ∧
      TInv g ∧ SameField g f ∧ g.committed = false := by
  obtain ⟨p1, p2, p3, p4, p5⟩ := prepareField_spec { f with committed := false } (ht.congr rfl rfl rfl)
  obtain ⟨g, c0, c1, c2, c3, c4, c5⟩ := collectOne_w step n _ mem [] p1 p3
    (fun i hi => by rw [p2.1, p2.2.1]; exact hin i hi)
    (fun h => by have := h.1; rw [p4] at this; simp at this)
  rw [p2.1, p2.2.1, List.nil_append] at c1
  exact ⟨g, c0, c1, c2, (c3.trans p2).trans ⟨rfl, rfl, rfl⟩, by rw [c4, p4]⟩

theorem fits_prefix {step n k : Nat} {mem : List Byte} {f : AField} (h : FitsSeq step n mem f) (hk : k ≤ n) : FitsSeq step k mem f :=
  fun i hi => h i (by omega)
theorem fits_rest {step n k : Nat} {mem : List Byte} {f : AField} (h : FitsSeq step n mem f) (hk : k ≤ n) :
    FitsSeq step (n - k) (mem.drop (k * step)) f := by
  intro i hi
  have := h (k + i) (by omega)
  rw [List.drop_drop, ← Nat.add_mul]
  exact this

/-- Three ways to write a section whose differences do not matter or hold. -/
theorem sections_agree (F : FloatOps) (hash : BitVec 64 → BitVec 64) (f : AField) (m : AMode) (step n : Nat) (mem : List Byte) (room : Nat)
    (ht : TInv f) (hn : n ≤ 2 ^ 31) (hin : FitsSeq step n mem f)
    (hs : m ≠ .rle → m ≠ .palette → SubW 0#64 (ivals f (fieldSeq step f.offset f.bpv n mem)))
    (hr : (secFor m f.bpv (ivals f (fieldSeq step f.offset f.bpv n mem)) (rvals (fieldSeq step f.offset f.bpv n mem))).length ≤ room) :
    streamedSection F hash f m step n mem room =
        .ok (secFor m f.bpv (ivals f (fieldSeq step f.offset f.bpv n mem)) (rvals (fieldSeq step f.offset f.bpv n mem))) ∧
      bufferedSection F hash f m step n mem room =
        .ok (secFor m f.bpv (ivals f (fieldSeq step f.offset f.bpv n mem)) (rvals (fieldSeq step f.offset f.bpv n mem))) ∧
      ∀ k, k ≤ n → splitSection F hash f m step k n mem room =
        .ok (secFor m f.bpv (ivals f (fieldSeq step f.offset f.bpv n mem)) (rvals (fieldSeq step f.offset f.bpv n mem))) := by
  have hl := fieldSeq_length step f.offset f.bpv n mem
  -- a field committed to `m` that has taken all values
  have hfin : ∀ g, ChunkSt g (fieldSeq step f.offset f.bpv n mem) → TInv g → SameField g f → g.committed = true → g.mode = m →
      (appendSection hash g ⟨[], room⟩ >>= fun r => .ok r.2.out) =
        .ok (secFor m f.bpv (ivals f (fieldSeq step f.offset f.bpv n mem)) (rvals (fieldSeq step f.offset f.bpv n mem))) := by
    intro g h1 h2 h3 h4 h5
    obtain ⟨g', e⟩ := appendSection_committed hash g _ ⟨[], room⟩ h2 h1 (by rw [hl]; exact hn) h4
      (by rw [h5, h3.2.1, ivals_same h3]; exact hr)
    rw [e, h5, h3.2.1, ivals_same h3]
    rfl
  refine ⟨?_, ?_, ?_⟩
  · obtain ⟨p1, p2, p3, p4, p5⟩ := prepareField_spec { f with committed := true, mode := m } (ht.congr rfl rfl rfl)
    obtain ⟨g, c0, c1, c2, c3, c4, c5⟩ := collectOne_w step n _ mem [] p1 p3
      (fun i hi => by rw [p2.1, p2.2.1]; exact hin i hi)
      (fun h => by rw [ivals_same p2, p2.1, p2.2.1, List.nil_append]; rw [Stepping, p5] at h; exact hs h.2.1 h.2.2)
    rw [p2.1, p2.2.1, List.nil_append] at c1
    rw [streamed_eq, c0, Res.ok_bind]
    exact hfin g c1 c2 ((c3.trans p2).trans ⟨rfl, rfl, rfl⟩) (by rw [c4, p4]) (by rw [c5, p5])
  · obtain ⟨g, c0, c1, c2, c3, c4⟩ := buffer_all f step n mem ht hin
    rw [buffered_eq, c0, Res.ok_bind]
    unfold ChunkSt at c1
    simp only [c4, Bool.false_eq_true, if_false] at c1
    obtain ⟨s1, s2, s3⟩ := c1
    rw [ivals_same c3] at s2
    obtain ⟨g', e', t1, t2, t3, t4, t5, t6, t7⟩ := rebuildPalette_spec hash { g with committed := true, mode := m }
      (c2.congr rfl rfl rfl) (by rw [show ({ g with committed := true, mode := m } : AField).raws = g.raws from rfl, s3]; simpa [rvals] using hn)
    have hsec : secFor g'.mode g'.bpv g'.values g'.raws =
        secFor m f.bpv (ivals f (fieldSeq step f.offset f.bpv n mem)) (rvals (fieldSeq step f.offset f.bpv n mem)) := by
      rw [t4, t2.2.1, t5, t6]
      show secFor m g.bpv g.values g.raws = _
      rw [s2, s3, c3.2.1]
    have hab := appendBuffered_any g' ⟨[], room⟩
      (fun h1 h2 => by rw [t6]; show SubW 0#64 g.values; rw [s2]; rw [t4] at h1 h2; exact hs h1 h2)
      (fun h => by rw [t5]; exact t7 (by rw [← t4]; exact h)) (by rw [hsec]; exact hr)
    unfold appendSection
    rw [if_neg (by show ¬ (true = true ∧ g.streaming = true); rw [s1]; simp)]
    have hcommit : commitMode hash { g with committed := true, mode := m } = .ok { g with committed := true, mode := m } := rfl
    rw [hcommit]
    simp only [Res.ok_bind, e', hab, hsec]
    rfl
  · intro k hk
    obtain ⟨g, c0, c1, c2, c3, c4⟩ := buffer_all f step k mem ht (fits_prefix hin hk)
    have hsplit := fieldSeq_add step f.offset f.bpv k (n - k) mem
    rw [show k + (n - k) = n by omega] at hsplit
    obtain ⟨g', e', q1, q2, q3, q4, q5⟩ := startProbed_spec g m _ c2 c4 c1 (fun h1 h2 => by
      have h := hs h1 h2
      rw [hsplit, show ∀ a b, ivals f (a ++ b) = ivals f a ++ ivals f b from fun a b => by simp [ivals], subW_append] at h
      rw [ivals_same c3]; exact h.1)
    have hsame : SameField g' f := q3.trans c3
    obtain ⟨g2, d0, d1, d2, d3, d4, d5⟩ := collectOne_w step (n - k) g' (mem.drop (k * step)) _ q1 q2
      (fun i hi => by rw [hsame.1, hsame.2.1]; exact fits_rest hin hk i hi)
      (fun h => by
        rw [ivals_same hsame, hsame.1, hsame.2.1, ← hsplit]
        rw [Stepping, q5] at h
        exact hs h.2.1 h.2.2)
    rw [hsame.1, hsame.2.1, ← hsplit] at d1
    rw [split_eq, c0, Res.ok_bind, e', Res.ok_bind, d0, Res.ok_bind]
    exact hfin g2 d1 d2 (d3.trans hsame) (by rw [d4, q4]) (by rw [d5, q5])

/-- Three ways to overflow. -/
theorem sections_overflow (F : FloatOps) (hash : BitVec 64 → BitVec 64) (f : AField) (m : AMode) (step n : Nat) (mem : List Byte) (room : Nat)
    (ht : TInv f) (hin : FitsSeq step n mem f) (hm : m = .deltaVarint ∨ m = .deltaRle)
    (hs : ¬ SubW 0#64 (ivals f (fieldSeq step f.offset f.bpv n mem))) (hr : 5 + 20 * n ≤ room) :
    streamedSection F hash f m step n mem room = .ub .overflow ∧ bufferedSection F hash f m step n mem room = .ub .overflow ∧
      ∀ k, k ≤ n → splitSection F hash f m step k n mem room = .ub .overflow := by
  have hm1 : m ≠ .rle := by rcases hm with rfl | rfl <;> simp
  have hm2 : m ≠ .palette := by rcases hm with rfl | rfl <;> simp
  have hl := fieldSeq_length step f.offset f.bpv n mem
  refine ⟨?_, ?_, ?_⟩
  · obtain ⟨p1, p2, p3, p4, p5⟩ := prepareField_spec { f with committed := true, mode := m } (ht.congr rfl rfl rfl)
    have c0 := collectOne_ub step n _ mem [] p1 p3 ⟨p4, by rw [p5]; exact hm1, by rw [p5]; exact hm2⟩
      (fun i hi => by rw [p2.1, p2.2.1]; exact hin i hi) trivial
      (by rw [ivals_same p2, p2.1, p2.2.1, List.nil_append]; exact hs)
    rw [streamed_eq, c0]
    rfl
  · obtain ⟨g, c0, c1, c2, c3, c4⟩ := buffer_all f step n mem ht hin
    rw [buffered_eq, c0, Res.ok_bind]
    unfold ChunkSt at c1
    simp only [c4, Bool.false_eq_true, if_false] at c1
    obtain ⟨s1, s2, s3⟩ := c1
    rw [ivals_same c3] at s2
    have hab := appendBuffered_ub { g with committed := true, mode := m } ⟨[], room⟩ hm
      (by show ¬ SubW 0#64 g.values; rw [s2]; exact hs)
      (by show 5 + 20 * g.values.length ≤ room; rw [s2]; simpa [ivals] using hr)
    unfold appendSection
    rw [if_neg (by show ¬ (true = true ∧ g.streaming = true); rw [s1]; simp)]
    have hcommit : commitMode hash { g with committed := true, mode := m } = .ok { g with committed := true, mode := m } := rfl
    have hreb : rebuildPalette hash { g with committed := true, mode := m } = .ok { g with committed := true, mode := m } := if_neg hm2
    rw [hcommit]
    simp only [Res.ok_bind, hreb, hab]
    rfl
  · intro k hk
    obtain ⟨g, c0, c1, c2, c3, c4⟩ := buffer_all f step k mem ht (fits_prefix hin hk)
    have hsplit := fieldSeq_add step f.offset f.bpv k (n - k) mem
    rw [show k + (n - k) = n by omega] at hsplit
    rw [split_eq, c0, Res.ok_bind]
    by_cases hk1 : SubW 0#64 (ivals g (fieldSeq step f.offset f.bpv k mem))
    · obtain ⟨g', e', q1, q2, q3, q4, q5⟩ := startProbed_spec g m _ c2 c4 c1 (fun _ _ => hk1)
      have hsame : SameField g' f := q3.trans c3
      rw [e', Res.ok_bind]
      have d0 := collectOne_ub step (n - k) g' (mem.drop (k * step)) _ q1 q2 ⟨q4, by rw [q5]; exact hm1, by rw [q5]; exact hm2⟩
        (fun i hi => by rw [hsame.1, hsame.2.1]; exact fits_rest hin hk i hi)
        (by rw [ivals_same q3]; exact hk1)
        (by rw [ivals_same hsame, hsame.1, hsame.2.1, ← hsplit]; exact hs)
      rw [d0]
      rfl
    · rw [startProbed_ub g m _ c4 c1 hm1 hm2 hk1]
      rfl

/-- **C14.**  Whatever the values, the history of the field, the mode `m` and the hash, there is one result that a chunk's
section has in whichever way it is produced: streamed point by point, written from the vector of all values, or begun
from `k` buffered values and then streamed, for every `k`; given room for it.  The result is a byte string, except in a delta
mode when some difference of consecutive values is no 64-bit integer: then all of them overflow. -/
theorem C14_stream_eq_buffer (F : FloatOps) (hash : BitVec 64 → BitVec 64) (p : PointField) (hp : isAdaptiveType p.type = true)
    (f : AField) (hf : FieldReach F hash p f) (m : AMode) (step n : Nat) (mem : List Byte) (hn : n ≤ kPointsPerChunk)
    (hin : InCloud mem step p.offset.toNat (sizeOf p.type) n) :
    ∃ (result : Res (List Byte)) (size : Nat),
      (∀ room, size ≤ room → streamedSection F hash f m step n mem room = result ∧
        bufferedSection F hash f m step n mem room = result ∧
        ∀ k, k ≤ n → splitSection F hash f m step k n mem room = result) ∧
      (((m = .deltaVarint ∨ m = .deltaRle) ∧
          ¬ DiffsHold 0 (intHistory mem step p.offset.toNat (sizeOf p.type) (isSignedType p.type) n)) →
        result = .ub .overflow) ∧
      (¬ ((m = .deltaVarint ∨ m = .deltaRle) ∧
          ¬ DiffsHold 0 (intHistory mem step p.offset.toNat (sizeOf p.type) (isSignedType p.type) n)) →
        ∃ bytes, result = .ok bytes ∧ size = bytes.length) := by
  obtain ⟨ht, hs⟩ := reach_inv hp hf
  have e1 : f.offset = p.offset.toNat := hs.1
  have e2 : f.bpv = sizeOf p.type := hs.2.1
  have e3 : f.signed = isSignedType p.type := hs.2.2
  rw [← e1, ← e2] at hin
  rw [← e1, ← e2, ← e3]
  have hfit := fitsSeq_of_inCloud (f := f) hin
  have hn' : n ≤ 2 ^ 31 := by unfold kPointsPerChunk at hn; omega
  have hsub := subW_iff 0#64 (ivals f (fieldSeq step f.offset f.bpv n mem))
  rw [← history_eq, show (0#64 : BitVec 64).toInt = 0 from rfl] at hsub
  rw [← hsub]
  by_cases h : (m = .deltaVarint ∨ m = .deltaRle) ∧ ¬ SubW 0#64 (ivals f (fieldSeq step f.offset f.bpv n mem))
  · exact ⟨.ub .overflow, 5 + 20 * n, fun room hroom => sections_overflow F hash f m step n mem room ht hfit h.1 h.2 hroom, fun _ => rfl,
      fun hc => absurd h hc⟩
  · refine ⟨_, _, fun room hroom => sections_agree F hash f m step n mem room ht hn' hfit ?_ hroom, fun hc => absurd hc h, fun _ => ⟨_, rfl, rfl⟩⟩
    intro h1 h2
    cases Classical.em (SubW 0#64 (ivals f (fieldSeq step f.offset f.bpv n mem))) with
    | inl h3 => exact h3
    | inr h3 => exact absurd ⟨by cases m <;> simp_all, h3⟩ h

/-! ## C15 palette construction -/

/-- The states in which a palette table can be when a palette is built: never used, or used for any sequence of
earlier lists of at most 2^31 values; everything else in the field may have changed arbitrarily in between. -/
inductive TableReach (hash : BitVec 64 → BitVec 64) : AField → Prop
  | fresh (f : AField) : f.slots = [] → f.gens = [] → f.generation = 1#32 → TableReach hash f
  | built (f g : AField) : TableReach hash f → f.raws.length ≤ 2 ^ 31 → buildPaletteIndexes hash f = .ok g → TableReach hash g
  | other (f g : AField) : TableReach hash f → g.slots = f.slots → g.gens = f.gens → g.generation = f.generation → TableReach hash g

theorem table_inv {hash : BitVec 64 → BitVec 64} {f : AField} (h : TableReach hash f) : TInv f := by
  induction h with
  | fresh f h1 h2 h3 => exact ⟨Or.inl h1, by rw [h1, h2], by rw [h2]; simp, by rw [h3]; simp⟩
  | built f g _ hn he ih =>
    obtain ⟨slots, gens, gen, e, ht⟩ := buildPalette_eq hash f ih hn
    rw [e] at he
    simp only [Res.ok.injEq] at he
    subst he
    exact ht.congr rfl rfl rfl
  | other f g _ h1 h2 h3 ih => exact ih.congr h1 h2 h3

/-- "Lists the distinct elements of `vs` in order of first appearance": it has no repetition, exactly the elements of
`vs`, and of two entries the one whose first occurrence in `vs` is earlier comes first. -/
def FirstAppearance (vs pal : List (BitVec 64)) : Prop :=
  pal.Nodup ∧ (∀ v, v ∈ pal ↔ v ∈ vs) ∧ pal.Pairwise fun a b => vs.idxOf a < vs.idxOf b

theorem firstOcc_snoc (vs : List (BitVec 64)) (v : BitVec 64) : firstOcc (vs ++ [v]) = addNew (firstOcc vs) v := by
  simp [firstOcc, List.foldl_append]

theorem firstOcc_first (vs : List (BitVec 64)) : FirstAppearance vs (firstOcc vs) := by
  refine ⟨firstOcc_nodup vs, mem_firstOcc vs, ?_⟩
  suffices h : ∀ (l : List (BitVec 64)), (firstOcc l.reverse).Pairwise (fun a b => l.reverse.idxOf a < l.reverse.idxOf b) by
    have := h vs.reverse; rwa [List.reverse_reverse] at this
  intro l
  induction l with
  | nil => simp [firstOcc]
  | cons v l ih =>
    rw [List.reverse_cons, firstOcc_snoc]
    have hidx : ∀ a, a ∈ firstOcc l.reverse → (l.reverse ++ [v]).idxOf a = l.reverse.idxOf a := fun a ha =>
      by rw [List.idxOf_append, if_pos ((mem_firstOcc _ a).1 ha)]
    have hpw : (firstOcc l.reverse).Pairwise (fun a b => (l.reverse ++ [v]).idxOf a < (l.reverse ++ [v]).idxOf b) :=
      ih.imp_of_mem fun {a b} ha hb h => by rw [hidx a ha, hidx b hb]; exact h
    unfold addNew
    split
    · exact hpw
    · next hv =>
      rw [List.pairwise_append]
      refine ⟨hpw, by simp, ?_⟩
      intro a ha b hb
      simp only [List.mem_singleton] at hb
      subst hb
      have hb' : b ∉ l.reverse := fun h => hv ((mem_firstOcc _ b).2 h)
      rw [hidx a ha, List.idxOf_append, if_neg hb']
      have := List.idxOf_lt_length_iff.2 ((mem_firstOcc _ a).1 ha)
      omega

/-- **C15.**  Whatever the hash function and however often the table was reused (including across wrap-around of its
32-bit generation counter), building a palette terminates without undefined behaviour, the palette lists the distinct
values in order of first appearance, and the `k`-th index refers to the `k`-th value. -/
theorem C15_palette_exact (hash : BitVec 64 → BitVec 64) (f : AField) (hf : TableReach hash f) (hn : f.raws.length ≤ 2 ^ 31) :
    ∃ g, buildPaletteIndexes hash f = .ok g ∧ TableReach hash g ∧ g.raws = f.raws ∧ FirstAppearance f.raws g.palette ∧
      g.indexes.map (fun i => g.palette[i]?) = f.raws.map some := by
  obtain ⟨slots, gens, gen, e, ht⟩ := buildPalette_eq hash f (table_inv hf) hn
  exact ⟨_, e, .built f _ hf hn e, rfl, firstOcc_first _, paletteIdx_spec _⟩

/-! ## C16 bit packing -/

/-- Reading `n` indexes of `bits` bits one after the other, starting with an empty bit buffer. -/
def unpackIndexes (bits : Nat) : Nat → List Byte → BitVec 64 → Nat → Res (List Nat)
  | 0, _, _, _ => .ok []
  | n + 1, input, scratch, held => do
    let (i, input, scratch, held) ← readBitpackedIndex bits input scratch held
    let is ← unpackIndexes bits n input scratch held
    .ok (i :: is)

theorem unpack_spec (bits : Nat) (hb : bits ≤ 32) (idx : List Nat) (inp : List Byte) (s : BitVec 64) (h v : Nat)
    (hs : s.toNat < 2 ^ h) (hh : h < 8) (ha : bits * idx.length ≤ h + 8 * inp.length)
    (hi : ∀ j ∈ idx, j < 2 ^ bits)
    (hv : s.toNat + 2 ^ h * fromLE inp = packVal bits idx + 2 ^ (bits * idx.length) * v) :
    unpackIndexes bits idx.length inp s h = .ok idx := by
  induction idx generalizing inp s h with
  | nil => rfl
  | cons j idx ih =>
    simp only [List.length_cons, Nat.mul_add, Nat.mul_one] at ha
    have hsplit : s.toNat + 2 ^ h * fromLE inp = j + 2 ^ bits * (packVal bits idx + 2 ^ (bits * idx.length) * v) := by
      rw [hv]
      simp only [packVal, List.length_cons, Nat.mul_add, Nat.mul_one, Nat.pow_add]
      rw [← Nat.mul_assoc (2 ^ bits), Nat.mul_comm (2 ^ bits) (2 ^ (bits * idx.length))]
      omega
    obtain ⟨i', s', h', e1, e2, e3, e4, e5⟩ := readBitpackedIndex_spec bits hb inp s h j _ hs hh (by omega)
      (hi j (by simp)) hsplit
    simp only [List.length_cons, unpackIndexes, e1, Res.ok_bind,
      ih i' s' h' e2 e3 (by omega) (fun k hk => hi k (by simp [hk])) e4]

/-- **C16.**  Packing and reading back, for every width up to 32 bits, whatever bytes follow. -/
theorem C16_bitpack (bits : Nat) (hb : bits ≤ 32) (idx : List Nat) (hi : ∀ i ∈ idx, i < 2 ^ bits) (following : List Byte) :
    (bitpack bits idx).length = (bits * idx.length + 7) / 8 ∧
      unpackIndexes bits idx.length (bitpack bits idx ++ following) 0#64 0 = .ok idx := by
  have hbp := bitpack_spec bits hb idx hi
  refine ⟨hbp.2, unpack_spec bits hb idx _ 0#64 0
    (2 ^ (8 * (bitpack bits idx).length - bits * idx.length) * fromLE following) (by simp) (by omega)
    (by rw [List.length_append, hbp.2]; omega) hi ?_⟩
  rw [fromLE_append, hbp.1, ← Nat.mul_assoc, ← Nat.pow_add, pow256]
  have : bits * idx.length + (8 * (bitpack bits idx).length - bits * idx.length) = 8 * (bitpack bits idx).length := by
    rw [hbp.2]; omega
  rw [this]
  simp

/-- **C16**, the width chosen for a palette of `u` entries suffices for every index, and is 0 to 16 for the palettes
that can occur in a chunk. -/
theorem C16_width (u i : Nat) (h : i < u) :
    i < 2 ^ bitsForPaletteIndex u ∧ (u ≤ 65536 → bitsForPaletteIndex u ≤ 16) :=
  ⟨palette_bits u i h, fun h => palette_bits_le u 16 (by omega)⟩

/-! ## C17 mode choice -/

/-- The order in which the modes are compared. -/
def AMode.rank : AMode → Nat
  | .deltaVarint => 0
  | .palette => 1
  | .rle => 2
  | .deltaRle => 3

theorem selectBest_rank (L : AMode → Nat) (m : AMode)
    (h : AMode.rank m < AMode.rank (selectBest (L .deltaVarint) (L .palette) (L .rle) (L .deltaRle))) :
    L (selectBest (L .deltaVarint) (L .palette) (L .rle) (L .deltaRle)) < L m := by
  unfold selectBest at *
  by_cases a : L .palette < L .deltaVarint
  · by_cases b : L .rle < L .palette
    · by_cases c : L .deltaRle < L .rle <;> simp only [a, b, c, if_true, if_false] at h ⊢ <;> cases m <;>
        simp [AMode.rank] at h <;> omega
    · by_cases c : L .deltaRle < L .palette <;> simp only [a, b, c, if_true, if_false] at h ⊢ <;> cases m <;>
        simp [AMode.rank] at h <;> omega
  · by_cases b : L .rle < L .deltaVarint
    · by_cases c : L .deltaRle < L .rle <;> simp only [a, b, c, if_true, if_false] at h ⊢ <;> cases m <;>
        simp [AMode.rank] at h <;> omega
    · by_cases c : L .deltaRle < L .deltaVarint <;> simp only [a, b, c, if_true, if_false] at h ⊢ <;> cases m <;>
        simp [AMode.rank] at h <;> omega

/-- **C17.**  Let `f` be a field that has buffered the values of some points (in both representations) and is not yet
committed.  There is, for each mode `m`, a length `L m` that is the length of the section `m` really writes, and equals the
estimate the encoder computes for `m`; committing succeeds and selects a mode whose `L` is minimal, and strictly
smaller than that of every mode earlier in the order delta varint, palette, RLE, delta-RLE. -/
theorem C17_mode_choice (hash : BitVec 64 → BitVec 64) (f : AField) (hf : TableReach hash f) (hc : f.committed = false)
    (hlen : f.raws.length = f.values.length) (hn : f.values.length ≤ kPointsPerChunk)
    (hd : DiffsFit 0 (f.values.map fun v => some v.toInt)) :
    ∃ (g : AField) (L : AMode → Nat), commitMode hash f = .ok g ∧ g.committed = true ∧ g.values = f.values ∧ g.raws = f.raws ∧
      (∀ m room, L m ≤ room → ∃ w, appendBuffered { g with mode := m } ⟨[], room⟩ = .ok w ∧ w.out.length = L m) ∧
      deltaVarintSize f.values 0#64 1 = .ok (L .deltaVarint) ∧ paletteSize g = L .palette ∧
      rleSize f.bpv f.raws = .ok (L .rle) ∧ deltaRleSize f.values = .ok (L .deltaRle) ∧
      (∀ m, L g.mode ≤ L m) ∧ (∀ m, AMode.rank m < AMode.rank g.mode → L g.mode < L m) ∧
      L g.mode ≤ 1 + 10 * f.values.length := by
  have hs : SubW 0#64 f.values := SubOK.weak (subOK_of_diffsFit 0#64 f.values hd)
  have hn' : f.raws.length ≤ 2 ^ 31 := by unfold kPointsPerChunk at hn; omega
  obtain ⟨slots, gens, gen, e, ht⟩ := commitMode_eq hash f (table_inv hf) hn' hs hc
  refine ⟨_, fun m => (secFor m f.bpv f.values f.raws).length, e, rfl, rfl, rfl, ?_, ?_, ?_, ?_, ?_, ?_, ?_, ?_⟩
  · intro m room hroom
    refine ⟨_, appendBuffered_spec _ ⟨[], room⟩ hs (fun _ => ⟨rfl, rfl⟩) hroom, ?_⟩
    simp [W.put]
  · rw [deltaVarintSize_eq _ _ _ hs]
    simp only [secFor, deltaSec, List.length_cons]
    rw [Nat.add_comm]
  · exact paletteSize_eq _ rfl hn'
  · exact rleSize_eq _ _
  · exact deltaRleSize_eq _ hs
  · intro m; exact bestMode_le f.bpv f.values f.raws m
  · intro m h
    exact selectBest_rank (fun m => (secFor m f.bpv f.values f.raws).length) m h
  · refine Nat.le_trans (bestMode_le f.bpv f.values f.raws .deltaVarint) ?_
    exact deltaSec_length f.values

/-! ### Non-vacuity -/

/-- A UINT16 field at offset 4 of a 8-byte point. -/
def exField : PointField := { offset := 4, type := .uint16 }

/-- Three points whose field values are 7, 7 and 300. -/
def exMem : List Byte :=
  [1#8, 2#8, 3#8, 4#8, 7#8, 0#8, 9#8, 9#8, 1#8, 2#8, 3#8, 4#8, 7#8, 0#8, 9#8, 9#8, 1#8, 2#8, 3#8, 4#8, 44#8, 1#8, 9#8, 9#8]

example (F : FloatOps) : isAdaptiveType exField.type = true ∧ FieldReach F hashPaletteValue exField (mkAField exField) ∧
    InCloud exMem 8 exField.offset.toNat (sizeOf exField.type) 3 ∧
    DiffsFit 0 (intHistory exMem 8 exField.offset.toNat (sizeOf exField.type) (isSignedType exField.type) 3) :=
  ⟨rfl, .fresh, by unfold InCloud; decide, by decide +kernel⟩

/-- A field that has already encoded a chunk, so that the hypotheses of C13 and C14 hold after commitment. -/
example (F : FloatOps) : ∃ f', FieldReach F hashPaletteValue exField f' ∧ f' ≠ mkAField exField := by
  obtain ⟨f', bytes, he, hr, _⟩ := C13_section_roundtrip_partial F hashPaletteValue exField rfl (mkAField exField) .fresh 8 3 38 exMem
    (by omega) (by decide) (by omega) (by unfold InCloud; decide) (by decide +kernel)
  refine ⟨f', hr, ?_⟩
  have hs := (one_field_chunk F hashPaletteValue (mkAField exField) 8 3 38 exMem (tinv_fresh _) (by decide) (by omega) (by omega)
    (by omega) (by unfold InCloud; decide) (by decide +kernel))
  obtain ⟨f'', b'', he', hset, _⟩ := hs
  rw [he'] at he
  simp only [Res.ok.injEq, Prod.mk.injEq, List.cons.injEq, and_true] at he
  obtain ⟨_, rfl, _⟩ := he
  intro h
  have := hset.committed
  rw [h] at this
  simp [mkAField] at this

example : TableReach (fun _ => 0#64) { offset := 0, bpv := 2, signed := false, raws := [5#64, 6#64, 5#64] } :=
  .fresh _ rfl rfl rfl

/-- The worst hash (every value in one slot), and a concrete palette. -/
example : ∃ g, buildPaletteIndexes (fun _ => 0#64) { offset := 0, bpv := 2, signed := false, raws := [5#64, 6#64, 5#64] } = .ok g ∧
    g.palette = [5#64, 6#64] ∧ g.indexes = [0, 1, 0] := by
  refine ⟨_, rfl, ?_, ?_⟩ <;> decide +kernel

example : bitpack 3 [5, 1, 7] = [0xCD#8, 0x01#8] := by decide +kernel

example : DiffsFit 0 (([7#64, 7#64, 300#64] : List (BitVec 64)).map fun v => some v.toInt) := by decide +kernel

/-! ### the theorems applied to it -/

/-- A section streamed from the start, one streamed after two buffered values and a buffered one are equal, for a fresh
field and for each of the four modes. -/
example (F : FloatOps) (m : AMode) : ∃ bytes, ∀ room, bytes.length ≤ room →
    streamedSection F hashPaletteValue (mkAField exField) m 8 3 exMem room = .ok bytes ∧
      bufferedSection F hashPaletteValue (mkAField exField) m 8 3 exMem room = .ok bytes ∧
      splitSection F hashPaletteValue (mkAField exField) m 8 2 3 exMem room = .ok bytes := by
  obtain ⟨r, size, h1, _, h3⟩ := C14_stream_eq_buffer F hashPaletteValue exField rfl _ .fresh m 8 3 exMem (by decide) (by unfold InCloud; decide)
  obtain ⟨bytes, rfl, rfl⟩ := h3 (fun h => h.2 (by decide +kernel))
  exact ⟨bytes, fun room hr => ⟨(h1 room hr).1, (h1 room hr).2.1, (h1 room hr).2.2 2 (by omega)⟩⟩

/-- An INT64 field with the values 1 and -2^63. -/
def wideField : PointField := { offset := 0, type := .int64 }
def wideMem : List Byte := [1#8, 0#8, 0#8, 0#8, 0#8, 0#8, 0#8, 0#8, 0#8, 0#8, 0#8, 0#8, 0#8, 0#8, 0#8, 128#8]

/-- In the delta modes both ways overflow, in the two others both ways write the same bytes. -/
example (F : FloatOps) (room : Nat) : ∃ size, size ≤ room →
    streamedSection F hashPaletteValue (mkAField wideField) .deltaRle 8 2 wideMem room = .ub .overflow ∧
      bufferedSection F hashPaletteValue (mkAField wideField) .deltaRle 8 2 wideMem room = .ub .overflow := by
  obtain ⟨r, size, h1, h2, _⟩ := C14_stream_eq_buffer F hashPaletteValue wideField rfl _ .fresh .deltaRle 8 2 wideMem (by decide) (by unfold InCloud; decide)
  have := h2 ⟨.inr rfl, by decide +kernel⟩
  subst this
  exact ⟨size, fun hr => ⟨(h1 room hr).1, (h1 room hr).2.1⟩⟩
example (F : FloatOps) : ∃ bytes, ∀ room, bytes.length ≤ room →
    streamedSection F hashPaletteValue (mkAField wideField) .rle 8 2 wideMem room = .ok bytes ∧
      bufferedSection F hashPaletteValue (mkAField wideField) .rle 8 2 wideMem room = .ok bytes := by
  obtain ⟨r, size, h1, _, h3⟩ := C14_stream_eq_buffer F hashPaletteValue wideField rfl _ .fresh .rle 8 2 wideMem (by decide) (by unfold InCloud; decide)
  obtain ⟨bytes, rfl, rfl⟩ := h3 (by simp)
  exact ⟨bytes, fun room hr => ⟨(h1 room hr).1, (h1 room hr).2.1⟩⟩
example : DiffsFit 0 (intHistory exMem 8 4 2 false 3) := C13_small_values exMem 8 4 2 false 3 (by decide) (by unfold InCloud; decide)

/-- Colliding values, twice in a row with the same table. -/
example : ∃ g h, buildPaletteIndexes (fun _ => 0#64) { offset := 0, bpv := 2, signed := false, raws := [5#64, 6#64, 5#64] } = .ok g ∧
    buildPaletteIndexes (fun _ => 0#64) { g with raws := [6#64, 9#64] } = .ok h ∧ FirstAppearance [6#64, 9#64] h.palette ∧
      h.indexes.map (fun i => h.palette[i]?) = [some 6#64, some 9#64] := by
  obtain ⟨g, h1, h2, _⟩ := C15_palette_exact (fun _ => 0#64) { offset := 0, bpv := 2, signed := false, raws := [5#64, 6#64, 5#64] } (.fresh _ rfl rfl rfl) (by decide)
  obtain ⟨h, h3, _, _, h4, h5⟩ := C15_palette_exact (fun _ => 0#64) { g with raws := [6#64, 9#64] } (.other _ _ h2 rfl rfl rfl) (by simp)
  exact ⟨g, h, h1, h3, h4, by simpa using h5⟩

example : unpackIndexes 3 3 (bitpack 3 [5, 1, 7] ++ [255#8]) 0#64 0 = .ok [5, 1, 7] :=
  (C16_bitpack 3 (by decide) [5, 1, 7] (by decide) [255#8]).2
example : 300 < 2 ^ bitsForPaletteIndex 301 ∧ bitsForPaletteIndex 301 = 9 := ⟨(C16_width 301 300 (by decide)).1, by decide +kernel⟩

/-- 7, 7, 300: the chosen mode is no longer than any other. -/
example : ∃ (g : AField) (L : AMode → Nat),
    commitMode hashPaletteValue { offset := 4, bpv := 2, signed := false, raws := [7#64, 7#64, 300#64], values := [7#64, 7#64, 300#64] } = .ok g ∧
      g.committed = true ∧ ∀ m, L g.mode ≤ L m := by
  obtain ⟨g, L, h1, h2, _, _, _, _, _, _, _, h3, _⟩ := C17_mode_choice hashPaletteValue
    { offset := 4, bpv := 2, signed := false, raws := [7#64, 7#64, 300#64], values := [7#64, 7#64, 300#64] } (.fresh _ rfl rfl rfl) rfl rfl (by simp [kPointsPerChunk]) (by decide +kernel)
  exact ⟨g, L, h1, h2, h3⟩


/-- Eight points of an INT64 field that alternate between 2^61 and -2^61. -/
def farMem : List Byte := (List.replicate 4 [0#8, 0#8, 0#8, 0#8, 0#8, 0#8, 0#8, 32#8, 0#8, 0#8, 0#8, 0#8, 0#8, 0#8, 0#8, 224#8]).flatten

/-- After such a chunk the field is committed to a palette. -/
theorem far_field : ∃ f, FieldReach IEEE.ops hashPaletteValue wideField f ∧ f.committed = true ∧ f.mode = .palette := by
  have h : (match encodeV5Chunk IEEE.ops hashPaletteValue 8 [] [mkAField wideField] farMem 8 200 with
    | .ok (_, [f], _, _) => decide (f.committed = true ∧ f.mode = .palette)
    | _ => false) = true := by decide +kernel
  split at h
  · next es f mem' bytes he =>
    exact ⟨f, .chunk 8 8 200 farMem es mem' bytes .fresh (by omega) (by decide) (by omega) (by unfold InCloud; decide) he, by simpa using h⟩
  · simp at h

/-- Its next chunk, of the values 1 and -2^63, whose difference is no 64-bit integer, round-trips nevertheless. -/
example : ∃ f, FieldReach IEEE.ops hashPaletteValue wideField f ∧ ¬ DiffsFit 0 (intHistory wideMem 8 0 8 true 2) ∧
    ∃ f' bytes, encodeV5Chunk IEEE.ops hashPaletteValue 8 [] [f] wideMem 2 100 = .ok ([], [f'], [], bytes) ∧
      ∃ buf', decodeSection (mkAField wideField) 0 8 2 (bytes ++ []) (List.replicate 16 0#8) = .ok ([], buf') ∧
        cell buf' 0 8 0 0 8 = cell wideMem 0 8 0 0 8 ∧ cell buf' 0 8 1 0 8 = cell wideMem 0 8 1 0 8 := by
  obtain ⟨f, hf, hc, hm⟩ := far_field
  obtain ⟨f', bytes, he, _, hd⟩ := C13_literal_modes IEEE.ops hashPaletteValue wideField rfl f hf hc (.inr hm) 8 2 100 wideMem
    (by omega) (by decide) (by omega) (by unfold InCloud; decide)
  obtain ⟨buf', h1, _, h2, _⟩ := hd [] (List.replicate 16 0#8) 0 8 0#32 (by simp) (by decide)
  exact ⟨f, hf, by decide +kernel, f', bytes, he, buf', h1, h2 0 (by omega), h2 1 (by omega)⟩

/-- Eight points of an INT64 field that count up. -/
def countMem : List Byte := ((List.range 8).map fun i => toLE 8 i).flatten

/-- After them the field is committed to differences, and the values 1 and -2^63 do not survive in its next chunk. -/
example : ∃ f, FieldReach IEEE.ops hashPaletteValue wideField f ∧ f.committed = true ∧ ¬ SectionSurvives IEEE.ops hashPaletteValue wideField f 8 2 100 wideMem := by
  have h : (match encodeV5Chunk IEEE.ops hashPaletteValue 8 [] [mkAField wideField] countMem 8 200 with
    | .ok (_, [f], _, _) => decide (f.committed = true ∧ f.mode ≠ .palette ∧ f.mode ≠ .rle)
    | _ => false) = true := by decide +kernel
  split at h
  · next es f mem' bytes he =>
    simp only [decide_eq_true_eq] at h
    have hf : FieldReach IEEE.ops hashPaletteValue wideField f :=
      .chunk 8 8 200 countMem es mem' bytes .fresh (by omega) (by decide) (by omega) (by unfold InCloud; decide +kernel) he
    refine ⟨f, hf, h.1, ?_⟩
    rw [C13_committed_iff IEEE.ops hashPaletteValue wideField rfl f hf h.1 8 2 100 wideMem (by omega) (by decide) (by omega) (by unfold InCloud; decide)]
    rintro (e | e | e)
    · exact h.2.2 e
    · exact h.2.1 e
    · revert e; decide +kernel
  · simp at h

end Cloudini.Props
