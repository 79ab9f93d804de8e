import Verif.Model.Word
import Verif.Lemmas.Footprint

/-!
# The decoder with a small `size_t` does what the other does, where that is defined
-/

namespace Cloudini.Word

/-- The second outcome is the first unless that is undefined; a result has the property `P`. -/
def Keep {α : Type} (P : α → Prop) (r r' : Res α) : Prop :=
  match r with
  | .ok x => r' = .ok x ∧ P x
  | .throw e => r' = .throw e
  | .ub _ => True

theorem Keep.bind {α β : Type} {P : α → Prop} {Q : β → Prop} {r r' : Res α} {k k' : α → Res β} (h : Keep P r r') (hk : ∀ x, P x → Keep Q (k x) (k' x)) :
    Keep Q (r >>= k) (r' >>= k') := by
  cases r with
  | ok x =>
    obtain ⟨rfl, hp⟩ := h
    exact hk x hp
  | throw e =>
    simp only [Keep] at h
    subst h
    rfl
  | ub u => exact trivial

theorem Keep.same {α : Type} {P : α → Prop} {r : Res α} (h : ∀ x, r = .ok x → P x) : Keep P r r := by
  cases r with
  | ok x => exact ⟨rfl, h x rfl⟩
  | throw e => rfl
  | ub u => exact trivial

theorem Keep.bind_same {α β : Type} {Q : β → Prop} {r : Res α} {k k' : α → Res β} (hk : ∀ x, r = .ok x → Keep Q (k x) (k' x)) : Keep Q (r >>= k) (r >>= k') :=
  Keep.bind (P := fun x => r = .ok x) (Keep.same fun _ h => h) hk

theorem writeAt_length {buf buf' : List Byte} {pos : Nat} {bs : List Byte} (h : writeAt buf pos bs = .ok buf') : buf'.length = buf.length := by
  obtain ⟨h1, rfl⟩ := writeAt_eq_ok.1 h
  exact splice_length h1

theorem writeValue_keep {M base step : Nat} {f : AField} {i : Nat} {v : BitVec 64} {buf : List Byte} (hM : buf.length < M) :
    Keep (fun b => b.length = buf.length) (Cloudini.writeValue buf base step f i v) (writeValue M buf base step f i v) := by
  unfold Cloudini.writeValue writeValue place
  by_cases h : i * step < M
  · rw [Nat.mod_eq_of_lt h]
    exact Keep.same fun _ e => writeAt_length e
  · have : writeAt buf (base + i * step + f.offset) (toLE f.bpv v.toNat) = .ub .mem := by
      unfold writeAt
      rw [if_neg]
      omega
    rw [this]
    exact trivial

variable {M base step : Nat} {f : AField}

theorem decodeDeltas_keep (n : Nat) : ∀ (i : Nat) (prev : BitVec 64) (input buf : List Byte), buf.length < M →
    Keep (fun x => x.2.length = buf.length) (Cloudini.decodeDeltas f base step n i prev input buf) (decodeDeltas M f base step n i prev input buf) := by
  induction n with
  | zero => intro i prev input buf _; exact ⟨rfl, rfl⟩
  | succ n ih =>
    intro i prev input buf hM
    unfold Cloudini.decodeDeltas decodeDeltas
    refine Keep.bind_same fun x _ => Keep.bind_same fun v _ => Keep.bind (writeValue_keep hM) fun b hb => ?_
    rw [← hb]
    exact ih _ _ _ b (by omega)

theorem decodePalette_keep {bits : Nat} {pal : List (BitVec 64)} (n : Nat) : ∀ (i : Nat) (ptr : List Byte) (scratch : BitVec 64) (held : Nat) (buf : List Byte), buf.length < M →
    Keep (fun x => x.length = buf.length) (Cloudini.decodePaletteIndexes f base step bits pal n i ptr scratch held buf)
      (decodePaletteIndexes M f base step bits pal n i ptr scratch held buf) := by
  induction n with
  | zero => intro i ptr scratch held buf _; exact ⟨rfl, rfl⟩
  | succ n ih =>
    intro i ptr scratch held buf hM
    unfold Cloudini.decodePaletteIndexes decodePaletteIndexes
    refine Keep.bind_same fun x _ => ?_
    obtain ⟨idx, ptr, scratch, held⟩ := x
    simp only
    cases pal[idx]? with
    | none => rfl
    | some v =>
      refine Keep.bind (writeValue_keep hM) fun b hb => ?_
      rw [← hb]
      exact ih _ _ _ _ b (by omega)

theorem writeRun_keep {v : BitVec 64} (hs : 0 < step) (n : Nat) : ∀ (i : Nat) (buf : List Byte), buf.length < M →
    Keep (fun x => x.length = buf.length ∧ (n = 0 ∨ i + n ≤ buf.length + 1)) (Cloudini.writeRun f base step v n i buf) (writeRun M f base step v n i buf) := by
  induction n with
  | zero => intro i buf _; exact ⟨rfl, rfl, Or.inl rfl⟩
  | succ n ih =>
    intro i buf hM
    unfold Cloudini.writeRun writeRun
    have hk := writeValue_keep (M := M) (base := base) (step := step) (f := f) (i := i) (v := v) hM
    cases e : Cloudini.writeValue buf base step f i v with
    | throw m => rw [e] at hk; rw [hk]; rfl
    | ub u => exact trivial
    | ok b =>
      rw [e] at hk
      rw [hk.1]
      simp only [Res.ok_bind]
      have hb : b.length = buf.length := hk.2
      have hi : i ≤ buf.length := by
        unfold Cloudini.writeValue at e
        obtain ⟨h1, -⟩ := writeAt_eq_ok.1 e
        have : i * 1 ≤ i * step := Nat.mul_le_mul_left _ hs
        omega
      have := ih (i + 1) b (by omega)
      revert this
      cases Cloudini.writeRun f base step v n (i + 1) b with
      | ok x => rintro ⟨h1, h2, h3⟩; exact ⟨h1, by omega, by omega⟩
      | throw m => exact id
      | ub u => exact id

theorem writeDeltaRun_keep {d : BitVec 64} (hs : 0 < step) (n : Nat) : ∀ (i : Nat) (prev : BitVec 64) (buf : List Byte), buf.length < M →
    Keep (fun x => x.2.length = buf.length ∧ (n = 0 ∨ i + n ≤ buf.length + 1)) (Cloudini.writeDeltaRun f base step d n i prev buf) (writeDeltaRun M f base step d n i prev buf) := by
  induction n with
  | zero => intro i prev buf _; exact ⟨rfl, rfl, Or.inl rfl⟩
  | succ n ih =>
    intro i prev buf hM
    unfold Cloudini.writeDeltaRun writeDeltaRun
    refine Keep.bind_same fun v _ => ?_
    have hk := writeValue_keep (M := M) (base := base) (step := step) (f := f) (i := i) (v := v) hM
    cases e : Cloudini.writeValue buf base step f i v with
    | throw m => rw [e] at hk; rw [hk]; rfl
    | ub u => exact trivial
    | ok b =>
      rw [e] at hk
      rw [hk.1]
      simp only [Res.ok_bind]
      have hb : b.length = buf.length := hk.2
      have hi : i ≤ buf.length := by
        unfold Cloudini.writeValue at e
        obtain ⟨h1, -⟩ := writeAt_eq_ok.1 e
        have : i * 1 ≤ i * step := Nat.mul_le_mul_left _ hs
        omega
      have := ih (i + 1) v b (by omega)
      revert this
      cases Cloudini.writeDeltaRun f base step d n (i + 1) v b with
      | ok x => rintro ⟨h1, h2, h3⟩; exact ⟨h1, by omega, by omega⟩
      | throw m => exact id
      | ub u => exact id

/-- A run that does not exceed the points, or else leaves the buffer. -/
theorem run_small {expected outIndex : Nat} {runLen : BitVec 64} {len : Nat} (ho : outIndex ≤ expected) (he : expected < M) (hM : M ≤ 2 ^ 63) (hl : len < M)
    (h : ¬ (BitVec.ofNat 64 outIndex + runLen).toNat > expected) (hr : runLen.toNat = 0 ∨ outIndex + runLen.toNat ≤ len + 1) : outIndex + runLen.toNat ≤ expected := by
  rw [BitVec.toNat_add, BitVec.toNat_ofNat] at h
  have := runLen.isLt
  omega

theorem decodeRle_keep {expected : Nat} (hs : 0 < step) (he : expected < M) (hM : M ≤ 2 ^ 63) (r : Nat) : ∀ (outIndex : Nat) (input buf : List Byte), outIndex ≤ expected →
    buf.length < M → Keep (fun x => x.2.2.length = buf.length) (Cloudini.decodeRleRuns f base step expected r outIndex input buf)
      (decodeRleRuns M f base step expected r outIndex input buf) := by
  induction r with
  | zero => intro o input buf _ _; exact ⟨rfl, rfl⟩
  | succ r ih =>
    intro o input buf ho hb
    unfold Cloudini.decodeRleRuns decodeRleRuns
    by_cases h1 : input.length < f.bpv
    · rw [if_pos h1, if_pos h1]; rfl
    · rw [if_neg h1, if_neg h1]
      refine Keep.bind_same fun bs _ => Keep.bind_same fun x _ => ?_
      obtain ⟨runLen, input⟩ := x
      simp only
      by_cases h2 : (BitVec.ofNat 64 o + runLen).toNat > expected
      · rw [if_pos h2, if_pos h2]; rfl
      · rw [if_neg h2, if_neg h2]
        refine Keep.bind (writeRun_keep hs _ _ _ hb) fun b hb' => ?_
        have := run_small ho he hM hb h2 hb'.2
        rw [Nat.mod_eq_of_lt (by omega), ← hb'.1]
        exact ih _ _ b this (by omega)

theorem decodeDeltaRle_keep {expected : Nat} (hs : 0 < step) (he : expected < M) (hM : M ≤ 2 ^ 63) (r : Nat) : ∀ (outIndex : Nat) (prev : BitVec 64) (input buf : List Byte),
    outIndex ≤ expected → buf.length < M → Keep (fun x => x.2.2.length = buf.length) (Cloudini.decodeDeltaRleRuns f base step expected r outIndex prev input buf)
      (decodeDeltaRleRuns M f base step expected r outIndex prev input buf) := by
  induction r with
  | zero => intro o prev input buf _ _; exact ⟨rfl, rfl⟩
  | succ r ih =>
    intro o prev input buf ho hb
    unfold Cloudini.decodeDeltaRleRuns decodeDeltaRleRuns
    refine Keep.bind_same fun x _ => Keep.bind_same fun y _ => ?_
    obtain ⟨runLen, input⟩ := y
    simp only
    by_cases h2 : (BitVec.ofNat 64 o + runLen).toNat > expected
    · rw [if_pos h2, if_pos h2]; rfl
    · rw [if_neg h2, if_neg h2]
      refine Keep.bind (writeDeltaRun_keep hs _ _ _ _ hb) fun b hb' => ?_
      have := run_small ho he hM hb h2 hb'.2
      rw [Nat.mod_eq_of_lt (by omega), ← hb'.1]
      exact ih _ _ _ b.2 this (by omega)

theorem decodeSection_keep {expected : Nat} (hs : 0 < step) (he : expected < M) (hM : M ≤ 2 ^ 63) (input buf : List Byte) (hb : buf.length < M) :
    Keep (fun x => x.2.length = buf.length) (Cloudini.decodeSection f base step expected input buf) (decodeSection M f base step expected input buf) := by
  unfold Cloudini.decodeSection decodeSection
  cases input with
  | nil => rfl
  | cons m input =>
    simp only
    by_cases h0 : m = 0#8
    · rw [if_pos h0, if_pos h0]
      exact decodeDeltas_keep _ _ _ _ _ hb
    rw [if_neg h0, if_neg h0]
    by_cases h1 : m = 1#8
    · rw [if_pos h1, if_pos h1]
      refine Keep.bind_same fun x _ => ?_
      obtain ⟨count, input⟩ := x
      simp only
      by_cases hc : count = 0
      · rw [if_pos hc, if_pos hc]; rfl
      rw [if_neg hc, if_neg hc]
      refine Keep.bind_same fun x _ => ?_
      obtain ⟨pal, input⟩ := x
      simp only
      by_cases hi : input.length < (bitsForPaletteIndex count * expected + 7) / 8
      · rw [if_pos hi, if_pos hi]; rfl
      rw [if_neg hi, if_neg hi]
      exact Keep.bind (decodePalette_keep _ _ _ _ _ _ hb) fun b hb' => ⟨rfl, hb'⟩
    rw [if_neg h1, if_neg h1]
    by_cases h2 : m = 2#8
    · rw [if_pos h2, if_pos h2]
      refine Keep.bind_same fun x _ => ?_
      obtain ⟨runs, input⟩ := x
      simp only
      refine Keep.bind (decodeRle_keep hs he hM _ _ _ _ (Nat.zero_le _) hb) fun x hx => ?_
      obtain ⟨o, input, b⟩ := x
      simp only
      by_cases ho : o ≠ expected
      · rw [if_pos ho]; rfl
      · rw [if_neg ho]; exact ⟨rfl, hx⟩
    rw [if_neg h2, if_neg h2]
    by_cases h3 : m = 3#8
    · rw [if_pos h3, if_pos h3]
      refine Keep.bind_same fun x _ => ?_
      obtain ⟨runs, input⟩ := x
      simp only
      refine Keep.bind (decodeDeltaRle_keep hs he hM _ _ _ _ _ (Nat.zero_le _) hb) fun x hx => ?_
      obtain ⟨o, input, b⟩ := x
      simp only
      by_cases ho : o ≠ expected
      · rw [if_pos ho]; rfl
      · rw [if_neg ho]; exact ⟨rfl, hx⟩
    rw [if_neg h3, if_neg h3]
    rfl

theorem decodeSections_keep {expected : Nat} (hs : 0 < step) (he : expected < M) (hM : M ≤ 2 ^ 63) (fs : List AField) : ∀ (input buf : List Byte), buf.length < M →
    Keep (fun x => x.2.length = buf.length) (Cloudini.decodeSections base step expected fs input buf) (decodeSections M base step expected fs input buf) := by
  induction fs with
  | nil => intro input buf _; exact ⟨rfl, rfl⟩
  | cons f fs ih =>
    intro input buf hb
    unfold Cloudini.decodeSections decodeSections
    refine Keep.bind (decodeSection_keep hs he hM _ _ hb) fun x hx => ?_
    rw [← hx]
    exact ih _ _ (by omega)

theorem applyWrites_keep {base' : Nat} (ws : List Write) : ∀ (buf : List Byte), base' = base ∨ buf.length < base →
    Keep (fun b => b.length = buf.length) (applyWrites buf base ws) (applyWrites buf base' ws) := by
  induction ws with
  | nil => intro buf _; exact ⟨rfl, rfl⟩
  | cons w ws ih =>
    intro buf h
    unfold applyWrites
    rcases h with rfl | h
    · refine Keep.bind_same fun b hb => ?_
      have hl := writeAt_length hb
      rw [← hl]
      exact ih b (Or.inl rfl)
    · have : writeAt buf (base + w.1) w.2 = .ub .mem := by
        unfold writeAt
        rw [if_neg]
        omega
      obtain ⟨o, v⟩ := w
      simp only at this ⊢
      rw [this]
      exact trivial

theorem decodeFields_keep {F : FloatOps} {base' : Nat} (ds : List Dec) : ∀ (input buf : List Byte), base' = base ∨ buf.length < base →
    Keep (fun x => x.2.2.length = buf.length) (decodeFields F ds input buf base) (decodeFields F ds input buf base') := by
  induction ds with
  | nil => intro input buf _; exact ⟨rfl, rfl⟩
  | cons d ds ih =>
    intro input buf h
    unfold decodeFields
    refine Keep.bind_same fun x _ => ?_
    obtain ⟨d', ws, input⟩ := x
    simp only
    refine Keep.bind (applyWrites_keep ws buf h) fun b hb => ?_
    refine Keep.bind (ih input b (by omega)) fun y hy => ?_
    exact ⟨rfl, by simpa using hy.trans hb⟩

theorem decodePoints_keep {F : FloatOps} (n : Nat) : ∀ (p : Nat) (ds : List Dec) (input buf : List Byte), buf.length < M →
    Keep (fun x => x.2.2.length = buf.length) (decodePointsV5 F step n ds input buf (base + p * step)) (decodePoints M F base step n p ds input buf) := by
  induction n with
  | zero => intro p ds input buf _; exact ⟨rfl, rfl⟩
  | succ n ih =>
    intro p ds input buf hb
    unfold decodePointsV5 decodePoints
    refine Keep.bind (decodeFields_keep (base' := place M base step p) ds input buf ?_) fun x hx => ?_
    · unfold place
      by_cases h : p * step < M
      · rw [Nat.mod_eq_of_lt h]; exact Or.inl rfl
      · right; omega
    · rw [← hx, Nat.add_assoc, ← Nat.succ_mul]
      exact ih _ _ _ _ (by omega)

theorem decodeV5Chunk_keep {F : FloatOps} {ds : List Dec} {as : List AField} {expected : Nat} {input buf : List Byte} (hs : 0 < step) (he : expected * step < M) (hM : M ≤ 2 ^ 63)
    (hb : buf.length < M) :
    Keep (fun x => x.2.1.length = buf.length) (Cloudini.decodeV5Chunk F ds as step expected input buf base) (decodeV5Chunk M F ds as step expected input buf base) := by
  unfold Cloudini.decodeV5Chunk decodeV5Chunk
  by_cases h0 : expected = 0
  · rw [if_pos h0, if_pos h0]; rfl
  rw [if_neg h0, if_neg h0, Nat.mod_eq_of_lt he]
  by_cases h1 : buf.length - base < expected * step
  · rw [if_pos h1, if_pos h1]; rfl
  rw [if_neg h1, if_neg h1]
  have he' : expected < M := Nat.lt_of_le_of_lt (Nat.le_mul_of_pos_right _ hs) he
  have := decodePoints_keep (M := M) (base := base) (step := step) (F := F) expected 0 (ds.map Dec.reset) input buf hb
  rw [Nat.zero_mul, Nat.add_zero] at this
  refine Keep.bind this fun x hx => ?_
  obtain ⟨ds', input, b⟩ := x
  simp only at hx ⊢
  refine Keep.bind (decodeSections_keep hs he' hM as input b (by omega)) fun y hy => ?_
  obtain ⟨input, b'⟩ := y
  simp only at hy ⊢
  by_cases hi : input.length ≠ 0
  · rw [if_pos hi]; rfl
  · rw [if_neg hi]; exact ⟨rfl, hy.trans hx⟩

theorem decodeFields_len {F : FloatOps} {ds : List Dec} {input buf : List Byte} {base : Nat} {x : List Dec × List Byte × List Byte}
    (h : decodeFields F ds input buf base = .ok x) : x.2.2.length = buf.length := by
  have := decodeFields_keep (F := F) (base := base) (base' := base) ds input buf (Or.inl rfl)
  rw [h] at this
  exact this.2

theorem decodePointsV4_len {F : FloatOps} {min step : Nat} (n : Nat) : ∀ {ds : List Dec} {input buf : List Byte} {base : Nat} {x : List Dec × List Byte × List Byte × Nat},
    decodePointsV4 F min step n ds input buf base = .ok x → x.2.2.1.length = buf.length := by
  induction n with
  | zero => intro ds input buf base x h; simp only [decodePointsV4, Res.ok.injEq] at h; subst h; rfl
  | succ n ih =>
    intro ds input buf base x h
    simp only [decodePointsV4] at h
    split at h
    · simp at h
    split at h
    · simp at h
    obtain ⟨y, h1, h⟩ := Res.bind_eq_ok.1 h
    exact (ih h).trans (decodeFields_len h1)

theorem decodeUntilEmptyV4_len {F : FloatOps} {min step : Nat} (n : Nat) : ∀ {ds : List Dec} {input buf : List Byte} {base : Nat} {x : List Dec × List Byte × List Byte × Nat},
    decodeUntilEmptyV4 F min step n ds input buf base = .ok x → x.2.2.1.length = buf.length := by
  induction n with
  | zero =>
    intro ds input buf base x h
    simp only [decodeUntilEmptyV4] at h
    split at h
    · simp only [Res.ok.injEq] at h; subst h; rfl
    · simp at h
  | succ n ih =>
    intro ds input buf base x h
    simp only [decodeUntilEmptyV4] at h
    split at h
    · simp only [Res.ok.injEq] at h; subst h; rfl
    split at h
    · simp at h
    split at h
    · simp at h
    obtain ⟨y, h1, h⟩ := Res.bind_eq_ok.1 h
    exact (ih h).trans (decodeFields_len h1)

theorem decodeV4Chunk_len {F : FloatOps} {fuel : Nat} {ds : List Dec} {min step expected : Nat} {input buf : List Byte} {base : Nat} {x : List Dec × List Byte × Nat}
    (h : decodeV4Chunk F fuel ds min step expected input buf base = .ok x) : x.2.1.length = buf.length := by
  unfold decodeV4Chunk at h
  simp only at h
  split at h
  · obtain ⟨y, h1, h⟩ := Res.bind_eq_ok.1 h
    cases h
    exact decodePointsV4_len _ h1
  · obtain ⟨y, h1, h⟩ := Res.bind_eq_ok.1 h
    cases h
    exact decodeUntilEmptyV4_len _ h1

theorem decodeChunk_keep {F : FloatOps} {C : Compressor} {fuel : Nat} {info : EncodingInfo} {ds : List Dec} {min expected : Nat} {chunk buf : List Byte} (hs : info.point_step ≠ 0#32)
    (he : expected * info.point_step.toNat < M) (hw : info.width.toNat * info.height.toNat * info.point_step.toNat < M) (hM : M ≤ 2 ^ 63) (hb : buf.length < M) :
    Keep (fun x => x.2.1.length = buf.length) (Cloudini.decodeChunk F C fuel info ds min chunk buf base expected) (decodeChunk M F C fuel info ds min chunk buf base expected) := by
  unfold Cloudini.decodeChunk decodeChunk maxDecompressed
  rw [Nat.mod_eq_of_lt hw, Nat.mod_eq_of_lt (by omega)]
  have hs' : 0 < info.point_step.toNat := by
    rcases Nat.eq_zero_or_pos info.point_step.toNat with h | h
    · exact absurd (BitVec.eq_of_toNat_eq h) hs
    · exact h
  refine Keep.bind_same fun view _ => ?_
  by_cases h5 : usesV5 info = true
  · rw [if_pos h5, if_pos h5]
    exact decodeV5Chunk_keep hs' he hM hb
  · rw [if_neg h5]
    rw [if_neg h5]
    refine Keep.same fun x hx => ?_
    exact decodeV4Chunk_len hx

theorem decodeLoop_keep {F : FloatOps} {C : Compressor} {info : EncodingInfo} {min : Nat} (hs : info.point_step ≠ 0#32)
    (hw : info.width.toNat * info.height.toNat * info.point_step.toNat < M) (hM : M ≤ 2 ^ 63) (n : Nat) : ∀ (points : Nat) (ds : List Dec) (data buf : List Byte) (base : Nat),
    points ≤ n → points ≤ info.width.toNat * info.height.toNat → buf.length < M →
    Keep (fun _ => True) (Cloudini.decodeLoop F C info min points ds data buf base) (decodeLoop M F C info min points ds data buf base) := by
  induction n with
  | zero =>
    intro points ds data buf base hn hp hb
    unfold Cloudini.decodeLoop decodeLoop
    have : points = 0 := by omega
    subst this
    exact Keep.same fun _ _ => trivial
  | succ n ih =>
    intro points ds data buf base hn hp hb
    unfold Cloudini.decodeLoop decodeLoop
    by_cases h0 : data.length = 0
    · rw [if_pos h0, if_pos h0]
      exact Keep.same fun _ _ => trivial
    rw [if_neg h0, if_neg h0]
    by_cases h1 : points = 0
    · rw [dif_pos h1, dif_pos h1]; rfl
    rw [dif_neg h1, dif_neg h1]
    refine Keep.bind_same fun x _ => ?_
    obtain ⟨size, data⟩ := x
    simp only
    by_cases h2 : size > data.length
    · rw [if_pos h2, if_pos h2]; rfl
    rw [if_neg h2, if_neg h2]
    have he : Min.min points kPointsPerChunk * info.point_step.toNat < M :=
      Nat.lt_of_le_of_lt (Nat.mul_le_mul_right _ (Nat.le_trans (Nat.min_le_left _ _) hp)) hw
    refine Keep.bind (decodeChunk_keep hs he hw hM hb) fun y hy => ?_
    obtain ⟨ds', b, base'⟩ := y
    simp only at hy ⊢
    have hk : 0 < kPointsPerChunk := by decide
    exact ih _ _ _ _ _ (by omega) (by omega) (by omega)

theorem decodeCloud_keep {F : FloatOps} {C : Compressor} {fuel : Nat} {info : EncodingInfo} {data buf : List Byte} (hs : info.point_step ≠ 0#32)
    (hw : info.width.toNat * info.height.toNat * info.point_step.toNat < M) (hM : M ≤ 2 ^ 63) (hb : buf.length < M) :
    Keep (fun _ => True) (Cloudini.decodeCloud F C fuel info data buf) (decodeCloud M F C fuel info data buf) := by
  unfold Cloudini.decodeCloud decodeCloud
  have hs' : 0 < info.point_step.toNat := by
    rcases Nat.eq_zero_or_pos info.point_step.toNat with h | h
    · exact absurd (BitVec.eq_of_toNat_eq h) hs
    · exact h
  have hp : info.width.toNat * info.height.toNat < M := Nat.lt_of_le_of_lt (Nat.le_mul_of_pos_right _ hs') hw
  rw [Nat.mod_eq_of_lt hp]
  refine Keep.bind_same fun x _ => ?_
  obtain ⟨ds, min⟩ := x
  simp only
  by_cases h0 : data.take 10 = magic
  · rw [if_pos h0, if_pos h0]; rfl
  rw [if_neg h0, if_neg h0]
  by_cases h1 : info.version ≥ 3#8
  · rw [if_pos h1, if_pos h1]
    exact decodeLoop_keep hs hw hM _ _ _ _ _ _ (Nat.le_refl _) (Nat.le_refl _) hb
  rw [if_neg h1, if_neg h1]
  exact Keep.bind (decodeChunk_keep hs (by omega) hw hM hb) fun y _ => ⟨rfl, trivial⟩

end Cloudini.Word
