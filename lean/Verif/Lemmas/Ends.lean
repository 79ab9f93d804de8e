import Verif.Lemmas.DecodeSafeV5

/-! Decoding never runs for ever: no function reached from `decodeCloud` gives `.ub .loop`, except the loop of
version-2 data when a point takes no room and no input. -/

namespace Cloudini

/-- `P` of every result, and no endless loop. -/
def Halts {α : Type} (r : Res α) (P : α → Prop) : Prop :=
  match r with
  | .ok a => P a
  | .throw _ => True
  | .ub k => k ≠ .loop

theorem Halts.bind {α β : Type} {r : Res α} {f : α → Res β} {P : α → Prop} {Q : β → Prop} (h : Halts r P)
    (hf : ∀ a, P a → Halts (f a) Q) : Halts (r >>= f) Q := by
  cases r with
  | ok a => exact hf a h
  | throw m => trivial
  | ub k => exact h

theorem Halts.mono {α : Type} {r : Res α} {P Q : α → Prop} (h : Halts r P) (hpq : ∀ a, r = .ok a → P a → Q a) : Halts r Q := by
  cases r with
  | ok a => exact hpq a rfl h
  | throw m => trivial
  | ub k => exact h

theorem Halts.not_loop {α : Type} {r : Res α} {P : α → Prop} (h : Halts r P) : r ≠ .ub .loop := by
  intro e; rw [e] at h; exact h rfl

theorem ends_of {α : Type} {r : Res α} (h : r.isUB = false) : Halts r fun _ => True := by
  cases r with
  | ok a => trivial
  | throw m => trivial
  | ub k => simp at h

theorem decodeVarintLoop_ends (bytes : List Byte) (shift : Nat) (u : BitVec 64) (c : Nat) :
    Halts (decodeVarintLoop bytes shift u c) fun r => c < r.2 := by
  induction bytes generalizing shift u c with
  | nil => trivial
  | cons b bs ih =>
    rw [decodeVarintLoop]
    simp only
    split
    · trivial
    · split
      · exact Nat.lt_succ_self c
      · split
        · trivial
        · exact (ih _ _ _).mono fun a _ h => by omega

theorem decodeVarint_ends (bytes : List Byte) : Halts (decodeVarint bytes) fun r => 0 < r.2 := by
  unfold decodeVarint
  refine Halts.bind (P := fun r => 0 < r.2) ?_ fun r hr => ?_
  · unfold decodeVarintRaw
    split
    · trivial
    · split
      · exact Nat.zero_lt_one
      · split
        · split
          · exact Nat.zero_lt_two
          · exact decodeVarintLoop_ends _ _ _ _
        · exact decodeVarintLoop_ends _ _ _ _
  · simp only; split
    · trivial
    · exact hr

/-- A varint is read from a non-empty input only. -/
theorem decodeVarint_nonempty {bytes : List Byte} {r : BitVec 64 × Nat} (h : decodeVarint bytes = .ok r) : 0 < bytes.length := by
  cases bytes with
  | nil => simp [decodeVarint, decodeVarintRaw] at h
  | cons b bs => simp

theorem addI64_ends (a b : BitVec 64) : Halts (addI64 a b) fun _ => True := by unfold addI64; split <;> simp [Halts]
theorem addI32_ends (a b : BitVec 32) : Halts (addI32 a b) fun _ => True := by unfold addI32; split <;> simp [Halts]

theorem readAt_ends (mem : List Byte) (o n : Nat) : Halts (readAt mem o n) fun _ => True := by unfold readAt; split <;> simp [Halts]
theorem writeAt_ends (mem : List Byte) (o : Nat) (bs : List Byte) : Halts (writeAt mem o bs) fun b => b.length = mem.length := by
  unfold writeAt; split
  · next h => exact splice_length h
  · simp [Halts]

theorem fillTo_ends (n : Nat) (buf : BitVec 64) (cnt : Nat) (inp : List Byte) :
    Halts (fillTo n buf cnt inp) fun r => r.inp.length ≤ inp.length ∧ (cnt < n → r.inp.length < inp.length) := by
  induction inp generalizing buf cnt with
  | nil => unfold fillTo; split
           · trivial
           · next h => exact ⟨Nat.le_refl _, fun h' => absurd h' h⟩
  | cons b bs ih =>
    unfold fillTo
    split
    · simp only
      split
      · simp [Halts]
      · refine (ih _ _).mono fun r _ h => ⟨?_, fun _ => ?_⟩
        · simp only [List.length_cons]; omega
        · simp only [List.length_cons]; omega
    · next h => exact ⟨Nat.le_refl _, fun h' => absurd h' h⟩

theorem getBits_ends (n : Nat) (r : BitR) :
    Halts (getBits n r) fun q => q.2.inp.length ≤ r.inp.length ∧ (r.cnt = 0 → 0 < n → q.2.inp.length < r.inp.length) := by
  unfold getBits
  split
  · simp only
    split
    · next h =>
      refine ⟨Nat.le_refl _, fun h1 h2 => ?_⟩
      rw [h1] at h; simp at h; omega
    · refine Halts.bind (fillTo_ends _ _ _ _) fun r' hr => ?_
      split
      · simp [Halts]
      · refine ⟨hr.1, fun h1 h2 => hr.2 ?_⟩
        rw [h1]; simp; omega
  · exact Halts.bind (fillTo_ends _ _ _ _) fun r' hr => ⟨hr.1, fun h1 h2 => hr.2 (by omega)⟩

theorem shlTrunc_ends (tb : Nat) (b : BitVec 64) (n : Nat) : Halts (shlTrunc tb b n) fun _ => True := by
  unfold shlTrunc; split <;> simp [Halts]

theorem gorillaDecode_ends (tb : Nat) (st : GorillaState) (input : List Byte) :
    Halts (gorillaDecode tb st input) fun r => r.2.2.length ≤ input.length ∧ (0 < tb → r.2.2.length < input.length) := by
  unfold gorillaDecode
  simp only
  split
  · exact Halts.bind (getBits_ends _ _) fun r hr => ⟨hr.1, fun h => hr.2 rfl h⟩
  · refine Halts.bind (getBits_ends _ _) fun r hr => ?_
    have hlt := hr.2 rfl Nat.zero_lt_one
    simp only at hlt
    split
    · exact ⟨hr.1, fun _ => hlt⟩
    · refine Halts.bind (getBits_ends _ _) fun r1 h1 => ?_
      split
      · refine Halts.bind (getBits_ends _ _) fun r2 h2 => Halts.bind (shlTrunc_ends _ _ _) fun _ _ => ⟨?_, fun _ => ?_⟩
        · have := h1.1; have := h2.1; show r2.2.inp.length ≤ _; omega
        · have := h1.1; have := h2.1; show r2.2.inp.length < _; omega
      · refine Halts.bind (getBits_ends _ _) fun r2 h2 => Halts.bind (getBits_ends _ _) fun r3 h3 => Halts.bind (getBits_ends _ _) fun r4 h4 =>
          Halts.bind (shlTrunc_ends _ _ _) fun _ _ => ⟨?_, fun _ => ?_⟩
        · have := h1.1; have := h2.1; have := h3.1; have := h4.1; show r4.2.inp.length ≤ _; omega
        · have := h1.1; have := h2.1; have := h3.1; have := h4.1; show r4.2.inp.length < _; omega

theorem laneDecode_ends (F : FloatOps) (l : Lane) (input : List Byte) : Halts (laneDecode F l input) fun r => r.2.2.length < input.length := by
  unfold laneDecode
  split
  · trivial
  · split
    · simp [Halts]
    · exact Halts.bind (decodeVarint_ends _) fun r hr => Halts.bind (addI32_ends _ _) fun _ _ => by
        simp only [Halts, List.length_drop, List.length_cons]; omega

theorem lanesDecode_ends (F : FloatOps) (ls : List Lane) (input : List Byte) :
    Halts (lanesDecode F ls input) fun r => r.1.length = ls.length ∧ r.2.2.length ≤ input.length ∧ (ls ≠ [] → r.2.2.length < input.length) := by
  induction ls generalizing input with
  | nil => exact ⟨rfl, Nat.le_refl _, fun h => absurd rfl h⟩
  | cons l ls ih =>
    rw [lanesDecode]
    refine Halts.bind (laneDecode_ends F l input) fun r hr => Halts.bind (ih r.2.2) fun q hq => ⟨?_, ?_, fun _ => ?_⟩
    · simp [hq.1]
    · have := hq.2.1; show q.2.2.length ≤ _; omega
    · have := hq.2.1; show q.2.2.length < _; omega

/-- The decoder takes at least one byte of input per point. -/
def Dec.Eats : Dec → Prop
  | .copy _ s => 0 < s
  | .xor _ s _ => 0 < s
  | .gorilla _ s _ => 0 < s
  | .floatN ls => ls ≠ []
  | _ => True

theorem eats_reset {d : Dec} : d.reset.Eats ↔ d.Eats := by cases d <;> simp [Dec.reset, Dec.Eats]

theorem dstep_ends (F : FloatOps) (d : Dec) (input : List Byte) :
    Halts (d.step F input) fun r => (r.1.Eats ↔ d.Eats) ∧ r.2.2.length ≤ input.length ∧ (d.Eats → 0 < input.length → r.2.2.length < input.length) := by
  cases d with
  | copy o s =>
    simp only [Dec.step]
    split
    · split
      · refine ⟨Iff.rfl, by simp, fun h hi => ?_⟩
        simp only [Dec.Eats] at h; simp only [List.length_drop]; omega
      · simp [Halts]
    · split
      · refine ⟨Iff.rfl, by simp, fun h hi => ?_⟩
        simp only [Dec.Eats] at h; simp only [List.length_drop]; omega
      · trivial
  | xor o s p =>
    simp only [Dec.step]
    split
    · refine ⟨Iff.rfl, by simp, fun h hi => ?_⟩
      simp only [Dec.Eats] at h; simp only [List.length_drop]; omega
    · simp [Halts]
  | int o s p =>
    simp only [Dec.step]
    exact Halts.bind (decodeVarint_ends _) fun r hr => Halts.bind (addI64_ends _ _) fun _ _ =>
      ⟨Iff.rfl, by simp, fun _ hi => by simp only [List.length_drop]; omega⟩
  | lossy32 o r p =>
    simp only [Dec.step]
    split
    · simp [Halts]
    · split
      · exact ⟨Iff.rfl, by simp, fun _ _ => by simp⟩
      · exact Halts.bind (decodeVarint_ends _) fun r hr => Halts.bind (addI64_ends _ _) fun _ _ =>
          ⟨Iff.rfl, by simp only [List.length_drop]; omega, fun _ hi => by simp only [List.length_drop]; omega⟩
  | lossy64 o r p =>
    simp only [Dec.step]
    split
    · simp [Halts]
    · split
      · exact ⟨Iff.rfl, by simp, fun _ _ => by simp⟩
      · exact Halts.bind (decodeVarint_ends _) fun r hr => Halts.bind (addI64_ends _ _) fun _ _ =>
          ⟨Iff.rfl, by simp only [List.length_drop]; omega, fun _ hi => by simp only [List.length_drop]; omega⟩
  | gorilla o s st =>
    simp only [Dec.step]
    exact Halts.bind (gorillaDecode_ends _ _ _) fun r hr => ⟨Iff.rfl, hr.1, fun h _ => hr.2 (by simp only [Dec.Eats] at h; omega)⟩
  | floatN ls =>
    simp only [Dec.step]
    split
    · trivial
    · refine Halts.bind (lanesDecode_ends _ _ _) fun r hr => ⟨?_, hr.2.1, fun h _ => hr.2.2 h⟩
      simp only [Dec.Eats]
      have := hr.1
      constructor
      · intro h e; rw [e] at this; exact h (List.length_eq_zero_iff.1 this)
      · intro h e; rw [e] at this; exact h (List.length_eq_zero_iff.1 this.symm)

theorem applyWrites_ends (ws : List Write) (base : Nat) : ∀ buf : List Byte, Halts (applyWrites buf base ws) fun b => b.length = buf.length := by
  induction ws with
  | nil => intro buf; exact rfl
  | cons w ws ih =>
    intro buf
    rw [applyWrites]
    exact Halts.bind (writeAt_ends _ _ _) fun b hb => (ih b).mono fun c _ hc => by omega

theorem decodeFields_ends (F : FloatOps) (ds : List Dec) : ∀ (input buf : List Byte) (base : Nat),
    Halts (decodeFields F ds input buf base) fun r =>
      ((∃ d ∈ r.1, d.Eats) ↔ ∃ d ∈ ds, d.Eats) ∧ r.2.1.length ≤ input.length ∧ r.2.2.length = buf.length ∧
        ((∃ d ∈ ds, d.Eats) → 0 < input.length → r.2.1.length < input.length) := by
  induction ds with
  | nil => intro input buf base; exact ⟨Iff.rfl, Nat.le_refl _, rfl, fun h => by simp at h⟩
  | cons d ds ih =>
    intro input buf base
    rw [decodeFields]
    refine Halts.bind (dstep_ends F d input) fun r hr => Halts.bind (applyWrites_ends _ _ _) fun b hb => Halts.bind (ih r.2.2 b base) fun q hq => ?_
    obtain ⟨h1, h2, h3⟩ := hr
    obtain ⟨g1, g2, g3, g4⟩ := hq
    refine ⟨?_, ?_, ?_, ?_⟩
    · simp only [List.mem_cons, exists_eq_or_imp, h1, g1]
    · show q.2.1.length ≤ _; omega
    · show q.2.2.length = _; omega
    · intro h hi
      show q.2.1.length < _
      simp only [List.mem_cons, exists_eq_or_imp] at h
      by_cases hd : d.Eats
      · have := h3 hd hi; omega
      · have h' := h.resolve_left hd
        by_cases hz : 0 < r.2.2.length
        · have := g4 h' hz; omega
        · omega

theorem decodePointsV4_ends (F : FloatOps) (min step n : Nat) : ∀ (ds : List Dec) (input buf : List Byte) (base : Nat),
    Halts (decodePointsV4 F min step n ds input buf base) fun _ => True := by
  induction n with
  | zero => intro ds input buf base; trivial
  | succ n ih =>
    intro ds input buf base
    rw [decodePointsV4]
    split
    · trivial
    · split
      · trivial
      · exact Halts.bind (decodeFields_ends _ _ _ _ _) fun r _ => ih _ _ _ _

theorem decodePointsV5_ends (F : FloatOps) (step n : Nat) : ∀ (ds : List Dec) (input buf : List Byte) (base : Nat),
    Halts (decodePointsV5 F step n ds input buf base) fun _ => True := by
  induction n with
  | zero => intro ds input buf base; trivial
  | succ n ih =>
    intro ds input buf base
    rw [decodePointsV5]
    exact Halts.bind (decodeFields_ends _ _ _ _ _) fun r _ => ih _ _ _ _

theorem readUVarintLoop_ends (bytes : List Byte) (shift : Nat) (u : BitVec 64) : Halts (readUVarintLoop bytes shift u) fun _ => True := by
  induction bytes generalizing shift u with
  | nil => trivial
  | cons b bs ih =>
    rw [readUVarintLoop]
    split
    · simp [Halts]
    · simp only
      split
      · trivial
      · split
        · trivial
        · exact ih _ _

theorem decodeInt_ends (k : Nat) (input : List Byte) : Halts (decodeInt k input) fun _ => True := by
  unfold decodeInt; split
  · exact Halts.bind (readAt_ends _ _ _) fun _ _ => trivial
  · trivial

theorem writeValue_ends (buf : List Byte) (base step : Nat) (f : AField) (i : Nat) (v : BitVec 64) :
    Halts (writeValue buf base step f i v) fun _ => True := (writeAt_ends _ _ _).mono fun _ _ _ => trivial

theorem decodeDeltas_ends (f : AField) (base step n : Nat) : ∀ (i : Nat) (prev : BitVec 64) (input buf : List Byte),
    Halts (decodeDeltas f base step n i prev input buf) fun _ => True := by
  induction n with
  | zero => intro i prev input buf; trivial
  | succ n ih =>
    intro i prev input buf
    rw [decodeDeltas]
    exact Halts.bind (decodeVarint_ends _) fun _ _ => Halts.bind (addI64_ends _ _) fun _ _ => Halts.bind (writeValue_ends _ _ _ _ _ _) fun _ _ => ih _ _ _ _

theorem readPalette_ends (bpv n : Nat) : ∀ input : List Byte, Halts (readPalette bpv n input) fun _ => True := by
  induction n with
  | zero => intro input; trivial
  | succ n ih =>
    intro input
    rw [readPalette]
    split
    · trivial
    · exact Halts.bind (readAt_ends _ _ _) fun _ _ => Halts.bind (ih _) fun _ _ => trivial

theorem fillBits_ends (bits fuel : Nat) : ∀ (input : List Byte) (s : BitVec 64) (held : Nat), bits ≤ held + 8 * fuel →
    Halts (fillBits bits fuel input s held) fun _ => True := by
  induction fuel with
  | zero => intro input s held h; unfold fillBits; rw [if_neg (by omega)]; trivial
  | succ fuel ih =>
    intro input s held h
    unfold fillBits
    split
    · cases input with
      | nil => simp [Halts]
      | cons b rest => exact ih _ _ _ (by omega)
    · trivial

theorem readBitpackedIndex_ends (bits : Nat) (input : List Byte) (s : BitVec 64) (held : Nat) :
    Halts (readBitpackedIndex bits input s held) fun _ => True := by
  unfold readBitpackedIndex
  split
  · trivial
  · exact Halts.bind (fillBits_ends _ _ _ _ _ (by omega)) fun _ _ => trivial

theorem decodePaletteIndexes_ends (f : AField) (base step bits : Nat) (pal : List (BitVec 64)) (n : Nat) :
    ∀ (i : Nat) (ptr : List Byte) (s : BitVec 64) (held : Nat) (buf : List Byte),
      Halts (decodePaletteIndexes f base step bits pal n i ptr s held buf) fun _ => True := by
  induction n with
  | zero => intro i ptr s held buf; trivial
  | succ n ih =>
    intro i ptr s held buf
    rw [decodePaletteIndexes]
    refine Halts.bind (readBitpackedIndex_ends _ _ _ _) fun r _ => ?_
    simp only
    split
    · trivial
    · exact Halts.bind (writeValue_ends _ _ _ _ _ _) fun _ _ => ih _ _ _ _ _

theorem writeRun_ends (f : AField) (base step : Nat) (v : BitVec 64) (k : Nat) : ∀ (i : Nat) (buf : List Byte),
    Halts (writeRun f base step v k i buf) fun _ => True := by
  induction k with
  | zero => intro i buf; trivial
  | succ k ih => intro i buf; rw [writeRun]; exact Halts.bind (writeValue_ends _ _ _ _ _ _) fun _ _ => ih _ _

theorem writeDeltaRun_ends (f : AField) (base step : Nat) (d : BitVec 64) (k : Nat) : ∀ (i : Nat) (prev : BitVec 64) (buf : List Byte),
    Halts (writeDeltaRun f base step d k i prev buf) fun _ => True := by
  induction k with
  | zero => intro i prev buf; trivial
  | succ k ih =>
    intro i prev buf; rw [writeDeltaRun]
    exact Halts.bind (addI64_ends _ _) fun _ _ => Halts.bind (writeValue_ends _ _ _ _ _ _) fun _ _ => ih _ _ _

theorem decodeRleRuns_ends (f : AField) (base step n r : Nat) : ∀ (i : Nat) (input buf : List Byte),
    Halts (decodeRleRuns f base step n r i input buf) fun _ => True := by
  induction r with
  | zero => intro i input buf; trivial
  | succ r ih =>
    intro i input buf
    rw [decodeRleRuns]
    split
    · trivial
    · refine Halts.bind (readAt_ends _ _ _) fun _ _ => Halts.bind (readUVarintLoop_ends _ _ _) fun q _ => ?_
      simp only
      split
      · trivial
      · exact Halts.bind (writeRun_ends _ _ _ _ _ _ _) fun _ _ => ih _ _ _

theorem decodeDeltaRleRuns_ends (f : AField) (base step n r : Nat) : ∀ (i : Nat) (prev : BitVec 64) (input buf : List Byte),
    Halts (decodeDeltaRleRuns f base step n r i prev input buf) fun _ => True := by
  induction r with
  | zero => intro i prev input buf; trivial
  | succ r ih =>
    intro i prev input buf
    rw [decodeDeltaRleRuns]
    refine Halts.bind (decodeVarint_ends _) fun _ _ => Halts.bind (readUVarintLoop_ends _ _ _) fun q _ => ?_
    simp only
    split
    · trivial
    · exact Halts.bind (writeDeltaRun_ends _ _ _ _ _ _ _ _) fun _ _ => ih _ _ _ _

theorem decodeSection_ends (f : AField) (base step n : Nat) (input buf : List Byte) :
    Halts (decodeSection f base step n input buf) fun _ => True := by
  unfold decodeSection
  split
  · trivial
  · split
    · exact decodeDeltas_ends _ _ _ _ _ _ _ _
    · split
      · refine Halts.bind (decodeInt_ends _ _) fun q _ => ?_
        simp only
        split
        · trivial
        · refine Halts.bind (readPalette_ends _ _ _) fun q _ => ?_
          split
          · trivial
          · exact Halts.bind (decodePaletteIndexes_ends _ _ _ _ _ _ _ _ _ _ _) fun _ _ => trivial
      · split
        · refine Halts.bind (decodeInt_ends _ _) fun q _ => Halts.bind (decodeRleRuns_ends _ _ _ _ _ _ _ _) fun q _ => ?_
          simp only; split <;> trivial
        · split
          · refine Halts.bind (decodeInt_ends _ _) fun q _ => Halts.bind (decodeDeltaRleRuns_ends _ _ _ _ _ _ _ _ _) fun q _ => ?_
            simp only; split <;> trivial
          · trivial

theorem decodeSections_ends (base step n : Nat) (fs : List AField) : ∀ input buf : List Byte,
    Halts (decodeSections base step n fs input buf) fun _ => True := by
  induction fs with
  | nil => intro input buf; trivial
  | cons f fs ih => intro input buf; rw [decodeSections]; exact Halts.bind (decodeSection_ends _ _ _ _ _ _) fun _ _ => ih _ _

theorem decodeV5Chunk_ends (F : FloatOps) (ds : List Dec) (as : List AField) (step n : Nat) (input buf : List Byte) (base : Nat) :
    Halts (decodeV5Chunk F ds as step n input buf base) fun _ => True := by
  unfold decodeV5Chunk
  split
  · trivial
  · split
    · trivial
    · refine Halts.bind (decodePointsV5_ends _ _ _ _ _ _ _) fun q _ => Halts.bind (decodeSections_ends _ _ _ _ _ _) fun q _ => ?_
      show Halts (if q.1.length ≠ 0 then _ else _) _
      split <;> trivial

theorem decompressChunk_ends (C : Compressor) (opt : CompOpt) (chunk : List Byte) (lim : Nat) : Halts (decompressChunk C opt chunk lim) fun _ => True := by
  unfold decompressChunk
  repeat' split
  all_goals trivial

/-- A chunk of a declared number of points. -/
theorem decodeChunk_ends (F : FloatOps) (C : Compressor) (fuel : Nat) (info : EncodingInfo) (ds : List Dec) (m : Nat) (chunk buf : List Byte) (base n : Nat)
    (hn : 0 < n) : Halts (decodeChunk F C fuel info ds m chunk buf base n) fun _ => True := by
  unfold decodeChunk
  refine Halts.bind (decompressChunk_ends _ _ _ _) fun v _ => ?_
  split
  · exact decodeV5Chunk_ends _ _ _ _ _ _ _ _
  · unfold decodeV4Chunk
    simp only
    rw [if_pos hn]
    exact Halts.bind (decodePointsV4_ends _ _ _ _ _ _ _ _) fun _ _ => trivial

theorem decodeLoop_ends (F : FloatOps) (C : Compressor) (info : EncodingInfo) (m : Nat) : ∀ (points : Nat) (ds : List Dec) (data buf : List Byte) (base : Nat),
    Halts (decodeLoop F C info m points ds data buf base) fun _ => True := by
  intro points
  induction points using Nat.strongRecOn with
  | _ points ih =>
    intro ds data buf base
    rw [decodeLoop]
    split
    · split <;> trivial
    · split
      · trivial
      · next hp =>
        refine Halts.bind (decodeInt_ends _ _) fun q _ => ?_
        simp only
        split
        · trivial
        · exact Halts.bind (decodeChunk_ends _ _ _ _ _ _ _ _ _ _ (by simp only [kPointsPerChunk]; omega)) fun q _ =>
            ih _ (by simp only [kPointsPerChunk]; omega) _ _ _ _

/-- The loop of version-2 data ends when every point takes room in the output. -/
theorem untilEmpty_room (F : FloatOps) (m step : Nat) (hs : 0 < step) (fuel : Nat) : ∀ (ds : List Dec) (input buf : List Byte) (base : Nat),
    buf.length - base < fuel * step → Halts (decodeUntilEmptyV4 F m step fuel ds input buf base) fun _ => True := by
  induction fuel with
  | zero => intro ds input buf base h; omega
  | succ fuel ih =>
    intro ds input buf base h
    rw [decodeUntilEmptyV4]
    split
    · trivial
    · split
      · trivial
      · split
        · trivial
        · refine Halts.bind (decodeFields_ends _ _ _ _ _) fun r hr => ih _ _ _ _ ?_
          rw [hr.2.2.1]
          rw [Nat.succ_mul] at h
          omega

/-- It ends when every point takes input. -/
theorem untilEmpty_eats (F : FloatOps) (m step fuel : Nat) : ∀ (ds : List Dec) (input buf : List Byte) (base : Nat), (∃ d ∈ ds, d.Eats) →
    input.length ≤ fuel → Halts (decodeUntilEmptyV4 F m step fuel ds input buf base) fun _ => True := by
  induction fuel with
  | zero => intro ds input buf base _ h; rw [decodeUntilEmptyV4, if_pos (by omega)]; trivial
  | succ fuel ih =>
    intro ds input buf base he h
    rw [decodeUntilEmptyV4]
    split
    · trivial
    · split
      · trivial
      · split
        · trivial
        · refine Halts.bind (decodeFields_ends _ _ _ _ _) fun r hr => ih _ _ _ _ (hr.1.2 he) ?_
          have := hr.2.2.2 he (by omega)
          show r.2.1.length ≤ fuel
          omega

/-- More turns allowed change nothing once the loop has ended. -/
theorem untilEmpty_more (F : FloatOps) (m step fuel : Nat) : ∀ (k : Nat) (ds : List Dec) (input buf : List Byte) (base : Nat),
    decodeUntilEmptyV4 F m step fuel ds input buf base ≠ .ub .loop →
    decodeUntilEmptyV4 F m step (fuel + k) ds input buf base = decodeUntilEmptyV4 F m step fuel ds input buf base := by
  induction fuel with
  | zero =>
    intro k ds input buf base h
    rw [decodeUntilEmptyV4] at h ⊢
    by_cases hi : input.length = 0
    · rw [if_pos hi]
      cases k with
      | zero => rw [decodeUntilEmptyV4, if_pos hi]
      | succ k => rw [Nat.zero_add, decodeUntilEmptyV4, if_pos hi]
    · rw [if_neg hi] at h; exact absurd rfl h
  | succ fuel ih =>
    intro k ds input buf base h
    rw [decodeUntilEmptyV4] at h
    rw [Nat.add_right_comm, decodeUntilEmptyV4, decodeUntilEmptyV4]
    by_cases h1 : input.length = 0
    · rw [if_pos h1, if_pos h1]
    · rw [if_neg h1] at h ⊢
      rw [if_neg h1]
      by_cases h2 : input.length < m
      · rw [if_pos h2, if_pos h2]
      · rw [if_neg h2] at h ⊢
        rw [if_neg h2]
        by_cases h3 : buf.length - base < step
        · rw [if_pos h3, if_pos h3]
        · rw [if_neg h3] at h ⊢
          rw [if_neg h3]
          cases hf : decodeFields F ds input buf base with
          | ok r => rw [hf] at h; exact ih _ _ _ _ _ h
          | throw e => rfl
          | ub e => rfl

/-- With points of no size and decoders that take nothing, the loop never ends. -/
theorem untilEmpty_hangs (F : FloatOps) (ds : List Dec) (input buf : List Byte) (hi : input ≠ [])
    (h : decodeFields F ds input buf 0 = .ok (ds, input, buf)) (fuel : Nat) :
    decodeUntilEmptyV4 F 0 0 fuel ds input buf 0 = .ub .loop := by
  have hl : ¬ input.length = 0 := fun e => hi (List.length_eq_zero_iff.1 e)
  induction fuel with
  | zero => rw [decodeUntilEmptyV4, if_neg hl]
  | succ fuel ih =>
    rw [decodeUntilEmptyV4, if_neg hl, if_neg (by omega), if_neg (by omega), h]
    exact ih

end Cloudini
