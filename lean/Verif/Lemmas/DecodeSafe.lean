import Verif.Lemmas.Unfold
import Verif.Lemmas.MemSafe
import Verif.Lemmas.Footprint
import Verif.Lemmas.Reuse

/-! No out-of-bounds access while decoding arbitrary bytes, for the layouts in which every unchecked read is covered by the
per-point test. -/

namespace Cloudini

/-- Every unchecked read of these decoders is covered when `m` bytes are available. -/
def readsOk : List Dec → Nat → Prop
  | [], _ => True
  | .copy _ s :: ds, m => s ≤ m ∧ readsOk ds (m - s)
  | .xor _ s _ :: ds, m => s ≤ m ∧ readsOk ds (m - s)
  | .lossy32 _ _ _ :: ds, m => 1 ≤ m ∧ readsOk ds 0
  | .lossy64 _ _ _ :: ds, m => 1 ≤ m ∧ readsOk ds 0
  | .int _ _ _ :: ds, _ => readsOk ds 0
  | .gorilla _ _ _ :: ds, _ => readsOk ds 0
  | .floatN _ :: ds, _ => readsOk ds 0

/-- Every place the decoder writes is inside a point of `step` bytes (or not written at all). -/
def Dec.Inside (step : Nat) (d : Dec) : Prop := ∀ sp ∈ d.spots, sp.1 ≠ kDecodeButSkipStore → sp.1 + sp.2 ≤ step

theorem readsOk_mono (ds : List Dec) {a b : Nat} (hab : a ≤ b) (h : readsOk ds a) : readsOk ds b := by
  induction ds generalizing a b with
  | nil => trivial
  | cons d ds ih =>
    cases d with
    | copy o s => exact ⟨by have := h.1; omega, ih (by omega) h.2⟩
    | xor o s p => exact ⟨by have := h.1; omega, ih (by omega) h.2⟩
    | lossy32 o r p => exact ⟨by have := h.1; omega, h.2⟩
    | lossy64 o r p => exact ⟨by have := h.1; omega, h.2⟩
    | int o s p => exact h
    | gorilla o s p => exact h
    | floatN ls => exact h

theorem readsOk_reset (ds : List Dec) (m : Nat) : readsOk (ds.map Dec.reset) m ↔ readsOk ds m := by
  induction ds generalizing m with
  | nil => rfl
  | cons d ds ih => cases d <;> simp only [List.map_cons, Dec.reset, readsOk, ih]

theorem inside_reset {step : Nat} {d : Dec} : d.reset.Inside step ↔ d.Inside step := by unfold Dec.Inside; rw [spots_reset]

theorem decodeVarintLoop_noUB (bytes : List Byte) (shift : Nat) (u : BitVec 64) (c : Nat) : Safe (decodeVarintLoop bytes shift u c) fun _ => True := by
  induction bytes generalizing shift u c with
  | nil => trivial
  | cons b bs ih =>
    rw [decodeVarintLoop]
    simp only
    split
    · trivial
    · split
      · trivial
      · split
        · trivial
        · exact ih _ _ _

theorem decodeVarint_safe (bytes : List Byte) : Safe (decodeVarint bytes) fun _ => True := by
  unfold decodeVarint
  refine Safe.bind (P := fun _ => True) ?_ fun r _ => ?_
  · unfold decodeVarintRaw
    split
    · trivial
    · split
      · trivial
      · split
        · split
          · trivial
          · exact decodeVarintLoop_noUB _ _ _ _
        · exact decodeVarintLoop_noUB _ _ _ _
  · simp only; split <;> trivial

theorem addI64_safe (a b : BitVec 64) : Safe (addI64 a b) fun _ => True := by unfold addI64; split <;> simp [Safe]
theorem addI32_safe (a b : BitVec 32) : Safe (addI32 a b) fun _ => True := by unfold addI32; split <;> simp [Safe]

theorem fillTo_safe (n : Nat) (buf : BitVec 64) (cnt : Nat) (inp : List Byte) : Safe (fillTo n buf cnt inp) fun _ => True := by
  induction inp generalizing buf cnt with
  | nil => unfold fillTo; split <;> trivial
  | cons b bs ih =>
    unfold fillTo
    split
    · simp only
      split
      · simp [Safe]
      · exact ih _ _
    · trivial

theorem getBits_safe (n : Nat) (r : BitR) : Safe (getBits n r) fun _ => True := by
  unfold getBits
  split
  · simp only
    split
    · trivial
    · refine Safe.bind (fillTo_safe _ _ _ _) fun r _ => ?_
      split
      · simp [Safe]
      · trivial
  · exact Safe.bind (fillTo_safe _ _ _ _) fun r _ => trivial

theorem shlTrunc_safe (tb : Nat) (b : BitVec 64) (n : Nat) : Safe (shlTrunc tb b n) fun _ => True := by
  unfold shlTrunc; split <;> simp [Safe]

theorem gorillaDecode_safe (tb : Nat) (st : GorillaState) (input : List Byte) : Safe (gorillaDecode tb st input) fun _ => True := by
  unfold gorillaDecode
  simp only
  split
  · exact Safe.bind (getBits_safe _ _) fun r _ => trivial
  · refine Safe.bind (getBits_safe _ _) fun r _ => ?_
    split
    · trivial
    · refine Safe.bind (getBits_safe _ _) fun r _ => ?_
      split
      · exact Safe.bind (getBits_safe _ _) fun r _ => Safe.bind (shlTrunc_safe _ _ _) fun _ _ => trivial
      · exact Safe.bind (getBits_safe _ _) fun r _ => Safe.bind (getBits_safe _ _) fun r _ => Safe.bind (getBits_safe _ _) fun r _ =>
          Safe.bind (shlTrunc_safe _ _ _) fun _ _ => trivial

theorem lanesDecode_safe (F : FloatOps) (ls : List Lane) (input : List Byte) : Safe (lanesDecode F ls input) fun _ => True := by
  induction ls generalizing input with
  | nil => trivial
  | cons l ls ih =>
    rw [lanesDecode]
    refine Safe.bind (P := fun _ => True) ?_ fun r _ => Safe.bind (ih _) fun _ _ => trivial
    unfold laneDecode
    split
    · trivial
    · split
      · trivial
      · exact Safe.bind (decodeVarint_safe _) fun r _ => Safe.bind (addI32_safe _ _) fun _ _ => trivial

/-- One decoder: no out-of-bounds read if the unchecked ones are covered, and what is left then. -/
theorem dstep_safe (F : FloatOps) (d : Dec) (ds : List Dec) (m : Nat) (input : List Byte) (hm : m ≤ input.length) (h : readsOk (d :: ds) m) :
    Safe (d.step F input) fun r => ∃ m', m' ≤ r.2.2.length ∧ readsOk ds m' := by
  cases d with
  | copy o s =>
    obtain ⟨h1, h2⟩ := h
    simp only [Dec.step]
    split
    · rw [if_pos (by omega)]; exact ⟨m - s, by simp; omega, h2⟩
    · rw [if_pos (by omega)]; exact ⟨m - s, by simp; omega, h2⟩
  | xor o s p =>
    obtain ⟨h1, h2⟩ := h
    simp only [Dec.step]
    rw [if_pos (by omega)]; exact ⟨m - s, by simp; omega, h2⟩
  | int o s p =>
    simp only [Dec.step]
    exact Safe.bind (decodeVarint_safe _) fun r _ => Safe.bind (addI64_safe _ _) fun _ _ => ⟨0, by simp, h⟩
  | lossy32 o r p =>
    obtain ⟨h1, h2⟩ := h
    simp only [Dec.step]
    split
    · simp at hm; omega
    · split
      · exact ⟨0, by simp, h2⟩
      · exact Safe.bind (decodeVarint_safe _) fun r _ => Safe.bind (addI64_safe _ _) fun _ _ => ⟨0, by simp, h2⟩
  | lossy64 o r p =>
    obtain ⟨h1, h2⟩ := h
    simp only [Dec.step]
    split
    · simp at hm; omega
    · split
      · exact ⟨0, by simp, h2⟩
      · exact Safe.bind (decodeVarint_safe _) fun r _ => Safe.bind (addI64_safe _ _) fun _ _ => ⟨0, by simp, h2⟩
  | gorilla o s st =>
    simp only [Dec.step]
    exact Safe.bind (gorillaDecode_safe _ _ _) fun r _ => ⟨0, by simp, h⟩
  | floatN ls =>
    simp only [Dec.step]
    split
    · trivial
    · exact Safe.bind (lanesDecode_safe _ _ _) fun r _ => ⟨0, by simp, h⟩

theorem applyWrites_safe (ws : List Write) (buf : List Byte) (base step : Nat) (hb : base + step ≤ buf.length)
    (h : ∀ w ∈ ws, w.1 + w.2.length ≤ step) : Safe (applyWrites buf base ws) fun b => b.length = buf.length := by
  induction ws generalizing buf with
  | nil => exact rfl
  | cons w ws ih =>
    obtain ⟨o, v⟩ := w
    rw [applyWrites]
    have h0 := h (o, v) (by simp)
    simp only at h0
    refine Safe.bind (P := fun b => b.length = buf.length) ?_ fun b hbl => ?_
    · unfold writeAt
      rw [if_pos (by omega)]
      exact splice_length (by omega)
    · exact (ih b (by omega) fun w hw => h w (by simp [hw])).mono fun c hc => by rw [hc, hbl]

theorem decodeFields_safe (F : FloatOps) (step : Nat) (ds : List Dec) (m : Nat) (input buf : List Byte) (base : Nat) (hm : m ≤ input.length)
    (h : readsOk ds m) (hi : ∀ d ∈ ds, d.Inside step) (hb : base + step ≤ buf.length) :
    Safe (decodeFields F ds input buf base) fun r => r.2.2.length = buf.length := by
  induction ds generalizing m input buf with
  | nil => exact rfl
  | cons d ds ih =>
    rw [decodeFields]
    have h1 := dstep_safe F d ds m input hm h
    cases hs : d.step F input with
    | throw _ => trivial
    | ub k => rw [hs] at h1; exact h1
    | ok r =>
      obtain ⟨d', ws, rest⟩ := r
      rw [hs] at h1
      obtain ⟨m', hm', hr'⟩ := h1
      simp only [Res.ok_bind]
      have hsp := (step_spots F d d' input rest ws hs).2
      refine Safe.bind (applyWrites_safe ws buf base step hb ?_) fun b hbl => ?_
      · intro w hw
        obtain ⟨sp, hsp1, e1, e2, e3⟩ := hsp w hw
        have := hi d (by simp) sp hsp1 e3
        omega
      · refine Safe.bind (ih m' rest b hm' hr' (fun d hd => hi d (by simp [hd])) (by omega)) fun r hr => ?_
        show r.2.2.length = buf.length
        rw [hr, hbl]

theorem decodePointsV4_safe (F : FloatOps) (min step n : Nat) (ds : List Dec) (input buf : List Byte) (base : Nat)
    (h : readsOk ds min) (hi : ∀ d ∈ ds, d.Inside step) (hb : base ≤ buf.length) :
    Safe (decodePointsV4 F min step n ds input buf base) fun r => r.2.2.1.length = buf.length ∧ r.2.2.2 ≤ r.2.2.1.length := by
  induction n generalizing ds input buf base with
  | zero => exact ⟨rfl, hb⟩
  | succ n ih =>
    rw [decodePointsV4]
    split
    · trivial
    next hl =>
    split
    · trivial
    next hroom =>
    have h1 := decodeFields_safe F step ds min input buf base (by omega) h hi (by omega)
    cases hs : decodeFields F ds input buf base with
    | throw _ => trivial
    | ub k => rw [hs] at h1; exact h1
    | ok r =>
      obtain ⟨ds', rest, b⟩ := r
      rw [hs] at h1
      have h1' : b.length = buf.length := h1
      have hreset := decodeFields_reset F ds ds' input rest buf b base hs
      simp only [Res.ok_bind]
      refine (ih ds' rest b (base + step) ?_ ?_ (by omega)).mono fun r hr => ?_
      · rw [← readsOk_reset, hreset, readsOk_reset]; exact h
      · intro d hd
        have : d.reset ∈ ds.map Dec.reset := by rw [← hreset]; exact List.mem_map_of_mem hd
        obtain ⟨d0, hd0, he⟩ := List.mem_map.1 this
        rw [← inside_reset, ← he, inside_reset]
        exact hi d0 hd0
      · exact ⟨by rw [hr.1, h1'], hr.2⟩

theorem decompressChunk_safe (C : Compressor) (opt : CompOpt) (chunk : List Byte) (lim : Nat) : Safe (decompressChunk C opt chunk lim) fun _ => True := by
  unfold decompressChunk
  cases opt with
  | none => trivial
  | bad c => trivial
  | lz4 => simp only; split; · trivial
           · split <;> trivial
  | zstd => simp only; split <;> trivial

theorem decodeChunk_safe (F : FloatOps) (C : Compressor) (info : EncodingInfo) (hv : usesV5 info = false) (ds : List Dec) (min' : Nat)
    (chunk buf : List Byte) (base n : Nat) (hn : 0 < n) (h : readsOk ds min') (hi : ∀ d ∈ ds, d.Inside info.point_step.toNat) (hb : base ≤ buf.length) :
    Safe (decodeChunk F C 0 info ds min' chunk buf base n) fun r => r.1.map Dec.reset = ds.map Dec.reset ∧ r.2.2 ≤ r.2.1.length := by
  unfold decodeChunk
  refine Safe.bind (decompressChunk_safe _ _ _ _) fun view _ => ?_
  rw [hv]
  simp only [Bool.false_eq_true, if_false]
  unfold decodeV4Chunk
  simp only
  rw [if_pos hn]
  have h1 := decodePointsV4_safe F min' info.point_step.toNat n (ds.map Dec.reset) view buf base ((readsOk_reset _ _).2 h)
    (by intro d hd; obtain ⟨d0, hd0, rfl⟩ := List.mem_map.1 hd; exact inside_reset.2 (hi d0 hd0)) hb
  cases hs : decodePointsV4 F min' info.point_step.toNat n (ds.map Dec.reset) view buf base with
  | throw _ => trivial
  | ub k => rw [hs] at h1; exact h1
  | ok r =>
    obtain ⟨ds', rest, b, base'⟩ := r
    rw [hs] at h1
    have := decodePointsV4_reset F min' _ n _ ds' _ _ _ _ _ _ hs
    exact ⟨by rw [this.1, dmap_reset_reset], h1.2⟩

theorem decodeLoop_safe (F : FloatOps) (C : Compressor) (info : EncodingInfo) (hv : usesV5 info = false) (min' points : Nat) (ds : List Dec)
    (data buf : List Byte) (base : Nat) (h : readsOk ds min') (hi : ∀ d ∈ ds, d.Inside info.point_step.toNat) (hb : base ≤ buf.length) :
    Safe (decodeLoop F C info min' points ds data buf base) fun _ => True := by
  induction points using Nat.strongRecOn generalizing ds data buf base with
  | _ points ih =>
    rw [decodeLoop]
    split
    · split <;> trivial
    split
    · trivial
    next hp =>
    refine Safe.bind (P := fun _ => True) ?_ fun r _ => ?_
    · rw [decodeInt_def]; split <;> trivial
    simp only
    split
    · trivial
    have hn : 0 < min points kPointsPerChunk := by simp only [kPointsPerChunk]; omega
    refine Safe.bind (decodeChunk_safe F C info hv ds min' (r.2.take r.1) buf base _ hn h hi hb) fun q hq => ?_
    refine ih _ (by simp only [kPointsPerChunk]; omega) q.1 _ q.2.1 q.2.2 ?_ ?_ hq.2
    · rw [← readsOk_reset, hq.1, readsOk_reset]; exact h
    · intro d hd
      have : d.reset ∈ ds.map Dec.reset := by rw [← hq.1]; exact List.mem_map_of_mem hd
      obtain ⟨d0, hd0, he⟩ := List.mem_map.1 this
      rw [← inside_reset, ← he, inside_reset]
      exact hi d0 hd0

end Cloudini
