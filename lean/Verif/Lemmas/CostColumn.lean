import Verif.Lemmas.CostOne
import Verif.Spec.Shape

/-! # The cost of a column of a simple shape (helper lemmas for C86) -/

namespace Cloudini

open Props

theorem toI64_number (size : Nat) (signed : Bool) (bs : List Byte) : toI64 size signed bs = BitVec.ofInt 64 (numberIn signed size bs) := by
  unfold toI64 numberIn
  cases signed
  · simp
  · simp [BitVec.signExtend]

theorem cell_length (cloud : List Byte) (base step i off size : Nat) : (cell cloud base step i off size).length ≤ size := by
  unfold cell fieldBytes
  simp only [List.length_take]
  omega

theorem fromLE_bound (bs : List Byte) (size : Nat) (h : bs.length ≤ size) : fromLE bs < 2 ^ (8 * size) :=
  Nat.lt_of_lt_of_le (fromLE_lt bs) (by rw [Nat.pow_mul]; exact Nat.pow_le_pow_right (by omega) h)

theorem numberIn_inj {signed : Bool} {size : Nat} {a b : List Byte} (ha : a.length ≤ size) (hb : b.length ≤ size)
    (h : numberIn signed size a = numberIn signed size b) : fromLE a = fromLE b := by
  unfold numberIn at h
  cases signed
  · simp only [Bool.false_eq_true, if_false] at h; exact Int.ofNat.inj h
  · simp only [if_true] at h
    have h1 := congrArg BitVec.toNat (BitVec.eq_of_toInt_eq h)
    rw [BitVec.toNat_ofNat, BitVec.toNat_ofNat, Nat.mod_eq_of_lt (fromLE_bound a size ha), Nat.mod_eq_of_lt (fromLE_bound b size hb)] at h1
    exact h1

theorem numberIn_congr {signed : Bool} {size : Nat} {a b : List Byte} (h : fromLE a = fromLE b) : numberIn signed size a = numberIn signed size b := by
  unfold numberIn; rw [h]

theorem fieldSeq_chunk (step off size m s : Nat) (cloud : List Byte) :
    fieldSeq step off size m (cloud.drop (s * step)) = (List.range m).map fun i => cell cloud 0 step (s + i) off size := by
  rw [fieldSeq_eq]
  apply List.map_congr_left
  intro i _
  unfold cell fieldBytes
  rw [List.drop_drop]
  congr 2
  rw [Nat.add_mul]; omega

theorem map_range_const {α : Type} (g : Nat → α) (a : α) (m : Nat) (h : ∀ i, i < m → g i = a) : (List.range m).map g = List.replicate m a := by
  rw [List.eq_replicate_iff]
  refine ⟨by simp, ?_⟩
  intro b hb
  simp only [List.mem_map, List.mem_range] at hb
  obtain ⟨i, hi, rfl⟩ := hb
  exact h i hi

theorem map_range_prog (g : Nat → BitVec 64) (d : BitVec 64) (m : Nat) (h : ∀ i, i + 1 < m → g (i + 1) = g i + d) :
    (List.range m).map g = prog (g 0) d m := by
  induction m generalizing g with
  | zero => rfl
  | succ m ih =>
    rw [range_map_succ, prog]
    congr 1
    rw [ih (fun i => g (i + 1)) (fun i hi => h (i + 1) (by omega))]
    cases m with
    | zero => rfl
    | succ m => show prog (g (0 + 1)) d (m + 1) = _; rw [h 0 (by omega)]

theorem map_range_jumps (g : Nat → BitVec 64) (m : Nat) (h : ∀ i, i + 1 < m → g i ≠ g (i + 1)) : Jumps ((List.range m).map g) := by
  induction m generalizing g with
  | zero => trivial
  | succ m ih =>
    rw [range_map_succ]
    have := ih (fun i => g (i + 1)) (fun i hi => h (i + 1) (by omega))
    cases m with
    | zero => trivial
    | succ m =>
      rw [range_map_succ] at this ⊢
      exact ⟨h 0 (by omega), this⟩

theorem even_step {cloud : List Byte} {step off size n : Nat} {signed : Bool} (h : EvenColumn cloud step off size signed n) (i : Nat) (hi : i + 1 < n) :
    numberAt cloud step off size signed (i + 1) - numberAt cloud step off size signed i =
      numberAt cloud step off size signed 1 - numberAt cloud step off size signed 0 := by
  induction i with
  | zero => rfl
  | succ i ih => rw [h i (by omega)]; exact ih (by omega)

/-- A column costs what `fixedCost` and `pointCost` allow, in the mode chosen from the first points and in every chunk. -/
theorem column_cost (step n : Nat) (cloud : List Byte) (f : AField) (hf : f.committed = false) (hb : f.bpv ≤ 8) (c : Nat) (hc : c * kPointsPerChunk < n) :
    costOf step (min (n - c * kPointsPerChunk) kPointsPerChunk) (cloud.drop (c * kPointsPerChunk * step)) (chosen step (min n kPointsPerChunk) cloud f) f ≤
      fixedCost cloud step f.offset f.bpv f.signed n + pointCost cloud step f.offset f.bpv f.signed n * min (n - c * kPointsPerChunk) kPointsPerChunk := by
  have hK : kPointsPerChunk = 32768 := rfl
  have hP : kProbePoints = 4096 := rfl
  have hmode : chosen step (min n kPointsPerChunk) cloud f = bestMode f.bpv (ivals f (fieldSeq step f.offset f.bpv (min n kProbePoints) cloud))
      (rvals (fieldSeq step f.offset f.bpv (min n kProbePoints) cloud)) := by
    unfold chosen
    rw [hf]
    simp only [Bool.false_eq_true, if_false]
    rw [show min (min n kPointsPerChunk) kProbePoints = min n kProbePoints by omega]
  unfold costOf
  rw [hmode, fieldSeq_chunk]
  have e0 : fieldSeq step f.offset f.bpv (min n kProbePoints) cloud = (List.range (min n kProbePoints)).map fun i => cell cloud 0 step (0 + i) f.offset f.bpv := by
    rw [← fieldSeq_chunk]; simp
  rw [e0]
  unfold fixedCost pointCost
  generalize hs : c * kPointsPerChunk = s at *
  generalize hm : min (n - s) kPointsPerChunk = m at *
  generalize hp : min n kProbePoints = p at *
  have hm0 : 0 < m := by omega
  have hp0 : 0 < p := by omega
  have hsm : s + m ≤ n := by omega
  have hm3 : m ≤ 32768 := by omega
  have hone : n ≤ 4096 → s = 0 ∧ m = n ∧ p = n := fun h => by
    have : c = 0 := by
      cases c with
      | zero => rfl
      | succ c => rw [Nat.add_mul, hK] at hs; omega
    subst this
    omega
  clear hs hm hmode e0
  by_cases hcon : ConstantColumn cloud step f.offset f.bpv f.signed n
  · rw [if_pos hcon, if_pos hcon, Nat.zero_mul, Nat.add_zero]
    have key : ∀ a k, a + k ≤ n → 0 < k → ivals f ((List.range k).map fun i => cell cloud 0 step (a + i) f.offset f.bpv) =
          List.replicate k (toI64 f.bpv f.signed (cell cloud 0 step 0 f.offset f.bpv)) ∧
        rvals ((List.range k).map fun i => cell cloud 0 step (a + i) f.offset f.bpv) =
          List.replicate k (BitVec.ofNat 64 (fromLE (cell cloud 0 step 0 f.offset f.bpv))) := by
      intro a k hak hk
      unfold ivals rvals
      rw [List.map_map, List.map_map]
      refine ⟨map_range_const _ _ _ fun i hi => ?_, map_range_const _ _ _ fun i hi => ?_⟩
      · simp only [Function.comp_apply, toI64_number]
        exact congrArg _ (hcon (a + i) (by omega))
      · simp only [Function.comp_apply]
        rw [numberIn_inj (cell_length ..) (cell_length ..) (hcon (a + i) (by omega))]
    rw [(key s m hsm hm0).1, (key s m hsm hm0).2, (key 0 p (by omega) hp0).1, (key 0 p (by omega) hp0).2]
    by_cases h4 : n ≤ 4096
    · obtain ⟨_, e1, e2⟩ := hone h4
      rw [e1, e2]
      obtain ⟨k, rfl⟩ : ∃ k, n = k + 1 := ⟨n - 1, by omega⟩
      have := bestMode_le f.bpv (List.replicate (k + 1) (toI64 f.bpv f.signed (cell cloud 0 step 0 f.offset f.bpv)))
        (List.replicate (k + 1) (BitVec.ofNat 64 (fromLE (cell cloud 0 step 0 f.offset f.bpv)))) .palette
      rwa [palette_const] at this
    · obtain ⟨k', rfl⟩ : ∃ k, m = k + 1 := ⟨m - 1, by omega⟩
      obtain ⟨k, rfl⟩ : ∃ k, p = k + 1 := ⟨p - 1, by omega⟩
      exact const_cost _ _ _ _ _ hb (by omega) (by omega) (by omega)
  · rw [if_neg hcon, if_neg hcon]
    by_cases hev : EvenColumn cloud step f.offset f.bpv f.signed n
    · rw [if_pos hev, if_pos hev, Nat.zero_mul, Nat.add_zero]
      generalize hd : numberAt cloud step f.offset f.bpv f.signed 1 - numberAt cloud step f.offset f.bpv f.signed 0 = d
      have hstep : ∀ i, i + 1 < n → numberAt cloud step f.offset f.bpv f.signed (i + 1) = numberAt cloud step f.offset f.bpv f.signed i + d := by
        intro i hi
        have := even_step hev i hi
        omega
      have hd0 : d ≠ 0 := by
        intro h0
        apply hcon
        intro i
        induction i with
        | zero => intro _; rfl
        | succ i ih =>
          intro hi
          rw [hstep i hi, ih (by omega), h0, Int.add_zero]
      have keyv : ∀ a k, a + k ≤ n → ivals f ((List.range k).map fun i => cell cloud 0 step (a + i) f.offset f.bpv) =
          prog (BitVec.ofInt 64 (numberAt cloud step f.offset f.bpv f.signed a)) (BitVec.ofInt 64 d) k := by
        intro a k hak
        unfold ivals
        rw [List.map_map]
        have := map_range_prog (toI64 f.bpv f.signed ∘ fun i => cell cloud 0 step (a + i) f.offset f.bpv) (BitVec.ofInt 64 d) k (by
          intro i hi
          simp only [Function.comp_apply, toI64_number]
          have := hstep (a + i) (by omega)
          unfold numberAt at this
          rw [← Nat.add_assoc, this, BitVec.ofInt_add])
        rw [this]
        simp only [Function.comp_apply, toI64_number, Nat.add_zero]
        rfl
      have keyr : Jumps (rvals ((List.range p).map fun i => cell cloud 0 step (0 + i) f.offset f.bpv)) := by
        unfold rvals
        rw [List.map_map]
        refine map_range_jumps _ _ fun i hi he => hd0 ?_
        simp only [Function.comp_apply, Nat.zero_add] at he
        have hlt : ∀ j, fromLE (cell cloud 0 step j f.offset f.bpv) < 2 ^ 64 := fun j =>
          Nat.lt_of_lt_of_le (fromLE_bound _ _ (cell_length cloud 0 step j f.offset f.bpv)) (Nat.pow_le_pow_right (by omega) (by omega))
        have h1 := congrArg BitVec.toNat he
        rw [BitVec.toNat_ofNat, BitVec.toNat_ofNat, Nat.mod_eq_of_lt (hlt _), Nat.mod_eq_of_lt (hlt _)] at h1
        have h2 := numberIn_congr (signed := f.signed) (size := f.bpv) h1
        have h3 := hstep i (by omega)
        unfold numberAt at h3
        omega
      have hrl : (rvals ((List.range p).map fun i => cell cloud 0 step (0 + i) f.offset f.bpv)).length = p := by simp [rvals]
      rw [keyv s m hsm, keyv 0 p (by omega)]
      by_cases h4 : n ≤ 4096
      · obtain ⟨rfl, rfl, rfl⟩ := hone h4
        exact Nat.le_trans (bestMode_le _ _ _ .deltaRle) (dRle_prog _ _ _ _ _ hm3)
      · rw [prog_mode _ _ _ _ p hrl (by omega) (by omega) keyr]
        exact dRle_prog _ _ _ _ _ hm3
    · rw [if_neg hev, if_neg hev]
      exact secFor_length _ _ _ _ _ hb (by simp [ivals]) (by simp [rvals]) (by omega)

end Cloudini
