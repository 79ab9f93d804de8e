import Verif.Model.V5
import Verif.Lemmas.Points

/-! Run-length structure of a list, and the run loops of the encoder as folds over it. -/

namespace Cloudini

/-- Put a value in front of a run-length list. -/
def consRun {α : Type} [DecidableEq α] (x : α) : List (α × Nat) → List (α × Nat)
  | [] => [(x, 1)]
  | (y, n) :: rs => if x = y then (y, n + 1) :: rs else (x, 1) :: (y, n) :: rs

/-- The maximal runs of equal elements. -/
def runs {α : Type} [DecidableEq α] : List α → List (α × Nat)
  | [] => []
  | x :: xs => consRun x (runs xs)

/-- The list described by runs. -/
def expand {α : Type} (rs : List (α × Nat)) : List α := rs.flatMap fun r => List.replicate r.2 r.1

theorem expand_consRun {α : Type} [DecidableEq α] (x : α) (rs : List (α × Nat)) :
    expand (consRun x rs) = x :: expand rs := by
  cases rs with
  | nil => rfl
  | cons r rs =>
    obtain ⟨y, n⟩ := r
    simp only [consRun]
    split
    · next h => subst h; simp [expand, List.replicate_succ]
    · simp [expand, List.replicate_succ]

theorem expand_runs {α : Type} [DecidableEq α] (l : List α) : expand (runs l) = l := by
  induction l with
  | nil => rfl
  | cons x xs ih => rw [runs, expand_consRun, ih]

theorem runs_pos {α : Type} [DecidableEq α] (l : List α) : ∀ r ∈ runs l, 1 ≤ r.2 := by
  induction l with
  | nil => simp [runs]
  | cons x xs ih =>
    intro r hr
    rw [runs] at hr
    cases h : runs xs with
    | nil => rw [h] at hr; simp [consRun] at hr; rw [hr]; simp
    | cons q rs =>
      rw [h] at hr ih
      obtain ⟨y, n⟩ := q
      simp only [consRun] at hr
      split at hr
      · simp only [List.mem_cons] at hr
        rcases hr with rfl | hr
        · simp
        · exact ih r (by simp [hr])
      · simp only [List.mem_cons] at hr
        rcases hr with rfl | rfl | hr
        · simp
        · exact ih _ (by simp)
        · exact ih r (by simp [hr])

theorem runs_head {α : Type} [DecidableEq α] (x : α) (xs : List α) : ∃ n rs, runs (x :: xs) = (x, n) :: rs := by
  rw [runs]
  cases runs xs with
  | nil => exact ⟨1, [], rfl⟩
  | cons q rs =>
    obtain ⟨y, n⟩ := q
    simp only [consRun]
    split
    · next h => subst h; exact ⟨_, _, rfl⟩
    · exact ⟨_, _, rfl⟩

theorem runs_cons_ne {α : Type} [DecidableEq α] (x y : α) (ys : List α) (h : x ≠ y) :
    runs (x :: y :: ys) = (x, 1) :: runs (y :: ys) := by
  obtain ⟨n, rs, e⟩ := runs_head y ys
  rw [runs, e, consRun, if_neg h]

theorem runs_cons_eq {α : Type} [DecidableEq α] (x : α) (n : Nat) (ys : List α) (rs : List (α × Nat))
    (h : runs ys = (x, n) :: rs) : runs (x :: ys) = (x, n + 1) :: rs := by
  rw [runs, h, consRun, if_pos rfl]

/-- Sum of the run lengths. -/
def runTotal {α : Type} (rs : List (α × Nat)) : Nat := (rs.map (·.2)).sum

theorem runTotal_eq {α : Type} (rs : List (α × Nat)) : runTotal rs = (expand rs).length := by
  induction rs with
  | nil => rfl
  | cons r rs ih =>
    simp only [runTotal, List.map_cons, List.sum_cons, expand, List.flatMap_cons, List.length_append,
      List.length_replicate] at *
    rw [ih]

theorem runs_total {α : Type} [DecidableEq α] (l : List α) : runTotal (runs l) = l.length := by
  rw [runTotal_eq, expand_runs]

theorem length_le_runTotal {α : Type} (rs : List (α × Nat)) (h : ∀ r ∈ rs, 1 ≤ r.2) : rs.length ≤ runTotal rs := by
  induction rs with
  | nil => simp
  | cons r rs ih =>
    have h1 := h r (by simp)
    have h2 := ih (fun q hq => h q (by simp [hq]))
    simp only [List.length_cons, runTotal, List.map_cons, List.sum_cons] at *
    omega

theorem runs_length_le {α : Type} [DecidableEq α] (l : List α) : (runs l).length ≤ l.length := by
  have := length_le_runTotal _ (runs_pos l)
  rwa [runs_total] at this

/-- Put a value behind a run-length list. -/
def snocRun {α : Type} [DecidableEq α] (v : α) : List (α × Nat) → List (α × Nat)
  | [] => [(v, 1)]
  | [(x, n)] => if v = x then [(x, n + 1)] else [(x, n), (v, 1)]
  | r :: q :: rs => r :: snocRun v (q :: rs)

theorem snocRun_append {α : Type} [DecidableEq α] (v x : α) (n : Nat) (rs : List (α × Nat)) :
    snocRun v (rs ++ [(x, n)]) = if v = x then rs ++ [(x, n + 1)] else rs ++ [(x, n), (v, 1)] := by
  induction rs with
  | nil => rfl
  | cons r rs ih =>
    cases rs with
    | nil => simp only [List.cons_append, List.nil_append, snocRun]; split <;> rfl
    | cons q rs =>
      simp only [List.cons_append, snocRun] at ih ⊢
      rw [ih]; split <;> rfl

theorem consRun_snocRun {α : Type} [DecidableEq α] (a v : α) (rs : List (α × Nat)) :
    consRun a (snocRun v rs) = snocRun v (consRun a rs) := by
  match rs with
  | [] =>
    simp only [snocRun, consRun]
    by_cases h : a = v
    · subst h; simp
    · simp [h, Ne.symm h]
  | [(x, n)] =>
    simp only [snocRun, consRun]
    by_cases h : v = x
    · subst h
      by_cases h2 : a = v
      · subst h2; simp [snocRun]
      · simp [snocRun, h2]
    · by_cases h2 : a = x
      · subst h2; simp [snocRun, h]
      · simp [snocRun, h, h2]
  | (x, n) :: q :: rs =>
    simp only [snocRun, consRun]
    split <;> rfl

theorem runs_snoc' {α : Type} [DecidableEq α] (l : List α) (v : α) : runs (l ++ [v]) = snocRun v (runs l) := by
  induction l with
  | nil => rfl
  | cons a l ih => rw [List.cons_append, runs, ih, consRun_snocRun, runs]

/-- Appending one value at the end only touches the last run. -/
theorem runs_snoc {α : Type} [DecidableEq α] {l : List α} {rs : List (α × Nat)} {x : α} {n : Nat} (v : α)
    (h : runs l = rs ++ [(x, n)]) :
    runs (l ++ [v]) = if v = x then rs ++ [(x, n + 1)] else rs ++ [(x, n), (v, 1)] := by
  rw [runs_snoc', h, snocRun_append]

/-! ### differences -/

/-- Differences between consecutive values, starting from `prev`. -/
def deltas : BitVec 64 → List (BitVec 64) → List (BitVec 64)
  | _, [] => []
  | p, v :: vs => (v - p) :: deltas v vs

/-- No difference overflows or is the reserved value. -/
def SubOK : BitVec 64 → List (BitVec 64) → Prop
  | _, [] => True
  | p, v :: vs => subI64 v p = .ok (v - p) ∧ v - p ≠ BitVec.intMin 64 ∧ SubOK v vs

/-- No difference overflows. -/
def SubW : BitVec 64 → List (BitVec 64) → Prop
  | _, [] => True
  | p, v :: vs => subI64 v p = .ok (v - p) ∧ SubW v vs

theorem SubOK.weak {p : BitVec 64} {vs : List (BitVec 64)} (h : SubOK p vs) : SubW p vs := by
  induction vs generalizing p with
  | nil => trivial
  | cons v vs ih => exact ⟨h.1, ih h.2.2⟩

theorem deltas_length (p : BitVec 64) (vs : List (BitVec 64)) : (deltas p vs).length = vs.length := by
  induction vs generalizing p with
  | nil => rfl
  | cons v vs ih => simp [deltas, ih]

theorem subOK_of_R62 {p : BitVec 64} {vs : List (BitVec 64)} (hp : R62 p) (h : ∀ v ∈ vs, R62 v) : SubOK p vs := by
  induction vs generalizing p with
  | nil => trivial
  | cons v vs ih =>
    have hv := h v (by simp)
    have := subI64_R62 hv hp
    exact ⟨this.1, this.2, ih hv (fun a ha => h a (by simp [ha]))⟩

/-- Last value of a history. -/
def lastVal (p : BitVec 64) (vs : List (BitVec 64)) : BitVec 64 := vs.foldl (fun _ v => v) p

theorem deltas_append (p : BitVec 64) (as bs : List (BitVec 64)) :
    deltas p (as ++ bs) = deltas p as ++ deltas (lastVal p as) bs := by
  induction as generalizing p with
  | nil => rfl
  | cons a as ih => simp only [List.cons_append, deltas, ih]; rfl

theorem subOK_append (p : BitVec 64) (as bs : List (BitVec 64)) :
    SubOK p (as ++ bs) ↔ SubOK p as ∧ SubOK (lastVal p as) bs := by
  induction as generalizing p with
  | nil => simp [SubOK, lastVal]
  | cons a as ih =>
    simp only [List.cons_append, SubOK, ih]
    simp only [lastVal, List.foldl_cons, and_assoc]

theorem subW_append (p : BitVec 64) (as bs : List (BitVec 64)) :
    SubW p (as ++ bs) ↔ SubW p as ∧ SubW (lastVal p as) bs := by
  induction as generalizing p with
  | nil => simp [SubW, lastVal]
  | cons a as ih =>
    simp only [List.cons_append, SubW, ih]
    simp only [lastVal, List.foldl_cons, and_assoc]

theorem lastVal_snoc (p v : BitVec 64) (vs : List (BitVec 64)) : lastVal p (vs ++ [v]) = v := by
  simp [lastVal]

theorem subOK_deltas {p : BitVec 64} {vs : List (BitVec 64)} (h : SubOK p vs) :
    ∀ d ∈ deltas p vs, d ≠ BitVec.intMin 64 := by
  induction vs generalizing p with
  | nil => simp [deltas]
  | cons v vs ih =>
    intro d hd
    simp only [deltas, List.mem_cons] at hd
    rcases hd with rfl | hd
    · exact h.2.1
    · exact ih h.2.2 d hd

/-! ### the run loops as folds -/

/-- Fold with outcomes. -/
def foldRes {σ α : Type} (cb : σ → α → Res σ) : σ → List α → Res σ
  | s, [] => .ok s
  | s, a :: as => do
    let s ← cb s a
    foldRes cb s as

theorem rleRunSpan_spec (x : BitVec 64) (vs : List (BitVec 64)) (n : Nat) :
    ∃ k, (rleRunSpan x vs n).1 = n + k ∧ runs (x :: vs) = (x, k + 1) :: runs (rleRunSpan x vs n).2 ∧
      (rleRunSpan x vs n).2.length ≤ vs.length := by
  induction vs generalizing n with
  | nil => exact ⟨0, rfl, rfl, by simp [rleRunSpan]⟩
  | cons v vs ih =>
    simp only [rleRunSpan]
    by_cases h : v = x
    · subst h
      rw [if_pos rfl]
      obtain ⟨k, h1, h2, h3⟩ := ih (n + 1)
      refine ⟨k + 1, by omega, runs_cons_eq v (k + 1) (v :: vs) _ h2, ?_⟩
      simp only [List.length_cons]; omega
    · rw [if_neg h]
      exact ⟨0, rfl, runs_cons_ne x v vs (Ne.symm h), Nat.le_refl _⟩

theorem forEachRleRun_eq {σ : Type} (cb : σ → BitVec 64 → Nat → Res σ) (fuel : Nat) (l : List (BitVec 64)) (s : σ)
    (h : l.length ≤ fuel) :
    forEachRleRun cb fuel l s = foldRes (fun s r => cb s r.1 r.2) s (runs l) := by
  induction fuel generalizing l s with
  | zero =>
    have : l = [] := List.length_eq_zero_iff.1 (by omega)
    subst this; rfl
  | succ fuel ih =>
    cases l with
    | nil => rfl
    | cons v vs =>
      obtain ⟨k, h1, h2, h3⟩ := rleRunSpan_spec v vs 1
      simp only [forEachRleRun]
      rw [h2, foldRes, h1]
      simp only [Nat.add_comm 1 k]
      congr 1
      funext s'
      apply ih
      simp only [List.length_cons] at h
      omega

theorem deltaRunSpan_spec (d x : BitVec 64) (vs : List (BitVec 64)) (n : Nat) (h : SubW x vs) :
    ∃ k last rest, deltaRunSpan d vs x n = .ok (n + k, last, rest) ∧
      runs (d :: deltas x vs) = (d, k + 1) :: runs (deltas last rest) ∧
      rest.length ≤ vs.length ∧ SubW last rest := by
  induction vs generalizing x n with
  | nil => exact ⟨0, x, [], rfl, rfl, by simp, trivial⟩
  | cons v vs ih =>
    obtain ⟨h1, h3⟩ := h
    simp only [deltaRunSpan, h1, Res.ok_bind]
    by_cases hd : v - x = d
    · subst hd
      rw [if_neg (by simp)]
      obtain ⟨k, last, rest, e1, e2, e3, e4⟩ := ih v (n + 1) h3
      refine ⟨k + 1, last, rest, ?_, runs_cons_eq _ (k + 1) _ _ e2, ?_, e4⟩
      · rw [e1]; congr 2; omega
      · simp only [List.length_cons]; omega
    · rw [if_pos hd]
      exact ⟨0, x, v :: vs, rfl, runs_cons_ne _ _ _ (Ne.symm hd), Nat.le_refl _, ⟨h1, h3⟩⟩

theorem forEachDeltaRun_eq {σ : Type} (cb : σ → BitVec 64 → Nat → Res σ) (fuel : Nat) (l : List (BitVec 64))
    (p : BitVec 64) (s : σ) (h : l.length ≤ fuel) (hs : SubW p l) :
    forEachDeltaRun cb fuel l p s = foldRes (fun s r => cb s r.1 r.2) s (runs (deltas p l)) := by
  induction fuel generalizing l p s with
  | zero =>
    have : l = [] := List.length_eq_zero_iff.1 (by omega)
    subst this; rfl
  | succ fuel ih =>
    cases l with
    | nil => rfl
    | cons v vs =>
      obtain ⟨h1, h3⟩ := hs
      obtain ⟨k, last, rest, e1, e2, e3, e4⟩ := deltaRunSpan_spec (v - p) v vs 1 h3
      simp only [forEachDeltaRun, h1, Res.ok_bind, e1, deltas]
      rw [e2, foldRes]
      simp only [Nat.add_comm 1 k]
      congr 1
      funext s'
      apply ih _ _ _ _ e4
      simp only [List.length_cons] at h
      omega

end Cloudini
