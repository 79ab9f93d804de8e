import Verif.Lemmas.Unfold
import Verif.Lemmas.ChunkV5
import Verif.Spec.Column

/-! Lemmas about the values of one field over the points of a cloud, and where they are stored. -/

namespace Cloudini.Props

theorem drop_fieldBytes (mem : List Byte) (a off size : Nat) : sub (mem.drop a) off size = fieldBytes mem (a + off) size := by
  unfold sub fieldBytes; rw [List.drop_drop]

theorem range_map_succ {α : Type} (g : Nat → α) (n : Nat) :
    (List.range (n + 1)).map g = g 0 :: (List.range n).map fun i => g (i + 1) := by
  rw [List.range_succ_eq_map, List.map_cons, List.map_map]; rfl

theorem fieldSeq_eq (step off size n : Nat) (mem : List Byte) :
    fieldSeq step off size n mem = (List.range n).map fun i => cell mem 0 step i off size := by
  induction n generalizing mem with
  | zero => rfl
  | succ n ih =>
    rw [range_map_succ, fieldSeq, ih]
    congr 1
    · simp [cell, fieldBytes, sub]
    · apply List.map_congr_left
      intro i _
      unfold cell fieldBytes
      rw [List.drop_drop]
      congr 2
      rw [Nat.add_mul]; omega

theorem subOK_of_diffsFit (p : BitVec 64) (vs : List (BitVec 64)) (h : DiffsFit p.toInt (vs.map fun v => some v.toInt)) :
    SubOK p vs := by
  induction vs generalizing p with
  | nil => trivial
  | cons v vs ih =>
    obtain ⟨h1, h2, h3⟩ := h
    have := diff_ok.2 ⟨h1, h2⟩
    exact ⟨this.1, this.2, ih v h3⟩

theorem fitsSeq_of_inCloud {mem : List Byte} {step n : Nat} {f : AField} (h : InCloud mem step f.offset f.bpv n) :
    FitsSeq step n mem f := by
  intro i hi
  have : (i + 1) * step ≤ n * step := Nat.mul_le_mul_right _ hi
  rw [Nat.add_mul, Nat.one_mul] at this
  rw [List.length_drop]
  have h1 := h.1; have h2 := h.2
  omega

theorem goodA_of_spec {mem : List Byte} {step n : Nat} {f : AField} (h : InCloud mem step f.offset f.bpv n)
    (hd : DiffsFit 0 (intHistory mem step f.offset f.bpv f.signed n)) : GoodA step n mem f := by
  refine ⟨fitsSeq_of_inCloud h, subOK_of_diffsFit _ _ ?_⟩
  rw [fieldSeq_eq]
  unfold ivals
  rw [List.map_map, List.map_map]
  exact hd

theorem valWrites_mem (off base step i : Nat) (bss : List (List Byte)) (w : Write) :
    w ∈ valWrites off base step i bss ↔ ∃ j b, bss[j]? = some b ∧ w = (base + (i + j) * step + off, b) := by
  induction bss generalizing i with
  | nil => simp [valWrites]
  | cons x xs ih =>
    simp only [valWrites, List.mem_cons, ih]
    constructor
    · rintro (rfl | ⟨j, b, h1, rfl⟩)
      · exact ⟨0, x, rfl, rfl⟩
      · exact ⟨j + 1, b, by simpa using h1, by rw [show i + (j + 1) = i + 1 + j by omega]⟩
    · rintro ⟨j, b, h1, rfl⟩
      cases j with
      | zero => left; simp at h1; subst h1; rfl
      | succ j => right; exact ⟨j, b, by simpa using h1, by rw [show i + (j + 1) = i + 1 + j by omega]⟩

theorem fieldBytes_length {m : List Byte} {o s : Nat} (h : o + s ≤ m.length) : (fieldBytes m o s).length = s := by
  unfold fieldBytes; rw [List.length_take, List.length_drop]; omega

theorem cell_length {mem : List Byte} {step off size n i : Nat} (h : InCloud mem step off size n) (hi : i < n) :
    (cell mem 0 step i off size).length = size := by
  apply fieldBytes_length
  have h1 := h.1; have h2 := h.2
  have : (i + 1) * step ≤ n * step := Nat.mul_le_mul_right _ hi
  rw [Nat.add_mul, Nat.one_mul] at this
  omega

theorem grid_apart {step a b i j : Nat} (ha : i ≠ j) (hoff : a + b ≤ step) :
    i * step + a + b ≤ j * step + a ∨ j * step + a + b ≤ i * step + a := by
  rcases Nat.lt_or_gt_of_ne ha with h | h
  · left
    have : (i + 1) * step ≤ j * step := Nat.mul_le_mul_right _ h
    rw [Nat.add_mul, Nat.one_mul] at this
    omega
  · right
    have : (j + 1) * step ≤ i * step := Nat.mul_le_mul_right _ h
    rw [Nat.add_mul, Nat.one_mul] at this
    omega

/-- Storing one value per point: the values are found in the result and nothing else changes. -/
theorem column_written {buf : List Byte} {mem : List Byte} {step off size n doff base dstep : Nat}
    (hin : InCloud mem step off size n) (hbuf : base + n * dstep ≤ buf.length) (hdo : doff + size ≤ dstep) :
    ∃ buf', applyWrites buf 0 (valWrites doff base dstep 0 (fieldSeq step off size n mem)) = .ok buf' ∧
      buf'.length = buf.length ∧
      (∀ i, i < n → cell buf' base dstep i doff size = cell mem 0 step i off size) ∧
      (∀ p, (∀ i, i < n → p < base + i * dstep + doff ∨ base + i * dstep + doff + size ≤ p) → buf'[p]? = buf[p]?) := by
  have hget : ∀ j b, (fieldSeq step off size n mem)[j]? = some b → j < n ∧ b = cell mem 0 step j off size := by
    intro j b h
    rw [fieldSeq_eq, List.getElem?_map] at h
    by_cases hj : j < n
    · rw [List.getElem?_range hj] at h
      exact ⟨hj, (Option.some.inj h).symm⟩
    · rw [List.getElem?_eq_none (by simpa using hj)] at h
      simp at h
  have hcov : ∀ i, i < n → i * dstep + dstep ≤ n * dstep := by
    intro i hi
    have : (i + 1) * dstep ≤ n * dstep := Nat.mul_le_mul_right _ hi
    rwa [Nat.add_mul, Nat.one_mul] at this
  have hfit : FitsAll buf.length (valWrites doff base dstep 0 (fieldSeq step off size n mem)) := by
    intro w hw
    rw [valWrites_mem] at hw
    obtain ⟨j, b, h1, rfl⟩ := hw
    obtain ⟨hj, rfl⟩ := hget j b h1
    simp only [Nat.zero_add, cell_length hin hj]
    have := hcov j hj
    omega
  obtain ⟨buf', hb⟩ := applyWrites_fits hfit
  refine ⟨buf', hb, applyWrites_length hb, ?_, ?_⟩
  · intro i hi
    have hmem : (base + i * dstep + doff, cell mem 0 step i off size) ∈
        valWrites doff base dstep 0 (fieldSeq step off size n mem) := by
      rw [valWrites_mem]
      refine ⟨i, _, ?_, by rw [Nat.zero_add]⟩
      rw [fieldSeq_eq, List.getElem?_map, List.getElem?_range hi]; rfl
    have := applyWrites_found hb _ hmem (fun w' hw' => by
      rw [valWrites_mem] at hw'
      obtain ⟨j, b, h1, rfl⟩ := hw'
      obtain ⟨hj, rfl⟩ := hget j b h1
      rw [Nat.zero_add]
      by_cases hij : j = i
      · left; rw [hij]
      · right
        unfold Apart
        simp only [cell_length hin hj, cell_length hin hi]
        have := grid_apart (step := dstep) hij hdo
        omega)
    simp only [cell_length hin hi] at this
    exact this
  · intro p hp
    refine applyWrites_unwritten hb p fun w hw => ?_
    rw [valWrites_mem] at hw
    obtain ⟨j, b, h1, rfl⟩ := hw
    obtain ⟨hj, rfl⟩ := hget j b h1
    simp only [Nat.zero_add, cell_length hin hj]
    exact hp j hj

theorem tinv_fresh (p : PointField) : TInv (mkAField p) :=
  ⟨Or.inl rfl, rfl, by simp [mkAField], by simp [mkAField]⟩

theorem adaptive_size (t : FieldType) (h : isAdaptiveType t = true) : sizeOf t ≤ 8 := by
  cases t <;> simp_all [isAdaptiveType, sizeOf]

theorem settled_single {f g : AField} {as : List AField} (h : All2 Settled [f] as) (he : as = [g]) : Settled f g := by
  subst he; exact h.1

end Cloudini.Props
