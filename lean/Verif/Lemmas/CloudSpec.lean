import Verif.Lemmas.CloudTrip

/-! Whole clouds: what encode writes and what decode stores. -/

namespace Cloudini

theorem mem_fieldWrites (F : FloatOps) (opt : EncOpt) (lead : Bool) (mem : List Byte) (fs gs : List PointField) (w : Write) :
    w ∈ fieldWrites F opt lead mem fs gs ↔
      ∃ p ∈ fs.zip gs, w ∈ store p.2.offset.toNat (fieldVal F opt lead p.1 mem) := by
  induction fs generalizing gs with
  | nil => simp [fieldWrites]
  | cons f fs ih =>
    cases gs with
    | nil => simp [fieldWrites]
    | cons g gs => simp [fieldWrites, ih]

/-- The `k`-th field of the two descriptions makes the store `w` for a point. -/
def Intended (F : FloatOps) (info dinfo : EncodingInfo) (mem : List Byte) (w : Write) : Prop :=
  ∃ k f g, info.fields[k]? = some f ∧ dinfo.fields[k]? = some g ∧
    w ∈ store g.offset.toNat (fieldVal F info.encoding_opt (decide (k < leadingLossyFloatCount info)) f mem)

theorem zip_filter (fs gs : List PointField) (hs : All2 SameKind fs gs) (p : FieldType → Bool) (x : PointField × PointField) :
    x ∈ (fs.filter fun f => p f.type).zip (gs.filter fun f => p f.type) ↔ x ∈ fs.zip gs ∧ p x.1.type = true := by
  induction fs generalizing gs with
  | nil => simp
  | cons f fs ih =>
    cases gs with
    | nil => exact hs.elim
    | cons g gs =>
      have := ih gs hs.2
      simp only [List.filter_cons, hs.1.1]
      by_cases hp : p f.type = true
      · simp only [hp, if_true, List.zip_cons_cons, List.mem_cons, this]
        constructor
        · rintro (rfl | h)
          · exact ⟨Or.inl rfl, hp⟩
          · exact ⟨Or.inr h.1, h.2⟩
        · rintro ⟨rfl | h, h2⟩
          · exact Or.inl rfl
          · exact Or.inr ⟨h, h2⟩
      · simp only [hp, Bool.false_eq_true, if_false, List.zip_cons_cons, List.mem_cons, this]
        constructor
        · rintro ⟨h1, h2⟩
          exact ⟨Or.inr h1, h2⟩
        · rintro ⟨rfl | h, h2⟩
          · exact absurd h2 hp
          · exact ⟨h, h2⟩

theorem mem_zip_take {fs gs : List PointField} {n : Nat} {x : PointField × PointField} :
    x ∈ (fs.take n).zip (gs.take n) ↔ ∃ k, k < n ∧ fs[k]? = some x.1 ∧ gs[k]? = some x.2 := by
  rw [List.mem_iff_getElem?]
  constructor
  · rintro ⟨k, hk⟩
    rw [List.getElem?_zip_eq_some] at hk
    obtain ⟨h1, h2⟩ := hk
    rw [List.getElem?_take] at h1 h2
    by_cases hkn : k < n
    · rw [if_pos hkn] at h1 h2; exact ⟨k, hkn, h1, h2⟩
    · rw [if_neg hkn] at h1; simp at h1
  · rintro ⟨k, hkn, h1, h2⟩
    refine ⟨k, ?_⟩
    rw [List.getElem?_zip_eq_some, List.getElem?_take, List.getElem?_take, if_pos hkn, if_pos hkn]
    exact ⟨h1, h2⟩

theorem mem_zip_drop {fs gs : List PointField} {n : Nat} {x : PointField × PointField} :
    x ∈ (fs.drop n).zip (gs.drop n) ↔ ∃ k, n ≤ k ∧ fs[k]? = some x.1 ∧ gs[k]? = some x.2 := by
  rw [List.mem_iff_getElem?]
  constructor
  · rintro ⟨k, hk⟩
    rw [List.getElem?_zip_eq_some, List.getElem?_drop, List.getElem?_drop] at hk
    exact ⟨n + k, by omega, hk.1, hk.2⟩
  · rintro ⟨k, hkn, h1, h2⟩
    refine ⟨k - n, ?_⟩
    rw [List.getElem?_zip_eq_some, List.getElem?_drop, List.getElem?_drop, show n + (k - n) = k from by omega]
    exact ⟨h1, h2⟩

theorem mem_stores (F : FloatOps) (info dinfo : EncodingInfo) (hs : All2 SameKind info.fields dinfo.fields) (p : FieldType → Bool)
    (mem : List Byte) (w : Write) :
    w ∈ stores F info p mem info.fields dinfo.fields ↔
      ∃ k f g, info.fields[k]? = some f ∧ dinfo.fields[k]? = some g ∧ (k < leadingLossyFloatCount info ∨ p f.type = true) ∧
        w ∈ store g.offset.toNat (fieldVal F info.encoding_opt (decide (k < leadingLossyFloatCount info)) f mem) := by
  unfold stores
  rw [List.mem_append, mem_fieldWrites, mem_fieldWrites]
  constructor
  · rintro (⟨x, hx, hw⟩ | ⟨x, hx, hw⟩)
    · obtain ⟨k, hk, h1, h2⟩ := mem_zip_take.1 hx
      exact ⟨k, x.1, x.2, h1, h2, Or.inl hk, by rw [decide_eq_true hk]; exact hw⟩
    · rw [zip_filter _ _ (all2_take hs _).2] at hx
      obtain ⟨k, hk, h1, h2⟩ := mem_zip_drop.1 hx.1
      exact ⟨k, x.1, x.2, h1, h2, Or.inr hx.2, by rw [decide_eq_false (by omega)]; exact hw⟩
  · rintro ⟨k, f, g, h1, h2, hp, hw⟩
    by_cases hk : k < leadingLossyFloatCount info
    · refine Or.inl ⟨(f, g), mem_zip_take.2 ⟨k, hk, h1, h2⟩, ?_⟩
      rwa [decide_eq_true hk] at hw
    · refine Or.inr ⟨(f, g), ?_, ?_⟩
      · rw [zip_filter _ _ (all2_take hs _).2]
        refine ⟨mem_zip_drop.2 ⟨k, by omega, h1, h2⟩, ?_⟩
        rcases hp with hp | hp
        · exact absurd hp hk
        · exact hp
      · rwa [decide_eq_false hk] at hw

theorem mem_stores_all (F : FloatOps) (info dinfo : EncodingInfo) (hs : All2 SameKind info.fields dinfo.fields)
    (mem : List Byte) (w : Write) :
    w ∈ stores F info (fun _ => true) mem info.fields dinfo.fields ↔ Intended F info dinfo mem w := by
  rw [mem_stores F info dinfo hs]
  simp [Intended]

theorem mem_pointsWrites (F : FloatOps) (step dstep n : Nat) (es : List Enc) (ds : List Dec) (mem : List Byte) (base : Nat) (w : Write) :
    w ∈ pointsWrites F step es ds dstep n mem base ↔
      ∃ i, i < n ∧ ∃ v ∈ pointWrites F (mem.drop (i * step)) es ds, w = (base + i * dstep + v.1, v.2) := by
  induction n generalizing mem base with
  | zero => simp [pointsWrites]
  | succ n ih =>
    simp only [pointsWrites, List.mem_append, ih, shiftWrites, List.mem_map, List.drop_drop]
    constructor
    · rintro (⟨v, hv, rfl⟩ | ⟨i, hi, v, hv, rfl⟩)
      · exact ⟨0, by omega, v, by simpa using hv, by simp⟩
      · refine ⟨i + 1, by omega, v, ?_, ?_⟩
        · rw [Nat.add_mul, Nat.one_mul, Nat.add_comm]; exact hv
        · rw [Nat.add_mul, Nat.one_mul]; simp only [Prod.mk.injEq, and_true]; omega
    · rintro ⟨i, hi, v, hv, rfl⟩
      cases i with
      | zero => exact Or.inl ⟨v, by simpa using hv, by simp⟩
      | succ i =>
        refine Or.inr ⟨i, by omega, v, ?_, ?_⟩
        · rw [Nat.add_mul, Nat.one_mul, Nat.add_comm] at hv; exact hv
        · rw [Nat.add_mul, Nat.one_mul]; simp only [Prod.mk.injEq, and_true]; omega

theorem mem_valWrites (off base step j n sstep soff bpv : Nat) (mem : List Byte) (w : Write) :
    w ∈ valWrites off base step j (fieldSeq sstep soff bpv n mem) ↔
      ∃ i, i < n ∧ w = (base + (j + i) * step + off, sub (mem.drop (i * sstep)) soff bpv) := by
  induction n generalizing mem j with
  | zero => simp [fieldSeq, valWrites]
  | succ n ih =>
    simp only [fieldSeq, valWrites, List.mem_cons, ih, List.drop_drop]
    constructor
    · rintro (rfl | ⟨i, hi, rfl⟩)
      · exact ⟨0, by omega, by simp⟩
      · refine ⟨i + 1, by omega, ?_⟩
        rw [show j + (i + 1) = j + 1 + i from by omega, show (i + 1) * sstep = sstep + i * sstep from by rw [Nat.add_mul]; omega]
    · rintro ⟨i, hi, rfl⟩
      cases i with
      | zero => exact Or.inl (by simp)
      | succ i =>
        refine Or.inr ⟨i, by omega, ?_⟩
        rw [show j + (i + 1) = j + 1 + i from by omega, show (i + 1) * sstep = sstep + i * sstep from by rw [Nat.add_mul]; omega]

theorem mem_sectionWrites (step n : Nat) (mem : List Byte) (base dstep : Nat) (fs gs : List PointField) (w : Write) :
    w ∈ sectionWrites step n mem base dstep (fs.map mkAField) (gs.map mkAField) ↔
      ∃ i, i < n ∧ ∃ x ∈ fs.zip gs,
        w = (base + i * dstep + x.2.offset.toNat, sub (mem.drop (i * step)) x.1.offset.toNat (sizeOf x.1.type)) := by
  induction fs generalizing gs with
  | nil => simp [sectionWrites]
  | cons f fs ih =>
    cases gs with
    | nil => simp [sectionWrites]
    | cons g gs =>
      simp only [List.map_cons, sectionWrites, List.mem_append, ih, mem_valWrites, List.zip_cons_cons, List.mem_cons]
      constructor
      · rintro (⟨i, hi, rfl⟩ | ⟨i, hi, x, hx, rfl⟩)
        · exact ⟨i, hi, (f, g), Or.inl rfl, by simp [mkAField]⟩
        · exact ⟨i, hi, x, Or.inr hx, rfl⟩
      · rintro ⟨i, hi, x, rfl | hx, rfl⟩
        · exact Or.inl ⟨i, hi, by simp [mkAField]⟩
        · exact Or.inr ⟨i, hi, x, hx, rfl⟩

/-- Membership in the writes of a V5 cloud, given what each point and each section contributes. -/
theorem mem_writesV5 (F : FloatOps) (step dstep : Nat) (es : List Enc) (ds : List Dec) (as das : List AField) (points : Nat)
    (mem : List Byte) (base : Nat) (w : Write) (A : List Byte → Write → Prop)
    (hA : ∀ n mem base w, w ∈ sectionWrites step n mem base dstep as das ↔
      ∃ i, i < n ∧ ∃ v, A (mem.drop (i * step)) v ∧ w = (base + i * dstep + v.1, v.2)) :
    w ∈ writesV5 F step dstep es ds as das points mem base ↔
      ∃ i, i < points ∧ ∃ v, (v ∈ pointWrites F (mem.drop (i * step)) es ds ∨ A (mem.drop (i * step)) v) ∧
        w = (base + i * dstep + v.1, v.2) := by
  induction points using Nat.strongRecOn generalizing mem base with
  | ind points ih =>
    unfold writesV5
    by_cases hp : points = 0
    · rw [dif_pos hp]; simp [hp]
    · rw [dif_neg hp]
      have hK := pos_K
      have hn : min points kPointsPerChunk ≤ points := Nat.min_le_left _ _
      have hn0 : 0 < min points kPointsPerChunk := by omega
      generalize min points kPointsPerChunk = n at *
      simp only [List.mem_append, mem_pointsWrites, hA, ih (points - n) (by omega), List.drop_drop]
      constructor
      · rintro ((⟨i, hi, v, hv, rfl⟩ | ⟨i, hi, v, hv, rfl⟩) | ⟨i, hi, v, hv, rfl⟩)
        · exact ⟨i, by omega, v, Or.inl hv, rfl⟩
        · exact ⟨i, by omega, v, Or.inr hv, rfl⟩
        · refine ⟨n + i, by omega, v, ?_, ?_⟩
          · rw [Nat.add_mul]; exact hv
          · rw [Nat.add_mul]; simp only [Prod.mk.injEq, and_true]; omega
      · rintro ⟨i, hi, v, hv, rfl⟩
        by_cases hin : i < n
        · rcases hv with hv | hv
          · exact Or.inl (Or.inl ⟨i, hin, v, hv, rfl⟩)
          · exact Or.inl (Or.inr ⟨i, hin, v, hv, rfl⟩)
        · refine Or.inr ⟨i - n, by omega, v, ?_, ?_⟩
          · rw [← Nat.add_mul, show n + (i - n) = i from by omega]; exact hv
          · have : i * dstep = n * dstep + (i - n) * dstep := by rw [← Nat.add_mul]; congr 1; omega
            rw [this]; simp only [Prod.mk.injEq, and_true]; omega

end Cloudini
