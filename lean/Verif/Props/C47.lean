import Verif.Model.InfoEq
import Verif.Props.Witness

/-!
# C47: equality of infos
-/

namespace Cloudini.Props

open Cloudini.Ros (feq32 isZero32)

/-! ## floats -/

/-- The same float: not NaN, and the same bits or both a zero. -/
def SameFloat (a b : BitVec 32) : Prop :=
  (a.toNat % 2 ^ 31 ≤ 0x7F800000) ∧ (a = b ∨ (a = 0#32 ∨ a = 0x80000000#32) ∧ (b = 0#32 ∨ b = 0x80000000#32))

/-- The same resolution. -/
def SameRes : Option (BitVec 32) → Option (BitVec 32) → Prop
  | none, none => True
  | some a, some b => SameFloat a b
  | _, _ => False

theorem isZero32_iff (a : BitVec 32) : isZero32 a = true ↔ a = 0#32 ∨ a = 0x80000000#32 := by
  have h := a.isLt
  simp only [isZero32, decide_eq_true_eq, BitVec.toNat_eq]
  show _ ↔ a.toNat = 0 ∨ a.toNat = 0x80000000
  omega

theorem feq32_iff (a b : BitVec 32) : feq32 a b = true ↔ SameFloat a b := by
  unfold feq32 SameFloat isNaN32
  simp only [Bool.and_eq_true, Bool.or_eq_true, beq_iff_eq, isZero32_iff, Bool.not_eq_true', decide_eq_false_iff_not]
  constructor
  · rintro ⟨⟨h1, h2⟩, h3⟩; exact ⟨by omega, h3⟩
  · rintro ⟨h1, h3⟩
    refine ⟨⟨by omega, ?_⟩, h3⟩
    rcases h3 with rfl | ⟨-, rfl | rfl⟩
    · omega
    · decide
    · decide

theorem eqRes_iff (a b : Option (BitVec 32)) : eqRes a b = true ↔ SameRes a b := by
  cases a <;> cases b <;> simp [eqRes, SameRes, feq32_iff]

theorem sameFloat_symm {a b : BitVec 32} (h : SameFloat a b) : SameFloat b a := by
  obtain ⟨h1, rfl | ⟨h2, h3⟩⟩ := h
  · exact ⟨h1, Or.inl rfl⟩
  · refine ⟨?_, Or.inr ⟨h3, h2⟩⟩
    rcases h3 with rfl | rfl <;> decide

theorem sameFloat_trans {a b c : BitVec 32} (h : SameFloat a b) (h' : SameFloat b c) : SameFloat a c := by
  obtain ⟨h1, h2⟩ := h
  obtain ⟨-, h3⟩ := h'
  refine ⟨h1, ?_⟩
  rcases h2 with rfl | ⟨h4, h5⟩
  · exact h3
  · rcases h3 with rfl | ⟨-, h6⟩
    · exact Or.inr ⟨h4, h5⟩
    · exact Or.inr ⟨h4, h6⟩

theorem sameRes_symm {a b : Option (BitVec 32)} (h : SameRes a b) : SameRes b a := by
  cases a <;> cases b <;> first | exact h | exact sameFloat_symm h

theorem sameRes_trans {a b c : Option (BitVec 32)} (h : SameRes a b) (h' : SameRes b c) : SameRes a c := by
  cases a <;> cases b <;> cases c <;> first | exact h | exact h' | exact False.elim h | exact sameFloat_trans h h'

/-! ## infos -/

/-- The same field: name, offset, type and resolution. -/
def SameField (a b : PointField) : Prop := a.name = b.name ∧ a.offset = b.offset ∧ a.type = b.type ∧ SameRes a.resolution b.resolution

/-- The same description of a cloud: the fields one by one, the dimensions and both options. -/
def SameInfo (a b : EncodingInfo) : Prop :=
  a.fields.length = b.fields.length ∧ (∀ (i : Nat) f g, a.fields[i]? = some f → b.fields[i]? = some g → SameField f g) ∧ a.width = b.width ∧ a.height = b.height ∧
    a.point_step = b.point_step ∧ a.encoding_opt = b.encoding_opt ∧ a.compression_opt = b.compression_opt

theorem eqField_iff (a b : PointField) : eqField a b = true ↔ SameField a b := by
  simp only [eqField, Bool.and_eq_true, beq_iff_eq, eqRes_iff, SameField, and_assoc]

theorem eqFields_iff (as bs : List PointField) (hl : as.length = bs.length) :
    eqFields as bs = true ↔ ∀ (i : Nat) f g, as[i]? = some f → bs[i]? = some g → SameField f g := by
  induction as generalizing bs with
  | nil => simp [eqFields]
  | cons a as ih =>
    cases bs with
    | nil => simp at hl
    | cons b bs =>
      simp only [eqFields, Bool.not_eq_true']
      by_cases h : eqField a b = true
      · rw [if_neg (by simp [h]), ih bs (by simpa using hl)]
        constructor
        · intro hh i f g h1 h2
          cases i with
          | zero => cases h1; cases h2; exact (eqField_iff _ _).1 h
          | succ i => exact hh i f g h1 h2
        · intro hh i f g h1 h2
          exact hh (i + 1) f g h1 h2
      · rw [if_pos (by simpa using h)]
        constructor
        · intro hh; cases hh
        · intro hh; exact absurd ((eqField_iff _ _).2 (hh 0 a b rfl rfl)) h

/-- **C47.** `operator==` says exactly that the infos describe the same fields, dimensions and options. -/
theorem C47_eq_iff (a b : EncodingInfo) : eqInfo a b = true ↔ SameInfo a b := by
  unfold eqInfo SameInfo
  by_cases hl : a.fields.length = b.fields.length
  · rw [if_neg (by simpa using hl)]
    by_cases hf : eqFields a.fields b.fields = true
    · rw [if_neg (by simp [hf])]
      simp only [Bool.and_eq_true, beq_iff_eq, and_assoc]
      exact ⟨fun h => ⟨hl, (eqFields_iff _ _ hl).1 hf, h⟩, fun h => h.2.2⟩
    · rw [if_pos (by simpa using hf)]
      exact ⟨fun h => by simp at h, fun h => absurd ((eqFields_iff _ _ hl).2 h.2.1) hf⟩
  · rw [if_pos (by simpa using hl)]
    exact ⟨fun h => by simp at h, fun h => absurd h.1 hl⟩

/-- **C47, equivalence.** Symmetric. -/
theorem C47_symm (a b : EncodingInfo) (h : eqInfo a b = true) : eqInfo b a = true := by
  rw [C47_eq_iff] at *
  obtain ⟨h1, h2, h3, h4, h5, h6, h7⟩ := h
  refine ⟨h1.symm, fun i f g hf hg => ?_, h3.symm, h4.symm, h5.symm, h6.symm, h7.symm⟩
  obtain ⟨e1, e2, e3, e4⟩ := h2 i g f hg hf
  exact ⟨e1.symm, e2.symm, e3.symm, sameRes_symm e4⟩

/-- Transitive. -/
theorem C47_trans (a b c : EncodingInfo) (h : eqInfo a b = true) (h' : eqInfo b c = true) : eqInfo a c = true := by
  rw [C47_eq_iff] at *
  obtain ⟨h1, h2, h3, h4, h5, h6, h7⟩ := h
  obtain ⟨g1, g2, g3, g4, g5, g6, g7⟩ := h'
  refine ⟨h1.trans g1, fun i f g hf hg => ?_, h3.trans g3, h4.trans g4, h5.trans g5, h6.trans g6, h7.trans g7⟩
  have hi : i < b.fields.length := by
    rw [← h1]
    exact Classical.byContradiction fun hn => by rw [List.getElem?_eq_none (by omega)] at hf; cases hf
  obtain ⟨e1, e2, e3, e4⟩ := h2 i f b.fields[i] hf (List.getElem?_eq_getElem hi)
  obtain ⟨d1, d2, d3, d4⟩ := g2 i b.fields[i] g (List.getElem?_eq_getElem hi) hg
  exact ⟨e1.trans d1, e2.trans d2, e3.trans d3, sameRes_trans e4 d4⟩

/-- Reflexive exactly when no resolution is NaN. -/
theorem C47_refl_iff (a : EncodingInfo) : eqInfo a a = true ↔ ∀ f ∈ a.fields, ∀ r, f.resolution = some r → isNaN32 r = false := by
  rw [C47_eq_iff]
  constructor
  · rintro ⟨-, h, -⟩ f hf r hr
    obtain ⟨i, hi, rfl⟩ := List.getElem_of_mem hf
    have hg := List.getElem?_eq_getElem hi
    obtain ⟨-, -, -, h4⟩ := h i _ _ hg hg
    rw [hr] at h4
    have := h4.1
    simp only [isNaN32, decide_eq_false_iff_not]
    omega
  · intro h
    refine ⟨rfl, fun i f g hf hg => ?_, rfl, rfl, rfl, rfl, rfl⟩
    rw [hf] at hg
    cases hg
    refine ⟨rfl, rfl, rfl, ?_⟩
    cases hr : f.resolution with
    | none => trivial
    | some r =>
      have := h f (List.mem_of_getElem? hf) r hr
      simp only [isNaN32, decide_eq_false_iff_not] at this
      exact ⟨by omega, Or.inl rfl⟩

/-- Infos that also agree in version and configuration, and have no zero resolution, are equal outright: every function of the library does the
same with both. -/
theorem C47_identical (a b : EncodingInfo) (h : eqInfo a b = true) (hv : a.version = b.version) (hc : a.encoding_config = b.encoding_config)
    (hz : ∀ f ∈ a.fields, f.resolution ≠ some 0#32 ∧ f.resolution ≠ some 0x80000000#32) : a = b := by
  obtain ⟨h1, h2, h3, h4, h5, h6, h7⟩ := (C47_eq_iff a b).1 h
  have hf : a.fields = b.fields := by
    refine List.ext_getElem h1 fun i hi hi' => ?_
    obtain ⟨e1, e2, e3, e4⟩ := h2 i _ _ (List.getElem?_eq_getElem hi) (List.getElem?_eq_getElem hi')
    obtain ⟨z1, z2⟩ := hz _ (List.getElem_mem hi)
    generalize a.fields[i] = f at *
    generalize b.fields[i] = g at *
    obtain ⟨n, o, t, r⟩ := f
    obtain ⟨n', o', t', r'⟩ := g
    simp only at e1 e2 e3 e4 z1 z2
    subst e1 e2 e3
    cases r with
    | none => cases r' with
      | none => rfl
      | some r' => exact False.elim e4
    | some r => cases r' with
      | none => exact False.elim e4
      | some r' =>
        rcases e4.2 with rfl | ⟨rfl | rfl, -⟩
        · rfl
        · exact absurd rfl z1
        · exact absurd rfl z2
  obtain ⟨f, w, hh, p, e, c, co, v⟩ := a
  obtain ⟨f', w', hh', p', e', c', co', v'⟩ := b
  simp only at h3 h4 h5 h6 h7 hv hc hf
  subst h3 h4 h5 h6 h7 hv hc hf
  rfl

/-- **Version and configuration are not compared.** -/
theorem C47_version_ignored (i : EncodingInfo) (v : Byte) (c : List Byte) : eqInfo i i = eqInfo i { i with version := v, encoding_config := c } := rfl

/-- `isSameEncodingInfo` is an equivalence: it compares names, offsets, types and dimensions. -/
theorem C47_pcl_iff (a b : EncodingInfo) :
    isSameEncodingInfo a b = true ↔ a.fields.map (fun f => (f.name, f.offset, f.type)) = b.fields.map (fun f => (f.name, f.offset, f.type)) ∧
      a.width = b.width ∧ a.height = b.height ∧ a.point_step = b.point_step := by
  have key : ∀ as bs : List PointField, as.length = bs.length →
      (samePclFields as bs = true ↔ as.map (fun f => (f.name, f.offset, f.type)) = bs.map (fun f => (f.name, f.offset, f.type))) := by
    intro as
    induction as with
    | nil => intro bs h; cases bs; simp [samePclFields]; simp at h
    | cons x as ih =>
      intro bs h
      cases bs with
      | nil => simp at h
      | cons y bs =>
        simp only [samePclFields, List.map_cons, List.cons.injEq, Prod.mk.injEq, Bool.or_eq_true, bne_iff_ne]
        by_cases hx : x.name = y.name ∧ x.offset = y.offset ∧ x.type = y.type
        · rw [if_neg (by simp [hx.1, hx.2.1, hx.2.2]), ih bs (by simpa using h)]
          exact ⟨fun h => ⟨hx, h⟩, fun h => h.2⟩
        · rw [if_pos (Classical.byContradiction fun hn => hx (by simp only [not_or, ne_eq, Decidable.not_not] at hn; exact ⟨hn.1.1, hn.1.2, hn.2⟩))]
          exact ⟨fun h => by simp at h, fun h => absurd h.1 hx⟩
  unfold isSameEncodingInfo
  by_cases hl : a.fields.length = b.fields.length
  · rw [if_neg (by simpa using hl), ← key _ _ hl]
    by_cases hf : samePclFields a.fields b.fields = true
    · rw [if_neg (by simp [hf])]
      simp only [Bool.and_eq_true, beq_iff_eq, and_assoc, hf, true_and]
    · rw [if_pos (by simpa using hf)]
      exact ⟨fun h => by simp at h, fun h => absurd h.1 hf⟩
  · rw [if_pos (by simpa using hl)]
    refine ⟨fun h => by simp at h, fun h => absurd ?_ hl⟩
    simpa using congrArg List.length h.1

/-- The hypotheses of `C47_identical` and `C47_trans` are met by the mixed cloud's info; -0 and +0 resolutions compare equal; NaN does not equal itself. -/
example : eqInfo mixInfo mixInfo = true ∧ (∀ f ∈ mixInfo.fields, f.resolution ≠ some 0#32 ∧ f.resolution ≠ some 0x80000000#32) ∧
    eqInfo { fields := [⟨[], 0, .float32, some 0#32⟩] } { fields := [⟨[], 0, .float32, some 0x80000000#32⟩] } = true ∧
    eqInfo { fields := [⟨[], 0, .float32, some 0x7FC00000#32⟩] } { fields := [⟨[], 0, .float32, some 0x7FC00000#32⟩] } = false := by decide

/-- The theorems applied: infos that differ in the sign of a zero resolution and in the version. -/
example : eqInfo { fields := [⟨[], 0, .float32, some 0x80000000#32⟩] } { fields := [⟨[], 0, .float32, some 0#32⟩], version := 3#8 } = true :=
  C47_symm _ _ (by decide)
example : eqInfo { mixInfo with version := 3#8 } { mixInfo with version := 4#8 } = true := C47_trans _ mixInfo _ (by decide) (by decide)
example (b : EncodingInfo) (h : eqInfo mixInfo b = true) (hv : b.version = 5#8) (hc : b.encoding_config = []) : mixInfo = b :=
  C47_identical mixInfo b h hv.symm hc.symm (by decide)

end Cloudini.Props
