import Verif.Model.WordEnc
import Verif.Lemmas.Base
import Verif.Lemmas.StreamFull

/-!
# The encoder does not notice that its hash is cut to 32 bits, nor that `size_t` is
-/

namespace Cloudini.Word

/-- The two hashes choose the same slot in every table of at most 2^32 slots. -/
def Low (h₁ h₂ : BitVec 64 → BitVec 64) : Prop := ∀ v m, m < 2 ^ 32 → (h₁ v).toNat &&& m = (h₂ v).toNat &&& m

theorem low_hash : Low (hash (2 ^ 32)) hashPaletteValue := by
  intro v m hm
  unfold hash
  rw [BitVec.toNat_ofNat]
  have h1 : (hashPaletteValue v).toNat % 2 ^ 32 % 2 ^ 64 = (hashPaletteValue v).toNat % 2 ^ 32 := Nat.mod_eq_of_lt (by omega)
  rw [h1]
  have h2 := Nat.and_mod_two_pow (a := (hashPaletteValue v).toNat) (b := m) (n := 32)
  rw [Nat.mod_eq_of_lt hm] at h2
  rw [← h2]
  exact Nat.mod_eq_of_lt (Nat.lt_of_le_of_lt Nat.and_le_right hm)

/-- A field whose table has at most 2^32 slots and that holds at most `n` values. -/
def Tab (n : Nat) (f : AField) : Prop := f.slots.length ≤ 2 ^ 32 ∧ f.raws.length ≤ n

def Holds (n : Nat) (r : Res AField) : Prop := ∀ g, r = .ok g → Tab n g

theorem Tab.mono {n m : Nat} {f : AField} (h : Tab n f) (hm : n ≤ m) : Tab m f := ⟨h.1, Nat.le_trans h.2 hm⟩
theorem Holds.ok {n : Nat} {f : AField} (h : Tab n f) : Holds n (.ok f) := fun _ e => by cases e; exact h
theorem Holds.bind {α : Type} {n : Nat} {x : Res α} {k : α → Res AField} (h : ∀ a, x = .ok a → Holds n (k a)) : Holds n (x >>= k) := by
  intro g e
  obtain ⟨a, e1, e2⟩ := Res.bind_eq_ok.1 e
  exact h a e1 g e2

theorem bind_congr {α β : Type} {x : Res α} {f g : α → Res β} (h : ∀ a, x = .ok a → f a = g a) : (x >>= f) = (x >>= g) := by
  cases x with
  | ok a => exact h a rfl
  | throw e => rfl
  | ub u => rfl

/-! ### palettes -/

variable {h₁ h₂ : BitVec 64 → BitVec 64}

theorem addPaletteValue_low (hl : Low h₁ h₂) {f : AField} (hs : f.slots.length ≤ 2 ^ 32) (v : BitVec 64) : addPaletteValue h₁ f v = addPaletteValue h₂ f v := by
  unfold addPaletteValue
  rw [hl v (f.slots.length - 1) (by omega)]

theorem addPaletteValue_tab {h : BitVec 64 → BitVec 64} {n : Nat} {f g : AField} {v : BitVec 64} {i : Nat} (ht : Tab n f) (e : addPaletteValue h f v = .ok (g, i)) : Tab n g := by
  unfold addPaletteValue at e
  obtain ⟨r, e1, e2⟩ := Res.bind_eq_ok.1 e
  cases r with
  | inl s =>
    simp only [Res.ok.injEq, Prod.mk.injEq] at e2
    obtain ⟨rfl, rfl⟩ := e2
    exact ⟨by simpa using ht.1, ht.2⟩
  | inr s =>
    simp only [Res.ok.injEq, Prod.mk.injEq] at e2
    obtain ⟨rfl, rfl⟩ := e2
    exact ht

theorem addPaletteValues_low (hl : Low h₁ h₂) {n : Nat} (vs : List (BitVec 64)) :
    ∀ {f : AField}, Tab n f → addPaletteValues h₁ vs f = addPaletteValues h₂ vs f := by
  induction vs with
  | nil => intro f _; rfl
  | cons v vs ih =>
    intro f ht
    unfold addPaletteValues
    rw [addPaletteValue_low hl ht.1]
    apply bind_congr
    rintro ⟨g, i⟩ e
    have := addPaletteValue_tab ht e
    exact ih ⟨this.1, this.2⟩

theorem addPaletteValues_tab {h : BitVec 64 → BitVec 64} {n : Nat} (vs : List (BitVec 64)) : ∀ {f : AField}, Tab n f → Holds n (addPaletteValues h vs f) := by
  induction vs with
  | nil => intro f ht; exact Holds.ok ht
  | cons v vs ih =>
    intro f ht
    unfold addPaletteValues
    apply Holds.bind
    rintro ⟨g, i⟩ e
    have := addPaletteValue_tab ht e
    exact ih ⟨this.1, this.2⟩

theorem pow2Loop_le (value : Nat) : ∀ fuel out, nextPow2Loop value fuel out ≤ max out (2 * value) := by
  intro fuel
  induction fuel with
  | zero => intro out; exact Nat.le_max_left _ _
  | succ fuel ih =>
    intro out
    unfold nextPow2Loop
    split
    · have := ih (2 * out)
      omega
    · exact Nat.le_max_left _ _

theorem prepareTable_tab {n : Nat} (hn : n ≤ 2 ^ 29) {f : AField} (ht : Tab n f) : Tab n (preparePaletteTable f f.raws.length) := by
  have hp : nextPowerOfTwo (max 16 (f.raws.length * 2)) ≤ 2 ^ 32 := by
    unfold nextPowerOfTwo
    have h1 := pow2Loop_le (max 16 (f.raws.length * 2)) 64 1
    have h2 := ht.2
    omega
  unfold preparePaletteTable
  dsimp only
  split
  · exact ⟨by simpa using hp, ht.2⟩
  · split
    · exact ht
    · exact ht

theorem buildPalette_low (hl : Low h₁ h₂) {n : Nat} (hn : n ≤ 2 ^ 29) {f : AField} (ht : Tab n f) : buildPaletteIndexes h₁ f = buildPaletteIndexes h₂ f :=
  addPaletteValues_low hl _ (prepareTable_tab hn (f := { f with palette := [], indexes := [] }) ht)

theorem buildPalette_tab {h : BitVec 64 → BitVec 64} {n : Nat} (hn : n ≤ 2 ^ 29) {f : AField} (ht : Tab n f) : Holds n (buildPaletteIndexes h f) :=
  addPaletteValues_tab _ (prepareTable_tab hn (f := { f with palette := [], indexes := [] }) ht)

theorem commitMode_low (hl : Low h₁ h₂) {n : Nat} (hn : n ≤ 2 ^ 29) {f : AField} (ht : Tab n f) : commitMode h₁ f = commitMode h₂ f := by
  unfold commitMode
  rw [buildPalette_low hl hn ht]

theorem commitMode_tab {h : BitVec 64 → BitVec 64} {n : Nat} (hn : n ≤ 2 ^ 29) {f : AField} (ht : Tab n f) : Holds n (commitMode h f) := by
  unfold commitMode
  split
  · exact Holds.ok ht
  · apply Holds.bind
    intro d _
    apply Holds.bind
    intro g eg
    have := buildPalette_tab hn ht g eg
    apply Holds.bind
    intro r _
    apply Holds.bind
    intro dr _
    exact Holds.ok this

/-! ### sections -/

theorem beginSection_tab {n : Nat} {f : AField} (ht : Tab n f) : Tab n (beginSection f) := by
  unfold beginSection
  dsimp only
  split <;> exact ht

theorem flushDelta_tab {n : Nat} {f : AField} (ht : Tab n f) : Tab n (flushDeltaRleRun f) := by
  unfold flushDeltaRleRun
  split <;> exact ht

theorem flushRle_tab {n : Nat} {f : AField} (ht : Tab n f) : Tab n (flushRleRun f) := by
  unfold flushRleRun
  split <;> exact ht

theorem deltaValue_tab {n : Nat} {f : AField} (ht : Tab n f) (v : BitVec 64) : Holds n (appendDeltaValue f v) := by
  unfold appendDeltaValue
  apply Holds.bind
  intro d _
  exact Holds.ok ht

theorem deltaRleValue_tab {n : Nat} {f : AField} (ht : Tab n f) (v : BitVec 64) : Holds n (appendDeltaRleValue f v) := by
  unfold appendDeltaRleValue
  apply Holds.bind
  intro d _
  dsimp only
  split
  · exact Holds.ok ht
  · split
    · exact Holds.ok ht
    · exact Holds.ok (flushDelta_tab (f := { f with prev := v }) ht)

theorem rleValue_tab {n : Nat} {f : AField} (ht : Tab n f) (v : BitVec 64) : Tab n (appendRleValue f v) := by
  unfold appendRleValue
  split
  · exact ht
  · split
    · exact ht
    · exact flushRle_tab ht

theorem committedAt_tab {n : Nat} {f : AField} (ht : Tab n f) (v : BitVec 64) : Holds n (appendCommittedAt f v) := by
  unfold appendCommittedAt
  split
  · exact deltaValue_tab ht v
  · exact deltaRleValue_tab ht v
  · exact Holds.ok (rleValue_tab ht v)
  · exact Holds.ok ht

theorem probeList_tab {n : Nat} (vs : List (BitVec 64)) : ∀ {f : AField}, Tab n f → Holds n (appendProbeList vs f) := by
  induction vs with
  | nil => intro f ht; exact Holds.ok ht
  | cons v vs ih =>
    intro f ht
    unfold appendProbeList
    apply Holds.bind
    intro g e
    exact ih (committedAt_tab ht v g e)

theorem probeValues_tab {n : Nat} {f : AField} (ht : Tab n f) : Holds n (appendProbeValues f) := by
  unfold appendProbeValues
  split
  · exact Holds.ok ht
  · exact probeList_tab _ ht

theorem patch_tab {n : Nat} {f : AField} (ht : Tab n f) : Holds n f.patch := by
  unfold AField.patch
  apply Holds.bind
  intro s _
  exact Holds.ok ht

theorem finishSection_tab {n : Nat} {f : AField} (ht : Tab n f) : Holds n (finishSection f) := by
  unfold finishSection
  split
  · exact Holds.ok ht
  · exact patch_tab (flushDelta_tab ht)
  · exact patch_tab (flushRle_tab ht)
  · exact Holds.ok ht

theorem commitProbed_low (hl : Low h₁ h₂) {n : Nat} (hn : n ≤ 2 ^ 29) {f : AField} (ht : Tab n f) : commitProbed h₁ f = commitProbed h₂ f := by
  unfold commitProbed
  rw [commitMode_low hl hn ht]

theorem commitProbed_tab {h : BitVec 64 → BitVec 64} {n : Nat} (hn : n ≤ 2 ^ 29) {f : AField} (ht : Tab n f) : Holds n (commitProbed h f) := by
  unfold commitProbed
  apply Holds.bind
  intro g e
  exact probeValues_tab (beginSection_tab (commitMode_tab hn ht g e))

theorem appendSection_low (hl : Low h₁ h₂) {n : Nat} (hn : n ≤ 2 ^ 29) {f : AField} (ht : Tab n f) (w : W) : appendSection h₁ f w = appendSection h₂ f w := by
  unfold appendSection
  split
  · rfl
  · rw [commitMode_low hl hn ht]
    apply bind_congr
    intro g e
    have hg := commitMode_tab hn ht g e
    unfold rebuildPalette
    split
    · rw [buildPalette_low hl hn hg]
    · rfl

theorem appendSection_tab {h : BitVec 64 → BitVec 64} {n : Nat} (hn : n ≤ 2 ^ 29) {f g : AField} (ht : Tab n f) {w w' : W} (e : appendSection h f w = .ok (g, w')) : Tab n g := by
  unfold appendSection at e
  split at e
  · obtain ⟨a, e1, e2⟩ := Res.bind_eq_ok.1 e
    obtain ⟨b, -, e3⟩ := Res.bind_eq_ok.1 e2
    simp only [Res.ok.injEq, Prod.mk.injEq] at e3
    obtain ⟨rfl, rfl⟩ := e3
    exact finishSection_tab ht _ e1
  · obtain ⟨a, e1, e2⟩ := Res.bind_eq_ok.1 e
    obtain ⟨b, e3, e4⟩ := Res.bind_eq_ok.1 e2
    obtain ⟨c, -, e5⟩ := Res.bind_eq_ok.1 e4
    simp only [Res.ok.injEq, Prod.mk.injEq] at e5
    obtain ⟨rfl, rfl⟩ := e5
    have ha := commitMode_tab hn ht _ e1
    unfold rebuildPalette at e3
    split at e3
    · exact buildPalette_tab hn ha _ e3
    · cases e3; exact ha

/-! ### points and chunks -/

theorem collect_tab {n : Nat} {f : AField} (ht : Tab n f) (mem : List Byte) : Holds (n + 1) (collectValue f mem) := by
  have hs := ht.mono (Nat.le_succ n)
  unfold collectValue
  split
  · apply Holds.bind
    intro v _
    apply Holds.bind
    intro r _
    exact Holds.ok ⟨ht.1, by simpa using ht.2⟩
  · unfold appendCommittedFromMem
    split
    · apply Holds.bind
      intro v _
      exact deltaValue_tab hs v
    · apply Holds.bind
      intro v _
      exact deltaRleValue_tab hs v
    · apply Holds.bind
      intro v _
      exact Holds.ok (rleValue_tab hs v)
    · apply Holds.bind
      intro v _
      exact Holds.ok ⟨ht.1, by simpa using ht.2⟩

theorem mapFields_tab {n m : Nat} {g : AField → Res AField} (hg : ∀ f, Tab n f → Holds m (g f)) :
    ∀ {as bs : List AField}, (∀ f ∈ as, Tab n f) → mapFields g as = .ok bs → ∀ f ∈ bs, Tab m f := by
  intro as
  induction as with
  | nil => intro bs _ e; cases e; simp
  | cons a as ih =>
    intro bs h e
    unfold mapFields at e
    obtain ⟨a', e1, e2⟩ := Res.bind_eq_ok.1 e
    obtain ⟨as', e3, e4⟩ := Res.bind_eq_ok.1 e2
    cases e4
    intro f hf
    rcases List.mem_cons.1 hf with rfl | hf
    · exact hg a (h a (List.mem_cons_self ..)) _ e1
    · exact ih (fun f hf => h f (List.mem_cons_of_mem _ hf)) e3 f hf

theorem mapFields_low {n : Nat} {g₁ g₂ : AField → Res AField} (hg : ∀ f, Tab n f → g₁ f = g₂ f) :
    ∀ {as : List AField}, (∀ f ∈ as, Tab n f) → mapFields g₁ as = mapFields g₂ as := by
  intro as
  induction as with
  | nil => intro _; rfl
  | cons a as ih =>
    intro h
    unfold mapFields
    rw [hg a (h a (List.mem_cons_self ..)), ih (fun f hf => h f (List.mem_cons_of_mem _ hf))]

theorem range_tab {F : FloatOps} {step : Nat} : ∀ {k n : Nat} {es es' : List Enc} {as as' : List AField} {mem mem' : List Byte} {w w' : W}, (∀ f ∈ as, Tab n f) →
    encodeRangeV5 F step k es as mem w = .ok (es', as', mem', w') → ∀ f ∈ as', Tab (n + k) f := by
  intro k
  induction k with
  | zero => intro n es es' as as' mem mem' w w' h e; cases e; exact h
  | succ k ih =>
    intro n es es' as as' mem mem' w w' h e
    unfold encodeRangeV5 at e
    obtain ⟨x, e1, e2⟩ := Res.bind_eq_ok.1 e
    obtain ⟨y, e3, e4⟩ := Res.bind_eq_ok.1 e2
    intro f hf
    exact (ih (mapFields_tab (fun f hf => collect_tab hf mem) h e3) e4 f hf).mono (by omega)

theorem prepare_tab {n : Nat} {f : AField} (ht : Tab n f) : Tab 0 (prepareField f) := by
  unfold prepareField
  dsimp only
  split
  · exact beginSection_tab ⟨ht.1, Nat.le_refl 0⟩
  · exact ⟨ht.1, Nat.le_refl 0⟩

theorem points_low (hl : Low h₁ h₂) {F : FloatOps} {step n : Nat} (hn : n ≤ 2 ^ 29) {es : List Enc} {as : List AField} {mem : List Byte} {w : W} (h : ∀ f ∈ as, Tab 0 f) :
    encodePointsV5 F h₁ step es as mem n w = encodePointsV5 F h₂ step es as mem n w := by
  unfold encodePointsV5
  split
  · next hk =>
    apply bind_congr
    rintro ⟨es', as', mem', w'⟩ e
    have ht := range_tab h e
    dsimp only
    rw [mapFields_low (g₁ := commitProbed h₁) (g₂ := commitProbed h₂) (fun f hf => commitProbed_low hl (n := 0 + kProbePoints) (by omega) hf) ht]
  · rfl

theorem points_tab {h : BitVec 64 → BitVec 64} {F : FloatOps} {step n : Nat} (hn : n ≤ 2 ^ 29) {es es' : List Enc} {as as' : List AField} {mem mem' : List Byte} {w w' : W}
    (ht : ∀ f ∈ as, Tab 0 f) (e : encodePointsV5 F h step es as mem n w = .ok (es', as', mem', w')) : ∀ f ∈ as', Tab n f := by
  unfold encodePointsV5 at e
  split at e
  · next hk =>
    obtain ⟨⟨es1, as1, mem1, w1⟩, e1, e2⟩ := Res.bind_eq_ok.1 e
    obtain ⟨as2, e3, e4⟩ := Res.bind_eq_ok.1 e2
    have h1 := range_tab ht e1
    have h2 := mapFields_tab (fun f hf => commitProbed_tab (n := 0 + kProbePoints) (by omega) hf) h1 e3
    intro f hf
    exact (range_tab h2 e4 f hf).mono (by omega)
  · intro f hf
    exact (range_tab ht e f hf).mono (by omega)

theorem sections_low (hl : Low h₁ h₂) {n : Nat} (hn : n ≤ 2 ^ 29) : ∀ {as : List AField} {w : W}, (∀ f ∈ as, Tab n f) → appendSections h₁ as w = appendSections h₂ as w := by
  intro as
  induction as with
  | nil => intro w _; rfl
  | cons a as ih =>
    intro w h
    unfold appendSections
    rw [appendSection_low hl hn (h a (List.mem_cons_self ..))]
    apply bind_congr
    rintro ⟨b, w'⟩ _
    dsimp only
    rw [ih (fun f hf => h f (List.mem_cons_of_mem _ hf))]

theorem sections_tab {h : BitVec 64 → BitVec 64} {n : Nat} (hn : n ≤ 2 ^ 29) : ∀ {as bs : List AField} {w w' : W}, (∀ f ∈ as, Tab n f) → appendSections h as w = .ok (bs, w') →
    ∀ f ∈ bs, Tab n f := by
  intro as
  induction as with
  | nil => intro bs w w' _ e; cases e; simp
  | cons a as ih =>
    intro bs w w' ht e
    unfold appendSections at e
    obtain ⟨⟨b, w1⟩, e1, e2⟩ := Res.bind_eq_ok.1 e
    obtain ⟨⟨cs, w2⟩, e3, e4⟩ := Res.bind_eq_ok.1 e2
    cases e4
    intro f hf
    rcases List.mem_cons.1 hf with rfl | hf
    · exact appendSection_tab hn (ht a (List.mem_cons_self ..)) e1
    · exact ih (fun f hf => ht f (List.mem_cons_of_mem _ hf)) e3 f hf

theorem chunk_low (hl : Low h₁ h₂) {F : FloatOps} {step n cap : Nat} (hn : n ≤ 2 ^ 29) {es : List Enc} {as : List AField} {mem : List Byte} (h : ∀ f ∈ as, f.slots.length ≤ 2 ^ 32) :
    encodeV5Chunk F h₁ step es as mem n cap = encodeV5Chunk F h₂ step es as mem n cap := by
  have hp : ∀ f ∈ as.map prepareField, Tab 0 f := by
    intro f hf
    obtain ⟨g, hg, rfl⟩ := List.mem_map.1 hf
    exact prepare_tab ⟨h g hg, Nat.le_refl _⟩
  unfold encodeV5Chunk
  rw [points_low hl hn hp]
  apply bind_congr
  rintro ⟨es', as', mem', w'⟩ e
  dsimp only
  rw [sections_low hl hn (points_tab hn hp e)]

theorem chunk_tab {hs : BitVec 64 → BitVec 64} {F : FloatOps} {step n cap : Nat} (hn : n ≤ 2 ^ 29) {es es' : List Enc} {as as' : List AField} {mem mem' out : List Byte}
    (h : ∀ f ∈ as, f.slots.length ≤ 2 ^ 32) (e : encodeV5Chunk F hs step es as mem n cap = .ok (es', as', mem', out)) : ∀ f ∈ as', f.slots.length ≤ 2 ^ 32 := by
  have hp : ∀ f ∈ as.map prepareField, Tab 0 f := by
    intro f hf
    obtain ⟨g, hg, rfl⟩ := List.mem_map.1 hf
    exact prepare_tab ⟨h g hg, Nat.le_refl _⟩
  unfold encodeV5Chunk at e
  obtain ⟨⟨es1, as1, mem1, w1⟩, e1, e2⟩ := Res.bind_eq_ok.1 e
  obtain ⟨⟨as2, w2⟩, e3, e4⟩ := Res.bind_eq_ok.1 e2
  cases e4
  exact fun f hf => (sections_tab hn (points_tab hn hp e1) e3 f hf).1

theorem v5Loop_low (hl : Low h₁ h₂) {F : FloatOps} {C : Compressor} {info : EncodingInfo} {cap : Nat} :
    ∀ (points : Nat) {es : List Enc} {as : List AField} {mem : List Byte} {w : W} {size : Nat}, (∀ f ∈ as, f.slots.length ≤ 2 ^ 32) →
      encodeV5Loop F C h₁ info cap points es as mem w size = encodeV5Loop F C h₂ info cap points es as mem w size := by
  intro points
  induction points using Nat.strongRecOn with
  | _ points ih =>
    intro es as mem w size h
    have hn : min points kPointsPerChunk ≤ 2 ^ 29 := Nat.le_trans (Nat.min_le_right _ _) (by decide)
    unfold encodeV5Loop
    by_cases hp : points = 0
    · rw [dif_pos hp, dif_pos hp]
    rw [dif_neg hp, dif_neg hp, chunk_low hl hn h]
    apply bind_congr
    rintro ⟨es', as', mem', out⟩ e
    dsimp only
    apply bind_congr
    rintro ⟨w', k⟩ _
    exact ih _ (by simp only [kPointsPerChunk]; omega) (chunk_tab hn h e)

theorem plan_small {F : FloatOps} {info : EncodingInfo} {es : List Enc} {as : List AField} (e : buildV5Plan F info = .ok (es, as)) : ∀ f ∈ as, f.slots.length ≤ 2 ^ 32 := by
  unfold buildV5Plan at e
  obtain ⟨l, -, e2⟩ := Res.bind_eq_ok.1 e
  obtain ⟨r, -, e4⟩ := Res.bind_eq_ok.1 e2
  cases e4
  intro f hf
  obtain ⟨p, -, rfl⟩ := List.mem_map.1 hf
  simp [mkAField]

/-! ### sizes -/

theorem chunkBound_same {M : Nat} {C : Compressor} {info : EncodingInfo} {m n : Nat} (h : n * m + (if usesV5 info then info.fields.length * 32 + 1024 else 0) < M) :
    chunkBound M C info m n = Cloudini.chunkBound C info m n := by
  unfold chunkBound Cloudini.chunkBound
  rw [Nat.mod_eq_of_lt h]
  cases info.compression_opt <;> rfl

theorem bind_throw_or {α β : Type} {x : Res α} {f : α → Res β} {b : β} (h : (x >>= f) = .ok b) : ∃ a, x = .ok a ∧ f a = .ok b := Res.bind_eq_ok.1 h

/-- Below `M` the sum is the sum; where it throws, it throws. -/
theorem chunks_same {M : Nat} {C : Compressor} {info : EncodingInfo} {m : Nat} (hc : kPointsPerChunk * m + (if usesV5 info then info.fields.length * 32 + 1024 else 0) < M) :
    ∀ (points : Nat), (∀ t, Cloudini.maxCompressedChunks C info m points = .ok t → t < M) →
      maxCompressedChunks M C info m points = Cloudini.maxCompressedChunks C info m points := by
  intro points
  induction points using Nat.strongRecOn with
  | _ points ih =>
    intro h
    unfold maxCompressedChunks
    unfold Cloudini.maxCompressedChunks at h ⊢
    by_cases hp : points = 0
    · rw [dif_pos hp, dif_pos hp]
    rw [dif_neg hp] at h ⊢
    rw [dif_neg hp]
    have hle : min points kPointsPerChunk * m ≤ kPointsPerChunk * m := Nat.mul_le_mul_right m (Nat.min_le_right _ _)
    rw [chunkBound_same (by omega)]
    cases eb : Cloudini.chunkBound C info m (min points kPointsPerChunk) with
    | throw e => rfl
    | ub u => rfl
    | ok b =>
      rw [eb] at h
      simp only [Res.ok_bind] at h ⊢
      have hr := ih (points - min points kPointsPerChunk) (by simp only [kPointsPerChunk]; omega) (by
        intro t et
        rw [et] at h
        have := h (4 + b + t) rfl
        omega)
      rw [hr]
      cases er : Cloudini.maxCompressedChunks C info m (points - min points kPointsPerChunk) with
      | throw e => rfl
      | ub u => rfl
      | ok t =>
        rw [er] at h
        have := h (4 + b + t) rfl
        simp only [Res.ok_bind]
        rw [Nat.mod_eq_of_lt this]

end Cloudini.Word
