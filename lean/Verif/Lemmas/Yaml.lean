import Verif.Model.Header

/-! # The YAML reader: termination, and reading what the writer produces -/

namespace Cloudini

theorem skipEmpty_length (ls : List (List Byte)) : (skipEmpty ls).length ≤ ls.length := by
  induction ls with
  | nil => simp [skipEmpty]
  | cons l ls ih =>
    unfold skipEmpty
    split
    · simp only [List.length_cons]; omega
    · simp

/-- With enough fuel every function returns, and consumes lines from the front. -/
theorem parse_total (fuel : Nat) :
    (∀ lines b, 2 * lines.length + 2 ≤ fuel → ∃ r, parseNode fuel lines b = .ok r ∧ r.2.length ≤ lines.length) ∧
    (∀ lines b, 2 * lines.length + 1 ≤ fuel → ∃ r, parseSequence fuel lines b = .ok r ∧ r.2.length ≤ lines.length) ∧
    (∀ lines b, 2 * lines.length + 1 ≤ fuel → ∃ r, parseItem fuel lines b = .ok r ∧ r.2.length ≤ lines.length) ∧
    (∀ lines b, 2 * lines.length + 1 ≤ fuel → ∃ r, parseMapping fuel lines b = .ok r ∧ r.2.length ≤ lines.length) := by
  induction fuel with
  | zero => refine ⟨?_, ?_, ?_, ?_⟩ <;> intro lines b h <;> omega
  | succ fuel ih =>
    obtain ⟨hn, hs, hi, hm⟩ := ih
    refine ⟨?_, ?_, ?_, ?_⟩
    · intro lines b h
      have hl := skipEmpty_length lines
      unfold parseNode
      cases hsk : skipEmpty lines with
      | nil => exact ⟨_, rfl, by simp⟩
      | cons line rest =>
        rw [hsk] at hl
        simp only
        split
        · exact ⟨_, rfl, hl⟩
        split
        · obtain ⟨r, h1, h2⟩ := hs (line :: rest) b (by omega)
          rw [h1]; exact ⟨_, rfl, by simp only; omega⟩
        split
        · obtain ⟨r, h1, h2⟩ := hm (line :: rest) b (by omega)
          rw [h1]; exact ⟨_, rfl, by simp only; omega⟩
        · exact ⟨_, rfl, hl⟩
    · intro lines b h
      have hl := skipEmpty_length lines
      unfold parseSequence
      cases hsk : skipEmpty lines with
      | nil => exact ⟨_, rfl, by simp⟩
      | cons line rest =>
        rw [hsk] at hl
        simp only [List.length_cons] at hl
        simp only
        split
        · exact ⟨_, rfl, hl⟩
        split
        · exact ⟨_, rfl, hl⟩
        split
        · obtain ⟨r, h1, h2⟩ := hn rest (indentation line + 2) (by omega)
          obtain ⟨r', h3, h4⟩ := hs r.2 b (by omega)
          rw [h1]; simp only [Res.ok_bind]; rw [h3]; exact ⟨_, rfl, by simp only; omega⟩
        split
        · obtain ⟨r, h1, h2⟩ := hi rest (indentation line) (by omega)
          obtain ⟨r', h3, h4⟩ := hs r.2 b (by omega)
          rw [h1]; simp only [Res.ok_bind]; rw [h3]; exact ⟨_, rfl, by simp only; omega⟩
        · obtain ⟨r', h3, h4⟩ := hs rest b (by omega)
          rw [h3]; exact ⟨_, rfl, by simp only; omega⟩
    · intro lines b h
      have hl := skipEmpty_length lines
      unfold parseItem
      cases hsk : skipEmpty lines with
      | nil => exact ⟨_, rfl, by simp⟩
      | cons line rest =>
        rw [hsk] at hl
        simp only [List.length_cons] at hl
        simp only
        split
        · exact ⟨_, rfl, hl⟩
        split
        · exact ⟨_, rfl, hl⟩
        split
        · obtain ⟨r', h3, h4⟩ := hi rest b (by omega)
          rw [h3]; exact ⟨_, rfl, by simp only; omega⟩
        · obtain ⟨r, h1, h2⟩ := hn rest (indentation line + 2) (by omega)
          obtain ⟨r', h3, h4⟩ := hi r.2 b (by omega)
          rw [h1]; simp only [Res.ok_bind]; rw [h3]; exact ⟨_, rfl, by simp only; omega⟩
    · intro lines b h
      have hl := skipEmpty_length lines
      unfold parseMapping
      cases hsk : skipEmpty lines with
      | nil => exact ⟨_, rfl, by simp⟩
      | cons line rest =>
        rw [hsk] at hl
        simp only [List.length_cons] at hl
        simp only
        split
        · exact ⟨_, rfl, hl⟩
        split
        · exact ⟨_, rfl, hl⟩
        split
        · exact ⟨_, rfl, hl⟩
        split
        · obtain ⟨r, h1, h2⟩ := hn rest (indentation line + 2) (by omega)
          obtain ⟨r', h3, h4⟩ := hm r.2 b (by omega)
          rw [h1]; simp only [Res.ok_bind]; rw [h3]; exact ⟨_, rfl, by simp only; omega⟩
        · obtain ⟨r', h3, h4⟩ := hm rest b (by omega)
          rw [h3]; exact ⟨_, rfl, by simp only; omega⟩

/-- More fuel does not change a result. -/
theorem parse_mono (fuel : Nat) :
    (∀ lines b r, parseNode fuel lines b = .ok r → parseNode (fuel + 1) lines b = .ok r) ∧
    (∀ lines b r, parseSequence fuel lines b = .ok r → parseSequence (fuel + 1) lines b = .ok r) ∧
    (∀ lines b r, parseItem fuel lines b = .ok r → parseItem (fuel + 1) lines b = .ok r) ∧
    (∀ lines b r, parseMapping fuel lines b = .ok r → parseMapping (fuel + 1) lines b = .ok r) := by
  induction fuel with
  | zero => refine ⟨?_, ?_, ?_, ?_⟩ <;> intro lines b r h <;> simp [parseNode, parseSequence, parseItem, parseMapping] at h
  | succ fuel ih =>
    obtain ⟨hn, hs, hi, hm⟩ := ih
    refine ⟨?_, ?_, ?_, ?_⟩
    · intro lines b r h
      unfold parseNode at h ⊢
      cases hsk : skipEmpty lines with
      | nil => simpa [hsk] using h
      | cons line rest =>
        simp only [hsk] at h ⊢
        split
        · rename_i c; rwa [if_pos c] at h
        · rename_i c; rw [if_neg c] at h
          split
          · rename_i c2; rw [if_pos c2] at h
            rw [Res.bind_eq_ok] at h; obtain ⟨x, h1, h2⟩ := h
            rw [hs _ _ _ h1]; exact h2
          · rename_i c2; rw [if_neg c2] at h
            cases hc : splitColon (trim line) with
            | none => simpa [hc] using h
            | some kv =>
              simp only [hc] at h ⊢
              rw [Res.bind_eq_ok] at h; obtain ⟨x, h1, h2⟩ := h
              rw [hm _ _ _ h1]; exact h2
    · intro lines b r h
      unfold parseSequence at h ⊢
      cases hsk : skipEmpty lines with
      | nil => simpa [hsk] using h
      | cons line rest =>
        simp only [hsk] at h ⊢
        split
        · rename_i c; rwa [if_pos c] at h
        · rename_i c; rw [if_neg c] at h
          split
          · rename_i c2; rwa [if_pos c2] at h
          · rename_i c2; rw [if_neg c2] at h
            split
            · rename_i c3; rw [if_pos c3] at h
              rw [Res.bind_eq_ok] at h; obtain ⟨x, h1, h2⟩ := h
              rw [Res.bind_eq_ok] at h2; obtain ⟨y, h3, h4⟩ := h2
              rw [hn _ _ _ h1, Res.ok_bind, hs _ _ _ h3]; exact h4
            · rename_i c3; rw [if_neg c3] at h
              cases hc : splitColon ((trim line).drop 2) with
              | none =>
                simp only [hc] at h ⊢
                rw [Res.bind_eq_ok] at h; obtain ⟨x, h1, h2⟩ := h
                rw [hs _ _ _ h1]; exact h2
              | some kv =>
                simp only [hc] at h ⊢
                rw [Res.bind_eq_ok] at h; obtain ⟨x, h1, h2⟩ := h
                rw [Res.bind_eq_ok] at h2; obtain ⟨y, h3, h4⟩ := h2
                rw [hi _ _ _ h1, Res.ok_bind, hs _ _ _ h3]; exact h4
    · intro lines b r h
      unfold parseItem at h ⊢
      cases hsk : skipEmpty lines with
      | nil => simpa [hsk] using h
      | cons line rest =>
        simp only [hsk] at h ⊢
        split
        · rename_i c; rwa [if_pos c] at h
        · rename_i c; rw [if_neg c] at h
          cases hc : splitColon (trim line) with
          | none => simpa [hc] using h
          | some kv =>
            simp only [hc] at h ⊢
            split
            · rename_i c3; rw [if_pos c3] at h
              rw [Res.bind_eq_ok] at h; obtain ⟨x, h1, h2⟩ := h
              rw [hi _ _ _ h1]; exact h2
            · rename_i c3; rw [if_neg c3] at h
              rw [Res.bind_eq_ok] at h; obtain ⟨x, h1, h2⟩ := h
              rw [Res.bind_eq_ok] at h2; obtain ⟨y, h3, h4⟩ := h2
              rw [hn _ _ _ h1, Res.ok_bind, hi _ _ _ h3]; exact h4
    · intro lines b r h
      unfold parseMapping at h ⊢
      cases hsk : skipEmpty lines with
      | nil => simpa [hsk] using h
      | cons line rest =>
        simp only [hsk] at h ⊢
        split
        · rename_i c; rwa [if_pos c] at h
        · rename_i c; rw [if_neg c] at h
          split
          · rename_i c2; rwa [if_pos c2] at h
          · rename_i c2; rw [if_neg c2] at h
            cases hc : splitColon (trim line) with
            | none => simpa [hc] using h
            | some kv =>
              simp only [hc] at h ⊢
              split
              · rename_i c3; rw [if_pos c3] at h
                rw [Res.bind_eq_ok] at h; obtain ⟨x, h1, h2⟩ := h
                rw [Res.bind_eq_ok] at h2; obtain ⟨y, h3, h4⟩ := h2
                rw [hn _ _ _ h1, Res.ok_bind, hm _ _ _ h3]; exact h4
              · rename_i c3; rw [if_neg c3] at h
                rw [Res.bind_eq_ok] at h; obtain ⟨x, h1, h2⟩ := h
                rw [hm _ _ _ h1]; exact h2

theorem parse_le {f g : Nat} (hfg : f ≤ g) :
    (∀ lines b r, parseNode f lines b = .ok r → parseNode g lines b = .ok r) ∧
    (∀ lines b r, parseSequence f lines b = .ok r → parseSequence g lines b = .ok r) ∧
    (∀ lines b r, parseItem f lines b = .ok r → parseItem g lines b = .ok r) ∧
    (∀ lines b r, parseMapping f lines b = .ok r → parseMapping g lines b = .ok r) := by
  induction g with
  | zero =>
    obtain rfl : f = 0 := by omega
    exact ⟨fun _ _ _ h => h, fun _ _ _ h => h, fun _ _ _ h => h, fun _ _ _ h => h⟩
  | succ g ih =>
    by_cases h : f = g + 1
    · subst h; exact ⟨fun _ _ _ h => h, fun _ _ _ h => h, fun _ _ _ h => h, fun _ _ _ h => h⟩
    · obtain ⟨a, b, c, d⟩ := ih (by omega)
      obtain ⟨a', b', c', d'⟩ := parse_mono g
      exact ⟨fun _ _ _ h => a' _ _ _ (a _ _ _ h), fun _ _ _ h => b' _ _ _ (b _ _ _ h), fun _ _ _ h => c' _ _ _ (c _ _ _ h), fun _ _ _ h => d' _ _ _ (d _ _ _ h)⟩

theorem yamlParse_total (text : List Byte) : ∃ n, ∀ fuel, 2 * (splitLines text).length + 2 ≤ fuel → yamlParseFuel fuel text = .ok n := by
  unfold yamlParseFuel
  cases hs : splitLines text with
  | nil => exact ⟨.null, fun _ _ => rfl⟩
  | cons l ls =>
    obtain ⟨r, h, _⟩ := (parse_total (2 * (l :: ls).length + 2)).1 (l :: ls) 0 (Nat.le_refl _)
    refine ⟨r.1, fun fuel hf => ?_⟩
    simp only
    rw [(parse_le hf).1 _ _ _ h]
    rfl

/-- If any amount of fuel gives a result, it is the result of `yamlParse`. -/
theorem yamlParse_of {text : List Byte} {fuel : Nat} {n : YNode} (h : yamlParseFuel fuel text = .ok n) : yamlParse text = .ok n := by
  obtain ⟨m, hm⟩ := yamlParse_total text
  unfold yamlParse
  rw [hm _ (Nat.le_refl _)]
  have h' : yamlParseFuel (max fuel (2 * (splitLines text).length + 2)) text = .ok n := by
    unfold yamlParseFuel at h ⊢
    cases hs : splitLines text with
    | nil => simpa [hs] using h
    | cons l ls =>
      simp only [hs] at h ⊢
      rw [Res.bind_eq_ok] at h; obtain ⟨x, h1, h2⟩ := h
      rw [(parse_le (Nat.le_max_left _ _)).1 _ _ _ h1]
      exact h2
  rw [hm _ (Nat.le_max_right _ _)] at h'
  exact h'

end Cloudini
