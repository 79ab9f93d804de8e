import Verif.Model.PcdTool
import Verif.Lemmas.Base

/-! # Paths of `pcd_to_cloudini_converter` -/

namespace Cloudini.PcdTool

theorem takeWhile_split (p : Byte → Bool) (l : List Byte) : l = (l.reverse.dropWhile p).reverse ++ (l.reverse.takeWhile p).reverse := by
  rw [← List.reverse_append, List.takeWhile_append_dropWhile, List.reverse_reverse]

theorem take_front {l a b : List Byte} (h : l = a ++ b) : l.take (l.length - b.length) = a := by
  subst h
  rw [List.length_append, Nat.add_sub_cancel, List.take_left]

theorem dirOf_eq (p : Path) : dirOf p = (p.reverse.dropWhile (· != 0x2F#8)).reverse := take_front (takeWhile_split (· != 0x2F#8) p)

theorem path_split (p : Path) : p = dirOf p ++ filename p := by
  rw [dirOf_eq]
  exact takeWhile_split _ p

theorem extOf_suffix (f : List Byte) : extOf f <:+ f := by
  unfold extOf
  split
  · exact List.nil_suffix
  split
  · exact List.drop_suffix _ _
  · exact List.nil_suffix

theorem stem_ext (p : Path) : filename p = stem p ++ extension p := by
  obtain ⟨t, ht⟩ := extOf_suffix (filename p)
  unfold stem
  have : (filename p).length - (extension p).length = t.length := by
    have := congrArg List.length ht
    rw [List.length_append] at this
    unfold extension
    omega
  rw [this]
  conv => rhs; arg 1; rw [← ht]
  rw [List.take_left]
  exact ht.symm

theorem extension_suffix (p : Path) : extension p <:+ p := by
  obtain ⟨t, ht⟩ := extOf_suffix (filename p)
  refine ⟨dirOf p ++ t, ?_⟩
  rw [List.append_assoc]
  show dirOf p ++ (t ++ extOf (filename p)) = p
  rw [ht, ← path_split]

/-- A path with an extension, in one piece. -/
theorem path_ext (p : Path) : p = dirOf p ++ stem p ++ extension p := by
  rw [List.append_assoc, ← stem_ext, ← path_split]

theorem stem_ne_nil {p : Path} (h : extension p ≠ []) : stem p ≠ [] := by
  intro hs
  have hf := stem_ext p
  rw [hs, List.nil_append] at hf
  unfold extension extOf at h hf
  split at h
  · exact h rfl
  rename_i h1
  rw [if_neg h1] at hf
  split at h
  · rename_i h2
    rw [if_pos h2] at hf
    have := congrArg List.length hf
    rw [List.length_drop] at this
    omega
  · exact h rfl

theorem takeWhile_all {p : Byte → Bool} {l : List Byte} (h : ∀ x ∈ l, p x = true) (r : List Byte) (hr : ∀ x, r.head? = some x → p x = false) :
    (l ++ r).takeWhile p = l := by
  induction l with
  | nil =>
    cases r with
    | nil => rfl
    | cons x xs => rw [List.nil_append, List.takeWhile_cons, hr x rfl]; rfl
  | cons x xs ih =>
    rw [List.cons_append, List.takeWhile_cons, h x (by simp), if_pos rfl, ih (fun y hy => h y (by simp [hy]))]

theorem filename_noslash (p : Path) : ∀ c ∈ filename p, (c != 0x2F#8) = true := by
  intro c hc
  unfold filename at hc
  rw [List.mem_reverse] at hc
  have := List.all_takeWhile (p := (· != 0x2F#8)) (l := p.reverse)
  rw [List.all_eq_true] at this
  exact this c hc

theorem head_dropWhile (p : Byte → Bool) (l : List Byte) : ∀ x, (l.dropWhile p).head? = some x → p x = false := by
  induction l with
  | nil => intro x h; simp at h
  | cons y ys ih =>
    intro x h
    rw [List.dropWhile_cons] at h
    split at h
    · exact ih x h
    · rename_i hy
      simp at h
      subst h
      simpa using hy

/-- Putting another file name behind the directory of a path. -/
theorem filename_dir (p : Path) (f : List Byte) (hf : ∀ c ∈ f, (c != 0x2F#8) = true) : filename (dirOf p ++ f) = f := by
  unfold filename
  rw [dirOf_eq, List.reverse_append, List.reverse_reverse, takeWhile_all (fun c hc => hf c (List.mem_reverse.1 hc)) _ (head_dropWhile _ _), List.reverse_reverse]

theorem extOf_cldn {s : List Byte} (h : s ≠ []) : extOf (s ++ ascii ".cldn") = ascii ".cldn" := by
  have hl : 0 < s.length := List.length_pos_of_ne_nil h
  have h5 : (ascii ".cldn").length = 5 := by decide
  have hrev : (s ++ ascii ".cldn").reverse = (ascii "ndlc") ++ (0x2E#8 :: s.reverse) := by
    rw [List.reverse_append, show (ascii ".cldn").reverse = ascii "ndlc" ++ [0x2E#8] by decide, List.append_assoc]
    rfl
  have ht : (s ++ ascii ".cldn").reverse.takeWhile (· != 0x2E#8) = ascii "ndlc" := by
    rw [hrev]
    exact takeWhile_all (by decide) _ (by intro x hx; simp at hx; subst hx; rfl)
  have h4 : (ascii "ndlc").length = 4 := by decide
  unfold extOf
  rw [if_neg, if_pos, ht, h4]
  · rw [List.length_append, h5, show s.length + 5 - (4 + 1) = s.length by omega, List.drop_left]
  · rw [ht, h4, List.length_append, h5]; omega
  · rintro (e | e) <;> have := congrArg List.length e <;> rw [List.length_append, h5] at this
    · rw [show (ascii ".").length = 1 by decide] at this; omega
    · rw [show (ascii "..").length = 2 by decide] at this; omega

/-- The default name of the output has the right extension. -/
theorem besides_ext {p : Path} (h : extension p = ascii ".pcd") : extension (besides p) = ascii ".cldn" := by
  have hs : stem p ≠ [] := stem_ne_nil (by rw [h]; decide)
  have hno : ∀ c ∈ stem p ++ ascii ".cldn", (c != 0x2F#8) = true := by
    intro c hc
    rcases List.mem_append.1 hc with hc | hc
    · exact filename_noslash p c (by rw [stem_ext]; exact List.mem_append_left _ hc)
    · exact (by decide : ∀ c ∈ ascii ".cldn", (c != 0x2F#8) = true) c hc
  unfold extension besides
  rw [List.append_assoc, filename_dir p _ hno]
  exact extOf_cldn hs

theorem suffix_clash {p : Path} (h1 : ascii ".cldn" <:+ p) (h2 : ascii ".pcd" <:+ p) : False := by
  obtain ⟨a, ha⟩ := h1
  obtain ⟨b, hb⟩ := h2
  have := congrArg List.getLast? (ha.trans hb.symm)
  rw [List.getLast?_append_of_ne_nil _ (by decide), List.getLast?_append_of_ne_nil _ (by decide)] at this
  revert this
  decide

theorem target_suffix (input : Path) (output : Option Path) : ascii ".cldn" <:+ target input output := by
  unfold target
  split
  · exact List.suffix_append _ _
  · rename_i h
    have h : extension (output.getD (besides input)) = ascii ".cldn" := by
      rcases Decidable.em (extension (output.getD (besides input)) = ascii ".cldn") with h' | h'
      · exact h'
      · exact absurd h' h
    conv => arg 1; rw [← h]
    exact extension_suffix _

theorem besides_inj {p q : Path} (hp : extension p = ascii ".pcd") (hq : extension q = ascii ".pcd") (h : besides p = besides q) : p = q := by
  rw [path_ext p, path_ext q, hp, hq]
  unfold besides at h
  rw [List.append_left_inj] at h
  rw [h]

end Cloudini.PcdTool
