import Verif.Spec.BagTool
import Verif.Lemmas.BagTool
import Verif.Props.C65_C66

/-!
# C88: what a run of `cloudini_rosbag_converter` leaves, and what its exit code says

`Bag.main K fs cwd answer args` is a run in the directory `cwd`: how it ends and the file system afterwards.  `answer` is what the user types, if anything.
-/

namespace Cloudini.Props

open Cloudini.Bag

theorem stem_of_ext {n : List Byte} (h : PcdTool.extOf n = ascii ".mcap") : n = stemOf n ++ ascii ".mcap" := by
  have key : stemOf n ++ PcdTool.extOf n = n := by
    unfold stemOf PcdTool.extOf
    split
    · simp
    · split
      · rename_i hl
        generalize hk : (n.reverse.takeWhile (· != 0x2E#8)).length + 1 = k at *
        rw [List.length_drop, show n.length - (n.length - (n.length - k)) = n.length - k by omega, List.take_append_drop]
      · simp
  rw [h] at key
  exact key.symm

theorem source_input {fs : Fs} {cwd : List (List Byte)} {p : Path} {s : Source} {sd : List (List Byte)} (h : source fs cwd p = some s) (hd : s.dir = some sd) :
    InputIs fs cwd p sd s.name s.metaDir := by
  unfold source at h
  cases hr : resolve fs.dirs (p.dir.start cwd) p.comps with
  | some d =>
    rw [hr] at h
    simp only at h
    by_cases hm : fs.get d metadataName = none
    · rw [if_pos hm] at h; cases h
    rw [if_neg hm] at h
    cases hl : (fs.list d).filter (fun n => PcdTool.extOf n = ascii ".mcap") with
    | nil => rw [hl] at h; cases h
    | cons n rest =>
      cases rest with
      | cons _ _ => rw [hl] at h; cases h
      | nil =>
        rw [hl] at h
        simp only [Option.some.injEq] at h
        subst h
        simp only [Option.some.injEq] at hd
        subst hd
        have hn : n ∈ (fs.list d).filter (fun n => PcdTool.extOf n = ascii ".mcap") := by rw [hl]; simp
        rw [List.mem_filter] at hn
        refine .bag hr ?_ hn.1 (by simpa using hn.2) ?_
        · exact Option.isSome_iff_ne_none.2 hm
        · intro n' h1 h2
          have : n' ∈ (fs.list d).filter (fun n => PcdTool.extOf n = ascii ".mcap") := List.mem_filter.2 ⟨h1, by simpa using h2⟩
          rw [hl] at this
          simpa using this
  | none =>
    rw [hr] at h
    simp only at h
    by_cases he : PcdTool.extOf p.file = ascii ".mcap"
    · rw [if_pos he] at h
      simp only [Option.some.injEq] at h
      subst h
      simp only at hd ⊢
      rw [hd]
      by_cases hm : (fs.get sd metadataName).isSome
      · rw [Option.filter_some_pos (by simpa using hm)]
        exact .beside hr hd he hm
      · rw [Option.filter_some_neg (by simpa using hm)]
        exact .plain hr hd he (Option.not_isSome_iff_eq_none.1 hm)
    · rw [if_neg he] at h; cases h

theorem source_ext {fs : Fs} {cwd : List (List Byte)} {p : Path} {s : Source} (h : source fs cwd p = some s) : PcdTool.extOf s.name = ascii ".mcap" := by
  unfold source at h
  split at h
  · split at h
    · cases h
    · split at h
      · rename_i d _ _ _ n hn
        cases h
        have : n ∈ (fs.list d).filter (fun n => PcdTool.extOf n = ascii ".mcap") := by rw [hn]; simp
        simpa using (List.mem_filter.1 this).2
      · cases h
  · split at h
    · cases h; assumption
    · cases h

theorem target_output {a : Args} {s : Source} (h : PcdTool.extOf s.name = ascii ".mcap") :
    OutputIs a s.name s.metaDir (target a s).1 (target a s).2 := by
  unfold target
  cases ho : a.output with
  | some p =>
    simp only
    by_cases he : PcdTool.extOf p.file = ascii ".mcap"
    · rw [if_pos he]; exact .given ho he
    · rw [if_neg he]; exact .completed ho he
  | none =>
    cases hm : s.metaDir with
    | some d => exact .sibling ho rfl (stem_of_ext h)
    | none => exact .here ho rfl (stem_of_ext h)

theorem place_resolves {fs : Fs} {cwd : List (List Byte)} {input : Option (List (List Byte))} {o : OutDir} {file file' : List Byte} {dir : List (List Byte)}
    {m : Bool} (h : place fs.dirs cwd input o file = .into dir file' m) : resolve (fs.mkdirs cwd o).dirs (o.start cwd) o.comps = some dir := by
  unfold place at h
  unfold Fs.mkdirs
  cases hr : resolve fs.dirs (o.start cwd) o.comps with
  | some d =>
    rw [hr] at h
    simp only at h ⊢
    split at h
    · cases h
    · cases h; exact hr
  | none =>
    rw [hr] at h
    simp only at h ⊢
    split at h
    · cases h; assumption
    · cases h

theorem Did.dirs {K : Tool} {fs fs' : Fs} {answer : Option Byte} {a : Args} {s : Source} {dir : List (List Byte)} {file : List Byte} {e : Exit}
    (h : Did K fs answer a s dir file e fs') : fs'.dirs = fs.dirs := by
  cases h <;> try rfl
  split <;> rfl

theorem Did.get {K : Tool} {fs fs' : Fs} {answer : Option Byte} {a : Args} {s : Source} {dir : List (List Byte)} {file : List Byte} {e : Exit}
    (h : Did K fs answer a s dir file e fs') (d : List (List Byte)) (n : List Byte) (hne : fs'.get d n ≠ fs.get d n) :
    d = dir ∧ (n = file ∨ n = metadataName ∧ s.metaDir.isSome = true ∧ e = .code 0) ∧ (fs'.get d n).isSome ∧
      ((fs.get dir file).isSome → a.yes = true ∨ answer = some 0x79#8 ∨ answer = some 0x59#8) := by
  cases h with
  | refused => exact absurd rfl hne
  | unanswered => exact absurd rfl hne
  | declined => exact absurd rfl hne
  | nothing => exact absurd rfl hne
  | failed left sd bytes m h1 h2 hq hc =>
    rw [Fs.get_put] at hne ⊢
    by_cases he : d = dir ∧ n = file
    · rw [if_pos he]; exact ⟨he.1, .inl he.2, rfl, hq⟩
    · rw [if_neg he] at hne; exact absurd rfl hne
  | done out sd bytes m raw compressed h1 h2 h3 h4 h5 hq hc =>
    cases hm : s.metaDir with
    | none =>
      rw [hm] at hne
      simp only at hne ⊢
      rw [Fs.get_put] at hne ⊢
      by_cases he : d = dir ∧ n = file
      · rw [if_pos he]; exact ⟨he.1, .inl he.2, rfl, hq⟩
      · rw [if_neg he] at hne; exact absurd rfl hne
    | some md =>
      rw [hm] at hne
      simp only at hne ⊢
      rw [Fs.get_put] at hne ⊢
      by_cases hx : d = dir ∧ n = metadataName
      · rw [if_pos hx]; exact ⟨hx.1, .inr ⟨hx.2, rfl, trivial⟩, rfl, hq⟩
      rw [if_neg hx] at hne ⊢
      rw [Fs.get_put] at hne ⊢
      by_cases he : d = dir ∧ n = file
      · rw [if_pos he]; exact ⟨he.1, .inl he.2, rfl, hq⟩
      · rw [if_neg he] at hne; exact absurd rfl hne

theorem output_ext {a : Args} {name : List Byte} {metaDir : Option (List (List Byte))} {o : OutDir} {file : List Byte} (h : OutputIs a name metaDir o file) :
    ∃ x, file = x ++ ascii ".mcap" := by
  cases h with
  | given _ h => exact ⟨_, stem_of_ext h⟩
  | completed => exact ⟨_, rfl⟩
  | sibling => exact ⟨_, rfl⟩
  | here => exact ⟨_, rfl⟩

theorem mcap_ne_yaml (x : List Byte) : x ++ ascii ".mcap" ≠ metadataName := by
  intro h
  have := congrArg List.getLast? h
  rw [List.getLast?_append] at this
  revert this
  have e1 : (ascii ".mcap").getLast? = some 0x70#8 := by decide +kernel
  have e2 : metadataName.getLast? = some 0x6C#8 := by decide +kernel
  rw [e1, e2]
  simp

theorem input_metadata {fs : Fs} {cwd : List (List Byte)} {p : Path} {sd : List (List Byte)} {name : List Byte} {metaDir : Option (List (List Byte))}
    (h : InputIs fs cwd p sd name metaDir) : metaDir = none ∨ metaDir = some sd ∧ (fs.get sd (ascii "metadata.yaml")).isSome := by
  cases h with
  | bag _ h => exact .inr ⟨rfl, h⟩
  | plain => exact .inl rfl
  | beside _ _ _ h => exact .inr ⟨rfl, h⟩

/-- **C88, what a run may touch.** In every run there are one directory and one file name such that no other file changes, except for the `metadata.yaml` in
that directory, which changes only if the run succeeds; no file is removed, and existing files keep their content unless the user has agreed with `-y` or
`y`/`Y` — or they are that `metadata.yaml`. -/
theorem C88_frame_partial (K : Tool) (fs fs' : Fs) (cwd : List (List Byte)) (answer : Option Byte) (a : Args) (e : Exit)
    (h : Bag.main K fs cwd answer a = (e, fs')) :
    ∃ (dir : List (List Byte)) (file : List Byte), ∀ d n, fs'.get d n ≠ fs.get d n →
      d = dir ∧ (n = file ∨ n = ascii "metadata.yaml" ∧ e = .code 0) ∧ (fs'.get d n).isSome ∧
        ((fs.get d n).isSome → a.yes = true ∨ answer = some 0x79#8 ∨ answer = some 0x59#8 ∨ n = ascii "metadata.yaml") := by
  rcases main_cases K fs cwd answer a with ⟨-, hm⟩ | hm | ⟨p, s, -, -, -, -, hm⟩ | ⟨p, s, dir, file, m, -, hs, -, hp, hd⟩
  · rw [hm] at h; cases h; exact ⟨[], [], fun _ _ hne => absurd rfl hne⟩
  · rw [hm] at h; cases h; exact ⟨[], [], fun _ _ hne => absurd rfl hne⟩
  · rw [hm] at h; cases h; exact ⟨[], [], fun _ _ hne => absurd rfl hne⟩
  · rw [h] at hd
    refine ⟨dir, file, fun d n hne => ?_⟩
    have hg := Fs.mkdirs_get fs cwd (target a s).1
    rw [← hg d n] at hne
    obtain ⟨h1, h2, h3, h4⟩ := Did.get hd d n hne
    refine ⟨h1, ?_, h3, ?_⟩
    · rcases h2 with h2 | h2
      · exact .inl h2
      · exact .inr ⟨h2.1, h2.2.2⟩
    · intro hsome
      rcases h2 with h2 | h2
      · subst h1 h2
        rw [hg] at h4
        rcases h4 hsome with h | h | h
        · exact .inl h
        · exact .inr (.inl h)
        · exact .inr (.inr (.inl h))
      · exact .inr (.inr (.inr h2.1))

/-- **C88, success.** Exit code 0 means: help was asked for; or the user declined to replace an existing output; or the input has no clouds; or the output
holds what the converter made of the input, and, if the input has metadata, the `metadata.yaml` beside the output the transformed one (`C65_meaning`).
In the first three cases no file changes. -/
theorem C88_exit_zero (K : Tool) (fs fs' : Fs) (cwd : List (List Byte)) (answer : Option Byte) (a : Args)
    (h : Bag.main K fs cwd answer a = (.code 0, fs')) :
    (a.help = true ∧ fs' = fs) ∨
      ∃ p name metaDir o file dir, a.filename = some p ∧ OutputIs a name metaDir o file ∧ resolve fs'.dirs (o.start cwd) o.comps = some dir ∧
        ((fs'.files = fs.files ∧ (fs.get dir file).isSome ∧ a.yes = false ∧ ∃ c, answer = some c ∧ c ≠ 0x79#8 ∧ c ≠ 0x59#8) ∨
          ∃ sd bytes, InputIs fs cwd p sd name metaDir ∧ fs.get sd name = some bytes ∧
            ((fs'.files = fs.files ∧ K.topics bytes = some (0, 0)) ∨
              ∃ profile out, (if sd = dir ∧ name = file then K.ontoItself a profile bytes else K.convert a profile bytes) = .done out ∧
                (∃ raw compressed, K.topics bytes = some (raw, compressed) ∧ (a.compress = true → raw ≠ 0) ∧ (a.decode = true → compressed ≠ 0)) ∧
                fs'.get dir file = some out ∧
                (∀ md, metaDir = some md → ∃ text, fs.get md (ascii "metadata.yaml") = some text ∧
                  fs'.get dir (ascii "metadata.yaml") = some (metadata text file a.compress)))) := by
  rcases main_cases K fs cwd answer a with ⟨hh, hm⟩ | hm | ⟨p, s, -, -, -, -, hm⟩ | ⟨p, s, dir, file, m, hf, hs, hx, hp, hd⟩
  · rw [hm] at h; cases h; exact .inl ⟨hh, rfl⟩
  · rw [hm] at h; cases h
  · rw [hm] at h; cases h
  · rw [h] at hd
    right
    have hfile := (place_into hp).1
    have ho := target_output (a := a) (source_ext hs)
    rw [← hfile] at ho
    obtain ⟨x, hxf⟩ := output_ext ho
    have hnm : file ≠ metadataName := hxf ▸ mcap_ne_yaml x
    have hres := place_resolves hp
    have hdirs : fs'.dirs = _ := Did.dirs hd
    have hg := Fs.mkdirs_get fs cwd (target a s).1
    have hff := Fs.mkdirs_files fs cwd (target a s).1
    refine ⟨p, s.name, s.metaDir, (target a s).1, file, dir, hf, ho, by rw [hdirs]; exact hres, ?_⟩
    cases hd with
    | declined c h1 h2 h3 h4 h5 => left; rw [hg] at h1; exact ⟨hff, h1, h2, c, h3, h4, h5⟩
    | nothing sd bytes h1 h2 h3 =>
      right
      rw [hg] at h2
      exact ⟨sd, bytes, source_input hs h1, h2, .inl ⟨hff, h3⟩⟩
    | done out sd bytes m raw compressed h1 h2 h3 h4 h5 hq hc =>
      right
      rw [hg] at h2
      have hin := source_input hs h1
      refine ⟨sd, bytes, hin, h2, .inr ⟨m, out, ?_, ⟨raw, compressed, h3, h4, h5⟩, ?_, ?_⟩⟩
      · rw [h1] at hc
        simpa using hc
      · cases hmd : s.metaDir with
        | none => simp only; rw [Fs.get_put, if_pos ⟨rfl, rfl⟩]
        | some d =>
          simp only
          rw [Fs.get_put, if_neg (fun e => hnm e.2), Fs.get_put, if_pos ⟨rfl, rfl⟩]
      · intro md hmd
        rcases input_metadata hin with h | ⟨h, hsome⟩
        · rw [h] at hmd; cases hmd
        · rw [h] at hmd
          simp only [Option.some.injEq] at hmd
          subst hmd
          obtain ⟨text, ht⟩ := Option.isSome_iff_exists.1 hsome
          refine ⟨text, ht, ?_⟩
          rw [h]
          simp only
          rw [Fs.get_put, if_pos ⟨rfl, rfl⟩, Fs.get_put, if_neg (fun e => hnm e.2.symm), hg]
          show some (metadata ((fs.get sd (ascii "metadata.yaml")).getD []) file a.compress) = _
          rw [ht]
          rfl

/-- **C88, failure (partial).** A run that does not end with exit code 0 leaves every file as it was, except, if the conversion itself was interrupted by an
exception, the output: it holds the fragment written so far.  What is missing: an output of an earlier run is gone then (`C88_failure_destroys`). -/
theorem C88_failure_partial (K : Tool) (fs fs' : Fs) (cwd : List (List Byte)) (answer : Option Byte) (a : Args) (e : Exit) (he : e ≠ .code 0)
    (h : Bag.main K fs cwd answer a = (e, fs')) :
    (∀ d n, fs'.get d n = fs.get d n) ∨
      ∃ p sd name metaDir bytes o file dir profile fragment, a.filename = some p ∧ InputIs fs cwd p sd name metaDir ∧ fs.get sd name = some bytes ∧
        OutputIs a name metaDir o file ∧ resolve fs'.dirs (o.start cwd) o.comps = some dir ∧
        (if sd = dir ∧ name = file then K.ontoItself a profile bytes else K.convert a profile bytes) = .failed fragment ∧ e = .code 1 ∧
        ∀ d n, fs'.get d n = if d = dir ∧ n = file then some fragment else fs.get d n := by
  rcases main_cases K fs cwd answer a with ⟨-, hm⟩ | hm | ⟨p, s, -, -, -, -, hm⟩ | ⟨p, s, dir, file, m, hf, hs, hx, hp, hd⟩
  · rw [hm] at h; cases h; exact absurd rfl he
  · rw [hm] at h; cases h; exact .inl fun _ _ => rfl
  · rw [hm] at h; cases h; exact .inl fun _ _ => rfl
  · rw [h] at hd
    have ho := target_output (a := a) (source_ext hs)
    rw [← (place_into hp).1] at ho
    have hg := Fs.mkdirs_get fs cwd (target a s).1
    have hres := place_resolves hp
    have hdirs : fs'.dirs = _ := Did.dirs hd
    rw [← hdirs] at hres
    cases hd with
    | refused => exact .inl fun _ _ => hg ..
    | unanswered => exact .inl fun _ _ => hg ..
    | declined => exact absurd rfl he
    | nothing => exact absurd rfl he
    | failed left sd bytes m h1 h2 hq hc =>
      right
      rw [hg] at h2
      rw [h1] at hc
      refine ⟨p, sd, s.name, s.metaDir, bytes, _, file, dir, m, left, hf, source_input hs h1, h2, ho, hres, by simpa using hc, rfl, fun d n => ?_⟩
      rw [← hg d n]
      exact Fs.get_put ..
    | done => exact absurd rfl he

/-- **C88, the input.** A run on a bag with metadata leaves that bag and its metadata unchanged, provided the output directory exists or is written without
".."; what is missing is `C66_dotdot`, and inputs without metadata given as their own output (`C66_input_overwritten`). -/
theorem C88_input_kept_partial (K : Tool) (fs fs' : Fs) (hc : Closed fs.dirs) (cwd : List (List Byte)) (answer : Option Byte) (a : Args) (e : Exit) (p : Path)
    (name : List Byte) (d : List (List Byte)) (hf : a.filename = some p) (hs : InputIs fs cwd p d name (some d)) (hd : d ∈ fs.dirs)
    (ho : ∀ o, a.output = some o → (∃ dir, resolve fs.dirs (o.dir.start cwd) o.dir.comps = some dir) ∨ .dotdot ∉ o.dir.comps)
    (h : Bag.main K fs cwd answer a = (e, fs')) : ∀ n, fs'.get d n = fs.get d n := by
  intro n
  rcases main_cases K fs cwd answer a with ⟨-, hm⟩ | hm | ⟨p, s, -, -, -, -, hm⟩ | ⟨p', s, dir, file, m, hf', hs', hx, hp, hd'⟩
  · rw [hm] at h; cases h; rfl
  · rw [hm] at h; cases h; rfl
  · rw [hm] at h; cases h; rfl
  · rw [hf] at hf'
    cases hf'
    have hmd : s.metaDir = some d := by
      unfold source at hs'
      cases hs with
      | bag h1 h2 h3 h4 h5 =>
        rw [h1] at hs'
        simp only at hs'
        split at hs'
        · cases hs'
        · split at hs'
          · cases hs'; rfl
          · cases hs'
      | beside h0 h1 h2 h3 =>
        rw [h0] at hs'
        simp only at hs'
        rw [if_pos h2, h1] at hs'
        simp only [Option.some.injEq] at hs'
        subst hs'
        exact Option.filter_some_pos (p := fun d => (fs.get d metadataName).isSome) h3
    rw [hmd] at hp
    have hne : dir ≠ d := by
      refine C66_protected_partial fs.dirs hc cwd d (target a s).1 (target a s).2 file dir m hd ?_ hp
      unfold target
      cases hoo : a.output with
      | some o => exact ho o hoo
      | none =>
        rw [hmd]
        right
        show Comp.dotdot ∉ d.dropLast.map Comp.name ++ [Comp.name _]
        intro hmem
        rcases List.mem_append.1 hmem with hmem | hmem
        · obtain ⟨x, -, hx⟩ := List.mem_map.1 hmem
          cases hx
        · cases List.mem_singleton.1 hmem
    rw [h] at hd'
    refine Classical.byContradiction fun hcon => ?_
    rw [← Fs.mkdirs_get fs cwd (target a s).1] at hcon
    exact hne (Did.get hd' d n hcon).1.symm

/-! ### What the code does not do -/

/-- **C88: a bare file name beside a `metadata.yaml` is always refused, by a crash.** In a directory with a `metadata.yaml`, `-f name.mcap` without a directory
part ends the program by an uncaught exception, whatever the other options (with `-o` too). -/
theorem C88_bare_name_aborts (K : Tool) (fs : Fs) (cwd : List (List Byte)) (answer : Option Byte) (a : Args) (file : List Byte) (hh : a.help = false)
    (hf : a.filename = some ⟨⟨false, []⟩, file⟩) (hx : a.compress ≠ a.decode) (hv : a.viz = true → a.compress = true)
    (hm : PcdTool.extOf file = ascii ".mcap") (hd : cwd ++ [file] ∉ fs.dirs) (hy : (fs.get cwd (ascii "metadata.yaml")).isSome) :
    Bag.main K fs cwd answer a = (.abort, fs) := by
  have hne : file ≠ [] := by rintro rfl; revert hm; decide +kernel
  have hs : source fs cwd ⟨⟨false, []⟩, file⟩ = some ⟨some cwd, file, some cwd, true⟩ := by
    unfold source
    have h1 : resolve fs.dirs (OutDir.start cwd ⟨false, []⟩) (Path.comps ⟨⟨false, []⟩, file⟩) = none := by
      unfold Path.comps
      rw [if_neg hne]
      show resolve fs.dirs cwd [.name file] = none
      unfold resolve
      rw [if_neg hd]
    rw [h1]
    simp only
    rw [if_pos hm]
    have h2 : resolve fs.dirs (OutDir.start cwd ⟨false, []⟩) [] = some cwd := rfl
    rw [h2]
    have h3 : (some cwd).filter (fun d => (fs.get d metadataName).isSome) = some cwd :=
      Option.filter_some_pos (p := fun d => (fs.get d metadataName).isSome) hy
    rw [h3]
    rfl
  unfold Bag.main
  rw [if_neg (by simp [hh]), hf]
  simp only
  have h1 : Path.isEmpty ⟨⟨false, []⟩, file⟩ = false := by
    unfold Path.isEmpty
    cases file with
    | nil => exact absurd rfl hne
    | cons _ _ => rfl
  rw [if_neg (by simp [h1]), if_neg (by rintro ⟨h, h'⟩; exact hx (h.trans h'.symm)), if_neg, if_neg, hs]
  · simp
  · rintro ⟨h, h'⟩; exact h' (hv h)
  · rintro ⟨h, h'⟩
    apply hx
    simp only [Bool.not_eq_true] at h h'
    rw [h, h']

/-- A converter for examples: the input `[9]` has no clouds, `[8]` breaks off, any other has one topic of raw clouds; the output is the input with a byte in
front. -/
def toyTool : Tool where
  topics b := if b = [9#8] then some (0, 0) else some (1, 0)
  convert _ _ b := if b = [8#8] then .failed [0xEE#8] else .done (1#8 :: b)
  ontoItself _ _ _ := .failed []
  stof _ := .throw "stof"

/-- /data/a with metadata and a bag, /data/b with another bag converted earlier. -/
def toyFs (bag : List Byte) : Fs where
  dirs := [[ascii "data"], [ascii "data", ascii "a"], [ascii "data", ascii "b"]]
  files := [⟨[ascii "data", ascii "a"], ascii "metadata.yaml", ascii "A"⟩, ⟨[ascii "data", ascii "a"], ascii "run.mcap", bag⟩,
    ⟨[ascii "data", ascii "b"], ascii "metadata.yaml", ascii "B"⟩, ⟨[ascii "data", ascii "b"], ascii "old.mcap", [7#8]⟩]

/-- `-c -f a -o b/<file>` in /data -/
def toyArgs (file : String) (yes : Bool) : Args :=
  { compress := true, yes := yes, filename := some ⟨⟨false, []⟩, ascii "a"⟩, output := some ⟨⟨false, [.name (ascii "b")]⟩, ascii file⟩ }

/-- **C88 is false for `metadata.yaml`.** Converting a bag into a directory that holds another bag replaces the `metadata.yaml` of that one, without `-y` and
without a question (the user types nothing), and exits with 0. -/
theorem C88_metadata_unasked :
    ∃ fs', Bag.main toyTool (toyFs [5#8]) [ascii "data"] none (toyArgs "new.mcap" false) = (.code 0, fs') ∧
      (toyFs [5#8]).get [ascii "data", ascii "b"] (ascii "metadata.yaml") = some (ascii "B") ∧
      fs'.get [ascii "data", ascii "b"] (ascii "metadata.yaml") = some (ascii "A") ∧
      fs'.get [ascii "data", ascii "b"] (ascii "new.mcap") = some [1#8, 5#8] := by
  refine ⟨(Bag.main toyTool (toyFs [5#8]) [ascii "data"] none (toyArgs "new.mcap" false)).2, Prod.ext ?_ rfl, ?_, ?_, ?_⟩ <;> decide +kernel

/-- **A failed conversion destroys the earlier output.** With `-y`, if the conversion breaks off, the program exits with 1 and the output of an earlier run is
replaced by a fragment. -/
theorem C88_failure_destroys :
    ∃ fs', Bag.main toyTool (toyFs [8#8]) [ascii "data"] none (toyArgs "old.mcap" true) = (.code 1, fs') ∧
      (toyFs [8#8]).get [ascii "data", ascii "b"] (ascii "old.mcap") = some [7#8] ∧
      fs'.get [ascii "data", ascii "b"] (ascii "old.mcap") = some [0xEE#8] := by
  refine ⟨(Bag.main toyTool (toyFs [8#8]) [ascii "data"] none (toyArgs "old.mcap" true)).2, Prod.ext ?_ rfl, ?_, ?_⟩ <;> decide +kernel

/-- **Exit code 0 does not mean that there is an output**, nor that an output that exists is the conversion of the input: a bag without clouds leaves both as
they are. -/
theorem C88_success_without_output :
    (∃ fs', Bag.main toyTool (toyFs [9#8]) [ascii "data"] none (toyArgs "new.mcap" false) = (.code 0, fs') ∧
      fs'.get [ascii "data", ascii "b"] (ascii "new.mcap") = none) ∧
    ∃ fs', Bag.main toyTool (toyFs [9#8]) [ascii "data"] none (toyArgs "old.mcap" true) = (.code 0, fs') ∧
      fs'.get [ascii "data", ascii "b"] (ascii "old.mcap") = some [7#8] := by
  constructor
  · refine ⟨(Bag.main toyTool (toyFs [9#8]) [ascii "data"] none (toyArgs "new.mcap" false)).2, Prod.ext ?_ rfl, ?_⟩ <;> decide +kernel
  · refine ⟨(Bag.main toyTool (toyFs [9#8]) [ascii "data"] none (toyArgs "old.mcap" true)).2, Prod.ext ?_ rfl, ?_⟩ <;> decide +kernel

/-- **A refused run leaves directories behind:** with an unknown method the program exits with 1 after it has made the directories of the output. -/
theorem C88_refused_makes_directories :
    let a : Args := { toyArgs "new.mcap" false with output := some ⟨⟨false, [.name (ascii "x"), .name (ascii "y")]⟩, ascii "new"⟩, method := ascii "lz4" }
    ∃ fs', Bag.main toyTool (toyFs [5#8]) [ascii "data"] none a = (.code 1, fs') ∧ [ascii "data", ascii "x", ascii "y"] ∉ (toyFs [5#8]).dirs ∧
      [ascii "data", ascii "x", ascii "y"] ∈ fs'.dirs := by
  intro a
  refine ⟨(Bag.main toyTool (toyFs [5#8]) [ascii "data"] none a).2, Prod.ext ?_ rfl, ?_, ?_⟩ <;> decide +kernel

/-- **End of input at the question:** the answer is a variable nobody has set.  For every run that reaches the question. -/
theorem C88_no_answer_undefined (K : Tool) (fs : Fs) (cwd : List (List Byte)) (a : Args) (s : Source) (dir : List (List Byte)) (file : List Byte)
    (hp : ¬ (a.decode = true ∧ a.profile.isSome = true)) (hy : a.yes = false) (he : (fs.get dir file).isSome) :
    confirm K fs cwd none a s dir file = (.undefined, fs) := by
  unfold confirm
  rw [if_neg hp, if_pos ⟨he, by simp [hy]⟩]

example : (Bag.main toyTool (toyFs [5#8]) [ascii "data"] none (toyArgs "old.mcap" false)).1 = .undefined := by decide +kernel

/-- The user declines, agrees; the output is the conversion. -/
example : (Bag.main toyTool (toyFs [5#8]) [ascii "data"] (some 0x6E#8) (toyArgs "old.mcap" false)) = (.code 0, toyFs [5#8]) ∧
    (Bag.main toyTool (toyFs [5#8]) [ascii "data"] (some 0x59#8) (toyArgs "old.mcap" false)).1 = .code 0 ∧
    (Bag.main toyTool (toyFs [5#8]) [ascii "data"] (some 0x59#8) (toyArgs "old.mcap" false)).2.get [ascii "data", ascii "b"] (ascii "old.mcap") =
      some [1#8, 5#8] := by decide +kernel

/-- Without `-o`: /data/a_encoded/run_encoded.mcap and its metadata. -/
example : let r := Bag.main toyTool (toyFs [5#8]) [ascii "data"] none { toyArgs "x" false with output := none }
    r.1 = .code 0 ∧ r.2.get [ascii "data", ascii "a_encoded"] (ascii "run_encoded.mcap") = some [1#8, 5#8] ∧
      r.2.get [ascii "data", ascii "a_encoded"] (ascii "metadata.yaml") = some (ascii "A") := by decide +kernel

/-- The hypotheses of `C88_input_kept_partial`. -/
example (fs' : Fs) (e : Exit) (h : Bag.main toyTool (toyFs [5#8]) [ascii "data"] (some 0x59#8) (toyArgs "old.mcap" false) = (e, fs')) :
    fs'.get [ascii "data", ascii "a"] (ascii "run.mcap") = some [5#8] := by
  have hc : Closed (toyFs [5#8]).dirs := by
    intro d n hd
    have h3 : d ++ [n] = [ascii "data"] ∨ d ++ [n] = [ascii "data"] ++ [ascii "a"] ∨ d ++ [n] = [ascii "data"] ++ [ascii "b"] := by simpa [toyFs] using hd
    rcases h3 with e | e | e
    · exact .inl (List.append_inj_left' (t₂ := [ascii "data"]) (s₂ := []) e rfl)
    · right; rw [List.append_inj_left' e rfl]; decide +kernel
    · right; rw [List.append_inj_left' e rfl]; decide +kernel
  rw [C88_input_kept_partial toyTool (toyFs [5#8]) fs' hc [ascii "data"] (some 0x59#8) (toyArgs "old.mcap" false) e ⟨⟨false, []⟩, ascii "a"⟩ (ascii "run.mcap")
    [ascii "data", ascii "a"] rfl (.bag (by decide +kernel) (by decide +kernel) (by decide +kernel) (by decide +kernel) (by decide +kernel)) (by decide +kernel)
    (fun o ho => .inr (by cases ho; decide +kernel)) h]
  decide +kernel

/-- The hypotheses of `C88_bare_name_aborts`: in /data/a. -/
example : Bag.main toyTool (toyFs [5#8]) [ascii "data", ascii "a"] none { compress := true, filename := some ⟨⟨false, []⟩, ascii "run.mcap"⟩ } =
    (.abort, toyFs [5#8]) :=
  C88_bare_name_aborts _ _ _ _ _ (ascii "run.mcap") rfl rfl (by decide) (by simp) (by decide +kernel) (by decide +kernel) (by decide +kernel)

/-- `C88_failure_partial` and `C88_exit_zero` apply to the runs above. -/
example : ∃ fs', Bag.main toyTool (toyFs [8#8]) [ascii "data"] none (toyArgs "old.mcap" true) = (.code 1, fs') ∧
    ∃ d n, fs'.get d n ≠ (toyFs [8#8]).get d n := by
  obtain ⟨fs', h1, h2, h3⟩ := C88_failure_destroys
  exact ⟨fs', h1, _, _, by rw [h2, h3]; decide⟩

end Cloudini.Props
