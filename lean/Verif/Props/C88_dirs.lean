import Verif.Props.C88

/-!
# C88: the directories a run of `cloudini_rosbag_converter` makes
-/

namespace Cloudini.Props

open Cloudini.Bag

theorem createDirs_keeps : ∀ (p : List Comp) (ds : Dirs) (at_ x : List (List Byte)), x ∈ ds → x ∈ createDirs ds at_ p
  | [], _, _, _, h => h
  | .dot :: p, ds, at_, x, h => createDirs_keeps p ds at_ x h
  | .dotdot :: p, ds, at_, x, h => createDirs_keeps p ds _ x h
  | .name n :: p, ds, at_, x, h => by
    unfold createDirs
    apply createDirs_keeps p
    split
    · exact h
    · exact List.mem_cons_of_mem _ h

theorem resolve_mono {ds ds' : Dirs} (hs : ∀ x ∈ ds, x ∈ ds') : ∀ (p : List Comp) (at_ d : List (List Byte)), resolve ds at_ p = some d → resolve ds' at_ p = some d
  | [], _, _, h => h
  | .dot :: p, at_, d, h => resolve_mono hs p at_ d h
  | .dotdot :: p, at_, d, h => resolve_mono hs p _ d h
  | .name n :: p, at_, d, h => by
    unfold resolve at h ⊢
    by_cases hm : at_ ++ [n] ∈ ds
    · rw [if_pos hm] at h
      rw [if_pos (hs _ hm)]
      exact resolve_mono hs p _ d h
    · rw [if_neg hm] at h; cases h

/-- Made directories can be walked through. -/
theorem createDirs_resolves : ∀ (p : List Comp) (ds : Dirs) (at_ : List (List Byte)), resolve (createDirs ds at_ p) at_ p = some (leadsTo at_ p)
  | [], _, _ => rfl
  | .dot :: p, ds, at_ => createDirs_resolves p ds at_
  | .dotdot :: p, ds, at_ => createDirs_resolves p ds _
  | .name n :: p, ds, at_ => by
    unfold createDirs resolve
    have hm : at_ ++ [n] ∈ createDirs (if at_ ++ [n] ∈ ds then ds else (at_ ++ [n]) :: ds) (at_ ++ [n]) p := by
      apply createDirs_keeps
      split
      · assumption
      · exact List.mem_cons_self ..
    rw [if_pos hm]
    exact createDirs_resolves p _ _

/-- A directory made is one the path leads through. -/
theorem createDirs_made : ∀ (p : List Comp) (ds : Dirs) (at_ x : List (List Byte)), x ∈ createDirs ds at_ p → x ∉ ds →
    ∃ q n r, p = q ++ .name n :: r ∧ x = leadsTo at_ (q ++ [.name n])
  | [], _, _, _, h, hn => absurd h hn
  | .dot :: p, ds, at_, x, h, hn => by
    obtain ⟨q, n, r, e, hx⟩ := createDirs_made p ds at_ x h hn
    exact ⟨.dot :: q, n, r, by rw [e]; rfl, hx⟩
  | .dotdot :: p, ds, at_, x, h, hn => by
    obtain ⟨q, n, r, e, hx⟩ := createDirs_made p ds _ x h hn
    exact ⟨.dotdot :: q, n, r, by rw [e]; rfl, hx⟩
  | .name m :: p, ds, at_, x, h, hn => by
    unfold createDirs at h
    by_cases hx : x = at_ ++ [m]
    · exact ⟨[], m, p, rfl, hx⟩
    · obtain ⟨q, n, r, e, hx⟩ := createDirs_made p _ _ x h (by
        split
        · exact hn
        · rw [List.mem_cons]; rintro (h | h)
          · exact hx h
          · exact hn h)
      exact ⟨.name m :: q, n, r, by rw [e]; rfl, hx⟩

theorem resolve_leads {ds : Dirs} : ∀ (p : List Comp) (at_ d : List (List Byte)), resolve ds at_ p = some d → d = leadsTo at_ p
  | [], _, _, h => by cases h; rfl
  | .dot :: p, at_, d, h => resolve_leads p at_ d h
  | .dotdot :: p, at_, d, h => resolve_leads p _ d h
  | .name n :: p, at_, d, h => by
    unfold resolve at h
    split at h
    · exact resolve_leads p _ d h
    · cases h

/-- **C88, directories.** No run removes a directory.  A run that makes one has a command line that names an output; it makes only directories the path of
the output leads through, and afterwards the path leads to the directory of the output — each ".." undoing the name before it — so that with an output path
that exists already none is made. -/
theorem C88_directories (K : Tool) (fs fs' : Fs) (cwd : List (List Byte)) (answer : Option Byte) (a : Args) (e : Exit)
    (h : Bag.main K fs cwd answer a = (e, fs')) :
    (∀ d ∈ fs.dirs, d ∈ fs'.dirs) ∧
      ∀ x ∈ fs'.dirs, x ∉ fs.dirs → ∃ p name metaDir o file, a.filename = some p ∧ OutputIs a name metaDir o file ∧
        resolve fs.dirs (o.start cwd) o.comps = none ∧ resolve fs'.dirs (o.start cwd) o.comps = some (leadsTo (o.start cwd) o.comps) ∧
        ∃ q n r, o.comps = q ++ .name n :: r ∧ x = leadsTo (o.start cwd) (q ++ [.name n]) := by
  rcases main_cases K fs cwd answer a with ⟨-, hm⟩ | hm | ⟨p, s, -, -, -, -, hm⟩ | ⟨p, s, dir, file, m, hf, hs, hx, hp, hd⟩
  · rw [hm] at h; cases h; exact ⟨fun _ h => h, fun _ h hn => absurd h hn⟩
  · rw [hm] at h; cases h; exact ⟨fun _ h => h, fun _ h hn => absurd h hn⟩
  · rw [hm] at h; cases h; exact ⟨fun _ h => h, fun _ h hn => absurd h hn⟩
  · rw [h] at hd
    have hdirs : fs'.dirs = _ := Did.dirs hd
    rw [hdirs]
    have ho := target_output (a := a) (source_ext hs)
    generalize target a s = t at ho
    obtain ⟨o, f⟩ := t
    unfold Fs.mkdirs
    cases hr : resolve fs.dirs (o.start cwd) o.comps with
    | some d => exact ⟨fun _ h => h, fun _ h hn => absurd h hn⟩
    | none =>
      refine ⟨fun d hd => createDirs_keeps _ _ _ _ hd, fun x hx hn => ?_⟩
      exact ⟨p, s.name, s.metaDir, o, f, hf, ho, hr, createDirs_resolves _ _ _, createDirs_made _ _ _ _ hx hn⟩

/-- **C88, the path of the output.** In a run that changes a file, the output path leads to the directory of that file. -/
theorem C88_output_directory (K : Tool) (fs fs' : Fs) (cwd : List (List Byte)) (answer : Option Byte) (a : Args) (e : Exit)
    (h : Bag.main K fs cwd answer a = (e, fs')) (d : List (List Byte)) (n : List Byte) (hne : fs'.get d n ≠ fs.get d n) :
    ∃ name metaDir o file, OutputIs a name metaDir o file ∧ d = leadsTo (o.start cwd) o.comps ∧ (n = file ∨ n = ascii "metadata.yaml") := by
  rcases main_cases K fs cwd answer a with ⟨-, hm⟩ | hm | ⟨p, s, -, -, -, -, hm⟩ | ⟨p, s, dir, file, m, hf, hs, hx, hp, hd⟩
  · rw [hm] at h; cases h; exact absurd rfl hne
  · rw [hm] at h; cases h; exact absurd rfl hne
  · rw [hm] at h; cases h; exact absurd rfl hne
  · rw [h] at hd
    have ho := target_output (a := a) (source_ext hs)
    rw [← (place_into hp).1] at ho
    rw [← Fs.mkdirs_get fs cwd (target a s).1] at hne
    obtain ⟨h1, h2, -, -⟩ := Did.get hd d n hne
    refine ⟨s.name, s.metaDir, _, file, ho, h1.trans (resolve_leads _ _ _ (place_resolves hp)), ?_⟩
    rcases h2 with h2 | h2
    · exact .inl h2
    · exact .inr h2.1

/-- `-o x/../y/new.mcap` in /data makes /data/x and /data/y, and puts the bag into the latter. -/
example :
    let a : Args := { toyArgs "new.mcap" false with output := some ⟨⟨false, [.name (ascii "x"), .dotdot, .name (ascii "y")]⟩, ascii "new"⟩ }
    let r := Bag.main toyTool (toyFs [5#8]) [ascii "data"] none a
    r.1 = .code 0 ∧ [ascii "data", ascii "x"] ∈ r.2.dirs ∧ [ascii "data", ascii "y"] ∈ r.2.dirs ∧ [ascii "data", ascii "x", ascii "y"] ∉ r.2.dirs ∧
      r.2.get [ascii "data", ascii "y"] (ascii "new.mcap") = some [1#8, 5#8] := by decide +kernel

/-- **C88, the spelling of the input.** Two paths, neither of them the empty text, that lead to the same directory are the same input: the run ends alike and
leaves the same files. (The tool converts alike whatever the text of the path: `hK`.) -/
theorem C88_spelling (K : Tool) (fs : Fs) (cwd : List (List Byte)) (answer : Option Byte) (a : Args) (p q : Path) (d : List (List Byte))
    (hp : p ≠ ⟨⟨false, []⟩, []⟩) (hq : q ≠ ⟨⟨false, []⟩, []⟩)
    (hp' : resolve fs.dirs (p.dir.start cwd) p.comps = some d) (hq' : resolve fs.dirs (q.dir.start cwd) q.comps = some d)
    (hK : ∀ m bytes, K.convert { a with filename := some p } m bytes = K.convert { a with filename := some q } m bytes ∧
      K.ontoItself { a with filename := some p } m bytes = K.ontoItself { a with filename := some q } m bytes) :
    Bag.main K fs cwd answer { a with filename := some p } = Bag.main K fs cwd answer { a with filename := some q } := by
  have ne : ∀ x : Path, x ≠ ⟨⟨false, []⟩, []⟩ → x.isEmpty = false := by
    rintro ⟨⟨ab, cs⟩, f⟩ h
    cases ab <;> cases cs <;> cases f <;> simp_all [Path.isEmpty]
  have hs : source fs cwd p = source fs cwd q := by
    unfold source
    rw [hp', hq']
  have ht : ∀ s, target { a with filename := some p } s = target { a with filename := some q } s := fun s => rfl
  have hc : ∀ s fs dir file, convert K fs cwd { a with filename := some p } s dir file = convert K fs cwd { a with filename := some q } s dir file := by
    intro s fs dir file
    unfold convert
    simp only [(hK _ _).1, (hK _ _).2]
    rfl
  unfold Bag.main
  simp only [ne p hp, ne q hq, hs, ht]
  unfold confirm
  simp only [hc]

/-- The root directory as an input, spelt `/` and `..` in /data. -/
example :
    let fs : Fs := { dirs := [[], [ascii "data"]], files := [⟨[], ascii "b.mcap", [5#8]⟩, ⟨[], ascii "metadata.yaml", []⟩] }
    let a : Args := { toyArgs "b.mcap" false with output := some ⟨⟨false, []⟩, ascii "new"⟩ }
    let r := Bag.main toyTool fs [ascii "data"] none { a with filename := some ⟨⟨true, []⟩, []⟩ }
    r.1 = .code 0 ∧ r.2.get [ascii "data"] (ascii "new.mcap") = some [1#8, 5#8] ∧
      r = Bag.main toyTool fs [ascii "data"] none { a with filename := some ⟨⟨false, [.dotdot]⟩, []⟩ } := by decide +kernel

end Cloudini.Props
