import Verif.Model.BagTool
import Verif.Lemmas.Bag

/-! Files: reading after writing, and which paths through `main` touch what. -/

namespace Cloudini.Bag

theorem Fs.get_put (fs : Fs) (d d' : List (List Byte)) (n n' c : List Byte) :
    (fs.put d n c).get d' n' = if d' = d ∧ n' = n then some c else fs.get d' n' := by
  unfold Fs.put Fs.get
  simp only [List.find?_cons]
  by_cases h : d' = d ∧ n' = n
  · obtain ⟨rfl, rfl⟩ := h
    simp
  · rw [if_neg h]
    have h' : ¬ (d = d' ∧ n = n') := fun e => h ⟨e.1.symm, e.2.symm⟩
    simp only [h', decide_false]
    congr 1
    rw [List.find?_filter]
    congr 1
    funext e
    by_cases he : e.dir = d' ∧ e.name = n'
    · obtain ⟨rfl, rfl⟩ := he
      have := Classical.not_and_iff_not_or_not.1 h
      simpa [Classical.not_and_iff_not_or_not] using this
    · have : decide (e.dir = d' ∧ e.name = n') = false := by simpa using he
      rw [this]; simp

theorem Fs.put_dirs (fs : Fs) (d : List (List Byte)) (n c : List Byte) : (fs.put d n c).dirs = fs.dirs := rfl

theorem Fs.mkdirs_files (fs : Fs) (cwd : List (List Byte)) (o : OutDir) : (fs.mkdirs cwd o).files = fs.files := by
  unfold Fs.mkdirs
  split <;> rfl

theorem Fs.mkdirs_get (fs : Fs) (cwd : List (List Byte)) (o : OutDir) (d : List (List Byte)) (n : List Byte) :
    (fs.mkdirs cwd o).get d n = fs.get d n := by
  unfold Fs.get
  rw [Fs.mkdirs_files]

/-- What happens to the files once the place of the output is known. -/
inductive Did (K : Tool) (fs : Fs) (answer : Option Byte) (a : Args) (s : Source) (dir : List (List Byte)) (file : List Byte) : Exit → Fs → Prop
  | refused : Did K fs answer a s dir file (.code 1) fs
  | unanswered : (fs.get dir file).isSome → a.yes = false → answer = none → Did K fs answer a s dir file .undefined fs
  | declined (c : Byte) : (fs.get dir file).isSome → a.yes = false → answer = some c → c ≠ 0x79#8 → c ≠ 0x59#8 → Did K fs answer a s dir file (.code 0) fs
  | nothing (sd : List (List Byte)) (bytes : List Byte) : s.dir = some sd → fs.get sd s.name = some bytes → K.topics bytes = some (0, 0) →
      Did K fs answer a s dir file (.code 0) fs
  | failed (left : List Byte) (sd : List (List Byte)) (bytes : List Byte) (m : Profile.Map) : s.dir = some sd → fs.get sd s.name = some bytes →
      ((fs.get dir file).isSome → a.yes = true ∨ answer = some 0x79#8 ∨ answer = some 0x59#8) →
      (if s.dir = some dir ∧ s.name = file then K.ontoItself a m bytes else K.convert a m bytes) = .failed left →
      Did K fs answer a s dir file (.code 1) (fs.put dir file left)
  | done (out : List Byte) (sd : List (List Byte)) (bytes : List Byte) (m : Profile.Map) (raw compressed : Nat) : s.dir = some sd →
      fs.get sd s.name = some bytes → K.topics bytes = some (raw, compressed) → (a.compress = true → raw ≠ 0) → (a.decode = true → compressed ≠ 0) →
      ((fs.get dir file).isSome → a.yes = true ∨ answer = some 0x79#8 ∨ answer = some 0x59#8) →
      (if s.dir = some dir ∧ s.name = file then K.ontoItself a m bytes else K.convert a m bytes) = .done out →
      Did K fs answer a s dir file (.code 0) (match s.metaDir with
        | none => fs.put dir file out
        | some d => (fs.put dir file out).put dir metadataName (metadata (((fs.put dir file out).get d metadataName).getD []) file a.compress))

theorem convert_did (K : Tool) (fs : Fs) (cwd : List (List Byte)) (answer : Option Byte) (a : Args) (s : Source) (dir : List (List Byte)) (file : List Byte)
    (hq : (fs.get dir file).isSome → a.yes = true ∨ answer = some 0x79#8 ∨ answer = some 0x59#8) :
    Did K fs answer a s dir file (convert K fs cwd a s dir file).1 (convert K fs cwd a s dir file).2 := by
  unfold convert
  by_cases h1 : a.method ≠ ascii "none" ∧ a.method ≠ ascii "zstd"
  · rw [if_pos h1]; exact .refused
  rw [if_neg h1]
  cases hb : (s.dir.bind fun d => fs.get d s.name) with
  | none => exact .refused
  | some bytes =>
    simp only
    obtain ⟨sd, hsd, hsb⟩ := Option.bind_eq_some_iff.1 hb
    cases ht : K.topics bytes with
    | none => exact .refused
    | some rc =>
      obtain ⟨raw, compressed⟩ := rc
      simp only
      by_cases h2 : raw = 0 ∧ compressed = 0
      · rw [if_pos h2]
        obtain ⟨rfl, rfl⟩ := h2
        exact .nothing sd bytes hsd hsb ht
      rw [if_neg h2]
      by_cases h3 : raw = 0 ∧ a.compress = true
      · rw [if_pos h3]; exact .refused
      rw [if_neg h3]
      by_cases h4 : compressed = 0 ∧ a.decode = true
      · rw [if_pos h4]; exact .refused
      rw [if_neg h4]
      cases hp : profileOf K fs cwd a with
      | none => exact .refused
      | some m =>
        simp only
        cases hc : (if s.dir = some dir ∧ s.name = file then K.ontoItself a m bytes else K.convert a m bytes) with
        | notOpened => exact .refused
        | failed left => exact .failed left sd bytes m hsd hsb hq hc
        | done out =>
          have := Did.done (K := K) (fs := fs) (answer := answer) (a := a) (s := s) (dir := dir) (file := file) out sd bytes m raw compressed hsd hsb ht
            (fun h e => h3 ⟨e, h⟩) (fun h e => h4 ⟨e, h⟩) hq hc
          simp only
          cases hm : s.metaDir with
          | none => rw [hm] at this; exact this
          | some d => rw [hm] at this; exact this

theorem confirm_did (K : Tool) (fs : Fs) (cwd : List (List Byte)) (answer : Option Byte) (a : Args) (s : Source) (dir : List (List Byte)) (file : List Byte) :
    Did K fs answer a s dir file (confirm K fs cwd answer a s dir file).1 (confirm K fs cwd answer a s dir file).2 := by
  unfold confirm
  by_cases h1 : a.decode = true ∧ a.profile.isSome = true
  · rw [if_pos h1]; exact .refused
  rw [if_neg h1]
  by_cases h2 : (fs.get dir file).isSome = true ∧ ¬ a.yes = true
  · rw [if_pos h2]
    cases ha : answer with
    | none => exact .unanswered h2.1 (by simpa using h2.2) rfl
    | some c =>
      simp only
      by_cases h3 : c ≠ 0x79#8 ∧ c ≠ 0x59#8
      · rw [if_pos h3]
        exact .declined c h2.1 (by simpa using h2.2) rfl h3.1 h3.2
      · rw [if_neg h3]
        refine convert_did K fs cwd (some c) a s dir file (fun _ => .inr ?_)
        by_cases hy : c = 0x79#8
        · exact .inl (by rw [hy])
        · right
          have : c = 0x59#8 := Classical.byContradiction fun e => h3 ⟨hy, e⟩
          rw [this]
  · rw [if_neg h2]
    refine convert_did K fs cwd answer a s dir file (fun h => .inl ?_)
    exact Classical.byContradiction fun e => h2 ⟨h, e⟩

/-- All ways through `main`. -/
theorem main_cases (K : Tool) (fs : Fs) (cwd : List (List Byte)) (answer : Option Byte) (a : Args) :
    (a.help = true ∧ main K fs cwd answer a = (.code 0, fs)) ∨ main K fs cwd answer a = (.code 1, fs) ∨
      (∃ p s, a.filename = some p ∧ source fs cwd p = some s ∧ s.metaDir.isSome ∧ s.bare = true ∧ main K fs cwd answer a = (.abort, fs)) ∨
      ∃ p s dir file m, a.filename = some p ∧ source fs cwd p = some s ∧ a.compress ≠ a.decode ∧
        place fs.dirs cwd s.metaDir (target a s).1 (target a s).2 = .into dir file m ∧
        Did K (fs.mkdirs cwd (target a s).1) answer a s dir file (main K fs cwd answer a).1 (main K fs cwd answer a).2 := by
  unfold main
  by_cases h1 : a.help = true
  · rw [if_pos h1]; exact .inl ⟨h1, rfl⟩
  rw [if_neg h1]
  right
  cases hf : a.filename with
  | none => exact .inl rfl
  | some p =>
    simp only
    by_cases h2 : p.isEmpty = true
    · rw [if_pos h2]; exact .inl rfl
    rw [if_neg h2]
    by_cases h3 : a.compress = true ∧ a.decode = true
    · rw [if_pos h3]; exact .inl rfl
    rw [if_neg h3]
    by_cases h4 : ¬ a.compress = true ∧ ¬ a.decode = true
    · rw [if_pos h4]; exact .inl rfl
    rw [if_neg h4]
    by_cases h5 : a.viz = true ∧ ¬ a.compress = true
    · rw [if_pos h5]; exact .inl rfl
    rw [if_neg h5]
    have hx : a.compress ≠ a.decode := by
      intro e
      cases hcomp : a.compress with
      | true => rw [hcomp] at e; exact h3 ⟨hcomp, e.symm⟩
      | false => rw [hcomp] at e; exact h4 ⟨by rw [hcomp]; simp, by rw [← e]; simp⟩
    cases hs : source fs cwd p with
    | none => exact .inl rfl
    | some s =>
      simp only
      by_cases h6 : s.metaDir.isSome = true ∧ s.bare = true
      · rw [if_pos h6]
        exact .inr (.inl ⟨p, s, rfl, hs, h6.1, h6.2, rfl⟩)
      rw [if_neg h6]
      cases hp : place fs.dirs cwd s.metaDir (target a s).1 (target a s).2 with
      | refused => exact .inl rfl
      | into dir file m =>
        simp only
        exact .inr (.inr ⟨p, s, dir, file, m, rfl, hs, hx, hp, confirm_did ..⟩)

theorem place_into {ds : Dirs} {cwd : List (List Byte)} {input : Option (List (List Byte))} {o : OutDir} {file file' : List Byte} {dir : List (List Byte)}
    {m : Bool} (h : place ds cwd input o file = .into dir file' m) : file' = file ∧ m = input.isSome := by
  unfold place at h
  split at h
  · split at h
    · cases h
    · cases h; exact ⟨rfl, rfl⟩
  · split at h
    · cases h; exact ⟨rfl, rfl⟩
    · cases h

end Cloudini.Bag
