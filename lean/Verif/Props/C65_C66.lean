import Verif.Lemmas.Bag
import Verif.Lemmas.Profile
import Verif.Props.C44

/-!
# C65–C66: the command-line bag converter

`metadata text name encoding` is the text of `metadata.yaml` that the converter writes beside a bag it saves as `name`.
-/

namespace Cloudini.Props

open Cloudini.Bag

/-! ## C65 -/

/-- **C65.** The new metadata is the old text with every topic type of the converted kind replaced, and then, if the section of the file paths names a file
first, every occurrence of that name replaced by the new one; nothing else changes.  This determines the text. -/
theorem C65_meaning (text name out : List Byte) (encoding : Bool) :
    metadata text name encoding = out ↔
      ∃ mid, Replaced (ascii "type: " ++ if encoding then ascii "sensor_msgs/msg/PointCloud2" else ascii "point_cloud_interfaces/msg/CompressedPointCloud2")
          (ascii "type: " ++ if encoding then ascii "point_cloud_interfaces/msg/CompressedPointCloud2" else ascii "sensor_msgs/msg/PointCloud2") text mid ∧
        ((∃ line old, FirstFile mid line ∧ EndTrimmed line old ∧ old ≠ [] ∧ Replaced old name mid out) ∨
          ((∀ line old, FirstFile mid line → EndTrimmed line old → old = []) ∧ out = mid)) := by
  have hp : (ascii "type: " ++ if encoding then rawType else compressedType) ≠ [] := by cases encoding <;> decide +kernel
  have key : ∀ mid, replaceAll text (ascii "type: " ++ if encoding then rawType else compressedType)
      (ascii "type: " ++ if encoding then compressedType else rawType) = mid →
      ((match firstFile mid with
        | none => mid
        | some line => if dropBlankEnd line = [] then mid else replaceAll mid (dropBlankEnd line) name) = out ↔
        ((∃ line old, FirstFile mid line ∧ EndTrimmed line old ∧ old ≠ [] ∧ Replaced old name mid out) ∨
          ((∀ line old, FirstFile mid line → EndTrimmed line old → old = []) ∧ out = mid))) := by
    intro mid _
    cases hf : firstFile mid with
    | none =>
      constructor
      · intro h; exact Or.inr ⟨fun _ _ hl => absurd hl (firstFile_none hf), h.symm⟩
      · rintro (⟨l, o, hl, -⟩ | ⟨-, e⟩)
        · exact absurd hl (firstFile_none hf)
        · exact e.symm
    | some line =>
      have hl := firstFile_some hf
      simp only
      by_cases hd : dropBlankEnd line = []
      · rw [if_pos hd]
        constructor
        · intro h
          refine Or.inr ⟨fun l o h1 h2 => ?_, h.symm⟩
          have := hl.unique h1
          subst this
          rw [h2.unique (dropBlankEnd_spec line), hd]
        · rintro (⟨l, o, h1, h2, h3, -⟩ | ⟨-, e⟩)
          · have := hl.unique h1
            subst this
            exact absurd ((h2.unique (dropBlankEnd_spec line)).trans hd) h3
          · exact e.symm
      · rw [if_neg hd, replaceAll_iff hd]
        constructor
        · intro h; exact Or.inl ⟨line, _, hl, dropBlankEnd_spec line, hd, h⟩
        · rintro (⟨l, o, h1, h2, h3, h4⟩ | ⟨h1, -⟩)
          · have := hl.unique h1
            subst this
            rw [(dropBlankEnd_spec line).unique h2]
            exact h4
          · exact absurd (h1 line _ hl (dropBlankEnd_spec line)) hd
  constructor
  · intro h
    exact ⟨_, (replaceAll_iff hp).1 rfl, (key _ rfl).1 h⟩
  · rintro ⟨mid, h1, h2⟩
    have e : replaceAll text (ascii "type: " ++ if encoding then rawType else compressedType)
      (ascii "type: " ++ if encoding then compressedType else rawType) = mid := (replaceAll_iff hp).2 h1
    have := (key mid e).2 h2
    unfold metadata
    simp only
    rw [e]
    exact this

theorem unbordered_of {pat : List Byte} (h : ∀ k < pat.length, 0 < k → pat.take k ≠ pat.drop (pat.length - k)) : Unbordered pat :=
  fun k h1 h2 => h k h2 h1

/-- **C65, there and back.** Topic types replaced when encoding are restored when decoding, in every text that does not already contain the compressed type. -/
theorem C65_types_inverse (text : List Byte) (h : ¬ Occurs (ascii "type: point_cloud_interfaces/msg/CompressedPointCloud2") text) :
    replaceAll (replaceAll text (ascii "type: sensor_msgs/msg/PointCloud2") (ascii "type: point_cloud_interfaces/msg/CompressedPointCloud2"))
      (ascii "type: point_cloud_interfaces/msg/CompressedPointCloud2") (ascii "type: sensor_msgs/msg/PointCloud2") = text := by
  rw [replaceAll_iff (by decide +kernel)]
  exact Replaced.inverse (unbordered_of (by decide +kernel)) h ((replaceAll_iff (by decide +kernel)).1 rfl)

/-- The same for a file name, if the new one does not overlap itself and does not occur in the text. -/
theorem C65_name_inverse (text old new : List Byte) (hold : old ≠ []) (hnew : new ≠ []) (hb : Unbordered new) (h : ¬ Occurs new text) :
    replaceAll (replaceAll text old new) new old = text := by
  rw [replaceAll_iff hnew]
  exact Replaced.inverse hb h ((replaceAll_iff hold).1 rfl)

/-- A metadata file with a cloud and an image topic. -/
def bagMeta : List Byte := ascii "bag:\n  relative_file_paths:\n    - run_0.mcap\n  topics:\n    - name: /points\n      type: sensor_msgs/msg/PointCloud2\n    - name: /image\n      type: sensor_msgs/msg/Image\n  files:\n    - path: run_0.mcap\n"

example : metadata bagMeta (ascii "run_0_encoded.mcap") true = ascii "bag:\n  relative_file_paths:\n    - run_0_encoded.mcap\n  topics:\n    - name: /points\n      type: point_cloud_interfaces/msg/CompressedPointCloud2\n    - name: /image\n      type: sensor_msgs/msg/Image\n  files:\n    - path: run_0_encoded.mcap\n" ∧
    metadata (metadata bagMeta (ascii "run_0_encoded.mcap") true) (ascii "run_0.mcap") false = bagMeta := by
  unfold metadata replaceAll
  decide +kernel

/-- **Only whole types should change.** They do not: a topic whose type merely begins like a point cloud gets a type that does not exist. -/
theorem C65_prefix_mangled : metadata (ascii "type: sensor_msgs/msg/PointCloud2Array\n") (ascii "x.mcap") true =
    ascii "type: point_cloud_interfaces/msg/CompressedPointCloud2Array\n" := by
  unfold metadata replaceAll
  decide +kernel

/-- **Only file names should change.** They do not: the name is replaced wherever its text occurs, here in a topic. -/
theorem C65_name_anywhere : metadata (ascii "relative_file_paths:\n  - map\ntopics:\n  - name: /global_map\n") (ascii "new.mcap") true =
    ascii "relative_file_paths:\n  - new.mcap\ntopics:\n  - name: /global_new.mcap\n" := by
  unfold metadata replaceAll
  decide +kernel

/-- The hypotheses of `C65_name_inverse` for the names above. -/
example : replaceAll (replaceAll bagMeta (ascii "run_0.mcap") (ascii "run_0_encoded.mcap")) (ascii "run_0_encoded.mcap") (ascii "run_0.mcap") = bagMeta := by
  refine C65_name_inverse _ _ _ (by decide +kernel) (by decide +kernel) (unbordered_of (by decide +kernel)) ?_
  exact findAt_none (by decide +kernel) (by decide +kernel)

/-! ## C66 -/

/-- **C66 (partial).** A run on a bag with metadata (in the directory `input`, which exists) never writes into the directory of the bag, so neither the bag
nor its metadata is overwritten, provided the output directory exists or its path has no "..".  Missing: paths with ".." below a directory that does
not exist yet (`C66_dotdot`). -/
theorem C66_protected_partial (ds : Dirs) (hc : Closed ds) (cwd input : List (List Byte)) (o : OutDir) (file file' : List Byte) (dir : List (List Byte))
    (m : Bool) (hin : input ∈ ds) (ho : (∃ d, resolve ds (o.start cwd) o.comps = some d) ∨ .dotdot ∉ o.comps)
    (h : place ds cwd (some input) o file = .into dir file' m) : dir ≠ input := by
  unfold place at h
  cases hr : resolve ds (o.start cwd) o.comps with
  | some d =>
    rw [hr] at h
    simp only at h
    split at h
    · cases h
    · rename_i hne
      simp only [Placed.into.injEq] at h
      intro e
      apply hne
      rw [h.1, e]
  | none =>
    have hn : Comp.dotdot ∉ o.comps := by
      rcases ho with ⟨d, hd⟩ | h
      · rw [hr] at hd; cases hd
      · exact h
    rw [hr] at h
    simp only at h
    cases hr2 : resolve (createDirs ds (o.start cwd) o.comps) (o.start cwd) o.comps with
    | none => rw [hr2] at h; cases h
    | some d =>
      rw [hr2] at h
      simp only [Placed.into.injEq] at h
      have hd := resolve_names _ _ hn d hr2
      intro e
      have : resolve ds (o.start cwd) o.comps = some (o.start cwd ++ names o.comps) := by
        apply resolve_exists hc _ _ hn
        right
        rw [← hd, h.1, e]
        exact hin
      rw [hr] at this
      cases this

/-- **C66 is false for some paths.** The bag is in /data/bag.  With the output "new/../bag/out.mcap", given in /data where "new" does not exist, the test
passes, "new" is made, and the output and its `metadata.yaml` go to /data/bag: the original metadata is overwritten. -/
theorem C66_dotdot :
    let data : List (List Byte) := [ascii "data"]
    let bag : List (List Byte) := [ascii "data", ascii "bag"]
    place [data, bag] data (some bag) ⟨false, [.name (ascii "new"), .dotdot, .name (ascii "bag")]⟩ (ascii "out.mcap") = .into bag (ascii "out.mcap") true := by
  decide +kernel

/-- **Without metadata nothing protects the input.** A bare file may be given as its own output: it is opened for writing in the directory it is read from. -/
theorem C66_input_overwritten (ds : Dirs) (cwd dir : List (List Byte)) (o : OutDir) (file : List Byte)
    (h : resolve ds (o.start cwd) o.comps = some dir) : place ds cwd none o file = .into dir file false := by
  unfold place
  rw [h]
  rfl

/-- **C66, default output.** Without `-o` the output of a bag with metadata goes to a sibling directory: it is never refused, and never the bag itself. -/
theorem C66_default (ds : Dirs) (hc : Closed ds) (cwd parent : List (List Byte)) (name stem : List Byte) (encode : Bool)
    (hin : parent ++ [name] ∈ ds) :
    place ds cwd (some (parent ++ [name])) (defaultDir (parent ++ [name]) encode) (defaultName stem encode) =
        .into (parent ++ [name ++ ascii (if encode then "_encoded" else "_decoded")]) (defaultName stem encode) true := by
  have hcomps : (defaultDir (parent ++ [name]) encode).comps =
      parent.map Comp.name ++ [Comp.name (name ++ ascii (if encode then "_encoded" else "_decoded"))] := by
    unfold defaultDir
    simp
  have hstart : (defaultDir (parent ++ [name]) encode).start cwd = [] := rfl
  generalize hs : name ++ ascii (if encode then "_encoded" else "_decoded") = name' at *
  have hne : name' ≠ name := by
    intro e
    have := congrArg List.length (hs.trans e)
    have hl : (ascii (if encode then "_encoded" else "_decoded")).length = 8 := by cases encode <;> decide +kernel
    rw [List.length_append, hl] at this
    omega
  have hnames : ∀ p : List (List Byte), names (p.map Comp.name) = p := by
    intro p
    induction p with
    | nil => rfl
    | cons x p ih => simp [names, ih]
  have hcomps' : (defaultDir (parent ++ [name]) encode).comps = (parent ++ [name']).map Comp.name := by rw [hcomps]; simp
  have hno : ∀ p : List (List Byte), Comp.dotdot ∉ p.map Comp.name := by intro p h; simp at h
  have hpre : ∀ d : Dirs, Closed d → (parent = [] ∨ parent ∈ d) → parent ++ [name'] ∈ d →
      resolve d [] ((parent ++ [name']).map Comp.name) = some (parent ++ [name']) := by
    intro d hcd hp hd
    have := resolve_exists hcd ((parent ++ [name']).map Comp.name) [] (hno _) (Or.inr (by rw [hnames]; exact hd))
    rw [this, hnames]
    rfl
  unfold place
  rw [hstart, hcomps']
  cases hr : resolve ds [] ((parent ++ [name']).map Comp.name) with
  | some d =>
    have := resolve_names _ _ (hno _) d hr
    rw [hnames] at this
    simp only [List.nil_append] at this
    subst this
    simp only
    rw [if_neg]
    · rfl
    · intro e
      simp only [Option.some.injEq] at e
      have := List.append_inj_right' e rfl
      simp only [List.cons.injEq, and_true] at this
      exact hne this.symm
  | none =>
    simp only
    have hp : parent = [] ∨ parent ∈ ds := hc _ _ hin
    -- walking down the existing parents
    have walk : ∀ (q at_ : List (List Byte)), (q = [] ∨ at_ ++ q ∈ ds) →
        createDirs ds at_ (q.map Comp.name ++ [Comp.name name']) =
          (if at_ ++ q ++ [name'] ∈ ds then ds else (at_ ++ q ++ [name']) :: ds) := by
      intro q
      induction q with
      | nil => intro at_ _; simp [createDirs]
      | cons x q ih =>
        intro at_ h
        have h : at_ ++ x :: q ∈ ds := by
          rcases h with h | h
          · cases h
          · exact h
        have e : at_ ++ x :: q = at_ ++ [x] ++ q := by simp
        rw [e] at h
        have hm : at_ ++ [x] ∈ ds := hc.prefix _ _ _ rfl (by simp) h
        simp only [List.map_cons, List.cons_append, createDirs]
        rw [if_pos hm, ih _ (Or.inr h)]
        simp
    have hw := walk parent [] (by simpa using hp)
    simp only [List.nil_append] at hw
    rw [List.map_append, List.map_cons, List.map_nil, hw]
    have hnot : parent ++ [name'] ∉ ds := by
      intro hm
      rw [hpre ds hc hp hm] at hr
      cases hr
    rw [if_neg hnot, ← List.map_singleton (f := Comp.name), ← List.map_append]
    have hcl : Closed ((parent ++ [name']) :: ds) := by
      intro d n hd
      rcases List.mem_cons.1 hd with e | e
      · have := List.append_inj_left' e rfl
        subst this
        rcases hp with h | h
        · exact Or.inl h
        · exact Or.inr (List.mem_cons_of_mem _ h)
      · rcases hc _ _ e with h | h
        · exact Or.inl h
        · exact Or.inr (List.mem_cons_of_mem _ h)
    have := resolve_exists hcl ((parent ++ [name']).map Comp.name) [] (hno _) (Or.inr (by rw [hnames]; exact List.mem_cons_self ..))
    rw [this, hnames]
    rfl

/-- The hypotheses of `C66_protected_partial` and `C66_default` hold for /data/bag. -/
example : place [[ascii "data"], [ascii "data", ascii "bag"]] [ascii "data"] (some [ascii "data", ascii "bag"])
      (defaultDir [ascii "data", ascii "bag"] true) (defaultName (ascii "run_0") true) =
    .into [ascii "data", ascii "bag_encoded"] (ascii "run_0_encoded.mcap") true := by
  have hc : Closed [[ascii "data"], [ascii "data", ascii "bag"]] := by
    intro d n h
    rcases List.mem_cons.1 h with e | e
    · left
      exact List.append_inj_left' (t₂ := [ascii "data"]) (s₂ := []) e rfl
    · right
      have := List.append_inj_left' (s₂ := [ascii "data"]) (t₂ := [ascii "bag"]) (List.mem_singleton.1 e) rfl
      rw [this]
      exact List.mem_cons_self ..
  exact C66_default _ hc [ascii "data"] [ascii "data"] (ascii "bag") (ascii "run_0") true (by decide +kernel)

/-- **C66, profiles in files (partial).** A profile without white space inside means the same in a file (with white space around it) and on the command line.
Missing: profiles with white space, such as the documented one (`C66_profile_cut`). -/
theorem C66_profile_partial (stof : List Byte → Res (BitVec 32)) (before profile after : List Byte) (m : Profile.Map)
    (hb : ∀ c ∈ before, Blank c) (ha : ∀ c, after.head? = some c → Blank c) (hp : ∀ c ∈ profile, ¬ Blank c) (hne : profile ≠ []) :
    profileOption stof (some (before ++ profile ++ after)) profile m = profileOption stof none profile m := by
  have : firstWord (before ++ profile ++ after) = profile := by
    unfold firstWord
    rw [List.append_assoc, dropWhile_of' (fun c hc => (isSpace_iff c).2 (hb c hc))]
    · exact takeWhile_of (fun c hc => by simpa using (isSpace_false_iff c).2 (hp c hc)) (fun c hc => by simpa using (isSpace_iff c).2 (ha c hc))
    · intro c hc
      cases profile with
      | nil => exact absurd rfl hne
      | cons x p =>
        simp only [List.cons_append, List.head?_cons, Option.some.injEq] at hc
        rw [← hc]
        exact (isSpace_false_iff x).2 (hp x (List.mem_cons_self ..))
  unfold profileOption
  simp only
  rw [this]

/-- **The documented profile, in a file, is rejected** after its first entry has been applied, whatever `stof` makes of the numbers. -/
theorem C66_profile_cut (stof : List Byte → Res (BitVec 32)) (m : Profile.Map) (r : BitVec 32) (h : stof (ascii "0.001") = .ok r) :
    profileOption stof (some (ascii "xyz:0.001; intensity:0.1; timestamp:remove")) [] m =
      (Profile.assign (ascii "xyz") r m, .throw "Invalid profile (wrong number of parameters)") := by
  have e1 : firstWord (ascii "xyz:0.001; intensity:0.1; timestamp:remove") = ascii "xyz:0.001;" := by decide +kernel
  have e2 : split 59#8 (ascii "xyz:0.001;") = [ascii "xyz:0.001", []] := by decide +kernel
  have e3 : split 58#8 (ascii "xyz:0.001") = [ascii "xyz", ascii "0.001"] := by decide +kernel
  have e4 : split 58#8 ([] : List Byte) = [[]] := by decide +kernel
  have e5 : Profile.trim (ascii "0.001") = ascii "0.001" := by decide +kernel
  have e6 : Profile.trim (ascii "xyz") = ascii "xyz" := by decide +kernel
  have e7 : Profile.value stof (ascii "0.001") = .ok r := by
    unfold Profile.value
    rw [if_neg (by decide +kernel), h]
  unfold profileOption Profile.addProfile
  simp only [e1, e2, Profile.addEntries, e3, e5, e6, e7, e4]

/-- The same text as the argument itself is accepted, by any `stof` that understands its numbers. -/
example (stof : List Byte → Res (BitVec 32)) (m : Profile.Map) (r s : BitVec 32) (h1 : stof (ascii "0.001") = .ok r) (h2 : stof (ascii "0.1") = .ok s) :
    (profileOption stof none (ascii "xyz:0.001; intensity:0.1; timestamp:remove") m).2 = .ok () := by
  have e2 : split 59#8 (ascii "xyz:0.001; intensity:0.1; timestamp:remove") = [ascii "xyz:0.001", ascii " intensity:0.1", ascii " timestamp:remove"] := by
    decide +kernel
  have e3 : split 58#8 (ascii "xyz:0.001") = [ascii "xyz", ascii "0.001"] := by decide +kernel
  have e4 : split 58#8 (ascii " intensity:0.1") = [ascii " intensity", ascii "0.1"] := by decide +kernel
  have e5 : split 58#8 (ascii " timestamp:remove") = [ascii " timestamp", ascii "remove"] := by decide +kernel
  have t1 : Profile.trim (ascii "0.001") = ascii "0.001" := by decide +kernel
  have t2 : Profile.trim (ascii "0.1") = ascii "0.1" := by decide +kernel
  have t3 : Profile.trim (ascii "remove") = ascii "remove" := by decide +kernel
  have v1 : Profile.value stof (ascii "0.001") = .ok r := by unfold Profile.value; rw [if_neg (by decide +kernel), h1]
  have v2 : Profile.value stof (ascii "0.1") = .ok s := by unfold Profile.value; rw [if_neg (by decide +kernel), h2]
  have v3 : Profile.value stof (ascii "remove") = .ok 0#32 := by unfold Profile.value; rw [if_pos rfl]
  unfold profileOption Profile.addProfile
  simp only [e2, Profile.addEntries, e3, e4, e5, t1, t2, t3, v1, v2, v3]

/-- The hypotheses of `C66_profile_partial`: a one-word profile with a newline after it. -/
example (stof : List Byte → Res (BitVec 32)) (m : Profile.Map) :
    profileOption stof (some (ascii "xyz:0.001;intensity:0.1\n")) [] m = profileOption stof none (ascii "xyz:0.001;intensity:0.1") m :=
  C66_profile_partial stof [] (ascii "xyz:0.001;intensity:0.1") (ascii "\n") m (by simp) (by decide +kernel) (by decide +kernel) (by decide +kernel)

/-- `C66_protected_partial` for /data/bag and an output directory that exists. -/
example (file file' : List Byte) (dir : List (List Byte)) (m : Bool)
    (h : place [[ascii "data"], [ascii "data", ascii "bag"]] [ascii "data"] (some [ascii "data", ascii "bag"]) ⟨false, [.name (ascii "bag"), .dotdot]⟩ file =
      .into dir file' m) : dir ≠ [ascii "data", ascii "bag"] := by
  refine C66_protected_partial _ ?_ _ _ _ _ _ _ _ (by simp) (.inl ⟨[ascii "data"], by decide +kernel⟩) h
  intro d n h
  rcases List.mem_cons.1 h with e | e
  · left
    exact List.append_inj_left' (t₂ := [ascii "data"]) (s₂ := []) e rfl
  · simp only [List.mem_singleton] at e
    have := List.append_inj_left' (t₂ := [ascii "bag"]) (s₂ := [ascii "data"]) e rfl
    right
    rw [this]
    simp
example : place [[ascii "data"], [ascii "data", ascii "bag"]] [ascii "data"] (some [ascii "data", ascii "bag"]) ⟨false, [.name (ascii "bag"), .dotdot]⟩
    (ascii "o.mcap") = .into [ascii "data"] (ascii "o.mcap") true := by decide +kernel
example (m : Profile.Map) : profileOption (fun _ => .ok 5#32) (some (ascii "xyz:0.001; intensity:0.1; timestamp:remove")) [] m =
    (Profile.assign (ascii "xyz") 5#32 m, .throw "Invalid profile (wrong number of parameters)") := C66_profile_cut _ m 5#32 rfl

end Cloudini.Props
