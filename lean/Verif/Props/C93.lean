import Verif.Model.Cutter
import Verif.Lemmas.BagTool
import Verif.Props.C58_C59

/-!
# C93: mcap_cutter writes the cut of the file it is told to, and nothing else

`C59` is about the class; this is the program: names, exit codes and the files it leaves.
-/

namespace Cloudini.Props

open Cloudini.Bag (Fs Path OutDir Exit resolve)
open Cloudini.Mcap (File Message find delivered cut pointcloudName pointcloudText)

/-- The path `p` leads to the file `name` of the directory `dir`. -/
def Leads (fs : Fs) (cwd : List (List Byte)) (p : Path) (dir : List (List Byte)) (name : List Byte) : Prop :=
  resolve fs.dirs (p.dir.start cwd) p.dir.comps = some dir ∧ p.file = name

/-- The rule for the output: the one given, with the extension added if need be; else `<stem>_cut.mcap` in the current directory. -/
inductive CutOutput (a : Cutter.Args) (input : Path) : Path → Prop
  | given {p} : a.output = some p → PcdTool.extOf p.file = ascii ".mcap" → CutOutput a input p
  | completed {p} : a.output = some p → PcdTool.extOf p.file ≠ ascii ".mcap" → CutOutput a input ⟨p.dir, p.file ++ ascii ".mcap"⟩
  | here {stem} : a.output = none → input.file = stem ++ ascii ".mcap" → CutOutput a input ⟨⟨false, []⟩, stem ++ ascii "_cut.mcap"⟩

/-- `out` holds, for every topic with clouds, its first `max` clouds, and nothing else; in the order of `f`. -/
def HoldsFirst (f : File) (max : Nat) (out : File) : Prop :=
  ∃ p : Nat → Bool, (∀ id, p id = true ↔ CloudChannel f id) ∧
    Mcap.Pairwise (fun m w => ∃ c, find f.channels m.channel = some c ∧
        w = ⟨c.topic, ascii "cdr", ⟨pointcloudName, ascii "ros2msg", pointcloudText⟩, m.sequence, m.logTime, m.publishTime, m.data⟩)
      (firstOf p max [] f.messages) (delivered out) ∧ out.profile = f.profile

theorem ext_suffix {n x : List Byte} (h : PcdTool.extOf n = x) : Bag.stemOf n ++ x = n := by
  unfold Bag.stemOf
  rw [h]
  unfold PcdTool.extOf at h
  split at h
  · subst h; simp
  · split at h
    · subst h
      rw [List.length_drop]
      rename_i hl
      rw [show n.length - (n.length - (n.length - ((n.reverse.takeWhile (· != 0x2E#8)).length + 1))) =
        n.length - ((n.reverse.takeWhile (· != 0x2E#8)).length + 1) by omega, List.take_append_drop]
    · subst h; simp

theorem target_rule (a : Cutter.Args) (p : Path) (h : PcdTool.extOf p.file = ascii ".mcap") : CutOutput a p (Cutter.target a p) := by
  unfold Cutter.target
  cases e : a.output with
  | none => exact .here e (ext_suffix h).symm
  | some o =>
    by_cases hx : PcdTool.extOf o.file = ascii ".mcap"
    · simp only [if_pos hx]; exact .given e hx
    · simp only [if_neg hx]; exact .completed e hx

/-- The rule names one file. -/
theorem C93_one_output (a : Cutter.Args) (p o o' : Path) (h : CutOutput a p o) (h' : CutOutput a p o') : o = o' := by
  cases h <;> cases h' <;> rename_i x1 x2 x3 x4 <;> simp_all

theorem number_ge {α : Type} (l : List α) : ∀ n, ∀ k ∈ (Mcap.number n l).map (·.1), n ≤ k := by
  induction l with
  | nil => intro n k h; cases h
  | cons x l ih =>
    intro n k h
    simp only [Mcap.number, List.map_cons, List.mem_cons] at h
    rcases h with rfl | h
    · exact Nat.le_refl _
    · have := ih (n + 1) k h; omega

theorem number_nodup {α : Type} (l : List α) : ∀ n, ((Mcap.number n l).map (·.1)).Nodup := by
  induction l with
  | nil => intro n; exact List.nodup_nil
  | cons x l ih =>
    intro n
    simp only [Mcap.number, List.map_cons, List.nodup_cons]
    exact ⟨fun h => by have := number_ge l (n + 1) n h; omega, ih (n + 1)⟩

/-- The ids of the file written are used once. -/
theorem cut_ids {max : Nat} {f g : File} (h : cut max f = .ok (some g)) : DistinctIds g.channels := by
  unfold cut at h
  obtain ⟨u, _, h⟩ := Res.bind_eq_ok.1 h
  split at h
  · simp at h
  simp only [Res.ok.injEq, Option.some.injEq] at h
  rw [← h]
  exact number_nodup _ _

/-- How a run ends: nothing changed, or the output was written. -/
theorem cutter_cases (K : Cutter.Library) (fs : Fs) (cwd : List (List Byte)) (a : Cutter.Args) :
    (Cutter.main K fs cwd a).2 = fs ∨
      ∃ p d bytes f dir g, a.help = false ∧ a.filename = some p ∧ PcdTool.extOf p.file = ascii ".mcap" ∧ Leads fs cwd p d p.file ∧ fs.get d p.file = some bytes ∧
        0 < a.max ∧ K.read bytes = some f ∧ (∃ g', cut a.max.toNat f = .ok (some g')) ∧ Leads fs cwd (Cutter.target a p) dir (Cutter.target a p).file ∧
        dir ++ [(Cutter.target a p).file] ∉ fs.dirs ∧
        cut a.max.toNat (if dir = d ∧ (Cutter.target a p).file = p.file then { f with messages := K.late bytes } else f) = .ok (some g) ∧
        Cutter.main K fs cwd a = (.code 0, fs.put dir (Cutter.target a p).file (K.write g)) := by
  generalize hm : Cutter.main K fs cwd a = r
  unfold Cutter.main at hm
  split at hm
  · subst hm; exact .inl rfl
  rename_i hh
  split at hm
  · subst hm; exact .inl rfl
  rename_i p hf
  split at hm
  · subst hm; exact .inl rfl
  rename_i hx
  split at hm
  · subst hm; exact .inl rfl
  rename_i d hd
  split at hm
  · subst hm; exact .inl rfl
  rename_i bytes hb
  split at hm
  · subst hm; exact .inl rfl
  rename_i hmax
  unfold Cutter.cutFile at hm
  split at hm
  · subst hm; exact .inl rfl
  rename_i f hr
  split at hm
  · subst hm; exact .inl rfl
  · subst hm; exact .inl rfl
  · subst hm; exact .inl rfl
  rename_i g hg
  split at hm
  · subst hm; exact .inl rfl
  rename_i dir hdir
  split at hm
  · subst hm; exact .inl rfl
  rename_i hnd
  split at hm
  · rename_i hself
    split at hm
    · rename_i g' hg'
      subst hm
      refine .inr ⟨p, d, bytes, f, dir, g', by simpa using hh, hf, Classical.byContradiction hx, ⟨hd, rfl⟩, hb, by omega, hr, ⟨g, hg⟩, ⟨hdir, rfl⟩, hnd, ?_, rfl⟩
      rw [if_pos hself]; exact hg'
    · subst hm; exact .inl rfl
  · rename_i hself
    subst hm
    refine .inr ⟨p, d, bytes, f, dir, g, by simpa using hh, hf, Classical.byContradiction hx, ⟨hd, rfl⟩, hb, by omega, hr, ⟨g, hg⟩, ⟨hdir, rfl⟩, hnd, ?_, rfl⟩
    rw [if_neg hself]; exact hg

/-- **C93, the frame.** Whatever the command line, no file but the one the rule names is created, changed or removed, and no directory. -/
theorem C93_frame (K : Cutter.Library) (fs fs' : Fs) (cwd : List (List Byte)) (a : Cutter.Args) (e : Exit) (h : Cutter.main K fs cwd a = (e, fs')) :
    fs'.dirs = fs.dirs ∧ ∀ d n, fs'.get d n ≠ fs.get d n →
      e = .code 0 ∧ ∃ p o, a.filename = some p ∧ CutOutput a p o ∧ Leads fs cwd o d n ∧ (fs'.get d n).isSome := by
  rcases cutter_cases K fs cwd a with hs | ⟨p, d0, bytes, f, dir, g, -, hf, hx, -, -, -, -, -, hl, -, -, hm⟩
  · rw [h] at hs; simp only at hs; subst hs
    exact ⟨rfl, fun _ _ hne => absurd rfl hne⟩
  · rw [hm] at h
    cases h
    refine ⟨rfl, fun d n hne => ?_⟩
    rw [Bag.Fs.get_put] at hne
    by_cases hc : d = dir ∧ n = (Cutter.target a p).file
    · obtain ⟨rfl, rfl⟩ := hc
      exact ⟨rfl, p, _, hf, target_rule a p hx, hl, by rw [Bag.Fs.get_put, if_pos ⟨rfl, rfl⟩]; rfl⟩
    · rw [if_neg hc] at hne; exact absurd rfl hne

/-- **C93, failures.** A run that does not end with code 0 leaves everything as it was. -/
theorem C93_failure (K : Cutter.Library) (fs fs' : Fs) (cwd : List (List Byte)) (a : Cutter.Args) (e : Exit) (h : Cutter.main K fs cwd a = (e, fs'))
    (he : e ≠ .code 0) : fs' = fs := by
  rcases cutter_cases K fs cwd a with hs | ⟨p, d0, bytes, f, dir, g, -, -, -, -, -, -, -, -, -, -, -, hm⟩
  · rw [h] at hs; exact hs
  · rw [hm] at h; cases h; exact absurd rfl he

/-- **C93, success.** If the input can be read and has clouds, and the output can be opened and is not the input, then the program ends with code 0 and the output
holds exactly the first `n` clouds of every topic; every other file, the input among them, is as before. -/
theorem C93_cuts_partial (K : Cutter.Library) (hK : ∀ f, DistinctIds f.channels → K.read (K.write f) = some f) (fs : Fs) (cwd : List (List Byte)) (a : Cutter.Args) (hh : a.help = false)
    (p o : Path) (hp : a.filename = some p) (hx : PcdTool.extOf p.file = ascii ".mcap") (d dir : List (List Byte)) (name file : List Byte)
    (hl : Leads fs cwd p d name) (bytes : List Byte) (hb : fs.get d name = some bytes) (f : File) (hf : K.read bytes = some f)
    (hd : DistinctIds f.channels) (hs : ∀ c ∈ f.channels, (find f.schemas c.2.schema).isSome) (hc : ∃ id, CloudChannel f id) (hmax : 0 < a.max)
    (ho : CutOutput a p o) (hlo : Leads fs cwd o dir file) (hnd : dir ++ [file] ∉ fs.dirs) (hne : ¬ (dir = d ∧ file = name)) :
    ∃ fs' out g, Cutter.main K fs cwd a = (.code 0, fs') ∧ fs'.get dir file = some out ∧ K.read out = some g ∧ HoldsFirst f a.max.toNat g ∧
      ∀ d' n', ¬ (d' = dir ∧ n' = file) → fs'.get d' n' = fs.get d' n' := by
  have hoe := C93_one_output a p _ _ ho (target_rule a p hx)
  subst hoe
  obtain ⟨hl1, rfl⟩ := hl
  obtain ⟨hlo1, rfl⟩ := hlo
  have hcut : ∃ g, cut a.max.toNat f = .ok (some g) := by
    have hn := C59_nothing a.max.toNat f hd hs
    have ho : Mcap.open_ f = .ok () := by
      unfold Mcap.open_
      rw [if_pos (List.all_eq_true.2 hs)]
    unfold cut at hn ⊢
    rw [ho, Res.ok_bind] at hn ⊢
    by_cases hcc : Mcap.cutChannels f = []
    · rw [if_pos hcc] at hn
      obtain ⟨id, hid⟩ := hc
      exact absurd hid (hn.1 rfl id)
    · rw [if_neg hcc]; exact ⟨_, rfl⟩
  obtain ⟨g, hg⟩ := hcut
  refine ⟨fs.put dir (Cutter.target a p).file (K.write g), K.write g, g, ?_, by rw [Bag.Fs.get_put, if_pos ⟨rfl, rfl⟩], hK g (cut_ids hg), C59_cut _ f g hd hg, ?_⟩
  · unfold Cutter.main Cutter.cutFile
    rw [if_neg (by simp [hh]), hp]
    simp only
    rw [if_neg (by simp [hx]), show Cutter.place fs cwd p = some d from hl1]
    simp only [hb]
    rw [if_neg (by omega), hf]
    simp only [hg]
    rw [show Cutter.place fs cwd (Cutter.target a p) = some dir from hlo1]
    simp only
    rw [if_neg hnd, if_neg hne]
  · intro d' n' h
    rw [Bag.Fs.get_put, if_neg h]

/-- **C93, what code 0 means.** Help was asked for; or the input has no clouds and nothing was written; or the output is the input; or the output holds the first
clouds of every topic. -/
theorem C93_exit_zero (K : Cutter.Library) (hK : ∀ f, DistinctIds f.channels → K.read (K.write f) = some f) (hR : ∀ b f, K.read b = some f → DistinctIds f.channels)
    (fs fs' : Fs) (cwd : List (List Byte)) (a : Cutter.Args) (h : Cutter.main K fs cwd a = (.code 0, fs')) :
    (a.help = true ∧ fs' = fs) ∨
      ∃ p o d bytes f, a.filename = some p ∧ CutOutput a p o ∧ Leads fs cwd p d p.file ∧ fs.get d p.file = some bytes ∧ K.read bytes = some f ∧ 0 < a.max ∧
        ((fs' = fs ∧ ∀ id, ¬ CloudChannel f id) ∨
          ∃ dir, Leads fs cwd o dir o.file ∧
            ((dir = d ∧ o.file = p.file) ∨ ∃ out g, fs'.get dir o.file = some out ∧ K.read out = some g ∧ HoldsFirst f a.max.toNat g)) := by
  rcases cutter_cases K fs cwd a with hs | ⟨p, d, bytes, f, dir, g, hh, hf, hx, hl, hb, hmax, hr, -, hlo, -, hg, hm⟩
  · rw [h] at hs
    simp only at hs
    subst hs
    unfold Cutter.main at h
    split at h
    · rename_i hh; exact .inl ⟨hh, rfl⟩
    split at h
    · cases h
    rename_i p hf
    split at h
    · cases h
    rename_i hx
    split at h
    · cases h
    rename_i d hd
    split at h
    · cases h
    rename_i bytes hb
    split at h
    · cases h
    rename_i hmax
    have hx := Classical.byContradiction hx
    unfold Cutter.cutFile at h
    split at h
    · cases h
    rename_i f hr
    refine .inr ⟨p, Cutter.target a p, d, bytes, f, hf, target_rule a p hx, ⟨hd, rfl⟩, hb, hr, by omega, ?_⟩
    split at h
    · cases h
    · cases h
    · rename_i hcut
      refine .inl ⟨rfl, (C59_nothing a.max.toNat f (hR _ _ hr) ?_).1 hcut⟩
      unfold cut at hcut
      obtain ⟨u, hu, -⟩ := Res.bind_eq_ok.1 hcut
      unfold Mcap.open_ at hu
      split at hu
      · rename_i hall; exact List.all_eq_true.1 hall
      · cases hu
    rename_i g hg
    split at h
    · cases h
    rename_i dir hdir
    split at h
    · cases h
    refine .inr ⟨dir, ⟨hdir, rfl⟩, ?_⟩
    split at h
    · rename_i hself; exact .inl hself
    · have hput := congrArg Prod.snd h
      simp only at hput
      refine .inr ⟨K.write g, g, ?_, hK g (cut_ids hg), C59_cut _ f g (hR _ _ hr) hg⟩
      rw [← hput, Bag.Fs.get_put, if_pos ⟨rfl, rfl⟩]
  · rw [hm] at h
    cases h
    refine .inr ⟨p, Cutter.target a p, d, bytes, f, hf, target_rule a p hx, hl, hb, hr, hmax, .inr ⟨dir, hlo, ?_⟩⟩
    by_cases hself : dir = d ∧ (Cutter.target a p).file = p.file
    · exact .inl hself
    · rw [if_neg hself] at hg
      exact .inr ⟨K.write g, g, by rw [Bag.Fs.get_put, if_pos ⟨rfl, rfl⟩], hK g (cut_ids hg), C59_cut _ f g (hR _ _ hr) hg⟩

/-! ### Cutting twice -/

/-- Numbering a numbered list again changes nothing. -/
theorem find_again {α : Type} (l : List α) (id : Nat) (x : α) : ∀ n, find (Mcap.number n l) id = some x →
    find ((Mcap.number n (Mcap.number n l)).map fun e => (e.2.1, e.1)) id = some id := by
  have key : ∀ (l : List α) n, (Mcap.number n (Mcap.number n l)).map (fun e => (e.2.1, e.1)) = (Mcap.number n l).map fun e => (e.1, e.1) := by
    intro l
    induction l with
    | nil => intro n; rfl
    | cons y l ih => intro n; simp only [Mcap.number, List.map_cons, ih]
  have key2 : ∀ (m : List (Nat × α)), find m id = some x → find (m.map fun e => (e.1, e.1)) id = some id := by
    intro m
    induction m with
    | nil => intro h; cases h
    | cons e m ih =>
      rw [List.map_cons, Mcap.find_cons, Mcap.find_cons]
      by_cases h : e.1 = id
      · rw [if_pos h, if_pos h, h]; intro _; rfl
      · rw [if_neg h, if_neg h]; exact ih
  intro n h
  rw [key l n]
  exact key2 _ h

/-- Two cuts, message by message; `m` and `n` are the limits and `ids` the new numbers of the first. -/
theorem cut_twice {f g : File} {ids again : List (Nat × Nat)} {m n : Nat} (hinj : ∀ c c' id, find ids c = some id → find ids c' = some id → c = c')
    (hag : ∀ c id, find ids c = some id → find again id = some id) (ms : List Message) : ∀ (cm cn ck : Nat → Nat),
    (∀ c id, find ids c = some id → cm c ≤ m ∧ cn id = min n (cm c) ∧ ck c = min n (cm c)) →
    Mcap.cutMessages g again n cn (Mcap.cutMessages f ids m cm ms) = Mcap.cutMessages f ids (min m n) ck ms := by
  induction ms with
  | nil => intro cm cn ck _; rfl
  | cons x ms ih =>
    intro cm cn ck h
    cases e : find ids x.channel with
    | none =>
      have hs : ∀ max cc, Mcap.cutMessages f ids max cc (x :: ms) = Mcap.cutMessages f ids max cc ms := by
        intro max cc
        rw [Mcap.cutMessages]; simp only [e]
      rw [hs, hs]
      exact ih cm cn ck h
    | some id =>
      obtain ⟨h1, h2, h3⟩ := h _ _ e
      have hr : Mcap.cutMessages f ids (min m n) ck (x :: ms) =
          if ck x.channel ≥ min m n then Mcap.cutMessages f ids (min m n) ck ms
          else { x with channel := id } :: Mcap.cutMessages f ids (min m n) (fun c => if c = x.channel then ck c + 1 else ck c) ms := by
        rw [Mcap.cutMessages]; simp only [e]
      have hl : Mcap.cutMessages f ids m cm (x :: ms) =
          if cm x.channel ≥ m then Mcap.cutMessages f ids m cm ms
          else { x with channel := id } :: Mcap.cutMessages f ids m (fun c => if c = x.channel then cm c + 1 else cm c) ms := by
        rw [Mcap.cutMessages]; simp only [e]
      rw [hr, hl]
      by_cases hm : cm x.channel ≥ m
      · rw [if_pos hm, if_pos (by omega)]
        exact ih cm cn ck h
      rw [if_neg hm]
      rw [Mcap.cutMessages]
      simp only [hag _ _ e]
      by_cases hn : cm x.channel ≥ n
      · rw [if_pos (by omega), if_pos (by omega)]
        refine ih _ cn ck fun c i hc => ?_
        obtain ⟨a1, a2, a3⟩ := h _ _ hc
        by_cases hx : c = x.channel
        · subst hx
          rw [if_pos rfl]
          exact ⟨by omega, by omega, by omega⟩
        · rw [if_neg hx]
          exact ⟨a1, a2, a3⟩
      · rw [if_neg (by omega), if_neg (by omega)]
        refine congrArg _ (ih _ _ _ fun c i hc => ?_)
        obtain ⟨a1, a2, a3⟩ := h _ _ hc
        by_cases hx : c = x.channel
        · subst hx
          rw [e] at hc
          cases hc
          rw [if_pos rfl, if_pos rfl, if_pos rfl]
          exact ⟨by omega, by omega, by omega⟩
        · have hi : i ≠ id := by rintro rfl; exact hx (hinj _ _ _ hc e)
          rw [if_neg hx, if_neg hx, if_neg hi]
          exact ⟨a1, a2, a3⟩

/-- **C93, twice.** Cutting what was cut with another limit gives the file that one cut with the smaller limit gives, byte for byte; with the same limit, the same
file again. -/
theorem C93_twice (m n : Nat) (f g h k : File) (h1 : cut m f = .ok (some g)) (h2 : cut n g = .ok (some h)) (h3 : cut (min m n) f = .ok (some k)) : h = k := by
  unfold cut at h1 h2 h3
  obtain ⟨u1, _, h1⟩ := Res.bind_eq_ok.1 h1
  obtain ⟨u2, _, h2⟩ := Res.bind_eq_ok.1 h2
  obtain ⟨u3, _, h3⟩ := Res.bind_eq_ok.1 h3
  split at h1
  · simp at h1
  split at h2
  · simp at h2
  split at h3
  · simp at h3
  simp only [Res.ok.injEq, Option.some.injEq] at h1 h2 h3
  have hcc : Mcap.cutChannels g = Mcap.number 1 ((Mcap.cutChannels f).map (·.2)) := by
    rw [← h1]
    unfold Mcap.cutChannels
    simp only
    generalize (f.channels.filterMap _) = l
    have : ∀ (l : List (Nat × List Byte)) n, (Mcap.number n (l.map fun c => ({ topic := c.2, encoding := ascii "cdr", schema := 1 } : Mcap.Channel))).filterMap
        (fun c => match find [(1, ({ name := pointcloudName, encoding := ascii "ros2msg", data := pointcloudText } : Mcap.Schema))] c.2.schema with
          | some s => if s.name = pointcloudName then some (c.1, c.2.topic) else none
          | none => none) = Mcap.number n (l.map (·.2)) := by
      intro l
      induction l with
      | nil => intro n; rfl
      | cons x l ih =>
        intro n
        simp only [List.map_cons, Mcap.number, List.filterMap_cons]
        rw [show find [(1, ({ name := pointcloudName, encoding := ascii "ros2msg", data := pointcloudText } : Mcap.Schema))] 1 =
          some { name := pointcloudName, encoding := ascii "ros2msg", data := pointcloudText } from rfl]
        simp only [if_true]
        rw [ih]
    exact this l 1
  rw [← h2, ← h3]
  have hch : Mcap.number 1 ((Mcap.cutChannels g).map fun c => ({ topic := c.2, encoding := ascii "cdr", schema := 1 } : Mcap.Channel)) =
      Mcap.number 1 ((Mcap.cutChannels f).map fun c => ({ topic := c.2, encoding := ascii "cdr", schema := 1 } : Mcap.Channel)) := by
    rw [hcc]
    congr 1
    rw [Mcap.number_map (fun t => ({ topic := t, encoding := ascii "cdr", schema := 1 } : Mcap.Channel)), List.map_map]
    rfl
  rw [hch]
  have hprof : g.profile = f.profile := by rw [← h1]
  have hmsg : g.messages = Mcap.cutMessages f ((Mcap.number 1 (Mcap.cutChannels f)).map fun e => (e.2.1, e.1)) m (fun _ => 0) f.messages := by rw [← h1]
  rw [hprof, hmsg, hcc]
  congr 1
  refine cut_twice ?_ ?_ f.messages _ _ _ fun _ _ _ => ⟨by omega, by omega, by omega⟩
  · intro c c' id e e'
    rcases Mcap.find_ids (Mcap.cutChannels f) c 1 with ⟨k1, x1, a1, _, a2⟩ | ⟨_, a2⟩
    · rcases Mcap.find_ids (Mcap.cutChannels f) c' 1 with ⟨k2, x2, b1, _, b2⟩ | ⟨_, b2⟩
      · rw [e] at a2
        rw [e'] at b2
        cases a2
        have : k1 = k2 := by have := Option.some.inj b2; omega
        subst this
        rw [a1] at b1
        cases b1
        rfl
      · rw [b2] at e'; cases e'
    · rw [a2] at e; cases e
  · intro c id e
    rcases Mcap.find_ids (Mcap.cutChannels f) c 1 with ⟨k1, x1, a1, _, a2⟩ | ⟨_, a2⟩
    · rw [e] at a2
      cases a2
      exact find_again _ _ x1 1 (by rw [Mcap.find_number, List.getElem?_map, a1]; rfl)
    · rw [a2] at e; cases e

example : (match cut 3 cutFile with | .ok (some g) => (match cut 2 g with | .ok (some h) => (match cut 2 cutFile with | .ok (some k) => decide (h = k) | _ => false) | _ => false) | _ => false)
    = true := by decide +kernel

/-! ### A library to try the theorems with -/

/-- A self-delimiting way to write a type. -/
structure Wr (α : Type) where
  enc : α → List Byte
  dec : List Byte → Option (α × List Byte)
  law : ∀ x rest, dec (enc x ++ rest) = some (x, rest)

def unaryDec : List Byte → Option (Nat × List Byte)
  | [] => none
  | b :: l => if b = 0#8 then some (0, l) else (unaryDec l).map fun r => (r.1 + 1, r.2)

def Wr.nat : Wr Nat where
  enc n := List.replicate n 1#8 ++ [0#8]
  dec := unaryDec
  law := by
    intro n rest
    induction n with
    | zero => simp [unaryDec]
    | succ n ih =>
      simp only [List.append_assoc, List.replicate_succ, List.cons_append] at ih ⊢
      unfold unaryDec
      rw [if_neg (by decide), ih]
      rfl

def Wr.prod {α β : Type} (a : Wr α) (b : Wr β) : Wr (α × β) where
  enc x := a.enc x.1 ++ b.enc x.2
  dec l := (a.dec l).bind fun r => (b.dec r.2).map fun q => ((r.1, q.1), q.2)
  law := by
    intro x rest
    simp only [List.append_assoc, a.law, b.law, Option.bind_some, Option.map_some]

def Wr.via {α β : Type} (a : Wr α) (fw : β → α) (back : α → β) (h : ∀ x, back (fw x) = x) : Wr β where
  enc x := a.enc (fw x)
  dec l := (a.dec l).map fun r => (back r.1, r.2)
  law := by intro x rest; simp only [a.law, Option.map_some, h]

def manyDec {α : Type} (a : Wr α) : Nat → List Byte → Option (List α × List Byte)
  | 0, l => some ([], l)
  | n + 1, l => (a.dec l).bind fun r => (manyDec a n r.2).map fun q => (r.1 :: q.1, q.2)

def Wr.list {α : Type} (a : Wr α) : Wr (List α) where
  enc x := Wr.nat.enc x.length ++ x.flatMap a.enc
  dec l := (Wr.nat.dec l).bind fun r => manyDec a r.1 r.2
  law := by
    intro x rest
    simp only [List.append_assoc, Wr.nat.law, Option.bind_some]
    induction x with
    | nil => rfl
    | cons y x ih => simp only [List.length_cons, manyDec, List.flatMap_cons, List.append_assoc, a.law, Option.bind_some, ih, Option.map_some]

def Wr.text : Wr (List Byte) := Wr.list (Wr.via Wr.nat (fun b : Byte => b.toNat) (fun n => BitVec.ofNat 8 n) (by intro x; simp))
def Wr.pairs : Wr (List (List Byte × List Byte)) := Wr.list (Wr.prod Wr.text Wr.text)
def Wr.schema : Wr Mcap.Schema :=
  Wr.via (Wr.prod Wr.text (Wr.prod Wr.text Wr.text)) (fun s => (s.name, s.encoding, s.data)) (fun x => ⟨x.1, x.2.1, x.2.2⟩) (fun _ => rfl)
def Wr.channel : Wr Mcap.Channel :=
  Wr.via (Wr.prod Wr.text (Wr.prod Wr.text (Wr.prod Wr.nat Wr.pairs))) (fun s => (s.topic, s.encoding, s.schema, s.metadata))
    (fun x => ⟨x.1, x.2.1, x.2.2.1, x.2.2.2⟩) (fun _ => rfl)
def Wr.message : Wr Message :=
  Wr.via (Wr.prod Wr.nat (Wr.prod Wr.nat (Wr.prod Wr.nat (Wr.prod Wr.nat Wr.text)))) (fun s => (s.channel, s.sequence, s.logTime, s.publishTime, s.data))
    (fun x => ⟨x.1, x.2.1, x.2.2.1, x.2.2.2.1, x.2.2.2.2⟩) (fun _ => rfl)
def Wr.file : Wr File :=
  Wr.via (Wr.prod Wr.text (Wr.prod (Wr.list (Wr.prod Wr.nat Wr.schema)) (Wr.prod (Wr.list (Wr.prod Wr.nat Wr.channel)) (Wr.prod (Wr.list Wr.message)
      (Wr.prod (Wr.list (Wr.prod Wr.text Wr.pairs)) Wr.pairs)))))
    (fun f => (f.profile, f.schemas, f.channels, f.messages, f.metadata, f.attachments))
    (fun x => ⟨x.1, x.2.1, x.2.2.1, x.2.2.2.1, x.2.2.2.2.1, x.2.2.2.2.2⟩) (fun _ => rfl)

/-- Files are read back; files with an id used twice are refused; a truncated file delivers no message. -/
def wrLibrary : Cutter.Library where
  read b := ((Wr.file.dec b).map (·.1)).filter fun f => decide (f.channels.map (·.1)).Nodup
  write f := Wr.file.enc f
  late _ := []

theorem wr_read (f : File) (h : DistinctIds f.channels) : wrLibrary.read (wrLibrary.write f) = some f := by
  show (((Wr.file.dec (Wr.file.enc f)).map (·.1)).filter fun f => decide (f.channels.map (·.1)).Nodup) = some f
  have := Wr.file.law f []
  rw [List.append_nil] at this
  rw [this, Option.map_some, Option.filter_some, if_pos]
  unfold DistinctIds at h
  simpa using h

theorem wr_distinct (b : List Byte) (f : File) (h : wrLibrary.read b = some f) : DistinctIds f.channels := by
  have h := (Option.filter_eq_some_iff.1 h).2
  unfold DistinctIds
  simpa using h

/-- `/in/a.mcap` has three clouds and an image, `/in/b.mcap` an image only, `/a_cut.mcap` is something else. -/
def cutFs : Fs where
  dirs := [[], [ascii "in"], [ascii "out"]]
  files := [⟨[ascii "in"], ascii "a.mcap", wrLibrary.write cutFile⟩, ⟨[ascii "in"], ascii "b.mcap", wrLibrary.write { cutFile with channels := cutFile.channels.filter fun c => c.1 == 7 }⟩,
    ⟨[], ascii "a_cut.mcap", [7#8]⟩]
def cutPath (name : String) : Path := ⟨⟨false, [.name (ascii "in")]⟩, ascii name⟩

/-- The theorem applied: `mcap_cutter -f in/a.mcap -o out/x -n 2`, run in the root. -/
example : ∃ fs' out g, Cutter.main wrLibrary cutFs [] { filename := some (cutPath "a.mcap"), output := some ⟨⟨false, [.name (ascii "out")]⟩, ascii "x"⟩, max := 2 } =
      (.code 0, fs') ∧ fs'.get [ascii "out"] (ascii "x.mcap") = some out ∧ wrLibrary.read out = some g ∧ HoldsFirst cutFile 2 g := by
  obtain ⟨fs', out, g, h1, h2, h3, h4, _⟩ := C93_cuts_partial wrLibrary wr_read cutFs []
    { filename := some (cutPath "a.mcap"), output := some ⟨⟨false, [.name (ascii "out")]⟩, ascii "x"⟩, max := 2 } rfl
    (cutPath "a.mcap") ⟨⟨false, [.name (ascii "out")]⟩, ascii "x" ++ ascii ".mcap"⟩ rfl (by decide +kernel) [ascii "in"] [ascii "out"] (ascii "a.mcap")
    (ascii "x" ++ ascii ".mcap") ⟨by decide +kernel, rfl⟩ (wrLibrary.write cutFile) (by rfl) cutFile (wr_read _ cut_distinct) cut_distinct (by
      intro c hc
      simp only [cutFile, bagFile, List.mem_cons, List.not_mem_nil, or_false] at hc
      rcases hc with rfl | rfl <;> rfl) ⟨2, cut_channel⟩ (by decide) (.completed (p := ⟨⟨false, [.name (ascii "out")]⟩, ascii "x"⟩) rfl (by decide +kernel)) ⟨by decide +kernel, rfl⟩ (by decide +kernel) (by decide +kernel)
  exact ⟨fs', out, g, h1, h2, h3, h4⟩

/-- **The input is destroyed when it is named as the output.** The program ends with code 0; what it leaves has none of the messages.  (For a library that delivers
nothing of a file that has been truncated meanwhile.) -/
theorem C93_onto_itself : ∃ fs' out g, Cutter.main wrLibrary cutFs [] { filename := some (cutPath "a.mcap"), output := some (cutPath "a.mcap") } = (.code 0, fs') ∧
    (cutFs.get [ascii "in"] (ascii "a.mcap")).bind wrLibrary.read = some cutFile ∧ (delivered cutFile).length = 4 ∧
    fs'.get [ascii "in"] (ascii "a.mcap") = some out ∧ wrLibrary.read out = some g ∧ delivered g = [] := by
  have h : (match cut 1000 { cutFile with messages := [] } with | .ok (some g) => decide (delivered g = []) | _ => false) = true := by decide +kernel
  cases e : cut 1000 { cutFile with messages := [] } with
  | throw m => rw [e] at h; simp at h
  | ub k => rw [e] at h; simp at h
  | ok o =>
    cases o with
    | none => rw [e] at h; simp at h
    | some g =>
      rw [e] at h
      have h := of_decide_eq_true h
      have hr := wr_read cutFile cut_distinct
      have h2 : (match cut 1000 cutFile with | .ok (some _) => true | _ => false) = true := by decide +kernel
      refine ⟨cutFs.put [ascii "in"] (ascii "a.mcap") (wrLibrary.write g), wrLibrary.write g, g, ?_, hr, by decide +kernel,
        by rw [Bag.Fs.get_put, if_pos ⟨rfl, rfl⟩], wr_read g (cut_ids e), h⟩
      have hrun : Cutter.main wrLibrary cutFs [] { filename := some (cutPath "a.mcap"), output := some (cutPath "a.mcap") } =
          Cutter.cutFile wrLibrary cutFs [] 1000 [ascii "in"] (ascii "a.mcap") (wrLibrary.write cutFile) (cutPath "a.mcap") := by
        unfold Cutter.main
        rw [if_neg (by decide)]
        simp only
        rw [if_neg (by decide +kernel), show Cutter.place cutFs [] (cutPath "a.mcap") = some [ascii "in"] by decide +kernel]
        simp only
        rw [show cutFs.get [ascii "in"] (cutPath "a.mcap").file = some (wrLibrary.write cutFile) by rfl]
        simp only
        rw [if_neg (by decide), show Cutter.target { filename := some (cutPath "a.mcap"), output := some (cutPath "a.mcap") } (cutPath "a.mcap") = cutPath "a.mcap" by
          decide +kernel]
        rfl
      rw [hrun]
      unfold Cutter.cutFile
      rw [hr]
      simp only
      cases e2 : cut 1000 cutFile with
      | throw m => rw [e2] at h2; simp at h2
      | ub k => rw [e2] at h2; simp at h2
      | ok o =>
        cases o with
        | none => rw [e2] at h2; simp at h2
        | some g2 =>
          simp only
          rw [show Cutter.place cutFs [] (cutPath "a.mcap") = some [ascii "in"] from rfl]
          simp only
          rw [if_neg (by decide +kernel), if_pos (by decide +kernel), show wrLibrary.late (wrLibrary.write cutFile) = [] from rfl, e]
          rfl

/-- **An existing file is overwritten without a question:** without `-o`, whatever is called `a_cut.mcap` in the current directory is replaced. -/
theorem C93_overwrites : ∃ fs', Cutter.main wrLibrary cutFs [] { filename := some (cutPath "a.mcap") } = (.code 0, fs') ∧
    cutFs.get [] (ascii "a_cut.mcap") = some [7#8] ∧ fs'.get [] (ascii "a_cut.mcap") ≠ some [7#8] := by
  obtain ⟨fs', out, g, h1, h2, h3, _, _⟩ := C93_cuts_partial wrLibrary wr_read cutFs [] { filename := some (cutPath "a.mcap") } rfl
    (cutPath "a.mcap") ⟨⟨false, []⟩, ascii "a" ++ ascii "_cut.mcap"⟩ rfl (by decide +kernel) [ascii "in"] [] (ascii "a.mcap")
    (ascii "a" ++ ascii "_cut.mcap") ⟨by decide +kernel, rfl⟩ (wrLibrary.write cutFile) (by rfl) cutFile (wr_read _ cut_distinct) cut_distinct (by
      intro c hc
      simp only [cutFile, bagFile, List.mem_cons, List.not_mem_nil, or_false] at hc
      rcases hc with rfl | rfl <;> rfl) ⟨2, cut_channel⟩ (by decide) (.here rfl (by decide +kernel)) ⟨by decide +kernel, rfl⟩ (by decide +kernel) (by decide +kernel)
  refine ⟨fs', h1, by rfl, fun h => ?_⟩
  rw [show ascii "a" ++ ascii "_cut.mcap" = ascii "a_cut.mcap" by decide +kernel, h] at h2
  cases h2
  revert h3
  rw [show wrLibrary.read [7#8] = none by decide +kernel]
  simp

/-- **Code 0, and "File saved as", without a file:** an input without clouds. -/
theorem C93_success_without_output (K : Cutter.Library) (fs : Fs) (cwd : List (List Byte)) (a : Cutter.Args) (hh : a.help = false) (p : Path)
    (hp : a.filename = some p) (hx : PcdTool.extOf p.file = ascii ".mcap") (d : List (List Byte)) (hl : Leads fs cwd p d p.file) (bytes : List Byte)
    (hb : fs.get d p.file = some bytes) (f : File) (hf : K.read bytes = some f) (hd : DistinctIds f.channels)
    (hs : ∀ c ∈ f.channels, (find f.schemas c.2.schema).isSome) (hc : ∀ id, ¬ CloudChannel f id) (hmax : 0 < a.max) :
    Cutter.main K fs cwd a = (.code 0, fs) := by
  unfold Cutter.main Cutter.cutFile
  rw [if_neg (by simp [hh]), hp]
  simp only
  rw [if_neg (by simp [hx]), show Cutter.place fs cwd p = some d from hl.1]
  simp only [hb]
  rw [if_neg (by omega), hf]
  simp only
  rw [(C59_nothing a.max.toNat f hd hs).2 hc]

example : Cutter.main wrLibrary cutFs [] { filename := some (cutPath "b.mcap") } = (.code 0, cutFs) ∧ cutFs.get [] (ascii "b_cut.mcap") = none := by
  refine ⟨?_, by decide +kernel⟩
  refine C93_success_without_output wrLibrary cutFs [] _ rfl (cutPath "b.mcap") rfl (by decide +kernel) [ascii "in"] ⟨by decide +kernel, rfl⟩ _ (by rfl) _
    (wr_read { cutFile with channels := cutFile.channels.filter fun c => c.1 == 7 } (by unfold DistinctIds; decide +kernel)) (by unfold DistinctIds; decide +kernel)
    (by intro c hc
        simp only [cutFile, bagFile, List.filter_cons, List.filter_nil] at hc
        simp at hc
        subst hc
        rfl) ?_ (by decide)
  rintro id ⟨c, s, h1, h2, h3⟩
  have hm : (id, c) ∈ cutFile.channels.filter fun c => c.1 == 7 := by
    unfold find at h1
    obtain ⟨x, hx, rfl⟩ := Option.map_eq_some_iff.1 h1
    have := List.find?_some hx
    have h4 := List.mem_of_find?_eq_some hx
    simp only [beq_iff_eq] at this
    subst this
    exact h4
  simp only [cutFile, bagFile, List.filter_cons, List.filter_nil] at hm
  simp at hm
  obtain ⟨rfl, rfl⟩ := hm
  have : s.name = ascii "sensor_msgs/msg/Image" := by
    simp [cutFile, bagFile, find] at h2
    rw [← h2]
  rw [h3] at this
  revert this
  decide +kernel

/-- A name without the extension, a file that does not exist, a limit of zero. -/
example : Cutter.main wrLibrary cutFs [] { filename := some (cutPath "a.bag") } = (.code 1, cutFs) ∧
    Cutter.main wrLibrary cutFs [] { filename := some (cutPath "c.mcap") } = (.code 1, cutFs) ∧
    Cutter.main wrLibrary cutFs [] { filename := some (cutPath "a.mcap"), max := 0 } = (.code 1, cutFs) := by
  refine ⟨rfl, rfl, rfl⟩

/-- The theorems about exit codes and the frame, applied. -/
example : ∃ fs' o d bytes f, Cutter.main wrLibrary cutFs [] { filename := some (cutPath "a.mcap") } = (.code 0, fs') ∧
    CutOutput { filename := some (cutPath "a.mcap") } (cutPath "a.mcap") o ∧ Leads cutFs [] (cutPath "a.mcap") d (cutPath "a.mcap").file ∧
    cutFs.get d (cutPath "a.mcap").file = some bytes ∧ wrLibrary.read bytes = some f := by
  obtain ⟨fs', h, _⟩ := C93_overwrites
  rcases C93_exit_zero wrLibrary wr_read wr_distinct cutFs fs' [] _ h with ⟨h1, _⟩ | ⟨p, o, d, bytes, f, h1, h2, h3, h4, h5, _⟩
  · cases h1
  · cases h1
    exact ⟨fs', o, d, bytes, f, h, h2, h3, h4, h5⟩
example : ∃ fs', Cutter.main wrLibrary cutFs [] { filename := some (cutPath "a.mcap") } = (.code 0, fs') ∧ fs'.dirs = cutFs.dirs ∧
    fs'.get [ascii "in"] (ascii "a.mcap") = cutFs.get [ascii "in"] (ascii "a.mcap") := by
  obtain ⟨fs', h, _⟩ := C93_overwrites
  obtain ⟨h1, h2⟩ := C93_frame wrLibrary cutFs fs' [] _ _ h
  refine ⟨fs', h, h1, Classical.byContradiction fun hne => ?_⟩
  obtain ⟨_, p, o, hp, ho, hl, _⟩ := h2 _ _ hne
  cases hp
  have := C93_one_output _ _ _ _ ho (.here (stem := ascii "a") rfl (by decide +kernel))
  subst this
  exact absurd hl.2 (by decide +kernel)
example : ∀ fs', Cutter.main wrLibrary cutFs [] { filename := some (cutPath "a.bag") } = (.code 1, fs') → fs' = cutFs :=
  fun fs' h => C93_failure wrLibrary cutFs fs' [] _ _ h (by decide)

end Cloudini.Props
