import Verif.Props.C88

/-!
# C89: the table of `benchmark_compression.py`

`Bag.processAll K cwd D fs order` is a run of the script in `cwd` on the directory `D` in which the files are taken in the order `order`: the file system
afterwards and the rows of the table.
-/

namespace Cloudini.Props

open Cloudini.Bag

/-- The name under which the script looks for the output. -/
def encodedName (n : List Byte) : List Byte := stemOf n ++ ascii "_encoded.mcap"

theorem defaultName_encoded (n : List Byte) : defaultName (stemOf n) true = encodedName n := by
  unfold defaultName encodedName
  rw [List.append_assoc]
  congr 1

theorem ext_of_suffix {n : List Byte} (h : n.head? ≠ some 0x2E#8) (hs : (ascii ".mcap").isSuffixOf n = true) : PcdTool.extOf n = ascii ".mcap" := by
  obtain ⟨x, rfl⟩ := List.isSuffixOf_iff_suffix.1 hs
  have hx : x ≠ [] := by
    rintro rfl
    exact h (by decide +kernel)
  have hlen : (ascii ".mcap").length = 5 := by decide +kernel
  have hpos : 0 < x.length := List.length_pos_iff.2 hx
  have ht : (((x ++ ascii ".mcap").reverse.takeWhile (· != 0x2E#8)).length) = 4 := by
    rw [List.reverse_append]
    have e : (ascii ".mcap").reverse = [0x70#8, 0x61#8, 0x63#8, 0x6D#8, 0x2E#8] := by decide +kernel
    rw [e]
    simp [List.takeWhile_cons]
  unfold PcdTool.extOf
  rw [if_neg, ht, if_pos]
  · rw [List.length_append, hlen, show x.length + 5 - (4 + 1) = x.length by omega, List.drop_left]
  · rw [List.length_append, hlen]; omega
  · rintro (e | e)
    · have := congrArg List.length e
      rw [List.length_append, hlen, show (ascii ".").length = 1 by decide +kernel] at this
      omega
    · have := congrArg List.length e
      rw [List.length_append, hlen, show (ascii "..").length = 2 by decide +kernel] at this
      omega

theorem benchFiles_ext {fs : Fs} {d : List (List Byte)} {n : List Byte} (h : n ∈ benchFiles fs d) : PcdTool.extOf n = ascii ".mcap" := by
  unfold benchFiles at h
  rw [List.mem_filter] at h
  have h2 := h.2
  simp only [Bool.and_eq_true] at h2
  exact ext_of_suffix (by simpa using h2.1.1) h2.1.2

theorem encodedName_inj {n n' : List Byte} (h : PcdTool.extOf n = ascii ".mcap") (h' : PcdTool.extOf n' = ascii ".mcap") (e : encodedName n = encodedName n') :
    n = n' := by
  rw [stem_of_ext h, stem_of_ext h']
  unfold encodedName at e
  rw [List.append_cancel_right e]

/-- What a run of the converter on these bytes ends with, and what it writes. -/
def benchOutcome (K : Tool) (D n bytes : List Byte) : Exit × Option (List Byte) :=
  match K.topics bytes with
  | none => (.code 1, none)
  | some (raw, compressed) =>
    if raw = 0 ∧ compressed = 0 then (.code 0, none)
    else if raw = 0 then (.code 1, none)
    else
      match K.convert (benchArgs D n) [] bytes with
      | .notOpened => (.code 1, none)
      | .failed left => (.code 1, some left)
      | .done out => (.code 0, some out)

theorem append_singleton_ne {α : Type} (l : List α) (x : α) : l ≠ l ++ [x] := by
  intro e
  have := congrArg List.length e
  simp at this

theorem bench_main (K : Tool) (fs : Fs) (cwd : List (List Byte)) (D n bytes : List Byte) (hd : cwd ++ [D] ∈ fs.dirs) (hn : cwd ++ [D] ++ [n] ∉ fs.dirs)
    (he : PcdTool.extOf n = ascii ".mcap") (hm : fs.get (cwd ++ [D]) (ascii "metadata.yaml") = none) (hb : fs.get (cwd ++ [D]) n = some bytes) :
    Bag.main K fs cwd none (benchArgs D n) = ((benchOutcome K D n bytes).1,
      match (benchOutcome K D n bytes).2 with
      | none => fs
      | some c => fs.put cwd (encodedName n) c) := by
  have hne : n ≠ [] := by rintro rfl; revert he; decide +kernel
  have h1 : resolve fs.dirs (OutDir.start cwd ⟨false, [.name D]⟩) (Path.comps ⟨⟨false, [.name D]⟩, n⟩) = none := by
    unfold Path.comps
    rw [if_neg hne]
    show resolve fs.dirs cwd [.name D, .name n] = none
    unfold resolve
    rw [if_pos hd]
    unfold resolve
    rw [if_neg hn]
  have h2 : resolve fs.dirs (OutDir.start cwd ⟨false, [.name D]⟩) [.name D] = some (cwd ++ [D]) := by
    show resolve fs.dirs cwd [.name D] = _
    unfold resolve
    rw [if_pos hd]
    rfl
  have hs : source fs cwd ⟨⟨false, [.name D]⟩, n⟩ = some ⟨some (cwd ++ [D]), n, none, false⟩ := by
    unfold source
    rw [h1]
    simp only
    rw [if_pos he, h2]
    have h3 : (some (cwd ++ [D])).filter (fun d => (fs.get d metadataName).isSome) = none :=
      Option.filter_some_neg (p := fun d => (fs.get d metadataName).isSome) (by rw [show metadataName = ascii "metadata.yaml" from rfl, hm]; simp)
    rw [h3]
    rfl
  have ht : target (benchArgs D n) ⟨some (cwd ++ [D]), n, none, false⟩ = (⟨false, []⟩, encodedName n) := by
    rw [← defaultName_encoded]
    rfl
  unfold Bag.main
  rw [if_neg (by simp [benchArgs])]
  show (if Path.isEmpty ⟨⟨false, [.name D]⟩, n⟩ = true then _ else _) = _
  rw [if_neg (by simp [Path.isEmpty]), if_neg (by simp [benchArgs]), if_neg (by simp [benchArgs]), if_neg (by simp [benchArgs]), hs]
  simp only
  rw [if_neg (by simp), ht]
  have hp : place fs.dirs cwd none ⟨false, []⟩ (encodedName n) = .into cwd (encodedName n) false := rfl
  simp only
  rw [hp]
  have hmk : fs.mkdirs cwd ⟨false, []⟩ = fs := rfl
  simp only
  rw [hmk]
  unfold confirm
  rw [if_neg (by simp [benchArgs]), if_neg (by simp [benchArgs])]
  unfold convert
  rw [if_neg (by rintro ⟨-, h⟩; exact h rfl)]
  simp only [Option.bind_some, hb]
  unfold benchOutcome
  cases htop : K.topics bytes with
  | none => rfl
  | some rc =>
    obtain ⟨raw, compressed⟩ := rc
    simp only
    by_cases hz : raw = 0 ∧ compressed = 0
    · rw [if_pos hz, if_pos hz]
    rw [if_neg hz, if_neg hz]
    by_cases hr : raw = 0
    · rw [if_pos ⟨hr, rfl⟩, if_pos hr]
    rw [if_neg (by rintro ⟨h, -⟩; exact hr h), if_neg hr, if_neg (by simp [benchArgs])]
    have hpr : profileOf K fs cwd (benchArgs D n) = some [] := rfl
    rw [hpr]
    simp only
    rw [if_neg (by rintro ⟨h, -⟩; exact append_singleton_ne cwd D (Option.some.inj h).symm)]
    cases K.convert (benchArgs D n) [] bytes <;> rfl

/-- The row the script writes for a file with these bytes, if `stale` is the content of the file that already has the name of the output. -/
def benchRow (K : Tool) (D n bytes : List Byte) (stale : Option (List Byte)) : Option Row :=
  if (benchOutcome K D n bytes).1 ≠ .code 0 then none
  else some ⟨n, bytes.length, (((benchOutcome K D n bytes).2.or stale).map List.length).filter (· ≠ 0)⟩

theorem processFile_eq (K : Tool) (fs : Fs) (cwd : List (List Byte)) (D n bytes : List Byte) (hd : cwd ++ [D] ∈ fs.dirs) (hn : cwd ++ [D] ++ [n] ∉ fs.dirs)
    (he : PcdTool.extOf n = ascii ".mcap") (hm : fs.get (cwd ++ [D]) (ascii "metadata.yaml") = none) (hb : fs.get (cwd ++ [D]) n = some bytes) :
    processFile K cwd D fs n = ((match (benchOutcome K D n bytes).2 with
      | none => fs
      | some c => fs.put cwd (encodedName n) c), benchRow K D n bytes (fs.get cwd (encodedName n))) := by
  unfold processFile
  simp only
  rw [bench_main K fs cwd D n bytes hd hn he hm hb]
  simp only
  unfold benchRow
  by_cases hz : (benchOutcome K D n bytes).1 ≠ .code 0
  · rw [if_pos hz, if_pos hz]
  · rw [if_neg hz, if_neg hz, hb]
    cases hw : (benchOutcome K D n bytes).2 with
    | none => rfl
    | some c =>
      simp only [Prod.mk.injEq, Option.some.injEq, Row.mk.injEq, true_and, Option.map_some, Option.getD_some, Option.some_or]
      have : (fs.put cwd (encodedName n) c).get cwd (stemOf n ++ ascii "_encoded.mcap") = some c := by
        rw [Fs.get_put, if_pos ⟨rfl, rfl⟩]
      rw [this]
      rfl

/-- The whole run, from the state in which it starts. -/
theorem processAll_eq (K : Tool) (cwd : List (List Byte)) (D : List Byte) (content : List Byte → List Byte) :
    ∀ (order : List (List Byte)) (fs : Fs), order.Nodup → cwd ++ [D] ∈ fs.dirs → fs.get (cwd ++ [D]) (ascii "metadata.yaml") = none →
      (∀ n ∈ order, cwd ++ [D] ++ [n] ∉ fs.dirs ∧ PcdTool.extOf n = ascii ".mcap" ∧ fs.get (cwd ++ [D]) n = some (content n)) →
      (processAll K cwd D fs order).2 = order.filterMap (fun n => benchRow K D n (content n) (fs.get cwd (encodedName n))) ∧
      (∀ n ∈ order, (processAll K cwd D fs order).1.get cwd (encodedName n) = (benchOutcome K D n (content n)).2.or (fs.get cwd (encodedName n))) ∧
      (∀ d m, (d ≠ cwd ∨ ∀ n ∈ order, m ≠ encodedName n) → (processAll K cwd D fs order).1.get d m = fs.get d m) := by
  intro order
  induction order with
  | nil => intro fs _ _ _ _; exact ⟨rfl, by simp, fun _ _ _ => rfl⟩
  | cons n ns ih =>
    intro fs hnd hd hm hall
    have hnd' := List.nodup_cons.1 hnd
    obtain ⟨h1, h2, h3⟩ := hall n (List.mem_cons_self ..)
    have hp := processFile_eq K fs cwd D n (content n) hd h1 h2 hm h3
    generalize hfs' : (match (benchOutcome K D n (content n)).2 with
      | none => fs
      | some c => fs.put cwd (encodedName n) c) = fs' at hp
    have hdirs : fs'.dirs = fs.dirs := by rw [← hfs']; split <;> rfl
    have hget : ∀ d m, fs'.get d m = if d = cwd ∧ m = encodedName n then (benchOutcome K D n (content n)).2.or (fs.get d m) else fs.get d m := by
      intro d m
      rw [← hfs']
      cases (benchOutcome K D n (content n)).2 with
      | none => simp
      | some c => simp only [Option.some_or]; rw [Fs.get_put]
    have hin : ∀ m, fs'.get (cwd ++ [D]) m = fs.get (cwd ++ [D]) m := by
      intro m
      rw [hget, if_neg (by rintro ⟨e, -⟩; exact append_singleton_ne cwd D e.symm)]
    obtain ⟨i1, i2, i3⟩ := ih fs' hnd'.2 (by rw [hdirs]; exact hd) (by rw [hin]; exact hm) (fun k hk => by
      obtain ⟨a, b, c⟩ := hall k (List.mem_cons_of_mem _ hk)
      exact ⟨by rw [hdirs]; exact a, b, by rw [hin]; exact c⟩)
    have hother : ∀ k ∈ ns, encodedName k ≠ encodedName n := by
      intro k hk e
      have := encodedName_inj (hall k (List.mem_cons_of_mem _ hk)).2.1 h2 e
      exact hnd'.1 (this ▸ hk)
    have hstep : processAll K cwd D fs (n :: ns) = ((processAll K cwd D fs' ns).1,
        (benchRow K D n (content n) (fs.get cwd (encodedName n))).toList ++ (processAll K cwd D fs' ns).2) := by
      show ((processAll K cwd D (processFile K cwd D fs n).1 ns).1, _) = _
      rw [hp]
    rw [hstep]
    refine ⟨?_, ?_, ?_⟩
    · simp only
      rw [i1, List.filterMap_cons]
      have : ns.filterMap (fun k => benchRow K D k (content k) (fs'.get cwd (encodedName k))) =
          ns.filterMap (fun k => benchRow K D k (content k) (fs.get cwd (encodedName k))) := by
        apply List.filterMap_congr
        intro k hk
        rw [hget, if_neg (by rintro ⟨-, e⟩; exact hother k hk e)]
      rw [this]
      cases benchRow K D n (content n) (fs.get cwd (encodedName n)) <;> rfl
    · intro k hk
      simp only
      rcases List.mem_cons.1 hk with rfl | hk
      · rw [i3 _ _ (.inr fun j hj => (hother j hj).symm), hget, if_pos ⟨rfl, rfl⟩]
      · rw [i2 k hk, hget, if_neg (by rintro ⟨-, e⟩; exact hother k hk e)]
    · intro d m hdm
      simp only
      rw [i3 d m (hdm.imp id fun h k hk => h k (List.mem_cons_of_mem _ hk)), hget, if_neg]
      rintro ⟨e, e'⟩
      rcases hdm with h | h
      · exact h e
      · exact h n (List.mem_cons_self ..) e'

/-- The directory `D` exists in `cwd`, its files have different names, and no name stands for both a file and a directory. -/
structure DataDir (fs : Fs) (cwd : List (List Byte)) (D : List Byte) : Prop where
  made : cwd ++ [D] ∈ fs.dirs
  names : (fs.list (cwd ++ [D])).Nodup
  files : ∀ n ∈ fs.list (cwd ++ [D]), cwd ++ [D] ++ [n] ∉ fs.dirs

theorem list_get {fs : Fs} {d : List (List Byte)} {n : List Byte} (h : n ∈ fs.list d) : ∃ c, fs.get d n = some c := by
  unfold Fs.list at h
  obtain ⟨e, he, rfl⟩ := List.mem_map.1 h
  rw [List.mem_filter] at he
  unfold Fs.get
  cases hf : fs.files.find? fun x => x.dir = d ∧ x.name = e.name with
  | some x => exact ⟨_, rfl⟩
  | none =>
    have := List.find?_eq_none.1 hf e he.1
    have h2 : e.dir = d := by simpa using he.2
    simp [h2] at this

theorem DataDir.all {fs : Fs} {cwd : List (List Byte)} {D : List Byte} (h : DataDir fs cwd D) {order : List (List Byte)}
    (ho : order.Perm (benchFiles fs (cwd ++ [D]))) : order.Nodup ∧ ∀ n ∈ order, cwd ++ [D] ++ [n] ∉ fs.dirs ∧ PcdTool.extOf n = ascii ".mcap" ∧
      fs.get (cwd ++ [D]) n = some ((fs.get (cwd ++ [D]) n).getD []) := by
  constructor
  · exact ho.nodup_iff.2 (h.names.filter _)
  · intro n hn
    have hb := ho.mem_iff.1 hn
    have hl : n ∈ fs.list (cwd ++ [D]) := (List.mem_filter.1 hb).1
    obtain ⟨c, hc⟩ := list_get hl
    exact ⟨h.files n hl, benchFiles_ext hb, by rw [hc]; rfl⟩

/-- **C89 (partial).** If the directory has no `metadata.yaml` and every file has clouds: whatever the order in which the files are taken, the table has one row
for each file the converter converts and no other, with the size of the file and the size of its output, which is what the converter made of it and stays
in the current directory; and no other file changes.  Missing: directories with metadata (`C89_metadata`) and files without clouds (`C89_stale`). -/
theorem C89_rows_partial (K : Tool) (fs : Fs) (cwd : List (List Byte)) (D : List Byte) (order : List (List Byte)) (h : DataDir fs cwd D)
    (hm : fs.get (cwd ++ [D]) (ascii "metadata.yaml") = none) (ho : order.Perm (benchFiles fs (cwd ++ [D])))
    (hc : ∀ n ∈ order, ∀ bytes, fs.get (cwd ++ [D]) n = some bytes → K.topics bytes ≠ some (0, 0)) (fs' : Fs) (rows : List Row)
    (hr : processAll K cwd D fs order = (fs', rows)) :
    (∀ row, row ∈ rows ↔ ∃ stem bytes out, row.name = stem ++ ascii ".mcap" ∧ row.name ∈ benchFiles fs (cwd ++ [D]) ∧
      fs.get (cwd ++ [D]) row.name = some bytes ∧ (∃ raw compressed, K.topics bytes = some (raw, compressed) ∧ raw ≠ 0) ∧
      K.convert { compress := true, yes := true, filename := some ⟨⟨false, [.name D]⟩, row.name⟩ } [] bytes = .done out ∧
      fs'.get cwd (stem ++ ascii "_encoded.mcap") = some out ∧ row.original = bytes.length ∧
      row.compressed = if out.length = 0 then none else some out.length) ∧
    (rows.map (·.name)).Nodup ∧
    (∀ d m, fs'.get d m ≠ fs.get d m → d = cwd ∧ ∃ stem, stem ++ ascii ".mcap" ∈ benchFiles fs (cwd ++ [D]) ∧ m = stem ++ ascii "_encoded.mcap") := by
  obtain ⟨hnd, hall⟩ := h.all ho
  obtain ⟨p1, p2, p3⟩ := processAll_eq K cwd D (fun n => (fs.get (cwd ++ [D]) n).getD []) order fs hnd h.made hm hall
  rw [hr] at p1 p2 p3
  simp only at p1 p2 p3
  have hrow : ∀ n ∈ order, ∀ row, benchRow K D n ((fs.get (cwd ++ [D]) n).getD []) (fs.get cwd (encodedName n)) = some row ↔
      ∃ stem bytes out, row.name = n ∧ row.name = stem ++ ascii ".mcap" ∧ fs.get (cwd ++ [D]) row.name = some bytes ∧
      (∃ raw compressed, K.topics bytes = some (raw, compressed) ∧ raw ≠ 0) ∧ K.convert (benchArgs D row.name) [] bytes = .done out ∧
      fs'.get cwd (stem ++ ascii "_encoded.mcap") = some out ∧ row.original = bytes.length ∧
      row.compressed = if out.length = 0 then none else some out.length := by
    intro n hn row
    obtain ⟨-, hext, hget⟩ := hall n hn
    have hq := p2 n hn
    have hc' := hc n hn _ hget
    generalize (fs.get (cwd ++ [D]) n).getD [] = bytes at hget hq hc' ⊢
    have hstem := stem_of_ext hext
    unfold benchRow benchOutcome
    unfold benchOutcome at hq
    have hfil : ∀ out : List Byte, Option.filter (fun x => decide (x ≠ 0)) (some out.length) = if out.length = 0 then none else some out.length := by
      intro out
      by_cases hz : out.length = 0
      · rw [if_pos hz, Option.filter_some_neg]; simpa using hz
      · rw [if_neg hz, Option.filter_some_pos]; simpa using hz
    have hback : ∀ raw compressed, (∃ stem bytes' out, row.name = n ∧ row.name = stem ++ ascii ".mcap" ∧ fs.get (cwd ++ [D]) row.name = some bytes' ∧
      (∃ raw compressed, K.topics bytes' = some (raw, compressed) ∧ raw ≠ 0) ∧ K.convert (benchArgs D row.name) [] bytes' = .done out ∧
      fs'.get cwd (stem ++ ascii "_encoded.mcap") = some out ∧ row.original = bytes'.length ∧
      row.compressed = if out.length = 0 then none else some out.length) → K.topics bytes = some (raw, compressed) → raw ≠ 0 ∧
        ∃ out, K.convert (benchArgs D n) [] bytes = .done out ∧ row = ⟨n, bytes.length, if out.length = 0 then none else some out.length⟩ := by
      rintro raw compressed ⟨stem, bytes', out, e1, e2, e3, ⟨r, c, e4, e5⟩, e6, e7, e8, e9⟩ ht
      rw [e1, hget] at e3
      cases e3
      rw [ht] at e4
      cases e4
      refine ⟨e5, out, e1 ▸ e6, ?_⟩
      cases row
      simp only at e1 e8 e9
      rw [e1, e8, e9]
    cases ht : K.topics bytes with
    | none =>
      simp only
      constructor
      · intro h; simp at h
      · rintro ⟨stem, bytes', out, e1, e2, e3, ⟨r, c, e4, e5⟩, -⟩
        rw [e1, hget] at e3
        cases e3
        rw [ht] at e4
        cases e4
    | some rc =>
      obtain ⟨raw, compressed⟩ := rc
      rw [ht] at hq
      simp only at hq ⊢
      have hz : ¬ (raw = 0 ∧ compressed = 0) := by
        rintro ⟨rfl, rfl⟩
        exact hc' ht
      rw [if_neg hz] at hq ⊢
      by_cases hr0 : raw = 0
      · simp only [if_pos hr0] at hq ⊢
        constructor
        · intro h; simp at h
        · intro h; exact absurd hr0 (hback raw compressed h ht).1
      · simp only [if_neg hr0] at hq ⊢
        cases hcv : K.convert (benchArgs D n) [] bytes with
        | notOpened =>
          simp only
          constructor
          · intro h; simp at h
          · intro h
            obtain ⟨-, out, h1, -⟩ := hback raw compressed h ht
            rw [hcv] at h1; cases h1
        | failed left =>
          simp only
          constructor
          · intro h; simp at h
          · intro h
            obtain ⟨-, out, h1, -⟩ := hback raw compressed h ht
            rw [hcv] at h1; cases h1
        | done out =>
          rw [hcv] at hq
          simp only [Option.some_or] at hq ⊢
          rw [if_neg (by simp), Option.map_some, hfil]
          constructor
          · intro h
            cases h
            exact ⟨stemOf n, bytes, out, rfl, hstem, hget, ⟨raw, compressed, ht, hr0⟩, hcv, hq, rfl, rfl⟩
          · intro h
            obtain ⟨-, out', h1, h2⟩ := hback raw compressed h ht
            rw [hcv] at h1
            cases h1
            rw [h2]
  refine ⟨fun row => ?_, ?_, ?_⟩
  · rw [p1, List.mem_filterMap]
    constructor
    · rintro ⟨n, hn, hb⟩
      obtain ⟨stem, bytes, out, e1, e2, e3⟩ := (hrow n hn row).1 hb
      exact ⟨stem, bytes, out, e2, by rw [e1]; exact ho.mem_iff.1 hn, e3⟩
    · rintro ⟨stem, bytes, out, e2, e1, e3⟩
      have hn := ho.mem_iff.2 e1
      exact ⟨row.name, hn, (hrow _ hn row).2 ⟨stem, bytes, out, rfl, e2, e3⟩⟩
  · rw [p1]
    have hname : ∀ n ∈ order, ∀ row, benchRow K D n ((fs.get (cwd ++ [D]) n).getD []) (fs.get cwd (encodedName n)) = some row → row.name = n := by
      intro n _ row h
      unfold benchRow at h
      split at h
      · cases h
      · cases h; rfl
    clear p1 p2 p3 hrow hr hc hall ho
    induction order with
    | nil => simp
    | cons n ns ih =>
      have hnd' := List.nodup_cons.1 hnd
      rw [List.filterMap_cons]
      cases hb : benchRow K D n ((fs.get (cwd ++ [D]) n).getD []) (fs.get cwd (encodedName n)) with
      | none => exact ih hnd'.2 (fun k hk => hname k (List.mem_cons_of_mem _ hk))
      | some row =>
        simp only [List.map_cons, List.nodup_cons]
        refine ⟨?_, ih hnd'.2 (fun k hk => hname k (List.mem_cons_of_mem _ hk))⟩
        rw [hname n (List.mem_cons_self ..) row hb]
        intro hmem
        obtain ⟨row', h1, h2⟩ := List.mem_map.1 hmem
        obtain ⟨k, hk, hk'⟩ := List.mem_filterMap.1 h1
        have := hname k (List.mem_cons_of_mem _ hk) row' hk'
        rw [this] at h2
        exact hnd'.1 (h2 ▸ hk)
  · intro d m hne
    have hd : d = cwd := Classical.byContradiction fun e => hne (p3 d m (.inl e))
    refine ⟨hd, Classical.byContradiction fun hcon => hne (p3 d m (.inr fun n hn e => hcon ⟨stemOf n, ?_, ?_⟩))⟩
    · rw [← stem_of_ext (hall n hn).2.1]; exact ho.mem_iff.1 hn
    · exact e

/-- **C89, order.** Two runs of the script that take the files in different orders end with the same files and the same rows, up to their order.  (No
assumption on clouds.) -/
theorem C89_any_order (K : Tool) (fs : Fs) (cwd : List (List Byte)) (D : List Byte) (order order' : List (List Byte)) (h : DataDir fs cwd D)
    (hm : fs.get (cwd ++ [D]) (ascii "metadata.yaml") = none) (ho : order.Perm (benchFiles fs (cwd ++ [D])))
    (ho' : order'.Perm (benchFiles fs (cwd ++ [D]))) :
    (processAll K cwd D fs order).2.Perm (processAll K cwd D fs order').2 ∧
      ∀ d m, (processAll K cwd D fs order).1.get d m = (processAll K cwd D fs order').1.get d m := by
  obtain ⟨hnd, hall⟩ := h.all ho
  obtain ⟨hnd', hall'⟩ := h.all ho'
  obtain ⟨p1, p2, p3⟩ := processAll_eq K cwd D (fun n => (fs.get (cwd ++ [D]) n).getD []) order fs hnd h.made hm hall
  obtain ⟨q1, q2, q3⟩ := processAll_eq K cwd D (fun n => (fs.get (cwd ++ [D]) n).getD []) order' fs hnd' h.made hm hall'
  have hp := ho.trans ho'.symm
  refine ⟨?_, fun d m => ?_⟩
  · rw [p1, q1]; exact hp.filterMap _
  · by_cases hd : d = cwd ∧ ∃ n ∈ order, m = encodedName n
    · obtain ⟨rfl, n, hn, rfl⟩ := hd
      rw [p2 n hn, q2 n (hp.mem_iff.1 hn)]
    · have hx : d ≠ cwd ∨ ∀ n ∈ order, m ≠ encodedName n := by
        by_cases e : d = cwd
        · exact .inr fun n hn e' => hd ⟨e, n, hn, e'⟩
        · exact .inl e
      rw [p3 d m hx, q3 d m (hx.imp id fun h n hn => h n (hp.mem_iff.2 hn))]

/-! ### A directory with metadata -/

theorem createDirs_leaf {ds : Dirs} (hc : Closed ds) (x : List Byte) : ∀ (q at_ : List (List Byte)), (q = [] ∨ at_ ++ q ∈ ds) →
    createDirs ds at_ (q.map Comp.name ++ [Comp.name x]) = (if at_ ++ q ++ [x] ∈ ds then ds else (at_ ++ q ++ [x]) :: ds) := by
  intro q
  induction q with
  | nil => intro at_ _; simp [createDirs]
  | cons y q ih =>
    intro at_ h
    have h : at_ ++ y :: q ∈ ds := by
      rcases h with h | h
      · cases h
      · exact h
    have e : at_ ++ y :: q = at_ ++ [y] ++ q := by simp
    rw [e] at h
    have hm : at_ ++ [y] ∈ ds := hc.prefix _ _ _ rfl (by simp) h
    simp only [List.map_cons, List.cons_append, createDirs]
    rw [if_pos hm, ih _ (Or.inr h)]
    simp

/-- The state between two runs of the converter, as far as the script depends on it. -/
structure MetaInv (cwd : List (List Byte)) (D : List Byte) (fs₀ fs : Fs) : Prop where
  closed : Closed fs.dirs
  data : cwd ++ [D] ∈ fs.dirs
  subs : ∀ n, cwd ++ [D] ++ [n] ∈ fs.dirs → cwd ++ [D] ++ [n] ∈ fs₀.dirs
  files : ∀ d m, d ≠ cwd ++ [D ++ ascii "_encoded"] → fs.get d m = fs₀.get d m

theorem meta_step (K : Tool) (fs₀ fs : Fs) (cwd : List (List Byte)) (D n bytes : List Byte) (hi : MetaInv cwd D fs₀ fs) (hn : cwd ++ [D] ++ [n] ∉ fs₀.dirs)
    (he : PcdTool.extOf n = ascii ".mcap") (hm : (fs₀.get (cwd ++ [D]) (ascii "metadata.yaml")).isSome) (hb : fs₀.get (cwd ++ [D]) n = some bytes) :
    MetaInv cwd D fs₀ (processFile K cwd D fs n).1 ∧
      ∀ row, (processFile K cwd D fs n).2 = some row → row = ⟨n, bytes.length, ((fs₀.get cwd (encodedName n)).map List.length).filter (· ≠ 0)⟩ := by
  have hlen8 : (ascii "_encoded").length = 8 := by decide +kernel
  have hDD : D ++ ascii "_encoded" ≠ D := by
    intro e
    have := congrArg List.length e
    rw [List.length_append, hlen8] at this
    omega
  have hd1 : cwd ++ [D] ≠ cwd ++ [D ++ ascii "_encoded"] := fun e => hDD (by simpa using (List.append_cancel_left e).symm)
  have hd2 : cwd ≠ cwd ++ [D ++ ascii "_encoded"] := append_singleton_ne cwd _
  have hne : n ≠ [] := by rintro rfl; revert he; decide +kernel
  have h1 : resolve fs.dirs (OutDir.start cwd ⟨false, [.name D]⟩) (Path.comps ⟨⟨false, [.name D]⟩, n⟩) = none := by
    unfold Path.comps
    rw [if_neg hne]
    show resolve fs.dirs cwd [.name D, .name n] = none
    unfold resolve
    rw [if_pos hi.data]
    unfold resolve
    rw [if_neg (fun h => hn (hi.subs n h))]
  have h2 : resolve fs.dirs (OutDir.start cwd ⟨false, [.name D]⟩) [.name D] = some (cwd ++ [D]) := by
    show resolve fs.dirs cwd [.name D] = _
    unfold resolve
    rw [if_pos hi.data]
    rfl
  have hs : source fs cwd ⟨⟨false, [.name D]⟩, n⟩ = some ⟨some (cwd ++ [D]), n, some (cwd ++ [D]), false⟩ := by
    unfold source
    rw [h1]
    simp only
    rw [if_pos he, h2]
    have h3 : (some (cwd ++ [D])).filter (fun d => (fs.get d metadataName).isSome) = some (cwd ++ [D]) :=
      Option.filter_some_pos (p := fun d => (fs.get d metadataName).isSome) (by
        show (fs.get (cwd ++ [D]) (ascii "metadata.yaml")).isSome = true
        rw [hi.files _ _ hd1]; exact hm)
    rw [h3]
    rfl
  have ht : target (benchArgs D n) ⟨some (cwd ++ [D]), n, some (cwd ++ [D]), false⟩ = (defaultDir (cwd ++ [D]) true, defaultName (stemOf n) true) := rfl
  have hpl := C66_default fs.dirs hi.closed cwd cwd D (stemOf n) true hi.data
  have hmk : (fs.mkdirs cwd (defaultDir (cwd ++ [D]) true)).dirs = fs.dirs ∨
      (fs.mkdirs cwd (defaultDir (cwd ++ [D]) true)).dirs = (cwd ++ [D ++ ascii "_encoded"]) :: fs.dirs := by
    unfold Fs.mkdirs
    split
    · exact .inl rfl
    · show createDirs fs.dirs [] (((cwd ++ [D]).dropLast.map .name) ++ [.name (((cwd ++ [D]).getLast?.getD []) ++ ascii "_encoded")]) = _ ∨
        createDirs fs.dirs [] (((cwd ++ [D]).dropLast.map .name) ++ [.name (((cwd ++ [D]).getLast?.getD []) ++ ascii "_encoded")]) = _
      rw [List.dropLast_concat, List.getLast?_concat, Option.getD_some, createDirs_leaf hi.closed _ _ _ (by simpa using hi.closed _ _ hi.data)]
      split
      · exact .inl rfl
      · exact .inr (by simp)
  rcases main_cases K fs cwd none (benchArgs D n) with ⟨hh, hr⟩ | hr | ⟨p, s, hf, hs', h3, h4, hr⟩ | ⟨p, s, dir, file, m, hf, hs', hx, hp, hd⟩
  · cases hh
  · constructor
    · unfold processFile; simp only; rw [hr]; exact hi
    · intro row h
      unfold processFile at h
      simp only at h
      rw [hr] at h
      simp at h
  · cases hf
    rw [hs] at hs'
    cases hs'
    cases h4
  · cases hf
    rw [hs] at hs'
    cases hs'
    rw [ht] at hp hd
    simp only at hp hd
    rw [hpl] at hp
    simp only [if_true, Placed.into.injEq] at hp
    obtain ⟨rfl, rfl, -⟩ := hp
    have hfr : ∀ d k, d ≠ cwd ++ [D ++ ascii "_encoded"] → (Bag.main K fs cwd none (benchArgs D n)).2.get d k = fs₀.get d k := by
      intro d k hdk
      rw [← hi.files d k hdk]
      refine Classical.byContradiction fun hcon => ?_
      rw [← Fs.mkdirs_get fs cwd (defaultDir (cwd ++ [D]) true)] at hcon
      exact hdk (Did.get hd d k hcon).1
    have hdirs := Did.dirs hd
    have hinv : MetaInv cwd D fs₀ (Bag.main K fs cwd none (benchArgs D n)).2 := by
      refine ⟨?_, ?_, ?_, hfr⟩
      · rw [hdirs]
        rcases hmk with e | e
        · rw [e]; exact hi.closed
        · rw [e]
          intro d x hdx
          rcases List.mem_cons.1 hdx with h | h
          · have := List.append_inj_left' h rfl
            subst this
            rcases hi.closed _ _ hi.data with h | h
            · exact .inl h
            · exact .inr (List.mem_cons_of_mem _ h)
          · rcases hi.closed _ _ h with h | h
            · exact .inl h
            · exact .inr (List.mem_cons_of_mem _ h)
      · rw [hdirs]
        rcases hmk with e | e
        · rw [e]; exact hi.data
        · rw [e]; exact List.mem_cons_of_mem _ hi.data
      · intro k hk
        rw [hdirs] at hk
        rcases hmk with e | e
        · rw [e] at hk; exact hi.subs k hk
        · rw [e] at hk
          rcases List.mem_cons.1 hk with h | h
          · have := congrArg List.length h
            simp at this
          · exact hi.subs k h
    constructor
    · unfold processFile
      simp only
      split
      · exact hinv
      · exact hinv
    · intro row h
      unfold processFile at h
      simp only at h
      split at h
      · cases h
      · simp only [Option.some.injEq] at h
        rw [← h]
        have e1 : (Bag.main K fs cwd none (benchArgs D n)).2.get cwd (stemOf n ++ ascii "_encoded.mcap") = fs₀.get cwd (encodedName n) := hfr _ _ hd2
        rw [e1, hi.files _ _ hd1, hb]
        rfl

/-- **C89 is false for a directory with a `metadata.yaml`.** The converter writes to a sibling directory, the script looks in the current one: every row, in
every order, has as compressed size the size of whatever file had the name of the output before the script was started, and none if there was no such
file. -/
theorem C89_metadata (K : Tool) (fs : Fs) (cwd : List (List Byte)) (D : List Byte) (order : List (List Byte)) (h : DataDir fs cwd D) (hc : Closed fs.dirs)
    (hm : (fs.get (cwd ++ [D]) (ascii "metadata.yaml")).isSome) (ho : order.Perm (benchFiles fs (cwd ++ [D]))) :
    ∀ row ∈ (processAll K cwd D fs order).2, ∃ stem bytes, row.name = stem ++ ascii ".mcap" ∧ fs.get (cwd ++ [D]) row.name = some bytes ∧
      row.original = bytes.length ∧ row.compressed = ((fs.get cwd (stem ++ ascii "_encoded.mcap")).map List.length).filter (· ≠ 0) := by
  obtain ⟨-, hall⟩ := h.all ho
  clear ho
  have key : ∀ (order : List (List Byte)) (fs' : Fs), MetaInv cwd D fs fs' → (∀ n ∈ order, cwd ++ [D] ++ [n] ∉ fs.dirs ∧ PcdTool.extOf n = ascii ".mcap" ∧
      fs.get (cwd ++ [D]) n = some ((fs.get (cwd ++ [D]) n).getD [])) →
      ∀ row ∈ (processAll K cwd D fs' order).2, ∃ stem bytes, row.name = stem ++ ascii ".mcap" ∧ fs.get (cwd ++ [D]) row.name = some bytes ∧
      row.original = bytes.length ∧ row.compressed = ((fs.get cwd (stem ++ ascii "_encoded.mcap")).map List.length).filter (· ≠ 0) := by
    intro order
    induction order with
    | nil => intro fs' _ _ row hrow; cases hrow
    | cons n ns ih =>
      intro fs' hi hall row hrow
      obtain ⟨h1, h2, h3⟩ := hall n (List.mem_cons_self ..)
      obtain ⟨s1, s2⟩ := meta_step K fs fs' cwd D n _ hi h1 h2 hm h3
      have hrow : row ∈ (processFile K cwd D fs' n).2.toList ++ (processAll K cwd D (processFile K cwd D fs' n).1 ns).2 := hrow
      rcases List.mem_append.1 hrow with hr | hr
      · have hr := s2 row (by simpa using hr)
        subst hr
        exact ⟨stemOf n, _, stem_of_ext h2, h3, rfl, rfl⟩
      · exact ih _ s1 (fun k hk => hall k (List.mem_cons_of_mem _ hk)) row hr
  exact key order fs ⟨hc, h.made, fun _ h => h, fun _ _ _ => rfl⟩ hall

/-- So in a current directory without outputs of earlier runs no row has a ratio, and if any file was converted the summary fails with a division by zero. -/
theorem C89_metadata_no_summary (K : Tool) (fs : Fs) (cwd : List (List Byte)) (D : List Byte) (order : List (List Byte)) (h : DataDir fs cwd D)
    (hc : Closed fs.dirs) (hm : (fs.get (cwd ++ [D]) (ascii "metadata.yaml")).isSome) (ho : order.Perm (benchFiles fs (cwd ++ [D])))
    (hf : ∀ stem, fs.get cwd (stem ++ ascii "_encoded.mcap") = none) (hr : (processAll K cwd D fs order).2 ≠ []) :
    summary (processAll K cwd D fs order).2 = .throw "ZeroDivisionError" := by
  have hrows := C89_metadata K fs cwd D order h hc hm ho
  unfold summary
  rw [if_neg hr]
  simp only
  rw [if_pos]
  rw [List.filterMap_eq_nil_iff]
  intro row hrow
  obtain ⟨stem, bytes, -, -, -, e⟩ := hrows row hrow
  rw [e, hf]
  rfl

/-- /w with /w/DATA and two bags in it; an output of an earlier run in /w. -/
def benchFs (metadata : Bool) (second : List Byte) : Fs where
  dirs := [[ascii "w"], [ascii "w", ascii "DATA"]]
  files := [⟨[ascii "w", ascii "DATA"], ascii "a.mcap", [5#8]⟩, ⟨[ascii "w", ascii "DATA"], ascii "b.mcap", second⟩,
      ⟨[ascii "w"], ascii "old_encoded.mcap", [1#8, 2#8, 3#8]⟩] ++
    if metadata then [⟨[ascii "w", ascii "DATA"], ascii "metadata.yaml", ascii "A"⟩] else []

theorem benchFs_data (metadata : Bool) : DataDir (benchFs metadata [6#8, 6#8]) [ascii "w"] (ascii "DATA") := by
  cases metadata
  · exact ⟨by decide +kernel, by decide +kernel, by decide +kernel⟩
  · exact ⟨by decide +kernel, by decide +kernel, by decide +kernel⟩

/-- The hypotheses of `C89_rows_partial`: both files get a row with the size of their output. -/
example : (processAll toyTool [ascii "w"] (ascii "DATA") (benchFs false [6#8, 6#8]) [ascii "b.mcap", ascii "a.mcap"]).2 =
      [⟨ascii "b.mcap", 2, some 3⟩, ⟨ascii "a.mcap", 1, some 2⟩] ∧
    (∀ n ∈ [ascii "b.mcap", ascii "a.mcap"], ∀ bytes, (benchFs false [6#8, 6#8]).get [ascii "w", ascii "DATA"] n = some bytes →
      toyTool.topics bytes ≠ some (0, 0)) ∧
    [ascii "b.mcap", ascii "a.mcap"].Perm (benchFiles (benchFs false [6#8, 6#8]) ([ascii "w"] ++ [ascii "DATA"])) ∧
    (benchFs false [6#8, 6#8]).get ([ascii "w"] ++ [ascii "DATA"]) (ascii "metadata.yaml") = none := by
  refine ⟨by decide +kernel, ?_, by decide +kernel, by decide +kernel⟩
  intro n hn bytes hb
  rcases List.mem_cons.1 hn with rfl | hn
  · have : bytes = [6#8, 6#8] := Option.some.inj (hb.symm.trans (by decide +kernel))
    rw [this]; decide +kernel
  · rw [List.mem_singleton.1 hn] at hb
    have : bytes = [5#8] := Option.some.inj (hb.symm.trans (by decide +kernel))
    rw [this]; decide +kernel

/-- The hypotheses of `C89_metadata_no_summary` (without the old output): two rows, no ratio, no summary. -/
example : let fs : Fs := { benchFs true [6#8, 6#8] with files := (benchFs true [6#8, 6#8]).files.filter fun e => e.dir.length = 2 }
    (processAll toyTool [ascii "w"] (ascii "DATA") fs [ascii "a.mcap", ascii "b.mcap"]).2 = [⟨ascii "a.mcap", 1, none⟩, ⟨ascii "b.mcap", 2, none⟩] ∧
      summary (processAll toyTool [ascii "w"] (ascii "DATA") fs [ascii "a.mcap", ascii "b.mcap"]).2 = .throw "ZeroDivisionError" := by
  decide +kernel

/-- **C89 is false for files without clouds.** The converter exits with 0 and writes nothing; the size of an output that happens to lie in the current directory
is taken for the size of the compressed file. -/
theorem C89_stale :
    let fs : Fs := { benchFs false [9#8] with files := ⟨[ascii "w"], ascii "b_encoded.mcap", [1#8, 2#8, 3#8, 4#8]⟩ :: (benchFs false [9#8]).files }
    toyTool.topics [9#8] = some (0, 0) ∧ fs.get [ascii "w", ascii "DATA"] (ascii "b.mcap") = some [9#8] ∧
      (processAll toyTool [ascii "w"] (ascii "DATA") fs [ascii "a.mcap", ascii "b.mcap"]).2 = [⟨ascii "a.mcap", 1, some 2⟩, ⟨ascii "b.mcap", 1, some 4⟩] := by
  decide +kernel

end Cloudini.Props
