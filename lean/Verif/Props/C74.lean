import Verif.Lemmas.PcdTool
import Verif.Props.C51_C53

/-!
# C74: the program `pcd_to_cloudini_converter`

`run enc disk options world` is the program; `enc res node` is `PCLPointCloudEncode` of what is found at a path (`encodePath` of the model, or anything
else: most theorems hold for every encoder).
-/

namespace Cloudini.Props

open Cloudini.Pcd Cloudini.PcdTool

/-- **C74, names.** The output of a single conversion always ends in `.cldn`, whatever `-o` says, and is never the input; without `-o` it is the input
with `.pcd` replaced. -/
theorem C74_names (input : Path) (output : Option Path) (h : extension input = ascii ".pcd") :
    ascii ".cldn" <:+ target input output ∧ target input output ≠ input ∧
      ∃ base, base ≠ [] ∧ input = base ++ ascii ".pcd" ∧ target input none = base ++ ascii ".cldn" := by
  refine ⟨target_suffix _ _, fun e => suffix_clash (e ▸ target_suffix input output) (h ▸ extension_suffix input), dirOf input ++ stem input, ?_, ?_, ?_⟩
  · have := stem_ne_nil (p := input) (by rw [h]; decide)
    simp [this]
  · conv => lhs; rw [path_ext input]
    rw [h]
  · unfold target
    simp only [Option.getD_none]
    rw [if_neg (by rw [besides_ext h]; simp)]
    rfl

theorem there {x : Option Node} (h : x.isSome) : ¬ x.isNone := by
  cases x with
  | none => cases h
  | some _ => simp

/-- What a conversion does to the world. -/
theorem convertFile_inv {enc : Option Node → Res (List Byte)} {d : Disk} {yes : Bool} {input output : Path} {w w' : World} {r : Bool}
    (e : convertFile enc d yes input output w = .ok (r, w')) :
    (r = false ∧ w'.fs = w.fs) ∨
    ∃ bytes, r = true ∧ enc (w.fs input) = .ok bytes ∧ canOpen d w.fs output = true ∧ w'.fs = putFile d w.fs output bytes := by
  unfold convertFile at e
  by_cases h0 : (w.fs input).isNone
  · rw [if_pos h0] at e; cases e; exact Or.inl ⟨rfl, rfl⟩
  rw [if_neg h0] at e
  obtain ⟨⟨go, w1⟩, e1, e⟩ := Res.bind_eq_ok.1 e
  have hfs : w1.fs = w.fs := by
    unfold confirmed at e1
    split at e1
    · cases ha : answer w.stdin with
      | none => rw [ha] at e1; cases e1
      | some x => rw [ha] at e1; cases e1; rfl
    · cases e1; rfl
  simp only at e
  by_cases hg : go = false
  · rw [if_pos hg] at e; cases e; exact Or.inl ⟨rfl, hfs⟩
  rw [if_neg hg, hfs] at e
  cases hb : enc (w.fs input) with
  | throw m => rw [hb] at e; cases e; exact Or.inl ⟨rfl, hfs⟩
  | ub k => rw [hb] at e; cases e
  | ok bytes =>
    rw [hb] at e
    simp only at e
    split at e
    · rename_i hc
      cases e
      exact Or.inr ⟨bytes, rfl, rfl, hc, rfl⟩
    · cases e
      exact Or.inl ⟨rfl, hfs⟩

/-- **C74, failure.** When the program returns a code other than 0, every file is what it was: a file that cannot be loaded or encoded, an output that
cannot be opened or may not be replaced, wrong options. -/
theorem C74_failure_untouched (enc : BitVec 64 → Option Node → Res (List Byte)) (d : Disk) (o : Options) (w w' : World) (code : Nat) (hc : code ≠ 0)
    (e : run enc d o w = .ok (code, w')) : w'.fs = w.fs := by
  unfold run at e
  split at e
  · cases e; rfl
  · cases e; rfl
  · split at e
    · cases e; rfl
    split at e
    · cases e; rfl
    obtain ⟨⟨r, w1⟩, e1, e⟩ := Res.bind_eq_ok.1 e
    simp only [Res.ok.injEq] at e
    rcases convertFile_inv e1 with ⟨rfl, h⟩ | ⟨_, rfl, _⟩
    · cases e; exact h
    · cases e; exact absurd rfl hc
  · split at e
    · cases e; rfl
    split at e
    · obtain ⟨⟨a, b, w1⟩, e1, e⟩ := Res.bind_eq_ok.1 e
      cases e
      exact absurd rfl hc
    · cases e; rfl

/-- **C74, success.** When the conversion of a single file returns 0: the encoder accepted the file, the output holds what it produced (as much as the device
took), and every other path is what it was, the input in particular. -/
theorem C74_single (enc : BitVec 64 → Option Node → Res (List Byte)) (d : Disk) (o : Options) (w w' : World) (input : Path) (hi : o.input = some input)
    (e : run enc d o w = .ok (0, w')) :
    ∃ bytes, enc o.resolution (w.fs input) = .ok bytes ∧ w'.fs (target input o.output) = some (.file (bytes.take (d.room (target input o.output)))) ∧
      (∀ q, q ≠ target input o.output → w'.fs q = w.fs q) ∧ w'.fs input = w.fs input := by
  unfold run at e
  rw [hi] at e
  cases hd : o.dir with
  | some x => rw [hd] at e; cases e
  | none =>
    rw [hd] at e
    simp only at e
    split at e
    · cases e
    split at e
    · cases e
    rename_i hx
    have hx : extension input = ascii ".pcd" := by
      rcases Decidable.em (extension input = ascii ".pcd") with h | h
      · exact h
      · exact absurd h hx
    obtain ⟨⟨r, w1⟩, e1, e⟩ := Res.bind_eq_ok.1 e
    simp only [Res.ok.injEq] at e
    rcases convertFile_inv e1 with ⟨rfl, h⟩ | ⟨bytes, rfl, h1, _, h2⟩
    · cases e
    · cases e
      have hne := (C74_names input o.output hx).2.1
      refine ⟨bytes, h1, ?_, ?_, ?_⟩
      · rw [h2]; simp [putFile]
      · intro q hq; rw [h2]; simp [putFile, hq]
      · rw [h2]; simp [putFile, Ne.symm hne]

/-- **C74, conversion.** A PCD file the encoder accepts and an output that can be opened (and may be replaced): the program returns 0 and has written the file. -/
theorem C74_converts (enc : BitVec 64 → Option Node → Res (List Byte)) (d : Disk) (o : Options) (w : World) (input : Path) (bytes : List Byte) (hi : o.input = some input)
    (hd : o.dir = none) (hk : o.checked) (hx : extension input = ascii ".pcd") (hex : (w.fs input).isSome) (hy : o.yes = true ∨ w.fs (target input o.output) = none)
    (he : enc o.resolution (w.fs input) = .ok bytes) (ho : canOpen d w.fs (target input o.output) = true) :
    run enc d o w = .ok (0, { w with fs := putFile d w.fs (target input o.output) bytes }) := by
  unfold run
  rw [hi, hd]
  simp only
  rw [if_neg (by simpa using hk), if_neg (by simpa using hx)]
  unfold convertFile
  rw [if_neg (there hex)]
  unfold confirmed
  rw [if_neg (by rintro ⟨h1, h2⟩; rcases hy with h | h <;> simp_all)]
  simp only [Res.ok_bind]
  rw [if_neg (by simp), he]
  simp only
  rw [if_pos ho]
  simp

theorem run_dir {enc : BitVec 64 → Option Node → Res (List Byte)} {d : Disk} {o : Options} {w : World} {dir : Path} {entries : List Path} (hi : o.input = none)
    (hd : o.dir = some dir) (hk : o.checked) (hdir : w.fs dir = some (.dir entries)) :
    run enc d o w = batch (enc o.resolution) d o.yes entries w >>= fun r => .ok (0, r.2.2) := by
  unfold run
  rw [hi, hd]
  simp only
  rw [if_neg (by simpa using hk), hdir]

/-- **C74 fails on a full device**: the state of the output stream is never looked at; the program returns 0 and says so although the file lacks its end. -/
theorem C74_full_disk (enc : BitVec 64 → Option Node → Res (List Byte)) (d : Disk) (o : Options) (w : World) (input : Path) (bytes : List Byte) (hi : o.input = some input)
    (hd : o.dir = none) (hk : o.checked) (hx : extension input = ascii ".pcd") (hex : (w.fs input).isSome) (hy : o.yes = true)
    (he : enc o.resolution (w.fs input) = .ok bytes) (ho : canOpen d w.fs (target input o.output) = true) (hfull : d.room (target input o.output) < bytes.length) :
    ∃ w' content, run enc d o w = .ok (0, w') ∧ w'.fs (target input o.output) = some (.file content) ∧ content.length < bytes.length := by
  refine ⟨{ w with fs := putFile d w.fs (target input o.output) bytes }, bytes.take (d.room (target input o.output)), ?_, by simp [putFile], by
    rw [List.length_take]; omega⟩
  exact C74_converts enc d o w input bytes hi hd hk hx hex (Or.inl hy) he ho

/-- **C74 fails for three options**: what `-e`, `-c` and `-i` say (as long as it is one of the accepted words) changes nothing at all; the description used is always lossy
with ZSTD. -/
theorem C74_options_ignored (enc : BitVec 64 → Option Node → Res (List Byte)) (d : Disk) (o : Options) (w : World) (encoding compression : List Byte) (intensity : BitVec 64)
    (h : o.checked) (h1 : encoding ∈ [ascii "lossy", ascii "lossless", ascii "none"]) (h2 : compression ∈ [ascii "lz4", ascii "zstd", ascii "none"]) :
    run enc d { o with encoding := encoding, compression := compression, intensity := intensity } w = run enc d o w ∧
      ∀ c res m, (fileInfo c res m).encoding_opt = .lossy ∧ (fileInfo c res m).compression_opt = .zstd := by
  refine ⟨?_, fun c res m => ⟨rfl, rfl⟩⟩
  obtain ⟨oi, od, oo, oy, r, x, e1, e2⟩ := o
  have h' : ∀ i d, (⟨i, d, oo, oy, r, intensity, encoding, compression⟩ : Options).checked := fun _ _ => ⟨h1, h2⟩
  have h0 : ∀ i d, (⟨i, d, oo, oy, r, x, e1, e2⟩ : Options).checked := fun _ _ => h
  unfold run
  cases oi <;> cases od <;> simp only
  · rw [if_neg (not_not_intro (h' _ _)), if_neg (not_not_intro (h0 _ _))]
  · rw [if_neg (not_not_intro (h' _ _)), if_neg (not_not_intro (h0 _ _))]

/-- **C74, no overwriting without consent**: without `-y` an existing output survives any answer but `y` and `Y`. -/
theorem C74_keeps (enc : BitVec 64 → Option Node → Res (List Byte)) (d : Disk) (o : Options) (w : World) (input : Path) (c : Byte) (rest : List Byte) (hi : o.input = some input)
    (hd : o.dir = none) (hk : o.checked) (hx : extension input = ascii ".pcd") (hy : o.yes = false) (hex : (w.fs input).isSome)
    (ht : (w.fs (target input o.output)).isSome) (ha : answer w.stdin = some (c, rest)) (hc : c ≠ 0x79#8 ∧ c ≠ 0x59#8) :
    run enc d o w = .ok (1, { w with stdin := rest }) := by
  unfold run
  rw [hi, hd]
  simp only
  rw [if_neg (by simpa using hk), if_neg (by simpa using hx)]
  unfold convertFile
  rw [if_neg (there hex)]
  unfold confirmed
  rw [if_pos ⟨ht, hy⟩, ha]
  simp [hc.1, hc.2]

/-- **C74 fails at the end of the input**: with nothing left to read, the answer is a variable nobody gave a value. -/
theorem C74_no_answer (enc : BitVec 64 → Option Node → Res (List Byte)) (d : Disk) (o : Options) (w : World) (input : Path) (hi : o.input = some input)
    (hd : o.dir = none) (hk : o.checked) (hx : extension input = ascii ".pcd") (hy : o.yes = false) (hex : (w.fs input).isSome)
    (ht : (w.fs (target input o.output)).isSome) (ha : answer w.stdin = none) : run enc d o w = .ub .mem := by
  unfold run
  rw [hi, hd]
  simp only
  rw [if_neg (by simpa using hk), if_neg (by simpa using hx)]
  unfold convertFile
  rw [if_neg (there hex)]
  unfold confirmed
  rw [if_pos ⟨ht, hy⟩, ha]
  simp

theorem canOpen_store {d : Disk} {fs : Fs} {p q : Path} {b : List Byte} : canOpen d (putFile d fs p b) q = true ↔ (if q = p then d.open? p = true else canOpen d fs q = true) := by
  unfold canOpen putFile
  by_cases h : q = p
  · subst h; simp
  · simp [h]

/-- The loop of the batch mode, with consent. -/
theorem batch_spec {enc : Option Node → Res (List Byte)} {d : Disk} : ∀ {ps : List Path} {w w' : World} {a b : Nat}, ps.Nodup →
    batch enc d true ps w = .ok (a, b, w') →
    (∀ p ∈ ps, extension p = ascii ".pcd" → ∀ bytes, (w.fs p).isSome → enc (w.fs p) = .ok bytes → canOpen d w.fs (besides p) = true →
      w'.fs (besides p) = some (.file (bytes.take (d.room (besides p))))) ∧
    (∀ p ∈ ps, extension p = ascii ".pcd" → (∀ bytes, enc (w.fs p) = .ok bytes → canOpen d w.fs (besides p) = false) → w'.fs (besides p) = w.fs (besides p)) ∧
    (∀ q, (∀ p ∈ ps, extension p = ascii ".pcd" → q ≠ besides p) → w'.fs q = w.fs q) ∧
    a + b = (ps.filter fun p => extension p = ascii ".pcd").length := by
  intro ps
  induction ps with
  | nil =>
    intro w w' a b _ e
    cases e
    simp
  | cons p ps ih =>
    intro w w' a b hn e
    rw [List.nodup_cons] at hn
    unfold batch at e
    by_cases hx : extension p = ascii ".pcd"
    · rw [if_pos hx] at e
      obtain ⟨⟨ok, w1⟩, e1, e⟩ := Res.bind_eq_ok.1 e
      obtain ⟨⟨a1, b1, w2⟩, e2, e⟩ := Res.bind_eq_ok.1 e
      simp only [Res.ok.injEq] at e
      obtain ⟨i1, i2, i3, i4⟩ := ih hn.2 e2
      have hw : w' = w2 := by
        revert e; cases ok <;> intro e <;> cases e <;> rfl
      have hab : a + b = a1 + b1 + 1 := by
        revert e; cases ok <;> intro e <;> cases e <;> omega
      subst hw
      have hself : w'.fs (besides p) = w1.fs (besides p) := i3 _ fun q hq hqx h => hn.1 (besides_inj hx hqx h ▸ hq)
      have hin : ∀ q, extension q = ascii ".pcd" → w1.fs q = w.fs q := by
        intro q hq
        rcases convertFile_inv e1 with ⟨_, h⟩ | ⟨bytes, _, _, _, h⟩
        · rw [h]
        · rw [h]
          have : q ≠ besides p := fun h => suffix_clash (p := q) (h ▸ besides_ext hx ▸ extension_suffix (besides p)) (hq ▸ extension_suffix q)
          simp [putFile, this]
      have hoth : ∀ q, q ≠ besides p → w1.fs q = w.fs q := by
        intro q hq
        rcases convertFile_inv e1 with ⟨_, h⟩ | ⟨bytes, _, _, _, h⟩
        · rw [h]
        · rw [h]; simp [putFile, hq]
      have hop : ∀ q, q ≠ besides p → canOpen d w1.fs q = canOpen d w.fs q := by
        intro q hq
        unfold canOpen
        rw [hoth q hq]
      have hbne : ∀ q ∈ ps, extension q = ascii ".pcd" → besides q ≠ besides p := fun q hq hqx h => hn.1 (besides_inj hqx hx h ▸ hq)
      refine ⟨?_, ?_, ?_, ?_⟩
      · intro q hq hqx bytes hs he ho
        rcases List.mem_cons.1 hq with rfl | hq
        · rw [hself]
          unfold convertFile at e1
          rw [if_neg (there hs)] at e1
          unfold confirmed at e1
          rw [if_neg (by simp)] at e1
          simp only [Res.ok_bind] at e1
          rw [if_neg (by simp), he] at e1
          simp only at e1
          rw [if_pos ho] at e1
          cases e1
          simp [putFile]
        · exact i1 q hq hqx bytes (by rw [hin q hqx]; exact hs) (by rw [hin q hqx]; exact he) (by rw [hop _ (hbne q hq hqx)]; exact ho)
      · intro q hq hqx hf
        rcases List.mem_cons.1 hq with rfl | hq
        · rw [hself]
          rcases convertFile_inv e1 with ⟨_, h⟩ | ⟨bytes, _, he, ho, _⟩
          · rw [h]
          · rw [hf bytes he] at ho; cases ho
        · rw [i2 q hq hqx (fun bytes he => by rw [hop _ (hbne q hq hqx)]; exact hf bytes (by rw [← hin q hqx]; exact he)), hoth _ (hbne q hq hqx)]
      · intro q hq
        rw [i3 q (fun r hr => hq r (by simp [hr])), hoth q (hq p (by simp) hx)]
      · rw [List.filter_cons_of_pos (by simpa using hx), List.length_cons]
        omega
    · rw [if_neg hx] at e
      obtain ⟨i1, i2, i3, i4⟩ := ih hn.2 e
      refine ⟨?_, ?_, ?_, ?_⟩
      · intro q hq hqx
        rcases List.mem_cons.1 hq with rfl | hq
        · exact absurd hqx hx
        · exact i1 q hq hqx
      · intro q hq hqx
        rcases List.mem_cons.1 hq with rfl | hq
        · exact absurd hqx hx
        · exact i2 q hq hqx
      · intro q hq
        exact i3 q fun r hr => hq r (by simp [hr])
      · rw [List.filter_cons_of_neg (by simpa using hx)]
        exact i4

/-- **C74, batches.** With `-b` and `-y`: next to every `*.pcd` file of the directory that the encoder accepts there is its `.cldn` file with what the
encoder produced from the file as it was at the start; the output of every other one is as it was; nothing else changes, no PCD file in particular.
The exit code is 0, however many files failed. -/
theorem C74_batch (enc : BitVec 64 → Option Node → Res (List Byte)) (d : Disk) (o : Options) (w w' : World) (dir : Path) (entries : List Path) (code : Nat)
    (hi : o.input = none) (hd : o.dir = some dir) (hk : o.checked) (hy : o.yes = true) (hdir : w.fs dir = some (.dir entries)) (hn : entries.Nodup)
    (e : run enc d o w = .ok (code, w')) :
    (∀ p ∈ entries, extension p = ascii ".pcd" → ∀ bytes, (w.fs p).isSome → enc o.resolution (w.fs p) = .ok bytes → canOpen d w.fs (besides p) = true →
      w'.fs (besides p) = some (.file (bytes.take (d.room (besides p))))) ∧
    (∀ p ∈ entries, extension p = ascii ".pcd" → (∀ bytes, enc o.resolution (w.fs p) = .ok bytes → canOpen d w.fs (besides p) = false) →
      w'.fs (besides p) = w.fs (besides p)) ∧
    (∀ q, (∀ p ∈ entries, extension p = ascii ".pcd" → q ≠ besides p) → w'.fs q = w.fs q) ∧
    (∀ q, extension q = ascii ".pcd" → w'.fs q = w.fs q) ∧ code = 0 := by
  unfold run at e
  rw [hi, hd] at e
  simp only at e
  rw [if_neg (by simpa using hk), hdir] at e
  simp only at e
  obtain ⟨⟨a, b, w1⟩, e1, e⟩ := Res.bind_eq_ok.1 e
  rw [hy] at e1
  cases e
  obtain ⟨i1, i2, i3, _⟩ := batch_spec hn e1
  refine ⟨i1, i2, i3, fun q hq => i3 q fun p _ hx h => suffix_clash (p := q) (h ▸ besides_ext hx ▸ extension_suffix (besides p)) (hq ▸ extension_suffix q), rfl⟩

/-- Whether a file of the directory is one that gets converted: it exists, the encoder accepts it and its output can be opened. -/
def convertible (enc : Option Node → Res (List Byte)) (d : Disk) (fs : Fs) (p : Path) : Bool :=
  (fs p).isSome && (match enc (fs p) with | .ok _ => true | _ => false) && canOpen d fs (besides p)

/-- **C74, the numbers.** The two numbers the batch mode shows at the end are those of the `*.pcd` files that can be converted and of those that cannot, as the
directory was at the start. -/
theorem C74_counts (enc : Option Node → Res (List Byte)) (d : Disk) : ∀ (ps : List Path) (w w' : World) (a b : Nat), ps.Nodup →
    batch enc d true ps w = .ok (a, b, w') →
    a = (ps.filter fun p => extension p = ascii ".pcd" && convertible enc d w.fs p).length ∧
      b = (ps.filter fun p => extension p = ascii ".pcd" && !convertible enc d w.fs p).length := by
  intro ps
  induction ps with
  | nil =>
    intro w w' a b _ e
    cases e
    exact ⟨rfl, rfl⟩
  | cons p ps ih =>
    intro w w' a b hn e
    rw [List.nodup_cons] at hn
    unfold batch at e
    by_cases hx : extension p = ascii ".pcd"
    · rw [if_pos hx] at e
      obtain ⟨⟨ok, w1⟩, e1, e⟩ := Res.bind_eq_ok.1 e
      obtain ⟨⟨a1, b1, w2⟩, e2, e⟩ := Res.bind_eq_ok.1 e
      simp only [Res.ok.injEq] at e
      have hoth : ∀ q, q ≠ besides p → w1.fs q = w.fs q := by
        intro q hq
        rcases convertFile_inv e1 with ⟨_, h⟩ | ⟨bytes, _, _, _, h⟩
        · rw [h]
        · rw [h]; simp [putFile, hq]
      have hcv : ∀ q ∈ ps, extension q = ascii ".pcd" → convertible enc d w1.fs q = convertible enc d w.fs q := by
        intro q hq hqx
        have h1 : q ≠ besides p := fun h => suffix_clash (p := q) (h ▸ besides_ext hx ▸ extension_suffix (besides p)) (hqx ▸ extension_suffix q)
        have h2 : besides q ≠ besides p := fun h => hn.1 (besides_inj hqx hx h ▸ hq)
        unfold convertible canOpen
        rw [hoth q h1, hoth _ h2]
      have hok : ok = convertible enc d w.fs p := by
        unfold convertFile at e1
        unfold convertible
        by_cases hs : (w.fs p).isNone
        · rw [if_pos hs] at e1
          cases e1
          rw [Option.isNone_iff_eq_none] at hs
          simp [hs]
        · rw [if_neg hs] at e1
          have hs' : (w.fs p).isSome = true := by
            cases hw : w.fs p <;> simp_all
          unfold confirmed at e1
          rw [if_neg (by simp)] at e1
          simp only [Res.ok_bind] at e1
          rw [if_neg (by simp)] at e1
          rw [hs', Bool.true_and]
          cases he : enc (w.fs p) with
          | throw m => rw [he] at e1; cases e1; rfl
          | ub k => rw [he] at e1; cases e1
          | ok bytes =>
            rw [he] at e1
            simp only at e1
            by_cases ho : canOpen d w.fs (besides p) = true
            · rw [if_pos ho] at e1; cases e1; simp [ho]
            · rw [if_neg ho] at e1; cases e1; simp [ho]
      obtain ⟨i1, i2⟩ := ih _ _ _ _ hn.2 e2
      have f1 : (ps.filter fun p => extension p = ascii ".pcd" && convertible enc d w1.fs p) = ps.filter fun p => extension p = ascii ".pcd" && convertible enc d w.fs p :=
        List.filter_congr fun q hq => by
          by_cases hqx : extension q = ascii ".pcd"
          · rw [hcv q hq hqx]
          · simp [hqx]
      have f2 : (ps.filter fun p => extension p = ascii ".pcd" && !convertible enc d w1.fs p) = ps.filter fun p => extension p = ascii ".pcd" && !convertible enc d w.fs p :=
        List.filter_congr fun q hq => by
          by_cases hqx : extension q = ascii ".pcd"
          · rw [hcv q hq hqx]
          · simp [hqx]
      rw [f1] at i1
      rw [f2] at i2
      rw [List.filter_cons, List.filter_cons, ← hok]
      cases ok
      · cases e
        simp [hx, i1, i2]
      · cases e
        simp [hx, i1, i2]
    · rw [if_neg hx] at e
      obtain ⟨i1, i2⟩ := ih _ _ _ _ hn.2 e
      rw [List.filter_cons_of_neg (by simp [hx]), List.filter_cons_of_neg (by simp [hx])]
      exact ⟨i1, i2⟩

/-- **C74, the file (partial).** After a successful conversion on a device with room, `PCLPointCloudDecode` of the file gives the cloud PCL loaded.  Missing: as
for C53. -/
theorem C74_roundtrip_partial (T : FloatText) (hT : T.Lawful) (F : FloatOps) (C : Compressor) (hC : C.Lawful) (fuel fuel' : Nat) (load : List Byte → Option PclCloud)
    (d : Disk) (o : Options) (w w' : World) (input : Path) (text old : List Byte) (c : PclCloud) (m : Types) (hi : o.input = some input)
    (htext : w.fs input = some (.file text)) (hload : load text = some c) (hm : readPcd fuel text = .ok m) (ok : FileOk T F (fileInfo c o.resolution m) c.data)
    (hlim : ∀ enc, mkEncoder F (fileInfo c o.resolution m) (encodeHeaderYaml T (fileInfo c o.resolution m)) = .ok enc → ChunksWithin F enc c.data c.data.length)
    (h32 : c.data.length < 2 ^ 32) (hroom : 1431260227 ≤ d.room (target input o.output))
    (hsz : ∀ bytes, w'.fs (target input o.output) = some (.file bytes) → bytes.length < 1431260227)
    (e : run (encodePath T F C fuel load) d o w = .ok (0, w')) :
    ∃ bytes c', w'.fs (target input o.output) = some (.file bytes) ∧ pclCloudDecode T F C fuel' bytes old = .ok c' ∧ c'.width = c.width ∧ c'.height = c.height ∧
      c'.point_step = c.point_step ∧ c'.fields.map (fun f => (f.name, f.offset)) = c.fields.map (fun f => (f.name, f.offset)) ∧
      Decoded F (fileInfo c o.resolution m) c.data c'.data := by
  obtain ⟨bytes, h1, h2, _⟩ := C74_single _ d o w w' input hi e
  rw [htext] at h1
  have h1 : pclEncodeFile T F C fuel c text o.resolution = .ok bytes := by
    unfold encodePath at h1
    simp only [hload] at h1
    exact h1
  have hlen : bytes.length < 1431260227 := by
    have := hsz _ h2
    rw [List.length_take] at this
    omega
  rw [List.take_of_length_le (by omega)] at h2
  obtain ⟨c', g1, g2, g3, g4, g5, _, _, g6⟩ := C53_roundtrip_partial T hT F C hC fuel fuel' c o.resolution text bytes old m hm ok hlim h32 hlen h1
  exact ⟨bytes, c', h2, g1, g2, g3, g4, g5, g6⟩

/-! ### the hypotheses are met -/

/-- A directory with a PCD file, one PCL does not load, and a text. -/
def toolFs : Fs := fun p =>
  if p = ascii "a" then some (.dir [ascii "a/b.pcd", ascii "a/c.pcd", ascii "a/n.txt"])
  else if p = ascii "a/b.pcd" then some (.file pcdText)
  else if p = ascii "a/c.pcd" then some (.file (ascii "junk"))
  else if p = ascii "a/c.cldn" then some (.file (ascii "old"))
  else none
def toolLoad (text : List Byte) : Option PclCloud := if text = pcdText then some pcdWitness else none
def toolEnc : BitVec 64 → Option Node → Res (List Byte) := encodePath bitsText bitsOps storeComp 20 toolLoad
def bigDisk : Disk := ⟨fun _ => true, fun _ => 2000000000⟩

theorem pcd_encodes : ∃ bytes, pclEncodeFile bitsText bitsOps storeComp 20 pcdWitness pcdText 0#64 = .ok bytes ∧ 100 < bytes.length ∧ bytes.length < 1431260227 := by
  have h : (match pclEncodeFile bitsText bitsOps storeComp 20 pcdWitness pcdText 0#64 with | .ok b => decide (100 < b.length ∧ b.length < 1431260227) | _ => false) = true := by
    unfold pclEncodeFile convert
    rw [show resolution32 0#64 = none from rfl]
    decide +kernel
  cases e : pclEncodeFile bitsText bitsOps storeComp 20 pcdWitness pcdText 0#64 with
  | ok bytes =>
    rw [e] at h
    simp only [decide_eq_true_eq] at h
    exact ⟨bytes, rfl, h⟩
  | throw m => rw [e] at h; simp at h
  | ub k => rw [e] at h; simp at h

theorem tool_encodes (bytes : List Byte) (e : pclEncodeFile bitsText bitsOps storeComp 20 pcdWitness pcdText 0#64 = .ok bytes) :
    toolEnc 0#64 (toolFs (ascii "a/b.pcd")) = .ok bytes := by
  have hfs : toolFs (ascii "a/b.pcd") = some (.file pcdText) := by decide +kernel
  have hl : toolLoad pcdText = some pcdWitness := if_pos rfl
  unfold toolEnc encodePath
  rw [hfs]
  simp only [hl]
  exact e

theorem pcd_within : ∀ enc, mkEncoder bitsOps pcdInfo (encodeHeaderYaml bitsText pcdInfo) = .ok enc → ChunksWithin bitsOps enc pcdWitness.data pcdWitness.data.length := by
  intro enc he
  have he' : mkEncoder bitsOps pcdInfo (encodeHeaderYaml bitsText pcdInfo) = .ok ⟨pcdInfo, encodeHeaderYaml bitsText pcdInfo, []⟩ := by
    unfold mkEncoder
    rw [if_pos (by decide +kernel)]
  rw [he'] at he
  cases he
  intro es cs h c hc
  have h' : (match stage1Chunks bitsOps ⟨pcdInfo, encodeHeaderYaml bitsText pcdInfo, []⟩ pcdWitness.data with
      | .ok r => r.2.all (fun c => c.length ≤ pcdWitness.data.length) | _ => true) = true := by
    decide +kernel
  rw [h] at h'
  simp only [List.all_eq_true, decide_eq_true_eq] at h'
  exact h' c hc

def oneFile : Options := { input := some (ascii "a/b.pcd"), output := some (ascii "out.bin"), yes := true }
def wholeDir : Options := { dir := some (ascii "a"), yes := true }

example : target (ascii "a/b.pcd") (some (ascii "out.bin")) = ascii "out.cldn" ∧ target (ascii "a/b.pcd") none = ascii "a/b.cldn" ∧
    target (ascii "b.pcd") (some (ascii "d.x/.cldn")) = ascii "d.x/.cldn.cldn" := by decide +kernel
example := C74_names (ascii "a/b.pcd") (some (ascii "..")) (by decide +kernel)

/-- A conversion that succeeds, its file and the cloud in it. -/
example : ∃ w' bytes c', run toolEnc bigDisk oneFile ⟨toolFs, []⟩ = .ok (0, w') ∧ w'.fs (ascii "out.cldn") = some (.file bytes) ∧
    pclCloudDecode bitsText bitsOps storeComp 0 bytes [] = .ok c' ∧ Decoded bitsOps pcdInfo pcdWitness.data c'.data := by
  obtain ⟨bytes, e, _, hb⟩ := pcd_encodes
  obtain ⟨m, hm, ht, _⟩ := C53_int64_rejected
  have hi := pcd_info m ht
  have hr : run toolEnc bigDisk oneFile ⟨toolFs, []⟩ = .ok (0, ⟨putFile bigDisk toolFs (ascii "out.cldn") bytes, []⟩) := by
    have := C74_converts toolEnc bigDisk oneFile ⟨toolFs, []⟩ (ascii "a/b.pcd") bytes rfl rfl (by decide) (by decide +kernel) (by decide +kernel) (Or.inl rfl)
      (tool_encodes bytes e) (by decide +kernel)
    rw [show target (ascii "a/b.pcd") oneFile.output = ascii "out.cldn" by decide +kernel] at this
    exact this
  obtain ⟨b2, c', h1, h2, _, _, _, _, h3⟩ := C74_roundtrip_partial bitsText bitsText_lawful bitsOps storeComp storeComp_lawful 20 0 toolLoad bigDisk oneFile ⟨toolFs, []⟩ _
    (ascii "a/b.pcd") pcdText [] pcdWitness m rfl (by decide +kernel) (if_pos rfl) hm (by
      show FileOk bitsText bitsOps (fileInfo pcdWitness 0#64 m) _
      rw [hi]; exact pcd_ok) (by
      show ∀ enc, mkEncoder bitsOps (fileInfo pcdWitness 0#64 m) (encodeHeaderYaml bitsText (fileInfo pcdWitness 0#64 m)) = .ok enc → _
      rw [hi]; exact pcd_within) (by decide +kernel) (by decide)
    (by
      intro b hb'
      rw [show target (ascii "a/b.pcd") oneFile.output = ascii "out.cldn" by decide +kernel] at hb'
      simp only [putFile, if_pos, Option.some.injEq, Node.file.injEq] at hb'
      rw [← hb', List.length_take]
      omega) hr
  rw [show target (ascii "a/b.pcd") oneFile.output = ascii "out.cldn" by decide +kernel] at h1
  have h3 : Decoded bitsOps (fileInfo pcdWitness 0#64 m) pcdWitness.data c'.data := h3
  rw [hi] at h3
  exact ⟨_, b2, c', hr, h1, h2, h3⟩

/-- A device with room for seven bytes. -/
example : ∃ w' content, run toolEnc ⟨fun _ => true, fun _ => 7⟩ oneFile ⟨toolFs, []⟩ = .ok (0, w') ∧ w'.fs (ascii "out.cldn") = some (.file content) := by
  obtain ⟨bytes, e, hb, _⟩ := pcd_encodes
  obtain ⟨w', content, h1, h2, _⟩ := C74_full_disk toolEnc ⟨fun _ => true, fun _ => 7⟩ oneFile ⟨toolFs, []⟩ (ascii "a/b.pcd") bytes rfl rfl (by decide) (by decide +kernel)
    (by decide +kernel) rfl (tool_encodes bytes e) (by decide +kernel) (by show 7 < _; omega)
  rw [show target (ascii "a/b.pcd") oneFile.output = ascii "out.cldn" by decide +kernel] at h2
  exact ⟨w', content, h1, h2⟩

/-- A file PCL does not load: code 1, nothing touched. -/
example (w' : World) (h : run toolEnc bigDisk { oneFile with input := some (ascii "a/c.pcd") } ⟨toolFs, []⟩ = .ok (1, w')) : w'.fs = toolFs :=
  C74_failure_untouched _ _ _ _ _ 1 (by decide) h
example : (match run toolEnc bigDisk { oneFile with input := some (ascii "a/c.pcd") } ⟨toolFs, []⟩ with | .ok (1, _) => true | _ => false) = true := by decide +kernel

/-- An existing output, the answer `n`, and no answer. -/
def overC : Options := { input := some (ascii "a/c.pcd") }
example : run toolEnc bigDisk overC ⟨toolFs, ascii " n"⟩ = .ok (1, ⟨toolFs, []⟩) :=
  C74_keeps toolEnc bigDisk overC ⟨toolFs, ascii " n"⟩ (ascii "a/c.pcd") 0x6E#8 [] rfl rfl (by decide) (by decide +kernel) rfl (by decide +kernel) (by decide +kernel)
    (by decide) (by decide)
example : run toolEnc bigDisk overC ⟨toolFs, []⟩ = .ub .mem :=
  C74_no_answer toolEnc bigDisk overC ⟨toolFs, []⟩ (ascii "a/c.pcd") rfl rfl (by decide) (by decide +kernel) rfl (by decide +kernel) (by decide +kernel) (by decide)

/-- `-e none -c lz4` changes nothing. -/
example : run toolEnc bigDisk { oneFile with encoding := ascii "none", compression := ascii "lz4", intensity := 5#64 } ⟨toolFs, []⟩ = run toolEnc bigDisk oneFile ⟨toolFs, []⟩ :=
  (C74_options_ignored toolEnc bigDisk oneFile ⟨toolFs, []⟩ (ascii "none") (ascii "lz4") 5#64 (by decide) (by decide) (by decide)).1

/-- The directory: one file converted, one not, the code is 0. -/
example : ∃ w' bytes, run toolEnc bigDisk wholeDir ⟨toolFs, []⟩ = .ok (0, w') ∧ w'.fs (ascii "a/b.cldn") = some (.file bytes) ∧ 100 < bytes.length ∧
    w'.fs (ascii "a/c.cldn") = some (.file (ascii "old")) ∧ w'.fs (ascii "a/b.pcd") = some (.file pcdText) := by
  obtain ⟨bytes, e, hb, hb'⟩ := pcd_encodes
  have henc := tool_encodes bytes e
  have hrun : ∃ code w', run toolEnc bigDisk wholeDir ⟨toolFs, []⟩ = .ok (code, w') := by
    have hfs : toolFs (ascii "a") = some (.dir [ascii "a/b.pcd", ascii "a/c.pcd", ascii "a/n.txt"]) := by decide +kernel
    have hc : ∀ fs : Fs, fs (ascii "a/c.pcd") = some (.file (ascii "junk")) → convertFile (toolEnc 0) bigDisk true (ascii "a/c.pcd") (besides (ascii "a/c.pcd")) ⟨fs, []⟩ = .ok (false, ⟨fs, []⟩) := by
      intro fs h
      unfold convertFile
      simp only [h]
      rw [if_neg (by simp)]
      unfold confirmed
      rw [if_neg (by simp)]
      simp only [Res.ok_bind]
      rw [if_neg (by simp), h, show toolEnc 0 (some (.file (ascii "junk"))) = .throw "Error: Failed to load PCD file" by decide +kernel]
    have hbf : convertFile (toolEnc 0) bigDisk true (ascii "a/b.pcd") (besides (ascii "a/b.pcd")) ⟨toolFs, []⟩ =
        .ok (true, ⟨putFile bigDisk toolFs (ascii "a/b.cldn") bytes, []⟩) := by
      unfold convertFile
      rw [if_neg (by decide)]
      unfold confirmed
      rw [if_neg (by decide)]
      simp only [Res.ok_bind]
      rw [if_neg (by simp), show toolEnc 0 (toolFs (ascii "a/b.pcd")) = .ok bytes from henc]
      simp only
      rw [show besides (ascii "a/b.pcd") = ascii "a/b.cldn" by decide +kernel, if_pos (by decide +kernel)]
    have hcf := hc (putFile bigDisk toolFs (ascii "a/b.cldn") bytes) (by
      show (if ascii "a/c.pcd" = ascii "a/b.cldn" then _ else toolFs (ascii "a/c.pcd")) = _
      rw [if_neg (by decide)]
      decide +kernel)
    refine ⟨0, ⟨putFile bigDisk toolFs (ascii "a/b.cldn") bytes, []⟩, ?_⟩
    rw [run_dir rfl rfl (by decide) hfs]
    show (batch (toolEnc 0) bigDisk true _ _ >>= _) = _
    unfold batch
    rw [if_pos (by decide), hbf]
    simp only [Res.ok_bind]
    unfold batch
    rw [if_pos (by decide), hcf]
    simp only [Res.ok_bind]
    unfold batch
    rw [if_neg (by decide)]
    rfl
  obtain ⟨code, w', hr⟩ := hrun
  obtain ⟨g1, g2, _, g4, rfl⟩ := C74_batch toolEnc bigDisk wholeDir ⟨toolFs, []⟩ w' (ascii "a") [ascii "a/b.pcd", ascii "a/c.pcd", ascii "a/n.txt"] code rfl rfl (by decide) rfl
    (by decide +kernel) (by decide) hr
  refine ⟨w', bytes, hr, ?_, hb, ?_, ?_⟩
  · have := g1 (ascii "a/b.pcd") (by simp) (by decide) bytes (by decide +kernel) henc (by decide +kernel)
    rw [show besides (ascii "a/b.pcd") = ascii "a/b.cldn" by decide +kernel] at this
    rw [this, List.take_of_length_le]
    show _ ≤ 2000000000
    omega
  · have := g2 (ascii "a/c.pcd") (by simp) (by decide) (fun b h => by
      have : toolEnc wholeDir.resolution (toolFs (ascii "a/c.pcd")) = .throw "Error: Failed to load PCD file" := by decide +kernel
      rw [this] at h
      cases h)
    rw [show besides (ascii "a/c.pcd") = ascii "a/c.cldn" by decide +kernel] at this
    rw [this]
    decide +kernel
  · rw [g4 (ascii "a/b.pcd") (by decide)]
    decide +kernel

/-- The directory: one file converted, one not. -/
example (a b : Nat) (w' : World) (e : batch (toolEnc 0#64) bigDisk true [ascii "a/b.pcd", ascii "a/c.pcd", ascii "a/n.txt"] ⟨toolFs, []⟩ = .ok (a, b, w')) : a = 1 ∧ b = 1 := by
  have h := C74_counts (toolEnc 0#64) bigDisk _ ⟨toolFs, []⟩ w' a b (by decide +kernel) e
  have h1 : ([ascii "a/b.pcd", ascii "a/c.pcd", ascii "a/n.txt"].filter fun p => extension p = ascii ".pcd" && convertible (toolEnc 0#64) bigDisk toolFs p).length = 1 := by
    decide +kernel
  have h2 : ([ascii "a/b.pcd", ascii "a/c.pcd", ascii "a/n.txt"].filter fun p => extension p = ascii ".pcd" && !convertible (toolEnc 0#64) bigDisk toolFs p).length = 1 := by
    decide +kernel
  exact ⟨h.1.trans h1, h.2.trans h2⟩
example : (match batch (toolEnc 0#64) bigDisk true [ascii "a/b.pcd", ascii "a/c.pcd", ascii "a/n.txt"] ⟨toolFs, []⟩ with | .ok (1, 1, _) => true | _ => false) = true := by
  decide +kernel

end Cloudini.Props
