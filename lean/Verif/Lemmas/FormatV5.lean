import Verif.Lemmas.FormatCloud
import Verif.Lemmas.CostColumn

/-! # The sections of wide integer fields in the terms of `Spec/Format` (helper lemmas for C90) -/

namespace Cloudini

/-! ### one section -/

theorem format_differences (p : BitVec 64) (vs : List (BitVec 64)) (h : SubW p vs) :
    (deltas p vs).map BitVec.toInt = List.zipWith (fun v p => v - p) (vs.map BitVec.toInt) (p.toInt :: vs.map BitVec.toInt) := by
  induction vs generalizing p with
  | nil => rfl
  | cons v vs ih =>
    rw [deltas, List.map_cons, List.map_cons, List.zipWith_cons_cons, ← ih v h.2, sub_toInt h.1]

theorem distinct_map {α β : Type} [DecidableEq α] [DecidableEq β] (g : α → β) (l acc : List α)
    (hg : ∀ a ∈ acc ++ l, ∀ b ∈ acc ++ l, g a = g b → a = b) :
    (l.map g).foldl (fun acc x => if x ∈ acc then acc else acc ++ [x]) (acc.map g) =
      (l.foldl (fun acc x => if x ∈ acc then acc else acc ++ [x]) acc).map g := by
  induction l generalizing acc with
  | nil => rfl
  | cons x l ih =>
    rw [List.map_cons, List.foldl_cons, List.foldl_cons]
    have hiff : g x ∈ acc.map g ↔ x ∈ acc := by
      constructor
      · intro h
        obtain ⟨a, ha, hax⟩ := List.mem_map.1 h
        rw [← hg a (by simp [ha]) x (by simp) hax]
        exact ha
      · exact fun h => List.mem_map_of_mem h
    by_cases hx : x ∈ acc
    · rw [if_pos (hiff.2 hx), if_pos hx]
      refine ih acc fun a ha b hb => hg a ?_ b ?_
      · simp only [List.mem_append, List.mem_cons] at ha ⊢; rcases ha with h | h <;> simp [h]
      · simp only [List.mem_append, List.mem_cons] at hb ⊢; rcases hb with h | h <;> simp [h]
    · rw [if_neg (fun h => hx (hiff.1 h)), if_neg hx]
      have := ih (acc ++ [x]) (by rw [List.append_assoc]; exact hg)
      rw [List.map_append] at this
      exact this

theorem mem_distinct {α : Type} [DecidableEq α] (l acc : List α) (x : α) :
    x ∈ l.foldl (fun acc x => if x ∈ acc then acc else acc ++ [x]) acc ↔ x ∈ acc ∨ x ∈ l := by
  induction l generalizing acc with
  | nil => simp
  | cons y l ih =>
    rw [List.foldl_cons, ih]
    by_cases hy : y ∈ acc
    · rw [if_pos hy, List.mem_cons]
      constructor
      · rintro (h | h) <;> simp [h]
      · rintro (h | rfl | h)
        · exact .inl h
        · exact .inl hy
        · exact .inr h
    · rw [if_neg hy, List.mem_append, List.mem_singleton, List.mem_cons, or_assoc]

theorem format_firstOcc (l : List (List Byte)) (g : List Byte → BitVec 64) (hg : ∀ a ∈ l, ∀ b ∈ l, g a = g b → a = b) :
    firstOcc (l.map g) = (Format.distinct l).map g :=
  distinct_map g l [] hg

theorem idxOf_map {α β : Type} [BEq α] [LawfulBEq α] [BEq β] [LawfulBEq β] (g : α → β) (l : List α) (x : α) (hg : ∀ a ∈ l, g a = g x → a = x) :
    (l.map g).idxOf (g x) = l.idxOf x := by
  induction l with
  | nil => rfl
  | cons a l ih =>
    rw [List.map_cons, List.idxOf_cons, List.idxOf_cons, ih fun b hb => hg b (by simp [hb])]
    have : (g a == g x) = (a == x) := by
      rw [Bool.eq_iff_iff, beq_iff_eq, beq_iff_eq]
      exact ⟨hg a (by simp), fun h => by rw [h]⟩
    rw [this]

theorem format_runs_mem {α : Type} [DecidableEq α] {l : List α} {r : α × Nat} (hr : r ∈ Format.runs l) : r.1 ∈ l := by
  induction l generalizing r with
  | nil => simp [Format.runs] at hr
  | cons y l ih2 =>
    unfold Format.runs at hr
    cases hq : Format.runs l with
    | nil => rw [hq] at hr; simp only [List.mem_singleton] at hr; subst hr; simp
    | cons q rs =>
      rw [hq] at hr
      obtain ⟨z, n⟩ := q
      simp only at hr
      have hz : z ∈ l := ih2 (r := (z, n)) (by rw [hq]; simp)
      split at hr
      · simp only [List.mem_cons] at hr
        rcases hr with rfl | hr
        · simp [hz]
        · exact List.mem_cons_of_mem _ (ih2 (by rw [hq]; simp [hr]))
      · simp only [List.mem_cons] at hr
        rcases hr with rfl | rfl | hr
        · simp
        · simp [hz]
        · exact List.mem_cons_of_mem _ (ih2 (by rw [hq]; simp [hr]))

theorem runs_map {α β : Type} [DecidableEq α] [DecidableEq β] (g : α → β) (l : List α) (hg : ∀ a ∈ l, ∀ b ∈ l, g a = g b → a = b) :
    runs (l.map g) = (Format.runs l).map fun r => (g r.1, r.2) := by
  induction l with
  | nil => rfl
  | cons x l ih =>
    have ih := ih fun a ha b hb => hg a (by simp [ha]) b (by simp [hb])
    have hmem : ∀ r ∈ Format.runs l, r.1 ∈ l := fun r => format_runs_mem
    rw [List.map_cons, runs, ih, Format.runs]
    cases hq : Format.runs l with
    | nil => rfl
    | cons q rs =>
      obtain ⟨z, n⟩ := q
      have hz : z ∈ l := hmem (z, n) (by rw [hq]; simp)
      simp only [List.map_cons, consRun]
      by_cases h : x = z
      · subst h; rw [if_pos rfl, if_pos rfl]; rfl
      · rw [if_neg h, if_neg (fun h' => h (hg x (by simp) z (by simp [hz]) h'))]; rfl

theorem format_runs_self {α : Type} [DecidableEq α] (l : List α) : Format.runs l = runs l := by
  have := runs_map (id : α → α) l (fun _ _ _ _ h => h)
  simp only [List.map_id] at this
  rw [this]
  simp

theorem bitLength_log2 (m : Nat) (h : m ≠ 0) : bitLength m = m.log2 + 1 := by
  have h1 := lt_two_pow_bitLength m
  have h2 := bitLength_le m (m.log2 + 1) ((Nat.log2_lt h).1 (by omega))
  have h3 := (Nat.log2_lt h).2 h1
  omega

theorem format_indexBits (n : Nat) : bitsForPaletteIndex n = Format.indexBits n := by
  unfold bitsForPaletteIndex Format.indexBits
  by_cases h : n ≤ 1
  · rw [if_pos h, if_pos h]
  · rw [if_neg h, if_neg h, bitLength_log2 _ (by omega)]

theorem format_bitpack (bits : Nat) (hb : bits ≤ 32) (is : List Nat) (hi : ∀ i ∈ is, i < 2 ^ bits) :
    bitpack bits is = Format.packed (is.map fun i => (i, bits)) := by
  obtain ⟨h1, h2⟩ := bitpack_spec bits hb is hi
  have hlen : ((is.map fun i => (i, bits)).map (·.2)).sum = bits * is.length := by
    clear h1 h2 hi
    induction is with
    | nil => rfl
    | cons i is ih => rw [List.map_cons, List.map_cons, List.sum_cons, ih, List.length_cons, Nat.mul_succ, Nat.add_comm]
  have hval : Format.joined (is.map fun i => (i, bits)) = packVal bits is := by
    clear h1 h2 hlen
    induction is with
    | nil => rfl
    | cons i is ih =>
      rw [List.map_cons, Format.joined, packVal, ih fun j hj => hi j (by simp [hj]), Nat.mod_eq_of_lt (hi i (by simp))]
  unfold Format.packed
  rw [hlen, hval, ← h1, ← h2, format_le, toLE_fromLE]

theorem flatMap_map_id {α β : Type} (g : α → β) (k : β → List Byte) (l : List α) (k' : α → List Byte) (h : ∀ a ∈ l, k (g a) = k' a) :
    (l.map g).flatMap k = l.flatMap k' := by
  induction l with
  | nil => rfl
  | cons a l ih => rw [List.map_cons, List.flatMap_cons, List.flatMap_cons, h a (by simp), ih fun x hx => h x (by simp [hx])]

theorem mem_format_runs {α : Type} [DecidableEq α] {l : List α} {r : α × Nat} (h : r ∈ Format.runs l) : r.1 ∈ l ∧ r.2 ≤ l.length := by
  rw [format_runs_self] at h
  constructor
  · have h1 := runs_pos l r h
    rw [← expand_runs l]
    unfold expand
    rw [List.mem_flatMap]
    exact ⟨r, h, by rw [List.mem_replicate]; exact ⟨by omega, rfl⟩⟩
  · rw [← runs_total l]
    unfold runTotal
    have : ∀ (l : List Nat) (x : Nat), x ∈ l → x ≤ l.sum := by
      intro l x hx
      induction l with
      | nil => cases hx
      | cons y l ih =>
        rw [List.sum_cons]
        rcases List.mem_cons.1 hx with rfl | hx
        · omega
        · have := ih hx; omega
    exact this _ _ (List.mem_map_of_mem h)

/-- The number for the way a section is written. -/
def AMode.way : AMode → Nat
  | .deltaVarint => 0
  | .palette => 1
  | .rle => 2
  | .deltaRle => 3

/-- The section of mode `m` is the section of the format. -/
theorem format_section (f : AField) (hb0 : 0 < f.bpv) (hb : f.bpv ≤ 8) (bss : List (List Byte)) (hl : ∀ b ∈ bss, b.length = f.bpv)
    (hn : bss.length ≤ 65535) (hd : SubW 0#64 (ivals f bss)) (m : AMode) :
    secFor m f.bpv (ivals f bss) (rvals bss) = Format.section_ (f.signed || f.bpv == 8) m.way bss := by
  let g : List Byte → BitVec 64 := fun bs => BitVec.ofNat 64 (fromLE bs)
  have hback : ∀ b ∈ bss, toLE f.bpv (g b).toNat = b := by
    intro b h
    have hlt := fromLE_bound b 8 (by rw [hl b h]; exact hb)
    show toLE f.bpv (BitVec.ofNat 64 (fromLE b)).toNat = b
    rw [BitVec.toNat_ofNat, Nat.mod_eq_of_lt hlt, toLE_fromLE' (hl b h)]
  have hinj : ∀ a ∈ bss, ∀ b ∈ bss, g a = g b → a = b := by
    intro a ha b hb' h
    rw [← hback a ha, ← hback b hb', h]
  have hrv : rvals bss = bss.map g := rfl
  have hnum : (ivals f bss).map BitVec.toInt = bss.map (Format.number (f.signed || f.bpv == 8)) := by
    unfold ivals
    rw [List.map_map]
    exact List.map_congr_left fun b h => format_number (hl b h) hb0 hb
  have hdiff : (deltas 0#64 (ivals f bss)).map BitVec.toInt = Format.differences (f.signed || f.bpv == 8) bss := by
    rw [format_differences _ _ hd, hnum]; rfl
  have hdlen : (deltas 0#64 (ivals f bss)).length = bss.length := by rw [deltas_length]; simp [ivals]
  have hdinj : ∀ a ∈ deltas 0#64 (ivals f bss), ∀ b ∈ deltas 0#64 (ivals f bss), a.toInt = b.toInt → a = b := fun a _ b _ h => BitVec.eq_of_toInt_eq h
  cases m with
  | deltaVarint =>
    simp only [secFor, deltaSec, AMode.code, AMode.way, Format.section_]
    rw [← hdiff]
    congr 1
    symm
    exact flatMap_map_id _ _ _ _ fun d _ => format_signed d
  | deltaRle =>
    simp only [secFor, deltaRleSec, AMode.code, AMode.way, Format.section_]
    rw [← hdiff, format_le, format_runs_self ((deltas 0#64 (ivals f bss)).map BitVec.toInt), runs_map BitVec.toInt _ hdinj, List.length_map, format_runs_self]
    congr 2
    unfold dRleBytes
    symm
    refine flatMap_map_id _ _ _ _ fun r hr => ?_
    rw [← format_runs_self] at hr
    have := (mem_format_runs hr).2
    simp only
    rw [format_signed, format_groups_nat _ (by omega)]
  | rle =>
    simp only [secFor, rleSec, AMode.code, AMode.way, Format.section_]
    rw [hrv, runs_map g bss hinj, List.length_map, format_le]
    congr 2
    unfold rleBytes
    refine flatMap_map_id _ _ _ _ fun r hr => ?_
    have := mem_format_runs hr
    simp only
    rw [hback _ this.1, format_groups_nat _ (by omega)]
  | palette =>
    simp only [secFor, paletteSec, AMode.code, AMode.way, Format.section_]
    have hmem : ∀ x, x ∈ Format.distinct bss ↔ x ∈ bss := fun x => by
      unfold Format.distinct; rw [mem_distinct]; simp
    have hpal : firstOcc (rvals bss) = (Format.distinct bss).map g := format_firstOcc bss g hinj
    have hbits := firstOcc_bits (rvals bss) (by simp [rvals]; omega)
    have hidx := paletteIdx_lt (rvals bss)
    rw [format_bitpack _ hbits _ (fun i hi => palette_bits _ _ (hidx i hi))]
    rw [format_indexBits]
    unfold paletteIdx
    rw [hpal, List.length_map, format_le]
    congr 1
    rw [List.append_assoc]
    congr 2
    · rw [List.flatten_eq_flatMap]
      exact flatMap_map_id _ _ _ _ fun c hc => hback c ((hmem c).1 hc)
    · rw [hrv, List.map_map, List.map_map]
      apply congrArg
      apply List.map_congr_left
      intro c hc
      simp only [Function.comp]
      rw [idxOf_map g _ c fun a ha h => hinj a ((hmem a).1 ha) c hc h]

theorem select_shortest (d p r dr : Nat) (len : Nat → Nat) (h0 : len 0 = d) (h1 : len 1 = p) (h2 : len 2 = r) (h3 : len 3 = dr) :
    (selectBest d p r dr).way = ([0, 1, 2, 3].find? fun m => [0, 1, 2, 3].all fun m' => decide (len m ≤ len m')).getD 0 := by
  subst h0 h1 h2 h3
  simp only [List.find?_cons, List.all_cons, List.all_nil, Bool.and_true, List.find?_nil]
  unfold selectBest
  by_cases a : len 1 < len 0 <;> by_cases b : len 2 < len 0 <;> by_cases c : len 2 < len 1 <;> by_cases e : len 3 < len 0 <;>
    by_cases f : len 3 < len 1 <;> by_cases g : len 3 < len 2 <;>
    simp only [a, b, c, e, f, g, if_true, if_false, AMode.way, Nat.le_refl, decide_true, Bool.true_and, Bool.and_true] <;>
    first
    | omega
    | (have x01 : decide (len 0 ≤ len 1) = !decide (len 1 < len 0) := by rw [← decide_not]; exact decide_eq_decide.2 (by omega)
       have x02 : decide (len 0 ≤ len 2) = !decide (len 2 < len 0) := by rw [← decide_not]; exact decide_eq_decide.2 (by omega)
       have x03 : decide (len 0 ≤ len 3) = !decide (len 3 < len 0) := by rw [← decide_not]; exact decide_eq_decide.2 (by omega)
       have x12 : decide (len 1 ≤ len 2) = !decide (len 2 < len 1) := by rw [← decide_not]; exact decide_eq_decide.2 (by omega)
       have x13 : decide (len 1 ≤ len 3) = !decide (len 3 < len 1) := by rw [← decide_not]; exact decide_eq_decide.2 (by omega)
       have x23 : decide (len 2 ≤ len 3) = !decide (len 3 < len 2) := by rw [← decide_not]; exact decide_eq_decide.2 (by omega)
       simp only [x01, x02, x03, x12, x13, x23, a, b, c, e, f, g, decide_true, decide_false, Bool.not_true, Bool.not_false, Bool.and_true, Bool.true_and,
         Bool.and_false, Bool.false_and]
       first
       | rfl
       | (have y10 : decide (len 1 ≤ len 0) = true := decide_eq_true (by omega)
          simp [y10]; done)
       | (have y20 : decide (len 2 ≤ len 0) = true := decide_eq_true (by omega)
          have y21 : decide (len 2 ≤ len 1) = true := decide_eq_true (by omega)
          simp [y20, y21]; done)
       | (have y30 : decide (len 3 ≤ len 0) = true := decide_eq_true (by omega)
          have y31 : decide (len 3 ≤ len 1) = true := decide_eq_true (by omega)
          have y32 : decide (len 3 ≤ len 2) = true := decide_eq_true (by omega)
          simp [y30, y31, y32]; done))

theorem format_shortest (f : AField) (hb0 : 0 < f.bpv) (hb : f.bpv ≤ 8) (bss : List (List Byte)) (hl : ∀ b ∈ bss, b.length = f.bpv)
    (hn : bss.length ≤ 65535) (hd : SubW 0#64 (ivals f bss)) :
    (bestMode f.bpv (ivals f bss) (rvals bss)).way = Format.shortest (f.signed || f.bpv == 8) bss := by
  unfold bestMode Format.shortest
  exact select_shortest _ _ _ _ (fun w => (Format.section_ (f.signed || f.bpv == 8) w bss).length)
    (congrArg List.length (format_section f hb0 hb bss hl hn hd .deltaVarint).symm)
    (congrArg List.length (format_section f hb0 hb bss hl hn hd .palette).symm)
    (congrArg List.length (format_section f hb0 hb bss hl hn hd .rle).symm)
    (congrArg List.length (format_section f hb0 hb bss hl hn hd .deltaRle).symm)


/-! ### chunks -/

theorem allSections_bytes {step n : Nat} {mem : List Byte} {as gs : List AField} (h : All2 (Collected step n mem) as gs) :
    allSections step n mem gs = as.flatMap fun f => secFor (chosen step n mem f) f.bpv
      (ivals f (fieldSeq step f.offset f.bpv n mem)) (rvals (fieldSeq step f.offset f.bpv n mem)) := by
  induction as generalizing gs with
  | nil =>
    cases gs with
    | nil => rfl
    | cons g gs => exact h.elim
  | cons f as ih =>
    cases gs with
    | nil => exact h.elim
    | cons g gs =>
      simp only [allSections, List.flatMap_cons]
      rw [ih h.2]
      congr 1
      unfold sectionOf
      rw [collected_mode h.1, ivals_same h.1.same, h.1.same.1, h.1.same.2.1]

theorem parts_of_reset {es es0 : List Enc} (h : es.map Enc.reset = es0.map Enc.reset) : es.map Enc.parts = es0.map Enc.parts := by
  have := congrArg (List.map Enc.parts) h
  rw [List.map_map, List.map_map] at this
  rw [← List.map_congr_left (f := Enc.parts ∘ Enc.reset) (g := Enc.parts) (l := es) (fun e _ => parts_reset e), this]
  exact List.map_congr_left fun e _ => parts_reset e

theorem sized_of_reset {es es0 : List Enc} (h : es.map Enc.reset = es0.map Enc.reset) (h0 : ∀ e ∈ es0, e.SizeOK) : ∀ e ∈ es, e.SizeOK := by
  intro e he
  have h1 : e.reset ∈ es0.map Enc.reset := by rw [← h]; exact List.mem_map_of_mem he
  simp only [List.mem_map] at h1
  obtain ⟨e0, he0, h2⟩ := h1
  have h3 := sized_reset (h0 e0 he0)
  rw [h2] at h3
  cases e <;> simpa [Enc.reset, Enc.SizeOK] using h3

theorem chunkV5_bytes (F : FloatOps) (hash : BitVec 64 → BitVec 64) (step n cap : Nat) (es : List Enc) (ds : List Dec)
    (as : List AField) (mem : List Byte) (hm : MatchAll (es.map Enc.reset) (ds.map Dec.reset))
    (hg : ∀ i, i < n → GoodAll F (prevMem none step mem i) (mem.drop (i * step)) es) (hsz : ∀ e ∈ es, e.SizeOK)
    (hf : SameFlag as) (ht : ∀ f ∈ as, TInv f) (hga : ∀ f ∈ as, GoodA step n mem f) (h8 : ∀ f ∈ as, f.bpv ≤ 8)
    (hn : n ≤ 65535) (hcap : n * sumMax es + as.length * (5 + 11 * n) ≤ cap) :
    ∃ es' as' bytes, encodeV5Chunk F hash step es as mem n cap = .ok (es', as', mem.drop (n * step), bytes) ∧
      All2 (Moded step n mem) as as' ∧ es'.map Enc.reset = es.map Enc.reset ∧
      bytes = ((List.range n).flatMap fun j => (es.flatMap Enc.parts).flatMap (partBytes F step mem j)) ++
        as.flatMap fun f => secFor (chosen step n mem f) f.bpv
          (ivals f (fieldSeq step f.offset f.bpv n mem)) (rvals (fieldSeq step f.offset f.bpv n mem)) := by
  have hg' : ∀ i, i < n → GoodAll F (prevMem none step mem i) (mem.drop (i * step)) (es.map Enc.reset) := fun i hi =>
    goodAll_congr (by rw [List.map_map]; apply List.map_congr_left; intro e _; exact (enc_reset_reset e).symm) (hg i hi)
  have hsm : sumMax (es.map Enc.reset) = sumMax es := sumMax_reset es
  obtain ⟨es', bs, ds', c1, c3, c4, c5, c6, c7, _⟩ := core_roundtrip F step step n (es.map Enc.reset) (ds.map Dec.reset)
    none mem ⟨[], cap⟩ hm hg' (fun e he => by
      simp only [List.mem_map] at he
      obtain ⟨a, _, rfl⟩ := he
      exact reset_prevIs F a) (by rw [hsm]; simp only; omega)
  simp only [List.nil_append] at c1
  rw [hsm] at c6
  have hb := core_bytes F step mem n 0 (es.map Enc.reset) es' ⟨[], cap⟩ _ (by
      intro e he
      simp only [List.mem_map] at he
      obtain ⟨x, hx, rfl⟩ := he
      exact sized_reset (hsz x hx)) (by
      intro e he
      simp only [List.mem_map] at he
      obtain ⟨x, _, rfl⟩ := he
      exact reset_at F step mem x) (by rw [Nat.zero_mul, List.drop_zero]; exact c1)
  have hpf : (es.map Enc.reset).flatMap Enc.parts = es.flatMap Enc.parts :=
    flatMap_parts (by rw [List.map_map]; exact List.map_congr_left fun e _ => parts_reset e)
  have hb1 := hb.1
  simp only [List.nil_append, Nat.zero_add, hpf] at hb1
  obtain ⟨gs, e1, hcol⟩ := encodePointsV5_spec F hash step n (es.map Enc.reset) es' as mem _ _ c1 hf ht hga
  have hlen := allSections_length step n mem as gs hcol h8 hn
  obtain ⟨gs', e2, hset⟩ := appendSections_modes hash step n mem as gs ⟨bs, cap - bs.length⟩ hcol hga hn (by simp only; omega)
  have hreset : ∀ es : List Enc, (es.map Enc.reset).map Enc.reset = es.map Enc.reset := fun es => by
    rw [List.map_map]; apply List.map_congr_left; intro e _; exact enc_reset_reset e
  refine ⟨es', gs', bs ++ allSections step n mem gs, ?_, hset, c4.trans (hreset es), ?_⟩
  · unfold encodeV5Chunk
    rw [e1]
    simp only [Res.ok_bind, e2]
    rfl
  · rw [allSections_bytes hcol, hb1]

theorem sections_same {step n : Nat} {mem : List Byte} {m : AField → AMode} {m' : AField → AMode} {as0 as : List AField}
    (h : All2 (fun f g => SameField g f ∧ m' g = m f) as0 as) :
    (as.flatMap fun g => secFor (m' g) g.bpv (ivals g (fieldSeq step g.offset g.bpv n mem)) (rvals (fieldSeq step g.offset g.bpv n mem))) =
      as0.flatMap fun f => secFor (m f) f.bpv (ivals f (fieldSeq step f.offset f.bpv n mem)) (rvals (fieldSeq step f.offset f.bpv n mem)) := by
  induction as0 generalizing as with
  | nil => cases as <;> first | rfl | exact h.elim
  | cons f as0 ih =>
    cases as with
    | nil => exact h.elim
    | cons g as =>
      obtain ⟨⟨h1, h2⟩, h3⟩ := h
      rw [List.flatMap_cons, List.flatMap_cons, ih h3, h2, ivals_same h1, h1.1, h1.2.1]

/-- The chunks of a cloud with sections; `m f` is the mode of field `f`. -/
theorem stage1V5_bytes (F : FloatOps) (hash : BitVec 64 → BitVec 64) (step cap : Nat) (es0 : List Enc) (ds0 : List Dec) (as0 : List AField)
    (hm : MatchAll (es0.map Enc.reset) (ds0.map Dec.reset)) (hsz : ∀ e ∈ es0, e.SizeOK) (h8 : ∀ f ∈ as0, f.bpv ≤ 8) (m : AField → AMode) (points : Nat)
    (hcap : min points kPointsPerChunk * sumMax es0 + as0.length * (5 + 11 * min points kPointsPerChunk) ≤ cap)
    (es : List Enc) (as : List AField) (mem : List Byte) (he : es.map Enc.reset = es0.map Enc.reset)
    (ha : All2 (fun f g => SameField g f ∧ (0 < points → chosen step (min points kPointsPerChunk) mem g = m f)) as0 as) (hf : SameFlag as) (ht : ∀ f ∈ as, TInv f)
    (hg : ∀ i, i < points → GoodAll F (chunkPrev step mem i) (mem.drop (i * step)) es0)
    (hga : ∀ f ∈ as0, ∀ c, c * kPointsPerChunk < points →
      GoodA step (min (points - c * kPointsPerChunk) kPointsPerChunk) (mem.drop (c * kPointsPerChunk * step)) f)
    (cs : List (List Byte)) (h : stage1V5 F hash step cap points es as mem = .ok cs) :
    cs.length = (points + (kPointsPerChunk - 1)) / kPointsPerChunk ∧ ∀ c y, cs[c]? = some y → c * kPointsPerChunk < points ∧
      y = ((List.range (min (points - c * kPointsPerChunk) kPointsPerChunk)).flatMap fun j =>
        (es0.flatMap Enc.parts).flatMap (partBytes F step (mem.drop (c * kPointsPerChunk * step)) j)) ++
        as0.flatMap fun f => secFor (m f) f.bpv
          (ivals f (fieldSeq step f.offset f.bpv (min (points - c * kPointsPerChunk) kPointsPerChunk) (mem.drop (c * kPointsPerChunk * step))))
          (rvals (fieldSeq step f.offset f.bpv (min (points - c * kPointsPerChunk) kPointsPerChunk) (mem.drop (c * kPointsPerChunk * step)))) := by
  have hK := pos_K
  have hK2 := K_le
  induction points using Nat.strongRecOn generalizing es as mem cs with
  | ind points ih =>
    unfold stage1V5 at h
    by_cases hp : points = 0
    · rw [dif_pos hp] at h
      cases h
      subst hp
      refine ⟨?_, by simp⟩
      rw [List.length_nil, Nat.zero_add]
      exact (Nat.div_eq_of_lt (by omega)).symm
    · rw [dif_neg hp] at h
      have hn : min points kPointsPerChunk ≤ points := Nat.min_le_left _ _
      have hnK : min points kPointsPerChunk ≤ kPointsPerChunk := Nat.min_le_right _ _
      have hn0 : 0 < min points kPointsPerChunk := by omega
      have hcnt := chunk_count points _ hK hp
      generalize hnn : min points kPointsPerChunk = n at *
      have hse : sumMax es = sumMax es0 := by rw [← sumMax_reset es, he, sumMax_reset]
      have hal : as.length = as0.length := ha.length
      have ham : ∀ g ∈ as, ∃ f ∈ as0, SameField g f := fun g hgm => by
        obtain ⟨f, hfm, hs⟩ := all2_mem_right ha g hgm
        exact ⟨f, hfm, hs.1⟩
      obtain ⟨es1, as1, bytes, c1, c2, c3, c4⟩ := chunkV5_bytes F hash step n cap es ds0 as mem (by rw [he]; exact hm)
        (fun i hi => by rw [← chunkPrev_first step mem i (by omega)]; exact goodAll_congr he.symm (hg i (by omega)))
        (sized_of_reset he hsz) hf ht
        (fun g hgm => by
          obtain ⟨f, hfm, hs⟩ := ham g hgm
          exact goodA_congr hs (by simpa [hnn] using hga f hfm 0 (by omega)))
        (fun g hgm => by
          obtain ⟨f, hfm, hs⟩ := ham g hgm
          rw [hs.2.1]; exact h8 f hfm)
        (by omega) (by rw [hse, hal]; exact hcap)
      rw [c1] at h
      simp only [Res.ok_bind] at h
      obtain ⟨cs', h', h⟩ := Res.bind_eq_ok.1 h
      cases h
      have hmn : min (points - n) kPointsPerChunk * sumMax es0 + as0.length * (5 + 11 * min (points - n) kPointsPerChunk) ≤
          n * sumMax es0 + as0.length * (5 + 11 * n) :=
        Nat.add_le_add (Nat.mul_le_mul_right _ (by omega)) (Nat.mul_le_mul_left _ (by omega))
      have ha0 : All2 (fun f g => SameField g f ∧ chosen step n mem g = m f) as0 as :=
        ha.imp fun f g _ hfg => ⟨hfg.1, hfg.2 (by omega)⟩
      have ha1 : All2 (fun f g => SameField g f ∧ (0 < points - n → chosen step (min (points - n) kPointsPerChunk) (mem.drop (n * step)) g = m f)) as0 as1 :=
        all2_trans ha0 c2 fun f g h a b => ⟨b.same.trans a.1, fun _ => (chosen_later b).trans a.2⟩
      obtain ⟨s1, s2⟩ := ih (points - n) (by omega) (Nat.le_trans hmn hcap) es1 as1 (mem.drop (n * step)) (c3.trans he) ha1
          ⟨true, fun g hgm => by obtain ⟨f, _, hs⟩ := all2_mem_right c2 g hgm; exact hs.committed⟩
          (fun g hgm => by obtain ⟨f, _, hs⟩ := all2_mem_right c2 g hgm; exact hs.tinv)
          (fun i hi => by
            rw [List.drop_drop, ← Nat.add_mul, chunkPrev_later step mem n i (by omega)]
            exact hg (n + i) (by omega))
          (fun f hfm c hc => by
            have hnk : n = kPointsPerChunk := by omega
            rw [List.drop_drop, ← Nat.add_mul, hnk]
            have h1 := hga f hfm (c + 1) (by rw [Nat.add_mul, Nat.one_mul]; omega)
            rw [Nat.add_mul, Nat.one_mul, Nat.add_comm, ← Nat.sub_sub] at h1
            exact h1) cs' h'
      refine ⟨?_, ?_⟩
      · rw [List.length_cons, s1, hcnt]; omega
      · intro c y hy
        cases c with
        | zero =>
          simp only [List.getElem?_cons_zero, Option.some.injEq] at hy
          subst hy
          refine ⟨by omega, ?_⟩
          rw [c4, sections_same ha0, flatMap_parts (parts_of_reset he)]
          simp only [Nat.zero_mul, Nat.sub_zero, List.drop_zero, hnn]
        | succ c =>
          simp only [List.getElem?_cons_succ] at hy
          obtain ⟨t1, t2⟩ := s2 c y hy
          have hnk : n = kPointsPerChunk := by omega
          rw [List.drop_drop, ← Nat.add_mul, hnk] at t2
          have e1 : points - kPointsPerChunk - c * kPointsPerChunk = points - (c + 1) * kPointsPerChunk := by
            rw [Nat.add_mul, Nat.one_mul]; omega
          have e2 : kPointsPerChunk + c * kPointsPerChunk = (c + 1) * kPointsPerChunk := by rw [Nat.add_mul, Nat.one_mul, Nat.add_comm]
          rw [e1, e2] at t2
          exact ⟨by rw [Nat.add_mul, Nat.one_mul]; omega, t2⟩

end Cloudini
