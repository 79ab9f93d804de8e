import Verif.Lemmas.CloudSize
import Verif.Lemmas.Bridge

/-! Exact chunks of a cloud with one adaptive field and nothing else (used for counterexamples). -/

namespace Cloudini

theorem encodeCore_nil (F : FloatOps) (step n : Nat) (mem : List Byte) (w : W) : encodeCore F step n [] mem w = .ok ([], w) := by
  induction n generalizing mem with
  | zero => rfl
  | succ n ih => simp [encodeCore, encodeFields, ih]

theorem collectCore_one (step n : Nat) (f g : AField) (mem : List Byte) (h : collectOne step n f mem = .ok g) :
    collectCore step n [f] mem = .ok [g] :=
  collectCore_all2 step n [f] [g] mem ⟨h, trivial⟩

theorem subOK_take {step n : Nat} {mem : List Byte} {f : AField} {k : Nat} (hg : GoodA step n mem f) (hk : k ≤ n) :
    SubOK 0#64 (ivals f (fieldSeq step f.offset f.bpv k mem)) := by
  have := hg.diffs
  rw [show n = k + (n - k) by omega, fieldSeq_add] at this
  unfold ivals at this ⊢
  rw [List.map_append, subOK_append] at this
  exact this.1

theorem one_finish (hash : BitVec 64 → BitVec 64) (g : AField) (bss : List (List Byte)) (m : AMode) (cap : Nat) (ht : TInv g) (h : ChunkSt g bss)
    (hn : bss.length ≤ 65535) (hs : SubOK 0#64 (ivals g bss)) (hc : g.committed = true) (hm : g.mode = m)
    (hcap : (secFor m g.bpv (ivals g bss) (rvals bss)).length ≤ cap) :
    ∃ g', appendSections hash [g] ⟨[], cap⟩ = .ok ([g'], ⟨secFor m g.bpv (ivals g bss) (rvals bss),
        cap - (secFor m g.bpv (ivals g bss) (rvals bss)).length⟩) ∧
      TInv g' ∧ SameField g' g ∧ g'.committed = true ∧ g'.mode = m := by
  have hsec : sectionOf g bss = secFor m g.bpv (ivals g bss) (rvals bss) := by
    unfold sectionOf sectionMode; rw [if_pos hc, hm]
  obtain ⟨g', e, a, b, c, d⟩ := (appendSection_spec hash g bss ⟨[], cap⟩ ht h (by omega) hs).2 (by rw [hsec]; exact hcap)
  refine ⟨g', ?_, a, b, c, ?_⟩
  · simp only [appendSections, e, Res.ok_bind, W.put, List.nil_append, hsec]
  · rw [d]; unfold sectionMode; rw [if_pos hc, hm]

theorem one_committed (F : FloatOps) (hash : BitVec 64 → BitVec 64) (step n cap : Nat) (f : AField) (m : AMode) (mem : List Byte)
    (ht : TInv f) (hg : GoodA step n mem f) (hn : n ≤ 65535) (hc : f.committed = true) (hm : f.mode = m)
    (hcap : (secFor m f.bpv (ivals f (fieldSeq step f.offset f.bpv n mem)) (rvals (fieldSeq step f.offset f.bpv n mem))).length ≤ cap) :
    ∃ g, encodeV5Chunk F hash step [] [f] mem n cap = .ok ([], [g], mem.drop (n * step),
        secFor m f.bpv (ivals f (fieldSeq step f.offset f.bpv n mem)) (rvals (fieldSeq step f.offset f.bpv n mem))) ∧
      TInv g ∧ SameField g f ∧ g.committed = true ∧ g.mode = m := by
  obtain ⟨p1, p2, p3, p4, p5⟩ := prepareField_spec f ht
  obtain ⟨g, e, d1, d2, d3, d4, d5⟩ := collectOne_spec step n (prepareField f) mem [] p1 p3
    (fun i hi => by rw [p2.1, p2.2.1]; exact hg.fits i hi)
    (by rw [ivals_same p2, p2.1, p2.2.1, List.nil_append]; exact hg.diffs)
  rw [p2.1, p2.2.1, List.nil_append] at d1
  have hsf := d3.trans p2
  obtain ⟨g', e', a, b, c, d⟩ := one_finish hash g _ m cap d2 d1 (by simpa using hn) (by rw [ivals_same hsf]; exact hg.diffs)
    (by rw [d4, p4, hc]) (by rw [d5, p5, hm]) (by rw [ivals_same hsf, hsf.2.1]; exact hcap)
  rw [ivals_same hsf, hsf.2.1] at e'
  refine ⟨g', ?_, a, b.trans hsf, c, d⟩
  unfold encodeV5Chunk encodePointsV5
  rw [if_neg (by simp [p4, hc])]
  rw [show ([f].map prepareField) = [prepareField f] from rfl, show ([] : List Enc).map Enc.reset = [] from rfl,
    encodeRangeV5_core F step n [] [] [prepareField f] [g] mem ⟨[], cap⟩ ⟨[], cap⟩ (encodeCore_nil _ _ _ _ _) (collectCore_one _ _ _ _ _ e)]
  simp only [Res.ok_bind, e']

theorem one_fresh (F : FloatOps) (hash : BitVec 64 → BitVec 64) (step n cap : Nat) (f : AField) (m : AMode) (mem : List Byte)
    (K : Nat) (hKK : kProbePoints = K) (hKn : K < n)
    (ht : TInv f) (hg : GoodA step n mem f) (hn : n ≤ 65535) (hc : f.committed = false)
    (hm : bestMode f.bpv (ivals f (fieldSeq step f.offset f.bpv K mem)) (rvals (fieldSeq step f.offset f.bpv K mem)) = m)
    (hcap : (secFor m f.bpv (ivals f (fieldSeq step f.offset f.bpv n mem)) (rvals (fieldSeq step f.offset f.bpv n mem))).length ≤ cap) :
    ∃ g, encodeV5Chunk F hash step [] [f] mem n cap = .ok ([], [g], mem.drop (n * step),
        secFor m f.bpv (ivals f (fieldSeq step f.offset f.bpv n mem)) (rvals (fieldSeq step f.offset f.bpv n mem))) ∧
      TInv g ∧ SameField g f ∧ g.committed = true ∧ g.mode = m := by
  obtain ⟨p1, p2, p3, p4, p5⟩ := prepareField_spec f ht
  obtain ⟨g, e, d1, d2, d3, d4, d5⟩ := collectOne_spec step K (prepareField f) mem [] p1 p3
    (fun i hi => by rw [p2.1, p2.2.1]; exact hg.fits i (by omega))
    (by rw [ivals_same p2, p2.1, p2.2.1, List.nil_append]; exact subOK_take hg (by omega))
  rw [p2.1, p2.2.1, List.nil_append] at d1
  have hsf := d3.trans p2
  obtain ⟨g1, e1, k1, k2, k3, k4, k5⟩ := commitProbed_spec hash g _ d2 (by rw [d4, p4, hc]) d1 (by rw [fieldSeq_length]; omega)
    (by rw [ivals_same hsf]; exact subOK_take hg (by omega))
  rw [hsf.2.1, ivals_same hsf, hm] at k5
  have hsf1 := k3.trans hsf
  have hseq : fieldSeq step f.offset f.bpv n mem = fieldSeq step f.offset f.bpv K mem ++
      fieldSeq step f.offset f.bpv (n - K) (mem.drop (K * step)) := by
    rw [← fieldSeq_add]; congr 1; omega
  obtain ⟨g2, e2, l1, l2, l3, l4, l5⟩ := collectOne_spec step (n - K) g1 (mem.drop (K * step))
    (fieldSeq step f.offset f.bpv K mem) k1 k2
    (fun i hi => by
      rw [hsf1.1, hsf1.2.1, List.drop_drop, ← Nat.add_mul]
      exact hg.fits _ (by omega))
    (by rw [hsf1.1, hsf1.2.1, ivals_same hsf1, ← hseq]; exact hg.diffs)
  rw [hsf1.1, hsf1.2.1, ← hseq] at l1
  have hsf2 := l3.trans hsf1
  obtain ⟨g', e', a, b, c, d⟩ := one_finish hash g2 _ m cap l2 l1 (by simpa using hn) (by rw [ivals_same hsf2]; exact hg.diffs)
    (by rw [l4, k4]) (by rw [l5, k5]) (by rw [ivals_same hsf2, hsf2.2.1]; exact hcap)
  rw [ivals_same hsf2, hsf2.2.1] at e'
  refine ⟨g', ?_, a, b.trans hsf2, c, d⟩
  unfold encodeV5Chunk encodePointsV5
  rw [hKK]
  rw [if_pos (by simp [p4, hc, hKn])]
  rw [show ([f].map prepareField) = [prepareField f] from rfl, show ([] : List Enc).map Enc.reset = [] from rfl,
    encodeRangeV5_core F step K [] [] [prepareField f] [g] mem ⟨[], cap⟩ ⟨[], cap⟩ (encodeCore_nil _ _ _ _ _) (collectCore_one _ _ _ _ _ e)]
  simp only [Res.ok_bind, mapFields, e1]
  rw [encodeRangeV5_core F step (n - K) [] [] [g1] [g2] (mem.drop (K * step)) ⟨[], cap⟩ ⟨[], cap⟩ (encodeCore_nil _ _ _ _ _) (collectCore_one _ _ _ _ _ e2)]
  simp only [Res.ok_bind, e', List.drop_drop, ← Nat.add_mul]
  rw [show K + (n - K) = n by omega]

/-! ### alternating values -/

def altern {α : Type} (a b : α) : Nat → List α
  | 0 => []
  | n + 1 => a :: altern b a n

theorem altern_length {α : Type} (a b : α) (n : Nat) : (altern a b n).length = n := by
  induction n generalizing a b with
  | zero => rfl
  | succ n ih => simp [altern, ih]

theorem runs_altern {α : Type} [DecidableEq α] (a b : α) (h : a ≠ b) (n : Nat) : runs (altern a b n) = (altern a b n).map (·, 1) := by
  induction n generalizing a b with
  | zero => rfl
  | succ n ih =>
    cases n with
    | zero => rfl
    | succ n =>
      have := ih b a h.symm
      simp only [altern, List.map_cons] at this ⊢
      rw [runs_cons_ne _ _ _ h, this]

theorem deltas_altern (p a b : BitVec 64) (n : Nat) : deltas p (altern a b (n + 1)) = (a - p) :: altern (b - a) (a - b) n := by
  induction n generalizing p a b with
  | zero => rfl
  | succ n ih => rw [altern, deltas, ih]; rfl

theorem runs_replicate_app {α : Type} [DecidableEq α] (x y : α) (ys : List α) (h : x ≠ y) (k : Nat) :
    runs (List.replicate (k + 1) x ++ y :: ys) = (x, k + 1) :: runs (y :: ys) := by
  induction k with
  | zero => exact runs_cons_ne _ _ _ h
  | succ k ih => rw [List.replicate_succ, List.cons_append]; exact runs_cons_eq _ _ _ _ ih

theorem runs_replicate {α : Type} [DecidableEq α] (x : α) (k : Nat) : runs (List.replicate (k + 1) x) = [(x, k + 1)] := by
  induction k with
  | zero => rfl
  | succ k ih => rw [List.replicate_succ]; exact runs_cons_eq _ _ _ _ ih

theorem deltas_replicate_app (x : BitVec 64) (k : Nat) (vs : List (BitVec 64)) :
    deltas x (List.replicate k x ++ vs) = List.replicate k 0#64 ++ deltas x vs := by
  induction k with
  | zero => rfl
  | succ k ih => rw [List.replicate_succ, List.cons_append, deltas, ih, BitVec.sub_self]; rfl

theorem dRleBytes_altern (a b : BitVec 64) (h : a ≠ b) (ha : (encodeVarint64 a).length = 10) (hb : (encodeVarint64 b).length = 10) (n : Nat) :
    (dRleBytes (runs (altern a b n))).length = 11 * n := by
  rw [runs_altern a b h]
  have h1 : (lebBytes (BitVec.ofNat 64 1)).length = 1 := by decide +kernel
  clear h
  induction n generalizing a b with
  | zero => rfl
  | succ n ih =>
    have := ih b a hb ha
    simp only [altern, List.map_cons, dRleBytes, List.flatMap_cons, List.length_append] at this ⊢
    rw [this, ha, h1]; omega

theorem subOK_altern (p a b : BitVec 64) (n : Nat) (h : SubOK p [a, b, a]) : SubOK p (altern a b n) := by
  have key : ∀ n a b, SubOK a [b, a] → SubOK a (altern b a n) := by
    intro n
    induction n with
    | zero => intros; trivial
    | succ n ih => intro a b h; exact ⟨h.1, h.2.1, ih _ _ ⟨h.2.2.1, h.2.2.2.1, h.1, h.2.1, trivial⟩⟩
  cases n with
  | zero => trivial
  | succ n => exact ⟨h.1, h.2.1, key _ _ _ h.2.2⟩

theorem bestMode_zeros (k : Nat) (hk : k ≤ 8000) (hk2 : 32 ≤ k) :
    bestMode 8 (List.replicate (k + 1) 0#64) (List.replicate (k + 1) 0#64) = .deltaRle := by
  have e0 : deltas 0#64 (List.replicate (k + 1) 0#64) = List.replicate (k + 1) 0#64 := by
    simpa [deltas] using deltas_replicate_app 0#64 (k + 1) []
  have h14 : (lebBytes (BitVec.ofNat 64 (k + 1))).length ≤ 2 := by
    refine lebBytes_length_le _ 1 ?_
    rw [BitVec.toNat_ofNat, Nat.mod_eq_of_lt (by omega)]; omega
  have hz : (encodeVarint64 0#64).length = 1 := by decide +kernel
  have hd : (secFor .deltaVarint 8 (List.replicate (k + 1) 0#64) (List.replicate (k + 1) 0#64)).length = 1 + (k + 1) := by
    unfold secFor deltaSec
    rw [e0, List.length_cons, List.length_flatMap, List.map_replicate, hz, List.sum_replicate_nat]
    simp [Nat.add_comm]
  have hdr : (secFor .deltaRle 8 (List.replicate (k + 1) 0#64) (List.replicate (k + 1) 0#64)).length ≤ 8 := by
    unfold secFor deltaRleSec
    rw [e0, runs_replicate]
    simp only [dRleBytes, List.flatMap_cons, List.flatMap_nil, List.length_cons, List.length_append, toLE_length, List.length_nil, hz]
    omega
  have hr : 8 < (secFor .rle 8 (List.replicate (k + 1) 0#64) (List.replicate (k + 1) 0#64)).length := by
    unfold secFor rleSec
    rw [runs_replicate]
    simp only [rleBytes, List.flatMap_cons, List.flatMap_nil, List.length_cons, List.length_append, toLE_length]
    omega
  have hp : 8 < (secFor .palette 8 (List.replicate (k + 1) 0#64) (List.replicate (k + 1) 0#64)).length := by
    unfold secFor paletteSec
    have hmem : 0#64 ∈ firstOcc (List.replicate (k + 1) 0#64) := (mem_firstOcc _ _).2 (by simp)
    have hpos : 0 < (firstOcc (List.replicate (k + 1) 0#64)).length := List.length_pos_of_mem hmem
    generalize firstOcc (List.replicate (k + 1) 0#64) = pal at hpos ⊢
    cases pal with
    | nil => simp at hpos
    | cons v pal =>
      simp only [List.flatMap_cons, List.length_cons, List.length_append, toLE_length]
      omega
  unfold bestMode selectBest
  generalize (secFor .palette 8 (List.replicate (k + 1) 0#64) (List.replicate (k + 1) 0#64)).length = p at *
  generalize (secFor .rle 8 (List.replicate (k + 1) 0#64) (List.replicate (k + 1) 0#64)).length = r at *
  generalize (secFor .deltaRle 8 (List.replicate (k + 1) 0#64) (List.replicate (k + 1) 0#64)).length = dr at *
  rw [hd]
  simp only
  rw [if_pos]
  split <;> split <;> simp_all <;> omega

end Cloudini
