import Verif.Lemmas.Unfold
import Verif.Lemmas.Sections
import Verif.Lemmas.Bitpack
import Verif.Lemmas.Palette

/-! Adaptive fields over a chunk: buffering, probing, streaming, and the section that comes out. -/

namespace Cloudini

/-! ### the section of a mode -/

def paletteIdx (raws : List (BitVec 64)) : List Nat := raws.map fun v => (firstOcc raws).idxOf v

/-- The section that mode `m` stands for. -/
def secFor (m : AMode) (bpv : Nat) (vals raws : List (BitVec 64)) : List Byte :=
  match m with
  | .deltaVarint => deltaSec vals
  | .deltaRle => deltaRleSec vals
  | .rle => rleSec bpv raws
  | .palette => paletteSec bpv (firstOcc raws) (paletteIdx raws)

def bestMode (bpv : Nat) (vals raws : List (BitVec 64)) : AMode :=
  selectBest (secFor .deltaVarint bpv vals raws).length (secFor .palette bpv vals raws).length
    (secFor .rle bpv vals raws).length (secFor .deltaRle bpv vals raws).length

theorem idx_unique (pal : List (BitVec 64)) (h : pal.Nodup) (idx : List Nat) (vs : List (BitVec 64))
    (he : idx.map (fun i => pal[i]?) = vs.map some) : idx = vs.map fun v => pal.idxOf v := by
  induction idx generalizing vs with
  | nil => cases vs <;> simp_all
  | cons i idx ih =>
    cases vs with
    | nil => simp at he
    | cons v vs =>
      simp only [List.map_cons, List.cons.injEq] at he ⊢
      obtain ⟨h1, h2⟩ := he
      obtain ⟨hi, rfl⟩ := List.getElem?_eq_some_iff.1 h1
      exact ⟨(h.idxOf_getElem i hi).symm, ih vs h2⟩

theorem paletteIdx_spec (raws : List (BitVec 64)) :
    (paletteIdx raws).map (fun i => (firstOcc raws)[i]?) = raws.map some := by
  unfold paletteIdx
  rw [List.map_map]
  apply List.map_congr_left
  intro v hv
  have hm : v ∈ firstOcc raws := (mem_firstOcc raws v).2 hv
  show (firstOcc raws)[(firstOcc raws).idxOf v]? = some v
  have := List.idxOf_lt_length_iff.2 hm
  rw [List.getElem?_eq_getElem this, List.getElem_idxOf]

theorem paletteIdx_lt (raws : List (BitVec 64)) : ∀ i ∈ paletteIdx raws, i < (firstOcc raws).length := by
  intro i hi
  unfold paletteIdx at hi
  simp only [List.mem_map] at hi
  obtain ⟨v, hv, rfl⟩ := hi
  exact List.idxOf_lt_length_iff.2 ((mem_firstOcc raws v).2 hv)

theorem buildPalette_eq (hash : BitVec 64 → BitVec 64) (f : AField) (ht : TInv f) (hn : f.raws.length ≤ 2 ^ 31) :
    ∃ slots gens gen, buildPaletteIndexes hash f =
        .ok { f with palette := firstOcc f.raws, indexes := paletteIdx f.raws, slots := slots, gens := gens, generation := gen } ∧
      TInv { f with slots := slots, gens := gens, generation := gen } := by
  obtain ⟨slots, gens, gen, idx, e, hidx, ht'⟩ := buildPaletteIndexes_spec hash f ht hn
  refine ⟨slots, gens, gen, ?_, ht'⟩
  rw [e, idx_unique _ (firstOcc_nodup _) idx f.raws hidx]
  rfl

theorem firstOcc_bits (raws : List (BitVec 64)) (hn : raws.length ≤ 2 ^ 31) :
    bitsForPaletteIndex (firstOcc raws).length ≤ 32 := by
  have := firstOcc_length raws
  exact palette_bits_le _ 32 (by omega)

theorem flatMap_toLE_length (bpv : Nat) (vs : List (BitVec 64)) :
    (vs.flatMap (fun v => toLE bpv v.toNat)).length = vs.length * bpv := by
  induction vs with
  | nil => simp
  | cons v vs ih => simp only [List.flatMap_cons, List.length_append, toLE_length, ih, List.length_cons]; rw [Nat.add_mul]; omega

theorem paletteSize_eq (f : AField) (hp : f.palette = firstOcc f.raws) (hn : f.raws.length ≤ 2 ^ 31) :
    paletteSize f = (paletteSec f.bpv (firstOcc f.raws) (paletteIdx f.raws)).length := by
  unfold paletteSize paletteSec
  have hb := firstOcc_bits f.raws hn
  have := (bitpack_spec _ hb (paletteIdx f.raws) (fun i hi => palette_bits _ _ (paletteIdx_lt f.raws i hi))).2
  simp only [List.length_cons, List.length_append, toLE_length, flatMap_toLE_length, this, hp]
  simp only [paletteIdx, List.length_map]
  omega

theorem commitMode_eq (hash : BitVec 64 → BitVec 64) (f : AField) (ht : TInv f) (hn : f.raws.length ≤ 2 ^ 31)
    (hs : SubW 0#64 f.values) (hc : f.committed = false) :
    ∃ slots gens gen, commitMode hash f =
        .ok { f with palette := firstOcc f.raws, indexes := paletteIdx f.raws, slots := slots, gens := gens, generation := gen,
                     mode := bestMode f.bpv f.values f.raws, committed := true } ∧
      TInv { f with slots := slots, gens := gens, generation := gen } := by
  obtain ⟨slots, gens, gen, e, ht'⟩ := buildPalette_eq hash f ht hn
  refine ⟨slots, gens, gen, ?_, ht'⟩
  unfold commitMode
  rw [hc]
  simp only [Bool.false_eq_true, if_false, deltaVarintSize_eq _ _ _ hs, Res.ok_bind, e, rleSize_eq, deltaRleSize_eq _ hs]
  rw [paletteSize_eq _ rfl (by simpa using hn)]
  simp only [bestMode, secFor, deltaSec, List.length_cons]
  rw [Nat.add_comm 1]

/-! ### decoding a section -/

theorem readPalette_eq (bpv : Nat) (pal : List (BitVec 64)) (rest : List Byte)
    (hv : ∀ v ∈ pal, v.toNat < 256 ^ bpv) :
    readPalette bpv pal.length (pal.flatMap (fun v => toLE bpv v.toNat) ++ rest) = .ok (pal, rest) := by
  induction pal with
  | nil => rfl
  | cons v vs ih =>
    have h1 := take_drop_le bpv v.toNat (vs.flatMap (fun v => toLE bpv v.toNat) ++ rest)
    simp only [List.length_cons, readPalette_succ, List.flatMap_cons, List.append_assoc]
    rw [if_neg (by simp)]
    rw [h1.1, h1.2, ih (fun a ha => hv a (by simp [ha]))]
    simp only [Res.ok_bind]
    congr 3
    rw [fromLE_toLE, Nat.mod_eq_of_lt (hv v (by simp))]
    simp

/-- Whatever the mode, the section decodes to the values it was made of. -/
theorem decodeSection_secFor (f : AField) (m : AMode) (base step : Nat) (vals raws : List (BitVec 64))
    (bss : List (List Byte)) (rest buf : List Byte)
    (hv : leBytes f.bpv vals = bss) (hr : leBytes f.bpv raws = bss) (hs : m ≠ .rle → m ≠ .palette → SubOK 0#64 vals)
    (hraw : ∀ v ∈ raws, v.toNat < 256 ^ f.bpv) (hpos : 0 < bss.length) (hn : bss.length ≤ 65535) :
    decodeSection f base step bss.length (secFor m f.bpv vals raws ++ rest) buf =
      (applyWrites buf 0 (valWrites f.offset base step 0 bss) >>= fun b => .ok (rest, b)) := by
  have hlv : vals.length = bss.length := by rw [← hv]; simp [leBytes]
  have hlr : raws.length = bss.length := by rw [← hr]; simp [leBytes]
  cases m with
  | deltaVarint =>
    simp only [secFor, deltaSec, AMode.code, List.cons_append, decodeSection, if_true]
    rw [← hlv, decodeDeltas_eq f base step vals 0 0#64 rest buf (hs (by simp) (by simp)), hv]
  | palette =>
    have hb := firstOcc_bits raws (by omega)
    have hlt := fun i hi => palette_bits _ _ (paletteIdx_lt raws i hi)
    have hbp := bitpack_spec _ hb (paletteIdx raws) hlt
    have hil : (paletteIdx raws).length = bss.length := by simp [paletteIdx, hlr]
    have hfl := firstOcc_length raws
    have hne : (firstOcc raws).length ≠ 0 := by
      obtain ⟨v, hv⟩ : ∃ v, v ∈ raws := by
        cases hraws : raws with
        | nil => rw [hraws] at hlr; simp at hlr; omega
        | cons a as => exact ⟨a, by simp⟩
      have := (mem_firstOcc raws v).2 hv
      intro h
      rw [List.length_eq_zero_iff.1 h] at this
      simp at this
    have e2 : decodeInt 2 (toLE 2 (firstOcc raws).length ++
        ((firstOcc raws).flatMap (fun v => toLE f.bpv v.toNat) ++
          bitpack (bitsForPaletteIndex (firstOcc raws).length) (paletteIdx raws) ++ rest)) =
        .ok ((firstOcc raws).length, (firstOcc raws).flatMap (fun v => toLE f.bpv v.toNat) ++
          bitpack (bitsForPaletteIndex (firstOcc raws).length) (paletteIdx raws) ++ rest) := by
      rw [decodeInt_def]
      rw [if_pos (by simp), (take_drop_le 2 _ _).1, (take_drop_le 2 _ _).2, fromLE_toLE, Nat.mod_eq_of_lt (by omega)]
    simp only [secFor, paletteSec, AMode.code, List.cons_append, decodeSection]
    rw [if_neg (by decide), if_pos trivial, List.append_assoc, e2]
    simp only [Res.ok_bind, hne, if_false]
    rw [List.append_assoc, readPalette_eq f.bpv _ _ (fun v h => hraw v ((mem_firstOcc raws v).1 h))]
    simp only [Res.ok_bind]
    rw [if_neg (by rw [List.length_append, hbp.2, hil]; omega)]
    have hdec := decodePaletteIndexes_eq f base step _ hb (firstOcc raws) (paletteIdx raws) raws 0
      (bitpack (bitsForPaletteIndex (firstOcc raws).length) (paletteIdx raws) ++ rest) 0#64 0
      (2 ^ (8 * (bitpack (bitsForPaletteIndex (firstOcc raws).length) (paletteIdx raws)).length -
          bitsForPaletteIndex (firstOcc raws).length * (paletteIdx raws).length) * fromLE rest) buf
      (by simp) (by omega) (by rw [List.length_append, hbp.2]; omega) hlt (paletteIdx_spec raws)
      (by
        rw [fromLE_append, hbp.1, ← Nat.mul_assoc, ← Nat.pow_add, pow256]
        have : bitsForPaletteIndex (firstOcc raws).length * (paletteIdx raws).length +
            (8 * (bitpack (bitsForPaletteIndex (firstOcc raws).length) (paletteIdx raws)).length -
            bitsForPaletteIndex (firstOcc raws).length * (paletteIdx raws).length) =
            8 * (bitpack (bitsForPaletteIndex (firstOcc raws).length) (paletteIdx raws)).length := by
          rw [hbp.2]; omega
        rw [this]
        simp)
    rw [← hil, hdec, hr]
    congr 1
    funext b
    rw [← hbp.2, List.drop_left]
  | rle =>
    have e4 : decodeInt 4 (toLE 4 (runs raws).length ++ (rleBytes f.bpv (runs raws) ++ rest)) =
        .ok ((runs raws).length, rleBytes f.bpv (runs raws) ++ rest) := by
      have := runs_length_le raws
      rw [decodeInt_def]
      rw [if_pos (by simp), (take_drop_le 4 _ _).1, (take_drop_le 4 _ _).2, fromLE_toLE, Nat.mod_eq_of_lt (by omega)]
    simp only [secFor, rleSec, AMode.code, List.cons_append, decodeSection]
    rw [if_neg (by decide), if_neg (by decide), if_pos trivial, List.append_assoc, e4]
    simp only [Res.ok_bind]
    rw [decodeRleRuns_eq f base step bss.length (runs raws) 0 rest buf (by rw [runs_total]; omega) (by omega),
      Res.bind_assoc, expand_runs, hr]
    congr 1
    funext b
    simp only [Res.ok_bind, Nat.zero_add, runs_total, hlr, ne_eq, not_true, if_false]
  | deltaRle =>
    have hl : (deltas 0#64 vals).length = bss.length := by rw [deltas_length, hlv]
    have e4 : decodeInt 4 (toLE 4 (runs (deltas 0#64 vals)).length ++ (dRleBytes (runs (deltas 0#64 vals)) ++ rest)) =
        .ok ((runs (deltas 0#64 vals)).length, dRleBytes (runs (deltas 0#64 vals)) ++ rest) := by
      have := runs_length_le (deltas 0#64 vals)
      rw [decodeInt_def]
      rw [if_pos (by simp), (take_drop_le 4 _ _).1, (take_drop_le 4 _ _).2, fromLE_toLE, Nat.mod_eq_of_lt (by omega)]
    simp only [secFor, deltaRleSec, AMode.code, List.cons_append, decodeSection]
    rw [if_neg (by decide), if_neg (by decide), if_neg (by decide), if_pos trivial, List.append_assoc, e4]
    simp only [Res.ok_bind]
    rw [decodeDeltaRleRuns_eq f base step bss.length (runs (deltas 0#64 vals)) 0 0#64 vals rest buf
      (by rw [runs_total]; omega) (by omega) (hs (by simp) (by simp)) (expand_runs _).symm (runs_pos _), Res.bind_assoc, hv]
    congr 1
    funext b
    simp only [Res.ok_bind, Nat.zero_add, runs_total, hl, ne_eq, not_true, if_false]

/-! ### the state of a field inside a chunk -/

def ivals (f : AField) (bss : List (List Byte)) : List (BitVec 64) := bss.map (toI64 f.bpv f.signed)
def rvals (bss : List (List Byte)) : List (BitVec 64) := bss.map fun bs => BitVec.ofNat 64 (fromLE bs)

/-- A run-length state: the finished runs are serialised, the last one is still open. -/
def RunSt (f : AField) (x : BitVec 64) (code : Byte) (ser : List (BitVec 64 × Nat) → List Byte)
    (rs : List (BitVec 64 × Nat)) : Prop :=
  (f.hasRun = false ∧ rs = [] ∧ f.runCount = 0 ∧ f.sec = code :: toLE 4 0) ∨
  (f.hasRun = true ∧ ∃ rs', rs = rs' ++ [(x, f.runLen)] ∧ f.runCount = rs'.length ∧
    f.sec = code :: (toLE 4 0 ++ ser rs'))

/-- The field after the values `bss` of the chunk. -/
def ChunkSt (f : AField) (bss : List (List Byte)) : Prop :=
  if f.committed then
    match f.mode with
    | .deltaVarint => f.streaming = true ∧ f.sec = deltaSec (ivals f bss) ∧ f.prev = lastVal 0#64 (ivals f bss)
    | .deltaRle => f.streaming = true ∧ f.runCountOffset = 1 ∧ f.prev = lastVal 0#64 (ivals f bss) ∧
        RunSt f f.runDiff 3#8 dRleBytes (runs (deltas 0#64 (ivals f bss)))
    | .rle => f.streaming = true ∧ f.runCountOffset = 1 ∧ RunSt f f.runRaw 2#8 (rleBytes f.bpv) (runs (rvals bss))
    | .palette => f.streaming = false ∧ f.raws = rvals bss
  else f.streaming = false ∧ f.values = ivals f bss ∧ f.raws = rvals bss

/-- The parts of a field that identify it. -/
def SameField (f g : AField) : Prop := f.offset = g.offset ∧ f.bpv = g.bpv ∧ f.signed = g.signed

theorem SameField.refl (f : AField) : SameField f f := ⟨rfl, rfl, rfl⟩
theorem SameField.trans {f g h : AField} (a : SameField f g) (b : SameField g h) : SameField f h :=
  ⟨a.1.trans b.1, a.2.1.trans b.2.1, a.2.2.trans b.2.2⟩
theorem SameField.symm {f g : AField} (a : SameField f g) : SameField g f := ⟨a.1.symm, a.2.1.symm, a.2.2.symm⟩

theorem chunkSt_begin (f : AField) (hc : f.committed = true) (hr : f.raws = []) : ChunkSt (beginSection f) [] := by
  unfold ChunkSt beginSection
  cases hm : f.mode <;> simp [hc, hm, hr, ivals, rvals, deltaSec, deltas, lastVal, RunSt, runs, AMode.code]

theorem prepareField_spec (f : AField) (ht : TInv f) :
    ChunkSt (prepareField f) [] ∧ SameField (prepareField f) f ∧ TInv (prepareField f) ∧
      (prepareField f).committed = f.committed ∧ (prepareField f).mode = f.mode := by
  unfold prepareField
  by_cases hc : f.committed = true
  · simp only [hc, if_true]
    refine ⟨chunkSt_begin _ rfl rfl, ?_, ?_, ?_, ?_⟩
    · unfold beginSection SameField; cases f.mode <;> simp
    · unfold beginSection; cases f.mode <;> exact ht.congr rfl rfl rfl
    · unfold beginSection; cases f.mode <;> simp [hc]
    · unfold beginSection; cases hm : f.mode <;> simp
  · simp only [Bool.not_eq_true] at hc
    simp only [hc, Bool.false_eq_true, if_false]
    refine ⟨by simp [ChunkSt, ivals, rvals], ⟨rfl, rfl, rfl⟩, ht.congr rfl rfl rfl, by simp, by simp⟩

theorem dRleBytes_snoc (rs : List (BitVec 64 × Nat)) (x : BitVec 64) (n : Nat) :
    dRleBytes (rs ++ [(x, n)]) = dRleBytes rs ++ encodeVarint64 x ++ lebBytes (BitVec.ofNat 64 n) := by
  simp [dRleBytes]

theorem rleBytes_snoc (bpv : Nat) (rs : List (BitVec 64 × Nat)) (x : BitVec 64) (n : Nat) :
    rleBytes bpv (rs ++ [(x, n)]) = rleBytes bpv rs ++ toLE bpv x.toNat ++ lebBytes (BitVec.ofNat 64 n) := by
  simp [rleBytes]

/-- Fields other than the run state and section are kept by the streaming steps. -/
structure Kept (f g : AField) : Prop where
  same : SameField g f
  committed : g.committed = f.committed
  mode : g.mode = f.mode
  streaming : g.streaming = f.streaming
  rco : g.runCountOffset = f.runCountOffset
  slots : g.slots = f.slots
  gens : g.gens = f.gens
  generation : g.generation = f.generation
  values : g.values = f.values

theorem runs_single {α : Type} [DecidableEq α] (v : α) : runs [v] = [(v, 1)] := rfl

theorem runs_eq_nil {α : Type} [DecidableEq α] {l : List α} (h : runs l = []) : l = [] := by
  cases l with
  | nil => rfl
  | cons a l => obtain ⟨n, rs, e⟩ := runs_head a l; rw [e] at h; simp at h

theorem appendDeltaRleValue_spec (f : AField) (vals : List (BitVec 64)) (v : BitVec 64)
    (hp : f.prev = lastVal 0#64 vals) (hs : SubW 0#64 (vals ++ [v]))
    (hr : RunSt f f.runDiff 3#8 dRleBytes (runs (deltas 0#64 vals))) :
    ∃ g, appendDeltaRleValue f v = .ok g ∧ Kept f g ∧ g.prev = v ∧ g.raws = f.raws ∧
      RunSt g g.runDiff 3#8 dRleBytes (runs (deltas 0#64 (vals ++ [v]))) := by
  rw [subW_append] at hs
  obtain ⟨_, h1, _⟩ := hs
  rw [← hp] at h1
  have hd : deltas 0#64 (vals ++ [v]) = deltas 0#64 vals ++ [v - f.prev] := by
    rw [deltas_append, ← hp]; rfl
  unfold appendDeltaRleValue
  simp only [h1, Res.ok_bind, hd]
  rcases hr with ⟨a1, a2, a3, a4⟩ | ⟨a1, rs', a2, a3, a4⟩
  · rw [a1]
    simp only [Bool.not_false, if_true]
    refine ⟨_, rfl, ⟨⟨rfl, rfl, rfl⟩, rfl, rfl, rfl, rfl, rfl, rfl, rfl, rfl⟩, rfl, rfl, Or.inr ⟨rfl, [], ?_, by simpa using a3, by simpa [dRleBytes] using a4⟩⟩
    have := runs_eq_nil a2
    rw [this, List.nil_append, runs_single]; rfl
  · rw [a1]
    simp only [Bool.not_true, Bool.false_eq_true, if_false]
    rw [runs_snoc _ a2]
    by_cases hv : v - f.prev = f.runDiff
    · rw [if_pos hv, if_pos hv]
      exact ⟨_, rfl, ⟨⟨rfl, rfl, rfl⟩, rfl, rfl, rfl, rfl, rfl, rfl, rfl, rfl⟩, rfl, rfl, Or.inr ⟨rfl, rs', rfl, a3, a4⟩⟩
    · rw [if_neg hv, if_neg hv]
      unfold flushDeltaRleRun
      simp only [a1, if_true]
      refine ⟨_, rfl, ⟨⟨rfl, rfl, rfl⟩, rfl, rfl, rfl, rfl, rfl, rfl, rfl, rfl⟩, rfl, rfl, Or.inr ⟨rfl, rs' ++ [(f.runDiff, f.runLen)], by simp, by simp [a3], ?_⟩⟩
      simp [a4, dRleBytes_snoc]

theorem appendRleValue_spec (f : AField) (raws : List (BitVec 64)) (v : BitVec 64)
    (hr : RunSt f f.runRaw 2#8 (rleBytes f.bpv) (runs raws)) :
    Kept f (appendRleValue f v) ∧ (appendRleValue f v).raws = f.raws ∧
      RunSt (appendRleValue f v) (appendRleValue f v).runRaw 2#8 (rleBytes f.bpv) (runs (raws ++ [v])) := by
  unfold appendRleValue
  rcases hr with ⟨a1, a2, a3, a4⟩ | ⟨a1, rs', a2, a3, a4⟩
  · rw [a1]
    simp only [Bool.not_false, if_true]
    refine ⟨⟨⟨rfl, rfl, rfl⟩, rfl, rfl, rfl, rfl, rfl, rfl, rfl, rfl⟩, by simp, Or.inr ⟨by simp, [], ?_, by simpa using a3, by simpa [rleBytes] using a4⟩⟩
    rw [runs_eq_nil a2, List.nil_append, runs_single]; rfl
  · rw [a1]
    simp only [Bool.not_true, Bool.false_eq_true, if_false]
    rw [runs_snoc _ a2]
    by_cases hv : v = f.runRaw
    · rw [if_pos hv, if_pos hv]
      exact ⟨⟨⟨rfl, rfl, rfl⟩, rfl, rfl, rfl, rfl, rfl, rfl, rfl, rfl⟩, by simp, Or.inr ⟨by simp, rs', rfl, a3, a4⟩⟩
    · rw [if_neg hv, if_neg hv]
      unfold flushRleRun
      simp only [a1, if_true]
      refine ⟨⟨⟨rfl, rfl, rfl⟩, rfl, rfl, rfl, rfl, rfl, rfl, rfl, rfl⟩, by simp, Or.inr ⟨by simp, rs' ++ [(f.runRaw, f.runLen)], by simp, by simp [a3], ?_⟩⟩
      simp [a4, rleBytes_snoc]

theorem ivals_same {f g : AField} (h : SameField g f) (bss : List (List Byte)) : ivals g bss = ivals f bss := by
  unfold ivals; rw [h.2.1, h.2.2]

theorem deltaSec_snoc (vals : List (BitVec 64)) (v : BitVec 64) :
    deltaSec (vals ++ [v]) = deltaSec vals ++ encodeVarint64 (v - lastVal 0#64 vals) := by
  simp [deltaSec, deltas_append, deltas]

/-- One more value, given as `values[i]` / `raw_values[i]`; only for streamed modes. -/
theorem appendCommittedAt_spec (f : AField) (bss : List (List Byte)) (bs : List Byte) (hc : f.committed = true)
    (hm : f.mode ≠ .palette)
    (h : ChunkSt f bss) (hs : f.mode ≠ .rle → SubW 0#64 (ivals f (bss ++ [bs]))) :
    ∃ g, appendCommittedAt f (if f.mode = .rle then BitVec.ofNat 64 (fromLE bs) else toI64 f.bpv f.signed bs) = .ok g ∧
      Kept f g ∧ g.raws = f.raws ∧ ChunkSt g (bss ++ [bs]) := by
  have hi : ivals f (bss ++ [bs]) = ivals f bss ++ [toI64 f.bpv f.signed bs] := by simp [ivals]
  have hr : rvals (bss ++ [bs]) = rvals bss ++ [BitVec.ofNat 64 (fromLE bs)] := by simp [rvals]
  unfold ChunkSt at h
  simp only [hc, if_true] at h
  unfold appendCommittedAt
  cases hmode : f.mode with
  | palette => exact absurd hmode hm
  | deltaVarint =>
    simp only [hmode] at h ⊢
    obtain ⟨h1, h2, h3⟩ := h
    have hs := hs (by rw [hmode]; simp)
    rw [hi, subW_append, ← h3] at hs
    simp only [reduceCtorEq, if_false, appendDeltaValue, hs.2.1, Res.ok_bind]
    refine ⟨_, rfl, ⟨⟨rfl, rfl, rfl⟩, rfl, rfl, rfl, rfl, rfl, rfl, rfl, rfl⟩, rfl, ?_⟩
    unfold ChunkSt
    simp only [hc, if_true, hmode]
    refine ⟨h1, ?_, ?_⟩
    · show _ = deltaSec (ivals f (bss ++ [bs]))
      rw [hi, deltaSec_snoc, ← h2, ← h3]
    · show _ = lastVal 0#64 (ivals f (bss ++ [bs]))
      rw [hi, lastVal_snoc]
  | deltaRle =>
    simp only [hmode] at h ⊢
    obtain ⟨h1, h2, h3, h4⟩ := h
    have hs := hs (by rw [hmode]; simp)
    rw [hi] at hs
    obtain ⟨g, e, hk, hp, hraw, hrun⟩ := appendDeltaRleValue_spec f _ _ h3 hs h4
    simp only [reduceCtorEq, if_false]
    refine ⟨g, e, hk, hraw, ?_⟩
    unfold ChunkSt
    simp only [hk.committed, hc, if_true, hk.mode, hmode]
    refine ⟨hk.streaming.trans h1, hk.rco.trans h2, ?_, ?_⟩
    · rw [ivals_same hk.same, hi, lastVal_snoc, hp]
    · rw [ivals_same hk.same, hi]; exact hrun
  | rle =>
    simp only [hmode] at h ⊢
    obtain ⟨h1, h2, h4⟩ := h
    simp only [if_true]
    obtain ⟨hk, hraw, hrun⟩ := appendRleValue_spec f (rvals bss) (BitVec.ofNat 64 (fromLE bs)) h4
    refine ⟨_, rfl, hk, hraw, ?_⟩
    unfold ChunkSt
    simp only [hk.committed, hc, if_true, hk.mode, hmode]
    refine ⟨hk.streaming.trans h1, hk.rco.trans h2, ?_⟩
    rw [hr, hk.same.2.1]
    exact hrun

theorem Kept.tinv {f g : AField} (h : Kept f g) (ht : TInv f) : TInv g := ht.congr h.slots h.gens h.generation

/-- The field subtracts consecutive values while points are collected. -/
def Stepping (f : AField) : Prop := f.committed = true ∧ f.mode ≠ .rle ∧ f.mode ≠ .palette

/-- One more point. -/
theorem collectValue_w (f : AField) (mem : List Byte) (bss : List (List Byte)) (h : ChunkSt f bss) (ht : TInv f)
    (hin : f.offset + f.bpv ≤ mem.length) (hs : Stepping f → SubW 0#64 (ivals f (bss ++ [sub mem f.offset f.bpv]))) :
    ∃ g, collectValue f mem = .ok g ∧ ChunkSt g (bss ++ [sub mem f.offset f.bpv]) ∧ TInv g ∧ SameField g f ∧
      g.committed = f.committed ∧ g.mode = f.mode := by
  have e1 : readIntAt mem f = .ok (toI64 f.bpv f.signed (sub mem f.offset f.bpv)) := by
    simp only [readIntAt, readAt_ok hin, Res.ok_bind]
  have e2 : readRawAt mem f = .ok (BitVec.ofNat 64 (fromLE (sub mem f.offset f.bpv))) := by
    simp only [readRawAt, readAt_ok hin, Res.ok_bind]
  unfold collectValue
  by_cases hc : f.committed = true
  · simp only [hc, Bool.not_true, Bool.false_eq_true, if_false]
    by_cases hm : f.mode = .palette
    · unfold ChunkSt at h
      simp only [hc, if_true, hm] at h
      simp only [appendCommittedFromMem, hm, e2, Res.ok_bind]
      refine ⟨_, rfl, ?_, ht.congr rfl rfl rfl, ⟨rfl, rfl, rfl⟩, by simp [hc], rfl⟩
      unfold ChunkSt
      simp only [hc, if_true, hm]
      exact ⟨h.1, by rw [h.2]; simp [rvals]⟩
    · obtain ⟨g, e, hk, _, hst⟩ := appendCommittedAt_spec f bss _ hc hm h (fun hr => hs ⟨hc, hr, hm⟩)
      have : appendCommittedFromMem f mem = .ok g := by
        rw [← e]
        unfold appendCommittedFromMem appendCommittedAt
        cases hmode : f.mode <;> simp only [e1, e2, Res.ok_bind, reduceCtorEq, if_false, if_true]
        exact absurd hmode hm
      exact ⟨g, this, hst, hk.tinv ht, hk.same, hk.committed.trans hc, hk.mode⟩
  · simp only [Bool.not_eq_true] at hc
    unfold ChunkSt at h
    simp only [hc, Bool.false_eq_true, if_false] at h
    simp only [hc, Bool.not_false, if_true, e1, e2, Res.ok_bind]
    refine ⟨_, rfl, ?_, ht.congr rfl rfl rfl, ⟨rfl, rfl, rfl⟩, by simp, by simp⟩
    unfold ChunkSt
    simp only [hc, Bool.false_eq_true, if_false]
    refine ⟨h.1, ?_, ?_⟩
    · rw [h.2.1]; simp [ivals]
    · rw [h.2.2]; simp [rvals]

end Cloudini
