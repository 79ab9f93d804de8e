import Verif.Lemmas.CostColumn
import Verif.Props.C21_C22

/-!
# C86: constant and evenly spaced integer columns cost a few bytes per chunk
-/

namespace Cloudini.Props

theorem wide_eq (f : PointField) : wide f = isAdaptiveType f.type := by
  unfold wide isAdaptiveType; cases f.type <;> rfl

theorem signedInt_eq (f : PointField) : signedInt f = isSignedType f.type := by
  unfold signedInt isSignedType; cases f.type <;> rfl

theorem chunks_total (A B : Nat) (C : Compressor) (n : Nat) (cs : List (List Byte)) (payload : List Byte) (h : ChunkSizes (fun k => A + B * k) n cs)
    (hf : Framed C .none cs payload) : payload.length ≤ (n + 32767) / 32768 * (4 + A) + B * n := by
  induction cs generalizing n payload with
  | nil => cases hf; simp
  | cons c cs ih =>
    obtain ⟨h0, h1, h2⟩ := h
    cases hf with
    | cons c y cs rest hw hr =>
      have hy : y = c := by
        rcases hw.2 with h | h
        · exact h.2
        · exact absurd rfl h.1
      subst hy
      have h3 := ih _ _ h2 hr
      have hK : kPointsPerChunk = 32768 := rfl
      rw [hK] at h1 h3
      simp only [List.length_append, toLE_length]
      have e1 : (n + 32767) / 32768 = (n - min n 32768 + 32767) / 32768 + 1 := by omega
      have e2 : B * n = B * (n - min n 32768) + B * min n 32768 := by rw [← Nat.mul_add]; congr 1; omega
      rw [e1, e2, Nat.add_mul, Nat.one_mul]
      simp only at h1
      generalize (n - min n 32768 + 32767) / 32768 * (4 + A) = u at *
      omega

theorem sum_split (as : List AField) (p q : AField → Nat) (n : Nat) :
    (as.map fun f => p f + q f * n).sum = (as.map p).sum + (as.map q).sum * n := by
  induction as with
  | nil => simp
  | cons a as ih => simp only [List.map_cons, List.sum_cons, ih, Nat.add_mul]; omega

theorem sum_filter (p : PointField → Bool) (g : PointField → Nat) (fs : List PointField) :
    ((fs.filter p).map g).sum = (fs.map fun f => if p f then g f else 0).sum := by
  induction fs with
  | nil => rfl
  | cons f fs ih =>
    rw [List.filter_cons, List.map_cons, List.sum_cons]
    by_cases h : p f = true
    · rw [if_pos h, if_pos h, List.map_cons, List.sum_cons, ih]
    · rw [if_neg h, if_neg h, ih]; omega

theorem sum_add (p q : PointField → Nat) (fs : List PointField) : (fs.map fun f => p f + q f).sum = (fs.map p).sum + (fs.map q).sum := by
  induction fs with
  | nil => rfl
  | cons f fs ih => simp only [List.map_cons, List.sum_cons, ih]; omega

theorem maxSer_lossy {f : PointField} (h : KnownType f.type) : maxSer .lossy f = if isAdaptiveType f.type then 10 else narrowCost f := by
  obtain ⟨name, off, type, res⟩ := f
  cases type <;> first | rfl | (cases res <;> rfl) | exact absurd h (by simp [KnownType])

/-- Behind the leading float group there are the same wide integers as in the whole list. -/
theorem wide_tail (info : EncodingInfo) : (info.fields.drop (leadingLossyFloatCount info)).filter (fun f => isAdaptiveType f.type) =
    info.fields.filter fun f => isAdaptiveType f.type := by
  have h := List.take_append_drop (leadingLossyFloatCount info) info.fields
  have : (info.fields.take (leadingLossyFloatCount info)).filter (fun f => isAdaptiveType f.type) = [] := by
    rw [List.filter_eq_nil_iff]
    intro f hf
    rw [(leadCount_take info f hf).2.1]
    simp [isAdaptiveType]
  conv => rhs; rw [← h, List.filter_append, this]
  rfl

/-- **C86.** A version-5 lossy cloud without second-stage compression: whatever the encoder did before, the encoded cloud takes at most, for
every chunk of 32768 points, a length word and what `perChunk` allows for every field, and for every point what `perPoint` allows.  A wide
integer column in which all numbers are equal costs 3 bytes and the number per chunk and nothing per point; one in which the number changes by
the same amount from point to point 29 bytes per chunk and nothing per point. -/
theorem C86_column_cost (F : FloatOps) (C : Compressor) (info : EncodingInfo) (header : List Byte) (enc enc' : Encoder)
    (hinfo : ValidInfo F info) (hreach : Reach F C info header enc) (n : Nat) (cloud : List Byte) (hcloud : CloudOf F info n cloud)
    (hver : 5 ≤ info.version.toNat) (hopt : info.encoding_opt = .lossy) (hcomp : info.compression_opt = .none) (h64 : FieldLimit info)
    (room : Nat) (wh : Bool) (out : List Byte) (size : Nat) (h : encodeView F C enc cloud room wh = .ok (enc', out, size)) :
    out.length ≤ (if wh then header.length else 0) + (n + 32767) / 32768 * (4 + (info.fields.map (perChunk info cloud n)).sum) +
      (info.fields.map (perPoint info cloud n)).sum * n := by
  obtain ⟨rfl, rfl, hused⟩ := reach_used hreach
  obtain ⟨cs, payload, hst, hlen, hs1, _, _, hfr, rfl, _, _⟩ := encodeView_inv F C enc enc' cloud room wh out size h
  rw [hcomp] at hfr
  have hp : cloud.length / enc.info.point_step.toNat = n := by rw [hcloud.size]; exact Nat.mul_div_cancel _ hst
  have hpts := cloudOf_points hinfo hcloud
  have hkn : ∀ f ∈ enc.info.fields, KnownType f.type := fun f hf => (known_of_types (hinfo.types f hf)).1
  have hagree := valid_agree hinfo (all2_refl_same enc.info.fields) rfl rfl rfl
  have hgoal : payload.length ≤ (n + 32767) / 32768 * (4 + (enc.info.fields.map (perChunk enc.info cloud n)).sum) +
      (enc.info.fields.map (perPoint enc.info cloud n)).sum * n := by
    refine chunks_total _ _ C n cs payload ?_ hfr
    -- what the whole point may take
    have hser : (enc.info.fields.map (maxSer enc.info.encoding_opt)).sum =
        (enc.info.fields.map fun f => if isAdaptiveType f.type then 0 else narrowCost f).sum +
          10 * (enc.info.fields.filter fun f => isAdaptiveType f.type).length := by
      rw [hopt]
      generalize enc.info.fields = fs at hkn
      induction fs with
      | nil => rfl
      | cons f fs ih =>
        have ih := ih (fun x hx => hkn x (by simp [hx]))
        rw [List.map_cons, List.sum_cons, ih, maxSer_lossy (hkn f (by simp)), List.map_cons, List.sum_cons, List.filter_cons]
        by_cases h : isAdaptiveType f.type = true
        · simp only [if_pos h, List.length_cons]; omega
        · simp only [if_neg h]; omega
    by_cases hv : usesV5 enc.info = true
    · obtain ⟨es, ds, b1, b2, b3, b4, b5, b6⟩ := build_v5 F enc.info enc.info hagree hopt
      rw [wide_tail] at b1 b5
      have hms := maxSerializedPointSize_eq (opt := enc.info.encoding_opt) hkn
      unfold stage1Chunks at hs1
      simp only [hp] at hs1
      rw [if_pos hv] at hs1
      have hcapv : v5StageBufferSize enc.info kPointsPerChunk = .ok (kPointsPerChunk *
          (max enc.info.point_step.toNat (enc.info.fields.map (maxSer enc.info.encoding_opt)).sum + 64) +
          enc.info.fields.length * 64 + 1024) := by
        unfold v5StageBufferSize; rw [hms]; rfl
      rw [hcapv] at hs1
      simp only [Res.ok_bind, b1] at hs1
      obtain ⟨cs', hs2, hs1⟩ := Res.bind_eq_ok.1 hs1
      simp only [Res.ok.injEq, Prod.mk.injEq] at hs1
      obtain ⟨_, rfl⟩ := hs1
      let ad := enc.info.fields.filter fun f => isAdaptiveType f.type
      have hadad : ∀ f ∈ ad, isAdaptiveType f.type = true := fun f hf => (List.mem_filter.1 hf).2
      have h8 : ∀ f ∈ ad.map mkAField, f.bpv ≤ 8 := by
        intro f hf
        simp only [List.mem_map] at hf
        obtain ⟨p, hpm, rfl⟩ := hf
        have := hadad p hpm
        simp only [mkAField]
        cases hf : p.type <;> simp_all [sizeOf, isAdaptiveType]
      have hcost := stage1V5_cost F hashPaletteValue enc.info.point_step.toNat (kPointsPerChunk *
          (max enc.info.point_step.toNat (enc.info.fields.map (maxSer enc.info.encoding_opt)).sum + 64) +
          enc.info.fields.length * 64 + 1024) es ds (ad.map mkAField) (matchAll_reset b3) h8 n
        (by
          clear hs1 hs2 hcapv
          have had : ad.length ≤ 64 := fieldLimit_v5 h64 hv
          rw [List.length_map]
          have h1 : min n kPointsPerChunk * (sumMax es + 10 * ad.length) ≤ min n kPointsPerChunk * (enc.info.fields.map (maxSer enc.info.encoding_opt)).sum :=
            Nat.mul_le_mul_left _ b5
          have h2 : min n kPointsPerChunk * ((enc.info.fields.map (maxSer enc.info.encoding_opt)).sum + ad.length) ≤
              kPointsPerChunk * (max enc.info.point_step.toNat (enc.info.fields.map (maxSer enc.info.encoding_opt)).sum + 64) :=
            Nat.mul_le_mul (Nat.min_le_right _ _) (Nat.add_le_add (Nat.le_max_right _ _) had)
          rw [Nat.mul_add] at h1 h2
          have h3 : min n kPointsPerChunk * (10 * ad.length) = 10 * (min n kPointsPerChunk * ad.length) := by rw [Nat.mul_left_comm]
          have h4 : ad.length * (11 * min n kPointsPerChunk) = 11 * (min n kPointsPerChunk * ad.length) := by rw [Nat.mul_left_comm, Nat.mul_comm ad.length]
          rw [Nat.mul_add ad.length]
          generalize min n kPointsPerChunk * ad.length = u at *
          generalize min n kPointsPerChunk * sumMax es = v at *
          generalize kPointsPerChunk * (max enc.info.point_step.toNat (enc.info.fields.map (maxSer enc.info.encoding_opt)).sum + 64) = w at *
          generalize min n kPointsPerChunk * (enc.info.fields.map (maxSer enc.info.encoding_opt)).sum = x at *
          omega)
        es (ad.map mkAField) cloud rfl (all2_same_refl _)
        ⟨false, fun f hf => by simp only [List.mem_map] at hf; obtain ⟨p, _, rfl⟩ := hf; rfl⟩
        (fun f hf => by simp only [List.mem_map] at hf; obtain ⟨p, _, rfl⟩ := hf; exact tinv_fresh p)
        (fun i hi => b6 _ _ (hpts i hi))
        (fun f hf c hc => by
          simp only [List.mem_map] at hf
          obtain ⟨p, hpm, rfl⟩ := hf
          refine goodA_of_points (F := F) (hadad p hpm) hopt (fun i hi => ?_)
          rw [List.drop_drop, ← Nat.add_mul, prevMem_chunk _ _ _ _ (by omega)]
          have hd := (hpts (c * kPointsPerChunk + i) (by omega)).2 p
          refine hd ?_
          have : p ∈ (enc.info.fields.drop (leadingLossyFloatCount enc.info)).filter fun f => isAdaptiveType f.type := by rw [wide_tail]; exact hpm
          exact (List.mem_filter.1 this).1)
        (fun f => fixedCost cloud enc.info.point_step.toNat f.offset f.bpv f.signed n)
        (fun f => pointCost cloud enc.info.point_step.toNat f.offset f.bpv f.signed n)
        (by
          have hfresh : ∀ f ∈ ad.map mkAField, f.committed = false := fun f hf => by
            simp only [List.mem_map] at hf; obtain ⟨p, _, rfl⟩ := hf; rfl
          generalize ad.map mkAField = as at h8 hfresh
          induction as with
          | nil => trivial
          | cons f as ih =>
            exact ⟨fun c hc => column_cost _ n cloud f (hfresh f (by simp)) (h8 f (by simp)) c hc,
              ih (fun x hx => h8 x (by simp [hx])) (fun x hx => hfresh x (by simp [hx]))⟩)
        cs' hs2
      refine hcost.mono fun k _ _ => ?_
      rw [sum_split, List.map_map, List.map_map]
      have e1 : (ad.map ((fun f => fixedCost cloud enc.info.point_step.toNat f.offset f.bpv f.signed n) ∘ mkAField)).sum =
          (enc.info.fields.map (perChunk enc.info cloud n)).sum := by
        rw [sum_filter]
        congr 1
        apply List.map_congr_left
        intro f _
        unfold perChunk
        rw [wide_eq, signedInt_eq]
        rfl
      have e2 : (ad.map ((fun f => pointCost cloud enc.info.point_step.toNat f.offset f.bpv f.signed n) ∘ mkAField)).sum +
          (enc.info.fields.map fun f => if isAdaptiveType f.type then 0 else narrowCost f).sum =
          (enc.info.fields.map (perPoint enc.info cloud n)).sum := by
        rw [sum_filter, ← sum_add]
        congr 1
        apply List.map_congr_left
        intro f _
        unfold perPoint
        rw [wide_eq, signedInt_eq]
        by_cases h : isAdaptiveType f.type = true
        · rw [if_pos h, if_pos h, if_pos h]; rfl
        · rw [if_neg h, if_neg h, if_neg h, Nat.zero_add]
      have h5 : sumMax es ≤ (enc.info.fields.map fun f => if isAdaptiveType f.type then 0 else narrowCost f).sum := by omega
      rw [e1, ← e2, Nat.add_mul]
      have h6 := Nat.mul_le_mul_left k h5
      rw [Nat.mul_comm k (List.sum _)] at h6
      omega
    · have hnone : enc.info.fields.filter (fun f => isAdaptiveType f.type) = [] := by
        rw [← wide_tail, List.filter_eq_nil_iff]
        intro f hf ha
        apply hv
        unfold usesV5
        rw [hopt]
        have hge : enc.info.version ≥ 5#8 := hver
        simp only [hge, decide_true, Bool.true_and, List.any_eq_true]
        exact ⟨f, hf, ha⟩
      obtain ⟨es', cs', _, _, _, s1, _, _, s4, _⟩ := stage1_cloud F enc enc.info cloud n hagree hused hst hcloud.size hpts (fieldLimit_v5 h64)
        (fun _ g hg _ => valid_noSkip hinfo g hg)
      rw [hs1] at s1
      simp only [Res.ok.injEq, Prod.mk.injEq] at s1
      obtain ⟨_, rfl⟩ := s1
      refine s4.mono fun k _ _ => ?_
      rw [if_neg hv, if_neg hv, hser, hnone]
      have e2 : (enc.info.fields.map fun f => if isAdaptiveType f.type then 0 else narrowCost f) = enc.info.fields.map (perPoint enc.info cloud n) := by
        apply List.map_congr_left
        intro f hf
        unfold perPoint
        have : ¬ isAdaptiveType f.type = true := by
          rw [List.filter_eq_nil_iff] at hnone
          exact hnone f hf
        rw [wide_eq, if_neg this, if_neg this]
      rw [e2]
      simp only [List.length_nil, Nat.mul_zero, Nat.add_zero]
      rw [Nat.mul_comm k]
      omega
  rw [List.length_append]
  cases wh
  · simpa using hgoal
  · simp only [if_true]; omega

/-! ## A cloud of indexes -/

/-- One 32-bit index per point. -/
def indexInfo : EncodingInfo :=
  { fields := [{ name := [0x69#8], offset := 0#32, type := .uint32 }], width := 5#32, height := 1#32, point_step := 4#32,
    encoding_opt := .lossy, compression_opt := .none, version := 5#8 }

/-- The points 0, 1, 2, ... -/
def indexCloud (n : Nat) : List Byte := (List.range n).flatMap (toLE 4)

theorem index_valid (F : FloatOps) : ValidInfo F indexInfo where
  step := by decide
  version := by decide
  option := by decide
  types := by decide
  inside := by decide
  disjoint := by decide
  resolution := by
    intro _ f hf r hr
    simp only [indexInfo, List.mem_singleton] at hf
    subst hf
    simp at hr

theorem flat_cell (l : List Nat) (i : Nat) (h : i < l.length) : ((l.flatMap (toLE 4)).drop (i * 4)).take 4 = toLE 4 l[i] := by
  induction l generalizing i with
  | nil => simp at h
  | cons a l ih =>
    rw [List.flatMap_cons]
    cases i with
    | zero => simp [List.take_left' (toLE_length 4 a)]
    | succ i =>
      rw [Nat.add_mul, Nat.one_mul, Nat.add_comm, ← List.drop_drop, List.drop_left' (toLE_length 4 a)]
      exact ih i (by simpa using h)

theorem index_length (n : Nat) : (indexCloud n).length = n * 4 := by
  unfold indexCloud
  induction n with
  | zero => rfl
  | succ n ih => rw [List.range_succ, List.flatMap_append, List.length_append, ih]; simp; omega

theorem index_cloudOf (F : FloatOps) (n : Nat) : CloudOf F indexInfo n (indexCloud n) where
  size := index_length n
  range := by
    intro i _ k f hf
    cases k with
    | zero => simp only [indexInfo, List.getElem?_cons_zero, Option.some.injEq] at hf; subst hf; trivial
    | succ k => simp [indexInfo] at hf

theorem index_number (n i : Nat) (hi : i < n) (hn : n ≤ 2 ^ 32) : numberAt (indexCloud n) 4 0 4 false i = i := by
  unfold numberAt cell fieldBytes indexCloud
  rw [Nat.zero_add, Nat.add_zero, flat_cell _ _ (by simpa using hi), List.getElem_range]
  unfold numberIn
  simp only [Bool.false_eq_true, if_false]
  rw [fromLE_toLE, Nat.mod_eq_of_lt (by omega)]

theorem index_even (n : Nat) (hn : n ≤ 2 ^ 32) : EvenColumn (indexCloud n) 4 0 4 false n := by
  intro i hi
  rw [index_number n _ (by omega) hn, index_number n _ (by omega) hn, index_number n _ (by omega) hn]
  omega

theorem index_bound (points : Nat) : ∃ m, maxCompressedChunks storeComp indexInfo 11 points = .ok m := by
  induction points using Nat.strongRecOn with
  | ind n ih =>
    unfold maxCompressedChunks
    split
    · exact ⟨0, rfl⟩
    · next h0 =>
      obtain ⟨m, hm⟩ := ih (n - min n kPointsPerChunk) (by unfold kPointsPerChunk; omega)
      have hb : ∃ b, chunkBound storeComp indexInfo 11 (min n kPointsPerChunk) = .ok b := ⟨_, rfl⟩
      obtain ⟨b, hb⟩ := hb
      exact ⟨4 + b + m, by simp only [hb, hm, Res.ok_bind]⟩

/-- **C86, an instance.** A cloud of any number of points that hold their own index, of `131072` bytes per chunk, is encoded, into at most 33
bytes per chunk. -/
theorem C86_index_column (F : FloatOps) (enc : Encoder) (hreach : Reach F storeComp indexInfo [] enc) (n : Nat) (hn : n ≤ 2 ^ 32) :
    ∃ room enc' out size, encodeView F storeComp enc (indexCloud n) room false = .ok (enc', out, size) ∧
      out.length ≤ (n + 32767) / 32768 * 33 := by
  obtain ⟨m, hm⟩ := index_bound n
  obtain ⟨⟨enc', out, size⟩, hr⟩ := C22_corrected_partial F storeComp storeComp_lawful indexInfo [] enc (index_valid F) hreach n (indexCloud n)
    (index_cloudOf F n) 10 m m false (by decide) hm (by simp) (by decide) (by decide +kernel) (by intro h; simp [indexInfo] at h)
    (by intro h; simp [indexInfo] at h)
  refine ⟨m, enc', out, size, hr, ?_⟩
  have h := C86_column_cost F storeComp indexInfo [] enc enc' (index_valid F) hreach n (indexCloud n) (index_cloudOf F n) (by decide) rfl rfl
    (by decide) m false out size hr
  have h1 : perPoint indexInfo (indexCloud n) n { name := [0x69#8], offset := 0#32, type := .uint32 } = 0 := by
    show pointCost (indexCloud n) 4 0 4 false n = 0
    unfold pointCost
    rw [if_pos (index_even n hn), ite_self]
  have h2 : perChunk indexInfo (indexCloud n) n { name := [0x69#8], offset := 0#32, type := .uint32 } ≤ 29 := by
    show fixedCost (indexCloud n) 4 0 4 false n ≤ 29
    unfold fixedCost
    rw [if_pos (index_even n hn)]
    split <;> omega
  have h3 : (indexInfo.fields.map (perPoint indexInfo (indexCloud n) n)).sum = 0 := by
    show perPoint indexInfo (indexCloud n) n _ + 0 = 0
    rw [h1]
  have h4 : (indexInfo.fields.map (perChunk indexInfo (indexCloud n) n)).sum ≤ 29 := h2
  rw [h3] at h
  simp only [Bool.false_eq_true, if_false, Nat.zero_add, Nat.zero_mul, Nat.add_zero] at h
  exact Nat.le_trans h (Nat.mul_le_mul_left _ (by omega))

/-- A million points. -/
example (F : FloatOps) : ∃ enc room enc' out size, mkEncoder F indexInfo [] = .ok enc ∧
    encodeView F storeComp enc (indexCloud 1000000) room false = .ok (enc', out, size) ∧ out.length ≤ 1023 := by
  obtain ⟨enc, h⟩ : ∃ enc, mkEncoder F indexInfo [] = .ok enc := ⟨_, rfl⟩
  obtain ⟨room, enc', out, size, h1, h2⟩ := C86_index_column F enc (.fresh enc h) 1000000 (by omega)
  exact ⟨enc, room, enc', out, size, h, h1, h2⟩

end Cloudini.Props
