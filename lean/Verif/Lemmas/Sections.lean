import Verif.Lemmas.Unfold
import Verif.Lemmas.Runs

/-! Adaptive integer sections: the bytes each mode stands for, and the decoder on them. -/

namespace Cloudini

/-! ### specification of the section bytes -/

def rleBytes (bpv : Nat) (rs : List (BitVec 64 × Nat)) : List Byte :=
  rs.flatMap fun r => toLE bpv r.1.toNat ++ lebBytes (BitVec.ofNat 64 r.2)

def dRleBytes (rs : List (BitVec 64 × Nat)) : List Byte :=
  rs.flatMap fun r => encodeVarint64 r.1 ++ lebBytes (BitVec.ofNat 64 r.2)

def deltaSec (vals : List (BitVec 64)) : List Byte :=
  AMode.deltaVarint.code :: (deltas 0#64 vals).flatMap encodeVarint64

def deltaRleSec (vals : List (BitVec 64)) : List Byte :=
  AMode.deltaRle.code :: (toLE 4 (runs (deltas 0#64 vals)).length ++ dRleBytes (runs (deltas 0#64 vals)))

def rleSec (bpv : Nat) (raws : List (BitVec 64)) : List Byte :=
  AMode.rle.code :: (toLE 4 (runs raws).length ++ rleBytes bpv (runs raws))

def paletteSec (bpv : Nat) (pal : List (BitVec 64)) (idx : List Nat) : List Byte :=
  AMode.palette.code :: (toLE 2 pal.length ++ (pal.flatMap (fun v => toLE bpv v.toNat) ++
    bitpack (bitsForPaletteIndex pal.length) idx))

/-- Writing `bs` to a view with enough room. -/
def W.put (w : W) (bs : List Byte) : W := ⟨w.out ++ bs, w.room - bs.length⟩

theorem W.put_nil (w : W) : w.put [] = w := by simp [W.put]
theorem W.put_put (w : W) (a b : List Byte) : (w.put a).put b = w.put (a ++ b) := by
  simp [W.put, Nat.sub_sub]
theorem W.raw_put {w : W} {bs : List Byte} (h : bs.length ≤ w.room) : w.raw bs = .ok (w.put bs) := W.raw_ok h
theorem W.checked_put {w : W} {m : String} {bs : List Byte} (h : bs.length ≤ w.room) :
    w.checked m bs = .ok (w.put bs) := W.checked_ok h

theorem splice_mid (a b b' c : List Byte) (h : b'.length = b.length) :
    splice (a ++ (b ++ c)) a.length b' = a ++ (b' ++ c) := by
  unfold splice
  simp only [List.take_left', List.append_assoc]
  congr 2
  rw [h, List.drop_append, List.drop_append]
  simp [List.drop_of_length_le]

/-! ### buffered writers -/

theorem appendDeltas_eq (vals : List (BitVec 64)) (p : BitVec 64) (w : W) (hs : SubW p vals)
    (hr : ((deltas p vals).flatMap encodeVarint64).length ≤ w.room) :
    appendDeltas vals p w = .ok (w.put ((deltas p vals).flatMap encodeVarint64)) := by
  induction vals generalizing p w with
  | nil => simp [appendDeltas, deltas, W.put_nil]
  | cons v vs ih =>
    obtain ⟨h1, h3⟩ := hs
    simp only [deltas, List.flatMap_cons, List.length_append] at hr
    simp only [appendDeltas, h1, Res.ok_bind, deltas, List.flatMap_cons]
    rw [W.raw_put (by omega)]
    simp only [Res.ok_bind]
    rw [ih v _ h3 (by simp only [W.put]; omega), W.put_put]

theorem appendDeltaVarintSection_eq (vals : List (BitVec 64)) (w : W) (hs : SubW 0#64 vals)
    (hr : (deltaSec vals).length ≤ w.room) : appendDeltaVarintSection vals w = .ok (w.put (deltaSec vals)) := by
  unfold deltaSec at *
  simp only [List.length_cons] at hr
  unfold appendDeltaVarintSection W.appendByte
  rw [W.checked_put (by simp; omega)]
  simp only [Res.ok_bind]
  rw [appendDeltas_eq _ _ _ hs (by simp only [W.put, List.length_cons, List.length_nil]; omega), W.put_put]
  rfl

theorem foldDeltaRle_eq (rs : List (BitVec 64 × Nat)) (w : W) (k : Nat) (hr : (dRleBytes rs).length ≤ w.room) :
    foldRes (fun (s : W × Nat) (r : BitVec 64 × Nat) => (do
      let w ← s.1.raw (encodeVarint64 r.1)
      let w ← w.appendUVarint (BitVec.ofNat 64 r.2)
      .ok (w, s.2 + 1) : Res (W × Nat))) (w, k) rs = .ok (w.put (dRleBytes rs), k + rs.length) := by
  induction rs generalizing w k with
  | nil => simp [foldRes, dRleBytes, W.put_nil]
  | cons r rs ih =>
    simp only [dRleBytes, List.flatMap_cons, List.length_append] at hr ih ⊢
    simp only [foldRes]
    rw [W.raw_put (by omega)]
    simp only [Res.ok_bind, W.appendUVarint]
    rw [W.checked_put (by simp only [W.put]; omega)]
    simp only [Res.ok_bind]
    have := ih ((w.put (encodeVarint64 r.1)).put (lebBytes (BitVec.ofNat 64 r.2))) (k + 1)
      (by simp only [W.put]; omega)
    simp only [W.appendUVarint] at this
    rw [this, W.put_put, W.put_put]
    simp only [List.length_cons, List.append_assoc]
    congr 2; omega

theorem appendDeltaRleSection_eq (vals : List (BitVec 64)) (w : W) (hs : SubW 0#64 vals)
    (hr : (deltaRleSec vals).length ≤ w.room) :
    appendDeltaRleSection vals w = .ok (w.put (deltaRleSec vals)) := by
  unfold deltaRleSec at *
  simp only [List.length_cons, List.length_append, toLE_length] at hr
  unfold appendDeltaRleSection W.appendByte W.encodeInt
  rw [W.checked_put (by simp; omega)]
  simp only [Res.ok_bind]
  rw [W.checked_put (by simp [W.put]; omega)]
  simp only [Res.ok_bind]
  rw [forEachDeltaRun_eq _ _ _ _ _ (Nat.le_refl _) hs]
  rw [foldDeltaRle_eq _ _ _ (by simp [W.put]; omega)]
  simp only [Res.ok_bind, W.patchU32, W.put_put]
  congr 1
  simp only [W.put, Nat.zero_add, W.mk.injEq]
  constructor
  · have e : w.out ++ ([AMode.deltaRle.code] ++ toLE 4 0 ++ dRleBytes (runs (deltas 0#64 vals)))
        = (w.out ++ [AMode.deltaRle.code]) ++ (toLE 4 0 ++ dRleBytes (runs (deltas 0#64 vals))) := by simp
    rw [e, splice_mid _ _ _ _ (by simp)]
    simp
  · simp

theorem foldRle_eq (bpv : Nat) (rs : List (BitVec 64 × Nat)) (w : W) (k : Nat) (hr : (rleBytes bpv rs).length ≤ w.room) :
    foldRes (fun (s : W × Nat) (r : BitVec 64 × Nat) => (do
      let w ← s.1.appendRawBits r.1 bpv
      let w ← w.appendUVarint (BitVec.ofNat 64 r.2)
      .ok (w, s.2 + 1) : Res (W × Nat))) (w, k) rs = .ok (w.put (rleBytes bpv rs), k + rs.length) := by
  induction rs generalizing w k with
  | nil => simp [foldRes, rleBytes, W.put_nil]
  | cons r rs ih =>
    simp only [rleBytes, List.flatMap_cons, List.length_append] at hr ih ⊢
    simp only [foldRes, W.appendRawBits]
    rw [W.checked_put (by omega)]
    simp only [Res.ok_bind, W.appendUVarint]
    rw [W.checked_put (by simp only [W.put]; omega)]
    simp only [Res.ok_bind]
    have := ih ((w.put (toLE bpv r.1.toNat)).put (lebBytes (BitVec.ofNat 64 r.2))) (k + 1)
      (by simp only [W.put]; omega)
    simp only [W.appendRawBits, W.appendUVarint] at this
    rw [this, W.put_put, W.put_put]
    simp only [List.length_cons, List.append_assoc]
    congr 2; omega

theorem appendRleSection_eq (bpv : Nat) (raws : List (BitVec 64)) (w : W)
    (hr : (rleSec bpv raws).length ≤ w.room) :
    appendRleSection bpv raws w = .ok (w.put (rleSec bpv raws)) := by
  unfold rleSec at *
  simp only [List.length_cons, List.length_append, toLE_length] at hr
  unfold appendRleSection W.appendByte W.encodeInt
  rw [W.checked_put (by simp; omega)]
  simp only [Res.ok_bind]
  rw [W.checked_put (by simp [W.put]; omega)]
  simp only [Res.ok_bind]
  rw [forEachRleRun_eq _ _ _ _ (Nat.le_refl _)]
  rw [foldRle_eq _ _ _ _ (by simp [W.put]; omega)]
  simp only [Res.ok_bind, W.patchU32, W.put_put]
  congr 1
  simp only [W.put, Nat.zero_add, W.mk.injEq]
  constructor
  · have e : w.out ++ ([AMode.rle.code] ++ toLE 4 0 ++ rleBytes bpv (runs raws))
        = (w.out ++ [AMode.rle.code]) ++ (toLE 4 0 ++ rleBytes bpv (runs raws)) := by simp
    rw [e, splice_mid _ _ _ _ (by simp)]
    simp
  · simp

theorem appendRawList_eq (bpv : Nat) (vs : List (BitVec 64)) (w : W)
    (hr : (vs.flatMap (fun v => toLE bpv v.toNat)).length ≤ w.room) :
    appendRawList bpv vs w = .ok (w.put (vs.flatMap (fun v => toLE bpv v.toNat))) := by
  induction vs generalizing w with
  | nil => simp [appendRawList, W.put_nil]
  | cons v vs ih =>
    simp only [List.flatMap_cons, List.length_append] at hr ⊢
    simp only [appendRawList, W.appendRawBits]
    rw [W.checked_put (by omega)]
    simp only [Res.ok_bind]
    rw [ih _ (by simp only [W.put]; omega), W.put_put]

theorem appendPaletteSection_eq (f : AField) (w : W)
    (hr : (paletteSec f.bpv f.palette f.indexes).length ≤ w.room) :
    appendPaletteSection f w = .ok (w.put (paletteSec f.bpv f.palette f.indexes)) := by
  unfold paletteSec at *
  simp only [List.length_cons, List.length_append, toLE_length] at hr
  unfold appendPaletteSection W.appendByte W.encodeInt
  rw [W.checked_put (by simp; omega)]
  simp only [Res.ok_bind]
  rw [W.checked_put (by simp [W.put]; omega)]
  simp only [Res.ok_bind]
  rw [appendRawList_eq _ _ _ (by simp only [W.put, toLE_length, List.length_cons, List.length_nil]; omega)]
  simp only [Res.ok_bind]
  rw [W.checked_put (by simp only [W.put, toLE_length, List.length_cons, List.length_nil]; omega)]
  simp only [W.put_put, List.append_assoc]
  rfl

/-! ### exact sizes -/

theorem deltaVarintSize_eq (vals : List (BitVec 64)) (p : BitVec 64) (b : Nat) (hs : SubW p vals) :
    deltaVarintSize vals p b = .ok (b + ((deltas p vals).flatMap encodeVarint64).length) := by
  induction vals generalizing p b with
  | nil => simp [deltaVarintSize, deltas]
  | cons v vs ih =>
    obtain ⟨h1, h3⟩ := hs
    simp only [deltaVarintSize, h1, Res.ok_bind, deltas, List.flatMap_cons, List.length_append,
      encodedVarint64Size]
    rw [ih _ _ h3]
    congr 1; omega

theorem foldSize (g : BitVec 64 × Nat → Nat) (rs : List (BitVec 64 × Nat)) (b : Nat) :
    foldRes (fun (b : Nat) (r : BitVec 64 × Nat) => (.ok (b + g r) : Res Nat)) b rs = .ok (b + (rs.map g).sum) := by
  induction rs generalizing b with
  | nil => simp [foldRes]
  | cons r rs ih =>
    simp only [foldRes, Res.ok_bind, ih, List.map_cons, List.sum_cons]
    congr 1; omega

theorem deltaRleSize_eq (vals : List (BitVec 64)) (hs : SubW 0#64 vals) :
    deltaRleSize vals = .ok (deltaRleSec vals).length := by
  unfold deltaRleSize deltaRleSec
  rw [forEachDeltaRun_eq _ _ _ _ _ (Nat.le_refl _) hs]
  rw [foldSize (fun r => encodedVarint64Size r.1 + encodedUVarintSize (BitVec.ofNat 64 r.2))]
  congr 1
  simp only [List.length_cons, List.length_append, toLE_length, dRleBytes, List.length_flatMap,
    encodedVarint64Size, encodedUVarintSize_eq]
  omega

theorem rleSize_eq (bpv : Nat) (raws : List (BitVec 64)) : rleSize bpv raws = .ok (rleSec bpv raws).length := by
  unfold rleSize rleSec
  rw [forEachRleRun_eq _ _ _ _ (Nat.le_refl _)]
  rw [foldSize (fun r => bpv + encodedUVarintSize (BitVec.ofNat 64 r.2))]
  congr 1
  simp only [List.length_cons, List.length_append, toLE_length, rleBytes, List.length_flatMap,
    encodedUVarintSize_eq]
  omega

/-! ### decoding -/

/-- The stores of `vals` (already as bytes) into consecutive points. -/
def valWrites (off base step : Nat) : Nat → List (List Byte) → List Write
  | _, [] => []
  | i, b :: bs => (base + i * step + off, b) :: valWrites off base step (i + 1) bs

def leBytes (bpv : Nat) (vals : List (BitVec 64)) : List (List Byte) := vals.map fun v => toLE bpv v.toNat

theorem valWrites_append (off base step i : Nat) (as bs : List (List Byte)) :
    valWrites off base step i (as ++ bs) = valWrites off base step i as ++ valWrites off base step (i + as.length) bs := by
  induction as generalizing i with
  | nil => simp [valWrites]
  | cons a as ih =>
    simp only [List.cons_append, valWrites, ih, List.length_cons]
    congr 3; omega

theorem applyWrites_cons (buf : List Byte) (p : Nat) (b : List Byte) (ws : List Write) :
    applyWrites buf 0 ((p, b) :: ws) = (writeAt buf p b >>= fun buf => applyWrites buf 0 ws) := by
  simp [applyWrites]

theorem decodeDeltas_eq (f : AField) (base step : Nat) (vals : List (BitVec 64)) (i : Nat) (p : BitVec 64)
    (rest buf : List Byte) (hs : SubOK p vals) :
    decodeDeltas f base step vals.length i p ((deltas p vals).flatMap encodeVarint64 ++ rest) buf =
      (applyWrites buf 0 (valWrites f.offset base step i (leBytes f.bpv vals)) >>= fun b => .ok (rest, b)) := by
  induction vals generalizing i p buf with
  | nil => simp [decodeDeltas, deltas, leBytes, valWrites, applyWrites]
  | cons v vs ih =>
    obtain ⟨h1, h2, h3⟩ := hs
    simp only [List.length_cons, decodeDeltas, deltas, List.flatMap_cons, List.append_assoc]
    rw [decodeVarint_encode _ _ h2]
    simp only [Res.ok_bind, addI64_sub h1, List.drop_left, leBytes, List.map_cons, valWrites, applyWrites_cons,
      writeValue, Res.bind_assoc]
    congr 1
    funext b
    exact ih (i + 1) v b h3

theorem writeRun_eq (f : AField) (base step : Nat) (v : BitVec 64) (k i : Nat) (buf : List Byte) :
    writeRun f base step v k i buf =
      applyWrites buf 0 (valWrites f.offset base step i (leBytes f.bpv (List.replicate k v))) := by
  induction k generalizing i buf with
  | zero => simp [writeRun, leBytes, valWrites, applyWrites]
  | succ k ih =>
    simp only [writeRun, List.replicate_succ, leBytes, List.map_cons, valWrites, applyWrites_cons, writeValue]
    congr 1
    funext b
    exact ih (i + 1) b

theorem take_drop_le (bpv : Nat) (v : Nat) (rest : List Byte) :
    (toLE bpv v ++ rest).take bpv = toLE bpv v ∧ (toLE bpv v ++ rest).drop bpv = rest := by
  constructor
  · rw [List.take_append_of_le_length (by simp), List.take_of_length_le (by simp)]
  · rw [List.drop_append_of_le_length (by simp), List.drop_of_length_le (by simp), List.nil_append]

theorem toLE_back (bpv : Nat) (v : BitVec 64) :
    toLE bpv (BitVec.ofNat 64 (fromLE (toLE bpv v.toNat))).toNat = toLE bpv v.toNat := by
  rw [fromLE_toLE, BitVec.toNat_ofNat]
  have h : v.toNat % 256 ^ bpv < 2 ^ 64 := Nat.lt_of_le_of_lt (Nat.mod_le _ _) v.isLt
  rw [Nat.mod_eq_of_lt h, toLE_mod]

theorem decodeRleRuns_eq (f : AField) (base step expected : Nat) (rs : List (BitVec 64 × Nat)) (i : Nat)
    (rest buf : List Byte) (he : i + runTotal rs ≤ expected) (hx : expected < 2 ^ 64) :
    decodeRleRuns f base step expected rs.length i (rleBytes f.bpv rs ++ rest) buf =
      (applyWrites buf 0 (valWrites f.offset base step i (leBytes f.bpv (expand rs))) >>=
        fun b => .ok (i + runTotal rs, rest, b)) := by
  induction rs generalizing i buf with
  | nil => simp [decodeRleRuns, rleBytes, expand, leBytes, valWrites, applyWrites, runTotal]
  | cons r rs ih =>
    obtain ⟨v, n⟩ := r
    have ht : runTotal ((v, n) :: rs) = n + runTotal rs := by simp [runTotal]
    rw [ht] at he ⊢
    have hb : rleBytes f.bpv ((v, n) :: rs) ++ rest =
        toLE f.bpv v.toNat ++ (lebBytes (BitVec.ofNat 64 n) ++ (rleBytes f.bpv rs ++ rest)) := by
      simp [rleBytes]
    rw [hb]
    simp only [List.length_cons, decodeRleRuns_succ]
    rw [if_neg (by simp only [List.length_append, toLE_length]; omega)]
    rw [(take_drop_le f.bpv v.toNat _).1, (take_drop_le f.bpv v.toNat _).2, readUVarint_leb]
    simp only [Res.ok_bind]
    have hn : (BitVec.ofNat 64 n).toNat = n := by
      rw [BitVec.toNat_ofNat]; exact Nat.mod_eq_of_lt (by omega)
    have hsum : (BitVec.ofNat 64 i + BitVec.ofNat 64 n).toNat = i + n := by
      rw [BitVec.toNat_add, hn, BitVec.toNat_ofNat]; omega
    rw [hsum, if_neg (by omega), hn, writeRun_eq]
    have hexp : expand ((v, n) :: rs) = List.replicate n v ++ expand rs := rfl
    rw [hexp]
    simp only [leBytes, List.map_append]
    rw [valWrites_append, applyWrites_append, Res.bind_assoc]
    have hr : List.map (fun v => toLE f.bpv v.toNat) (List.replicate n (BitVec.ofNat 64 (fromLE (toLE f.bpv v.toNat))))
        = List.map (fun v => toLE f.bpv v.toNat) (List.replicate n v) := by
      simp only [List.map_replicate, toLE_back]
    rw [hr]
    congr 1
    funext b
    rw [ih (i + n) b (by omega)]
    simp only [List.length_map, List.length_replicate, leBytes]
    congr 1
    funext b
    congr 2; omega

/-- Values reached from `p` by `k` times the difference `d`. -/
theorem deltas_replicate_split (p d : BitVec 64) (k : Nat) (vals : List (BitVec 64)) (rs : List (BitVec 64))
    (h : deltas p vals = List.replicate k d ++ rs) :
    ∃ a b, vals = a ++ b ∧ a.length = k ∧ deltas p a = List.replicate k d ∧ deltas (lastVal p a) b = rs := by
  refine ⟨vals.take k, vals.drop k, (List.take_append_drop k vals).symm, ?_, ?_⟩
  · have := congrArg List.length h
    rw [deltas_length] at this
    simp at this ⊢; omega
  · have hl : (vals.take k).length = k := by
      have := congrArg List.length h
      rw [deltas_length] at this
      simp at this ⊢; omega
    rw [← List.take_append_drop k vals, deltas_append] at h
    exact List.append_inj h (by rw [deltas_length, hl, List.length_replicate])

theorem writeDeltaRun_eq (f : AField) (base step : Nat) (d : BitVec 64) (vals : List (BitVec 64)) (i : Nat)
    (p : BitVec 64) (buf : List Byte) (hs : SubOK p vals) (hd : deltas p vals = List.replicate vals.length d) :
    writeDeltaRun f base step d vals.length i p buf =
      (applyWrites buf 0 (valWrites f.offset base step i (leBytes f.bpv vals)) >>=
        fun b => .ok (lastVal p vals, b)) := by
  induction vals generalizing i p buf with
  | nil => simp [writeDeltaRun, leBytes, valWrites, applyWrites, lastVal]
  | cons v vs ih =>
    obtain ⟨h1, h2, h3⟩ := hs
    simp only [deltas, List.length_cons, List.replicate_succ, List.cons.injEq] at hd
    obtain ⟨rfl, hd⟩ := hd
    simp only [List.length_cons, writeDeltaRun, addI64_sub h1, Res.ok_bind, leBytes, List.map_cons, valWrites,
      applyWrites_cons, writeValue, Res.bind_assoc]
    congr 1
    funext b
    exact ih (i + 1) v b h3 hd

theorem decodeDeltaRleRuns_eq (f : AField) (base step expected : Nat) (rs : List (BitVec 64 × Nat)) (i : Nat)
    (p : BitVec 64) (vals : List (BitVec 64)) (rest buf : List Byte) (he : i + runTotal rs ≤ expected)
    (hx : expected < 2 ^ 64) (hs : SubOK p vals) (hd : deltas p vals = expand rs)
    (hpos : ∀ r ∈ rs, 1 ≤ r.2) :
    decodeDeltaRleRuns f base step expected rs.length i p (dRleBytes rs ++ rest) buf =
      (applyWrites buf 0 (valWrites f.offset base step i (leBytes f.bpv vals)) >>=
        fun b => .ok (i + runTotal rs, rest, b)) := by
  induction rs generalizing i p vals buf with
  | nil =>
    have : vals = [] := by
      have := congrArg List.length hd
      rw [deltas_length] at this
      exact List.length_eq_zero_iff.1 (by simpa [expand] using this)
    subst this
    simp [decodeDeltaRleRuns, dRleBytes, leBytes, valWrites, applyWrites, runTotal]
  | cons r rs ih =>
    obtain ⟨d, n⟩ := r
    have ht : runTotal ((d, n) :: rs) = n + runTotal rs := by simp [runTotal]
    rw [ht] at he ⊢
    have hb : dRleBytes ((d, n) :: rs) ++ rest =
        encodeVarint64 d ++ (lebBytes (BitVec.ofNat 64 n) ++ (dRleBytes rs ++ rest)) := by
      simp [dRleBytes]
    have hexp : expand ((d, n) :: rs) = List.replicate n d ++ expand rs := rfl
    rw [hexp] at hd
    obtain ⟨a, b, rfl, ha, h1, h2⟩ := deltas_replicate_split p d n vals _ hd
    rw [subOK_append] at hs
    have hn1 := hpos (d, n) (by simp)
    simp only at hn1
    have hdm : d ≠ BitVec.intMin 64 := by
      apply subOK_deltas hs.1
      rw [h1]
      simp; omega
    rw [hb]
    simp only [List.length_cons, decodeDeltaRleRuns]
    rw [decodeVarint_encode _ _ hdm]
    simp only [Res.ok_bind, List.drop_left]
    rw [readUVarint_leb]
    simp only [Res.ok_bind]
    have hn : (BitVec.ofNat 64 n).toNat = n := by
      rw [BitVec.toNat_ofNat]; exact Nat.mod_eq_of_lt (by omega)
    have hsum : (BitVec.ofNat 64 i + BitVec.ofNat 64 n).toNat = i + n := by
      rw [BitVec.toNat_add, hn, BitVec.toNat_ofNat]; omega
    rw [hsum, if_neg (by omega), hn]
    rw [← ha] at h1
    rw [show n = a.length from ha.symm, writeDeltaRun_eq f base step d a i p buf hs.1 h1]
    simp only [Res.bind_assoc, Res.ok_bind]
    simp only [leBytes, List.map_append]
    rw [valWrites_append, applyWrites_append, Res.bind_assoc]
    congr 1
    funext b'
    rw [ih (i + a.length) (lastVal p a) b b' (by omega) hs.2 h2 (fun q hq => hpos q (by simp [hq]))]
    simp only [List.length_map, leBytes]
    congr 1
    funext b''
    congr 2; omega

end Cloudini
