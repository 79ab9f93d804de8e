import Verif.Model.Cloud
import Verif.Lemmas.ChunkV5

/-! The encoders and decoders built for an info match field by field. -/

namespace Cloudini

/-- Two descriptions of the same encoded field: only the place (and the name) may differ. -/
def SameKind (f g : PointField) : Prop := g.type = f.type ∧ g.resolution = f.resolution

def KnownType (t : FieldType) : Prop := match t with | .unknown | .bad _ => False | _ => True

instance (t : FieldType) : Decidable (KnownType t) := by unfold KnownType; cases t <;> infer_instance

/-- The bytes the decoder stores for a field. `lead`: handled by the vector codec. -/
def fieldVal (F : FloatOps) (opt : EncOpt) (lead : Bool) (f : PointField) (mem : List Byte) : List Byte :=
  match f.type, f.resolution with
  | .float32, some r =>
    if opt = .lossy then
      toLE 4 (if lead then lossyVVal F r (f32At mem f.offset.toNat) else lossy32Val F r (f32At mem f.offset.toNat)).toNat
    else sub mem f.offset.toNat 4
  | .float64, some r =>
    if opt = .lossy then toLE 8 (lossy64Val F r (f64At mem f.offset.toNat)).toNat else sub mem f.offset.toNat 8
  | t, _ => sub mem f.offset.toNat (sizeOf t)

/-- The field lies in the memory and its value follows the previous point's within the range of its codec. -/
def FieldGood (F : FloatOps) (opt : EncOpt) (lead : Bool) (f : PointField) (pm : Option (List Byte)) (mem : List Byte) : Prop :=
  f.offset.toNat + sizeOf f.type ≤ mem.length ∧
  match f.type, f.resolution with
  | .int16, _ => opt = .none ∨ Step64 (toI64 2 true (sub mem f.offset.toNat 2)) (keptI f.offset.toNat 2 true pm)
  | .uint16, _ => opt = .none ∨ Step64 (toI64 2 false (sub mem f.offset.toNat 2)) (keptI f.offset.toNat 2 false pm)
  | .int32, _ => opt = .none ∨ Step64 (toI64 4 true (sub mem f.offset.toNat 4)) (keptI f.offset.toNat 4 true pm)
  | .uint32, _ => opt = .none ∨ Step64 (toI64 4 false (sub mem f.offset.toNat 4)) (keptI f.offset.toNat 4 false pm)
  | .int64, _ => opt = .none ∨ Step64 (toI64 8 true (sub mem f.offset.toNat 8)) (keptI f.offset.toNat 8 true pm)
  | .uint64, _ => opt = .none ∨ Step64 (toI64 8 false (sub mem f.offset.toNat 8)) (keptI f.offset.toNat 8 false pm)
  | .float32, some r => opt = .lossy → isNaN32 (f32At mem f.offset.toNat) = true ∨
      (if lead then Step32 (F.quantV r (f32At mem f.offset.toNat)) (keptV F f.offset.toNat r pm)
       else ∃ q, F.quant32 r (f32At mem f.offset.toNat) = some q ∧ Step64 q (kept32 F f.offset.toNat r pm))
  | .float64, some r => opt = .lossy → isNaN64 (f64At mem f.offset.toNat) = true ∨
      ∃ q, F.quant64 r (f64At mem f.offset.toNat) = some q ∧ Step64 q (kept64 F f.offset.toNat r pm)
  | _, _ => True

/-- The resolution of a lossy float field is accepted by encoder and decoder. -/
def ResGood (F : FloatOps) (opt : EncOpt) (f : PointField) : Prop :=
  opt = .lossy → ∀ r, f.resolution = some r → F.resNonPos r = false ∧ F.invNonPos r = false

def maxSer (opt : EncOpt) (f : PointField) : Nat :=
  match maxSerializedFieldSize opt f with
  | .ok n => n
  | _ => 0

theorem maxSer_eq {opt : EncOpt} {f : PointField} (h : KnownType f.type) : maxSerializedFieldSize opt f = .ok (maxSer opt f) := by
  unfold maxSer
  unfold maxSerializedFieldSize
  cases hf : f.type <;> simp_all [KnownType] <;> split <;> split <;> simp_all

theorem maxSerializedPointSize_eq {opt : EncOpt} {fs : List PointField} (h : ∀ f ∈ fs, KnownType f.type) :
    maxSerializedPointSize opt fs = .ok ((fs.map (maxSer opt)).sum) := by
  induction fs with
  | nil => rfl
  | cons f fs ih =>
    simp only [maxSerializedPointSize, maxSer_eq (h f (by simp)), ih (fun x hx => h x (by simp [hx])), Res.ok_bind,
      List.map_cons, List.sum_cons]

/-- One field outside the vector group, option not NONE. -/
theorem build_one (F : FloatOps) (info dinfo : EncodingInfo) (f g : PointField) (hs : SameKind f g) (hk : KnownType f.type)
    (ho : dinfo.encoding_opt = info.encoding_opt) (hv : dinfo.version = info.version)
    (hopt : info.encoding_opt = .lossy ∨ info.encoding_opt = .lossless) (hr : ResGood F info.encoding_opt f) :
    ∃ e d, createEncoder F info f = .ok e ∧ createDecoder F dinfo g = .ok d ∧ Matches e d ∧
      (∀ mem, storeAll d.offs (e.vals F mem) = store g.offset.toNat (fieldVal F info.encoding_opt false f mem)) ∧
      e.maxBytes ≤ maxSer info.encoding_opt f ∧
      ∀ pm mem, FieldGood F info.encoding_opt false f pm mem → e.Good F pm mem := by
  obtain ⟨ht, hres⟩ := hs
  cases hf : f.type with
  | unknown => simp [hf, KnownType] at hk
  | bad c => simp [hf, KnownType] at hk
  | int8 =>
    refine ⟨.copy f.offset.toNat 1, .copy g.offset.toNat 1, by simp [createEncoder, hf], by simp [createDecoder, ht, hf], rfl, ?_, ?_, ?_⟩
    · intro mem; simp [Dec.offs, Enc.vals, storeAll, fieldVal, hf, sizeOf]
    · simp [Enc.maxBytes, maxSer, maxSerializedFieldSize, hf]
    · intro pm mem h; simpa [FieldGood, hf, sizeOf, Enc.Good] using h
  | uint8 =>
    refine ⟨.copy f.offset.toNat 1, .copy g.offset.toNat 1, by simp [createEncoder, hf], by simp [createDecoder, ht, hf], rfl, ?_, ?_, ?_⟩
    · intro mem; simp [Dec.offs, Enc.vals, storeAll, fieldVal, hf, sizeOf]
    · simp [Enc.maxBytes, maxSer, maxSerializedFieldSize, hf]
    · intro pm mem h; simpa [FieldGood, hf, sizeOf, Enc.Good] using h
  | int16 =>
    refine ⟨.int f.offset.toNat 2 true 0#64, .int g.offset.toNat 2 0#64, by simp [createEncoder, hf], by simp [createDecoder, ht, hf], ⟨rfl, rfl, by omega⟩, ?_, ?_, ?_⟩
    · intro mem; simp [Dec.offs, Enc.vals, storeAll, fieldVal, hf, sizeOf]
    · simp [Enc.maxBytes, maxSer, maxSerializedFieldSize, hf]
    · intro pm mem h
      simp only [FieldGood, hf, sizeOf] at h
      refine ⟨h.1, ?_⟩
      rcases h.2 with h2 | h2
      · rcases hopt with hopt | hopt <;> rw [hopt] at h2 <;> simp at h2
      · exact h2
  | uint16 =>
    refine ⟨.int f.offset.toNat 2 false 0#64, .int g.offset.toNat 2 0#64, by simp [createEncoder, hf], by simp [createDecoder, ht, hf], ⟨rfl, rfl, by omega⟩, ?_, ?_, ?_⟩
    · intro mem; simp [Dec.offs, Enc.vals, storeAll, fieldVal, hf, sizeOf]
    · simp [Enc.maxBytes, maxSer, maxSerializedFieldSize, hf]
    · intro pm mem h
      simp only [FieldGood, hf, sizeOf] at h
      refine ⟨h.1, ?_⟩
      rcases h.2 with h2 | h2
      · rcases hopt with hopt | hopt <;> rw [hopt] at h2 <;> simp at h2
      · exact h2
  | int32 =>
    refine ⟨.int f.offset.toNat 4 true 0#64, .int g.offset.toNat 4 0#64, by simp [createEncoder, hf], by simp [createDecoder, ht, hf], ⟨rfl, rfl, by omega⟩, ?_, ?_, ?_⟩
    · intro mem; simp [Dec.offs, Enc.vals, storeAll, fieldVal, hf, sizeOf]
    · simp [Enc.maxBytes, maxSer, maxSerializedFieldSize, hf]
    · intro pm mem h
      simp only [FieldGood, hf, sizeOf] at h
      refine ⟨h.1, ?_⟩
      rcases h.2 with h2 | h2
      · rcases hopt with hopt | hopt <;> rw [hopt] at h2 <;> simp at h2
      · exact h2
  | uint32 =>
    refine ⟨.int f.offset.toNat 4 false 0#64, .int g.offset.toNat 4 0#64, by simp [createEncoder, hf], by simp [createDecoder, ht, hf], ⟨rfl, rfl, by omega⟩, ?_, ?_, ?_⟩
    · intro mem; simp [Dec.offs, Enc.vals, storeAll, fieldVal, hf, sizeOf]
    · simp [Enc.maxBytes, maxSer, maxSerializedFieldSize, hf]
    · intro pm mem h
      simp only [FieldGood, hf, sizeOf] at h
      refine ⟨h.1, ?_⟩
      rcases h.2 with h2 | h2
      · rcases hopt with hopt | hopt <;> rw [hopt] at h2 <;> simp at h2
      · exact h2
  | int64 =>
    refine ⟨.int f.offset.toNat 8 true 0#64, .int g.offset.toNat 8 0#64, by simp [createEncoder, hf], by simp [createDecoder, ht, hf], ⟨rfl, rfl, by omega⟩, ?_, ?_, ?_⟩
    · intro mem; simp [Dec.offs, Enc.vals, storeAll, fieldVal, hf, sizeOf]
    · simp [Enc.maxBytes, maxSer, maxSerializedFieldSize, hf]
    · intro pm mem h
      simp only [FieldGood, hf, sizeOf] at h
      refine ⟨h.1, ?_⟩
      rcases h.2 with h2 | h2
      · rcases hopt with hopt | hopt <;> rw [hopt] at h2 <;> simp at h2
      · exact h2
  | uint64 =>
    refine ⟨.int f.offset.toNat 8 false 0#64, .int g.offset.toNat 8 0#64, by simp [createEncoder, hf], by simp [createDecoder, ht, hf], ⟨rfl, rfl, by omega⟩, ?_, ?_, ?_⟩
    · intro mem; simp [Dec.offs, Enc.vals, storeAll, fieldVal, hf, sizeOf]
    · simp [Enc.maxBytes, maxSer, maxSerializedFieldSize, hf]
    · intro pm mem h
      simp only [FieldGood, hf, sizeOf] at h
      refine ⟨h.1, ?_⟩
      rcases h.2 with h2 | h2
      · rcases hopt with hopt | hopt <;> rw [hopt] at h2 <;> simp at h2
      · exact h2
  | float32 =>
    cases hfr : f.resolution with
    | none =>
      rcases hopt with hopt | hopt
      · refine ⟨.copy f.offset.toNat 4, .copy g.offset.toNat 4, by simp [createEncoder, hf, hfr, hopt],
          by simp [createDecoder, ht, hf, hres, hfr, ho, hopt], rfl, ?_, ?_, ?_⟩
        · intro mem; simp [Dec.offs, Enc.vals, storeAll, fieldVal, hf, hfr, sizeOf]
        · simp [Enc.maxBytes, maxSer, maxSerializedFieldSize, hf, hfr]
        · intro pm mem h; simpa [FieldGood, hf, hfr, sizeOf, Enc.Good] using h
      · refine ⟨.xor f.offset.toNat 4 0#64, .xor g.offset.toNat 4 0#64, by simp [createEncoder, hf, hfr, hopt],
          by simp [createDecoder, ht, hf, hres, hfr, ho, hopt], ⟨rfl, rfl, by omega, by simp⟩, ?_, ?_, ?_⟩
        · intro mem; simp [Dec.offs, Enc.vals, storeAll, fieldVal, hf, hfr, sizeOf]
        · simp [Enc.maxBytes, maxSer, maxSerializedFieldSize, hf, hfr]
        · intro pm mem h; simpa [FieldGood, hf, hfr, sizeOf, Enc.Good] using h
    | some r =>
      rcases hopt with hopt | hopt
      · have hr' := hr hopt r hfr
        refine ⟨.lossy32 f.offset.toNat r 0#64, .lossy32 g.offset.toNat r 0#64,
          by simp [createEncoder, hf, hfr, hopt, mkLossy32Enc, hr'.1],
          by simp [createDecoder, ht, hf, hres, hfr, ho, hopt, mkLossy32Dec, hr'.1], ⟨rfl, rfl⟩, ?_, ?_, ?_⟩
        · intro mem; simp [Dec.offs, Enc.vals, storeAll, fieldVal, hf, hfr, hopt]
        · simp [Enc.maxBytes, maxSer, maxSerializedFieldSize, hf, hfr, hopt]
        · intro pm mem h
          simpa [FieldGood, hf, hfr, sizeOf, Enc.Good, hopt] using h
      · refine ⟨.xor f.offset.toNat 4 0#64, .xor g.offset.toNat 4 0#64, by simp [createEncoder, hf, hfr, hopt],
          by simp [createDecoder, ht, hf, hres, hfr, ho, hopt], ⟨rfl, rfl, by omega, by simp⟩, ?_, ?_, ?_⟩
        · intro mem; simp [Dec.offs, Enc.vals, storeAll, fieldVal, hf, hfr, hopt]
        · simp [Enc.maxBytes, maxSer, maxSerializedFieldSize, hf, hfr, hopt]
        · intro pm mem h
          simp only [FieldGood, hf, sizeOf] at h
          exact h.1
  | float64 =>
    cases hfr : f.resolution with
    | none =>
      by_cases hver : info.version ≥ 4#8
      · refine ⟨.gorilla f.offset.toNat 8 {}, .gorilla g.offset.toNat 8 {}, by simp [createEncoder, hf, hfr, hver],
          by simp [createDecoder, ht, hf, hres, hfr, hv, hver], ⟨rfl, rfl, Or.inr rfl, gorillaInv_init _⟩, ?_, ?_, ?_⟩
        · intro mem; simp [Dec.offs, Enc.vals, storeAll, fieldVal, hf, hfr, sizeOf]
        · simp [Enc.maxBytes, maxSer, maxSerializedFieldSize, hf, hfr]
        · intro pm mem h; simpa [FieldGood, hf, hfr, sizeOf, Enc.Good] using h
      · refine ⟨.xor f.offset.toNat 8 0#64, .xor g.offset.toNat 8 0#64, by simp [createEncoder, hf, hfr, hver],
          by simp [createDecoder, ht, hf, hres, hfr, hv, hver], ⟨rfl, rfl, by omega, by simp⟩, ?_, ?_, ?_⟩
        · intro mem; simp [Dec.offs, Enc.vals, storeAll, fieldVal, hf, hfr, sizeOf]
        · simp [Enc.maxBytes, maxSer, maxSerializedFieldSize, hf, hfr]
        · intro pm mem h; simpa [FieldGood, hf, hfr, sizeOf, Enc.Good] using h
    | some r =>
      rcases hopt with hopt | hopt
      · have hr' := hr hopt r hfr
        refine ⟨.lossy64 f.offset.toNat r 0#64, .lossy64 g.offset.toNat r 0#64,
          by simp [createEncoder, hf, hfr, hopt, mkLossy64Enc, hr'.1],
          by simp [createDecoder, ht, hf, hres, hfr, ho, hopt, mkLossy64Dec, hr'.1], ⟨rfl, rfl⟩, ?_, ?_, ?_⟩
        · intro mem; simp [Dec.offs, Enc.vals, storeAll, fieldVal, hf, hfr, hopt]
        · simp [Enc.maxBytes, maxSer, maxSerializedFieldSize, hf, hfr, hopt]
        · intro pm mem h
          simpa [FieldGood, hf, hfr, sizeOf, Enc.Good, hopt] using h
      · refine ⟨.xor f.offset.toNat 8 0#64, .xor g.offset.toNat 8 0#64, by simp [createEncoder, hf, hfr, hopt],
          by simp [createDecoder, ht, hf, hres, hfr, ho, hopt], ⟨rfl, rfl, by omega, by simp⟩, ?_, ?_, ?_⟩
        · intro mem; simp [Dec.offs, Enc.vals, storeAll, fieldVal, hf, hfr, hopt]
        · simp [Enc.maxBytes, maxSer, maxSerializedFieldSize, hf, hfr, hopt]
        · intro pm mem h
          simp only [FieldGood, hf, sizeOf] at h
          exact h.1

/-! ### lists of fields -/

/-- The stores for a list of fields. -/
def fieldWrites (F : FloatOps) (opt : EncOpt) (lead : Bool) (mem : List Byte) : List PointField → List PointField → List Write
  | f :: fs, g :: gs => store g.offset.toNat (fieldVal F opt lead f mem) ++ fieldWrites F opt lead mem fs gs
  | _, _ => []

theorem build_tail (F : FloatOps) (info dinfo : EncodingInfo) (fs gs : List PointField) (hs : All2 SameKind fs gs)
    (hk : ∀ f ∈ fs, KnownType f.type)
    (ho : dinfo.encoding_opt = info.encoding_opt) (hv : dinfo.version = info.version)
    (hopt : info.encoding_opt = .lossy ∨ info.encoding_opt = .lossless) (hr : ∀ f ∈ fs, ResGood F info.encoding_opt f) :
    ∃ es ds, buildAll (createEncoder F info) fs = .ok es ∧ buildAll (createDecoder F dinfo) gs = .ok ds ∧ MatchAll es ds ∧
      (∀ mem, pointWrites F mem es ds = fieldWrites F info.encoding_opt false mem fs gs) ∧
      sumMax es ≤ (fs.map (maxSer info.encoding_opt)).sum ∧
      ∀ pm mem, (∀ f ∈ fs, FieldGood F info.encoding_opt false f pm mem) → GoodAll F pm mem es := by
  induction fs generalizing gs with
  | nil =>
    cases gs with
    | nil => exact ⟨[], [], rfl, rfl, trivial, fun _ => rfl, by simp [sumMax], fun _ _ _ => by simp [GoodAll]⟩
    | cons => exact hs.elim
  | cons f fs ih =>
    cases gs with
    | nil => exact hs.elim
    | cons g gs =>
      obtain ⟨e, d, a1, a2, a3, a4, a5, a6⟩ := build_one F info dinfo f g hs.1 (hk f (by simp)) ho hv hopt (hr f (by simp))
      obtain ⟨es, ds, b1, b2, b3, b4, b5, b6⟩ := ih gs hs.2 (fun x hx => hk x (by simp [hx])) (fun x hx => hr x (by simp [hx]))
      refine ⟨e :: es, d :: ds, ?_, ?_, ⟨a3, b3⟩, ?_, ?_, ?_⟩
      · simp only [buildAll, a1, b1, Res.ok_bind]
      · simp only [buildAll, a2, b2, Res.ok_bind]
      · intro mem; simp only [pointWrites, fieldWrites, a4, b4]
      · simp only [sumMax, List.map_cons, List.sum_cons] at b5 ⊢; omega
      · intro pm mem h x hx
        simp only [List.mem_cons] at hx
        rcases hx with rfl | hx
        · exact a6 pm mem (h f (by simp))
        · exact b6 pm mem (fun y hy => h y (by simp [hy])) x hx

theorem build_none (F : FloatOps) (fs gs : List PointField) (hs : All2 SameKind fs gs) (hk : ∀ f ∈ fs, KnownType f.type) :
    MatchAll (fs.map fun f => Enc.copy f.offset.toNat (sizeOf f.type)) (gs.map fun f => Dec.copy f.offset.toNat (sizeOf f.type)) ∧
      (∀ mem, pointWrites F mem (fs.map fun f => Enc.copy f.offset.toNat (sizeOf f.type))
        (gs.map fun f => Dec.copy f.offset.toNat (sizeOf f.type)) = fieldWrites F .none false mem fs gs) ∧
      sumMax (fs.map fun f => Enc.copy f.offset.toNat (sizeOf f.type)) ≤ (fs.map (maxSer .none)).sum ∧
      (∀ pm mem, (∀ f ∈ fs, FieldGood F .none false f pm mem) → GoodAll F pm mem (fs.map fun f => Enc.copy f.offset.toNat (sizeOf f.type))) ∧
      (gs.map fun f => sizeOf f.type).sum = sumMin (gs.map fun f => Dec.copy f.offset.toNat (sizeOf f.type)) := by
  induction fs generalizing gs with
  | nil =>
    cases gs with
    | nil => exact ⟨trivial, fun _ => rfl, by simp [sumMax], fun _ _ _ => by simp [GoodAll], rfl⟩
    | cons => exact hs.elim
  | cons f fs ih =>
    cases gs with
    | nil => exact hs.elim
    | cons g gs =>
      obtain ⟨b1, b2, b3, b4, b5⟩ := ih gs hs.2 (fun x hx => hk x (by simp [hx]))
      have hkf := hk f (by simp)
      refine ⟨⟨by simp [Matches, hs.1.1], b1⟩, ?_, ?_, ?_, ?_⟩
      · intro mem
        simp only [List.map_cons, pointWrites, fieldWrites, b2, Dec.offs, Enc.vals, storeAll, List.append_nil]
        congr 2
        unfold fieldVal
        cases hf : f.type <;> cases hfr : f.resolution <;> simp_all [sizeOf]
      · simp only [sumMax, List.map_cons, List.sum_cons] at b3 ⊢
        have : (Enc.copy f.offset.toNat (sizeOf f.type)).maxBytes ≤ maxSer .none f := by
          unfold maxSer maxSerializedFieldSize
          cases hf : f.type <;> simp_all [Enc.maxBytes, sizeOf, KnownType]
        omega
      · intro pm mem h x hx
        simp only [List.map_cons, List.mem_cons] at hx
        rcases hx with rfl | hx
        · exact (h f (by simp)).1
        · exact b4 pm mem (fun y hy => h y (by simp [hy])) x hx
      · simp only [sumMin, List.map_cons, List.sum_cons, b5, Dec.minInputBytes]

/-! ### the vector group -/

theorem leadingFloats_le (fs : List PointField) : leadingFloats fs ≤ fs.length := by
  induction fs with
  | nil => simp [leadingFloats]
  | cons f fs ih => simp only [leadingFloats]; split <;> simp; omega

theorem leadingFloats_take (fs : List PointField) : ∀ f ∈ fs.take (leadingFloats fs), f.type = .float32 ∧ f.resolution.isSome := by
  induction fs with
  | nil => simp
  | cons f fs ih =>
    simp only [leadingFloats]
    split
    · next h =>
      intro x hx
      simp only [List.take_succ_cons, List.mem_cons] at hx
      rcases hx with rfl | hx
      · exact h
      · exact ih x hx
    · simp

theorem leadingFloats_same {fs gs : List PointField} (h : All2 SameKind fs gs) : leadingFloats gs = leadingFloats fs := by
  induction fs generalizing gs with
  | nil => cases gs <;> simp_all [All2]
  | cons f fs ih =>
    cases gs with
    | nil => exact h.elim
    | cons g gs => simp only [leadingFloats, h.1.1, h.1.2, ih h.2]

theorem leadCount_le (info : EncodingInfo) : leadingLossyFloatCount info ≤ info.fields.length := by
  have := leadingFloats_le info.fields
  unfold leadingLossyFloatCount
  split
  · simp only; split <;> omega
  · omega

theorem leadCount_take (info : EncodingInfo) : ∀ f ∈ info.fields.take (leadingLossyFloatCount info),
    info.encoding_opt = .lossy ∧ f.type = .float32 ∧ f.resolution.isSome := by
  intro f hf
  unfold leadingLossyFloatCount at hf
  by_cases h : info.encoding_opt = .lossy
  · rw [if_pos h] at hf
    simp only at hf
    by_cases h2 : leadingFloats info.fields = 3 ∨ leadingFloats info.fields = 4
    · rw [if_pos h2] at hf
      exact ⟨h, leadingFloats_take _ f hf⟩
    · rw [if_neg h2] at hf; simp at hf
  · rw [if_neg h] at hf; simp at hf

theorem leadCount_same {info dinfo : EncodingInfo} (h : All2 SameKind info.fields dinfo.fields)
    (ho : dinfo.encoding_opt = info.encoding_opt) : leadingLossyFloatCount dinfo = leadingLossyFloatCount info := by
  unfold leadingLossyFloatCount
  rw [ho, leadingFloats_same h]

theorem all2_take {α β : Type} {R : α → β → Prop} {as : List α} {bs : List β} (h : All2 R as bs) (n : Nat) :
    All2 R (as.take n) (bs.take n) ∧ All2 R (as.drop n) (bs.drop n) := by
  induction as generalizing bs n with
  | nil => cases bs <;> simp_all [All2]
  | cons a as ih =>
    cases bs with
    | nil => exact h.elim
    | cons b bs =>
      cases n with
      | zero => exact ⟨trivial, h⟩
      | succ n => exact ⟨⟨h.1, (ih h.2 n).1⟩, (ih h.2 n).2⟩

theorem all2_filter {fs gs : List PointField} (h : All2 SameKind fs gs) (p : FieldType → Bool) :
    All2 SameKind (fs.filter fun f => p f.type) (gs.filter fun f => p f.type) := by
  induction fs generalizing gs with
  | nil => cases gs <;> simp_all [All2]
  | cons f fs ih =>
    cases gs with
    | nil => exact h.elim
    | cons g gs =>
      simp only [List.filter_cons, h.1.1]
      split
      · exact ⟨h.1, ih h.2⟩
      · exact ih h.2

theorem build_lead (F : FloatOps) (fs gs : List PointField) (hs : All2 SameKind fs gs)
    (hl : ∀ f ∈ fs, f.type = .float32 ∧ f.resolution.isSome) (hr : ∀ f ∈ fs, ResGood F .lossy f) :
    mkFloatNEnc F fs = .ok (.floatN (lanesOf fs)) ∧ mkFloatNDec F gs = .ok (.floatN (lanesOf gs)) ∧
      LanesMatch (lanesOf fs) (lanesOf gs) ∧
      (∀ mem, storeAll ((lanesOf gs).map (·.off)) ((lanesOf fs).map fun l => toLE 4 (lossyVVal F l.res (f32At mem l.off)).toNat) =
        fieldWrites F .lossy true mem fs gs) ∧
      (Enc.floatN (lanesOf fs)).maxBytes ≤ (fs.map (maxSer .lossy)).sum ∧
      ∀ pm mem, (∀ f ∈ fs, FieldGood F .lossy true f pm mem) → ∀ l ∈ lanesOf fs, l.off + 4 ≤ mem.length ∧
        (isNaN32 (f32At mem l.off) = true ∨ Step32 (F.quantV l.res (f32At mem l.off)) (keptV F l.off l.res pm)) := by
  have h1 : ∀ f ∈ fs, ∃ r, f.resolution = some r ∧ F.resNonPos r = false ∧ F.invNonPos r = false := by
    intro f hf
    obtain ⟨r, hr'⟩ := Option.isSome_iff_exists.1 (hl f hf).2
    exact ⟨r, hr', hr f hf rfl r hr'⟩
  have h2 : (lanesOf fs).any (fun l => F.invNonPos l.res) = false := by
    rw [List.any_eq_false]
    intro l hlm
    simp only [lanesOf, List.mem_map] at hlm
    obtain ⟨f, hf, rfl⟩ := hlm
    obtain ⟨r, e1, e2, e3⟩ := h1 f hf
    simp [e1, e3]
  have h3 : (lanesOf gs).any (fun l => F.resNonPos l.res) = false := by
    rw [List.any_eq_false]
    intro l hlm
    simp only [lanesOf, List.mem_map] at hlm
    obtain ⟨g, hg, rfl⟩ := hlm
    obtain ⟨f, hf, hsk⟩ := all2_mem_right hs g hg
    obtain ⟨r, e1, e2, e3⟩ := h1 f hf
    simp [hsk.2, e1, e2]
  refine ⟨by unfold mkFloatNEnc; rw [h2]; rfl, by unfold mkFloatNDec; rw [h3]; rfl, ?_, ?_, ?_, ?_⟩
  · clear h1 h2 h3 hl hr
    induction fs generalizing gs with
    | nil => cases gs <;> simp_all [All2, lanesOf, LanesMatch]
    | cons f fs ih =>
      cases gs with
      | nil => exact hs.elim
      | cons g gs => exact ⟨by simp [hs.1.2], rfl, ih gs hs.2⟩
  · intro mem
    clear h2 h3 hr
    induction fs generalizing gs with
    | nil => cases gs <;> simp_all [All2, lanesOf, storeAll, fieldWrites]
    | cons f fs ih =>
      cases gs with
      | nil => exact hs.elim
      | cons g gs =>
        obtain ⟨r, e1, _⟩ := h1 f (by simp)
        have := ih gs hs.2 (fun x hx => hl x (by simp [hx])) (fun x hx => h1 x (by simp [hx]))
        simp only [lanesOf] at this
        simp only [lanesOf, List.map_cons, storeAll, fieldWrites, this]
        congr 2
        simp [fieldVal, (hl f (by simp)).1, e1]
  · clear h2 h3 hs h1 hr
    have : (fs.map (maxSer .lossy)).sum = 10 * fs.length := by
      induction fs with
      | nil => rfl
      | cons f fs ih =>
        have hf := hl f (by simp)
        simp only [List.map_cons, List.sum_cons, List.length_cons, ih (fun x hx => hl x (by simp [hx]))]
        have : maxSer .lossy f = 10 := by simp [maxSer, maxSerializedFieldSize, hf.1, hf.2]
        omega
    rw [this]
    simp only [Enc.maxBytes, lanesOf, List.length_map]
    omega
  · intro pm mem hg l hlm
    simp only [lanesOf, List.mem_map] at hlm
    obtain ⟨f, hf, rfl⟩ := hlm
    obtain ⟨r, e1, _⟩ := h1 f hf
    have := hg f hf
    simp only [FieldGood, (hl f hf).1, e1, sizeOf] at this
    simpa [e1] using this

/-! ### whole plans -/

/-- What is assumed of the two descriptions of a cloud: the one it was encoded with and the one it is decoded with. -/
structure Agree (F : FloatOps) (info dinfo : EncodingInfo) : Prop where
  same : All2 SameKind info.fields dinfo.fields
  opt : dinfo.encoding_opt = info.encoding_opt
  version : dinfo.version = info.version
  comp : dinfo.compression_opt = info.compression_opt
  known : ∀ f ∈ info.fields, KnownType f.type
  option : info.encoding_opt = .none ∨ info.encoding_opt = .lossy ∨ info.encoding_opt = .lossless
  res : ∀ f ∈ info.fields, ResGood F info.encoding_opt f

theorem filter_yes {α : Type} (l : List α) : (l.filter fun _ => true) = l := by
  induction l with
  | nil => rfl
  | cons a l ih => simp [ih]

/-- All stores for one point, vector group first. -/
def stores (F : FloatOps) (info : EncodingInfo) (p : FieldType → Bool) (mem : List Byte) (fs gs : List PointField) : List Write :=
  fieldWrites F info.encoding_opt true mem (fs.take (leadingLossyFloatCount info)) (gs.take (leadingLossyFloatCount info)) ++
  fieldWrites F info.encoding_opt false mem ((fs.drop (leadingLossyFloatCount info)).filter fun f => p f.type)
    ((gs.drop (leadingLossyFloatCount info)).filter fun f => p f.type)

/-- All fields of a point are good. -/
def PointGood (F : FloatOps) (info : EncodingInfo) (pm : Option (List Byte)) (mem : List Byte) : Prop :=
  (∀ f ∈ info.fields.take (leadingLossyFloatCount info), FieldGood F info.encoding_opt true f pm mem) ∧
  (∀ f ∈ info.fields.drop (leadingLossyFloatCount info), FieldGood F info.encoding_opt false f pm mem)

theorem build_regular (F : FloatOps) (info dinfo : EncodingInfo) (h : Agree F info dinfo) (hn : info.encoding_opt ≠ .none)
    (p : FieldType → Bool) :
    ∃ le ld es ds, leadingEncoder F info = .ok le ∧ leadingDecoder F dinfo = .ok ld ∧
      buildAll (createEncoder F info) ((info.fields.drop (leadingLossyFloatCount info)).filter fun f => p f.type) = .ok es ∧
      buildAll (createDecoder F dinfo) ((dinfo.fields.drop (leadingLossyFloatCount dinfo)).filter fun f => p f.type) = .ok ds ∧
      MatchAll (le ++ es) (ld ++ ds) ∧
      (∀ mem, pointWrites F mem (le ++ es) (ld ++ ds) = stores F info p mem info.fields dinfo.fields) ∧
      sumMax (le ++ es) ≤ ((info.fields.take (leadingLossyFloatCount info)).map (maxSer info.encoding_opt)).sum +
        (((info.fields.drop (leadingLossyFloatCount info)).filter fun f => p f.type).map (maxSer info.encoding_opt)).sum ∧
      ∀ pm mem, PointGood F info pm mem → GoodAll F pm mem (le ++ es) := by
  have hlc := leadCount_same h.same h.opt
  have hopt : info.encoding_opt = .lossy ∨ info.encoding_opt = .lossless := by
    rcases h.option with h | h | h
    · exact absurd h hn
    · exact Or.inl h
    · exact Or.inr h
  have hmem : ∀ f, f ∈ ((info.fields.drop (leadingLossyFloatCount info)).filter fun f => p f.type) →
      f ∈ info.fields.drop (leadingLossyFloatCount info) := fun f hf => (List.mem_filter.1 hf).1
  obtain ⟨es, ds, t1, t2, t3, t4, t5, t6⟩ := build_tail F info dinfo _ _
    (all2_filter (all2_take h.same (leadingLossyFloatCount info)).2 p)
    (fun f hf => h.known f (List.mem_of_mem_drop (hmem f hf))) h.opt h.version hopt
    (fun f hf => h.res f (List.mem_of_mem_drop (hmem f hf)))
  rw [← hlc] at t2
  by_cases hz : leadingLossyFloatCount info = 0
  · refine ⟨[], [], es, ds, ?_, ?_, t1, t2, t3, ?_, ?_, ?_⟩
    · unfold leadingEncoder; simp [hz]
    · unfold leadingDecoder; simp [hlc, hz]
    · intro mem
      simp only [List.nil_append, t4, stores, hz, List.take_zero]
      rfl
    · simp only [List.nil_append]; omega
    · intro pm mem hg
      exact t6 pm mem (fun f hf => hg.2 f (hmem f hf))
  · have hlt := leadCount_take info
    have hle := leadCount_le info
    have hne : info.fields.take (leadingLossyFloatCount info) ≠ [] := by
      intro hh
      have := congrArg List.length hh
      rw [List.length_take, List.length_nil] at this
      omega
    have hlossy : info.encoding_opt = .lossy := by
      cases hx : info.fields.take (leadingLossyFloatCount info) with
      | nil => exact absurd hx hne
      | cons f fs => exact (hlt f (by rw [hx]; simp)).1
    obtain ⟨l1, l2, l3, l4, l5, l6⟩ := build_lead F _ _ (all2_take h.same (leadingLossyFloatCount info)).1
      (fun f hf => (hlt f hf).2) (fun f hf => hlossy ▸ h.res f (List.mem_of_mem_take hf))
    refine ⟨[.floatN (lanesOf (info.fields.take (leadingLossyFloatCount info)))],
      [.floatN (lanesOf (dinfo.fields.take (leadingLossyFloatCount info)))], es, ds, ?_, ?_, t1, t2, ⟨⟨?_, l3⟩, t3⟩, ?_, ?_, ?_⟩
    · unfold leadingEncoder
      simp only
      rw [if_neg hz, l1]; rfl
    · unfold leadingDecoder
      simp only
      rw [hlc, if_neg hz, l2]; rfl
    · intro hh
      apply hne
      simpa [lanesOf] using hh
    · intro mem
      simp only [List.cons_append, List.nil_append, pointWrites, Dec.offs, Enc.vals, t4, l4, stores, hlossy]
    · simp only [sumMax, List.cons_append, List.nil_append, List.map_cons, List.sum_cons] at t5 l5 ⊢
      rw [← hlossy] at l5
      omega
    · intro pm mem hg x hx
      simp only [List.cons_append, List.nil_append, List.mem_cons] at hx
      rcases hx with rfl | hx
      · have hl := l6 pm mem (fun f hf => hlossy ▸ hg.1 f hf)
        refine ⟨?_, hl⟩
        intro _
        cases hx : lanesOf (info.fields.take (leadingLossyFloatCount info)) with
        | nil => exact absurd (by simpa [lanesOf] using hx) hne
        | cons l ls =>
          have := (hl l (by rw [hx]; simp)).1
          omega
      · exact t6 pm mem (fun f hf => hg.2 f (hmem f hf)) x hx

theorem sum_take_drop (fs : List PointField) (n : Nat) (m : PointField → Nat) :
    ((fs.take n).map m).sum + ((fs.drop n).map m).sum = (fs.map m).sum := by
  rw [← List.sum_append, ← List.map_append, List.take_append_drop]

/-- The V4 plan. -/
theorem build_v4 (F : FloatOps) (info dinfo : EncodingInfo) (h : Agree F info dinfo) :
    ∃ es ds min, buildV4Encoders F info = .ok es ∧ buildV4Decoders F dinfo = .ok (ds, min) ∧ min = sumMin ds ∧
      MatchAll es ds ∧
      (∀ mem, pointWrites F mem es ds = stores F info (fun _ => true) mem info.fields dinfo.fields) ∧
      sumMax es ≤ (info.fields.map (maxSer info.encoding_opt)).sum ∧
      ∀ pm mem, PointGood F info pm mem → GoodAll F pm mem es := by
  by_cases hn : info.encoding_opt = .none
  · obtain ⟨b1, b2, b3, b4, b5⟩ := build_none F _ _ h.same h.known
    have hz : leadingLossyFloatCount info = 0 := by simp [leadingLossyFloatCount, hn]
    refine ⟨_, _, _, by unfold buildV4Encoders; rw [if_pos hn], by unfold buildV4Decoders; rw [if_pos (by rw [h.opt, hn])],
      b5, b1, ?_, by rw [hn]; exact b3, ?_⟩
    · intro mem
      rw [b2]
      simp only [stores, hz, hn, List.take_zero, List.drop_zero, filter_yes]
      rfl
    · intro pm mem hg
      apply b4 pm
      have := hg.2
      rwa [hz, hn, List.drop_zero] at this
  · obtain ⟨le, ld, es, ds, t1, t2, t3, t4, t5, t6, t7, t8⟩ := build_regular F info dinfo h hn (fun _ => true)
    simp only [filter_yes] at t3 t4 t7
    refine ⟨le ++ es, ld ++ ds, sumMin (ld ++ ds), ?_, ?_, rfl, t5, t6, ?_, t8⟩
    · unfold buildV4Encoders; rw [if_neg hn, t1]; simp only [Res.ok_bind, t3]
    · unfold buildV4Decoders; rw [if_neg (by rw [h.opt]; exact hn), t2]; simp only [Res.ok_bind, t4]; rfl
    · rw [← sum_take_drop info.fields (leadingLossyFloatCount info)]; exact t7

/-- The V5 plan. -/
theorem build_v5 (F : FloatOps) (info dinfo : EncodingInfo) (h : Agree F info dinfo) (hl : info.encoding_opt = .lossy) :
    ∃ es ds, buildV5Plan F info = .ok (es, ((info.fields.drop (leadingLossyFloatCount info)).filter fun f =>
        isAdaptiveType f.type).map mkAField) ∧ buildV5Decoders F dinfo = .ok ds ∧
      MatchAll es ds ∧
      (∀ mem, pointWrites F mem es ds = stores F info (fun t => !isAdaptiveType t) mem info.fields dinfo.fields) ∧
      sumMax es + 10 * ((info.fields.drop (leadingLossyFloatCount info)).filter fun f => isAdaptiveType f.type).length ≤
        (info.fields.map (maxSer info.encoding_opt)).sum ∧
      ∀ pm mem, PointGood F info pm mem → GoodAll F pm mem es := by
  obtain ⟨le, ld, es, ds, t1, t2, t3, t4, t5, t6, t7, t8⟩ := build_regular F info dinfo h (by simp [hl])
    (fun t => !isAdaptiveType t)
  refine ⟨le ++ es, ld ++ ds, ?_, ?_, t5, t6, ?_, t8⟩
  · unfold buildV5Plan
    rw [t1]
    simp only [hl, decide_true, Bool.true_and, Res.ok_bind, t3]
  · unfold buildV5Decoders
    rw [t2]
    simp only [Res.ok_bind, t4]
  · rw [← sum_take_drop info.fields (leadingLossyFloatCount info)]
    have : ∀ fs : List PointField, ((fs.filter fun f => !isAdaptiveType f.type).map (maxSer info.encoding_opt)).sum +
        10 * (fs.filter fun f => isAdaptiveType f.type).length = (fs.map (maxSer info.encoding_opt)).sum := by
      intro fs
      induction fs with
      | nil => rfl
      | cons f fs ih =>
        by_cases ha : isAdaptiveType f.type = true
        · have h10 : maxSer info.encoding_opt f = 10 := by
            unfold maxSer maxSerializedFieldSize
            cases hf : f.type <;> simp_all [isAdaptiveType]
          simp only [List.filter_cons, ha, Bool.not_true, Bool.false_eq_true, if_false, if_true, List.length_cons,
            List.map_cons, List.sum_cons]
          omega
        · have ha' : isAdaptiveType f.type = false := by simpa using ha
          simp only [List.filter_cons, ha', Bool.not_false, Bool.false_eq_true, if_false, if_true,
            List.map_cons, List.sum_cons]
          omega
    have := this (info.fields.drop (leadingLossyFloatCount info))
    omega

end Cloudini
