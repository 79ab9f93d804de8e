import Verif.Model.Decoder
import Verif.Props.C79

/-!
# C80: a decoder object can be reused

`Decoder.decode` is `PointcloudDecoder::decode` with its object; `decodeCloud` is the function of the arguments used everywhere else.
-/

namespace Cloudini.Props

open Cloudini.Decoder

theorem grow_length (b : List Byte) (n : Nat) : (grow b n).length = max b.length n := by
  unfold grow; rw [List.length_append, List.length_replicate]; omega

theorem overwrite_length (b x : List Byte) : (overwrite b x).length = b.length := by
  unfold overwrite; rw [List.length_take, List.length_append, List.length_drop]; omega

theorem overwrite_take {b x : List Byte} (h : x.length ≤ b.length) : (overwrite b x).take x.length = x := by
  unfold overwrite
  rw [List.take_take, Nat.min_eq_left h, List.take_left]

/-- The view of a decompressed chunk, whatever the buffer held. -/
theorem decompress_view {C : Compressor} (hC : C.Lawful) {junk : List Byte → List Byte} {limit : Nat} {opt : CompOpt} {chunk buffer : List Byte} {lim : Nat}
    (hl : opt = .none ∨ lim ≤ limit) : (decompress C junk limit opt chunk buffer lim).2 = decompressChunk C opt chunk lim := by
  unfold decompress decompressChunk
  cases opt with
  | none => rfl
  | bad n => rfl
  | lz4 =>
    have hl := hl.resolve_left (by simp)
    simp only
    by_cases h1 : chunk.length > intMax ∨ lim > intMax
    · rw [if_pos h1, if_pos h1]
    · rw [if_neg h1, if_neg h1, if_neg (by omega)]
      cases h2 : C.decompress .lz4 chunk lim with
      | none => rfl
      | some x =>
        simp only
        rw [overwrite_take (by rw [grow_length]; have := hC.decompress_fits _ _ _ _ h2; omega)]
  | zstd =>
    have hl := hl.resolve_left (by simp)
    simp only
    rw [if_neg (by omega)]
    cases h2 : C.decompress .zstd chunk lim with
    | none => rfl
    | some x =>
      simp only
      rw [overwrite_take (by rw [grow_length]; have := hC.decompress_fits _ _ _ _ h2; omega)]

theorem decompress_buffer {C : Compressor} {junk : List Byte → List Byte} {limit : Nat} {opt : CompOpt} {chunk buffer : List Byte} {lim : Nat} :
    (decompress C junk limit opt chunk buffer lim).1.length = buffer.length ∨
    (opt ≠ .none ∧ lim ≤ limit ∧ (decompress C junk limit opt chunk buffer lim).1.length = max buffer.length lim) := by
  unfold decompress
  cases opt with
  | none => exact .inl rfl
  | bad n => exact .inl rfl
  | lz4 =>
    simp only
    by_cases h1 : chunk.length > intMax ∨ lim > intMax
    · rw [if_pos h1]; exact .inl rfl
    · rw [if_neg h1]
      by_cases h2 : buffer.length < lim ∧ limit < lim
      · rw [if_pos h2]; exact .inl rfl
      · rw [if_neg h2]
        by_cases h3 : buffer.length < lim
        · right
          refine ⟨by simp, by omega, ?_⟩
          cases C.decompress .lz4 chunk lim <;> simp only <;> rw [overwrite_length, grow_length]
        · left
          cases C.decompress .lz4 chunk lim <;> simp only <;> rw [overwrite_length, grow_length] <;> omega
  | zstd =>
    simp only
    by_cases h2 : buffer.length < lim ∧ limit < lim
    · rw [if_pos h2]; exact .inl rfl
    · rw [if_neg h2]
      by_cases h3 : buffer.length < lim
      · right
        refine ⟨by simp, by omega, ?_⟩
        cases C.decompress .zstd chunk lim <;> simp only <;> rw [overwrite_length, grow_length]
      · left
        cases C.decompress .zstd chunk lim <;> simp only <;> rw [overwrite_length, grow_length] <;> omega

theorem chunk_same {F : FloatOps} {C : Compressor} (hC : C.Lawful) {junk : List Byte → List Byte} {limit fuel : Nat} {info : EncodingInfo} {obj : Obj}
    {data buf : List Byte} {base expected : Nat} (hl : info.compression_opt = .none ∨ maxDecompressed info ≤ limit) :
    (Decoder.chunk F C junk limit fuel info obj data buf base expected).2 =
      (decodeChunk F C fuel info obj.decoders obj.min data buf base expected).bind (fun r => .ok (r.2.1, r.2.2)) ∧
    ∀ r, decodeChunk F C fuel info obj.decoders obj.min data buf base expected = .ok r →
      (Decoder.chunk F C junk limit fuel info obj data buf base expected).1.decoders = r.1 ∧
      (Decoder.chunk F C junk limit fuel info obj data buf base expected).1.min = obj.min := by
  have hv := decompress_view hC (junk := junk) (chunk := data) (buffer := obj.buffer) hl
  unfold Decoder.chunk decodeChunk
  simp only
  rw [hv]
  cases h1 : decompressChunk C info.compression_opt data (maxDecompressed info) with
  | throw e => exact ⟨rfl, fun r h => by simp at h⟩
  | ub k => exact ⟨rfl, fun r h => by simp at h⟩
  | ok view =>
    simp only [Res.ok_bind]
    by_cases hu : usesV5 info = true
    · simp only [if_pos hu]
      cases h2 : decodeV5Chunk F obj.decoders (getAdaptiveFields info) info.point_step.toNat expected view buf base with
      | throw e => exact ⟨rfl, fun r h => by simp at h⟩
      | ub k => exact ⟨rfl, fun r h => by simp at h⟩
      | ok r => exact ⟨rfl, fun r' h => by simp only [Res.ok.injEq] at h; rw [← h]; exact ⟨rfl, rfl⟩⟩
    · simp only [if_neg hu]
      cases h2 : decodeV4Chunk F fuel obj.decoders obj.min info.point_step.toNat expected view buf base with
      | throw e => exact ⟨rfl, fun r h => by simp at h⟩
      | ub k => exact ⟨rfl, fun r h => by simp at h⟩
      | ok r => exact ⟨rfl, fun r' h => by simp only [Res.ok.injEq] at h; rw [← h]; exact ⟨rfl, rfl⟩⟩

theorem loop_same {F : FloatOps} {C : Compressor} (hC : C.Lawful) {junk : List Byte → List Byte} {limit : Nat} {info : EncodingInfo}
    (hl : info.compression_opt = .none ∨ maxDecompressed info ≤ limit) : ∀ (n points : Nat), points ≤ n → ∀ (obj : Obj) (data buf : List Byte) (base : Nat),
    (Decoder.loop F C junk limit info points obj data buf base).2 = decodeLoop F C info obj.min points obj.decoders data buf base := by
  intro n
  induction n with
  | zero =>
    intro points hp obj data buf base
    unfold Decoder.loop decodeLoop
    have : points = 0 := by omega
    subst this
    split <;> rfl
  | succ n ih =>
    intro points hp obj data buf base
    unfold Decoder.loop decodeLoop
    by_cases h0 : data.length = 0
    · rw [if_pos h0, if_pos h0]
    · rw [if_neg h0, if_neg h0]
      by_cases h1 : points = 0
      · rw [dif_pos h1, dif_pos h1]
      · rw [dif_neg h1, dif_neg h1]
        cases h2 : decodeInt 4 data with
        | throw e => rfl
        | ub k => rfl
        | ok r =>
          obtain ⟨size, rest⟩ := r
          simp only [Res.ok_bind]
          by_cases h3 : size > rest.length
          · rw [if_pos h3, if_pos h3]
          · rw [if_neg h3, if_neg h3]
            obtain ⟨e1, e2⟩ := chunk_same hC (F := F) (junk := junk) (limit := limit) (fuel := 0) (obj := obj) (data := rest.take size) (buf := buf)
              (base := base) (expected := Min.min points kPointsPerChunk) hl
            rw [e1]
            cases h4 : decodeChunk F C 0 info obj.decoders obj.min (rest.take size) buf base (Min.min points kPointsPerChunk) with
            | throw e => rfl
            | ub k => rfl
            | ok r =>
              obtain ⟨ds, buf', base'⟩ := r
              simp only [Res.ok_bind]
              have := ih (points - Min.min points kPointsPerChunk) (by simp only [kPointsPerChunk]; omega)
                (Decoder.chunk F C junk limit 0 info obj (rest.take size) buf base (Min.min points kPointsPerChunk)).1 (rest.drop size) buf' base'
              change (Decoder.loop F C junk limit info _ _ _ buf' base').2 = _
              rw [this, (e2 _ h4).1, (e2 _ h4).2]

/-- **C80, reuse.** Whatever state the decoder is in — whatever it decoded before, whether that succeeded or not, and however large its buffer has become — decoding
has the outcome it would have with a new decoder. -/
theorem C80_reuse (F : FloatOps) (C : Compressor) (hC : C.Lawful) (junk : List Byte → List Byte) (limit fuel : Nat) (obj : Obj) (info : EncodingInfo)
    (data buf : List Byte) (hl : info.compression_opt = .none ∨ info.width.toNat * info.height.toNat * info.point_step.toNat ≤ limit) :
    (Decoder.decode F C junk limit fuel obj info data buf).2 = decodeCloud F C fuel info data buf := by
  have hl : info.compression_opt = .none ∨ maxDecompressed info ≤ limit := hl.imp_right fun h => Nat.le_trans (Nat.mod_le _ _) h
  unfold Decoder.decode decodeCloud update
  simp only
  cases h1 : buildDecoders F info with
  | throw e => rfl
  | ub k => rfl
  | ok r =>
    obtain ⟨ds, m⟩ := r
    simp only [Res.ok_bind, List.nil_append, Nat.zero_add]
    by_cases h2 : data.take 10 = magic
    · rw [if_pos h2, if_pos h2]
    · rw [if_neg h2, if_neg h2]
      by_cases h3 : info.version ≥ 3#8
      · rw [if_pos h3, if_pos h3]
        exact loop_same hC hl _ _ (Nat.le_refl _) _ _ _ _
      · rw [if_neg h3, if_neg h3]
        obtain ⟨e1, _⟩ := chunk_same hC (F := F) (junk := junk) (limit := limit) (fuel := fuel) (info := info)
          (obj := { decoders := ds, min := m, buffer := obj.buffer }) (data := data) (buf := buf) (base := 0) (expected := 0) hl
        rw [e1]
        cases decodeChunk F C fuel info ds m data buf 0 0 with
        | throw e => rfl
        | ub k => rfl
        | ok r => rfl

/-- What a call gives with a new decoder. -/
def alone (F : FloatOps) (C : Compressor) (limit : Nat) (c : Call) : Res (List Byte) :=
  if c.vector then
    if limit < (c.info.width * c.info.height * c.info.point_step).toNat then .throw "vector::resize"
    else decodeCloud F C c.fuel c.info c.data (grow (c.out.take (c.info.width * c.info.height * c.info.point_step).toNat) (c.info.width * c.info.height * c.info.point_step).toNat)
  else decodeCloud F C c.fuel c.info c.data c.out

/-- The size a call declares, if its chunks are compressed. -/
def declared (c : Call) : Nat := if c.info.compression_opt = .none then 0 else c.info.width.toNat * c.info.height.toNat * c.info.point_step.toNat

/-- **C80, histories.** Every call of every history of calls on one object, failing calls included, has the outcome it has with a decoder of its own. -/
theorem C80_history (F : FloatOps) (C : Compressor) (hC : C.Lawful) (junk : List Byte → List Byte) (limit : Nat) :
    ∀ (cs : List Call) (obj : Obj), (∀ c ∈ cs, declared c ≤ limit) → (calls F C junk limit obj cs).2 = cs.map (alone F C limit) := by
  intro cs
  induction cs with
  | nil => intro obj _; rfl
  | cons c cs ih =>
    intro obj h
    have hc : c.info.compression_opt = .none ∨ c.info.width.toNat * c.info.height.toNat * c.info.point_step.toNat ≤ limit := by
      by_cases hn : c.info.compression_opt = .none
      · exact .inl hn
      · have := h c List.mem_cons_self
        unfold declared at this
        rw [if_neg hn] at this
        exact .inr this
    unfold calls
    rw [List.map_cons, ih _ fun x hx => h x (List.mem_cons_of_mem _ hx)]
    have hone : (call F C junk limit obj c).2 = alone F C limit c := by
      unfold call alone decodeVector
      by_cases hv : c.vector = true
      · rw [if_pos hv, if_pos hv]
        simp only
        split
        · rfl
        · exact C80_reuse F C hC junk limit c.fuel obj c.info c.data _ hc
      · rw [if_neg hv, if_neg hv]
        exact C80_reuse F C hC junk limit c.fuel obj c.info c.data _ hc
    rw [hone]

/-! ## Memory -/

theorem chunk_buffer {F : FloatOps} {C : Compressor} {junk : List Byte → List Byte} {limit fuel : Nat} {info : EncodingInfo} {obj : Obj}
    {data buf : List Byte} {base expected : Nat} :
    (Decoder.chunk F C junk limit fuel info obj data buf base expected).1.buffer =
      (decompress C junk limit info.compression_opt data obj.buffer (maxDecompressed info)).1 := by
  unfold Decoder.chunk
  simp only
  split
  · rfl
  · rfl
  · split <;> rfl

/-- What may happen to the size of the buffer. -/
def Grown (info : EncodingInfo) (limit a b : Nat) : Prop := b = a ∨ (info.compression_opt ≠ .none ∧ maxDecompressed info ≤ limit ∧ b = max a (maxDecompressed info))

theorem Grown.trans {info : EncodingInfo} {limit a b c : Nat} (h1 : Grown info limit a b) (h2 : Grown info limit b c) : Grown info limit a c := by
  rcases h1 with rfl | ⟨h, h', rfl⟩
  · exact h2
  · rcases h2 with rfl | ⟨_, _, rfl⟩
    · exact .inr ⟨h, h', rfl⟩
    · exact .inr ⟨h, h', by omega⟩

theorem loop_buffer {F : FloatOps} {C : Compressor} {junk : List Byte → List Byte} {limit : Nat} {info : EncodingInfo} :
    ∀ (n points : Nat), points ≤ n → ∀ (obj : Obj) (data buf : List Byte) (base : Nat),
    Grown info limit obj.buffer.length (Decoder.loop F C junk limit info points obj data buf base).1.buffer.length := by
  intro n
  induction n with
  | zero =>
    intro points hp obj data buf base
    unfold Decoder.loop
    have : points = 0 := by omega
    subst this
    split <;> exact .inl rfl
  | succ n ih =>
    intro points hp obj data buf base
    unfold Decoder.loop
    split
    · exact .inl rfl
    split
    · exact .inl rfl
    split
    · exact .inl rfl
    · exact .inl rfl
    split
    · exact .inl rfl
    next size rest _ _ =>
    have hb : Grown info limit obj.buffer.length
        (Decoder.chunk F C junk limit 0 info obj (rest.take size) buf base (Min.min points kPointsPerChunk)).1.buffer.length := by
      rw [chunk_buffer]; exact decompress_buffer
    simp only
    split
    · exact hb
    · exact hb
    · exact hb.trans (ih _ (by simp only [kPointsPerChunk]; omega) _ _ _ _)

theorem decode_buffer (F : FloatOps) (C : Compressor) (junk : List Byte → List Byte) (limit fuel : Nat) (obj : Obj) (info : EncodingInfo) (data buf : List Byte) :
    Grown info limit obj.buffer.length (Decoder.decode F C junk limit fuel obj info data buf).1.buffer.length := by
  have hu : (update F info obj).1.buffer = obj.buffer := by
    unfold update
    simp only
    split <;> rfl
  unfold Decoder.decode
  simp only
  split
  · rw [hu]; exact .inl rfl
  · rw [hu]; exact .inl rfl
  split
  · rw [hu]; exact .inl rfl
  split
  · rw [← hu]; exact loop_buffer _ _ (Nat.le_refl _) _ _ _ _
  · have hb := @decompress_buffer C junk limit info.compression_opt data (update F info obj).1.buffer (maxDecompressed info)
    rw [← chunk_buffer (F := F) (fuel := fuel) (obj := (update F info obj).1) (buf := buf) (base := 0) (expected := 0), hu] at hb
    split <;> exact hb

/-- **C80, memory.** After any history the decoder holds no more than the largest size declared by a compressed cloud it was given (or what it held before); it
never gives any of it back. -/
theorem C80_memory (F : FloatOps) (C : Compressor) (junk : List Byte → List Byte) (limit : Nat) :
    ∀ (cs : List Call) (obj : Obj), obj.buffer.length ≤ (calls F C junk limit obj cs).1.buffer.length ∧
      (calls F C junk limit obj cs).1.buffer.length ≤ (cs.map declared).foldl max obj.buffer.length ∧
      (calls F C junk limit obj cs).1.buffer.length ≤ max obj.buffer.length limit := by
  intro cs
  induction cs with
  | nil => intro obj; exact ⟨Nat.le_refl _, Nat.le_refl _, Nat.le_max_left _ _⟩
  | cons c cs ih =>
    intro obj
    have hmono : ∀ (l : List Nat) (a b : Nat), a ≤ b → l.foldl max a ≤ l.foldl max b := by
      intro l
      induction l with
      | nil => intro a b h; exact h
      | cons x l ihl => intro a b h; exact ihl _ _ (by omega)
    have hg : Grown c.info limit obj.buffer.length (call F C junk limit obj c).1.buffer.length := by
      unfold call decodeVector
      split
      · simp only
        split
        · exact .inl rfl
        · exact decode_buffer F C junk limit c.fuel obj c.info c.data _
      · exact decode_buffer F C junk limit c.fuel obj c.info c.data _
    obtain ⟨i1, i2, i3⟩ := ih (call F C junk limit obj c).1
    have hle : (call F C junk limit obj c).1.buffer.length ≤ max obj.buffer.length (declared c) := by
      rcases hg with h | ⟨h, _, e⟩
      · omega
      · unfold declared
        rw [if_neg h, e]
        have : maxDecompressed c.info ≤ _ := Nat.mod_le _ _
        omega
    unfold calls
    simp only [List.map_cons, List.foldl_cons]
    refine ⟨?_, ?_, ?_⟩
    · rcases hg with h | ⟨_, _, h⟩ <;> omega
    · exact Nat.le_trans i2 (hmono _ _ _ hle)
    · rcases hg with h | ⟨_, h', h⟩ <;> omega

/-- **C80, memory, negation.** The memory is not limited by what the caller provides: for every description of a compressed cloud, every first chunk (also one that is
refused) and every output (also an empty one), the decoder asks for the whole declared size before it looks at either; if that is more than a vector can
hold, this is the exception the caller sees. -/
theorem C80_declared_first (F : FloatOps) (C : Compressor) (junk : List Byte → List Byte) (limit fuel : Nat) (obj : Obj) (info : EncodingInfo)
    (first rest buf : List Byte) (r : List Dec × Nat) (hb : buildDecoders F info = .ok r) (hz : info.compression_opt = .zstd) (hv : info.version ≥ 3#8)
    (hw : info.width.toNat * info.height.toNat ≠ 0) (hlen : first.length < 2 ^ 32) (hd : info.width.toNat * info.height.toNat * info.point_step.toNat < 2 ^ 64)
    (hm : (toLE 4 first.length ++ (first ++ rest)).take 10 ≠ magic) :
    (info.width.toNat * info.height.toNat * info.point_step.toNat ≤ limit →
      info.width.toNat * info.height.toNat * info.point_step.toNat ≤
        (Decoder.decode F C junk limit fuel obj info (toLE 4 first.length ++ (first ++ rest)) buf).1.buffer.length) ∧
    (limit < info.width.toNat * info.height.toNat * info.point_step.toNat → obj.buffer.length < info.width.toNat * info.height.toNat * info.point_step.toNat →
      (Decoder.decode F C junk limit fuel obj info (toLE 4 first.length ++ (first ++ rest)) buf).2 = .throw "vector::resize") := by
  have hmd : maxDecompressed info = info.width.toNat * info.height.toNat * info.point_step.toNat := Nat.mod_eq_of_lt hd
  obtain ⟨ds, m⟩ := r
  have hu : update F info obj = ({ decoders := ds, min := m, buffer := obj.buffer }, .ok ()) := by
    unfold update; rw [hb]; simp
  have hdi : decodeInt 4 (toLE 4 first.length ++ (first ++ rest)) = .ok (first.length, first ++ rest) :=
    decodeInt_toLE4 first.length hlen (first ++ rest)
  have hne : (toLE 4 first.length ++ (first ++ rest)).length ≠ 0 := by simp
  unfold Decoder.decode
  rw [hu]
  simp only
  rw [if_neg hm, if_pos hv]
  unfold Decoder.loop
  rw [if_neg hne, dif_neg hw, hdi]
  simp only
  rw [if_neg (by simp), List.take_left]
  constructor
  · intro hle
    have key : maxDecompressed info ≤ (Decoder.chunk F C junk limit 0 info { decoders := ds, min := m, buffer := obj.buffer } first buf 0
        (Min.min (info.width.toNat * info.height.toNat) kPointsPerChunk)).1.buffer.length := by
      rw [chunk_buffer, hz]
      unfold decompress
      simp only
      rw [if_neg (by omega)]
      cases C.decompress .zstd first (maxDecompressed info) <;> simp only <;> rw [overwrite_length, grow_length] <;> omega
    rw [← hmd]
    split
    · exact key
    · exact key
    · have := loop_buffer (F := F) (C := C) (junk := junk) (limit := limit) (info := info) _ _ (Nat.le_refl (info.width.toNat * info.height.toNat - Min.min (info.width.toNat * info.height.toNat) kPointsPerChunk))
        (Decoder.chunk F C junk limit 0 info { decoders := ds, min := m, buffer := obj.buffer } first buf 0
          (Min.min (info.width.toNat * info.height.toNat) kPointsPerChunk)).1 (List.drop first.length (first ++ rest))
      next b x _ =>
      have := this b x
      rcases this with h | ⟨_, _, h⟩ <;> omega
  · intro hlt hob
    have key : (Decoder.chunk F C junk limit 0 info { decoders := ds, min := m, buffer := obj.buffer } first buf 0
        (Min.min (info.width.toNat * info.height.toNat) kPointsPerChunk)).2 = .throw "vector::resize" := by
      unfold Decoder.chunk decompress
      simp only [hz]
      rw [if_pos ⟨by rw [hmd]; exact hob, by rw [hmd]; exact hlt⟩]
    rw [key]

/-! ## The overload with a vector -/

/-- **C80, the vector.** When it returns, the vector has the size of the cloud — always the true one — and the cloud is the one `decode` puts into a buffer of that
size that begins like the old vector.  (So a cloud of 4 GiB or more, whose size does not fit 32 bits, is never delivered.) -/
theorem C80_vector (F : FloatOps) (C : Compressor) (hC : C.Lawful) (junk : List Byte → List Byte) (limit fuel : Nat) (obj : Obj) (info : EncodingInfo)
    (data out out' : List Byte) (hv : 3 ≤ info.version.toNat) (hl : info.compression_opt = .none ∨ info.width.toNat * info.height.toNat * info.point_step.toNat ≤ limit)
    (h : (Decoder.decodeVector F C junk limit fuel obj info data out).2 = .ok out') :
    let n := info.width.toNat * info.height.toNat * info.point_step.toNat
    out'.length = n ∧ n < 2 ^ 32 ∧ decodeCloud F C fuel info data (out.take n ++ List.replicate (n - out.length) 0#8) = .ok out' := by
  intro n
  unfold Decoder.decodeVector at h
  simp only at h
  split at h
  · simp at h
  rw [C80_reuse F C hC junk limit fuel obj info data _ hl] at h
  have hprod : (info.width * info.height * info.point_step).toNat = n % 2 ^ 32 := by
    rw [BitVec.toNat_mul, BitVec.toNat_mul, Nat.mod_mul_mod]
  rw [hprod] at h
  have hlen : (grow (out.take (n % 2 ^ 32)) (n % 2 ^ 32)).length = n % 2 ^ 32 := by rw [grow_length, List.length_take]; omega
  have hsmall : n < 2 ^ 32 := by
    by_cases hs : info.point_step.toNat = 0
    · show info.width.toNat * info.height.toNat * info.point_step.toNat < 2 ^ 32
      rw [hs]; simp
    · rcases Nat.lt_or_ge n (2 ^ 32) with hlt | hge
      · exact hlt
      · exact absurd h (C51_small_output F C fuel info data _ (by omega) hv (by rw [hlen]; omega)
          (by rw [hlen]; show _ < n; omega) out')
  rw [Nat.mod_eq_of_lt hsmall] at h hlen
  have heq : grow (out.take n) n = out.take n ++ List.replicate (n - out.length) 0#8 := by
    unfold grow
    congr 2
    rw [List.length_take]; omega
  refine ⟨?_, hsmall, by rw [← heq]; exact h⟩
  rcases C78_two_buffers F C fuel info data _ _ (rfl : (grow (out.take n) n).length = _) with ⟨e, he, _⟩ | ⟨k, hk, _⟩ | ⟨a', b', ha, _, hl', _⟩
  · rw [h] at he; simp at he
  · rw [h] at hk; simp at hk
  · rw [h] at ha
    simp only [Res.ok.injEq] at ha
    rw [ha, hl', hlen]

/-! ## Cases that meet the hypotheses -/

/-- A history of a call that is refused, one that is accepted and one of another version. -/
def someCalls : List Call :=
  [⟨mixInfo, [1#8, 2#8, 3#8], List.replicate 108 0#8, false, 0⟩, ⟨mixInfo, mixOut, [], true, 0⟩, ⟨byteInfo4, chunked [[5#8]], [7#8, 8#8], true, 0⟩]

example (junk : List Byte → List Byte) (obj : Obj) : (calls bitsOps storeComp junk (2 ^ 47) obj someCalls).2 = someCalls.map (alone bitsOps storeComp (2 ^ 47)) :=
  C80_history bitsOps storeComp storeComp_lawful junk (2 ^ 47) someCalls obj (by decide +kernel)

example : (someCalls.map (alone bitsOps storeComp (2 ^ 47))).map Res.isOk = [false, true, true] := by decide +kernel

/-- A cloud that declares 2 to the power 62 bytes. -/
def bombInfo : EncodingInfo := { byteInfo with width := 0x80000000#32, height := 0x80000000#32, version := 4#8 }

example : (Decoder.decode bitsOps storeComp (fun _ => []) (2 ^ 63 - 1) 0 {} bombInfo (toLE 4 0 ++ ([] ++ [])) []).1.buffer.length ≥ 2 ^ 62 :=
  (C80_declared_first bitsOps storeComp (fun _ => []) (2 ^ 63 - 1) 0 {} bombInfo [] [] [] _ rfl rfl (by decide) (by decide) (by decide) (by decide) (by decide)).1 (by decide)

example : (Decoder.decode bitsOps storeComp (fun _ => []) (2 ^ 47) 0 {} bombInfo (toLE 4 0 ++ ([] ++ [])) []).2 = .throw "vector::resize" :=
  (C80_declared_first bitsOps storeComp (fun _ => []) (2 ^ 47) 0 {} bombInfo [] [] [] _ rfl rfl (by decide) (by decide) (by decide) (by decide) (by decide)).2 (by decide) (by decide)

example : ∃ out', (Decoder.decodeVector bitsOps storeComp (fun _ => []) (2 ^ 47) 0 {} mixInfo mixOut [9#8]).2 = .ok out' ∧ out'.length = 108 := by
  have h : (Decoder.decodeVector bitsOps storeComp (fun _ => []) (2 ^ 47) 0 {} mixInfo mixOut [9#8]).2.isOk = true := by decide +kernel
  cases e : (Decoder.decodeVector bitsOps storeComp (fun _ => []) (2 ^ 47) 0 {} mixInfo mixOut [9#8]).2 with
  | throw m => rw [e] at h; simp at h
  | ub k => rw [e] at h; simp at h
  | ok out' => exact ⟨out', rfl, (C80_vector _ _ storeComp_lawful _ _ _ _ _ _ _ _ (by decide) (.inr (by decide)) e).1⟩

end Cloudini.Props
