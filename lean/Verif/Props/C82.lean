import Verif.Lemmas.Partial
import Verif.Props.C29_C30
import Verif.Props.C18_C20
import Verif.Props.C21_C22

/-!
# C82: what a decode that fails leaves in the caller's buffer

`Partial.decode` is `PointcloudDecoder::decode` with the output buffer as a state: its first component is the contents of the buffer when control comes back to the
caller, by return or by exception.
-/

namespace Cloudini.Props

/-- The caller's buffer after the call. -/
def left (F : FloatOps) (C : Compressor) (fuel : Nat) (info : EncodingInfo) (payload buf : List Byte) : List Byte :=
  (Partial.decode F C fuel info payload buf).1

/-- **C82, the two models.** Outcome and output of the decoder with the buffer as state are those of the decoder used everywhere else. -/
theorem C82_agrees (F : FloatOps) (C : Compressor) (fuel : Nat) (info : EncodingInfo) (payload buf : List Byte) :
    decodeCloud F C fuel info payload buf =
      (Partial.decode F C fuel info payload buf).2 >>= fun _ => .ok (left F C fuel info payload buf) :=
  Partial.decode_same F C fuel info payload buf

theorem left_ok {F : FloatOps} {C : Compressor} {fuel : Nat} {info : EncodingInfo} {payload buf out : List Byte}
    (h : decodeCloud F C fuel info payload buf = .ok out) : left F C fuel info payload buf = out := by
  rw [C82_agrees] at h
  obtain ⟨_, _, h⟩ := Res.bind_eq_ok.1 h
  simpa using h

theorem no_ub_left {F : FloatOps} {C : Compressor} {fuel : Nat} {info : EncodingInfo} {payload buf : List Byte}
    (h : ∀ u, decodeCloud F C fuel info payload buf ≠ .ub u) : ∀ u, (Partial.decode F C fuel info payload buf).2 ≠ .ub u := by
  intro u hu
  have := C82_agrees F C fuel info payload buf
  rw [hu] at this
  exact h u this

theorem left_loop {F : FloatOps} {C : Compressor} {fuel : Nat} {info : EncodingInfo} {ds : List Dec} {m : Nat} (hv : 3 ≤ info.version.toNat)
    (hb : buildDecoders F info = .ok (ds, m)) (payload buf : List Byte) :
    Partial.decode F C fuel info payload buf = if payload.take 10 = magic then (buf, .throw "compressed_data contains the header. You should use DecodeHeader first")
      else Partial.loop F C info m (info.width.toNat * info.height.toNat) ds payload 0 buf := by
  unfold Partial.decode
  rw [hb, Partial.bind_ok (x := (ds, m)) rfl]
  have : info.version ≥ 3#8 := hv
  simp only [if_pos this]
  split <;> rfl

/-- **C82, nothing outside the declared fields.** Also when it fails, a decode leaves the length of the buffer and every byte outside the declared fields of the
declared points as they were. -/
theorem C82_untouched (F : FloatOps) (C : Compressor) (fuel : Nat) (info : EncodingInfo) (payload buf : List Byte)
    (hstep : 0 < info.point_step.toNat) (hver : 3 ≤ info.version.toNat) (hbuf : buf.length < 2 ^ 64)
    (h : ∀ u, decodeCloud F C fuel info payload buf ≠ .ub u) :
    (left F C fuel info payload buf).length = buf.length ∧ ∀ p, ¬ Declared info p → (left F C fuel info payload buf)[p]? = buf[p]? := by
  have hu := no_ub_left h
  unfold left
  cases hb : buildDecoders F info with
  | throw e => unfold Partial.decode; rw [hb, Partial.bind_throw (e := e) rfl]; exact ⟨rfl, fun _ _ => rfl⟩
  | ub u => exact absurd (by unfold Partial.decode; rw [hb, Partial.bind_ub (u := u) rfl]) (hu u)
  | ok x =>
    obtain ⟨ds, m⟩ := x
    rw [left_loop hver hb] at hu ⊢
    by_cases hm : payload.take 10 = magic
    · rw [if_pos hm]; exact ⟨rfl, fun _ _ => rfl⟩
    rw [if_neg hm] at hu ⊢
    have := Partial.loop_foot F C info m _ ds payload buf 0 info.fields (buildDecoders_spots F info ds m hb)
      (fun _ f hf => (adaptive_declared info f hf).1) hstep hbuf hu
    refine ⟨this.1, fun p hp => this.2 p ?_⟩
    intro i hi f hf
    apply Classical.byContradiction
    intro hc
    exact hp ⟨i, hi, f, hf, by omega, by omega⟩

/-- **C82, version 2.** Version-2 data may fill more points than declared, but no padding. -/
theorem C82_version2 (F : FloatOps) (C : Compressor) (fuel : Nat) (info : EncodingInfo) (payload buf : List Byte)
    (hstep : 0 < info.point_step.toNat) (hver : info.version.toNat < 3) (h : ∀ u, decodeCloud F C fuel info payload buf ≠ .ub u) :
    (left F C fuel info payload buf).length = buf.length ∧ ∀ p, ¬ InSomeField info p → (left F C fuel info payload buf)[p]? = buf[p]? := by
  cases hd : decodeCloud F C fuel info payload buf with
  | ub u => exact absurd hd (h u)
  | ok out => rw [left_ok hd]; exact C19_version2_partial F C info payload buf out fuel hstep hver hd
  | throw e0 =>
    have hu := no_ub_left h
    have hthrow : ∃ e, (Partial.decode F C fuel info payload buf).2 = .throw e := by
      cases hx : (Partial.decode F C fuel info payload buf).2 with
      | ok x => have := C82_agrees F C fuel info payload buf; rw [hx, hd] at this; cases this
      | throw e => exact ⟨e, rfl⟩
      | ub u => exact absurd hx (hu u)
    obtain ⟨e, he⟩ := hthrow
    unfold left
    suffices hk : Partial.Kept (fun a b => b.length = a.length ∧ ∀ p, ¬ InSomeField info p → b[p]? = a[p]?)
        (Partial.decode F C fuel info payload) buf from hk e he
    have hr : buf.length = buf.length ∧ ∀ p, ¬ InSomeField info p → buf[p]? = buf[p]? := ⟨rfl, fun _ _ => rfl⟩
    refine Partial.Kept.let_ hr fun x hb => ?_
    obtain ⟨ds, m⟩ := x
    refine Partial.Kept.ite (fun _ => Partial.Kept.fail hr) fun _ => ?_
    have hlt : ¬ info.version ≥ 3#8 := fun hc => absurd (show 3 ≤ info.version.toNat from hc) (by omega)
    rw [if_neg hlt]
    refine Partial.Kept.bind ?_ fun _ _ => Partial.Kept.pure
    refine Partial.Kept.let_ hr fun view _ => ?_
    have hv5 : ¬ usesV5 info = true := by
      intro hc
      unfold usesV5 at hc
      simp only [Bool.and_eq_true, decide_eq_true_eq] at hc
      have : (5 : Nat) ≤ info.version.toNat := hc.1.1
      omega
    rw [if_neg hv5]
    unfold Partial.chunkV4
    rw [if_neg (by omega)]
    refine Partial.Kept.bind (fun e he => ?_) fun _ _ => Partial.Kept.pure
    have hf := Partial.untilEmptyV4_kept F info.fields m info.point_step.toNat fuel _ view buf 0 hstep
      (spotsIn_reset (buildDecoders_spots F info ds m hb)) e he
    refine ⟨hf.1, fun p hp => hf.2 p ?_⟩
    intro i hi f hf
    apply Classical.byContradiction
    intro hc
    exact hp ⟨i, f, hf, by omega, by omega⟩

/-- **C82, damage after a chunk.** Take any payload that decodes, keep some of its chunks (with their length prefixes) and replace everything behind them: unless the
new bytes run into undefined behaviour, after the call, whatever its outcome, the points of the chunks that were kept are those of the undamaged payload. -/
theorem C82_damaged (F : FloatOps) (C : Compressor) (fuel : Nat) (info : EncodingInfo) (chunks : List (List Byte)) (rest rest' buf out : List Byte)
    (hstep : 0 < info.point_step.toNat) (hver : 3 ≤ info.version.toNat) (hbuf : buf.length < 2 ^ 64) (hc : ∀ c ∈ chunks, c.length < 2 ^ 32)
    (h : decodeCloud F C fuel info (chunked chunks ++ rest) buf = .ok out)
    (hu : ∀ u, decodeCloud F C fuel info (chunked chunks ++ rest') buf ≠ .ub u) :
    ∀ i, i < info.width.toNat * info.height.toNat → i / 32768 < chunks.length → ∀ j, j < info.point_step.toNat →
      (left F C fuel info (chunked chunks ++ rest') buf)[i * info.point_step.toNat + j]? = out[i * info.point_step.toNat + j]? := by
  intro i hi hik j hj
  rw [chunked_eq] at *
  rw [decodeCloud_loop hver] at h
  obtain ⟨⟨ds, m⟩, hb, h⟩ := Res.bind_eq_ok.1 h
  simp only at h
  by_cases hm : (frame chunks ++ rest).take 10 = magic
  · rw [if_pos hm] at h; simp at h
  rw [if_neg hm] at h
  have hm' : ¬ (frame chunks ++ rest').take 10 = magic := by
    intro he
    apply hm
    cases chunks with
    | nil => simp at hik
    | cons c cs =>
      have h4 : (frame (c :: cs) ++ rest').take 4 = magic.take 4 := by rw [← he, List.take_take]; rfl
      simp only [frame, List.append_assoc] at h4
      rw [List.take_append_of_le_length (by simp), List.take_of_length_le (by simp)] at h4
      have h5 := congrArg fromLE h4
      have hcl := hc c (by simp)
      rw [fromLE_toLE, show fromLE (magic.take 4) = 0x554F4C43 by decide, Nat.mod_eq_of_lt (by simpa using hcl)] at h5
      have hlen : 10 ≤ (frame (c :: cs)).length := by simp only [frame, List.length_append, toLE_length]; omega
      rw [List.take_append_of_le_length hlen] at he ⊢
      exact he
  have hu' := no_ub_left hu
  unfold left
  rw [left_loop hver hb, if_neg hm'] at hu' ⊢
  refine Partial.loop_prefix F C info m _ ds chunks rest rest' buf out 0 info.fields (buildDecoders_spots F info ds m hb)
    (fun _ f hf => (adaptive_declared info f hf).1) hstep hbuf hc h hu' _ ?_
  rw [Nat.zero_add]
  have h1 : i + 1 ≤ min (info.width.toNat * info.height.toNat) (chunks.length * kPointsPerChunk) := by
    simp only [kPointsPerChunk]; omega
  have h2 := Nat.mul_le_mul_right info.point_step.toNat h1
  rw [Nat.add_mul] at h2
  omega

/-- Where a cut falls: behind some complete chunks and inside the next one. -/
theorem chunked_cut (cs : List (List Byte)) (n : Nat) (hn : n < (chunked cs).length) :
    ∃ (pre : List (List Byte)) (c : List Byte) (post : List (List Byte)) (part : List Byte), cs = pre ++ c :: post ∧
      (chunked cs).take n = chunked pre ++ part ∧ part <+: toLE 4 c.length ++ c ∧ part.length < 4 + c.length := by
  induction cs generalizing n with
  | nil => simp [chunked] at hn
  | cons c cs ih =>
    have e : chunked (c :: cs) = toLE 4 c.length ++ c ++ chunked cs := by simp [chunked]
    by_cases hin : n < 4 + c.length
    · refine ⟨[], c, cs, (toLE 4 c.length ++ c).take n, rfl, ?_, List.take_prefix _ _, ?_⟩
      · rw [e, List.take_append_of_le_length (by simp [toLE_length]; omega)]; simp [chunked]
      · rw [List.length_take]; simp only [List.length_append, toLE_length]; omega
    · rw [e, List.length_append, List.length_append, toLE_length] at hn
      obtain ⟨pre, d, post, part, h1, h2, h3, h4⟩ := ih (n - (4 + c.length)) (by omega)
      refine ⟨c :: pre, d, post, part, by rw [h1]; rfl, ?_, h3, h4⟩
      rw [e, List.take_append, List.take_of_length_le (by simp [toLE_length]; omega)]
      rw [show (toLE 4 c.length ++ c).length = 4 + c.length by simp [toLE_length], h2]
      simp [chunked]

/-- The declared fields of the first `n` points. -/
def FieldsOfFirst (info : EncodingInfo) (n p : Nat) : Prop :=
  ∃ i, i < n ∧ ∃ f ∈ info.fields, i * info.point_step.toNat + f.offset.toNat ≤ p ∧ p < i * info.point_step.toNat + f.offset.toNat + sizeOf f.type

/-- **C82, truncation.** Cut a payload that decodes anywhere.  The call throws; with `k` the number of complete chunks before the cut, the first `k * 32768` points
are in the buffer exactly as the whole payload gives them, and nothing else has changed. -/
theorem C82_truncated (F : FloatOps) (C : Compressor) (fuel : Nat) (info : EncodingInfo) (payload buf out : List Byte)
    (hstep : 0 < info.point_step.toNat) (hver : 3 ≤ info.version.toNat) (hbuf : buf.length < 2 ^ 64)
    (h : decodeCloud F C fuel info payload buf = .ok out) (n : Nat) (hn : n < payload.length) :
    ∃ (pre : List (List Byte)) (c : List Byte) (post : List (List Byte)) (part : List Byte), payload = chunked (pre ++ c :: post) ∧
      pre.length + 1 + post.length = (info.width.toNat * info.height.toNat + 32767) / 32768 ∧
      payload.take n = chunked pre ++ part ∧ part.length < 4 + c.length ∧
      pre.length * 32768 < info.width.toNat * info.height.toNat ∧
      (decodeCloud F C fuel info (payload.take n) buf).isThrow = true ∧
      (∀ p, p < pre.length * 32768 * info.point_step.toNat → (left F C fuel info (payload.take n) buf)[p]? = out[p]?) ∧
      (∀ p, ¬ FieldsOfFirst info (pre.length * 32768) p → (left F C fuel info (payload.take n) buf)[p]? = buf[p]?) := by
  obtain ⟨cs, hp, hcs, hcl⟩ := C29_accepted F C fuel info hver payload buf out h
  obtain ⟨pre, c, post, part, h1, h2, h3, h4⟩ := chunked_cut cs n (by rw [← hp]; exact hn)
  have hthrow := C29_truncated F C fuel info hver payload buf out h n hn
  have hcat : chunked (pre ++ c :: post) = chunked pre ++ (toLE 4 c.length ++ c ++ chunked post) := by simp [chunked]
  have hpre : ∀ x ∈ pre, x.length < 2 ^ 32 := fun x hx => hcl x (by rw [h1]; simp [hx])
  have hc : c.length < 2 ^ 32 := hcl c (by rw [h1]; simp)
  have hd := h
  rw [decodeCloud_loop hver] at hd
  obtain ⟨⟨ds, m⟩, hb, hd⟩ := Res.bind_eq_ok.1 hd
  simp only at hd
  by_cases hm : payload.take 10 = magic
  · rw [if_pos hm] at hd; simp at hd
  rw [if_neg hm] at hd
  have hm' : ¬ (payload.take n).take 10 = magic := by
    intro he
    apply hm
    have hl := congrArg List.length he
    rw [List.length_take, List.length_take, show magic.length = 10 by decide] at hl
    rw [List.take_take, Nat.min_eq_left (by omega)] at he
    exact he
  rw [hp, h1, hcat, chunked_eq] at hd
  obtain ⟨e, he, hfoot, hlt⟩ := Partial.loop_cut F C info m _ ds pre c (chunked post) part buf out 0 info.fields (buildDecoders_spots F info ds m hb)
    (fun _ f hf => (adaptive_declared info f hf).1) hstep hbuf hpre hc hd h3 h4
  have hcut : payload.take n = frame pre ++ part := by rw [hp, h2, chunked_eq]
  refine ⟨pre, c, post, part, by rw [hp, h1], by rw [← hcs, h1]; simp; omega, by rw [hcut, chunked_eq], h4, hlt, hthrow, ?_, ?_⟩
  · intro p hpp
    have hpos : 0 < pre.length := by
      cases pre with
      | nil => simp at hpp
      | cons => simp
    have hu : ∀ u, decodeCloud F C fuel info (chunked pre ++ part) buf ≠ .ub u := by
      rw [chunked_eq, ← hcut]
      intro u hu; rw [hu] at hthrow; cases hthrow
    have hlt' : p / info.point_step.toNat < pre.length * 32768 := Nat.div_lt_of_lt_mul (by rw [Nat.mul_comm]; exact hpp)
    have := C82_damaged F C fuel info pre (toLE 4 c.length ++ c ++ chunked post) part buf out hstep hver hbuf hpre
      (by rw [← hcat, ← h1, ← hp]; exact h) hu (p / info.point_step.toNat) (by simp only [kPointsPerChunk] at hlt; omega)
      (by omega) (p % info.point_step.toNat) (Nat.mod_lt _ hstep)
    rw [chunked_eq, ← hcut, Nat.div_add_mod' p info.point_step.toNat] at this
    exact this
  · intro p hpp
    unfold left
    rw [left_loop hver hb, if_neg hm', hcut]
    refine hfoot.2 p ?_
    intro i hi f hf
    apply Classical.byContradiction
    intro hc
    exact hpp ⟨i, hi, f, hf, by omega, by omega⟩

/-- **C82, extra data.** A payload that decodes, followed by anything: the call throws and leaves the complete cloud in the buffer. -/
theorem C82_appended (F : FloatOps) (C : Compressor) (fuel : Nat) (info : EncodingInfo) (payload extra buf out : List Byte)
    (hver : 3 ≤ info.version.toNat) (h : decodeCloud F C fuel info payload buf = .ok out) (he : extra ≠ []) :
    (decodeCloud F C fuel info (payload ++ extra) buf).isThrow = true ∧ left F C fuel info (payload ++ extra) buf = out := by
  have hacc := C29_accepted F C fuel info hver payload buf out h
  rw [decodeCloud_loop hver] at h
  obtain ⟨⟨ds, m⟩, hb, hd⟩ := Res.bind_eq_ok.1 h
  simp only at hd
  by_cases hm : payload.take 10 = magic
  · rw [if_pos hm] at hd; simp at hd
  rw [if_neg hm] at hd
  have key : ∃ e, Partial.decode F C fuel info (payload ++ extra) buf = (out, .throw e) := by
    rw [left_loop hver hb]
    by_cases hm' : (payload ++ extra).take 10 = magic
    · rw [if_pos hm']
      obtain ⟨cs, hp, hlen, hcl⟩ := hacc
      cases cs with
      | nil =>
        have hnil : payload = [] := by rw [hp]; rfl
        rw [hnil, decodeLoop_nil] at hd
        split at hd
        · simp at hd
        · simp only [Res.ok.injEq] at hd; rw [hd]; exact ⟨_, rfl⟩
      | cons c cs =>
        exfalso
        apply hm
        have h4 : (payload ++ extra).take 4 = magic.take 4 := by rw [← hm', List.take_take]; rfl
        rw [hp, chunked_eq] at h4
        simp only [frame, List.append_assoc] at h4
        rw [List.take_append_of_le_length (by simp), List.take_of_length_le (by simp)] at h4
        have h5 := congrArg fromLE h4
        have hcl := hcl c (by simp)
        rw [fromLE_toLE, show fromLE (magic.take 4) = 0x554F4C43 by decide, Nat.mod_eq_of_lt (by simpa using hcl)] at h5
        have hl : 10 ≤ payload.length := by rw [hp, chunked_eq]; simp only [frame, List.length_append, toLE_length]; omega
        rw [List.take_append_of_le_length hl] at hm'
        exact hm'
    · rw [if_neg hm']
      exact Partial.loop_longer F C info m _ ds payload buf out extra 0 hd he
  obtain ⟨e, hk⟩ := key
  refine ⟨?_, by unfold left; rw [hk]⟩
  rw [C82_agrees, hk]; rfl

/-- **C82, a file cut short (partial).** The output of an encoder (under the conditions of C18) cut anywhere: the call throws, and the values of the points in the complete chunks are those the
round trip promises.  Missing: what is missing in C18. -/
theorem C82_recovered_partial (F : FloatOps) (C : Compressor) (hC : C.Lawful) (info : EncodingInfo) (header : List Byte)
    (enc enc' : Encoder) (cloud out : List Byte) (room size fuel : Nat)
    (hinfo : ValidInfo F info) (hcloud : ValidCloud F info cloud) (hreach : Reach F C info header enc)
    (henc : encodeView F C enc cloud room false = .ok (enc', out, size))
    (h64 : FieldLimit info)
    (hlim : info.compression_opt = .none ∨ ChunksWithin F enc cloud cloud.length)
    (hlz : info.compression_opt = .lz4 → cloud.length ≤ intMax)
    (hmagic : out.take 10 ≠ magic)
    (buf : List Byte) (hbuf : cloud.length ≤ buf.length) (hlen : buf.length < 2 ^ 64) (n : Nat) (hn : n < out.length) :
    ∃ (pre : List (List Byte)) (c : List Byte) (post : List (List Byte)) (part : List Byte), out = chunked (pre ++ c :: post) ∧
      pre.length + 1 + post.length = (info.width.toNat * info.height.toNat + 32767) / 32768 ∧
      out.take n = chunked pre ++ part ∧ part.length < 4 + c.length ∧
      pre.length * 32768 < info.width.toNat * info.height.toNat ∧
      (decodeCloud F C fuel info (out.take n) buf).isThrow = true ∧
      ∀ i, i < pre.length * 32768 → ∀ k f, info.fields[k]? = some f →
        cell (left F C fuel info (out.take n) buf) 0 info.point_step.toNat i f.offset.toNat (sizeOf f.type) =
          expected F info k f (cell cloud 0 info.point_step.toNat i f.offset.toNat (sizeOf f.type)) := by
  obtain ⟨buf', h1, h2, h3⟩ := C18_cloud_roundtrip_partial F C hC info header enc enc' cloud out room size fuel hinfo hcloud hreach henc h64 hlim hlz
    hmagic buf hbuf
  obtain ⟨pre, c, post, part, e1, e0, e2, e3, e4, e5, e6, _⟩ := C82_truncated F C fuel info out buf buf' hinfo.step (by have := hinfo.version; omega) hlen h1 n hn
  refine ⟨pre, c, post, part, e1, e0, e2, e3, e4, e5, fun i hi k f hk => ?_⟩
  rw [← h3 i (by omega) k f hk]
  have hins := hinfo.inside f (List.mem_of_getElem? hk)
  unfold cell fieldBytes
  refine List.ext_getElem? fun j => ?_
  simp only [List.getElem?_take, List.getElem?_drop]
  split
  · next hj =>
    apply e6
    have h5 := Nat.mul_le_mul_right info.point_step.toNat (show i + 1 ≤ pre.length * 32768 from hi)
    rw [Nat.add_mul] at h5
    omega
  · rfl

/-! ## Cases -/

/-- One byte per point, 32769 points: two chunks. -/
def pairChunks : EncodingInfo :=
  { fields := [{ name := [0x61#8], offset := 0#32, type := .uint8 }], width := 32769#32, height := 1#32, point_step := 1#32,
    encoding_opt := .lossless, compression_opt := .none, version := 4#8 }

theorem two_valid (F : FloatOps) : ValidInfo F pairChunks where
  step := by decide
  version := by decide
  option := by decide
  types := by decide
  inside := by decide
  disjoint := by decide
  resolution := by intro h; simp [pairChunks] at h

theorem two_cloud (F : FloatOps) (cloud : List Byte) (hl : cloud.length = 32769) : ValidCloud F pairChunks cloud where
  size := by rw [hl]; decide
  addressable := by omega
  range := by
    intro i _ k f hf
    cases k with
    | zero => simp only [pairChunks, List.getElem?_cons_zero, Option.some.injEq] at hf; subst hf; trivial
    | succ k => simp [pairChunks] at hf

theorem two_encodes (F : FloatOps) (enc : Encoder) (h : Reach F storeComp pairChunks [] enc) (cloud : List Byte) (hl : cloud.length = 32769) :
    ∃ (room : Nat) (enc' : Encoder) (out : List Byte) (size : Nat), encodeView F storeComp enc cloud room false = .ok (enc', out, size) ∧ out.length < 100000 := by
  have hp : maxSerializedPointSize pairChunks.encoding_opt pairChunks.fields = .ok 1 := by decide
  obtain ⟨m, hc, hm'⟩ : ∃ m, maxCompressedChunks storeComp pairChunks 1 32769 = .ok m ∧ m < 100000 := by
    refine ⟨32777, ?_, by omega⟩
    rw [maxCompressedChunks, dif_neg (by omega), show min 32769 kPointsPerChunk = 32768 by decide, maxCompressedChunks, dif_neg (by omega),
      show min (32769 - 32768) kPointsPerChunk = 1 by decide, maxCompressedChunks, dif_pos (by omega)]
    decide
  have hm : maxCompressedSize storeComp pairChunks cloud.length = .ok m := by
    unfold maxCompressedSize
    rw [if_neg (by decide), hp, hl]
    exact hc
  obtain ⟨⟨enc', out, size⟩, hr⟩ := C22_bound_partial F storeComp storeComp_lawful pairChunks [] enc (two_valid F) h _ cloud
      ⟨by show _ = _ * 1; omega, by
        intro i _ k f hf
        cases k with
        | zero => simp only [pairChunks, List.getElem?_cons_zero, Option.some.injEq] at hf; subst hf; trivial
        | succ k => simp [pairChunks] at hf⟩ 1 m m false hp hm (by simp)
      (by intro h; simp [usesV5, pairChunks] at h) (by decide) (by decide +kernel) (by intro h; simp [pairChunks] at h) (by intro h; simp [pairChunks] at h)
  have hs := C23_view_size _ _ _ _ _ _ _ _ _ hr
  exact ⟨m, enc', out, size, hr, by omega⟩

/-- Any cloud of 32769 bytes, its encoding without the last byte: the call throws, yet the first 32768 points are there. -/
example (F : FloatOps) (cloud : List Byte) (hl : cloud.length = 32769) :
    ∃ (room : Nat) (enc enc' : Encoder) (out : List Byte) (size : Nat), mkEncoder F pairChunks [] = .ok enc ∧
      encodeView F storeComp enc cloud room false = .ok (enc', out, size) ∧
      (decodeCloud F storeComp 0 pairChunks (out.take (out.length - 1)) (List.replicate 32769 0#8)).isThrow = true ∧
      ∀ i, i < 32768 → cell (left F storeComp 0 pairChunks (out.take (out.length - 1)) (List.replicate 32769 0#8)) 0 1 i 0 1 = cell cloud 0 1 i 0 1 := by
  obtain ⟨enc, he⟩ : ∃ enc, mkEncoder F pairChunks [] = .ok enc := ⟨_, rfl⟩
  have hr := Reach.fresh (C := storeComp) enc he
  obtain ⟨room, enc', out, size, h, hsmall⟩ := two_encodes F enc hr cloud hl
  have hmagic := C18_magic F storeComp enc enc' cloud out room size h (by omega)
  have hrt := C18_cloud_roundtrip_partial F storeComp storeComp_lawful pairChunks [] enc enc' cloud out room size 0 (two_valid F) (two_cloud F cloud hl) hr h
    (by decide) (Or.inl rfl) (fun h => by simp [pairChunks] at h) hmagic (List.replicate 32769 0#8) (by rw [hl, List.length_replicate]; omega)
  obtain ⟨_, hok, _⟩ := hrt
  obtain ⟨cs, hcs, hcl, _⟩ := C29_accepted F storeComp 0 pairChunks (by decide) out _ _ hok
  have hpos : 0 < out.length := by
    cases cs with
    | nil => simp [pairChunks] at hcl
    | cons c cs => rw [hcs]; simp [chunked, toLE_length]; omega
  obtain ⟨pre, c, post, part, e1, e0, e2, e3, e4, e5, e6⟩ := C82_recovered_partial F storeComp storeComp_lawful pairChunks [] enc enc' cloud out room size 0
    (two_valid F) (two_cloud F cloud hl) hr h (by decide) (Or.inl rfl) (fun h => by simp [pairChunks] at h) hmagic (List.replicate 32769 0#8)
    (by rw [hl, List.length_replicate]; omega) (by rw [List.length_replicate]; omega) (out.length - 1) (by omega)
  have e0' : pre.length + 1 + post.length = 2 := e0
  have hpre : pre.length = 1 := by
    cases pre with
    | cons a as =>
      have e4' : (a :: as).length * 32768 < 32769 := e4
      simp only [List.length_cons] at e4' ⊢; omega
    | nil =>
      exfalso
      simp only [List.length_nil] at e0'
      cases post with
      | nil => simp at e0'
      | cons d ds =>
        have h1 := congrArg List.length e1
        have h2 := congrArg List.length e2
        simp only [chunked, List.nil_append, List.map_cons, List.flatten_cons, List.length_append, toLE_length, List.length_take, List.map_nil, List.flatten_nil,
          List.length_nil] at h1 h2
        omega
  refine ⟨room, enc, enc', out, size, he, h, e5, fun i hi => ?_⟩
  have := e6 i (by rw [hpre]; omega) 0 { name := [0x61#8], offset := 0#32, type := .uint8 } rfl
  exact this

/-- **C82 as stated fails** ("a call that fails leaves the buffer as it was"): the first point of this version-5 payload is stored before its second value is found missing. -/
theorem C82_not_atomic : ¬ ∀ (F : FloatOps) (C : Compressor) (fuel : Nat) (info : EncodingInfo) (payload buf : List Byte),
    0 < info.point_step.toNat → 3 ≤ info.version.toNat → buf.length < 2 ^ 64 → (decodeCloud F C fuel info payload buf).isThrow = true →
    left F C fuel info payload buf = buf := by
  intro h
  have := h bitsOps storeComp 0 { pairChunks with width := 2#32 } [1#8, 0#8, 0#8, 0#8, 7#8] [0#8, 0#8] (by decide) (by decide) (by decide) (by decide +kernel)
  exact absurd this (by decide +kernel)

/-- Two points declared, one and a half chunk bytes there: the first point is in the buffer, the rest is untouched. -/
example : (Partial.decode bitsOps storeComp 0 { pairChunks with width := 2#32 } [1#8, 0#8, 0#8, 0#8, 7#8] [0#8, 0#8]).1 = [7#8, 0#8] ∧
    (decodeCloud bitsOps storeComp 0 { pairChunks with width := 2#32 } [1#8, 0#8, 0#8, 0#8, 7#8] [0#8, 0#8]).isThrow = true := by decide +kernel

/-- Padding survives a failing decode of the mixed cloud. -/
example : (left bitsOps storeComp 0 mixInfo (mixOut.take 60) (List.replicate 110 9#8))[18]? = some 9#8 ∧
    (left bitsOps storeComp 0 mixInfo (mixOut.take 60) (List.replicate 110 9#8)) = List.replicate 110 9#8 := by decide +kernel

/-- A stray byte behind the mixed cloud: exception, complete cloud. -/
example : (decodeCloud bitsOps storeComp 0 mixInfo (mixOut ++ [0#8]) (List.replicate 110 9#8)).isThrow = true ∧
    .ok (left bitsOps storeComp 0 mixInfo (mixOut ++ [0#8]) (List.replicate 110 9#8)) = decodeCloud bitsOps storeComp 0 mixInfo mixOut (List.replicate 110 9#8) := by
  have hk : (decodeCloud bitsOps storeComp 0 mixInfo mixOut (List.replicate 110 9#8)).isOk = true := by decide +kernel
  cases h : decodeCloud bitsOps storeComp 0 mixInfo mixOut (List.replicate 110 9#8) with
  | ok out =>
    obtain ⟨h1, h2⟩ := C82_appended bitsOps storeComp 0 mixInfo mixOut [0#8] _ out (by decide) h (by simp)
    exact ⟨h1, by rw [h2]⟩
  | throw e => rw [h] at hk; cases hk
  | ub u => rw [h] at hk; cases hk

/-- Version 2: the point that was complete is there, the buffer past it is not touched. -/
example : left bitsOps storeComp 10 { byteInfo2 with point_step := 2#32 } [5#8, 6#8, 7#8] [0#8, 1#8, 0#8, 1#8] = [5#8, 1#8, 6#8, 1#8] ∧
    (decodeCloud bitsOps storeComp 10 { byteInfo2 with point_step := 2#32 } [5#8, 6#8, 7#8] [0#8, 1#8, 0#8, 1#8]).isThrow = true := by decide +kernel

end Cloudini.Props
