import Verif.Model.Foxglove
import Verif.Props.C72

/-!
# C73: the Foxglove converter

`convertPointCloudWasm` of `cloudini_foxglove/src/PointCloudConverter.tsx`, for every allocator, every state of the memory and every message.
-/

namespace Cloudini.Props

open Cloudini.Ros Cloudini.Wasm Cloudini.Foxglove

/-- **C73, memory.** Whatever the message, the allocator and the state of the memory: when the converter returns or throws, the blocks in use are exactly
those that were in use before. -/
theorem C73_frees {α : Type} (T : FloatText) (F : FloatOps) (C : Compressor) (fuel : Nat) (M : Malloc) (hM : M.Lawful) (loaded : Bool) (h h' : Heap)
    (c : Compressed α) (r : Res (Foxglove.PointCloud α)) (hr : ∀ k, r ≠ .ub k) (e : convert T F C fuel M loaded h c = (h', r)) : h'.live = h.live := by
  unfold convert at e
  by_cases h0 : loaded = false
  · rw [if_pos h0] at e; cases e; rfl
  rw [if_neg h0] at e
  by_cases h1 : c.width.toNat * c.height.toNat = 0
  · rw [if_pos h1] at e; cases e; rfl
  rw [if_neg h1] at e
  by_cases h2 : h.size < 4 * c.data.length
  · rw [if_pos h2] at e; cases e; rfl
  rw [if_neg h2] at e
  cases e1 : M h c.data.length with
  | none => rw [e1] at e; cases e; rfl
  | some x =>
    obtain ⟨p, b0, s⟩ := x
    rw [e1] at e
    simp only at e
    cases e2 : M (h.take p s) (c.height.toNat * c.width.toNat * c.point_step.toNat % 2 ^ 32) with
    | none =>
      rw [e2] at e; cases e
      simp [Heap.free, Heap.take]
    | some x =>
      obtain ⟨q, block, s2⟩ := x
      rw [e2] at e
      simp only at e
      have hq : q ≠ p := by
        have := hM.fresh _ _ _ _ _ e2
        simp only [Heap.take, List.mem_cons, not_or] at this
        exact this.1
      have hlive : ((((h.take p s).take q s2).free p).free q).live = h.live := by
        simp only [Heap.free, Heap.take]
        rw [List.erase_cons_tail (by simpa using hq), List.erase_cons_head, List.erase_cons_head]
      cases e3 : decodeData T F C fuel c.data block with
      | ub k => rw [e3] at e; cases e; exact absurd rfl (hr k)
      | throw m => rw [e3] at e; cases e; exact hlive
      | ok o => rw [e3] at e; cases e; exact hlive

/-- The ways to a returned message. -/
theorem convert_inv {α : Type} {T : FloatText} {F : FloatOps} {C : Compressor} {fuel : Nat} {M : Malloc} {loaded : Bool} {h h' : Heap}
    {c : Compressed α} {m : Foxglove.PointCloud α} (e : convert T F C fuel M loaded h c = (h', .ok m)) :
    (c.width.toNat * c.height.toNat = 0 ∧ m = shell c) ∨
    ∃ h1 q block s2 o, 4 * c.data.length ≤ h.size ∧ M h1 (c.height.toNat * c.width.toNat * c.point_step.toNat % 2 ^ 32) = some (q, block, s2) ∧
      decodeData T F C fuel c.data block = .ok o ∧ collect c block o = .ok m ∧ c.width.toNat * c.height.toNat ≠ 0 := by
  unfold convert at e
  by_cases h0 : loaded = false
  · rw [if_pos h0] at e; cases e
  rw [if_neg h0] at e
  by_cases h1 : c.width.toNat * c.height.toNat = 0
  · rw [if_pos h1] at e; cases e; exact Or.inl ⟨h1, rfl⟩
  rw [if_neg h1] at e
  by_cases h2 : h.size < 4 * c.data.length
  · rw [if_pos h2] at e; cases e
  rw [if_neg h2] at e
  cases e1 : M h c.data.length with
  | none => rw [e1] at e; cases e
  | some x =>
    obtain ⟨p, b0, s⟩ := x
    rw [e1] at e
    simp only at e
    cases e2 : M (h.take p s) (c.height.toNat * c.width.toNat * c.point_step.toNat % 2 ^ 32) with
    | none => rw [e2] at e; cases e
    | some x =>
      obtain ⟨q, block, s2⟩ := x
      rw [e2] at e
      simp only at e
      cases e3 : decodeData T F C fuel c.data block with
      | ub k => rw [e3] at e; cases e
      | throw m => rw [e3] at e; cases e
      | ok o =>
        rw [e3] at e
        simp only [Prod.mk.injEq] at e
        exact Or.inr ⟨_, q, block, s2, o, by omega, e2, e3, e.2, h1⟩

/-- `collect` keeps everything but the data. -/
theorem collect_inv {α : Type} {c : Compressed α} {block : List Byte} {o : Out} {m : Foxglove.PointCloud α} (e : collect c block o = .ok m) :
    o.ret ≠ 0 ∧ o.ret < 2 ^ 31 ∧ m = { shell c with data := ((o.bytes.getD []) ++ block.drop (o.bytes.getD []).length).take o.ret } := by
  unfold collect at e
  by_cases h0 : o.ret = 0
  · rw [if_pos h0] at e; cases e
  rw [if_neg h0] at e
  by_cases h1 : 2 ^ 31 ≤ o.ret
  · rw [if_pos h1] at e; cases e
  rw [if_neg h1] at e
  cases e
  exact ⟨h0, by omega, rfl⟩

/-- **C73, everything but the data**: a returned message has the header, size, fields and density of the compressed one; its row step is that of packed
rows; it is declared little-endian. -/
theorem C73_metadata {α : Type} (T : FloatText) (F : FloatOps) (C : Compressor) (fuel : Nat) (M : Malloc) (loaded : Bool) (h h' : Heap)
    (c : Compressed α) (m : Foxglove.PointCloud α) (e : convert T F C fuel M loaded h c = (h', .ok m)) :
    m.frame = c.frame ∧ m.sec = c.sec ∧ m.nsec = c.nsec ∧ m.height = c.height ∧ m.width = c.width ∧ m.fields = c.fields ∧ m.point_step = c.point_step ∧
      m.dense = c.dense ∧ m.row_step = c.point_step.toNat * c.width.toNat ∧ m.bigendian = false := by
  have key : ∃ d, m = { shell c with data := d } := by
    rcases convert_inv e with ⟨_, rfl⟩ | ⟨_, _, _, _, _, _, _, _, e', _⟩
    · exact ⟨[], rfl⟩
    · exact ⟨_, (collect_inv e').2.2⟩
  obtain ⟨d, rfl⟩ := key
  exact ⟨rfl, rfl, rfl, rfl, rfl, rfl, rfl, rfl, rfl, rfl⟩

/-- **C73, empty clouds**: a message that announces no points is answered without decoding anything, with no data. -/
theorem C73_empty {α : Type} (T : FloatText) (F : FloatOps) (C : Compressor) (fuel : Nat) (M : Malloc) (h : Heap) (c : Compressed α)
    (hz : c.width = 0#32 ∨ c.height = 0#32) : convert T F C fuel M true h c = (h, .ok (shell c)) ∧ (shell c).data = [] := by
  refine ⟨?_, rfl⟩
  unfold convert
  rw [if_neg (by simp), if_pos]
  rcases hz with h | h <;> rw [h] <;> simp

/-- **C73, nothing is made up**: a returned message of a cloud with points holds what the decoder made of the file inside; in particular the file has a
readable header, decodes, and is not larger than the message says.  Everything else ends in an exception or outside the block. -/
theorem C73_any_message {α : Type} (T : FloatText) (F : FloatOps) (C : Compressor) (fuel : Nat) (M : Malloc) (hM : M.Lawful) (loaded : Bool) (h h' : Heap)
    (c : Compressed α) (m : Foxglove.PointCloud α) (hw : c.width ≠ 0#32) (hh : c.height ≠ 0#32) (e : convert T F C fuel M loaded h c = (h', .ok m)) :
    ∃ (info : EncodingInfo) (payload block : List Byte), decodeHeader T c.data = .ok (info, payload) ∧ block.length = c.height.toNat * c.width.toNat * c.point_step.toNat % 2 ^ 32 ∧
      m.data.length = info.width.toNat * info.height.toNat * info.point_step.toNat % 2 ^ 32 ∧ m.data.length ≠ 0 ∧ m.data.length ≤ block.length ∧
      (3 ≤ info.version.toNat → decodeCloud F C fuel info payload (block.take m.data.length) = .ok m.data ∧
        ∀ p, p < m.data.length → ¬ Declared info p → m.data[p]? = block[p]?) := by
  rcases convert_inv e with ⟨hz, _⟩ | ⟨_, _, block, _, o, _, e2, e3, e4, _⟩
  · rcases Nat.mul_eq_zero.1 hz with h0 | h0
    · exact absurd (BitVec.eq_of_toNat_eq (by simpa using h0)) hw
    · exact absurd (BitVec.eq_of_toNat_eq (by simpa using h0)) hh
  obtain ⟨h0, h1, rfl⟩ := collect_inv e4
  have hbl := hM.size _ _ _ _ _ e2
  unfold decodeData at e3
  cases hd : decodeHeader T c.data with
  | throw x => rw [hd] at e3; simp only [Res.ok.injEq] at e3; rw [← e3] at h0; exact absurd rfl h0
  | ub k => rw [hd] at e3; simp at e3
  | ok r =>
    obtain ⟨info, payload⟩ := r
    rw [hd] at e3
    simp only at e3
    have hmul : (info.width * info.height * info.point_step).toNat = info.width.toNat * info.height.toNat * info.point_step.toNat % 2 ^ 32 := by
      rw [BitVec.toNat_mul, BitVec.toNat_mul, Nat.mod_mul_mod]
    by_cases hroom : block.length < (info.width * info.height * info.point_step).toNat
    · rw [if_pos hroom] at e3; cases e3
    rw [if_neg hroom] at e3
    cases hc : decodeCloud F C fuel info payload (block.take (info.width * info.height * info.point_step).toNat) with
    | throw x => rw [hc] at e3; simp only [Res.throw_bind, guarded, Res.ok.injEq] at e3; rw [← e3] at h0; exact absurd rfl h0
    | ub k => rw [hc] at e3; simp [guarded] at e3
    | ok buf =>
      rw [hc] at e3
      simp only [Res.ok_bind, guarded, Res.ok.injEq] at e3
      subst e3
      simp only [Option.getD_some] at h0 h1 ⊢
      have hlen : (List.take (info.width * info.height * info.point_step).toNat (buf ++ List.drop buf.length block)).length =
          (info.width * info.height * info.point_step).toNat := by
        rw [List.length_take, List.length_append, List.length_drop]
        omega
      refine ⟨info, payload, block, rfl, hbl, by rw [hlen, hmul], by rw [hlen]; exact h0, by rw [hlen]; omega, fun hv => ?_⟩
      have hstep : 0 < info.point_step.toNat := by
        rcases Nat.eq_zero_or_pos info.point_step.toNat with h | h
        · rw [hmul, h] at h0; simp at h0
        · exact h
      obtain ⟨g1, g2⟩ := C19_untouched F C info payload _ buf fuel hstep hv (by rw [List.length_take]; omega) hc
      have hb : buf.length = (info.width * info.height * info.point_step).toNat := by
        rw [g1, List.length_take]; omega
      have hdat : List.take (info.width * info.height * info.point_step).toNat (buf ++ List.drop buf.length block) = buf := by
        rw [← hb, List.take_left]
      rw [hlen, hdat]
      refine ⟨hc, fun p hp hnd => ?_⟩
      rw [g2 p hnd, List.getElem?_take_of_lt hp]

/-- A file that is larger than the message says (in 32 bits) is decoded past the end of the block: nothing compares the two sizes. -/
theorem C73_overflow {α : Type} (T : FloatText) (F : FloatOps) (C : Compressor) (fuel : Nat) (M : Malloc) (hM : M.Lawful) (h : Heap) (c : Compressed α)
    (p q s s2 : Nat) (b0 block payload : List Byte) (info : EncodingInfo) (hw : c.width ≠ 0#32) (hh : c.height ≠ 0#32) (hsize : 4 * c.data.length ≤ h.size)
    (e1 : M h c.data.length = some (p, b0, s))
    (e2 : M (h.take p s) (c.height.toNat * c.width.toNat * c.point_step.toNat % 2 ^ 32) = some (q, block, s2))
    (hhead : decodeHeader T c.data = .ok (info, payload))
    (hbig : c.height.toNat * c.width.toNat * c.point_step.toNat % 2 ^ 32 < info.width.toNat * info.height.toNat * info.point_step.toNat % 2 ^ 32) :
    (convert T F C fuel M true h c).2 = .ub .mem := by
  have hz : c.width.toNat * c.height.toNat ≠ 0 := by
    intro hz
    rcases Nat.mul_eq_zero.1 hz with h0 | h0
    · exact hw (BitVec.eq_of_toNat_eq (by simpa using h0))
    · exact hh (BitVec.eq_of_toNat_eq (by simpa using h0))
  have hmul : (info.width * info.height * info.point_step).toNat = info.width.toNat * info.height.toNat * info.point_step.toNat % 2 ^ 32 := by
    rw [BitVec.toNat_mul, BitVec.toNat_mul, Nat.mod_mul_mod]
  have hd : decodeData T F C fuel c.data block = .ub .mem := by
    unfold decodeData
    rw [hhead]
    simp only
    rw [if_pos]
    rw [hM.size _ _ _ _ _ e2, hmul]
    exact hbig
  unfold convert
  rw [if_neg (by simp), if_neg hz, if_neg (by omega), e1]
  simp only
  rw [e2]
  simp only
  rw [hd]

/-- A message whose file decodes: what is returned. -/
theorem convert_ok {α : Type} {T : FloatText} {F : FloatOps} {C : Compressor} {fuel : Nat} {M : Malloc} (hM : M.Lawful) {h : Heap} {c : Compressed α}
    {p q s s2 : Nat} {b0 block payload buf : List Byte} {info : EncodingInfo} (hw : c.width ≠ 0#32) (hh : c.height ≠ 0#32) (hsize : 4 * c.data.length ≤ h.size)
    (e1 : M h c.data.length = some (p, b0, s))
    (e2 : M (h.take p s) (c.height.toNat * c.width.toNat * c.point_step.toNat % 2 ^ 32) = some (q, block, s2))
    (hhead : decodeHeader T c.data = .ok (info, payload)) (n : Nat) (hn : info.width.toNat * info.height.toNat * info.point_step.toNat % 2 ^ 32 = n)
    (hpos : 0 < n) (hlt : n < 2 ^ 31) (hfit : n ≤ c.height.toNat * c.width.toNat * c.point_step.toNat % 2 ^ 32)
    (hdec : decodeCloud F C fuel info payload (block.take n) = .ok buf) (hbuf : buf.length = n) :
    (convert T F C fuel M true h c).2 = .ok { shell c with data := buf } := by
  have hz : c.width.toNat * c.height.toNat ≠ 0 := by
    intro hz
    rcases Nat.mul_eq_zero.1 hz with h0 | h0
    · exact hw (BitVec.eq_of_toNat_eq (by simpa using h0))
    · exact hh (BitVec.eq_of_toNat_eq (by simpa using h0))
  have hmul : (info.width * info.height * info.point_step).toNat = n := by
    rw [BitVec.toNat_mul, BitVec.toNat_mul, Nat.mod_mul_mod, hn]
  have hd : decodeData T F C fuel c.data block = .ok ⟨n, some buf⟩ := by
    unfold decodeData
    rw [hhead]
    simp only
    rw [hmul, if_neg (by rw [hM.size _ _ _ _ _ e2]; omega), hdec]
    rfl
  unfold convert
  rw [if_neg (by simp), if_neg hz, if_neg (by omega), e1]
  simp only
  rw [e2]
  simp only
  rw [hd]
  unfold collect
  simp only [Option.getD_some]
  rw [if_neg (by omega), if_neg (by omega), List.take_append_of_le_length (by omega), List.take_of_length_le (by omega)]

/-- **C73 fails for a file smaller than the message says**: the sizes are compared, a warning is printed, and the message returned has fewer bytes than its
height and row step ask for. -/
theorem C73_short_data {α : Type} (T : FloatText) (F : FloatOps) (C : Compressor) (fuel : Nat) (M : Malloc) (hM : M.Lawful) (h : Heap) (c : Compressed α)
    (p q s s2 : Nat) (b0 block payload buf : List Byte) (info : EncodingInfo) (hw : c.width ≠ 0#32) (hh : c.height ≠ 0#32) (hsize : 4 * c.data.length ≤ h.size)
    (e1 : M h c.data.length = some (p, b0, s))
    (e2 : M (h.take p s) (c.height.toNat * c.width.toNat * c.point_step.toNat % 2 ^ 32) = some (q, block, s2))
    (hhead : decodeHeader T c.data = .ok (info, payload)) (hv : 3 ≤ info.version.toNat) (n : Nat) (hn : info.width.toNat * info.height.toNat * info.point_step.toNat = n)
    (hpos : 0 < n) (hlt : n < 2 ^ 31) (hfit : n < c.height.toNat * c.width.toNat * c.point_step.toNat % 2 ^ 32)
    (hdec : decodeCloud F C fuel info payload (block.take n) = .ok buf) :
    ∃ m, (convert T F C fuel M true h c).2 = .ok m ∧ m.data.length < m.row_step * m.height.toNat := by
  have hstep : 0 < info.point_step.toNat := by
    rcases Nat.eq_zero_or_pos info.point_step.toNat with h | h
    · rw [h] at hn; simp at hn; omega
    · exact h
  have hbl := hM.size _ _ _ _ _ e2
  obtain ⟨g1, _⟩ := C19_untouched F C info payload _ buf fuel hstep hv (by rw [List.length_take]; omega) hdec
  have hb : buf.length = n := by rw [g1, List.length_take]; omega
  refine ⟨_, convert_ok hM hw hh hsize e1 e2 hhead n (by rw [hn, Nat.mod_eq_of_lt (by omega)]) hpos hlt (by omega) hdec hb, ?_⟩
  have hle : c.height.toNat * c.width.toNat * c.point_step.toNat % 2 ^ 32 ≤ c.height.toNat * c.width.toNat * c.point_step.toNat := Nat.mod_le _ _
  have hcm : c.point_step.toNat * c.width.toNat * c.height.toNat = c.height.toNat * c.width.toNat * c.point_step.toNat := by
    rw [Nat.mul_comm, Nat.mul_comm c.point_step.toNat, Nat.mul_assoc]
  show buf.length < c.point_step.toNat * c.width.toNat * c.height.toNat
  rw [hcm]
  omega

/-- The members Foxglove's deserialiser reads out of a message. -/
def ofMessage (pc : Pc2) (bigendian : Bool) : Compressed (List PointField) :=
  { frame := pc.frame, sec := pc.sec, nsec := pc.nsec, height := pc.height, width := pc.width, fields := pc.fields, bigendian := bigendian,
    point_step := pc.point_step, dense := pc.dense ≠ 0#8, data := pc.data }

/-- **C73 (partial).** A message the library made of a cloud (of less than 2 GiB) that has the description's own width, height and point step, with enough
memory: the message returned has the members of the original one and all values the codec promises.  Missing: what `FileOk` and C18 exclude; the
endianness flag is not kept (`C73_metadata`). -/
theorem C73_roundtrip_partial (T : FloatText) (hT : T.Lawful) (F : FloatOps) (C : Compressor) (hC : C.Lawful) (fuel : Nat) (M : Malloc) (hM : M.Lawful) (heap : Heap)
    (raw msg : List Byte) (pc pcC : Pc2) (info : EncodingInfo) (big : Bool) (hread : getMessage raw = .ok pc) (hraw : raw.length < 2 ^ 32) (hlittle : pc.cdr.big = false) (hne : pc.data ≠ [])
    (hw : info.width = pc.width) (hh : info.height = pc.height) (hs : info.point_step = pc.point_step) (ok : FileOk T F info pc.data)
    (hlim : info.compression_opt = .none ∨ ∀ enc, mkEncoder F info (encodeHeaderYaml T info) = .ok enc → ChunksWithin F enc pc.data pc.data.length)
    (hmsg : msg.length < 1431260227) (e : toCompressed T F C pc info = .ok msg) (hdata : pc.data.length < 2 ^ 31) (hgot : getMessage msg = .ok pcC)
    (p q s s2 : Nat) (b0 block : List Byte) (hsize : 4 * pcC.data.length ≤ heap.size) (e1 : M heap pcC.data.length = some (p, b0, s))
    (e2 : M (heap.take p s) pc.data.length = some (q, block, s2)) :
    ∃ m, (convert T F C fuel M true heap (ofMessage pcC big)).2 = .ok m ∧ m.frame = pc.frame ∧ m.sec = pc.sec ∧ m.nsec = pc.nsec ∧ m.height = pc.height ∧
      m.width = pc.width ∧ m.fields = pcC.fields ∧ m.point_step = pc.point_step ∧ (m.dense = true ↔ pc.dense ≠ 0#8) ∧
      m.data.length = pc.data.length ∧ m.data.length = m.row_step * m.height.toNat ∧ Decoded F info pc.data m.data := by
  obtain ⟨hwire, hfits, hdl, hcanon⟩ := getMessage_inv hread hraw
  obtain ⟨st, m, enc, enc', out, i1, i2, i3, i4, i5, i6⟩ := toCompressed_inv e hne
  have ho : out.length < 1431260227 := by
    obtain ⟨x, rfl⟩ := encString_prefix i6
    rw [Cdr.encPrim_eq _ 1 _ _ (by omega)] at hmsg
    simp only [List.length_append] at hmsg
    omega
  have hal := (writeHeader_aligned (by simp [Cdr.encInit]) i1).1
  obtain ⟨x, hx⟩ := encString_prefix i6
  have hm : getMessage msg = .ok (echo pc out) := by
    rw [hx, ← encBuf_at hlittle (by omega : out.length < 2 ^ 32) hal]
    exact getMessage_encode pc hwire hfits out (by omega) _ x (encode_pc i1)
  rw [hm] at hgot
  cases hgot
  obtain ⟨_, payload, t1, t2⟩ := view_trip hT hC ok i4 i5 (hlim.imp_right fun h => h enc i4) ho
  have hsz := ok.data.size
  have hpos := List.length_pos_of_ne_nil hne
  have hbl := hM.size _ _ _ _ _ e2
  obtain ⟨buf, h4, h5, h6⟩ := t2 fuel (block.take pc.data.length) (by rw [List.length_take]; omega)
  have hb : buf.length = pc.data.length := by rw [h5, List.length_take]; omega
  have hprod : pc.height.toNat * pc.width.toNat * pc.point_step.toNat = pc.data.length := by
    rw [hsz, hw, hh, hs, Nat.mul_comm pc.height.toNat]
  have hz : pc.width.toNat * pc.height.toNat ≠ 0 := by
    intro h0
    rw [← hprod, Nat.mul_comm pc.height.toNat, h0] at hpos
    simp at hpos
  have hw0 : (ofMessage (echo pc out) big).width ≠ 0#32 := by
    intro h0
    have h0 : pc.width = 0#32 := h0
    rw [h0] at hz; simp at hz
  have hh0 : (ofMessage (echo pc out) big).height ≠ 0#32 := by
    intro h0
    have h0 : pc.height = 0#32 := h0
    rw [h0] at hz; simp at hz
  have hcv := convert_ok (c := ofMessage (echo pc out) big) (fuel := fuel) (T := T) (F := F) (C := C) (info := info) (payload := payload) (buf := buf) hM hw0 hh0 hsize e1
    (q := q) (block := block) (s2 := s2) (by
      show M (heap.take p s) (pc.height.toNat * pc.width.toNat * pc.point_step.toNat % 2 ^ 32) = _
      rw [hprod, Nat.mod_eq_of_lt (by omega)]; exact e2) t1 pc.data.length (by rw [← hsz, Nat.mod_eq_of_lt (by omega)]) hpos hdata
    (by
      show _ ≤ pc.height.toNat * pc.width.toNat * pc.point_step.toNat % 2 ^ 32
      rw [hprod, Nat.mod_eq_of_lt (by omega)]) h4 hb
  refine ⟨_, hcv, rfl, rfl, rfl, rfl, rfl, rfl, rfl, ?_, hb, ?_, h6⟩
  · show decide (pc.dense ≠ 0#8) = true ↔ _
    simp
  · show buf.length = pc.point_step.toNat * pc.width.toNat * pc.height.toNat
    rw [hb, ← hprod, Nat.mul_comm (pc.point_step.toNat * _), Nat.mul_comm pc.point_step.toNat, Nat.mul_assoc]

/-! ### the hypotheses are met -/

/-- An allocator that always finds room. -/
def bump : Malloc := fun h n => some (h.live.foldr max 0 + 1, List.replicate n 0xEE#8, h.size)

theorem le_foldr_max (l : List Nat) : ∀ a ∈ l, a ≤ l.foldr max 0 := by
  induction l with
  | nil => simp
  | cons x xs ih =>
    intro a ha
    simp only [List.foldr_cons]
    rcases List.mem_cons.1 ha with rfl | ha
    · exact Nat.le_max_left _ _
    · exact Nat.le_trans (ih a ha) (Nat.le_max_right _ _)

theorem bump_lawful : bump.Lawful where
  fresh := by
    intro h n a b s e hm
    cases e
    have := le_foldr_max _ _ hm
    omega
  size := by
    intro h n a b s e
    cases e
    simp

/-- A memory of one megabyte with a block of somebody else. -/
def someHeap : Heap := ⟨2 ^ 20, [5]⟩

/-- The mixed cloud in Foxglove. -/
example : ∃ pcC m, getMessage mixMsg = .ok pcC ∧ (convert bitsText bitsOps storeComp 0 bump true someHeap (ofMessage pcC true)).2 = .ok m ∧ m.frame = ascii "lidar" ∧
    m.data.length = 108 ∧ m.row_step = 108 ∧ Decoded bitsOps mixInfo mixCloud m.data := by
  have hlen : (match getMessage mixMsg with | .ok x => decide (4 * x.data.length ≤ 2 ^ 20) | _ => false) = true := by decide +kernel
  have h108 : mixPc.data.length = 108 := by decide +kernel
  cases hg : getMessage mixMsg with
  | throw m => rw [hg] at hlen; simp at hlen
  | ub k => rw [hg] at hlen; simp at hlen
  | ok pcC =>
    rw [hg] at hlen
    simp only [decide_eq_true_eq] at hlen
    obtain ⟨m, h1, h2, _, _, hh, hw, _, hs, _, h3, _, h4⟩ := C73_roundtrip_partial bitsText bitsText_lawful bitsOps storeComp storeComp_lawful 0 bump bump_lawful someHeap
      mixRaw mixMsg mixPc pcC mixInfo true mixRaw_read (by decide +kernel) rfl (by decide) rfl rfl rfl mix_ok (Or.inl rfl) (by decide +kernel) mixMsg_eq
      (by decide +kernel) hg _ _ _ _ _ _ hlen rfl rfl
    refine ⟨pcC, m, rfl, h1, h2, by rw [h3, h108], ?_, h4⟩
    obtain ⟨_, _, _, _, hw', _, hs', _, hr, _⟩ := C73_metadata bitsText bitsOps storeComp 0 bump true someHeap _ _ m (Prod.ext rfl h1)
    rw [hr, ← hw', ← hs', hw, hs]
    decide

/-- A message that announces one byte around a file of two, and one that announces four. -/
def lieCompressed : Compressed (List PointField) := ofMessage liePc false
def wideCompressed : Compressed (List PointField) := { ofMessage liePc false with width := 4#32 }

theorem pair_facts : (match decodeHeader bitsText pairOut with
    | .ok (i, p) => decide (i = { pairInfo with version := i.version } ∧ 3 ≤ i.version.toNat ∧ decodeCloud bitsOps storeComp 0 i p [0xEE#8, 0xEE#8] = .ok [7#8, 8#8])
    | _ => false) = true := by decide +kernel

example : (convert bitsText bitsOps storeComp 0 bump true someHeap lieCompressed).2 = .ub .mem := by
  have h := pair_facts
  cases e : decodeHeader bitsText pairOut with
  | throw m => rw [e] at h; simp at h
  | ub k => rw [e] at h; simp at h
  | ok r =>
    obtain ⟨i, p⟩ := r
    rw [e] at h
    simp only [decide_eq_true_eq] at h
    refine C73_overflow bitsText bitsOps storeComp 0 bump bump_lawful someHeap lieCompressed _ _ _ _ _ _ p i (by decide) (by decide) (by decide +kernel) rfl rfl e ?_
    rw [h.1]
    show _ < pairInfo.width.toNat * pairInfo.height.toNat * pairInfo.point_step.toNat % 2 ^ 32
    decide

example : ∃ m, (convert bitsText bitsOps storeComp 0 bump true someHeap wideCompressed).2 = .ok m ∧ m.data.length < m.row_step * m.height.toNat := by
  have h := pair_facts
  cases e : decodeHeader bitsText pairOut with
  | throw m => rw [e] at h; simp at h
  | ub k => rw [e] at h; simp at h
  | ok r =>
    obtain ⟨i, p⟩ := r
    rw [e] at h
    simp only [decide_eq_true_eq] at h
    exact C73_short_data bitsText bitsOps storeComp 0 bump bump_lawful someHeap wideCompressed _ _ _ _ _ _ p [7#8, 8#8] i (by decide) (by decide) (by decide +kernel) rfl rfl e
      h.2.1 2 (by rw [h.1]; show pairInfo.width.toNat * pairInfo.height.toNat * pairInfo.point_step.toNat = 2; decide) (by decide) (by decide) (by decide) h.2.2

/-- The hypotheses of `C73_any_message`, `C73_metadata` and `C73_frees` hold of that conversion; an allocator that fails the second time gives the first block back. -/
example : (convert bitsText bitsOps storeComp 0 (fun h n => if h.live.length < 2 then bump h n else none) true someHeap wideCompressed).1 = someHeap := by decide +kernel
example : (convert bitsText bitsOps storeComp 0 bump true someHeap wideCompressed).1.live = someHeap.live :=
  C73_frees bitsText bitsOps storeComp 0 bump bump_lawful true someHeap _ wideCompressed (convert bitsText bitsOps storeComp 0 bump true someHeap wideCompressed).2
    (by
      have h : (match (convert bitsText bitsOps storeComp 0 bump true someHeap wideCompressed).2 with | .ok _ => true | _ => false) = true := by decide +kernel
      intro k hk
      rw [hk] at h
      simp at h) rfl
example : (convert bitsText bitsOps storeComp 0 bump true someHeap { lieCompressed with width := 0#32 }).2.isOk = true := by
  rw [(C73_empty bitsText bitsOps storeComp 0 bump someHeap { lieCompressed with width := 0#32 } (Or.inl rfl)).1]
  rfl

end Cloudini.Props
