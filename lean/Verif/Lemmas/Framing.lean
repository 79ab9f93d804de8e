import Verif.Lemmas.Unfold
import Verif.Lemmas.Header

/-!
# The chunk loop of the decoder accepts exactly the framed payloads
-/

namespace Cloudini

/-- Length-prefixed chunks, one after the other. -/
def frame : List (List Byte) → List Byte
  | [] => []
  | c :: cs => toLE 4 c.length ++ c ++ frame cs

theorem frame_append (a b : List (List Byte)) : frame (a ++ b) = frame a ++ frame b := by
  induction a with
  | nil => rfl
  | cons c cs ih => simp [frame, ih]

theorem decodeInt4_inv {b rest : List Byte} {v : Nat} (h : decodeInt 4 b = .ok (v, rest)) : v < 2 ^ 32 ∧ b = toLE 4 v ++ rest := by
  rw [decodeInt_def] at h
  by_cases hl : 4 ≤ b.length
  case neg => rw [if_neg hl] at h; simp at h
  rw [if_pos hl] at h
  simp only [Res.ok.injEq, Prod.mk.injEq] at h
  obtain ⟨rfl, rfl⟩ := h
  have hlen : (b.take 4).length = 4 := by simp; omega
  constructor
  · have := fromLE_lt (b.take 4); rw [hlen] at this; simpa using this
  · rw [toLE_fromLE' hlen]
    simp

theorem decodeLoop_nil (F : FloatOps) (C : Compressor) (info : EncodingInfo) (min' points : Nat) (ds : List Dec) (buf : List Byte) (base : Nat) :
    decodeLoop F C info min' points ds [] buf base =
      if points ≠ 0 then .throw "Encoded data ended before all declared points were decoded" else .ok buf := by
  rw [decodeLoop]; simp

/-- One step of the loop. -/
theorem decodeLoop_inv {F : FloatOps} {C : Compressor} {info : EncodingInfo} {min' points : Nat} {ds : List Dec} {data buf r : List Byte} {base : Nat}
    (h : decodeLoop F C info min' points ds data buf base = .ok r) :
    (data = [] ∧ points = 0 ∧ r = buf) ∨
    (points ≠ 0 ∧ ∃ c rest ds' buf' base', c.length < 2 ^ 32 ∧ data = toLE 4 c.length ++ c ++ rest ∧
      decodeChunk F C 0 info ds min' c buf base (min points kPointsPerChunk) = .ok (ds', buf', base') ∧
      decodeLoop F C info min' (points - min points kPointsPerChunk) ds' rest buf' base' = .ok r) := by
  rw [decodeLoop] at h
  by_cases hd : data.length = 0
  · rw [if_pos hd] at h
    by_cases hp : points = 0
    · simp only [hp, ne_eq, not_true, if_false, Res.ok.injEq] at h
      exact Or.inl ⟨List.length_eq_zero_iff.1 hd, hp, h.symm⟩
    · simp [hp] at h
  rw [if_neg hd] at h
  by_cases hp : points = 0
  · rw [dif_pos hp] at h; simp at h
  rw [dif_neg hp] at h
  refine Or.inr ⟨hp, ?_⟩
  obtain ⟨⟨size, d⟩, h1, h2⟩ := Res.bind_eq_ok.1 h
  clear h
  have h := h2
  clear h2
  obtain ⟨hlt, rfl⟩ := decodeInt4_inv h1
  simp only at h
  by_cases hs : size > d.length
  · rw [if_pos hs] at h; simp at h
  rw [if_neg hs] at h
  obtain ⟨⟨ds', buf', base'⟩, h2, h⟩ := Res.bind_eq_ok.1 h
  have hc : (d.take size).length = size := by simp; omega
  exact ⟨d.take size, d.drop size, ds', buf', base', by rw [hc]; exact hlt, by rw [hc]; simp, h2, h⟩

/-- One step forward. -/
theorem decodeLoop_step {F : FloatOps} {C : Compressor} {info : EncodingInfo} {min' points : Nat} {ds ds' : List Dec} {c buf buf' : List Byte}
    {base base' : Nat} (hp : points ≠ 0) (hc : c.length < 2 ^ 32)
    (h : decodeChunk F C 0 info ds min' c buf base (min points kPointsPerChunk) = .ok (ds', buf', base')) (rest : List Byte) :
    decodeLoop F C info min' points ds (toLE 4 c.length ++ c ++ rest) buf base =
      decodeLoop F C info min' (points - min points kPointsPerChunk) ds' rest buf' base' := by
  rw [decodeLoop, if_neg (by simp [toLE_length]), dif_neg hp, List.append_assoc, decodeInt_toLE 4 _ (by simpa using hc)]
  simp only [Res.ok_bind]
  rw [if_neg (by simp)]
  simp only [List.take_left, List.drop_left]
  rw [h]
  rfl

theorem points_step (points : Nat) (hp : points ≠ 0) :
    (points - min points kPointsPerChunk + 32767) / 32768 + 1 = (points + 32767) / 32768 := by
  simp only [kPointsPerChunk]
  omega

theorem decodeLoop_framed_of_ok {F : FloatOps} {C : Compressor} {info : EncodingInfo} {min' : Nat} (points : Nat) {ds : List Dec} {data buf r : List Byte} {base : Nat}
    (h : decodeLoop F C info min' points ds data buf base = .ok r) :
    ∃ chunks, data = frame chunks ∧ chunks.length = (points + 32767) / 32768 ∧ ∀ c ∈ chunks, c.length < 2 ^ 32 := by
  induction points using Nat.strongRecOn generalizing ds data buf base with
  | _ points ih =>
    rcases decodeLoop_inv h with ⟨rfl, rfl, rfl⟩ | ⟨hp, c, rest, ds', buf', base', hc, rfl, _, h'⟩
    · exact ⟨[], rfl, by simp, by simp⟩
    · obtain ⟨cs, rfl, hl, hcs⟩ := ih _ (by simp only [kPointsPerChunk]; omega) h'
      refine ⟨c :: cs, rfl, ?_, ?_⟩
      · rw [List.length_cons, hl, points_step points hp]
      · intro x hx
        rcases List.mem_cons.1 hx with rfl | hx
        · exact hc
        · exact hcs x hx

theorem decodeLoop_longer {F : FloatOps} {C : Compressor} {info : EncodingInfo} {min' : Nat} (points : Nat) {ds : List Dec} {data buf r : List Byte} {base : Nat}
    (h : decodeLoop F C info min' points ds data buf base = .ok r) (extra : List Byte) (he : extra ≠ []) :
    (decodeLoop F C info min' points ds (data ++ extra) buf base).isThrow = true := by
  induction points using Nat.strongRecOn generalizing ds data buf base with
  | _ points ih =>
    rcases decodeLoop_inv h with ⟨rfl, rfl, rfl⟩ | ⟨hp, c, rest, ds', buf', base', hc, rfl, h1, h'⟩
    · rw [decodeLoop, List.nil_append, if_neg (by simpa using he), dif_pos rfl]; rfl
    · rw [List.append_assoc, decodeLoop_step hp hc h1]
      exact ih _ (by simp only [kPointsPerChunk]; omega) h'

theorem decodeInt_short (k : Nat) (b : List Byte) (h : b.length < k) : (decodeInt k b).isThrow = true := by
  rw [decodeInt_def]; rw [if_neg (by omega)]; rfl

theorem throw_bind_isThrow {α β : Type} {x : Res α} (f : α → Res β) (h : x.isThrow = true) : (x >>= f).isThrow = true := by
  cases x <;> simp_all

/-- A chunk length that exceeds the bytes left. -/
theorem decodeLoop_overlong (F : FloatOps) (C : Compressor) (info : EncodingInfo) (min' points : Nat) (ds : List Dec) (buf : List Byte) (base n : Nat)
    (hn : n < 2 ^ 32) (rest : List Byte) (hr : rest.length < n) :
    (decodeLoop F C info min' points ds (toLE 4 n ++ rest) buf base).isThrow = true := by
  rw [decodeLoop, if_neg (by simp [toLE_length])]
  split
  · rfl
  · rw [decodeInt_toLE 4 _ (by simpa using hn)]
    simp only [Res.ok_bind]
    rw [if_pos hr]; rfl

/-- Fewer than four bytes where a length is due. -/
theorem decodeLoop_tail (F : FloatOps) (C : Compressor) (info : EncodingInfo) (min' points : Nat) (ds : List Dec) (buf : List Byte) (base : Nat)
    (data : List Byte) (hd : data.length < 4) (hp : points ≠ 0) :
    (decodeLoop F C info min' points ds data buf base).isThrow = true := by
  rw [decodeLoop]
  split
  · rfl
  · exact throw_bind_isThrow _ (decodeInt_short 4 _ hd)

theorem decodeLoop_shorter {F : FloatOps} {C : Compressor} {info : EncodingInfo} {min' : Nat} (points : Nat) {ds : List Dec} {data buf r : List Byte} {base : Nat}
    (h : decodeLoop F C info min' points ds data buf base = .ok r) (k : Nat) (hk : k < data.length) :
    (decodeLoop F C info min' points ds (data.take k) buf base).isThrow = true := by
  induction points using Nat.strongRecOn generalizing ds data buf base k with
  | _ points ih =>
    rcases decodeLoop_inv h with ⟨rfl, rfl, rfl⟩ | ⟨hp, c, rest, ds', buf', base', hc, rfl, h1, h'⟩
    · simp at hk
    · by_cases h4 : k < 4
      · exact decodeLoop_tail _ _ _ _ _ _ _ _ _ (by simp; omega) hp
      · by_cases hin : k < 4 + c.length
        · have : (toLE 4 c.length ++ c ++ rest).take k = toLE 4 c.length ++ c.take (k - 4) := by
            rw [List.append_assoc, List.take_append, toLE_length, List.take_of_length_le (by rw [toLE_length]; omega),
              List.take_append, show k - 4 - c.length = 0 by omega]
            simp
          rw [this]
          exact decodeLoop_overlong _ _ _ _ _ _ _ _ _ hc _ (by simp; omega)
        · have : (toLE 4 c.length ++ c ++ rest).take k = toLE 4 c.length ++ c ++ rest.take (k - (4 + c.length)) := by
            rw [List.take_append, List.take_of_length_le (by simp [toLE_length]; omega)]
            simp [toLE_length]
          rw [this, decodeLoop_step hp hc h1]
          simp only [List.length_append, toLE_length] at hk
          exact ih _ (by simp only [kPointsPerChunk]; omega) h' _ (by omega)

/-- Any chunk's length field replaced by one that exceeds the bytes left. -/
theorem decodeLoop_badLength {F : FloatOps} {C : Compressor} {info : EncodingInfo} {min' : Nat} (points : Nat) {ds : List Dec} {buf r : List Byte} {base : Nat}
    (pre : List (List Byte)) (c rest : List Byte) (hpre : ∀ x ∈ pre, x.length < 2 ^ 32)
    (h : decodeLoop F C info min' points ds (frame pre ++ (toLE 4 c.length ++ c ++ rest)) buf base = .ok r) (n : Nat) (hn : n < 2 ^ 32)
    (hr : (c ++ rest).length < n) :
    (decodeLoop F C info min' points ds (frame pre ++ (toLE 4 n ++ c ++ rest)) buf base).isThrow = true := by
  induction points using Nat.strongRecOn generalizing ds buf base pre with
  | _ points ih =>
    cases pre with
    | nil =>
      rw [frame, List.nil_append, List.append_assoc]
      exact decodeLoop_overlong _ _ _ _ _ _ _ _ _ hn _ hr
    | cons p pre =>
      rcases decodeLoop_inv h with ⟨hnil, _, _⟩ | ⟨hp, c', rest', ds', buf', base', hc, heq, h1, h'⟩
      · have := congrArg List.length hnil; simp [frame, toLE_length] at this
      · have hpl := hpre p (by simp)
        have e0 : decodeInt 4 (frame (p :: pre) ++ (toLE 4 c.length ++ c ++ rest)) = .ok (p.length, p ++ (frame pre ++ (toLE 4 c.length ++ c ++ rest))) := by
          simp only [frame, List.append_assoc]
          exact decodeInt_toLE 4 _ (by simpa using hpl) _
        rw [heq, List.append_assoc, decodeInt_toLE 4 _ (by simpa using hc)] at e0
        simp only [Res.ok.injEq, Prod.mk.injEq] at e0
        obtain ⟨hpc, hrest⟩ := e0
        obtain ⟨rfl, rfl⟩ := List.append_inj hrest hpc
        rw [frame, List.append_assoc, decodeLoop_step hp hc h1]
        exact ih _ (by simp only [kPointsPerChunk]; omega) pre (fun x hx => hpre x (by simp [hx])) h'

end Cloudini
