import Verif.Lemmas.Script
import Verif.Props.C49_C50

/-!
# C78: decoding never reads the output buffer

For every payload, well formed or not, every info and every version, the outcome of `decode` — the exception, the undefined behaviour or
the list of byte stores — is a function of the info, the payload and the *size* of the output buffer; its contents play no part.
-/

namespace Cloudini.Props

/-- The specification: what a list of stores (position, byte) does to a buffer, the first one first. -/
def afterStores : List (Nat × Byte) → List Byte → List Byte
  | [], buf => buf
  | (pos, byte) :: rest, buf => afterStores rest (buf.set pos byte)

/-- The byte the last store to position `p` puts there, if any. -/
def lastStore (p : Nat) : List (Nat × Byte) → Option Byte
  | [] => none
  | (pos, byte) :: rest => (lastStore p rest).orElse fun _ => if pos = p then some byte else none

theorem afterStores_paint (ws : List (Nat × Byte)) (buf : List Byte) : afterStores ws buf = paint ws buf := by
  induction ws generalizing buf with
  | nil => rfl
  | cons w ws ih => exact ih _

theorem afterStores_length (ws : List (Nat × Byte)) (buf : List Byte) : (afterStores ws buf).length = buf.length := by
  rw [afterStores_paint, paint_length]

theorem afterStores_get (ws : List (Nat × Byte)) (buf : List Byte) (p : Nat) (hp : p < buf.length) :
    (afterStores ws buf)[p]? = (lastStore p ws).orElse fun _ => buf[p]? := by
  induction ws generalizing buf with
  | nil => rfl
  | cons w ws ih =>
    obtain ⟨q, v⟩ := w
    simp only [afterStores, lastStore]
    rw [ih (buf.set q v) (by rw [List.length_set]; exact hp), List.getElem?_set]
    cases lastStore p ws with
    | some x => rfl
    | none =>
      simp only [Option.orElse_none]
      by_cases h : q = p
      · subst h; rw [if_pos rfl, if_pos hp, if_pos rfl]; rfl
      · rw [if_neg h, if_neg h]; rfl

/-- **C78.** For every info, every payload (also malformed) and every size of the output buffer there is one outcome — an exception, an
undefined behaviour or a list of stores inside the buffer — such that decoding into *any* buffer of that size has that outcome. -/
theorem C78_writes_only (F : FloatOps) (C : Compressor) (fuel : Nat) (info : EncodingInfo) (payload : List Byte) (size : Nat) :
    ∃ outcome : Res (List (Nat × Byte)), (∀ ws, outcome = .ok ws → ∀ w ∈ ws, w.1 < size) ∧
      ∀ buf, buf.length = size → decodeCloud F C fuel info payload buf =
        match outcome with
        | .ok ws => .ok (afterStores ws buf)
        | .throw e => .throw e
        | .ub k => .ub k := by
  obtain ⟨r, hi, hr⟩ := decodeCloud_scripted F C fuel size info payload
  refine ⟨r >>= fun p => .ok p.2, ?_, fun buf hb => ?_⟩
  · intro ws h
    obtain ⟨⟨x, vs⟩, h1, h2⟩ := Res.bind_eq_ok.1 h
    simp only [Res.ok.injEq] at h2
    rw [← h2]; exact hi x vs h1
  · have e := hr buf hb
    simp only at e
    rw [e]
    cases r with
    | ok p => simp only [Res.ok_bind]; rw [afterStores_paint]
    | throw m => rfl
    | ub k => rfl

/-- What this means for two buffers of the same size: the same exception, the same undefined behaviour, or two results in which each
position holds the same byte in both, or in each the byte it held before. -/
theorem C78_two_buffers (F : FloatOps) (C : Compressor) (fuel : Nat) (info : EncodingInfo) (payload a b : List Byte)
    (hlen : a.length = b.length) :
    (∃ e, decodeCloud F C fuel info payload a = .throw e ∧ decodeCloud F C fuel info payload b = .throw e) ∨
    (∃ k, decodeCloud F C fuel info payload a = .ub k ∧ decodeCloud F C fuel info payload b = .ub k) ∨
    (∃ a' b', decodeCloud F C fuel info payload a = .ok a' ∧ decodeCloud F C fuel info payload b = .ok b' ∧
      a'.length = a.length ∧ b'.length = b.length ∧
      ((∀ p : Nat, a'[p]? = b'[p]? ∨ (a'[p]? = a[p]? ∧ b'[p]? = b[p]?)))) := by
  obtain ⟨r, -, hr⟩ := C78_writes_only F C fuel info payload a.length
  have ha := hr a rfl
  have hb := hr b hlen.symm
  cases r with
  | throw e => exact .inl ⟨e, ha, hb⟩
  | ub k => exact .inr (.inl ⟨k, ha, hb⟩)
  | ok ws =>
    refine .inr (.inr ⟨_, _, ha, hb, afterStores_length _ _, afterStores_length _ _, fun p => ?_⟩)
    by_cases hp : p < a.length
    · rw [afterStores_get ws a p hp, afterStores_get ws b p (hlen ▸ hp)]
      cases lastStore p ws with
      | some x => exact .inl rfl
      | none => exact .inr ⟨rfl, rfl⟩
    · refine .inl ?_
      rw [List.getElem?_eq_none (by rw [afterStores_length]; omega), List.getElem?_eq_none (by rw [afterStores_length]; omega)]

/-- Decoding a payload into a buffer that already holds its decoded points changes nothing. -/
theorem C78_again (F : FloatOps) (C : Compressor) (fuel : Nat) (info : EncodingInfo) (payload buf buf' : List Byte)
    (h : decodeCloud F C fuel info payload buf = .ok buf') : decodeCloud F C fuel info payload buf' = .ok buf' := by
  obtain ⟨r, -, hr⟩ := C78_writes_only F C fuel info payload buf.length
  have ha := hr buf rfl
  cases r with
  | throw e => rw [h] at ha; simp at ha
  | ub k => rw [h] at ha; simp at ha
  | ok ws =>
    rw [h] at ha
    simp only [Res.ok.injEq] at ha
    subst ha
    rw [hr _ (afterStores_length _ _)]
    simp only [Res.ok.injEq]
    refine List.ext_getElem? fun p => ?_
    by_cases hp : p < buf.length
    · rw [afterStores_get ws _ p (by rw [afterStores_length]; exact hp), afterStores_get ws _ p hp]
      cases lastStore p ws <;> rfl
    · rw [List.getElem?_eq_none (by rw [afterStores_length, afterStores_length]; omega),
        List.getElem?_eq_none (by rw [afterStores_length]; omega)]

/-- The payload is accepted or refused for what it is: acceptance depends on the size of the buffer and never on what is in it. -/
theorem C78_accepted (F : FloatOps) (C : Compressor) (fuel : Nat) (info : EncodingInfo) (payload a b : List Byte)
    (hlen : a.length = b.length) :
    (decodeCloud F C fuel info payload a).isOk = (decodeCloud F C fuel info payload b).isOk ∧
    (decodeCloud F C fuel info payload a).isThrow = (decodeCloud F C fuel info payload b).isThrow := by
  rcases C78_two_buffers F C fuel info payload a b hlen with ⟨e, h1, h2⟩ | ⟨k, h1, h2⟩ | ⟨a', b', h1, h2, _⟩ <;> rw [h1, h2] <;> exact ⟨rfl, rfl⟩

/-! ## The theorems applied to concrete data -/

/-- A complete payload: one list of stores for every buffer of 108 bytes, and it is not empty. -/
example : ∃ ws : List (Nat × Byte), ws ≠ [] ∧ ∀ buf, buf.length = 108 →
    decodeCloud bitsOps storeComp 0 mixInfo mixOut buf = .ok (afterStores ws buf) := by
  obtain ⟨r, -, hr⟩ := C78_writes_only bitsOps storeComp 0 mixInfo mixOut 108
  have hk := mix_decode_ok
  have h0 := hr (List.replicate 108 0#8) (by rw [List.length_replicate])
  cases r with
  | throw e => rw [h0] at hk; simp at hk
  | ub k => rw [h0] at hk; simp at hk
  | ok ws =>
    refine ⟨ws, ?_, hr⟩
    rintro rfl
    have hne : decodeCloud bitsOps storeComp 0 mixInfo mixOut (List.replicate 108 0#8) ≠ .ok (List.replicate 108 0#8) := by decide +kernel
    exact hne h0

/-- A payload cut in the middle: the same exception whatever the buffer holds. -/
example : ∃ e, ∀ buf, buf.length = 108 → decodeCloud bitsOps storeComp 0 mixInfo (mixOut.take 30) buf = .throw e := by
  obtain ⟨r, -, hr⟩ := C78_writes_only bitsOps storeComp 0 mixInfo (mixOut.take 30) 108
  have hk : (decodeCloud bitsOps storeComp 0 mixInfo (mixOut.take 30) (List.replicate 108 0#8)).isThrow = true := by decide +kernel
  have h0 := hr (List.replicate 108 0#8) (by rw [List.length_replicate])
  cases r with
  | throw e => exact ⟨e, hr⟩
  | ub k => rw [h0] at hk; simp at hk
  | ok ws => rw [h0] at hk; simp at hk

end Cloudini.Props
