import Verif.Lemmas.Base
import Verif.Model.V5
import Verif.Model.Cdr

/-! Guarded reads: the `memcpy` behind a size test is in bounds, so the definitions simplify. -/

namespace Cloudini

theorem readAt_zero {mem : List Byte} {n : Nat} (h : n ≤ mem.length) : readAt mem 0 n = .ok (mem.take n) := by
  unfold readAt; rw [if_pos (by omega), List.drop_zero]

theorem decodeInt_def (n : Nat) (buf : List Byte) : decodeInt n buf =
    if n ≤ buf.length then .ok (fromLE (buf.take n), buf.drop n) else .throw "decode: not enough input data" := by
  unfold decodeInt
  split
  · next h => rw [readAt_zero h]; rfl
  · rfl

theorem decodeString_def (buf : List Byte) : decodeString buf = (do
    let (len, buf) ← decodeInt 2 buf
    if len ≤ buf.length then .ok (buf.take len, buf.drop len) else .throw "decode(string): not enough input data") := by
  unfold decodeString
  congr 1
  funext ⟨len, b⟩
  simp only
  split
  · next h => rw [readAt_zero h]; rfl
  · rfl

theorem readPalette_succ (bpv n : Nat) (input : List Byte) : readPalette bpv (n + 1) input =
    (if input.length < bpv then .throw "V5 adaptive int: truncated palette"
    else do
      let v := BitVec.ofNat 64 (fromLE (input.take bpv))
      let (vs, input) ← readPalette bpv n (input.drop bpv)
      .ok (v :: vs, input)) := by
  rw [readPalette]
  split
  · rfl
  · next h => rw [readAt_zero (by omega)]; rfl

theorem decodeRleRuns_succ (f : AField) (base step expected r outIndex : Nat) (input buf : List Byte) :
    decodeRleRuns f base step expected (r + 1) outIndex input buf =
    (if input.length < f.bpv then .throw "V5 adaptive int: truncated RLE value"
    else do
      let v := BitVec.ofNat 64 (fromLE (input.take f.bpv))
      let (runLen, input) ← readUVarint (input.drop f.bpv)
      if (BitVec.ofNat 64 outIndex + runLen).toNat > expected then
        .throw "V5 adaptive int: RLE run exceeds point count"
      else do
        let buf ← writeRun f base step v runLen.toNat outIndex buf
        decodeRleRuns f base step expected r (outIndex + runLen.toNat) input buf) := by
  rw [decodeRleRuns]
  split
  · rfl
  · next h => rw [readAt_zero (by omega)]; rfl

namespace Cdr

theorem decPrim_def (h : Header) (n : Nat) (d : Dec) : decPrim h n d = (do
    let d ← d.trim (alignment h.align64 n d.pos)
    if d.buf.length < n then .throw "Decode: not enough data to decode"
    else do
      let bs := d.buf.take n
      let d ← d.trim n
      .ok (fromLE (if h.big then bs.reverse else bs), d)) := by
  unfold decPrim
  congr 1
  funext d
  simp only
  split
  · rfl
  · next h => rw [readAt_zero (by omega)]; rfl

theorem decString_def (h : Header) (d : Dec) : decString h d = (do
    let (len, d) ← decPrim h 4 d
    if d.buf.length < len then .throw "Decode: not enough data to decode (string)"
    else do
      let s := d.buf.take len
      let d ← d.trim len
      .ok (if s.getLast? = some 0#8 then s.dropLast else s, d)) := by
  unfold decString
  congr 1
  funext ⟨l, d⟩
  simp only
  split
  · rfl
  · next h => rw [readAt_zero (by omega)]; rfl

theorem decBuf_def (h : Header) (d : Dec) : decBuf h d = (do
    let (len, d) ← decPrim h 4 d
    if d.buf.length < len then .throw "Decode: not enough data to decode (string)"
    else do
      let s := d.buf.take len
      let d ← d.trim len
      .ok (s, d)) := by
  unfold decBuf
  congr 1
  funext ⟨l, d⟩
  simp only
  split
  · rfl
  · next h => rw [readAt_zero (by omega)]; rfl

end Cdr
end Cloudini
