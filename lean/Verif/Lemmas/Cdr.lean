import Verif.Lemmas.Unfold
import Verif.Spec.Cdr
import Verif.Lemmas.Base

namespace Cloudini.Cdr

/-! ### alignment -/

theorem pad_spec (m pos : Nat) (hm : m = 1 ∨ m = 2 ∨ m = 4 ∨ m = 8) :
    (pos + ((m - pos % m) &&& (m - 1))) % m = 0 ∧ ((m - pos % m) &&& (m - 1)) < m := by
  rcases hm with rfl | rfl | rfl | rfl
  · simp; omega
  · rw [show (2 - 1 : Nat) = 2 ^ 1 - 1 by rfl, Nat.and_two_pow_sub_one_eq_mod]; omega
  · rw [show (4 - 1 : Nat) = 2 ^ 2 - 1 by rfl, Nat.and_two_pow_sub_one_eq_mod]; omega
  · rw [show (8 - 1 : Nat) = 2 ^ 3 - 1 by rfl, Nat.and_two_pow_sub_one_eq_mod]; omega

theorem align64_or (h : Header) : h.align64 = 4 ∨ h.align64 = 8 := by unfold Header.align64; split <;> simp

theorem alignOf_or (h : Header) (n : Nat) (hn : n = 1 ∨ n = 2 ∨ n = 4 ∨ n = 8) : alignOf h n = 1 ∨ alignOf h n = 2 ∨ alignOf h n = 4 ∨ alignOf h n = 8 := by
  unfold alignOf
  split
  · split <;> omega
  · omega

theorem alignment_spec (h : Header) (n pos : Nat) (hn : n = 1 ∨ n = 2 ∨ n = 4 ∨ n = 8) :
    (pos + alignment h.align64 n pos) % alignOf h n = 0 ∧ alignment h.align64 n pos < alignOf h n := by
  unfold alignment
  exact pad_spec (alignOf h n) pos (alignOf_or h n hn)

theorem alignment_one (a pos : Nat) : alignment a 1 pos = 0 := by simp [alignment]

/-! ### round trip -/

theorem trim_ok {d : Dec} {x rest : List Byte} (hb : d.buf = x ++ rest) : d.trim x.length = .ok ⟨rest, d.pos + x.length⟩ := by
  unfold Dec.trim
  rw [if_neg (by rw [hb]; simp), hb]
  simp

theorem primBytes_length (h : Header) (n v : Nat) : (primBytes h n v).length = n := by
  unfold primBytes; split <;> simp

theorem primBytes_value (h : Header) (n v : Nat) (hv : v < 256 ^ n) :
    fromLE (if h.big then (primBytes h n v).reverse else primBytes h n v) = v := by
  unfold primBytes
  split <;> simp [fromLE_toLE, Nat.mod_eq_of_lt hv]

theorem encPrim_eq (h : Header) (n v : Nat) (st : List Byte) (hn : 1 ≤ n) :
    encPrim h n v st = st ++ (List.replicate (alignment h.align64 n (st.length - 4)) 0#8 ++ primBytes h n v) := by
  unfold encPrim
  by_cases h2 : 2 ≤ n
  · simp only [if_pos h2, List.append_assoc]
  · have : n = 1 := by omega
    subst this
    simp [alignment_one]

theorem decPrim_ok (h : Header) (n v pos : Nat) (hv : v < 256 ^ n) (rest : List Byte) :
    decPrim h n ⟨List.replicate (alignment h.align64 n pos) 0#8 ++ primBytes h n v ++ rest, pos⟩
      = .ok (v, ⟨rest, pos + (alignment h.align64 n pos + n)⟩) := by
  rw [decPrim_def]
  have h1 := trim_ok (d := ⟨List.replicate (alignment h.align64 n pos) 0#8 ++ primBytes h n v ++ rest, pos⟩)
    (x := List.replicate (alignment h.align64 n pos) 0#8) (rest := primBytes h n v ++ rest) (by simp)
  rw [List.length_replicate] at h1
  simp only [h1, Res.ok_bind]
  have hl := primBytes_length h n v
  rw [if_neg (by simp [hl])]
  have h2 := trim_ok (d := ⟨primBytes h n v ++ rest, pos + alignment h.align64 n pos⟩) (x := primBytes h n v) (rest := rest) rfl
  rw [hl] at h2
  simp only [h2, Res.ok_bind]
  have h3 : (primBytes h n v ++ rest).take n = primBytes h n v := by
    have := List.take_left (l₁ := primBytes h n v) (l₂ := rest)
    rwa [hl] at this
  rw [h3, primBytes_value h n v hv]
  simp only [Res.ok.injEq, Prod.mk.injEq, Dec.mk.injEq, true_and]
  omega

/-- `dec` reads back what was appended to `st`. -/
def Reads {α : Type} (dec : Dec → Res (α × Dec)) (v : α) (st st' : List Byte) : Prop :=
  4 ≤ st'.length ∧ ∃ x, st' = st ++ x ∧ ∀ rest, dec ⟨x ++ rest, st.length - 4⟩ = .ok (v, ⟨rest, st'.length - 4⟩)

theorem reads_prim (h : Header) (n v : Nat) (st : List Byte) (hn : 1 ≤ n) (hv : v < 256 ^ n) (hs : 4 ≤ st.length) :
    Reads (decPrim h n) v st (encPrim h n v st) := by
  rw [encPrim_eq h n v st hn]
  refine ⟨by simp only [List.length_append]; omega, _, rfl, fun rest => ?_⟩
  rw [decPrim_ok h n v _ hv rest]
  simp only [Res.ok.injEq, Prod.mk.injEq, Dec.mk.injEq, true_and, List.length_append, List.length_replicate, primBytes_length]
  omega

theorem Reads.map {α β : Type} {dec : Dec → Res (α × Dec)} {v : α} {st st' : List Byte} (h : Reads dec v st st') (f : α → β) :
    Reads (fun d => do let (x, d) ← dec d; .ok (f x, d)) (f v) st st' := by
  obtain ⟨h4, x, hx, hd⟩ := h
  exact ⟨h4, x, hx, fun rest => by simp only [hd rest, Res.ok_bind]⟩

theorem Reads.seq {α β γ : Type} {d1 : Dec → Res (α × Dec)} {d2 : α → Dec → Res (β × Dec)} {v : α} {w : β} {s0 s1 s2 : List Byte}
    (h1 : Reads d1 v s0 s1) (h2 : Reads (d2 v) w s1 s2) (f : α → β → γ) :
    Reads (fun d => do let (x, d) ← d1 d; let (y, d) ← d2 x d; .ok (f x y, d)) (f v w) s0 s2 := by
  obtain ⟨h4, x, hx, hd⟩ := h1
  obtain ⟨h4', y, hy, hd'⟩ := h2
  refine ⟨h4', x ++ y, by rw [hy, hx, List.append_assoc], fun rest => ?_⟩
  rw [List.append_assoc]
  simp only [hd (y ++ rest), Res.ok_bind, hd' rest]

/-- Raw bytes behind a length. -/
theorem reads_raw (st x : List Byte) (hs : 4 ≤ st.length) :
    Reads (fun d => if d.buf.length < x.length then (.throw "Decode: not enough data to decode (string)" : Res (List Byte × Dec))
      else do let s := d.buf.take x.length; let d ← d.trim x.length; .ok (s, d)) x st (st ++ x) := by
  refine ⟨by simp only [List.length_append]; omega, x, rfl, fun rest => ?_⟩
  simp only
  rw [if_neg (by simp)]
  have := trim_ok (d := ⟨x ++ rest, st.length - 4⟩) (x := x) (rest := rest) rfl
  simp only [this, Res.ok_bind, List.take_left, Res.ok.injEq, Prod.mk.injEq, Dec.mk.injEq, true_and, List.length_append]
  omega

theorem reads_string (h : Header) (s st st' : List Byte) (hs : 4 ≤ st.length) (he : encString h s st = .ok st') : Reads (decString h) s st st' := by
  unfold encString at he
  split at he
  · next hl =>
    simp only [Res.ok.injEq] at he
    have h1 := reads_prim h 4 (s.length + 1) st (by omega) (by omega) hs
    have hx : (s ++ [0#8]).length = s.length + 1 := by simp
    have h2 := reads_raw (encPrim h 4 (s.length + 1) st) (s ++ [0#8]) h1.1
    rw [hx] at h2
    obtain ⟨_, a, ha, hda⟩ := h1
    obtain ⟨h4, b, hb, hdb⟩ := h2
    have hst : st' = encPrim h 4 (s.length + 1) st ++ (s ++ [0#8]) := by rw [← he, List.append_assoc]
    refine ⟨by rw [hst]; exact h4, a ++ b, by rw [hst, hb, ha, List.append_assoc], fun rest => ?_⟩
    rw [decString_def]
    rw [List.append_assoc]
    simp only [hda (b ++ rest), Res.ok_bind]
    have := hdb rest
    simp only at this
    split at this
    · cases this
    · next hlt =>
      rw [if_neg hlt]
      obtain ⟨d', e1, e2⟩ := Res.bind_eq_ok.1 this
      simp only [Res.ok.injEq, Prod.mk.injEq] at e2
      simp only [e1, Res.ok_bind, e2.1, e2.2, hst]
      simp
  · cases he

theorem reads_buf (h : Header) (b st : List Byte) (hb : b.length < 2 ^ 32) (hs : 4 ≤ st.length) : Reads (decBuf h) b st (encBuf h b st) := by
  unfold encBuf
  rw [Nat.mod_eq_of_lt hb, List.take_of_length_le (Nat.le_refl _)]
  have h1 := reads_prim h 4 b.length st (by omega) (by omega) hs
  have h2 := reads_raw (encPrim h 4 b.length st) b h1.1
  obtain ⟨_, x, hx, hdx⟩ := h1
  obtain ⟨h4, y, hy, hdy⟩ := h2
  refine ⟨h4, x ++ y, by rw [hy, hx, List.append_assoc], fun rest => ?_⟩
  rw [decBuf_def]
  rw [List.append_assoc]
  simp only [hdx (y ++ rest), Res.ok_bind]
  have := hdy rest
  simp only at this
  exact this

theorem reads_items {α : Type} (enc : α → List Byte → Res (List Byte)) (dec : Dec → Res (α × Dec)) (ok : α → Prop)
    (hrt : ∀ v st st', ok v → 4 ≤ st.length → enc v st = .ok st' → Reads dec v st st') (xs : List α) (hok : ∀ v ∈ xs, ok v) (st st' : List Byte)
    (hs : 4 ≤ st.length) (he : encItems enc xs st = .ok st') : Reads (decItems dec xs.length) xs st st' := by
  induction xs generalizing st with
  | nil =>
    simp only [encItems, Res.ok.injEq] at he
    subst he
    exact ⟨hs, [], by simp, fun rest => by simp [decItems]⟩
  | cons x xs ih =>
    simp only [encItems] at he
    obtain ⟨s1, e1, e2⟩ := Res.bind_eq_ok.1 he
    have h1 := hrt x st s1 (hok x (List.mem_cons_self ..)) hs e1
    have h2 := ih (fun v hv => hok v (List.mem_cons_of_mem _ hv)) s1 h1.1 e2
    exact h1.seq (d2 := fun _ => decItems dec xs.length) h2 List.cons

theorem reads_arr {α : Type} (enc : α → List Byte → Res (List Byte)) (dec : Dec → Res (α × Dec)) (ok : α → Prop)
    (hrt : ∀ v st st', ok v → 4 ≤ st.length → enc v st = .ok st' → Reads dec v st st') (n : Nat) (xs : List α) (hn : xs.length = n) (hok : ∀ v ∈ xs, ok v)
    (st st' : List Byte) (hs : 4 ≤ st.length) (he : encItems enc xs st = .ok st') : Reads (decArr dec n) ⟨xs, hn⟩ st st' := by
  induction xs generalizing st n with
  | nil =>
    simp only [encItems, Res.ok.injEq] at he
    subst he
    cases n with
    | zero => exact ⟨hs, [], by simp, fun rest => by simp [decArr]⟩
    | succ n => simp at hn
  | cons x xs ih =>
    cases n with
    | zero => simp at hn
    | succ n =>
      simp only [List.length_cons, Nat.add_right_cancel_iff] at hn
      simp only [encItems] at he
      obtain ⟨s1, e1, e2⟩ := Res.bind_eq_ok.1 he
      have h1 := hrt x st s1 (hok x (List.mem_cons_self ..)) hs e1
      have h2 := ih n hn (fun v hv => hok v (List.mem_cons_of_mem _ hv)) s1 h1.1 e2
      exact h1.seq (d2 := fun _ => decArr dec n) h2 (fun a (b : { l : List α // l.length = n }) => (⟨a :: b.1, by rw [List.length_cons, b.2]⟩ : { l : List α // l.length = n + 1 }))

theorem reads_bits (h : Header) (w n : Nat) (hn : 1 ≤ n) (hw : 2 ^ w = 256 ^ n) (v : BitVec w) (st : List Byte) (hs : 4 ≤ st.length) :
    Reads (fun d => do let (x, d) ← decPrim h n d; .ok (BitVec.ofNat w x, d)) v st (encPrim h n v.toNat st) := by
  have := (reads_prim h n v.toNat st hn (by rw [← hw]; exact v.isLt) hs).map (BitVec.ofNat w)
  rw [BitVec.ofNat_toNat, BitVec.setWidth_eq] at this
  exact this

theorem reads_type (h : Header) (t : Ty) (v : t.Val) (st st' : List Byte) (hf : Fits t v) (hs : 4 ≤ st.length) (he : encode h t v st = .ok st') :
    Reads (decode h t) v st st' := by
  induction t generalizing st st' with
  | u8 =>
    simp only [encode, Res.ok.injEq] at he; subst he
    exact reads_bits h 8 1 (by omega) rfl v st hs
  | u16 =>
    simp only [encode, Res.ok.injEq] at he; subst he
    exact reads_bits h 16 2 (by omega) rfl v st hs
  | u32 =>
    simp only [encode, Res.ok.injEq] at he; subst he
    exact reads_bits h 32 4 (by omega) rfl v st hs
  | u64 =>
    simp only [encode, Res.ok.injEq] at he; subst he
    exact reads_bits h 64 8 (by omega) rfl v st hs
  | str => exact reads_string h v st st' hs he
  | buf =>
    simp only [encode, Res.ok.injEq] at he; subst he
    exact reads_buf h v st hf hs
  | vec t ih =>
    simp only [encode, encVec] at he
    obtain ⟨hl, hx⟩ := hf
    rw [Nat.mod_eq_of_lt hl] at he
    have h1 := reads_prim h 4 (List.length (α := t.Val) v) st (by omega) (by omega) hs
    have h2 := reads_items (encode h t) (decode h t) (Fits t) (fun v st st' => ih v st st') v hx _ st' h1.1 he
    have := h1.seq (d2 := fun n => decItems (decode h t) n) h2 (fun _ xs => xs)
    have hd : decode h (.vec t) = fun d => (do let (x, d) ← decPrim h 4 d; let (y, d) ← decItems (decode h t) x d; .ok (y, d)) := by
      funext d
      show decVec h (decode h t) d = _
      unfold decVec
      congr 1
      funext ⟨x, d⟩
      simp only
      cases decItems (decode h t) x d <;> rfl
    rw [hd]
    exact this
  | arr n t ih =>
    exact reads_arr (encode h t) (decode h t) (Fits t) (fun v st st' => ih v st st') n v.1 v.2 hf st st' hs he
  | unit =>
    simp only [encode, Res.ok.injEq] at he; subst he
    exact ⟨hs, [], by simp, fun rest => rfl⟩
  | pair a b iha ihb =>
    simp only [encode] at he
    obtain ⟨s1, e1, e2⟩ := Res.bind_eq_ok.1 he
    have h1 := iha v.1 st s1 hf.1 hs e1
    have h2 := ihb v.2 s1 st' hf.2 h1.1 e2
    exact h1.seq (d2 := fun _ => decode h b) h2 Prod.mk

theorem encode_total_items {α : Type} (enc : α → List Byte → Res (List Byte)) (ok : α → Prop) (hp : ∀ v st, ok v → ∃ st', enc v st = .ok st')
    (xs : List α) (hx : ∀ v ∈ xs, ok v) (st : List Byte) : ∃ st', encItems enc xs st = .ok st' := by
  induction xs generalizing st with
  | nil => exact ⟨st, rfl⟩
  | cons x xs ih =>
    obtain ⟨s1, h1⟩ := hp x st (hx x (List.mem_cons_self ..))
    obtain ⟨s2, h2⟩ := ih (fun v hv => hx v (List.mem_cons_of_mem _ hv)) s1
    exact ⟨s2, by simp only [encItems, h1, Res.ok_bind, h2]⟩

theorem encode_total (h : Header) (t : Ty) (v : t.Val) (hf : Fits t v) (st : List Byte) : ∃ st', encode h t v st = .ok st' := by
  induction t generalizing st with
  | u8 => exact ⟨_, rfl⟩
  | u16 => exact ⟨_, rfl⟩
  | u32 => exact ⟨_, rfl⟩
  | u64 => exact ⟨_, rfl⟩
  | str => exact ⟨_, if_pos hf⟩
  | buf => exact ⟨_, rfl⟩
  | vec t ih => exact encode_total_items (encode h t) (Fits t) (fun v st hv => ih v hv st) v hf.2 _
  | arr n t ih => exact encode_total_items (encode h t) (Fits t) (fun v st hv => ih v hv st) v.1 hf _
  | unit => exact ⟨_, rfl⟩
  | pair a b iha ihb =>
    obtain ⟨s1, h1⟩ := iha v.1 hf.1 st
    obtain ⟨s2, h2⟩ := ihb v.2 hf.2 s1
    exact ⟨s2, by simp only [encode, h1, Res.ok_bind, h2]⟩

/-! ### what decoding reads -/

/-- Decoding looks at no byte behind what it consumes, and throws if one is missing. -/
def Local {α : Type} (f : Dec → Res (α × Dec)) : Prop :=
  (∀ d k, f d ≠ .ub k) ∧
  ∀ buf pos v d', f ⟨buf, pos⟩ = .ok (v, d') → ∃ x, buf = x ++ d'.buf ∧ d'.pos = pos + x.length ∧
    (∀ r, f ⟨x ++ r, pos⟩ = .ok (v, ⟨r, pos + x.length⟩)) ∧ ∀ k < x.length, (f ⟨x.take k, pos⟩).isThrow = true

theorem isThrow_bind {α β : Type} {a : Res α} {f : α → Res β} (h : a.isThrow = true) : (a >>= f).isThrow = true := by
  cases a <;> simp_all

/-- A decoder that consumes a number of bytes known in advance. -/
theorem local_fixed {α : Type} (f : Dec → Res (α × Dec)) (w : Nat → Nat) (g : List Byte → Nat → α)
    (hshort : ∀ buf pos, buf.length < w pos → (f ⟨buf, pos⟩).isThrow = true)
    (hlong : ∀ x r pos, x.length = w pos → f ⟨x ++ r, pos⟩ = .ok (g x pos, ⟨r, pos + x.length⟩)) : Local f := by
  constructor
  · intro d k h
    by_cases hl : d.buf.length < w d.pos
    · have := hshort d.buf d.pos hl; rw [h] at this; cases this
    · have := hlong (d.buf.take (w d.pos)) (d.buf.drop (w d.pos)) d.pos (by rw [List.length_take]; omega)
      rw [List.take_append_drop] at this
      rw [this] at h; cases h
  · intro buf pos v d' h
    by_cases hl : buf.length < w pos
    · have := hshort buf pos hl; rw [h] at this; cases this
    · have hx : (buf.take (w pos)).length = w pos := by rw [List.length_take]; omega
      have := hlong (buf.take (w pos)) (buf.drop (w pos)) pos hx
      rw [List.take_append_drop, h] at this
      simp only [Res.ok.injEq, Prod.mk.injEq] at this
      obtain ⟨rfl, rfl⟩ := this
      refine ⟨buf.take (w pos), (List.take_append_drop ..).symm, rfl, fun r => hlong _ r pos hx, fun k hk => hshort _ _ ?_⟩
      rw [List.length_take]; omega

theorem local_bind {α β : Type} {f : Dec → Res (α × Dec)} {g : α → Dec → Res (β × Dec)} (hf : Local f) (hg : ∀ v, Local (g v)) :
    Local (fun d => f d >>= fun q => g q.1 q.2) := by
  constructor
  · intro d k h
    rcases Res.bind_eq_ub.1 h with h | ⟨q, _, h⟩
    · exact hf.1 d k h
    · exact (hg q.1).1 q.2 k h
  · intro buf pos v d' h
    obtain ⟨⟨a, d1⟩, h1, h2⟩ := Res.bind_eq_ok.1 h
    obtain ⟨x, e1, e2, e3, e4⟩ := hf.2 buf pos a d1 h1
    obtain ⟨y, e5, e6, e7, e8⟩ := (hg a).2 d1.buf d1.pos v d' h2
    refine ⟨x ++ y, by rw [e1, e5, List.append_assoc], by rw [e6, e2, List.length_append]; omega, fun r => ?_, fun k hk => ?_⟩
    · rw [List.append_assoc]
      have := e7 r
      rw [e2] at this
      simp only [e3 (y ++ r), Res.ok_bind, this, Res.ok.injEq, Prod.mk.injEq, Dec.mk.injEq, true_and, List.length_append]
      omega
    · by_cases hkx : k < x.length
      · rw [List.take_append_of_le_length (by omega)]
        exact isThrow_bind (e4 k hkx)
      · rw [List.take_append, List.take_of_length_le (by omega)]
        simp only [List.length_append] at hk
        have := e8 (k - x.length) (by omega)
        rw [e2] at this
        simp only [e3, Res.ok_bind, this]

theorem local_map {α β : Type} {f : Dec → Res (α × Dec)} (hf : Local f) (g : α → β) : Local (fun d => f d >>= fun q => .ok (g q.1, q.2)) := by
  refine local_bind (g := fun a d => .ok (g a, d)) hf (fun a => ⟨fun d k h => by simp at h, fun buf pos v d' h => ?_⟩)
  simp only [Res.ok.injEq, Prod.mk.injEq] at h
  obtain ⟨rfl, rfl⟩ := h
  exact ⟨[], by simp, by simp, by simp, by simp⟩

theorem local_pure {α : Type} (a : α) : Local (fun d => (.ok (a, d) : Res (α × Dec))) :=
  ⟨fun d k h => by simp at h, fun buf pos v d' h => by
    simp only [Res.ok.injEq, Prod.mk.injEq] at h
    obtain ⟨rfl, rfl⟩ := h
    exact ⟨[], by simp, by simp, by simp, by simp⟩⟩

theorem trim_short {d : Dec} {n : Nat} (h : d.buf.length < n) : (d.trim n).isThrow = true := by
  unfold Dec.trim; rw [if_pos h]; rfl

theorem local_prim (h : Header) (n : Nat) : Local (decPrim h n) := by
  refine local_fixed _ (fun pos => alignment h.align64 n pos + n)
    (fun x pos => fromLE (if h.big then ((x.drop (alignment h.align64 n pos)).take n).reverse else (x.drop (alignment h.align64 n pos)).take n)) ?_ ?_
  · intro buf pos hl
    rw [decPrim_def]
    by_cases ha : buf.length < alignment h.align64 n pos
    · exact isThrow_bind (trim_short ha)
    · have : (⟨buf, pos⟩ : Dec).trim (alignment h.align64 n pos) = .ok ⟨buf.drop (alignment h.align64 n pos), pos + alignment h.align64 n pos⟩ := by
        unfold Dec.trim; rw [if_neg ha]
      simp only [this, Res.ok_bind]
      rw [if_pos (by simp only [List.length_drop]; omega)]
      rfl
  · intro x r pos hx
    rw [decPrim_def]
    have hxs : x = x.take (alignment h.align64 n pos) ++ x.drop (alignment h.align64 n pos) := (List.take_append_drop ..).symm
    have hl1 : (x.take (alignment h.align64 n pos)).length = alignment h.align64 n pos := by rw [List.length_take]; omega
    have hl2 : (x.drop (alignment h.align64 n pos)).length = n := by rw [List.length_drop]; omega
    have h1 := trim_ok (d := ⟨x ++ r, pos⟩) (x := x.take (alignment h.align64 n pos)) (rest := x.drop (alignment h.align64 n pos) ++ r)
      (by rw [← List.append_assoc, List.take_append_drop])
    rw [hl1] at h1
    simp only [h1, Res.ok_bind]
    rw [if_neg (by simp only [List.length_append]; omega)]
    have h2 := trim_ok (d := ⟨x.drop (alignment h.align64 n pos) ++ r, pos + alignment h.align64 n pos⟩) (x := x.drop (alignment h.align64 n pos)) (rest := r) rfl
    rw [hl2] at h2
    simp only [h2, Res.ok_bind]
    rw [List.take_append_of_le_length (by omega), hx]
    simp only [Res.ok.injEq, Prod.mk.injEq, Dec.mk.injEq, true_and]
    omega

theorem local_raw (len : Nat) : Local (fun d => if d.buf.length < len then (.throw "Decode: not enough data to decode (string)" : Res (List Byte × Dec))
    else do let s := d.buf.take len; let d ← d.trim len; .ok (s, d)) := by
  refine local_fixed _ (fun _ => len) (fun x _ => x) ?_ ?_
  · intro buf pos hl
    simp only
    rw [if_pos hl]; rfl
  · intro x r pos hx
    subst hx
    simp only
    rw [if_neg (by simp)]
    simp only [trim_ok (d := ⟨x ++ r, pos⟩) (x := x) (rest := r) rfl, Res.ok_bind, List.take_left]

theorem local_string (h : Header) : Local (decString h) := by
  have := local_map (local_bind (local_prim h 4) (fun len => local_raw len)) (fun s : List Byte => if s.getLast? = some 0#8 then s.dropLast else s)
  have he : decString h = fun d => ((decPrim h 4 d >>= fun q => if q.2.buf.length < q.1 then (.throw "Decode: not enough data to decode (string)" : Res (List Byte × Dec))
    else do let s := q.2.buf.take q.1; let d ← q.2.trim q.1; .ok (s, d)) >>= fun q => .ok ((if q.1.getLast? = some 0#8 then q.1.dropLast else q.1), q.2)) := by
    funext d
    rw [decString_def]
    rw [Res.bind_assoc]
    congr 1
    funext ⟨len, d⟩
    simp only
    split
    · rfl
    · rw [Res.bind_assoc]; rfl
  rw [he]
  exact this

theorem local_buf (h : Header) : Local (decBuf h) := by
  have e : decBuf h = fun d => _ := funext (decBuf_def h)
  rw [e]
  exact local_bind (local_prim h 4) (fun len => local_raw len)

theorem local_items {α : Type} {f : Dec → Res (α × Dec)} (hf : Local f) (n : Nat) : Local (decItems f n) := by
  induction n with
  | zero => exact local_pure []
  | succ n ih => exact local_bind hf (fun x => local_map ih (x :: ·))

theorem local_arr {α : Type} {f : Dec → Res (α × Dec)} (hf : Local f) (n : Nat) : Local (decArr f n) := by
  induction n with
  | zero => exact local_pure _
  | succ n ih => exact local_bind hf (fun x => local_map ih (fun xs => (⟨x :: xs.1, by rw [List.length_cons, xs.2]⟩ : { l : List α // l.length = n + 1 })))

theorem local_type (h : Header) (t : Ty) : Local (decode h t) := by
  induction t with
  | u8 => exact local_map (local_prim h 1) (BitVec.ofNat 8)
  | u16 => exact local_map (local_prim h 2) (BitVec.ofNat 16)
  | u32 => exact local_map (local_prim h 4) (BitVec.ofNat 32)
  | u64 => exact local_map (local_prim h 8) (BitVec.ofNat 64)
  | str => exact local_string h
  | buf => exact local_buf h
  | vec t ih => exact local_bind (local_prim h 4) (fun n => local_items ih n)
  | arr n t ih => exact local_arr ih n
  | unit => exact local_pure ()
  | pair a b iha ihb => exact local_bind iha (fun x => local_map ihb (fun y => (x, y)))

/-! ### layout -/

theorem Laid.append {h : Header} {pos : Nat} {a b : List Atom} {x y : List Byte} (ha : Laid h pos a x) (hb : Laid h (pos + x.length) b y) :
    Laid h pos (a ++ b) (x ++ y) := by
  induction ha with
  | nil pos => simpa using hb
  | num pos n v pad as rest h1 h2 _ ih =>
    rw [List.append_assoc]
    refine .num pos n v pad _ _ h1 h2 (ih ?_)
    have : (List.replicate pad 0#8 ++ numBytes h n v ++ rest).length = pad + n + rest.length := by
      simp only [List.length_append, List.length_replicate]
      have : (numBytes h n v).length = n := primBytes_length h n v
      omega
    rw [this] at hb
    rwa [show pos + pad + n + rest.length = pos + (pad + n + rest.length) by omega]
  | raw pos x as rest _ ih =>
    rw [List.append_assoc]
    refine .raw pos x _ _ (ih ?_)
    rw [List.length_append] at hb
    rwa [show pos + x.length + rest.length = pos + (x.length + rest.length) by omega]

/-- What was appended to `st` has the given layout. -/
def Puts (h : Header) (as : List Atom) (st st' : List Byte) : Prop := ∃ x, st' = st ++ x ∧ Laid h (st.length - 4) as x

theorem Puts.append {h : Header} {a b : List Atom} {s0 s1 s2 : List Byte} (hs : 4 ≤ s0.length) (h1 : Puts h a s0 s1) (h2 : Puts h b s1 s2) : Puts h (a ++ b) s0 s2 := by
  obtain ⟨x, rfl, hx⟩ := h1
  obtain ⟨y, rfl, hy⟩ := h2
  refine ⟨x ++ y, by rw [List.append_assoc], hx.append ?_⟩
  rw [List.length_append] at hy
  rwa [show s0.length + x.length - 4 = s0.length - 4 + x.length by omega] at hy

theorem puts_prim (h : Header) (n v : Nat) (st : List Byte) (hn : n = 1 ∨ n = 2 ∨ n = 4 ∨ n = 8) : Puts h [.num n v] st (encPrim h n v st) := by
  rw [encPrim_eq h n v st (by omega)]
  have := alignment_spec h n (st.length - 4) hn
  refine ⟨_, rfl, ?_⟩
  have := Laid.num (h := h) (st.length - 4) n v _ [] [] this.2 this.1 (.nil _)
  rw [List.append_nil] at this
  exact this

theorem puts_raw (h : Header) (x st : List Byte) : Puts h [.raw x] st (st ++ x) := by
  refine ⟨x, rfl, ?_⟩
  have := Laid.raw (h := h) (st.length - 4) x [] [] (.nil _)
  rwa [List.append_nil] at this

theorem Puts.length {h : Header} {a : List Atom} {s0 s1 : List Byte} (hs : 4 ≤ s0.length) (h1 : Puts h a s0 s1) : 4 ≤ s1.length := by
  obtain ⟨x, rfl, _⟩ := h1
  rw [List.length_append]; omega

theorem puts_items {α : Type} (h : Header) (enc : α → List Byte → Res (List Byte)) (at' : α → List Atom) (ok : α → Prop)
    (hp : ∀ v st st', ok v → 4 ≤ st.length → enc v st = .ok st' → Puts h (at' v) st st') (xs : List α) (hok : ∀ v ∈ xs, ok v) (st st' : List Byte)
    (hs : 4 ≤ st.length) (he : encItems enc xs st = .ok st') : Puts h (xs.flatMap at') st st' := by
  induction xs generalizing st with
  | nil =>
    simp only [encItems, Res.ok.injEq] at he
    subst he
    exact ⟨[], by simp, .nil _⟩
  | cons x xs ih =>
    simp only [encItems] at he
    obtain ⟨s1, e1, e2⟩ := Res.bind_eq_ok.1 he
    have h1 := hp x st s1 (hok x (List.mem_cons_self ..)) hs e1
    have h2 := ih (fun v hv => hok v (List.mem_cons_of_mem _ hv)) s1 (h1.length hs) e2
    rw [List.flatMap_cons]
    exact h1.append hs h2

theorem puts_string (h : Header) (s st st' : List Byte) (hl : s.length + 1 < 2 ^ 32) (hs : 4 ≤ st.length) (he : encString h s st = .ok st') :
    Puts h [.num 4 (s.length + 1), .raw (s ++ [0#8])] st st' := by
  unfold encString at he
  rw [if_pos hl] at he
  simp only [Res.ok.injEq] at he
  subst he
  rw [List.append_assoc]
  exact (puts_prim h 4 _ st (by simp)).append hs (puts_raw h _ _)

theorem puts_buf (h : Header) (b st : List Byte) (hl : b.length < 2 ^ 32) (hs : 4 ≤ st.length) :
    Puts h [.num 4 b.length, .raw b] st (encBuf h b st) := by
  unfold encBuf
  rw [Nat.mod_eq_of_lt hl, List.take_of_length_le (Nat.le_refl _)]
  exact (puts_prim h 4 _ st (by simp)).append hs (puts_raw h _ _)

theorem puts_type (h : Header) (t : Ty) (v : t.Val) (st st' : List Byte) (hf : Fits t v) (hs : 4 ≤ st.length) (he : encode h t v st = .ok st') :
    Puts h (atoms t v) st st' := by
  induction t generalizing st st' with
  | u8 => simp only [encode, Res.ok.injEq] at he; subst he; exact puts_prim h 1 _ st (by simp)
  | u16 => simp only [encode, Res.ok.injEq] at he; subst he; exact puts_prim h 2 _ st (by simp)
  | u32 => simp only [encode, Res.ok.injEq] at he; subst he; exact puts_prim h 4 _ st (by simp)
  | u64 => simp only [encode, Res.ok.injEq] at he; subst he; exact puts_prim h 8 _ st (by simp)
  | str => exact puts_string h v st st' hf hs he
  | buf => simp only [encode, Res.ok.injEq] at he; subst he; exact puts_buf h v st hf hs
  | vec t ih =>
    simp only [encode, encVec] at he
    rw [Nat.mod_eq_of_lt hf.1] at he
    have h1 := puts_prim h 4 (List.length (α := t.Val) v) st (by simp)
    exact h1.append hs (puts_items h (encode h t) (atoms t) (Fits t) (fun v st st' => ih v st st') v hf.2 _ st' (h1.length hs) he)
  | arr n t ih => exact puts_items h (encode h t) (atoms t) (Fits t) (fun v st st' => ih v st st') v.1 hf st st' hs he
  | unit =>
    simp only [encode, Res.ok.injEq] at he; subst he
    exact ⟨[], by simp, .nil _⟩
  | pair a b iha ihb =>
    simp only [encode] at he
    obtain ⟨s1, e1, e2⟩ := Res.bind_eq_ok.1 he
    have h1 := iha v.1 st s1 hf.1 hs e1
    exact h1.append hs (ihb v.2 s1 st' hf.2 (h1.length hs) e2)

/-! ### the header -/

theorem decPrim_congr {h h' : Header} (hb : h'.big = h.big) (ha : h'.align64 = h.align64) (n : Nat) : decPrim h' n = decPrim h n := by
  funext d; unfold decPrim; rw [hb, ha]

theorem decode_congr {h h' : Header} (hb : h'.big = h.big) (ha : h'.align64 = h.align64) (t : Ty) : decode h' t = decode h t := by
  have hp := decPrim_congr hb ha
  have hs : decString h' = decString h := by funext d; unfold decString; rw [hp]
  have hu : decBuf h' = decBuf h := by funext d; unfold decBuf; rw [hp]
  induction t with
  | u8 => funext d; simp only [decode, hp]
  | u16 => funext d; simp only [decode, hp]
  | u32 => funext d; simp only [decode, hp]
  | u64 => funext d; simp only [decode, hp]
  | str => exact hs
  | buf => exact hu
  | vec t ih =>
    have e : decVec h' (decode h' t) = decVec h (decode h t) := by rw [ih]; funext d; unfold decVec; rw [hp]
    exact e
  | arr n t ih =>
    have e : decArr (decode h' t) n = decArr (decode h t) n := by rw [ih]
    exact e
  | unit => rfl
  | pair a b iha ihb => funext d; simp only [decode, iha, ihb]

theorem decInit_encInit (h : Header) (default : Version) (hc : Compatible h default) (rest : List Byte) :
    ∃ h', decInit default (encInit h ++ rest) = .ok (h', ⟨rest, 0⟩) ∧ h'.big = h.big ∧ h'.align64 = h.align64 := by
  obtain ⟨hb, hf, hv⟩ := h
  obtain ⟨c1, c2⟩ := hc
  cases hb <;> cases hf <;> cases hv <;> cases default <;> simp at c1 c2 <;> exact ⟨_, rfl, rfl, rfl⟩

end Cloudini.Cdr
