import Verif.Model.Dense
import Verif.Lemmas.Base

/-!
# The hash table of `Model/Dense` is a set
-/

namespace Cloudini.Dense

/-- The bucket at an index; an empty one outside. -/
def g (bs : List Bucket) (i : Nat) : Bucket := (bs[i]?).getD (0#32, 0)

/-- Distance and fingerprint as a number. -/
def df (bs : List Bucket) (i : Nat) : Nat := (g bs i).1.toNat

theorem g_some {bs : List Bucket} {i : Nat} (h : i < bs.length) : bs[i]? = some (g bs i) := by
  unfold g; rw [List.getElem?_eq_getElem h]; rfl

theorem g_set {bs : List Bucket} {p : Nat} (b : Bucket) (h : p < bs.length) (i : Nat) : g (bs.set p b) i = if i = p then b else g bs i := by
  unfold g
  rw [List.getElem?_set]
  by_cases hi : i = p
  · subst hi; simp [h]
  · rw [if_neg (Ne.symm hi), if_neg hi]

theorem next_eq {n i : Nat} (h : i < n) : next n i = (i + 1) % n := by
  unfold next
  by_cases hi : i + 1 = n
  · rw [if_pos hi, hi, Nat.mod_self]
  · rw [if_neg hi, Nat.mod_eq_of_lt (by omega)]

theorem next_lt {n i : Nat} (h : i < n) : next n i < n := by
  rw [next_eq h]; exact Nat.mod_lt _ (by omega)

theorem shift_mod (a b n : Nat) : (a % n + b) % n = (a + b) % n := by rw [Nat.mod_add_mod]

/-- Walking on from a bucket one meets every other. -/
theorem reach_mod {n p e : Nat} (hp : p < n) (he : e < n) : ∃ k < n, (p + k) % n = e := by
  by_cases h : p ≤ e
  · exact ⟨e - p, by omega, by rw [show p + (e - p) = e from by omega, Nat.mod_eq_of_lt he]⟩
  · refine ⟨e + n - p, by omega, ?_⟩
    rw [show p + (e + n - p) = e + n from by omega, Nat.add_mod_right, Nat.mod_eq_of_lt he]

theorem mod_ne {n p j : Nat} (hp : p < n) (hj : 0 < j) (hn : j < n) : (p + j) % n ≠ p := by
  intro h
  by_cases hh : p + j < n
  · rw [Nat.mod_eq_of_lt hh] at h; omega
  · rw [Nat.mod_eq_sub_mod (by omega), Nat.mod_eq_of_lt (by omega)] at h
    omega

theorem countP_set {α : Type} (q : α → Bool) : ∀ (l : List α) (i : Nat) (x y : α), l[i]? = some y →
    (l.set i x).countP q + (if q y then 1 else 0) = l.countP q + (if q x then 1 else 0) := by
  intro l
  induction l with
  | nil => intro i x y h; simp at h
  | cons a l ih =>
    intro i x y h
    cases i with
    | zero =>
      simp only [List.getElem?_cons_zero, Option.some.injEq] at h
      subst h
      simp only [List.set_cons_zero, List.countP_cons]
      omega
    | succ i =>
      rw [List.getElem?_cons_succ] at h
      have := ih i x y h
      simp only [List.set_cons_succ, List.countP_cons]
      omega

/-- Occupied. -/
def occ (b : Bucket) : Bool := b.1 ≠ 0#32

theorem occ_df {bs : List Bucket} {i : Nat} : occ (g bs i) = false ↔ df bs i = 0 := by
  unfold occ df
  constructor
  · intro h
    have : (g bs i).1 = 0#32 := by simpa using h
    rw [this]; rfl
  · intro h
    have : (g bs i).1 = 0#32 := BitVec.eq_of_toNat_eq (by simpa using h)
    simpa using this

/-- A bucket `b` at place `i` belongs to a value: its fingerprint is the value's, its distance leads from the value's first place to `i`. -/
def Belongs (hash : BitVec 64 → BitVec 64) (sh : Nat) (vals : List (BitVec 64)) (n M i : Nat) (b : Bucket) : Prop :=
  ∃ v d, vals[b.2]? = some v ∧ b.1.toNat = 256 * (d + 1) + (hash v).toNat % 256 ∧ i = (home sh (hash v) + d) % n ∧ d + 1 ≤ M

/-- Buckets of which `c` are occupied, by values among `vals` at a distance of at most `M`; those with an index in `K` are there. -/
structure Part (hash : BitVec 64 → BitVec 64) (sh : Nat) (vals : List (BitVec 64)) (n M c : Nat) (K : Nat → Prop) (bs : List Bucket) : Prop where
  len : bs.length = n
  entry : ∀ i < n, df bs i ≠ 0 → Belongs hash sh vals n M i (g bs i)
  order : ∀ i < n, 512 ≤ df bs ((i + 1) % n) → df bs ((i + 1) % n) ≤ df bs i + 256
  count : bs.countP occ = c
  all : ∀ k, K k → ∃ i < n, df bs i ≠ 0 ∧ (g bs i).2 = k

theorem belongs_pos {hash : BitVec 64 → BitVec 64} {sh : Nat} {vals : List (BitVec 64)} {n M i : Nat} {b : Bucket} (h : Belongs hash sh vals n M i b) :
    256 ≤ b.1.toNat := by
  obtain ⟨v, d, _, h, _⟩ := h; omega

theorem free {bs : List Bucket} {c : Nat} (hc : bs.countP occ = c) (h : c < bs.length) : ∃ i < bs.length, df bs i = 0 := by
  have hne : ¬ ∀ a ∈ bs, occ a = true := fun ha => by
    have := List.countP_eq_length.2 ha
    omega
  have : ∃ a ∈ bs, occ a = false := by
    rcases Classical.em (∃ a ∈ bs, occ a = false) with h | h
    · exact h
    · exact absurd (fun a ha => by
        cases e : occ a with
        | true => rfl
        | false => exact absurd ⟨a, ha, e⟩ h) hne
  obtain ⟨a, ha, e⟩ := this
  obtain ⟨i, hi, he⟩ := List.getElem_of_mem ha
  refine ⟨i, hi, occ_df.1 ?_⟩
  unfold g
  rw [List.getElem?_eq_getElem hi, he]
  exact e

theorem bump {x : BitVec 32} {M : Nat} (h : x.toNat < 256 * (M + 1)) (hM : M + 1 < 2 ^ 24) : (x + 256#32).toNat = x.toNat + 256 := by
  rw [BitVec.toNat_add]
  have : x.toNat + 256 < 2 ^ 32 := by omega
  simpa using Nat.mod_eq_of_lt this

theorem mod_pred {n i p : Nat} (hn : 2 ≤ n) (hi : i < n) (hp : p < n) (h : (i + 1) % n = p) (q : Nat) (hq : q < n) (h' : (q + 1) % n = p) : q = i := by
  by_cases h1 : i + 1 = n
  · rw [h1, Nat.mod_self] at h
    by_cases h2 : q + 1 = n
    · omega
    · rw [Nat.mod_eq_of_lt (by omega)] at h'; omega
  · rw [Nat.mod_eq_of_lt (by omega)] at h
    by_cases h2 : q + 1 = n
    · rw [h2, Nat.mod_self] at h'; omega
    · rw [Nat.mod_eq_of_lt (by omega)] at h'; omega

/-- Writing a bucket at a place it belongs to keeps the order, if it is not smaller than the one there and not too large for the one before. -/
theorem order_set {bs : List Bucket} {n p : Nat} {b : Bucket} (hlen : bs.length = n) (hp : p < n)
    (order : ∀ i < n, 512 ≤ df bs ((i + 1) % n) → df bs ((i + 1) % n) ≤ df bs i + 256)
    (hge : df bs p ≤ b.1.toNat) (hbe : ∀ i < n, (i + 1) % n = p → 512 ≤ b.1.toNat → b.1.toNat ≤ df bs i + 256) :
    ∀ i < n, 512 ≤ df (bs.set p b) ((i + 1) % n) → df (bs.set p b) ((i + 1) % n) ≤ df (bs.set p b) i + 256 := by
  intro i hi
  have e : ∀ j, df (bs.set p b) j = if j = p then b.1.toNat else df bs j := by
    intro j
    unfold df
    rw [g_set b (by omega)]
    by_cases hj : j = p
    · rw [if_pos hj, if_pos hj]
    · rw [if_neg hj, if_neg hj]
  rw [e, e]
  have ho := order i hi
  by_cases h1 : (i + 1) % n = p
  · rw [if_pos h1]
    intro h5
    have := hbe i hi h1 h5
    by_cases h2 : i = p
    · rw [if_pos h2]; omega
    · rw [if_neg h2]; exact this
  · rw [if_neg h1]
    intro h5
    have := ho h5
    by_cases h2 : i = p
    · rw [if_pos h2]; subst h2; omega
    · rw [if_neg h2]; exact this

/-- `place_and_shift_up` puts the bucket in, and moves the others on without losing one. -/
theorem place_ok {hash : BitVec 64 → BitVec 64} {sh : Nat} {vals : List (BitVec 64)} {n m c : Nat} (hm : m + 1 < 2 ^ 24) (hn : 2 ≤ n) :
    ∀ (k fuel : Nat) (bs : List Bucket) (b : Bucket) (p : Nat) (K : Nat → Prop), k < fuel → k < n → p < n →
    Part hash sh vals n (m + 1) c K bs → Belongs hash sh vals n (m + 1) p b → df bs p ≤ b.1.toNat →
    (∀ i < n, (i + 1) % n = p → 512 ≤ b.1.toNat → b.1.toNat ≤ df bs i + 256) →
    df bs ((p + k) % n) = 0 → (∀ j < k, df bs ((p + j) % n) ≠ 0 ∧ df bs ((p + j) % n) < 256 * (m + 1)) →
    ∃ bs', place fuel bs b p = .ok bs' ∧ Part hash sh vals n (m + 1) (c + 1) (fun x => K x ∨ x = b.2) bs' := by
  intro k
  induction k with
  | zero =>
    intro fuel bs b p K hf hk hp h hb hge hbe he hnear
    obtain ⟨fuel, rfl⟩ : ∃ f, fuel = f + 1 := ⟨fuel - 1, by omega⟩
    have hlen := h.len
    rw [Nat.add_zero, Nat.mod_eq_of_lt hp] at he
    have h0 : (g bs p).1 = 0#32 := BitVec.eq_of_toNat_eq he
    unfold place
    rw [g_some (by omega)]
    simp only [h0, if_true]
    refine ⟨_, rfl, by rw [List.length_set, hlen], ?_, order_set hlen hp h.order hge hbe, ?_, ?_⟩
    · intro i hi hd
      unfold df at hd
      rw [g_set b (by omega)] at hd ⊢
      by_cases hip : i = p
      · rw [if_pos hip]; rw [hip]; exact hb
      · rw [if_neg hip] at hd ⊢; exact h.entry i hi hd
    · have := countP_set occ bs p b (g bs p) (g_some (by omega))
      rw [h.count, occ_df.2 he] at this
      have hob : occ b = true := by
        have := belongs_pos hb
        unfold occ
        simp only [ne_eq, decide_not, Bool.not_eq_eq_eq_not, Bool.not_true, decide_eq_false_iff_not]
        intro e; rw [e] at this; simp at this
      rw [hob] at this
      simpa using this
    · intro x hx
      rcases hx with hx | hx
      · obtain ⟨i, hi, h1, h2⟩ := h.all x hx
        have hip : i ≠ p := fun e => h1 (e ▸ he)
        refine ⟨i, hi, ?_, ?_⟩
        · unfold df; rw [g_set b (by omega), if_neg hip]; exact h1
        · rw [g_set b (by omega), if_neg hip]; exact h2
      · have := belongs_pos hb
        refine ⟨p, hp, ?_, ?_⟩
        · unfold df; rw [g_set b (by omega), if_pos rfl]; omega
        · rw [g_set b (by omega), if_pos rfl]; exact hx.symm
  | succ k ih =>
    intro fuel bs b p K hf hk hp h hb hge hbe he hnear
    obtain ⟨fuel, rfl⟩ : ∃ f, fuel = f + 1 := ⟨fuel - 1, by omega⟩
    have hlen := h.len
    obtain ⟨hne, hsm⟩ := hnear 0 (by omega)
    rw [Nat.add_zero, Nat.mod_eq_of_lt hp] at hne hsm
    have h0 : (g bs p).1 ≠ 0#32 := fun e => hne (by unfold df; rw [e]; rfl)
    unfold place
    rw [g_some (by omega)]
    simp only [h0, if_false]
    rw [hlen, next_eq hp]
    have hpn : (p + 1) % n < n := Nat.mod_lt _ (by omega)
    have hpne : (p + 1) % n ≠ p := mod_ne hp (by omega) (by omega)
    have hbump : ((g bs p).1 + 256#32).toNat = df bs p + 256 := bump hsm hm
    have hdf : ∀ j, df (bs.set p b) j = if j = p then b.1.toNat else df bs j := by
      intro j
      unfold df
      rw [g_set b (by omega)]
      by_cases hj : j = p
      · rw [if_pos hj, if_pos hj]
      · rw [if_neg hj, if_neg hj]
    obtain ⟨v, d, e1, e2, e3, e4⟩ := h.entry p hp hne
    have he2 : df bs p = 256 * (d + 1) + (hash v).toNat % 256 := e2
    have hpos := belongs_pos hb
    have hstep : ∀ j, ((p + 1) % n + j) % n = (p + (j + 1)) % n := by
      intro j; rw [shift_mod]; congr 1; omega
    have hfar : ∀ j, j < k + 1 → (p + (j + 1)) % n ≠ p := fun j hj => mod_ne hp (by omega) (by omega)
    obtain ⟨bs', r1, r2⟩ := ih fuel (bs.set p b) ((g bs p).1 + 256#32, (g bs p).2) ((p + 1) % n) (fun x => (K x ∧ x ≠ (g bs p).2) ∨ x = b.2)
      (by omega) (by omega) hpn
      ⟨by rw [List.length_set, hlen],
       fun i hi hd => by
        rw [hdf] at hd
        rw [g_set b (by omega)]
        by_cases hip : i = p
        · rw [if_pos hip]; rw [hip]; exact hb
        · rw [if_neg hip] at hd ⊢; exact h.entry i hi hd,
       order_set hlen hp h.order hge hbe,
       by
        have := countP_set occ bs p b (g bs p) (g_some (by omega))
        rw [h.count] at this
        have o1 : occ (g bs p) = true := by
          cases e : occ (g bs p) with
          | true => rfl
          | false => exact absurd (occ_df.1 e) hne
        have o2 : occ b = true := by
          unfold occ
          simp only [ne_eq, decide_not, Bool.not_eq_eq_eq_not, Bool.not_true, decide_eq_false_iff_not]
          intro e; rw [e] at hpos; simp at hpos
        rw [o1, o2] at this
        simpa using this,
       fun x hx => by
        rcases hx with ⟨hx, hxn⟩ | hx
        · obtain ⟨i, hi, h1, h2⟩ := h.all x hx
          have hip : i ≠ p := fun e => hxn (by rw [← h2, e])
          exact ⟨i, hi, by rw [hdf, if_neg hip]; exact h1, by rw [g_set b (by omega), if_neg hip]; exact h2⟩
        · exact ⟨p, hp, by rw [hdf, if_pos rfl]; omega, by rw [g_set b (by omega), if_pos rfl]; exact hx.symm⟩⟩
      ⟨v, d + 1, e1, by rw [hbump, he2]; omega, by rw [e3, Nat.mod_add_mod]; rfl, by omega⟩
      (by
        rw [hdf, if_neg hpne]
        show df bs ((p + 1) % n) ≤ ((g bs p).1 + 256#32).toNat
        rw [hbump]
        rcases Nat.lt_or_ge (df bs ((p + 1) % n)) 512 with hlt | hge5
        · omega
        · exact h.order p hp hge5)
      (by
        intro i hi hip _
        have : i = p := mod_pred hn hp hpn rfl i hi hip
        rw [hdf, if_pos this]
        show ((g bs p).1 + 256#32).toNat ≤ _
        rw [hbump]; omega)
      (by rw [hstep, hdf, if_neg (hfar k (by omega))]; exact he)
      (by
        intro j hj
        rw [hstep, hdf, if_neg (hfar j (by omega))]
        exact hnear (j + 1) (by omega))
    refine ⟨bs', r1, r2.len, r2.entry, r2.order, r2.count, fun x hx => r2.all x ?_⟩
    rcases hx with hx | hx
    · by_cases hxn : x = (g bs p).2
      · exact .inr hxn
      · exact .inl (.inl ⟨hx, hxn⟩)
    · exact .inl (.inr hx)

theorem least {P : Nat → Prop} : ∀ k, P k → ∃ k' ≤ k, P k' ∧ ∀ j < k', ¬ P j := by
  intro k
  induction k using Nat.strongRecOn with
  | _ k ih =>
    intro h
    rcases Classical.em (∃ j < k, P j) with ⟨j, hj, hp⟩ | hn
    · obtain ⟨k', h1, h2, h3⟩ := ih j hj hp
      exact ⟨k', by omega, h2, h3⟩
    · exact ⟨k, Nat.le_refl _, h, fun j hj hp => hn ⟨j, hj, hp⟩⟩

/-- Walking on from a place there is a free bucket, and those before it are occupied. -/
theorem free_ahead {bs : List Bucket} {n c p : Nat} (hlen : bs.length = n) (hc : bs.countP occ = c) (h : c < n) (hp : p < n) :
    ∃ k < n, df bs ((p + k) % n) = 0 ∧ ∀ j < k, df bs ((p + j) % n) ≠ 0 := by
  obtain ⟨e, he, h0⟩ := free hc (by omega)
  obtain ⟨k, hk, hke⟩ := reach_mod hp (by omega : e < n)
  obtain ⟨k', h1, h2, h3⟩ := least (P := fun k => df bs ((p + k) % n) = 0) k (by rw [hke]; exact h0)
  exact ⟨k', by omega, h2, h3⟩

theorem df_lt {hash : BitVec 64 → BitVec 64} {sh : Nat} {vals : List (BitVec 64)} {n M c : Nat} {K : Nat → Prop} {bs : List Bucket}
    (h : Part hash sh vals n M c K bs) {i : Nat} (hi : i < n) : df bs i < 256 * (M + 1) := by
  rcases Nat.eq_zero_or_pos (df bs i) with h0 | h0
  · omega
  · obtain ⟨v, d, _, e2, _, e4⟩ := h.entry i hi (by omega)
    have : df bs i = 256 * (d + 1) + (hash v).toNat % 256 := e2
    omega

theorem Part.more {hash : BitVec 64 → BitVec 64} {sh : Nat} {vals vals' : List (BitVec 64)} {n M M' c : Nat} {K : Nat → Prop} {bs : List Bucket}
    (h : Part hash sh vals n M c K bs) (hM : M ≤ M') (hv : vals <+: vals') : Part hash sh vals' n M' c K bs := by
  obtain ⟨w, rfl⟩ := hv
  refine ⟨h.len, fun i hi hd => ?_, h.order, h.count, h.all⟩
  obtain ⟨v, d, e1, e2, e3, e4⟩ := h.entry i hi hd
  refine ⟨v, d, ?_, e2, e3, by omega⟩
  rw [List.getElem?_append_left]
  · exact e1
  · exact (List.getElem?_eq_some_iff.1 e1).1

/-- One more value in the table. -/
theorem place_full {hash : BitVec 64 → BitVec 64} {sh : Nat} {vals : List (BitVec 64)} {n m : Nat} {bs : List Bucket} {b : Bucket} {p : Nat} {K : Nat → Prop}
    (hm : m + 1 < 2 ^ 24) (hn : 2 ≤ n) (hmn : m < n) (h : Part hash sh vals n m m K bs) (hp : p < n) (hb : Belongs hash sh vals n (m + 1) p b)
    (hge : df bs p ≤ b.1.toNat) (hbe : ∀ i < n, (i + 1) % n = p → 512 ≤ b.1.toNat → b.1.toNat ≤ df bs i + 256) :
    ∃ bs', place bs.length bs b p = .ok bs' ∧ Part hash sh vals n (m + 1) (m + 1) (fun x => K x ∨ x = b.2) bs' := by
  obtain ⟨k, hk, h0, hne⟩ := free_ahead h.len h.count hmn hp
  refine place_ok hm hn k bs.length bs b p K (by rw [h.len]; exact hk) hk hp (h.more (by omega) (List.prefix_refl _)) hb hge hbe h0 ?_
  intro j hj
  exact ⟨hne j hj, df_lt h (Nat.mod_lt _ (by omega))⟩

/-- The value `first` and `dist_inc` give for the `j`-th bucket from the first place. -/
def at_ (h : BitVec 64) (j : Nat) : Nat := 256 * (j + 1) + h.toNat % 256

theorem first_toNat (h : BitVec 64) : (first h).toNat = at_ h 0 := by
  unfold first at_
  have e : (h.setWidth 32 &&& 255#32).toNat = h.toNat % 256 := by
    rw [BitVec.toNat_and, BitVec.toNat_setWidth]
    rw [show (255#32).toNat = 2 ^ 8 - 1 from rfl, Nat.and_two_pow_sub_one_eq_mod]
    omega
  rw [BitVec.toNat_or, e, show (256#32).toNat = 2 ^ 8 * 1 from rfl, ← Nat.two_pow_add_eq_or_of_lt (by omega)]

theorem at_succ (h : BitVec 64) (j : Nat) : at_ h (j + 1) = at_ h j + 256 := by unfold at_; omega

/-- If all buckets from the first place to the `j`-th are larger than what is looked for there, then `j` is at most the number of values. -/
theorem steps_le {hash : BitVec 64 → BitVec 64} {sh : Nat} {vals : List (BitVec 64)} {n m c : Nat} {K : Nat → Prop} {bs : List Bucket}
    (h : Part hash sh vals n m c K bs) {i j : Nat} {x : BitVec 64} (hi : i < n) (hle : at_ x j ≤ df bs i) : j + 1 ≤ m := by
  have := df_lt h hi
  unfold at_ at hle
  omega

/-- `next_while_less` stops where the new bucket belongs. -/
theorem walk_ok {hash : BitVec 64 → BitVec 64} {sh : Nat} {vals : List (BitVec 64)} {n m : Nat} {K : Nat → Prop} {bs : List Bucket} (hm : m + 1 < 2 ^ 24)
    (hn : 2 ≤ n) (h : Part hash sh vals n m m K bs) {x : BitVec 64} (hh : home sh x < n) : ∀ (k fuel j : Nat) (d : BitVec 32), k < fuel → j ≤ m →
    d.toNat = at_ x j → (0 < j → at_ x (j - 1) ≤ df bs ((home sh x + (j - 1)) % n)) → df bs ((home sh x + (j + k)) % n) = 0 →
    ∃ (j' : Nat) (d' : BitVec 32), walk bs fuel d ((home sh x + j) % n) = .ok (d', (home sh x + j') % n) ∧ j' ≤ m ∧ d'.toNat = at_ x j' ∧
      df bs ((home sh x + j') % n) ≤ at_ x j' ∧ (0 < j' → at_ x (j' - 1) ≤ df bs ((home sh x + (j' - 1)) % n)) := by
  intro k
  induction k with
  | zero =>
    intro fuel j d hf hj hd hp h0
    obtain ⟨fuel, rfl⟩ : ∃ f, fuel = f + 1 := ⟨fuel - 1, by omega⟩
    have hi : (home sh x + j) % n < n := Nat.mod_lt _ (by omega)
    rw [Nat.add_zero] at h0
    unfold walk
    rw [g_some (by rw [h.len]; exact hi)]
    have : ¬ d < (g bs ((home sh x + j) % n)).1 := by
      rw [BitVec.lt_def]
      have e : (g bs ((home sh x + j) % n)).1.toNat = 0 := h0
      omega
    simp only [this, if_false]
    exact ⟨j, d, rfl, hj, hd, by omega, hp⟩
  | succ k ih =>
    intro fuel j d hf hj hd hp h0
    obtain ⟨fuel, rfl⟩ : ∃ f, fuel = f + 1 := ⟨fuel - 1, by omega⟩
    have hi : (home sh x + j) % n < n := Nat.mod_lt _ (by omega)
    unfold walk
    rw [g_some (by rw [h.len]; exact hi)]
    by_cases hlt : d < (g bs ((home sh x + j) % n)).1
    · simp only [hlt, if_true]
      rw [BitVec.lt_def] at hlt
      have hle : at_ x j ≤ df bs ((home sh x + j) % n) := by unfold df; omega
      have hj' := steps_le h hi hle
      rw [h.len, next_eq hi, Nat.mod_add_mod]
      refine ih fuel (j + 1) (d + 256#32) (by omega) hj' ?_ (fun _ => hle) ?_
      · rw [bump (M := m) (by rw [hd]; unfold at_; omega) hm, hd, at_succ]
      · rw [show j + 1 + k = j + (k + 1) from by omega]; exact h0
    · simp only [hlt, if_false]
      rw [BitVec.lt_def] at hlt
      exact ⟨j, d, rfl, hj, hd, by unfold df; omega, hp⟩

/-- The search of `emplace` for a value that is not there. -/
theorem search_new {hash : BitVec 64 → BitVec 64} {sh : Nat} {vals : List (BitVec 64)} {n m : Nat} {K : Nat → Prop} {bs : List Bucket} (hm : m + 1 < 2 ^ 24)
    (hn : 2 ≤ n) (h : Part hash sh vals n m m K bs) {key : BitVec 64} (hk : key ∉ vals) (hh : home sh (hash key) < n) : ∀ (k fuel j : Nat) (d : BitVec 32), k < fuel → j ≤ m →
    d.toNat = at_ (hash key) j → (0 < j → at_ (hash key) (j - 1) ≤ df bs ((home sh (hash key) + (j - 1)) % n)) → df bs ((home sh (hash key) + (j + k)) % n) = 0 →
    ∃ (j' : Nat) (d' : BitVec 32), search (vals ++ [key]) bs key fuel d ((home sh (hash key) + j) % n) = .ok (some (d', (home sh (hash key) + j') % n)) ∧ j' ≤ m ∧
      d'.toNat = at_ (hash key) j' ∧
      df bs ((home sh (hash key) + j') % n) ≤ at_ (hash key) j' ∧ (0 < j' → at_ (hash key) (j' - 1) ≤ df bs ((home sh (hash key) + (j' - 1)) % n)) := by
  intro k
  induction k with
  | zero =>
    intro fuel j d hf hj hd hp h0
    obtain ⟨fuel, rfl⟩ : ∃ f, fuel = f + 1 := ⟨fuel - 1, by omega⟩
    have hi : (home sh (hash key) + j) % n < n := Nat.mod_lt _ (by omega)
    rw [Nat.add_zero] at h0
    unfold search
    rw [g_some (by rw [h.len]; exact hi)]
    have : ¬ d ≤ (g bs ((home sh (hash key) + j) % n)).1 := by
      rw [BitVec.le_def]
      have e : (g bs ((home sh (hash key) + j) % n)).1.toNat = 0 := h0
      unfold at_ at hd
      omega
    simp only [this, if_false]
    exact ⟨j, d, rfl, hj, hd, by omega, hp⟩
  | succ k ih =>
    intro fuel j d hf hj hd hp h0
    obtain ⟨fuel, rfl⟩ : ∃ f, fuel = f + 1 := ⟨fuel - 1, by omega⟩
    have hi : (home sh (hash key) + j) % n < n := Nat.mod_lt _ (by omega)
    unfold search
    rw [g_some (by rw [h.len]; exact hi)]
    by_cases hlt : d ≤ (g bs ((home sh (hash key) + j) % n)).1
    · simp only [hlt, if_true]
      rw [BitVec.le_def] at hlt
      have hle : at_ (hash key) j ≤ df bs ((home sh (hash key) + j) % n) := by unfold df; omega
      have hj' := steps_le h hi hle
      have hgo := ih fuel (j + 1) (d + 256#32) (by omega) hj'
        (by rw [bump (M := m) (by rw [hd]; unfold at_; omega) hm, hd, at_succ]) (fun _ => hle)
        (by rw [show j + 1 + k = j + (k + 1) from by omega]; exact h0)
      rw [h.len, next_eq hi, Nat.mod_add_mod]
      by_cases heq : d = (g bs ((home sh (hash key) + j) % n)).1
      · simp only [heq, if_true]
        obtain ⟨v, dd, e1, _⟩ := h.entry _ hi (by unfold at_ at hle; omega)
        rw [List.getElem?_append_left (List.getElem?_eq_some_iff.1 e1).1, e1]
        have hv : v ≠ key := fun e => hk (e ▸ List.mem_of_getElem? e1)
        simp only [hv, if_false]
        rw [← heq]; exact hgo
      · simp only [heq, if_false]
        exact hgo
    · simp only [hlt, if_false]
      rw [BitVec.le_def] at hlt
      exact ⟨j, d, rfl, hj, hd, by unfold df; omega, hp⟩

/-- In front of a bucket at distance `d` there are buckets that are not smaller than what a search for it looks for. -/
theorem path {hash : BitVec 64 → BitVec 64} {sh : Nat} {vals : List (BitVec 64)} {n m c : Nat} {K : Nat → Prop} {bs : List Bucket} (hn : 2 ≤ n)
    (h : Part hash sh vals n m c K bs) {x : BitVec 64} : ∀ (e j : Nat), at_ x (j + e) ≤ df bs ((home sh x + (j + e)) % n) → at_ x j ≤ df bs ((home sh x + j) % n) := by
  intro e
  induction e with
  | zero => intro j h0; exact h0
  | succ e ih =>
    intro j h0
    have := ih (j + 1) (by rw [show j + 1 + e = j + (e + 1) from by omega]; exact h0)
    have ho := h.order ((home sh x + j) % n) (Nat.mod_lt _ (by omega))
    rw [Nat.mod_add_mod, show home sh x + j + 1 = home sh x + (j + 1) from by omega] at ho
    have h5 : 512 ≤ df bs ((home sh x + (j + 1)) % n) := by unfold at_ at this; omega
    have := ho h5
    rw [at_succ] at *
    omega

/-- The search of `emplace` for a value that is there. -/
theorem search_old {hash : BitVec 64 → BitVec 64} {sh : Nat} {vals : List (BitVec 64)} {n m c : Nat} {K : Nat → Prop} {bs : List Bucket} (hm : m < 2 ^ 24)
    (hn : 2 ≤ n) (h : Part hash sh vals n m c K bs) {key : BitVec 64} : ∀ (e fuel j : Nat) (d : BitVec 32), e < fuel →
    d.toNat = at_ (hash key) j → j + e + 1 ≤ m → df bs ((home sh (hash key) + (j + e)) % n) = at_ (hash key) (j + e) →
    vals[(g bs ((home sh (hash key) + (j + e)) % n)).2]? = some key →
    search (vals ++ [key]) bs key fuel d ((home sh (hash key) + j) % n) = .ok none := by
  intro e
  induction e with
  | zero =>
    intro fuel j d hf hd hj he hv
    obtain ⟨fuel, rfl⟩ : ∃ f, fuel = f + 1 := ⟨fuel - 1, by omega⟩
    have hi : (home sh (hash key) + j) % n < n := Nat.mod_lt _ (by omega)
    rw [Nat.add_zero] at he hv
    unfold search
    rw [g_some (by rw [h.len]; exact hi)]
    have heq : d = (g bs ((home sh (hash key) + j) % n)).1 := BitVec.eq_of_toNat_eq (by rw [hd]; exact he.symm)
    have hle : d ≤ (g bs ((home sh (hash key) + j) % n)).1 := by rw [heq, BitVec.le_def]; exact Nat.le_refl _
    simp only [hle, if_true]
    simp only [heq, if_true]
    rw [List.getElem?_append_left (List.getElem?_eq_some_iff.1 hv).1, hv]
    simp
  | succ e ih =>
    intro fuel j d hf hd hj he hv
    obtain ⟨fuel, rfl⟩ : ∃ f, fuel = f + 1 := ⟨fuel - 1, by omega⟩
    have hi : (home sh (hash key) + j) % n < n := Nat.mod_lt _ (by omega)
    have hle := path hn h (e + 1) j (by rw [he]; exact Nat.le_refl _)
    have hled : d ≤ (g bs ((home sh (hash key) + j) % n)).1 := by rw [BitVec.le_def, hd]; exact hle
    have hgo := ih fuel (j + 1) (d + 256#32) (by omega) (by rw [bump (M := m - 1) (by rw [hd]; unfold at_; omega) (by omega), hd, at_succ]) (by omega)
      (by rw [show j + 1 + e = j + (e + 1) from by omega]; exact he) (by rw [show j + 1 + e = j + (e + 1) from by omega]; exact hv)
    unfold search
    rw [g_some (by rw [h.len]; exact hi)]
    simp only [hled, if_true]
    rw [h.len, next_eq hi, Nat.mod_add_mod]
    by_cases heq : d = (g bs ((home sh (hash key) + j) % n)).1
    · simp only [heq, if_true]
      obtain ⟨v, dd, e1, _⟩ := h.entry _ hi (by unfold at_ at hle; omega)
      rw [List.getElem?_append_left (List.getElem?_eq_some_iff.1 e1).1, e1]
      by_cases hv' : v = key
      · simp only [hv', if_true]
      · simp only [hv', if_false]
        rw [← heq]; exact hgo
    · simp only [heq, if_false]
      exact hgo

/-! ## Tables -/

/-- The number of buckets. -/
def size (t : Table) : Nat := 2 ^ (64 - t.shifts)

/-- What every table of the library satisfies. -/
structure Good (hash : BitVec 64 → BitVec 64) (t : Table) : Prop where
  sh : 32 ≤ t.shifts ∧ t.shifts ≤ 62
  part : Part hash t.shifts t.values (size t) t.values.length t.values.length (fun k => k < t.values.length) t.buckets
  nodup : t.values.Nodup
  cap : t.capacity = if size t = 2 ^ 32 then 2 ^ 32 else load (size t)
  le : t.values.length ≤ t.capacity

theorem size_bounds {t : Table} (h : 32 ≤ t.shifts ∧ t.shifts ≤ 62) : 4 ≤ size t ∧ size t ≤ 2 ^ 32 := by
  unfold size
  constructor
  · calc 4 = 2 ^ 2 := rfl
      _ ≤ 2 ^ (64 - t.shifts) := Nat.pow_le_pow_right (by omega) (by omega)
  · exact Nat.pow_le_pow_right (by omega) (by omega)

theorem home_lt {t : Table} (h : 32 ≤ t.shifts ∧ t.shifts ≤ 62) (x : BitVec 64) : home t.shifts x < size t := by
  unfold home size
  rw [BitVec.toNat_setWidth, BitVec.toNat_ushiftRight, Nat.shiftRight_eq_div_pow]
  refine Nat.lt_of_le_of_lt (Nat.mod_le _ _) ?_
  rw [Nat.div_lt_iff_lt_mul (Nat.pow_pos (by omega)), ← Nat.pow_add, show 64 - t.shifts + t.shifts = 64 from by omega]
  exact x.isLt

theorem load_lt {n : Nat} (h : 0 < n) : load n < n := by
  unfold load
  omega

theorem load_double {n : Nat} (h : 4 ≤ n) : load n + 1 ≤ load (2 * n) := by
  unfold load
  omega

/-- From where a walk stops: the bucket before is large enough. -/
theorem before_ok {bs : List Bucket} {n hm j : Nat} {x : BitVec 64} (hn : 2 ≤ n) (h : 0 < j → at_ x (j - 1) ≤ df bs ((hm + (j - 1)) % n)) {d : BitVec 32}
    (hd : d.toNat = at_ x j) : ∀ i < n, (i + 1) % n = (hm + j) % n → 512 ≤ d.toNat → d.toNat ≤ df bs i + 256 := by
  intro i hi hip h5
  cases j with
  | zero => unfold at_ at hd; omega
  | succ j =>
    have := h (by omega)
    simp only [Nat.add_sub_cancel] at this
    have e : i = (hm + j) % n := by
      refine mod_pred hn (Nat.mod_lt _ (by omega)) (Nat.mod_lt (hm + (j + 1)) (by omega)) ?_ i hi hip
      rw [Nat.mod_add_mod]; rfl
    rw [hd, at_succ, e]
    omega

theorem fill_ok {hash : BitVec 64 → BitVec 64} {sh : Nat} {vals : List (BitVec 64)} {n : Nat} (hn : 2 ≤ n) (hv : vals.length < 2 ^ 24) (hvn : vals.length ≤ n)
    (hh : ∀ x, home sh x < n) : ∀ (vs : List (BitVec 64)) (k : Nat) (bs : List Bucket), vals.drop k = vs → k ≤ vals.length →
    Part hash sh vals n k k (fun i => i < k) bs →
    ∃ bs', fill hash sh vs k bs = .ok bs' ∧ Part hash sh vals n vals.length vals.length (fun i => i < vals.length) bs' := by
  intro vs
  induction vs with
  | nil =>
    intro k bs hd hk h
    have : vals.length ≤ k := List.drop_eq_nil_iff.1 hd
    have e : k = vals.length := by omega
    subst e
    exact ⟨bs, rfl, h⟩
  | cons v vs ih =>
    intro k bs hd hk h
    have hlt : k < vals.length := by
      rcases Nat.lt_or_ge k vals.length with h | h
      · exact h
      · rw [List.drop_eq_nil_of_le h] at hd; simp at hd
    have hkv : vals[k]? = some v := by
      have := List.getElem?_drop (xs := vals) (i := k) (j := 0)
      rw [hd] at this
      simpa using this.symm
    have hd' : vals.drop (k + 1) = vs := by
      rw [← List.drop_drop, hd]; rfl
    obtain ⟨q, hq, h0, _⟩ := free_ahead h.len h.count (by omega : k < n) (hh (hash v))
    obtain ⟨j, d, w1, w2, w3, w4, w5⟩ := walk_ok (by omega) hn h (hh (hash v)) q bs.length 0 (first (hash v)) (by rw [h.len]; exact hq) (by omega)
      (first_toNat _) (by omega) (by rw [Nat.zero_add]; exact h0)
    rw [Nat.add_zero, Nat.mod_eq_of_lt (hh _)] at w1
    obtain ⟨bs', p1, p2⟩ := place_full (b := (d, k)) (by omega) hn (by omega) h (Nat.mod_lt _ (by omega)) ⟨v, j, hkv, w3, rfl, by omega⟩ (by rw [w3]; exact w4)
      (before_ok hn w5 w3)
    obtain ⟨bs'', r1, r2⟩ := ih (k + 1) bs' hd' hlt ⟨p2.len, p2.entry, p2.order, p2.count, fun i hi => p2.all i (by omega)⟩
    refine ⟨bs'', ?_, r2⟩
    unfold fill
    rw [w1]
    simp only [Res.ok_bind]
    rw [p1]
    exact r1

theorem part_empty {hash : BitVec 64 → BitVec 64} {sh : Nat} {vals : List (BitVec 64)} {n : Nat} : Part hash sh vals n 0 0 (fun i => i < 0) (List.replicate n (0#32, 0)) := by
  have e : ∀ i, df (List.replicate n (0#32, 0)) i = 0 := by
    intro i
    unfold df g
    rw [List.getElem?_replicate]
    split <;> rfl
  refine ⟨List.length_replicate, fun i _ h => absurd (e i) h, fun i _ h => ?_, ?_, fun k h => absurd h (by omega)⟩
  · rw [e] at h; omega
  · rw [List.countP_replicate]; simp [occ]

theorem numBuckets_ok {s : Nat} (h : 32 ≤ s ∧ s ≤ 62) : numBuckets s = .ok (2 ^ (64 - s)) := by
  unfold numBuckets
  rw [if_neg (by omega)]
  have : 2 ^ (64 - s) ≤ 2 ^ 32 := Nat.pow_le_pow_right (by omega) (by omega)
  rw [Nat.min_eq_right this]

/-- A table built again from its values. -/
theorem rebuild {hash : BitVec 64 → BitVec 64} {vals : List (BitVec 64)} {s : Nat} (h : 32 ≤ s ∧ s ≤ 62) (hnd : vals.Nodup) (hv : vals.length < 2 ^ 24)
    (hle : vals.length ≤ if 2 ^ (64 - s) = 2 ^ 32 then 2 ^ 32 else load (2 ^ (64 - s))) :
    ∃ t, (allocate { values := vals, shifts := s, buckets := [], capacity := 0 } >>= refill hash) = .ok t ∧ Good hash t ∧ t.values = vals ∧ t.shifts = s := by
  have hb := size_bounds (t := { values := vals, shifts := s, buckets := [], capacity := 0 }) h
  have hs : size { values := vals, shifts := s, buckets := [], capacity := 0 } = 2 ^ (64 - s) := rfl
  rw [hs] at hb
  have hvn : vals.length ≤ 2 ^ (64 - s) := by
    split at hle
    · omega
    · have := load_lt (n := 2 ^ (64 - s)) (by omega); omega
  obtain ⟨bs, f1, f2⟩ := fill_ok (hash := hash) (sh := s) (vals := vals) (n := 2 ^ (64 - s)) (by omega) hv hvn
    (fun x => home_lt (t := { values := vals, shifts := s, buckets := [], capacity := 0 }) h x) vals 0 (List.replicate (2 ^ (64 - s)) (0#32, 0)) rfl (by omega) part_empty
  refine ⟨{ values := vals, shifts := s, buckets := bs, capacity := if 2 ^ (64 - s) = 2 ^ 32 then 2 ^ 32 else load (2 ^ (64 - s)) }, ?_, ⟨h, f2, hnd, rfl, hle⟩, rfl, rfl⟩
  unfold allocate
  simp only [numBuckets_ok h, Res.ok_bind, List.take_nil, List.length_nil, Nat.sub_zero, List.nil_append]
  unfold refill clearBuckets
  simp only [List.length_replicate]
  rw [f1]
  rfl

/-- `insert`. -/
theorem insert_ok {hash : BitVec 64 → BitVec 64} {t : Table} (h : Good hash t) {key : BitVec 64} (hn : key ∈ t.values ∨ t.values.length + 1 < 2 ^ 24)
    (hm : t.values.length < 2 ^ 24) :
    ∃ t' b, insert hash t key = .ok (t', b) ∧ Good hash t' ∧ (b = true ↔ key ∉ t.values) ∧ t'.values = if key ∈ t.values then t.values else t.values ++ [key] := by
  have hb := size_bounds h.sh
  have hh := home_lt h.sh (hash key)
  have hmn : t.values.length < size t := by
    have := h.le
    rw [h.cap] at this
    split at this
    · omega
    · have := load_lt (n := size t) (by omega); omega
  have hlen := h.part.len
  by_cases hk : key ∈ t.values
  · obtain ⟨k, hkl, hke⟩ := List.getElem_of_mem hk
    obtain ⟨i, hi, hd, hidx⟩ := h.part.all k hkl
    obtain ⟨v, d, e1, e2, e3, e4⟩ := h.part.entry i hi hd
    have hv : v = key := by
      rw [hidx, List.getElem?_eq_getElem hkl, hke] at e1
      simpa using e1.symm
    subst hv
    have := search_old hm (by omega) h.part (key := v) d t.buckets.length 0 (first (hash v)) (by rw [hlen]; omega) (first_toNat _) (by omega)
      (by rw [Nat.zero_add, ← e3]; exact e2) (by rw [Nat.zero_add, ← e3]; exact e1)
    rw [Nat.add_zero, Nat.mod_eq_of_lt hh] at this
    refine ⟨t, false, ?_, h, by simp [hk], by rw [if_pos hk]⟩
    unfold insert
    simp only
    rw [this]
    rfl
  · have hm1 := hn.resolve_left hk
    obtain ⟨q, hq, h0, _⟩ := free_ahead hlen h.part.count hmn hh
    obtain ⟨j, d, w1, w2, w3, w4, w5⟩ := search_new hm1 (by omega) h.part hk hh q t.buckets.length 0 (first (hash key)) (by rw [hlen]; exact hq) (by omega)
      (first_toNat _) (by omega) (by rw [Nat.zero_add]; exact h0)
    rw [Nat.add_zero, Nat.mod_eq_of_lt hh] at w1
    have hnd : (t.values ++ [key]).Nodup := by
      rw [List.nodup_append]
      refine ⟨h.nodup, by simp, fun a ha b hb => ?_⟩
      rw [List.mem_singleton.1 hb]
      exact fun e => hk (e ▸ ha)
    have hl1 : (t.values ++ [key]).length = t.values.length + 1 := by simp
    by_cases hfull : (t.values ++ [key]).length > t.capacity
    · have hsz : size t ≠ 2 ^ 32 := by
        intro e
        have := h.cap
        rw [if_pos e] at this
        omega
      have hcap := h.cap
      rw [if_neg hsz] at hcap
      have hsh : t.shifts ≠ 32 := fun e => hsz (by unfold size; rw [e])
      have hdouble : 2 ^ (64 - (t.shifts - 1)) = 2 * size t := by
        have := h.sh
        unfold size
        rw [show 64 - (t.shifts - 1) = (64 - t.shifts) + 1 from by omega, Nat.pow_succ]; omega
      obtain ⟨t', r1, r2, r3, r4⟩ := rebuild (hash := hash) (vals := t.values ++ [key]) (s := t.shifts - 1) ⟨by have := h.sh; omega, by have := h.sh; omega⟩ hnd
        (by omega) (by
          rw [hdouble]
          have := load_double hb.1
          have := h.le
          split
          · omega
          · omega)
      refine ⟨t', true, ?_, r2, by simp [hk], by rw [if_neg hk, r3]⟩
      unfold insert
      simp only
      rw [w1]
      simp only [Res.ok_bind]
      rw [if_pos hfull]
      unfold increase
      have hc32 : t.capacity ≠ 2 ^ 32 := by
        have := load_lt (n := size t) (by omega)
        omega
      simp only [hc32, if_false]
      change ((allocate { values := t.values ++ [key], shifts := t.shifts - 1, buckets := [], capacity := 0 } >>= refill hash) >>= fun t' => Res.ok (t', true)) = _
      rw [r1]
      rfl
    · have hp2 := h.part.more (Nat.le_refl _) (List.prefix_append t.values [key])
      obtain ⟨bs', p1, p2⟩ := place_full (b := (d, (t.values ++ [key]).length - 1)) (by omega) (by omega) hmn hp2 (Nat.mod_lt _ (by omega))
        ⟨key, j, by simp, w3, rfl, by omega⟩ (by rw [w3]; exact w4) (before_ok (by omega) w5 w3)
      refine ⟨{ t with values := t.values ++ [key], buckets := bs' }, true, ?_, ⟨h.sh, ?_, hnd, h.cap, by simp only; omega⟩, by simp [hk], by rw [if_neg hk]⟩
      · unfold insert
        simp only
        rw [w1]
        simp only [Res.ok_bind]
        rw [if_neg hfull, p1]
        rfl
      · simp only
        rw [hl1]
        exact ⟨p2.len, p2.entry, p2.order, p2.count, fun k hk => p2.all k (by simp only [hl1]; omega)⟩

/-- `clear`. -/
theorem clear_ok {hash : BitVec 64 → BitVec 64} {t : Table} (h : Good hash t) : Good hash (clear t) ∧ (clear t).values = [] := by
  refine ⟨⟨h.sh, ?_, List.nodup_nil, h.cap, Nat.zero_le _⟩, rfl⟩
  unfold clear clearBuckets
  simp only [List.length_nil]
  rw [h.part.len]
  exact part_empty

theorem shiftsFor_ok {s : Nat} (hs : s ≤ 3435973888) : ∀ k, k + 32 ≤ 62 → 32 ≤ shiftsFor s (k + 32) ∧ shiftsFor s (k + 32) ≤ k + 32 ∧
    s ≤ load (2 ^ (64 - shiftsFor s (k + 32))) := by
  intro k
  induction k with
  | zero =>
    intro _
    have : shiftsFor s 32 = 32 := by
      unfold shiftsFor
      rw [if_neg (by simp only [load]; omega)]
    rw [Nat.zero_add, this]
    exact ⟨by omega, by omega, by simp only [load]; omega⟩
  | succ k ih =>
    intro hk
    obtain ⟨a, b, c⟩ := ih (by omega)
    rw [show k + 1 + 32 = (k + 32) + 1 from by omega]
    unfold shiftsFor
    by_cases hl : load (min (2 ^ 32) (2 ^ (64 - (k + 32 + 1)))) < s
    · rw [if_pos hl]
      exact ⟨a, by omega, c⟩
    · rw [if_neg hl]
      have : 2 ^ (64 - (k + 32 + 1)) ≤ 2 ^ 32 := Nat.pow_le_pow_right (by omega) (by omega)
      rw [Nat.min_eq_right this] at hl
      exact ⟨by omega, by omega, by omega⟩

/-- `reserve`. -/
theorem reserve_ok {hash : BitVec 64 → BitVec 64} {t : Table} (h : Good hash t) (hm : t.values.length < 2 ^ 24) {capa : Nat} (hc : capa ≤ 3435973888) :
    ∃ t', reserve hash t capa = .ok t' ∧ Good hash t' ∧ t'.values = t.values := by
  unfold reserve
  simp only
  split
  · obtain ⟨a, b, c⟩ := shiftsFor_ok (s := max (min capa (2 ^ 32)) t.values.length) (by omega) 30 (by omega)
    obtain ⟨t', r1, r2, r3, _⟩ := rebuild (hash := hash) (vals := t.values) (s := shiftsFor (max (min capa (2 ^ 32)) t.values.length) 62) ⟨a, b⟩ h.nodup hm
      (by
        split
        · omega
        · exact Nat.le_trans (Nat.le_max_right _ _) c)
    exact ⟨t', r1, r2, r3⟩
  · exact ⟨t, rfl, h, rfl⟩

/-- The constructor. -/
theorem new_ok {hash : BitVec 64 → BitVec 64} : ∃ t, new = .ok t ∧ Good hash t ∧ t.values = [] := by
  refine ⟨{ values := [], shifts := 62, buckets := List.replicate 4 (0#32, 0), capacity := 3 }, by decide, ⟨by decide, part_empty, List.nodup_nil, by decide, by decide⟩, rfl⟩

end Cloudini.Dense
