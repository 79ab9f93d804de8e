import Verif.Lemmas.Unfold
import Verif.Spec.Header
import Verif.Lemmas.Yaml

/-! # Decoding a header is safe for every input, and consumes a prefix of it -/

namespace Cloudini

theorem noUB_bind {α β : Type} {x : Res α} {f : α → Res β} (h : x.isUB = false) (hf : ∀ a, x = .ok a → (f a).isUB = false) : (x >>= f).isUB = false := by
  cases x with
  | ok a => exact hf a rfl
  | throw m => rfl
  | ub k => exact absurd h (by simp)

theorem stoi_noUB (s : List Byte) : (stoi s).isUB = false := by
  unfold stoi
  simp only
  split
  · rfl
  · split <;> split <;> rfl

theorem extractU32_noUB (s : List Byte) : (extractU32 s).isUB = false := by
  unfold extractU32; simp only; split
  · rfl
  · split <;> rfl

theorem extractU8_noUB (s : List Byte) : (extractU8 s).isUB = false := by
  unfold extractU8; split <;> rfl

theorem fieldTypeFromString_noUB (s : List Byte) : (fieldTypeFromString s).isUB = false := by
  unfold fieldTypeFromString
  repeat' (split; · rfl)
  exact noUB_bind (stoi_noUB s) fun v _ => by split <;> rfl

theorem encOptFromString_noUB (s : List Byte) : (encOptFromString s).isUB = false := by
  unfold encOptFromString
  repeat' (split; · rfl)
  exact noUB_bind (stoi_noUB s) fun v _ => by split <;> rfl

theorem compOptFromString_noUB (s : List Byte) : (compOptFromString s).isUB = false := by
  unfold compOptFromString
  repeat' (split; · rfl)
  exact noUB_bind (stoi_noUB s) fun v _ => by split <;> rfl

theorem get_noUB (n : YNode) (k : List Byte) : (n.get k).isUB = false := by cases n <;> rfl
theorem asStr_noUB (n : YNode) : n.asStr.isUB = false := by cases n <;> rfl

theorem fieldFromYaml_noUB {T : FloatText} (hT : T.Lawful) (n : YNode) : (fieldFromYaml T n).isUB = false := by
  unfold fieldFromYaml
  refine noUB_bind (get_noUB _ _) fun _ _ => noUB_bind (asStr_noUB _) fun _ _ => noUB_bind (get_noUB _ _) fun _ _ => noUB_bind (asStr_noUB _) fun _ _ =>
    noUB_bind (extractU32_noUB _) fun _ _ => noUB_bind (get_noUB _ _) fun _ _ => noUB_bind (asStr_noUB _) fun _ _ => noUB_bind (fieldTypeFromString_noUB _) fun _ _ =>
    noUB_bind (get_noUB _ _) fun _ _ => noUB_bind (asStr_noUB _) fun s _ => ?_
  split
  · rfl
  · refine noUB_bind ?_ fun _ _ => rfl
    have := hT.parse_ub s
    cases h : T.parse s <;> simp_all

theorem fieldsFromYaml_noUB {T : FloatText} (hT : T.Lawful) (ns : List YNode) : (fieldsFromYaml T ns).isUB = false := by
  induction ns with
  | nil => rfl
  | cons n ns ih => exact noUB_bind (fieldFromYaml_noUB hT n) fun _ _ => noUB_bind ih fun _ _ => rfl

theorem fieldsOfNode_noUB {T : FloatText} (hT : T.Lawful) (n : YNode) : (fieldsOfNode T n).isUB = false := by
  cases n <;> first | rfl | exact fieldsFromYaml_noUB hT _

theorem infoFromYaml_noUB {T : FloatText} (hT : T.Lawful) (s : List Byte) : (infoFromYaml T s).isUB = false := by
  unfold infoFromYaml
  obtain ⟨n, hn⟩ := yamlParse_total s
  have hy : yamlParse s = .ok n := hn _ (Nat.le_refl _)
  rw [hy]
  exact noUB_bind rfl fun _ _ =>
    noUB_bind (get_noUB _ _) fun _ _ => noUB_bind (asStr_noUB _) fun _ _ => noUB_bind (extractU8_noUB _) fun _ _ =>
    noUB_bind (get_noUB _ _) fun _ _ => noUB_bind (asStr_noUB _) fun _ _ => noUB_bind (extractU32_noUB _) fun _ _ =>
    noUB_bind (get_noUB _ _) fun _ _ => noUB_bind (asStr_noUB _) fun _ _ => noUB_bind (extractU32_noUB _) fun _ _ =>
    noUB_bind (get_noUB _ _) fun _ _ => noUB_bind (asStr_noUB _) fun _ _ => noUB_bind (extractU32_noUB _) fun _ _ =>
    noUB_bind (get_noUB _ _) fun _ _ => noUB_bind (asStr_noUB _) fun _ _ => noUB_bind (encOptFromString_noUB _) fun _ _ =>
    noUB_bind (get_noUB _ _) fun _ _ => noUB_bind (asStr_noUB _) fun _ _ => noUB_bind (compOptFromString_noUB _) fun _ _ =>
    noUB_bind (get_noUB _ _) fun _ _ => noUB_bind (get_noUB _ _) fun _ _ => noUB_bind (fieldsOfNode_noUB hT _) fun _ _ => rfl

theorem decodeInt_noUB (k : Nat) (b : List Byte) : (decodeInt k b).isUB = false := by rw [decodeInt_def]; split <;> rfl
theorem decodeString_noUB (b : List Byte) : (decodeString b).isUB = false := by
  rw [decodeString_def]
  exact noUB_bind (decodeInt_noUB _ _) fun _ _ => by simp only; split <;> rfl

theorem decodeFieldsBinary_noUB (n : Nat) (b : List Byte) : (decodeFieldsBinary n b).isUB = false := by
  induction n generalizing b with
  | zero => rfl
  | succ n ih =>
    exact noUB_bind (decodeString_noUB _) fun _ _ => noUB_bind (decodeInt_noUB _ _) fun _ _ => noUB_bind (decodeInt_noUB _ _) fun _ _ =>
      noUB_bind (decodeInt_noUB _ _) fun _ _ => noUB_bind (ih _) fun _ _ => rfl

theorem decodeHeaderBinary_noUB (v : Byte) (b : List Byte) : (decodeHeaderBinary v b).isUB = false :=
  noUB_bind (decodeInt_noUB _ _) fun _ _ => noUB_bind (decodeInt_noUB _ _) fun _ _ => noUB_bind (decodeInt_noUB _ _) fun _ _ =>
    noUB_bind (decodeInt_noUB _ _) fun _ _ => noUB_bind (decodeInt_noUB _ _) fun _ _ => noUB_bind (decodeInt_noUB _ _) fun _ _ =>
    noUB_bind (decodeFieldsBinary_noUB _ _) fun _ _ => rfl

theorem decodeHeaderYaml_noUB {T : FloatText} (hT : T.Lawful) (v : Byte) (b : List Byte) : (decodeHeaderYaml T v b).isUB = false := by
  unfold decodeHeaderYaml
  split
  · rfl
  · exact noUB_bind (infoFromYaml_noUB hT _) fun _ _ => rfl

theorem decodeHeader_noUB {T : FloatText} (hT : T.Lawful) (input : List Byte) : (decodeHeader T input).isUB = false := by
  unfold decodeHeader
  split
  · rfl
  next hl =>
  split
  · rfl
  have hd : (input.drop 10).length = input.length - 10 := List.length_drop
  match hm : input.drop 10 with
  | [] => rw [hm] at hd; simp at hd; omega
  | [_] => rw [hm] at hd; simp at hd; omega
  | a :: b :: rest =>
    simp only
    split
    · rfl
    · unfold decodeHeaderBody
      split
      · split
        · exact decodeHeaderYaml_noUB hT _ _
        · exact decodeHeaderBinary_noUB _ _
      · exact decodeHeaderBinary_noUB _ _

/-! ## what is left is a suffix of the input, and the version is the one given -/

theorem decodeInt_suffix {k : Nat} {b rest : List Byte} {v : Nat} (h : decodeInt k b = .ok (v, rest)) : ∃ pre, b = pre ++ rest := by
  rw [decodeInt_def] at h
  split at h
  · simp only [Res.ok.injEq, Prod.mk.injEq] at h
    exact ⟨b.take k, by rw [← h.2, List.take_append_drop]⟩
  · simp at h

theorem decodeString_suffix {b rest s : List Byte} (h : decodeString b = .ok (s, rest)) : ∃ pre, b = pre ++ rest := by
  rw [decodeString_def] at h
  rw [Res.bind_eq_ok] at h
  obtain ⟨⟨n, r⟩, h1, h2⟩ := h
  obtain ⟨p, rfl⟩ := decodeInt_suffix h1
  simp only at h2
  split at h2
  · simp only [Res.ok.injEq, Prod.mk.injEq] at h2
    exact ⟨p ++ r.take n, by rw [← h2.2, List.append_assoc, List.take_append_drop]⟩
  · simp at h2

theorem decodeFieldsBinary_suffix {n : Nat} {b rest : List Byte} {fs} (h : decodeFieldsBinary n b = .ok (fs, rest)) : ∃ pre, b = pre ++ rest := by
  induction n generalizing b fs rest with
  | zero => simp only [decodeFieldsBinary, Res.ok.injEq, Prod.mk.injEq] at h; exact ⟨[], by simp [h.2]⟩
  | succ n ih =>
    unfold decodeFieldsBinary at h
    simp only [Res.bind_eq_ok] at h
    obtain ⟨⟨_, r1⟩, h1, ⟨_, r2⟩, h2, ⟨_, r3⟩, h3, ⟨_, r4⟩, h4, ⟨_, r5⟩, h5, h⟩ := h
    simp only [Res.ok.injEq, Prod.mk.injEq] at h
    obtain ⟨p1, rfl⟩ := decodeString_suffix h1
    obtain ⟨p2, rfl⟩ := decodeInt_suffix h2
    obtain ⟨p3, rfl⟩ := decodeInt_suffix h3
    obtain ⟨p4, rfl⟩ := decodeInt_suffix h4
    obtain ⟨p5, rfl⟩ := ih h5
    exact ⟨p1 ++ (p2 ++ (p3 ++ (p4 ++ p5))), by simp [h.2]⟩

theorem decodeHeaderBinary_suffix {v : Byte} {b rest : List Byte} {info} (h : decodeHeaderBinary v b = .ok (info, rest)) :
    (∃ pre, b = pre ++ rest) ∧ info.version = v := by
  unfold decodeHeaderBinary at h
  simp only [Res.bind_eq_ok] at h
  obtain ⟨⟨_, r1⟩, h1, ⟨_, r2⟩, h2, ⟨_, r3⟩, h3, ⟨_, r4⟩, h4, ⟨_, r5⟩, h5, ⟨_, r6⟩, h6, ⟨_, r7⟩, h7, h⟩ := h
  simp only [Res.ok.injEq, Prod.mk.injEq] at h
  obtain ⟨p1, rfl⟩ := decodeInt_suffix h1
  obtain ⟨p2, rfl⟩ := decodeInt_suffix h2
  obtain ⟨p3, rfl⟩ := decodeInt_suffix h3
  obtain ⟨p4, rfl⟩ := decodeInt_suffix h4
  obtain ⟨p5, rfl⟩ := decodeInt_suffix h5
  obtain ⟨p6, rfl⟩ := decodeInt_suffix h6
  obtain ⟨p7, rfl⟩ := decodeFieldsBinary_suffix h7
  exact ⟨⟨p1 ++ (p2 ++ (p3 ++ (p4 ++ (p5 ++ (p6 ++ p7))))), by simp [h.2]⟩, by rw [← h.1]⟩

theorem decodeHeaderYaml_suffix {T : FloatText} {v : Byte} {b rest : List Byte} {info} (h : decodeHeaderYaml T v b = .ok (info, rest)) :
    (∃ pre, b = pre ++ rest) ∧ info.version = v := by
  unfold decodeHeaderYaml at h
  split at h
  · simp at h
  · rw [Res.bind_eq_ok] at h
    obtain ⟨i, _, h⟩ := h
    simp only [Res.ok.injEq, Prod.mk.injEq] at h
    exact ⟨⟨b.take ((b.takeWhile (· ≠ 0#8)).length + 1), by rw [← h.2, List.take_append_drop]⟩, by rw [← h.1]⟩

theorem decodeHeaderBody_suffix {T : FloatText} {v : Byte} {b rest : List Byte} {info} (h : decodeHeaderBody T v b = .ok (info, rest)) :
    (∃ pre, b = pre ++ rest) ∧ info.version = v := by
  unfold decodeHeaderBody at h
  split at h
  · next a c t =>
    split at h
    · obtain ⟨⟨p, hp⟩, hv⟩ := decodeHeaderYaml_suffix h
      exact ⟨⟨a :: p, by rw [hp]; rfl⟩, hv⟩
    · exact decodeHeaderBinary_suffix h
  · exact decodeHeaderBinary_suffix h

end Cloudini
