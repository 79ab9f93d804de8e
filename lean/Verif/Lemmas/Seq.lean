import Verif.Model.Seq
import Verif.Lemmas.Points

/-! Round trip of a single field codec over a sequence of points. -/

namespace Cloudini

/-- Every step succeeds and avoids the reserved difference. -/
def SeqClean (F : FloatOps) : Enc → List (List Byte) → Prop
  | _, [] => True
  | e, p :: ps => e.Clean F p ∧ ∃ e' bs, e.step F p = .ok (e', bs) ∧ SeqClean F e' ps

theorem seq_roundtrip (F : FloatOps) (pts : List (List Byte)) (e : Enc) (d : Dec) (hm : Matches e d)
    (hc : SeqClean F e pts) :
    ∃ e' bytes, encodeSeq F e pts = .ok (e', bytes) ∧ bytes.length ≤ e.maxBytes * pts.length ∧
      ∀ rest, ∃ d', decodeSeq F d pts.length (bytes ++ rest) =
        .ok (d', pts.map (fun p => storeAll d.offs (e.vals F p)), rest) := by
  induction pts generalizing e d with
  | nil => exact ⟨e, [], rfl, by simp, fun rest => ⟨d, rfl⟩⟩
  | cons p ps ih =>
    obtain ⟨h1, e1, b1, h2, h3⟩ := hc
    obtain ⟨⟨d0, _, hm0, hd0⟩, hr, _, hl⟩ := step_roundtrip F p e e1 d b1 [] hm h2 h1
    obtain ⟨e', bytes, g1, g2, g3⟩ := ih e1 d0 hm0 h3
    refine ⟨e', b1 ++ bytes, by simp only [encodeSeq, h2, Res.ok_bind, g1], ?_, fun rest => ?_⟩
    · have : e1.maxBytes = e.maxBytes := by rw [← maxBytes_reset e1, hr, maxBytes_reset]
      rw [this] at g2
      simp only [List.length_append, List.length_cons, Nat.mul_add, Nat.mul_one]; omega
    · obtain ⟨⟨d1, k1, hm1, hd1⟩, _⟩ := step_roundtrip F p e e1 d b1 (bytes ++ rest) hm h2 h1
      have hd : d1 = d0 := by
        apply matches_unique hm1 hm0
        rw [hd1, hd0]
      subst hd
      obtain ⟨d', k2⟩ := g3 rest
      refine ⟨d', ?_⟩
      rw [List.append_assoc]
      simp only [List.length_cons, decodeSeq, k1, Res.ok_bind, k2, List.map_cons]
      have ho : d1.offs = d.offs := by rw [← offs_reset d1, hd1, offs_reset]
      have hv : ∀ q, e1.vals F q = e.vals F q := fun q => by rw [← vals_reset F q e1, hr, vals_reset]
      simp only [ho, hv]

end Cloudini
