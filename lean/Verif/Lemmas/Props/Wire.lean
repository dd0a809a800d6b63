import Verif.Spec.Wire
import Verif.Lemmas.Props.MixedSession
import Verif.Props.MixedSession
import Verif.Props.Encoding

/-!
# Lemmas for `Props/Wire`
-/

namespace Verif

namespace Wire

theorem mem_signatureCalls {ms : List (ℕ × Bytes)} {j : ℕ} {s : PartialSignature} :
    (j, s) ∈ Spec.signatureCalls ms ↔ (j, (serScalar s).1) ∈ ms := by
  unfold Spec.signatureCalls
  rw [List.mem_filterMap]
  constructor
  · rintro ⟨⟨k, x⟩, h1, h2⟩
    obtain ⟨t, h3, h4⟩ := Option.map_eq_some_iff.1 h2
    cases h4
    rw [← parseMaybeScalar_eq_some.1 h3]
    exact h1
  · intro h
    exact ⟨_, h, Option.map_eq_some_iff.2 ⟨s, parseMaybeScalar_eq_some.2 rfl, rfl⟩⟩

theorem nonceSchedule {H : Hash} (g : MixedGroup H) {i : ℕ} {ms : List (ℕ × Bytes)} (h : g.NonceMessages i ms) :
    g.NonceSchedule i (Spec.nonceCalls ms) := by
  intro j hj hij
  have hlt : j < g.told.length := by rw [g.told_length]; exact hj
  have hn := List.getElem?_eq_getElem (l := g.told) (i := j) hlt
  rw [hn]
  obtain ⟨before, after, rfl, hb⟩ := h j _ hn hij
  unfold Spec.firstValue Spec.nonceCalls
  rw [List.filterMap_append, List.find?_append, List.filterMap_cons, (C23_nonce_roundtrip ⟨scalarOne, scalarOne⟩ g.told[j] ⟨0, 0⟩).2.1]
  rw [List.find?_eq_none.2, Option.none_or]
  · simp
  · rintro ⟨k, n⟩ hk he
    obtain ⟨⟨k', x⟩, h1, h2⟩ := List.mem_filterMap.1 hk
    have hkj : k = j := by simpa using he
    subst hkj
    dsimp only at h2
    split at h2
    · rename_i n' hx
      cases h2
      exact hb x h1 _ hx
    · cases h2

end Wire

end Verif
