import Verif.Lemmas.Props.Uniform
import Verif.Lemmas.Props.Rogue
import Verif.Lemmas.Props.Forger

/-!
# Lemmas for `Props/Cancel`
-/

namespace Verif

/-- The tags are shorter than the strings hashed by the protocol. -/
theorem tagsAgree_answering {H : Hash} (hH : TagsAgree H) {x : Bytes} (hx : 64 ≤ x.length) (h : Arr 32) :
    TagsAgree (H.answering x h) := by
  have key : ∀ t : Bytes, t.length < 64 → H.answering x h t = H t := fun t ht =>
    Hash.answering_of_ne _ _ (by rintro rfl; omega)
  constructor <;> rw [key _ (by decide +kernel)]
  exacts [hH.keyAggList, hH.keyAggCoeff, hH.musigAux, hH.musigNonce, hH.musigNoncecoef, hH.bip340Aux, hH.bip340Nonce,
    hH.bip340Challenge, hH.bip340Batch, hH.tapTweak]

theorem coeffQuery_length (H : Hash) (keys : List Point) (K : Point) : 64 ≤ (Spec.coeffQuery H keys K).length := by
  unfold Spec.coeffQuery
  rw [taggedInput_eq (D := KEYAGG_COEFF_TAG_DIGEST) (by simp [tagTable])]
  simp only [List.length_append]
  have : KEYAGG_COEFF_TAG_DIGEST.length = 32 := rfl
  omega

theorem weighted_split (l : List Point) (K : Point) (e : MaybeScalar) (g f : Point → MaybeScalar) :
    (l.map fun K' => (if K' = K then e else g K') * f K').sum
      = e * ((l.count K : ℕ) * f K) + ((l.filter (· ≠ K)).map fun K' => g K' * f K').sum := by
  induction l with
  | nil => simp
  | cons K' l ih =>
    rw [List.map_cons, List.sum_cons, ih]
    by_cases h : K' = K
    · subst h
      rw [if_pos rfl, List.count_cons_self, List.filter_cons_of_neg (by simp), Nat.cast_succ]
      ring
    · rw [if_neg h, List.count_cons_of_ne h, List.filter_cons_of_pos (by simpa using h), List.map_cons, List.sum_cons]
      ring

theorem count_ne_zero_scalar {keys : List Point} {K : Point} (hm : K ∈ keys) (hl : keys.length ≤ u32Max) :
    ((keys.count K : ℕ) : MaybeScalar) ≠ 0 := by
  intro h0
  have hpos := List.count_pos_iff.2 hm
  have hle := List.count_le_length (a := K) (l := keys)
  have hn : u32Max < orderN := by decide +kernel
  have := (ZMod.natCast_eq_zero_iff _ _).1 h0
  exact absurd (Nat.le_of_dvd hpos this) (by omega)

theorem chance_of_prob {E : Arr 32 → Prop} {c : ℚ} (h : Spec.prob E ≤ c) : Spec.chance E ≤ c := by
  unfold Spec.prob at h
  unfold Spec.chance
  rw [arr_card]
  exact_mod_cast h

end Verif
