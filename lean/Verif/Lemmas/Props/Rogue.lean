import Verif.Lemmas.Props.Exact
import Verif.Lemmas.Props.Forking
import Verif.Lemmas.Reachable
import Verif.Lemmas.Sgn
import Verif.Spec.Rogue

/-!
# Helpers for `Props.Rogue`
-/

namespace Verif

theorem keyCoeff_eq {H : Hash} (hH : TagsAgree H) (keys : List Point) (K : Point) :
    Spec.keyCoeff H keys K = coeffOf H keys K := by
  have h := spec_key_agg_coeff hH keys K
  unfold keyBytes at h
  unfold Spec.keyCoeff
  rw [spec_cbytes_point, h, ZMod.natCast_zmod_val]

/-- Keys known as combinations of `G` and `P` aggregate to such a combination. -/
theorem keySum_represented {H : Hash} (hH : TagsAgree H) (keys : List Point) (P : MaybePoint)
    (α β : Point → MaybeScalar) (hrep : ∀ K ∈ keys, K.1 = α K • G + β K • P) :
    keySum H keys = Spec.weighted H keys α • G + Spec.weighted H keys β • P := by
  have key : ∀ l : List Point, (∀ K ∈ l, K.1 = α K • G + β K • P) →
      (l.map fun K => coeffOf H keys K • K.1).sum
        = (l.map fun K => Spec.keyCoeff H keys K * α K).sum • G + (l.map fun K => Spec.keyCoeff H keys K * β K).sum • P := by
    intro l
    induction l with
    | nil => intro _; simp
    | cons K l ih =>
      intro h
      simp only [List.map_cons, List.sum_cons]
      rw [ih fun K' hK' => h K' (List.mem_cons_of_mem _ hK')]
      nth_rewrite 1 [h K List.mem_cons_self]
      rw [keyCoeff_eq hH, smul_add, ← mul_smul, ← mul_smul, add_smul, add_smul]
      abel
  exact key keys hrep

end Verif
