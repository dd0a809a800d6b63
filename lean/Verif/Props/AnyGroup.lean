import Verif.Lemmas.Props.AnyGroup

/-!
# Property C126: who forges signatures of any group with the victim, tweaked or not, can compute the victim's secret key
-/

namespace Verif

open AnyForger

/-- **C126**. The forger chooses all keys of the group but the victim's `P`, the order of the keys, and tweaks, after
seeing `P` and as the answers suggest. It asks for at most `q` challenges and `r` coefficients, and submits, with
probability `acc`, a group of at most `N` keys with `P` among them, wherever, and a signature that `verify_single`
accepts for the key computed by `KeyAggContext::new` and `with_tweaks`. Then four runs suffice, with the stated
probability, to compute the discrete logarithm of `P` or to find two key lists with the same hash. -/
theorem C126_any_group_forger_reveals_key (H : Hash) (P : Point) (A : AnyForger) (q r N : ℕ) (hA : A.AsksAtMost N q r) :
    let acc := Spec.chance fun p : Table × (Fin (q + 1) → Arr 32) => A.Forges H P p.1 p.2
    Spec.forked (2 * (r + 1)) (Spec.forked (q + 1) (max 0 (acc - (r + N : ℕ) / 2 ^ 127)))
      ≤ Spec.chance fun p : (Table × (Scalar × Arr 32)) × ((Fin (q + 1) → Arr 32) × (Fin (q + 1) → Arr 32)) =>
        A.extract H P p.1.1 p.1.2 p.2.1 p.2.2 • G = P.1 ∨ A.Collides H P p.1.1 p.1.2 p.2.1 :=
  any_bound hA

/-- The victim `-G` is the second of three members, the group is tweaked with 1, and the forger succeeds unless the
coefficients satisfy one of two equations. (It knows the secret keys.) -/
example (H : Hash) : ∃ A : AnyForger, A.AsksAtMost 3 1 2 ∧ IsSecond negGpt threeKeys ∧
    ∀ (a : Table) (ω : Fin 2 → Arr 32), tableSecret H a ≠ 1 → tableSecret H a ≠ 0 →
      A.Forges H negGpt a ω ∧ (A.run H a (Forger.answers ω) []).keys = threeKeys :=
  ⟨exForger H, exForger_asks H, threeKeys_isSecond, fun _ ω h1 h0 =>
    ⟨exForger_forges ω h1 h0, by rw [exForger_run (Forger.answers ω) h1 h0]⟩⟩

end Verif
