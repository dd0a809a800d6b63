import Verif.Lemmas.Props.GroupForger

/-!
# Property C109: who forges signatures of a group of their choice can compute the victim's secret key
-/

namespace Verif

open GroupForger

/-- **C109**. The forger chooses the other keys of the group, after seeing the victim's key `P` and as the answers suggest.
It asks for at most `q` answers that are drawn (challenges, and coefficients of `P`), and submits, with probability `acc`,
a group with `P` and a signature that `verify_single` accepts for the key computed by `KeyAggContext::new`. Then four runs
suffice to compute the discrete logarithm of `P`, with the stated probability. -/
theorem C109_rogue_forger_reveals_key (H : Hash) (P : Point) (A : GroupForger) (q : ℕ) (hA : A.AsksAtMost (ofVictim P) q)
    (hL : A.NoListCollision (ofVictim P) H) :
    let acc := Spec.chance fun ω : Fin (q + 2) → Arr 32 => A.Forges (ofVictim P) H (HashedMember P) ω
    Spec.forked (q + 2) (Spec.forked (q + 2) (max 0 (acc - 2 * (q + 2 : ℕ) ^ 2 / 2 ^ 256)))
      ≤ Spec.chance fun p : ((Fin (q + 2) → Arr 32) × (Fin (q + 2) → Arr 32))
          × ((Fin (q + 2) → Arr 32) × (Fin (q + 2) → Arr 32)) =>
        A.extract (ofVictim P) H p.1.1 p.1.2 p.2.1 p.2.2 • G = P.1 :=
  nested_bound hA hL
    (fun _ h => ⟨h, h.1, rfl, secondKey_of_spec h.2, fun _ _ hne => .inr hne⟩) _ (fun _ _ h _ => h)

/-- A group of the victim `G` and another key, and a forger that nearly always succeeds (it knows the secret keys). -/
example (H : Hash) : ∃ A : GroupForger, A.AsksAtMost (ofVictim Gpt) 2 ∧ A.NoListCollision (ofVictim Gpt) H ∧
    ∀ ω : Fin 4 → Arr 32, reduceFrom (ω 0) ≠ 1 → A.Forges (ofVictim Gpt) H (HashedMember Gpt) ω := by
  refine ⟨exForger H, exForger_asks _ H, exForger_noCollision _ H, fun ω hω => exForger_forges rfl rfl ?_ H ω hω⟩
  refine ⟨by unfold pairKeys; simp, ?_⟩
  have := spec_get_second_key pairKeys
  unfold keyBytes at this
  rw [this, pairKeys_second, spec_cbytes_point]
  intro h
  exact negGpt_ne ((serPoint_point_inj).1 h)

/-- **C109** for a victim whose coefficient is one: the second of two members. Drawn are the challenges and the
coefficients of all keys but the victim's. -/
theorem C109_rogue_partner_reveals_key (H : Hash) (P : Point) (A : GroupForger) (q : ℕ) (hA : A.AsksAtMost (ofOthers P) q)
    (hL : A.NoListCollision (ofOthers P) H) :
    let acc := Spec.chance fun ω : Fin (q + 2) → Arr 32 => A.Forges (ofOthers P) H (SecondOfTwo P) ω
    Spec.forked (q + 2) (Spec.forked (q + 2) (max 0 (acc - 2 * (q + 2 : ℕ) ^ 2 / 2 ^ 256)))
      ≤ Spec.chance fun p : ((Fin (q + 2) → Arr 32) × (Fin (q + 2) → Arr 32))
          × ((Fin (q + 2) → Arr 32) × (Fin (q + 2) → Arr 32)) =>
        A.extractSecond H P p.1.1 p.1.2 p.2.1 p.2.2 • G = P.1 := by
  refine nested_bound hA hL (fun keys h => ?_) _ (fun p hw he hg => ?_)
  · exact pivotal_of_second h
  · exact second_of_extract hw he hg

/-- The same group, with the victim `-G`. -/
example (H : Hash) : ∃ A : GroupForger, A.AsksAtMost (ofOthers negGpt) 2 ∧ A.NoListCollision (ofOthers negGpt) H ∧
    ∀ ω : Fin 4 → Arr 32, reduceFrom (ω 0) ≠ 1 → A.Forges (ofOthers negGpt) H (SecondOfTwo negGpt) ω := by
  refine ⟨exForger H, exForger_asks _ H, exForger_noCollision _ H,
    fun ω hω => exForger_forges negGpt_ne.symm rfl ?_ H ω hω⟩
  exact ⟨Gpt, [negGpt], rfl, negGpt_ne.symm, by simp, by simp⟩

end Verif
