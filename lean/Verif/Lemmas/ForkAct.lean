import Verif.Lemmas.ForkingCount
import Verif.Lemmas.Props.Decision
import Verif.Lemmas.Props.GroupForger

/-!
# The forking lemma for a family of changes

`J a` is the index that matters for the randomness `a`, if any. The randomness is changed by `act i a g`, with fresh
randomness `g`; `back` undoes a change, and a change after a change is a change. The lemma bounds from below how often
the same index matters again.
-/

namespace Verif

open Finset

section
variable {X Γ ι : Type} [Fintype X] [Fintype Γ] [Fintype ι] [DecidableEq ι]

/-- The changes of the randomness that belong to an index. -/
structure Changes (act : X → Γ → X) where
  back : X → Γ → Γ
  comp : X → Γ → Γ → Γ
  act_back : ∀ a g, act (act a g) (back a g) = a
  back_back : ∀ a g, back (act a g) (back a g) = g
  bij : ∀ a g, Function.Bijective (comp a g)
  act_act : ∀ a g g', act (act a g) g' = act a (comp a g g')

omit [Fintype X] [Fintype Γ] in
theorem Changes.involutive {act : X → Γ → X} (c : Changes act) :
    Function.Involutive fun p : X × Γ => (act p.1 p.2, c.back p.1 p.2) := by
  rintro ⟨a, g⟩
  exact Prod.ext (c.act_back a g) (c.back_back a g)

theorem Changes.sum {act : X → Γ → X} (c : Changes act) (f : X → ℕ) :
    ∑ a, ∑ g, f (act a g) = Fintype.card Γ * ∑ a, f a := by
  rw [← Fintype.sum_prod_type']
  have h := Equiv.sum_comp (Function.Involutive.toPerm _ c.involutive) (fun p : X × Γ => f p.1)
  have h1 : ∑ p : X × Γ, f (act p.1 p.2) = ∑ p : X × Γ, f ((Function.Involutive.toPerm _ c.involutive p).1) := rfl
  rw [h1, h, Fintype.sum_prod_type]
  simp only [Finset.sum_const, Finset.card_univ, smul_eq_mul]
  rw [← Finset.mul_sum]

/-- For one index. -/
theorem Changes.sq_le {act : X → Γ → X} (c : Changes act) (E : X → Prop) [DecidablePred E] :
    Fintype.card Γ * (#{a | E a}) ^ 2 ≤ Fintype.card X * #{p : X × Γ | E p.1 ∧ E (act p.1 p.2)} := by
  set W := Fintype.card Γ with hW
  let x : X → ℕ := fun a => if E a then 1 else 0
  let g : X → ℕ := fun a => ∑ γ, x (act a γ)
  have hX : #{a | E a} = ∑ a, x a := by rw [Finset.card_filter]
  have hC : #{p : X × Γ | E p.1 ∧ E (act p.1 p.2)} = ∑ a, x a * g a := by
    rw [Finset.card_filter, Fintype.sum_prod_type]
    refine Finset.sum_congr rfl fun ω _ => ?_
    rw [Finset.mul_sum]
    refine Finset.sum_congr rfl fun ω' _ => ?_
    simp only [x]
    split_ifs <;> simp_all
  have hg1 : ∑ a, g a = W * ∑ a, x a := c.sum x
  have hg2 : ∑ a, g a ^ 2 = W * ∑ a, x a * g a := by
    rw [← c.sum (fun a => x a * g a)]
    refine Finset.sum_congr rfl fun a _ => ?_
    have : ∀ γ, g (act a γ) = g a := by
      intro γ
      simp only [g, c.act_act]
      exact (c.bij a γ).sum_comp fun γ' => x (act a γ')
    simp only [this]
    rw [← Finset.sum_mul, sq]
  have hcs : (∑ a, g a) ^ 2 ≤ Fintype.card X * ∑ a, g a ^ 2 := by
    have := sq_sum_le_card_mul_sum_sq (s := (Finset.univ : Finset X)) (f := g)
    rwa [Finset.card_univ] at this
  rw [hg1, hg2] at hcs
  rw [hX, hC]
  by_cases hW0 : W = 0
  · rw [hW0, zero_mul]
    exact Nat.zero_le _
  · refine Nat.le_of_mul_le_mul_left ?_ (Nat.pos_of_ne_zero hW0)
    calc W * (W * (∑ a, x a) ^ 2) = (W * ∑ a, x a) ^ 2 := by ring
      _ ≤ Fintype.card X * (W * ∑ a, x a * g a) := hcs
      _ = W * (Fintype.card X * ∑ a, x a * g a) := by ring

/-- For all indexes together. -/
theorem Changes.sq_le_all {act : ι → X → Γ → X} (c : ∀ i, Changes (act i)) (J : X → Option ι) :
    Fintype.card Γ * (#{a | J a ≠ none}) ^ 2 ≤ Fintype.card ι * (Fintype.card X *
      #{p : X × Γ | ∃ i, J p.1 = some i ∧ J (act i p.1 p.2) = some i}) := by
  classical
  have h1 : #{a | J a ≠ none} = ∑ i, #{a | J a = some i} := by
    rw [← Finset.card_biUnion]
    · congr 1
      ext a
      simp [Option.ne_none_iff_exists']
    · intro a _ b _ hab
      rw [Function.onFun, Finset.disjoint_filter]
      intro ω _ ha hb
      rw [ha] at hb
      exact hab (Option.some.inj hb)
  have h2 : #{p : X × Γ | ∃ i, J p.1 = some i ∧ J (act i p.1 p.2) = some i}
      = ∑ i, #{p : X × Γ | J p.1 = some i ∧ J (act i p.1 p.2) = some i} := by
    rw [← Finset.card_biUnion]
    · congr 1
      ext p
      simp
    · intro a _ b _ hab
      rw [Function.onFun, Finset.disjoint_filter]
      intro ω _ ha hb
      rw [ha.1] at hb
      exact hab (Option.some.inj hb.1)
  rw [h1, h2]
  have hcs := sq_sum_le_card_mul_sum_sq (s := (Finset.univ : Finset ι)) (f := fun i => #{a | J a = some i})
  rw [Finset.card_univ] at hcs
  refine (Nat.mul_le_mul_left _ hcs).trans ?_
  rw [Nat.mul_left_comm]
  refine Nat.mul_le_mul_left _ ?_
  rw [Finset.mul_sum, Finset.mul_sum]
  exact (Finset.sum_le_sum fun i _ => (c i).sq_le fun a => J a = some i)

/-- With the fresh randomness that does not help. -/
theorem Changes.forked [Nonempty X] [Nonempty Γ] [Nonempty ι] {act : ι → X → Γ → X} (c : ∀ i, Changes (act i))
    (J : X → Option ι) (bad : ι → X → Γ → Prop)
    (hbad : ∀ i a, J a = some i → (Spec.chance fun g => bad i a g) ≤ 2 / 2 ^ 256) :
    Spec.forked (Fintype.card ι) (Spec.chance fun a => J a ≠ none)
      ≤ Spec.chance fun p : X × Γ => ∃ i, J p.1 = some i ∧ J (act i p.1 p.2) = some i ∧ ¬ bad i p.1 p.2 := by
  classical
  obtain ⟨B, hB⟩ : ∃ B : ℚ, B = 2 / 2 ^ 256 := ⟨_, rfl⟩
  have hB0 : 0 ≤ B := by rw [hB]; positivity
  have h1 : (Spec.chance fun a => J a ≠ none) ^ 2 / Fintype.card ι
      ≤ Spec.chance fun p : X × Γ => ∃ i, J p.1 = some i ∧ J (act i p.1 p.2) = some i := by
    have h := Changes.sq_le_all c J
    have hX : (0 : ℚ) < Fintype.card X := by exact_mod_cast Fintype.card_pos
    have hΓ : (0 : ℚ) < Fintype.card Γ := by exact_mod_cast Fintype.card_pos
    have hι : (0 : ℚ) < Fintype.card ι := by exact_mod_cast Fintype.card_pos
    unfold Spec.chance
    simp only [Set.ncard_eq_toFinset_card', Set.toFinset_setOf, Nat.card_eq_fintype_card, Fintype.card_prod, Nat.cast_mul]
    have h' : (Fintype.card Γ : ℚ) * (#{a | J a ≠ none} : ℚ) ^ 2 ≤ Fintype.card ι * (Fintype.card X *
      (#{p : X × Γ | ∃ i, J p.1 = some i ∧ J (act i p.1 p.2) = some i} : ℚ)) := by exact_mod_cast h
    rw [div_pow, div_div, div_le_div_iff₀ (by positivity) (by positivity)]
    calc (#{a | J a ≠ none} : ℚ) ^ 2 * (Fintype.card X * Fintype.card Γ)
        = Fintype.card X * (Fintype.card Γ * (#{a | J a ≠ none} : ℚ) ^ 2) := by ring
      _ ≤ Fintype.card X * (Fintype.card ι * (Fintype.card X *
          (#{p : X × Γ | ∃ i, J p.1 = some i ∧ J (act i p.1 p.2) = some i} : ℚ))) := mul_le_mul_of_nonneg_left h' hX.le
      _ = _ := by ring
  have h2 : (Spec.chance fun p : X × Γ => ∃ i, J p.1 = some i ∧ bad i p.1 p.2) ≤ (Spec.chance fun a => J a ≠ none) * B := by
    rw [Decision.chance_prod fun (a : X) (g : Γ) => ∃ i, J a = some i ∧ bad i a g]
    have e : (Spec.chance fun a => J a ≠ none) = (∑ a, if J a ≠ none then (1 : ℚ) else 0) / Fintype.card X := by
      unfold Spec.chance
      simp only [Set.ncard_eq_toFinset_card', Set.toFinset_setOf, Nat.card_eq_fintype_card]
      rw [Finset.card_filter]
      push_cast
      rfl
    rw [e, div_mul_eq_mul_div, Finset.sum_mul]
    refine div_le_div_of_nonneg_right (Finset.sum_le_sum fun a _ => ?_) (by positivity)
    cases hJ : J a with
    | none =>
      rw [Decision.chance_false fun g => by simp]
      simp
    | some i =>
      rw [if_pos (by simp), one_mul, hB]
      refine le_trans (CmaForger.chance_mono fun g hg => ?_) (hbad i a hJ)
      obtain ⟨i', h, hb⟩ := hg
      cases h
      exact hb
  have h3 : (Spec.chance fun p : X × Γ => ∃ i, J p.1 = some i ∧ J (act i p.1 p.2) = some i)
      ≤ (Spec.chance fun p : X × Γ => ∃ i, J p.1 = some i ∧ J (act i p.1 p.2) = some i ∧ ¬ bad i p.1 p.2)
        + Spec.chance fun p : X × Γ => ∃ i, J p.1 = some i ∧ bad i p.1 p.2 := by
    refine le_trans (CmaForger.chance_mono fun p hp => ?_) (CmaForger.chance_or _ _)
    obtain ⟨i, h1, h2⟩ := hp
    by_cases hb : bad i p.1 p.2
    · exact .inr ⟨i, h1, hb⟩
    · exact .inl ⟨i, h1, h2, hb⟩
  unfold Spec.forked
  refine max_le (CmaForger.chance_nonneg _) ?_
  have e : ∀ t : ℚ, 2 * t / 2 ^ 256 = t * B := by
    intro t
    rw [hB]
    ring
  rw [e]
  linarith
end

end Verif
