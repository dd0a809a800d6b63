import Mathlib.Algebra.Order.Chebyshev
import Mathlib.Algebra.Field.ZMod
import Mathlib.Algebra.BigOperators.Field
import Mathlib.Data.Fintype.BigOperators
import Mathlib.Tactic.Ring
import Mathlib.Tactic.Abel
import Mathlib.Tactic.Linarith

/-!
# Subset sums of random numbers

Among `n` random numbers modulo a prime `p` there are some with a given sum, except with a chance of about `p / 2 ^ n`.
-/

namespace Verif.SubsetSum

open Finset

/-- All fibres of a surjective homomorphism have the same size. -/
theorem card_fibre {A B : Type} [AddCommGroup A] [AddCommGroup B] [Fintype A] [Fintype B] [DecidableEq B] (φ : A →+ B)
    (hφ : Function.Surjective φ) (b : B) : #{a | φ a = b} * Fintype.card B = Fintype.card A := by
  have h : ∀ b' : B, #{a | φ a = b'} = #{a | φ a = b} := by
    intro b'
    obtain ⟨a₀, h₀⟩ := hφ (b - b')
    refine card_bij (fun a _ => a + a₀) (fun a ha => ?_) (fun a _ a' _ h => add_right_cancel h) fun a ha => ⟨a - a₀, ?_, by abel⟩
    · simp only [mem_filter, mem_univ, true_and] at ha ⊢
      rw [map_add, ha, h₀]
      abel
    · simp only [mem_filter, mem_univ, true_and] at ha ⊢
      rw [map_sub, ha, h₀]
      abel
  rw [← card_univ (α := A), card_eq_sum_card_fiberwise (s := (univ : Finset A)) (f := φ) (t := univ) (by simp), sum_congr rfl fun b' _ => h b', sum_const,
    card_univ, smul_eq_mul, mul_comm]

variable {p n : ℕ} [Fact p.Prime]

/-- The sum over a subset. -/
def sumOn (S : Finset (Fin n)) : (Fin n → ZMod p) →+ ZMod p where
  toFun c := ∑ i ∈ S, c i
  map_zero' := by simp
  map_add' c c' := by simp [sum_add_distrib]

theorem sumOn_single (S : Finset (Fin n)) (i : Fin n) (a : ZMod p) : sumOn S (Pi.single i a) = if i ∈ S then a else 0 := by
  change ∑ j ∈ S, (Pi.single i a : Fin n → ZMod p) j = _
  by_cases h : i ∈ S
  · rw [if_pos h, sum_eq_single_of_mem i h fun j _ hj => by rw [Pi.single_eq_of_ne hj], Pi.single_eq_same]
  · rw [if_neg h]
    exact sum_eq_zero fun j hj => by
      rw [Pi.single_eq_of_ne]
      rintro rfl
      exact h hj

theorem card_one {S : Finset (Fin n)} (hS : S.Nonempty) (z : ZMod p) : #{c | sumOn S c = z} * p = p ^ n := by
  obtain ⟨i, hi⟩ := hS
  have h := card_fibre (sumOn (p := p) S) (fun a => ⟨Pi.single i a, by rw [sumOn_single, if_pos hi]⟩) z
  rwa [ZMod.card, Fintype.card_fun, ZMod.card, Fintype.card_fin] at h

theorem pair_surjective {S S' : Finset (Fin n)} {i j : Fin n} (hi : i ∈ S) (hi' : i ∉ S') (hj : j ∈ S') :
    Function.Surjective ((sumOn (p := p) S).prod (sumOn S')) := by
  rintro ⟨a, b⟩
  refine ⟨Pi.single j b + Pi.single i (a - if j ∈ S then b else 0), ?_⟩
  rw [AddMonoidHom.prod_apply, map_add, map_add, sumOn_single, sumOn_single, sumOn_single, sumOn_single, if_pos hi, if_neg hi', if_pos hj]
  simp

theorem card_two {S S' : Finset (Fin n)} (hS : S.Nonempty) (hS' : S'.Nonempty) (hne : S ≠ S') (z : ZMod p) :
    #{c | sumOn S c = z ∧ sumOn S' c = z} * p ^ 2 = p ^ n := by
  have key : ∀ S S' : Finset (Fin n), S'.Nonempty → ∀ i ∈ S, i ∉ S' → #{c | sumOn S c = z ∧ sumOn S' c = z} * p ^ 2 = p ^ n := by
    intro S S' ⟨j, hj⟩ i hi hi'
    have h := card_fibre ((sumOn (p := p) S).prod (sumOn S')) (pair_surjective hi hi' hj) (z, z)
    rw [Fintype.card_prod, ZMod.card, Fintype.card_fun, ZMod.card, Fintype.card_fin] at h
    simp only [AddMonoidHom.prod_apply, Prod.mk.injEq] at h
    rw [pow_two]
    exact h
  by_cases h : S ⊆ S'
  · obtain ⟨i, hi, hi'⟩ : ∃ i ∈ S', i ∉ S := by
      by_contra hh
      push Not at hh
      exact hne (Subset.antisymm h hh)
    have := key S' S hS i hi hi'
    simpa only [and_comm] using this
  · obtain ⟨i, hi, hi'⟩ := not_subset.1 h
    exact key S S' hS' i hi hi'

/-- The subsets with the sum `z`. -/
def hits (z : ZMod p) (c : Fin n → ZMod p) : Finset (Finset (Fin n)) := {S | S.Nonempty ∧ sumOn S c = z}

theorem card_nonempty : #{S : Finset (Fin n) | S.Nonempty} = 2 ^ n - 1 := by
  have h : ({S : Finset (Fin n) | S.Nonempty} : Finset (Finset (Fin n))) = univ.erase ∅ := by
    ext S
    simp [nonempty_iff_ne_empty]
  rw [h, card_erase_of_mem (mem_univ _), card_univ, Fintype.card_finset, Fintype.card_fin]

theorem sum_hits (z : ZMod p) : (∑ c : Fin n → ZMod p, #(hits z c)) * p = (2 ^ n - 1) * p ^ n := by
  have h : ∑ c : Fin n → ZMod p, #(hits z c) = ∑ S ∈ ({S | S.Nonempty} : Finset (Finset (Fin n))), #{c : Fin n → ZMod p | sumOn S c = z} := by
    simp only [hits, card_filter, ite_and]
    rw [sum_comm, sum_filter]
    refine sum_congr rfl fun S _ => ?_
    split_ifs <;> simp
  rw [h, sum_mul, sum_congr rfl fun S hS => card_one (mem_filter.1 hS).2 z, sum_const, card_nonempty, smul_eq_mul]

theorem sum_hits_sq (z : ZMod p) :
    (∑ c : Fin n → ZMod p, #(hits z c) ^ 2) * p ^ 2 ≤ (2 ^ n - 1) * p ^ n * p + (2 ^ n - 1) * (2 ^ n - 1) * p ^ n := by
  have h : ∑ c : Fin n → ZMod p, #(hits z c) ^ 2 = ∑ S ∈ ({S | S.Nonempty} : Finset (Finset (Fin n))),
      ∑ S' ∈ ({S | S.Nonempty} : Finset (Finset (Fin n))), #{c : Fin n → ZMod p | sumOn S c = z ∧ sumOn S' c = z} := by
    have h1 : ∀ c : Fin n → ZMod p, #(hits z c) ^ 2 = ∑ S ∈ ({S | S.Nonempty} : Finset (Finset (Fin n))),
        ∑ S' ∈ ({S | S.Nonempty} : Finset (Finset (Fin n))), if sumOn S c = z ∧ sumOn S' c = z then 1 else 0 := by
      intro c
      have h2 : #(hits z c) = ∑ S ∈ ({S | S.Nonempty} : Finset (Finset (Fin n))), if sumOn S c = z then 1 else 0 := by
        rw [hits, card_filter, sum_filter]
        exact sum_congr rfl fun S _ => by split_ifs <;> simp_all
      rw [pow_two, h2, sum_mul_sum]
      exact sum_congr rfl fun S _ => sum_congr rfl fun S' _ => by split_ifs <;> simp_all
    rw [sum_congr rfl fun c _ => h1 c, sum_comm]
    refine sum_congr rfl fun S _ => ?_
    rw [sum_comm]
    exact sum_congr rfl fun S' _ => by rw [card_filter]
  rw [h, sum_mul]
  have hS : ∀ S ∈ ({S | S.Nonempty} : Finset (Finset (Fin n))), (∑ S' ∈ ({S | S.Nonempty} : Finset (Finset (Fin n))),
      #{c : Fin n → ZMod p | sumOn S c = z ∧ sumOn S' c = z}) * p ^ 2 ≤ p ^ n * p + (2 ^ n - 1) * p ^ n := by
    intro S hS
    have hS' := (mem_filter.1 hS).2
    rw [sum_mul, ← add_sum_erase _ _ hS]
    refine add_le_add (le_of_eq ?_) ?_
    · simp only [and_self]
      rw [pow_two, ← mul_assoc, card_one hS']
    · rw [sum_congr rfl fun S'' h'' => card_two hS' (mem_filter.1 (mem_of_mem_erase h'')).2 (ne_of_mem_erase h'').symm z, sum_const,
        smul_eq_mul]
      refine Nat.mul_le_mul_right _ ?_
      rw [← card_nonempty]
      exact card_le_card (erase_subset _ _)
  refine (sum_le_sum hS).trans (le_of_eq ?_)
  rw [sum_const, card_nonempty, smul_eq_mul]
  ring

/-- Most vectors have such a subset. -/
theorem card_hit (z : ZMod p) : (2 ^ n - 1) * p ^ n ≤ #{c : Fin n → ZMod p | (hits z c).Nonempty} * (p + (2 ^ n - 1)) := by
  have hp : 0 < p := (Fact.out : p.Prime).pos
  rcases Nat.eq_zero_or_pos (2 ^ n - 1) with h0 | hM
  · rw [h0, Nat.zero_mul]
    exact Nat.zero_le _
  have hcs : (∑ c : Fin n → ZMod p, #(hits z c)) ^ 2 ≤ #{c : Fin n → ZMod p | (hits z c).Nonempty} * ∑ c : Fin n → ZMod p, #(hits z c) ^ 2 := by
    have h1 : ∑ c : Fin n → ZMod p, #(hits z c) = ∑ c ∈ ({c | (hits z c).Nonempty} : Finset (Fin n → ZMod p)), #(hits z c) := by
      rw [sum_filter]
      refine sum_congr rfl fun c _ => ?_
      split_ifs with h
      · rfl
      · rw [not_nonempty_iff_eq_empty.1 h, card_empty]
    rw [h1]
    exact sq_sum_le_card_mul_sum_sq.trans (Nat.mul_le_mul_left _ (sum_le_sum_of_subset (filter_subset _ _)))
  have h1 := sum_hits (n := n) z
  have h2 := sum_hits_sq (n := n) z
  generalize #{c : Fin n → ZMod p | (hits z c).Nonempty} = A at *
  generalize ∑ c : Fin n → ZMod p, #(hits z c) ^ 2 = Q at *
  generalize ∑ c : Fin n → ZMod p, #(hits z c) = F at *
  generalize 2 ^ n - 1 = M at *
  have hq : 0 < p ^ n := pow_pos hp n
  generalize p ^ n = N at *
  have h3 : (M * N) ^ 2 ≤ A * (M * N * p + M * M * N) := by
    have e : (M * N) ^ 2 = F ^ 2 * p ^ 2 := by rw [← h1, mul_pow]
    rw [e]
    calc F ^ 2 * p ^ 2 ≤ A * Q * p ^ 2 := Nat.mul_le_mul_right _ hcs
      _ = A * (Q * p ^ 2) := Nat.mul_assoc _ _ _
      _ ≤ _ := Nat.mul_le_mul_left _ h2
  have h4 : (M * N) * (M * N) ≤ (A * (p + M)) * (M * N) := by
    calc (M * N) * (M * N) = (M * N) ^ 2 := (pow_two _).symm
      _ ≤ _ := h3
      _ = _ := by ring
  exact Nat.le_of_mul_le_mul_right h4 (Nat.mul_pos hM hq)

/-- Few vectors have none. -/
theorem card_miss (z : ZMod p) : #{c : Fin n → ZMod p | ¬ (hits z c).Nonempty} * 2 ^ n ≤ p ^ n * p := by
  have h := card_hit (n := n) z
  have h1 : #{c : Fin n → ZMod p | (hits z c).Nonempty} + #{c : Fin n → ZMod p | ¬ (hits z c).Nonempty} = p ^ n := by
    rw [card_filter_add_card_filter_not, card_univ, Fintype.card_fun, ZMod.card, Fintype.card_fin]
  have hp : 1 ≤ p := (Fact.out : p.Prime).pos
  generalize #{c : Fin n → ZMod p | (hits z c).Nonempty} = A at *
  generalize #{c : Fin n → ZMod p | ¬ (hits z c).Nonempty} = B at *
  have hM : 2 ^ n - 1 + 1 = 2 ^ n := Nat.sub_add_cancel Nat.one_le_two_pow
  generalize 2 ^ n - 1 = M at *
  rw [← hM]
  rw [← h1] at h ⊢
  have h2 : B * (M + 1) ≤ B * (p + M) := Nat.mul_le_mul_left _ (by omega)
  have h3 : M * (A + B) = M * A + M * B := by ring
  nlinarith

end Verif.SubsetSum
