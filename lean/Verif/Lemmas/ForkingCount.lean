import Mathlib.Algebra.Order.Chebyshev
import Mathlib.Algebra.BigOperators.Group.Finset.Basic
import Mathlib.Data.Fintype.BigOperators
import Mathlib.Data.Fintype.Pi
import Mathlib.Algebra.Order.BigOperators.Group.Finset
import Mathlib.Logic.Equiv.Fin.Basic
import Mathlib.Tactic.Linarith
import Mathlib.Tactic.Ring

/-!
# The forking lemma, as a count

`J ω` is the index of the answer that matters in a run with the answers `ω`, if any. The run is repeated with fresh
answers from that index on; the lemma bounds from below how often the same index matters again.
-/

namespace Verif

open Finset

section
variable {A : Type} {q : ℕ}

/-- The answers `ω` before the index `j`, and `ω'` from it on. -/
def splice (j : Fin q) (ω ω' : Fin q → A) : Fin q → A := fun i => if i < j then ω i else ω' i

theorem splice_splice (j : Fin q) (ω ω' ω'' : Fin q → A) : splice j (splice j ω ω'') ω' = splice j ω ω' := by
  funext i
  unfold splice
  split_ifs <;> rfl

/-- Exchanging the tails of two sequences. -/
def swapTails (j : Fin q) : Equiv.Perm ((Fin q → A) × (Fin q → A)) :=
  Function.Involutive.toPerm (fun p => (splice j p.1 p.2, splice j p.2 p.1)) (by
    rintro ⟨ω, ω'⟩
    ext i <;> simp only [splice] <;> split_ifs <;> rfl)

theorem splice_self (j : Fin q) (ω ω' : Fin q → A) : splice j ω ω' j = ω' j := if_neg (lt_irrefl j)

variable [Fintype A] [DecidableEq A]

/-- Splicing is balanced: a sum over spliced sequences is a multiple of the sum over all sequences. -/
theorem sum_splice (j : Fin q) (f : (Fin q → A) → ℕ) :
    ∑ ω : Fin q → A, ∑ ω' : Fin q → A, f (splice j ω ω') = Fintype.card (Fin q → A) * ∑ ω : Fin q → A, f ω := by
  rw [← Fintype.sum_prod_type']
  have h := Equiv.sum_comp (swapTails (A := A) j) (fun p => f p.1)
  have h1 : ∑ p : (Fin q → A) × (Fin q → A), f (splice j p.1 p.2)
      = ∑ p : (Fin q → A) × (Fin q → A), f ((swapTails j p).1) := rfl
  rw [h1, h, Fintype.sum_prod_type]
  simp only [Finset.sum_const, Finset.card_univ, smul_eq_mul]
  rw [← Finset.mul_sum]

/-- For one index: the square of the number of runs in which it matters is at most the number of pairs of answers for
which it matters in the run and in its repetition. -/
theorem sq_le_fork (j : Fin q) (X : (Fin q → A) → Prop) [DecidablePred X] :
    (#{ω | X ω}) ^ 2 ≤ #{p : (Fin q → A) × (Fin q → A) | X p.1 ∧ X (splice j p.1 p.2)} := by
  set W := Fintype.card (Fin q → A) with hW
  let x : (Fin q → A) → ℕ := fun ω => if X ω then 1 else 0
  let g : (Fin q → A) → ℕ := fun ω => ∑ ω' : Fin q → A, x (splice j ω ω')
  have hX : #{ω | X ω} = ∑ ω, x ω := by rw [Finset.card_filter]
  have hC : #{p : (Fin q → A) × (Fin q → A) | X p.1 ∧ X (splice j p.1 p.2)} = ∑ ω, x ω * g ω := by
    rw [Finset.card_filter, Fintype.sum_prod_type]
    refine Finset.sum_congr rfl fun ω _ => ?_
    rw [Finset.mul_sum]
    refine Finset.sum_congr rfl fun ω' _ => ?_
    simp only [x]
    split_ifs <;> simp_all
  have hg1 : ∑ ω, g ω = W * ∑ ω, x ω := sum_splice j x
  have hg2 : ∑ ω, g ω ^ 2 = W * ∑ ω, x ω * g ω := by
    rw [← sum_splice j (fun ω => x ω * g ω)]
    refine Finset.sum_congr rfl fun ω _ => ?_
    have : ∀ ω', g (splice j ω ω') = g ω := by
      intro ω'
      simp only [g, splice_splice]
    simp only [this]
    rw [← Finset.sum_mul, sq]
  have hcs : (∑ ω, g ω) ^ 2 ≤ W * ∑ ω, g ω ^ 2 := by
    have := sq_sum_le_card_mul_sum_sq (s := (Finset.univ : Finset (Fin q → A))) (f := g)
    rwa [Finset.card_univ] at this
  rw [hg1, hg2] at hcs
  rw [hX, hC]
  by_cases hW0 : W = 0
  · have : IsEmpty (Fin q → A) := Fintype.card_eq_zero_iff.1 hW0
    simp
  · have hpos : 0 < W ^ 2 := by positivity
    refine Nat.le_of_mul_le_mul_left ?_ hpos
    calc W ^ 2 * (∑ ω, x ω) ^ 2 = (W * ∑ ω, x ω) ^ 2 := by ring
      _ ≤ W * (W * ∑ ω, x ω * g ω) := hcs
      _ = W ^ 2 * ∑ ω, x ω * g ω := by ring

/-- For all indexes together. -/
theorem sq_le_forks (J : (Fin q → A) → Option (Fin q)) :
    (#{ω | J ω ≠ none}) ^ 2 ≤ q * #{p : (Fin q → A) × (Fin q → A) |
      ∃ j, J p.1 = some j ∧ J (splice j p.1 p.2) = some j} := by
  have h1 : #{ω | J ω ≠ none} = ∑ j : Fin q, #{ω | J ω = some j} := by
    rw [← Finset.card_biUnion]
    · congr 1
      ext ω
      simp [Option.ne_none_iff_exists']
    · intro a _ b _ hab
      rw [Function.onFun, Finset.disjoint_filter]
      intro ω _ ha hb
      rw [ha] at hb
      exact hab (Option.some.inj hb)
  have h2 : #{p : (Fin q → A) × (Fin q → A) | ∃ j, J p.1 = some j ∧ J (splice j p.1 p.2) = some j}
      = ∑ j : Fin q, #{p : (Fin q → A) × (Fin q → A) | J p.1 = some j ∧ J (splice j p.1 p.2) = some j} := by
    rw [← Finset.card_biUnion]
    · congr 1
      ext p
      simp
    · intro a _ b _ hab
      rw [Function.onFun, Finset.disjoint_filter]
      intro ω _ ha hb
      rw [ha.1] at hb
      exact hab (Option.some.inj hb.1)
  rw [h1, h2]
  have hcs := sq_sum_le_card_mul_sum_sq (s := (Finset.univ : Finset (Fin q))) (f := fun j => #{ω | J ω = some j})
  rw [Finset.card_univ, Fintype.card_fin] at hcs
  refine hcs.trans ?_
  exact Nat.mul_le_mul_left _ (Finset.sum_le_sum fun j _ => sq_le_fork j fun ω => J ω = some j)

omit [DecidableEq A] in
/-- The number of sequences whose entry at one index lies in a small set. -/
theorem card_entry_le (j : Fin q) (c : A → Prop) [DecidablePred c] :
    Fintype.card A * #{ω : Fin q → A | c (ω j)} = #{a | c a} * Fintype.card (Fin q → A) := by
  classical
  have h1 : #{ω : Fin q → A | c (ω j)} = Fintype.card {ω : Fin q → A // c (ω j)} := (Fintype.card_subtype _).symm
  let e : A × {ω : Fin q → A // c (ω j)} ≃ {a // c a} × (Fin q → A) :=
    { toFun := fun p => (⟨p.2.1 j, p.2.2⟩, Function.update p.2.1 j p.1)
      invFun := fun p => (p.2 j, ⟨Function.update p.2 j p.1.1, by rw [Function.update_self]; exact p.1.2⟩)
      left_inv := by
        rintro ⟨a, ω, h⟩
        simp
      right_inv := by
        rintro ⟨⟨a, h⟩, ω⟩
        simp }
  have h2 := Fintype.card_congr e
  rw [Fintype.card_prod, Fintype.card_prod, Fintype.card_subtype c] at h2
  rw [h1]
  exact h2

omit [DecidableEq A] in
/-- The number of sequences with a property that holds for few values of one entry, whatever the others are. -/
theorem card_update_le (j : Fin q) (B : (Fin q → A) → Prop) [DecidablePred B] (m : ℕ)
    (h : ∀ ω, #{a | B (Function.update ω j a)} ≤ m) : Fintype.card A * #{ω | B ω} ≤ m * Fintype.card (Fin q → A) := by
  classical
  let e : (Fin q → A) × A ≃ (Fin q → A) × A :=
    { toFun := fun p => (Function.update p.1 j p.2, p.1 j)
      invFun := fun p => (Function.update p.1 j p.2, p.1 j)
      left_inv := by
        rintro ⟨ω, a⟩
        simp
      right_inv := by
        rintro ⟨ω, a⟩
        simp }
  have h1 := Equiv.sum_comp e (fun p => if B p.1 then (1 : ℕ) else 0)
  rw [Fintype.sum_prod_type, Fintype.sum_prod_type] at h1
  have h2 : ∑ ω : Fin q → A, ∑ _a : A, (if B ω then (1 : ℕ) else 0) = Fintype.card A * #{ω | B ω} := by
    rw [Finset.card_filter, Finset.mul_sum]
    exact Finset.sum_congr rfl fun ω _ => by rw [Finset.sum_const, Finset.card_univ, smul_eq_mul]
  rw [← h2]
  refine h1.symm.le.trans ?_
  calc _ ≤ ∑ _ω : Fin q → A, m := Finset.sum_le_sum fun ω _ => by
        have := h ω
        rw [Finset.card_filter] at this
        exact this
    _ = m * Fintype.card (Fin q → A) := by rw [Finset.sum_const, Finset.card_univ, smul_eq_mul, mul_comm]

/-- The forking lemma: `bad a a'` says that two answers at the index do not help. -/
theorem forking_count (J : (Fin q → A) → Option (Fin q)) (bad : A → A → Prop) [∀ a, DecidablePred (bad a)] (m : ℕ)
    (hbad : ∀ a, #{a' | bad a a'} ≤ m) :
    Fintype.card A * (#{ω | J ω ≠ none}) ^ 2 ≤ q * (Fintype.card A * #{p : (Fin q → A) × (Fin q → A) |
        ∃ j, J p.1 = some j ∧ J (splice j p.1 p.2) = some j ∧ ¬ bad (p.1 j) (p.2 j)}
      + m * #{ω | J ω ≠ none} * Fintype.card (Fin q → A)) := by
  have h1 := sq_le_forks J
  have hcol : Fintype.card A * #{p : (Fin q → A) × (Fin q → A) | ∃ j, J p.1 = some j ∧ bad (p.1 j) (p.2 j)}
      ≤ m * #{ω | J ω ≠ none} * Fintype.card (Fin q → A) := by
    have e : #{p : (Fin q → A) × (Fin q → A) | ∃ j, J p.1 = some j ∧ bad (p.1 j) (p.2 j)}
        = ∑ ω : Fin q → A, #{ω' : Fin q → A | ∃ j, J ω = some j ∧ bad (ω j) (ω' j)} := by
      rw [Finset.card_filter, Fintype.sum_prod_type]
      refine Finset.sum_congr rfl fun ω _ => ?_
      rw [Finset.card_filter]
    rw [e, Finset.mul_sum]
    have hterm : ∀ ω : Fin q → A, Fintype.card A * #{ω' : Fin q → A | ∃ j, J ω = some j ∧ bad (ω j) (ω' j)}
        ≤ (if J ω ≠ none then 1 else 0) * (m * Fintype.card (Fin q → A)) := by
      intro ω
      cases hJ : J ω with
      | none => simp
      | some j =>
        have : ∀ ω' : Fin q → A, (∃ j', some j = some j' ∧ bad (ω j') (ω' j')) ↔ bad (ω j) (ω' j) := by
          intro ω'
          constructor
          · rintro ⟨j', h, hb⟩
            cases h
            exact hb
          · exact fun hb => ⟨j, rfl, hb⟩
        simp only [this]
        rw [card_entry_le j (bad (ω j)), if_pos (by simp), one_mul]
        exact Nat.mul_le_mul_right _ (hbad _)
    refine (Finset.sum_le_sum fun ω _ => hterm ω).trans ?_
    rw [← Finset.sum_mul, ← Finset.card_filter]
    apply le_of_eq
    ring
  have hsplit : #{p : (Fin q → A) × (Fin q → A) | ∃ j, J p.1 = some j ∧ J (splice j p.1 p.2) = some j}
      ≤ #{p : (Fin q → A) × (Fin q → A) |
        ∃ j, J p.1 = some j ∧ J (splice j p.1 p.2) = some j ∧ ¬ bad (p.1 j) (p.2 j)}
      + #{p : (Fin q → A) × (Fin q → A) | ∃ j, J p.1 = some j ∧ bad (p.1 j) (p.2 j)} := by
    refine (Finset.card_le_card ?_).trans (Finset.card_union_le _ _)
    intro p hp
    rw [Finset.mem_filter] at hp
    obtain ⟨-, j, h1, h2⟩ := hp
    rw [Finset.mem_union, Finset.mem_filter, Finset.mem_filter]
    by_cases hb : bad (p.1 j) (p.2 j)
    · exact .inr ⟨Finset.mem_univ _, j, h1, hb⟩
    · exact .inl ⟨Finset.mem_univ _, j, h1, h2, hb⟩
  calc Fintype.card A * (#{ω | J ω ≠ none}) ^ 2
      ≤ Fintype.card A * (q * #{p : (Fin q → A) × (Fin q → A) |
          ∃ j, J p.1 = some j ∧ J (splice j p.1 p.2) = some j}) := Nat.mul_le_mul_left _ h1
    _ ≤ Fintype.card A * (q * (#{p : (Fin q → A) × (Fin q → A) |
          ∃ j, J p.1 = some j ∧ J (splice j p.1 p.2) = some j ∧ ¬ bad (p.1 j) (p.2 j)}
        + #{p : (Fin q → A) × (Fin q → A) | ∃ j, J p.1 = some j ∧ bad (p.1 j) (p.2 j)})) :=
        Nat.mul_le_mul_left _ (Nat.mul_le_mul_left _ hsplit)
    _ = q * (Fintype.card A * #{p : (Fin q → A) × (Fin q → A) |
          ∃ j, J p.1 = some j ∧ J (splice j p.1 p.2) = some j ∧ ¬ bad (p.1 j) (p.2 j)}
        + Fintype.card A * #{p : (Fin q → A) × (Fin q → A) | ∃ j, J p.1 = some j ∧ bad (p.1 j) (p.2 j)}) := by ring
    _ ≤ _ := Nat.mul_le_mul_left _ (Nat.add_le_add_left hcol _)

end

end Verif
