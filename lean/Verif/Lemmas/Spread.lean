import Mathlib.Algebra.BigOperators.Field
import Mathlib.Algebra.BigOperators.Ring.Finset
import Mathlib.Algebra.Order.BigOperators.Group.Finset
import Mathlib.Algebra.Order.BigOperators.Ring.Finset
import Mathlib.Algebra.Order.Chebyshev
import Mathlib.Data.Fintype.BigOperators
import Mathlib.Data.Rat.Cast.Order
import Mathlib.Tactic.Linarith
import Mathlib.Tactic.FieldSimp
import Mathlib.Tactic.Ring
import Mathlib.Tactic.Positivity

/-!
# Values computed from the entries of a random table are spread evenly

A table `B : ι → α` is drawn uniformly. Every `p : K` reads its own entry and makes a value `g p (B (A p))` of it. However the
set `S B` depends on the whole table, the share of the `p` whose value is in `S B` is on average what the sizes of the
preimages say, up to `√(|F|/|K|)`.
-/

set_option linter.unusedSectionVars false

namespace Verif.Spread

open Finset Function

variable {ι α K F : Type} [Fintype ι] [DecidableEq ι] [Fintype α] [Fintype K] [DecidableEq K] [Fintype F] [DecidableEq F]

/-- Drawing an entry again. -/
theorem pull (i : ι) (f : (ι → α) → ℚ) :
    (Fintype.card α : ℚ) * ∑ B, f B = ∑ B : ι → α, ∑ a, f (update B i a) := by
  have e : ∑ x : (ι → α) × α, f x.1 = ∑ x : (ι → α) × α, f (update x.1 i x.2) := by
    refine sum_nbij' (fun x => (update x.1 i x.2, x.1 i)) (fun x => (update x.1 i x.2, x.1 i)) ?_ ?_ ?_ ?_ ?_
    · intro x _; exact mem_univ _
    · intro x _; exact mem_univ _
    · intro x _; simp
    · intro x _; simp
    · intro x _; simp
  rw [Fintype.sum_prod_type, Fintype.sum_prod_type] at e
  rw [← e]
  simp only [sum_const, card_univ, nsmul_eq_mul]
  rw [← mul_sum]

/-- Whether the value of `p` is `c`. -/
def hit (A : K → ι) (g : K → α → F) (p : K) (c : F) (B : ι → α) : ℚ := if g p (B (A p)) = c then 1 else 0

/-- The share of the entries that give `p` the value `c`. -/
def weight (g : K → α → F) (p : K) (c : F) : ℚ := (∑ a, if g p a = c then (1 : ℚ) else 0) / Fintype.card α

theorem weight_nonneg (g : K → α → F) (p : K) (c : F) : 0 ≤ weight g p c :=
  div_nonneg (sum_nonneg fun a _ => by split <;> norm_num) (Nat.cast_nonneg _)

variable [Nonempty α]

theorem card_pos' : (0 : ℚ) < Fintype.card α := by exact_mod_cast Fintype.card_pos

theorem sum_weight (g : K → α → F) (p : K) : ∑ c, weight g p c = 1 := by
  unfold weight
  rw [← sum_div, sum_comm]
  simp only [sum_ite_eq, mem_univ, if_true, sum_const, card_univ, nsmul_eq_mul, mul_one]
  exact div_self (card_pos').ne'

theorem sum_centered (g : K → α → F) (p : K) (c : F) :
    ∑ a, ((if g p a = c then (1 : ℚ) else 0) - weight g p c) = 0 := by
  rw [sum_sub_distrib]
  simp only [sum_const, card_univ, nsmul_eq_mul]
  unfold weight
  rw [mul_div_cancel₀ _ (card_pos').ne', sub_self]

/-- Different `p` are independent. -/
theorem cross (A : K → ι) (hA : Injective A) (g : K → α → F) (c : F) {p q : K} (h : p ≠ q) :
    ∑ B : ι → α, (hit A g p c B - weight g p c) * (hit A g q c B - weight g q c) = 0 := by
  have hn : A q ≠ A p := fun e => h (hA e).symm
  have := pull (A p) fun B : ι → α => (hit A g p c B - weight g p c) * (hit A g q c B - weight g q c)
  have hz : ∀ B : ι → α, ∑ a, (hit A g p c (update B (A p) a) - weight g p c)
      * (hit A g q c (update B (A p) a) - weight g q c) = 0 := by
    intro B
    have e : ∀ a, (hit A g p c (update B (A p) a) - weight g p c) * (hit A g q c (update B (A p) a) - weight g q c)
        = ((if g p a = c then (1 : ℚ) else 0) - weight g p c) * (hit A g q c B - weight g q c) := by
      intro a
      unfold hit
      rw [update_self, update_of_ne hn]
    simp only [e]
    rw [← sum_mul, sum_centered, zero_mul]
  simp only [hz, sum_const_zero] at this
  exact (mul_eq_zero.1 this).resolve_left (card_pos').ne'

/-- The variance of one. -/
theorem diag (A : K → ι) (g : K → α → F) (p : K) (c : F) :
    ∑ B : ι → α, (hit A g p c B - weight g p c) * (hit A g p c B - weight g p c)
      ≤ Fintype.card (ι → α) * weight g p c := by
  have := pull (A p) fun B : ι → α => (hit A g p c B - weight g p c) * (hit A g p c B - weight g p c)
  have hz : ∀ B : ι → α, ∑ a, (hit A g p c (update B (A p) a) - weight g p c)
      * (hit A g p c (update B (A p) a) - weight g p c) ≤ Fintype.card α * weight g p c := by
    intro B
    have e : ∀ a, (hit A g p c (update B (A p) a) - weight g p c) * (hit A g p c (update B (A p) a) - weight g p c)
        = (if g p a = c then (1 : ℚ) else 0)
          - weight g p c * ((if g p a = c then (1 : ℚ) else 0) + ((if g p a = c then (1 : ℚ) else 0) - weight g p c)) := by
      intro a
      unfold hit
      rw [update_self]
      split <;> ring
    simp only [e]
    have e2 : ∑ a, (if g p a = c then (1 : ℚ) else 0) = Fintype.card α * weight g p c := by
      unfold weight
      rw [mul_div_cancel₀ _ (card_pos').ne']
    rw [sum_sub_distrib, ← mul_sum, sum_add_distrib, sum_centered, e2, add_zero]
    have h0 : 0 ≤ weight g p c * (Fintype.card α * weight g p c) :=
      mul_nonneg (weight_nonneg g p c) (mul_nonneg (card_pos').le (weight_nonneg g p c))
    linarith
  have h2 : (Fintype.card α : ℚ) * ∑ B : ι → α, (hit A g p c B - weight g p c) * (hit A g p c B - weight g p c)
      ≤ Fintype.card α * (Fintype.card (ι → α) * weight g p c) := by
    rw [this]
    calc _ ≤ ∑ _B : ι → α, (Fintype.card α : ℚ) * weight g p c := sum_le_sum fun B _ => hz B
      _ = _ := by
        rw [sum_const, card_univ, nsmul_eq_mul]; ring
  exact le_of_mul_le_mul_left h2 card_pos'

/-- The deviation of the count of `c`. -/
def dev (A : K → ι) (g : K → α → F) (c : F) (B : ι → α) : ℚ := ∑ p, (hit A g p c B - weight g p c)

theorem dev_sq (A : K → ι) (hA : Injective A) (g : K → α → F) (c : F) :
    ∑ B : ι → α, dev A g c B ^ 2 ≤ Fintype.card (ι → α) * ∑ p, weight g p c := by
  have e : ∀ B : ι → α, dev A g c B ^ 2
      = ∑ p, ∑ q, (hit A g p c B - weight g p c) * (hit A g q c B - weight g q c) := by
    intro B
    unfold dev
    rw [pow_two, sum_mul_sum]
  simp only [e]
  rw [sum_comm, mul_sum]
  refine sum_le_sum fun p _ => ?_
  rw [sum_comm, sum_eq_single p]
  · exact diag A g p c
  · intro q _ hq
    exact cross A hA g c hq.symm
  · intro h
    exact absurd (mem_univ _) h

/-- The deviations, all in all. -/
theorem dev_abs (A : K → ι) (hA : Injective A) (g : K → α → F) :
    (∑ B : ι → α, ∑ c, |dev A g c B|) ^ 2
      ≤ (Fintype.card (ι → α) : ℚ) ^ 2 * Fintype.card F * Fintype.card K := by
  have h1 : (∑ x : (ι → α) × F, |dev A g x.2 x.1|) ^ 2
      ≤ (Fintype.card ((ι → α) × F) : ℚ) * ∑ x : (ι → α) × F, |dev A g x.2 x.1| ^ 2 := by
    have := sq_sum_le_card_mul_sum_sq (s := (univ : Finset ((ι → α) × F))) (f := fun x => |dev A g x.2 x.1|)
    rwa [card_univ] at this
  rw [Fintype.sum_prod_type, Fintype.sum_prod_type, Fintype.card_prod] at h1
  simp only [sq_abs] at h1
  refine h1.trans ?_
  rw [sum_comm]
  have h2 : ∑ c, ∑ B : ι → α, dev A g c B ^ 2 ≤ Fintype.card (ι → α) * Fintype.card K := by
    calc _ ≤ ∑ c, (Fintype.card (ι → α) : ℚ) * ∑ p, weight g p c := sum_le_sum fun c _ => dev_sq A hA g c
      _ = _ := by
        rw [← mul_sum, sum_comm]
        simp only [sum_weight, sum_const, card_univ, nsmul_eq_mul, mul_one]
  have h3 : (0 : ℚ) ≤ ((Fintype.card (ι → α) * Fintype.card F : ℕ) : ℚ) := Nat.cast_nonneg _
  calc _ ≤ ((Fintype.card (ι → α) * Fintype.card F : ℕ) : ℚ) * (Fintype.card (ι → α) * Fintype.card K) :=
        mul_le_mul_of_nonneg_left h2 h3
    _ = _ := by push_cast; ring

open Classical in
/-- **Spreading.** For sets that depend on the table. -/
theorem spread (A : K → ι) (hA : Injective A) (g : K → α → F) (S : (ι → α) → Set F) {δ η : ℚ} (hδ : 0 ≤ δ)
    (hδ2 : (Fintype.card F : ℚ) ≤ δ ^ 2 * Fintype.card K)
    (hη : ∑ p, ∑ c, |weight g p c - 1 / Fintype.card F| ≤ η * Fintype.card K) :
    |∑ B : ι → α, ∑ p, (if g p (B (A p)) ∈ S B then (1 : ℚ) else 0)
        - ∑ B : ι → α, (Fintype.card K : ℚ) * ((∑ c, if c ∈ S B then (1 : ℚ) else 0) / Fintype.card F)|
      ≤ (δ + η) * (Fintype.card (ι → α) * Fintype.card K) := by
  have hT : (0 : ℚ) ≤ Fintype.card (ι → α) := Nat.cast_nonneg _
  have hK : (0 : ℚ) ≤ Fintype.card K := Nat.cast_nonneg _
  have h1 : ∑ B : ι → α, ∑ c, |dev A g c B| ≤ δ * (Fintype.card (ι → α) * Fintype.card K) := by
    refine le_of_sq_le_sq ((dev_abs A hA g).trans ?_) (mul_nonneg hδ (mul_nonneg hT hK))
    calc (Fintype.card (ι → α) : ℚ) ^ 2 * Fintype.card F * Fintype.card K
        ≤ (Fintype.card (ι → α) : ℚ) ^ 2 * (δ ^ 2 * Fintype.card K) * Fintype.card K := by gcongr
      _ = _ := by ring
  rw [← sum_sub_distrib]
  have key : ∀ B : ι → α, |∑ p, (if g p (B (A p)) ∈ S B then (1 : ℚ) else 0)
      - (Fintype.card K : ℚ) * ((∑ c, if c ∈ S B then (1 : ℚ) else 0) / Fintype.card F)|
      ≤ (∑ c, |dev A g c B|) + η * Fintype.card K := by
    intro B
    have e1 : ∀ p, (if g p (B (A p)) ∈ S B then (1 : ℚ) else 0)
        = ∑ c, (if c ∈ S B then (1 : ℚ) else 0) * hit A g p c B := by
      intro p
      unfold hit
      simp only [mul_ite, mul_one, mul_zero, sum_ite_eq, mem_univ, if_true]
    have e2 : ∑ p, (if g p (B (A p)) ∈ S B then (1 : ℚ) else 0)
        - (Fintype.card K : ℚ) * ((∑ c, if c ∈ S B then (1 : ℚ) else 0) / Fintype.card F)
        = ∑ c, (if c ∈ S B then (1 : ℚ) else 0) * (dev A g c B + ∑ p, (weight g p c - 1 / Fintype.card F)) := by
      simp only [e1]
      rw [sum_comm, sum_div, mul_sum, ← sum_sub_distrib]
      refine sum_congr rfl fun c _ => ?_
      rw [← mul_sum]
      unfold dev
      rw [← sum_add_distrib]
      have e3 : ∀ p, hit A g p c B - weight g p c + (weight g p c - 1 / Fintype.card F)
          = hit A g p c B - 1 / Fintype.card F := fun p => by ring
      simp only [e3]
      rw [sum_sub_distrib, sum_const, card_univ, nsmul_eq_mul]
      ring
    rw [e2]
    refine (abs_sum_le_sum_abs _ _).trans ?_
    calc _ ≤ ∑ c, (|dev A g c B| + ∑ p, |weight g p c - 1 / Fintype.card F|) := by
          refine sum_le_sum fun c _ => ?_
          rw [abs_mul]
          have hi : |(if c ∈ S B then (1 : ℚ) else 0)| ≤ 1 := by split <;> simp
          have h5 : |dev A g c B + ∑ p, (weight g p c - 1 / Fintype.card F)|
              ≤ |dev A g c B| + ∑ p, |weight g p c - 1 / Fintype.card F| :=
            (abs_add_le _ _).trans (add_le_add le_rfl (abs_sum_le_sum_abs _ _))
          calc _ ≤ 1 * |dev A g c B + ∑ p, (weight g p c - 1 / Fintype.card F)| :=
                mul_le_mul_of_nonneg_right hi (abs_nonneg _)
            _ ≤ _ := by rw [one_mul]; exact h5
      _ ≤ _ := by
          rw [sum_add_distrib]
          refine add_le_add le_rfl ?_
          rw [sum_comm]
          exact hη
  refine (abs_sum_le_sum_abs _ _).trans ((sum_le_sum fun B _ => key B).trans ?_)
  rw [sum_add_distrib, sum_const, card_univ, nsmul_eq_mul]
  calc _ ≤ δ * (Fintype.card (ι → α) * Fintype.card K) + Fintype.card (ι → α) * (η * Fintype.card K) := by
        linarith
    _ = _ := by ring

end Verif.Spread
