import Mathlib.Tactic.IntervalCases
import Verif.Model.Display
import Verif.Spec.Display

/-!
# Helper lemmas for property C104
-/

namespace Verif

theorem digitChar_toNat {d : ℕ} (h : d < 10) : (digitChar d).toNat = 48 + d := by
  interval_cases d <;> rfl

theorem digitChar_isDigit {d : ℕ} (h : d < 10) : (digitChar d).isDigit = true := by
  interval_cases d <;> rfl

theorem readDecimal_decimal (n : ℕ) : Spec.readDecimal (decimal n) = n := by
  induction n using Nat.strong_induction_on with
  | _ n ih =>
    rw [decimal]
    split_ifs with h
    · simp [Spec.readDecimal, digitChar_toNat h]
    · have := ih (n / 10) (by omega)
      unfold Spec.readDecimal at this ⊢
      rw [List.foldl_append, this]
      simp only [List.foldl_cons, List.foldl_nil]
      rw [digitChar_toNat (by omega)]
      omega

theorem decimal_inj {m n : ℕ} (h : decimal m = decimal n) : m = n := by
  rw [← readDecimal_decimal m, h, readDecimal_decimal]

theorem decimal_digits (n : ℕ) : ∀ c ∈ decimal n, c.isDigit = true := by
  induction n using Nat.strong_induction_on with
  | _ n ih =>
    rw [decimal]
    split_ifs with h
    · intro c hc
      rw [List.mem_singleton.1 hc]
      exact digitChar_isDigit h
    · intro c hc
      rcases List.mem_append.1 hc with hc | hc
      · exact ih (n / 10) (by omega) c hc
      · rw [List.mem_singleton.1 hc]
        exact digitChar_isDigit (by omega)

/-- A number followed by a word that does not start with a digit can be read off. -/
theorem decimal_append_inj {m n : ℕ} {w r r' : List Char} (hw : w.head?.any Char.isDigit = false) (hw0 : w ≠ [])
    (h : decimal m ++ (w ++ r) = decimal n ++ (w ++ r')) : m = n ∧ r = r' := by
  have key : ∀ k (t : List Char), (decimal k ++ (w ++ t)).takeWhile Char.isDigit = decimal k := by
    intro k t
    rw [List.takeWhile_append_of_pos (decimal_digits k)]
    cases w with
    | nil => exact absurd rfl hw0
    | cons x xs =>
      have hx : x.isDigit = false := hw
      rw [List.cons_append, List.takeWhile_cons, hx]
      simp
  have h1 : decimal m = decimal n := by rw [← key m r, h, key n r']
  rw [h1] at h
  exact ⟨decimal_inj h1, List.append_cancel_left (List.append_cancel_left h)⟩

/-- Words that start differently. -/
theorem words_ne {w w' X Y : List Char} (hw : w ≠ []) (hw' : w' ≠ []) (h : w.head? ≠ w'.head?) : w ++ X ≠ w' ++ Y := by
  intro e
  cases w with
  | nil => exact hw rfl
  | cons x xs => cases w' with
    | nil => exact hw' rfl
    | cons y ys =>
      rw [List.cons_append, List.cons_append] at e
      exact h (congrArg some (List.cons.inj e).1)

theorem prefix_of_eq {a b c : List Char} (h : a ++ b = c) : a.isPrefixOf c = true :=
  List.isPrefixOf_iff_prefix.2 ⟨b, h⟩

end Verif
