import Verif.Lemmas.Bip340

/-!
# Lemmas on batch verification
-/

namespace Verif

/-- By how much a row misses its equation. -/
def rowDefect (row : BatchVerificationRow) : MaybePoint :=
  row.s • G - row.R - row.challenge • (toEvenY row.pubkey).1

/-- The coefficient of row `i`. -/
def batchCoeff (rng : ℕ → Scalar) (i : ℕ) : Scalar := if i = 0 then scalarOne else rng (i - 1)

/-- The weighted sum of the defects from row `i` on. -/
def batchDefect (rng : ℕ → Scalar) : ℕ → List BatchVerificationRow → MaybePoint
  | _, [] => 0
  | i, row :: rows => (batchCoeff rng i).1 • rowDefect row + batchDefect rng (i + 1) rows

theorem batchLoop_eq (rng : ℕ → Scalar) : ∀ (rows : List BatchVerificationRow) (i : ℕ) (lhs : MaybeScalar)
    (terms : List MaybePoint),
    (batchLoop rng i (i - 1) rows lhs terms).1 • G - (batchLoop rng i (i - 1) rows lhs terms).2.sum
      = lhs • G - terms.sum + batchDefect rng i rows
  | [], i, lhs, terms => by unfold batchLoop batchDefect; simp
  | row :: rows, i, lhs, terms => by
    have hd : (if i = 0 then i - 1 else i - 1 + 1) = i + 1 - 1 := by split_ifs <;> omega
    have ih := batchLoop_eq rng rows (i + 1) (lhs + row.s * (batchCoeff rng i).1)
      (terms ++ [(batchCoeff rng i).1 • row.R]
        ++ [((batchCoeff rng i).1 * row.challenge) • (toEvenY row.pubkey).1])
    rw [← hd] at ih
    unfold batchLoop
    simp only
    rw [show (if i = 0 then scalarOne else rng (i - 1)) = batchCoeff rng i from rfl, ih]
    simp only [batchDefect, rowDefect, List.sum_append, List.sum_cons, List.sum_nil, add_smul, mul_smul, smul_sub]
    rw [smul_comm row.s]
    abel

/-- Batch verification accepts exactly when the weighted defects cancel. -/
theorem verifyBatch_eq_ok {H : Hash} {rng : SeedRng} {rows : List BatchVerificationRow} :
    verifyBatch H rng rows = .ok () ↔ batchDefect (rng (batchSeed H rows)) 0 rows = 0 := by
  have h := batchLoop_eq (rng (batchSeed H rows)) rows 0 0 []
  simp only [zero_smul, List.sum_nil, sub_zero, zero_add, Nat.zero_sub] at h
  unfold verifyBatch
  simp only
  rw [← h, sub_eq_zero]
  split_ifs with hc <;> simp [hc]

theorem verifyBatch_dichotomy (H : Hash) (rng : SeedRng) (rows : List BatchVerificationRow) :
    verifyBatch H rng rows = .ok () ∨ verifyBatch H rng rows = .err .badSignature := by
  unfold verifyBatch
  simp only
  split_ifs <;> simp

theorem batchDefect_all_zero (rng : ℕ → Scalar) : ∀ (rows : List BatchVerificationRow) (i : ℕ),
    (∀ row ∈ rows, rowDefect row = 0) → batchDefect rng i rows = 0
  | [], i, _ => rfl
  | row :: rows, i, h => by
    unfold batchDefect
    rw [h row (by simp), smul_zero, zero_add, batchDefect_all_zero rng rows (i + 1) fun r hr => h r (by simp [hr])]

theorem batchDefect_append (rng : ℕ → Scalar) : ∀ (rows rows' : List BatchVerificationRow) (i : ℕ),
    batchDefect rng i (rows ++ rows') = batchDefect rng i rows + batchDefect rng (i + rows.length) rows'
  | [], rows', i => by simp [batchDefect]
  | row :: rows, rows', i => by
    have h : i + 1 + rows.length = i + (row :: rows).length := by simp; omega
    rw [List.cons_append, batchDefect, batchDefect_append rng rows rows' (i + 1), h, ← add_assoc]
    rfl

/-- The defect sum depends on the coefficients in range only. -/
theorem batchDefect_congr {rng rng' : ℕ → Scalar} : ∀ (rows : List BatchVerificationRow) (i : ℕ),
    (∀ j, i ≤ j → j < i + rows.length → batchCoeff rng j = batchCoeff rng' j) →
    batchDefect rng i rows = batchDefect rng' i rows
  | [], i, _ => rfl
  | row :: rows, i, h => by
    unfold batchDefect
    rw [h i le_rfl (by simp), batchDefect_congr rows (i + 1) fun j h1 h2 => h j (by omega) (by simp; omega)]

end Verif
