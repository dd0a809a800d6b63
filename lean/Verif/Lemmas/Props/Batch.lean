import Verif.Spec.Claims
import Verif.Lemmas.Batch
import Verif.Spec.Batch
import Verif.Lemmas.Sgn
import Verif.Props.Bip340
import Verif.Props.Hashes

/-!
# Lemmas and example data for `Props/Batch`
-/

namespace Verif

/-- The equation of a row holds exactly when its item is valid. -/
theorem rowDefect_eq_zero {H : Hash} {x : BatchItem} (hw : x.WellFormed) : rowDefect (x.row H) = 0 ↔ x.Valid H := by
  cases x with
  | plain P msg sig =>
    unfold BatchItem.Valid BatchItem.row BatchVerificationRow.fromSignature rowDefect
    simp only
    rw [verifySingleLifted_eq_ok hw, sub_sub, sub_eq_zero]
  | adaptor P msg sig T =>
    unfold BatchItem.Valid BatchItem.row BatchVerificationRow.fromAdaptorSignature rowDefect
    have hn : (if (!isOdd (sig.R + T)) = true then sig.R else -sig.R) = negIf (isOdd (sig.R + T)) sig.R := by
      cases isOdd (sig.R + T) <;> rfl
    simp only
    rw [verifySingleAdaptor_eq_ok, sub_sub, sub_eq_zero, hn]

/-- A valid plain signature, a valid adaptor signature, and an invalid signature. -/
theorem batch_examples (H : Hash) : ∃ v a w : BatchItem, v.WellFormed ∧ v.Valid H ∧ a.WellFormed ∧ a.Valid H ∧
    w.WellFormed ∧ ¬ w.Valid H ∧ (∃ P m s, v = .plain P m s) ∧ (∃ P m s, w = .plain P m s) := by
  obtain ⟨sig, h1, h2, h3⟩ : ∃ sig : LiftedSignature, (signSolo H scalarOne [] zeroSeed : Res Unit _) = .ok sig ∧
      verifySingleLifted H (mulG scalarOne) sig [] = .ok () ∧ isOdd sig.R.1 = false := by
    obtain ⟨sig, hs, hv⟩ := C35_solo_signature_verifies H scalarOne [] zeroSeed Unit
    refine ⟨sig, hs, hv, ?_⟩
    unfold signSolo at hs
    cases ha : (signSoloAdaptor H scalarOne [] zeroSeed 0).adapt 0 with
    | none => rw [ha] at hs; cases hs
    | some l' => rw [ha] at hs; cases hs; exact adapt_isOdd ha
  obtain ⟨s, hs⟩ := valid_adaptor_exists H scalarOne 1 G []
  refine ⟨.plain (mulG scalarOne) [] sig, .adaptor (mulG scalarOne) [] _ G, .plain (mulG scalarOne) [] ⟨sig.R, sig.s + 1⟩,
    h3, h2, trivial, hs, h3, fun hv => ?_, ⟨_, _, _, rfl⟩, ⟨_, _, _, rfl⟩⟩
  have e1 := (verifySingleLifted_eq_ok h3).1 h2
  have e2 := (verifySingleLifted_eq_ok (sig := ⟨sig.R, sig.s + 1⟩) h3).1 hv
  simp only at e2
  rw [← e1] at e2
  exact one_ne_zero (α := MaybeScalar) (by linear_combination smul_G_inj.1 e2)

theorem row_challenge (H : Hash) (x : BatchItem) : (x.row H).challenge = reduceFrom (H x.challengeInput) := by
  cases x with
  | plain P msg sig =>
    unfold BatchItem.row BatchVerificationRow.fromSignature BatchItem.challengeInput
    simp only
    rw [(C66_what_is_hashed H).2.2.2.1, spec_xbytes sig.R.1]
  | adaptor P msg sig T =>
    unfold BatchItem.row BatchVerificationRow.fromAdaptorSignature BatchItem.challengeInput
    simp only
    rw [(C66_what_is_hashed H).2.2.2.1, spec_xbytes (sig.R + T)]

theorem row_scalar (H : Hash) (x : BatchItem) : (x.row H).s = x.scalar := by
  cases x <;> rfl

theorem row_challengeOf {H : Hash} (hH : TagsAgree H) (x : BatchItem) : (x.row H).challenge = x.challengeOf H := by
  cases x <;> simp only [BatchItem.challengeOf, spec_challenge hH] <;> rfl

theorem rowDefect_eq {H : Hash} (hH : TagsAgree H) (x : BatchItem) : rowDefect (x.row H) = x.defect H := by
  cases x with
  | plain P msg sig =>
    unfold BatchItem.defect BatchItem.row BatchVerificationRow.fromSignature rowDefect
    simp only
    rw [spec_challenge hH, sgn_smul, ← toEvenY_val]
  | adaptor P msg sig T =>
    unfold BatchItem.defect BatchItem.row BatchVerificationRow.fromAdaptorSignature rowDefect
    have hn : (if (!isOdd (sig.R + T)) = true then sig.R else -sig.R) = negIf (isOdd (sig.R + T)) sig.R := by
      cases isOdd (sig.R + T) <;> rfl
    simp only
    rw [spec_challenge hH, sgn_smul, sgn_smul, ← toEvenY_val, hn]

theorem batchDefect_tail {H : Hash} (hH : TagsAgree H) (a : ℕ → Scalar) : ∀ (items : List BatchItem) (i : ℕ),
    batchDefect a (i + 1) (items.map (·.row H))
      = (items.mapIdx fun j x => (a (i + j)).1 • x.defect H).sum
  | [], i => by simp [batchDefect]
  | x :: items, i => by
    rw [List.map_cons, batchDefect, batchDefect_tail hH a items (i + 1), rowDefect_eq hH, List.mapIdx_cons,
      List.sum_cons]
    congr 2
    apply List.mapIdx_eq_mapIdx_iff.2
    intro j hj
    rw [Nat.add_right_comm, Nat.add_assoc]

end Verif
