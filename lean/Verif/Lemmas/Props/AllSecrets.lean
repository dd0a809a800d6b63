import Verif.Spec.AllSecrets
import Verif.Lemmas.Props.OneSigner
import Verif.Lemmas.Props.Group

/-!
# Lemmas for `Props/AllSecrets`
-/

namespace Verif.AllSecrets

open Verif

theorem locked_eq (sig : LiftedSignature) (ts : List Scalar) :
    Spec.locked sig ts = encryptAll (AdaptorSignature.new sig.R.1 sig.s) ts := by
  cases ts <;> rfl

variable {H : Hash} (hH : TagsAgree H) (d : Scalar) (msg : Bytes)

include hH in
/-- The signature with the nonce `k`, parsed. -/
theorem parsed (k : Scalar) : LiftedSignature.fromBytes (Spec.signWith H d k msg) = .ok ⟨toEvenY (mulG k),
    Spec.sgn (mulG k).1 * k.1 + computeChallengeHashTweak H (xonly (mulG k).1) (mulG d) msg * (Spec.sgn (mulG d).1 * d.1)⟩ := by
  rw [LiftedSignature.fromBytes_eq_ok]
  refine ⟨isOdd_toEvenY _, ?_⟩
  rw [OneSigner.signWith_eq H hH]
  change _ = (xonly (toEvenY (mulG k)).1).1 ++ _
  rw [xonly_toEvenY]
  rfl

theorem verifies (H : Hash) (d k : Scalar) (msg : Bytes) : verifySingleLifted H (mulG d) ⟨toEvenY (mulG k),
    Spec.sgn (mulG k).1 * k.1 + computeChallengeHashTweak H (xonly (mulG k).1) (mulG d) msg * (Spec.sgn (mulG d).1 * d.1)⟩ msg
    = .ok () := by
  rw [verifySingleLifted_eq_ok (isOdd_toEvenY _), toEvenY_val, toEvenY_val, xonly_negIf, ← sgn_smul, ← sgn_smul, mulG_val,
    mulG_val, ← mul_smul, ← mul_smul, ← mul_smul, ← add_smul, mul_assoc]

theorem lastScalar (x : Arr 32) (s : MaybeScalar) :
    ((Spec.int_from_bytes ((x.1 ++ (serScalar s).1).drop 32) : ℕ) : MaybeScalar) = s := by
  rw [List.drop_left' x.2]
  unfold Spec.int_from_bytes
  rw [beNat_serScalar, serScalar_val]

include hH in
theorem missingSecret_eq (before after : List Scalar) (A : AdaptorSignature → Point → Bytes) (k t : Scalar)
    (h : Spec.Decrypts H d msg before after A (k, t)) :
    Spec.missingSecret H d msg before after A (mulG t)
      (Spec.sgn (mulG k).1 * k.1 - t.1 - ((before ++ after).map (·.1)).sum) = t.1 := by
  obtain ⟨sig, hs, h⟩ := h
  rw [parsed hH] at hs
  cases hs
  simp only at h
  rw [locked_eq, encryptAll_eq] at h
  unfold Spec.missingSecret
  set known := ((before ++ after).map (·.1)).sum with hk
  have hsum : ((before ++ t :: after).map (·.1)).sum = known + t.1 := by
    rw [hk]; simp only [List.map_append, List.map_cons, List.sum_append, List.sum_cons]; ring
  rw [hsum] at h
  set n := Spec.sgn (mulG k).1 * k.1 with hn
  have hE : (toEvenY (mulG k)).1 = n • G := by
    rw [toEvenY_val, ← sgn_smul, mulG_val, ← mul_smul]; rfl
  have hR : (n - t.1 - known) • Spec.G + known • Spec.G + (mulG t).1 = (toEvenY (mulG k)).1 := by
    rw [hE, spec_G, mulG_val, ← add_smul, ← add_smul]; congr 1; ring
  have hP : d.1 • Spec.G = (mulG d).1 := by rw [spec_G]; rfl
  simp only [hR, hP]
  rw [spec_challenge hH, xonly_toEvenY]
  set c := computeChallengeHashTweak H (xonly (mulG k).1) (mulG d) msg * (Spec.sgn (mulG d).1 * d.1) with hc
  have ha : (AdaptorSignature.mk ((n - t.1 - known) • Spec.G) (n - t.1 - known + c)) =
      ⟨(AdaptorSignature.new (toEvenY (mulG k)).1 (n + c)).R - (known + t.1) • G,
        (AdaptorSignature.new (toEvenY (mulG k)).1 (n + c)).s - (known + t.1)⟩ := by
    change _ = AdaptorSignature.mk ((toEvenY (mulG k)).1 - (known + t.1) • G) (n + c - (known + t.1))
    rw [hE, spec_G, ← sub_smul]
    congr 1
    · congr 1; ring
    · ring
  rw [ha, h, OneSigner.signWith_eq H hH, lastScalar]
  ring

include hH in
theorem card_le (before after : List Scalar) (A : AdaptorSignature → Point → Bytes) :
    Nat.card {p : Scalar × Scalar // Spec.Decrypts H d msg before after A p} ≤
      2 * Nat.card {q : MaybeScalar × Scalar // Spec.missingSecret H d msg before after A (mulG q.2) q.1 = q.2.1} := by
  have h2 : 2 * Nat.card {q : MaybeScalar × Scalar // Spec.missingSecret H d msg before after A (mulG q.2) q.1 = q.2.1} =
      Nat.card (Bool × {q : MaybeScalar × Scalar // Spec.missingSecret H d msg before after A (mulG q.2) q.1 = q.2.1}) := by
    rw [Nat.card_prod, Nat.card_eq_fintype_card (α := Bool), Fintype.card_bool]
  rw [h2]
  refine Nat.card_le_card_of_injective (fun p => (isOdd (mulG p.1.1).1,
    ⟨(Spec.sgn (mulG p.1.1).1 * p.1.1.1 - p.1.2.1 - ((before ++ after).map (·.1)).sum, p.1.2),
      missingSecret_eq hH d msg before after A p.1.1 p.1.2 p.2⟩)) ?_
  rintro ⟨⟨k, t⟩, _⟩ ⟨⟨k', t'⟩, _⟩ h
  simp only [Prod.mk.injEq, Subtype.mk.injEq] at h
  obtain ⟨h1, h3, rfl⟩ := h
  rw [sgn_mul, sgn_mul, h1] at h3
  have : k = k' := by
    apply Subtype.ext
    generalize isOdd (mulG k').1 = b at h3
    cases b <;> simpa [negIf] using h3
  subst this
  rfl

end Verif.AllSecrets
