import Verif.Lemmas.Props.AllSecrets
import Verif.Props.Group

/-!
# A signature encrypted several times can be decrypted only with all secrets (C145)

`doc/adaptor_signatures.md:221-240`. The model of `encrypt` is in `Model/Signature`, what an attacker does in `Spec/AllSecrets`.
-/

namespace Verif

/-- **C145**. A signature is encrypted by any list of secrets, in any order. Somebody who has all of them but one, even the secret
key of the signer, and the point of the missing secret, is no more likely to decrypt the signature than twice the chance with
which the same program finds the discrete logarithm of a random point: the pairs of a nonce and a secret for which it succeeds
are at most twice as many as the pairs of a scalar and a secret for which `missingSecret` finds the secret. -/
theorem C145_every_secret_is_needed (H : Hash) (hH : TagsAgree H) (d : Scalar) (msg : Bytes) (before after : List Scalar)
    (A : AdaptorSignature → Point → Bytes) :
    Nat.card {p : Scalar × Scalar // Spec.Decrypts H d msg before after A p} ≤
      2 * Nat.card {q : MaybeScalar × Scalar // Spec.missingSecret H d msg before after A (mulG q.2) q.1 = q.2.1} :=
  AllSecrets.card_le hH d msg before after A

/-- For each nonce and each secret: if the signature is decrypted, then the difference of the scalars is the sum of all secrets,
so whoever sees it learns the missing one. -/
theorem C145_decrypting_reveals (H : Hash) (hH : TagsAgree H) (d k t : Scalar) (msg : Bytes) (before after : List Scalar)
    (A : AdaptorSignature → Point → Bytes) (h : Spec.Decrypts H d msg before after A (k, t)) :
    ∃ sig f, LiftedSignature.fromBytes (Spec.signWith H d k msg) = .ok sig ∧
      LiftedSignature.fromBytes (A (Spec.locked sig (before ++ t :: after)) (mulG t)) = .ok f ∧
      verifySingleLifted H (mulG d) f msg = .ok () ∧
      f.s - (Spec.locked sig (before ++ t :: after)).s
        - ((before ++ after).map (·.1)).sum = t.1 := by
  obtain ⟨sig, hs, h⟩ := h
  refine ⟨sig, sig, hs, by rw [h]; exact hs, ?_, ?_⟩
  · rw [AllSecrets.parsed hH] at hs
    cases hs
    exact AllSecrets.verifies H d k msg
  · rw [AllSecrets.locked_eq, encryptAll_eq]
    change sig.s - (sig.s - _) - _ = _
    simp only [List.map_append, List.map_cons, List.sum_append, List.sum_cons]
    ring

/-- With all secrets it is decrypted, for every nonce. -/
theorem C145_all_secrets_suffice (H : Hash) (hH : TagsAgree H) (d k : Scalar) (msg : Bytes) (ts : List Scalar) :
    ∃ sig, LiftedSignature.fromBytes (Spec.signWith H d k msg) = .ok sig ∧
      (Spec.locked sig ts).adapt (ts.map (·.1)).sum = some sig ∧
      sig.toBytes = Spec.signWith H d k msg := by
  have hp := AllSecrets.parsed hH d msg k
  have h := LiftedSignature.fromBytes_eq_ok.1 hp
  refine ⟨_, hp, ?_, h.2.symm⟩
  rw [AllSecrets.locked_eq]
  exact (C77_encrypt_many H (mulG d) _ msg ts h.1).2.1

/-- Somebody who can compute discrete logarithms decrypts every signature. -/
example (H : Hash) (hH : TagsAgree H) (d : Scalar) (msg : Bytes) (before after : List Scalar) :
    ∃ A, ∀ p, Spec.Decrypts H d msg before after A p := by
  classical
  have hdl : ∀ T : Point, ∃ t : Scalar, mulG t = T := mulG_surjective
  choose log hlog using hdl
  refine ⟨fun a T => ((a.adapt ((before ++ log T :: after).map (·.1)).sum).map LiftedSignature.toBytes).getD [], ?_⟩
  rintro ⟨k, t⟩
  obtain ⟨sig, h1, h2, h3⟩ := C145_all_secrets_suffice H hH d k msg (before ++ t :: after)
  refine ⟨sig, h1, ?_⟩
  have : log (mulG t) = t := mulG_injective (hlog _)
  simp only [this, h2]
  exact h3

end Verif
