import Verif.Props.Group
import Verif.Props.Rounds
import Verif.Lemmas.Props.Forking

/-!
# Helper lemmas for `Props/Aggregator.lean`
-/

namespace Verif

theorem sum_smul_G (k : List MaybeScalar) : k.sum • G = (k.map (· • G)).sum := by
  induction k with
  | nil => simp
  | cons a k ih => simp [add_smul, ih]

/-- If every partial equation holds for the nonce `an`, whatever it is, the aggregate satisfies the adaptor equation
exactly if the session nonce is the sum of the signers' effective nonces. -/
theorem agg_verifies_iff {H : Hash} {ctx : KeyAggContext} (hi : CtxInv H ctx) (an : AggNonce) (T : MaybePoint) (msg : Bytes)
    (l : List (Point × PubNonce)) (sigs : List MaybeScalar) (hk : l.map (·.1) = ctx.orderedPubkeys)
    (hs : sigs.map (· • G) = l.map fun x => partialRhs H ctx an T x.1 x.2 msg) :
    verifySingleAdaptor H ctx.pubkey ⟨(sessionR H ctx an msg).1, aggValue H ctx an T sigs msg⟩ msg T = .ok () ↔
      (sessionR H ctx an msg).1 = (l.map fun x => x.2.R1.1).sum
        + an.nonceCoefficient H ctx.pubkey msg • (l.map fun x => x.2.R2.1).sum := by
  rw [verifySingleAdaptor_eq_ok]
  simp only
  have hK : (l.map fun x => coeffOf H ctx.orderedPubkeys x.1 • x.1.1).sum = keySum H ctx.orderedPubkeys := by
    unfold keySum
    have : (l.map fun x => coeffOf H ctx.orderedPubkeys x.1 • x.1.1)
        = (l.map (·.1)).map fun P => coeffOf H ctx.orderedPubkeys P • P.1 := by rw [List.map_map]; rfl
    rw [this, hk]
  unfold aggValue
  rw [add_smul, sum_smul_G, hs, sum_partialRhs, hK, toEvenY_val, hi.pub]
  have hRT : (sessionR H ctx an msg).1 + T = sessionRT H ctx an T msg := rfl
  have hE : computeChallengeHashTweak H (xonly (sessionRT H ctx an T msg)) ctx.pubkey msg = sessionE H ctx an T msg := rfl
  generalize (l.map fun x => x.2.R1.1).sum + an.nonceCoefficient H ctx.pubkey msg • (l.map fun x => x.2.R2.1).sum = S
  rw [hRT, hE, negIf_add, negIf_negIf, smul_add, smul_negIf, smul_negIf, ← negIf_smul, mul_smul, ← add_assoc,
    add_left_inj, add_left_inj]
  constructor
  · intro h
    exact (negIf_injective _ h).symm
  · intro h
    rw [h]

theorem zip_of_verified {H : Hash} {ctx : KeyAggContext} (hi : CtxInv H ctx) {an : AggNonce} {T : MaybePoint}
    {pubnonces : List PubNonce} {sigs : List PartialSignature} {msg : Bytes}
    (h1 : pubnonces.length = ctx.pubkeys.length) (h2 : sigs.length = ctx.pubkeys.length)
    (h3 : ∀ (i : ℕ) P pn s, ctx.pubkeys[i]? = some P → pubnonces[i]? = some pn → sigs[i]? = some s →
      verifyPartialAdaptor H ctx s an T P pn msg = .ok ()) :
    ((ctx.orderedPubkeys.zip pubnonces).map (·.1) = ctx.orderedPubkeys) ∧
    ((ctx.orderedPubkeys.zip pubnonces).map (·.2) = pubnonces) ∧
    sigs.map (· • G) = (ctx.orderedPubkeys.zip pubnonces).map fun x => partialRhs H ctx an T x.1 x.2 msg := by
  unfold KeyAggContext.pubkeys at *
  refine ⟨List.map_fst_zip (by omega), List.map_snd_zip (by omega), ?_⟩
  apply List.ext_getElem
  · simp [List.length_zip, h1, h2]
  · intro i hi1 hi2
    simp only [List.getElem_map, List.getElem_zip]
    have hk : i < ctx.orderedPubkeys.length := by simp at hi1; omega
    have hp : i < pubnonces.length := by omega
    have hs : i < sigs.length := by omega
    have := h3 i _ _ _ (List.getElem?_eq_getElem hk) (List.getElem?_eq_getElem hp) (List.getElem?_eq_getElem hs)
    exact ((verifyPartialAdaptor_eq_ok hi).1 this).2

end Verif
