import Verif.Lemmas.Props.NonceReuse
import Verif.Lemmas.Props.Views

/-!
# Property C112: one session reveals nothing about a secret key
-/

namespace Verif

/-- **C112**. Whatever the others reply, they see of a signer in one session what they could have made up from the public
key: for every set of views, as many draws of the signer lead into it as draws of the simulator. -/
theorem C112_session_simulated (H : Hash) (ctx : KeyAggContext) (hc : Reachable H ctx) (sk : Scalar) (a : MaybeScalar)
    (ha : (ctx.keyCoefficient (mulG sk) : Res Unit _) = .ok (some a))
    (reply : PubNonce → Arr 32 → Arr 32 → Spec.Reply) (S : Set Spec.View) :
    {p | ∃ v ∈ S, Spec.signerView H ctx sk reply p = some v}.ncard
      = {d | ∃ v ∈ S, Spec.simulatedView ctx (mulG sk) a reply d = some v}.ncard := by
  have hi := hc.inv
  rw [hi.keyCoefficient_eq] at ha
  have hP : mulG sk ∈ ctx.orderedPubkeys := by
    by_contra hP
    rw [if_neg hP] at ha
    cases ha
  rw [if_pos hP] at ha
  have hca : coeffOf H ctx.orderedPubkeys (mulG sk) = a := by simpa using ha
  subst hca
  have hv : ∀ p, Spec.simulatedView ctx (mulG sk) (coeffOf H ctx.orderedPubkeys (mulG sk)) reply
      (toDraws ctx sk (coeffOf H ctx.orderedPubkeys (mulG sk)) reply p) = Spec.signerView H ctx sk reply p :=
    fun p => (simulatedView_toDraws ctx sk _ reply p).trans (signerView_eq hi hP reply p).symm
  refine Set.ncard_congr (fun p _ => toDraws ctx sk (coeffOf H ctx.orderedPubkeys (mulG sk)) reply p) ?_ ?_ ?_
  · rintro p ⟨v, hS, h⟩
    exact ⟨v, hS, (hv p).trans h⟩
  · exact fun p p' _ _ h => toDraws_injective _ _ _ _ h
  · rintro d ⟨v, hS, h⟩
    obtain ⟨p, rfl⟩ := exists_toDraws ctx sk _ reply d v h
    exact ⟨p, ⟨v, hS, (hv p).symm.trans h⟩, rfl⟩

/-- **C112**. The signer never fails, so that the simulator succeeds as often as there are draws of the signer: about every
second time. -/
theorem C112_simulator_succeeds (H : Hash) (ctx : KeyAggContext) (hc : Reachable H ctx) (sk : Scalar) (a : MaybeScalar)
    (ha : (ctx.keyCoefficient (mulG sk) : Res Unit _) = .ok (some a))
    (reply : PubNonce → Arr 32 → Arr 32 → Spec.Reply) :
    (∀ p, ∃ v, Spec.signerView H ctx sk reply p = some v) ∧
      {d | ∃ v, Spec.simulatedView ctx (mulG sk) a reply d = some v}.ncard = (orderN - 1) ^ 2 * (256 ^ 32) ^ 2 ∧
      Nat.card Spec.Draws = 2 * (orderN * (orderN - 1)) * (256 ^ 32) ^ 2 := by
  have hv : ∀ p, ∃ v, Spec.signerView H ctx sk reply p = some v := by
    have hi := hc.inv
    rw [hi.keyCoefficient_eq] at ha
    by_cases hP : mulG sk ∈ ctx.orderedPubkeys
    · exact fun p => ⟨_, signerView_eq hi hP reply p⟩
    · rw [if_neg hP] at ha
      cases ha
  refine ⟨hv, ?_, draws_card⟩
  have h := C112_session_simulated H ctx hc sk a ha reply Set.univ
  simp only [Set.mem_univ, true_and] at h
  rw [← h, ← signerDraws_card, ← Set.ncard_univ]
  exact congrArg _ (Set.eq_univ_of_forall hv)

/-- A group of two keys, of which the signer has the second. -/
example (reply : PubNonce → Arr 32 → Arr 32 → Spec.Reply) (S : Set Spec.View) :
    {p | ∃ v ∈ S, Spec.signerView lastByteHash lastCtx ⟨2, two_ne_zero_scalar⟩ reply p = some v}.ncard
      = {d | ∃ v ∈ S, Spec.simulatedView lastCtx (mulG ⟨2, two_ne_zero_scalar⟩) 1 reply d = some v}.ncard :=
  C112_session_simulated _ _ lastCtx_reachable _ _ last_keyCoefficient reply S

end Verif
