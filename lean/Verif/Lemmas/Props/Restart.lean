import Verif.Spec.Restart
import Verif.Lemmas.Props.Completes
import Verif.Props.NonceReuse

/-!
# Lemmas for `Props/Restart`
-/

namespace Verif

namespace Restart

open Completes (SameKeys)

theorem sameKeys_challenge (H : Hash) (rx : Bytes) (Q : Point) (msg : Bytes) (h : Arr 32) :
    SameKeys H (H.answering (Spec.challengeQuery rx Q msg) h) := by
  have key : ∀ tag ∈ ["KeyAgg list", "KeyAgg coefficient", "TapTweak"], ∀ r,
      H (Spec.taggedInput tag r) = H.answering (Spec.challengeQuery rx Q msg) h (Spec.taggedInput tag r) := by
    intro tag ht r
    refine (Hash.answering_of_ne H h (C66_domain_separation _ _ ?_ ?_ ?_ _ _)).symm
    · simp only [List.mem_cons, List.not_mem_nil, or_false] at ht
      rcases ht with rfl | rfl | rfl <;> simp [Spec.tags]
    · simp [Spec.tags]
    · simp only [List.mem_cons, List.not_mem_nil, or_false] at ht
      rcases ht with rfl | rfl | rfl <;> decide
  exact ⟨key _ (by simp), key _ (by simp), key _ (by simp)⟩

theorem tagsAgree_challenge {H : Hash} (hH : TagsAgree H) (rx : Bytes) (Q : Point) (msg : Bytes) (h : Arr 32) :
    TagsAgree (H.answering (Spec.challengeQuery rx Q msg) h) :=
  tagsAgree_answering hH (by
    unfold Spec.challengeQuery Spec.taggedInput
    rw [List.length_append, List.length_append, (sha256 _).2]
    omega) h

theorem nonceCoefficient_challenge (H : Hash) (an : AggNonce) (Q : Point) (msg msg' rx : Bytes) (P : Point) (h : Arr 32) :
    an.nonceCoefficient (H.answering (Spec.challengeQuery rx P msg') h) Q msg = an.nonceCoefficient H Q msg := by
  rw [(C66_what_is_hashed _).2.2.1, (C66_what_is_hashed _).2.2.1]
  congr 1
  refine Hash.answering_of_ne _ _ ?_
  exact C66_domain_separation _ _ (by simp [Spec.tags]) (by simp [Spec.tags]) (by decide) _ _

/-- What is observed in a session whose challenge is answered by `h`. -/
theorem observe_answering {H : Hash} (hH : TagsAgree H) (Q : Point) (an : AggNonce) (T : MaybePoint) (msg : Bytes) (h : Arr 32) :
    let R := (an.finalNonce (an.nonceCoefficient H Q msg)).1 + T
    Spec.observe (H.answering (Spec.challengeQuery (Spec.xbytes R) Q msg) h) Q an T msg
      = ⟨(Spec.observe H Q an T msg).b, Spec.sgn R * reduceFrom h, Spec.sgn R⟩ := by
  intro R
  unfold Spec.observe
  simp only [nonceCoefficient_challenge]
  rw [spec_challenge (tagsAgree_challenge hH _ _ _ _), spec_xbytes, challenge_answering]

/-- What is observed in other sessions is the same. -/
theorem observe_other {H : Hash} (hH : TagsAgree H) (Q : Point) (an : AggNonce) (T : MaybePoint) (msg : Bytes) (rx : Bytes) (msg' : Bytes)
    (h : Arr 32) (hne : Spec.challengeQuery (Spec.xbytes ((an.finalNonce (an.nonceCoefficient H Q msg)).1 + T)) Q msg
      ≠ Spec.challengeQuery rx Q msg') :
    Spec.observe (H.answering (Spec.challengeQuery rx Q msg') h) Q an T msg = Spec.observe H Q an T msg := by
  unfold Spec.observe
  simp only [nonceCoefficient_challenge]
  rw [spec_challenge (tagsAgree_challenge hH _ _ _ _), spec_challenge hH, (C66_what_is_hashed _).2.2.2.1, (C66_what_is_hashed _).2.2.2.1]
  rw [spec_xbytes] at hne
  unfold Spec.challengeQuery at hne ⊢
  rw [Hash.answering_of_ne H h hne]

theorem inv_deliver {H : Hash} {r : FirstRound} (hr : r.Inv H) (calls : List (ℕ × PubNonce)) :
    let r' := calls.foldl (fun r c => (r.receiveNonce c.1 c.2).1) r
    r'.Inv H ∧ r'.keyAggCtx = r.keyAggCtx ∧ r'.secnonce = r.secnonce := by
  induction calls generalizing r with
  | nil => exact ⟨hr, rfl, rfl⟩
  | cons c cs ih =>
    obtain ⟨h1, h2, h3⟩ := ih (hr.receive c.1 c.2)
    exact ⟨h1, h2, h3⟩

/-- All partial signatures come from `sign_partial` with the nonce of the round. -/
theorem givesPartial {H : Hash} {r : FirstRound} (hr : r.Inv H) {sk : Scalar} {an : AggNonce} {T : MaybePoint} {msg : Bytes}
    {s : PartialSignature} (h : Spec.GivesPartial H r sk an T msg s) : signPartialAdaptor H r.keyAggCtx sk r.secnonce an T msg = .ok s := by
  rcases h with h | ⟨calls, w, h1, h2, h3⟩
  · exact h
  · obtain ⟨hi, hc, hn⟩ := inv_deliver hr calls
    generalize calls.foldl (fun r c => (r.receiveNonce c.1 c.2).1) r = r' at h1 hi hc hn
    rcases Slots.collect_cases r'.pubnonceSlots.slots with ⟨ns, hns⟩ | hinc
    · have hns' : r'.pubnonceSlots.finalize = .ok ns := hns
      rw [hi.finalizeAdaptor_eq sk _ msg hns'] at h1
      split_ifs at h1 with hm
      cases h1
      have hl : r'.signerIndex < ns.length := by
        rw [((hi.slots_finalize ns).1 hns').1]
        exact hi.own
      unfold SecondRound.aggregatedNonce at h2
      dsimp only at h2
      subst h2
      rw [← hc, ← hn, signPartialAdaptor_eq hi.ctx.inv, if_pos hm]
      unfold SecondRound.ourSignature index at h3
      dsimp only at h3
      rw [Slots.place_new hl] at h3
      dsimp only at h3
      rw [List.getElem?_set_self (by simpa using hl)] at h3
      cases h3
      rfl
    · have hinc' : r'.pubnonceSlots.finalize = .err .incomplete := hinc
      rw [FirstRound.finalizeAdaptor_incomplete sk _ msg hinc'] at h1
      cases h1

theorem new_inv {H : Hash} {ctx : KeyAggContext} (hc : Reachable H ctx) {seed : Arr 32} {i : ℕ} {spices : SecNonceSpices} {r : FirstRound}
    (hr : FirstRound.new H ctx seed i spices = .ok r) : r.Inv H ∧ r.keyAggCtx = ctx := by
  refine ⟨FirstRound.inv_new hc hr, ?_⟩
  obtain ⟨P, b, -, -, rfl⟩ := FirstRound.new_eq_ok.1 hr
  rfl

/-- A member signs. -/
theorem gives_member {H : Hash} {r : FirstRound} (hr : r.Inv H) {sk : Scalar} {a : MaybeScalar}
    (ha : (r.keyAggCtx.keyCoefficient (mulG sk) : Res Unit _) = .ok (some a)) (an : AggNonce) (T : MaybePoint) (msg : Bytes) :
    ∃ s, Spec.GivesPartial H r sk an T msg s := by
  have hm : mulG sk ∈ r.keyAggCtx.orderedPubkeys := by
    by_contra hn
    rw [hr.ctx.inv.keyCoefficient_eq, if_neg hn] at ha
    cases ha
  refine ⟨partialSigValue H r.keyAggCtx sk r.secnonce an T msg, .inl ?_⟩
  unfold FirstRound.signForAggregatorAdaptor
  rw [signPartialAdaptor_eq hr.ctx.inv, if_pos hm]

theorem last_finalNonce (P : Point) (b : MaybeScalar) : ((⟨P.1, 0⟩ : AggNonce).finalNonce b).1 = P.1 := by
  rw [finalNonce_eq_of_ne] <;> simp only [smul_zero, add_zero]
  exact P.2

end Restart

end Verif
