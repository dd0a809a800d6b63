import Verif.Lemmas.Props.Ros
import Verif.Props.Rounds
import Verif.Props.Uniform

/-!
# Property C115: many sessions at once

`sign_partial_adaptor` computes the nonce coefficient without the adaptor point (signing.rs:66-77). Attackers who choose the
adaptor points last, in sessions that are open at the same time, forge signatures.
-/

namespace Verif

/-- **C115** is false: whoever takes part in 256 sessions with one signer, and chooses the adaptor points after the nonces,
gets a signature for any message, by the formulas of `Spec.Attack`. The nonces of the signer are arbitrary, so they may be
all different. In each session two adaptor points with different signed challenges have to be known. -/
theorem C115_concurrent_adaptor_forgery (H : Hash) (hH : TagsAgree H) (ctx : KeyAggContext) (hc : Reachable H ctx)
    (sk : Scalar) (a : MaybeScalar) (ha : (ctx.keyCoefficient (mulG sk) : Res Unit _) = .ok (some a)) (ha0 : a ≠ 0)
    (α β : Point → MaybeScalar) (hrep : ∀ K ∈ ctx.pubkeys, K.1 = α K • G + β K • (mulG sk).1)
    (sessions : Fin 256 → Spec.OpenSession) (sn : Fin 256 → SecNonce)
    (hn : ∀ i, (sn i).publicNonce = (sessions i).pubnonce) (msg : Bytes) :
    let X := Spec.attack H ctx (mulG sk) α β a sessions msg
    (∀ i, (X.observed i true).e ≠ (X.observed i false).e) →
    ∀ W : Point, W.1 = X.nonce →
    ∃ s : Fin 256 → MaybeScalar,
      (∀ i, signPartialAdaptor H ctx sk (sn i) (sessions i).aggnonce (X.adaptorPoint i) (sessions i).message = .ok (s i)) ∧
      verifySingle H ctx.aggregatedPubkey ⟨xonly W.1, X.scalar s⟩ msg = .ok () := by
  intro X hd W hW
  have hm : mulG sk ∈ ctx.orderedPubkeys := by
    by_contra hm
    rw [hc.inv.keyCoefficient_eq, if_neg hm] at ha
    cases ha
  have hs : ∀ i, signPartialAdaptor H ctx sk (sn i) (sessions i).aggnonce (X.adaptorPoint i) (sessions i).message
      = .ok (partialSigValue H ctx sk (sn i) (sessions i).aggnonce (X.adaptorPoint i) (sessions i).message) := fun i => by
    rw [signPartialAdaptor_eq hc.inv, if_pos hm]
  refine ⟨_, hs, X.accepted hH (attack_key hH hc _ α β hrep a sessions msg) (mul_ne_zero ha0 (keySign_ne_zero ctx)) hd W hW
    _ fun i => ?_⟩
  have h := observed_signature hH hc (hs i) ha
  simp only at h
  have hb := X.observed_b i (X.choice i)
  have hR1 : (sessions i).pubnonce.R1.1 = (sn i).k1.1 • G := by rw [← hn i]; rfl
  have hR2 : (sessions i).pubnonce.R2.1 = (sn i).k2.1 • G := by rw [← hn i]; rfl
  have hN : X.signerNonce i = ((sn i).k1.1 + (X.observed i (X.choice i)).b * (sn i).k2.1) • G := by
    unfold Spec.Attack.signerNonce
    change (sessions i).pubnonce.R1.1 + _ • (sessions i).pubnonce.R2.1 = _
    rw [hR1, hR2, hb, add_smul, mul_smul]
  have hP : X.P.1 = sk.1 • G := rfl
  have hu : X.u = a * Spec.keySign ctx := rfl
  rw [hN, hP, hu, ← mul_smul, ← add_smul]
  congr 1
  refine h.trans ?_
  change (sn i).k1.1 + (X.observed i (X.choice i)).b * (sn i).k2.1
    + (X.observed i (X.choice i)).e * a * (Spec.keySign ctx * sk.1) = _
  ring

/-- **C115** is false: two adaptor points with different challenges are always at hand, one makes the adapted nonce `G`, the
other `-G`. -/
theorem C115_sign_flip_forgery (H : Hash) (hH : TagsAgree H) (ctx : KeyAggContext) (hc : Reachable H ctx)
    (sk : Scalar) (a : MaybeScalar) (ha : (ctx.keyCoefficient (mulG sk) : Res Unit _) = .ok (some a)) (ha0 : a ≠ 0)
    (α β : Point → MaybeScalar) (hrep : ∀ K ∈ ctx.pubkeys, K.1 = α K • G + β K • (mulG sk).1)
    (sn : Fin 256 → SecNonce) (an : Fin 256 → AggNonce) (msgs : Fin 256 → Bytes)
    (he : ∀ i, Spec.challenge H G ctx.aggregatedPubkey.1 (msgs i) ≠ 0) (msg : Bytes) :
    let X := Spec.attack H ctx (mulG sk) α β a
      (fun i => .flipping H ctx.aggregatedPubkey (sn i).publicNonce (an i) (msgs i)) msg
    ∀ W : Point, W.1 = X.nonce →
    ∃ s : Fin 256 → MaybeScalar,
      (∀ i, signPartialAdaptor H ctx sk (sn i) (an i) (X.adaptorPoint i) (msgs i) = .ok (s i)) ∧
      verifySingle H ctx.aggregatedPubkey ⟨xonly W.1, X.scalar s⟩ msg = .ok () := by
  intro X W hW
  refine C115_concurrent_adaptor_forgery H hH ctx hc sk a ha ha0 α β hrep
    (fun i => .flipping H ctx.aggregatedPubkey (sn i).publicNonce (an i) (msgs i)) sn (fun _ => rfl) msg (fun i => ?_) W hW
  have ho : ∀ c, X.observed i c = _ := fun c => observe_flipping hH ctx.aggregatedPubkey (sn i).publicNonce (an i) (msgs i) c
  change (X.observed i true).e ≠ (X.observed i false).e
  rw [ho, ho]
  simp only [if_true, Bool.false_eq_true, if_false]
  intro h
  have : (2 : MaybeScalar) * Spec.challenge H G ctx.aggregatedPubkey.1 (msgs i) = 0 := by linear_combination -h
  rcases mul_eq_zero.1 this with h | h
  · exact two_ne_zero_scalar h
  · exact he i h

/-- **C115** is false for sessions that are followed with `FirstRound`: 256 complete first rounds of one signer, finalized with
adaptor points chosen by the others, give a signature for another message. -/
theorem C115_rounds_forgery (H : Hash) (hH : TagsAgree H) (ctx : KeyAggContext) (hc : Reachable H ctx)
    (sk : Scalar) (a : MaybeScalar) (ha : (ctx.keyCoefficient (mulG sk) : Res Unit _) = .ok (some a)) (ha0 : a ≠ 0)
    (α β : Point → MaybeScalar) (hrep : ∀ K ∈ ctx.pubkeys, K.1 = α K • G + β K • (mulG sk).1)
    (seed : Fin 256 → Arr 32) (j : ℕ) (spices : Fin 256 → SecNonceSpices) (r : Fin 256 → FirstRound)
    (hr : ∀ i, FirstRound.new H ctx (seed i) j (spices i) = .ok (r i)) (calls : Fin 256 → List (ℕ × PubNonce))
    (hcomp : ∀ i, ((r i).run (calls i)).1.isComplete = true) (msgs : Fin 256 → Bytes)
    (he : ∀ i, Spec.challenge H G ctx.aggregatedPubkey.1 (msgs i) ≠ 0) (msg : Bytes) :
    let nonces := fun i => (List.range ctx.pubkeys.length).filterMap (Spec.nonceFor j (r i).ourPublicNonce (calls i))
    let X := Spec.attack H ctx (mulG sk) α β a
      (fun i => .flipping H ctx.aggregatedPubkey (r i).ourPublicNonce (AggNonce.sum (nonces i)) (msgs i)) msg
    ∀ W : Point, W.1 = X.nonce →
    ∃ (r2 : Fin 256 → SecondRound) (s : Fin 256 → MaybeScalar),
      (∀ i, ((r i).run (calls i)).1.finalizeAdaptor H sk (X.adaptorPoint i) (msgs i) = .ok (r2 i) ∧
        ((r2 i).ourSignature : Res Unit _) = .ok (s i)) ∧
      verifySingle H ctx.aggregatedPubkey ⟨xonly W.1, X.scalar s⟩ msg = .ok () := by
  intro nonces X W hW
  have hm : mulG sk ∈ ctx.pubkeys := by
    by_contra hm
    rw [hc.inv.keyCoefficient_eq, if_neg (show mulG sk ∉ ctx.orderedPubkeys from hm)] at ha
    cases ha
  have hfin := fun i => (C57_first_round_finalize H ctx hc (seed i) j (spices i) (r i) (hr i) (calls i) sk (X.adaptorPoint i)
    (msgs i)).2.2 (hcomp i) hm
  choose r2 ns t h2 hlen hns _ _ hsig hour using hfin
  have hnonces : ∀ i, nonces i = ns i := fun i => filterMap_range_eq (hlen i) (hns i)
  obtain ⟨s, hs, hv⟩ := C115_sign_flip_forgery H hH ctx hc sk a ha ha0 α β hrep (fun i => (r i).secnonce)
    (fun i => AggNonce.sum (nonces i)) msgs he msg W hW
  have hst : ∀ i, s i = t i := fun i => by
    have h1 := hs i
    have h2 := hsig i
    rw [← hnonces] at h2
    exact Res.ok.inj (h1.symm.trans h2)
  exact ⟨r2, s, fun i => ⟨h2 i, by rw [hst i]; exact hour i _⟩, hv⟩

/-- **C115**, what holds. Once the adaptor point is chosen, the input to the hash function from which the nonce coefficient is
made determines all of the session. So without adaptor points there is nothing to choose after the nonces. Missing: that
nobody can sign alone after any number of sessions, which is false with adaptor points; for one session it is C113. -/
theorem C115_session_is_fixed_partial (H : Hash) (Q : Point) (T : MaybePoint) (an an' : AggNonce) (msg msg' : Bytes)
    (h : Spec.noncecoefQuery an Q msg = Spec.noncecoefQuery an' Q msg') :
    an = an' ∧ msg = msg' ∧ Spec.observe H Q an T msg = Spec.observe H Q an' T msg' := by
  have key : an = an' ∧ msg = msg' := noncecoefQuery_inj h
  obtain ⟨rfl, rfl⟩ := key
  exact ⟨rfl, rfl, rfl⟩

/-- **C115**: with adaptor points the same input is hashed to the coefficient, and the challenge can still be changed. -/
theorem C115_coefficient_ignores_adaptor (H : Hash) (hH : TagsAgree H) (Q : Point) (an : AggNonce) (msg : Bytes)
    (he : Spec.challenge H G Q.1 msg ≠ 0) :
    ∃ T T' : MaybePoint, (Spec.observe H Q an T msg).b = (Spec.observe H Q an T' msg).b ∧
      (Spec.observe H Q an T msg).e ≠ (Spec.observe H Q an T' msg).e := by
  have ho := fun c => observe_flipping hH Q ⟨Gpt, Gpt⟩ an msg c
  refine ⟨(Spec.OpenSession.flipping H Q ⟨Gpt, Gpt⟩ an msg).points true,
    (Spec.OpenSession.flipping H Q ⟨Gpt, Gpt⟩ an msg).points false, by rw [ho true, ho false], ?_⟩
  rw [ho true, ho false]
  simp only [if_true, Bool.false_eq_true, if_false]
  intro h
  have : (2 : MaybeScalar) * Spec.challenge H G Q.1 msg = 0 := by linear_combination -h
  rcases mul_eq_zero.1 this with h | h
  · exact two_ne_zero_scalar h
  · exact he h

/-! ### A concrete attack -/

/-- All hypotheses can be met: the example group, whose second member has the secret key `2`, signs the message `[1]` in 256
sessions, each with another nonce. Any message is then signed by the first member. -/
example (msg : Bytes) : ∃ (s : Fin 256 → MaybeScalar) (W : Point),
    Function.Injective rosNonce ∧ W.1 = (rosAttack msg).nonce ∧
    (∀ i, signPartialAdaptor lastByteHash lastCtx ⟨2, two_ne_zero_scalar⟩ (rosNonce i) (rosAggNonce i)
      ((rosAttack msg).adaptorPoint i) [1] = .ok (s i)) ∧
    verifySingle lastByteHash lastCtx.aggregatedPubkey ⟨xonly W.1, (rosAttack msg).scalar s⟩ msg = .ok () := by
  obtain ⟨s, hs, hv⟩ := C115_sign_flip_forgery lastByteHash lastByteHash_tagsAgree lastCtx lastCtx_reachable
    ⟨2, two_ne_zero_scalar⟩ 1 last_keyCoefficient one_ne_zero rosAlpha rosBeta ros_represented rosNonce rosAggNonce
    (fun _ => [1]) (fun _ => ros_challenge) msg ⟨_, ros_nonce_ne msg⟩ rfl
  exact ⟨s, _, rosNonce_injective, rfl, hs, hv⟩

end Verif
