import Verif.Lemmas.Props.Blame

/-!
# C141: a rejected partial signature and its signer

README.md:20 promises "Partial signatures can be verified to place blame on misbehaving signers". The full claim would be:
if a signer has the right nonce of another one and rejects that one's signature for the agreed message, then that one
misbehaved. It is false of the code (`C141_honest_signer_blamed`): a third signer that tells the two of them different
nonces makes the honest signature of the one look invalid to the other.
-/

namespace Verif

/-- **C141**, partly. Two members of a group, `i` and `j`, finalize their first rounds with their own keys, the same adaptor
point and the same message, `j` with the right nonce of `i`. If in addition both hold the same aggregated nonce, `j` accepts
the signature of `i`, after any other calls, so that a rejected one was not made by `i`. Missing: the same without the
condition on the aggregated nonces, which is false. -/
theorem C141_blame_partial (H : Hash) (ri rj : FirstRound) (hri : FirstRound.Reachable H ri)
    (hrj : FirstRound.Reachable H rj) (hctx : ri.keyAggCtx = rj.keyAggCtx) (ski skj : Scalar)
    (hski : ri.keyAggCtx.pubkeys[ri.signerIndex]? = some (mulG ski))
    (hskj : rj.keyAggCtx.pubkeys[rj.signerIndex]? = some (mulG skj)) (T : MaybePoint) (msg : Bytes)
    (r2i r2j : SecondRound) (hi : ri.finalizeAdaptor H ski T msg = .ok r2i)
    (hj : rj.finalizeAdaptor H skj T msg = .ok r2j) (hn : r2j.pubnonces[ri.signerIndex]? = some ri.ourPublicNonce)
    (han : r2i.aggregatedNonce = r2j.aggregatedNonce) (calls : List (ℕ × PartialSignature)) (s : PartialSignature) :
    ((r2j.run H calls).1.receiveSignature H ri.signerIndex s).2 ≠ .ok () →
      (r2i.ourSignature : Res Unit _) ≠ .ok s := by
  intro hr hs
  refine hr ((C103_accepted_iff_same_view H ri rj hri hrj hctx ski skj hski hskj T T msg msg r2i r2j hi hj hn s hs calls).2
    ?_)
  rw [han]

/-- **C141**, refuted. Three signers with the keys `1`, `2` and `3` and a hash function with the right tags. The first two
follow the documentation: they make their rounds with `FirstRound::new`, tell each other their nonces, and finalize with
their keys and the same message. The third tells the first another nonce than the second. Then the second is told that the
first one's signature is invalid. -/
theorem C141_honest_signer_blamed (msg : Bytes) : ∃ (H : Hash) (ctx : KeyAggContext) (sk0 sk1 sk2 : Scalar)
    (r0 r1 : FirstRound) (n n' : PubNonce) (r20 r21 : SecondRound) (s : PartialSignature), TagsAgree H ∧
    KeyAggContext.new H [mulG sk0, mulG sk1, mulG sk2] = .ok ctx ∧
    FirstRound.new H ctx zeroSeed 0 SecNonceSpices.new = .ok r0 ∧
    FirstRound.new H ctx zeroSeed 1 SecNonceSpices.new = .ok r1 ∧
    (r0.run [(1, r1.ourPublicNonce), (2, n)]).1.finalize H sk0 msg = .ok r20 ∧
    (r1.run [(0, r0.ourPublicNonce), (2, n')]).1.finalize H sk1 msg = .ok r21 ∧
    (r20.ourSignature : Res Unit _) = .ok s ∧
    (r21.receiveSignature H 0 s).2 = .err ⟨0, .invalidSignature⟩ := by
  obtain ⟨r0, hr0⟩ := new_ok (H := stubHash) (ctx := blameCtx) zeroSeed (i := 0) (by decide) SecNonceSpices.new (by decide)
  obtain ⟨r1, hr1⟩ := new_ok (H := stubHash) (ctx := blameCtx) zeroSeed (i := 1) (by decide) SecNonceSpices.new (by decide)
  obtain ⟨c0, i0, s0, r20, f0, n0, a0⟩ := blame_round (i := 0) (j := 1) (by omega) (by omega) (by omega) (by omega) (by omega)
    blameNonce0 hr0 msg
  obtain ⟨c1, i1, s1, r21, f1, n1, a1⟩ := blame_round (i := 1) (j := 0) (by omega) (by omega) (by omega) (by omega) (by omega)
    blameNonce1 hr1 msg
  have hone : mulG scalarOne = Gpt := Subtype.ext (one_smul _ _)
  have p0 : r0.ourPublicNonce = ⟨Gpt, Gpt⟩ := by
    unfold FirstRound.ourPublicNonce SecNonce.publicNonce
    rw [stub_secnonce hr0, hone]
  have p1 : r1.ourPublicNonce = ⟨Gpt, Gpt⟩ := by
    unfold FirstRound.ourPublicNonce SecNonce.publicNonce
    rw [stub_secnonce hr1, hone]
  have hri : FirstRound.Reachable stubHash (r0.run [(1, ⟨Gpt, Gpt⟩), (2, blameNonce0)]).1 :=
    (FirstRound.Reachable.new (.new blameCtx_new) hr0).run _
  have hrj : FirstRound.Reachable stubHash (r1.run [(0, ⟨Gpt, Gpt⟩), (2, blameNonce1)]).1 :=
    (FirstRound.Reachable.new (.new blameCtx_new) hr1).run _
  obtain ⟨-, -, -, -, hs⟩ := finalizeAdaptor_fields hri f0
  refine ⟨stubHash, blameCtx, blameKeys[0], blameKeys[1], blameKeys[2], r0, r1, blameNonce0, blameNonce1, r20, r21, _,
    stubHash_tagsAgree, blameCtx_new, hr0, hr1, by rw [p1]; exact f0, by rw [p0]; exact f1, hs, ?_⟩
  have hsk1 : (r1.run [(0, ⟨Gpt, Gpt⟩), (2, blameNonce1)]).1.keyAggCtx.pubkeys[(r1.run
      [(0, ⟨Gpt, Gpt⟩), (2, blameNonce1)]).1.signerIndex]? = some (mulG blameKeys[1]) := by
    rw [c1, i1]
    rfl
  have hrec := (C58_second_round_receives stubHash _ hrj blameKeys[1] hsk1 0 msg r21 f1 [] 0
    (partialSigValue stubHash (r0.run [(1, ⟨Gpt, Gpt⟩), (2, blameNonce0)]).1.keyAggCtx blameKeys[0]
      (r0.run [(1, ⟨Gpt, Gpt⟩), (2, blameNonce0)]).1.secnonce r20.aggregatedNonce 0 msg)).2.1 (mulG blameKeys[0])
    ⟨Gpt, Gpt⟩ (by rw [c1]; rfl) (by rw [n1]; rfl)
  refine (congrArg Prod.snd (hrec.2 fun hv => ?_))
  rw [c0, c1, s0, a0, a1] at hv
  have hp : (⟨Gpt, Gpt⟩ : PubNonce) = SecNonce.publicNonce ⟨scalarOne, scalarOne⟩ := by
    unfold SecNonce.publicNonce
    rw [hone]
  rw [congrArg (verifyPartialAdaptor stubHash blameCtx _ _ 0 (mulG blameKeys[0]) · msg) hp] at hv
  have hinv : CtxInv stubHash blameCtx := (Reachable.new blameCtx_new).inv
  have h1 := ((verifyPartialAdaptor_eq_ok hinv).1 hv).2
  rw [← partialSigValue_smul] at h1
  refine blame_values_ne blameKeys[0] msg (smul_left_cancel Gpt.2 ?_)
  exact h1.symm

/-- **C141**. Why this is no accident of the hash function in `C141_honest_signer_blamed`: if two views have final nonces
with different x-coordinates, the honest signature made in the one passes in the other with a chance of at most
`2 / 2^256` over the answer of the hash function to the challenge of the other. The signer's coefficient must not be zero. -/
theorem C141_other_view_rejects (H : Hash) (ctx : KeyAggContext) (hc : Reachable H ctx) (sk : Scalar) (a : MaybeScalar)
    (ha : (ctx.keyCoefficient (mulG sk) : Res Unit _) = .ok (some a)) (ha0 : a ≠ 0) (sn : SecNonce) (an an' : AggNonce)
    (T : MaybePoint) (msg : Bytes) :
    let R := an.finalNonce (an.nonceCoefficient H ctx.aggregatedPubkey msg)
    let R' := an'.finalNonce (an'.nonceCoefficient H ctx.aggregatedPubkey msg)
    let H' := fun h => H.answering (Spec.challengeQuery (Spec.xbytes (R'.1 + T)) ctx.aggregatedPubkey msg) h
    Spec.xbytes (R.1 + T) ≠ Spec.xbytes (R'.1 + T) →
    Spec.prob (fun h => ∃ s, signPartialAdaptor (H' h) ctx sk sn an T msg = .ok s ∧
      verifyPartialAdaptor (H' h) ctx s an' T (mulG sk) sn.publicNonce msg = .ok ()) ≤ 2 / 2 ^ 256 := by
  intro R R' H' hx
  have hsame : ∀ h, signPartialAdaptor (H' h) ctx sk sn an T msg = signPartialAdaptor H ctx sk sn an T msg :=
    fun h => signPartialAdaptor_answering_other H ctx sk sn an T _ msg hx h
  simp only [hsame]
  cases hs : signPartialAdaptor H ctx sk sn an T msg with
  | ok s =>
    have := C106_partial_guess H ctx hc (mulG sk) a ha ha0 s an' T sn.publicNonce msg
    simpa only [Res.ok.injEq, exists_eq_left'] using this
  | err e => simp [Spec.prob]; positivity
  | panic => simp [Spec.prob]; positivity


/-- The first signer of the three above, and two aggregated nonces with the final nonces `G` and `2·G`. -/
example (msg : Bytes) : ∃ (H : Hash) (ctx : KeyAggContext) (sk : Scalar) (a : MaybeScalar) (an an' : AggNonce),
    Reachable H ctx ∧ (ctx.keyCoefficient (mulG sk) : Res Unit _) = .ok (some a) ∧ a ≠ 0 ∧
    Spec.xbytes ((an.finalNonce (an.nonceCoefficient H ctx.aggregatedPubkey msg)).1 + 0)
      ≠ Spec.xbytes ((an'.finalNonce (an'.nonceCoefficient H ctx.aggregatedPubkey msg)).1 + 0) := by
  have hr : Reachable stubHash blameCtx := .new blameCtx_new
  have hG : G ≠ 0 := Gpt.2
  have h1 : (1 : MaybeScalar) ≠ 0 := one_ne_zero
  have h3 : (3 : MaybeScalar) ≠ 0 := by
    exact_mod_cast natCast_scalar_ne_zero (k := 3) (by norm_num) (by norm_num)
  refine ⟨stubHash, blameCtx, blameKeys[0], 1, ⟨G, 0⟩, ⟨(2 : MaybeScalar) • G, 0⟩, hr, ?_, one_ne_zero, ?_⟩
  · have hm : mulG blameKeys[0] ∈ blameCtx.orderedPubkeys := List.mem_map_of_mem (f := mulG) (List.getElem_mem _)
    rw [hr.inv.keyCoefficient_eq, if_pos hm, stub_coeff]
  · rw [finalNonce_eq_of_ne (by simpa using hG), finalNonce_eq_of_ne (by
      simp only [smul_zero, add_zero]
      rw [Ne, smul_G_eq_zero]
      exact two_ne_zero_scalar)]
    simp only [smul_zero, add_zero, spec_xbytes]
    intro h
    rcases xonly_eq_iff.1 (Subtype.ext h) with h | h
    · have : (1 : MaybeScalar) • G = (2 : MaybeScalar) • G := by rw [one_smul]; exact h
      have := smul_left_cancel hG this
      exact h1 (by linear_combination -this)
    · have : (1 : MaybeScalar) • G = (-2 : MaybeScalar) • G := by rw [one_smul, neg_smul]; exact h
      have := smul_left_cancel hG this
      exact h3 (by linear_combination this)

end Verif
