import Verif.Lemmas.Props.Calls
import Verif.Props.Rounds

/-!
# Property C101: a session signs at most once
-/

namespace Verif

/-- **C101**. Take a signing session in its first round, and any sequence of method calls on it with any arguments,
successful or not. All partial signatures which these calls return are equal, and come from a single signing operation:
one secret key, one aggregated nonce, one adaptor point and one message. -/
theorem C101_session_signs_once (H : Hash) (r : FirstRound) (hr : FirstRound.Reachable H r) (calls : List SessionCall) :
    (Owned.first r).signatures H calls = [] ∨
    ∃ sk T msg an sig, signPartialAdaptor H r.keyAggCtx sk r.secnonce an T msg = .ok sig ∧
      ∀ s ∈ (Owned.first r).signatures H calls, s = sig :=
  oneSigning_first calls hr

/-- A session which receives a nonce, finalizes its first round, and asks for its signature twice. -/
example (n : PubNonce) (msg : Bytes) : ∃ r s, FirstRound.Reachable sha256 r ∧ (Owned.first r).signatures sha256
    [.receiveNonce 1 n, .finalize scalarOne msg, .ourSignature, .finalize skMinusOne msg, .ourSignature] = [s, s] := by
  obtain ⟨r, r2, hr, -, h2⟩ := second_round_exists n 0 msg scalarOne mulG_one_mem
  have h2' : (r.receiveNonce 1 n).1.finalize sha256 scalarOne msg = .ok r2 := h2
  have hr' := FirstRound.Reachable.new exCtx_reachable hr
  obtain ⟨s, -, h3⟩ := SecondRound.ourSignature_eq (SecondRound.inv_finalize (hr'.receive 1 n).inv h2') Unit
  refine ⟨r, s, hr', ?_⟩
  simp only [Owned.signatures, Owned.call, h2', ownSecond, h3, Res.toList, List.nil_append, List.append_nil,
    List.singleton_append]

/-- **C101**, which signing operation. Nothing is returned while nonces are being received. The first call that signs, if it
succeeds, uses its own arguments and the nonces received before; no later call makes another signature. -/
theorem C101_first_signing_call (H : Hash) (ctx : KeyAggContext) (hc : Reachable H ctx) (seed : Arr 32) (i : ℕ)
    (spices : SecNonceSpices) (r : FirstRound) (h : FirstRound.new H ctx seed i spices = .ok r)
    (nonces : List (ℕ × PubNonce)) (calls : List SessionCall) (sk : Scalar) (T : MaybePoint) (msg : Bytes)
    (an : AggNonce) :
    let receive := nonces.map fun c => SessionCall.receiveNonce c.1 c.2
    (Owned.first r).signatures H receive = [] ∧
    (Owned.first r).signatures H (receive ++ .signForAggregatorAdaptor sk T msg an :: calls)
      = (signPartialAdaptor H ctx sk r.secnonce an T msg).toList ∧
    (Owned.first r).signatures H (receive ++ .signForAggregator sk msg an :: calls)
      = (signPartialAdaptor H ctx sk r.secnonce an 0 msg).toList ∧
    ∀ s ∈ (Owned.first r).signatures H (receive ++ .finalizeAdaptor sk T msg :: calls),
      ∃ ns, ns.length = ctx.pubkeys.length ∧
        (∀ j < ctx.pubkeys.length, ns[j]? = Spec.nonceFor i r.ourPublicNonce nonces j) ∧
        signPartialAdaptor H ctx sk r.secnonce (AggNonce.sum ns) T msg = .ok s := by
  intro receive
  have hk : (r.run nonces).1.keyAggCtx = ctx := (run_ctx r nonces).1.trans (new_fields h).1
  have hs : (r.run nonces).1.secnonce = r.secnonce := by rw [FirstRound.run_eq]
  refine ⟨?_, ?_, ?_, ?_⟩
  · have := signatures_receive (H := H) [] nonces r
    rw [List.append_nil] at this
    exact this
  · rw [signatures_receive]
    simp only [Owned.signatures, Owned.call, signatures_nothing, List.append_nil]
    unfold FirstRound.signForAggregatorAdaptor
    rw [hk, hs]
  · rw [signatures_receive]
    simp only [Owned.signatures, Owned.call, signatures_nothing, List.append_nil]
    unfold FirstRound.signForAggregator signPartial
    rw [hk, hs]
  · intro s hmem
    rw [signatures_receive] at hmem
    simp only [Owned.signatures, Owned.call, List.nil_append] at hmem
    have hreach : (r.run nonces).1.Reachable H := FirstRound.Reachable.run nonces (FirstRound.Reachable.new hc h)
    obtain ⟨c1, c2, c3⟩ := C57_first_round_finalize H ctx hc seed i spices r h nonces sk T msg
    by_cases hcomp : (r.run nonces).1.isComplete = true
    · by_cases hm : mulG sk ∈ ctx.pubkeys
      · obtain ⟨r2, ns, s', hf, h1, h2, -, -, h3, h4⟩ := c3 hcomp hm
        rw [hf] at hmem
        have hr2 := SecondRound.Reachable.finalize hreach hf
        obtain ⟨s'', h5, h6⟩ := SecondRound.ourSignature_eq hr2.inv Unit
        rw [h4] at h6
        cases h6
        rw [signatures_second calls hr2 s' h5 s hmem]
        exact ⟨ns, h1, h2, h3⟩
      · rw [c2.2 ⟨hcomp, hm⟩] at hmem
        simp [ownSecond, signatures_nothing] at hmem
    · rw [c1.2 (by simpa using hcomp)] at hmem
      simp [ownSecond, signatures_nothing] at hmem

/-- The session of the example above. -/
example : ∃ r, FirstRound.new sha256 exCtx zeroSeed 0 SecNonceSpices.new = .ok r :=
  new_ok (H := sha256) (ctx := exCtx) zeroSeed (i := 0) (by decide) SecNonceSpices.new (by decide)

end Verif
