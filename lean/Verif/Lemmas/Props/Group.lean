import Verif.Spec.Claims
import Verif.Props.Solo
import Verif.Props.KeyAgg

/-!
# Lemmas and example data for `Props/Group`
-/

namespace Verif

/-- Aggregation succeeds for a list of scalars exactly if their sum is that of a list for which it succeeds. -/
theorem aggregateAdaptor_sum_iff {H : Hash} {ctx : KeyAggContext} {an : AggNonce} {T : MaybePoint}
    {good sigs : List PartialSignature} {msg : Bytes} {sig : AdaptorSignature}
    (h : aggregatePartialAdaptorSignatures H ctx an T good msg = .ok sig) :
    ((∃ sig', aggregatePartialAdaptorSignatures H ctx an T sigs msg = .ok sig') ↔ sigs.sum = good.sum) ∧
    (sigs.sum = good.sum → aggregatePartialAdaptorSignatures H ctx an T sigs msg = .ok sig) := by
  have hback : sigs.sum = good.sum → aggregatePartialAdaptorSignatures H ctx an T sigs msg = .ok sig := by
    intro hs
    have : aggValue H ctx an T sigs msg = aggValue H ctx an T good msg := by unfold aggValue; rw [hs]
    rw [← h, aggregateAdaptor_eq, aggregateAdaptor_eq, this]
  refine ⟨⟨?_, fun hs => ⟨sig, hback hs⟩⟩, hback⟩
  rintro ⟨sig', h'⟩
  obtain ⟨rfl, hv⟩ := aggregateAdaptor_eq_ok.1 h
  obtain ⟨rfl, hv'⟩ := aggregateAdaptor_eq_ok.1 h'
  have := (C73_unique_adaptor_scalar H ctx.pubkey (sessionR H ctx an msg).1 T msg).unique hv hv'
  unfold aggValue at this
  exact (add_right_cancel this).symm

theorem encryptAll_eq (sig : AdaptorSignature) (ts : List Scalar) :
    encryptAll sig ts = ⟨sig.R - (ts.map (·.1)).sum • G, sig.s - (ts.map (·.1)).sum⟩ := by
  unfold encryptAll
  induction ts generalizing sig with
  | nil => simp
  | cons t ts ih =>
    rw [List.foldl_cons, ih]
    unfold AdaptorSignature.encrypt
    simp only [List.map_cons, List.sum_cons]
    congr 1
    · rw [add_smul]; abel
    · ring

/-- Every context with the keys `1` and `2` under `stubHash` belongs to an honest group. -/
theorem stub_group (ctx : KeyAggContext) (hc : Reachable stubHash ctx) (hk : ctx.pubkeys = stubKeys.map mulG) :
    ∃ g : HonestGroup stubHash, g.ctx = ctx ∧ g.sks = stubKeys ∧ ∀ msg, g.sessionNonce msg ≠ 0 := by
  have hex : ∀ i : ℕ, ∃ r, i < stubKeys.length →
      FirstRound.new stubHash ctx zeroSeed i SecNonceSpices.new = .ok r := by
    intro i
    by_cases hi : i < stubKeys.length
    · obtain ⟨r, hr⟩ := new_ok (H := stubHash) (ctx := ctx) zeroSeed (i := i) (by rw [hk]; simpa using hi)
        SecNonceSpices.new (by decide)
      exact ⟨r, fun _ => hr⟩
    · exact ⟨⟨ctx, 0, ⟨scalarOne, scalarOne⟩, Slots.new 0⟩, fun h => absurd h hi⟩
  choose rounds hr using hex
  have hnonce : ∀ i, i < stubKeys.length → (rounds i).ourPublicNonce = ⟨Gpt, Gpt⟩ := by
    intro i hi
    obtain ⟨P, b, -, -, he⟩ := FirstRound.new_eq_ok.1 (hr i hi)
    rw [he]
    have hone : ∀ m, SecNonceBuilder.reduceOrOne (tagHash stubHash MUSIG_NONCE_TAG_DIGEST m) = scalarOne := by
      intro m
      unfold SecNonceBuilder.reduceOrOne
      have h1 : notZero (reduceFrom (tagHash stubHash MUSIG_NONCE_TAG_DIGEST m)) = some scalarOne :=
        notZero_eq_some.2 (stubHash_tagHash MUSIG_NONCE_TAG_DIGEST (by decide) m)
      rw [h1]
    unfold FirstRound.ourPublicNonce SecNonceBuilder.build SecNonce.publicNonce
    simp only [hone]
    rw [show mulG scalarOne = Gpt from Subtype.ext (one_smul _ _)]
  refine ⟨⟨ctx, hc, stubKeys, hk, fun _ => zeroSeed, fun _ => SecNonceSpices.new, rounds, hr⟩, rfl, rfl, fun msg => ?_⟩
  unfold HonestGroup.sessionNonce
  have hb : ∀ an : AggNonce, an.nonceCoefficient stubHash ctx.aggregatedPubkey msg = 1 :=
    fun an => stubHash_tagHash _ (by decide) _
  rw [hb, one_smul]
  have hn : HonestGroup.nonces ⟨ctx, hc, stubKeys, hk, fun _ => zeroSeed, fun _ => SecNonceSpices.new, rounds, hr⟩
      = [⟨Gpt, Gpt⟩, ⟨Gpt, Gpt⟩] := by
    unfold HonestGroup.nonces
    change [(rounds 0).ourPublicNonce, (rounds 1).ourPublicNonce] = _
    rw [hnonce 0 (by decide), hnonce 1 (by decide)]
  rw [hn, AggNonce.sum_eq]
  simp only [List.map_cons, List.map_nil, List.sum_cons, List.sum_nil, add_zero]
  change G + G + (G + G) ≠ 0
  have : G + G + (G + G) = (4 : MaybeScalar) • G := by
    have h4 : (4 : MaybeScalar) = 1 + 1 + (1 + 1) := by norm_num
    rw [h4, add_smul, add_smul, one_smul]
  rw [this, Ne, smul_G_eq_zero]
  exact_mod_cast natCast_scalar_ne_zero (k := 4) (by norm_num) (by norm_num)

end Verif
