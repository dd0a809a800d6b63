import Verif.Lemmas.Props.SessionForger
import Verif.Lemmas.Props.NonceReuse
import Verif.Props.Forger

/-!
# Property C113: taking part in a session does not help to forge
-/

namespace Verif

open Asking (DrawnNonce State)
open Forger (Drawn)
open SessionForger

/-- **C113**. Let a forger that asks for at most `q` challenges and `c` nonce coefficients take part in one session with a
member of the group, and submit with probability `acc` a signature of another message that `verify_single` accepts for the
aggregated key. Then two runs without the signer suffice to compute the discrete logarithm of the aggregated key, with the
probability of the forking lemma for `acc (n - 1) / (2 n (c + 1) (q + 2))`. -/
theorem C113_session_forger_reveals_group_key (H : Hash) (ctx : KeyAggContext) (hc : Reachable H ctx) (sk : Scalar)
    (a : MaybeScalar) (ha : (ctx.keyCoefficient (mulG sk) : Res Unit _) = .ok (some a)) (A : SessionForger) (q c : ℕ)
    (hA : A.AsksAtMost q c) :
    let acc := Spec.chance fun p : SecNonce × (Fin (c + 1) → Arr 32) × (Fin (q + 2) → Arr 32) => A.Forges H ctx sk p
    Spec.forked (q + 2) (acc * ((orderN - 1 : ℕ) / (2 * orderN * ((c + 1) * (q + 2)))))
      ≤ Spec.chance fun x : Guess (q + 2) (c + 1) × (Fin (q + 2) → Arr 32) × (Fin (q + 2) → Arr 32) =>
        (simulator ctx (mulG sk) a A x.1).extract H ctx.aggregatedPubkey x.2.1 x.2.2 • G = ctx.aggregatedPubkey.1 := by
  have hi := hc.inv
  rw [hi.keyCoefficient_eq] at ha
  have hP : mulG sk ∈ ctx.orderedPubkeys := by
    by_contra hP
    rw [if_neg hP] at ha
    cases ha
  rw [if_pos hP] at ha
  have hca : coeffOf H ctx.orderedPubkeys (mulG sk) = a := by simpa using ha
  subst hca
  exact session_fork hi hP hA

/-- **C113**. If the other keys of the group are made from `G` and the signer's key `P` (the other members know the `α K`),
the signer's secret key is obtained likewise, unless the `β K`, weighted with the coefficients, cancel. -/
theorem C113_session_forger_reveals_key (H : Hash) (hH : TagsAgree H) (ctx : KeyAggContext) (hc : Reachable H ctx)
    (sk : Scalar) (a : MaybeScalar) (ha : (ctx.keyCoefficient (mulG sk) : Res Unit _) = .ok (some a))
    (α β : Point → MaybeScalar) (hrep : ∀ K ∈ ctx.pubkeys, K.1 = α K • G + β K • (mulG sk).1)
    (hB : Spec.weighted H ctx.pubkeys β ≠ 0) (A : SessionForger) (q c : ℕ) (hA : A.AsksAtMost q c) :
    let acc := Spec.chance fun p : SecNonce × (Fin (c + 1) → Arr 32) × (Fin (q + 2) → Arr 32) => A.Forges H ctx sk p
    let g : MaybeScalar := if ctx.parityAcc then -1 else 1
    Spec.forked (q + 2) (acc * ((orderN - 1 : ℕ) / (2 * orderN * ((c + 1) * (q + 2)))))
      ≤ Spec.chance fun x : Guess (q + 2) (c + 1) × (Fin (q + 2) → Arr 32) × (Fin (q + 2) → Arr 32) =>
        (g * ((simulator ctx (mulG sk) a A x.1).extract H ctx.aggregatedPubkey x.2.1 x.2.2 - ctx.tweakAcc)
          - Spec.weighted H ctx.pubkeys α) / Spec.weighted H ctx.pubkeys β = sk.1 := by
  intro acc g
  refine (C113_session_forger_reveals_group_key H ctx hc sk a ha A q c hA).trans (le_of_eq ?_)
  congr 1
  funext x
  have := (C99_rogue_keys H hH ctx hc (mulG sk) α β hrep).2 hB
    ((simulator ctx (mulG sk) a A x.1).extract H ctx.aggregatedPubkey x.2.1 x.2.2) _ rfl
  refine propext (eq_comm.trans (this.trans (eq_comm.trans ?_)))
  rw [mulG_val, smul_G_inj]

/-- A group of the generator and a signer whose secret key is `-1`. -/
example : ∃ (ctx : KeyAggContext) (sk : Scalar) (a : MaybeScalar) (α β : Point → MaybeScalar), Reachable sha256 ctx ∧
    sk.1 = -1 ∧ (ctx.keyCoefficient (mulG sk) : Res Unit _) = .ok (some a) ∧
    (∀ K ∈ ctx.pubkeys, K.1 = α K • G + β K • (mulG sk).1) ∧ Spec.weighted sha256 ctx.pubkeys β ≠ 0 := by
  have hk : exCtx.pubkeys = [Gpt, negGpt] := by
    obtain ⟨-, -, Q, -, h⟩ := new_eq_ok.1 exCtx_new
    rw [h]
    rfl
  have hsk : mulG (⟨-1, neg_ne_zero.2 one_ne_zero⟩ : Scalar) = negGpt := by
    apply Subtype.ext
    rw [mulG_val, neg_smul, one_smul]
    rfl
  refine ⟨exCtx, ⟨-1, neg_ne_zero.2 one_ne_zero⟩, coeffOf sha256 exCtx.orderedPubkeys negGpt, fun K => if K = negGpt then 0 else 1,
    fun K => if K = negGpt then 1 else 0, exCtx_reachable, rfl, ?_, ?_, ?_⟩
  · rw [hsk, exCtx_reachable.inv.keyCoefficient_eq, if_pos]
    change negGpt ∈ exCtx.pubkeys
    rw [hk]
    simp
  · rw [hk, hsk]
    intro K hK
    simp only [List.mem_cons, List.not_mem_nil, or_false] at hK
    rcases hK with rfl | rfl
    · simp only [if_neg negGpt_ne.symm, one_smul, zero_smul, add_zero]
      rfl
    · simp
  · rw [hk]
    unfold Spec.weighted
    simp only [List.map_cons, List.map_nil, List.sum_cons, List.sum_nil, if_neg negGpt_ne.symm, if_true, mul_zero, mul_one,
      add_zero, zero_add]
    rw [keyCoeff_eq sha256_tagsAgree]
    have h2 : secondKey [Gpt, negGpt] = some negGpt := by
      change ([negGpt].find? fun pubkey => decide (pubkey ≠ Gpt)) = some negGpt
      simp [negGpt_ne]
    unfold coeffOf computeKeyAggregationCoefficient
    rw [if_pos h2]
    exact one_ne_zero

/-- **C113**. The partial signature in the game is that of `sign_partial` with any hash function that answers as the game
does: only one nonce coefficient and one challenge matter, and they are those asked for. -/
theorem C113_session_is_signed (H H' : Hash) (ctx : KeyAggContext) (hc : Reachable H ctx) (sk : Scalar) (a : MaybeScalar)
    (ha : (ctx.keyCoefficient (mulG sk) : Res Unit _) = .ok (some a)) (sn : SecNonce) (r : Spec.Reply)
    (hH : ∀ x, ¬ Drawn x → ¬ DrawnNonce x → H' x = H x) :
    let hb := H' (Spec.noncecoefQuery r.aggnonce ctx.aggregatedPubkey r.message)
    let he := H' (Spec.challengeQuery (Spec.xbytes (r.nonce hb)) ctx.aggregatedPubkey r.message)
    signPartialAdaptor H' ctx sk sn r.aggnonce r.adaptorPoint r.message = .ok (partialSignature H ctx sk sn r hb he) := by
  intro hb he
  have hi := hc.inv
  rw [hi.keyCoefficient_eq] at ha
  have hP : mulG sk ∈ ctx.orderedPubkeys := by
    by_contra hP
    rw [if_neg hP] at ha
    cases ha
  have hi' := ctxInv_congr hH hi
  have hcoef : coeffOf H' ctx.orderedPubkeys (mulG sk) = coeffOf H ctx.orderedPubkeys (mulG sk) := by
    rw [← coeffOf_sessionHash H' zeroSeed zeroSeed, sessionHash_congr hH, coeffOf_sessionHash]
  rw [partialSignature_eq hi hP, signPartialAdaptor_eq hi', if_pos hP]
  unfold partialSigValue sessionE sessionRT sessionR
  have hb' : r.aggnonce.nonceCoefficient H' ctx.pubkey r.message = reduceFrom hb := (C66_what_is_hashed _).2.2.1 _ _ _
  have he' : computeChallengeHashTweak H' (xonly (r.nonce hb)) ctx.pubkey r.message = reduceFrom he := by
    rw [(C66_what_is_hashed _).2.2.2.1, ← spec_xbytes]
    rfl
  rw [hb', ← reply_nonce, he', hcoef]
  rfl

/-- A forger that knows the discrete logarithm of the aggregated key, takes part in a session all the same, and always
wins. -/
example : ∃ A : SessionForger, A.AsksAtMost 1 0 ∧
    (lastCtx.keyCoefficient (mulG ⟨2, two_ne_zero_scalar⟩) : Res Unit _) = .ok (some 1) ∧
    ∀ p : SecNonce × (Fin 1 → Arr 32) × (Fin 3 → Arr 32), A.Forges lastByteHash lastCtx ⟨2, two_ne_zero_scalar⟩ p := by
  obtain ⟨d, hd⟩ := exists_dlog lastCtx.aggregatedPubkey.1
  exact ⟨exSession lastCtx.aggregatedPubkey d, exSession_asks _ _, last_keyCoefficient,
    fun p => exSession_wins _ _ d hd _ _ _ _⟩

end Verif
