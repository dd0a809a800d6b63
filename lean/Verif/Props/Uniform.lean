import Verif.Lemmas.Props.Uniform
import Verif.Lemmas.Props.NonceReuse
import Verif.Lemmas.Reachable

/-!
# Properties C105-C107: how likely, over one answer of the hash function

In each statement the hash function is fixed but for the answer to one byte string, which is drawn uniformly.
-/

namespace Verif

/-! ## C105 -/

/-- **C105**. For every set of scalars, the first secret nonce falls in the set about as often as a uniform one would:
the difference is less than `2 ^ -127`. -/
theorem C105_first_nonce_almost_uniform (H : Hash) (b : SecNonceBuilder) (S : Set Scalar) :
    |Spec.prob (fun h => (b.build (H.answering (Spec.nonceQuery H b 0) h)).k1 ∈ S) - Spec.share S| < 1 / 2 ^ 127 := by
  simp only [build_answering, if_true]
  exact prob_reduceOrOne S

/-- **C105**. The same holds for the second secret nonce. -/
theorem C105_second_nonce_almost_uniform (H : Hash) (b : SecNonceBuilder) (S : Set Scalar) :
    |Spec.prob (fun h => (b.build (H.answering (Spec.nonceQuery H b 1) h)).k2 ∈ S) - Spec.share S| < 1 / 2 ^ 127 := by
  simp only [build_answering, if_true]
  exact prob_reduceOrOne S

/-- **C105**. The two nonces come from different answers: changing the answer of one leaves the other as it is. -/
theorem C105_nonces_independent (H : Hash) (b : SecNonceBuilder) (h : Arr 32) :
    (b.build (H.answering (Spec.nonceQuery H b 1) h)).k1 = (b.build H).k1 ∧
      (b.build (H.answering (Spec.nonceQuery H b 0) h)).k2 = (b.build H).k2 := by
  have h1 : (1 : UInt8) ≠ 0 := by decide
  rw [build_answering, build_answering]
  simp only [if_neg h1, if_neg h1.symm, and_self]

/-- **C105**. The nonce of solo signing is almost uniform in the same sense. -/
theorem C105_solo_nonce_almost_uniform (H : Hash) (hH : TagsAgree H) (sk : Scalar) (msg : Bytes) (seed : Arr 32)
    (T : MaybePoint) (S : Set Scalar) :
    |Spec.prob (fun h => ∃ k ∈ S, (signSoloAdaptor (H.answering (Spec.soloNonceQuery H sk msg seed) h) sk msg seed T).R
        = k.1 • G) - Spec.share S| < 1 / 2 ^ 127 := by
  have key : ∀ h, (∃ k ∈ S, (signSoloAdaptor (H.answering (Spec.soloNonceQuery H sk msg seed) h) sk msg seed T).R
      = k.1 • G) ↔ SecNonceBuilder.reduceOrOne h ∈ S := by
    intro h
    rw [signSoloAdaptor_eq]
    simp only
    rw [soloNonce_answering hH]
    constructor
    · rintro ⟨k, hk, e⟩
      have : SecNonceBuilder.reduceOrOne h = k := Subtype.ext (smul_G_inj.1 e)
      rwa [this]
    · exact fun hk => ⟨_, hk, rfl⟩
  simp only [key]
  exact prob_reduceOrOne S

/-- The set of a single scalar: no nonce is likely. -/
example (H : Hash) (b : SecNonceBuilder) (k : Scalar) :
    Spec.prob (fun h => (b.build (H.answering (Spec.nonceQuery H b 0) h)).k1 = k) < 1 / 2 ^ 126 := by
  have h := C105_first_nonce_almost_uniform H b {k}
  simp only [Set.mem_singleton_iff] at h
  have hs : Spec.share {k} < 1 / 2 ^ 127 := by
    unfold Spec.share
    rw [Set.ncard_singleton]
    have h1 : 2 ^ 127 < orderN - 1 := by decide +kernel
    have h2 : (2 ^ 127 : ℚ) < ((orderN - 1 : ℕ) : ℚ) := by exact_mod_cast h1
    rw [Nat.cast_one]
    exact one_div_lt_one_div_of_lt (by positivity) h2
  have := (abs_lt.1 h).2
  have e : (1 : ℚ) / 2 ^ 126 = 1 / 2 ^ 127 + 1 / 2 ^ 127 := by norm_num
  linarith

/-! ## C106 -/

/-- **C106**. A signature fixed before its challenge is drawn passes for at most two of the `2 ^ 256` answers. -/
theorem C106_signature_guess (H : Hash) (P : Point) (sig : CompactSignature) (msg : Bytes) :
    Spec.prob (fun h => verifySingle (H.answering (Spec.challengeQuery sig.rx.1 P msg) h) P sig msg = .ok ())
      ≤ 2 / 2 ^ 256 := by
  refine prob_le_two fun h h' e e' => ?_
  rw [verifySingle_eq_ok, challenge_answering] at e e'
  obtain ⟨V, h1, h2, h3⟩ := e
  obtain ⟨V', h1', h2', h3'⟩ := e'
  have hV : V.1 = V'.1 := eq_of_xonly_isOdd (h3.trans h3'.symm) (h2.trans h2'.symm)
  rw [h1, hV] at h1'
  exact smul_left_cancel (toEvenY P).2 (add_left_cancel h1')

/-- **C106**. The same for an adaptor signature, which passes for at least one answer too. -/
theorem C106_adaptor_guess (H : Hash) (P : Point) (sig : AdaptorSignature) (msg : Bytes) (T : MaybePoint) :
    let p := Spec.prob fun h =>
      verifySingleAdaptor (H.answering (Spec.challengeQuery (Spec.xbytes (sig.R + T)) P msg) h) P sig msg T = .ok ()
    1 / 2 ^ 256 ≤ p ∧ p ≤ 2 / 2 ^ 256 := by
  intro p
  have key : ∀ h, verifySingleAdaptor (H.answering (Spec.challengeQuery (Spec.xbytes (sig.R + T)) P msg) h) P sig msg T
      = .ok () ↔ sig.s • G = negIf (isOdd (sig.R + T)) sig.R + reduceFrom h • (toEvenY P).1 := by
    intro h
    rw [verifySingleAdaptor_eq_ok, spec_xbytes, challenge_answering]
  constructor
  · refine le_prob_of_exists ?_
    obtain ⟨d, hd⟩ := mulG_surjective (toEvenY P)
    obtain ⟨r, hr⟩ := exists_dlog (sig.s • G - negIf (isOdd (sig.R + T)) sig.R)
    obtain ⟨h, hh⟩ := reduceFrom_surjective (r * d.1⁻¹)
    refine ⟨h, (key h).2 ?_⟩
    have hd' : (toEvenY P).1 = d.1 • G := by rw [← hd]; rfl
    rw [hh, hd', smul_smul, mul_assoc, inv_mul_cancel₀ d.2, mul_one, hr]
    abel
  · refine prob_le_two fun h h' e e' => ?_
    rw [key] at e e'
    rw [e] at e'
    exact smul_left_cancel (toEvenY P).2 (add_left_cancel e')

/-- **C106**. The same for a partial signature of a signer whose coefficient is not zero. -/
theorem C106_partial_guess (H : Hash) (ctx : KeyAggContext) (hc : Reachable H ctx) (P : Point) (a : MaybeScalar)
    (ha : (ctx.keyCoefficient P : Res Unit _) = .ok (some a)) (ha0 : a ≠ 0) (s : PartialSignature) (an : AggNonce)
    (T : MaybePoint) (pn : PubNonce) (msg : Bytes) :
    let R := an.finalNonce (an.nonceCoefficient H ctx.aggregatedPubkey msg)
    Spec.prob (fun h => verifyPartialAdaptor
      (H.answering (Spec.challengeQuery (Spec.xbytes (R.1 + T)) ctx.aggregatedPubkey msg) h) ctx s an T P pn msg = .ok ())
      ≤ 2 / 2 ^ 256 := by
  intro R
  have hi := hc.inv
  rw [hi.keyCoefficient_eq] at ha
  have hP : P ∈ ctx.orderedPubkeys := by
    by_contra hP
    rw [if_neg hP] at ha
    cases ha
  rw [if_pos hP] at ha
  have hca : coeffOf H ctx.orderedPubkeys P = a := by
    simpa using ha
  refine prob_le_two fun h h' e e' => ?_
  unfold verifyPartialAdaptor at e e'
  rw [hi.effectivePubkey_eq, if_pos hP, hca] at e e'
  simp only [Res.bind_ok, Res.okOr_some] at e e'
  have hb : ∀ h, an.nonceCoefficient (H.answering (Spec.challengeQuery (Spec.xbytes (R.1 + T)) ctx.aggregatedPubkey msg) h)
      ctx.pubkey msg = an.nonceCoefficient H ctx.aggregatedPubkey msg :=
    fun h => nonceCoefficient_answering_challenge H an ctx.pubkey msg _ _ h
  have hch : ∀ h, computeChallengeHashTweak
      (H.answering (Spec.challengeQuery (Spec.xbytes (R.1 + T)) ctx.aggregatedPubkey msg) h)
      (xonly (R.1 + T)) ctx.pubkey msg = reduceFrom h := by
    intro h
    rw [spec_xbytes]
    exact challenge_answering H _ ctx.pubkey msg h
  rw [hb] at e e'
  rw [show an.finalNonce (an.nonceCoefficient H ctx.aggregatedPubkey msg) = R from rfl, hch] at e e'
  have ite_ok : ∀ {c : Prop} [Decidable c], (if ¬ c then Res.err VerifyError.badSignature else Res.ok ()) = .ok () → c := by
    intro c _ hc
    by_contra hn
    rw [if_pos hn] at hc
    cases hc
  have e1 := ite_ok e
  have e2 := ite_ok e'
  rw [e1] at e2
  have e3 := add_left_cancel e2
  have e4 : reduceFrom h • a • P.1 = reduceFrom h' • a • P.1 := by
    have := congrArg (negIf (isOdd ctx.pubkey.1 ^^ ctx.parityAcc)) e3
    simpa only [negIf_negIf, Bool.xor_self, negIf_false] using this
  refine smul_left_cancel (fun h0 => ?_) e4
  exact (smul_eq_zero_iff.1 h0).elim ha0 P.2

/-- A signer with the coefficient one. -/
example : ∃ (H : Hash) (ctx : KeyAggContext) (P : Point) (a : MaybeScalar), Reachable H ctx ∧
    (ctx.keyCoefficient P : Res Unit _) = .ok (some a) ∧ a ≠ 0 :=
  ⟨_, _, _, _, lastCtx_reachable, last_keyCoefficient, one_ne_zero⟩

/-! ## C107 -/

/-- **C107**. Whatever the other keys, the coefficient of one key that is not the second one makes the aggregate key
hit a given point for at most two of the answers; and for at most two there is no aggregate key. -/
theorem C107_aggregate_key_target (H : Hash) (keys : List Point) (P : Point) (hm : P ∈ keys)
    (hl : keys.length ≤ 4294967295) (h2 : Spec.get_second_key (keys.map fun K => Spec.cbytes K.1) ≠ Spec.cbytes P.1) :
    (∀ Q : Point, Spec.prob (fun h => ∃ ctx, KeyAggContext.new (H.answering (Spec.coeffQuery H keys P) h) keys = .ok ctx ∧
      ctx.aggregatedPubkey = Q) ≤ 2 / 2 ^ 256) ∧
    Spec.prob (fun h => KeyAggContext.new (H.answering (Spec.coeffQuery H keys P) h) keys = .err .keyAggError)
      ≤ 2 / 2 ^ 256 := by
  have h2' := secondKey_of_spec h2
  have hne : keys ≠ [] := List.ne_nil_of_mem hm
  constructor
  · intro Q
    refine prob_le_two fun h h' e e' => ?_
    obtain ⟨c, e, hc⟩ := e
    obtain ⟨c', e', hc'⟩ := e'
    obtain ⟨-, -, Q1, s1, rfl⟩ := new_eq_ok.1 e
    obtain ⟨-, -, Q2, s2, rfl⟩ := new_eq_ok.1 e'
    have hc1 : Q1 = Q := hc
    have hc2 : Q2 = Q := hc'
    subst hc1
    subst hc2
    exact keySum_answering_inj H keys P hm hl h2' h h' (s1.trans s2.symm)
  · have key : ∀ H' : Hash, KeyAggContext.new H' keys = .err .keyAggError → keySum H' keys = 0 := by
      intro H' e
      rw [new_eq] at e
      split at e
      · cases e
      · split at e
        · rename_i h0
          exact notInf_eq_none.1 h0
        · cases e
    refine prob_le_two fun h h' e e' => ?_
    exact keySum_answering_inj H keys P hm hl h2' h h' ((key _ e).trans (key _ e').symm)

/-- Of two different keys, the first one is not the second one. -/
example (P Q : Point) (h : P ≠ Q) : P ∈ [P, Q] ∧
    Spec.get_second_key ([P, Q].map fun K => Spec.cbytes K.1) ≠ Spec.cbytes P.1 := by
  refine ⟨by simp, ?_⟩
  have hne : Spec.cbytes Q.1 ≠ Spec.cbytes P.1 := by
    rw [spec_cbytes_point, spec_cbytes_point]
    exact fun e => h (serPoint_point_inj.1 e).symm
  simp [Spec.get_second_key, hne]

/-- **C107**. A taproot tweak hits a given key for at most one answer. -/
theorem C107_taproot_target (H : Hash) (ctx : KeyAggContext) (root : Arr 32) (Q : Point) :
    Spec.prob (fun h => ∃ ctx', ctx.withTaprootTweak (H.answering (Spec.taptweakQuery ctx.aggregatedPubkey root.1) h) root
      = .ok ctx' ∧ ctx'.aggregatedPubkey = Q) ≤ 1 / 2 ^ 256 := by
  have key : ∀ h ctx', ctx.withTaprootTweak (H.answering (Spec.taptweakQuery ctx.aggregatedPubkey root.1) h) root
      = .ok ctx' → ∃ k : Scalar, parseScalar h.1 = some k ∧
        ctx'.aggregatedPubkey.1 = negIf (isOdd ctx.pubkey.1) ctx.pubkey.1 + k.1 • G := by
    intro h ctx' e
    unfold KeyAggContext.withTaprootTweak KeyAggContext.withTaprootTweakInternal at e
    simp only [Res.bind_eq_ok, Res.okOr_eq_ok] at e
    obtain ⟨k, hk, e⟩ := e
    have hq : tagHash (H.answering (Spec.taptweakQuery ctx.aggregatedPubkey root.1) h) TAPROOT_TWEAK_TAG_DIGEST
        ((xonly ctx.pubkey.1).1 ++ root.1) = h := by
      unfold tagHash Spec.taptweakQuery
      rw [taggedInput_eq (D := TAPROOT_TWEAK_TAG_DIGEST) (by simp [tagTable]), spec_xbytes]
      exact Hash.answering_same _ _ _
    rw [hq] at hk
    obtain ⟨Q', hQ', rfl⟩ := withXonlyTweak_eq_ok.1 e
    exact ⟨k, hk, hQ'.symm⟩
  refine prob_le_one fun h h' e e' => ?_
  obtain ⟨c, e, hc⟩ := e
  obtain ⟨c', e', hc'⟩ := e'
  obtain ⟨k, hk, hQ⟩ := key h c e
  obtain ⟨k', hk', hQ'⟩ := key h' c' e'
  rw [hc] at hQ
  rw [hc', hQ] at hQ'
  have hkk : k = k' := Subtype.ext (smul_G_inj.1 (add_left_cancel hQ'))
  subst hkk
  rw [parseScalar_eq_some] at hk hk'
  exact Subtype.ext (hk.trans hk'.symm)

/-- **C107**. If the second half of the aggregate nonce is not the point at infinity, the final nonce hits a given point
for at most four answers (two for any point but the generator, which stands in for the point at infinity). -/
theorem C107_final_nonce_target (H : Hash) (an : AggNonce) (h2 : an.R2 ≠ 0) (Q R : Point) (msg : Bytes) :
    let p := Spec.prob fun h => an.finalNonce (an.nonceCoefficient (H.answering (Spec.noncecoefQuery an Q msg) h) Q msg) = R
    (R ≠ Gpt → p ≤ 2 / 2 ^ 256) ∧ p ≤ 4 / 2 ^ 256 := by
  intro p
  have inj : ∀ h h' : Arr 32, an.R1 + reduceFrom h • an.R2 = an.R1 + reduceFrom h' • an.R2 → reduceFrom h = reduceFrom h' :=
    fun h h' e => smul_left_cancel h2 (add_left_cancel e)
  have key : ∀ h, an.finalNonce (an.nonceCoefficient (H.answering (Spec.noncecoefQuery an Q msg) h) Q msg) = R →
      an.R1 + reduceFrom h • an.R2 = R.1 ∨ (an.R1 + reduceFrom h • an.R2 = 0 ∧ R = Gpt) := by
    intro h e
    rw [nonceCoefficient_answering] at e
    unfold AggNonce.finalNonce at e
    split at e
    · rename_i h0
      exact .inr ⟨notInf_eq_none.1 h0, e.symm⟩
    · rename_i V hV
      subst e
      exact .inl (notInf_eq_some.1 hV)
  constructor
  · intro hR
    refine prob_le_two fun h h' e e' => inj h h' ?_
    rw [(key h e).resolve_right fun x => hR x.2, (key h' e').resolve_right fun x => hR x.2]
  · refine (prob_mono (fun h e => (key h e).imp_right (·.1))).trans ((prob_or_le _ _).trans ?_)
    have e1 : Spec.prob (fun h => an.R1 + reduceFrom h • an.R2 = R.1) ≤ 2 / 2 ^ 256 :=
      prob_le_two fun h h' e e' => inj h h' (e.trans e'.symm)
    have e2 : Spec.prob (fun h => an.R1 + reduceFrom h • an.R2 = 0) ≤ 2 / 2 ^ 256 :=
      prob_le_two fun h h' e e' => inj h h' (e.trans e'.symm)
    have : (4 : ℚ) / 2 ^ 256 = 2 / 2 ^ 256 + 2 / 2 ^ 256 := by norm_num
    linarith

/-- An aggregate nonce whose second half is the generator. -/
example : (⟨0, G⟩ : AggNonce).R2 ≠ 0 := Gpt.2

end Verif
