import Verif.Lemmas.Props.NonceReuse
import Verif.Props.Sessions

/-!
# Property C64: nonce reuse
-/

namespace Verif

/-- **C64**, two signatures. Two partial signatures with one secret nonce, in sessions with the same coefficient `b`
and different signed challenges, determine the secret key. -/
theorem C64_two_signatures_reveal (H : Hash) (hH : TagsAgree H) (ctx : KeyAggContext) (hc : Reachable H ctx) (sk : Scalar)
    (sn : SecNonce) (an an' : AggNonce) (T T' : MaybePoint) (msg msg' : Bytes) (s s' a : MaybeScalar)
    (hs : signPartialAdaptor H ctx sk sn an T msg = .ok s)
    (hs' : signPartialAdaptor H ctx sk sn an' T' msg' = .ok s')
    (ha : (ctx.keyCoefficient (mulG sk) : Res Unit _) = .ok (some a)) (ha0 : a ≠ 0)
    (hb : (Spec.observe H ctx.aggregatedPubkey an T msg).b = (Spec.observe H ctx.aggregatedPubkey an' T' msg').b)
    (he : (Spec.observe H ctx.aggregatedPubkey an T msg).e ≠ (Spec.observe H ctx.aggregatedPubkey an' T' msg').e) :
    let o := Spec.observe H ctx.aggregatedPubkey an T msg
    let o' := Spec.observe H ctx.aggregatedPubkey an' T' msg'
    sk.1 = Spec.keySign ctx * ((o.sign * s - o'.sign * s') / (a * (o.e - o'.e))) := by
  intro o o'
  have h1 := observed_signature hH hc hs ha
  have h2 := observed_signature hH hc hs' ha
  simp only at h1 h2
  have key : Spec.keySign ctx * sk.1 = (o.sign * s - o'.sign * s') / (a * (o.e - o'.e)) := by
    rw [eq_div_iff (mul_ne_zero ha0 (sub_ne_zero.2 he)), h1, h2, hb]
    ring
  rw [← key, ← mul_assoc, keySign_mul_self, one_mul]

/-- **C64**, three signatures. Three partial signatures with one secret nonce determine the secret key, by the formula of
`nonce_reuse_demo`, when its denominator is not zero. -/
theorem C64_three_signatures_reveal (H : Hash) (hH : TagsAgree H) (ctx : KeyAggContext) (hc : Reachable H ctx)
    (sk : Scalar) (sn : SecNonce) (an an' an'' : AggNonce) (T T' T'' : MaybePoint) (msg msg' msg'' : Bytes)
    (s s' s'' a : MaybeScalar)
    (hs : signPartialAdaptor H ctx sk sn an T msg = .ok s)
    (hs' : signPartialAdaptor H ctx sk sn an' T' msg' = .ok s')
    (hs'' : signPartialAdaptor H ctx sk sn an'' T'' msg'' = .ok s'')
    (ha : (ctx.keyCoefficient (mulG sk) : Res Unit _) = .ok (some a)) :
    let o := Spec.observe H ctx.aggregatedPubkey an T msg
    let o' := Spec.observe H ctx.aggregatedPubkey an' T' msg'
    let o'' := Spec.observe H ctx.aggregatedPubkey an'' T'' msg''
    a * ((o''.e - o.e) * (o'.b - o.b) + (o.e - o'.e) * (o''.b - o.b)) ≠ 0 →
    sk.1 = Spec.keySign ctx * (((o''.sign * s'' - o.sign * s) * (o'.b - o.b) - (o'.sign * s' - o.sign * s) * (o''.b - o.b))
        / (a * ((o''.e - o.e) * (o'.b - o.b) + (o.e - o'.e) * (o''.b - o.b)))) := by
  intro o o' o'' hne
  have h1 := observed_signature hH hc hs ha
  have h2 := observed_signature hH hc hs' ha
  have h3 := observed_signature hH hc hs'' ha
  simp only at h1 h2 h3
  have key : Spec.keySign ctx * sk.1 = ((o''.sign * s'' - o.sign * s) * (o'.b - o.b)
      - (o'.sign * s' - o.sign * s) * (o''.b - o.b)) / (a * ((o''.e - o.e) * (o'.b - o.b) + (o.e - o'.e) * (o''.b - o.b))) := by
    rw [eq_div_iff hne, h1, h2, h3]
    ring
  rw [← key, ← mul_assoc, keySign_mul_self, one_mul]

/-- **C64**, converse. One partial signature, in a session with `b ≠ 0`, could have been made with any member's secret
key: for each there is a secret nonce that gives the same partial signature. -/
theorem C64_one_signature_hides (H : Hash) (ctx : KeyAggContext) (hc : Reachable H ctx) (sk sk' : Scalar)
    (hsk : mulG sk ∈ ctx.pubkeys) (hsk' : mulG sk' ∈ ctx.pubkeys) (sn : SecNonce) (an : AggNonce) (T : MaybePoint)
    (msg : Bytes) (hb : an.nonceCoefficient H ctx.aggregatedPubkey msg ≠ 0) :
    ∃ sn' : SecNonce, signPartialAdaptor H ctx sk' sn' an T msg = signPartialAdaptor H ctx sk sn an T msg ∧
      ∃ s, signPartialAdaptor H ctx sk sn an T msg = .ok s := by
  have h1 := signPartialAdaptor_eq hc.inv sk sn an T msg
  rw [if_pos (show mulG sk ∈ ctx.orderedPubkeys from hsk)] at h1
  have h2 : ∀ sn', signPartialAdaptor H ctx sk' sn' an T msg = .ok (partialSigValue H ctx sk' sn' an T msg) := by
    intro sn'
    rw [signPartialAdaptor_eq hc.inv, if_pos (show mulG sk' ∈ ctx.orderedPubkeys from hsk')]
  change an.nonceCoefficient H ctx.pubkey msg ≠ 0 at hb
  set b := an.nonceCoefficient H ctx.pubkey msg with hbdef
  set c : MaybeScalar := negIf (isOdd (sessionRT H ctx an T msg)) (partialSigValue H ctx sk sn an T msg
    - sessionE H ctx an T msg * coeffOf H ctx.orderedPubkeys (mulG sk')
      * negIf (isOdd ctx.pubkey.1 ^^ ctx.parityAcc) sk'.1) with hcdef
  obtain ⟨k, hk0, hkc⟩ : ∃ k : MaybeScalar, k ≠ 0 ∧ c - k ≠ 0 := by
    by_cases hc1 : c = 1
    · exact ⟨2, two_ne_zero_scalar, by rw [hc1]; intro h; exact one_ne_zero (α := MaybeScalar) (by linear_combination -h)⟩
    · exact ⟨1, one_ne_zero, sub_ne_zero.2 hc1⟩
  refine ⟨⟨⟨k, hk0⟩, ⟨(c - k) / b, div_ne_zero hkc hb⟩⟩, ?_, _, h1⟩
  rw [h2, h1]
  congr 1
  generalize hV : partialSigValue H ctx sk sn an T msg = V at hcdef
  change negIf (isOdd (sessionRT H ctx an T msg)) (k + b * ((c - k) / b)) + _ = V
  rw [mul_div_cancel₀ _ hb, add_sub_cancel, hcdef]
  cases isOdd (sessionRT H ctx an T msg)
  · exact sub_add_cancel _ _
  · change -(-_) + _ = _
    rw [neg_neg]
    exact sub_add_cancel _ _

/-- The formula printed in doc/API.md:683-685 has the wrong sign: with `s = k + e·a·d` and `s' = k + e'·a·d` the value
`(s - s') / (a·(e + e'))` is never the secret key, unless `e' = 0`. -/
theorem C64_documented_formula_false (k a d e e' : MaybeScalar) (ha : a ≠ 0) (hd : d ≠ 0) (he' : e' ≠ 0)
    (hsum : e + e' ≠ 0) :
    d ≠ ((k + e * a * d) - (k + e' * a * d)) / (a * (e + e')) := by
  intro h
  rw [eq_div_iff (mul_ne_zero ha hsum)] at h
  have : 2 * (a * d * e') = 0 := by linear_combination h
  rcases mul_eq_zero.1 this with h | h
  · exact two_ne_zero_scalar h
  · exact mul_ne_zero (mul_ne_zero ha hd) he' h

/-! ### Concrete sessions -/

/-- The hypotheses of the two-signature case can be met: one message, session nonces `G` and `-G`. -/
example (sn : SecNonce) : ∃ s s',
    signPartialAdaptor lastByteHash lastCtx ⟨2, two_ne_zero_scalar⟩ sn ⟨Gpt.1, 0⟩ 0 [1] = .ok s ∧
    signPartialAdaptor lastByteHash lastCtx ⟨2, two_ne_zero_scalar⟩ sn ⟨negGpt.1, 0⟩ 0 [1] = .ok s' ∧
    (lastCtx.keyCoefficient (mulG ⟨2, two_ne_zero_scalar⟩) : Res Unit _) = .ok (some 1) ∧
    (Spec.observe lastByteHash lastCtx.aggregatedPubkey ⟨Gpt.1, 0⟩ 0 [1]).b
      = (Spec.observe lastByteHash lastCtx.aggregatedPubkey ⟨negGpt.1, 0⟩ 0 [1]).b ∧
    (Spec.observe lastByteHash lastCtx.aggregatedPubkey ⟨Gpt.1, 0⟩ 0 [1]).e
      ≠ (Spec.observe lastByteHash lastCtx.aggregatedPubkey ⟨negGpt.1, 0⟩ 0 [1]).e := by
  obtain ⟨s, hs⟩ := last_signs ⟨Gpt.1, 0⟩ 0 [1] sn
  obtain ⟨s', hs'⟩ := last_signs ⟨negGpt.1, 0⟩ 0 [1] sn
  have h1 := last_observe Gpt [] 1
  have h2 := last_observe negGpt [] 1
  rw [List.nil_append] at h1 h2
  refine ⟨s, s', hs, hs', last_keyCoefficient, by rw [h1, h2], ?_⟩
  rw [h1, h2]
  simp only [sgn_Gpt, sgn_negGpt]
  change (1 : MaybeScalar) * ((1 : ℕ) : MaybeScalar) ≠ -1 * ((1 : ℕ) : MaybeScalar)
  rw [Nat.cast_one]
  intro h
  exact two_ne_zero_scalar (by linear_combination h)

/-- The hypotheses of the three-signature case can be met: session nonces `G`, `-G`, `G` and messages that end in
`1, 2, 3`. -/
example (sn : SecNonce) : ∃ s s' s'',
    signPartialAdaptor lastByteHash lastCtx ⟨2, two_ne_zero_scalar⟩ sn ⟨Gpt.1, 0⟩ 0 [1] = .ok s ∧
    signPartialAdaptor lastByteHash lastCtx ⟨2, two_ne_zero_scalar⟩ sn ⟨negGpt.1, 0⟩ 0 [2] = .ok s' ∧
    signPartialAdaptor lastByteHash lastCtx ⟨2, two_ne_zero_scalar⟩ sn ⟨Gpt.1, 0⟩ 0 [3] = .ok s'' ∧
    let o := Spec.observe lastByteHash lastCtx.aggregatedPubkey ⟨Gpt.1, 0⟩ 0 [1]
    let o' := Spec.observe lastByteHash lastCtx.aggregatedPubkey ⟨negGpt.1, 0⟩ 0 [2]
    let o'' := Spec.observe lastByteHash lastCtx.aggregatedPubkey ⟨Gpt.1, 0⟩ 0 [3]
    1 * ((o''.e - o.e) * (o'.b - o.b) + (o.e - o'.e) * (o''.b - o.b)) ≠ 0 := by
  obtain ⟨s, hs⟩ := last_signs ⟨Gpt.1, 0⟩ 0 [1] sn
  obtain ⟨s', hs'⟩ := last_signs ⟨negGpt.1, 0⟩ 0 [2] sn
  obtain ⟨s'', hs''⟩ := last_signs ⟨Gpt.1, 0⟩ 0 [3] sn
  have h1 := last_observe Gpt [] 1
  have h2 := last_observe negGpt [] 2
  have h3 := last_observe Gpt [] 3
  rw [List.nil_append] at h1 h2 h3
  refine ⟨s, s', s'', hs, hs', hs'', ?_⟩
  rw [h1, h2, h3]
  simp only [sgn_Gpt, sgn_negGpt]
  change (1 : MaybeScalar) * ((1 * ((3 : ℕ) : MaybeScalar) - 1 * ((1 : ℕ) : MaybeScalar)) *
    (((2 : ℕ) : MaybeScalar) - ((1 : ℕ) : MaybeScalar)) + (1 * ((1 : ℕ) : MaybeScalar) - -1 * ((2 : ℕ) : MaybeScalar)) *
    (((3 : ℕ) : MaybeScalar) - ((1 : ℕ) : MaybeScalar))) ≠ 0
  have h8 := natCast_scalar_ne_zero (k := 8) (by norm_num) (by norm_num)
  intro h
  apply h8
  push_cast at h ⊢
  linear_combination h

/-- The hypotheses of the converse can be met. -/
example : mulG scalarOne ∈ lastCtx.pubkeys ∧ mulG ⟨2, two_ne_zero_scalar⟩ ∈ lastCtx.pubkeys ∧
    (⟨G, 0⟩ : AggNonce).nonceCoefficient lastByteHash lastCtx.aggregatedPubkey [1] ≠ 0 := by
  refine ⟨by simp [lastCtx, baseCtx, lastKeys, stubKeys, KeyAggContext.pubkeys],
    by simp [lastCtx, baseCtx, lastKeys, stubKeys, KeyAggContext.pubkeys], ?_⟩
  unfold AggNonce.nonceCoefficient
  rw [lastByteHash_append _ (by decide)]
  exact natCast_scalar_ne_zero (k := 1) (by norm_num) (by norm_num)

end Verif
