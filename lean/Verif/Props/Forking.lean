import Verif.Lemmas.Props.Forking
import Verif.Props.Exact

/-!
# Properties C87-C89: what partial signatures bind, and what forgeries give away
-/

namespace Verif

/-! ## C87 -/

/-- **C87**. In one session a partial signature is accepted for another public nonce of the same member exactly if both
nonces have the same value `R1 + b·R2`; in particular, if the second halves agree, only for its own nonce. -/
theorem C87_binds_nonce (H : Hash) (ctx : KeyAggContext) (hc : Reachable H ctx) (s : PartialSignature) (an : AggNonce)
    (T : MaybePoint) (P : Point) (pn pn' : PubNonce) (msg : Bytes)
    (h : verifyPartialAdaptor H ctx s an T P pn msg = .ok ()) :
    let b := an.nonceCoefficient H ctx.aggregatedPubkey msg
    (verifyPartialAdaptor H ctx s an T P pn' msg = .ok () ↔ pn'.R1.1 + b • pn'.R2.1 = pn.R1.1 + b • pn.R2.1) ∧
    (pn'.R2 = pn.R2 → (verifyPartialAdaptor H ctx s an T P pn' msg = .ok () ↔ pn' = pn)) := by
  intro b
  have key : verifyPartialAdaptor H ctx s an T P pn' msg = .ok () ↔ pn'.R1.1 + b • pn'.R2.1 = pn.R1.1 + b • pn.R2.1 := by
    obtain ⟨hP, he⟩ := (verifyPartialAdaptor_eq_ok hc.inv).1 h
    rw [verifyPartialAdaptor_eq_ok hc.inv, he]
    unfold partialRhs
    rw [add_left_inj]
    constructor
    · rintro ⟨-, h1⟩
      exact (negIf_injective _ h1).symm
    · intro h1
      refine ⟨hP, ?_⟩
      change negIf _ (pn.R1.1 + b • pn.R2.1) = negIf _ (pn'.R1.1 + b • pn'.R2.1)
      rw [h1]
  refine ⟨key, fun h2 => key.trans ⟨fun h1 => ?_, by rintro rfl; rfl⟩⟩
  rw [h2, add_left_inj] at h1
  obtain ⟨r1, r2⟩ := pn
  obtain ⟨r1', r2'⟩ := pn'
  cases h2
  cases Subtype.ext h1
  rfl

/-- **C87**. In one session a partial signature with its nonce is accepted from another member exactly if the challenge
is zero or both members have the same effective key (coefficient times key). -/
theorem C87_binds_key (H : Hash) (hH : TagsAgree H) (ctx : KeyAggContext) (hc : Reachable H ctx)
    (s : PartialSignature) (an : AggNonce) (T : MaybePoint) (P P' : Point) (pn : PubNonce) (msg : Bytes) (X X' : MaybePoint)
    (h : verifyPartialAdaptor H ctx s an T P pn msg = .ok ())
    (hX : (ctx.effectivePubkey P : Res Unit _) = .ok (some X))
    (hX' : (ctx.effectivePubkey P' : Res Unit _) = .ok (some X')) :
    verifyPartialAdaptor H ctx s an T P' pn msg = .ok () ↔
      Spec.challenge H ((an.finalNonce (an.nonceCoefficient H ctx.aggregatedPubkey msg)).1 + T) ctx.aggregatedPubkey.1 msg
        = 0 ∨ X' = X := by
  rw [spec_challenge hH]
  obtain ⟨hP, he⟩ := (verifyPartialAdaptor_eq_ok hc.inv).1 h
  rw [hc.inv.effectivePubkey_eq] at hX hX'
  have hP' : P' ∈ ctx.orderedPubkeys := by
    by_contra hn
    rw [if_neg hn] at hX'
    cases hX'
  rw [if_pos hP] at hX
  rw [if_pos hP'] at hX'
  simp only [Res.ok.injEq, Option.some.injEq] at hX hX'
  rw [verifyPartialAdaptor_eq_ok hc.inv, he]
  unfold partialRhs
  rw [add_right_inj, hX, hX']
  change _ ↔ sessionE H ctx an T msg = 0 ∨ X' = X
  rw [← sub_eq_zero (a := X'), ← smul_eq_zero_iff, smul_sub, sub_eq_zero]
  constructor
  · rintro ⟨-, h1⟩
    exact (negIf_injective _ h1).symm
  · intro h1
    exact ⟨hP', by rw [h1]⟩

/-- **C87**. A partial signature made in one session is accepted in another session (other group, aggregate nonce,
adaptor point or message) for the same key and nonce exactly if the signer would produce the same scalar there. -/
theorem C87_replay_iff (H : Hash) (ctx ctx' : KeyAggContext) (hc' : Reachable H ctx')
    (sk : Scalar) (hP : mulG sk ∈ ctx'.pubkeys) (sn : SecNonce) (an an' : AggNonce) (T T' : MaybePoint) (msg msg' : Bytes)
    (s : PartialSignature) (h : signPartialAdaptor H ctx sk sn an T msg = .ok s) :
    verifyPartialAdaptor H ctx' s an' T' (mulG sk) sn.publicNonce msg' = .ok () ↔
      signPartialAdaptor H ctx' sk sn an' T' msg' = signPartialAdaptor H ctx sk sn an T msg := by
  rw [h]
  exact C27_signer_produces_it H ctx' hc' an' T' sk hP sn msg' s

/-- A partial signature in the example group, and the effective keys of its two members. -/
example (an : AggNonce) (msg : Bytes) : Reachable sha256 exCtx ∧
    (∃ s, verifyPartialAdaptor sha256 exCtx s an 0 Gpt ⟨Gpt, Gpt⟩ msg = .ok ()) ∧
    (∀ P ∈ exCtx.pubkeys, ∃ X, (exCtx.effectivePubkey P : Res Unit _) = .ok (some X)) ∧
    (∃ s, signPartialAdaptor sha256 exCtx scalarOne ⟨scalarOne, scalarOne⟩ an 0 msg = .ok s) := by
  have hm : Gpt ∈ exCtx.pubkeys := by simp [KeyAggContext.pubkeys, exCtx, baseCtx, exKeys]
  have hm' : Gpt ∈ exCtx.orderedPubkeys := hm
  refine ⟨exCtx_reachable, (C27_unique_partial_signature sha256 exCtx exCtx_reachable an 0 Gpt hm _ msg).exists,
    fun P hP => ?_, ?_⟩
  · have hP' : P ∈ exCtx.orderedPubkeys := hP
    rw [exCtx_reachable.inv.effectivePubkey_eq, if_pos hP']
    exact ⟨_, rfl⟩
  · rw [signPartialAdaptor_eq exCtx_reachable.inv, mulG_one, if_pos hm']
    exact ⟨_, rfl⟩

/-! ## C88 -/

/-- **C88**, the inner step. Two signatures that are valid for one key with the same nonce bytes, relative to two hash
functions (before and after the challenge has been drawn anew) with different challenges, give the secret key. -/
theorem C88_fork_challenge (H H' : Hash) (hH : TagsAgree H) (hH' : TagsAgree H') (X : Point) (rx : Arr 32)
    (s s' : MaybeScalar) (msg msg' : Bytes)
    (h : verifySingle H X ⟨rx, s⟩ msg = .ok ()) (h' : verifySingle H' X ⟨rx, s'⟩ msg' = .ok ())
    (hne : Spec.challengeBytes H rx.1 X.1 msg ≠ Spec.challengeBytes H' rx.1 X.1 msg') :
    Spec.forkKey X.1 (Spec.challengeBytes H rx.1 X.1 msg) (Spec.challengeBytes H' rx.1 X.1 msg') s s' • G = X.1 := by
  obtain ⟨W, h1, h2, h3⟩ := verifySingle_eq_ok.1 h
  obtain ⟨W', h1', h2', h3'⟩ := verifySingle_eq_ok.1 h'
  have hW : W.1 = W'.1 := eq_of_xonly_isOdd (h3.trans h3'.symm) (h2.trans h2'.symm)
  simp only at h1 h1'
  rw [← spec_challengeBytes hH, toEvenY_val, ← sgn_smul] at h1
  rw [← spec_challengeBytes hH', toEvenY_val, ← sgn_smul] at h1'
  obtain ⟨x, hx⟩ := exists_dlog X.1
  set e := Spec.challengeBytes H rx.1 X.1 msg
  set e' := Spec.challengeBytes H' rx.1 X.1 msg'
  have hd : (s - s') • G = ((e - e') * (Spec.sgn X.1 * x)) • G := by
    rw [sub_smul, h1, h1', hW, mul_smul, mul_smul, hx, sub_smul]
    abel
  have hd' := smul_G_inj.1 hd
  have hk : Spec.forkKey X.1 e e' s s' = x := by
    unfold Spec.forkKey
    rw [hd', div_eq_iff (sub_ne_zero.2 hne)]
    linear_combination (x * (e - e')) * sgn_mul_sgn X.1
  rw [hk, hx]

/-- **C88**, the outer step. Whoever knows the secret keys of two aggregates of one list of keys, in which only the
coefficient of `P` has been drawn anew, knows the secret key of `P`. -/
theorem C88_fork_coefficient (H H' : Hash) (keys : List Point) (ctx ctx' : KeyAggContext)
    (hn : KeyAggContext.new H keys = .ok ctx) (hn' : KeyAggContext.new H' keys = .ok ctx') (sk : Scalar)
    (hP : mulG sk ∈ keys) (a a' x x' : MaybeScalar)
    (ha : (ctx.keyCoefficient (mulG sk) : Res Unit _) = .ok (some a))
    (ha' : (ctx'.keyCoefficient (mulG sk) : Res Unit _) = .ok (some a'))
    (hother : ∀ Q ∈ keys, Q ≠ mulG sk → (ctx.keyCoefficient Q : Res Unit _) = ctx'.keyCoefficient Q)
    (hx : x • G = ctx.aggregatedPubkey.1) (hx' : x' • G = ctx'.aggregatedPubkey.1) (hne : a ≠ a')
    (hcount : keys.count (mulG sk) < orderN) :
    sk.1 = (x - x') / (((keys.count (mulG sk) : ℕ) : MaybeScalar) * (a - a')) := by
  obtain ⟨-, -, Q, hQ, rfl⟩ := new_eq_ok.1 hn
  obtain ⟨-, -, Q', hQ', rfl⟩ := new_eq_ok.1 hn'
  have hi := CtxInv.of_new hn
  have hi' := CtxInv.of_new hn'
  have hk : (baseCtx H keys Q).orderedPubkeys = keys := rfl
  have hk' : (baseCtx H' keys Q').orderedPubkeys = keys := rfl
  rw [hi.keyCoefficient_eq, hk, if_pos hP, Res.ok.injEq, Option.some.injEq] at ha
  rw [hi'.keyCoefficient_eq, hk', if_pos hP, Res.ok.injEq, Option.some.injEq] at ha'
  have hagree : ∀ R ∈ keys, R ≠ mulG sk → coeffOf H keys R = coeffOf H' keys R := by
    intro R hR hne
    have h := hother R hR hne
    rw [hi.keyCoefficient_eq, hi'.keyCoefficient_eq, hk, hk', if_pos hR, if_pos hR, Res.ok.injEq,
      Option.some.injEq] at h
    exact h
  have hs := sum_sub_of_agree (mulG sk) (coeffOf H keys) (coeffOf H' keys) keys hagree
  change keySum H keys - keySum H' keys = _ at hs
  change x • G = Q.1 at hx
  change x' • G = Q'.1 at hx'
  rw [hQ, hQ', ← hx, ← hx', ← sub_smul, ha, ha', mulG_val, ← mul_smul, smul_G_inj] at hs
  have hc0 : ((keys.count (mulG sk) : ℕ) : MaybeScalar) ≠ 0 := by
    rw [Ne, ZMod.natCast_eq_zero_iff]
    intro hd
    exact absurd (Nat.le_of_dvd (List.count_pos_iff.2 hP) hd) (by omega)
  rw [eq_div_iff (mul_ne_zero hc0 (sub_ne_zero.2 hne)), hs]
  ring

/-- **C88**. The extractor behind the security of key aggregation: four forged signatures for a group, the challenge
being drawn anew between the first and the second and between the third and the fourth, and the coefficient of one
member between the two pairs, give away that member's secret key. The other members' keys are arbitrary (they may have
been chosen depending on the victim's key), and nothing is assumed about how the signatures were made. -/
theorem C88_four_forgeries_reveal (H H1 H' H1' : Hash) (hH : TagsAgree H) (hH1 : TagsAgree H1) (hH' : TagsAgree H')
    (hH1' : TagsAgree H1') (keys : List Point) (ctx ctx' : KeyAggContext)
    (hn : KeyAggContext.new H keys = .ok ctx) (hn' : KeyAggContext.new H' keys = .ok ctx') (sk : Scalar)
    (hP : mulG sk ∈ keys) (hcount : keys.count (mulG sk) < orderN) (a a' : MaybeScalar)
    (ha : (ctx.keyCoefficient (mulG sk) : Res Unit _) = .ok (some a))
    (ha' : (ctx'.keyCoefficient (mulG sk) : Res Unit _) = .ok (some a')) (hne : a ≠ a')
    (hother : ∀ Q ∈ keys, Q ≠ mulG sk → (ctx.keyCoefficient Q : Res Unit _) = ctx'.keyCoefficient Q)
    (rx rx' : Arr 32) (s s1 s' s1' : MaybeScalar) (m m1 m' m1' : Bytes)
    (hv : verifySingle H ctx.aggregatedPubkey ⟨rx, s⟩ m = .ok ())
    (hv1 : verifySingle H1 ctx.aggregatedPubkey ⟨rx, s1⟩ m1 = .ok ())
    (hv' : verifySingle H' ctx'.aggregatedPubkey ⟨rx', s'⟩ m' = .ok ())
    (hv1' : verifySingle H1' ctx'.aggregatedPubkey ⟨rx', s1'⟩ m1' = .ok ()) :
    let X := ctx.aggregatedPubkey.1
    let X' := ctx'.aggregatedPubkey.1
    let e := Spec.challengeBytes H rx.1 X m
    let e1 := Spec.challengeBytes H1 rx.1 X m1
    let e' := Spec.challengeBytes H' rx'.1 X' m'
    let e1' := Spec.challengeBytes H1' rx'.1 X' m1'
    e ≠ e1 → e' ≠ e1' →
    sk.1 = (Spec.forkKey X e e1 s s1 - Spec.forkKey X' e' e1' s' s1')
      / (((keys.count (mulG sk) : ℕ) : MaybeScalar) * (a - a')) := by
  intro X X' e e1 e' e1' he he'
  exact C88_fork_coefficient H H' keys ctx ctx' hn hn' sk hP a a' _ _ ha ha' hother
    (C88_fork_challenge H H1 hH hH1 _ rx s s1 m m1 hv hv1 he)
    (C88_fork_challenge H' H1' hH' hH1' _ rx' s' s1' m' m1' hv' hv1' he') hne hcount

/-- The hypotheses of C88 can be met, here with the one key `G`, whose coefficient is 1 and then 2. -/
example (msg : Bytes) : ∃ (ctx ctx' : KeyAggContext) (rx : Arr 32) (s s1 s' s1' : MaybeScalar),
    KeyAggContext.new (constHash 1) [Gpt] = .ok ctx ∧ KeyAggContext.new (constHash 2) [Gpt] = .ok ctx' ∧
    (ctx.keyCoefficient (mulG scalarOne) : Res Unit _) = .ok (some ((1 : ℕ) : MaybeScalar)) ∧
    (ctx'.keyCoefficient (mulG scalarOne) : Res Unit _) = .ok (some ((2 : ℕ) : MaybeScalar)) ∧
    ((1 : ℕ) : MaybeScalar) ≠ ((2 : ℕ) : MaybeScalar) ∧
    (∀ Q ∈ [Gpt], Q ≠ mulG scalarOne → (ctx.keyCoefficient Q : Res Unit _) = ctx'.keyCoefficient Q) ∧
    mulG scalarOne ∈ [Gpt] ∧ [Gpt].count (mulG scalarOne) < orderN ∧
    verifySingle (constHash 1) ctx.aggregatedPubkey ⟨rx, s⟩ msg = .ok () ∧
    verifySingle (constHash 3) ctx.aggregatedPubkey ⟨rx, s1⟩ msg = .ok () ∧
    verifySingle (constHash 2) ctx'.aggregatedPubkey ⟨rx, s'⟩ msg = .ok () ∧
    verifySingle (constHash 3) ctx'.aggregatedPubkey ⟨rx, s1'⟩ msg = .ok () ∧
    Spec.challengeBytes (constHash 1) rx.1 ctx.aggregatedPubkey.1 msg
      ≠ Spec.challengeBytes (constHash 3) rx.1 ctx.aggregatedPubkey.1 msg ∧
    Spec.challengeBytes (constHash 2) rx.1 ctx'.aggregatedPubkey.1 msg
      ≠ Spec.challengeBytes (constHash 3) rx.1 ctx'.aggregatedPubkey.1 msg := by
  obtain ⟨ctx, h1, h2⟩ := const_new 1 (by norm_num) (by norm_num)
  obtain ⟨ctx', h1', h2'⟩ := const_new 2 (by norm_num) (by norm_num)
  have hl := spec_lift_x_xonly Gpt
  have ex : ∀ v P, ∃ s, verifySingle (constHash v) P ⟨xonly Gpt.1, s⟩ msg = .ok () := fun v P =>
    (C73_exists_iff_lift (constHash v) P (xonly Gpt.1) msg).2 ⟨_, hl⟩
  obtain ⟨s, hs⟩ := ex 1 ctx.aggregatedPubkey
  obtain ⟨s1, hs1⟩ := ex 3 ctx.aggregatedPubkey
  obtain ⟨s', hs'⟩ := ex 2 ctx'.aggregatedPubkey
  obtain ⟨s1', hs1'⟩ := ex 3 ctx'.aggregatedPubkey
  refine ⟨ctx, ctx', xonly Gpt.1, s, s1, s', s1', h1, h1', h2, h2', natCast_scalar_ne (by norm_num) (by norm_num),
    ?_, by rw [mulG_one]; simp, ?_, hs, hs1, hs', hs1', ?_, ?_⟩
  · intro Q hQ hne
    rw [mulG_one] at hne
    exact absurd (List.mem_singleton.1 hQ) hne
  · rw [mulG_one, List.count_singleton_self]
    exact one_lt_orderN
  · rw [const_challenge 1 (by norm_num), const_challenge 3 (by norm_num)]
    exact natCast_scalar_ne (by norm_num) (by norm_num)
  · rw [const_challenge 2 (by norm_num), const_challenge 3 (by norm_num)]
    exact natCast_scalar_ne (by norm_num) (by norm_num)

/-! ## C89 -/

/-- **C89**. If all partial signatures of a session verify although `R1 + b·R2` is infinity (the case in which
aggregation fails, C29), then their sum is the challenge times the sum of the members' secret keys with their
coefficients: the nonces protect nothing. So any one member's secret key can be computed from the partial signatures and
the keys of the others. -/
theorem C89_vanishing_nonce_reveals (H : Hash) (hH : TagsAgree H) (ctx : KeyAggContext) (hc : Reachable H ctx)
    (T : MaybePoint) (pubnonces : List PubNonce) (sigs : List PartialSignature) (msg : Bytes)
    (h : AllVerified H ctx T pubnonces sigs msg)
    (hR : (AggNonce.sum pubnonces).R1 + (AggNonce.sum pubnonces).nonceCoefficient H ctx.aggregatedPubkey msg
      • (AggNonce.sum pubnonces).R2 = 0)
    (before after : List Scalar) (sk : Scalar) (hsk : (before ++ sk :: after).map mulG = ctx.pubkeys)
    (a : Point → MaybeScalar) (ha : ∀ P ∈ ctx.pubkeys, (ctx.keyCoefficient P : Res Unit _) = .ok (some (a P))) :
    let e := Spec.challenge H (G + T) ctx.aggregatedPubkey.1 msg
    let γ := Spec.keySign ctx
    let others := ((before ++ after).map fun d => a (mulG d) * d.1).sum
    sigs.sum = e * γ * (a (mulG sk) * sk.1 + others) ∧
    (e ≠ 0 → a (mulG sk) ≠ 0 → sk.1 = (γ * sigs.sum / e - others) / a (mulG sk)) := by
  intro e γ others
  have hi := hc.inv
  obtain ⟨z1, z2, z3⟩ := h.zip hi
  set an := AggNonce.sum pubnonces with han
  have hsum : ∀ k : List MaybeScalar, k.sum • G = (k.map (· • G)).sum := by
    intro k
    induction k with
    | nil => simp
    | cons a k ih => simp [add_smul, ih]
  have hRs : ((ctx.orderedPubkeys.zip pubnonces).map fun x => x.2.R1.1).sum
      + an.nonceCoefficient H ctx.pubkey msg • ((ctx.orderedPubkeys.zip pubnonces).map fun x => x.2.R2.1).sum = 0 := by
    have h1 : ((ctx.orderedPubkeys.zip pubnonces).map fun x => x.2.R1.1) = pubnonces.map fun n => n.R1.1 := by
      rw [← z2, List.map_map, z2]; rfl
    have h2 : ((ctx.orderedPubkeys.zip pubnonces).map fun x => x.2.R2.1) = pubnonces.map fun n => n.R2.1 := by
      rw [← z2, List.map_map, z2]; rfl
    rw [h1, h2]
    have := AggNonce.sum_eq pubnonces
    rw [← han] at this
    rw [this] at hR
    rw [this]
    exact hR
  have hRT : sessionRT H ctx an T msg = G + T := by
    have hG : sessionR H ctx an msg = Gpt := finalNonce_eq_of_zero hR
    unfold sessionRT
    rw [hG]
    rfl
  have hE : sessionE H ctx an T msg = e := by unfold sessionE; rw [hRT]; exact (spec_challenge hH _ ctx.pubkey _).symm
  have hcoef : ∀ P ∈ ctx.orderedPubkeys, coeffOf H ctx.orderedPubkeys P = a P := by
    intro P hP
    have := ha P hP
    rw [hi.keyCoefficient_eq, if_pos hP, Res.ok.injEq, Option.some.injEq] at this
    exact this
  have hsk' : ctx.orderedPubkeys = (before ++ sk :: after).map mulG := hsk.symm
  have hK : ((ctx.orderedPubkeys.zip pubnonces).map fun x => coeffOf H ctx.orderedPubkeys x.1 • x.1.1).sum
      = (a (mulG sk) * sk.1 + others) • G := by
    have e1 : ((ctx.orderedPubkeys.zip pubnonces).map fun x => coeffOf H ctx.orderedPubkeys x.1 • x.1.1)
        = ((ctx.orderedPubkeys.zip pubnonces).map (·.1)).map fun P => coeffOf H ctx.orderedPubkeys P • P.1 := by
      rw [List.map_map]; rfl
    rw [e1, z1, List.map_congr_left (g := fun P => a P • P.1) fun P hP => by rw [hcoef P hP]]
    rw [hsk', List.map_map]
    have e2 : ((fun P : Point => a P • P.1) ∘ mulG) = fun d => (a (mulG d) * d.1) • G := by
      funext d
      simp only [Function.comp, mulG_val, mul_smul]
    rw [e2]
    have e3 : ∀ l : List Scalar, (l.map fun d => (a (mulG d) * d.1) • G).sum
        = ((l.map fun d => a (mulG d) * d.1).sum) • G := by
      intro l
      rw [hsum, List.map_map]
      rfl
    rw [e3]
    congr 1
    change _ = _ + ((before ++ after).map fun d => a (mulG d) * d.1).sum
    simp only [List.map_append, List.map_cons, List.sum_append, List.sum_cons]
    ring
  have hγ : ∀ x : MaybePoint, negIf (isOdd ctx.pubkey.1 ^^ ctx.parityAcc) x = γ • x := keySign_smul ctx
  have hγγ : γ * γ = 1 := keySign_mul_self ctx
  have main : sigs.sum = e * γ * (a (mulG sk) * sk.1 + others) := by
    rw [← smul_G_inj, hsum, z3, sum_partialRhs, hRs, hE, hK, hγ, negIf_zero, zero_add, ← mul_smul, ← mul_smul]
    congr 1
    ring
  refine ⟨main, fun he hak => ?_⟩
  rw [main, eq_div_iff hak]
  have : γ * (e * γ * (a (mulG sk) * sk.1 + others)) / e = a (mulG sk) * sk.1 + others := by
    rw [div_eq_iff he]
    linear_combination (e * (a (mulG sk) * sk.1 + others)) * hγγ
  rw [this]
  ring

/-- The hypotheses of C89 can be met: the example group, whose secret keys are 1 and -1, with nonces that cancel. -/
example (msg : Bytes) : ∃ pubnonces sigs, AllVerified sha256 exCtx 0 pubnonces sigs msg ∧
    (AggNonce.sum pubnonces).R1 + (AggNonce.sum pubnonces).nonceCoefficient sha256 exCtx.aggregatedPubkey msg
      • (AggNonce.sum pubnonces).R2 = 0 ∧
    (([scalarOne] ++ skMinusOne :: []).map mulG = exCtx.pubkeys) ∧
    ∃ a : Point → MaybeScalar, ∀ P ∈ exCtx.pubkeys, (exCtx.keyCoefficient P : Res Unit _) = .ok (some (a P)) := by
  obtain ⟨sigs, h⟩ := allVerified_exists exCtx_reachable.inv 0 [⟨Gpt, Gpt⟩, ⟨negGpt, negGpt⟩] rfl msg
  refine ⟨_, _, h, ?_, ?_, coeffOf sha256 exCtx.orderedPubkeys, fun P hP => ?_⟩
  · have h1 : AggNonce.sum [⟨Gpt, Gpt⟩, ⟨negGpt, negGpt⟩] = ⟨0, 0⟩ := by
      rw [AggNonce.sum_eq]
      simp only [List.map_cons, List.map_nil, List.sum_cons, List.sum_nil, add_zero]
      congr 1 <;> exact add_neg_cancel G
    rw [h1]
    simp
  · change [mulG scalarOne, mulG skMinusOne] = [Gpt, negGpt]
    rw [mulG_one, mulG_minusOne]
  · have hP' : P ∈ exCtx.orderedPubkeys := hP
    rw [exCtx_reachable.inv.keyCoefficient_eq, if_pos hP']

end Verif
