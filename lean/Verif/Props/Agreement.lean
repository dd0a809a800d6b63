import Verif.Lemmas.Props.Agreement

/-!
# Property C103: completed sessions agree, whatever the network does
-/

namespace Verif

/-- **C103**, soundness. A signer runs a session with any key; the network delivers any nonces and any partial
signatures, any number of times and in any order. Whatever the second round then returns is an adaptor signature that is
valid for the signer's own message, adaptor point and aggregated key; and a BIP340 signature in a session without
an adaptor point. -/
theorem C103_network_sound (H : Hash) (hH : TagsAgree H) (r : FirstRound) (hr : FirstRound.Reachable H r) (sk : Scalar)
    (T : MaybePoint) (msg : Bytes) (r2 : SecondRound) (h : r.finalizeAdaptor H sk T msg = .ok r2)
    (calls : List (ℕ × PartialSignature)) :
    (∀ a, (r2.run H calls).1.finalizeAdaptor H = .ok a →
      verifySingleAdaptor H r.keyAggCtx.aggregatedPubkey a msg T = .ok ()) ∧
    (T = 0 → ∀ f, (r2.run H calls).1.finalize H = .ok f →
      verifySingleLifted H r.keyAggCtx.aggregatedPubkey f msg = .ok () ∧
      Spec.schnorr_verify H msg (Spec.xbytes r.keyAggCtx.aggregatedPubkey.1) f.toBytes = true) := by
  obtain ⟨f1, f2, f3, -, -⟩ := finalizeAdaptor_fields hr h
  obtain ⟨-, g1, -, -, g4, g5, -⟩ := (SecondRound.inv_finalize hr.inv h).run calls
  have key : ∀ a, (r2.run H calls).1.finalizeAdaptor H = .ok a →
      verifySingleAdaptor H r.keyAggCtx.aggregatedPubkey a msg T = .ok () := by
    intro a ha
    have := SecondRound.finalizeAdaptor_valid ha
    rw [g1, g4, g5, f1, f2, f3] at this
    exact this
  refine ⟨key, fun h0 f hf => ?_⟩
  have hv : verifySingleLifted H r.keyAggCtx.aggregatedPubkey f msg = .ok () := by
    obtain ⟨a, ha, had⟩ := ((C62_finalize_partial H hH (r2.run H calls).1).2.2.1 f).1 hf
    have := (C62_finalize_partial H hH (r2.run H calls).1).2.2.2 f a hf ha
    rw [g1, g4, g5, f1, f2, f3, h0, add_zero] at this
    exact this.2 rfl
  exact ⟨hv, ((C33_verify_single_typed H hH r.keyAggCtx.aggregatedPubkey msg).2.1 f).1 hv⟩

/-- The hypotheses can be met under SHA-256, for every adaptor point and message, by a session that does return an adaptor
signature. -/
example (T : MaybePoint) (msg : Bytes) : TagsAgree sha256 ∧ ∃ r r2 calls a, FirstRound.Reachable sha256 r ∧
    r.finalizeAdaptor sha256 scalarOne T msg = .ok r2 ∧ (r2.run sha256 calls).1.finalizeAdaptor sha256 = .ok a := by
  obtain ⟨r, R, h1, -, h2, h3, h4⟩ := complete_round_exists
  obtain ⟨r2, s, h5, h6, h7⟩ := h4 T msg
  obtain ⟨a, ha, -⟩ := C70_complete_round_finalizes sha256 r h1 scalarOne h2 T msg r2 h5 _ h6 (by rw [h7]; exact h3)
  exact ⟨sha256_tagsAgree, r, r2, _, a, h1, h5, ha⟩

/-- **C103**. Two signers who finish with the same aggregated key, aggregated nonce, adaptor point and message obtain
the same signature, even if the network told them different nonces and different partial signatures. -/
theorem C103_agreement (H : Hash) (r r' : SecondRound)
    (hk : r.keyAggCtx.aggregatedPubkey = r'.keyAggCtx.aggregatedPubkey)
    (hn : r.aggregatedNonce = r'.aggregatedNonce) (hT : r.adaptorPoint = r'.adaptorPoint) (hm : r.message = r'.message) :
    (∀ a a', r.finalizeAdaptor H = .ok a → r'.finalizeAdaptor H = .ok a' → a = a') ∧
    (∀ f f', r.finalize H = .ok f → r'.finalize H = .ok f' → f = f') := by
  have key : ∀ a a', r.finalizeAdaptor H = .ok a → r'.finalizeAdaptor H = .ok a' → a = a' := by
    intro a a' h h'
    unfold SecondRound.finalizeAdaptor at h h'
    obtain ⟨ss, -, h⟩ := Res.bind_eq_ok.1 h
    obtain ⟨ss', -, h'⟩ := Res.bind_eq_ok.1 h'
    rw [Res.mapErr_eq_ok] at h h'
    obtain ⟨e, hv⟩ := aggregateAdaptor_eq_ok.1 h
    obtain ⟨e', hv'⟩ := aggregateAdaptor_eq_ok.1 h'
    have hk' : r.keyAggCtx.pubkey = r'.keyAggCtx.pubkey := hk
    have hn' : r.aggnonce = r'.aggnonce := hn
    have hR : (sessionR H r.keyAggCtx r.aggnonce r.message) = sessionR H r'.keyAggCtx r'.aggnonce r'.message := by
      unfold sessionR
      rw [hk', hn', hm]
    rw [hR] at e
    rw [hk', hm, hT, e] at hv
    rw [e'] at hv'
    have := (C73_unique_adaptor_scalar H _ _ _ _).unique hv hv'
    rw [e, e', this]
  refine ⟨key, fun f f' h h' => ?_⟩
  rcases SecondRound.finalizeAdaptor_cases H r with h1 | h1 | ⟨a, h1⟩
  · rw [SecondRound.finalize_of_err h1] at h; cases h
  · rw [SecondRound.finalize_of_err h1] at h; cases h
  rcases SecondRound.finalizeAdaptor_cases H r' with h2 | h2 | ⟨a', h2⟩
  · rw [SecondRound.finalize_of_err h2] at h'; cases h'
  · rw [SecondRound.finalize_of_err h2] at h'; cases h'
  obtain ⟨R, hR, h3⟩ := SecondRound.finalize_of_ok h1
  obtain ⟨R', hR', h4⟩ := SecondRound.finalize_of_ok h2
  cases key a a' h1 h2
  rw [h3] at h
  rw [h4] at h'
  have : R = R' := Subtype.ext (hR.symm.trans hR')
  cases h
  cases h'
  rw [this]

/-- **C103**, diverging views. Signer `i` sends `j` a partial signature, while the network told them different nonces, or
they mean to sign different messages or with different adaptor points. If `j` has the right nonce of `i`, then `j`
accepts the signature exactly if `i` would have made the same one in the view of `j`. -/
theorem C103_accepted_iff_same_view (H : Hash) (ri rj : FirstRound) (hri : FirstRound.Reachable H ri)
    (hrj : FirstRound.Reachable H rj) (hctx : ri.keyAggCtx = rj.keyAggCtx) (ski skj : Scalar)
    (hski : ri.keyAggCtx.pubkeys[ri.signerIndex]? = some (mulG ski))
    (hskj : rj.keyAggCtx.pubkeys[rj.signerIndex]? = some (mulG skj)) (Ti Tj : MaybePoint) (msgi msgj : Bytes)
    (r2i r2j : SecondRound) (hi : ri.finalizeAdaptor H ski Ti msgi = .ok r2i)
    (hj : rj.finalizeAdaptor H skj Tj msgj = .ok r2j) (hn : r2j.pubnonces[ri.signerIndex]? = some ri.ourPublicNonce)
    (s : PartialSignature) (hs : (r2i.ourSignature : Res Unit _) = .ok s) (calls : List (ℕ × PartialSignature)) :
    ((r2j.run H calls).1.receiveSignature H ri.signerIndex s).2 = .ok () ↔
      ri.signForAggregatorAdaptor H ski Tj msgj r2j.aggregatedNonce
        = ri.signForAggregatorAdaptor H ski Ti msgi r2i.aggregatedNonce := by
  obtain ⟨f1, -, -, hmi, hsi⟩ := finalizeAdaptor_fields hri hi
  rw [hs, Res.ok.injEq] at hsi
  have e : ri.signForAggregatorAdaptor H ski Ti msgi r2i.aggregatedNonce = .ok s := by
    unfold FirstRound.signForAggregatorAdaptor
    rw [signPartialAdaptor_eq hri.inv.ctx.inv, hsi]
    exact if_pos hmi
  rw [e]
  rw [hctx] at hski hmi
  rw [← (((C58_second_round_receives H rj hrj skj hskj Tj msgj r2j hj calls ri.signerIndex s).2.1
    (mulG ski) ri.ourPublicNonce hski hn).1)]
  unfold FirstRound.signForAggregatorAdaptor FirstRound.ourPublicNonce
  rw [C27_signer_produces_it H rj.keyAggCtx hrj.inv.ctx _ Tj ski hmi ri.secnonce msgj s, hctx]

/-- Two signers of one group, in different places, that have exchanged their nonces: they fulfil the hypotheses of the last
two theorems. -/
example (T : MaybePoint) (msg : Bytes) : ∃ (r0 r1 : FirstRound) (sk0 sk1 : Scalar) (r20 r21 : SecondRound)
    (calls0 calls1 : List (ℕ × PartialSignature)) (a0 a1 : AdaptorSignature) (s : PartialSignature),
    FirstRound.Reachable stubHash r0 ∧ FirstRound.Reachable stubHash r1 ∧ r0.keyAggCtx = r1.keyAggCtx ∧
    r0.signerIndex ≠ r1.signerIndex ∧
    r0.keyAggCtx.pubkeys[r0.signerIndex]? = some (mulG sk0) ∧ r1.keyAggCtx.pubkeys[r1.signerIndex]? = some (mulG sk1) ∧
    r0.finalizeAdaptor stubHash sk0 T msg = .ok r20 ∧ r1.finalizeAdaptor stubHash sk1 T msg = .ok r21 ∧
    r21.pubnonces[r0.signerIndex]? = some r0.ourPublicNonce ∧ (r20.ourSignature : Res Unit _) = .ok s ∧
    r20.aggregatedNonce = r21.aggregatedNonce ∧ (r20.run stubHash calls0).1.finalizeAdaptor stubHash = .ok a0 ∧
    (r21.run stubHash calls1).1.finalizeAdaptor stubHash = .ok a1 := by
  obtain ⟨g, hg, hk, hR⟩ := stub_group stubCtx (.new stubCtx_new) rfl
  have h0 : 0 < g.sks.length := by rw [hk]; decide
  have h1 : 1 < g.sks.length := by rw [hk]; decide
  have hl : g.sks.length = 2 := by rw [hk]; rfl
  have hn0 : g.NonceSchedule 0 [(1, (g.rounds 1).ourPublicNonce)] := by
    intro j hj hj0
    obtain rfl : j = 1 := by omega
    rfl
  have hn1 : g.NonceSchedule 1 [(0, (g.rounds 0).ourPublicNonce)] := by
    intro j hj hj0
    obtain rfl : j = 0 := by omega
    rfl
  obtain ⟨r20, e0, n0, an0⟩ := g.second_round T msg h0 _ hn0
  obtain ⟨r21, e1, n1, an1⟩ := g.second_round T msg h1 _ hn1
  obtain ⟨t, rfl⟩ := exists_dlog T
  obtain ⟨psigs, sig, -, -, hall⟩ := C61_honest_adaptor_session stubHash g t msg (hR msg)
  obtain ⟨r20', e0', s0, f0⟩ := hall 0 h0 _ hn0
  obtain ⟨r21', e1', s1, f1⟩ := hall 1 h1 _ hn1
  rw [e0] at e0'
  rw [e1] at e1'
  cases e0'
  cases e1'
  have q0 : g.SignatureSchedule psigs 0 [(1, psigs 1)] := by
    intro j hj hj0
    obtain rfl : j = 1 := by omega
    exact List.mem_singleton.2 rfl
  have q1 : g.SignatureSchedule psigs 1 [(0, psigs 0)] := by
    intro j hj hj0
    obtain rfl : j = 0 := by omega
    exact List.mem_singleton.2 rfl
  have st0 := FirstRound.Reachable.new g.reachable (g.started 0 h0)
  have st1 := FirstRound.Reachable.new g.reachable (g.started 1 h1)
  obtain ⟨c0, i0, -⟩ := new_fields (g.started 0 h0)
  obtain ⟨c1, i1, -⟩ := new_fields (g.started 1 h1)
  have k0 := (run_ctx (g.rounds 0) [(1, (g.rounds 1).ourPublicNonce)])
  have k1 := (run_ctx (g.rounds 1) [(0, (g.rounds 0).ourPublicNonce)])
  refine ⟨_, _, g.sks[0], g.sks[1], r20, r21, [(1, psigs 1)], [(0, psigs 0)], sig, sig, psigs 0, st0.run _, st1.run _,
    ?_, ?_, ?_, ?_, e0, e1, ?_, s0 Unit, an0.trans an1.symm, (f0 _ q0).2, (f1 _ q1).2⟩
  · rw [k0.1, k1.1, c0, c1]
  · rw [k0.2.1, k1.2.1, i0, i1]; decide
  · rw [k0.1, k0.2.1, c0, i0]; exact g.key_get h0
  · rw [k1.1, k1.2.1, c1, i1]; exact g.key_get h1
  · rw [k0.2.1, i0, n1, g.nonces_get h0]
    exact congrArg (fun n => some (SecNonce.publicNonce n)) k0.2.2.symm

end Verif
