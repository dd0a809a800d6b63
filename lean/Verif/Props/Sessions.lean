import Verif.Lemmas.Sgn
import Verif.Lemmas.Props.Sessions
import Verif.Spec.HonestSession
import Verif.Props.Rounds

/-!
# Properties C60-C62: complete sessions
-/

namespace Verif

/-! ## C61 -/

/-- **C61**. In every honest adaptor session with a finite session nonce there are partial signatures `psigs` and one
adaptor signature such that, for every signer and all delivery schedules, the first round finalizes with that signer's
partial signature, the second round completes and finalizes to that adaptor signature. It is valid for the adaptor
point, the adaptor secret turns it into a valid signature (if the adapted nonce is finite), and that signature reveals
the secret. -/
theorem C61_honest_adaptor_session (H : Hash) (g : HonestGroup H) (t : MaybeScalar) (msg : Bytes)
    (hR : g.sessionNonce msg ≠ 0) :
    ∃ (psigs : ℕ → PartialSignature) (sig : AdaptorSignature),
      verifySingleAdaptor H g.ctx.aggregatedPubkey sig msg (t • G) = .ok () ∧
      (g.sessionNonce msg + t • G ≠ 0 → ∃ f, sig.adapt t = some f ∧
        verifySingleLifted H g.ctx.aggregatedPubkey f msg = .ok () ∧ sig.revealSecret f = some t) ∧
      ∀ i (hi : i < g.sks.length) calls, g.NonceSchedule i calls →
        ∃ r2, ((g.rounds i).run calls).1.finalizeAdaptor H g.sks[i] (t • G) msg = .ok r2 ∧
          (∀ ε, (r2.ourSignature : Res ε _) = .ok (psigs i)) ∧
          ∀ scalls, g.SignatureSchedule psigs i scalls →
            (r2.run H scalls).1.isComplete = true ∧ (r2.run H scalls).1.finalizeAdaptor H = .ok sig := by
  obtain ⟨sig, hsig, hv⟩ := C28_verified_partials_aggregate_adaptor H g.ctx g.reachable (t • G) g.nonces _ msg
    (g.allVerified (t • G) msg) hR
  obtain ⟨-, hsR, -, hadapt⟩ := C32_adaptor_aggregate H g.ctx _ t _ msg sig hsig
  refine ⟨g.psig (t • G) msg, sig, hv, fun hne => ?_, fun i hi calls hn => ?_⟩
  · apply hadapt
    rw [hsR, finalNonce_eq_of_ne hR]
    exact hne
  · obtain ⟨r2, h1, h2, h3⟩ := g.signer (t • G) msg hi calls hn
    refine ⟨r2, h1, h2, fun scalls hs => ?_⟩
    obtain ⟨h4, h5⟩ := h3 scalls hs
    rw [hsig] at h5
    exact ⟨h4, h5⟩

/-! ## C60 -/

/-- **C60**. In every honest session with a finite session nonce there are partial signatures `psigs` and one signature,
valid for the aggregated key, such that, for every signer and all delivery schedules, the first round finalizes with
that signer's partial signature, the second round completes and finalizes to that signature. -/
theorem C60_honest_session (H : Hash) (g : HonestGroup H) (msg : Bytes) (hR : g.sessionNonce msg ≠ 0) :
    ∃ (psigs : ℕ → PartialSignature) (sig : LiftedSignature),
      verifySingleLifted H g.ctx.aggregatedPubkey sig msg = .ok () ∧
      ∀ i (hi : i < g.sks.length) calls, g.NonceSchedule i calls →
        ∃ r2, ((g.rounds i).run calls).1.finalize H g.sks[i] msg = .ok r2 ∧
          (∀ ε, (r2.ourSignature : Res ε _) = .ok (psigs i)) ∧
          ∀ scalls, g.SignatureSchedule psigs i scalls →
            (r2.run H scalls).1.isComplete = true ∧ (r2.run H scalls).1.finalize H = .ok sig := by
  obtain ⟨psigs, sig, -, had, hall⟩ := C61_honest_adaptor_session H g 0 msg hR
  obtain ⟨f, hf, hv, -⟩ := had (by rw [zero_smul, add_zero]; exact hR)
  refine ⟨psigs, f, hv, fun i hi calls hn => ?_⟩
  obtain ⟨r2, h1, h2, h3⟩ := hall i hi calls hn
  rw [zero_smul] at h1
  refine ⟨r2, h1, h2, fun scalls hs => ?_⟩
  obtain ⟨h4, h5⟩ := h3 scalls hs
  refine ⟨h4, ?_⟩
  unfold SecondRound.finalize
  rw [h5]
  simp only [Res.bind_ok]
  rw [hf]
  rfl

/-- **C60**, as bytes: the signature is a BIP340 signature under the x-only aggregated key. -/
theorem C60_honest_session_bip340 (H : Hash) (hH : TagsAgree H) (g : HonestGroup H) (msg : Bytes)
    (hR : g.sessionNonce msg ≠ 0) :
    ∃ (psigs : ℕ → PartialSignature) (sig : LiftedSignature),
      Spec.schnorr_verify H msg (Spec.xbytes g.ctx.aggregatedPubkey.1) sig.toBytes = true ∧
      ∀ i (hi : i < g.sks.length) calls, g.NonceSchedule i calls →
        ∃ r2, ((g.rounds i).run calls).1.finalize H g.sks[i] msg = .ok r2 ∧
          ∀ scalls, g.SignatureSchedule psigs i scalls → (r2.run H scalls).1.finalize H = .ok sig := by
  obtain ⟨psigs, sig, hv, hall⟩ := C60_honest_session H g msg hR
  refine ⟨psigs, sig, ((C33_verify_single_typed H hH g.ctx.aggregatedPubkey msg).2.1 _).1 hv,
    fun i hi calls hn => ?_⟩
  obtain ⟨r2, h1, -, h3⟩ := hall i hi calls hn
  exact ⟨r2, h1, fun scalls hs => (h3 scalls hs).2⟩

/-! ## A concrete honest group -/

/-- The hypotheses of C60 and C61 can be met: the honest group with the keys `1` and `2` under `stubHash`, which has
the tags of SHA-256. -/
example : TagsAgree stubHash ∧ ∃ g : HonestGroup stubHash, g.sks = stubKeys ∧ ∀ msg, g.sessionNonce msg ≠ 0 := by
  refine ⟨stubHash_tagsAgree, ?_⟩
  have hlen : stubCtx.pubkeys.length = 2 := rfl
  have hex : ∀ i : ℕ, ∃ r, i < stubKeys.length →
      FirstRound.new stubHash stubCtx zeroSeed i SecNonceSpices.new = .ok r := by
    intro i
    by_cases hi : i < stubKeys.length
    · obtain ⟨r, hr⟩ := new_ok (H := stubHash) (ctx := stubCtx) zeroSeed (i := i) hi SecNonceSpices.new (by decide)
      exact ⟨r, fun _ => hr⟩
    · exact ⟨⟨stubCtx, 0, ⟨scalarOne, scalarOne⟩, Slots.new 0⟩, fun h => absurd h hi⟩
  choose rounds hr using hex
  refine ⟨⟨stubCtx, .new stubCtx_new, stubKeys, rfl, fun _ => zeroSeed, fun _ => SecNonceSpices.new, rounds, hr⟩, rfl,
    fun msg => ?_⟩
  unfold HonestGroup.sessionNonce
  have hb : ∀ an : AggNonce, an.nonceCoefficient stubHash stubCtx.aggregatedPubkey msg = 1 :=
    fun an => stubHash_tagHash _ (by decide) _
  rw [hb, one_smul]
  have hn : HonestGroup.nonces ⟨stubCtx, .new stubCtx_new, stubKeys, rfl, fun _ => zeroSeed,
      fun _ => SecNonceSpices.new, rounds, hr⟩ = [⟨Gpt, Gpt⟩, ⟨Gpt, Gpt⟩] := by
    unfold HonestGroup.nonces
    change [(rounds 0).ourPublicNonce, (rounds 1).ourPublicNonce] = _
    rw [stub_nonce (hr 0 (by decide)), stub_nonce (hr 1 (by decide))]
  rw [hn, AggNonce.sum_eq]
  simp only [List.map_cons, List.map_nil, List.sum_cons, List.sum_nil, add_zero]
  change G + G + (G + G) ≠ 0
  have : G + G + (G + G) = (4 : MaybeScalar) • G := by
    have h4 : (4 : MaybeScalar) = 1 + 1 + (1 + 1) := by norm_num
    rw [h4, add_smul, add_smul, one_smul]
  rw [this, Ne, smul_G_eq_zero]
  exact_mod_cast natCast_scalar_ne_zero (k := 4) (by norm_num) (by norm_num)

/-! ## C70 -/

/-- **C70**. A complete second round that was started with the signer's own key always finalizes, whatever was
delivered to either round, provided `R1 + b·R2` is finite. The adaptor signature is valid. -/
theorem C70_complete_round_finalizes (H : Hash) (r : FirstRound) (hr : FirstRound.Reachable H r) (sk : Scalar)
    (hsk : r.keyAggCtx.pubkeys[r.signerIndex]? = some (mulG sk)) (T : MaybePoint) (msg : Bytes) (r2 : SecondRound)
    (h : r.finalizeAdaptor H sk T msg = .ok r2) (calls : List (ℕ × PartialSignature))
    (hcomp : (r2.run H calls).1.isComplete = true)
    (hR : r2.aggregatedNonce.R1
      + r2.aggregatedNonce.nonceCoefficient H r.keyAggCtx.aggregatedPubkey msg • r2.aggregatedNonce.R2 ≠ 0) :
    ∃ sig, (r2.run H calls).1.finalizeAdaptor H = .ok sig ∧
      sig.R = r2.aggregatedNonce.R1
        + r2.aggregatedNonce.nonceCoefficient H r.keyAggCtx.aggregatedPubkey msg • r2.aggregatedNonce.R2 ∧
      verifySingleAdaptor H r.keyAggCtx.aggregatedPubkey sig msg T = .ok () := by
  have hinv2 := SecondRound.inv_finalize hr.inv h
  obtain ⟨f1, f2, f3, f4, hacc⟩ := stored_accepted hr hsk h calls
  obtain ⟨hrun, g1, g2, g3, g4, g5, g6⟩ := hinv2.run calls
  obtain ⟨ss, hss⟩ := hrun.isComplete_iff.1 hcomp
  obtain ⟨hl, hst⟩ := (hrun.slots_finalize ss).1 hss
  rw [g1] at hl hst
  have hall : AllVerified H r2.keyAggCtx T r2.pubnonces ss msg := by
    refine ⟨hinv2.nonces, hl, fun j P pn s h1 h2 h3 => ?_⟩
    have hj : j < r2.keyAggCtx.pubkeys.length := (List.getElem?_eq_some_iff.1 h1).1
    obtain ⟨P', pn', h1', h2', hv⟩ := hacc j s ((hst j hj).trans h3)
    rw [h1] at h1'
    rw [h2] at h2'
    cases h1'
    cases h2'
    rw [f3, f4, hinv2.agg] at hv
    exact hv
  rw [f1] at hall
  have hag : r2.aggregatedNonce = AggNonce.sum r2.pubnonces := hinv2.agg
  rw [hag] at hR
  obtain ⟨sig, hs, hv⟩ := C28_verified_partials_aggregate_adaptor H r.keyAggCtx hr.inv.ctx T r2.pubnonces ss msg hall hR
  refine ⟨sig, ?_, ?_, hv⟩
  · rw [SecondRound.finalizeAdaptor_eq hss, g1, g3, g4, g5, f1, f3, f4, hinv2.agg, hs]
    rfl
  · obtain ⟨rfl, -⟩ := aggregateAdaptor_eq_ok.1 hs
    rw [hag]
    exact finalNonce_eq_of_ne hR

/-- **C70**, `finalize`. Such a round is finalized by `finalize` as well; if it was started without an adaptor point, the
signature passes `verify_single`. -/
theorem C70_complete_round_finalizes_plain (H : Hash) (r : FirstRound) (hr : FirstRound.Reachable H r) (sk : Scalar)
    (hsk : r.keyAggCtx.pubkeys[r.signerIndex]? = some (mulG sk)) (T : MaybePoint) (msg : Bytes) (r2 : SecondRound)
    (h : r.finalizeAdaptor H sk T msg = .ok r2) (calls : List (ℕ × PartialSignature))
    (hcomp : (r2.run H calls).1.isComplete = true)
    (hR : r2.aggregatedNonce.R1
      + r2.aggregatedNonce.nonceCoefficient H r.keyAggCtx.aggregatedPubkey msg • r2.aggregatedNonce.R2 ≠ 0) :
    ∃ f, (r2.run H calls).1.finalize H = .ok f ∧
      Spec.x f.R.1 = Spec.x (r2.aggregatedNonce.R1
        + r2.aggregatedNonce.nonceCoefficient H r.keyAggCtx.aggregatedPubkey msg • r2.aggregatedNonce.R2) ∧
      (T = 0 → verifySingleLifted H r.keyAggCtx.aggregatedPubkey f msg = .ok ()) := by
  obtain ⟨sig, hs, hsR, hv⟩ := C70_complete_round_finalizes H r hr sk hsk T msg r2 h calls hcomp hR
  obtain ⟨R, hRR, hf⟩ := SecondRound.finalize_of_ok hs
  refine ⟨_, hf, ?_, ?_⟩
  · rw [← hsR, hRR]
    rw [spec_x, spec_x]
    show xNat (toEvenY R).1 = _
    exact xonly_eq_iff_xNat.1 (xonly_toEvenY R)
  · rintro rfl
    have h0 : sig.R + (0 : MaybeScalar) • G ≠ 0 := by rw [zero_smul, add_zero, hsR]; exact hR
    obtain ⟨f, hf', hiff⟩ := C38_adaptor_valid_iff_adapted_valid H r.keyAggCtx.aggregatedPubkey sig msg 0 h0
    rw [zero_smul] at hiff
    have hok := hiff.1 hv
    have : (r2.run H calls).1.finalize H = .ok f := by
      unfold SecondRound.finalize
      rw [hs]
      show Res.unwrap (sig.adapt 0) = _
      rw [hf']
      rfl
    rw [hf] at this
    cases this
    exact hok

/-- The hypotheses of C70 can be met, for every adaptor point and message, under SHA-256. -/
example (T : MaybePoint) (msg : Bytes) : ∃ r r2 calls, FirstRound.Reachable sha256 r ∧
    r.keyAggCtx.pubkeys[r.signerIndex]? = some (mulG scalarOne) ∧
    r.finalizeAdaptor sha256 scalarOne T msg = .ok r2 ∧ (r2.run sha256 calls).1.isComplete = true ∧
    r2.aggregatedNonce.R1 + r2.aggregatedNonce.nonceCoefficient sha256 r.keyAggCtx.aggregatedPubkey msg
      • r2.aggregatedNonce.R2 ≠ 0 := by
  obtain ⟨r, R, h1, -, h2, h3, h4⟩ := complete_round_exists
  obtain ⟨r2, s, h5, h6, h7⟩ := h4 T msg
  exact ⟨r, r2, _, h1, h2, h5, h6, by rw [h7]; exact h3⟩

/-! ## C62 -/

/-- **C62**, what holds. On every second round `finalize` fails exactly when `finalize_adaptor` does and with the same
error, and it never panics. If it returns a signature then that signature is valid exactly when the two sides of the
verification equation for the adaptor point `T` and for no adaptor point agree, which for `T` not infinity is a
relation between hash values. Missing: the error that the documentation promises for every adaptor session; there is
none, see `C62_adaptor_session_finalizes` and `C62_invalid_signature_returned`. -/
theorem C62_finalize_partial (H : Hash) (hH : TagsAgree H) (r : SecondRound) :
    (∀ e, r.finalize H = .err e ↔ r.finalizeAdaptor H = .err e) ∧
    r.finalize H ≠ .panic ∧
    (∀ f, r.finalize H = .ok f ↔ ∃ a, r.finalizeAdaptor H = .ok a ∧ a.adapt 0 = some f) ∧
    ∀ f a, r.finalize H = .ok f → r.finalizeAdaptor H = .ok a →
      (verifySingleLifted H r.keyAggCtx.aggregatedPubkey f r.message = .ok () ↔
        let Q := r.keyAggCtx.aggregatedPubkey.1
        Spec.sgn (a.R + r.adaptorPoint) • a.R + Spec.challenge H (a.R + r.adaptorPoint) Q r.message • Spec.sgn Q • Q
          = Spec.sgn a.R • a.R + Spec.challenge H a.R Q r.message • Spec.sgn Q • Q) := by
  have hok : ∀ a, r.finalizeAdaptor H = .ok a → ∃ f, r.finalize H = .ok f ∧ a.adapt 0 = some f := by
    intro a ha
    obtain ⟨R, hR, hf⟩ := SecondRound.finalize_of_ok ha
    refine ⟨_, hf, ?_⟩
    have : a = ⟨R.1, a.s⟩ := by
      cases a
      simp only at hR
      rw [hR]
    rw [this]
    exact adapt_zero R a.s
  have hcase : (∃ e, r.finalizeAdaptor H = .err e ∧ r.finalize H = .err e) ∨
      ∃ a f, r.finalizeAdaptor H = .ok a ∧ r.finalize H = .ok f ∧ a.adapt 0 = some f := by
    rcases SecondRound.finalizeAdaptor_cases H r with h | h | ⟨a, h⟩
    · exact Or.inl ⟨_, h, SecondRound.finalize_of_err h⟩
    · exact Or.inl ⟨_, h, SecondRound.finalize_of_err h⟩
    · obtain ⟨f, h1, h2⟩ := hok a h
      exact Or.inr ⟨a, f, h, h1, h2⟩
  refine ⟨fun e => ?_, ?_, fun f => ?_, fun f a hf ha => ?_⟩
  · rcases hcase with ⟨e', h1, h2⟩ | ⟨a, f, h1, h2, -⟩ <;> rw [h1, h2] <;> simp
  · rcases hcase with ⟨e', h1, h2⟩ | ⟨a, f, h1, h2, -⟩ <;> rw [h2] <;> simp
  · rcases hcase with ⟨e', h1, h2⟩ | ⟨a, f', h1, h2, h3⟩ <;> rw [h1, h2]
    · simp
    · simp [h3]
  · obtain ⟨f', h1, h2⟩ := hok a ha
    rw [hf] at h1
    cases h1
    rw [verify_adapt h2, zero_smul]
    unfold SecondRound.finalizeAdaptor at ha
    obtain ⟨ss, -, ha⟩ := Res.bind_eq_ok.1 ha
    rw [Res.mapErr_eq_ok] at ha
    obtain ⟨-, hv⟩ := aggregateAdaptor_eq_ok.1 ha
    have hv := verifySingleAdaptor_eq_ok.1 hv
    rw [verifySingleAdaptor_eq_ok, add_zero]
    change a.s • G = _ at hv
    change a.s • G = _ ↔ _
    rw [hv]
    dsimp only
    rw [spec_challenge hH, spec_challenge hH, sgn_smul, sgn_smul, sgn_smul, ← toEvenY_val]
    rfl

/-- **C62** is false of the code: `finalize` of a complete adaptor session returns a signature, whatever the adaptor
point (same exception as C70). -/
theorem C62_adaptor_session_finalizes (H : Hash) (r : FirstRound) (hr : FirstRound.Reachable H r) (sk : Scalar)
    (hsk : r.keyAggCtx.pubkeys[r.signerIndex]? = some (mulG sk)) (T : MaybePoint) (msg : Bytes) (r2 : SecondRound)
    (h : r.finalizeAdaptor H sk T msg = .ok r2) (calls : List (ℕ × PartialSignature))
    (hcomp : (r2.run H calls).1.isComplete = true)
    (hR : r2.aggregatedNonce.R1
      + r2.aggregatedNonce.nonceCoefficient H r.keyAggCtx.aggregatedPubkey msg • r2.aggregatedNonce.R2 ≠ 0) :
    ∃ f, (r2.run H calls).1.finalize H = .ok f := by
  obtain ⟨sig, hs, -⟩ := C70_complete_round_finalizes H r hr sk hsk T msg r2 h calls hcomp hR
  obtain ⟨R, -, hf⟩ := SecondRound.finalize_of_ok hs
  exact ⟨_, hf⟩

/-- The hypotheses of the last two theorems are those of C70, here with the adaptor point `G` and the empty message. -/
example : TagsAgree sha256 ∧ ∃ r r2 calls, FirstRound.Reachable sha256 r ∧
    r.keyAggCtx.pubkeys[r.signerIndex]? = some (mulG scalarOne) ∧
    r.finalizeAdaptor sha256 scalarOne G [] = .ok r2 ∧ (r2.run sha256 calls).1.isComplete = true ∧
    r2.aggregatedNonce.R1 + r2.aggregatedNonce.nonceCoefficient sha256 r.keyAggCtx.aggregatedPubkey []
      • r2.aggregatedNonce.R2 ≠ 0 := by
  obtain ⟨r, R, h1, -, h2, h3, h4⟩ := complete_round_exists
  obtain ⟨r2, s, h5, h6, h7⟩ := h4 G []
  exact ⟨sha256_tagsAgree, r, r2, _, h1, h2, h5, h6, by rw [h7]; exact h3⟩

/-- **C62** is false, concretely, and the signature returned can be invalid: for every message there is a complete
adaptor session under SHA-256 with a finite adaptor point for which `finalize` returns, without an error, a signature
that does not verify. -/
theorem C62_invalid_signature_returned (msg : Bytes) : ∃ r : SecondRound, SecondRound.Reachable sha256 r ∧
    r.isComplete = true ∧ r.adaptorPoint ≠ 0 ∧ r.message = msg ∧
    ∃ f, r.finalize sha256 = .ok f ∧ verifySingleLifted sha256 r.keyAggCtx.aggregatedPubkey f msg ≠ .ok () := by
  obtain ⟨r, R, h1, h1', h2, hR, h4⟩ := complete_round_exists
  obtain ⟨r2, s, h5, h6, h7⟩ := h4 (-((2 : MaybeScalar) • R)) msg
  have h2R : (2 : MaybeScalar) • R ≠ 0 := by
    rw [Ne, smul_eq_zero_iff]
    exact fun h => h.elim two_ne_zero_scalar hR
  obtain ⟨sig, hs, hsR, -⟩ := C70_complete_round_finalizes sha256 r h1 scalarOne h2 _ msg r2 h5 [(1, s)] h6
    (by rw [h7]; exact hR)
  rw [h7] at hsR
  have hinv2 := SecondRound.inv_finalize h1.inv h5
  obtain ⟨f1, f2, f3, f4, -⟩ := stored_accepted h1 h2 h5 [(1, s)]
  obtain ⟨-, g1, g2, g3, g4, g5, g6⟩ := hinv2.run [(1, s)]
  rw [f3] at g4
  rw [f4] at g5
  obtain ⟨R', -, hf⟩ := SecondRound.finalize_of_ok hs
  refine ⟨_, .receive (.finalize h1 h5) 1 s, h6, ?_, g5, _, hf, fun hv => ?_⟩
  · change (r2.run sha256 [(1, s)]).1.adaptorPoint ≠ 0
    rw [g4]
    exact neg_ne_zero.2 h2R
  · have := ((C62_finalize_partial sha256 sha256_tagsAgree (r2.run sha256 [(1, s)]).1).2.2.2 _ sig hf hs).1 (by rw [g5]; exact hv)
    rw [g4, hsR] at this
    have hadd : R + -((2 : MaybeScalar) • R) = -R := by
      rw [two_smul]
      abel
    dsimp only at this
    rw [hadd, spec_challenge sha256_tagsAgree, spec_challenge sha256_tagsAgree, xonly_neg, sgn_smul, sgn_smul, sgn_smul, isOdd_neg hR,
      add_left_inj] at this
    apply h2R
    rw [two_smul]
    revert this
    cases isOdd R <;> intro this
    · have h : -R = R := this
      nth_rewrite 1 [← h]
      exact neg_add_cancel R
    · have h : R = -R := this
      nth_rewrite 1 [h]
      exact neg_add_cancel R

end Verif
