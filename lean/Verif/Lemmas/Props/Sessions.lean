import Verif.Spec.Claims
import Verif.Spec.HonestSession
import Verif.Lemmas.Props.Rounds

/-!
# Lemmas and example data for `Props/Sessions`
-/

namespace Verif

namespace HonestGroup

variable {H : Hash}

theorem nonces_get (g : HonestGroup H) {j : ℕ} (hj : j < g.sks.length) :
    g.nonces[j]? = some (g.rounds j).ourPublicNonce := by
  unfold nonces
  rw [List.getElem?_map, List.getElem?_range hj]
  rfl

theorem length_keys (g : HonestGroup H) : g.ctx.pubkeys.length = g.sks.length := by
  rw [g.keys, List.length_map]

/-- The partial signature of signer `i`. -/
def psig (g : HonestGroup H) (T : MaybePoint) (msg : Bytes) (i : ℕ) : PartialSignature :=
  partialSigValue H g.ctx (g.sks[i]?.getD scalarOne) (g.rounds i).secnonce (AggNonce.sum g.nonces) T msg

theorem key_get (g : HonestGroup H) {j : ℕ} (hj : j < g.sks.length) :
    g.ctx.pubkeys[j]? = some (mulG g.sks[j]) := by
  rw [g.keys, List.getElem?_map, List.getElem?_eq_getElem hj]
  rfl

theorem psig_verifies (g : HonestGroup H) (T : MaybePoint) (msg : Bytes) {j : ℕ} (hj : j < g.sks.length) :
    verifyPartialAdaptor H g.ctx (g.psig T msg j) (AggNonce.sum g.nonces) T (mulG g.sks[j])
      (g.rounds j).ourPublicNonce msg = .ok () := by
  refine (verifyPartialAdaptor_eq_ok g.reachable.inv).2 ⟨List.mem_of_getElem? (g.key_get hj), ?_⟩
  unfold psig
  rw [List.getElem?_eq_getElem hj, Option.getD_some]
  exact partialSigValue_smul _ _ _ _ _ _ _

theorem allVerified (g : HonestGroup H) (T : MaybePoint) (msg : Bytes) :
    AllVerified H g.ctx T g.nonces ((List.range g.sks.length).map (g.psig T msg)) msg := by
  refine ⟨by simp [nonces, g.length_keys], by simp [g.length_keys], fun j P pn s h1 h2 h3 => ?_⟩
  have hj : j < g.sks.length := by
    rw [← g.length_keys]
    exact (List.getElem?_eq_some_iff.1 h1).1
  rw [g.key_get hj] at h1
  rw [g.nonces_get hj] at h2
  rw [List.getElem?_map, List.getElem?_range hj] at h3
  cases h1
  cases h2
  cases h3
  exact g.psig_verifies T msg hj

open Classical in
/-- What happens at one signer, up to the aggregation of all partial signatures. -/
theorem signer (g : HonestGroup H) (T : MaybePoint) (msg : Bytes) {i : ℕ} (hi : i < g.sks.length)
    (calls : List (ℕ × PubNonce)) (hn : g.NonceSchedule i calls) :
    ∃ r2, ((g.rounds i).run calls).1.finalizeAdaptor H g.sks[i] T msg = .ok r2 ∧
      (∀ ε, (r2.ourSignature : Res ε _) = .ok (g.psig T msg i)) ∧
      ∀ scalls, g.SignatureSchedule (g.psig T msg) i scalls →
        (r2.run H scalls).1.isComplete = true ∧
        (r2.run H scalls).1.finalizeAdaptor H =
          (aggregatePartialAdaptorSignatures H g.ctx (AggNonce.sum g.nonces) T
            ((List.range g.sks.length).map (g.psig T msg)) msg).mapErr
              RoundFinalizeError.invalidAggregatedSignature := by
  have hst := g.started i hi
  obtain ⟨h1, h2, hil⟩ := new_fields hst
  have hinv := (FirstRound.inv_new g.reachable hst).run calls
  have hk : ((g.rounds i).run calls).1.keyAggCtx = g.ctx := (run_ctx _ calls).1.trans h1
  have hown : ((g.rounds i).run calls).1.signerIndex = i := (run_ctx _ calls).2.1.trans h2
  have hsn := (run_ctx (g.rounds i) calls).2.2
  have hns : ((g.rounds i).run calls).1.pubnonceSlots.finalize = .ok g.nonces := by
    rw [hinv.slots_finalize, hk]
    refine ⟨by simp [nonces, g.length_keys], fun j hj => ?_⟩
    rw [stored_history g.reachable hst calls hj, Spec.nonceFor_eq]
    rw [g.length_keys] at hj
    rw [g.nonces_get hj]
    by_cases hij : i = j
    · subst hij
      rw [if_pos rfl]
      rfl
    · rw [if_neg hij, Option.none_or]
      exact hn j hj fun e => hij e.symm
  have hf := hinv.finalizeAdaptor_eq g.sks[i] T msg hns
  rw [hk, hown, hsn] at hf
  have hmem : mulG g.sks[i] ∈ g.ctx.orderedPubkeys := List.mem_of_getElem? (g.key_get hi)
  rw [if_pos hmem] at hf
  have hpv : partialSigValue H g.ctx g.sks[i] (g.rounds i).secnonce (AggNonce.sum g.nonces) T msg = g.psig T msg i := by
    unfold psig
    rw [List.getElem?_eq_getElem hi, Option.getD_some]
  rw [hpv] at hf
  have hinv2 := SecondRound.inv_finalize hinv hf
  have hnl : i < g.nonces.length := by simpa [nonces] using hi
  have hmine : ∀ r2 : SecondRound, r2 = ⟨g.ctx, i, g.nonces, AggNonce.sum g.nonces, T, msg,
      ((Slots.new g.nonces.length).place (g.psig T msg i) i).1⟩ → r2.stored i = some (g.psig T msg i) := by
    rintro r2 rfl
    unfold SecondRound.stored
    simp only
    rw [Slots.place_new hnl]
    simp only
    rw [List.getElem?_set_self (by simpa using hnl)]
    rfl
  refine ⟨_, hf, fun ε => ?_, fun scalls hs => ?_⟩
  · obtain ⟨s, hs, ho⟩ := SecondRound.ourSignature_eq hinv2 ε
    rw [hmine _ rfl] at hs
    cases hs
    exact ho
  · obtain ⟨hrun, e1, e2, e3, e4, e5, e6⟩ := hinv2.run scalls
    have hsl := (hrun.slots_finalize ((List.range g.sks.length).map (g.psig T msg))).2 (by
      rw [e1]
      refine ⟨by simp [g.length_keys], fun j hj => ?_⟩
      rw [hinv2.stored_run scalls j hj]
      rw [g.length_keys] at hj
      rw [List.getElem?_map, List.getElem?_range hj, Option.map_some]
      by_cases hij : j = i
      · subst hij
        rw [hmine _ rfl]
        rfl
      · have hacc : SecondRound.Accepts H ⟨g.ctx, i, g.nonces, AggNonce.sum g.nonces, T, msg,
            ((Slots.new g.nonces.length).place (g.psig T msg i) i).1⟩ j (g.psig T msg j) :=
          ⟨_, _, g.key_get hj, g.nonces_get hj, g.psig_verifies T msg hj⟩
        rcases hso : SecondRound.stored ⟨g.ctx, i, g.nonces, AggNonce.sum g.nonces, T, msg,
            ((Slots.new g.nonces.length).place (g.psig T msg i) i).1⟩ j with _ | w
        · rw [Option.none_or]
          cases hfv : Spec.firstValue (scalls.filter fun c => decide (SecondRound.Accepts H ⟨g.ctx, i, g.nonces,
              AggNonce.sum g.nonces, T, msg, ((Slots.new g.nonces.length).place (g.psig T msg i) i).1⟩ c.1 c.2)) j with
          | none =>
            exact absurd rfl (firstValue_eq_none.1 hfv (j, g.psig T msg j)
              (List.mem_filter.2 ⟨hs j hj hij, by simpa using hacc⟩))
          | some v =>
            have hv := (List.mem_filter.1 (firstValue_mem hfv)).2
            rw [decide_eq_true_eq] at hv
            exact congrArg some (hv.unique g.reachable hacc)
        · rw [Option.some_or]
          exact congrArg some ((hinv2.valid j w hij hso).unique g.reachable hacc))
    refine ⟨hrun.isComplete_iff.2 ⟨_, hsl⟩, ?_⟩
    rw [SecondRound.finalizeAdaptor_eq hsl, e1, e3, e4, e5]

end HonestGroup

/-- A hash for the examples: SHA-256 on short inputs, so that the tags are right, and `1` on all others. -/
def stubHash : Hash := fun m => if m.length < 32 then sha256 m else ⟨beBytes 32 1, beBytes_length 32 1⟩

theorem stubHash_tagsAgree : TagsAgree stubHash where
  keyAggList := by decide +kernel
  keyAggCoeff := by decide +kernel
  musigAux := by decide +kernel
  musigNonce := by decide +kernel
  musigNoncecoef := by decide +kernel
  bip340Aux := by decide +kernel
  bip340Nonce := by decide +kernel
  bip340Challenge := by decide +kernel
  bip340Batch := by decide +kernel
  tapTweak := by decide +kernel

theorem stubHash_tagHash (d : Bytes) (hd : d.length = 32) (m : Bytes) : reduceFrom (tagHash stubHash d m) = 1 := by
  have h : tagHash stubHash d m = ⟨beBytes 32 1, beBytes_length 32 1⟩ := by
    unfold tagHash stubHash
    rw [if_neg (by simp only [List.length_append]; omega)]
  rw [h]
  decide +kernel

/-- The secret keys `1` and `2`. -/
def stubKeys : List Scalar := [scalarOne, ⟨2, two_ne_zero_scalar⟩]

theorem natCast_scalar_ne_zero {k : ℕ} (h0 : 0 < k) (h : k < 100) : ((k : ℕ) : MaybeScalar) ≠ 0 := by
  rw [Ne, ZMod.natCast_eq_zero_iff]
  intro hd
  have h1 := Nat.le_of_dvd h0 hd
  have h2 : 100 < orderN := by decide +kernel
  omega

theorem stub_coeff (keys : List Point) (P : Point) : coeffOf stubHash keys P = 1 := by
  unfold coeffOf computeKeyAggregationCoefficient
  split_ifs
  · rfl
  · exact stubHash_tagHash _ (by decide) _

theorem stub_keySum : keySum stubHash (stubKeys.map mulG) = (3 : MaybeScalar) • G := by
  unfold keySum
  simp only [stub_coeff, one_smul]
  simp only [stubKeys, List.map_cons, List.map_nil, List.sum_cons, List.sum_nil, add_zero, mulG_val]
  rw [← add_smul]
  congr 1
  change (1 : MaybeScalar) + 2 = 3
  norm_num

theorem stub_keySum_ne : keySum stubHash (stubKeys.map mulG) ≠ 0 := by
  rw [stub_keySum, Ne, smul_G_eq_zero]
  exact_mod_cast natCast_scalar_ne_zero (k := 3) (by norm_num) (by norm_num)

def stubCtx : KeyAggContext := baseCtx stubHash (stubKeys.map mulG) ⟨_, stub_keySum_ne⟩

theorem stubCtx_new : KeyAggContext.new stubHash (stubKeys.map mulG) = .ok stubCtx :=
  new_eq_ok.2 ⟨by simp [stubKeys], by simp [stubKeys, u32Max], ⟨_, stub_keySum_ne⟩, rfl, rfl⟩

/-- Every first round in this group has the secret nonce `(1, 1)`. -/
theorem stub_nonce {i : ℕ} {r : FirstRound} (h : FirstRound.new stubHash stubCtx zeroSeed i SecNonceSpices.new = .ok r) :
    r.ourPublicNonce = ⟨Gpt, Gpt⟩ := by
  obtain ⟨P, b, -, -, rfl⟩ := FirstRound.new_eq_ok.1 h
  have hone : ∀ m, SecNonceBuilder.reduceOrOne (tagHash stubHash MUSIG_NONCE_TAG_DIGEST m) = scalarOne := by
    intro m
    unfold SecNonceBuilder.reduceOrOne
    have := stubHash_tagHash MUSIG_NONCE_TAG_DIGEST (by decide) m
    have h1 : notZero (reduceFrom (tagHash stubHash MUSIG_NONCE_TAG_DIGEST m)) = some scalarOne :=
      notZero_eq_some.2 this
    rw [h1]
  unfold FirstRound.ourPublicNonce SecNonceBuilder.build SecNonce.publicNonce
  simp only [hone]
  have : mulG scalarOne = Gpt := Subtype.ext (one_smul _ _)
  rw [this]

/-- The fields of a second round, and that it stores only acceptable signatures, if it was started with the signer's
own key. -/
theorem stored_accepted {H : Hash} {r : FirstRound} (hr : FirstRound.Reachable H r) {sk : Scalar}
    (hsk : r.keyAggCtx.pubkeys[r.signerIndex]? = some (mulG sk)) {T : MaybePoint} {msg : Bytes} {r2 : SecondRound}
    (h : r.finalizeAdaptor H sk T msg = .ok r2) (calls : List (ℕ × PartialSignature)) :
    r2.keyAggCtx = r.keyAggCtx ∧ r2.signerIndex = r.signerIndex ∧ r2.adaptorPoint = T ∧ r2.message = msg ∧
      ∀ j w, (r2.run H calls).1.stored j = some w → r2.Accepts H j w := by
  have hinv2 := SecondRound.inv_finalize hr.inv h
  have hf : r2.keyAggCtx = r.keyAggCtx ∧ r2.signerIndex = r.signerIndex ∧ r2.adaptorPoint = T ∧ r2.message = msg ∧
      (∀ w, r2.stored r.signerIndex = some w → r2.Accepts H r.signerIndex w) := by
    rcases Slots.collect_cases r.pubnonceSlots.slots with ⟨ns, hns⟩ | hinc
    · have hns' : r.pubnonceSlots.finalize = .ok ns := hns
      rw [hr.inv.finalizeAdaptor_eq sk T msg hns'] at h
      split_ifs at h
      cases h
      refine ⟨rfl, rfl, rfl, rfl, fun w hw => ?_⟩
      obtain ⟨hl, hst⟩ := (hr.inv.slots_finalize ns).1 hns'
      have hown : r.signerIndex < ns.length := by rw [hl]; exact hr.inv.own
      unfold SecondRound.stored at hw
      simp only at hw
      rw [Slots.place_new hown] at hw
      simp only at hw
      rw [List.getElem?_set_self (by simpa using hown), Option.join_some, Option.some.injEq] at hw
      refine ⟨mulG sk, r.secnonce.publicNonce, hsk, ?_, ?_⟩
      · simp only
        rw [← hst _ hr.inv.own]
        exact hr.inv.mine
      · rw [← hw]
        exact (verifyPartialAdaptor_eq_ok hr.inv.ctx.inv).2
          ⟨List.mem_of_getElem? hsk, partialSigValue_smul H r.keyAggCtx sk r.secnonce _ T msg⟩
    · rw [FirstRound.finalizeAdaptor_incomplete sk T msg hinc] at h
      cases h
  obtain ⟨f1, f2, f3, f4, f5⟩ := hf
  refine ⟨f1, f2, f3, f4, fun j w hw => ?_⟩
  obtain ⟨hrun, g1, g2, g3, g4, g5, g6⟩ := hinv2.run calls
  by_cases hjo : j = r.signerIndex
  · subst hjo
    have := hinv2.stored_run calls r.signerIndex (by rw [f1]; exact hr.inv.own)
    obtain ⟨w', hw'⟩ := hinv2.mine
    rw [f2] at hw'
    rw [hw', Option.some_or] at this
    rw [this] at hw
    cases hw
    exact f5 w hw'
  · have := hrun.valid j w (by rw [g6, f2]; exact hjo) hw
    unfold SecondRound.Accepts at this ⊢
    rw [g1, g2, g3, g4, g5] at this
    exact this

/-- A complete round exists for every adaptor point and message: in the example group under SHA-256 signer 0 has the
nonces `k1, k2`, and signer 1 takes `k1, -k2`, so that the session nonce is `2·k1·G`. Signer 0 may finalize the first
round with either key. -/
theorem complete_round_exists_any : ∃ (r : FirstRound) (R : MaybePoint), FirstRound.Reachable sha256 r ∧
    r.keyAggCtx = exCtx ∧ r.keyAggCtx.pubkeys[r.signerIndex]? = some (mulG scalarOne) ∧ R ≠ 0 ∧
    ∀ (sk : Scalar) (T : MaybePoint) (msg : Bytes), mulG sk ∈ exCtx.pubkeys →
      ∃ r2 s, r.finalizeAdaptor sha256 sk T msg = .ok r2 ∧
      (r2.run sha256 [(1, s)]).1.isComplete = true ∧
      r2.aggregatedNonce.R1
        + r2.aggregatedNonce.nonceCoefficient sha256 r.keyAggCtx.aggregatedPubkey msg • r2.aggregatedNonce.R2 = R := by
  obtain ⟨r, hr⟩ := new_ok (H := sha256) (ctx := exCtx) zeroSeed (i := 0) (by decide) SecNonceSpices.new (by decide)
  let sn : SecNonce := ⟨r.secnonce.k1, ⟨-r.secnonce.k2.1, neg_ne_zero.2 r.secnonce.k2.2⟩⟩
  let n : PubNonce := sn.publicNonce
  have hreach := (FirstRound.Reachable.new exCtx_reachable hr).run [(1, n)]
  obtain ⟨e1, e2, -⟩ := new_fields hr
  have hctx : (r.run [(1, n)]).1.keyAggCtx = exCtx := (run_ctx _ _).1.trans e1
  have hidx : (r.run [(1, n)]).1.signerIndex = 0 := (run_ctx _ _).2.1.trans e2
  have hkey : exCtx.pubkeys[0]? = some (mulG scalarOne) := by
    have : mulG scalarOne = Gpt := Subtype.ext (one_smul _ _)
    rw [this]
    rfl
  have hkey1 : exCtx.pubkeys[1]? = some (mulG skMinusOne) := by
    rw [mulG_minusOne]
    rfl
  refine ⟨_, (2 * r.secnonce.k1.1) • G, hreach, hctx, by rw [hctx, hidx, hkey], ?_, fun sk T msg hsk => ?_⟩
  · rw [Ne, smul_G_eq_zero]
    exact mul_ne_zero two_ne_zero_scalar r.secnonce.k1.2
  have hns : (r.run [(1, n)]).1.pubnonceSlots.finalize = .ok [r.ourPublicNonce, n] := by
    rw [hreach.inv.slots_finalize, hctx]
    refine ⟨rfl, fun j hj => ?_⟩
    rw [stored_history exCtx_reachable hr [(1, n)] hj, Spec.nonceFor_eq]
    have hl : exCtx.pubkeys.length = 2 := rfl
    have : j = 0 ∨ j = 1 := by omega
    rcases this with rfl | rfl <;> rfl
  have hf := hreach.inv.finalizeAdaptor_eq sk T msg hns
  rw [hctx, if_pos (show mulG sk ∈ exCtx.orderedPubkeys from hsk)] at hf
  refine ⟨_, partialSigValue sha256 exCtx skMinusOne sn (AggNonce.sum [r.ourPublicNonce, n]) T msg, hf, ?_, ?_⟩
  · have hinv2 := SecondRound.inv_finalize hreach.inv hf
    obtain ⟨hrun, g1, g2, g3, g4, g5, g6⟩ := hinv2.run
      [(1, partialSigValue sha256 exCtx skMinusOne sn (AggNonce.sum [r.ourPublicNonce, n]) T msg)]
    unfold SecondRound.isComplete
    rw [List.isEmpty_iff, hrun.holdouts_eq, List.filter_eq_nil_iff]
    intro j hj
    rw [g1, List.mem_range] at hj
    classical
    rw [hinv2.stored_run _ j hj]
    have hl : exCtx.pubkeys.length = 2 := rfl
    have : j = 0 ∨ j = 1 := by
      have : j < 2 := hj
      omega
    rcases this with rfl | rfl
    · obtain ⟨w, hw⟩ := hinv2.mine
      rw [hidx] at hw
      rw [hidx, hw]
      simp
    · rw [List.filter_cons_of_pos]
      · simp [Spec.firstValue]
      · rw [decide_eq_true_eq]
        refine ⟨_, _, hkey1, rfl, ?_⟩
        exact (verifyPartialAdaptor_eq_ok exCtx_reachable.inv).2
          ⟨List.mem_of_getElem? hkey1, partialSigValue_smul sha256 exCtx skMinusOne sn _ T msg⟩
  · have hsum : AggNonce.sum [r.ourPublicNonce, n] = ⟨(2 * r.secnonce.k1.1) • G, 0⟩ := by
      rw [AggNonce.sum_eq]
      simp only [List.map_cons, List.map_nil, List.sum_cons, List.sum_nil, add_zero]
      congr 1
      · change r.secnonce.k1.1 • G + r.secnonce.k1.1 • G = _
        rw [two_mul, add_smul]
      · change r.secnonce.k2.1 • G + (-r.secnonce.k2.1) • G = 0
        rw [neg_smul, add_neg_cancel]
    change (AggNonce.sum [r.ourPublicNonce, n]).R1 + _ • (AggNonce.sum [r.ourPublicNonce, n]).R2 = _
    rw [hsum]
    simp only [smul_zero, add_zero]

theorem complete_round_exists : ∃ (r : FirstRound) (R : MaybePoint), FirstRound.Reachable sha256 r ∧
    r.keyAggCtx = exCtx ∧ r.keyAggCtx.pubkeys[r.signerIndex]? = some (mulG scalarOne) ∧ R ≠ 0 ∧
    ∀ (T : MaybePoint) (msg : Bytes), ∃ r2 s, r.finalizeAdaptor sha256 scalarOne T msg = .ok r2 ∧
      (r2.run sha256 [(1, s)]).1.isComplete = true ∧
      r2.aggregatedNonce.R1
        + r2.aggregatedNonce.nonceCoefficient sha256 r.keyAggCtx.aggregatedPubkey msg • r2.aggregatedNonce.R2 = R := by
  obtain ⟨r, R, h1, h2, h3, h4, h5⟩ := complete_round_exists_any
  exact ⟨r, R, h1, h2, h3, h4, fun T msg => h5 scalarOne T msg mulG_one_mem⟩

end Verif
