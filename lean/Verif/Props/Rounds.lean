import Verif.Lemmas.Props.Rounds
import Verif.Lemmas.Rounds
import Verif.Props.Nonces
import Verif.Props.Signing

/-!
# Properties C19 (first round), C53-C59, C63: the signing state machines
-/

namespace Verif

/-! ## C19 -/

/-- **C19**. The nonce of `FirstRound::new` is the hash of the seed, the member's key, the aggregated key, the signer
index and the spices. -/
theorem C19_first_round_nonces (H : Hash) (ctx : KeyAggContext) (seed : Arr 32) (spices : SecNonceSpices) (i : ℕ)
    (r : FirstRound) (h : FirstRound.new H ctx seed i spices = .ok r) :
    r.secnonce.k1.1.val = nonceScalar H ((roundNonceInputs H ctx seed i spices).bytes ++ [0]) ∧
    r.secnonce.k2.1.val = nonceScalar H ((roundNonceInputs H ctx seed i spices).bytes ++ [1]) := by
  unfold FirstRound.new at h
  obtain ⟨P, h1, h⟩ := Res.bind_eq_ok.1 h
  obtain ⟨b, h2, h⟩ := Res.bind_eq_ok.1 h
  obtain ⟨u, -, h⟩ := Res.bind_eq_ok.1 h
  cases h
  rw [Res.okOr_eq_ok] at h1
  have hb : nonceInputs H b = roundNonceInputs H ctx seed i spices := by
    unfold FirstRound.builder at h2
    obtain ⟨b1, h3, h4⟩ := Res.bind_eq_ok.1 h2
    obtain ⟨-, rfl⟩ := SecNonceBuilder.withExtraInput_eq_ok.1 h3
    obtain ⟨-, rfl⟩ := SecNonceBuilder.withSpices_eq_ok.1 h4
    unfold nonceInputs roundNonceInputs
    congr 1
    · congr 1
      cases spices.seckey <;> rfl
    · exact h1.symm
    · cases hm : spices.message <;> simp [hm, SecNonceBuilder.new, SecNonceBuilder.withPubkey,
        SecNonceBuilder.withAggregatedPubkey]
  rw [← hb]
  exact ⟨build_k1 H b, build_k2 H b⟩

/-- **C19**. At different indexes these are different strings, for `k1` and `k2` alike. -/
theorem C19_signer_index_separates (H : Hash) (ctx ctx' : KeyAggContext) (seed seed' : Arr 32)
    (spices : SecNonceSpices) (i i' : ℕ) (hi : i ≤ 4294967295) (hi' : i' ≤ 4294967295) (hne : i ≠ i')
    (hm : ∀ m ∈ spices.message, m.length < 2 ^ 64) (x y : UInt8) :
    (roundNonceInputs H ctx seed i spices).bytes ++ [x] ≠ (roundNonceInputs H ctx' seed' i' spices).bytes ++ [y] := by
  have hwf : ∀ ctx seed i, (roundNonceInputs H ctx seed i spices).WF := fun ctx seed i =>
    ⟨maskedSeckey_length _ _ _, by
      intro q hq
      rw [← Option.mem_some_iff.1 hq]
      exact spec_xbytes_length _, hm⟩
  intro h
  have := (nonceInputs_bytes_inj (hwf _ _ _) (hwf _ _ _) h).1
  have := congrArg NonceInputs.extra this
  simp only [roundNonceInputs, Option.some.injEq] at this
  have := (append_inj_len this (by simp)).1
  exact hne (beBytes_injective (by norm_num; omega) (by norm_num; omega) this)

/-- **C19** for the nonces themselves: if two rounds of one context at different indexes, with the same seed and spices,
have a nonce scalar in common, then two different strings have the same nonce hash. -/
theorem C19_equal_nonces_collide (H : Hash) (ctx : KeyAggContext) (hc : Reachable H ctx) (seed : Arr 32)
    (spices : SecNonceSpices) (hm : ∀ m ∈ spices.message, m.length < 2 ^ 64) (i i' : ℕ) (hne : i ≠ i')
    (r r' : FirstRound) (h : FirstRound.new H ctx seed i spices = .ok r)
    (h' : FirstRound.new H ctx seed i' spices = .ok r')
    (he : r.secnonce.k1 = r'.secnonce.k1 ∨ r.secnonce.k1 = r'.secnonce.k2 ∨ r.secnonce.k2 = r'.secnonce.k1 ∨
      r.secnonce.k2 = r'.secnonce.k2) :
    ∃ a ∈ ([0, 1] : Bytes), ∃ b ∈ ([0, 1] : Bytes),
      (roundNonceInputs H ctx seed i spices).bytes ++ [a] ≠ (roundNonceInputs H ctx seed i' spices).bytes ++ [b] ∧
      nonceScalar H ((roundNonceInputs H ctx seed i spices).bytes ++ [a])
        = nonceScalar H ((roundNonceInputs H ctx seed i' spices).bytes ++ [b]) := by
  have hl : ctx.pubkeys.length ≤ 4294967295 := hc.inv.length_le
  have hi := (FirstRound.inv_new hc h).own
  have hi' := (FirstRound.inv_new hc h').own
  rw [(new_fields h).1, (new_fields h).2.1] at hi
  rw [(new_fields h').1, (new_fields h').2.1] at hi'
  have hsep := C19_signer_index_separates H ctx ctx seed seed spices i i' (by omega) (by omega) hne hm
  obtain ⟨e1, e2⟩ := C19_first_round_nonces H ctx seed spices i r h
  obtain ⟨e1', e2'⟩ := C19_first_round_nonces H ctx seed spices i' r' h'
  rcases he with he | he | he | he
  · exact ⟨0, by simp, 0, by simp, hsep _ _, by rw [← e1, ← e1', he]⟩
  · exact ⟨0, by simp, 1, by simp, hsep _ _, by rw [← e1, ← e2', he]⟩
  · exact ⟨1, by simp, 0, by simp, hsep _ _, by rw [← e2, ← e1', he]⟩
  · exact ⟨1, by simp, 1, by simp, hsep _ _, by rw [← e2, ← e2', he]⟩

/-- Both members of the example group can start a round. -/
example : ∃ r r', FirstRound.new sha256 exCtx zeroSeed 0 SecNonceSpices.new = .ok r ∧
    FirstRound.new sha256 exCtx zeroSeed 1 SecNonceSpices.new = .ok r' := by
  obtain ⟨r, hr⟩ := new_ok (H := sha256) (ctx := exCtx) zeroSeed (i := 0) (by decide) SecNonceSpices.new (by decide)
  obtain ⟨r', hr'⟩ := new_ok (H := sha256) (ctx := exCtx) zeroSeed (i := 1) (by decide) SecNonceSpices.new (by decide)
  exact ⟨r, r', hr, hr'⟩

/-! ## C53 -/

/-- **C53**, first round. After any calls, `holdouts` is the increasing list of the other indexes nothing was delivered
for; our own index is not in it; the round is complete when the list is empty, i.e. when every index has a nonce. -/
theorem C53_first_round_holdouts (H : Hash) (ctx : KeyAggContext) (hc : Reachable H ctx) (seed : Arr 32) (i : ℕ)
    (spices : SecNonceSpices) (r : FirstRound) (h : FirstRound.new H ctx seed i spices = .ok r)
    (calls : List (ℕ × PubNonce)) :
    (r.run calls).1.holdouts = (List.range ctx.pubkeys.length).filter
      (fun j => decide (j ≠ i ∧ ∀ c ∈ calls, c.1 ≠ j)) ∧
    (r.run calls).1.holdouts.Pairwise (· < ·) ∧
    i ∉ (r.run calls).1.holdouts ∧
    ((r.run calls).1.isComplete = true ↔ ∀ j < ctx.pubkeys.length, j = i ∨ ∃ c ∈ calls, c.1 = j) := by
  obtain ⟨hctx, -, -⟩ := new_fields h
  have hi := (FirstRound.inv_new hc h).run calls
  have he : (r.run calls).1.holdouts = (List.range ctx.pubkeys.length).filter
      (fun j => decide (j ≠ i ∧ ∀ c ∈ calls, c.1 ≠ j)) := by
    rw [hi.holdouts_eq, (run_ctx r calls).1, hctx]
    apply List.filter_congr
    intro j hj
    rw [List.mem_range] at hj
    rw [stored_history hc h calls hj, Spec.nonceFor_eq, Bool.eq_iff_iff, Option.isNone_iff_eq_none, decide_eq_true_eq,
      Option.or_eq_none_iff, firstValue_eq_none]
    have : (if i = j then some r.ourPublicNonce else none) = none ↔ j ≠ i := by
      split_ifs with hij
      · simp [hij]
      · simp only [true_iff]
        exact fun h => hij h.symm
    rw [this]
  refine ⟨he, ?_, ?_, ?_⟩
  · rw [he]
    exact List.Pairwise.filter _ List.pairwise_lt_range
  · rw [he, List.mem_filter]
    simp
  · unfold FirstRound.isComplete
    rw [he, List.isEmpty_iff, List.filter_eq_nil_iff]
    simp only [List.mem_range, decide_eq_true_eq, not_and, not_forall, not_not]
    constructor
    · intro hall j hj
      by_cases hji : j = i
      · exact Or.inl hji
      · obtain ⟨c, hc, e⟩ := hall j hj hji
        exact Or.inr ⟨c, hc, e⟩
    · intro hall j hj hji
      rcases hall j hj with e | ⟨c, hc, e⟩
      · exact absurd e hji
      · exact ⟨c, hc, e⟩

/-- **C53**, first round, by results: an index leaves the list exactly when a call for it returns `Ok`. -/
theorem C53_first_round_accepted (H : Hash) (ctx : KeyAggContext) (hc : Reachable H ctx) (seed : Arr 32) (i : ℕ)
    (spices : SecNonceSpices) (r : FirstRound) (h : FirstRound.new H ctx seed i spices = .ok r)
    (calls : List (ℕ × PubNonce)) (j : ℕ) (hj : j < ctx.pubkeys.length) (hji : j ≠ i) :
    j ∉ (r.run calls).1.holdouts ↔
      ∃ (k : ℕ) (n : PubNonce), calls[k]? = some (j, n) ∧ (r.run calls).2[k]? = some (.ok ()) := by
  obtain ⟨hctx, -, -⟩ := new_fields h
  rw [(C53_first_round_holdouts H ctx hc seed i spices r h calls).1, List.mem_filter]
  simp only [List.mem_range, hj, true_and, decide_eq_true_eq, not_and, not_forall, not_not]
  constructor
  · intro hex
    obtain ⟨c, hcm, hcj⟩ := hex hji
    have hex' : ∃ k : ℕ, ∃ n, calls[k]? = some (j, n) := by
      obtain ⟨k, hk⟩ := List.getElem?_of_mem hcm
      exact ⟨k, c.2, by rw [hk, ← hcj]⟩
    classical
    obtain ⟨n, hn⟩ := Nat.find_spec hex'
    refine ⟨Nat.find hex', n, hn, ?_⟩
    rw [run_result _ _ _ _ hn]
    have hinv := (FirstRound.inv_new hc h).run (calls.take (Nat.find hex'))
    rw [hinv.receive_eq, (run_ctx r _).1, hctx, if_pos hj, stored_history hc h _ hj, Spec.nonceFor_eq,
      if_neg hji.symm, Option.none_or]
    have : Spec.firstValue (calls.take (Nat.find hex')) j = none := by
      rw [firstValue_eq_none]
      intro c hc hcj
      obtain ⟨k, hk⟩ := List.getElem?_of_mem hc
      rw [List.getElem?_take] at hk
      split_ifs at hk with hlt
      exact Nat.find_min hex' hlt ⟨c.2, by rw [hk, ← hcj]⟩
    rw [this]
  · rintro ⟨k, n, hk, -⟩ -
    exact ⟨(j, n), List.mem_of_getElem? hk, rfl⟩

/-- In the example group signer 0 waits for signer 1, until any nonce is received for it. -/
example (n : PubNonce) : ∃ r, FirstRound.new sha256 exCtx zeroSeed 0 SecNonceSpices.new = .ok r ∧
    (r.run []).1.holdouts = [1] ∧ (r.run [(1, n)]).1.holdouts = [] := by
  obtain ⟨r, hr⟩ := new_ok (H := sha256) (ctx := exCtx) zeroSeed (i := 0) (by decide) SecNonceSpices.new (by decide)
  have h := fun calls => (C53_first_round_holdouts sha256 exCtx exCtx_reachable _ _ _ r hr calls).1
  have hl : exCtx.pubkeys.length = 2 := rfl
  refine ⟨r, hr, (h _).trans ?_, (h _).trans ?_⟩
  · rw [hl]
    decide
  · rw [hl]
    simp [List.range_succ]

/-- **C53**, second round. After any calls, `holdouts` is the increasing list of the other indexes for which no partial
signature that passes `verify_partial` was delivered. -/
theorem C53_second_round_holdouts (H : Hash) (r : FirstRound) (hr : FirstRound.Reachable H r) (sk : Scalar)
    (T : MaybePoint) (msg : Bytes) (r2 : SecondRound) (h : r.finalizeAdaptor H sk T msg = .ok r2)
    (calls : List (ℕ × PartialSignature)) :
    (∀ j, j ∈ (r2.run H calls).1.holdouts ↔ j < r.keyAggCtx.pubkeys.length ∧ j ≠ r.signerIndex ∧
      ∀ s, (j, s) ∈ calls → ∀ P n, r.keyAggCtx.pubkeys[j]? = some P → r2.pubnonces[j]? = some n →
        verifyPartialAdaptor H r.keyAggCtx s r2.aggregatedNonce T P n msg ≠ .ok ()) ∧
    (r2.run H calls).1.holdouts.Pairwise (· < ·) ∧
    r.signerIndex ∉ (r2.run H calls).1.holdouts ∧
    ((r2.run H calls).1.isComplete = true ↔ (r2.run H calls).1.holdouts = []) := by
  have hinv := SecondRound.inv_finalize hr.inv h
  obtain ⟨hrun, hctx, -, -, -, -, hown⟩ := hinv.run calls
  have hf : r2.keyAggCtx = r.keyAggCtx ∧ r2.signerIndex = r.signerIndex ∧ r2.adaptorPoint = T ∧ r2.message = msg ∧
      (∀ j, j ≠ r.signerIndex → r2.stored j = none) := by
    rcases Slots.collect_cases r.pubnonceSlots.slots with ⟨ns, hns⟩ | hinc
    · have hns' : r.pubnonceSlots.finalize = .ok ns := hns
      rw [hr.inv.finalizeAdaptor_eq sk T msg hns'] at h
      split_ifs at h
      cases h
      refine ⟨rfl, rfl, rfl, rfl, fun j hj => ?_⟩
      have hl := ((hr.inv.slots_finalize ns).1 hns').1
      have hown : r.signerIndex < ns.length := by rw [hl]; exact hr.inv.own
      unfold SecondRound.stored
      simp only
      rw [Slots.place_new hown]
      simp only
      rw [List.getElem?_set_ne hj.symm, List.getElem?_replicate]
      split_ifs <;> rfl
    · rw [FirstRound.finalizeAdaptor_incomplete sk T msg hinc] at h
      cases h
  obtain ⟨f1, f2, f3, f4, f5⟩ := hf
  have hmem : ∀ j, j ∈ (r2.run H calls).1.holdouts ↔ j < r.keyAggCtx.pubkeys.length ∧ j ≠ r.signerIndex ∧
      ∀ s, (j, s) ∈ calls → ¬ r2.Accepts H j s := by
    intro j
    rw [hrun.holdouts_eq, List.mem_filter, List.mem_range, hctx, f1]
    refine and_congr_right fun hj => ?_
    rw [hinv.stored_run calls j (by rw [f1]; exact hj), Option.isNone_iff_eq_none, Option.or_eq_none_iff,
      firstValue_eq_none]
    constructor
    · rintro ⟨h1, h2⟩
      refine ⟨fun e => ?_, fun s hs ha => ?_⟩
      · obtain ⟨t, ht⟩ := hinv.mine
        rw [f2, ← e, h1] at ht
        cases ht
      · exact h2 (j, s) (List.mem_filter.2 ⟨hs, by simpa using ha⟩) rfl
    · rintro ⟨h1, h2⟩
      refine ⟨f5 j h1, fun c hc hcj => ?_⟩
      obtain ⟨hc1, hc2⟩ := List.mem_filter.1 hc
      subst hcj
      exact h2 c.2 hc1 (by simpa using hc2)
  refine ⟨fun j => ?_, ?_, ?_, ?_⟩
  · rw [hmem]
    refine and_congr_right fun hj => and_congr_right fun _ => forall_congr' fun s => forall_congr' fun _ => ?_
    unfold SecondRound.Accepts
    rw [f1, f3, f4]
    constructor
    · intro hn P n hP hn' hv
      exact hn ⟨P, n, hP, hn', hv⟩
    · rintro hn ⟨P, n, hP, hn', hv⟩
      exact hn P n hP hn' hv
  · exact hrun.slots.sorted
  · rw [hmem]
    simp
  · unfold SecondRound.isComplete
    rw [List.isEmpty_iff]

/-! ## C54 -/

/-- **C54**. Starting a round panics only if the extra inputs of the spices exceed the limit (together with the signer
index: 4 bytes); otherwise it succeeds for members and returns `SignerIndexError` for other indexes. -/
theorem C54_new_never_panics (H : Hash) (ctx : KeyAggContext) (seed : Arr 32) (i : ℕ) (spices : SecNonceSpices)
    (hs : spices.extraInputs.flatten.length + 4 ≤ 4294967295) :
    (i < ctx.pubkeys.length → ∃ r, FirstRound.new H ctx seed i spices = .ok r) ∧
    (ctx.pubkeys.length ≤ i → FirstRound.new H ctx seed i spices = .err ⟨i, ctx.pubkeys.length⟩) ∧
    FirstRound.new H ctx seed i spices ≠ .panic := by
  have h1 : i < ctx.pubkeys.length → ∃ r, FirstRound.new H ctx seed i spices = .ok r :=
    fun hi => new_ok seed hi spices hs
  have h2 : ctx.pubkeys.length ≤ i → FirstRound.new H ctx seed i spices = .err ⟨i, ctx.pubkeys.length⟩ := by
    intro hi
    unfold FirstRound.new
    rw [getPubkey_eq_none.2 hi]
    rfl
  refine ⟨h1, h2, ?_⟩
  rcases Nat.lt_or_ge i ctx.pubkeys.length with hi | hi
  · obtain ⟨r, hr⟩ := h1 hi
    rw [hr]
    simp
  · rw [h2 hi]
    simp

/-- The limit is sharp: `SecNonceSpices` accepts up to `u32::MAX` bytes, but with more than `u32::MAX - 4` bytes starting
a round panics. -/
theorem C54_new_panics_above_limit (H : Hash) (ctx : KeyAggContext) (seed : Arr 32) (i : ℕ)
    (hi : i < ctx.pubkeys.length) (spices : SecNonceSpices)
    (hs : 4294967295 < spices.extraInputs.flatten.length + 4) :
    FirstRound.new H ctx seed i spices = .panic := by
  unfold FirstRound.new
  have hk : ctx.getPubkey i = some ctx.pubkeys[i] := List.getElem?_eq_getElem hi
  rw [hk]
  simp only [Res.okOr_some, Res.bind_ok]
  have hb : (FirstRound.builder seed ctx.pubkeys[i] ctx.aggregatedPubkey i spices : Res SignerIndexError _) = .panic := by
    unfold FirstRound.builder
    simp only
    have h1 : (((SecNonceBuilder.new seed).withPubkey ctx.pubkeys[i]).withAggregatedPubkey
      ctx.aggregatedPubkey).extraInputs = [] := rfl
    have e1 := (SecNonceBuilder.withExtraInput_eq_ok (ε := SignerIndexError)
      (b := ((SecNonceBuilder.new seed).withPubkey ctx.pubkeys[i]).withAggregatedPubkey ctx.aggregatedPubkey)
      (x := beBytes 4 i)).2
      ⟨by rw [h1]; simp only [List.nil_append, List.flatten_cons, List.flatten_nil, List.append_nil, beBytes_length]; unfold u32Max; omega, rfl⟩
    rw [e1]
    simp only [Res.bind_ok]
    rw [SecNonceBuilder.withSpices_eq_panic, h1]
    simp only [List.nil_append, List.flatten_append, List.flatten_cons, List.flatten_nil, List.append_nil,
      List.length_append, beBytes_length]
    unfold u32Max
    omega
  rw [hb]
  rfl

/-- Spices within the limit and above. -/
example : (SecNonceSpices.mk none none [[1], [2, 3]]).extraInputs.flatten.length + 4 ≤ 4294967295 ∧
    4294967295 < (SecNonceSpices.mk none none [List.replicate 4294967295 0]).extraInputs.flatten.length + 4 := by
  refine ⟨by decide, ?_⟩
  simp only [List.flatten_cons, List.flatten_nil, List.append_nil, List.length_replicate]
  norm_num

/-- **C54**. In no reachable state does any call panic. -/
theorem C54_never_panics (H : Hash) :
    (∀ r, FirstRound.Reachable H r →
      (∀ i n, (r.receiveNonce i n).2 ≠ .panic) ∧
      (∀ sk T msg, r.finalizeAdaptor H sk T msg ≠ .panic) ∧ (∀ sk msg, r.finalize H sk msg ≠ .panic) ∧
      (∀ sk msg an, r.signForAggregator H sk msg an ≠ .panic) ∧
      (∀ sk T msg an, r.signForAggregatorAdaptor H sk T msg an ≠ .panic)) ∧
    (∀ r, SecondRound.Reachable H r →
      (∀ i s, (r.receiveSignature H i s).2 ≠ .panic) ∧ (∀ ε, (r.ourSignature : Res ε _) ≠ .panic) ∧
      r.finalizeAdaptor H ≠ .panic ∧ r.finalize H ≠ .panic) := by
  constructor
  · intro r hr
    have hfin : ∀ sk T msg, r.finalizeAdaptor H sk T msg ≠ .panic := by
      intro sk T msg
      rcases Slots.collect_cases r.pubnonceSlots.slots with ⟨ns, hns⟩ | hinc
      · rw [hr.inv.finalizeAdaptor_eq sk T msg hns]
        split_ifs <;> simp
      · rw [FirstRound.finalizeAdaptor_incomplete sk T msg hinc]
        simp
    refine ⟨fun i n => ?_, hfin, fun sk msg => hfin sk 0 msg, fun sk msg an => ?_, fun sk T msg an => ?_⟩
    · rw [hr.inv.receive_eq]
      split_ifs
      · split
        · split_ifs <;> simp
        · simp
      · simp
    · exact (C24_self_verify_unreachable H r.keyAggCtx hr.inv.ctx sk r.secnonce an 0 msg).2.2.2
    · exact (C24_self_verify_unreachable H r.keyAggCtx hr.inv.ctx sk r.secnonce an T msg).2.1
  · intro r hr
    refine ⟨fun i s => ?_, fun ε => ?_, ?_, ?_⟩
    · rcases hr.inv.receive_cases i s with ⟨-, e⟩ | ⟨-, -, e⟩ | ⟨-, -, -, e⟩ | ⟨-, -, -, e⟩ | ⟨-, -, -, e⟩ <;>
        rw [e] <;> simp
    · obtain ⟨s, -, hs⟩ := SecondRound.ourSignature_eq hr.inv ε
      rw [hs]
      simp
    · rcases SecondRound.finalizeAdaptor_cases H r with e | e | ⟨sig, e⟩ <;> rw [e] <;> simp
    · rcases SecondRound.finalizeAdaptor_cases H r with e | e | ⟨sig, e⟩
      · rw [SecondRound.finalize_of_err e]
        simp
      · rw [SecondRound.finalize_of_err e]
        simp
      · obtain ⟨R, -, e'⟩ := SecondRound.finalize_of_ok e
        rw [e']
        simp

/-! ## C55 -/

/-- **C55**. The result of a `receive_nonce` call, and when it changes the state. What is on file for an index is the
first nonce delivered for it (our own nonce for our own index). -/
theorem C55_receive_nonce (H : Hash) (ctx : KeyAggContext) (hc : Reachable H ctx) (seed : Arr 32) (i : ℕ)
    (spices : SecNonceSpices) (r : FirstRound) (h : FirstRound.new H ctx seed i spices = .ok r)
    (calls : List (ℕ × PubNonce)) (j : ℕ) (n : PubNonce) :
    (ctx.pubkeys.length ≤ j → (r.run calls).1.receiveNonce j n
      = ((r.run calls).1, .err ⟨j, .outOfRange ctx.pubkeys.length⟩)) ∧
    (j < ctx.pubkeys.length → Spec.nonceFor i r.ourPublicNonce calls j = some n →
      (r.run calls).1.receiveNonce j n = ((r.run calls).1, .ok ())) ∧
    (∀ n', j < ctx.pubkeys.length → Spec.nonceFor i r.ourPublicNonce calls j = some n' → n ≠ n' →
      (r.run calls).1.receiveNonce j n = ((r.run calls).1, .err ⟨j, .inconsistentContribution⟩)) ∧
    (j < ctx.pubkeys.length → Spec.nonceFor i r.ourPublicNonce calls j = none →
      ((r.run calls).1.receiveNonce j n).2 = .ok () ∧
      (((r.run calls).1.receiveNonce j n).1.receiveNonce j n).2 = .ok () ∧
      ∀ n', n' ≠ n → (((r.run calls).1.receiveNonce j n).1.receiveNonce j n').2 = .err ⟨j, .inconsistentContribution⟩) := by
  obtain ⟨hctx, -, -⟩ := new_fields h
  have hinv := (FirstRound.inv_new hc h).run calls
  have hk : (r.run calls).1.keyAggCtx = ctx := (run_ctx r calls).1.trans hctx
  have hst : ∀ {j}, j < ctx.pubkeys.length → (r.run calls).1.stored j = Spec.nonceFor i r.ourPublicNonce calls j :=
    fun hj => stored_history hc h calls hj
  refine ⟨fun hj => ?_, fun hj hs => ?_, fun n' hj hs hne => ?_, fun hj hs => ?_⟩
  · refine Prod.ext (hinv.receive_unchanged j n fun hlt => ?_) ?_
    · rw [hk] at hlt
      omega
    · rw [hinv.receive_eq, hk, if_neg (by omega)]
  · refine Prod.ext (hinv.receive_unchanged j n fun _ => ?_) ?_
    · rw [hst hj, hs]
      simp
    · rw [hinv.receive_eq, hk, if_pos hj, hst hj, hs]
      simp
  · refine Prod.ext (hinv.receive_unchanged j n fun _ => ?_) ?_
    · rw [hst hj, hs]
      simp
    · rw [hinv.receive_eq, hk, if_pos hj, hst hj, hs]
      simp only
      rw [if_neg hne]
  · have h1 : ((r.run calls).1.receiveNonce j n).2 = .ok () := by
      rw [hinv.receive_eq, hk, if_pos hj, hst hj, hs]
    have hinv' := hinv.receive j n
    have hst' : ((r.run calls).1.receiveNonce j n).1.stored j = some n := by
      have := hinv.stored_run [(j, n)] (j := j) (by rw [hk]; exact hj)
      rw [hst hj, hs] at this
      refine this.trans ?_
      simp [Spec.firstValue]
    have hk' : ((r.run calls).1.receiveNonce j n).1.keyAggCtx = ctx := hk
    refine ⟨h1, ?_, fun n' hne => ?_⟩
    · rw [hinv'.receive_eq, hk', if_pos hj, hst']
      simp
    · rw [hinv'.receive_eq, hk', if_pos hj, hst']
      simp only
      rw [if_neg hne]

/-- **C55**. A call that returns an error leaves the state unchanged, in both rounds. -/
theorem C55_errors_change_nothing (H : Hash) :
    (∀ r, FirstRound.Reachable H r → ∀ i n e, (r.receiveNonce i n).2 = .err e → (r.receiveNonce i n).1 = r) ∧
    (∀ r, SecondRound.Reachable H r → ∀ i s e, (r.receiveSignature H i s).2 = .err e →
      (r.receiveSignature H i s).1 = r) := by
  constructor
  · intro r hr i n e he
    refine hr.inv.receive_unchanged i n fun hi hn => ?_
    rw [hr.inv.receive_eq, if_pos hi, hn] at he
    cases he
  · intro r hr i s e he
    rcases hr.inv.receive_cases i s with ⟨-, e'⟩ | ⟨-, -, e'⟩ | ⟨-, -, -, e'⟩ | ⟨-, -, -, e'⟩ | ⟨-, -, -, e'⟩
    · rw [e']
    · rw [e']
    · rw [e']
    · rw [e']
    · rw [e'] at he
      cases he

/-! ## C56, C57 -/

/-- **C57**. The outcome of finalizing the first round, from the history of calls. -/
theorem C57_first_round_finalize (H : Hash) (ctx : KeyAggContext) (hc : Reachable H ctx) (seed : Arr 32) (i : ℕ)
    (spices : SecNonceSpices) (r : FirstRound) (h : FirstRound.new H ctx seed i spices = .ok r)
    (calls : List (ℕ × PubNonce)) (sk : Scalar) (T : MaybePoint) (msg : Bytes) :
    ((r.run calls).1.finalizeAdaptor H sk T msg = .err .incomplete ↔ (r.run calls).1.isComplete = false) ∧
    ((r.run calls).1.finalizeAdaptor H sk T msg = .err (.signingError .unknownKey) ↔
      (r.run calls).1.isComplete = true ∧ mulG sk ∉ ctx.pubkeys) ∧
    ((r.run calls).1.isComplete = true → mulG sk ∈ ctx.pubkeys →
      ∃ r2 ns s, (r.run calls).1.finalizeAdaptor H sk T msg = .ok r2 ∧
        ns.length = ctx.pubkeys.length ∧
        (∀ j < ctx.pubkeys.length, ns[j]? = Spec.nonceFor i r.ourPublicNonce calls j) ∧
        r2.pubnonces = ns ∧ r2.aggregatedNonce = AggNonce.sum ns ∧
        signPartialAdaptor H ctx sk r.secnonce (AggNonce.sum ns) T msg = .ok s ∧
        (∀ ε, (r2.ourSignature : Res ε _) = .ok s)) := by
  obtain ⟨hctx, hsi, hil⟩ := new_fields h
  have hinv := (FirstRound.inv_new hc h).run calls
  have hk : (r.run calls).1.keyAggCtx = ctx := (run_ctx r calls).1.trans hctx
  rcases Slots.collect_cases (r.run calls).1.pubnonceSlots.slots with ⟨ns, hns⟩ | hinc
  · have hns' : (r.run calls).1.pubnonceSlots.finalize = .ok ns := hns
    have hcomp : (r.run calls).1.isComplete = true := hinv.isComplete_iff.2 ⟨ns, hns'⟩
    have hf := hinv.finalizeAdaptor_eq sk T msg hns'
    rw [hk] at hf
    have hmm : mulG sk ∈ ctx.orderedPubkeys ↔ mulG sk ∈ ctx.pubkeys := Iff.rfl
    obtain ⟨hl, hst⟩ := (hinv.slots_finalize ns).1 hns'
    rw [hk] at hl hst
    by_cases hm : mulG sk ∈ ctx.pubkeys
    · rw [if_pos (hmm.2 hm)] at hf
      have hown : i < ns.length := by rw [hl]; exact hil
      refine ⟨by rw [hf, hcomp]; simp, by rw [hf]; simp [hm], fun _ _ => ⟨_, ns,
        partialSigValue H ctx sk r.secnonce (AggNonce.sum ns) T msg, hf, hl, fun j hj => ?_, rfl, rfl, ?_, ?_⟩⟩
      · rw [← hst j hj, stored_history hc h calls hj]
      · rw [signPartialAdaptor_eq hc.inv, if_pos (hmm.2 hm)]
      · intro ε
        have hinv2 := SecondRound.inv_finalize hinv (r2 := _) hf
        obtain ⟨s, hs, ho⟩ := SecondRound.ourSignature_eq hinv2 ε
        rw [ho]
        unfold SecondRound.stored at hs
        simp only [(run_ctx r calls).2.1, (run_ctx r calls).2.2, hsi] at hs
        rw [Slots.place_new hown] at hs
        simp only at hs
        rw [List.getElem?_set_self (by simpa using hown), Option.join_some, Option.some.injEq] at hs
        rw [← hs]
    · rw [if_neg (mt hmm.1 hm)] at hf
      refine ⟨by rw [hf, hcomp]; simp, by rw [hf]; simp [hcomp, hm], fun _ hm' => absurd hm' hm⟩
  · have hf := FirstRound.finalizeAdaptor_incomplete (H := H) (r := (r.run calls).1) sk T msg hinc
    have hcomp : (r.run calls).1.isComplete = false := by
      cases hb : (r.run calls).1.isComplete
      · rfl
      · obtain ⟨ns, hns⟩ := hinv.isComplete_iff.1 hb
        unfold Slots.finalize at hns
        rw [hinc] at hns
        cases hns
    refine ⟨by rw [hf, hcomp]; simp, by rw [hf, hcomp]; simp, fun hb => by rw [hcomp] at hb; cases hb⟩

/-- C55 and C57 in the example group: a second nonce for signer 1 is refused if it is another one, and a round without
nonces is incomplete. -/
example (n n' : PubNonce) (hn : n' ≠ n) (msg : Bytes) : ∃ r, FirstRound.new sha256 exCtx zeroSeed 0 SecNonceSpices.new = .ok r ∧
    ((r.run [(1, n)]).1.receiveNonce 1 n').2 = .err ⟨1, .inconsistentContribution⟩ ∧
    (r.run []).1.finalizeAdaptor sha256 scalarOne 0 msg = .err .incomplete := by
  obtain ⟨r, hr⟩ := new_ok (H := sha256) (ctx := exCtx) zeroSeed (i := 0) (by decide) SecNonceSpices.new (by decide)
  have hl : exCtx.pubkeys.length = 2 := rfl
  refine ⟨r, hr, ?_, ?_⟩
  · rw [(C55_receive_nonce sha256 exCtx exCtx_reachable _ _ _ r hr [(1, n)] 1 n').2.2.1 n (by rw [hl]; decide)
      (by simp [Spec.nonceFor, Spec.firstValue]) hn]
  · refine (C57_first_round_finalize sha256 exCtx exCtx_reachable _ _ _ r hr [] scalarOne 0 msg).1.2 (Bool.eq_false_iff.2 fun hcomp => ?_)
    rcases (C53_first_round_holdouts sha256 exCtx exCtx_reachable _ _ _ r hr []).2.2.2.1 hcomp 1 (by rw [hl]; decide) with h | ⟨c, h, -⟩
    · exact absurd h (by decide)
    · exact absurd h (by simp)

/-- **C56**. Two delivery histories in which the first nonce for every other member is the same lead to the same result,
whatever the order, the repetitions and the rejected calls. -/
theorem C56_delivery_order (H : Hash) (ctx : KeyAggContext) (hc : Reachable H ctx) (seed : Arr 32) (i : ℕ)
    (spices : SecNonceSpices) (r : FirstRound) (h : FirstRound.new H ctx seed i spices = .ok r)
    (calls calls' : List (ℕ × PubNonce))
    (hsame : ∀ j < ctx.pubkeys.length, j ≠ i → Spec.firstValue calls j = Spec.firstValue calls' j)
    (sk : Scalar) (T : MaybePoint) (msg : Bytes) :
    (r.run calls).1.finalizeAdaptor H sk T msg = (r.run calls').1.finalizeAdaptor H sk T msg ∧
    (r.run calls).1.finalize H sk msg = (r.run calls').1.finalize H sk msg := by
  obtain ⟨hctx, hsi, hil⟩ := new_fields h
  have hinv0 := FirstRound.inv_new hc h
  have heq : (r.run calls).1 = (r.run calls').1 := by
    have hst : ∀ j < ctx.pubkeys.length, (r.run calls).1.stored j = (r.run calls').1.stored j := by
      intro j hj
      rw [stored_history hc h calls hj, stored_history hc h calls' hj, Spec.nonceFor_eq, Spec.nonceFor_eq]
      by_cases hji : i = j
      · rw [if_pos hji]
        rfl
      · rw [if_neg hji, hsame j hj fun e => hji e.symm]
    have hi1 := hinv0.run calls
    have hi2 := hinv0.run calls'
    have l1 := hi1.len
    have l2 := hi2.len
    rw [(run_ctx r calls).1, hctx] at l1
    rw [(run_ctx r calls').1, hctx] at l2
    have hslots : (r.run calls).1.pubnonceSlots.slots = (r.run calls').1.pubnonceSlots.slots := by
      apply List.ext_getElem
      · rw [l1, l2]
      · intro j h1 h2
        have := hst j (by omega)
        unfold FirstRound.stored at this
        rw [List.getElem?_eq_getElem h1, List.getElem?_eq_getElem h2, Option.join_some, Option.join_some] at this
        exact this
    have hopen : (r.run calls).1.pubnonceSlots.openSlots = (r.run calls').1.pubnonceSlots.openSlots := by
      rw [hi1.slots, hi2.slots, hslots]
    have hps : (r.run calls).1.pubnonceSlots = (r.run calls').1.pubnonceSlots := by
      cases h1 : (r.run calls).1.pubnonceSlots
      cases h2 : (r.run calls').1.pubnonceSlots
      rw [h1, h2] at hslots hopen
      simp only at hslots hopen
      rw [hslots, hopen]
    rw [FirstRound.run_eq] at hps ⊢
    rw [FirstRound.run_eq] at hps ⊢
    simp only at hps
    rw [hps]
  rw [heq]
  exact ⟨rfl, rfl⟩

/-- **C56**, across signers: two members that used the same nonce for every member aggregate to the same nonce. -/
theorem C56_same_aggregated_nonce (H : Hash) (ctx : KeyAggContext) (hc : Reachable H ctx) (seed seed' : Arr 32)
    (i i' : ℕ) (spices spices' : SecNonceSpices) (r r' : FirstRound)
    (h : FirstRound.new H ctx seed i spices = .ok r) (h' : FirstRound.new H ctx seed' i' spices' = .ok r')
    (calls calls' : List (ℕ × PubNonce))
    (hsame : ∀ j < ctx.pubkeys.length,
      Spec.nonceFor i r.ourPublicNonce calls j = Spec.nonceFor i' r'.ourPublicNonce calls' j)
    (sk sk' : Scalar) (T T' : MaybePoint) (msg msg' : Bytes) (r2 r2' : SecondRound)
    (hf : (r.run calls).1.finalizeAdaptor H sk T msg = .ok r2)
    (hf' : (r'.run calls').1.finalizeAdaptor H sk' T' msg' = .ok r2') : r2.aggregatedNonce = r2'.aggregatedNonce := by
  have key : ∀ (seed : Arr 32) (i : ℕ) (spices : SecNonceSpices) (r : FirstRound)
      (_ : FirstRound.new H ctx seed i spices = .ok r) (calls : List (ℕ × PubNonce)) (sk : Scalar) (T : MaybePoint)
      (msg : Bytes) (r2 : SecondRound), (r.run calls).1.finalizeAdaptor H sk T msg = .ok r2 →
      ∃ ns : List PubNonce, ns.length = ctx.pubkeys.length ∧
        (∀ j < ctx.pubkeys.length, ns[j]? = Spec.nonceFor i r.ourPublicNonce calls j) ∧
        r2.aggregatedNonce = AggNonce.sum ns := by
    intro seed i spices r h calls sk T msg r2 hf
    obtain ⟨h1, h2, h3⟩ := C57_first_round_finalize H ctx hc seed i spices r h calls sk T msg
    have hcomp : (r.run calls).1.isComplete = true := by
      by_contra hb
      rw [Bool.not_eq_true] at hb
      rw [h1.2 hb] at hf
      cases hf
    have hm : mulG sk ∈ ctx.pubkeys := by
      by_contra hn
      rw [h2.2 ⟨hcomp, hn⟩] at hf
      cases hf
    obtain ⟨r2', ns, s, e, hl, hns, -, hag, -⟩ := h3 hcomp hm
    rw [hf] at e
    cases e
    exact ⟨ns, hl, hns, hag⟩
  obtain ⟨ns, hl, hns, e⟩ := key _ _ _ _ h _ _ _ _ _ hf
  obtain ⟨ns', hl', hns', e'⟩ := key _ _ _ _ h' _ _ _ _ _ hf'
  have : ns = ns' := by
    apply List.ext_getElem?
    intro j
    rcases Nat.lt_or_ge j ctx.pubkeys.length with hj | hj
    · rw [hns j hj, hns' j hj, hsame j hj]
    · rw [List.getElem?_eq_none (by omega), List.getElem?_eq_none (by omega)]
  rw [e, e', this]

/-- Different histories with the same first values: another order, junk and repetitions. -/
example (a b c : PubNonce) : ∀ j < 3, j ≠ 0 →
    Spec.firstValue [(1, a), (2, b)] j = Spec.firstValue [(9, c), (2, b), (2, c), (0, c), (1, a), (1, a)] j := by
  intro j hj h0
  have : j = 1 ∨ j = 2 := by omega
  rcases this with rfl | rfl <;> rfl

/-! ## C58 -/

/-- **C58**. If our own signature was made with our own key then, after any calls, `receive_signature` returns `Ok`
exactly if the index is in range and the signature passes for that signer; the only other results are `OutOfRange` and
`InvalidSignature`, which leave the state unchanged. `InconsistentContribution` never occurs. -/
theorem C58_second_round_receives (H : Hash) (r : FirstRound) (hr : FirstRound.Reachable H r) (sk : Scalar)
    (hsk : r.keyAggCtx.pubkeys[r.signerIndex]? = some (mulG sk)) (T : MaybePoint) (msg : Bytes) (r2 : SecondRound)
    (h : r.finalizeAdaptor H sk T msg = .ok r2) (calls : List (ℕ × PartialSignature)) (i : ℕ) (s : PartialSignature) :
    let st := (r2.run H calls).1
    (r.keyAggCtx.pubkeys.length ≤ i →
      st.receiveSignature H i s = (st, .err ⟨i, .outOfRange r.keyAggCtx.pubkeys.length⟩)) ∧
    (∀ P n, r.keyAggCtx.pubkeys[i]? = some P → r2.pubnonces[i]? = some n →
      (verifyPartialAdaptor H r.keyAggCtx s r2.aggregatedNonce T P n msg = .ok () ↔
        (st.receiveSignature H i s).2 = .ok ()) ∧
      (verifyPartialAdaptor H r.keyAggCtx s r2.aggregatedNonce T P n msg ≠ .ok () →
        st.receiveSignature H i s = (st, .err ⟨i, .invalidSignature⟩))) ∧
    (st.receiveSignature H i s).2 ≠ .err ⟨i, .inconsistentContribution⟩ := by
  intro st
  have hinv2 := SecondRound.inv_finalize hr.inv h
  have hf : r2.keyAggCtx = r.keyAggCtx ∧ r2.signerIndex = r.signerIndex ∧ r2.adaptorPoint = T ∧ r2.message = msg ∧
      (∀ w, r2.stored r.signerIndex = some w → r2.Accepts H r.signerIndex w) := by
    rcases Slots.collect_cases r.pubnonceSlots.slots with ⟨ns, hns⟩ | hinc
    · have hns' : r.pubnonceSlots.finalize = .ok ns := hns
      rw [hr.inv.finalizeAdaptor_eq sk T msg hns'] at h
      split_ifs at h
      cases h
      refine ⟨rfl, rfl, rfl, rfl, fun w hw => ?_⟩
      obtain ⟨hl, hst⟩ := (hr.inv.slots_finalize ns).1 hns'
      have hown : r.signerIndex < ns.length := by rw [hl]; exact hr.inv.own
      unfold SecondRound.stored at hw
      simp only at hw
      rw [Slots.place_new hown] at hw
      simp only at hw
      rw [List.getElem?_set_self (by simpa using hown), Option.join_some, Option.some.injEq] at hw
      refine ⟨mulG sk, r.secnonce.publicNonce, hsk, ?_, ?_⟩
      · simp only
        rw [← hst _ hr.inv.own]
        exact hr.inv.mine
      · rw [← hw]
        exact (verifyPartialAdaptor_eq_ok hr.inv.ctx.inv).2
          ⟨List.mem_of_getElem? hsk, partialSigValue_smul H r.keyAggCtx sk r.secnonce _ T msg⟩
    · rw [FirstRound.finalizeAdaptor_incomplete sk T msg hinc] at h
      cases h
  obtain ⟨f1, f2, f3, f4, f5⟩ := hf
  obtain ⟨hrun, g1, g2, g3, g4, g5, g6⟩ := hinv2.run calls
  have hacc : ∀ j t, st.Accepts H j t ↔ r2.Accepts H j t := by
    intro j t
    unfold SecondRound.Accepts
    rw [g1, g2, g3, g4, g5]
  have hstored : ∀ j w, j < r.keyAggCtx.pubkeys.length → st.stored j = some w → st.Accepts H j w := by
    intro j w hj hw
    by_cases hjo : j = r.signerIndex
    · subst hjo
      rw [hacc]
      have := hinv2.stored_run calls r.signerIndex (by rw [f1]; exact hr.inv.own)
      obtain ⟨w', hw'⟩ := hinv2.mine
      rw [f2] at hw'
      rw [hw', Option.some_or] at this
      rw [this] at hw
      cases hw
      exact f5 w hw'
    · exact hrun.valid j w (by rw [g6, f2]; exact hjo) hw
  have hlen : st.keyAggCtx.pubkeys.length = r.keyAggCtx.pubkeys.length := by rw [g1, f1]
  have hcases := hrun.receive_cases i s
  rw [hlen] at hcases
  have hverif : ∀ P n, r.keyAggCtx.pubkeys[i]? = some P → r2.pubnonces[i]? = some n →
      (st.Accepts H i s ↔ verifyPartialAdaptor H r.keyAggCtx s r2.aggregatedNonce T P n msg = .ok ()) := by
    intro P n hP hn
    rw [hacc]
    unfold SecondRound.Accepts
    rw [f1, f3, f4]
    constructor
    · rintro ⟨P', n', hP', hn', hv⟩
      rw [hP] at hP'
      rw [hn] at hn'
      cases hP'
      cases hn'
      exact hv
    · intro hv
      exact ⟨P, n, hP, hn, hv⟩
  have hno : ¬ (i < r.keyAggCtx.pubkeys.length ∧ st.Accepts H i s ∧ ∃ w, st.stored i = some w ∧ s ≠ w) := by
    rintro ⟨hi, ha, w, hw, hne⟩
    exact hne (ha.unique hrun.ctx (hstored i w hi hw))
  refine ⟨fun hi => ?_, fun P n hP hn => ?_, ?_⟩
  · rcases hcases with ⟨-, e⟩ | ⟨hi', -⟩ | ⟨hi', -⟩ | ⟨hi', -⟩ | ⟨hi', -⟩
    · exact e
    all_goals omega
  · rw [Ne, ← hverif P n hP hn]
    have hi : i < r.keyAggCtx.pubkeys.length := (List.getElem?_eq_some_iff.1 hP).1
    rcases hcases with ⟨hi', -⟩ | ⟨-, ha, e⟩ | ⟨-, ha, -, e⟩ | ⟨-, ha, hw, e⟩ | ⟨-, ha, -, e⟩
    · exact absurd hi hi'
    · change ¬ st.Accepts H i s at ha
      change st.receiveSignature H i s = (st, _) at e
      rw [e]
      simp [ha]
    · change st.Accepts H i s at ha
      change st.receiveSignature H i s = _ at e
      rw [e]
      simp [ha]
    · exact absurd ⟨hi, ha, hw⟩ hno
    · change st.Accepts H i s at ha
      change st.receiveSignature H i s = _ at e
      rw [e]
      simp [ha]
  · rcases hcases with ⟨-, e⟩ | ⟨-, ha, e⟩ | ⟨-, ha, -, e⟩ | ⟨hi, ha, hw, e⟩ | ⟨-, ha, -, e⟩
    · change st.receiveSignature H i s = _ at e
      rw [e]
      simp
    · change st.receiveSignature H i s = _ at e
      rw [e]
      simp
    · change st.receiveSignature H i s = _ at e
      rw [e]
      simp
    · exact absurd ⟨hi, ha, hw⟩ hno
    · change st.receiveSignature H i s = _ at e
      rw [e]
      simp

/-- Second rounds exist: in the example group signer 0 finalizes with its key after receiving any nonce for signer 1. -/
theorem second_round_exists (n : PubNonce) (T : MaybePoint) (msg : Bytes) (sk : Scalar)
    (hsk : mulG sk ∈ exCtx.pubkeys) :
    ∃ r r2, FirstRound.new sha256 exCtx zeroSeed 0 SecNonceSpices.new = .ok r ∧
      (r.run [(1, n)]).1.isComplete = true ∧ (r.run [(1, n)]).1.finalizeAdaptor sha256 sk T msg = .ok r2 := by
  obtain ⟨r, hr⟩ := new_ok (H := sha256) (ctx := exCtx) zeroSeed (i := 0) (by decide) SecNonceSpices.new (by decide)
  have hcomp : (r.run [(1, n)]).1.isComplete = true := by
    refine (C53_first_round_holdouts sha256 exCtx exCtx_reachable _ _ _ r hr [(1, n)]).2.2.2.2 fun j hj => ?_
    have : exCtx.pubkeys.length = 2 := rfl
    have : j = 0 ∨ j = 1 := by omega
    rcases this with rfl | rfl
    · exact Or.inl rfl
    · exact Or.inr ⟨_, List.mem_singleton.2 rfl, rfl⟩
  obtain ⟨r2, -, -, h2, -⟩ :=
    (C57_first_round_finalize sha256 exCtx exCtx_reachable _ _ _ r hr [(1, n)] sk T msg).2.2 hcomp hsk
  exact ⟨r, r2, hr, hcomp, h2⟩

/-- The hypotheses of C53 (second round) and C58 can be met, with the signer's own key. -/
example (n : PubNonce) (msg : Bytes) : ∃ r r2, FirstRound.Reachable sha256 r ∧
    r.keyAggCtx.pubkeys[r.signerIndex]? = some (mulG scalarOne) ∧
    r.finalizeAdaptor sha256 scalarOne 0 msg = .ok r2 := by
  obtain ⟨r, r2, hr, -, h2⟩ := second_round_exists n 0 msg scalarOne mulG_one_mem
  refine ⟨_, r2, (FirstRound.Reachable.new exCtx_reachable hr).run [(1, n)], ?_, h2⟩
  obtain ⟨h1, h2, -⟩ := new_fields hr
  rw [(run_ctx _ _).1, (run_ctx _ _).2.1, h1, h2]
  have : mulG scalarOne = Gpt := Subtype.ext (one_smul _ _)
  rw [this]
  rfl

/-! ## C59 -/

/-- **C59**, true part: a key outside the group is caught. Missing: the key of another member, which is accepted, see
`C59_other_member_key_accepted`. -/
theorem C59_wrong_key_partial (H : Hash) (ctx : KeyAggContext) (hc : Reachable H ctx) (seed : Arr 32) (i : ℕ)
    (spices : SecNonceSpices) (r : FirstRound) (h : FirstRound.new H ctx seed i spices = .ok r)
    (calls : List (ℕ × PubNonce)) (sk : Scalar) (hsk : mulG sk ∉ ctx.pubkeys) (msg : Bytes) :
    (r.run calls).1.finalize H sk msg = .err .incomplete ∨
    (r.run calls).1.finalize H sk msg = .err (.signingError .unknownKey) := by
  obtain ⟨h1, h2, -⟩ := C57_first_round_finalize H ctx hc seed i spices r h calls sk 0 msg
  cases hb : (r.run calls).1.isComplete
  · exact Or.inl (h1.2 hb)
  · exact Or.inr (h2.2 ⟨hb, hsk⟩)

/-- The key `2` is not in the example group. -/
example : mulG ⟨2, two_ne_zero_scalar⟩ ∉ exCtx.pubkeys := two_not_mem

/-- **C59** is false: every complete first round can be finalized with the key of any other member. -/
theorem C59_other_member_key_accepted (H : Hash) (ctx : KeyAggContext) (hc : Reachable H ctx) (seed : Arr 32) (i : ℕ)
    (spices : SecNonceSpices) (r : FirstRound) (h : FirstRound.new H ctx seed i spices = .ok r)
    (calls : List (ℕ × PubNonce)) (hcomp : (r.run calls).1.isComplete = true) (sk : Scalar)
    (hsk : mulG sk ∈ ctx.pubkeys) (msg : Bytes) :
    ∃ r2, (r.run calls).1.finalize H sk msg = .ok r2 := by
  obtain ⟨r2, -, -, h2, -⟩ := (C57_first_round_finalize H ctx hc seed i spices r h calls sk 0 msg).2.2 hcomp hsk
  exact ⟨r2, h2⟩

/-- **C59** is false, concretely: signer 0 of the example group has public key `G`, and finalizes its first round with
the secret key of `-G`. -/
theorem C59_wrong_key_false (msg : Bytes) : ∃ r r2, FirstRound.Reachable sha256 r ∧ r.isComplete = true ∧
    r.keyAggCtx.pubkeys[r.signerIndex]? ≠ some (mulG skMinusOne) ∧
    r.finalize sha256 skMinusOne msg = .ok r2 := by
  obtain ⟨r, r2, hr, hcomp, h2⟩ := second_round_exists ⟨Gpt, Gpt⟩ 0 msg skMinusOne mulG_minusOne_mem
  refine ⟨_, r2, (FirstRound.Reachable.new exCtx_reachable hr).run [(1, ⟨Gpt, Gpt⟩)], hcomp, ?_, h2⟩
  obtain ⟨h1, h2, -⟩ := new_fields hr
  rw [(run_ctx _ _).1, (run_ctx _ _).2.1, h1, h2, mulG_minusOne]
  intro he
  have : (some Gpt : Option Point) = some negGpt := he
  exact negGpt_ne (Option.some.inj this).symm

/-! ## C63 -/

/-- **C63**. Signing for an aggregator, whatever nonces were received, gives the partial signature of the peer-to-peer
flow when the aggregated nonce is the same, and fails with `UnknownKey` exactly for keys outside the group. -/
theorem C63_single_aggregator (H : Hash) (ctx : KeyAggContext) (hc : Reachable H ctx) (seed : Arr 32) (i : ℕ)
    (spices : SecNonceSpices) (r : FirstRound) (h : FirstRound.new H ctx seed i spices = .ok r)
    (calls calls' : List (ℕ × PubNonce)) (sk : Scalar) (T : MaybePoint) (msg : Bytes) :
    (∀ r2, (r.run calls).1.finalizeAdaptor H sk T msg = .ok r2 →
      ∃ s, (r2.ourSignature : Res SigningError _) = .ok s ∧
        (r.run calls').1.signForAggregatorAdaptor H sk T msg r2.aggregatedNonce = .ok s) ∧
    (∀ r2, (r.run calls).1.finalize H sk msg = .ok r2 →
      ∃ s, (r2.ourSignature : Res SigningError _) = .ok s ∧
        (r.run calls').1.signForAggregator H sk msg r2.aggregatedNonce = .ok s) ∧
    (∀ an, mulG sk ∈ ctx.pubkeys → ∃ s, (r.run calls').1.signForAggregatorAdaptor H sk T msg an = .ok s) ∧
    (∀ an, mulG sk ∉ ctx.pubkeys → (r.run calls').1.signForAggregatorAdaptor H sk T msg an = .err .unknownKey) := by
  obtain ⟨hctx, -, -⟩ := new_fields h
  have hk : (r.run calls').1.keyAggCtx = ctx := (run_ctx r calls').1.trans hctx
  have key : ∀ T r2, (r.run calls).1.finalizeAdaptor H sk T msg = .ok r2 →
      ∃ s, (r2.ourSignature : Res SigningError _) = .ok s ∧
        (r.run calls').1.signForAggregatorAdaptor H sk T msg r2.aggregatedNonce = .ok s := by
    intro T r2 hf
    obtain ⟨h1, h2, h3⟩ := C57_first_round_finalize H ctx hc seed i spices r h calls sk T msg
    have hcomp : (r.run calls).1.isComplete = true := by
      by_contra hb
      rw [Bool.not_eq_true] at hb
      rw [h1.2 hb] at hf
      cases hf
    have hm : mulG sk ∈ ctx.pubkeys := by
      by_contra hn
      rw [h2.2 ⟨hcomp, hn⟩] at hf
      cases hf
    obtain ⟨r2', ns, s, e, hl, hns, -, hag, hs, ho⟩ := h3 hcomp hm
    rw [hf] at e
    cases e
    refine ⟨s, ho _, ?_⟩
    unfold FirstRound.signForAggregatorAdaptor
    rw [hk, (run_ctx r calls').2.2, hag]
    exact hs
  refine ⟨key T, key 0, fun an hm => ?_, fun an hm => ?_⟩
  · unfold FirstRound.signForAggregatorAdaptor
    rw [hk]
    exact (C24_sign_iff_member H ctx hc sk _ an T msg).1 hm
  · unfold FirstRound.signForAggregatorAdaptor
    rw [hk]
    exact (C24_sign_iff_member H ctx hc sk _ an T msg).2 hm

/-- Signer 0 of the example group signs, in the peer-to-peer flow and for an aggregator. -/
example (n : PubNonce) (msg : Bytes) : ∃ r r2 s, FirstRound.new sha256 exCtx zeroSeed 0 SecNonceSpices.new = .ok r ∧
    (r.run [(1, n)]).1.finalizeAdaptor sha256 scalarOne 0 msg = .ok r2 ∧ (r2.ourSignature : Res SigningError _) = .ok s ∧
    (r.run []).1.signForAggregatorAdaptor sha256 scalarOne 0 msg r2.aggregatedNonce = .ok s := by
  obtain ⟨r, r2, hr, -, h2⟩ := second_round_exists n 0 msg scalarOne mulG_one_mem
  obtain ⟨s, h3, h4⟩ := (C63_single_aggregator sha256 exCtx exCtx_reachable _ _ _ r hr [(1, n)] [] scalarOne 0 msg).1 r2 h2
  exact ⟨r, r2, s, hr, h2, h3, h4⟩

end Verif
