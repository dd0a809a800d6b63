import Verif.Props.MixedSession
import Verif.Props.Aggregator

/-!
# C150: a single aggregator can name the members at fault
-/

namespace Verif

/-- **C150**. An aggregator is told the nonces of all members, adds them, and sends the aggregated nonce. The honest members sign with
`sign_for_aggregator`, whatever nonces they received themselves. Then there are partial signatures `psigs` and a valid adaptor signature `sig` such
that:

* every honest member `i` answers `psigs i`, the only partial signature that `verify_partial` accepts for it;
* partial signatures that are all accepted are aggregated to `sig`;
* whatever other partial signatures are aggregated, either the result is `sig`, or the aggregation fails with `BadSignature`, and then some of them
  are rejected by `verify_partial`, of members who are not honest or whose own answers these are not.

The session nonce is assumed finite. -/
theorem C150_aggregator_names_culprits (H : Hash) (g : MixedGroup H) (T : MaybePoint) (msg : Bytes) (hR : g.sessionNonce msg ≠ 0) :
    ∃ (psigs : ℕ → PartialSignature) (sig : AdaptorSignature),
      verifySingleAdaptor H g.ctx.aggregatedPubkey sig msg T = .ok () ∧
      (∀ i ∈ g.honest, ∀ calls,
        ((g.rounds i).run calls).1.signForAggregatorAdaptor H (g.sk i) T msg (AggNonce.sum g.told) = .ok (psigs i)) ∧
      (∀ i ∈ g.honest, ∀ s, g.Valid T msg i s ↔ s = psigs i) ∧
      ∀ sigs : List PartialSignature, sigs.length = g.ctx.pubkeys.length →
        ((∀ j s, sigs[j]? = some s → g.Valid T msg j s) →
          aggregatePartialAdaptorSignatures H g.ctx (AggNonce.sum g.told) T sigs msg = .ok sig) ∧
        (aggregatePartialAdaptorSignatures H g.ctx (AggNonce.sum g.told) T sigs msg = .ok sig ∨
          aggregatePartialAdaptorSignatures H g.ctx (AggNonce.sum g.told) T sigs msg = .err .badSignature ∧
            ∃ j s, sigs[j]? = some s ∧ ¬ g.Valid T msg j s ∧ (j ∉ g.honest ∨ s ≠ psigs j)) := by
  obtain ⟨psigs, -, -, hval, -⟩ := C142_only_misbehaving_named H g T msg
  obtain ⟨s0, hs0, hu⟩ := C73_unique_adaptor_scalar H g.ctx.aggregatedPubkey (g.sessionNonce msg) T msg
  have hfin : ((AggNonce.sum g.told).finalNonce ((AggNonce.sum g.told).nonceCoefficient H g.ctx.aggregatedPubkey msg)).1
      = g.sessionNonce msg := finalNonce_eq_of_ne hR
  have hone : ∀ sigs a, aggregatePartialAdaptorSignatures H g.ctx (AggNonce.sum g.told) T sigs msg = .ok a → a = ⟨g.sessionNonce msg, s0⟩ := by
    intro sigs a ha
    obtain ⟨e, hv⟩ := aggregateAdaptor_eq_ok.1 ha
    have hr : a.R = g.sessionNonce msg := by
      rw [e]
      exact hfin
    cases a
    simp only at hr
    subst hr
    rw [hu _ hv]
  have hok : ∀ sigs : List PartialSignature, sigs.length = g.ctx.pubkeys.length → (∀ j s, sigs[j]? = some s → g.Valid T msg j s) →
      aggregatePartialAdaptorSignatures H g.ctx (AggNonce.sum g.told) T sigs msg = .ok ⟨g.sessionNonce msg, s0⟩ := by
    intro sigs hl hall
    obtain ⟨a, ha, -⟩ := (C94_aggregate_iff_nonce H g.ctx g.reachable (AggNonce.sum g.told) T g.told sigs msg g.told_length hl
      (fun i P pn s h1 h2 h3 => by
        obtain ⟨P', n', e1, e2, e3⟩ := hall i s h3
        rw [h1] at e1
        rw [h2] at e2
        cases e1
        cases e2
        exact e3)).1 hfin
    rw [ha, hone _ _ ha]
  refine ⟨psigs, ⟨g.sessionNonce msg, s0⟩, hs0, fun i hi calls => ?_, hval, fun sigs hl => ⟨hok sigs hl, ?_⟩⟩
  · have hst := g.started i hi
    obtain ⟨h1, -, -⟩ := new_fields hst
    obtain ⟨k1, -, k3⟩ := run_ctx (g.rounds i) calls
    obtain ⟨P, n, e1, e2, e3⟩ := (hval i hi _).2 rfl
    rw [g.keys i hi] at e1
    rw [g.told_honest i hi] at e2
    cases e1
    cases e2
    unfold FirstRound.signForAggregatorAdaptor
    rw [k1.trans h1, k3]
    exact (C27_signer_produces_it H g.ctx g.reachable _ T (g.sk i) (List.mem_of_getElem? (g.keys i hi)) _ msg _).1 e3
  · rcases C32_adaptor_aggregate_total H g.ctx (AggNonce.sum g.told) T sigs msg with h | ⟨a, ha⟩
    · refine .inr ⟨h, ?_⟩
      by_contra hn
      push Not at hn
      have : ∀ j s, sigs[j]? = some s → g.Valid T msg j s := by
        intro j s hs
        by_contra hv
        obtain ⟨hj, e⟩ := hn j s hs hv
        exact hv ((hval j hj s).2 e)
      rw [hok sigs hl this] at h
      cases h
    · exact .inl (by rw [ha, hone _ _ ha])

/-- **C150**, for ordinary signatures: `sign_for_aggregator` and `aggregate_partial_signatures`. -/
theorem C150_aggregator_names_culprits_plain (H : Hash) (g : MixedGroup H) (msg : Bytes) (hR : g.sessionNonce msg ≠ 0) :
    ∃ (psigs : ℕ → PartialSignature) (sig : LiftedSignature),
      verifySingleLifted H g.ctx.aggregatedPubkey sig msg = .ok () ∧
      (∀ i ∈ g.honest, ∀ calls,
        ((g.rounds i).run calls).1.signForAggregator H (g.sk i) msg (AggNonce.sum g.told) = .ok (psigs i)) ∧
      (∀ i ∈ g.honest, ∀ s, g.Valid 0 msg i s ↔ s = psigs i) ∧
      ∀ sigs : List PartialSignature, sigs.length = g.ctx.pubkeys.length →
        ((∀ j s, sigs[j]? = some s → g.Valid 0 msg j s) →
          aggregatePartialSignatures H g.ctx (AggNonce.sum g.told) sigs msg = .ok sig) ∧
        (aggregatePartialSignatures H g.ctx (AggNonce.sum g.told) sigs msg = .ok sig ∨
          aggregatePartialSignatures H g.ctx (AggNonce.sum g.told) sigs msg = .err .badSignature ∧
            ∃ j s, sigs[j]? = some s ∧ ¬ g.Valid 0 msg j s ∧ (j ∉ g.honest ∨ s ≠ psigs j)) := by
  obtain ⟨psigs, a, ha, hsign, hval, hall⟩ := C150_aggregator_names_culprits H g 0 msg hR
  have hex : ∃ sigs : List PartialSignature, sigs.length = g.ctx.pubkeys.length ∧ ∀ j s, sigs[j]? = some s → g.Valid 0 msg j s := by
    have hs : ∀ j, ∃ s, j < g.ctx.pubkeys.length → g.Valid 0 msg j s := by
      intro j
      by_cases hj : j < g.ctx.pubkeys.length
      · have hj' : j < g.told.length := by rw [g.told_length]; exact hj
        obtain ⟨s, hs, -⟩ := C27_unique_partial_signature H g.ctx g.reachable (AggNonce.sum g.told) 0 _ (List.getElem_mem hj) g.told[j] msg
        exact ⟨s, fun _ => ⟨_, _, List.getElem?_eq_getElem hj, List.getElem?_eq_getElem hj', hs⟩⟩
      · exact ⟨0, fun h => absurd h hj⟩
    choose f hf using hs
    refine ⟨(List.range g.ctx.pubkeys.length).map f, by simp, fun j s hj => ?_⟩
    rw [List.getElem?_map, Option.map_eq_some_iff] at hj
    obtain ⟨k, hk, rfl⟩ := hj
    obtain ⟨hlt, rfl⟩ := List.getElem?_eq_some_iff.1 hk
    rw [List.getElem_range]
    exact hf _ (by simpa using hlt)
  obtain ⟨sigs0, hl0, hv0⟩ := hex
  have h0 := (hall sigs0 hl0).1 hv0
  have hne : a.R + (0 : MaybeScalar) • G ≠ 0 := by
    rw [zero_smul, add_zero, (aggregateAdaptor_eq_ok.1 h0).1]
    exact (sessionR H g.ctx (AggNonce.sum g.told) msg).2
  obtain ⟨f, hf, hiff⟩ := C38_adaptor_valid_iff_adapted_valid H g.ctx.aggregatedPubkey a msg 0 hne
  have hcode : ∀ sigs, aggregatePartialAdaptorSignatures H g.ctx (AggNonce.sum g.told) 0 sigs msg = .ok a →
      aggregatePartialSignatures H g.ctx (AggNonce.sum g.told) sigs msg = .ok f := by
    intro sigs h
    unfold aggregatePartialSignatures
    rw [h]
    simp only [Res.bind_ok]
    rw [hf]
    rfl
  refine ⟨psigs, f, hiff.1 (by rw [zero_smul]; exact ha), hsign, hval, fun sigs hl => ⟨fun h => hcode _ ((hall sigs hl).1 h), ?_⟩⟩
  rcases (hall sigs hl).2 with h | ⟨h, hx⟩
  · exact .inl (hcode _ h)
  · refine .inr ⟨?_, hx⟩
    unfold aggregatePartialSignatures
    rw [h]
    rfl

/-- Two honest members and a third one that answers something else: the aggregation fails, and only the third answer is rejected. -/
example (T : MaybePoint) (msg : Bytes) : ∃ (g : MixedGroup stubHash) (sigs : List PartialSignature), g.honest = {0, 1} ∧ g.sessionNonce msg ≠ 0 ∧
    sigs.length = g.ctx.pubkeys.length ∧
    aggregatePartialAdaptorSignatures stubHash g.ctx (AggNonce.sum g.told) T sigs msg = .err .badSignature ∧
    ∀ j s, sigs[j]? = some s → (g.Valid T msg j s ↔ j ≠ 2) := by
  obtain ⟨g, hc, hh, ht, hR⟩ := mixed_group msg
  obtain ⟨psigs, sig, hs, -, hval, hall⟩ := C150_aggregator_names_culprits stubHash g T msg hR
  have hl : g.ctx.pubkeys.length = 3 := by rw [hc]; rfl
  have h0 : 0 ∈ g.honest := by rw [hh]; simp
  have h1 : 1 ∈ g.honest := by rw [hh]; simp
  have hP : ∃ P, g.ctx.pubkeys[2]? = some P := ⟨_, List.getElem?_eq_getElem (by omega)⟩
  obtain ⟨P, hP⟩ := hP
  have hn : g.told[2]? = some blameNonce0 := by rw [ht]; rfl
  obtain ⟨s2, hv2, hu2⟩ := C27_unique_partial_signature stubHash g.ctx g.reachable (AggNonce.sum g.told) T P
    (List.mem_of_getElem? hP) blameNonce0 msg
  have hgood : g.Valid T msg 2 s2 := ⟨P, _, hP, hn, hv2⟩
  have hbad : ¬ g.Valid T msg 2 (s2 + 1) := by
    rintro ⟨P', n', e1, e2, e3⟩
    rw [hP] at e1
    rw [hn] at e2
    cases e1
    cases e2
    have := hu2 _ e3
    simp at this
  have hsum : ∀ a, aggregatePartialAdaptorSignatures stubHash g.ctx (AggNonce.sum g.told) T [psigs 0, psigs 1, s2 + 1] msg ≠ .ok a := by
    intro a ha
    have hg := (hall [psigs 0, psigs 1, s2] (by rw [hl]; rfl)).1 (by
      intro j s hj
      match j with
      | 0 => cases hj; exact (hval 0 h0 _).2 rfl
      | 1 => cases hj; exact (hval 1 h1 _).2 rfl
      | 2 => cases hj; exact hgood
      | j + 3 => simp at hj)
    rcases (hall [psigs 0, psigs 1, s2 + 1] (by rw [hl]; rfl)).2 with hb | ⟨hb, -⟩
    · have e1 := (aggregateAdaptor_eq_ok.1 hg).1
      have e2 := (aggregateAdaptor_eq_ok.1 hb).1
      have e3 := congrArg AdaptorSignature.s (e1.symm.trans e2)
      simp [aggValue] at e3
    · rw [hb] at ha
      cases ha
  refine ⟨g, [psigs 0, psigs 1, s2 + 1], hh, hR, by rw [hl]; rfl, ?_, ?_⟩
  · rcases C32_adaptor_aggregate_total stubHash g.ctx (AggNonce.sum g.told) T [psigs 0, psigs 1, s2 + 1] msg with h | ⟨a, ha⟩
    · exact h
    · exact absurd ha (hsum a)
  · intro j s hj
    match j with
    | 0 => cases hj; simpa using (hval 0 h0 _).2 rfl
    | 1 => cases hj; simpa using (hval 1 h1 _).2 rfl
    | 2 => cases hj; simpa using hbad
    | j + 3 => simp at hj

end Verif
