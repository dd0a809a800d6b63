import Verif.Lemmas.Props.MixedSession

/-!
# C142: sessions with misbehaving members
-/

namespace Verif

/-- **C142**. In a group with any misbehaving members, whose nonces all honest members are told alike, there are partial
signatures `psigs` of the honest members and one valid adaptor signature `sig` such that every honest member finalizes
the first round with its own of these, for all schedules of nonces, and then, for all calls of `receive_signature`
that were made before:

* it accepts the signature of every honest member, and no other one for that member;
* a signature that it rejects is an invalid one; the error names the member it was delivered for, who did not make it if
  honest;
* `holdouts` are exactly the members none of whose valid signatures were delivered, the same ones at every honest
  member; honest members whose signatures were delivered are not among them;
* without holdouts it finalizes to `sig` if the session nonce is finite. -/
theorem C142_only_misbehaving_named (H : Hash) (g : MixedGroup H) (T : MaybePoint) (msg : Bytes) :
    ∃ (psigs : ℕ → PartialSignature) (sig : AdaptorSignature),
      verifySingleAdaptor H g.ctx.aggregatedPubkey sig msg T = .ok () ∧
      (∀ j ∈ g.honest, ∀ s, g.Valid T msg j s ↔ s = psigs j) ∧
      ∀ i ∈ g.honest, ∀ ncalls, g.NonceSchedule i ncalls →
        ∃ r2, ((g.rounds i).run ncalls).1.finalizeAdaptor H (g.sk i) T msg = .ok r2 ∧
          (∀ ε, (r2.ourSignature : Res ε _) = .ok (psigs i)) ∧
          ∀ calls,
            let st := (r2.run H calls).1
            (∀ j s, j < g.ctx.pubkeys.length →
              ((st.receiveSignature H j s).2 = .ok () ↔ g.Valid T msg j s) ∧
              (¬ g.Valid T msg j s → st.receiveSignature H j s = (st, .err ⟨j, .invalidSignature⟩))) ∧
            (∀ j, j ∈ st.holdouts ↔
              j < g.ctx.pubkeys.length ∧ j ≠ i ∧ ∀ s, (j, s) ∈ calls → ¬ g.Valid T msg j s) ∧
            (∀ j ∈ g.honest, (j, psigs j) ∈ calls → j ∉ st.holdouts) ∧
            (g.sessionNonce msg ≠ 0 → st.holdouts = [] → st.finalizeAdaptor H = .ok sig) := by
  obtain ⟨s0, hs0, hu⟩ := C73_unique_adaptor_scalar H g.ctx.aggregatedPubkey (g.sessionNonce msg) T msg
  let psigs : ℕ → PartialSignature := fun i =>
    partialSigValue H g.ctx (g.sk i) (g.rounds i).secnonce (AggNonce.sum g.told) T msg
  have hval : ∀ j ∈ g.honest, ∀ s, g.Valid T msg j s ↔ s = psigs j := by
    intro j hj s
    have hp : verifyPartialAdaptor H g.ctx (psigs j) (AggNonce.sum g.told) T (mulG (g.sk j))
        (g.rounds j).ourPublicNonce msg = .ok () :=
      (verifyPartialAdaptor_eq_ok g.reachable.inv).2
        ⟨List.mem_of_getElem? (g.keys j hj), partialSigValue_smul _ _ _ _ _ _ _⟩
    constructor
    · rintro ⟨P, n, h1, h2, h3⟩
      rw [g.keys j hj] at h1
      rw [g.told_honest j hj] at h2
      cases h1
      cases h2
      have e1 := ((verifyPartialAdaptor_eq_ok g.reachable.inv).1 h3).2
      have e2 := ((verifyPartialAdaptor_eq_ok g.reachable.inv).1 hp).2
      exact smul_G_inj.1 (e1.trans e2.symm)
    · rintro rfl
      exact ⟨_, _, g.keys j hj, g.told_honest j hj, hp⟩
  refine ⟨psigs, ⟨g.sessionNonce msg, s0⟩, hs0, hval, fun i hi ncalls hn => ?_⟩
  obtain ⟨hre, hk, ho, r2, hf, hpn, han, hk2, hT, hm, hour⟩ := g.second_round T msg hi ncalls hn
  refine ⟨r2, hf, hour, fun calls => ?_⟩
  intro st
  have hsk : ((g.rounds i).run ncalls).1.keyAggCtx.pubkeys[((g.rounds i).run ncalls).1.signerIndex]?
      = some (mulG (g.sk i)) := by
    rw [hk, ho]
    exact g.keys i hi
  have hhold : ∀ j, j ∈ st.holdouts ↔
      j < g.ctx.pubkeys.length ∧ j ≠ i ∧ ∀ s, (j, s) ∈ calls → ¬ g.Valid T msg j s := by
    intro j
    rw [(C53_second_round_holdouts H _ hre (g.sk i) T msg r2 hf calls).1 j, hk, ho, hpn, han]
    refine and_congr_right fun _ => and_congr_right fun _ => forall_congr' fun s => imp_congr_right fun _ => ?_
    unfold MixedGroup.Valid
    push Not
    rfl
  refine ⟨fun j s hj => ?_, hhold, fun j hj hc hh => ?_, fun hR hnil => ?_⟩
  · have hn' : ∃ n, g.told[j]? = some n := ⟨_, List.getElem?_eq_getElem (by rw [g.told_length]; exact hj)⟩
    obtain ⟨n, hn'⟩ := hn'
    have hP := List.getElem?_eq_getElem hj
    have h58 := (C58_second_round_receives H _ hre (g.sk i) hsk T msg r2 hf calls j s).2.1 _ n (by rw [hk]; exact hP)
      (by rw [hpn]; exact hn')
    rw [hk, han] at h58
    have hv : g.Valid T msg j s ↔ verifyPartialAdaptor H g.ctx s (AggNonce.sum g.told) T g.ctx.pubkeys[j] n msg = .ok () := by
      constructor
      · rintro ⟨P', n', h1, h2, h3⟩
        rw [hP] at h1
        rw [hn'] at h2
        cases h1
        cases h2
        exact h3
      · exact fun h => ⟨_, _, hP, hn', h⟩
    rw [hv]
    exact ⟨h58.1.symm, h58.2⟩
  · exact ((hhold j).1 hh).2.2 _ hc ((hval j hj _).2 rfl)
  · have hcomp : st.isComplete = true := (C53_second_round_holdouts H _ hre (g.sk i) T msg r2 hf calls).2.2.2.2 hnil
    obtain ⟨sig, h1, h2, h3⟩ := C70_complete_round_finalizes H _ hre (g.sk i) hsk T msg r2 hf calls hcomp
      (by rw [hk, han]; exact hR)
    rw [hk, han] at h2
    rw [hk] at h3
    have h2' : sig.R = g.sessionNonce msg := h2
    rw [h1]
    cases sig
    simp only at h2'
    subst h2'
    rw [hu _ h3]

/-- Two honest members and a third one that never signs: the others name it, and nobody else. -/
example (T : MaybePoint) (msg : Bytes) : ∃ (g : MixedGroup stubHash) (i : ℕ) (ncalls : List (ℕ × PubNonce))
    (r2 : SecondRound) (calls : List (ℕ × PartialSignature)), g.honest = {0, 1} ∧ g.ctx.pubkeys.length = 3 ∧
    g.sessionNonce msg ≠ 0 ∧ i ∈ g.honest ∧ g.NonceSchedule i ncalls ∧
    ((g.rounds i).run ncalls).1.finalizeAdaptor stubHash (g.sk i) T msg = .ok r2 ∧
    ∀ j, j ∈ (r2.run stubHash calls).1.holdouts ↔ j = 2 := by
  obtain ⟨g, hc, hh, ht, hR⟩ := mixed_group msg
  obtain ⟨psigs, sig, -, hv, hall⟩ := C142_only_misbehaving_named stubHash g T msg
  have hl : g.ctx.pubkeys.length = 3 := by rw [hc]; rfl
  have hn : g.NonceSchedule 0 [(2, blameNonce0), (1, ⟨Gpt, Gpt⟩)] := by
    intro j hj h0
    rw [hl] at hj
    rw [ht]
    obtain rfl | rfl : j = 1 ∨ j = 2 := by omega
    · rfl
    · rfl
  have hi0 : 0 ∈ g.honest := by rw [hh]; simp
  have hi1 : 1 ∈ g.honest := by rw [hh]; simp
  obtain ⟨r2, hf, -, hcalls⟩ := hall 0 hi0 _ hn
  refine ⟨g, 0, _, r2, [(1, psigs 1)], hh, hl, hR, hi0, hn, hf, fun j => ?_⟩
  rw [(hcalls [(1, psigs 1)]).2.1 j, hl]
  constructor
  · rintro ⟨h1, h2, h3⟩
    by_contra h
    obtain rfl : j = 1 := by omega
    exact h3 _ (List.mem_singleton.2 rfl) ((hv 1 hi1 _).2 rfl)
  · rintro rfl
    refine ⟨by norm_num, by norm_num, fun s hs => ?_⟩
    simp at hs

end Verif
