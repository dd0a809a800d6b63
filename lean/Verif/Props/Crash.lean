import Verif.Lemmas.Props.Crash

/-!
# Property C152: sessions survive crashes

C148 says what is at stake when a session is started again after it has signed. Here all nonces that arrive are those that everybody was told,
as in C142, also after a crash.
-/

namespace Verif

open Spec (Program Event)

/-- **C152**. There are partial signatures `psigs` and an adaptor signature `sig`, such that for every honest member `i` and every history
of its program, with any number of crashes, if the nonces that arrive are always those told:
* all partial signatures that it ever sends are the same one, the only valid one;
* it can be asked for again at any time in the second round;
* in the first round it sends this partial signature to an aggregator that sends the sum of the nonces told;
* a second round without holdouts is finalized to `sig`, if the session nonce is finite;
* after it is started, the program is in the first round, and if the nonces arrive, then it is asked to sign, and valid signatures of all others
  arrive, in any order and among any other messages, it is in the second round without holdouts. -/
theorem C152_sessions_survive_crashes (H : Hash) (g : MixedGroup H) (T : MaybePoint) (msg : Bytes) :
    ∃ (psigs : ℕ → PartialSignature) (sig : AdaptorSignature),
      verifySingleAdaptor H g.ctx.aggregatedPubkey sig msg T = .ok () ∧
      (∀ j ∈ g.honest, ∀ s, g.Valid T msg j s ↔ s = psigs j) ∧
      ∀ i ∈ g.honest, ∀ es, g.Faithful i es →
        (∀ s ∈ (g.life i T msg .stopped es).2, s = psigs i) ∧
        (∀ r, (g.life i T msg .stopped es).1 = .first r →
          (g.life i T msg .stopped (es ++ [.aggregated (AggNonce.sum g.told)])).2 = (g.life i T msg .stopped es).2 ++ [psigs i]) ∧
        (∀ r, (g.life i T msg .stopped es).1 = .second r →
          (∀ ε, (r.ourSignature : Res ε _) = .ok (psigs i)) ∧
          (g.sessionNonce msg ≠ 0 → r.holdouts = [] → r.finalizeAdaptor H = .ok sig)) ∧
        (g.life i T msg .stopped (es ++ [.start])).1 = .first (g.rounds i) ∧
        ∀ nonces sigs, (g.life i T msg .stopped es).1 ≠ .stopped →
          g.Faithful i nonces → .start ∉ nonces → .sign ∉ nonces → (∀ an, .aggregated an ∉ nonces) →
          (∀ j n, g.told[j]? = some n → j ≠ i → .nonce j n ∈ nonces) → .start ∉ sigs →
          (∀ j < g.ctx.pubkeys.length, j ≠ i → ∃ s, g.Valid T msg j s ∧ .signature j s ∈ sigs) →
          ∃ r, (g.life i T msg .stopped (es ++ (nonces ++ .sign :: sigs))).1 = .second r ∧ r.holdouts = [] := by
  obtain ⟨psigs, sig, hv, hval, hall⟩ := C142_only_misbehaving_named H g T msg
  refine ⟨psigs, sig, hv, hval, fun i hi es he => ?_⟩
  have hps : partialSigValue H g.ctx (g.sk i) (g.rounds i).secnonce (AggNonce.sum g.told) T msg = psigs i := by
    obtain ⟨r2, hf, ho, -⟩ := hall i hi _ (g.told_schedule i)
    obtain ⟨-, -, -, r2', hf', -, -, -, -, -, ho'⟩ := g.second_round T msg hi _ (g.told_schedule i)
    obtain rfl := Res.ok.inj (hf.symm.trans hf')
    exact Res.ok.inj ((ho' Unit).symm.trans (ho Unit))
  have hlife := MixedGroup.life_stage (T := T) (msg := msg) hi he (p := .stopped) (.inl rfl)
  refine ⟨fun s hs => (hlife.2 s hs).trans hps, fun r hr => ?_, fun r hr => ?_, ?_, fun nonces sigs hne hfn hns hng hna hn hss hsig => ?_⟩
  · rw [MixedGroup.life_append]
    simp only
    rw [hr] at hlife ⊢
    rcases hlife.1 with h | h
    · cases h
    · cases h with
      | first calls ht hN =>
        simp only [MixedGroup.life, MixedGroup.step, MixedGroup.sign_aggregated hi calls, hps, List.append_nil]
  · rw [hr] at hlife
    rcases hlife.1 with h | h
    · cases h
    · cases h with
      | second ncalls hn r2 hf calls hS =>
        obtain ⟨r2', hf', ho, hst⟩ := hall i hi ncalls hn
        obtain rfl := Res.ok.inj (hf.symm.trans hf')
        have hre := (g.second_round T msg hi ncalls hn).1
        refine ⟨fun ε => ?_, (hst calls).2.2.2⟩
        rw [(SecondRound.inv_finalize hre.inv hf).ourSignature_run calls ε]
        exact ho ε
  · rw [MixedGroup.life_append]
    simp only [MixedGroup.life, MixedGroup.step, g.started i hi]
  · rw [MixedGroup.life_append, MixedGroup.life_append]
    simp only
    obtain ⟨N', h1, -, h3⟩ := MixedGroup.life_nonces hfn hns hng hna (hlife.1.resolve_left hne)
    have key : ∃ ncalls r2 calls, g.NonceSchedule i ncalls ∧ ((g.rounds i).run ncalls).1.finalizeAdaptor H (g.sk i) T msg = .ok r2 ∧
        (g.step i T msg (g.life i T msg (g.life i T msg .stopped es).1 nonces).1 .sign).1 = .second (r2.run H calls).1 := by
      generalize (g.life i T msg (g.life i T msg .stopped es).1 nonces).1 = p at h1 ⊢
      cases h1 with
      | first calls ht hN =>
        have hsch : g.NonceSchedule i calls := ht.schedule fun j hj hji => by
          rw [← g.told_length] at hj
          exact ⟨_, hN _ (h3 j _ (hn j _ (List.getElem?_eq_getElem hj) hji)), rfl⟩
        obtain ⟨r2, hf, hs⟩ := MixedGroup.step_sign (T := T) (msg := msg) hi hsch
        exact ⟨calls, r2, [], hsch, hf, by rw [hs]; rfl⟩
      | second ncalls hn r2 hf calls hS => exact ⟨ncalls, r2, calls, hn, hf, rfl⟩
    obtain ⟨ncalls, r2, calls, hsch, hf, hst⟩ := key
    rw [MixedGroup.life]
    simp only
    rw [hst]
    obtain ⟨calls', h4, -, h5⟩ := MixedGroup.life_signatures (g := g) (i := i) (T := T) (msg := msg) hss (r2 := r2) calls
    refine ⟨_, h4, ?_⟩
    obtain ⟨r2', hf', -, hall'⟩ := hall i hi ncalls hsch
    obtain rfl := Res.ok.inj (hf.symm.trans hf')
    rw [List.eq_nil_iff_forall_not_mem]
    intro j hj
    obtain ⟨hl, hji, hno⟩ := ((hall' calls').2.1 j).1 hj
    obtain ⟨s, hs, hm⟩ := hsig j hl hji
    exact hno s (h5 j s hm) hs

/-- **C152** for sessions without adaptor point, which are finalized with `finalize`: all honest members get the same signature, whatever
happened to their programs before, and it is valid. -/
theorem C152_sessions_survive_crashes_plain (H : Hash) (g : MixedGroup H) (msg : Bytes) (hR : g.sessionNonce msg ≠ 0) :
    ∃ sig : LiftedSignature, ∀ i ∈ g.honest, ∀ es, g.Faithful i es → ∀ r, (g.life i 0 msg .stopped es).1 = .second r → r.holdouts = [] →
      r.finalize H = .ok sig ∧ verifySingleLifted H g.ctx.aggregatedPubkey sig msg = .ok () := by
  obtain ⟨psigs, a, ha, -, hall⟩ := C152_sessions_survive_crashes H g 0 msg
  by_cases hne : a.R + (0 : MaybeScalar) • G = 0
  · refine ⟨LiftedSignature.new Gpt 0, fun i hi es he r hr hh => ?_⟩
    obtain ⟨R, h1, -⟩ := SecondRound.finalize_of_ok (((hall i hi es he).2.2.1 r hr).2 hR hh)
    rw [zero_smul, add_zero, h1] at hne
    exact (R.2 hne).elim
  · obtain ⟨f, hf, hiff⟩ := C38_adaptor_valid_iff_adapted_valid H g.ctx.aggregatedPubkey a msg 0 hne
    refine ⟨f, fun i hi es he r hr hh => ⟨?_, hiff.1 (by rw [zero_smul]; exact ha)⟩⟩
    unfold SecondRound.finalize
    rw [((hall i hi es he).2.2.1 r hr).2 hR hh]
    simp only [Res.bind_ok]
    rw [hf]
    rfl

/-- The hypotheses can be met: one of three members crashes before it has all nonces, again after it has signed, then signs for an aggregator,
and in the end completes the session with the others. -/
example (T : MaybePoint) (msg : Bytes) : ∃ (g : MixedGroup stubHash) (es nonces sigs : List Event) (r : SecondRound) (sig : AdaptorSignature),
    g.ctx.pubkeys.length = 3 ∧ 0 ∈ g.honest ∧ g.Faithful 0 (es ++ (nonces ++ .sign :: sigs)) ∧
    es = [.start, .nonce 1 ⟨Gpt, Gpt⟩, .start, .nonce 2 blameNonce0, .nonce 1 ⟨Gpt, Gpt⟩, .sign, .start, .aggregated (AggNonce.sum g.told), .start] ∧
    (g.life 0 T msg .stopped (es ++ (nonces ++ .sign :: sigs))).1 = .second r ∧ r.finalizeAdaptor stubHash = .ok sig := by
  obtain ⟨g, hc, hh, ht, hR⟩ := mixed_group msg
  obtain ⟨psigs, sig, -, hv, hall⟩ := C152_sessions_survive_crashes stubHash g T msg
  have hl : g.ctx.pubkeys.length = 3 := by rw [hc]; rfl
  have hi0 : 0 ∈ g.honest := by rw [hh]; simp
  have hi1 : 1 ∈ g.honest := by rw [hh]; simp
  obtain ⟨s2, hs2⟩ : ∃ s, g.Valid T msg 2 s := by
    have h2 : 2 < g.ctx.pubkeys.length := by omega
    obtain ⟨s, hs, -⟩ := C27_unique_partial_signature stubHash g.ctx g.reachable (AggNonce.sum g.told) T _ (List.getElem_mem h2) blameNonce0 msg
    exact ⟨s, _, _, List.getElem?_eq_getElem h2, by rw [ht]; rfl, hs⟩
  have hf : ∀ es : List Event, (∀ j n, .nonce j n ∈ es → (j = 1 ∧ n = ⟨Gpt, Gpt⟩) ∨ (j = 2 ∧ n = blameNonce0)) →
      (∀ an, .aggregated an ∈ es → an = AggNonce.sum g.told) → g.Faithful 0 es := by
    refine fun es h ha => ⟨fun j n hm _ _ => ?_, ha⟩
    rw [ht]
    rcases h j n hm with ⟨rfl, rfl⟩ | ⟨rfl, rfl⟩ <;> rfl
  have hes : g.Faithful 0 [.start, .nonce 1 ⟨Gpt, Gpt⟩, .start, .nonce 2 blameNonce0, .nonce 1 ⟨Gpt, Gpt⟩, .sign, .start, .aggregated (AggNonce.sum g.told), .start] := by
    refine hf _ (fun j n h => ?_) (by simp)
    simp at h
    tauto
  have hns : g.Faithful 0 [.nonce 1 ⟨Gpt, Gpt⟩, .nonce 2 blameNonce0] := by
    refine hf _ (fun j n h => ?_) (by simp)
    simpa using h
  have hboth : g.Faithful 0 ([.start, .nonce 1 ⟨Gpt, Gpt⟩, .start, .nonce 2 blameNonce0, .nonce 1 ⟨Gpt, Gpt⟩, .sign, .start, .aggregated (AggNonce.sum g.told), .start]
      ++ ([.nonce 1 ⟨Gpt, Gpt⟩, .nonce 2 blameNonce0] ++ .sign :: [.signature 2 s2, .signature 1 (psigs 1)])) := by
    refine hf _ (fun j n h => ?_) (by simp)
    simp at h
    tauto
  have hstart := (hall 0 hi0 [.start, .nonce 1 ⟨Gpt, Gpt⟩, .start, .nonce 2 blameNonce0, .nonce 1 ⟨Gpt, Gpt⟩, .sign, .start, .aggregated (AggNonce.sum g.told)]
    (hf _ (fun j n h => by
      simp at h
      tauto) (by simp))).2.2.2.1
  obtain ⟨r, h1, h2⟩ := (hall 0 hi0 _ hes).2.2.2.2 [.nonce 1 ⟨Gpt, Gpt⟩, .nonce 2 blameNonce0] [.signature 2 s2, .signature 1 (psigs 1)]
    (by
      intro h
      have := hstart.symm.trans h
      cases this) hns (by simp) (by simp) (by simp)
    (by
      intro j n hj h0
      rw [ht] at hj
      match j with
      | 0 => exact (h0 rfl).elim
      | 1 => cases hj; simp
      | 2 => cases hj; simp
      | j + 3 => simp at hj) (by simp)
    (by
      intro j hj h0
      rw [hl] at hj
      obtain rfl | rfl : j = 1 ∨ j = 2 := by omega
      · exact ⟨_, (hv 1 hi1 _).2 rfl, by simp⟩
      · exact ⟨_, hs2, by simp⟩)
  exact ⟨g, _, _, _, r, sig, hl, hi0, hboth, rfl, h1, ((hall 0 hi0 _ hboth).2.2.1 r h1).2 hR h2⟩

end Verif
