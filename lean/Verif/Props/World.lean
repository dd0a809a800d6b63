import Verif.Lemmas.Props.World

/-!
# Property C153: whatever has happened, the session can still be completed
-/

namespace Verif

open Spec (Program Event Message Action World)

/-- **C153**. All members of a group are honest. Whatever sequence of crashes, deliveries and made up partial signatures has happened:
* no member has ever sent two different partial signatures, nor one that is not valid;
* whoever is without holdouts in the second round finalizes it to the adaptor signature `sig`, the same for all, which is valid, if the session
  nonce is finite;
* there is a continuation after which all members are without holdouts in the second round. -/
theorem C153_session_can_be_completed (H : Hash) (g : MixedGroup H) (hall : ∀ i < g.ctx.pubkeys.length, i ∈ g.honest) (T : MaybePoint)
    (msg : Bytes) :
    ∃ (psigs : ℕ → PartialSignature) (sig : AdaptorSignature),
      (∀ i < g.ctx.pubkeys.length, g.Valid T msg i (psigs i)) ∧
      verifySingleAdaptor H g.ctx.aggregatedPubkey sig msg T = .ok () ∧
      ∀ as, let w := g.moves T msg g.initial as
        (∀ i s, .signature i s ∈ w.sent → i < g.ctx.pubkeys.length ∧ s = psigs i) ∧
        (∀ i < g.ctx.pubkeys.length, ∀ r, w.programs i = .second r → g.sessionNonce msg ≠ 0 → r.holdouts = [] →
          r.finalizeAdaptor H = .ok sig) ∧
        ∃ bs, ∀ i < g.ctx.pubkeys.length, ∃ r, (g.moves T msg w bs).programs i = .second r ∧ r.holdouts = [] := by
  obtain ⟨psigs, sig, hv, hval, hlife⟩ := C152_sessions_survive_crashes H g T msg
  refine ⟨psigs, sig, fun i hi => (hval i (hall i hi) _).2 rfl, hv, fun as => ?_⟩
  -- the invariant
  let Inv : World → Prop := fun w =>
    (∀ j n, .nonce j n ∈ w.sent → g.told[j]? = some n) ∧
    (∀ j s, .signature j s ∈ w.sent → j < g.ctx.pubkeys.length ∧ s = psigs j) ∧
    ∀ i < g.ctx.pubkeys.length, ∃ es, g.Faithful i es ∧ w.programs i = (g.life i T msg .stopped es).1
  have hact : ∀ w i e, i < g.ctx.pubkeys.length → (∀ j n, e = .nonce j n → g.told[j]? = some n) → (∀ an, e ≠ .aggregated an) → Inv w →
      Inv (g.act T msg w i e) := by
    rintro w i e hi hn ha ⟨h1, h2, h3⟩
    obtain ⟨es, hf, hp⟩ := h3 i hi
    have hf' : g.Faithful i (es ++ [e]) := by
      refine ⟨fun j n hm hj hji => ?_, fun an hm => ?_⟩
      · rcases List.mem_append.1 hm with h | h
        · exact hf.1 j n h hj hji
        · exact hn j n (List.mem_singleton.1 h).symm
      · rcases List.mem_append.1 hm with h | h
        · exact hf.2 an h
        · exact (ha an (List.mem_singleton.1 h).symm).elim
    have hout : ∀ s ∈ (g.step i T msg (w.programs i) e).2, s = psigs i := by
      intro s hs
      refine (hlife i (hall i hi) _ hf').1 s ?_
      rw [MixedGroup.life_append, ← hp]
      refine List.mem_append_right _ ?_
      simp only [MixedGroup.life, List.append_nil]
      exact hs
    have hsent : ∀ m ∈ MixedGroup.announced i e (g.step i T msg (w.programs i) e),
        m = .nonce i (g.rounds i).ourPublicNonce ∨ m = .signature i (psigs i) := by
      intro m hm
      have hsig : m ∈ (g.step i T msg (w.programs i) e).2.map (Message.signature i) → m = .signature i (psigs i) := by
        intro h
        obtain ⟨s, hs, rfl⟩ := List.mem_map.1 h
        rw [hout s hs]
      cases e with
      | start =>
        have : g.step i T msg (w.programs i) .start = (.first (g.rounds i), []) := by
          rw [MixedGroup.step, g.started i (hall i hi)]
        rw [this] at hm
        exact .inl (List.mem_singleton.1 hm)
      | _ => exact .inr (hsig hm)
    refine ⟨fun j n hm => ?_, fun j s hm => ?_, fun i' hi' => ?_⟩
    · rcases List.mem_append.1 hm with h | h
      · exact h1 j n h
      · rcases hsent _ h with e | e
        · cases e
          exact g.told_honest i (hall i hi)
        · cases e
    · rcases List.mem_append.1 hm with h | h
      · exact h2 j s h
      · rcases hsent _ h with e | e
        · cases e
        · cases e
          exact ⟨hi, rfl⟩
    · by_cases hii : i' = i
      · subst hii
        refine ⟨es ++ [e], hf', ?_⟩
        rw [MixedGroup.life_append, ← hp]
        exact Function.update_self _ _ _
      · obtain ⟨es', hf'', hp'⟩ := h3 i' hi'
        exact ⟨es', hf'', (Function.update_of_ne hii _ _).trans hp'⟩
  have hmove : ∀ w a, Inv w → Inv (g.move T msg w a) := by
    rintro w ⟨i, a⟩ hw
    unfold MixedGroup.move
    split_ifs with hh
    · have hi := MixedGroup.honest_lt hh
      cases a with
      | start => exact hact w i _ hi (fun j n h => by cases h) (fun an h => by cases h) hw
      | sign => exact hact w i _ hi (fun j n h => by cases h) (fun an h => by cases h) hw
      | inject j s => exact hact w i _ hi (fun j n h => by cases h) (fun an h => by cases h) hw
      | deliver k =>
        simp only
        rcases hk : w.sent[k]? with _ | m
        · exact hw
        · refine hact w i _ hi (fun j n h => ?_) (fun an h => ?_) hw
          · cases m with
            | nonce j' n' =>
              cases h
              exact hw.1 _ _ (List.mem_of_getElem? hk)
            | signature j' s' => cases h
          · cases m <;> cases h
    · exact hw
  have hinv : Inv (g.moves T msg g.initial as) := by
    have : ∀ (as : List (ℕ × Action)) w, Inv w → Inv (g.moves T msg w as) := by
      intro as
      induction as with
      | nil => exact fun w hw => hw
      | cons a as ih => exact fun w hw => ih _ (hmove w a hw)
    refine this as _ ⟨fun j n h => ?_, fun j s h => ?_, fun i _ => ⟨[], ⟨fun j n h => ?_, fun an h => ?_⟩, rfl⟩⟩
    · obtain ⟨j', n', h1, -, h2⟩ := MixedGroup.mem_initial.1 h
      cases h1
      exact h2
    · obtain ⟨j', n', h1, -⟩ := MixedGroup.mem_initial.1 h
      cases h1
    · exact absurd h List.not_mem_nil
    · exact absurd h List.not_mem_nil
  intro w
  refine ⟨hinv.2.1, fun i hi r hr hR hh => ?_, ?_⟩
  · obtain ⟨es, hf, hp⟩ := hinv.2.2 i hi
    exact ((hlife i (hall i hi) es hf).2.2.1 r (hp.symm.trans hr)).2 hR hh
  · -- all start, then sign, then receive the signatures
    let ncalls : List (ℕ × PubNonce) := g.told.zipIdx.map fun c => (c.2, c.1)
    let nonces : List Message := ncalls.map fun c => .nonce c.1 c.2
    let sigs : List Message := (List.range g.ctx.pubkeys.length).map fun j => .signature j (psigs j)
    have hnon : nonces.map MixedGroup.arrival = ncalls.map fun c => .nonce c.1 c.2 := by
      simp only [nonces, List.map_map]
      rfl
    have hnm : ∀ j n, .nonce j n ∈ nonces ↔ g.told[j]? = some n := by
      intro j n
      simp only [nonces, ncalls, List.map_map, List.mem_map, Function.comp_apply]
      constructor
      · rintro ⟨⟨n', j'⟩, hc, h⟩
        cases h
        exact List.mem_zipIdx_iff_getElem?.1 hc
      · exact fun h => ⟨(n, j), List.mem_zipIdx_iff_getElem?.2 h, rfl⟩
    have hstart : ∀ i < g.ctx.pubkeys.length, ∀ p, g.step i T msg p .start = (.first (g.rounds i), []) := fun i hi p => by
      rw [MixedGroup.step, g.started i (hall i hi)]
    obtain ⟨as1, t1, h1, m1⟩ := g.at_all T msg (fun i _ => .first (g.rounds i)) (fun i _ => [.nonce i (g.rounds i).ourPublicNonce])
      (fun _ => True) (fun _ _ _ => trivial) (fun i hi w' _ => ⟨[(i, .start)], by
        change g.move T msg w' (i, .start) = _
        simp only [MixedGroup.move, if_pos (hall i hi), MixedGroup.act, hstart i hi]
        rfl⟩) w trivial _ le_rfl
    have hpre1 : ∀ m ∈ nonces, m ∈ (g.moves T msg w as1).sent := by
      rw [h1]
      intro m hm
      obtain ⟨⟨j, n⟩, hc, rfl⟩ := List.mem_map.1 hm
      have ht := (hnm j n).1 hm
      have hj : j < g.ctx.pubkeys.length := by
        rw [← g.told_length]
        exact (List.getElem?_eq_some_iff.1 ht).1
      have := m1 j hj _ (List.mem_singleton.2 rfl)
      rw [g.told_honest j (hall j hj)] at ht
      rw [← Option.some.inj ht]
      exact this
    obtain ⟨as2, t2, h2, m2⟩ := g.at_all T msg
      (fun i p => (g.step i T msg (g.life i T msg p (nonces.map MixedGroup.arrival)).1 .sign).1)
      (fun i p => (g.step i T msg (g.life i T msg p (nonces.map MixedGroup.arrival)).1 .sign).2.map (.signature i))
      (fun s => ∀ m ∈ nonces, m ∈ s) (fun s t h m hm => List.mem_append_left _ (h m hm)) (fun i hi w' hw' => by
        obtain ⟨bs, hbs⟩ := g.deliver_all T msg (hall i hi) nonces w' hw'
        refine ⟨bs ++ [(i, .sign)], ?_⟩
        rw [MixedGroup.moves_append, hbs]
        change g.move T msg _ (i, .sign) = _
        simp only [MixedGroup.move, if_pos (hall i hi), MixedGroup.act, MixedGroup.announced_sign, Function.update_self, Function.update_idem])
      (g.moves T msg w as1) hpre1 _ le_rfl
    have hp1 : ∀ i < g.ctx.pubkeys.length, (g.moves T msg w as1).programs i = .first (g.rounds i) := by
      intro i hi
      rw [h1]
      exact if_pos hi
    have hpre2 : ∀ m ∈ sigs, m ∈ (g.moves T msg (g.moves T msg w as1) as2).sent := by
      rw [h2]
      intro m hm
      obtain ⟨j, hj, rfl⟩ := List.mem_map.1 hm
      rw [List.mem_range] at hj
      refine m2 j hj _ ?_
      rw [hp1 j hj, hnon, MixedGroup.life_first]
      obtain ⟨r2, -, hs⟩ := MixedGroup.step_sign (T := T) (msg := msg) (hall j hj) (g.told_schedule j)
      simp only
      rw [hs]
      have hout := (hlife j (hall j hj) ([.start] ++ ((ncalls.map fun c => .nonce c.1 c.2) ++ [.sign])) ⟨fun j' n hm _ _ => ?_, fun an hm => ?_⟩).1
        (partialSigValue H g.ctx (g.sk j) (g.rounds j).secnonce (AggNonce.sum g.told) T msg) (by
          rw [MixedGroup.life_append, MixedGroup.life_append]
          refine List.mem_append_right _ (List.mem_append_right _ ?_)
          simp only [MixedGroup.life, hstart j hj, MixedGroup.life_first, List.append_nil]
          rw [hs]
          exact List.mem_singleton.2 rfl)
      · rw [hout]
        exact List.mem_singleton.2 rfl
      · simp only [List.mem_append, List.mem_singleton, List.mem_map, reduceCtorEq, false_or, or_false] at hm
        obtain ⟨c, hc, h⟩ := hm
        cases h
        exact (hnm _ _).1 (List.mem_map.2 ⟨c, hc, rfl⟩)
      · simp at hm
    obtain ⟨as3, t3, h3, -⟩ := g.at_all T msg (fun i p => (g.life i T msg p (sigs.map MixedGroup.arrival)).1) (fun _ _ => [])
      (fun s => ∀ m ∈ sigs, m ∈ s) (fun s t h m hm => List.mem_append_left _ (h m hm)) (fun i hi w' hw' => by
        obtain ⟨bs, hbs⟩ := g.deliver_all T msg (hall i hi) sigs w' hw'
        exact ⟨bs, by rw [hbs, List.append_nil]⟩) _ hpre2 _ le_rfl
    refine ⟨as1 ++ (as2 ++ as3), fun i hi => ?_⟩
    rw [MixedGroup.moves_append, MixedGroup.moves_append, h3]
    simp only [if_pos hi]
    rw [h2]
    simp only [if_pos hi]
    rw [hp1 i hi]
    obtain ⟨es, hf, hp⟩ := hinv.2.2 i hi
    have hf' : g.Faithful i (es ++ [.start]) := by
      refine ⟨fun j n hm => hf.1 j n ?_, fun an hm => hf.2 an ?_⟩ <;> simpa using hm
    have hs := (hlife i (hall i hi) es hf).2.2.2.1
    obtain ⟨r, hr, hh⟩ := (hlife i (hall i hi) _ hf').2.2.2.2 (nonces.map MixedGroup.arrival) (sigs.map MixedGroup.arrival)
      (by rw [hs]; exact fun h => by cases h)
      ⟨fun j n hm _ _ => by
        rw [hnon] at hm
        obtain ⟨c, hc, h⟩ := List.mem_map.1 hm
        cases h
        exact (hnm _ _).1 (List.mem_map.2 ⟨c, hc, rfl⟩), fun an hm => by
        rw [hnon] at hm
        obtain ⟨c, hc, h⟩ := List.mem_map.1 hm
        cases h⟩
      (fun hm => by
        rw [hnon] at hm
        obtain ⟨c, hc, h⟩ := List.mem_map.1 hm
        cases h)
      (fun hm => by
        rw [hnon] at hm
        obtain ⟨c, hc, h⟩ := List.mem_map.1 hm
        cases h)
      (fun an hm => by
        rw [hnon] at hm
        obtain ⟨c, hc, h⟩ := List.mem_map.1 hm
        cases h)
      (fun j n ht _ => List.mem_map.2 ⟨_, (hnm j n).2 ht, rfl⟩)
      (fun hm => by
        obtain ⟨m, hc, h⟩ := List.mem_map.1 hm
        obtain ⟨j, -, rfl⟩ := List.mem_map.1 hc
        cases h)
      (fun j hj _ => ⟨psigs j, (hval j (hall j hj) _).2 rfl,
        List.mem_map.2 ⟨.signature j (psigs j), List.mem_map.2 ⟨j, List.mem_range.2 hj, rfl⟩, rfl⟩⟩)
    refine ⟨r, ?_, hh⟩
    rw [← hr, MixedGroup.life_append, MixedGroup.life_append, hs]
    rfl

/-- **C153** for sessions without adaptor point, which are finalized with `finalize`. -/
theorem C153_session_can_be_completed_plain (H : Hash) (g : MixedGroup H) (hall : ∀ i < g.ctx.pubkeys.length, i ∈ g.honest) (msg : Bytes)
    (hR : g.sessionNonce msg ≠ 0) :
    ∃ sig : LiftedSignature, ∀ as, let w := g.moves 0 msg g.initial as
      (∀ i < g.ctx.pubkeys.length, ∀ r, w.programs i = .second r → r.holdouts = [] →
        r.finalize H = .ok sig ∧ verifySingleLifted H g.ctx.aggregatedPubkey sig msg = .ok ()) ∧
      ∃ bs, ∀ i < g.ctx.pubkeys.length, ∃ r, (g.moves 0 msg w bs).programs i = .second r ∧ r.finalize H = .ok sig := by
  obtain ⟨psigs, a, -, ha, hw⟩ := C153_session_can_be_completed H g hall 0 msg
  have hsig : ∃ sig : LiftedSignature, ∀ r : SecondRound, r.finalizeAdaptor H = .ok a →
      r.finalize H = .ok sig ∧ verifySingleLifted H g.ctx.aggregatedPubkey sig msg = .ok () := by
    by_cases hne : a.R + (0 : MaybeScalar) • G = 0
    · refine ⟨LiftedSignature.new Gpt 0, fun r hr => ?_⟩
      obtain ⟨R, h1, -⟩ := SecondRound.finalize_of_ok hr
      rw [zero_smul, add_zero, h1] at hne
      exact (R.2 hne).elim
    · obtain ⟨f, hf, hiff⟩ := C38_adaptor_valid_iff_adapted_valid H g.ctx.aggregatedPubkey a msg 0 hne
      refine ⟨f, fun r hr => ⟨?_, hiff.1 (by rw [zero_smul]; exact ha)⟩⟩
      unfold SecondRound.finalize
      rw [hr]
      simp only [Res.bind_ok]
      rw [hf]
      rfl
  obtain ⟨sig, hsig⟩ := hsig
  refine ⟨sig, fun as => ?_⟩
  intro w
  refine ⟨fun i hi r hr hh => hsig r ((hw as).2.1 i hi r hr hR hh), ?_⟩
  obtain ⟨bs, hbs⟩ := (hw as).2.2
  refine ⟨bs, fun i hi => ?_⟩
  obtain ⟨r, hr, hh⟩ := hbs i hi
  have h2 := (hw (as ++ bs)).2.1 i hi r (by rw [MixedGroup.moves_append]; exact hr) hR hh
  exact ⟨r, hr, (hsig r h2).1⟩

/-- The hypotheses can be met: three members who draw nonces from seeds, of whom the first crashes after it was told to sign too early, and
the second receives a wrong partial signature. -/
example (msg : Bytes) : ∃ g : MixedGroup stubHash, g.ctx.pubkeys.length = 3 ∧ (∀ i < 3, i ∈ g.honest) ∧ g.sessionNonce msg ≠ 0 ∧
    ∃ sig bs, ∀ i < 3, ∃ r, (g.moves 0 msg (g.moves 0 msg g.initial [(0, .start), (0, .sign), (1, .start), (1, .deliver 0), (0, .start),
      (1, .inject 2 0)]) bs).programs i = .second r ∧ r.finalize stubHash = .ok sig := by
  obtain ⟨g, hc, hh, hR⟩ := honest_group msg
  have hl : g.ctx.pubkeys.length = 3 := by rw [hc]; rfl
  have hall : ∀ i < 3, i ∈ g.honest := fun i hi => by rw [hh, Finset.mem_range]; exact hi
  obtain ⟨sig, hsig⟩ := C153_session_can_be_completed_plain stubHash g (by rw [hl]; exact hall) msg hR
  obtain ⟨bs, hbs⟩ := (hsig [(0, .start), (0, .sign), (1, .start), (1, .deliver 0), (0, .start), (1, .inject 2 0)]).2
  rw [hl] at hbs
  exact ⟨g, hl, hall, hR, sig, bs, hbs⟩

end Verif
