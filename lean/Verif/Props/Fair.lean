import Verif.Lemmas.Props.Fair

/-!
# Properties C154 and C155: fair runs complete the session, or name those who do not sign
-/

namespace Verif

open Spec (Program Event Message Action World)

/-- **C155**. Some members of a group are honest. The others do anything, but what they say about nonces reaches all alike. In every fair infinite
run there is a time `n` such that at all later times `m` every honest member is in the second round, and
* its holdouts are members that are not honest, and of whom no valid partial signature has arrived since `n`;
* if it has no holdouts, it finalizes to the adaptor signature `sig`, which is valid and the same for all, if the session nonce is finite. -/
theorem C155_fair_runs_name_cheaters (H : Hash) (g : MixedGroup H) (T : MaybePoint) (msg : Bytes) :
    ∃ sig : AdaptorSignature, verifySingleAdaptor H g.ctx.aggregatedPubkey sig msg T = .ok () ∧
      ∀ f, g.Fair T msg f → ∃ n, ∀ m ≥ n, ∀ i ∈ g.honest, ∃ r, (g.history T msg f m).programs i = .second r ∧
        (∀ j ∈ r.holdouts, j < g.ctx.pubkeys.length ∧ j ∉ g.honest ∧
          ∀ k s, n ≤ k → k < m → f k = (i, .inject j s) → ¬ g.Valid T msg j s) ∧
        (g.sessionNonce msg ≠ 0 → r.holdouts = [] → r.finalizeAdaptor H = .ok sig) := by
  obtain ⟨psigs, sig, hv, hval, hrounds⟩ := C142_only_misbehaving_named H g T msg
  refine ⟨sig, hv, fun f hF => ?_⟩
  have hps : ∀ i ∈ g.honest, g.thePartial T msg i = psigs i := by
    intro i hi
    obtain ⟨r2, hf, ho, -⟩ := hrounds i hi _ (g.told_schedule i)
    obtain ⟨-, -, -, r2', hf', -, -, -, -, -, ho'⟩ := g.second_round T msg hi _ (g.told_schedule i)
    obtain rfl := Res.ok.inj (hf.symm.trans hf')
    exact Res.ok.inj ((ho' Unit).symm.trans (ho Unit))
  -- all run
  have hkeep : ∀ i ∈ g.honest, ∀ n m, n ≤ m → g.Runs T msg f i n → g.Runs T msg f i m := by
    intro i hi n m hnm h
    refine ⟨fun h0 => ?_, fun q hq => h.2 q (hnm.trans hq)⟩
    have := h.stage hi hnm
    rw [h0] at this
    cases this
  obtain ⟨t, ht⟩ := common_bound (P := fun i n => i ∈ g.honest → g.Runs T msg f i n)
    (fun i n m hnm h hi => hkeep i hi n m hnm (h hi)) g.ctx.pubkeys.length (fun i _ => by
      by_cases hi : i ∈ g.honest
      · exact (hF.stable i hi).imp fun t ht _ => ht
      · exact ⟨0, fun h => (hi h).elim⟩)
  have hr : ∀ i ∈ g.honest, g.Runs T msg f i t := fun i hi => ht i (MixedGroup.honest_lt hi) hi
  -- all come to the second round
  have hsec : ∀ i ∈ g.honest, ∀ n m, t ≤ n → n ≤ m → (∃ r, (g.history T msg f n).programs i = .second r) →
      ∃ r, (g.history T msg f m).programs i = .second r := fun i hi n m hn hm =>
    ((hr i hi).keep hi hn hm ((hr i hi).stage hi hn) (.inl rfl)).2
  obtain ⟨t', ht'⟩ := common_bound (P := fun i n => i ∈ g.honest → t ≤ n ∧ ∃ r, (g.history T msg f n).programs i = .second r)
    (fun i n m hnm h hi => ⟨(h hi).1.trans hnm, hsec i hi n m (h hi).1 hnm (h hi).2⟩) g.ctx.pubkeys.length
    (fun i _ => by
      by_cases hi : i ∈ g.honest
      · exact (MixedGroup.Runs.second hi hF hr).imp fun n hn _ => hn
      · exact ⟨0, fun h => (hi h).elim⟩)
  have htt : t ≤ max t t' := le_max_left _ _
  have h2 : ∀ i ∈ g.honest, ∃ r, (g.history T msg f (max t t')).programs i = .second r := fun i hi =>
    hsec i hi t' _ (ht' i (MixedGroup.honest_lt hi) hi).1 (le_max_right _ _) (ht' i (MixedGroup.honest_lt hi) hi).2
  -- all receive the signatures of all honest members
  let S := ((List.range g.ctx.pubkeys.length).filter (· ∈ g.honest)).map fun j => (j, g.thePartial T msg j)
  obtain ⟨n, hn⟩ := common_bound (P := fun i n => i ∈ g.honest → max t t' ≤ n ∧ g.Stage i T msg [] S ((g.history T msg f n).programs i))
    (fun i n m hnm h hi => ⟨(h hi).1.trans hnm, ((hr i hi).keep hi (htt.trans (h hi).1) hnm (h hi).2
      (.inr (hsec i hi _ _ htt (h hi).1 (h2 i hi)))).1⟩) g.ctx.pubkeys.length
    (fun i _ => by
      by_cases hi : i ∈ g.honest
      · exact (MixedGroup.Runs.signatures hi hF hr htt h2 _ le_rfl).imp fun n hn _ => hn
      · exact ⟨0, fun h => (hi h).elim⟩)
  refine ⟨n, fun m hm i hi => ?_⟩
  obtain ⟨hn1, hn2⟩ := hn i (MixedGroup.honest_lt hi) hi
  have hs := hsec i hi _ _ htt hn1 (h2 i hi)
  obtain ⟨r, hrm⟩ := hsec i hi _ _ (htt.trans hn1) hm hs
  -- whatever has arrived since then
  have hall : ∀ k j s, n ≤ k → k < m → f k = (i, .inject j s) → g.Stage i T msg [] ((j, s) :: S) (.second r) := by
    intro k j s hnk hkm hfk
    have hk2 := hsec i hi _ _ (htt.trans hn1) hnk hs
    have hk := ((hr i hi).keep hi (htt.trans hn1) hnk hn2 (.inr hs)).1
    obtain ⟨-, h5, -, h6, -⟩ := hk.next hi ((hr i hi).2 k ((htt.trans hn1).trans hnk)).1 ((hr i hi).2 k ((htt.trans hn1).trans hnk)).2 (.inr hk2)
    have := ((hr i hi).keep hi (((htt.trans hn1).trans hnk).trans (Nat.le_succ k)) hkm (h6 j s hfk hk2)
      (.inr (hk2.elim fun r hr => h5 r hr))).1
    rwa [hrm] at this
  have hst := ((hr i hi).keep hi (htt.trans hn1) hm hn2 (.inr hs)).1
  rw [hrm] at hst
  refine ⟨r, hrm, fun j hj => ?_, ?_⟩
  · have hno : ∀ c, g.Stage i T msg [] (c :: S) (.second r) → c.1 = j → ¬ g.Valid T msg j c.2 := by
      rintro ⟨j', s⟩ hc rfl
      cases hc with
      | second ncalls hnc r2 hf calls hS =>
        obtain ⟨r2', hf', -, hcalls⟩ := hrounds i hi ncalls hnc
        obtain rfl := Res.ok.inj (hf.symm.trans hf')
        exact (((hcalls calls).2.1 _).1 hj).2.2 s (hS _ List.mem_cons_self)
    have hlt : j < g.ctx.pubkeys.length := by
      cases hst with
      | second ncalls hnc r2 hf calls hS =>
        obtain ⟨r2', hf', -, hcalls⟩ := hrounds i hi ncalls hnc
        obtain rfl := Res.ok.inj (hf.symm.trans hf')
        exact (((hcalls calls).2.1 _).1 hj).1
    refine ⟨hlt, fun hjh => ?_, fun k s hnk hkm hfk => hno (j, s) (hall k j s hnk hkm hfk) rfl⟩
    refine hno (j, g.thePartial T msg j) (hst.mono (fun c hc => hc) fun c hc => ?_) rfl ((hval j hjh _).2 (hps j hjh))
    rcases List.mem_cons.1 hc with h | h
    · rw [h]
      exact List.mem_map.2 ⟨j, List.mem_filter.2 ⟨List.mem_range.2 hlt, by simpa using hjh⟩, rfl⟩
    · exact h
  · cases hst with
    | second ncalls hnc r2 hf calls hS =>
      obtain ⟨r2', hf', -, hcalls⟩ := hrounds i hi ncalls hnc
      obtain rfl := Res.ok.inj (hf.symm.trans hf')
      exact (hcalls calls).2.2.2

/-- **C154**. All members of a group are honest. Every fair infinite run, whatever crashes it begins with, in whatever order messages arrive and
whatever partial signatures are made up, comes to a point from which on all members are in the second round without holdouts, and finalize it to
the same valid adaptor signature, if the session nonce is finite. -/
theorem C154_fair_runs_complete (H : Hash) (g : MixedGroup H) (hall : ∀ i < g.ctx.pubkeys.length, i ∈ g.honest) (T : MaybePoint)
    (msg : Bytes) :
    ∃ sig : AdaptorSignature, verifySingleAdaptor H g.ctx.aggregatedPubkey sig msg T = .ok () ∧
      ∀ f, g.Fair T msg f → ∃ n, ∀ m ≥ n, ∀ i < g.ctx.pubkeys.length, ∃ r, (g.history T msg f m).programs i = .second r ∧
        r.holdouts = [] ∧ (g.sessionNonce msg ≠ 0 → r.finalizeAdaptor H = .ok sig) := by
  obtain ⟨sig, hv, h⟩ := C155_fair_runs_name_cheaters H g T msg
  refine ⟨sig, hv, fun f hF => ?_⟩
  obtain ⟨n, hn⟩ := h f hF
  refine ⟨n, fun m hm i hi => ?_⟩
  obtain ⟨r, h1, h2, h3⟩ := hn m hm i (hall i hi)
  have hh : r.holdouts = [] := List.eq_nil_iff_forall_not_mem.2 fun j hj => (h2 j hj).2.1 (hall j (h2 j hj).1)
  exact ⟨r, h1, hh, fun hR => h3 hR hh⟩

/-- **C154**, the premise: whatever finite sequence of actions has happened, it can be continued to a fair run. The continuation starts the programs
that are stopped, finalizes the first rounds that have all nonces, and delivers all messages again and again. -/
theorem C154_fair_runs_exist (H : Hash) (g : MixedGroup H) (T : MaybePoint) (msg : Bytes) (as : List (ℕ × Action)) : ∃ f, g.Fair T msg f ∧ ∀ k (h : k < as.length), f k = as[k] := by
  let manage : Program → Action := fun p => match p with
    | .stopped => .start
    | .first r => if r.isComplete then .sign else .deliver 0
    | .second _ => .deliver 0
  let sched : World → ℕ → ℕ × Action := fun w n =>
    if h : n < as.length then as[n] else
      (n.unpair.2.unpair.1, match n.unpair.2.unpair.2 with
        | 0 => manage (w.programs n.unpair.2.unpair.1)
        | k + 1 => .deliver k)
  let run : ℕ → World := fun n => Nat.rec g.initial (fun n w => g.move T msg w (sched w n)) n
  let f : ℕ → ℕ × Action := fun n => sched (run n) n
  have hrun : ∀ n, g.history T msg f n = run n := by
    intro n
    induction n with
    | zero => rfl
    | succ n ih => rw [MixedGroup.history, ih]
  have hf : ∀ n, f n = sched (g.history T msg f n) n := fun n => by rw [hrun n]
  -- the turn of a member
  have hturn : ∀ n i k, as.length ≤ n → ∃ m ≥ n, f m = (i, match k with
      | 0 => manage ((g.history T msg f m).programs i)
      | k + 1 => .deliver k) := by
    intro n i k hn
    have hm : n ≤ Nat.pair n (Nat.pair i k) := Nat.left_le_pair _ _
    refine ⟨Nat.pair n (Nat.pair i k), hm, ?_⟩
    rw [hf]
    simp only [sched]
    rw [dif_neg (by omega)]
    simp only [Nat.unpair_pair]
  have hback : ∀ n i a, as.length ≤ n → f n = (i, a) → (a = .start → (g.history T msg f n).programs i = .stopped) ∧
      (a = .sign → ∃ r, (g.history T msg f n).programs i = .first r ∧ r.isComplete = true) := by
    intro n i a hn hfn
    rw [hf] at hfn
    simp only [sched] at hfn
    rw [dif_neg (by omega)] at hfn
    obtain ⟨hi, ha⟩ := Prod.mk.inj hfn
    rw [hi] at ha
    generalize (g.history T msg f n).programs i = p at *
    rcases hk : n.unpair.2.unpair.2 with _ | k
    · rw [hk] at ha
      simp only [manage] at ha
      cases p with
      | stopped =>
        refine ⟨fun _ => rfl, fun h => ?_⟩
        rw [h] at ha
        cases ha
      | first r =>
        simp only at ha
        split_ifs at ha with hc
        · refine ⟨fun h => ?_, fun _ => ⟨r, rfl, hc⟩⟩
          rw [h] at ha
          cases ha
        · constructor <;> intro h <;> rw [h] at ha <;> cases ha
      | second r => constructor <;> intro h <;> rw [h] at ha <;> cases ha
    · rw [hk] at ha
      constructor <;> intro h <;> rw [h] at ha <;> cases ha
  refine ⟨f, ⟨fun i hi => ?_, fun i hi n k _ => ?_, fun i hi n => ?_⟩, fun k hk => ?_⟩
  · -- once running, always running
    have hfor : ∀ t ≥ as.length, (g.history T msg f t).programs i ≠ .stopped → ∀ n ≥ t, (g.history T msg f n).programs i ≠ .stopped := by
      intro t ht hne n hn
      induction n, hn using Nat.le_induction with
      | base => exact hne
      | succ n hn ih =>
        have hst := (((MixedGroup.history_inv (T := T) (msg := msg) f n).2.2 i hi).resolve_left ih).1
        have := (hst.next hi (fun h => ih ((hback n i _ (ht.trans hn) h).1 rfl)) (fun h r hr => by
          obtain ⟨r', h1, h2⟩ := (hback n i _ (ht.trans hn) h).2 rfl
          rw [hr] at h1
          cases h1
          exact h2) (.inl rfl)).1
        intro h0
        rw [h0] at this
        cases this
    obtain ⟨t, ht, hne⟩ : ∃ t ≥ as.length, (g.history T msg f t).programs i ≠ .stopped := by
      obtain ⟨m, hm, hfm⟩ := hturn as.length i 0 le_rfl
      by_cases h0 : (g.history T msg f m).programs i = .stopped
      · refine ⟨m + 1, by omega, ?_⟩
        simp only [h0, manage] at hfm
        rw [MixedGroup.history, hfm, MixedGroup.move_eq hi]
        simp only [MixedGroup.eventOf, MixedGroup.act, Function.update_self, MixedGroup.step, g.started i hi]
        exact nofun
      · exact ⟨m, hm, h0⟩
    refine ⟨t, hne, fun n hn => ⟨fun h => hfor t ht hne n hn ((hback n i _ (ht.trans hn) h).1 rfl), fun h r hr => ?_⟩⟩
    obtain ⟨r', h1, h2⟩ := (hback n i _ (ht.trans hn) h).2 rfl
    rw [hr] at h1
    cases h1
    exact h2
  · obtain ⟨m, hm, hfm⟩ := hturn (max n as.length) i (k + 1) (le_max_right _ _)
    exact ⟨m, (le_max_left _ _).trans hm, hfm⟩
  · obtain ⟨m, hm, hfm⟩ := hturn (max n as.length) i 0 (le_max_right _ _)
    refine ⟨m, (le_max_left _ _).trans hm, ?_⟩
    by_cases h : ∃ r, (g.history T msg f m).programs i = .first r ∧ r.isComplete = true
    · obtain ⟨r, h1, h2⟩ := h
      refine .inl ?_
      rw [hfm]
      simp only [h1, manage, h2, if_true]
    · exact .inr h
  · rw [hf]
    simp only [sched]
    rw [dif_pos hk]

/-- **C155** for finite runs: whatever has happened, there is a continuation after which all honest members are in the second round, and wait at most for
members that are not honest. -/
theorem C155_only_cheaters_stop_it (H : Hash) (g : MixedGroup H) (T : MaybePoint) (msg : Bytes) (as : List (ℕ × Action)) :
    ∃ bs, ∀ i ∈ g.honest, ∃ r, (g.moves T msg (g.moves T msg g.initial as) bs).programs i = .second r ∧
      ∀ j ∈ r.holdouts, j < g.ctx.pubkeys.length ∧ j ∉ g.honest := by
  obtain ⟨f, hF, hf⟩ := C154_fair_runs_exist H g T msg as
  obtain ⟨sig, -, h⟩ := C155_fair_runs_name_cheaters H g T msg
  obtain ⟨n, hn⟩ := h f hF
  refine ⟨(List.range n).map fun k => f (as.length + k), fun i hi => ?_⟩
  obtain ⟨r, h1, h2, -⟩ := hn (as.length + n) (Nat.le_add_left _ _) i hi
  refine ⟨r, ?_, fun j hj => ⟨(h2 j hj).1, (h2 j hj).2.1⟩⟩
  rw [← h1, MixedGroup.history_eq_moves, ← MixedGroup.moves_append, List.range_add, List.map_append, List.map_map]
  congr 3
  refine List.ext_getElem (by simp) fun k hk _ => ?_
  rw [List.getElem_map, List.getElem_range, hf k hk]

/-- **C154** for sessions without adaptor point, which are finalized with `finalize`. -/
theorem C154_fair_runs_complete_plain (H : Hash) (g : MixedGroup H) (hall : ∀ i < g.ctx.pubkeys.length, i ∈ g.honest) (msg : Bytes)
    (hR : g.sessionNonce msg ≠ 0) :
    ∃ sig : LiftedSignature, ∀ f, g.Fair 0 msg f → ∃ n, ∀ m ≥ n, ∀ i < g.ctx.pubkeys.length, ∃ r,
      (g.history 0 msg f m).programs i = .second r ∧ r.finalize H = .ok sig ∧
      verifySingleLifted H g.ctx.aggregatedPubkey sig msg = .ok () := by
  obtain ⟨a, ha, hw⟩ := C154_fair_runs_complete H g hall 0 msg
  have hsig : ∃ sig : LiftedSignature, ∀ r : SecondRound, r.finalizeAdaptor H = .ok a →
      r.finalize H = .ok sig ∧ verifySingleLifted H g.ctx.aggregatedPubkey sig msg = .ok () := by
    by_cases hne : a.R + (0 : MaybeScalar) • G = 0
    · refine ⟨LiftedSignature.new Gpt 0, fun r hr => ?_⟩
      obtain ⟨R, h1, -⟩ := SecondRound.finalize_of_ok hr
      rw [zero_smul, add_zero, h1] at hne
      exact (R.2 hne).elim
    · obtain ⟨f, hf, hiff⟩ := C38_adaptor_valid_iff_adapted_valid H g.ctx.aggregatedPubkey a msg 0 hne
      refine ⟨f, fun r hr => ⟨?_, hiff.1 (by rw [zero_smul]; exact ha)⟩⟩
      unfold SecondRound.finalize
      rw [hr]
      simp only [Res.bind_ok]
      rw [hf]
      rfl
  obtain ⟨sig, hsig⟩ := hsig
  refine ⟨sig, fun f hF => ?_⟩
  obtain ⟨n, hn⟩ := hw f hF
  refine ⟨n, fun m hm i hi => ?_⟩
  obtain ⟨r, h1, -, h3⟩ := hn m hm i hi
  exact ⟨r, h1, hsig r (h3 hR)⟩

/-- The hypotheses can be met: three members, of whom the first is told to sign too early and starts again, and the second receives a wrong partial
signature. -/
example (msg : Bytes) : ∃ (g : MixedGroup stubHash) (f : ℕ → ℕ × Action), g.ctx.pubkeys.length = 3 ∧ (∀ i < 3, i ∈ g.honest) ∧
    g.sessionNonce msg ≠ 0 ∧ f 1 = (0, .sign) ∧ f 4 = (0, .start) ∧ f 5 = (1, .inject 2 0) ∧ g.Fair 0 msg f ∧
    ∃ sig n, ∀ m ≥ n, ∀ i < 3, ∃ r, (g.history 0 msg f m).programs i = .second r ∧ r.finalize stubHash = .ok sig := by
  obtain ⟨g, hc, hh, hR⟩ := honest_group msg
  have hl : g.ctx.pubkeys.length = 3 := by rw [hc]; rfl
  have hall : ∀ i < 3, i ∈ g.honest := fun i hi => by rw [hh, Finset.mem_range]; exact hi
  obtain ⟨f, hF, hf⟩ := C154_fair_runs_exist stubHash g 0 msg
    [(0, .start), (0, .sign), (1, .start), (1, .deliver 0), (0, .start), (1, .inject 2 0)]
  obtain ⟨sig, hsig⟩ := C154_fair_runs_complete_plain stubHash g (by rw [hl]; exact hall) msg hR
  obtain ⟨n, hn⟩ := hsig f hF
  refine ⟨g, f, hl, hall, hR, hf 1 (by simp), hf 4 (by simp), hf 5 (by simp), hF, sig, n, fun m hm i hi => ?_⟩
  obtain ⟨r, h1, h2, -⟩ := hn m hm i (by rw [hl]; exact hi)
  exact ⟨r, h1, h2⟩

/-- Two honest members, of whom the first crashes, and a third one who only sends a wrong partial signature. -/
example (T : MaybePoint) (msg : Bytes) : ∃ (g : MixedGroup stubHash) (f : ℕ → ℕ × Action), g.ctx.pubkeys.length = 3 ∧ g.honest = {0, 1} ∧
    g.sessionNonce msg ≠ 0 ∧ f 1 = (0, .sign) ∧ f 2 = (0, .start) ∧ f 3 = (1, .inject 2 0) ∧ g.Fair T msg f ∧
    ∃ n, ∀ m ≥ n, ∀ i ∈ g.honest, ∃ r, (g.history T msg f m).programs i = .second r ∧ ∀ j ∈ r.holdouts, j = 2 := by
  obtain ⟨g, hc, hh, -, hR⟩ := mixed_group msg
  have hl : g.ctx.pubkeys.length = 3 := by rw [hc]; rfl
  obtain ⟨f, hF, hf⟩ := C154_fair_runs_exist stubHash g T msg [(0, .start), (0, .sign), (0, .start), (1, .inject 2 0)]
  obtain ⟨sig, -, h⟩ := C155_fair_runs_name_cheaters stubHash g T msg
  obtain ⟨n, hn⟩ := h f hF
  refine ⟨g, f, hl, hh, hR, hf 1 (by simp), hf 2 (by simp), hf 3 (by simp), hF, n, fun m hm i hi => ?_⟩
  obtain ⟨r, h1, h2, -⟩ := hn m hm i hi
  refine ⟨r, h1, fun j hj => ?_⟩
  obtain ⟨h3, h4, -⟩ := h2 j hj
  rw [hl] at h3
  rw [hh] at h4
  simp only [Finset.mem_insert, Finset.mem_singleton, not_or] at h4
  omega

end Verif
