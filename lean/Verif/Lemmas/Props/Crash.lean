import Verif.Spec.Crash
import Verif.Props.MixedSession

/-!
# Helper lemmas for `Props/Crash`
-/

namespace Verif

open Spec (Program Event)

theorem FirstRound.run_snoc (r : FirstRound) (cs : List (ℕ × PubNonce)) (c : ℕ × PubNonce) :
    (r.run (cs ++ [c])).1 = ((r.run cs).1.receiveNonce c.1 c.2).1 := by
  induction cs generalizing r with
  | nil => rfl
  | cons d cs ih => exact ih _

theorem SecondRound.run_snoc (H : Hash) (r : SecondRound) (cs : List (ℕ × PartialSignature)) (c : ℕ × PartialSignature) :
    (r.run H (cs ++ [c])).1 = ((r.run H cs).1.receiveSignature H c.1 c.2).1 := by
  induction cs generalizing r with
  | nil => rfl
  | cons d cs ih => exact ih _

/-- The own signature stays. -/
theorem SecondRound.Inv.ourSignature_run {H : Hash} {r : SecondRound} (h : r.Inv H) (cs : List (ℕ × PartialSignature)) (ε : Type) :
    ((r.run H cs).1.ourSignature : Res ε _) = r.ourSignature := by
  obtain ⟨h0, -, -, -, -, -, h6⟩ := h.run cs
  obtain ⟨s, hs, he⟩ := SecondRound.ourSignature_eq h ε
  obtain ⟨s', hs', he'⟩ := SecondRound.ourSignature_eq h0 ε
  rw [h6, h.stored_run cs _ h.own, hs, Option.some_or] at hs'
  rw [he, he', Option.some.inj hs']

namespace MixedGroup

variable {H : Hash} (g : MixedGroup H) (i : ℕ) (T : MaybePoint) (msg : Bytes)

theorem life_append (p : Program) (es es' : List Event) :
    g.life i T msg p (es ++ es') = ((g.life i T msg (g.life i T msg p es).1 es').1,
      (g.life i T msg p es).2 ++ (g.life i T msg (g.life i T msg p es).1 es').2) := by
  induction es generalizing p with
  | nil => rfl
  | cons e es ih =>
    rw [List.cons_append, life, ih]
    simp only [life, List.append_assoc]

/-- The calls of a first round are those told. -/
def Told (calls : List (ℕ × PubNonce)) : Prop := ∀ c ∈ calls, c.1 < g.ctx.pubkeys.length → c.1 ≠ i → g.told[c.1]? = some c.2

/-- The states of the program in faithful histories. The nonces in `N` and, in the second round, the signatures in `S` have been delivered. -/
inductive Stage (N : List (ℕ × PubNonce)) (S : List (ℕ × PartialSignature)) : Program → Prop
  | first (calls : List (ℕ × PubNonce)) (ht : g.Told i calls) (hN : ∀ c ∈ N, c ∈ calls) : Stage N S (.first ((g.rounds i).run calls).1)
  | second (ncalls : List (ℕ × PubNonce)) (hn : g.NonceSchedule i ncalls) (r2 : SecondRound)
      (hf : ((g.rounds i).run ncalls).1.finalizeAdaptor H (g.sk i) T msg = .ok r2) (calls : List (ℕ × PartialSignature))
      (hS : ∀ c ∈ S, c ∈ calls) : Stage N S (.second (r2.run H calls).1)

variable {g i T msg}

theorem Told.schedule {calls : List (ℕ × PubNonce)} (ht : g.Told i calls)
    (hall : ∀ j < g.ctx.pubkeys.length, j ≠ i → ∃ c ∈ calls, c.1 = j) : g.NonceSchedule i calls := by
  intro j hj hji
  rcases hv : Spec.firstValue calls j with _ | n
  · obtain ⟨c, hc, h⟩ := hall j hj hji
    exact (firstValue_eq_none.1 hv c hc h).elim
  · exact (ht _ (firstValue_mem hv) hj hji).symm

/-- Finalizing a first round, when not all nonces have arrived, and when they have. -/
theorem finalize_cases (hi : i ∈ g.honest) {calls : List (ℕ × PubNonce)} (ht : g.Told i calls) :
    ((g.rounds i).run calls).1.finalizeAdaptor H (g.sk i) T msg = .err .incomplete ∨ g.NonceSchedule i calls := by
  have h57 := (C57_first_round_finalize H g.ctx g.reachable (g.seed i) i (g.spices i) _ (g.started i hi) calls (g.sk i) T msg).1
  have h53 := (C53_first_round_holdouts H g.ctx g.reachable (g.seed i) i (g.spices i) _ (g.started i hi) calls).2.2.2
  rcases hc : ((g.rounds i).run calls).1.isComplete with _ | _
  · exact .inl (h57.2 hc)
  · exact .inr (ht.schedule fun j hj hji => (h53.1 hc j hj).resolve_left hji)

/-- What `sign` does in a first round that has all nonces. -/
theorem step_sign (hi : i ∈ g.honest) {calls : List (ℕ × PubNonce)} (hn : g.NonceSchedule i calls) :
    ∃ r2, ((g.rounds i).run calls).1.finalizeAdaptor H (g.sk i) T msg = .ok r2 ∧
      g.step i T msg (.first ((g.rounds i).run calls).1) .sign = (.second r2, [partialSigValue H g.ctx (g.sk i) (g.rounds i).secnonce
        (AggNonce.sum g.told) T msg]) := by
  obtain ⟨-, -, -, r2, hf, -, -, -, -, -, hour⟩ := g.second_round T msg hi calls hn
  refine ⟨r2, hf, ?_⟩
  rw [step, hf]
  simp only
  rw [hour]

/-- What a member sends an aggregator. -/
theorem sign_aggregated (hi : i ∈ g.honest) (calls : List (ℕ × PubNonce)) :
    ((g.rounds i).run calls).1.signForAggregatorAdaptor H (g.sk i) T msg (AggNonce.sum g.told)
      = .ok (partialSigValue H g.ctx (g.sk i) (g.rounds i).secnonce (AggNonce.sum g.told) T msg) := by
  obtain ⟨h1, -, -⟩ := new_fields (g.started i hi)
  obtain ⟨k1, -, k3⟩ := run_ctx (g.rounds i) calls
  unfold FirstRound.signForAggregatorAdaptor
  rw [k1.trans h1, k3]
  exact (C27_signer_produces_it H g.ctx g.reachable _ T (g.sk i) (List.mem_of_getElem? (g.keys i hi)) _ msg _).1
    ((verifyPartialAdaptor_eq_ok g.reachable.inv).2 ⟨List.mem_of_getElem? (g.keys i hi), partialSigValue_smul _ _ _ _ _ _ _⟩)

/-- One event in a faithful history. -/
theorem step_stage (hi : i ∈ g.honest) {p : Program} (hp : p = .stopped ∨ g.Stage i T msg [] [] p) {e : Event}
    (he : ∀ j n, e = .nonce j n → j < g.ctx.pubkeys.length → j ≠ i → g.told[j]? = some n)
    (ha : ∀ an, e = .aggregated an → an = AggNonce.sum g.told) :
    ((g.step i T msg p e).1 = .stopped ∨ g.Stage i T msg [] [] (g.step i T msg p e).1) ∧
      ∀ s ∈ (g.step i T msg p e).2, s = partialSigValue H g.ctx (g.sk i) (g.rounds i).secnonce (AggNonce.sum g.told) T msg := by
  have hstart : g.step i T msg p .start = (.first (g.rounds i), []) := by
    rw [step, g.started i hi]
  cases e with
  | start =>
    rw [hstart]
    exact ⟨.inr (.first [] (fun c hc => by cases hc) (fun c hc => by cases hc)), fun s hs => by cases hs⟩
  | nonce j n =>
    rcases hp with rfl | ⟨calls, ht, -⟩ | ⟨ncalls, hn, r2, hf, calls, -⟩
    · exact ⟨.inl rfl, fun s hs => by cases hs⟩
    · refine ⟨.inr ?_, fun s hs => by cases hs⟩
      rw [step, ← FirstRound.run_snoc _ calls (j, n)]
      refine .first _ (fun c hc => ?_) (fun c hc => by cases hc)
      rcases List.mem_append.1 hc with h | h
      · exact ht c h
      · rw [List.mem_singleton.1 h]
        exact he j n rfl
    · exact ⟨.inr (.second ncalls hn r2 hf calls (fun c hc => by cases hc)), fun s hs => by cases hs⟩
  | sign =>
    rcases hp with rfl | ⟨calls, ht, -⟩ | ⟨ncalls, hn, r2, hf, calls, -⟩
    · exact ⟨.inl rfl, fun s hs => by cases hs⟩
    · rcases finalize_cases (T := T) (msg := msg) hi ht with h | h
      · rw [step, h]
        exact ⟨.inl rfl, fun s hs => by cases hs⟩
      · obtain ⟨r2, hf, hs⟩ := step_sign (T := T) (msg := msg) hi h
        rw [hs]
        exact ⟨.inr (.second calls h r2 hf [] (fun c hc => by cases hc)), fun s hs => List.mem_singleton.1 hs⟩
    · exact ⟨.inr (.second ncalls hn r2 hf calls (fun c hc => by cases hc)), fun s hs => by cases hs⟩
  | aggregated an =>
    obtain rfl := ha an rfl
    rcases hp with rfl | ⟨calls, ht, -⟩ | ⟨ncalls, hn, r2, hf, calls, -⟩
    · exact ⟨.inl rfl, fun s hs => by cases hs⟩
    · rw [step, sign_aggregated hi calls]
      exact ⟨.inl rfl, fun s hs => List.mem_singleton.1 hs⟩
    · exact ⟨.inr (.second ncalls hn r2 hf calls (fun c hc => by cases hc)), fun s hs => by cases hs⟩
  | signature j s =>
    rcases hp with rfl | ⟨calls, ht, -⟩ | ⟨ncalls, hn, r2, hf, calls, -⟩
    · exact ⟨.inl rfl, fun s hs => by cases hs⟩
    · exact ⟨.inr (.first calls ht (fun c hc => by cases hc)), fun s hs => by cases hs⟩
    · refine ⟨.inr ?_, fun s hs => by cases hs⟩
      rw [step, ← SecondRound.run_snoc H _ calls (j, s)]
      exact .second ncalls hn r2 hf _ (fun c hc => by cases hc)

/-- Faithful histories. -/
theorem life_stage (hi : i ∈ g.honest) {es : List Event} (he : g.Faithful i es) {p : Program}
    (hp : p = .stopped ∨ g.Stage i T msg [] [] p) :
    ((g.life i T msg p es).1 = .stopped ∨ g.Stage i T msg [] [] (g.life i T msg p es).1) ∧
      ∀ s ∈ (g.life i T msg p es).2, s = partialSigValue H g.ctx (g.sk i) (g.rounds i).secnonce (AggNonce.sum g.told) T msg := by
  induction es generalizing p with
  | nil => exact ⟨hp, fun s hs => by cases hs⟩
  | cons e es ih =>
    have h1 := step_stage (T := T) (msg := msg) hi hp (e := e) (fun j n h => he.1 j n (h ▸ List.mem_cons_self))
      fun an h => he.2 an (h ▸ List.mem_cons_self)
    have h2 := ih ⟨fun j n h => he.1 j n (List.mem_cons_of_mem _ h), fun an h => he.2 an (List.mem_cons_of_mem _ h)⟩ h1.1
    refine ⟨h2.1, fun s hs => ?_⟩
    rcases List.mem_append.1 hs with h | h
    · exact h1.2 s h
    · exact h2.2 s h

/-- Nonces arrive, and the program is neither stopped nor asked to sign. -/
theorem life_nonces {es : List Event} (he : g.Faithful i es) (hs : .start ∉ es) (hg : .sign ∉ es)
    (ha : ∀ an, .aggregated an ∉ es)
    {N : List (ℕ × PubNonce)} {p : Program} (hp : g.Stage i T msg N [] p) :
    ∃ N', g.Stage i T msg N' [] (g.life i T msg p es).1 ∧ (∀ c ∈ N, c ∈ N') ∧ ∀ j n, .nonce j n ∈ es → (j, n) ∈ N' := by
  induction es generalizing p N with
  | nil => exact ⟨N, hp, fun c hc => hc, fun j n h => by cases h⟩
  | cons e es ih =>
    have hf : g.Faithful i es := ⟨fun j n h => he.1 j n (List.mem_cons_of_mem _ h), fun an h => he.2 an (List.mem_cons_of_mem _ h)⟩
    have ha' : ∀ an, .aggregated an ∉ es := fun an h => ha an (List.mem_cons_of_mem _ h)
    have hs' : .start ∉ es := fun h => hs (List.mem_cons_of_mem _ h)
    have hg' : .sign ∉ es := fun h => hg (List.mem_cons_of_mem _ h)
    rw [life]
    cases e with
    | start => exact (hs List.mem_cons_self).elim
    | sign => exact (hg List.mem_cons_self).elim
    | aggregated an => exact (ha an List.mem_cons_self).elim
    | nonce j n =>
      have key : g.Stage i T msg (N ++ [(j, n)]) [] (g.step i T msg p (.nonce j n)).1 := by
        obtain ⟨calls, ht, hN⟩ | ⟨ncalls, hn, r2, hf, calls, hS⟩ := hp
        · rw [step, ← FirstRound.run_snoc _ calls (j, n)]
          refine .first _ (fun c hc => ?_) (fun c hc => ?_)
          · rcases List.mem_append.1 hc with h | h
            · exact ht c h
            · rw [List.mem_singleton.1 h]
              exact he.1 j n List.mem_cons_self
          · rcases List.mem_append.1 hc with h | h
            · exact List.mem_append_left _ (hN c h)
            · exact List.mem_append_right _ h
        · exact .second ncalls hn r2 hf calls hS
      obtain ⟨N', h1, h2, h3⟩ := ih hf hs' hg' ha' key
      refine ⟨N', h1, fun c hc => h2 c (List.mem_append_left _ hc), fun j' n' h => ?_⟩
      rcases List.mem_cons.1 h with h | h
      · cases h
        exact h2 _ (List.mem_append_right _ (List.mem_singleton.2 rfl))
      · exact h3 j' n' h
    | signature j s =>
      have key : g.Stage i T msg N [] (g.step i T msg p (.signature j s)).1 := by
        obtain ⟨calls, ht, hN⟩ | ⟨ncalls, hn, r2, hf, calls, hS⟩ := hp
        · exact .first calls ht hN
        · rw [step, ← SecondRound.run_snoc H _ calls (j, s)]
          exact .second ncalls hn r2 hf _ (fun c hc => by cases hc)
      obtain ⟨N', h1, h2, h3⟩ := ih hf hs' hg' ha' key
      refine ⟨N', h1, h2, fun j' n' h => ?_⟩
      rcases List.mem_cons.1 h with h | h
      · cases h
      · exact h3 j' n' h

/-- Signatures arrive in the second round, and the program is not stopped. -/
theorem life_signatures {es : List Event} (hs : .start ∉ es) {r2 : SecondRound}
    (calls : List (ℕ × PartialSignature)) :
    ∃ calls', (g.life i T msg (.second (r2.run H calls).1) es).1 = .second (r2.run H calls').1 ∧
      (∀ c ∈ calls, c ∈ calls') ∧ ∀ j s, .signature j s ∈ es → (j, s) ∈ calls' := by
  induction es generalizing calls with
  | nil => exact ⟨calls, rfl, fun c hc => hc, fun j s h => by cases h⟩
  | cons e es ih =>
    have hs' : .start ∉ es := fun h => hs (List.mem_cons_of_mem _ h)
    rw [life]
    cases e with
    | start => exact (hs List.mem_cons_self).elim
    | sign =>
      obtain ⟨c', h1, h2, h3⟩ := ih hs' calls
      exact ⟨c', h1, h2, fun j s h => h3 j s ((List.mem_cons.1 h).resolve_left (by simp))⟩
    | aggregated an =>
      obtain ⟨c', h1, h2, h3⟩ := ih hs' calls
      exact ⟨c', h1, h2, fun j s h => h3 j s ((List.mem_cons.1 h).resolve_left (by simp))⟩
    | nonce j n =>
      obtain ⟨c', h1, h2, h3⟩ := ih hs' calls
      exact ⟨c', h1, h2, fun j s h => h3 j s ((List.mem_cons.1 h).resolve_left (by simp))⟩
    | signature j s =>
      obtain ⟨c', h1, h2, h3⟩ := ih hs' (calls ++ [(j, s)])
      rw [SecondRound.run_snoc] at h1
      refine ⟨c', h1, fun c hc => h2 c (List.mem_append_left _ hc), fun j' s' h => ?_⟩
      rcases List.mem_cons.1 h with h | h
      · cases h
        exact h2 _ (List.mem_append_right _ (List.mem_singleton.2 rfl))
      · exact h3 j' s' h

/-- The nonces told, one after the other. -/
theorem told_schedule (g : MixedGroup H) (i : ℕ) : g.NonceSchedule i (g.told.zipIdx.map fun c => (c.2, c.1)) := by
  refine Told.schedule (fun c hc _ _ => ?_) fun j hj _ => ?_
  · obtain ⟨d, hd, rfl⟩ := List.mem_map.1 hc
    exact List.mem_zipIdx_iff_getElem?.1 hd
  · rw [← g.told_length] at hj
    exact ⟨_, List.mem_map.2 ⟨(g.told[j], j), List.mem_zipIdx_iff_getElem?.2 (List.getElem?_eq_getElem hj), rfl⟩, rfl⟩

end MixedGroup

end Verif
