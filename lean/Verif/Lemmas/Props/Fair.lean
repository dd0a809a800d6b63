import Verif.Spec.Fair
import Verif.Lemmas.Props.World

/-!
# Helper lemmas for `Props/Fair`
-/

namespace Verif

/-- A common bound. -/
theorem common_bound {P : ℕ → ℕ → Prop} (mono : ∀ i n m, n ≤ m → P i n → P i m) :
    ∀ k, (∀ i < k, ∃ n, P i n) → ∃ n, ∀ i < k, P i n
  | 0, _ => ⟨0, fun i hi => absurd hi (Nat.not_lt_zero i)⟩
  | k + 1, h => by
    obtain ⟨n, hn⟩ := common_bound mono k fun i hi => h i (Nat.lt_succ_of_lt hi)
    obtain ⟨m, hm⟩ := h k (Nat.lt_succ_self k)
    refine ⟨max n m, fun i hi => ?_⟩
    by_cases hik : i = k
    · subst hik
      exact mono _ _ _ (le_max_right n m) hm
    · exact mono _ _ _ (le_max_left n m) (hn i (by omega))

namespace MixedGroup

open Spec (Program Event Message Action World)

variable {H : Hash} {g : MixedGroup H} {i : ℕ} {T : MaybePoint} {msg : Bytes}

theorem Stage.mono {N N' : List (ℕ × PubNonce)} {S S' : List (ℕ × PartialSignature)} {p : Program} (h : g.Stage i T msg N S p)
    (hN : ∀ c ∈ N', c ∈ N) (hS : ∀ c ∈ S', c ∈ S) : g.Stage i T msg N' S' p := by
  cases h with
  | first calls ht h => exact .first calls ht fun c hc => h c (hN c hc)
  | second ncalls hn r2 hf calls h => exact .second ncalls hn r2 hf calls fun c hc => h c (hS c hc)

theorem complete_iff (hi : i ∈ g.honest) (calls : List (ℕ × PubNonce)) :
    ((g.rounds i).run calls).1.isComplete = true ↔ ∀ j < g.ctx.pubkeys.length, j = i ∨ ∃ c ∈ calls, c.1 = j :=
  (C53_first_round_holdouts H g.ctx g.reachable (g.seed i) i (g.spices i) _ (g.started i hi) calls).2.2.2

/-- One event at a program that does not crash. -/
theorem Stage.step (hi : i ∈ g.honest) {N : List (ℕ × PubNonce)} {S : List (ℕ × PartialSignature)} {p : Program}
    (h : g.Stage i T msg N S p) (hSp : S = [] ∨ ∃ r, p = .second r) {e : Event} (he : ∀ j n, e = .nonce j n → g.told[j]? = some n) (ha : ∀ an, e ≠ .aggregated an)
    (hs : e ≠ .start) (hg : e = .sign → ∀ r, p = .first r → r.isComplete = true) :
    g.Stage i T msg N S (g.step i T msg p e).1 ∧
    (∀ r, p = .second r → ∃ r', (g.step i T msg p e).1 = .second r') ∧
    (e = .sign → ∃ r', (g.step i T msg p e).1 = .second r') ∧
    (∀ j n, e = .nonce j n → g.Stage i T msg ((j, n) :: N) S (g.step i T msg p e).1) ∧
    (∀ j s, e = .signature j s → (∃ r, p = .second r) → g.Stage i T msg N ((j, s) :: S) (g.step i T msg p e).1) := by
  cases e with
  | start => exact (hs rfl).elim
  | aggregated an => exact (ha an rfl).elim
  | nonce j n =>
    have key : g.Stage i T msg ((j, n) :: N) S (g.step i T msg p (.nonce j n)).1 := by
      cases h with
      | first calls ht hN =>
        rw [MixedGroup.step, ← FirstRound.run_snoc _ calls (j, n)]
        refine .first _ (fun c hc _ _ => ?_) (fun c hc => ?_)
        · rcases List.mem_append.1 hc with h | h
          · exact ht c h ‹_› ‹_›
          · rw [List.mem_singleton.1 h]
            exact he j n rfl
        · rcases List.mem_cons.1 hc with h | h
          · exact List.mem_append_right _ (List.mem_singleton.2 h)
          · exact List.mem_append_left _ (hN c h)
      | second ncalls hn r2 hf calls hS => exact .second ncalls hn r2 hf calls hS
    refine ⟨key.mono (fun c hc => List.mem_cons_of_mem _ hc) fun c hc => hc, ?_, nofun, fun j' n' h' => ?_, nofun⟩
    · rintro r rfl
      exact ⟨r, rfl⟩
    · cases h'
      exact key
  | sign =>
    cases h with
    | first calls ht hN =>
      have hc := (complete_iff hi calls).1 (hg rfl _ rfl)
      obtain ⟨r2, hf, hst⟩ := step_sign (T := T) (msg := msg) hi (ht.schedule fun j hj hji => (hc j hj).resolve_left hji)
      have hst1 : (g.step i T msg (.first ((g.rounds i).run calls).1) .sign).1 = .second (r2.run H []).1 := by
        rw [hst]
        rfl
      rw [hst1]
      rcases hSp with rfl | ⟨r, h⟩
      · exact ⟨.second calls (ht.schedule fun j hj hji => (hc j hj).resolve_left hji) r2 hf [] fun c hc => hc, nofun, fun _ => ⟨_, rfl⟩, nofun, nofun⟩
      · cases h
    | second ncalls hn r2 hf calls hS =>
      exact ⟨.second ncalls hn r2 hf calls hS, fun r _ => ⟨_, rfl⟩, fun _ => ⟨_, rfl⟩, nofun, nofun⟩
  | signature j s =>
    cases h with
    | first calls ht hN =>
      refine ⟨.first calls ht hN, fun r h => ?_, fun h => ?_, fun j n h => ?_, fun j s _ h => ?_⟩
      · cases h
      · cases h
      · cases h
      · obtain ⟨r, h⟩ := h
        cases h
    | second ncalls hn r2 hf calls hS =>
      have key : g.Stage i T msg N ((j, s) :: S) (g.step i T msg (.second (r2.run H calls).1) (.signature j s)).1 := by
        rw [MixedGroup.step, ← SecondRound.run_snoc H _ calls (j, s)]
        refine .second ncalls hn r2 hf _ fun c hc => ?_
        rcases List.mem_cons.1 hc with h | h
        · exact List.mem_append_right _ (List.mem_singleton.2 h)
        · exact List.mem_append_left _ (hS c h)
      refine ⟨key.mono (fun c hc => hc) fun c hc => List.mem_cons_of_mem _ hc, fun r _ => ⟨_, rfl⟩, fun h => ?_, fun j n h => ?_, fun j' s' h _ => ?_⟩
      · cases h
      · cases h
      · cases h
        exact key

/-- The only valid partial signature of an honest member. -/
def thePartial (g : MixedGroup H) (T : MaybePoint) (msg : Bytes) (i : ℕ) : PartialSignature :=
  partialSigValue H g.ctx (g.sk i) (g.rounds i).secnonce (AggNonce.sum g.told) T msg

/-- What holds whatever has happened. -/
def WorldInv (g : MixedGroup H) (T : MaybePoint) (msg : Bytes) (w : World) : Prop :=
  (∀ j n, .nonce j n ∈ w.sent → g.told[j]? = some n) ∧ (∀ j n, j ∉ g.honest → g.told[j]? = some n → .nonce j n ∈ w.sent) ∧
  ∀ i ∈ g.honest, w.programs i = .stopped ∨ (g.Stage i T msg [] [] (w.programs i) ∧
    .nonce i (g.rounds i).ourPublicNonce ∈ w.sent ∧ ∀ r, w.programs i = .second r → .signature i (g.thePartial T msg i) ∈ w.sent)

theorem WorldInv.act (hi : i ∈ g.honest) {w : World} (h : g.WorldInv T msg w) {e : Event}
    (he : ∀ j n, e = .nonce j n → g.told[j]? = some n) (ha : ∀ an, e ≠ .aggregated an) : g.WorldInv T msg (g.act T msg w i e) := by
  have hstart : g.step i T msg (w.programs i) .start = (.first (g.rounds i), []) := by
    rw [MixedGroup.step, g.started i hi]
  refine ⟨fun j n hm => ?_, fun j n hj hn => List.mem_append_left _ (h.2.1 j n hj hn), fun i' hi' => ?_⟩
  · rcases List.mem_append.1 hm with hm | hm
    · exact h.1 j n hm
    · cases e with
      | start =>
        rw [hstart] at hm
        cases List.mem_singleton.1 hm
        exact g.told_honest i hi
      | _ =>
        obtain ⟨s, -, hs⟩ := List.mem_map.1 hm
        cases hs
  · by_cases hii : i' = i
    · subst hii
      have hprog : (g.act T msg w i' e).programs i' = (g.step i' T msg (w.programs i') e).1 := Function.update_self _ _ _
      rw [hprog]
      have hst := (step_stage (T := T) (msg := msg) hi (p := w.programs i') ((h.2.2 i' hi).imp_right fun h => h.1) (e := e)
        (fun j n h _ _ => he j n h) fun an h => (ha an h).elim).1
      rcases hst with hst | hst
      · exact .inl hst
      refine .inr ⟨hst, ?_⟩
      by_cases hes : e = .start
      · subst hes
        refine ⟨List.mem_append_right _ ?_, fun r hr => ?_⟩
        · rw [hstart]
          exact List.mem_singleton.2 rfl
        · rw [hstart] at hr
          cases hr
      · rcases h.2.2 i' hi with hp | ⟨hp, hn, hs⟩
        · rw [hp] at hst
          cases e with
          | start => exact (hes rfl).elim
          | _ => cases hst
        · refine ⟨List.mem_append_left _ hn, fun r hr => ?_⟩
          rcases hw : w.programs i' with _ | r1 | r1
          · rw [hw] at hp
            cases hp
          · rw [hw] at hr hp
            cases e with
            | start => exact (hes rfl).elim
            | aggregated an => exact (ha an rfl).elim
            | nonce j n => cases hr
            | signature j s => cases hr
            | sign =>
              cases hp with
              | first calls ht hN =>
                rcases finalize_cases (T := T) (msg := msg) hi ht with hf | hf
                · rw [MixedGroup.step, hf] at hr
                  cases hr
                · obtain ⟨r2, -, hs⟩ := step_sign (T := T) (msg := msg) hi hf
                  refine List.mem_append_right _ ?_
                  rw [hw, hs]
                  exact List.mem_singleton.2 rfl
          · exact List.mem_append_left _ (hs _ hw)
    · have hprog : (g.act T msg w i e).programs i' = w.programs i' := Function.update_of_ne hii _ _
      rw [hprog]
      exact (h.2.2 i' hi').imp_right fun ⟨h1, h2, h3⟩ => ⟨h1, List.mem_append_left _ h2, fun r hr => List.mem_append_left _ (h3 r hr)⟩

/-- The event of an action. -/
def eventOf (w : World) : Action → Option Event
  | .start => some .start
  | .sign => some .sign
  | .deliver k => w.sent[k]?.map arrival
  | .inject j s => some (.signature j s)

theorem move_eq (hi : i ∈ g.honest) (w : World) (a : Action) :
    g.move T msg w (i, a) = match eventOf w a with
      | some e => g.act T msg w i e
      | none => w := by
  unfold move
  rw [if_pos hi]
  cases a with
  | deliver k =>
    simp only [eventOf]
    rcases w.sent[k]? with _ | m <;> rfl
  | _ => rfl

theorem WorldInv.event {w : World} (h : g.WorldInv T msg w) {a : Action} {e : Event} (he : eventOf w a = some e) :
    (∀ j n, e = .nonce j n → g.told[j]? = some n) ∧ (∀ an, e ≠ .aggregated an) ∧ (e = .start → a = .start) ∧ (e = .sign → a = .sign) := by
  cases a with
  | start =>
    cases he
    exact ⟨nofun, nofun, fun _ => rfl, nofun⟩
  | sign =>
    cases he
    exact ⟨nofun, nofun, nofun, fun _ => rfl⟩
  | inject j s =>
    cases he
    exact ⟨nofun, nofun, nofun, nofun⟩
  | deliver k =>
    rcases hk : w.sent[k]? with _ | m
    · simp [eventOf, hk] at he
    · simp only [eventOf, hk, Option.map_some, Option.some.injEq] at he
      subst he
      cases m with
      | nonce j n =>
        refine ⟨fun j' n' h' => ?_, nofun, nofun, nofun⟩
        cases h'
        exact h.1 _ _ (List.mem_of_getElem? hk)
      | signature j s => exact ⟨nofun, nofun, nofun, nofun⟩

theorem WorldInv.move {w : World} (h : g.WorldInv T msg w) (a : ℕ × Action) :
    g.WorldInv T msg (g.move T msg w a) := by
  obtain ⟨i, a⟩ := a
  by_cases hi : i ∈ g.honest
  · rw [move_eq hi]
    rcases he : eventOf w a with _ | e
    · exact h
    · exact h.act hi (h.event he).1 (h.event he).2.1
  · unfold MixedGroup.move
    rw [if_neg hi]
    exact h

theorem history_inv (f : ℕ → ℕ × Action) (n : ℕ) : g.WorldInv T msg (g.history T msg f n) := by
  induction n with
  | zero =>
    refine ⟨fun j n h => ?_, fun j n h1 h2 => mem_initial.2 ⟨j, n, rfl, h1, h2⟩, fun i _ => .inl rfl⟩
    obtain ⟨j', n', h1, -, h2⟩ := mem_initial.1 h
    cases h1
    exact h2
  | succ n ih => exact ih.move (f n)

theorem history_eq_moves (f : ℕ → ℕ × Action) (n : ℕ) : g.history T msg f n = g.moves T msg g.initial ((List.range n).map f) := by
  induction n with
  | zero => rfl
  | succ n ih =>
    rw [history, ih, List.range_succ, List.map_append, moves_append]
    rfl

theorem move_sent (w : World) (a : ℕ × Action) : ∃ t, (g.move T msg w a).sent = w.sent ++ t := by
  obtain ⟨i, a⟩ := a
  by_cases hi : i ∈ g.honest
  · rw [move_eq hi]
    rcases eventOf w a with _ | e
    · exact ⟨[], (List.append_nil _).symm⟩
    · exact ⟨_, rfl⟩
  · unfold move
    rw [if_neg hi]
    exact ⟨[], (List.append_nil _).symm⟩

theorem history_sent (f : ℕ → ℕ × Action) {n m : ℕ} (h : n ≤ m) : ∃ t, (g.history T msg f m).sent = (g.history T msg f n).sent ++ t := by
  induction m, h using Nat.le_induction with
  | base => exact ⟨[], (List.append_nil _).symm⟩
  | succ m _ ih =>
    obtain ⟨t, ht⟩ := ih
    obtain ⟨t', ht'⟩ := g.move_sent (T := T) (msg := msg) (g.history T msg f m) (f m)
    exact ⟨t ++ t', by rw [history, ht', ht, List.append_assoc]⟩

/-- The program of a member runs from the time `t` on. -/
def Runs (g : MixedGroup H) (T : MaybePoint) (msg : Bytes) (f : ℕ → ℕ × Action) (i t : ℕ) : Prop :=
  (g.history T msg f t).programs i ≠ .stopped ∧ ∀ n ≥ t, f n ≠ (i, .start) ∧
    (f n = (i, .sign) → ∀ r, (g.history T msg f n).programs i = .first r → r.isComplete = true)

section

variable {f : ℕ → ℕ × Action} {t : ℕ} (hi : i ∈ g.honest)

include hi

/-- One action in the life of a program that runs. -/
theorem Stage.next {n : ℕ} (hf : f n ≠ (i, .start))
    (hg : f n = (i, .sign) → ∀ r, (g.history T msg f n).programs i = .first r → r.isComplete = true)
    {N : List (ℕ × PubNonce)} {S : List (ℕ × PartialSignature)} (h : g.Stage i T msg N S ((g.history T msg f n).programs i))
    (hSp : S = [] ∨ ∃ r, (g.history T msg f n).programs i = .second r) :
    g.Stage i T msg N S ((g.history T msg f (n + 1)).programs i) ∧
    (∀ r, (g.history T msg f n).programs i = .second r → ∃ r', (g.history T msg f (n + 1)).programs i = .second r') ∧
    (f n = (i, .sign) → ∃ r', (g.history T msg f (n + 1)).programs i = .second r') ∧
    (∀ j s, f n = (i, .inject j s) → (∃ r, (g.history T msg f n).programs i = .second r) →
      g.Stage i T msg N ((j, s) :: S) ((g.history T msg f (n + 1)).programs i)) ∧
    (∀ k, f n = (i, .deliver k) → (∀ j v, (g.history T msg f n).sent[k]? = some (.nonce j v) →
        g.Stage i T msg ((j, v) :: N) S ((g.history T msg f (n + 1)).programs i)) ∧
      ∀ j s, (g.history T msg f n).sent[k]? = some (.signature j s) → (∃ r, (g.history T msg f n).programs i = .second r) →
        g.Stage i T msg N ((j, s) :: S) ((g.history T msg f (n + 1)).programs i)) := by
  have hinv := history_inv (g := g) (T := T) (msg := msg) f n
  rw [history]
  generalize g.history T msg f n = w at *
  rcases hfn : f n with ⟨i', a⟩
  rw [hfn] at hf hg
  by_cases hii : i' = i
  · subst hii
    rw [move_eq hi]
    rcases he : eventOf w a with _ | e
    · refine ⟨h, fun r hr => ⟨r, hr⟩, fun h' => ?_, fun j s h' => ?_, fun k h' => ?_⟩
      · cases h'
        cases he
      · cases h'
        cases he
      · cases h'
        simp only [eventOf, Option.map_eq_none_iff] at he
        rw [he]
        exact ⟨nofun, nofun⟩
    · obtain ⟨e1, e2, e3, e4⟩ := hinv.event he
      have hprog : (g.act T msg w i' e).programs i' = (g.step i' T msg (w.programs i') e).1 := Function.update_self _ _ _
      simp only
      rw [hprog]
      obtain ⟨s1, s2, s3, s4, s5⟩ := h.step hi hSp e1 e2 (fun h' => hf (by rw [e3 h'])) fun h' => hg (by rw [e4 h'])
      refine ⟨s1, s2, fun h' => ?_, fun j s h' => ?_, fun k h' => ?_⟩
      · cases h'
        cases he
        exact s3 rfl
      · cases h'
        cases he
        exact s5 j s rfl
      · cases h'
        refine ⟨fun j v hk => ?_, fun j s hk => ?_⟩
        · simp only [eventOf, hk, Option.map_some, Option.some.injEq] at he
          exact s4 j v he.symm
        · simp only [eventOf, hk, Option.map_some, Option.some.injEq] at he
          exact s5 j s he.symm
  · have hprog : (g.move T msg w (i', a)).programs i = w.programs i := by
      by_cases hi' : i' ∈ g.honest
      · rw [move_eq hi']
        rcases eventOf w a with _ | e
        · rfl
        · exact Function.update_of_ne (Ne.symm hii) _ _
      · unfold MixedGroup.move
        rw [if_neg hi']
    rw [hprog]
    refine ⟨h, fun r hr => ⟨r, hr⟩, fun h' => ?_, fun j s h' => ?_, fun k h' => ?_⟩
    · cases h'
      exact (hii rfl).elim
    · cases h'
      exact (hii rfl).elim
    · cases h'
      exact (hii rfl).elim

/-- The program keeps what it has. -/
theorem Runs.keep (hr : g.Runs T msg f i t) {n m : ℕ} (hn : t ≤ n) (hm : n ≤ m)
    {N : List (ℕ × PubNonce)} {S : List (ℕ × PartialSignature)} (h : g.Stage i T msg N S ((g.history T msg f n).programs i))
    (hSp : S = [] ∨ ∃ r, (g.history T msg f n).programs i = .second r) :
    g.Stage i T msg N S ((g.history T msg f m).programs i) ∧
      ((∃ r, (g.history T msg f n).programs i = .second r) → ∃ r, (g.history T msg f m).programs i = .second r) := by
  induction m, hm using Nat.le_induction with
  | base => exact ⟨h, fun h => h⟩
  | succ m hm ih =>
    obtain ⟨h1, h2, -⟩ := ih.1.next hi (hr.2 m (hn.trans hm)).1 (hr.2 m (hn.trans hm)).2 (hSp.imp_right ih.2)
    exact ⟨h1, fun h => (ih.2 h).elim fun r hr => h2 r hr⟩

theorem Runs.stage (hr : g.Runs T msg f i t) {n : ℕ} (hn : t ≤ n) : g.Stage i T msg [] [] ((g.history T msg f n).programs i) :=
  (hr.keep hi le_rfl hn (((history_inv (T := T) (msg := msg) f t).2.2 i hi).resolve_left hr.1).1 (.inl rfl)).1

/-- Messages arrive one after the other. -/
theorem Runs.nonces (hF : g.Fair T msg f) (hr : ∀ i ∈ g.honest, g.Runs T msg f i t) :
    ∀ k ≤ g.ctx.pubkeys.length, ∃ n ≥ t,
      g.Stage i T msg ((List.range k).map fun j => (j, g.told[j]?.getD (g.rounds j).ourPublicNonce)) [] ((g.history T msg f n).programs i)
  | 0, _ => ⟨t, le_rfl, (hr i hi).stage hi le_rfl⟩
  | k + 1, hk => by
    obtain ⟨n, hn, h⟩ := Runs.nonces hF hr k (Nat.le_of_succ_le hk)
    have hin : .nonce k (g.told[k]?.getD (g.rounds k).ourPublicNonce) ∈ (g.history T msg f n).sent := by
      by_cases hkh : k ∈ g.honest
      · have hs := (hr k hkh).stage hkh hn
        rw [g.told_honest k hkh]
        exact (((history_inv (T := T) (msg := msg) f n).2.2 k hkh).resolve_left fun h => by rw [h] at hs; cases hs).2.1
      · have hk' : k < g.told.length := by
          rw [g.told_length]
          exact hk
        rw [List.getElem?_eq_getElem hk']
        exact (history_inv (T := T) (msg := msg) f n).2.1 k _ hkh (List.getElem?_eq_getElem hk')
    obtain ⟨q, hq⟩ := List.getElem?_of_mem hin
    have hql := (List.getElem?_eq_some_iff.1 hq).1
    obtain ⟨m, hm, hfm⟩ := hF.delivers i hi n q hql
    obtain ⟨u, hu⟩ := g.history_sent (T := T) (msg := msg) f hm
    have h' := ((hr i hi).keep hi hn hm h (.inl rfl)).1
    obtain ⟨-, -, -, -, h4⟩ := h'.next hi ((hr i hi).2 m (hn.trans hm)).1 ((hr i hi).2 m (hn.trans hm)).2 (.inl rfl)
    refine ⟨m + 1, by omega, ((h4 q hfm).1 k _ (by rw [hu, List.getElem?_append_left hql, hq])).mono (fun c hc => ?_) fun c hc => hc⟩
    rw [List.range_succ, List.map_append, List.mem_append] at hc
    rcases hc with hc | hc
    · exact List.mem_cons_of_mem _ hc
    · rw [List.mem_singleton.1 hc]
      exact List.mem_cons_self

/-- All members come to the second round. -/
theorem Runs.second (hF : g.Fair T msg f) (hr : ∀ i ∈ g.honest, g.Runs T msg f i t) :
    ∃ n ≥ t, ∃ r, (g.history T msg f n).programs i = .second r := by
  obtain ⟨n, hn, h⟩ := Runs.nonces hi hF hr _ le_rfl
  obtain ⟨m, hm, hs⟩ := hF.signs i hi n
  have h' := ((hr i hi).keep hi hn hm h (.inl rfl)).1
  rcases hs with hs | hs
  · obtain ⟨-, -, h3, -⟩ := h'.next hi ((hr i hi).2 m (hn.trans hm)).1 ((hr i hi).2 m (hn.trans hm)).2 (.inl rfl)
    exact ⟨m + 1, by omega, h3 hs⟩
  · refine ⟨m, hn.trans hm, ?_⟩
    generalize (g.history T msg f m).programs i = p at *
    cases h' with
    | first calls ht hN =>
      refine (hs ⟨_, rfl, (complete_iff hi calls).2 fun j hj => .inr ⟨_, hN (j, g.told[j]?.getD (g.rounds j).ourPublicNonce) ?_, rfl⟩⟩).elim
      exact List.mem_map.2 ⟨j, List.mem_range.2 hj, rfl⟩
    | second ncalls hn r2 hf calls hS => exact ⟨_, rfl⟩

theorem Runs.signatures (hF : g.Fair T msg f) (hr : ∀ i ∈ g.honest, g.Runs T msg f i t)
    {t' : ℕ} (ht : t ≤ t') (h2 : ∀ i ∈ g.honest, ∃ r, (g.history T msg f t').programs i = .second r) :
    ∀ k ≤ g.ctx.pubkeys.length, ∃ n ≥ t', g.Stage i T msg [] (((List.range k).filter (· ∈ g.honest)).map fun j => (j, g.thePartial T msg j))
      ((g.history T msg f n).programs i)
  | 0, _ => ⟨t', le_rfl, (hr i hi).stage hi ht⟩
  | k + 1, hk => by
    obtain ⟨n, hn, h⟩ := Runs.signatures hF hr ht h2 k (Nat.le_of_succ_le hk)
    by_cases hkh : k ∈ g.honest
    swap
    · refine ⟨n, hn, ?_⟩
      rw [List.range_succ, List.filter_append, List.filter_cons_of_neg (by simpa using hkh), List.filter_nil, List.append_nil]
      exact h
    have hsec : ∀ j ∈ g.honest, ∀ n ≥ t', ∃ r, (g.history T msg f n).programs j = .second r := fun j hj n hn =>
      ((hr j hj).keep hj ht hn ((hr j hj).stage hj ht) (.inl rfl)).2 (h2 j hj)
    obtain ⟨rk, hrk⟩ := hsec k hkh n hn
    have hin := (((history_inv (T := T) (msg := msg) f n).2.2 k hkh).resolve_left fun h => by rw [hrk] at h; cases h).2.2 rk hrk
    obtain ⟨q, hq⟩ := List.getElem?_of_mem hin
    have hql := (List.getElem?_eq_some_iff.1 hq).1
    obtain ⟨m, hm, hfm⟩ := hF.delivers i hi n q hql
    obtain ⟨u, hu⟩ := g.history_sent (T := T) (msg := msg) f hm
    have h' := ((hr i hi).keep hi (ht.trans hn) hm h (.inr (hsec i hi n hn))).1
    obtain ⟨-, -, -, -, h4⟩ := h'.next hi ((hr i hi).2 m (by omega)).1 ((hr i hi).2 m (by omega)).2 (.inr (hsec i hi m (by omega)))
    refine ⟨m + 1, by omega, ((h4 q hfm).2 k _ (by rw [hu, List.getElem?_append_left hql, hq]) (hsec i hi m (by omega))).mono
      (fun c hc => hc) fun c hc => ?_⟩
    rw [List.range_succ, List.filter_append, List.filter_cons_of_pos (by simpa using hkh), List.filter_nil, List.map_append, List.mem_append] at hc
    rcases hc with hc | hc
    · exact List.mem_cons_of_mem _ hc
    · rw [List.mem_singleton.1 hc]
      exact List.mem_cons_self

end

end MixedGroup

end Verif
