import Verif.Spec.SessionForger
import Verif.Lemmas.Props.Views

/-!
# Helpers of `Props/SessionForger`
-/

namespace Verif

open Forger (Log Drawn answers GoodLog)

namespace Asking

variable {α β : Type}

theorem run_ask (H : Hash) (ω η : ℕ → Arr 32) (x : Bytes) (next : Arr 32 → Asking α) (st : State) :
    (Asking.ask x next).run H ω η st =
      if Drawn x then (next (st.challenges.answer ω x)).run H ω η { st with challenges := st.challenges.add ω x }
      else if DrawnNonce x then (next (st.nonces.answer η x)).run H ω η { st with nonces := st.nonces.add η x }
      else (next (H x)).run H ω η st := by
  rw [run]

theorem run_bind (H : Hash) (ω η : ℕ → Arr 32) (t : Asking α) (k : α → Asking β) (st : State) :
    (t.bind k).run H ω η st = (k (t.run H ω η st).1).run H ω η (t.run H ω η st).2 := by
  induction t generalizing st with
  | done a => rfl
  | ask x next ih =>
    unfold bind
    rw [run_ask, run_ask]
    split
    · exact ih _ _
    · split
      · exact ih _ _
      · exact ih _ _

theorem drawn_challengeQuery' (rx : Bytes) (Q : Point) (msg : Bytes) : Drawn (Spec.challengeQuery rx Q msg) := tag_prefix _ _

theorem not_drawn_noncecoefQuery (an : AggNonce) (Q : Point) (msg : Bytes) : ¬ Drawn (Spec.noncecoefQuery an Q msg) :=
  not_prefix_of_tag (by decide +kernel) (by decide +kernel) (by decide) _

theorem drawnNonce_noncecoefQuery (an : AggNonce) (Q : Point) (msg : Bytes) : DrawnNonce (Spec.noncecoefQuery an Q msg) :=
  tag_prefix _ _

/-- The answers in the logs are the first ones of the sequences. -/
def Good (ω η : ℕ → Arr 32) (st : State) : Prop := GoodLog ω st.challenges ∧ GoodLog η st.nonces

theorem run_good (H : Hash) (ω η : ℕ → Arr 32) (t : Asking α) (st : State) (h : Good ω η st) : Good ω η (t.run H ω η st).2 := by
  induction t generalizing st with
  | done a => exact h
  | ask x next ih =>
    unfold run
    split
    · exact ih _ _ ⟨h.1.add x, h.2⟩
    · split
      · exact ih _ _ ⟨h.1, h.2.add x⟩
      · exact ih _ _ h

theorem run_prefix (H : Hash) (ω η : ℕ → Arr 32) (t : Asking α) (st : State) :
    st.challenges <+: (t.run H ω η st).2.challenges ∧ st.nonces <+: (t.run H ω η st).2.nonces := by
  induction t generalizing st with
  | done a => exact ⟨List.prefix_rfl, List.prefix_rfl⟩
  | ask x next ih =>
    unfold run
    split
    · have := ih (st.challenges.answer ω x) { st with challenges := st.challenges.add ω x }
      exact ⟨(Log.add_prefix ω _ x).trans this.1, this.2⟩
    · split
      · have := ih (st.nonces.answer η x) { st with nonces := st.nonces.add η x }
        exact ⟨this.1, (Log.add_prefix η _ x).trans this.2⟩
      · exact ih _ _

theorem run_length (H : Hash) (ω η : ℕ → Arr 32) {post : ℕ → ℕ → α → Prop} (t : Asking α) {q c : ℕ} (h : t.Within post q c)
    (st : State) : (t.run H ω η st).2.challenges.length ≤ st.challenges.length + q ∧
      (t.run H ω η st).2.nonces.length ≤ st.nonces.length + c := by
  induction t generalizing st q c with
  | done a => exact ⟨Nat.le_add_right _ _, Nat.le_add_right _ _⟩
  | ask x next ih =>
    unfold Within at h
    unfold run
    split at h
    · obtain ⟨q', rfl, h⟩ := h
      rename_i hx
      rw [if_pos hx]
      have h1 := fun a => ih a (h a) { st with challenges := st.challenges.add ω x }
      have h2 := Log.add_length ω st.challenges x
      simp only at h1 ⊢
      exact ⟨(h1 _).1.trans (by omega), (h1 _).2⟩
    · rename_i hx
      rw [if_neg hx]
      split at h
      · obtain ⟨c', rfl, h⟩ := h
        rename_i hx'
        rw [if_pos hx']
        have h1 := fun a => ih a (h a) { st with nonces := st.nonces.add η x }
        have h2 := Log.add_length η st.nonces x
        simp only at h1 ⊢
        exact ⟨(h1 _).1, (h1 _).2.trans (by omega)⟩
      · rename_i hx'
        rw [if_neg hx']
        exact ih _ (h _) st

theorem within_bind {post : ℕ → ℕ → α → Prop} {post' : ℕ → ℕ → β → Prop} (dq dc : ℕ) (k : α → Asking β)
    (hk : ∀ q c a, post q c a → (k a).Within post' (q + dq) (c + dc)) (t : Asking α) {q c : ℕ} (h : t.Within post q c) :
    (t.bind k).Within post' (q + dq) (c + dc) := by
  induction t generalizing q c with
  | done a => exact hk _ _ _ h
  | ask x next ih =>
    unfold bind
    unfold Within at h ⊢
    split at h
    · obtain ⟨q', rfl, h⟩ := h
      rename_i hx
      rw [if_pos hx]
      exact ⟨q' + dq, by omega, fun a => ih a (h a)⟩
    · rename_i hx
      rw [if_neg hx]
      split at h
      · obtain ⟨c', rfl, h⟩ := h
        rename_i hx'
        rw [if_pos hx']
        exact ⟨c' + dc, by omega, fun a => ih a (h a)⟩
      · rename_i hx'
        rw [if_neg hx']
        exact fun a => ih a (h a)

end Asking

namespace SessionForger

open Asking

theorem game_within {A : SessionForger} {q c : ℕ} (hA : A.AsksAtMost q c) (Q : Point) (pn : PubNonce)
    (sign : Spec.Reply → Arr 32 → Arr 32 → MaybeScalar) :
    (A.game Q pn sign).Within (fun _ _ _ => True) (q + 1) (c + 1) := by
  unfold game
  refine within_bind 1 1 _ (fun q c next hn => ?_) A hA
  refine within_bind 1 1 _ (fun q c p hp => ?_) _ (hn pn)
  unfold Within
  rw [if_neg (not_drawn_noncecoefQuery _ _ _), if_pos (drawnNonce_noncecoefQuery _ _ _)]
  refine ⟨c, rfl, fun hb => ?_⟩
  unfold Within
  rw [if_pos (drawn_challengeQuery' _ _ _)]
  refine ⟨q, rfl, fun he => ?_⟩
  refine within_bind (post' := fun _ _ _ => True) 0 0 _ (fun _ _ _ _ => ?_) _ (hp _)
  unfold Within
  trivial

/-- The states of a game: before the session is finished, after its hashes, and at the end. -/
theorem game_run (H : Hash) (ω η : ℕ → Arr 32) (A : SessionForger) (Q : Point) (pn : PubNonce) (st : State) :
    ∃ (p : Spec.Reply × (MaybeScalar → Asking (Bytes × CompactSignature))) (st2 : State),
      let hb := st2.nonces.answer η (Spec.noncecoefQuery p.1.aggnonce Q p.1.message)
      let x := Spec.challengeQuery (Spec.xbytes (p.1.nonce hb)) Q p.1.message
      let he := st2.challenges.answer ω x
      let st4 : State := ⟨st2.challenges.add ω x, st2.nonces.add η (Spec.noncecoefQuery p.1.aggnonce Q p.1.message)⟩
      ∀ sign', (A.game Q pn sign').run H ω η st = (⟨p.1, hb, he, ((p.2 (sign' p.1 hb he)).run H ω η st4).1.1,
          ((p.2 (sign' p.1 hb he)).run H ω η st4).1.2⟩, ((p.2 (sign' p.1 hb he)).run H ω η st4).2) := by
  refine ⟨(((A.run H ω η st).1 pn).run H ω η (A.run H ω η st).2).1, (((A.run H ω η st).1 pn).run H ω η (A.run H ω η st).2).2, ?_⟩
  intro hb x he st4 sign'
  unfold game
  rw [run_bind, run_bind, run_ask, if_neg (not_drawn_noncecoefQuery _ _ _), if_pos (drawnNonce_noncecoefQuery _ _ _), run_ask,
    if_pos (drawn_challengeQuery' _ _ _), run_bind]
  rfl

/-- The partial signature matters only where it is made. -/
theorem game_congr (H : Hash) (ω η : ℕ → Arr 32) (A : SessionForger) (Q : Point) (pn : PubNonce)
    (sign sign' : Spec.Reply → Arr 32 → Arr 32 → MaybeScalar) (st : State)
    (h : let r := ((A.game Q pn sign).run H ω η st).1; sign r.reply r.hb r.he = sign' r.reply r.hb r.he) :
    (A.game Q pn sign').run H ω η st = (A.game Q pn sign).run H ω η st := by
  obtain ⟨p, st2, hr⟩ := game_run H ω η A Q pn st
  simp only at hr h
  rw [hr] at h
  simp only at h
  rw [hr, hr, h]

theorem getElem_add (ω : ℕ → Arr 32) (log : Log) (x : Bytes) : ∃ i : ℕ, (log.add ω x)[i]? = some (x, log.answer ω x) := by
  unfold Log.add Log.answer
  cases h : log.find x with
  | none =>
    refine ⟨log.length, ?_⟩
    simp
  | some a =>
    unfold Log.find at h
    obtain ⟨e, he, rfl⟩ := Option.map_eq_some_iff.1 h
    obtain ⟨i, hi⟩ := List.mem_iff_getElem?.1 (List.mem_of_find?_eq_some he)
    refine ⟨i, ?_⟩
    have h1 : e.1 = x := by
      have := List.find?_some he
      exact of_decide_eq_true this
    simp only [Option.getD_some]
    rw [← h1]
    exact hi

/-- The string of the challenge in the session. -/
def sessionQuery (Q : Point) (r : Result) : Bytes := Spec.challengeQuery (Spec.xbytes (r.reply.nonce r.hb)) Q r.reply.message

/-- The hashes in the session are answers of the sequences. -/
theorem game_indices {A : SessionForger} {q c : ℕ} (hA : A.AsksAtMost q c) (H : Hash) (ω η : ℕ → Arr 32) (Q : Point)
    (pn : PubNonce) (sign : Spec.Reply → Arr 32 → Arr 32 → MaybeScalar) :
    let out := (A.game Q pn sign).run H ω η State.init
    ∃ (i : Fin (c + 1)) (j : Fin (q + 2)), out.1.hb = η i.1 ∧ out.1.he = ω j.1 ∧
      out.2.challenges[j.1]?.map (·.1) = some (sessionQuery Q out.1) := by
  intro out
  have hgood : Good ω η out.2 := Asking.run_good H ω η _ _ ⟨GoodLog.nil _, GoodLog.nil _⟩
  have hlen := Asking.run_length H ω η _ (game_within hA Q pn sign) State.init
  obtain ⟨p, st2, hr⟩ := game_run H ω η A Q pn State.init
  simp only at hr
  have ho : out = (A.game Q pn sign).run H ω η State.init := rfl
  rw [← ho] at hlen
  rw [hr] at ho
  have hpre := Asking.run_prefix H ω η (p.2 (sign p.1 (st2.nonces.answer η (Spec.noncecoefQuery p.1.aggnonce Q p.1.message))
    (st2.challenges.answer ω (Spec.challengeQuery (Spec.xbytes (p.1.nonce (st2.nonces.answer η (Spec.noncecoefQuery
      p.1.aggnonce Q p.1.message)))) Q p.1.message)))) (State.mk (st2.challenges.add ω (Spec.challengeQuery (Spec.xbytes (p.1.nonce
        (st2.nonces.answer η (Spec.noncecoefQuery p.1.aggnonce Q p.1.message)))) Q p.1.message))
        (st2.nonces.add η (Spec.noncecoefQuery p.1.aggnonce Q p.1.message)))
  have h2 : ((p.2 (sign p.1 (st2.nonces.answer η (Spec.noncecoefQuery p.1.aggnonce Q p.1.message))
    (st2.challenges.answer ω (Spec.challengeQuery (Spec.xbytes (p.1.nonce (st2.nonces.answer η (Spec.noncecoefQuery
      p.1.aggnonce Q p.1.message)))) Q p.1.message)))).run H ω η (State.mk (st2.challenges.add ω (Spec.challengeQuery (Spec.xbytes
        (p.1.nonce (st2.nonces.answer η (Spec.noncecoefQuery p.1.aggnonce Q p.1.message)))) Q p.1.message))
        (st2.nonces.add η (Spec.noncecoefQuery p.1.aggnonce Q p.1.message)))).2 = out.2 := by rw [ho]
  rw [h2] at hpre
  simp only at hpre
  have hx : sessionQuery Q out.1 = Spec.challengeQuery (Spec.xbytes (p.1.nonce
        (st2.nonces.answer η (Spec.noncecoefQuery p.1.aggnonce Q p.1.message)))) Q p.1.message := by rw [ho]; rfl
  have hhb : out.1.hb = st2.nonces.answer η (Spec.noncecoefQuery p.1.aggnonce Q p.1.message) := by rw [ho]
  have hhe : out.1.he = st2.challenges.answer ω (Spec.challengeQuery (Spec.xbytes (p.1.nonce (st2.nonces.answer η
      (Spec.noncecoefQuery p.1.aggnonce Q p.1.message)))) Q p.1.message) := by rw [ho]
  rw [← hx] at hpre hhe
  obtain ⟨i, hi⟩ := getElem_add η st2.nonces (Spec.noncecoefQuery p.1.aggnonce Q p.1.message)
  obtain ⟨j, hj⟩ := getElem_add ω st2.challenges (sessionQuery Q out.1)
  rw [← hhb] at hi
  rw [← hhe] at hj
  have hi' : out.2.nonces[i]? = some (Spec.noncecoefQuery p.1.aggnonce Q p.1.message, out.1.hb) := by
    rw [Forger.getElem?_of_prefix hpre.2 (List.getElem?_eq_some_iff.1 hi).1, hi]
  have hj' : out.2.challenges[j]? = some (sessionQuery Q out.1, out.1.he) := by
    rw [Forger.getElem?_of_prefix hpre.1 (List.getElem?_eq_some_iff.1 hj).1, hj]
  have hil := (List.getElem?_eq_some_iff.1 hi').1
  have hjl := (List.getElem?_eq_some_iff.1 hj').1
  have hlen' : out.2.challenges.length ≤ q + 1 ∧ out.2.nonces.length ≤ c + 1 := by
    simpa [State.init] using hlen
  refine ⟨⟨i, by omega⟩, ⟨j, by omega⟩, hgood.2.ans i _ hi', hgood.1.ans j _ hj', ?_⟩
  simp only
  rw [hj']
  rfl

/-! ## The forger without a session -/

theorem asksAtMost_succ {q : ℕ} {A : Forger} (h : A.AsksAtMost q) : A.AsksAtMost (q + 1) := by
  induction h with
  | submit q msg sig => exact .submit _ _ _
  | ask q x next h ih => exact .ask _ _ _ ih
  | other q x next hx h ih => exact .other _ _ _ hx ih

theorem alone_asks {α : Type} {post : ℕ → ℕ → α → Prop} (η : ℕ → Arr 32) (j : ℕ) (he : Arr 32) (submit : α → Forger)
    (hs : ∀ a q, (submit a).AsksAtMost q) (t : Asking α) {q c : ℕ} (h : t.Within post q c) (st : State) :
    (alone η j he submit t st).AsksAtMost q := by
  induction t generalizing st q c with
  | done a => exact hs a q
  | ask x next ih =>
    unfold Within at h
    unfold alone
    split at h
    · obtain ⟨q', rfl, h⟩ := h
      rename_i hx
      rw [if_pos hx]
      split
      · exact asksAtMost_succ (ih _ (h _) _)
      · exact .ask _ _ _ fun a => ih _ (h _) _
    · rename_i hx
      rw [if_neg hx]
      split at h
      · obtain ⟨c', rfl, h⟩ := h
        rename_i hx'
        rw [if_pos hx']
        exact ih _ (h _) _
      · rename_i hx'
        rw [if_neg hx']
        exact .other _ _ _ hx fun a => ih _ (h _) _

theorem simulator_asks {q c q' c' : ℕ} (ctx : KeyAggContext) (P : Point) (a : MaybeScalar) {A : SessionForger}
    (hA : A.AsksAtMost q c) (g : Guess q' c') : (simulator ctx P a A g).AsksAtMost (q + 1) := by
  unfold simulator
  split
  · exact .submit _ _ _
  · exact alone_asks _ _ _ _ (fun _ _ => .submit _ _ _) _ (game_within hA _ _ _) _

theorem find_keys {l l' : Log} (h : l.map (·.1) = l'.map (·.1)) (x : Bytes) : l.find x = none ↔ l'.find x = none := by
  rw [Log.find_eq_none, Log.find_eq_none, h]

theorem add_keys {l l' : Log} (ω ω' : ℕ → Arr 32) (h : l.map (·.1) = l'.map (·.1)) (x : Bytes) :
    (l.add ω x).map (·.1) = (l'.add ω' x).map (·.1) := by
  unfold Log.add
  cases h1 : l.find x with
  | none =>
    rw [(find_keys h x).1 h1]
    simp only [List.map_append, List.map_cons, List.map_nil, h]
  | some a =>
    cases h2 : l'.find x with
    | none => rw [(find_keys h x).2 h2] at h1; cases h1
    | some b => exact h

theorem add_of_none (ω : ℕ → Arr 32) {l : Log} {x : Bytes} (h : l.find x = none) :
    l.add ω x = l ++ [(x, ω l.length)] ∧ l.answer ω x = ω l.length := by
  unfold Log.add Log.answer
  rw [h]
  exact ⟨rfl, rfl⟩

theorem add_of_some (ω : ℕ → Arr 32) {l : Log} {x : Bytes} {a : Arr 32} (h : l.find x = some a) :
    l.add ω x = l ∧ l.answer ω x = a := by
  unfold Log.add Log.answer
  rw [h]
  exact ⟨rfl, rfl⟩

theorem forger_run_ask (H : Hash) (Q : Point) (ω : ℕ → Arr 32) (x : Bytes) (next : Arr 32 → Forger) (L : Log) :
    (Forger.ask x next).run H Q ω L =
      if Drawn x then (next (L.answer ω x)).run H Q ω (L.add ω x) else (next (H x)).run H Q ω L := by
  rw [Forger.run]

/-- What the forger without a session does is what the game does with the one answer replaced. -/
theorem alone_run {α : Type} (H : Hash) (Q : Point) (ω η : ℕ → Arr 32) (j : ℕ) (he : Arr 32) (submit : α → Forger)
    (t : Asking α) (st : State) (L : Log) (hL : GoodLog ω L) (hk : L.map (·.1) = st.challenges.map (·.1)) :
    ∃ L', GoodLog ω L' ∧ L'.map (·.1) = (t.run H (Function.update ω j he) η st).2.challenges.map (·.1) ∧
      (alone η j he submit t st).run H Q ω L = (submit (t.run H (Function.update ω j he) η st).1).run H Q ω L' := by
  induction t generalizing st L with
  | done a => exact ⟨L, hL, hk, rfl⟩
  | ask x next ih =>
    unfold alone Asking.run
    by_cases hx : Drawn x
    · rw [if_pos hx, if_pos hx]
      cases hf : st.challenges.find x with
      | some a =>
        obtain ⟨h1, h2⟩ := add_of_some (Function.update ω j he) hf
        rw [h1, h2]
        exact ih a st L hL hk
      | none =>
        obtain ⟨h1, h2⟩ := add_of_none (Function.update ω j he) hf
        obtain ⟨h3, h4⟩ := add_of_none ω ((find_keys hk x).2 hf)
        have hlen : L.length = st.challenges.length := by simpa using congrArg List.length hk
        rw [h1, h2]
        simp only
        rw [forger_run_ask, if_pos hx, h3, h4, hlen]
        have hu : Function.update ω j he st.challenges.length
            = if st.challenges.length = j then he else ω st.challenges.length := by
          rw [Function.update_apply]
        rw [hu]
        refine ih _ _ _ ?_ ?_
        · rw [← hlen, ← h3]
          exact hL.add x
        · simp [hk]
    · rw [if_neg hx, if_neg hx]
      by_cases hx' : DrawnNonce x
      · rw [if_pos hx', if_pos hx']
        exact ih _ _ _ hL hk
      · rw [if_neg hx', if_neg hx']
        rw [forger_run_ask, if_neg hx]
        exact ih _ _ _ hL hk

/-- The game that the forger without a session plays is won, and the guess of the challenge is right. -/
def SimWins {q c : ℕ} (H : Hash) (ctx : KeyAggContext) (P : Point) (a : MaybeScalar) (A : SessionForger) (g : Guess q c)
    (ω : ℕ → Arr 32) : Prop :=
  ∃ pn, Spec.simulatedNonce ctx P a g.draws = some pn ∧
    let out := (A.game ctx.aggregatedPubkey pn fun _ _ _ => g.sig).run H ω (answers g.nonces) State.init
    Wins H ctx.aggregatedPubkey ω out ∧
      out.2.challenges[g.j.1]?.map (·.1) = some (sessionQuery ctx.aggregatedPubkey out.1)

theorem hash_add {ω : ℕ → Arr 32} {l : Log} {x : Bytes} {k : ℕ} (H : Hash) (hg : GoodLog ω l)
    (hk : (l.map (·.1))[k]? = some x) : l.hash H x = ω k := by
  rw [List.getElem?_map] at hk
  obtain ⟨e, he, rfl⟩ := Option.map_eq_some_iff.1 hk
  have h2 := hg.ans k e he
  have := Forger.find_of_getElem hg.nodup (i := k) (x := e.1) (a := ω k) (by rw [he, ← h2])
  unfold Log.hash
  rw [this]
  rfl

/-- The forger without a session wins if the game it plays is won. -/
theorem simulator_forges {q c : ℕ} {H : Hash} {ctx : KeyAggContext} {P : Point} {a : MaybeScalar} {A : SessionForger}
    {g : Guess q c} {ω : Fin q → Arr 32} (h : SimWins H ctx P a A g (Function.update (answers ω) g.j.1 g.he)) :
    (simulator ctx P a A g).Forges H ctx.aggregatedPubkey ω := by
  obtain ⟨pn, hpn, ⟨hmsg, hver⟩, hj⟩ := h
  unfold simulator Forger.Forges
  rw [hpn]
  simp only
  obtain ⟨L, hL, hk, hrun⟩ := alone_run H ctx.aggregatedPubkey (answers ω) (answers g.nonces) g.j.1 g.he
    (fun r : Result => .submit r.msg r.sig) (A.game ctx.aggregatedPubkey pn fun _ _ _ => g.sig) State.init []
    (GoodLog.nil _) rfl
  have hgood : Good (Function.update (answers ω) g.j.1 g.he) (answers g.nonces)
      ((A.game ctx.aggregatedPubkey pn fun _ _ _ => g.sig).run H (Function.update (answers ω) g.j.1 g.he) (answers g.nonces)
        State.init).2 := Asking.run_good H _ _ _ _ ⟨GoodLog.nil _, GoodLog.nil _⟩
  rw [hrun]
  generalize (A.game ctx.aggregatedPubkey pn fun _ _ _ => g.sig).run H (Function.update (answers ω) g.j.1 g.he)
    (answers g.nonces) State.init = out at *
  have hkeys := add_keys (answers ω) (Function.update (answers ω) g.j.1 g.he) hk
    (Spec.challengeQuery out.1.sig.rx.1 ctx.aggregatedPubkey out.1.msg)
  obtain ⟨k, hkk⟩ := List.mem_iff_getElem?.1 (Log.mem_add (answers ω) L
    (Spec.challengeQuery out.1.sig.rx.1 ctx.aggregatedPubkey out.1.msg))
  have hkk' := hkk
  rw [hkeys] at hkk'
  have hne : k ≠ g.j.1 := by
    rintro rfl
    have hp := Log.add_prefix (Function.update (answers ω) g.j.1 g.he) out.2.challenges
      (Spec.challengeQuery out.1.sig.rx.1 ctx.aggregatedPubkey out.1.msg)
    obtain ⟨e, he, hx⟩ := Option.map_eq_some_iff.1 hj
    rw [List.getElem?_map, Forger.getElem?_of_prefix hp (List.getElem?_eq_some_iff.1 he).1, he, Option.map_some, hx] at hkk'
    unfold sessionQuery at hkk'
    rw [spec_xbytes] at hkk'
    exact hmsg (Forger.challengeQuery_inj (Option.some.inj hkk')).2.symm
  have h1 := hash_add H (hL.add _) hkk
  have h2 := hash_add H (hgood.1.add _) hkk'
  rw [Function.update_of_ne hne] at h2
  have hc : computeChallengeHashTweak ((L.add (answers ω) (Spec.challengeQuery out.1.sig.rx.1 ctx.aggregatedPubkey out.1.msg)).hash H)
      out.1.sig.rx ctx.aggregatedPubkey out.1.msg
    = computeChallengeHashTweak ((out.2.challenges.add (Function.update (answers ω) g.j.1 g.he)
      (Spec.challengeQuery out.1.sig.rx.1 ctx.aggregatedPubkey out.1.msg)).hash H) out.1.sig.rx ctx.aggregatedPubkey out.1.msg := by
    rw [(C66_what_is_hashed _).2.2.2.1, (C66_what_is_hashed _).2.2.2.1]
    exact congrArg _ (h1.trans h2.symm)
  rw [verifySingle_eq_ok, ← hc, ← verifySingle_eq_ok] at hver
  exact hver

/-! ## Counting -/

theorem partialSignature_eq {H : Hash} {ctx : KeyAggContext} (hi : CtxInv H ctx) {sk : Scalar}
    (hP : mulG sk ∈ ctx.orderedPubkeys) (sn : SecNonce) (r : Spec.Reply) (hb he : Arr 32) :
    partialSignature H ctx sk sn r hb he = negIf (isOdd (r.nonce hb)) (sn.k1.1 + reduceFrom hb * sn.k2.1)
        + keyPart ctx sk (coeffOf H ctx.orderedPubkeys (mulG sk)) he := by
  unfold partialSignature
  rw [signPartialAdaptor_sessionHash hi hP, reply_nonce]

/-- A game that is won against the signer is won without, for a right guess. -/
theorem exists_guess {q c : ℕ} {H : Hash} {ctx : KeyAggContext} (hi : CtxInv H ctx) {sk : Scalar}
    (hP : mulG sk ∈ ctx.orderedPubkeys) {A : SessionForger} (hA : A.AsksAtMost q c)
    (p : SecNonce × (Fin (c + 1) → Arr 32) × (Fin (q + 2) → Arr 32)) (h : A.Forges H ctx sk p) :
    ∃ g : Guess (q + 2) (c + 1),
      SimWins H ctx (mulG sk) (coeffOf H ctx.orderedPubkeys (mulG sk)) A g (answers p.2.2) ∧ g.nonces = p.2.1 ∧
      g.he = p.2.2 g.j ∧ g.k2 = p.1.k2 ∧
      g.sig = negIf g.neg (p.1.k1.1 + reduceFrom (g.nonces g.i) * p.1.k2.1)
        + keyPart ctx sk (coeffOf H ctx.orderedPubkeys (mulG sk)) g.he := by
  obtain ⟨sn, η, ω⟩ := p
  obtain ⟨i, j, hb, he, hj⟩ := game_indices hA H (answers ω) (answers η) ctx.aggregatedPubkey sn.publicNonce
    (partialSignature H ctx sk sn)
  unfold Forges at h
  simp only at h
  rw [Forger.answers_of_lt] at hb he
  have hcongr := game_congr H (answers ω) (answers η) A ctx.aggregatedPubkey sn.publicNonce (partialSignature H ctx sk sn)
    (fun _ _ _ => partialSignature H ctx sk sn ((A.game ctx.aggregatedPubkey sn.publicNonce (partialSignature H ctx sk sn)).run H
      (answers ω) (answers η) State.init).1.reply (η i) (ω j)) State.init (by
        simp only
        rw [hb, he])
  rw [partialSignature_eq hi hP] at hcongr
  generalize hout : (A.game ctx.aggregatedPubkey sn.publicNonce (partialSignature H ctx sk sn)).run H (answers ω) (answers η)
    State.init = out at *
  refine ⟨⟨i, j, η, ω j, negIf (isOdd (out.1.reply.nonce (η i))) (sn.k1.1 + reduceFrom (η i) * sn.k2.1)
    + keyPart ctx sk (coeffOf H ctx.orderedPubkeys (mulG sk)) (ω j), sn.k2, isOdd (out.1.reply.nonce (η i))⟩, ?_, rfl, rfl, rfl, rfl⟩
  refine ⟨sn.publicNonce, simulatedNonce_eq ctx sk _ (η i) (ω j) sn.k1 sn.k2 _, ?_⟩
  simp only
  rw [hcongr]
  exact ⟨h, hj⟩

theorem update_answers {q : ℕ} (ω : Fin q → Arr 32) (j : Fin q) (h : Arr 32) :
    Function.update (answers (Function.update ω j h)) j.1 (ω j) = answers ω := by
  funext i
  by_cases hi : i = j.1
  · subst hi
    rw [Function.update_self, Forger.answers_of_lt]
  · rw [Function.update_of_ne hi]
    unfold answers
    split
    · rename_i hq
      rw [Function.update_of_ne]
      rintro rfl
      exact hi rfl
    · rfl

def guessEquiv (q c : ℕ) :
    Guess q c ≃ (Fin c × Fin q) × (Fin c → Arr 32) × Arr 32 × (MaybeScalar × Scalar) × Bool where
  toFun g := ((g.i, g.j), g.nonces, g.he, (g.sig, g.k2), g.neg)
  invFun p := ⟨p.1.1, p.1.2, p.2.1, p.2.2.1, p.2.2.2.1.1, p.2.2.2.1.2, p.2.2.2.2⟩
  left_inv _ := rfl
  right_inv _ := rfl

instance (q c : ℕ) : Finite (Guess q c) := Finite.of_equiv _ (guessEquiv q c).symm

theorem guess_card (q c : ℕ) :
    Nat.card (Guess q c) = (c * q) * (Nat.card (Fin c → Arr 32) * (256 ^ 32 * ((orderN * (orderN - 1)) * 2))) := by
  rw [Nat.card_congr (guessEquiv q c), Nat.card_prod, Nat.card_prod, Nat.card_prod, Nat.card_prod, Nat.card_prod, Nat.card_prod,
    arr_card, card_scalar, show Nat.card MaybeScalar = orderN from Nat.card_zmod _, show Nat.card Bool = 2 by simp,
    show Nat.card (Fin c) = c by simp, show Nat.card (Fin q) = q by simp]

instance : Finite SecNonce := Finite.of_equiv _ secNonceEquiv.symm

/-- Games are won without the signer as often, but for the guess. -/
theorem count_games {q c : ℕ} {H : Hash} {ctx : KeyAggContext} (hi : CtxInv H ctx) {sk : Scalar}
    (hP : mulG sk ∈ ctx.orderedPubkeys) {A : SessionForger} (hA : A.AsksAtMost q c) :
    256 ^ 32 * {p : SecNonce × (Fin (c + 1) → Arr 32) × (Fin (q + 2) → Arr 32) | A.Forges H ctx sk p}.ncard
      ≤ {x : Guess (q + 2) (c + 1) × (Fin (q + 2) → Arr 32) |
          (simulator ctx (mulG sk) (coeffOf H ctx.orderedPubkeys (mulG sk)) A x.1).Forges H ctx.aggregatedPubkey x.2}.ncard := by
  classical
  rw [← arr_card, ← Set.ncard_univ, ← Set.ncard_prod]
  have hg := fun (p : SecNonce × (Fin (c + 1) → Arr 32) × (Fin (q + 2) → Arr 32)) (h : A.Forges H ctx sk p) =>
    exists_guess hi hP hA p h
  haveI : Nonempty (Guess (q + 2) (c + 1)) := ⟨⟨0, 0, fun _ => zeroSeed, zeroSeed, 0, scalarOne, false⟩⟩
  choose! g hg using hg
  refine Set.ncard_le_ncard_of_injOn (fun x => (g x.2, Function.update x.2.2.2 (g x.2).j x.1)) ?_ ?_ (Set.toFinite _)
  · rintro ⟨h, p⟩ ⟨-, hp⟩
    obtain ⟨h1, h2, h3, h4, h5⟩ := hg p hp
    refine simulator_forges ?_
    simp only
    rw [h3, update_answers]
    exact h1
  · rintro ⟨h, p⟩ ⟨-, hp⟩ ⟨h', p'⟩ ⟨-, hp'⟩ he
    obtain ⟨-, h2, h3, h4, h5⟩ := hg p hp
    obtain ⟨-, h2', h3', h4', h5'⟩ := hg p' hp'
    simp only [Prod.mk.injEq] at he
    obtain ⟨hgg, hu⟩ := he
    rw [← hgg] at h2' h3' h4' h5' hu
    have hh : h = h' := by
      have := congrFun hu (g p).j
      rwa [Function.update_self, Function.update_self] at this
    have hη : p.2.1 = p'.2.1 := h2.symm.trans h2'
    have hk2 : p.1.k2 = p'.1.k2 := h4.symm.trans h4'
    have hω : p.2.2 = p'.2.2 := by
      funext i
      by_cases hij : i = (g p).j
      · rw [hij, ← h3, ← h3']
      · have := congrFun hu i
        rwa [Function.update_of_ne hij, Function.update_of_ne hij] at this
    have hk1 : p.1.k1 = p'.1.k1 := by
      rw [h5] at h5'
      have h6 := congrArg (negIf (g p).neg) (add_right_cancel h5')
      rw [negIf_negIf, negIf_negIf, Bool.xor_self, negIf_false, negIf_false, hk2] at h6
      exact Subtype.ext (add_right_cancel h6)
    obtain ⟨⟨k1, k2⟩, η, ω⟩ := p
    obtain ⟨⟨k1', k2'⟩, η', ω'⟩ := p'
    simp only at hη hk2 hω hk1
    rw [hh, hη, hω, hk1, hk2]

open Classical in
/-- The forking lemma for forgers without sessions, as a count. -/
theorem forger_count (H : Hash) (P : Point) (A : Forger) (q : ℕ) (hA : A.AsksAtMost q) :
    2 ^ 256 * {ω : Fin (q + 1) → Arr 32 | A.Forges H P ω}.ncard ^ 2
      ≤ (q + 1) * (2 ^ 256 * {p : (Fin (q + 1) → Arr 32) × (Fin (q + 1) → Arr 32) | A.extract H P p.1 p.2 • G = P.1}.ncard
        + 2 * {ω : Fin (q + 1) → Arr 32 | A.Forges H P ω}.ncard * Nat.card (Fin (q + 1) → Arr 32)) := by
  letI : Fintype (Arr 32) := Fintype.ofFinite _
  have hcard : Fintype.card (Arr 32) = 2 ^ 256 := by
    rw [← Nat.card_eq_fintype_card, arr_card]; norm_num
  have hbad : ∀ a : Arr 32, (Finset.univ.filter fun a' : Arr 32 => reduceFrom a = reduceFrom a').card ≤ 2 := by
    intro a
    have h := ncard_mod_le (reduceFrom a).val
    rw [Set.ncard_eq_toFinset_card'] at h
    refine (Finset.card_le_card fun a' ha' => ?_).trans h
    rw [Finset.mem_filter] at ha'
    rw [Set.mem_toFinset]
    change beNat a'.1 % orderN = _
    rw [← reduceFrom_val, ha'.2]
  have hF := forking_count (Forger.forkIndex H P A (q := q + 1)) (fun a a' => reduceFrom a = reduceFrom a') 2 hbad
  rw [hcard] at hF
  have hx : (Finset.univ.filter fun ω => Forger.forkIndex H P A (q := q + 1) ω ≠ none).card
      = {ω : Fin (q + 1) → Arr 32 | A.Forges H P ω}.ncard := by
    rw [Set.ncard_eq_toFinset_card']
    congr 1
    ext ω
    simp only [Set.mem_toFinset, Set.mem_setOf_eq, Finset.mem_filter, Finset.mem_univ, true_and]
    exact Forger.forkIndex_ne_none hA ω
  have hy : (Finset.univ.filter fun p : (Fin (q + 1) → Arr 32) × (Fin (q + 1) → Arr 32) =>
      ∃ j, Forger.forkIndex H P A p.1 = some j ∧ Forger.forkIndex H P A (splice j p.1 p.2) = some j ∧
        ¬ reduceFrom (p.1 j) = reduceFrom (p.2 j)).card
      ≤ {p : (Fin (q + 1) → Arr 32) × (Fin (q + 1) → Arr 32) | A.extract H P p.1 p.2 • G = P.1}.ncard := by
    rw [Set.ncard_eq_toFinset_card']
    refine Finset.card_le_card fun p hp => ?_
    rw [Finset.mem_filter] at hp
    obtain ⟨-, j, h1, h2, h3⟩ := hp
    rw [Set.mem_toFinset]
    exact Forger.extract_of_indices h1 h2 h3
  rw [hx, ← Nat.card_eq_fintype_card] at hF
  exact hF.trans (Nat.mul_le_mul_left _ (Nat.add_le_add_right (Nat.mul_le_mul_left _ hy) _))

theorem ncard_sigma {Ω Ω' : Type} [Fintype Ω] [Finite Ω'] (E : Ω → Ω' → Prop) :
    {p : Ω × Ω' | E p.1 p.2}.ncard = ∑ ω : Ω, {ω' | E ω ω'}.ncard := by
  classical
  letI := Fintype.ofFinite Ω'
  simp only [Set.ncard_eq_toFinset_card', Set.toFinset_setOf]
  rw [Finset.card_filter, Fintype.sum_prod_type]
  exact Finset.sum_congr rfl fun ω _ => (Finset.card_filter _ _).symm

theorem scale_count {x y A B W n m : ℕ} {k : ℚ} (hA : 0 < A) (hB : 0 < B) (hW : 0 < W) (hn : 0 < n) (hm : 0 < m) (hk : 0 < k)
    (h : A * x ≤ y) :
    (x : ℚ) / (n * n * (B * W) : ℕ) * (n / (2 * m * k)) ≤ y / (k * (B * (A * ((m * n) * 2))) * W) := by
  have hx : (x : ℚ) ≤ y / A := by
    rw [le_div_iff₀ (by exact_mod_cast hA), mul_comm]
    exact_mod_cast h
  have hA' : (0 : ℚ) < A := by exact_mod_cast hA
  have hB' : (0 : ℚ) < B := by exact_mod_cast hB
  have hW' : (0 : ℚ) < W := by exact_mod_cast hW
  have hn' : (0 : ℚ) < n := by exact_mod_cast hn
  have hm' : (0 : ℚ) < m := by exact_mod_cast hm
  calc (x : ℚ) / (n * n * (B * W) : ℕ) * (n / (2 * m * k))
      ≤ (y / A) / (n * n * (B * W) : ℕ) * (n / (2 * m * k)) := by gcongr
    _ = _ := by
      push_cast
      field_simp

/-- Two runs without the signer reveal the key of the group. -/
theorem session_fork {q c : ℕ} {H : Hash} {ctx : KeyAggContext} (hi : CtxInv H ctx) {sk : Scalar}
    (hP : mulG sk ∈ ctx.orderedPubkeys) {A : SessionForger} (hA : A.AsksAtMost q c) :
    Spec.forked (q + 2) ((Spec.chance fun p : SecNonce × (Fin (c + 1) → Arr 32) × (Fin (q + 2) → Arr 32) =>
        A.Forges H ctx sk p) * ((orderN - 1 : ℕ) / (2 * orderN * ((c + 1) * (q + 2)))))
      ≤ Spec.chance fun x : Guess (q + 2) (c + 1) × (Fin (q + 2) → Arr 32) × (Fin (q + 2) → Arr 32) =>
        (simulator ctx (mulG sk) (coeffOf H ctx.orderedPubkeys (mulG sk)) A x.1).extract H ctx.aggregatedPubkey x.2.1 x.2.2 • G
          = ctx.aggregatedPubkey.1 := by
  letI : Fintype (Guess (q + 2) (c + 1)) := Fintype.ofFinite _
  have hcount := count_games hi hP hA (H := H)
  set F := fun g : Guess (q + 2) (c + 1) => simulator ctx (mulG sk) (coeffOf H ctx.orderedPubkeys (mulG sk)) A g with hF
  have hfork := fun g => forger_count H ctx.aggregatedPubkey (F g) (q + 1) (simulator_asks ctx _ _ hA g)
  have hW0 : 0 < Nat.card (Fin (q + 2) → Arr 32) := by
    rw [Nat.card_fun, arr_card]
    exact pow_pos (Nat.pow_pos (by decide)) _
  have hB0 : 0 < Nat.card (Fin (c + 1) → Arr 32) := by
    rw [Nat.card_fun, arr_card]
    exact pow_pos (Nat.pow_pos (by decide)) _
  have hn1 : 0 < orderN - 1 := by have := one_lt_orderN; omega
  have hn0 : 0 < orderN := by have := one_lt_orderN; omega
  have hT := guess_card (q + 2) (c + 1)
  obtain ⟨N, hN⟩ : ∃ N : ℕ, N = 256 ^ 32 := ⟨_, rfl⟩
  have hN0 : 0 < N := by rw [hN]; exact Nat.pow_pos (by decide)
  rw [← hN] at hT hcount
  have hS : Nat.card (SecNonce × (Fin (c + 1) → Arr 32) × (Fin (q + 2) → Arr 32))
      = (orderN - 1) * (orderN - 1) * (Nat.card (Fin (c + 1) → Arr 32) * Nat.card (Fin (q + 2) → Arr 32)) := by
    rw [Nat.card_prod, Nat.card_prod, Nat.card_congr secNonceEquiv, Nat.card_prod, card_scalar]
  have hT0 : 0 < Fintype.card (Guess (q + 2) (c + 1)) := by
    rw [← Nat.card_eq_fintype_card, hT]
    positivity
  have havg := CmaForger.forked_avg (Nat.succ_pos (q + 1)) hW0 hT0 _ _ hfork
  rw [← ncard_sigma, ← ncard_sigma, ← Nat.card_eq_fintype_card] at havg
  have hacc : (Spec.chance fun p : SecNonce × (Fin (c + 1) → Arr 32) × (Fin (q + 2) → Arr 32) => A.Forges H ctx sk p)
      * ((orderN - 1 : ℕ) / (2 * orderN * ((c + 1) * (q + 2))))
      ≤ (({x : Guess (q + 2) (c + 1) × (Fin (q + 2) → Arr 32) | (F x.1).Forges H ctx.aggregatedPubkey x.2}.ncard : ℕ) : ℚ)
        / (Nat.card (Guess (q + 2) (c + 1)) * Nat.card (Fin (q + 2) → Arr 32) : ℕ) := by
    unfold Spec.chance
    rw [hS, hT]
    have := scale_count (k := ((c : ℚ) + 1) * (q + 2)) hN0 hB0 hW0 hn1 hn0 (by positivity) hcount
    refine this.trans (le_of_eq ?_)
    push_cast
    rfl
  refine (forked_mono _ ?_ hacc).trans (havg.trans (le_of_eq ?_))
  · exact mul_nonneg (CmaForger.chance_nonneg _) (by positivity)
  · unfold Spec.chance
    rw [Nat.card_prod, Nat.card_prod]

/-! ## What is signed -/

theorem sessionHash_congr {H H' : Hash} (h : ∀ x, ¬ Drawn x → ¬ DrawnNonce x → H' x = H x) (hb he : Arr 32) :
    Spec.sessionHash H' hb he = Spec.sessionHash H hb he := by
  funext x
  unfold Spec.sessionHash
  split
  · rfl
  · split
    · rfl
    · rename_i h1 h2
      exact h x h2 h1

theorem ctxInv_congr {H H' : Hash} (h : ∀ x, ¬ Drawn x → ¬ DrawnNonce x → H' x = H x) {ctx : KeyAggContext}
    (hi : CtxInv H ctx) : CtxInv H' ctx := by
  have hc : coeffOf H' ctx.orderedPubkeys = coeffOf H ctx.orderedPubkeys := by
    funext K
    rw [← coeffOf_sessionHash H' zeroSeed zeroSeed, sessionHash_congr h, coeffOf_sessionHash]
  have hk : keySum H' ctx.orderedPubkeys = keySum H ctx.orderedPubkeys := by
    unfold keySum
    rw [hc]
  exact ⟨hi.nonempty, hi.length_le, hi.indexes, by rw [hc]; exact hi.coeffs, by rw [hc]; exact hi.eff, by rw [hk]; exact hi.sum_ne,
    by rw [hk]; exact hi.pub⟩

/-! ## Example data -/

/-- It replies with the signer's own nonces and the message `[0]`, and forges a signature of the empty message with the
secret key `d` of the group. -/
def exSession (Q : Point) (d : MaybeScalar) : SessionForger :=
  .done fun pn => .done (⟨⟨pn.R1.1, pn.R2.1⟩, 0, [0]⟩, fun _ => .ask (Spec.challengeQuery (xonly G).1 Q []) fun a =>
    .done ([], ⟨xonly G, 1 + reduceFrom a * (Spec.sgn Q.1 * d)⟩))

theorem exSession_asks (Q : Point) (d : MaybeScalar) : (exSession Q d).AsksAtMost 1 0 := by
  unfold AsksAtMost exSession
  unfold Within
  intro pn
  unfold Within
  intro s
  unfold Within
  rw [if_pos (drawn_challengeQuery' _ _ _)]
  refine ⟨0, rfl, fun h => ?_⟩
  unfold Within
  trivial

theorem answer_add_add (H : Hash) (ω : ℕ → Arr 32) (log : Log) (x : Bytes) :
    ((log.add ω x).add ω x).hash H x = log.answer ω x := by
  obtain ⟨a, ha⟩ : ∃ a, (log.add ω x).find x = some a := by
    cases h : (log.add ω x).find x with
    | none => exact absurd (Log.mem_add ω log x) (Log.find_eq_none.1 h)
    | some a => exact ⟨a, rfl⟩
  rw [(add_of_some ω ha).1]
  unfold Log.hash
  cases h : log.find x with
  | some b =>
    rw [(add_of_some ω h).1, (add_of_some ω h).2, h]
    rfl
  | none =>
    rw [(add_of_none ω h).1, (add_of_none ω h).2]
    have : Log.find (log ++ [(x, ω log.length)]) x = some (ω log.length) := by
      unfold Log.find at h ⊢
      rw [Option.map_eq_none_iff] at h
      rw [List.find?_append, h]
      simp
    rw [this]
    rfl

theorem exSession_wins (H : Hash) (Q : Point) (d : MaybeScalar) (hd : d • G = Q.1) (ω η : ℕ → Arr 32) (pn : PubNonce)
    (sign : Spec.Reply → Arr 32 → Arr 32 → MaybeScalar) :
    Wins H Q ω (((exSession Q d).game Q pn sign).run H ω η State.init) := by
  have run_done : ∀ {α : Type} (a : α) (st : State), (Asking.done a).run H ω η st = (a, st) := fun _ _ => rfl
  unfold game exSession
  rw [run_bind, run_done, run_bind, run_done, run_ask, if_neg (not_drawn_noncecoefQuery _ _ _),
    if_pos (drawnNonce_noncecoefQuery _ _ _), run_ask, if_pos (drawn_challengeQuery' _ _ _), run_bind, run_ask,
    if_pos (drawn_challengeQuery' _ _ _), run_done, run_done]
  refine ⟨by simp, ?_⟩
  rw [verifySingle_eq_ok]
  refine ⟨Gpt, ?_, isOdd_G, rfl⟩
  rw [(C66_what_is_hashed _).2.2.2.1]
  change _ = _ + reduceFrom (Log.hash H _ (Spec.challengeQuery _ _ _)) • _
  have hQ : (toEvenY Q).1 = Spec.sgn Q.1 • Q.1 := by
    rw [sgn_smul]
    unfold toEvenY negIf
    split <;> rfl
  rw [answer_add_add, hQ, add_smul, one_smul, mul_smul, mul_smul, hd]
  rfl

end SessionForger

end Verif
