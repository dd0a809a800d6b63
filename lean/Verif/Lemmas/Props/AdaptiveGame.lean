import Verif.Lemmas.Props.Adaptive

/-!
# Lemmas for `Props/Adaptive`: the game
-/

namespace Verif.Concurrent

section
variable {ν : Type} {k : ℕ} {α β γ : Type} {y : Unknown k → MaybeScalar} {ω : ℕ → Arr 32}

theorem run_bind (p : Play ν k α) (f : α → Play ν k β) (log : Log ν) :
    (p.bind f).run y ω log = (f (p.run y ω log).1).run y ω (p.run y ω log).2 := by
  induction p generalizing log with
  | done a => rfl
  | ask x n next ih =>
    rw [Play.bind, Play.run, Play.run]
    cases log.find x <;> exact ih _ _ _
  | dlog c next ih => exact ih _ _

theorem bind_bind (p : Play ν k α) (f : α → Play ν k β) (g : β → Play ν k γ) :
    (p.bind f).bind g = p.bind fun a => (f a).bind g := by
  induction p with
  | done a => rfl
  | ask x n next ih => simp only [Play.bind, ih]
  | dlog c next ih => simp only [Play.bind, ih]

theorem HashesAtMost.bind {p : Play ν k α} {f : α → Play ν k β} {m m' : ℕ} (hp : HashesAtMost m p)
    (hf : ∀ a, HashesAtMost m' (f a)) : HashesAtMost (m + m') (p.bind f) := by
  induction p generalizing m with
  | done a => exact (hf a).mono (Nat.le_add_left _ _)
  | ask x n next ih =>
    obtain ⟨m₁, rfl, h⟩ := hp
    exact ⟨m₁ + m', by omega, fun n a => ih n a (h n a)⟩
  | dlog c next ih => exact fun z => ih z (hp z)

theorem dlogs_bind {p : Play ν k α} {f : α → Play ν k β} {m : ℕ} (hp : p.DlogsAtMost 0) (hf : ∀ a, (f a).DlogsAtMost m) :
    (p.bind f).DlogsAtMost m := by
  induction p with
  | done a => exact hf a
  | ask x n next ih => exact fun n a => ih n a (hp n a)
  | dlog c next ih =>
    obtain ⟨m', h, -⟩ := hp
    omega

end

end Verif.Concurrent

namespace Verif.Adaptive

open Concurrent

/-! ## Strings that are drawn -/

theorem drawn_of_prefix {t : String} (ht : t ∈ ["BIP0340/challenge", "MuSig/noncecoef", "KeyAgg list", "KeyAgg coefficient"])
    (r : Bytes) : Drawn (Spec.taggedInput t r) := ⟨t, ht, tag_prefix _ _⟩

theorem drawn_list (keys : List Point) : Drawn (Spec.listQuery keys) := drawn_of_prefix (by simp) _
theorem drawn_coef (h : Arr 32) (K : Point) : Drawn (Spec.coefString h K) := drawn_of_prefix (by simp) _
theorem drawn_noncecoef (an : AggNonce) (Q : Point) (msg : Bytes) : Drawn (Spec.noncecoefQuery an Q msg) :=
  drawn_of_prefix (by simp) _
theorem drawn_challenge (rx : Bytes) (Q : Point) (msg : Bytes) : Drawn (Spec.challengeQuery rx Q msg) :=
  drawn_of_prefix (by simp) _

theorem Drawn.length {x : Bytes} (h : Drawn x) : 64 ≤ x.length := by
  obtain ⟨t, ht, r, rfl⟩ := h
  rw [List.length_append]
  unfold Spec.taggedInput
  rw [List.length_append, List.length_append, (sha256 _).2]
  omega

theorem tagsAgree_hash {H : Hash} (hH : TagsAgree H) {log : Log Note} (hl : ∀ e ∈ log, Drawn e.1) : TagsAgree (log.hash H) := by
  have key : ∀ t : Bytes, t.length < 64 → log.hash H t = H t := by
    intro t ht
    unfold Log.hash
    rw [find_none.2]
    intro hx
    obtain ⟨e, he, rfl⟩ := List.mem_map.1 hx
    have := (hl e he).length
    omega
  constructor <;> rw [key _ (by decide +kernel)]
  exacts [hH.keyAggList, hH.keyAggCoeff, hH.musigAux, hH.musigNonce, hH.musigNoncecoef, hH.bip340Aux, hH.bip340Nonce,
    hH.bip340Challenge, hH.bip340Batch, hH.tapTweak]

/-! ## How the log grows -/

/-- The log has grown by strings that are drawn, with the points in the notes. -/
structure Ext (pts : List MaybePoint) (log log' : Log Note) : Prop where
  distinct : Distinct log'
  sub : ∀ e ∈ log, e ∈ log'
  new : ∀ e ∈ log', e ∈ log ∨ (e.2.1.points = pts ∧ Drawn e.1)

theorem Ext.refl {pts : List MaybePoint} {log : Log Note} (hd : Distinct log) : Ext pts log log :=
  ⟨hd, fun _ h => h, fun _ h => .inl h⟩

theorem Ext.trans {pts : List MaybePoint} {log log' log'' : Log Note} (h : Ext pts log log') (h' : Ext pts log' log'') :
    Ext pts log log'' :=
  ⟨h'.distinct, fun e he => h'.sub e (h.sub e he), fun e he => (h'.new e he).elim (h.new e) .inr⟩

section
variable {k : ℕ} (y : Unknown k → MaybeScalar) (ω : ℕ → Arr 32)

theorem run_ask_ext {log : Log Note} (hd : Distinct log) {x : Bytes} (hx : Drawn x) (n : Note) :
    ∃ n' h' log', Ext n.points log log' ∧ (x, n', h') ∈ log' ∧
      ∀ {α : Type} (next : Note → Arr 32 → Play Note k α), (Play.ask x n next).run y ω log = (next n' h').run y ω log' := by
  cases hf : log.find x with
  | some e => exact ⟨e.1, e.2, log, .refl hd, (find_some hd).1 hf, fun next => by rw [Play.run, hf]⟩
  | none =>
    refine ⟨n, ω log.length, log ++ [(x, n, ω log.length)], ⟨hd.append hf _ _, fun _ h => List.mem_append_left _ h, fun e h => ?_⟩,
      by simp, fun next => by rw [Play.run, hf]⟩
    rcases List.mem_append.1 h with h | h
    · exact .inl h
    · rw [List.mem_singleton] at h
      rw [h]
      exact .inr ⟨rfl, hx⟩

/-! ## Groups -/

/-- The group is one of the code with its hash function, and the signer is a member. -/
structure Fits (P : Point) (g : Group) : Prop where
  tags : TagsAgree g.hash
  built : BuiltFrom g.hash g.ctx g.keys g.tweaks
  member : P ∈ g.keys

/-- The hashes of the group are in the log. -/
structure InLog (g : Group) (log : Log Note) : Prop where
  list : (Spec.listQuery g.keys, g.note, g.hash (Spec.listQuery g.keys)) ∈ log
  coef : ∀ K ∈ g.keys, ∃ n, (Spec.coefString (g.hash (Spec.listQuery g.keys)) K, n,
    g.hash (Spec.coefString (g.hash (Spec.listQuery g.keys)) K)) ∈ log

theorem InLog.mono {g : Group} {log log' : Log Note} (h : InLog g log) (hs : ∀ e ∈ log, e ∈ log') : InLog g log' :=
  ⟨hs _ h.list, fun K hK => (h.coef K hK).imp fun _ h => hs _ h⟩

theorem makeContext_some {H : Hash} {keys : List Point} {ts : List (Scalar × Bool)} {ctx : KeyAggContext}
    (h : makeContext H keys ts = some ctx) : BuiltFrom H ctx keys ts := by
  unfold makeContext at h
  split at h
  · rename_i ctx0 h0
    split at h
    · rename_i ctx' h1
      cases h
      exact ⟨ctx0, h0, h1⟩
    · cases h
  · cases h

theorem run_askCoefs (h : Arr 32) (n : Note) (keys : List Point) (H : Hash) {log : Log Note} (hd : Distinct log) :
    ∃ H' log', (askCoefs h n keys H).run y ω log = (H', log') ∧ Ext n.points log log' ∧
      (∀ K ∈ keys, ∃ n', (Spec.coefString h K, n', H' (Spec.coefString h K)) ∈ log') ∧
      (∀ x, (∀ K ∈ keys, x ≠ Spec.coefString h K) → H' x = H x) ∧ (TagsAgree H → TagsAgree H') := by
  induction keys generalizing H log with
  | nil => exact ⟨H, log, rfl, .refl hd, by simp, fun _ _ => rfl, id⟩
  | cons K keys ih =>
    obtain ⟨n', c, log', he, hm, hr⟩ := run_ask_ext y ω hd (drawn_coef h K) n
    rw [askCoefs, hr]
    obtain ⟨H', log'', hr', he', hc, ho, ht⟩ := ih (H.answering (Spec.coefString h K) c) he.distinct
    refine ⟨H', log'', hr', he.trans he', fun K' hK' => ?_, fun x hx => ?_, fun hH => ht ?_⟩
    · by_cases hm' : K' ∈ keys
      · exact hc K' hm'
      · obtain rfl | h' := List.mem_cons.1 hK'
        · refine ⟨n', ?_⟩
          rw [ho _ fun K'' hK'' e => hm' (by rw [(coefString_injective e).2]; exact hK''), Hash.answering_same]
          exact he'.sub _ hm
        · exact absurd h' hm'
    · rw [ho _ fun K' hK' => hx K' (List.mem_cons_of_mem _ hK')]
      exact Hash.answering_of_ne _ _ (hx K List.mem_cons_self)
    · exact tagsAgree_answering hH (drawn_coef h K).length c

theorem run_makeGroup {H : Hash} (hH : TagsAgree H) (P : Point) (keys : List Point) (ts : List (Scalar × Bool)) (n : Note)
    {log : Log Note} (hd : Distinct log) :
    ∃ og log', (makeGroup H P keys ts n).run y ω log = (og, log') ∧ Ext n.points log log' ∧
      ∀ g, og = some g → Fits P g ∧ InLog g log' ∧ g.keys = keys ∧ g.tweaks = ts := by
  unfold makeGroup
  split_ifs with hP
  · obtain ⟨n', h, log', he, hm, hr⟩ := run_ask_ext y ω hd (drawn_list keys) n
    obtain ⟨H', log'', hr', he', hc, ho, ht⟩ := run_askCoefs y ω h n keys (H.answering (Spec.listQuery keys) h) he.distinct
    rw [hr, run_bind, hr']
    refine ⟨_, log'', rfl, he.trans he', fun g hg => ?_⟩
    obtain ⟨ctx, hctx, rfl⟩ := Option.map_eq_some_iff.1 hg
    have hl : H' (Spec.listQuery keys) = h := by
      rw [ho _ fun K _ => listQuery_ne_coefString _ _ _, Hash.answering_same]
    refine ⟨⟨ht (tagsAgree_answering hH (drawn_list keys).length h), makeContext_some hctx, hP⟩, ⟨?_, ?_⟩, rfl, rfl⟩
    · simp only [hl]
      exact he'.sub _ hm
    · simp only [hl]
      exact hc
  · exact ⟨none, log, rfl, .refl hd, fun g hg => by cases hg⟩

end

/-! ## What is kept during the game -/

section
variable (P : Point) (σ : ℕ → Group → Spec.Reply → Arr 32 → Arr 32 → MaybeScalar)

/-- What the sessions and the log have in common. -/
structure GameInv (ss : List Session) (log : Log Note) : Prop where
  distinct : Distinct log
  drawn : ∀ e ∈ log, Drawn e.1
  signed : ∀ (i : ℕ) T r, ss[i]? = some ⟨T, some r⟩ → Fits P r.group ∧ InLog r.group log ∧
    (Spec.noncecoefQuery r.aggnonce r.group.ctx.aggregatedPubkey r.message, r.note, r.hb) ∈ log ∧
    (∃ ne, (Spec.challengeQuery (Spec.xbytes (nonceWith r.aggnonce T (reduceFrom r.hb))) r.group.ctx.aggregatedPubkey r.message,
      ne, r.he) ∈ log) ∧
    r.sig = σ i r.group ⟨r.aggnonce, T, r.message⟩ r.hb r.he
  points : ∀ e ∈ log, e.2.1.points <+: ss.map (·.point)

variable {P σ}

theorem GameInv.more {ss : List Session} {log log' : Log Note} (hi : GameInv P σ ss log)
    (he : Ext (ss.map (·.point)) log log') : GameInv P σ ss log' where
  distinct := he.distinct
  drawn := fun e h => (he.new e h).elim (hi.drawn e) (·.2)
  signed := fun i T r h => by
    obtain ⟨h1, h2, h3, ⟨ne, h4⟩, h5⟩ := hi.signed i T r h
    exact ⟨h1, h2.mono he.sub, he.sub _ h3, ⟨ne, he.sub _ h4⟩, h5⟩
  points := fun e h => by
    rcases he.new e h with h | ⟨h, -⟩
    · exact hi.points e h
    · rw [h]

theorem GameInv.start {ss : List Session} {log : Log Note} (hi : GameInv P σ ss log) (T : MaybePoint) :
    GameInv P σ (ss ++ [⟨T, none⟩]) log where
  distinct := hi.distinct
  drawn := hi.drawn
  signed := fun i T' r h => by
    refine hi.signed i T' r ?_
    rcases lt_or_ge i ss.length with hlt | hge
    · rwa [List.getElem?_append_left hlt] at h
    · rw [List.getElem?_append_right hge] at h
      rcases Nat.eq_zero_or_pos (i - ss.length) with h0 | h0
      · rw [h0] at h
        simp at h
      · rw [List.getElem?_eq_none (by rw [List.length_singleton]; omega)] at h
        cases h
  points := fun e h => by
    rw [List.map_append]
    exact (hi.points e h).trans (List.prefix_append _ _)

theorem GameInv.sign {ss : List Session} {log : Log Note} (hi : GameInv P σ ss log) {i : ℕ} {T : MaybePoint}
    (hss : ss[i]? = some ⟨T, none⟩) (r : Signed)
    (hr : Fits P r.group ∧ InLog r.group log ∧
      (Spec.noncecoefQuery r.aggnonce r.group.ctx.aggregatedPubkey r.message, r.note, r.hb) ∈ log ∧
      (∃ ne, (Spec.challengeQuery (Spec.xbytes (nonceWith r.aggnonce T (reduceFrom r.hb))) r.group.ctx.aggregatedPubkey r.message,
        ne, r.he) ∈ log) ∧
      r.sig = σ i r.group ⟨r.aggnonce, T, r.message⟩ r.hb r.he) : GameInv P σ (ss.set i ⟨T, some r⟩) log where
  distinct := hi.distinct
  drawn := hi.drawn
  signed := fun j T' r' h => by
    by_cases hij : i = j
    · subst hij
      rw [List.getElem?_set_self (List.getElem?_eq_some_iff.1 hss).1] at h
      cases h
      exact hr
    · rw [List.getElem?_set_ne hij] at h
      exact hi.signed j T' r' h
  points := fun e h => by
    have : (ss.set i ⟨T, some r⟩).map (·.point) = ss.map (·.point) := by
      rw [List.map_set]
      refine List.ext_getElem? fun j => ?_
      by_cases hij : i = j
      · subst hij
        rw [List.getElem?_set_self (by rw [List.length_map]; exact (List.getElem?_eq_some_iff.1 hss).1), List.getElem?_map, hss]
        rfl
      · rw [List.getElem?_set_ne hij]
    rw [this]
    exact hi.points e h

/-- The game ends with sessions and a log that fit together, and the challenge of the forgery in the log. -/
theorem game_inv {K : ℕ} {H : Hash} (hH : TagsAgree H) (pn : ℕ → PubNonce) (y : Unknown K → MaybeScalar) (ω : ℕ → Arr 32)
    {sign : ℕ → Group → Spec.Reply → Arr 32 → Arr 32 → Play Note K MaybeScalar}
    (hσ : ∀ i < K, ∀ g, Fits P g → ∀ r hb he log, (sign i g r hb he).run y ω log = (σ i g r hb he, log))
    {A : Adversary} {q k : ℕ} (hA : A.AsksAtMost q k) {ss : List Session} (hK : ss.length + k ≤ K) {log : Log Note}
    (hi : GameInv P σ ss log) :
    let out := (game H P pn sign A ss).run y ω log
    (∀ e ∈ out.2, Drawn e.1) ∧ ∀ o, out.1 = some o → GameInv P σ o.sessions out.2 ∧ o.sessions.length ≤ ss.length + k ∧
      Fits P o.group ∧ InLog o.group out.2 ∧
      (Spec.challengeQuery o.sig.rx.1 o.group.ctx.aggregatedPubkey o.msg, o.note, o.he) ∈ out.2 := by
  induction hA generalizing ss log with
  | submit q k keys tweaks msg sig d =>
    rw [game, run_bind]
    obtain ⟨og, log', hr, he, hg⟩ := run_makeGroup y ω hH P keys tweaks ⟨d, ss.map (·.point)⟩ hi.distinct
    rw [hr]
    cases og with
    | none => exact ⟨(hi.more he).drawn, fun o ho => by cases ho⟩
    | some g =>
      obtain ⟨h1, h2, -⟩ := hg g rfl
      obtain ⟨n', he', log'', hext, hm, hr'⟩ := run_ask_ext y ω he.distinct
        (drawn_challenge sig.rx.1 g.ctx.aggregatedPubkey msg) ⟨{ d with key := g.rep P }, ss.map (·.point)⟩
      simp only
      rw [hr']
      refine ⟨((hi.more he).more hext).drawn, fun o ho => ?_⟩
      cases ho
      exact ⟨(hi.more he).more hext, Nat.le_add_right _ _, h1, h2.mono hext.sub, hm⟩
  | ask q k x d next h ih =>
    rw [game]
    split_ifs with hx
    · obtain ⟨n', h', log', he, hm, hr⟩ := run_ask_ext y ω hi.distinct hx ⟨d, ss.map (·.point)⟩
      rw [hr]
      exact ih h' hK (hi.more he)
    · exact ih _ hK hi
  | other q k x d next hx h ih =>
    rw [game, if_neg hx]
    exact ih _ hK hi
  | start q k T next h ih =>
    rw [game]
    have hlen : (ss ++ [(⟨T, none⟩ : Session)]).length = ss.length + 1 := by rw [List.length_append, List.length_singleton]
    obtain ⟨h1, h2⟩ := ih (pn ss.length) (by rw [hlen]; omega) (hi.start T)
    refine ⟨h1, fun o ho => ?_⟩
    obtain ⟨g1, g2, g3⟩ := h2 o ho
    exact ⟨g1, by rw [hlen] at g2; omega, g3⟩
  | sign q k i keys tweaks an msg d next h ih =>
    rw [game]
    split
    · rename_i T hss
      have hlt : i < K := by
        have := (List.getElem?_eq_some_iff.1 hss).1
        omega
      rw [run_bind]
      obtain ⟨og, log', hr, he, hg⟩ := run_makeGroup y ω hH P keys tweaks ⟨d, ss.map (·.point)⟩ hi.distinct
      rw [hr]
      have hi1 := hi.more he
      cases og with
      | none => exact ih 0 hK hi1
      | some g =>
        obtain ⟨h1, h2, -⟩ := hg g rfl
        simp only
        obtain ⟨nb, hb, log2, he2, hm2, hr2⟩ := run_ask_ext y ω he.distinct (drawn_noncecoef an g.ctx.aggregatedPubkey msg)
          ⟨{ d with combination := .zero, key := g.rep P }, ss.map (·.point)⟩
        rw [hr2]
        obtain ⟨ne, hc, log3, he3, hm3, hr3⟩ := run_ask_ext y ω he2.distinct
          (drawn_challenge (Spec.xbytes ((⟨an, T, msg⟩ : Spec.Reply).nonce hb)) g.ctx.aggregatedPubkey msg)
          ⟨{ d with combination := .zero, key := g.rep P }, ss.map (·.point)⟩
        rw [hr3, run_bind, hσ i hlt g h1]
        have hi3 := (hi1.more he2).more he3
        have hi4 := hi3.sign hss ⟨g, an, msg, nb, hb, hc, σ i g ⟨an, T, msg⟩ hb hc⟩
          ⟨h1, (h2.mono he2.sub).mono he3.sub, he3.sub _ hm2, ⟨ne, hm3⟩, rfl⟩
        have := ih (σ i g ⟨an, T, msg⟩ hb hc) (by rw [List.length_set]; exact hK) hi4
        rw [List.length_set] at this
        exact this
    · exact ih 0 hK hi

/-- Games with the same partial signatures are the same. -/
theorem game_congr {K : ℕ} {H : Hash} (hH : TagsAgree H) (pn : ℕ → PubNonce) (y : Unknown K → MaybeScalar) (ω : ℕ → Arr 32)
    {sign : ℕ → Group → Spec.Reply → Arr 32 → Arr 32 → Play Note K MaybeScalar}
    (hσ : ∀ i < K, ∀ g, Fits P g → ∀ r hb he log, (sign i g r hb he).run y ω log = (σ i g r hb he, log))
    {A : Adversary} {q k : ℕ} (hA : A.AsksAtMost q k) {ss : List Session} (hK : ss.length + k ≤ K) {log : Log Note}
    (hd : Distinct log) : (game H P pn sign A ss).run y ω log
      = (game H P pn (fun i g r hb he => .done (σ i g r hb he)) A ss).run y ω log := by
  induction hA generalizing ss log with
  | submit q k keys tweaks msg sig d =>
    rw [game, game]
  | ask q k x d next h ih =>
    rw [game, game]
    split_ifs with hx
    · obtain ⟨n', h', log', he, hm, hr⟩ := run_ask_ext y ω hd hx ⟨d, ss.map (·.point)⟩
      rw [hr, hr]
      exact ih h' hK he.distinct
    · exact ih _ hK hd
  | other q k x d next hx h ih =>
    rw [game, game, if_neg hx, if_neg hx]
    exact ih _ hK hd
  | start q k T next h ih =>
    rw [game, game]
    exact ih _ (by rw [List.length_append, List.length_singleton]; omega) hd
  | sign q k i keys tweaks an msg d next h ih =>
    rw [game, game]
    split
    · rename_i T hss
      have hlt : i < K := by
        have := (List.getElem?_eq_some_iff.1 hss).1
        omega
      rw [run_bind, run_bind]
      obtain ⟨og, log', hr, he, hg⟩ := run_makeGroup y ω hH P keys tweaks ⟨d, ss.map (·.point)⟩ hd
      rw [hr]
      cases og with
      | none => exact ih 0 hK he.distinct
      | some g =>
        obtain ⟨h1, h2, -⟩ := hg g rfl
        simp only
        obtain ⟨nb, hb, log2, he2, hm2, hr2⟩ := run_ask_ext y ω he.distinct (drawn_noncecoef an g.ctx.aggregatedPubkey msg)
          ⟨{ d with combination := .zero, key := g.rep P }, ss.map (·.point)⟩
        rw [hr2, hr2]
        obtain ⟨ne, hc, log3, he3, hm3, hr3⟩ := run_ask_ext y ω he2.distinct
          (drawn_challenge (Spec.xbytes ((⟨an, T, msg⟩ : Spec.Reply).nonce hb)) g.ctx.aggregatedPubkey msg)
          ⟨{ d with combination := .zero, key := g.rep P }, ss.map (·.point)⟩
        rw [hr3, hr3, run_bind, run_bind, hσ i hlt g h1]
        exact ih _ (by rw [List.length_set]; exact hK) he3.distinct
    · exact ih 0 hK hd

end

/-! ## Numbers of questions -/

theorem hashes_askCoefs {K : ℕ} (h : Arr 32) (n : Note) (keys : List Point) (H : Hash) :
    HashesAtMost keys.length (askCoefs h n keys H : Play Note K Hash) := by
  induction keys generalizing H with
  | nil => trivial
  | cons P keys ih => exact ⟨keys.length, rfl, fun _ c => ih _⟩

theorem hashes_makeGroup {K : ℕ} (H : Hash) (P : Point) (keys : List Point) (ts : List (Scalar × Bool)) (n : Note) :
    HashesAtMost (keys.length + 1) (makeGroup H P keys ts n : Play Note K (Option Group)) := by
  unfold makeGroup
  split_ifs
  · refine ⟨keys.length, rfl, fun _ h => ?_⟩
    exact (hashes_askCoefs h n keys _).bind (m' := 0) fun _ => trivial
  · trivial

theorem game_hashes {K : ℕ} (H : Hash) (P : Point) (pn : ℕ → PubNonce)
    {sign : ℕ → Group → Spec.Reply → Arr 32 → Arr 32 → Play Note K MaybeScalar}
    (hs : ∀ i g r hb he, HashesAtMost 0 (sign i g r hb he)) {A : Adversary} {q k : ℕ} (hA : A.AsksAtMost q k) (ss : List Session) :
    HashesAtMost q (game H P pn sign A ss) := by
  induction hA generalizing ss with
  | submit q k keys tweaks msg sig d =>
    rw [game]
    refine ((hashes_makeGroup H P keys tweaks _).bind (m' := 1) fun og => ?_).mono (by omega)
    cases og with
    | none => trivial
    | some g => exact ⟨0, rfl, fun _ _ => trivial⟩
  | ask q k x d next h ih =>
    rw [game]
    split_ifs
    · exact ⟨q, rfl, fun _ a => ih a ss⟩
    · exact (ih _ ss).mono (Nat.le_succ q)
  | other q k x d next hx h ih =>
    rw [game, if_neg hx]
    exact ih _ ss
  | start q k T next h ih =>
    rw [game]
    exact ih _ _
  | sign q k i keys tweaks an msg d next h ih =>
    rw [game]
    split
    · rename_i T hss
      refine ((hashes_makeGroup H P keys tweaks _).bind (m' := q + 2) fun og => ?_).mono (by omega)
      cases og with
      | none => exact (ih 0 ss).mono (by omega)
      | some g =>
        refine ⟨q + 1, rfl, fun nb hb => ⟨q, rfl, fun _ he => ?_⟩⟩
        have := (hs i g ⟨an, T, msg⟩ hb he).bind (m' := q) fun s => ih s (ss.set i ⟨T, some ⟨g, an, msg, nb, hb, he, s⟩⟩)
        rw [zero_add] at this
        exact this
    · exact (ih 0 ss).mono (by omega)

theorem dlogs_askCoefs {K : ℕ} (h : Arr 32) (n : Note) (keys : List Point) (H : Hash) :
    (askCoefs h n keys H : Play Note K Hash).DlogsAtMost 0 := by
  induction keys generalizing H with
  | nil => trivial
  | cons P keys ih => exact fun _ c => ih _

theorem dlogs_makeGroup {K : ℕ} (H : Hash) (P : Point) (keys : List Point) (ts : List (Scalar × Bool)) (n : Note) :
    (makeGroup H P keys ts n : Play Note K (Option Group)).DlogsAtMost 0 := by
  unfold makeGroup
  split_ifs
  · exact fun _ h => dlogs_bind (dlogs_askCoefs h n keys _) fun _ => trivial
  · trivial

/-- A session, in the form of `Spec/Concurrent`. -/
def plain (s : Session) : Concurrent.Session := ⟨s.point, s.signed.map fun _ => ⟨0, ⟨0, 0⟩, [], zeroSeed, zeroSeed, 0⟩⟩

theorem dlogs_game {K : ℕ} {α : Type} (H : Hash) (P : Point) (pn : ℕ → PubNonce)
    (f : ℕ → Group → Spec.Reply → Arr 32 → Arr 32 → Unknown K → MaybeScalar)
    (g : ℕ → Group → Spec.Reply → Arr 32 → Arr 32 → MaybeScalar → MaybeScalar) (submit : Option Outcome → Play Note K α)
    (hsub : ∀ out, (submit (some out)).DlogsAtMost (2 * K - signedCount K (out.sessions.map plain)))
    (hnone : (submit none).DlogsAtMost 0) {A : Adversary} {q k : ℕ}
    (hA : A.AsksAtMost q k) (ss : List Session) (hK : ss.length + k ≤ K) :
    ((game H P pn (fun i c r hb he => .dlog (f i c r hb he) fun z => .done (g i c r hb he z)) A ss).bind submit).DlogsAtMost
      (2 * K - signedCount K (ss.map plain)) := by
  induction hA generalizing ss with
  | submit q k keys tweaks msg sig d =>
    rw [game, bind_bind]
    refine dlogs_bind (dlogs_makeGroup _ _ _ _ _) fun og => ?_
    cases og with
    | none => exact DlogsAtMost.mono (Nat.zero_le _) hnone
    | some g => exact fun n he => hsub ⟨g, msg, sig, n, he, ss⟩
  | ask q k x d next h ih =>
    rw [game]
    split_ifs
    · exact fun _ a => ih a ss hK
    · exact ih _ ss hK
  | other q k x d next hx h ih =>
    rw [game, if_neg hx]
    exact ih _ ss hK
  | start q k T next h ih =>
    rw [game]
    have e : signedCount K ((ss ++ [(⟨T, none⟩ : Session)]).map plain) = signedCount K (ss.map plain) := by
      rw [List.map_append]
      exact signedCount_start K (ss.map plain) T
    rw [← e]
    exact ih _ _ (by rw [List.length_append, List.length_singleton]; omega)
  | sign q k i keys tweaks an msg d next h ih =>
    rw [game]
    split
    · rename_i T hss
      rw [bind_bind]
      refine dlogs_bind (dlogs_makeGroup _ _ _ _ _) fun og => ?_
      cases og with
      | none => exact ih 0 ss hK
      | some c =>
        have hlen := (List.getElem?_eq_some_iff.1 hss).1
        have hss' : (ss.map plain)[i]? = some ⟨T, none⟩ := by
          rw [List.getElem?_map, hss]
          rfl
        have hc : ∀ r : Signed, signedCount K ((ss.set i ⟨T, some r⟩).map plain) = signedCount K (ss.map plain) + 1 := by
          intro r
          rw [List.map_set]
          exact signedCount_sign (K := K) hss' (by omega) _
        intro nb hb _ he
        have hle := signedCount_le K ((ss.set i ⟨T, some ⟨c, an, msg, nb, hb, he, 0⟩⟩).map plain)
        rw [hc] at hle
        refine ⟨2 * K - (signedCount K (ss.map plain) + 1), by omega, fun z => ?_⟩
        have := ih (g i c ⟨an, T, msg⟩ hb he z) (ss.set i ⟨T, some ⟨c, an, msg, nb, hb, he, g i c ⟨an, T, msg⟩ hb he z⟩⟩)
          (by rw [List.length_set]; exact hK)
        rw [hc] at this
        exact this
    · exact ih 0 ss hK

end Verif.Adaptive
