import Verif.Spec.RoundForger
import Verif.Lemmas.Props.OpenerCode
import Verif.Lemmas.Rounds

/-!
# Lemmas for `Props/RoundForger`
-/

namespace Verif

open Adaptive (makeContext)
open Opener (AcceptedByCode nonceOf)

namespace RoundSession

/-- What the forger knows about the session. -/
def known (r : RoundSession) : RoundForger.Known :=
  ⟨r.keys, r.tweaks, r.first.pubnonceSlots, r.round.pubnonceSlots, r.live, r.about.isSome⟩

/-- The session as one of `Spec/Opener`. -/
def code (r : RoundSession) : Opener.CodeSession := (r.point, r.about)

/-- What holds in every session. -/
structure Good (O : Hash) (r : RoundSession) : Prop where
  ctx : makeContext O r.keys r.tweaks = some r.round.keyAggCtx
  inv : r.round.Inv O
  first : r.first.Inv O
  sameCtx : r.first.keyAggCtx = r.round.keyAggCtx
  sameNonce : r.first.secnonce = r.round.secnonce
  about : r.live = true → r.about = none

theorem Good.keys {O : Hash} {r : RoundSession} (h : r.Good O) : r.round.keyAggCtx.orderedPubkeys = r.keys :=
  (Adaptive.makeContext_some h.ctx).keys

theorem Good.finalized {O : Hash} {r : RoundSession} (h : r.Good O) (sk : Scalar) (msg : Bytes) : r.finalized O sk msg =
    match r.round.pubnonceSlots.finalize with
    | .ok pns => if mulG sk ∈ r.keys then
        some (AggNonce.sum pns, partialSigValue O r.round.keyAggCtx sk r.round.secnonce (AggNonce.sum pns) r.point msg) else none
    | _ => none := by
  unfold RoundSession.finalized
  rcases Slots.collect_cases r.round.pubnonceSlots.slots with ⟨ns, hns⟩ | hinc
  · have hns' : r.round.pubnonceSlots.finalize = .ok ns := hns
    rw [h.inv.finalizeAdaptor_eq sk _ msg hns', hns', h.keys]
    split_ifs with hm
    · dsimp only
      have hl : r.round.signerIndex < ns.length := by
        rw [((h.inv.slots_finalize ns).1 hns').1]
        exact h.inv.own
      unfold SecondRound.ourSignature index SecondRound.aggregatedNonce
      dsimp only
      rw [Slots.place_new hl]
      dsimp only
      rw [List.getElem?_set_self (by simpa using hl)]
      rfl
    · rfl
  · have hinc' : r.round.pubnonceSlots.finalize = .err .incomplete := hinc
    rw [FirstRound.finalizeAdaptor_incomplete sk _ msg hinc', hinc']

theorem Good.aggregated {O : Hash} {r : RoundSession} (h : r.Good O) (sk : Scalar) (an : AggNonce) (msg : Bytes) :
    r.aggregated O sk an msg = if mulG sk ∈ r.keys then
      some (an, partialSigValue O r.round.keyAggCtx sk r.round.secnonce an r.point msg) else none := by
  unfold RoundSession.aggregated FirstRound.signForAggregatorAdaptor
  rw [signPartialAdaptor_eq h.inv.ctx.inv, h.keys]
  split_ifs <;> rfl

theorem Good.after {O : Hash} {r : RoundSession} (h : r.Good O) (msg : Bytes) (x : Option (AggNonce × MaybeScalar)) : (r.after O msg x).Good O :=
  ⟨h.ctx, h.inv, h.first, h.sameCtx, h.sameNonce, fun h => by cases h⟩

theorem Good.restarted {O : Hash} {r : RoundSession} (h : r.Good O) : r.restarted.Good O := by
  unfold RoundSession.restarted
  split
  · next ha => exact ⟨h.sameCtx ▸ h.ctx, h.first, h.first, rfl, rfl, fun _ => ha⟩
  · exact h

theorem restarted_known (r : RoundSession) : r.restarted.known = r.known.restarted := by
  unfold RoundSession.restarted RoundForger.Known.restarted RoundSession.known
  rcases h : r.about with _ | x
  · simp [h]
  · simp [h]

theorem restarted_code (r : RoundSession) : r.restarted.code = r.code := by
  unfold RoundSession.restarted RoundSession.code
  split <;> rfl

theorem Good.restarted_nonce {O : Hash} {r : RoundSession} (h : r.Good O) : r.restarted.round.secnonce = r.round.secnonce := by
  unfold RoundSession.restarted
  split
  · exact h.sameNonce
  · rfl

end RoundSession

namespace RoundForger

theorem running_eq {rs : List RoundSession} {i : ℕ} {r : RoundSession} (h : running rs i = some r) : rs[i]? = some r ∧ r.live = true :=
  Option.filter_eq_some_iff.1 h

theorem running_known (rs : List RoundSession) (i : ℕ) :
    ((rs.map RoundSession.known)[i]?.filter (·.live)) = (running rs i).map RoundSession.known := by
  unfold running
  rw [List.getElem?_map]
  rcases rs[i]? with _ | r
  · rfl
  · rw [Option.map_some, Option.filter_some, Option.filter_some]
    change (if r.live = true then _ else _) = _
    split_ifs <;> rfl

/-- All sessions are good ones. -/
def AllGood (O : Hash) (rs : List RoundSession) : Prop := ∀ r ∈ rs, r.Good O

theorem AllGood.set {O : Hash} {rs : List RoundSession} (h : AllGood O rs) (i : ℕ) {r : RoundSession} (hr : r.Good O) :
    AllGood O (rs.set i r) := by
  intro r' hr'
  rcases List.mem_or_eq_of_mem_set hr' with h' | rfl
  · exact h r' h'
  · exact hr

theorem AllGood.append {O : Hash} {rs : List RoundSession} (h : AllGood O rs) {r : RoundSession} (hr : r.Good O) :
    AllGood O (rs ++ [r]) := by
  intro r' hr'
  rcases List.mem_append.1 hr' with h' | h'
  · exact h r' h'
  · rw [List.mem_singleton.1 h']
    exact hr

theorem AllGood.running {O : Hash} {rs : List RoundSession} (h : AllGood O rs) {i : ℕ} {r : RoundSession} (hr : running rs i = some r) :
    r.Good O :=
  h r (List.mem_of_getElem? (running_eq hr).1)

theorem set_self {α : Type} {l : List α} {i : ℕ} {a : α} (h : l[i]? = some a) : l.set i a = l := by
  obtain ⟨hi, rfl⟩ := List.getElem?_eq_some_iff.1 h
  exact List.set_getElem_self hi

theorem AllGood.restart {O : Hash} {rs : List RoundSession} (h : AllGood O rs) (i : ℕ) : AllGood O (rs.modify i RoundSession.restarted) := by
  rw [List.modify_eq_set_getElem?]
  rcases hr : rs[i]? with _ | r
  · exact h
  · exact h.set i (h r (List.mem_of_getElem? hr)).restarted

theorem map_restart_known (rs : List RoundSession) (i : ℕ) : (rs.modify i RoundSession.restarted).map RoundSession.known
    = (rs.map RoundSession.known).modify i Known.restarted := by
  rw [List.modify_eq_set_getElem?, List.modify_eq_set_getElem?, List.getElem?_map]
  rcases rs[i]? with _ | r
  · rfl
  · change (rs.set i r.restarted).map _ = (rs.map _).set i r.known.restarted
    rw [List.map_set, RoundSession.restarted_known]

theorem map_modify_same {α β : Type} (f : α → β) (g : α → α) {l : List α} (h : ∀ a ∈ l, f (g a) = f a) (i : ℕ) :
    (l.modify i g).map f = l.map f := by
  rw [List.modify_eq_set_getElem?]
  rcases ha : l[i]? with _ | a
  · rfl
  · change (l.set i (g a)).map f = _
    rw [List.map_set, h a (List.mem_of_getElem? ha)]
    exact set_self (by rw [List.getElem?_map, ha]; rfl)

theorem nonceOf_map {rs : List RoundSession} {i : ℕ} {r : RoundSession} (h : rs[i]? = some r) :
    nonceOf (rs.map (·.round.secnonce)) i = r.round.secnonce := by
  unfold nonceOf
  rw [List.getD_eq_getElem?_getD, List.getElem?_map, h]
  rfl

/-- A partial signature in a session that goes on. -/
theorem code_sign {O : Hash} {sk : Scalar} {rs : List RoundSession} {i : ℕ} {r : RoundSession} (hr : running rs i = some r) (hg : r.Good O)
    (hP : mulG sk ∈ r.keys) (an : AggNonce) (msg : Bytes) (d : Adaptive.Data) (next : MaybeScalar → Opener) (s : ℕ → Arr 32)
    (sns : List SecNonce) (hsn : nonceOf sns i = r.round.secnonce) :
    AcceptedByCode O sk (.sign i r.keys r.tweaks an msg d next) s (rs.map RoundSession.code) sns ↔
      AcceptedByCode O sk (next (partialSigValue O r.round.keyAggCtx sk r.round.secnonce an r.point msg)) s
        ((rs.map RoundSession.code).set i (r.point, some (r.round.keyAggCtx, msg,
          Spec.sessionNonce O r.round.keyAggCtx.aggregatedPubkey ⟨an, r.point, msg⟩))) sns := by
  have h1 : (rs.map RoundSession.code)[i]? = some (r.point, none) := by
    rw [List.getElem?_map, (running_eq hr).1, Option.map_some, RoundSession.code, hg.about (running_eq hr).2]
  rw [AcceptedByCode]
  simp only [h1, hg.ctx, hsn]
  rw [signPartialAdaptor_eq hg.inv.ctx.inv, hg.keys, if_pos hP]

/-- No partial signature in a session that goes on. -/
theorem skip_step {O : Hash} {sk : Scalar} {rs : List RoundSession} {i : ℕ} {r : RoundSession} (hr : running rs i = some r) (hg : r.Good O)
    (msg : Bytes) (next : Option MaybeScalar → RoundForger) (s : ℕ → Arr 32)
    (h : AcceptedByCode O sk ((next none).opener (mulG sk) ((rs.map RoundSession.known).set i (r.after O msg none).known)) s
      ((rs.map RoundSession.code).set i (r.after O msg none).code) (rs.map (·.round.secnonce))) :
    AcceptedByCode O sk ((next none).opener (mulG sk) ((rs.map RoundSession.known).set i { r.known with live := false })) s
      (rs.map RoundSession.code) (rs.map (·.round.secnonce)) := by
  have h1 : (r.after O msg none).code = r.code := by
    unfold RoundSession.code
    rw [hg.about (running_eq hr).2]
    rfl
  have h2 : (r.after O msg none).known = { r.known with live := false } := by
    unfold RoundSession.known
    rw [hg.about (running_eq hr).2]
    rfl
  rw [h1, set_self (l := rs.map RoundSession.code) (by rw [List.getElem?_map, (running_eq hr).1]; rfl), h2] at h
  exact h

/-- A request for a partial signature in a session that goes on. -/
theorem sign_step {O : Hash} {sk : Scalar} {rs : List RoundSession} {i : ℕ} {r : RoundSession} (hr : running rs i = some r) (hg : r.Good O)
    (an : AggNonce) (msg : Bytes) (d : Adaptive.Data) (next : Option MaybeScalar → RoundForger) (s : ℕ → Arr 32)
    (h : let x := if mulG sk ∈ r.keys then some (an, partialSigValue O r.round.keyAggCtx sk r.round.secnonce an r.point msg) else none
      AcceptedByCode O sk ((next (x.map (·.2))).opener (mulG sk) ((rs.map RoundSession.known).set i (r.after O msg x).known)) s
      ((rs.map RoundSession.code).set i (r.after O msg x).code) (rs.map (·.round.secnonce))) :
    AcceptedByCode O sk (if mulG sk ∈ r.keys then .sign i r.keys r.tweaks an msg d fun s =>
        (next (some s)).opener (mulG sk) ((rs.map RoundSession.known).set i { r.known with live := false, signed := true })
      else (next none).opener (mulG sk) ((rs.map RoundSession.known).set i { r.known with live := false })) s
      (rs.map RoundSession.code) (rs.map (·.round.secnonce)) := by
  by_cases hP : mulG sk ∈ r.keys
  · simp only [if_pos hP] at h ⊢
    rw [code_sign hr hg hP an msg d _ s _ (nonceOf_map (running_eq hr).1)]
    exact h
  · simp only [if_neg hP] at h ⊢
    exact skip_step hr hg msg next s h

theorem builder_seed {ε : Type} {seed seed' : Arr 32} {P Q : Point} {i : ℕ} {sp : SecNonceSpices} {b : SecNonceBuilder}
    (h : (FirstRound.builder seed P Q i sp : Res ε _) = .ok b) :
    ∃ b', (FirstRound.builder seed' P Q i sp : Res ε _) = .ok b' ∧ Spec.seeded b' seed = b := by
  unfold FirstRound.builder SecNonceBuilder.withExtraInput SecNonceBuilder.withSpices at h ⊢
  obtain ⟨b1, h1, h2⟩ := Res.bind_eq_ok.1 h
  obtain ⟨u, h3, h4⟩ := Res.bind_eq_ok.1 h1
  obtain ⟨u', h5, h6⟩ := Res.bind_eq_ok.1 h2
  cases h4
  cases h6
  exact ⟨_, Res.bind_eq_ok.2 ⟨_, Res.bind_eq_ok.2 ⟨u, h3, rfl⟩, Res.bind_eq_ok.2 ⟨u', h5, rfl⟩⟩, rfl⟩

theorem accepted_opener (O : Hash) (sk : Scalar) : ∀ (A : RoundForger) (s : ℕ → Arr 32) (rs : List RoundSession), AllGood O rs →
    Accepted O sk A s rs →
    AcceptedByCode O sk (A.opener (mulG sk) (rs.map RoundSession.known)) s (rs.map RoundSession.code) (rs.map (·.round.secnonce))
  | .submit keys tweaks msg sig d, s, rs, hg, h => by
    obtain ⟨h1, ctx, h2, h3, h4⟩ := h
    refine ⟨h1, ctx, h2, fun e he c m R hR => ?_, h4⟩
    obtain ⟨r, hr, rfl⟩ := List.mem_map.1 he
    exact h3 r hr c m R hR
  | .ask x d next, s, rs, hg, h => accepted_opener O sk (next (O x)) s rs hg h
  | .start keys tweaks Q T index spices next, s, rs, hg, h => by
    obtain ⟨ctx, r, h1, rfl, h2, h3⟩ := h
    have hb := Adaptive.makeContext_some h1
    have hkeys : ctx.pubkeys = keys := hb.keys
    subst hkeys
    have hi := FirstRound.inv_new hb.reachable h2
    obtain ⟨P, b, h4, h5, rfl⟩ := FirstRound.new_eq_ok.1 h2
    obtain ⟨b', h6, h7⟩ := builder_seed (seed' := zeroSeed) h5
    have hs : setup ctx.pubkeys ctx.aggregatedPubkey index (spices sk) = b' := by
      unfold setup
      rw [h4]
      simp only [h6]
    have hg' := hg.append (r := ⟨T, ctx.pubkeys, tweaks, _, _, true, none⟩) ⟨h1, hi, hi, rfl, rfl, fun _ => rfl⟩
    have := accepted_opener O sk _ _ _ hg' h3
    rw [opener, AcceptedByCode]
    rw [hs, h7]
    rw [List.map_append, List.map_append, List.map_append] at this
    exact this
  | .deliver i index pn next, s, rs, hg, h => by
    rw [Accepted] at h
    rw [opener, running_known]
    rcases hr : running rs i with _ | r
    · rw [hr] at h
      exact accepted_opener O sk _ _ _ hg h
    · rw [hr] at h
      have hgr := hg.running hr
      have := accepted_opener O sk _ _ _ (hg.set i (r := { r with round := (r.round.receiveNonce index pn).1 })
        ⟨hgr.ctx, hgr.inv.receive index pn, hgr.first, hgr.sameCtx, hgr.sameNonce, hgr.about⟩) h
      rw [List.map_set, List.map_set, List.map_set] at this
      rw [set_self (l := rs.map RoundSession.code) (by rw [List.getElem?_map, (running_eq hr).1]; rfl),
        set_self (l := rs.map (·.round.secnonce)) (by rw [List.getElem?_map, (running_eq hr).1]; rfl)] at this
      exact this
  | .finalize i msg d next, s, rs, hg, h => by
    rw [Accepted] at h
    rw [opener, running_known]
    rcases hr : running rs i with _ | r
    · rw [hr] at h
      exact accepted_opener O sk _ _ _ hg h
    · rw [hr] at h
      have hgr := hg.running hr
      have := accepted_opener O sk _ _ _ (hg.set i (hgr.after msg _)) h
      rw [List.map_set, List.map_set, List.map_set,
        set_self (l := rs.map (·.round.secnonce)) (by rw [List.getElem?_map, (running_eq hr).1]; rfl), hgr.finalized] at this
      rw [Option.map_some]
      change AcceptedByCode O sk (match r.round.pubnonceSlots.finalize with
        | .ok pns => if mulG sk ∈ r.keys then _ else _
        | _ => _) _ _ _
      rcases hf : r.round.pubnonceSlots.finalize with pns | e | _
      · simp only [hf] at this ⊢
        exact sign_step hr hgr _ msg d next s this
      all_goals
        simp only [hf] at this ⊢
        exact skip_step hr hgr msg next s this
  | .aggregator i an msg d next, s, rs, hg, h => by
    rw [Accepted] at h
    rw [opener, running_known]
    rcases hr : running rs i with _ | r
    · rw [hr] at h
      exact accepted_opener O sk _ _ _ hg h
    · rw [hr] at h
      have hgr := hg.running hr
      have := accepted_opener O sk _ _ _ (hg.set i (hgr.after msg _)) h
      rw [List.map_set, List.map_set, List.map_set,
        set_self (l := rs.map (·.round.secnonce)) (by rw [List.getElem?_map, (running_eq hr).1]; rfl), hgr.aggregated] at this
      exact sign_step hr hgr an msg d next s this
  | .restart i next, s, rs, hg, h => by
    have h1 : AllGood O (rs.modify i RoundSession.restarted) := hg.restart i
    have := accepted_opener O sk next s _ h1 h
    rw [map_restart_known, map_modify_same _ _ fun r _ => RoundSession.restarted_code r,
      map_modify_same (·.round.secnonce) _ fun r hr => (hg r hr).restarted_nonce] at this
    exact this

/-! ## Counting -/

theorem opener_mono {A : Opener} {q q' k : ℕ} (h : A.AsksAtMost q k) (hq : q ≤ q') : A.AsksAtMost q' k := by
  induction h generalizing q' with
  | submit q k keys tweaks msg sig d =>
    obtain ⟨r, rfl⟩ := Nat.exists_eq_add_of_le hq
    rw [show q + keys.length + 2 + r = (q + r) + keys.length + 2 by omega]
    exact .submit _ _ _ _ _ _ _
  | ask q k x d next h ih =>
    obtain ⟨r, rfl⟩ := Nat.exists_eq_add_of_le hq
    rw [show q + 1 + r = (q + r) + 1 by omega]
    exact .ask _ _ _ _ _ fun a => ih a (by omega)
  | other q k x d next hx h ih => exact .other _ _ _ _ _ hx fun a => ih a hq
  | start q k T b next h ih => exact .start _ _ _ _ _ fun pn => ih pn hq
  | sign q k i keys tweaks an msg d next h ih =>
    obtain ⟨r, rfl⟩ := Nat.exists_eq_add_of_le hq
    rw [show q + keys.length + 3 + r = (q + r) + keys.length + 3 by omega]
    exact .sign _ _ _ _ _ _ _ _ _ fun s => ih s (by omega)

theorem live_eq {ks : List Known} {i : ℕ} {r : Known} (h : ks[i]?.filter (·.live) = some r) : ks[i]? = some r :=
  (Option.filter_eq_some_iff.1 h).1

theorem sizes_set {ks : List Known} {i : ℕ} {r r' : Known} (h : ks[i]? = some r) (hr : r'.keys = r.keys) :
    (ks.set i r').map (fun x => x.keys.length) = ks.map fun x => x.keys.length := by
  rw [List.map_set]
  exact set_self (by rw [List.getElem?_map, h, hr]; rfl)

theorem opener_asks (P : Point) {A : RoundForger} {q k : ℕ} {ns : List ℕ} (h : A.AsksAtMost q k ns) :
    ∀ ks : List Known, (ks.map fun x => x.keys.length) = ns → (A.opener P ks).AsksAtMost q k := by
  induction h with
  | submit q k ns keys tweaks msg sig d => exact fun _ _ => .submit _ _ _ _ _ _ _
  | ask q k ns x d next h ih => exact fun ks hk => .ask _ _ _ _ _ fun a => ih a ks hk
  | other q k ns x d next hx h ih => exact fun ks hk => .other _ _ _ _ _ hx fun a => ih a ks hk
  | start q k ns keys tweaks Q T index spices next h ih =>
    intro ks hk
    refine .start _ _ _ _ _ fun pn => ih pn _ ?_
    rw [List.map_append, hk]
    rfl
  | deliver q k ns i index pn next h ih =>
    intro ks hk
    rw [opener]
    split
    · next r hr => exact ih _ _ ((sizes_set (r := r) (live_eq hr) (by rfl)).trans hk)
    · exact ih _ _ hk
  | finalize q k ns i msg d next h ih =>
    intro ks hk
    rw [opener]
    split
    · next r hr =>
      have hn : ns.getD i 0 = r.keys.length := by
        rw [← hk, List.getD_eq_getElem?_getD, List.getElem?_map, live_eq hr]
        rfl
      have hd := fun x => ih x _ ((sizes_set (r' := { r with live := false }) (live_eq hr) rfl).trans hk)
      have hs := fun x => ih x _ ((sizes_set (r' := { r with live := false, signed := true }) (live_eq hr) rfl).trans hk)
      rw [hn]
      split
      · split_ifs
        · exact .sign _ _ _ _ _ _ _ _ _ fun s => hs _
        · exact opener_mono (hd _) (by omega)
      · exact opener_mono (hd _) (by omega)
    · exact opener_mono (ih _ _ hk) (by omega)
  | aggregator q k ns i an msg d next h ih =>
    intro ks hk
    rw [opener]
    split
    · next r hr =>
      have hn : ns.getD i 0 = r.keys.length := by
        rw [← hk, List.getD_eq_getElem?_getD, List.getElem?_map, live_eq hr]
        rfl
      have hd := fun x => ih x _ ((sizes_set (r' := { r with live := false }) (live_eq hr) rfl).trans hk)
      have hs := fun x => ih x _ ((sizes_set (r' := { r with live := false, signed := true }) (live_eq hr) rfl).trans hk)
      rw [hn]
      split_ifs
      · exact .sign _ _ _ _ _ _ _ _ _ fun s => hs _
      · exact opener_mono (hd _) (by omega)
    · exact opener_mono (ih _ _ hk) (by omega)
  | restart q k ns i next h ih =>
    intro ks hk
    refine ih _ ?_
    rw [map_modify_same (fun x : Known => x.keys.length) Known.restarted fun r _ => ?_, hk]
    unfold Known.restarted
    split_ifs <;> rfl

/-- Who succeeds against the rounds succeeds in the game of `Spec/Opener`. -/
theorem forges_opener {k m : ℕ} (H : Hash) (A : Point → RoundForger) (p : Scalar × (Fin k → Arr 32) × (Fin m → Arr 32)) (h : Forges H A p) :
    Opener.Forges H (fun P => (A P).opener P []) p := by
  obtain ⟨h1, h2⟩ := h
  obtain ⟨pn, ⟨out, log⟩, h3, h4⟩ := Opener.play_code H ((A (mulG p.1)).opener (mulG p.1) []) p
  have h5 := (h3 _).1 h2
  refine (h3 _).2 ?_
  have h6 := h4.2 (accepted_opener _ _ _ _ [] (fun _ h => by cases h) h1)
  rcases out with _ | o
  · exact h5.elim
  · obtain ⟨o', ho', h7, h8⟩ := h6
    cases ho'
    exact ⟨h7, h8, h5⟩

end RoundForger

end Verif
