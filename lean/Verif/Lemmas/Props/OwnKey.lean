import Verif.Spec.OwnKey
import Verif.Lemmas.Props.OneMore

/-!
# Lemmas for `Props/OwnKey`
-/

namespace Verif.OwnForger

open Concurrent (Play Log Unknown secrets Distinct HashesAtMost Hits Good run_good chance_hits find_none find_some)
open Adaptive (Data Note Session Signed Group Drawn makeGroup Adversary askCoefs GameInv Fits InLog Ext run_ask_ext run_makeGroup
  drawn_list drawn_coef drawn_noncecoef drawn_challenge)
open Forger (answers)

/-! ## Which strings are asked for -/

/-- All strings asked for are in `S`. -/
def Only {ν : Type} {k : ℕ} {α : Type} (S : Bytes → Prop) : Play ν k α → Prop
  | .done _ => True
  | .ask x _ next => S x ∧ ∀ n h, Only S (next n h)
  | .dlog _ next => ∀ z, Only S (next z)

theorem only_run {ν : Type} {k : ℕ} {α : Type} {S : Bytes → Prop} (y : Unknown k → MaybeScalar) (ω : ℕ → Arr 32) {p : Play ν k α}
    (hp : Only S p) (log : Log ν) : ∀ e ∈ (p.run y ω log).2, e ∈ log ∨ S e.1 := by
  induction p generalizing log with
  | done a => exact fun e he => .inl he
  | ask x n next ih =>
    intro e he
    rw [Play.run] at he
    rcases hf : log.find x with _ | e' <;> rw [hf] at he
    · rcases ih _ _ (hp.2 _ _) _ e he with h | h
      · rcases List.mem_append.1 h with h | h
        · exact .inl h
        · rw [List.mem_singleton.1 h]
          exact .inr hp.1
      · exact .inr h
    · exact ih _ _ (hp.2 _ _) _ e he
  | dlog f next ih => exact ih _ (hp _) log

theorem only_bind {ν : Type} {k : ℕ} {α β : Type} {S : Bytes → Prop} {p : Play ν k α} {f : α → Play ν k β} (hp : Only S p)
    (hf : ∀ a, Only S (f a)) : Only S (p.bind f) := by
  induction p with
  | done a => exact hf a
  | ask x n next ih => exact ⟨hp.1, fun n h => ih _ _ (hp.2 n h)⟩
  | dlog f next ih => exact fun z => ih _ (hp z)

theorem only_askCoefs {k : ℕ} (keys0 : List Point) (h : Arr 32) (n : Note) (keys : List Point) (H : Hash) :
    Only (fun x => x = Spec.listQuery keys0 ∨ ∃ h K, x = Spec.coefString h K) (askCoefs h n keys H : Play Note k Hash) := by
  induction keys generalizing H with
  | nil => trivial
  | cons K keys ih => exact ⟨.inr ⟨h, K, rfl⟩, fun _ _ => ih _⟩

theorem only_makeGroup {k : ℕ} (H : Hash) (P : Point) (keys : List Point) (ts : List (Scalar × Bool)) (n : Note) :
    Only (fun x => x = Spec.listQuery keys ∨ ∃ h K, x = Spec.coefString h K) (makeGroup H P keys ts n : Play Note k (Option Group)) := by
  unfold makeGroup
  split_ifs
  · exact ⟨.inl rfl, fun _ h => only_bind (only_askCoefs keys h n keys _) fun _ => trivial⟩
  · trivial

/-- All lists in the log are among the strings. -/
def Seen (seen : List Bytes) (log : Log Note) : Prop := ∀ e ∈ log, ∀ keys, e.1 = Spec.listQuery keys → e.1 ∈ seen

theorem Seen.ask {seen : List Bytes} {log log' : Log Note} {x : Bytes} (h : Seen seen log) (hn : ∀ e ∈ log', e ∈ log ∨ e.1 = x) :
    Seen (x :: seen) log' := by
  intro e he keys hk
  rcases hn e he with h' | h'
  · exact List.mem_cons_of_mem _ (h e h' keys hk)
  · rw [h']
    exact List.mem_cons_self

theorem Seen.other {seen : List Bytes} {log log' : Log Note} (h : Seen seen log)
    (hn : ∀ e ∈ log', e ∈ log ∨ ∀ keys, e.1 ≠ Spec.listQuery keys) : Seen seen log' := by
  intro e he keys hk
  rcases hn e he with h' | h'
  · exact h e h' keys hk
  · exact absurd hk (h' keys)

theorem noncecoef_ne_list (an : AggNonce) (Q : Point) (msg : Bytes) (keys : List Point) :
    Spec.noncecoefQuery an Q msg ≠ Spec.listQuery keys :=
  C66_domain_separation _ _ (by decide +kernel) (by decide +kernel) (by decide) _ _

theorem challenge_ne_list (rx : Bytes) (Q : Point) (msg : Bytes) (keys : List Point) :
    Spec.challengeQuery rx Q msg ≠ Spec.listQuery keys :=
  C66_domain_separation _ _ (by decide +kernel) (by decide +kernel) (by decide) _ _

/-- What is asked for once. -/
theorem run_ask_new {k : ℕ} (y : Unknown k → MaybeScalar) (ω : ℕ → Arr 32) {log : Log Note} (hd : Distinct log) {x : Bytes} (hx : Drawn x)
    (n : Note) : ∃ n' h' log', Ext n.points log log' ∧ (x, n', h') ∈ log' ∧ (∀ e ∈ log', e ∈ log ∨ e.1 = x) ∧
      ∀ {α : Type} (next : Note → Arr 32 → Play Note k α), (Play.ask x n next).run y ω log = (next n' h').run y ω log' := by
  obtain ⟨n', h', log', h1, h2, h3⟩ := run_ask_ext y ω hd hx n
  refine ⟨n', h', log', h1, h2, ?_, h3⟩
  have := only_run (S := fun z => z = x) y ω (p := Play.ask x n fun _ _ => .done ()) ⟨rfl, fun _ _ => trivial⟩ log
  rw [h3] at this
  exact this

/-! ## Both games come to the same end -/

section
variable {P : Point} {σ : ℕ → Group → Spec.Reply → Arr 32 → Arr 32 → MaybeScalar}

theorem reach {K : ℕ} {H : Hash} (hH : TagsAgree H) (pn : ℕ → PubNonce) (y : Unknown K → MaybeScalar) (ω : ℕ → Arr 32)
    {sign : ℕ → Group → Spec.Reply → Arr 32 → Arr 32 → Play Note K MaybeScalar}
    (hσ : ∀ i < K, ∀ g, Fits P g → ∀ r hb he log, (sign i g r hb he).run y ω log = (σ i g r hb he, log))
    {A : OwnForger} {q k : ℕ} (hA : A.AsksAtMost q k) {ss : List Session} (hK : ss.length + k ≤ K) {log : Log Note} {seen : List Bytes}
    (hi : GameInv P σ ss log) (hs : Seen seen log) :
    ∃ t msg sig d ss' log' seen', (game H P pn sign A ss).run y ω log = (finish P t msg sig d ss').run y ω log' ∧
      (Adaptive.game H P pn sign (A.forGroup P seen) ss).run y ω log
        = (Adaptive.game H P pn sign (ending P seen' t msg sig d) ss').run y ω log' ∧
      GameInv P σ ss' log' ∧ Seen seen' log' ∧ ss'.length ≤ ss.length + k ∧ seen'.length ≤ seen.length + q := by
  induction hA generalizing ss log seen with
  | submit q k t msg sig d => exact ⟨t, msg, sig, d, ss, log, seen, rfl, rfl, hi, hs, by omega, by omega⟩
  | ask q k x d next h ih =>
    rw [game, forGroup, Adaptive.game]
    by_cases hx : Drawn x
    · simp only [if_pos hx]
      obtain ⟨n', h', log', he, hm, hn, hr⟩ := run_ask_new y ω hi.distinct hx ⟨d, ss.map (·.point)⟩
      rw [hr, hr]
      obtain ⟨t, msg, sig, d', ss', log'', seen', h1, h2, h3, h4, h5, h6⟩ := ih h' hK (hi.more he) (hs.ask hn)
      exact ⟨t, msg, sig, d', ss', log'', seen', h1, h2, h3, h4, h5, by rw [List.length_cons] at h6; omega⟩
    · simp only [if_neg hx]
      obtain ⟨t, msg, sig, d', ss', log'', seen', h1, h2, h3, h4, h5, h6⟩ := ih (H x) hK hi hs
      exact ⟨t, msg, sig, d', ss', log'', seen', h1, h2, h3, h4, h5, by omega⟩
  | other q k x d next hx h ih =>
    rw [game, forGroup, Adaptive.game]
    simp only [if_neg hx]
    exact ih _ hK hi hs
  | start q k T next h ih =>
    rw [game, forGroup, Adaptive.game]
    have hlen : (ss ++ [(⟨T, none⟩ : Session)]).length = ss.length + 1 := by rw [List.length_append, List.length_singleton]
    obtain ⟨t, msg, sig, d', ss', log'', seen', h1, h2, h3, h4, h5, h6⟩ := ih (pn ss.length) (by rw [hlen]; omega) (hi.start T) hs
    exact ⟨t, msg, sig, d', ss', log'', seen', h1, h2, h3, h4, by rw [hlen] at h5; omega, h6⟩
  | sign q k i keys tweaks an msg d next h ih =>
    have hcons : ∀ {log' : Log Note}, Seen seen log' → Seen (Spec.listQuery keys :: seen) log' := fun h e he ks hk =>
      List.mem_cons_of_mem _ (h e he ks hk)
    rw [game, forGroup, Adaptive.game]
    rcases hss : ss[i]? with _ | ⟨T, _ | r⟩
    · simp only
      obtain ⟨t, msg, sig, d', ss', log'', seen', h1, h2, h3, h4, h5, h6⟩ := ih 0 hK hi (hcons hs)
      exact ⟨t, msg, sig, d', ss', log'', seen', h1, h2, h3, h4, h5, by rw [List.length_cons] at h6; omega⟩
    · simp only
      have hlt : i < K := by
        have := (List.getElem?_eq_some_iff.1 hss).1
        omega
      rw [Concurrent.run_bind, Concurrent.run_bind]
      obtain ⟨og, log', hr, he, hg⟩ := run_makeGroup y ω hH P keys tweaks ⟨d, ss.map (·.point)⟩ hi.distinct
      have hnew := only_run y ω (only_makeGroup (k := K) H P keys tweaks ⟨d, ss.map (·.point)⟩) log
      rw [hr] at hnew ⊢
      have hi1 := hi.more he
      have hs1 : Seen (Spec.listQuery keys :: seen) log' := by
        intro e hel ks hk
        rcases hnew e hel with h' | h' | ⟨h', K', h''⟩
        · exact List.mem_cons_of_mem _ (hs e h' ks hk)
        · rw [h']
          exact List.mem_cons_self
        · exact absurd (hk.symm.trans h'') (Adaptive.listQuery_ne_coefString _ _ _)
      cases og with
      | none =>
        obtain ⟨t, msg, sig, d', ss', log'', seen', h1, h2, h3, h4, h5, h6⟩ := ih 0 hK hi1 hs1
        exact ⟨t, msg, sig, d', ss', log'', seen', h1, h2, h3, h4, h5, by rw [List.length_cons] at h6; omega⟩
      | some g =>
        obtain ⟨h1, h2, -⟩ := hg g rfl
        simp only
        obtain ⟨nb, hb, log2, he2, hm2, hn2, hr2⟩ := run_ask_new y ω he.distinct (drawn_noncecoef an g.ctx.aggregatedPubkey msg)
          ⟨{ d with combination := .zero, key := g.rep P }, ss.map (·.point)⟩
        rw [hr2, hr2]
        obtain ⟨ne, hc, log3, he3, hm3, hn3, hr3⟩ := run_ask_new y ω he2.distinct
          (drawn_challenge (Spec.xbytes ((⟨an, T, msg⟩ : Spec.Reply).nonce hb)) g.ctx.aggregatedPubkey msg)
          ⟨{ d with combination := .zero, key := g.rep P }, ss.map (·.point)⟩
        rw [hr3, hr3, Concurrent.run_bind, Concurrent.run_bind, hσ i hlt g h1]
        have hi3 := (hi1.more he2).more he3
        have hs3 : Seen (Spec.listQuery keys :: seen) log3 :=
          (hs1.other fun e h => (hn2 e h).imp id fun h ks => by rw [h]; exact noncecoef_ne_list _ _ _ ks).other fun e h =>
            (hn3 e h).imp id fun h ks => by rw [h]; exact challenge_ne_list _ _ _ ks
        have hi4 := hi3.sign hss ⟨g, an, msg, nb, hb, hc, σ i g ⟨an, T, msg⟩ hb hc⟩
          ⟨h1, (h2.mono he2.sub).mono he3.sub, he3.sub _ hm2, ⟨ne, hm3⟩, rfl⟩
        obtain ⟨t, msg, sig, d', ss', log'', seen', g1, g2, g3, g4, g5, g6⟩ :=
          ih (σ i g ⟨an, T, msg⟩ hb hc) (by rw [List.length_set]; exact hK) hi4 hs3
        rw [List.length_set] at g5
        exact ⟨t, msg, sig, d', ss', log'', seen', g1, g2, g3, g4, g5, by rw [List.length_cons] at g6; omega⟩
    · simp only
      obtain ⟨t, msg, sig, d', ss', log'', seen', h1, h2, h3, h4, h5, h6⟩ := ih 0 hK hi (hcons hs)
      exact ⟨t, msg, sig, d', ss', log'', seen', h1, h2, h3, h4, h5, by rw [List.length_cons] at h6; omega⟩

end

theorem finish_run {P : Point} {σ : ℕ → Group → Spec.Reply → Arr 32 → Arr 32 → MaybeScalar} {ss : List Session} {log : Log Note}
    (hi : GameInv P σ ss log) (t : MaybeScalar) (msg : Bytes) (sig : CompactSignature) (d : Data) {k : ℕ} (y : Unknown k → MaybeScalar)
    (ω : ℕ → Arr 32) {out : Outcome} (h : ((finish P t msg sig d ss : Play Note k _).run y ω log).1 = some out) :
    out.sessions = ss ∧ GameInv P σ ss ((finish P t msg sig d ss : Play Note k _).run y ω log).2 ∧ out.key.1 = P.1 + t • G := by
  rw [finish] at h ⊢
  rcases hY : Spec.offsetKey P t with _ | Y <;> rw [hY] at h
  · cases h
  · simp only at h ⊢
    obtain ⟨n, e, log1, x1, -, r1⟩ := run_ask_ext y ω hi.distinct (drawn_challenge sig.rx.1 Y msg) ⟨{ d with key := (t, 1) }, ss.map (·.point)⟩
    rw [r1, Play.run] at h ⊢
    obtain rfl := Option.some.inj h
    exact ⟨rfl, hi.more x1, (notInf_eq_some.1 hY).symm⟩

/-! ## The group at the end -/

theorem run_sub {k : ℕ} {α : Type} (y : Unknown k → MaybeScalar) (ω : ℕ → Arr 32) (p : Play Note k α) (log : Log Note) :
    ∀ e ∈ log, e ∈ (p.run y ω log).2 := by
  induction p generalizing log with
  | done a => exact fun _ h => h
  | ask x n next ih =>
    intro e he
    rw [Play.run]
    rcases log.find x with _ | e'
    · exact ih _ _ _ e (List.mem_append_left _ he)
    · exact ih _ _ _ e he
  | dlog f next ih => exact ih _ log

theorem tweakBy_ok {ctx : KeyAggContext} {z : MaybeScalar} {Y : Point} (h : Y.1 = ctx.aggregatedPubkey.1 + z • G) :
    ∃ ctx', ctx.withTweaks (tweakBy z) = .ok ctx' ∧ ctx'.aggregatedPubkey = Y := by
  unfold tweakBy
  split_ifs with hz
  · refine ⟨ctx, rfl, Subtype.ext ?_⟩
    rw [h, hz, zero_smul, add_zero]
  · refine ⟨_, withTweaks_cons_eq_ok.2 ⟨_, withTweak_eq_ok.2 ⟨Y, ?_, rfl⟩, rfl⟩, rfl⟩
    rw [Bool.false_and, negIf_false]
    exact h.symm

/-- The coefficients in a group of two keys. -/
theorem coeffOf_pair {H : Hash} {K P : Point} (hK : K ≠ P) : coeffOf H [K, P] P = 1 ∧
    coeffOf H [K, P] K = reduceFrom (H (Spec.coefString (H (Spec.listQuery [K, P])) K)) := by
  have h2 : secondKey [K, P] = some P := by
    simp [secondKey, hK.symm]
  refine ⟨GroupForger.coeffOf_second h2, ?_⟩
  rw [GroupForger.coeffOf_of_ne (by rw [h2]; exact fun h => hK (Option.some.inj h).symm)]
  rfl

/-- A group of two keys, with a tweak that makes the aggregated key `Y`. -/
theorem pair_ok {H : Hash} {K P Y : Point} {κ t : MaybeScalar} (hK : K ≠ P) (hκ : K.1 = κ • G) {c : MaybeScalar}
    (hc : coeffOf H [K, P] K = c) (hn : c • K.1 + P.1 ≠ 0) (hY : Y.1 = P.1 + t • G) :
    ∃ ctx0 ctx, KeyAggContext.new H [K, P] = .ok ctx0 ∧ ctx0.withTweaks (tweakBy (t - c * κ)) = .ok ctx ∧ ctx.aggregatedPubkey = Y := by
  have h3 : KeyAggContext.new H [K, P] = .ok (baseCtx H [K, P] ⟨c • K.1 + P.1, hn⟩) := by
    refine new_eq_ok.2 ⟨by simp, by simp [u32Max], _, ?_, rfl⟩
    unfold keySum
    simp [hc, (coeffOf_pair (H := H) hK).1]
  obtain ⟨ctx, h4, h5⟩ := tweakBy_ok (ctx := baseCtx H [K, P] ⟨c • K.1 + P.1, hn⟩) (z := t - c * κ) (Y := Y) (by
    change Y.1 = c • K.1 + P.1 + _
    rw [hY, hκ, sub_smul, mul_smul]
    abel)
  exact ⟨_, ctx, h3, h4, h5⟩

theorem run_pair {k : ℕ} (y : Unknown k → MaybeScalar) (ω : ℕ → Arr 32) {H : Hash} {K P Y : Point} {κ t : MaybeScalar} (hK : K ≠ P)
    (hκ : K.1 = κ • G) {log : Log Note} (hd : Distinct log) {n n' : Note} {h c : Arr 32} (hl : (Spec.listQuery [K, P], n, h) ∈ log)
    (hc : (Spec.coefString h K, n', c) ∈ log) (hn : reduceFrom c • K.1 + P.1 ≠ 0) (hY : Y.1 = P.1 + t • G) (nn : Note) :
    ∃ (g : Group) (log' : Log Note), (makeGroup H P [K, P] (tweakBy (t - reduceFrom c * κ)) nn : Play Note k _).run y ω log = (some g, log')
      ∧ Ext nn.points log log' ∧ g.keys = [K, P] ∧ g.note = n ∧ g.ctx.aggregatedPubkey = Y := by
  obtain ⟨n3, c', log', he, hm, hr⟩ := run_ask_ext y ω hd (drawn_coef h P) nn
  set H1 := ((H.answering (Spec.listQuery [K, P]) h).answering (Spec.coefString h K) c).answering (Spec.coefString h P) c' with hH1
  have hKP : Spec.coefString h K ≠ Spec.coefString h P := fun h => hK (Adaptive.coefString_injective h).2
  have h1 : H1 (Spec.listQuery [K, P]) = h := by
    rw [hH1, Hash.answering_of_ne _ _ (Adaptive.listQuery_ne_coefString _ _ _), Hash.answering_of_ne _ _
      (Adaptive.listQuery_ne_coefString _ _ _), Hash.answering_same]
  have h2 : coeffOf H1 [K, P] K = reduceFrom c := by
    rw [(coeffOf_pair hK).2, h1, hH1, Hash.answering_of_ne _ _ hKP, Hash.answering_same]
  obtain ⟨ctx0, ctx, h3, h4, h5⟩ := pair_ok hK hκ h2 hn hY
  have h6 : Adaptive.makeContext H1 [K, P] (tweakBy (t - reduceFrom c * κ)) = some ctx := by
    unfold Adaptive.makeContext
    rw [h3]
    simp only
    rw [h4]
  refine ⟨⟨[K, P], tweakBy (t - reduceFrom c * κ), H1, ctx, n⟩, log', ?_, he, rfl, rfl, h5⟩
  unfold makeGroup
  rw [if_pos (by simp), Play.run, (find_some hd).2 hl]
  simp only
  rw [askCoefs, Play.bind, Play.run, (find_some hd).2 hc]
  simp only
  rw [askCoefs, Play.bind, hr, askCoefs, Play.bind, Play.run, ← hH1, h6]
  rfl

theorem fresh_spec {P : Point} {seen : List Bytes} (h : seen.length + 2 < orderN) :
    mulG (fresh P seen) ≠ P ∧ Spec.listQuery [mulG (fresh P seen), P] ∉ seen := by
  have hex : ∃ κ : Scalar, mulG κ ≠ P ∧ Spec.listQuery [mulG κ, P] ∉ seen := by
    classical
    by_contra hno
    push Not at hno
    have hinj : Function.Injective fun κ : Scalar => Spec.listQuery [mulG κ, P] := by
      intro a b hab
      have := Adaptive.listQuery_injective hab
      simp only [List.cons.injEq, and_true] at this
      exact mulG_injective this
    let _ : Fintype Scalar := Fintype.ofFinite _
    have hsub : (Finset.univ.image fun κ : Scalar => Spec.listQuery [mulG κ, P]) ⊆ insert (Spec.listQuery [P, P]) seen.toFinset := by
      intro x hx
      obtain ⟨κ, -, rfl⟩ := Finset.mem_image.1 hx
      by_cases hκ : mulG κ = P
      · rw [hκ]
        exact Finset.mem_insert_self _ _
      · exact Finset.mem_insert_of_mem (List.mem_toFinset.2 (hno κ hκ))
    have h1 := Finset.card_le_card hsub
    rw [Finset.card_image_of_injective _ hinj, Finset.card_univ, ← Nat.card_eq_fintype_card, card_scalar] at h1
    have h2 := Finset.card_insert_le (Spec.listQuery [P, P]) seen.toFinset
    have h3 := List.toFinset_card_le seen
    omega
  unfold fresh
  rw [dif_pos hex]
  exact hex.choose_spec

section
variable {P : Point} {σ : ℕ → Group → Spec.Reply → Arr 32 → Arr 32 → MaybeScalar}

theorem game_ask {K : ℕ} {H : Hash} {pn : ℕ → PubNonce} {sign : ℕ → Group → Spec.Reply → Arr 32 → Arr 32 → Play Note K MaybeScalar}
    {x : Bytes} (hx : Drawn x) {d : Data} {next : Arr 32 → Adversary} {ss : List Session} :
    Adaptive.game H P pn sign (.ask x d next) ss
      = .ask x ⟨d, ss.map (·.point)⟩ fun _ h => Adaptive.game H P pn sign (next h) ss := by
  rw [Adaptive.game, if_pos hx]

theorem ending_run {K : ℕ} {H : Hash} (pn : ℕ → PubNonce) (y : Unknown K → MaybeScalar) (ω : ℕ → Arr 32)
    {sign : ℕ → Group → Spec.Reply → Arr 32 → Arr 32 → Play Note K MaybeScalar} (t : MaybeScalar) (msg : Bytes) (sig : CompactSignature)
    (d : Data) (ss : List Session) {log1 : Log Note} (κ : Scalar) (hd : Distinct log1)
    (l2 : Log.find log1 (Spec.listQuery [mulG κ, P]) = none) :
    ∃ h n c n2 log3, n2.data.reps = (fun _ => (κ.1, 0)) ∧ Distinct log3 ∧ (∀ e ∈ log1, e ∈ log3) ∧
      (Spec.listQuery [mulG κ, P], n2, h) ∈ log3 ∧ (Spec.coefString h (mulG κ), n, c) ∈ log3 ∧
      (Adaptive.game H P pn sign (.ask (Spec.listQuery [mulG κ, P]) { d with reps := fun _ => (κ.1, 0) } fun h =>
        .ask (Spec.coefString h (mulG κ)) d fun c => .submit [mulG κ, P] (tweakBy (t - reduceFrom c * κ.1)) msg sig d) ss).run y ω log1
        = (Adaptive.game H P pn sign (.submit [mulG κ, P] (tweakBy (t - reduceFrom c * κ.1)) msg sig d) ss).run y ω log3 := by
  have d2 := hd.append l2 ⟨{ d with reps := fun _ => (κ.1, 0) }, ss.map (·.point)⟩ (ω log1.length)
  obtain ⟨n3, c, log3, x3, m3, -, r3⟩ := run_ask_new y ω d2 (drawn_coef (ω log1.length) (mulG κ)) ⟨d, ss.map (·.point)⟩
  refine ⟨ω log1.length, n3, c, ⟨{ d with reps := fun _ => (κ.1, 0) }, ss.map (·.point)⟩, log3, rfl, x3.distinct,
    fun e he => x3.sub _ (List.mem_append_left _ he), x3.sub _ (List.mem_append_right _ (List.mem_singleton.2 rfl)), m3, ?_⟩
  rw [game_ask (drawn_list _), Play.run, l2]
  simp only
  rw [game_ask (drawn_coef _ _), r3]

theorem submit_wins {K : ℕ} {H : Hash} (pn : ℕ → PubNonce) (y : Unknown K → MaybeScalar) (ω : ℕ → Arr 32)
    {sign : ℕ → Group → Spec.Reply → Arr 32 → Arr 32 → Play Note K MaybeScalar} {t : MaybeScalar} {msg : Bytes} {sig : CompactSignature}
    {d : Data} {ss : List Session} {log1 log3 : Log Note} {κ : Scalar} (f1 : mulG κ ≠ P) {Y : Point} (hY : Y.1 = P.1 + t • G)
    {n1 n2 n3 : Note} {e h c : Arr 32} (d1 : Distinct log1) (m1 : (Spec.challengeQuery sig.rx.1 Y msg, n1, e) ∈ log1)
    (hn2 : n2.data.reps = fun _ => (κ.1, 0)) (d3 : Distinct log3) (hsub : ∀ e ∈ log1, e ∈ log3)
    (ml : (Spec.listQuery [mulG κ, P], n2, h) ∈ log3) (mc : (Spec.coefString h (mulG κ), n3, c) ∈ log3)
    (hc : reduceFrom c • (mulG κ).1 + P.1 ≠ 0) (hw : Wins H P pn (some ⟨Y, msg, sig, n1, ss⟩, log1)) :
    Adaptive.Wins H P pn ((Adaptive.game H P pn sign (.submit [mulG κ, P] (tweakBy (t - reduceFrom c * κ.1)) msg sig d) ss).run y ω log3) := by
  obtain ⟨g1, g2, g3, g4, g5⟩ := hw
  rw [Adaptive.game, Concurrent.run_bind]
  obtain ⟨g, log4, r4, x4, k4, o4, a4⟩ := run_pair (H := H) y ω f1 (κ := κ.1) rfl d3 ml mc hc hY ⟨d, ss.map (·.point)⟩
  have m1' := x4.sub _ (hsub _ m1)
  rw [r4]
  simp only
  rw [a4, Play.run, (find_some x4.distinct).2 m1']
  simp only
  rw [Play.run]
  refine ⟨?_, ?_, g3, ?_, ?_, g5⟩
  · simp only [a4]
    exact g1
  · simp only [a4]
    simp only at g2
    rw [verifySingle_eq_ok, Concurrent.hash_challenge x4.distinct m1']
    rw [verifySingle_eq_ok, Concurrent.hash_challenge d1 m1] at g2
    exact g2
  · intro K hK
    simp only at hK ⊢
    rw [k4] at hK
    rw [o4]
    by_cases hKP : K = P
    · simp [hKP, Note.alpha, Note.beta]
    · have : K = mulG κ := by simpa [hKP] using hK
      simp only [Note.alpha, Note.beta, if_neg hKP, hn2, zero_smul, add_zero]
      rw [this]
      rfl
  · simp only [a4]
    exact g4

theorem ending_wins {K : ℕ} {H : Hash} (pn : ℕ → PubNonce) (y : Unknown K → MaybeScalar) (ω : ℕ → Arr 32)
    {sign : ℕ → Group → Spec.Reply → Arr 32 → Arr 32 → Play Note K MaybeScalar} (t : MaybeScalar) (msg : Bytes) (sig : CompactSignature)
    (d : Data) (ss : List Session) {log : Log Note} {seen : List Bytes} (hd : Distinct log) (hs : Seen seen log)
    (hf : seen.length + 2 < orderN) (hw : Wins H P pn ((finish P t msg sig d ss).run y ω log)) :
    ∃ κ h n c, (Spec.coefString h κ, n, c) ∈ ((Adaptive.game H P pn sign (ending P seen t msg sig d) ss).run y ω log).2 ∧
      (reduceFrom c • κ.1 + P.1 ≠ 0 →
        Adaptive.Wins H P pn ((Adaptive.game H P pn sign (ending P seen t msg sig d) ss).run y ω log)) := by
  obtain ⟨f1, f2⟩ := fresh_spec (P := P) hf
  rw [finish] at hw
  rw [ending]
  rcases hY : Spec.offsetKey P t with _ | Y <;> rw [hY] at hw
  · exact hw.elim
  · have hY' : Y.1 = P.1 + t • G := (notInf_eq_some.1 hY).symm
    simp only at hw ⊢
    obtain ⟨n1, e, log1, x1, m1, w1, r1⟩ := run_ask_new y ω hd (drawn_challenge sig.rx.1 Y msg) ⟨{ d with key := (t, 1) }, ss.map (·.point)⟩
    rw [r1, Play.run] at hw
    rw [Adaptive.game, if_pos (drawn_challenge _ _ _), r1]
    have l2 : Log.find log1 (Spec.listQuery [mulG (fresh P seen), P]) = none := by
      rw [find_none]
      intro hmem
      obtain ⟨a, ha, hx⟩ := List.mem_map.1 hmem
      rcases w1 a ha with h | h
      · exact f2 (hx ▸ hs a h _ hx)
      · exact challenge_ne_list _ _ _ _ (h.symm.trans hx)
    obtain ⟨h, n, c, n2, log3, h1, h2, h3, h4, h5, h6⟩ :=
      ending_run (H := H) (sign := sign) pn y ω t msg sig d ss (fresh P seen) x1.distinct l2
    rw [h6]
    exact ⟨mulG (fresh P seen), h, n, c, run_sub y ω _ _ _ h5, fun hc => submit_wins pn y ω f1 hY' x1.distinct m1 h1 h2 h3 h4 h5 hc hw⟩

end

/-! ## Answers for which there is no such group -/

/-- The coefficients of a key with which it cancels `P`. -/
noncomputable def bad (P : Point) (_ : Log Note) (x : Bytes) (_ : Note) : Finset MaybeScalar := by
  classical exact
    match Adaptive.coefOf x with
    | none => ∅
    | some p => Finset.univ.filter fun c => c • p.2.1 + P.1 = 0

theorem bad_card (P : Point) (log : Log Note) (x : Bytes) (n : Note) : (bad P log x n).card ≤ 1 := by
  unfold bad
  rcases Adaptive.coefOf x with _ | p
  · simp
  · refine Finset.card_le_one.2 fun a ha b hb => ?_
    have ha := (Finset.mem_filter.1 ha).2
    have hb := (Finset.mem_filter.1 hb).2
    have : (a - b) • p.2.1 = 0 := by
      rw [sub_smul, sub_eq_zero]
      exact add_right_cancel (ha.trans hb.symm)
    rcases smul_eq_zero.1 this with h | h
    · exact sub_eq_zero.1 h
    · exact absurd h p.2.2

theorem mem_bad {P K : Point} {log : Log Note} {h : Arr 32} {n : Note} {c : MaybeScalar} (hc : c • K.1 + P.1 = 0) :
    c ∈ bad P log (Spec.coefString h K) n := by
  unfold bad
  rw [Adaptive.coefOf_query]
  exact Finset.mem_filter.2 ⟨Finset.mem_univ _, hc⟩

theorem ending_asks (P : Point) (seen : List Bytes) (q k : ℕ) (t : MaybeScalar) (msg : Bytes) (sig : CompactSignature) (d : Data) :
    (ending P seen t msg sig d).AsksAtMost (q + 7) k := by
  rw [ending]
  rcases Spec.offsetKey P t with _ | Y
  · exact .submit (q + 5) k [] _ _ _ _
  · exact .ask (q + 6) k _ _ _ fun _ => .ask (q + 5) k _ _ _ fun h => .ask (q + 4) k _ _ _ fun c => .submit q k [_, _] _ _ _ _

theorem forGroup_asks (P : Point) {A : OwnForger} {q k : ℕ} (hA : A.AsksAtMost q k) (seen : List Bytes) :
    (A.forGroup P seen).AsksAtMost (q + 6) k := by
  induction hA generalizing seen with
  | submit q k t msg sig d => exact ending_asks P seen q k t msg sig d
  | ask q k x d next h ih => exact .ask (q + 6) k _ _ _ fun a => ih a _
  | other q k x d next hx h ih => exact .other (q + 6) k _ _ _ hx fun a => ih a _
  | start q k T next h ih => exact .start (q + 6) k _ _ fun a => ih a _
  | sign q k i keys tweaks an msg d next h ih =>
    have := Adversary.AsksAtMost.sign (q + 6) k i keys tweaks an msg d _ fun s => ih s (Spec.listQuery keys :: seen)
    rw [show q + keys.length + 3 + 6 = q + 6 + keys.length + 3 by omega]
    exact this

theorem ending_others (P : Point) (seen : List Bytes) (m : ℕ) (t : MaybeScalar) (msg : Bytes) (sig : CompactSignature) (d : Data) :
    (ending P seen t msg sig d).OthersAtMost m := by
  rw [ending]
  rcases Spec.offsetKey P t with _ | Y
  · trivial
  · exact ⟨fun _ _ => ⟨fun _ _ => ⟨fun _ _ => trivial, fun h => absurd (drawn_coef _ _) h⟩, fun h => absurd (drawn_list _) h⟩,
      fun h => absurd (drawn_challenge _ _ _) h⟩

theorem forGroup_others (P : Point) {A : OwnForger} {m : ℕ} (hA : A.OthersAtMost m) (seen : List Bytes) :
    (A.forGroup P seen).OthersAtMost m := by
  induction A generalizing seen m with
  | submit t msg sig d => exact ending_others P seen m t msg sig d
  | ask x d next ih =>
    refine ⟨fun hx a => ih a (hA.1 hx a) _, fun hx => ?_⟩
    obtain ⟨m', h, h'⟩ := hA.2 hx
    exact ⟨m', h, fun a => ih a (h' a) _⟩
  | start T next ih => exact fun pn => ih pn (hA pn) _
  | sign i keys tweaks an msg d next ih => exact fun s => ih s (hA s) _

/-- If the forger succeeds, then so does the forger of signatures of groups, unless keys cancel. -/
theorem forges_group {H : Hash} (hH : TagsAgree H) (sk : Scalar) (sn : ℕ → SecNonce) {A : OwnForger} {q k : ℕ} (hA : A.AsksAtMost q k)
    (hq : q + 2 < orderN) {N : ℕ} (ω : Fin N → Arr 32) (hw : Forges k H sk sn A ω) :
    Adaptive.Forges k H sk sn (A.forGroup (mulG sk) []) ω ∨
      Hits (bad (mulG sk)) (secrets k sk sn) (answers ω) (Adaptive.signerGame k H sk sn (A.forGroup (mulG sk) [])) [] := by
  by_contra hno
  push Not at hno
  obtain ⟨h1, h2⟩ := hno
  obtain ⟨-, hg⟩ := run_good (bad (mulG sk)) (secrets k sk sn) (by exact List.nodup_nil) (by intro t x n h ht; simp at ht) h2
  obtain ⟨t, msg, sig, d, ss', log', seen', e1, e2, e3, e4, e5, e6⟩ :=
    reach (P := mulG sk) (σ := fun i g r hb he => SessionForger.partialSignature g.hash g.ctx sk (sn i) r hb he) hH
      (fun i => (sn i).publicNonce) (secrets k sk sn) (answers ω) (sign := fun i g r hb he => .done _)
      (fun i hi g hg r hb he log => rfl) hA (ss := []) (by simp) (Adaptive.gameInv_nil (mulG sk) _) (seen := []) (by intro e he; simp at he)
  unfold Forges signerGame at hw
  rw [e1] at hw
  unfold Adaptive.Forges at h1
  unfold Adaptive.signerGame at h1 hg
  rw [e2] at h1 hg
  obtain ⟨K, h, n, c, hm, hwin⟩ := ending_wins (sign := fun i g r hb he => .done
    (SessionForger.partialSignature g.hash g.ctx sk (sn i) r hb he)) _ (secrets k sk sn) (answers ω) t msg sig d ss' e3.distinct e4
    (by simp at e6; omega) hw
  obtain ⟨j, hj⟩ := List.mem_iff_getElem?.1 hm
  exact h1 (hwin fun h0 => hg j _ n c hj (mem_bad h0))

theorem chance_cancel {H : Hash} (sk : Scalar) (sn : ℕ → SecNonce) {A : Adversary} {q k : ℕ} (hA : A.AsksAtMost q k) :
    (Spec.chance fun ω : Fin q → Arr 32 => Hits (bad (mulG sk)) (secrets k sk sn) (answers ω) (Adaptive.signerGame k H sk sn A) [])
      ≤ 2 * q / 2 ^ 256 := by
  have := chance_hits (bad (mulG sk)) (secrets k sk sn) (fun _ => 1) (fun log x n => bad_card _ log x n)
    (Adaptive.game_hashes H (mulG sk) (fun i => (sn i).publicNonce)
      (sign := fun i g r hb he => .done (SessionForger.partialSignature g.hash g.ctx sk (sn i) r hb he)) (fun _ _ _ _ _ => trivial) hA [])
    []
  refine this.trans (le_of_eq ?_)
  rw [Finset.sum_const, Finset.card_range, nsmul_eq_mul]
  push_cast
  ring

theorem forges_own {H : Hash} (hH : TagsAgree H) (sk : Scalar) (sn : ℕ → SecNonce) {A : OwnForger} {q k : ℕ} (hA : A.AsksAtMost q k)
    (hq : q + 2 < orderN) :
    (Spec.chance fun ω : Fin (q + 6) → Arr 32 => Forges k H sk sn A ω)
      ≤ (Spec.chance fun ω : Fin (q + 6) → Arr 32 => Adaptive.Forges k H sk sn (A.forGroup (mulG sk) []) ω)
        + 2 * (q + 6) / 2 ^ 256 := by
  refine (CmaForger.chance_mono fun ω hω => forges_group hH sk sn hA hq ω hω).trans ((CmaForger.chance_or _ _).trans ?_)
  have := chance_cancel (H := H) sk sn (forGroup_asks (mulG sk) hA [])
  push_cast at this
  exact add_le_add le_rfl this

theorem bound_trivial {q k : ℕ} (hq : ¬ q + 2 < orderN) :
    (1 : ℚ) ≤ ((k + 7) * (((q + 6 : ℕ) : ℚ) * ((q + 6 : ℕ) + 1)) + 2 ^ 34 * (q + 6 : ℕ)) / 2 ^ 256 := by
  have h1 : 2 ^ 255 ≤ q + 6 := by
    have := orderN_close
    have h2 : (2 : ℕ) ^ 255 + 2 ^ 129 + 2 ≤ 256 ^ 32 := by norm_num
    omega
  have h3 : (2 : ℚ) ^ 255 ≤ ((q + 6 : ℕ) : ℚ) := by exact_mod_cast h1
  rw [le_div_iff₀ (by positivity), one_mul]
  have h4 : (0 : ℚ) ≤ (k + 7) * (((q + 6 : ℕ) : ℚ) * ((q + 6 : ℕ) + 1)) := by positivity
  calc (2 : ℚ) ^ 256 = 2 * 2 ^ 255 := by norm_num
    _ ≤ 2 ^ 34 * 2 ^ 255 := mul_le_mul_of_nonneg_right (by norm_num) (by positivity)
    _ ≤ 2 ^ 34 * (q + 6 : ℕ) := mul_le_mul_of_nonneg_left h3 (by positivity)
    _ ≤ _ := le_add_of_nonneg_left h4

/-! ## An example -/

/-- What the forger of the example says: the nonce is `G`, and the key is `P + t·G`. -/
def exData (t : MaybeScalar) : Data := ⟨Concurrent.gCombination, (t, 1), fun _ => (0, 0)⟩

/-- A forger that has been told the secret key. It takes part in a session of the group of `P` alone about the message `m`, and submits a
signature of the empty message for the key `P + t·G` with the nonce `G`. -/
noncomputable def exForger (sk : Scalar) (t : MaybeScalar) (Y : Point) (an : AggNonce) (m : Bytes) : OwnForger :=
  .ask (Spec.challengeQuery (xonly G).1 Y []) (exData t) fun e =>
    .start 0 fun _ => .sign 0 [mulG sk] [] an m (exData 0) fun _ =>
      .submit t [] ⟨xonly G, 1 + reduceFrom e * (Spec.sgn Y.1 * (sk.1 + t))⟩ (exData t)

theorem exForger_asks (sk : Scalar) (t : MaybeScalar) (Y : Point) (an : AggNonce) (m : Bytes) : (exForger sk t Y an m).AsksAtMost 6 1 :=
  .ask 5 1 _ _ _ fun _ => .start 5 0 _ _ fun _ => .sign 1 0 0 [mulG sk] _ _ _ _ _ fun _ => .submit 0 0 _ _ _ _

theorem exForger_others (sk : Scalar) (t : MaybeScalar) (Y : Point) (an : AggNonce) (m : Bytes) : (exForger sk t Y an m).OthersAtMost 0 :=
  ⟨fun _ _ _ _ => trivial, fun h => absurd (drawn_challenge _ _ _) h⟩

theorem finish_wins {k : ℕ} {H : Hash} {sk : Scalar} {t : MaybeScalar} {Y : Point} (hY : Spec.offsetKey (mulG sk) t = some Y)
    (y : Unknown k → MaybeScalar) (pn : ℕ → PubNonce) (ω : ℕ → Arr 32) {log : Log Note} (hd : Distinct log) {n : Note} {e : Arr 32}
    (hm : (Spec.challengeQuery (xonly G).1 Y [], n, e) ∈ log) (hn : n = ⟨exData t, []⟩) {ss : List Session}
    (hs : ∀ s ∈ ss, ∀ r, s.signed = some r → r.message ≠ [] ∧ r.group.Right (mulG sk) ∧
      xonly (r.note.keyPoint (mulG sk)) = xonly r.group.ctx.aggregatedPubkey.1) :
    Wins H (mulG sk) pn ((finish (mulG sk) t [] ⟨xonly G, 1 + reduceFrom e * (Spec.sgn Y.1 * (sk.1 + t))⟩ (exData t) ss
      : Play Note k _).run y ω log) := by
  have hY' : Y.1 = (mulG sk).1 + t • G := (notInf_eq_some.1 hY).symm
  have hk : Y.1 = (sk.1 + t) • G := by rw [hY', add_smul]; rfl
  rw [finish, hY]
  simp only
  rw [Play.run, (find_some hd).2 hm]
  simp only
  rw [Play.run]
  refine ⟨fun s h r hr h' => (hs s h r hr).1 h'.1, ?_, ?_, ?_, fun s h r hr => (hs s h r hr).2⟩
  · refine verifySingle_eq_ok.2 ⟨Gpt, ?_, isOdd_G, rfl⟩
    have := Concurrent.hash_challenge (H := H) hd hm
    simp only
    rw [this, CmaForger.toEvenY_sgn, hk, add_smul, one_smul, mul_smul, mul_smul, ← hk]
    rfl
  · simp only [hn, exData, Note.nonce, Concurrent.Note.value, Concurrent.gCombination, Concurrent.Note.coef, List.map_nil, List.length_nil,
      Finset.range_zero, Finset.sum_empty, one_smul, zero_smul, add_zero]
  · simp only [hn, Note.keyPoint, exData, one_smul]
    rw [add_comm, hY']

theorem exForger_forges {H : Hash} (hH : TagsAgree H) (sk : Scalar) (sn : ℕ → SecNonce) {t : MaybeScalar} {Y : Point}
    (hY : Spec.offsetKey (mulG sk) t = some Y) (an : AggNonce) {m : Bytes} (hm : m ≠ []) {N : ℕ} (ω : Fin N → Arr 32) :
    Forges 1 H sk sn (exForger sk t Y an m) ω := by
  unfold Forges signerGame exForger
  rw [game, if_pos (drawn_challenge _ _ _), Play.run, show Log.find [] _ = none from rfl]
  simp only [List.length_nil, List.nil_append, List.map_nil]
  have hd : Distinct [(Spec.challengeQuery (xonly G).1 Y [], (⟨exData t, []⟩ : Note), answers ω 0)] := List.nodup_singleton _
  rw [game, game]
  simp only [List.nil_append, List.getElem?_cons_zero]
  rw [Concurrent.run_bind]
  obtain ⟨og, log1, r1, x1, hg⟩ := run_makeGroup (secrets 1 sk sn) (answers ω) hH (mulG sk) [mulG sk] []
    ⟨exData 0, [(⟨0, none⟩ : Session)].map (·.point)⟩ hd
  have hnew := only_run (secrets 1 sk sn) (answers ω) (only_makeGroup (k := 1) H (mulG sk) [mulG sk] []
    ⟨exData 0, [(⟨0, none⟩ : Session)].map (·.point)⟩) [(Spec.challengeQuery (xonly G).1 Y [], (⟨exData t, []⟩ : Note), answers ω 0)]
  rw [r1] at hnew ⊢
  have m0 : (Spec.challengeQuery (xonly G).1 Y [], (⟨exData t, []⟩ : Note), answers ω 0) ∈ log1 := x1.sub _ (List.mem_singleton.2 rfl)
  cases og with
  | none =>
    simp only
    rw [game]
    refine finish_wins hY _ _ _ x1.distinct m0 rfl fun s hs r hr => ?_
    rw [List.mem_singleton] at hs
    rw [hs] at hr
    cases hr
  | some g =>
    obtain ⟨f1, f2, f3, -⟩ := hg g rfl
    simp only
    have l2 : log1.find (Spec.noncecoefQuery an g.ctx.aggregatedPubkey m) = none := by
      rw [find_none]
      intro hmem
      obtain ⟨a, ha, hx⟩ := List.mem_map.1 hmem
      rcases hnew a ha with h | h | ⟨h', K', h⟩
      · rw [List.mem_singleton.1 h] at hx
        exact C66_domain_separation _ _ (by decide +kernel) (by decide +kernel) (by decide) _ _ hx
      · exact noncecoef_ne_list _ _ _ _ (hx.symm.trans h)
      · exact C66_domain_separation _ _ (by decide +kernel) (by decide +kernel) (by decide) _ _ (hx.symm.trans h)
    rw [Play.run, l2]
    simp only
    obtain ⟨n3, e3, log3, x3, m3, r3⟩ := run_ask_ext (secrets 1 sk sn) (answers ω) (x1.distinct.append l2
      ⟨{ exData 0 with combination := .zero, key := g.rep (mulG sk) }, [(⟨0, none⟩ : Session)].map (·.point)⟩ (answers ω log1.length))
      (drawn_challenge (Spec.xbytes ((⟨an, 0, m⟩ : Spec.Reply).nonce (answers ω log1.length))) g.ctx.aggregatedPubkey m)
      ⟨{ exData 0 with combination := .zero, key := g.rep (mulG sk) }, [(⟨0, none⟩ : Session)].map (·.point)⟩
    rw [r3]
    simp only [Play.bind, List.set_cons_zero]
    rw [game]
    refine finish_wins hY _ _ _ x3.distinct (x3.sub _ (List.mem_append_left _ m0)) rfl fun s hs r hr => ?_
    rw [List.mem_singleton] at hs
    rw [hs] at hr
    rw [← Option.some.inj hr]
    refine ⟨hm, Adaptive.right_single f3, ?_⟩
    simp only [Note.keyPoint]
    rw [← f1.key (Adaptive.right_single f3)]

end Verif.OwnForger
