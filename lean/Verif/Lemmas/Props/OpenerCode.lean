import Verif.Lemmas.Props.Opener

/-!
# Lemmas for `Props/Opener`: the game is one against the code
-/

namespace Verif

namespace Asker

open Forger (Log)

variable {α : Type} {D : Bytes → Prop} [DecidablePred D]

/-- The result if the hash function is `O`. -/
def eval (O : Hash) : Asker α → α
  | .done a => a
  | .ask x next => eval O (next (O x))

theorem run_all (H : Hash) (ω : ℕ → Arr 32) (p : Asker α) {log : Log} (hl : ∀ e ∈ log, D e.1) : ∀ e ∈ (p.run D H ω log).2, D e.1 := by
  induction p generalizing log with
  | done a => exact hl
  | ask x next ih =>
    rw [run]
    split_ifs with hx
    · split
      · exact ih _ hl
      · refine ih _ fun e he => ?_
        rcases List.mem_append.1 he with he | he
        · exact hl e he
        · rw [List.mem_singleton.1 he]
          exact hx
    · exact ih _ hl

theorem hash_of_prefix (H : Hash) {log log' : Log} (hd : Distinct log') (h : log <+: log') {x : Bytes} {d : Arr 32} (hx : log.find x = some d) :
    log'.hash H x = d := by
  unfold Log.hash
  rw [find_of_mem hd (h.subset (mem_of_find hx))]
  rfl

/-- A run is one with the hash function that has been drawn in the end. -/
theorem run_eval (H : Hash) (ω : ℕ → Arr 32) (p : Asker α) {log : Log} (hd : Distinct log) (hl : ∀ e ∈ log, D e.1) :
    (p.run D H ω log).1 = p.eval ((p.run D H ω log).2.hash H) := by
  induction p generalizing log with
  | done a => rfl
  | ask x next ih =>
    have hd' := run_distinct (D := D) H ω (.ask x next) hd
    have hp := run_prefix (D := D) H ω (.ask x next) log
    rw [eval]
    by_cases hx : D x
    · rcases hf : log.find x with _ | d
      · have e : (Asker.ask x next).run D H ω log = (next (ω log.length)).run D H ω (log ++ [(x, ω log.length)]) := by
          rw [run, if_pos hx, hf]
        have hd1 := distinct_add hd hf (ω log.length)
        have hp1 := run_prefix (D := D) H ω (next (ω log.length)) (log ++ [(x, ω log.length)])
        have h := ih (ω log.length) hd1 fun e he => by
          rcases List.mem_append.1 he with he | he
          · exact hl e he
          · rw [List.mem_singleton.1 he]
            exact hx
        have hO : ((next (ω log.length)).run D H ω (log ++ [(x, ω log.length)])).2.hash H x = ω log.length :=
          hash_of_prefix H (run_distinct (D := D) H ω _ hd1) hp1 (find_of_mem hd1 (by simp))
        rw [e, hO]
        exact h
      · have e : (Asker.ask x next).run D H ω log = (next d).run D H ω log := by
          rw [run, if_pos hx, hf]
        have hO : ((next d).run D H ω log).2.hash H x = d :=
          hash_of_prefix H (run_distinct (D := D) H ω _ hd) (run_prefix (D := D) H ω _ log) hf
        rw [e, hO]
        exact ih d hd hl
    · have e : (Asker.ask x next).run D H ω log = (next (H x)).run D H ω log := by
        rw [run, if_neg hx]
      have hO : ((next (H x)).run D H ω log).2.hash H x = H x := by
        unfold Log.hash
        rw [find_none.2]
        · rfl
        · intro h
          obtain ⟨a, ha, rfl⟩ := List.mem_map.1 h
          exact hx (run_all H ω _ hl a ha)
      rw [e, hO]
      exact ih _ hd hl

end Asker

namespace Opener

open Concurrent (Play Log Unknown)
open Adaptive (Note Session Outcome Signed makeGroup askCoefs makeContext Wins Group)

/-! ## Evaluation -/

theorem eval_build (O H : Hash) (b : SecNonceBuilder) (s : Arr 32) (next : SecNonce → Asker Prop) :
    (NonceUser.build H (Spec.seeded b s) next).eval O = (next ((Spec.seeded b s).build O)).eval O := by
  rw [NonceUser.build_eq, NonceClash.build_eq, NonceUser.nonceQuery_seeded, NonceUser.nonceQuery_seeded]
  rfl

variable {k : ℕ} {α β : Type}

/-- The result of `p` if the hash function is `O`, and the log after it. -/
def eval (O : Hash) : Play Note k α → Log Note → α × Log Note
  | .done a, log => (a, log)
  | .ask x n next, log => match log.find x with
    | some e => eval O (next e.1 (O x)) log
    | none => eval O (next n (O x)) (log ++ [(x, n, O x)])
  | .dlog _ next, log => eval O (next 0) log

theorem eval_hashes (O H : Hash) (s : ℕ → Arr 32) (p : Play Note k α) (f : α → Log Note → NonceUser) (log : Log Note) :
    ((hashes p log f).library H s).eval O = ((f (eval O p log).1 (eval O p log).2).library H s).eval O := by
  induction p generalizing log with
  | done a => rfl
  | ask x n next ih =>
    rw [hashes, NonceUser.library, Asker.eval, eval]
    rcases log.find x with _ | e
    · exact ih _ _ _
    · exact ih _ _ _
  | dlog c next ih => exact ih 0 log

theorem eval_bind (O : Hash) (p : Play Note k α) (f : α → Play Note k β) (log : Log Note) :
    eval O (p.bind f) log = eval O (f (eval O p log).1) (eval O p log).2 := by
  induction p generalizing log with
  | done a => rfl
  | ask x n next ih =>
    rw [Play.bind, eval, eval]
    split
    · exact ih _ _ _
    · exact ih _ _ _
  | dlog c next ih => exact ih 0 log

/-- The answers in the log are those of `O`. -/
def Right (O : Hash) (log : Log Note) : Prop := ∀ e ∈ log, e.2.2 = O e.1

theorem Right.add {O : Hash} {log : Log Note} (h : Right O log) (x : Bytes) (n : Note) : Right O (log ++ [(x, n, O x)]) := by
  intro e he
  rcases List.mem_append.1 he with he | he
  · exact h e he
  · rw [List.mem_singleton.1 he]

theorem Right.eval {O : Hash} (p : Play Note k α) {log : Log Note} (h : Right O log) :
    Right O (Opener.eval O p log).2 ∧ log <+: (Opener.eval O p log).2 := by
  induction p generalizing log with
  | done a => exact ⟨h, List.prefix_refl _⟩
  | ask x n next ih =>
    rw [Opener.eval]
    split
    · exact ih _ _ h
    · exact ⟨(ih _ _ (h.add x n)).1, (List.prefix_append _ _).trans (ih _ _ (h.add x n)).2⟩
  | dlog c next ih => exact ih 0 h

theorem Right.hash {O H : Hash} {log : Log Note} (h : Right O log) {x : Bytes} (hx : x ∈ log.map (·.1)) : log.hash H x = O x := by
  unfold Log.hash
  rcases hf : log.find x with _ | e
  · exact absurd hx (Concurrent.find_none.1 hf)
  · unfold Log.find at hf
    obtain ⟨a, ha, rfl⟩ := Option.map_eq_some_iff.1 hf
    have h1 := List.find?_some ha
    have h2 := h a (List.mem_of_find?_eq_some ha)
    rw [decide_eq_true_eq] at h1
    exact h2.trans (by rw [h1])

/-! ## Groups -/

theorem eval_askCoefs (O : Hash) (h : Arr 32) (n : Note) (keys : List Point) (O' : Hash) (log : Log Note) :
    ((eval O (askCoefs h n keys O' : Play Note k Hash) log).1 = fun x => if x ∈ keys.map (Spec.coefString h) then O x else O' x) := by
  induction keys generalizing O' log with
  | nil =>
    funext x
    simp [askCoefs, eval]
  | cons K keys ih =>
    have key : ∀ log, (eval O (askCoefs h n keys (O'.answering (Spec.coefString h K) (O (Spec.coefString h K))) : Play Note k Hash) log).1
        = fun x => if x ∈ (K :: keys).map (Spec.coefString h) then O x else O' x := by
      intro log
      rw [ih]
      funext x
      by_cases hx : x = Spec.coefString h K
      · subst hx
        simp [Hash.answering_same]
      · rw [Hash.answering_of_ne _ _ hx]
        simp only [List.map_cons, List.mem_cons, or_iff_right hx]
    rw [askCoefs, eval]
    split
    · exact key _
    · exact key _

theorem coefString_ne_list (h : Arr 32) (K : Point) (keys : List Point) : Spec.coefString h K ≠ Spec.listQuery keys :=
  C66_domain_separation _ _ (by simp [Spec.tags]) (by simp [Spec.tags]) (by decide) _ _

/-- Making a group with the hash function `O`. -/
theorem eval_makeGroup (O H : Hash) (P : Point) (keys : List Point) (ts : List (Scalar × Bool)) (n : Note) (log : Log Note) :
    (P ∉ keys → (eval O (makeGroup H P keys ts n : Play Note k (Option Group)) log).1 = none) ∧
    (P ∈ keys → ∃ (O' : Hash) (n' : Note), (∀ K ∈ keys, coeffOf O' keys K = coeffOf O keys K) ∧
      (eval O (makeGroup H P keys ts n : Play Note k (Option Group)) log).1
        = (makeContext O keys ts).map fun ctx => ⟨keys, ts, O', ctx, n'⟩) := by
  constructor
  · intro hP
    rw [makeGroup, if_neg hP]
    rfl
  · intro hP
    set h := O (Spec.listQuery keys) with hh
    set O' : Hash := fun x => if x ∈ keys.map (Spec.coefString h) then O x else H.answering (Spec.listQuery keys) h x with hO'
    have hcoef : ∀ K ∈ keys, coeffOf O' keys K = coeffOf O keys K := by
      intro K hK
      by_cases h2 : secondKey keys = some K
      · rw [GroupForger.coeffOf_second h2, GroupForger.coeffOf_second h2]
      · rw [GroupForger.coeffOf_of_ne h2, GroupForger.coeffOf_of_ne h2]
        change reduceFrom (O' (Spec.coefString (O' (Spec.listQuery keys)) K)) = reduceFrom (O (Spec.coefString (O (Spec.listQuery keys)) K))
        have h1 : O' (Spec.listQuery keys) = h := by
          have : Spec.listQuery keys ∉ keys.map (Spec.coefString h) := by
            intro hm
            obtain ⟨K', -, e⟩ := List.mem_map.1 hm
            exact coefString_ne_list _ _ _ e
          rw [hO']
          dsimp only
          rw [if_neg this, Hash.answering_same]
        rw [h1, ← hh]
        have h3 : O' (Spec.coefString h K) = O (Spec.coefString h K) := if_pos (List.mem_map.2 ⟨K, hK, rfl⟩)
        rw [h3]
    have hctx : makeContext O' keys ts = makeContext O keys ts := by
      unfold makeContext
      rw [Adaptive.new_congr hcoef]
    rw [makeGroup, if_pos hP, eval]
    split
    · rename_i e _
      refine ⟨O', e.1, hcoef, ?_⟩
      rw [eval_bind, eval, eval_askCoefs]
      change (makeContext O' keys ts).map _ = _
      rw [hctx]
    · refine ⟨O', n, hcoef, ?_⟩
      rw [eval_bind, eval, eval_askCoefs]
      change (makeContext O' keys ts).map _ = _
      rw [hctx]

theorem eval_ask (O : Hash) (x : Bytes) (n : Note) (next : Note → Arr 32 → Play Note k α) (log : Log Note) :
    ∃ n' log', eval O (.ask x n next) log = eval O (next n' (O x)) log' ∧ x ∈ log'.map (·.1) ∧ (Right O log → Right O log') := by
  rw [eval]
  rcases hf : log.find x with _ | e
  · exact ⟨n, _, rfl, by simp, fun h => h.add x n⟩
  · refine ⟨e.1, log, rfl, ?_, id⟩
    by_contra h
    rw [Concurrent.find_none.2 h] at hf
    cases hf

/-- The partial signature of the game is that of the code. -/
theorem signPartial_code {O O' : Hash} {keys : List Point} {ts : List (Scalar × Bool)} {ctx : KeyAggContext} {sk : Scalar}
    (hP : mulG sk ∈ keys) (hcoef : ∀ K ∈ keys, coeffOf O' keys K = coeffOf O keys K) (hctx : makeContext O keys ts = some ctx) (sn : SecNonce)
    (an : AggNonce) (T : MaybePoint) (msg : Bytes) :
    let r : Spec.Reply := ⟨an, T, msg⟩
    let hb := O (Spec.noncecoefQuery an ctx.aggregatedPubkey msg)
    let he := O (Spec.challengeQuery (Spec.xbytes (r.nonce hb)) ctx.aggregatedPubkey msg)
    signPartialAdaptor O ctx sk sn an T msg = .ok (SessionForger.partialSignature O' ctx sk sn r hb he) := by
  intro r hb he
  have hb1 : BuiltFrom O ctx keys ts := Adaptive.makeContext_some hctx
  have hb2 : BuiltFrom O' ctx keys ts := by
    obtain ⟨c, h1, h2⟩ := hb1
    exact ⟨c, (Adaptive.new_congr hcoef).trans h1, h2⟩
  have hm : mulG sk ∈ ctx.orderedPubkeys := by
    rw [hb1.keys]
    exact hP
  rw [SessionForger.partialSignature_eq hb2.reachable.inv hm, signPartialAdaptor_eq hb1.reachable.inv, if_pos hm]
  have hbc : an.nonceCoefficient O ctx.pubkey msg = reduceFrom hb := (C66_what_is_hashed O).2.2.1 _ _ _
  have hec : computeChallengeHashTweak O (xonly (r.nonce hb)) ctx.pubkey msg = reduceFrom he := by
    rw [(C66_what_is_hashed O).2.2.2.1, ← spec_xbytes]
    rfl
  unfold partialSigValue sessionE sessionRT sessionR
  rw [hbc, hb1.keys, ← hcoef _ hP]
  rw [reply_nonce] at hec ⊢
  rw [hec]
  rfl

/-- What the code knows of a session. -/
def toCode (s : Session) : CodeSession := (s.point, s.signed.map fun r => (r.group.ctx, r.message, (⟨r.aggnonce, s.point, r.message⟩ : Spec.Reply).nonce r.hb))

theorem verifySingle_iff {H H' : Hash} {Q : Point} {sig : CompactSignature} {msg : Bytes}
    (h : H (Spec.challengeQuery sig.rx.1 Q msg) = H' (Spec.challengeQuery sig.rx.1 Q msg)) :
    verifySingle H Q sig msg = .ok () ↔ verifySingle H' Q sig msg = .ok () := by
  have : computeChallengeHashTweak H sig.rx Q msg = computeChallengeHashTweak H' sig.rx Q msg := by
    rw [(C66_what_is_hashed H).2.2.2.1, (C66_what_is_hashed H').2.2.2.1]
    exact congrArg reduceFrom h
  rw [verifySingle_eq_ok, verifySingle_eq_ok, this]

theorem Right.ofEval {O : Hash} {p : Play Note k α} {log : Log Note} (h : Right O log) :
    Right O (Opener.eval O p log).2 :=
  (Right.eval p h).1

theorem eval_submission (O H : Hash) (sk : Scalar) (keys : List Point) (ts : List (Scalar × Bool)) (msg : Bytes) (sig : CompactSignature)
    (d : Adaptive.Data) (ss : List Session) {log : Log Note} (hl : Right O log) (s : ℕ → Arr 32) (sns : List SecNonce) :
    let r := eval O (submission H (mulG sk) keys ts msg sig d ss : Play Note k _) log
    Accepted H r ↔ AcceptedByCode O sk (.submit keys ts msg sig d) s (ss.map toCode) sns := by
  intro r
  have hr : r = eval O (submission H (mulG sk) keys ts msg sig d ss : Play Note k _) log := rfl
  clear_value r
  rw [submission, eval_bind] at hr
  rw [AcceptedByCode]
  set n : Note := ⟨d, ss.map (·.point)⟩
  have hl' := hl.ofEval (p := (makeGroup H (mulG sk) keys ts n : Play Note k _))
  by_cases hP : mulG sk ∈ keys
  · obtain ⟨O', n', hcoef, he⟩ := (eval_makeGroup (k := k) O H (mulG sk) keys ts n log).2 hP
    rw [he] at hr
    rcases hc : makeContext O keys ts with _ | ctx
    · rw [hc] at hr
      rw [hr]
      constructor
      · rintro ⟨o, ho, -⟩
        cases ho
      · rintro ⟨-, c, h, -⟩
        cases h
    · rw [hc] at hr
      dsimp only [Option.map_some] at hr
      obtain ⟨n1, log1, h1, h2, h3⟩ := eval_ask O (Spec.challengeQuery sig.rx.1 ctx.aggregatedPubkey msg)
        ⟨{ d with key := (⟨keys, ts, O', ctx, n'⟩ : Group).rep (mulG sk) }, ss.map (·.point)⟩
        (fun n he => (.done (some ⟨⟨keys, ts, O', ctx, n'⟩, msg, sig, n, he, ss⟩) : Play Note k (Option Outcome)))
        (eval O (makeGroup H (mulG sk) keys ts n : Play Note k _) log).2
      rw [h1] at hr
      rw [hr]
      have hv := verifySingle_iff (H := log1.hash H) (H' := O) (Q := ctx.aggregatedPubkey) (sig := sig) (msg := msg) ((h3 hl').hash h2)
      constructor
      · rintro ⟨o, ho, h4, h5⟩
        cases ho
        refine ⟨hP, ctx, rfl, fun e he c m R hm => ?_, hv.1 h5⟩
        obtain ⟨x, hx, rfl⟩ := List.mem_map.1 he
        obtain ⟨y, hy, hym⟩ := Option.map_eq_some_iff.1 hm
        cases hym
        exact h4 x hx y hy
      · rintro ⟨-, c, hcc, h4, h5⟩
        cases hcc
        refine ⟨_, rfl, fun x hx y hy => ?_, hv.2 h5⟩
        exact h4 (toCode x) (List.mem_map_of_mem hx) y.group.ctx y.message _ (by rw [toCode, hy]; rfl)
  · rw [(eval_makeGroup (k := k) O H (mulG sk) keys ts n log).1 hP] at hr
    rw [hr]
    constructor
    · rintro ⟨o, ho, -⟩
      cases ho
    · exact fun h => absurd h.1 hP

theorem eval_signature (O H : Hash) (sk : Scalar) (sn : SecNonce) (keys : List Point) (ts : List (Scalar × Bool)) (an : AggNonce) (T : MaybePoint)
    (msg : Bytes) (d : Adaptive.Data) (ss : List Session) (log : Log Note) :
    let r := (eval O (signature H sk sn keys ts ⟨an, T, msg⟩ d ss : Play Note k _) log).1
    (r = none ∧ ∀ ctx, makeContext O keys ts = some ctx → ∀ s, signPartialAdaptor O ctx sk sn an T msg ≠ .ok s) ∨
    ∃ x ctx, r = some x ∧ makeContext O keys ts = some ctx ∧ x.group.ctx = ctx ∧ x.message = msg ∧
      (⟨x.aggnonce, T, x.message⟩ : Spec.Reply).nonce x.hb = Spec.sessionNonce O ctx.aggregatedPubkey ⟨an, T, msg⟩ ∧
      signPartialAdaptor O ctx sk sn an T msg = .ok x.sig := by
  intro r
  have hr : r = (eval O (signature H sk sn keys ts ⟨an, T, msg⟩ d ss : Play Note k _) log).1 := rfl
  clear_value r
  rw [signature, eval_bind] at hr
  set n : Note := ⟨d, ss.map (·.point)⟩
  by_cases hP : mulG sk ∈ keys
  · obtain ⟨O', n', hcoef, he⟩ := (eval_makeGroup (k := k) O H (mulG sk) keys ts n log).2 hP
    rw [he] at hr
    rcases hc : makeContext O keys ts with _ | ctx
    · rw [hc] at hr
      exact .inl ⟨hr, fun ctx h => by cases h⟩
    · rw [hc] at hr
      dsimp only [Option.map_some] at hr
      obtain ⟨n1, log1, h1, -⟩ := eval_ask O (Spec.noncecoefQuery an ctx.aggregatedPubkey msg)
        ⟨{ d with combination := .zero, key := (⟨keys, ts, O', ctx, n'⟩ : Group).rep (mulG sk) }, ss.map (·.point)⟩
        (fun nb hb => (.ask (Spec.challengeQuery (Spec.xbytes ((⟨an, T, msg⟩ : Spec.Reply).nonce hb)) ctx.aggregatedPubkey msg)
          ⟨{ d with combination := .zero, key := (⟨keys, ts, O', ctx, n'⟩ : Group).rep (mulG sk) }, ss.map (·.point)⟩ fun _ he =>
          .done (some ⟨⟨keys, ts, O', ctx, n'⟩, an, msg, nb, hb, he, SessionForger.partialSignature O' ctx sk sn ⟨an, T, msg⟩ hb he⟩)
            : Play Note k (Option Signed)))
        (eval O (makeGroup H (mulG sk) keys ts n : Play Note k _) log).2
      rw [h1] at hr
      obtain ⟨n2, log2, h2, -⟩ := eval_ask O
        (Spec.challengeQuery (Spec.xbytes ((⟨an, T, msg⟩ : Spec.Reply).nonce (O (Spec.noncecoefQuery an ctx.aggregatedPubkey msg))))
          ctx.aggregatedPubkey msg)
        ⟨{ d with combination := .zero, key := (⟨keys, ts, O', ctx, n'⟩ : Group).rep (mulG sk) }, ss.map (·.point)⟩
        (fun _ he => (.done (some ⟨⟨keys, ts, O', ctx, n'⟩, an, msg, n1, O (Spec.noncecoefQuery an ctx.aggregatedPubkey msg), he,
          SessionForger.partialSignature O' ctx sk sn ⟨an, T, msg⟩ (O (Spec.noncecoefQuery an ctx.aggregatedPubkey msg)) he⟩)
            : Play Note k (Option Signed))) log1
      rw [h2] at hr
      exact .inr ⟨_, ctx, hr, rfl, rfl, rfl, rfl, signPartial_code hP hcoef hc sn an T msg⟩
  · rw [(eval_makeGroup (k := k) O H (mulG sk) keys ts n log).1 hP] at hr
    refine .inl ⟨hr, fun ctx h s => ?_⟩
    have hb := Adaptive.makeContext_some h
    rw [signPartialAdaptor_eq hb.reachable.inv, if_neg (by rw [hb.keys]; exact hP)]
    intro hs
    cases hs

theorem record_right {O : Hash} {log : Log Note} (h : Right O log) (x : Bytes) (n : Note) : Right O (record log x n (O x)) := by
  unfold record
  split
  · exact h
  · exact h.add x n

theorem eval_game (k : ℕ) (O H : Hash) (sk : Scalar) (A : Opener) (ss : List Session) (sns : List SecNonce) (log : Log Note) (hl : Right O log)
    (s : ℕ → Arr 32) :
    ∃ pn r, (∀ V, ((play V k H sk A ss sns log).library H s).eval O = V pn r) ∧
      (Accepted H r ↔ AcceptedByCode O sk A s (ss.map toCode) sns) := by
  induction A generalizing ss sns log s with
  | submit keys tweaks msg sig d =>
    refine ⟨fun i => (nonceOf sns i).publicNonce, _, fun V => ?_, eval_submission (k := k) O H sk keys tweaks msg sig d ss hl s sns⟩
    rw [play, eval_hashes]
    rfl
  | ask x d next ih =>
    rw [AcceptedByCode]
    obtain ⟨pn, r, h1, h2⟩ := ih (O x) ss sns (if Drawn x then record log x ⟨d, ss.map (·.point)⟩ (O x) else log) (by
      split_ifs
      · exact record_right hl x _
      · exact hl) s
    exact ⟨pn, r, fun V => by rw [play, NonceUser.library, Asker.eval, h1], h2⟩
  | start T b next ih =>
    obtain ⟨pn, r, h1, h2⟩ := ih ((Spec.seeded (b sk) (s 0)).build O).publicNonce (ss ++ [⟨T, none⟩])
      (sns ++ [(Spec.seeded (b sk) (s 0)).build O]) log hl (fun i => s (i + 1))
    rw [List.map_append] at h2
    exact ⟨pn, r, fun V => by rw [play, NonceUser.library, eval_build, h1], h2⟩
  | sign i keys tweaks an msg d next ih =>
    rw [AcceptedByCode, List.getElem?_map]
    rcases hi : ss[i]? with _ | ⟨T, _ | x⟩
    · obtain ⟨pn, r, h1, h2⟩ := ih 0 ss sns log hl s
      exact ⟨pn, r, fun V => by rw [play, hi]; exact h1 V, h2⟩
    · dsimp only [Option.map_some, toCode, Option.map_none]
      have hl' := hl.ofEval (p := (signature (k := k) H sk (nonceOf sns i) keys tweaks ⟨an, T, msg⟩ d ss))
      rcases eval_signature (k := k) O H sk (nonceOf sns i) keys tweaks an T msg d ss log with ⟨h1, h2⟩ | ⟨x, ctx, h1, h2, h3, h4, h4', h5⟩
      · obtain ⟨pn, r, h3, h4⟩ := ih 0 ss sns _ hl' s
        refine ⟨pn, r, fun V => ?_, ?_⟩
        · rw [play, hi]
          dsimp only
          rw [eval_hashes, h1]
          exact h3 V
        · rcases hc : makeContext O keys tweaks with _ | ctx
          · exact h4
          · dsimp only
            have h5 := h2 ctx hc
            revert h5
            rcases signPartialAdaptor O ctx sk (nonceOf sns i) an T msg with sig | e | _
            · exact fun h5 => absurd rfl (h5 sig)
            · exact fun _ => h4
            · exact fun _ => h4
      · obtain ⟨pn, r, h6, h7⟩ := ih x.sig (ss.set i ⟨T, some x⟩) sns _ hl' s
        refine ⟨pn, r, fun V => ?_, ?_⟩
        · rw [play, hi]
          dsimp only
          rw [eval_hashes, h1]
          exact h6 V
        · rw [h2]
          dsimp only
          rw [h5, h7, List.map_set, show toCode ⟨T, some x⟩ = (T, some (ctx, msg, Spec.sessionNonce O ctx.aggregatedPubkey ⟨an, T, msg⟩)) by
            rw [← h4', ← h3, ← h4]; rfl]
    · obtain ⟨pn, r, h1, h2⟩ := ih 0 ss sns log hl s
      exact ⟨pn, r, fun V => by rw [play, hi]; exact h1 V, h2⟩

/-! ## What is drawn does not depend on the verdict -/

/-- The same strings are asked for. -/
inductive Same : Asker Prop → Asker Prop → Prop where
  | done (v v' : Prop) : Same (.done v) (.done v')
  | ask (x : Bytes) (next next' : Arr 32 → Asker Prop) (h : ∀ a, Same (next a) (next' a)) : Same (.ask x next) (.ask x next')

theorem Same.run {D : Bytes → Prop} [DecidablePred D] (H : Hash) (ω : ℕ → Arr 32) {p p' : Asker Prop} (h : Same p p') (log : Forger.Log) :
    (p.run D H ω log).2 = (p'.run D H ω log).2 := by
  induction h generalizing log with
  | done v v' => rfl
  | ask x next next' h ih =>
    rw [Asker.run, Asker.run]
    split_ifs
    · split
      · exact ih _ _
      · exact ih _ _
    · exact ih _ _

theorem same_hashes (H : Hash) (s : ℕ → Arr 32) (p : Play Note k α) {f f' : α → Log Note → NonceUser}
    (h : ∀ a log, Same ((f a log).library H s) ((f' a log).library H s)) (log : Log Note) :
    Same ((hashes p log f).library H s) ((hashes p log f').library H s) := by
  induction p generalizing log with
  | done a => exact h a log
  | ask x n next ih =>
    rw [hashes, hashes, NonceUser.library, NonceUser.library]
    refine .ask _ _ _ fun a => ?_
    rcases log.find x with _ | e
    · exact ih _ _ _
    · exact ih _ _ _
  | dlog c next ih => exact ih 0 log

theorem same_play (V V' : (ℕ → PubNonce) → Option Outcome × Log Note → Prop) (k : ℕ) (H : Hash) (sk : Scalar) (A : Opener) (ss : List Session)
    (sns : List SecNonce) (log : Log Note) (s : ℕ → Arr 32) :
    Same ((play V k H sk A ss sns log).library H s) ((play V' k H sk A ss sns log).library H s) := by
  induction A generalizing ss sns log s with
  | submit keys tweaks msg sig d =>
    rw [play, play]
    refine same_hashes H s _ (fun a log => ?_) _
    exact .done _ _
  | ask x d next ih =>
    rw [play, play, NonceUser.library, NonceUser.library]
    exact .ask _ _ _ fun a => ih _ _ _ _ _
  | start T b next ih =>
    rw [play, play, NonceUser.library, NonceUser.library]
    exact .ask _ _ _ fun a => .ask _ _ _ fun h => .ask _ _ _ fun h' => ih _ _ _ _ _
  | sign i keys tweaks an msg d next ih =>
    rw [play, play]
    split
    · refine same_hashes H s _ (fun a log => ?_) _
      rcases a with _ | r
      · exact ih _ _ _ _ _
      · exact ih _ _ _ _ _
    · exact ih _ _ _ _ _

/-- The game is one against the code. -/
theorem play_code {k m : ℕ} (H : Hash) (A : Opener) (p : Scalar × (Fin k → Arr 32) × (Fin m → Arr 32)) :
    ∃ pn r, (∀ V, (play V k H p.1 A [] [] []).OnLibrary Drawn H p.2 ↔ V pn r) ∧
      (Accepted H r ↔ AcceptedByCode (drawnHash H A p) p.1 A (Outsider.extend zeroSeed p.2.1) [] []) := by
  obtain ⟨pn, r, h1, h2⟩ := eval_game k (drawnHash H A p) H p.1 A [] [] [] (fun e he => by cases he) (Outsider.extend zeroSeed p.2.1)
  refine ⟨pn, r, fun V => ?_, h2⟩
  rw [← h1 V]
  unfold NonceUser.OnLibrary drawnHash
  rw [Asker.run_eval H _ _ (by simp [Asker.Distinct]) (by simp), (same_play V (Wins H (mulG p.1)) k H p.1 A [] [] [] _).run H _ []]

end Opener

end Verif
