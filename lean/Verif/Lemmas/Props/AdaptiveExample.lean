import Verif.Lemmas.Props.AdaptiveSolver

/-!
# Lemmas for `Props/Adaptive`: the example
-/

namespace Verif.Adaptive

open Concurrent
open Forger (answers)

/-- What the forger of the example says: the nonce is `G`, and the aggregated key is `c·P`. -/
def exData (c : MaybeScalar) : Data := ⟨gCombination, (0, c), fun _ => (0, 0)⟩

/-- A forger that has been told the secret key. It asks for the coefficient `c` of `P` in the group of `P` alone and for the
challenge of the empty message, takes part in a session of the group about the message `m`, and submits a signature of the empty
message with the nonce `G`. -/
noncomputable def exAdversary (sk : Scalar) (an : AggNonce) (m : Bytes) : Adversary :=
  .ask (Spec.listQuery [mulG sk]) (exData 0) fun h =>
    .ask (Spec.coefString h (mulG sk)) (exData 0) fun c =>
      match notInf (reduceFrom c • (mulG sk).1) with
      | none => .submit [] [] [] ⟨xonly G, 0⟩ (exData 0)
      | some Q => .ask (Spec.challengeQuery (xonly G).1 Q []) (exData (reduceFrom c)) fun e =>
          .start 0 fun _ => .sign 0 [mulG sk] [] an m (exData 0) fun _ =>
            .submit [mulG sk] [] [] ⟨xonly G, 1 + reduceFrom e * (Spec.sgn Q.1 * (reduceFrom c * sk.1))⟩ (exData 0)

theorem exAdversary_asks (sk : Scalar) (an : AggNonce) (m : Bytes) : (exAdversary sk an m).AsksAtMost 10 1 := by
  refine .ask 9 1 _ _ _ fun h => .ask 8 1 _ _ _ fun c => ?_
  split
  · exact .submit 6 1 [] _ _ _ _
  · exact .ask 7 1 _ _ _ fun e => .start 7 0 _ _ fun _ => .sign 3 0 _ [mulG sk] _ _ _ _ _ fun _ => .submit 0 0 [mulG sk] _ _ _ _

/-- A group with one key, when its hashes are known. -/
theorem run_single {k : ℕ} (y : Unknown k → MaybeScalar) (ω : ℕ → Arr 32) {H : Hash} (hH : TagsAgree H) {P Q : Point}
    {log : Log Note} (hd : Distinct log) {n n' : Note} {h c : Arr 32} (hl : (Spec.listQuery [P], n, h) ∈ log)
    (hc : (Spec.coefString h P, n', c) ∈ log) (hQ : Q.1 = reduceFrom c • P.1) (nn : Note) : ∃ g : Group,
      (makeGroup H P [P] [] nn : Play Note k _).run y ω log = (some g, log) ∧ g.keys = [P] ∧
        g.ctx.aggregatedPubkey = Q ∧ g.rep P = (0, reduceFrom c) := by
  set H1 := (H.answering (Spec.listQuery [P]) h).answering (Spec.coefString h P) c with hH1
  have ht : TagsAgree H1 :=
    tagsAgree_answering (tagsAgree_answering hH (drawn_list _).length h) (drawn_coef h P).length c
  have h1 : H1 (Spec.listQuery [P]) = h := by
    rw [hH1, Hash.answering_of_ne _ _ (listQuery_ne_coefString _ _ _), Hash.answering_same]
  have h2 : coeffOf H1 [P] P = reduceFrom c := by
    rw [GroupForger.coeffOf_of_ne (by simp [secondKey])]
    change reduceFrom (H1 (Spec.coefString (H1 (Spec.listQuery [P])) P)) = _
    rw [h1, hH1, Hash.answering_same]
  have h3 : KeyAggContext.new H1 [P] = .ok (baseCtx H1 [P] Q) := by
    refine new_eq_ok.2 ⟨by simp, by simp [u32Max], Q, ?_, rfl⟩
    unfold keySum
    simp [h2, hQ]
  have h4 : makeContext H1 [P] [] = some (baseCtx H1 [P] Q) := by
    unfold makeContext
    rw [h3]
    rfl
  refine ⟨⟨[P], [], H1, baseCtx H1 [P] Q, n⟩, ?_, rfl, rfl, ?_⟩
  · unfold makeGroup
    rw [if_pos (List.mem_singleton.2 rfl), Play.run, (find_some hd).2 hl]
    simp only
    rw [askCoefs, Play.bind, Play.run, (find_some hd).2 hc]
    simp only
    rw [askCoefs, Play.bind, Play.run, ← hH1, h4]
    rfl
  · have e1 : Spec.weighted H1 [P] (Note.alpha P n) = 0 := by
      simp [Spec.weighted, Note.alpha]
    have e2 : Spec.weighted H1 [P] (Note.beta P n) = reduceFrom c := by
      simp [Spec.weighted, Note.beta, keyCoeff_eq ht, h2]
    unfold Group.rep Group.known publicOf
    simp only
    change ((if false = true then -1 else 1) * Spec.weighted H1 [P] (Note.alpha P n) + 0,
      (if false = true then -1 else 1) * Spec.weighted H1 [P] (Note.beta P n)) = _
    rw [e1, e2]
    simp

theorem right_single {P : Point} {g : Group} (h : g.keys = [P]) : g.Right P := by
  intro K hK
  rw [h, List.mem_singleton] at hK
  rw [hK]
  simp [Note.alpha, Note.beta]

theorem two_G_ne_zero : (2 : MaybeScalar) • G ≠ 0 := smul_ne_zero two_ne_zero_scalar Gpt.2

theorem xonly_two_G : xonly ((2 : MaybeScalar) • G) ≠ xonly G := by
  intro h
  rcases xonly_eq_iff.1 h with h | h
  · have : (1 : MaybeScalar) • G = 0 := by
      rw [show (1 : MaybeScalar) = 2 - 1 by norm_num, sub_smul, h, one_smul, sub_self]
    exact smul_ne_zero one_ne_zero Gpt.2 this
  · have : (3 : MaybeScalar) • G = 0 := by
      rw [show (3 : MaybeScalar) = 2 + 1 by norm_num, add_smul, h, one_smul, neg_add_cancel]
    exact smul_ne_zero (by decide +kernel) Gpt.2 this

/-- The forgery is of the empty message, and the sessions are about `m`. -/
def ExShape (m : Bytes) : Option Outcome × Log Note → Prop
  | (none, _) => True
  | (some out, _) => out.msg = [] ∧ ∀ s ∈ out.sessions, ∀ r, s.signed = some r → r.message = m

/-- The forger wins so. -/
def WinsEx (H : Hash) (P : Point) (pn : ℕ → PubNonce) (m : Bytes) (X : Option Outcome × Log Note) : Prop := Wins H P pn X ∧ ExShape m X

theorem exAdversary_run {H : Hash} (hH : TagsAgree H) (sk : Scalar) (sn : ℕ → SecNonce) (an : AggNonce) (m : Bytes)
    (hm : m = [] → an.R1 ≠ 0 ∧ an.R2 = 0 ∧ xonly an.R1 ≠ xonly G) {N : ℕ} (ω : Fin N → Arr 32) (hω : reduceFrom (answers ω 1) ≠ 0) : WinsEx H (mulG sk) (fun i => (sn i).publicNonce) m
      ((signerGame 1 H sk sn (exAdversary sk an m)).run (secrets 1 sk sn) (answers ω) []) := by
  unfold signerGame exAdversary
  set P := mulG sk with hP
  set pn := fun i => (sn i).publicNonce with hpn
  set y := secrets 1 sk sn with hy
  set h := answers ω 0 with hh
  set c := answers ω 1 with hc
  set e := answers ω 2 with he
  have hQ0 : reduceFrom c • P.1 ≠ 0 := smul_ne_zero hω P.2
  set Q : Point := ⟨reduceFrom c • P.1, hQ0⟩ with hQ
  have hnot : notInf (reduceFrom c • P.1) = some Q := notInf_eq_some.2 rfl
  set n0 : Note := ⟨exData 0, []⟩ with hn0
  set n1 : Note := ⟨exData (reduceFrom c), []⟩ with hn1
  have l1 : Log.find ([] : Log Note) (Spec.listQuery [P]) = none := rfl
  have l2 : Log.find [(Spec.listQuery [P], n0, h)] (Spec.coefString h P) = none := by
    rw [find_none]
    simp only [List.map_cons, List.map_nil, List.mem_singleton]
    exact (listQuery_ne_coefString _ _ _).symm
  have l3 : Log.find [(Spec.listQuery [P], n0, h), (Spec.coefString h P, n0, c)] (Spec.challengeQuery (xonly G).1 Q []) = none := by
    rw [find_none]
    simp only [List.map_cons, List.map_nil, List.mem_cons, List.not_mem_nil, or_false, not_or]
    exact ⟨C66_domain_separation _ _ (by decide +kernel) (by decide +kernel) (by decide) _ _,
      C66_domain_separation _ _ (by decide +kernel) (by decide +kernel) (by decide) _ _⟩
  rw [game, if_pos (drawn_list _), Play.run, show Log.find [] _ = none from l1]
  simp only [List.length_nil, List.nil_append, List.map_nil]
  rw [game, if_pos (drawn_coef _ _), Play.run, show Log.find _ _ = none from l2]
  simp only [List.length_singleton, List.map_nil, List.singleton_append]
  change WinsEx H P pn m (Play.run y (answers ω) (game H P pn _ (match notInf (reduceFrom c • P.1) with | none => _ | some Q => _) []) _)
  rw [hnot]
  simp only
  rw [game, if_pos (drawn_challenge _ _ _), Play.run, show Log.find _ _ = none from l3]
  simp only [List.length_cons, List.length_nil, List.map_nil]
  set log : Log Note := [(Spec.listQuery [P], n0, h), (Spec.coefString h P, n0, c), (Spec.challengeQuery (xonly G).1 Q [], n1, e)]
    with hlog
  have hd : Distinct log := by
    have := (gameInv_nil P fun _ _ _ _ _ => 0).distinct
    exact ((this.append l1 n0 h).append l2 n0 c).append l3 n1 e
  have m1 : (Spec.listQuery [P], n0, h) ∈ log := by simp [hlog]
  have m2 : (Spec.coefString h P, n0, c) ∈ log := by simp [hlog]
  have m3 : (Spec.challengeQuery (xonly G).1 Q [], n1, e) ∈ log := by simp [hlog]
  change WinsEx H P pn m (Play.run y (answers ω) (game H P pn _ (.start 0 _) []) log)
  rw [game, game]
  simp only [List.nil_append, List.getElem?_cons_zero]
  rw [run_bind]
  obtain ⟨g, hr, hgk, hgc, hgr⟩ := run_single y (answers ω) hH hd m1 m2 (Q := Q) rfl ⟨exData 0, [(⟨0, none⟩ : Session)].map (·.point)⟩
  rw [hr]
  simp only
  have l4 : Log.find log (Spec.noncecoefQuery an g.ctx.aggregatedPubkey m) = none := by
    rw [find_none]
    simp only [hlog, List.map_cons, List.map_nil, List.mem_cons, List.not_mem_nil, or_false, not_or]
    exact ⟨C66_domain_separation _ _ (by decide +kernel) (by decide +kernel) (by decide) _ _,
      (coefString_ne_noncecoefQuery _ _ _ _ _).symm,
      C66_domain_separation _ _ (by decide +kernel) (by decide +kernel) (by decide) _ _⟩
  rw [Play.run, l4]
  simp only
  set hb := answers ω log.length with hhb
  set n2 : Note := ⟨{ exData 0 with combination := .zero, key := g.rep P }, [(⟨0, none⟩ : Session)].map (·.point)⟩ with hn2
  have hd' := hd.append l4 n2 hb
  obtain ⟨n3, he', log', hx, -, hr'⟩ := run_ask_ext y (answers ω) hd'
    (drawn_challenge (Spec.xbytes ((⟨an, 0, m⟩ : Spec.Reply).nonce hb)) g.ctx.aggregatedPubkey m) n2
  rw [hr']
  simp only [Play.bind, List.set_cons_zero]
  rw [game, run_bind]
  obtain ⟨g', hr2, hgk', hgc', hgr'⟩ := run_single y (answers ω) hH hx.distinct (hx.sub _ (List.mem_append_left _ m1))
    (hx.sub _ (List.mem_append_left _ m2)) (Q := Q) rfl ⟨exData 0, [(0 : MaybePoint)]⟩
  simp only [List.map_cons, List.map_nil]
  rw [hr2]
  simp only
  have m3' := hx.sub _ (List.mem_append_left _ m3)
  rw [Play.run, hgc', (find_some hx.distinct).2 m3']
  simp only
  rw [Play.run]
  have hkey : ∀ z : MaybeScalar, (0 : MaybeScalar) • G + z • P.1 = z • P.1 := fun z => by rw [zero_smul, zero_add]
  refine ⟨⟨?_, ?_, ?_, right_single hgk', ?_, ?_⟩, rfl, ?_⟩
  · intro s hs r hr
    rw [List.mem_singleton] at hs
    rw [hs] at hr
    rw [← Option.some.inj hr]
    intro h
    obtain ⟨h1, h2, h3⟩ := hm h.1
    refine h3 (Subtype.ext ?_)
    have := h.2.2
    rw [spec_xbytes] at this
    simpa [Spec.Reply.nonce, h1, h2, hs] using this
  · refine verifySingle_eq_ok.2 ⟨Gpt, ?_, isOdd_G, rfl⟩
    have := hash_challenge (H := H) hx.distinct m3'
    simp only [hgc'] at this ⊢
    rw [this, CmaForger.toEvenY_sgn, add_smul, one_smul, mul_smul, mul_smul, mul_smul]
    rfl
  · simp only [hn1, exData, Note.nonce, Concurrent.Note.value, gCombination, Concurrent.Note.coef, List.map_nil, List.length_nil,
      Finset.range_zero, Finset.sum_empty, one_smul, zero_smul, add_zero]
  · simp only [hgc', hn1, Note.keyPoint, exData]
    rw [hkey]
  · intro s hs r hr
    rw [List.mem_singleton] at hs
    rw [hs] at hr
    rw [← Option.some.inj hr]
    refine ⟨right_single hgk, ?_⟩
    simp only [hn2, Note.keyPoint, hgr, hgc]
    rw [hkey]
  · intro s hs r hr
    rw [List.mem_singleton] at hs
    rw [hs] at hr
    rw [← Option.some.inj hr]

theorem exAdversary_forges {H : Hash} (hH : TagsAgree H) (sk : Scalar) (sn : ℕ → SecNonce) (an : AggNonce) (m : Bytes)
    (hm : m = [] → an.R1 ≠ 0 ∧ an.R2 = 0 ∧ xonly an.R1 ≠ xonly G) {N : ℕ} (ω : Fin N → Arr 32) (hω : reduceFrom (answers ω 1) ≠ 0) :
    Forges 1 H sk sn (exAdversary sk an m) ω :=
  (exAdversary_run hH sk sn an m hm ω hω).1

theorem chance_reduce_zero : (Spec.chance fun ω : Fin 10 → Arr 32 => reduceFrom (answers ω 1) = 0) ≤ 2 / 2 ^ 256 := by
  have hpos : 0 < Nat.card (Arr 32) := by
    have : Nonempty (Arr 32) := ⟨zeroSeed⟩
    exact Nat.card_pos
  have h := CmaForger.chance_update (Ω := Arr 32) (1 : Fin 10) (fun ω => reduceFrom (answers ω 1) = 0) 2 hpos fun τ => by
    refine (Set.ncard_le_ncard (fun t ht => ?_) (Set.toFinite _)).trans (ncard_mod_le 0)
    change beNat t.1 % orderN = 0
    have ht : reduceFrom (answers (Function.update τ 1 t) 1) = 0 := ht
    rw [← reduceFrom_val]
    have e : answers (Function.update τ 1 t) 1 = t := by
      simp [answers]
    rw [e] at ht
    rw [ht]
    exact ZMod.val_zero
  rw [arr_card] at h
  refine h.trans (le_of_eq ?_)
  norm_num

end Verif.Adaptive
