import Verif.Lemmas.Props.Concurrent

/-!
# Lemmas for `Props/Concurrent`: the solver
-/

namespace Verif.Concurrent

open Forger (Drawn answers)
open Asking (DrawnNonce)

section
variable (Q : ℕ → Point)

open Classical in
/-- The group that a string which is hashed to a challenge belongs to. -/
noncomputable def groupOf (x : Bytes) : ℕ :=
  if h : ∃ p : Arr 32 × ℕ × Bytes, x = Spec.challengeQuery p.1.1 (Q p.2.1) p.2.2 then h.choose.2.1 else 0

theorem groupOf_query (rx : Arr 32) (g : ℕ) (msg : Bytes) :
    Spec.xbytes (Q (groupOf Q (Spec.challengeQuery rx.1 (Q g) msg))).1 = Spec.xbytes (Q g).1 := by
  have h : ∃ p : Arr 32 × ℕ × Bytes, Spec.challengeQuery rx.1 (Q g) msg = Spec.challengeQuery p.1.1 (Q p.2.1) p.2.2 :=
    ⟨(rx, g, msg), rfl⟩
  obtain ⟨-, h2, -⟩ := C66_inputs_determined.1 _ _ _ _ _ _ h.choose_spec
  unfold groupOf
  rw [dif_pos h, spec_xbytes, spec_xbytes, xonly_eq_iff.2 h2]

open Classical in
/-- The group that a string which is hashed to a nonce coefficient belongs to. -/
noncomputable def nonceGroup (x : Bytes) : ℕ :=
  if h : ∃ p : AggNonce × ℕ × Bytes, x = Spec.noncecoefQuery p.1 (Q p.2.1) p.2.2 then h.choose.2.1 else 0

theorem nonceGroup_query (an : AggNonce) (g : ℕ) (msg : Bytes) :
    Spec.xbytes (Q (nonceGroup Q (Spec.noncecoefQuery an (Q g) msg))).1 = Spec.xbytes (Q g).1 := by
  have h : ∃ p : AggNonce × ℕ × Bytes, Spec.noncecoefQuery an (Q g) msg = Spec.noncecoefQuery p.1 (Q p.2.1) p.2.2 :=
    ⟨(an, g, msg), rfl⟩
  obtain ⟨-, h2, -⟩ := C66_inputs_determined.2.1 _ _ _ _ _ _ h.choose_spec
  unfold nonceGroup
  rw [dif_pos h, spec_xbytes, spec_xbytes, xonly_eq_iff.2 h2]

end

/-- The answers that must not be drawn in the game with the groups of `pub`. -/
noncomputable def gameBad (pub : Public) (pn : ℕ → PubNonce) (k : ℕ) : Log Note → Bytes → Note → Finset MaybeScalar :=
  badSet id pub.P pn
    (fun x _ => let g := groupOf (fun g => (pub.ctx g).aggregatedPubkey) x
      Spec.sgn (pub.ctx g).aggregatedPubkey.1 * pub.B g)
    (fun _ x _ => let g := nonceGroup (fun g => (pub.ctx g).aggregatedPubkey) x
      pub.a g * Spec.keySign (pub.ctx g)) k

theorem signatureRow_sum {k : ℕ} (pub : Public) {i : ℕ} (hi : i < k) (g : ℕ) (r : Spec.Reply) (hb he : Arr 32)
    (v : Unknown k → MaybeScalar) :
    ∑ j, signatureRow k pub i g r hb he j * v j
      = nonceSign r hb * reduceFrom he * (pub.a g * Spec.keySign (pub.ctx g)) * v none
        + (v (some (⟨i, hi⟩, false)) + reduceFrom hb * v (some (⟨i, hi⟩, true))) := by
  rw [sum_unknown]
  congr 1
  rw [Finset.sum_eq_single (⟨i, hi⟩ : Fin k)]
  · simp only [signatureRow, if_true]
    ring
  · intro j _ hj
    have : j.1 ≠ i := fun h => hj (Fin.ext h)
    simp only [signatureRow, if_neg this, zero_mul, add_zero]
  · intro h
    exact absurd (Finset.mem_univ _) h

/-- The solver plays the same game as the signer. -/
theorem run_solver_game {K : ℕ} {α : Type} (H : Hash) (Q : ℕ → Point) (pn : ℕ → PubNonce) (pub : Public)
    (σ : ℕ → ℕ → Spec.Reply → Arr 32 → Arr 32 → MaybeScalar) (y : Unknown K → MaybeScalar) (ω : ℕ → Arr 32)
    (hσ : ∀ i < K, ∀ g r hb he, σ i g r hb he = nonceSign r hb * ∑ j, signatureRow K pub i g r hb he j * y j)
    (submit : Outcome → Play Note K α) {A : Adversary} {q k : ℕ} (hA : A.AsksAtMost q k) (ss : List Session)
    (hK : ss.length + k ≤ K) (log : Log Note) :
    (game H Q pn (fun i g r hb he next => .dlog (signatureRow K pub i g r hb he) fun z => next (nonceSign r hb * z)) submit A ss).run
        y ω log
      = (submit ((game H Q pn (direct σ) (.done : Outcome → Play Note K Outcome) A ss).run y ω log).1).run y ω
        ((game H Q pn (direct σ) (.done : Outcome → Play Note K Outcome) A ss).run y ω log).2 := by
  induction hA generalizing ss log with
  | submit q k g msg sig c =>
    rw [game, game, Play.run, Play.run]
    cases hf : log.find (Spec.challengeQuery sig.rx.1 (Q g) msg) <;> simp only [Play.run]
  | ask q k x c next h ih =>
    rw [game, game]
    split_ifs
    · rw [Play.run, Play.run]
      cases hf : log.find x <;> simp only <;> exact ih _ ss hK _
    · exact ih _ ss hK _
  | other q k x c next hx h ih =>
    rw [game, game, if_neg hx, if_neg hx]
    exact ih _ ss hK _
  | start q k T next h ih =>
    rw [game, game]
    exact ih _ _ (by rw [List.length_append, List.length_singleton]; omega) _
  | sign q k i g an msg next h ih =>
    rw [game, game]
    split
    · rename_i T hss
      have hi : i < K := by
        have := (List.getElem?_eq_some_iff.1 hss).1
        omega
      have step : ∀ hb he log,
          (Play.dlog (signatureRow K pub i g ⟨an, T, msg⟩ hb he) fun z =>
            game H Q pn (fun i g r hb he next => .dlog (signatureRow K pub i g r hb he) fun z => next (nonceSign r hb * z)) submit
              (next (nonceSign ⟨an, T, msg⟩ hb * z))
              (ss.set i ⟨T, some ⟨g, an, msg, hb, he, nonceSign ⟨an, T, msg⟩ hb * z⟩⟩)).run y ω log
          = (submit ((game H Q pn (direct σ) (.done : Outcome → Play Note K Outcome) (next (σ i g ⟨an, T, msg⟩ hb he))
              (ss.set i ⟨T, some ⟨g, an, msg, hb, he, σ i g ⟨an, T, msg⟩ hb he⟩⟩)).run y ω log).1).run y ω
            ((game H Q pn (direct σ) (.done : Outcome → Play Note K Outcome) (next (σ i g ⟨an, T, msg⟩ hb he))
              (ss.set i ⟨T, some ⟨g, an, msg, hb, he, σ i g ⟨an, T, msg⟩ hb he⟩⟩)).run y ω log).2 := by
        intro hb he log
        rw [Play.run, ← hσ i hi]
        exact ih _ _ (by rw [List.length_set]; exact hK) _
      exact run_ask_map (fun o => (submit o.1).run y ω o.2) (fun _ hb log =>
        run_ask_map (fun o => (submit o.1).run y ω o.2) (fun _ he log => step hb he log) log) log
    · exact ih 0 ss hK _

/-! ## The linear system -/

theorem outcome_signatureRow {k : ℕ} {pub : Public} {out : Outcome} {i : ℕ} {e : Equation k}
    (h : out.signatureRow k pub i = some e) : ∃ T r, out.sessions[i]? = some ⟨T, some r⟩ ∧
      e = (Concurrent.signatureRow k pub i r.group ⟨r.aggnonce, T, r.message⟩ r.hb r.he, nonceSign ⟨r.aggnonce, T, r.message⟩ r.hb * r.sig) := by
  unfold Outcome.signatureRow at h
  split at h
  · rename_i T r hs
    exact ⟨T, r, hs, (Option.some.inj h).symm⟩
  · cases h

theorem outcome_signatureRow_isSome {k : ℕ} {pub : Public} {out : Outcome} {i : ℕ} :
    (out.signatureRow k pub i).isSome = true ↔ IsSigned out.sessions i := by
  unfold Outcome.signatureRow IsSigned
  split
  · rename_i T r hs
    simp only [Option.isSome_some, true_iff]
    exact ⟨T, r, hs⟩
  · rename_i hs
    simp only [Option.isSome_none, Bool.false_eq_true, false_iff]
    rintro ⟨T, r, h⟩
    exact hs T r h

theorem row_shape {k : ℕ} (pub : Public) (out : Outcome) : RowShape (out.signatureRow k pub) := by
  intro i e h v
  obtain ⟨T, r, -, rfl⟩ := outcome_signatureRow h
  rw [signatureRow_sum pub i.2]
  simp only [signatureRow, if_true]

/-! ## Numbers of discrete logarithms -/

theorem dlogs_finish (k : ℕ) (pub : Public) (pn : ℕ → PubNonce) (out : Outcome) :
    (finish k pub pn out).DlogsAtMost (2 * k - signedCount k out.sessions) := by
  classical
  have h := dlogs_solve (ν := Note) (out.signatureRow k pub) [(out.forgedRow k pub pn, out.forgedValue pub pn)]
  have e : (Finset.univ.filter fun i : Fin k => (out.signatureRow k pub i).isSome).card = signedCount k out.sessions := by
    unfold signedCount
    simp only [outcome_signatureRow_isSome]
  rwa [e] at h

theorem dlogs_game {K : ℕ} {α : Type} (H : Hash) (Q : ℕ → Point) (pn : ℕ → PubNonce)
    (f : ℕ → ℕ → Spec.Reply → Arr 32 → Arr 32 → Unknown K → MaybeScalar)
    (g : ℕ → ℕ → Spec.Reply → Arr 32 → Arr 32 → MaybeScalar → MaybeScalar) (submit : Outcome → Play Note K α)
    (hsub : ∀ out, (submit out).DlogsAtMost (2 * K - signedCount K out.sessions)) {A : Adversary} {q k : ℕ}
    (hA : A.AsksAtMost q k) (ss : List Session) (hK : ss.length + k ≤ K) :
    (game H Q pn (fun i c r hb he next => .dlog (f i c r hb he) fun z => next (g i c r hb he z)) submit A ss).DlogsAtMost
      (2 * K - signedCount K ss) := by
  induction hA generalizing ss with
  | submit q k c msg sig _ =>
    rw [game]
    exact fun n he => hsub ⟨c, msg, sig, n, he, ss⟩
  | ask q k x c next h ih =>
    rw [game]
    split_ifs
    · exact fun _ a => ih a ss hK
    · exact ih _ ss hK
  | other q k x c next hx h ih =>
    rw [game, if_neg hx]
    exact ih _ ss hK
  | start q k T next h ih =>
    rw [game, ← signedCount_start K ss T]
    exact ih _ _ (by rw [List.length_append, List.length_singleton]; omega)
  | sign q k i c an msg next h ih =>
    rw [game]
    split
    · rename_i T hss
      have hlen := (List.getElem?_eq_some_iff.1 hss).1
      have hc := fun r => signedCount_sign (K := K) hss (by omega) r
      have hle := signedCount_le K (ss.set i ⟨T, some ⟨c, an, msg, zeroSeed, zeroSeed, 0⟩⟩)
      rw [hc] at hle
      intro _ hb _ he
      refine ⟨2 * K - (signedCount K ss + 1), by omega, fun z => ?_⟩
      have := ih (g i c ⟨an, T, msg⟩ hb he z) (ss.set i ⟨T, some ⟨c, an, msg, hb, he, g i c ⟨an, T, msg⟩ hb he z⟩⟩)
        (by rw [List.length_set]; exact hK)
      rw [hc] at this
      exact this
    · exact ih 0 ss hK

/-! ## The game against the signer -/

section
variable {H : Hash} {ctx : ℕ → KeyAggContext} {sk : Scalar} {sn : ℕ → SecNonce} {a : ℕ → MaybeScalar} {α β : Point → MaybeScalar}

theorem publicOf_key (hH : TagsAgree H) (g : ℕ) (hc : Reachable H (ctx g)) (P : Point)
    (hrep : ∀ K ∈ (ctx g).pubkeys, K.1 = α K • G + β K • P.1) (a : ℕ → MaybeScalar) :
    let pub := publicOf H ctx P α β a
    (ctx g).aggregatedPubkey.1 = pub.A g • G + pub.B g • P.1 :=
  attack_key hH hc P α β hrep (a g) (fun _ => ⟨⟨P, P⟩, ⟨0, 0⟩, [], fun _ => 0⟩) []

theorem signer_signature (g : ℕ) (hc : Reachable H (ctx g))
    (ha : ((ctx g).keyCoefficient (mulG sk) : Res Unit _) = .ok (some (a g)))
    {k : ℕ} {i : ℕ} (hi : i < k) (r : Spec.Reply) (hb he : Arr 32) :
    SessionForger.partialSignature H (ctx g) sk (sn i) r hb he
      = nonceSign r hb * ∑ j, signatureRow k (publicOf H ctx (mulG sk) α β a) i g r hb he j * secrets k sk sn j := by
  have hm : mulG sk ∈ (ctx g).orderedPubkeys := by
    by_contra hm
    rw [hc.inv.keyCoefficient_eq, if_neg hm] at ha
    cases ha
  rw [hc.inv.keyCoefficient_eq, if_pos hm] at ha
  have ha' := Option.some.inj (Res.ok.inj ha)
  rw [SessionForger.partialSignature_eq hc.inv hm, signatureRow_sum _ hi]
  unfold keyPart nonceSign
  rw [← sgn_mul]
  have hk := keySign_mul (ctx g) sk.1
  have hs := sgn_mul_sgn (r.nonce hb)
  change _ + reduceFrom he * _ * negIf (isOdd (ctx g).aggregatedPubkey.1 ^^ (ctx g).parityAcc) sk.1 = _
  rw [← hk]
  simp only [secrets, publicOf]
  rw [← ha']
  linear_combination (-(reduceFrom he * coeffOf H (ctx g).orderedPubkeys (mulG sk) * Spec.keySign (ctx g) * sk.1)) * hs

/-- The value of a combination, as a multiple of `G`. -/
theorem note_value (n : Note) :
    n.value (mulG sk) (fun i => (sn i).publicNonce) = (n.combination.g + n.combination.p * sk.1
      + ∑ i ∈ Finset.range n.sessions.length, ((n.coef i).1 * (sn i).k1.1 + (n.coef i).2 * (sn i).k2.1)) • G := by
  unfold Note.value
  rw [add_smul, add_smul, mul_smul, Finset.sum_smul]
  congr 1
  refine Finset.sum_congr rfl fun i _ => ?_
  rw [add_smul, mul_smul, mul_smul]
  rfl

theorem sum_coef {k : ℕ} (n : Note) (hn : n.sessions.length ≤ k) (f : ℕ → MaybeScalar × MaybeScalar → MaybeScalar)
    (hf : ∀ i, f i (0, 0) = 0) :
    ∑ i ∈ Finset.range n.sessions.length, f i (n.coef i) = ∑ i : Fin k, f i (n.coef i) := by
  rw [Fin.sum_univ_eq_sum_range (fun i => f i (n.coef i))]
  refine Finset.sum_subset (Finset.range_mono hn) fun i _ hi => ?_
  unfold Note.coef
  rw [if_neg (by simpa using hi), hf]

theorem hash_challenge {ν : Type} {log : Log ν} (hd : Distinct log) {rx : Arr 32} {Q : Point} {msg : Bytes} {n : ν} {he : Arr 32}
    (hm : (Spec.challengeQuery rx.1 Q msg, n, he) ∈ log) :
    computeChallengeHashTweak (log.hash H) rx Q msg = reduceFrom he := by
  rw [(C66_what_is_hashed _).2.2.2.1]
  change reduceFrom (log.hash H (Spec.challengeQuery rx.1 Q msg)) = _
  unfold Log.hash
  rw [(find_some hd).2 hm]

/-- An accepted forgery is an equation for the unknowns. -/
theorem forged_equation {k : ℕ} {pub : Public} (hpub : pub.ctx = ctx) (hP : pub.P = mulG sk) {out : Outcome} {ν : Type} {log : Log ν} {n : ν}
    (hQ : (ctx out.group).aggregatedPubkey.1 = pub.A out.group • G + pub.B out.group • (mulG sk).1) (hd : Distinct log)
    (hm : (Spec.challengeQuery out.sig.rx.1 (ctx out.group).aggregatedPubkey out.msg, n, out.he) ∈ log)
    (hn : out.note.sessions.length ≤ k)
    (hv : verifySingle (log.hash H) (ctx out.group).aggregatedPubkey out.sig out.msg = .ok ())
    (hx : xonly (out.note.value (mulG sk) fun i => (sn i).publicNonce) = out.sig.rx) :
    ∑ j, out.forgedRow k pub (fun i => (sn i).publicNonce) j * secrets k sk sn j
      = out.forgedValue pub fun i => (sn i).publicNonce := by
  obtain ⟨V, hV, ho, hVx⟩ := verifySingle_eq_ok.1 hv
  rw [hash_challenge hd hm, CmaForger.toEvenY_sgn] at hV
  set W := out.note.value (mulG sk) fun i => (sn i).publicNonce with hW
  have hVW : V.1 = Spec.sgn W • W := by
    rw [sgn_smul]
    rcases xonly_eq_iff.1 (hVx.trans hx.symm) with h | h
    · rw [← h, ho]
      rfl
    · have hne : V.1 ≠ 0 := V.2
      have h' : W = -V.1 := by rw [h, neg_neg]
      have : isOdd W = true := by rw [h', isOdd_neg hne, ho]; rfl
      rw [this, h]
      rfl
  have hk : ∀ c : MaybeScalar, c • (ctx out.group).aggregatedPubkey.1 = (c * (pub.A out.group + pub.B out.group * sk.1)) • G := fun c => by
    rw [hQ, mul_smul, add_smul, mul_smul]
    rfl
  rw [hVW, ← mul_smul, hk] at hV
  have hWG : ∀ c : MaybeScalar, c • W = (c * (out.note.combination.g + out.note.combination.p * sk.1
      + ∑ i ∈ Finset.range out.note.sessions.length, ((out.note.coef i).1 * (sn i).k1.1 + (out.note.coef i).2 * (sn i).k2.1))) • G :=
    fun c => by rw [hW, note_value, mul_smul]
  rw [hWG, ← add_smul, smul_G_inj, sum_coef out.note hn (fun i c => c.1 * (sn i).k1.1 + c.2 * (sn i).k2.1) (by simp)] at hV
  rw [sum_unknown]
  simp only [Outcome.forgedRow, secrets, Outcome.forgedValue, hP, hpub, ← hW]
  rw [hV]
  have hsum : ∑ i : Fin k, (Spec.sgn W * (out.note.coef i).2 * (sn i).k2.1 + Spec.sgn W * (out.note.coef i).1 * (sn i).k1.1)
      = Spec.sgn W * ∑ i : Fin k, ((out.note.coef i).1 * (sn i).k1.1 + (out.note.coef i).2 * (sn i).k2.1) := by
    rw [Finset.mul_sum]
    exact Finset.sum_congr rfl fun i _ => by ring
  rw [hsum]
  ring

/-- Without bad answers, a forgery is not a combination of the partial signatures. -/
theorem reduced_ne_zero {k : ℕ} {pub : Public} {pn : ℕ → PubNonce}
    {σ : ℕ → ℕ → Spec.Reply → Arr 32 → Arr 32 → MaybeScalar} {out : Outcome} {log : Log Note}
    (hi : GameInv (fun g => (pub.ctx g).aggregatedPubkey) σ out.sessions log)
    (hsame : ∀ g g', Spec.xbytes (pub.ctx g).aggregatedPubkey.1 = Spec.xbytes (pub.ctx g').aggregatedPubkey.1 →
      pub.ctx g = pub.ctx g' ∧ pub.a g = pub.a g' ∧ pub.B g = pub.B g')
    (hg : Good (gameBad pub pn k) log)
    (hk : out.sessions.length ≤ k) (hB : pub.B out.group ≠ 0)
    (hm : (Spec.challengeQuery out.sig.rx.1 (pub.ctx out.group).aggregatedPubkey out.msg, out.note, out.he) ∈ log)
    (hnew : ∀ s ∈ out.sessions, ∀ r, s.signed = some r → ¬ (r.message = out.msg ∧
      Spec.xbytes (pub.ctx r.group).aggregatedPubkey.1 = Spec.xbytes (pub.ctx out.group).aggregatedPubkey.1 ∧
      Spec.xbytes ((⟨r.aggnonce, s.point, r.message⟩ : Spec.Reply).nonce r.hb) = out.sig.rx.1)) :
    ∃ j, reduced (out.signatureRow k pub) (out.forgedRow k pub pn) j ≠ 0 := by
  by_contra hall
  push Not at hall
  have hpre := hi.points _ _ _ hm
  have hlen : out.note.sessions.length ≤ out.sessions.length := by
    have := hpre.length_le
    rwa [List.length_map, List.length_map] at this
  have hW0 := sgn_ne_zero (out.note.value pub.P pn)
  have hlt : ∀ i, (out.note.coef i).1 ≠ 0 → i < out.note.sessions.length := by
    intro i h
    by_contra hge
    apply h
    unfold Note.coef
    rw [if_neg hge]
  -- the nonces that are used have been signed with
  have hsig : ∀ i, (out.note.coef i).1 ≠ 0 → ∃ T r, out.sessions[i]? = some ⟨T, some r⟩ := by
    intro i h
    have hik : i < k := lt_of_lt_of_le (hlt i h) (hlen.trans hk)
    have hr := hall (some (⟨i, hik⟩, false))
    cases he : out.signatureRow k pub i with
    | some e =>
      obtain ⟨T, r, h1, -⟩ := outcome_signatureRow he
      exact ⟨T, r, h1⟩
    | none =>
      unfold reduced at hr
      simp only [he, Outcome.forgedRow] at hr
      exact absurd hr (mul_ne_zero hW0 h)
  let dflt : Signed := ⟨0, ⟨0, 0⟩, [], zeroSeed, zeroSeed, 0⟩
  let T : ℕ → MaybePoint := fun i => match out.sessions[i]? with
    | some ⟨T, _⟩ => T
    | none => 0
  let d : ℕ → Signed := fun i => match out.sessions[i]? with
    | some ⟨_, some r⟩ => r
    | _ => dflt
  have hTd : ∀ i, (out.note.coef i).1 ≠ 0 → out.sessions[i]? = some ⟨T i, some (d i)⟩ := by
    intro i h
    obtain ⟨T', r, h1⟩ := hsig i h
    simp only [T, d, h1]
  have hrow : ∀ i, (out.note.coef i).1 ≠ 0 → out.signatureRow k pub i
      = some (signatureRow k pub i (d i).group ⟨(d i).aggnonce, T i, (d i).message⟩ (d i).hb (d i).he,
          nonceSign ⟨(d i).aggnonce, T i, (d i).message⟩ (d i).hb * (d i).sig) := by
    intro i h
    unfold Outcome.signatureRow
    rw [hTd i h]
  have hgroup := hsame _ _ (groupOf_query (fun g => (pub.ctx g).aggregatedPubkey) out.sig.rx out.group out.msg)
  have hκ : Spec.sgn (pub.ctx (groupOf (fun g => (pub.ctx g).aggregatedPubkey)
        (Spec.challengeQuery out.sig.rx.1 (pub.ctx out.group).aggregatedPubkey out.msg))).aggregatedPubkey.1
      * pub.B (groupOf (fun g => (pub.ctx g).aggregatedPubkey)
        (Spec.challengeQuery out.sig.rx.1 (pub.ctx out.group).aggregatedPubkey out.msg))
      = Spec.sgn (pub.ctx out.group).aggregatedPubkey.1 * pub.B out.group := by
    rw [hgroup.1, hgroup.2.2]
  have hnb : ∀ i, (out.note.coef i).1 ≠ 0 → ∃ nb, (Spec.noncecoefQuery (d i).aggnonce (pub.ctx (d i).group).aggregatedPubkey
      (d i).message, nb, (d i).hb) ∈ log := fun i h => (hi.signed i _ _ (hTd i h)).1
  let nb : ℕ → Note := fun i => if h : (out.note.coef i).1 ≠ 0 then (hnb i h).choose else out.note
  unfold gameBad at hg
  refine core id pub.P pn _ _ k hi.distinct hg hm (fun an Q msg h => ?_)
    (hκ.symm ▸ mul_ne_zero (sgn_ne_zero _) hB) (fun i => (d i).aggnonce) (fun i => (pub.ctx (d i).group).aggregatedPubkey)
    (fun i => (d i).message) nb (fun i => (d i).hb) (fun i => (d i).he)
    (fun i => pub.a (d i).group * Spec.keySign (pub.ctx (d i).group)) T
    (fun i h => lt_of_lt_of_le (hlt i h) (hlen.trans hk)) (fun i h => ?_) (fun i _ _ _ _ _ => ?_) ?_
  · exact Asking.not_drawn_noncecoefQuery an Q msg (h ▸ Asking.drawn_challengeQuery' _ _ _)
  · replace h : (out.note.coef i).1 ≠ 0 := h
    obtain ⟨h1, h2, -⟩ := hi.signed i _ _ (hTd i h)
    refine ⟨?_, by simp only [nb]; rw [dif_pos h]; exact (hnb i h).choose_spec, h2, ?_, ?_⟩
    · refine ⟨_, List.getElem?_eq_getElem (hlt i h), ?_⟩
      have hp : (out.note.sessions.map (·.point))[i]? = (out.sessions.map (·.point))[i]? := by
        have hi' : i < (out.note.sessions.map (·.point)).length := by
          rw [List.length_map]
          exact hlt i h
        rw [List.getElem?_eq_getElem hi', List.IsPrefix.getElem hpre hi', List.getElem?_eq_getElem]
      rw [List.getElem?_map, List.getElem?_map, hTd i h, List.getElem?_eq_getElem (hlt i h)] at hp
      exact Option.some.inj hp
    · rw [spec_xbytes]
      intro heq
      obtain ⟨h0, h1, h2⟩ := C66_inputs_determined.1 _ _ _ _ _ _ heq
      refine hnew _ (List.mem_of_getElem? (hTd i h)) _ rfl ⟨h2, ?_, ?_⟩
      · rw [spec_xbytes, spec_xbytes, xonly_eq_iff.2 h1]
      · rw [spec_xbytes]
        exact congrArg Subtype.val h0
    · have hik : i < k := lt_of_lt_of_le (hlt i h) (hlen.trans hk)
      have hr := hall (some (⟨i, hik⟩, true))
      unfold reduced at hr
      simp only [hrow i h, Outcome.forgedRow, signatureRow, if_true] at hr
      simp only [id_eq]
      refine mul_left_cancel₀ hW0 ?_
      linear_combination hr
  · obtain ⟨h1, h2, -⟩ := hsame _ _ (nonceGroup_query (fun g => (pub.ctx g).aggregatedPubkey) (d i).aggnonce (d i).group (d i).message)
    simp only [h1, h2]
  · have hr := hall none
    unfold reduced at hr
    simp only [Outcome.forgedRow] at hr
    have hs : (∑ i : Fin k, match out.signatureRow k pub i with
        | some row => Spec.sgn (out.note.value pub.P pn) * (out.note.coef i).1 * row.1 none
        | none => 0)
      = ∑ i ∈ Finset.range k, if (out.note.coef i).1 = 0 then 0 else Spec.sgn (out.note.value pub.P pn) * (out.note.coef i).1
        * (Spec.sgn (nonceWith (d i).aggnonce (T i) (reduceFrom (d i).hb)) * (pub.a (d i).group * Spec.keySign (pub.ctx (d i).group)))
        * reduceFrom (d i).he := by
      rw [← Fin.sum_univ_eq_sum_range (fun i => if (out.note.coef i).1 = 0 then 0 else
        Spec.sgn (out.note.value pub.P pn) * (out.note.coef i).1
        * (Spec.sgn (nonceWith (d i).aggnonce (T i) (reduceFrom (d i).hb)) * (pub.a (d i).group * Spec.keySign (pub.ctx (d i).group)))
        * reduceFrom (d i).he)]
      refine Finset.sum_congr rfl fun i _ => ?_
      by_cases h : (out.note.coef i).1 = 0
      · rw [if_pos h, h]
        cases out.signatureRow k pub i <;> simp
      · rw [if_neg h, hrow i h]
        simp only [signatureRow]
        change _ * (Spec.sgn (nonceWith (d i).aggnonce (T i) (reduceFrom (d i).hb)) * _ * _) = _
        ring
    have hr' := (congrArg (fun z => Spec.sgn (out.note.value pub.P pn) * out.note.combination.p
      + reduceFrom out.he * Spec.sgn (pub.ctx out.group).aggregatedPubkey.1 * pub.B out.group - z) hs).symm.trans hr
    simp only [id_eq]
    rw [hκ]
    linear_combination hr'

theorem signedCount_nil (k : ℕ) : signedCount k [] = 0 := by
  classical
  unfold signedCount
  rw [Finset.card_eq_zero, Finset.filter_eq_empty_iff]
  rintro i - ⟨T, r, h⟩
  simp at h

/-- A forgery is solved, unless bad answers are drawn. -/
theorem solver_solves (hH : TagsAgree H) (hc : ∀ g, Reachable H (ctx g))
    (hsame : ∀ g g', Spec.xbytes (ctx g).aggregatedPubkey.1 = Spec.xbytes (ctx g').aggregatedPubkey.1 → ctx g = ctx g')
    (ha : ∀ g, ((ctx g).keyCoefficient (mulG sk) : Res Unit _) = .ok (some (a g)))
    (hrep : ∀ g, ∀ K ∈ (ctx g).pubkeys, K.1 = α K • G + β K • (mulG sk).1) (hβ : ∀ g, Spec.weighted H (ctx g).pubkeys β ≠ 0)
    {A : Adversary} {q k : ℕ} (hA : A.AsksAtMost q k) {N : ℕ} {ω : Fin N → Arr 32}
    (hf : Forges k H ctx sk sn A ω)
    (hh : ¬ Hits (gameBad (publicOf H ctx (mulG sk) α β a) (fun i => (sn i).publicNonce) k) (secrets k sk sn)
      (answers ω) (signerGame k H ctx sk sn A) []) :
    ((solver k (publicOf H ctx (mulG sk) α β a) (fun i => (sn i).publicNonce) A).run (secrets k sk sn) (answers ω) []).1
      = secrets k sk sn := by
  set pub := publicOf H ctx (mulG sk) α β a with hpub
  set pn := fun i => (sn i).publicNonce with hpn
  set σ := fun i g r hb he => SessionForger.partialSignature H (ctx g) sk (sn i) r hb he with hσ
  unfold solver
  rw [run_solver_game _ _ pn pub σ (secrets k sk sn) (answers ω) 
    (fun i hi g r hb he => signer_signature g (hc g) (ha g) hi r hb he) _ hA []
    (by simp)]
  have hinv : GameInv (fun g => (ctx g).aggregatedPubkey) σ [] [] := ⟨List.nodup_nil, by simp, by simp⟩
  obtain ⟨h1, h2, h3⟩ := game_inv H pn (secrets k sk sn) (answers ω) hA hinv
  obtain ⟨-, h4⟩ := run_good _ (secrets k sk sn) (log := []) List.nodup_nil (by intro t x n h ht; simp at ht) hh
  obtain ⟨w1, w2, w3⟩ := hf
  have h2' : (((signerGame k H ctx sk sn A).run (secrets k sk sn) (answers ω) []).1).sessions.length ≤ k := by
    refine h2.trans ?_
    simp
  have hB : ∀ g, pub.B g ≠ 0 := by
    intro g
    rw [hpub]
    unfold publicOf
    simp only
    refine mul_ne_zero ?_ (hβ g)
    split
    · exact neg_ne_zero.2 one_ne_zero
    · exact one_ne_zero
  have hnlen : (((signerGame k H ctx sk sn A).run (secrets k sk sn) (answers ω) []).1).note.sessions.length ≤ k := by
    have := (h1.points _ _ _ h3).length_le
    rw [List.length_map, List.length_map] at this
    exact this.trans h2'
  refine run_solve (row_shape _ _) ?_ ?_ ⟨_, List.mem_singleton_self _, ?_⟩ _ _
  · intro f hf
    rw [List.mem_singleton] at hf
    subst hf
    exact forged_equation rfl rfl (publicOf_key hH _ (hc _) (mulG sk) (hrep _) a) h1.distinct h3 hnlen w2 w3
  · intro i e he
    obtain ⟨T, r, hs, rfl⟩ := outcome_signatureRow he
    obtain ⟨-, -, hsig⟩ := h1.signed i T r hs
    simp only
    rw [hsig, hσ]
    simp only
    rw [signer_signature (α := α) (β := β) r.group (hc _) (ha _) i.2, ← mul_assoc, show nonceSign _ _ * nonceSign _ _ = (1 : MaybeScalar) from
      sgn_mul_sgn _, one_mul]
  · refine reduced_ne_zero (pub := pub) h1 (fun g g' h => ?_) h4 h2' (hB _) h3 w1
    have e : ctx g = ctx g' := hsame g g' h
    refine ⟨e, ?_, ?_⟩
    · have h1 := ha g
      rw [e, ha g'] at h1
      exact (Option.some.inj (Res.ok.inj h1)).symm
    · rw [hpub]
      simp only [publicOf, e]

/-! ## The hash function of the game -/

/-- Only challenges and nonce coefficients are drawn. -/
theorem game_drawn {k : ℕ} (H : Hash) (Q : ℕ → Point) (pn : ℕ → PubNonce) (σ : ℕ → ℕ → Spec.Reply → Arr 32 → Arr 32 → MaybeScalar)
    (y : Unknown k → MaybeScalar) (ω : ℕ → Arr 32) (A : Adversary) (ss : List Session) (log : Log Note)
    (hl : ∀ e ∈ log, Drawn e.1 ∨ DrawnNonce e.1) :
    ∀ e ∈ ((game H Q pn (direct σ) (.done : Outcome → Play Note k Outcome) A ss).run y ω log).2, Drawn e.1 ∨ DrawnNonce e.1 := by
  have step : ∀ (x : Bytes) (n : Note) (next : Note → Arr 32 → Play Note k Outcome), (Drawn x ∨ DrawnNonce x) →
      (∀ n a log, (∀ e ∈ log, Drawn e.1 ∨ DrawnNonce e.1) → ∀ e ∈ ((next n a).run y ω log).2, Drawn e.1 ∨ DrawnNonce e.1) →
      ∀ log, (∀ e ∈ log, Drawn e.1 ∨ DrawnNonce e.1) → ∀ e ∈ ((Play.ask x n next).run y ω log).2, Drawn e.1 ∨ DrawnNonce e.1 := by
    intro x n next hx hn log hl
    rw [Play.run]
    cases log.find x with
    | some e => exact hn _ _ _ hl
    | none =>
      refine hn _ _ _ fun e he => ?_
      rcases List.mem_append.1 he with he | he
      · exact hl e he
      · rw [List.mem_singleton] at he
        rw [he]
        exact hx
  induction A generalizing ss log with
  | submit g msg sig c =>
    rw [game]
    refine step _ _ _ (.inl (Asking.drawn_challengeQuery' _ _ _)) (fun n a log h => ?_) _ hl
    rw [Play.run]
    exact h
  | ask x c next ih =>
    rw [game]
    split_ifs with hx
    · exact step _ _ _ hx (fun _ a log h => ih a ss log h) _ hl
    · exact ih _ ss log hl
  | start T next ih =>
    rw [game]
    exact ih _ _ log hl
  | sign i g an msg next ih =>
    rw [game]
    split
    · exact step _ _ _ (.inr (Asking.drawnNonce_noncecoefQuery _ _ _)) (fun _ _ _ h =>
        step _ _ _ (.inl (Asking.drawn_challengeQuery' _ _ _)) (fun _ _ log h => ih _ _ log h) _ h) _ hl
    · exact ih 0 ss log hl

/-- The partial signatures in the game are those of the code. -/
theorem signed_code {ss : List Session} {log : Log Note}
    (hi : GameInv (fun g => (ctx g).aggregatedPubkey) (fun i g => SessionForger.partialSignature H (ctx g) sk (sn i)) ss log)
    (hl : ∀ e ∈ log, Drawn e.1 ∨ DrawnNonce e.1) {i : ℕ} {T : MaybePoint} {r : Signed} (hs : ss[i]? = some ⟨T, some r⟩)
    (hc : Reachable H (ctx r.group)) (hm : mulG sk ∈ (ctx r.group).orderedPubkeys) :
    signPartialAdaptor (log.hash H) (ctx r.group) sk (sn i) r.aggnonce T r.message = .ok r.sig := by
  have hagree : ∀ x, ¬ Drawn x → ¬ DrawnNonce x → log.hash H x = H x := by
    intro x h1 h2
    unfold Log.hash
    rw [find_none.2]
    intro hx
    obtain ⟨e, he, rfl⟩ := List.mem_map.1 hx
    rcases hl e he with h | h
    · exact h1 h
    · exact h2 h
  obtain ⟨⟨nb, hb⟩, ⟨ne, he⟩, hsig⟩ := hi.signed i T r hs
  have hinv' := SessionForger.ctxInv_congr hagree hc.inv
  rw [hsig, SessionForger.partialSignature_eq hc.inv hm, signPartialAdaptor_eq hinv', if_pos hm]
  have hbc : r.aggnonce.nonceCoefficient (log.hash H) (ctx r.group).pubkey r.message = reduceFrom r.hb := by
    rw [(C66_what_is_hashed _).2.2.1]
    change reduceFrom (log.hash H (Spec.noncecoefQuery r.aggnonce (ctx r.group).aggregatedPubkey r.message)) = _
    unfold Log.hash
    rw [(find_some hi.distinct).2 hb]
  have hcoef : coeffOf (log.hash H) (ctx r.group).orderedPubkeys (mulG sk) = coeffOf H (ctx r.group).orderedPubkeys (mulG sk) := by
    rw [← coeffOf_sessionHash (log.hash H) zeroSeed zeroSeed, SessionForger.sessionHash_congr hagree, coeffOf_sessionHash]
  have hec : computeChallengeHashTweak (log.hash H) (xonly ((⟨r.aggnonce, T, r.message⟩ : Spec.Reply).nonce r.hb)) (ctx r.group).pubkey
      r.message = reduceFrom r.he := by
    rw [spec_xbytes] at he
    exact hash_challenge hi.distinct he
  unfold partialSigValue sessionE sessionRT sessionR
  rw [hbc, hcoef]
  rw [reply_nonce] at hec ⊢
  rw [hec]
  rfl

theorem signed_nonce {H : Hash} {Q : ℕ → Point} {σ : ℕ → ℕ → Spec.Reply → Arr 32 → Arr 32 → MaybeScalar} {ss : List Session} {log : Log Note}
    (hi : GameInv Q σ ss log) {i : ℕ} {T : MaybePoint} {r : Signed} (hs : ss[i]? = some ⟨T, some r⟩) :
    (⟨r.aggnonce, T, r.message⟩ : Spec.Reply).nonce r.hb = Spec.sessionNonce (log.hash H) (Q r.group) ⟨r.aggnonce, T, r.message⟩ := by
  obtain ⟨⟨nb, hb⟩, -⟩ := hi.signed i T r hs
  unfold Spec.sessionNonce Log.hash
  rw [(find_some hi.distinct).2 hb]

/-- A forgery is seldom left unsolved. -/
theorem forges_unsolved (hH : TagsAgree H) (hc : ∀ g, Reachable H (ctx g))
    (hsame : ∀ g g', Spec.xbytes (ctx g).aggregatedPubkey.1 = Spec.xbytes (ctx g').aggregatedPubkey.1 → ctx g = ctx g')
    (ha : ∀ g, ((ctx g).keyCoefficient (mulG sk) : Res Unit _) = .ok (some (a g)))
    (hrep : ∀ g, ∀ K ∈ (ctx g).pubkeys, K.1 = α K • G + β K • (mulG sk).1) (hβ : ∀ g, Spec.weighted H (ctx g).pubkeys β ≠ 0)
    (sn : ℕ → SecNonce) {A : Adversary} {q k : ℕ} (hA : A.AsksAtMost q k) :
    (Spec.chance fun ω : Fin (q + 2 * k + 1) → Arr 32 => Forges k H ctx sk sn A ω ∧
      ¬ ((solver k (publicOf H ctx (mulG sk) α β a) (fun i => (sn i).publicNonce) A).run (secrets k sk sn) (answers ω) []).1
        = secrets k sk sn)
      ≤ (k + 2) * (((q + 2 * k + 1 : ℕ) : ℚ) * (((q + 2 * k + 1 : ℕ) : ℚ) + 1)) / 2 ^ 256 := by
  set N := q + 2 * k + 1 with hN
  set bad := gameBad (publicOf H ctx (mulG sk) α β a) (fun i => (sn i).publicNonce) k with hbad
  have hHash : HashesAtMost N (signerGame k H ctx sk sn A) := by
    have := game_hashes (k' := k) H (fun g => (ctx g).aggregatedPubkey) (fun i => (sn i).publicNonce)
      (fun i g => SessionForger.partialSignature H (ctx g) sk (sn i)) (K := k) hA [] (by simp)
    rw [signedCount_nil] at this
    exact this
  have h1 := chance_hits bad (secrets k sk sn) (fun l => (l + 1) * (k + 2)) (fun log x n => badSet_card _ _ _ _ _ _ _ _ _) hHash []
  replace h1 := h1.trans (le_of_eq (sum_bound (k + 2) N))
  rw [Nat.cast_add, Nat.cast_two] at h1
  refine (CmaForger.chance_mono fun ω hω => ?_).trans h1
  by_contra hh
  exact hω.2 (solver_solves hH hc hsame ha hrep hβ hA hω.1 hh)

end

/-! ## Example data -/

theorem ros_weighted : Spec.weighted lastByteHash lastCtx.pubkeys rosBeta ≠ 0 := by
  have hne : mulG scalarOne ≠ mulG ⟨2, two_ne_zero_scalar⟩ := by
    intro h
    have h' : (1 : MaybeScalar) = 2 := congrArg Subtype.val (mulG_injective h)
    exact one_ne_zero (α := MaybeScalar) (by linear_combination -h')
  unfold Spec.weighted
  simp only [keyCoeff_eq lastByteHash_tagsAgree]
  change (coeffOf lastByteHash lastKeys (mulG scalarOne) * rosBeta (mulG scalarOne)
    + (coeffOf lastByteHash lastKeys (mulG ⟨2, two_ne_zero_scalar⟩) * rosBeta (mulG ⟨2, two_ne_zero_scalar⟩) + 0)) ≠ 0
  unfold rosBeta
  rw [if_neg hne, if_pos rfl, last_coeff_two, mul_zero, zero_add, add_zero, one_mul]
  exact one_ne_zero

/-- There is a tweak that changes a key into another x-only key. -/
theorem exists_tweak (d : MaybeScalar) : ∃ t : Scalar, d + t.1 ≠ 0 ∧ 2 * d + t.1 ≠ 0 := by
  have h1 : (1 : MaybeScalar) ≠ 0 := one_ne_zero
  have h2 : (2 : MaybeScalar) ≠ 0 := two_ne_zero_scalar
  have h3 : (3 : MaybeScalar) ≠ 0 := by decide +kernel
  by_cases a1 : d + 1 = 0 ∨ 2 * d + 1 = 0
  · by_cases a2 : d + 2 = 0 ∨ 2 * d + 2 = 0
    · refine ⟨⟨3, h3⟩, ?_, ?_⟩ <;> intro a3 <;> simp only at a3
      · rcases a1 with a1 | a1
        · exact h2 (by linear_combination a3 - a1)
        rcases a2 with a2 | a2
        · exact h1 (by linear_combination a3 - a2)
        · exact h1 (by linear_combination a2 - a1)
      · rcases a2 with a2 | a2
        · rcases a1 with a1 | a1
          · exact h1 (by linear_combination a2 - a1)
          · exact h2 (by linear_combination a3 - a1)
        · exact h1 (by linear_combination a3 - a2)
    · push Not at a2
      exact ⟨⟨2, h2⟩, a2.1, a2.2⟩
  · push Not at a1
    exact ⟨⟨1, h1⟩, a1.1, a1.2⟩

theorem exGroups : ∃ ctx : ℕ → KeyAggContext, ctx 0 = lastCtx ∧ (∃ t, lastCtx.withTweak t false = .ok (ctx 1)) ∧
    (∀ g, Reachable lastByteHash (ctx g)) ∧
    (∀ g g', Spec.xbytes (ctx g).aggregatedPubkey.1 = Spec.xbytes (ctx g').aggregatedPubkey.1 → ctx g = ctx g') ∧
    Spec.xbytes (ctx 1).aggregatedPubkey.1 ≠ Spec.xbytes (ctx 0).aggregatedPubkey.1 ∧
    (∀ g, ((ctx g).keyCoefficient (mulG ⟨2, two_ne_zero_scalar⟩) : Res Unit _) = .ok (some 1)) ∧
    (∀ g, ∀ K ∈ (ctx g).pubkeys, K.1 = rosAlpha K • G + rosBeta K • (mulG ⟨2, two_ne_zero_scalar⟩).1) ∧
    ∀ g, Spec.weighted lastByteHash (ctx g).pubkeys rosBeta ≠ 0 := by
  obtain ⟨d, hd⟩ := exists_dlog lastCtx.pubkey.1
  obtain ⟨t, h1, h2⟩ := exists_tweak d
  have hQ : lastCtx.pubkey.1 + t.1 • G ≠ 0 := by
    rw [← hd, ← add_smul]
    intro h
    exact h1 ((smul_G_inj (b := 0)).1 (h.trans (zero_smul _ _).symm))
  obtain ⟨ctx', hctx', hpk⟩ : ∃ ctx', lastCtx.withTweak t false = .ok ctx' ∧ ctx' = { lastCtx with
      pubkey := ⟨_, hQ⟩, parityAcc := lastCtx.parityAcc, tweakAcc := lastCtx.tweakAcc + t.1 } := by
    refine ⟨_, withTweak_eq_ok.2 ⟨⟨_, hQ⟩, rfl, rfl⟩, ?_⟩
    simp
  have hr : Reachable lastByteHash ctx' := .tweak lastCtx_reachable hctx'
  have hne : Spec.xbytes ctx'.aggregatedPubkey.1 ≠ Spec.xbytes lastCtx.aggregatedPubkey.1 := by
    rw [spec_xbytes, spec_xbytes]
    intro h
    have h := xonly_eq_iff.1 (Subtype.ext h)
    rw [hpk] at h
    change lastCtx.pubkey.1 + t.1 • G = lastCtx.pubkey.1 ∨ lastCtx.pubkey.1 + t.1 • G = -lastCtx.pubkey.1 at h
    rw [← hd, ← add_smul, ← neg_smul, smul_G_inj, smul_G_inj] at h
    rcases h with h | h
    · exact t.2 (by linear_combination h)
    · exact h2 (by linear_combination h)
  refine ⟨fun g => if g = 0 then lastCtx else ctx', rfl, ⟨t, hctx'⟩, ?_, ?_, hne, ?_, ?_, ?_⟩
  · intro g
    dsimp only
    split_ifs
    · exact lastCtx_reachable
    · exact hr
  · intro g g' h
    dsimp only at h ⊢
    split_ifs at h ⊢
    · rfl
    · exact absurd h.symm hne
    · exact absurd h hne
    · rfl
  · intro g
    dsimp only
    split_ifs
    · exact last_keyCoefficient
    · rw [hr.inv.keyCoefficient_eq, hpk]
      have := last_keyCoefficient
      rw [lastCtx_reachable.inv.keyCoefficient_eq] at this
      exact this
  · intro g
    dsimp only
    split_ifs
    · exact ros_represented
    · rw [hpk]
      exact ros_represented
  · intro g
    dsimp only
    split_ifs
    · exact ros_weighted
    · rw [hpk]
      exact ros_weighted

/-- The combination `G`. -/
def gCombination : Combination := ⟨1, 0, fun _ => (0, 0)⟩

/-- A forger that has been told the discrete logarithm `d` of the key `Q`. It takes part in a session of group `g` about the message
`m` with the aggregated nonce `an`, and signs the empty message for group `0` with the nonce `G`. -/
noncomputable def exAdversary (Q : Point) (d : MaybeScalar) (an : AggNonce) (g : ℕ) (m : Bytes) : Adversary :=
  .ask (Spec.challengeQuery (xonly G).1 Q []) gCombination fun h =>
    .start 0 fun _ => .sign 0 g an m fun _ =>
      .submit 0 [] ⟨xonly G, 1 + reduceFrom h * (Spec.sgn Q.1 * d)⟩ gCombination

theorem exAdversary_asks (Q : Point) (d : MaybeScalar) (an : AggNonce) (g : ℕ) (m : Bytes) :
    (exAdversary Q d an g m).AsksAtMost 1 1 :=
  .ask 0 1 _ _ _ fun _ => .start 0 0 _ _ fun _ => .sign 0 0 _ _ _ _ _ fun _ => .submit _ _ _ _ _ _

theorem exAdversary_forges (H : Hash) (ctx : ℕ → KeyAggContext) (sk : Scalar) (sn : ℕ → SecNonce) (d : MaybeScalar)
    (hd : d • G = (ctx 0).aggregatedPubkey.1) (an : AggNonce) (g : ℕ) (m : Bytes)
    (hm : ¬ (m = [] ∧ Spec.xbytes (ctx g).aggregatedPubkey.1 = Spec.xbytes (ctx 0).aggregatedPubkey.1)) {N : ℕ}
    (ω : Fin N → Arr 32) : Forges 1 H ctx sk sn (exAdversary (ctx 0).aggregatedPubkey d an g m) ω := by
  unfold Forges signerGame exAdversary
  set Q := fun g => (ctx g).aggregatedPubkey with hQ
  change (Wins H Q (mulG sk) _ _)
  have hdr : Drawn (Spec.challengeQuery (xonly G).1 (Q 0) []) ∨ DrawnNonce (Spec.challengeQuery (xonly G).1 (Q 0) []) :=
    .inl (Asking.drawn_challengeQuery' _ _ _)
  set σ := fun i g r hb he => SessionForger.partialSignature H (ctx g) sk (sn i) r hb he with hσ
  set pn := fun i => (sn i).publicNonce with hpn
  set y := secrets 1 sk sn with hy
  rw [game, if_pos hdr, Play.run, show Log.find [] (Spec.challengeQuery (xonly G).1 (Q 0) []) = none from rfl]
  simp only [List.length_nil, List.nil_append]
  set h0 := answers ω 0 with hh0
  have hd0 : Distinct [(Spec.challengeQuery (xonly G).1 (Q 0) [], (⟨gCombination, []⟩ : Note), h0)] := by
    unfold Distinct
    simp
  rw [game, game]
  simp only [List.nil_append, List.getElem?_cons_zero]
  obtain ⟨n1, hb, log1, hr1, -, hd1, hsub1, -⟩ := run_ask y (answers ω) hd0 (Spec.noncecoefQuery an (Q g) m) ⟨.zero, [⟨0, none⟩]⟩
    fun _ hb => .ask (Spec.challengeQuery (Spec.xbytes ((⟨an, 0, m⟩ : Spec.Reply).nonce hb)) (Q g) m) ⟨.zero, [⟨0, none⟩]⟩ fun _ he =>
      game H Q pn (direct σ) (.done : Outcome → Play Note 1 Outcome)
        (.submit 0 [] ⟨xonly G, 1 + reduceFrom h0 * (Spec.sgn (Q 0).1 * d)⟩ gCombination)
        ([(⟨0, none⟩ : Session)].set 0 ⟨0, some ⟨g, an, m, hb, he, σ 0 g ⟨an, 0, m⟩ hb he⟩⟩)
  refine hr1 ▸ ?_
  obtain ⟨n2, he, log2, hr2, -, hd2, hsub2, -⟩ := run_ask y (answers ω) hd1
    (Spec.challengeQuery (Spec.xbytes ((⟨an, 0, m⟩ : Spec.Reply).nonce hb)) (Q g) m) ⟨.zero, [⟨0, none⟩]⟩ fun _ he =>
      game H Q pn (direct σ) (.done : Outcome → Play Note 1 Outcome)
        (.submit 0 [] ⟨xonly G, 1 + reduceFrom h0 * (Spec.sgn (Q 0).1 * d)⟩ gCombination)
        ([(⟨0, none⟩ : Session)].set 0 ⟨0, some ⟨g, an, m, hb, he, σ 0 g ⟨an, 0, m⟩ hb he⟩⟩)
  rw [hr2, game]
  obtain ⟨n3, h3, log3, hr3, hm3, hd3, hsub3, -⟩ := run_ask y (answers ω) hd2 (Spec.challengeQuery (xonly G).1 (Q 0) [])
    ⟨gCombination, [(⟨0, none⟩ : Session)].set 0 ⟨0, some ⟨g, an, m, hb, he, σ 0 g ⟨an, 0, m⟩ hb he⟩⟩⟩ fun n h =>
      (.done ⟨0, [], ⟨xonly G, 1 + reduceFrom h0 * (Spec.sgn (Q 0).1 * d)⟩, n, h,
        [(⟨0, none⟩ : Session)].set 0 ⟨0, some ⟨g, an, m, hb, he, σ 0 g ⟨an, 0, m⟩ hb he⟩⟩⟩ : Play Note 1 Outcome)
  rw [hr3, Play.run]
  have hold := hsub3 _ (hsub2 _ (hsub1 _ (List.mem_singleton.2 rfl)))
  have heq := ((find_some hd3).2 hm3).symm.trans ((find_some hd3).2 hold)
  obtain ⟨rfl, rfl⟩ : n3 = ⟨gCombination, []⟩ ∧ h3 = h0 := by
    have := Option.some.inj heq
    exact ⟨congrArg Prod.fst this, congrArg Prod.snd this⟩
  refine ⟨?_, ?_, ?_⟩
  · intro s hs r hr
    rw [List.set_cons_zero, List.mem_singleton] at hs
    rw [hs] at hr
    rw [← Option.some.inj hr]
    exact fun h => hm ⟨h.1, h.2.1⟩
  · refine verifySingle_eq_ok.2 ⟨Gpt, ?_, isOdd_G, rfl⟩
    have := hash_challenge (H := H) hd3 hold
    simp only at this ⊢
    rw [this, CmaForger.toEvenY_sgn, ← hd, add_smul, one_smul, mul_smul, mul_smul]
    rfl
  · simp only [Note.value, gCombination, Note.coef, List.length_nil, Finset.range_zero, Finset.sum_empty, one_smul, zero_smul,
      add_zero]

end Verif.Concurrent
