import Verif.Spec.Concurrent
import Verif.Lemmas.Props.Oracle

/-!
# Lemmas and example data for `Props/Concurrent`
-/

namespace Verif.Concurrent

open Forger (Drawn answers)
open Asking (DrawnNonce)

/-! ## The answers that must not be drawn in the game

What is recorded may be more than a `Note`. The factor `κ` of the key in a forgery and the factor `u` of the secret key in a
partial signature are taken from what is recorded and from the log. -/

open Classical in
/-- What a string that is hashed to a nonce coefficient was made from. -/
noncomputable def decode (x : Bytes) : Option (AggNonce × Point × Bytes) :=
  if h : ∃ p : AggNonce × Point × Bytes, x = Spec.noncecoefQuery p.1 p.2.1 p.2.2 then some h.choose else none

theorem decode_query (an : AggNonce) (Q : Point) (msg : Bytes) :
    ∃ Q', decode (Spec.noncecoefQuery an Q msg) = some (an, Q', msg) ∧ Spec.xbytes Q'.1 = Spec.xbytes Q.1 := by
  have h : ∃ p : AggNonce × Point × Bytes, Spec.noncecoefQuery an Q msg = Spec.noncecoefQuery p.1 p.2.1 p.2.2 :=
    ⟨(an, Q, msg), rfl⟩
  obtain ⟨h1, h2, h3⟩ := C66_inputs_determined.2.1 _ _ _ _ _ _ h.choose_spec
  refine ⟨h.choose.2.1, ?_, ?_⟩
  · unfold decode
    rw [dif_pos h]
    exact congrArg some (Prod.ext h1.symm (Prod.ext rfl h3.symm))
  · rw [spec_xbytes, spec_xbytes, xonly_eq_iff.2 h2]

theorem challengeQuery_congr {Q Q' : Point} (h : Spec.xbytes Q.1 = Spec.xbytes Q'.1) (rx msg : Bytes) :
    Spec.challengeQuery rx Q msg = Spec.challengeQuery rx Q' msg := by
  unfold Spec.challengeQuery
  rw [h]

/-- The nonce of a session with the nonce coefficient `b`. -/
def nonceWith (an : AggNonce) (T : MaybePoint) (b : MaybeScalar) : MaybePoint :=
  (if an.R1 + b • an.R2 = 0 then Spec.G else an.R1 + b • an.R2) + T

section
variable {ν : Type} (nt : ν → Note) (P : Point) (pn : ℕ → PubNonce) (κ : Bytes → ν → MaybeScalar)
  (u : Log ν → Bytes → ν → MaybeScalar) (k : ℕ)

/-- The first session that has the nonce coefficient `b`, with the factor of the secret key. -/
noncomputable def matchOf (log : Log ν) (b : MaybeScalar) : Option ((AggNonce × Point × Bytes) × MaybeScalar) :=
  log.findSome? fun e => if reduceFrom e.2.2 = b then (decode e.1).map fun p => (p, u log e.1 e.2.1) else none

/-- The string of the challenge of the `i`-th session, if its nonces are used in the combination, and the factor of its answer
in the partial signature. -/
noncomputable def target (log : Log ν) (n : ν) (i : ℕ) : Option (Bytes × MaybeScalar) :=
  if ((nt n).coef i).1 = 0 then none else
  match (nt n).sessions[i]?, matchOf u log (((nt n).coef i).2 / ((nt n).coef i).1) with
  | some s, some p =>
    some (Spec.challengeQuery (Spec.xbytes (nonceWith p.1.1 s.point (((nt n).coef i).2 / ((nt n).coef i).1))) p.1.2.1 p.1.2.2,
      Spec.sgn (nonceWith p.1.1 s.point (((nt n).coef i).2 / ((nt n).coef i).1)) * p.2)
  | _, _ => none

/-- How the answer to `Y` enters the equation for a forgery with the challenge `x`. -/
noncomputable def weightOf (log : Log ν) (x : Bytes) (n : ν) (Y : Bytes) : MaybeScalar :=
  (if Y = x then κ x n else 0) - ∑ i ∈ Finset.range k, match target nt u log n i with
    | some p => if p.1 = Y then Spec.sgn ((nt n).value P pn) * ((nt n).coef i).1 * p.2 else 0
    | none => 0

/-- The answer to `x` that would solve the equation for a forgery with the challenge `x'`. -/
noncomputable def wanted (log : Log ν) (x' : Bytes) (n' : ν) (x : Bytes) : MaybeScalar :=
  -(Spec.sgn ((nt n').value P pn) * (nt n').combination.p
    + (log.map fun e => weightOf nt P pn κ u k log x' n' e.1 * reduceFrom e.2.2).sum) / weightOf nt P pn κ u k log x' n' x

/-- The answers that must not be drawn: those drawn before, the ratios of the coefficients of nonces in combinations, and
those that solve the equation for a forgery. -/
noncomputable def badSet (log : Log ν) (x : Bytes) (n : ν) : Finset MaybeScalar :=
  (log.map fun e => reduceFrom e.2.2).toFinset
    ∪ (log.flatMap fun e => (List.range k).map fun i => ((nt e.2.1).coef i).2 / ((nt e.2.1).coef i).1).toFinset
    ∪ (((x, n) :: log.map fun e => (e.1, e.2.1)).map fun p => wanted nt P pn κ u k log p.1 p.2 x).toFinset

theorem badSet_card (log : Log ν) (x : Bytes) (n : ν) :
    (badSet nt P pn κ u k log x n).card ≤ (log.length + 1) * (k + 2) := by
  unfold badSet
  refine (Finset.card_union_le _ _).trans ((Nat.add_le_add_right (Finset.card_union_le _ _) _).trans ?_)
  have h1 : (log.map fun e => reduceFrom e.2.2).toFinset.card ≤ log.length :=
    (List.toFinset_card_le _).trans (by rw [List.length_map])
  have h2 : (log.flatMap fun e => (List.range k).map fun i => ((nt e.2.1).coef i).2 / ((nt e.2.1).coef i).1).toFinset.card
      ≤ log.length * k := by
    refine (List.toFinset_card_le _).trans (le_of_eq ?_)
    rw [List.length_flatMap]
    simp
  have h3 : (((x, n) :: log.map fun e => (e.1, e.2.1)).map fun p => wanted nt P pn κ u k log p.1 p.2 x).toFinset.card
      ≤ log.length + 1 := (List.toFinset_card_le _).trans (by simp)
  nlinarith

/-- In a game without bad answers, the row of the forged signature is not a combination of those of the partial
signatures. -/
theorem core {log : Log ν} (hd : Distinct log) (hg : Good (badSet nt P pn κ u k) log) {x : Bytes} {n : ν} {h : Arr 32}
    (hx : (x, n, h) ∈ log) (hxq : ∀ an Q msg, Spec.noncecoefQuery an Q msg ≠ x) (hκ : κ x n ≠ 0)
    (an : ℕ → AggNonce) (Q : ℕ → Point) (msg : ℕ → Bytes) (nb : ℕ → ν) (hb he : ℕ → Arr 32) (uv : ℕ → MaybeScalar)
    (T : ℕ → MaybePoint) (hk : ∀ i, ((nt n).coef i).1 ≠ 0 → i < k)
    (hs : ∀ i, ((nt n).coef i).1 ≠ 0 → (∃ s, (nt n).sessions[i]? = some s ∧ s.point = T i) ∧
      (Spec.noncecoefQuery (an i) (Q i) (msg i), nb i, hb i) ∈ log ∧
      (∃ ne, (Spec.challengeQuery (Spec.xbytes (nonceWith (an i) (T i) (reduceFrom (hb i)))) (Q i) (msg i), ne, he i) ∈ log) ∧
      Spec.challengeQuery (Spec.xbytes (nonceWith (an i) (T i) (reduceFrom (hb i)))) (Q i) (msg i) ≠ x ∧
      ((nt n).coef i).2 = reduceFrom (hb i) * ((nt n).coef i).1)
    (hu : ∀ i, ((nt n).coef i).1 ≠ 0 → ∀ t r, log[r]? = some (Spec.noncecoefQuery (an i) (Q i) (msg i), nb i, hb i) → r < t →
      u (log.take t) (Spec.noncecoefQuery (an i) (Q i) (msg i)) (nb i) = uv i)
    (heq : Spec.sgn ((nt n).value P pn) * (nt n).combination.p + κ x n * reduceFrom h
      = ∑ i ∈ Finset.range k, if ((nt n).coef i).1 = 0 then 0 else Spec.sgn ((nt n).value P pn) * ((nt n).coef i).1
        * (Spec.sgn (nonceWith (an i) (T i) (reduceFrom (hb i))) * uv i) * reduceFrom (he i)) :
    False := by
  obtain ⟨j, hj⟩ := List.mem_iff_getElem?.1 hx
  set W := (nt n).value P pn with hW
  set R := fun i => nonceWith (an i) (T i) (reduceFrom (hb i)) with hR
  set qc := fun i => Spec.challengeQuery (Spec.xbytes (R i)) (Q i) (msg i) with hqc
  -- nonce coefficients come before the challenge
  have hbt : ∀ i, ((nt n).coef i).1 ≠ 0 → ∃ t < j, log[t]? = some (Spec.noncecoefQuery (an i) (Q i) (msg i), nb i, hb i) := by
    intro i hi
    obtain ⟨-, hmem, -, -, hc⟩ := hs i hi
    have hik : i < k := hk i hi
    obtain ⟨t, ht⟩ := List.mem_iff_getElem?.1 hmem
    refine ⟨t, ?_, ht⟩
    rcases lt_trichotomy t j with hlt | rfl | hgt
    · exact hlt
    · rw [hj] at ht
      have h1 : x = Spec.noncecoefQuery (an i) (Q i) (msg i) := congrArg Prod.fst (Option.some.inj ht)
      exact absurd h1.symm (hxq _ _ _)
    · exfalso
      apply hg t _ _ _ ht
      unfold badSet
      refine Finset.mem_union_left _ (Finset.mem_union_right _ ?_)
      rw [List.mem_toFinset, List.mem_flatMap]
      refine ⟨_, mem_take hj hgt, List.mem_map.2 ⟨i, List.mem_range.2 hik, ?_⟩⟩
      simp only
      rw [hc, mul_div_cancel_right₀ _ hi]
  have hmatch : ∀ i, ((nt n).coef i).1 ≠ 0 → ∀ t, j ≤ t → ∃ Q', matchOf u (log.take t) (reduceFrom (hb i)) = some ((an i, Q', msg i), uv i) ∧
      Spec.xbytes Q'.1 = Spec.xbytes (Q i).1 := by
    intro i hi t hjt
    obtain ⟨r, hr, hrt⟩ := hbt i hi
    unfold matchOf
    have hrt' : (log.take t)[r]? = some (Spec.noncecoefQuery (an i) (Q i) (msg i), nb i, hb i) := by
      rw [List.getElem?_take_of_lt (lt_of_lt_of_le hr hjt), hrt]
    obtain ⟨Q', hQ', hx'⟩ := decode_query (an i) (Q i) (msg i)
    refine ⟨Q', ?_, hx'⟩
    rw [List.findSome?_eq_some_iff]
    refine ⟨(log.take t).take r, _, _, split_at hrt', ?_, ?_⟩
    · simp only [if_true]
      rw [hQ', hu i hi t r hrt (lt_of_lt_of_le hr hjt)]
      rfl
    · intro e he'
      rw [if_neg]
      intro hcol
      apply hg r _ _ _ hrt
      unfold badSet
      refine Finset.mem_union_left _ (Finset.mem_union_left _ ?_)
      rw [List.mem_toFinset]
      refine List.mem_map.2 ⟨e, ?_, hcol⟩
      rw [List.take_take, min_eq_left (le_of_lt (lt_of_lt_of_le hr hjt))] at he'
      exact he'
  have htarget : ∀ i, ((nt n).coef i).1 ≠ 0 → ∀ t, j ≤ t → target nt u (log.take t) n i = some (qc i, Spec.sgn (R i) * uv i) := by
    intro i hi t hjt
    obtain ⟨⟨s, hs1, hs2⟩, -, -, -, hc⟩ := hs i hi
    have hβ : ((nt n).coef i).2 / ((nt n).coef i).1 = reduceFrom (hb i) := by rw [hc, mul_div_cancel_right₀ _ hi]
    unfold target
    obtain ⟨Q', hm1, hm2⟩ := hmatch i hi t hjt
    rw [if_neg hi, hβ, hm1, hs1]
    simp only [hs2, challengeQuery_congr hm2]
    rfl
  set C : Bytes → MaybeScalar := fun Y => (if Y = x then κ x n else 0) - ∑ i ∈ Finset.range k,
    if qc i = Y then (if ((nt n).coef i).1 = 0 then 0 else Spec.sgn W * ((nt n).coef i).1 * (Spec.sgn (R i) * uv i)) else 0 with hC
  have hweight : ∀ t, j ≤ t → ∀ Y, weightOf nt P pn κ u k (log.take t) x n Y = C Y := by
    intro t hjt Y
    unfold weightOf
    rw [hC]
    simp only
    congr 1
    refine Finset.sum_congr rfl fun i _ => ?_
    by_cases hi : ((nt n).coef i).1 = 0
    · have : target nt u (log.take t) n i = none := by
        unfold target
        rw [if_pos hi]
      rw [this, if_pos hi]
      simp only [ite_self]
    · rw [htarget i hi t hjt, if_neg hi]
  have hCx : C x = κ x n := by
    rw [hC]
    simp only [if_true]
    rw [Finset.sum_eq_zero, sub_zero]
    intro i _
    by_cases hi : ((nt n).coef i).1 = 0
    · rw [if_pos hi, ite_self]
    · rw [if_neg (hs i hi).2.2.2.1]
  have htotal : (log.map fun e => C e.1 * reduceFrom e.2.2).sum = -(Spec.sgn W * (nt n).combination.p) := by
    have h1 : ∀ e : Bytes × ν × Arr 32, C e.1 * reduceFrom e.2.2 = (if e.1 = x then κ x n else 0) * reduceFrom e.2.2
        - ∑ i ∈ Finset.range k, (if e.1 = qc i then (if ((nt n).coef i).1 = 0 then 0 else
          Spec.sgn W * ((nt n).coef i).1 * (Spec.sgn (R i) * uv i)) else 0) * reduceFrom e.2.2 := by
      intro e
      rw [hC]
      simp only [eq_comm (a := e.1)]
      rw [sub_mul, Finset.sum_mul]
    simp only [h1]
    rw [sum_map_sub, sum_pick hd hx, sum_map_finset]
    rw [Finset.sum_congr rfl fun i _ => show _ = if ((nt n).coef i).1 = 0 then 0 else
      Spec.sgn W * ((nt n).coef i).1 * (Spec.sgn (R i) * uv i) * reduceFrom (he i) from ?_]
    · rw [← heq]
      ring
    · by_cases hi : ((nt n).coef i).1 = 0
      · simp [hi]
      · rw [if_neg hi]
        simp only [hi, if_false]
        obtain ⟨-, -, ⟨ne, hne⟩, -, -⟩ := hs i hi
        exact sum_pick hd hne _
  -- the last answer that matters
  let p : ℕ → Prop := fun t => ∃ e, log[t]? = some e ∧ C e.1 ≠ 0
  classical
  have hpj : p j := ⟨_, hj, by rw [hCx]; exact hκ⟩
  have hjlen : j ≤ log.length := (List.getElem?_eq_some_iff.1 hj).1.le
  set t := Nat.findGreatest p log.length with ht
  have hjt : j ≤ t := Nat.le_findGreatest hjlen hpj
  obtain ⟨⟨xt, nt', hht⟩, het, hCt⟩ : p t := Nat.findGreatest_spec hjlen hpj
  apply hg t _ _ _ het
  unfold badSet
  refine Finset.mem_union_right _ ?_
  rw [List.mem_toFinset, List.mem_map]
  refine ⟨(x, n), ?_, ?_⟩
  · rcases hjt.eq_or_lt with rfl | hlt
    · rw [hj] at het
      cases het
      exact List.mem_cons_self
    · exact List.mem_cons_of_mem _ (List.mem_map.2 ⟨_, mem_take hj hlt, rfl⟩)
  · unfold wanted
    simp only [hweight t hjt]
    rw [div_eq_iff hCt]
    have hsplit := congrArg (fun l => (l.map fun e : Bytes × ν × Arr 32 => C e.1 * reduceFrom e.2.2).sum) (split_at het)
    simp only [List.map_append, List.sum_append, List.map_cons, List.sum_cons] at hsplit
    rw [htotal] at hsplit
    have hdrop : ((log.drop (t + 1)).map fun e => C e.1 * reduceFrom e.2.2).sum = 0 := by
      apply List.sum_eq_zero
      intro z hz
      obtain ⟨e, hemem, rfl⟩ := List.mem_map.1 hz
      obtain ⟨r, hr⟩ := List.mem_iff_getElem?.1 hemem
      rw [List.getElem?_drop] at hr
      have hlen := (List.getElem?_eq_some_iff.1 hr).1
      have : ¬ p (t + 1 + r) := Nat.findGreatest_is_greatest (by omega) hlen.le
      have hz : C e.1 = 0 := by
        by_contra hne
        exact this ⟨e, hr, hne⟩
      rw [hz, zero_mul]
    rw [hdrop, add_zero] at hsplit
    linear_combination hsplit

end

/-! ## What is kept during the game -/

/-- The signer's part in the game, if partial signatures are made without asking anything. -/
abbrev direct {k : ℕ} {α : Type} (σ : ℕ → ℕ → Spec.Reply → Arr 32 → Arr 32 → MaybeScalar) :
    ℕ → ℕ → Spec.Reply → Arr 32 → Arr 32 → (MaybeScalar → Play Note k α) → Play Note k α :=
  fun i g r hb he next => next (σ i g r hb he)

section
variable (Q : ℕ → Point) (σ : ℕ → ℕ → Spec.Reply → Arr 32 → Arr 32 → MaybeScalar)

/-- What the sessions and the log have in common. -/
structure GameInv (ss : List Session) (log : Log Note) : Prop where
  distinct : Distinct log
  signed : ∀ (i : ℕ) T r, ss[i]? = some ⟨T, some r⟩ →
    (∃ nb, (Spec.noncecoefQuery r.aggnonce (Q r.group) r.message, nb, r.hb) ∈ log) ∧
    (∃ ne, (Spec.challengeQuery (Spec.xbytes (nonceWith r.aggnonce T (reduceFrom r.hb))) (Q r.group) r.message, ne, r.he) ∈ log) ∧
    r.sig = σ i r.group ⟨r.aggnonce, T, r.message⟩ r.hb r.he
  points : ∀ x n h, (x, n, h) ∈ log → n.sessions.map (·.point) <+: ss.map (·.point)

variable {Q σ}

theorem GameInv.more {ss : List Session} {log log' : Log Note} (hi : GameInv Q σ ss log) (hd : Distinct log') {c : Combination}
    (h1 : ∀ e, e ∈ log → e ∈ log') (h2 : ∀ e, e ∈ log' → e ∈ log ∨ e.2.1 = ⟨c, ss⟩) : GameInv Q σ ss log' where
  distinct := hd
  signed := fun i T r h => by
    obtain ⟨⟨nb, hnb⟩, ⟨ne, hne⟩, hs⟩ := hi.signed i T r h
    exact ⟨⟨nb, h1 _ hnb⟩, ⟨ne, h1 _ hne⟩, hs⟩
  points := fun x n h hm => by
    rcases h2 _ hm with hm | hm
    · exact hi.points x n h hm
    · simp only at hm
      rw [hm]

theorem GameInv.start {ss : List Session} {log : Log Note} (hi : GameInv Q σ ss log) (T : MaybePoint) :
    GameInv Q σ (ss ++ [⟨T, none⟩]) log where
  distinct := hi.distinct
  signed := fun i T' r h => by
    refine hi.signed i T' r ?_
    rcases lt_or_ge i ss.length with hlt | hge
    · rwa [List.getElem?_append_left hlt] at h
    · rw [List.getElem?_append_right hge] at h
      rcases Nat.eq_zero_or_pos (i - ss.length) with h0 | h0
      · rw [h0] at h
        simp at h
      · rw [List.getElem?_eq_none (by rw [List.length_singleton]; omega)] at h
        cases h
  points := fun x n h hm => by
    rw [List.map_append]
    exact (hi.points x n h hm).trans (List.prefix_append _ _)

theorem GameInv.sign {ss : List Session} {log : Log Note} (hi : GameInv Q σ ss log) {i : ℕ} {T : MaybePoint}
    (hss : ss[i]? = some ⟨T, none⟩) (r : Signed)
    (hb : ∃ nb, (Spec.noncecoefQuery r.aggnonce (Q r.group) r.message, nb, r.hb) ∈ log)
    (he : ∃ ne, (Spec.challengeQuery (Spec.xbytes (nonceWith r.aggnonce T (reduceFrom r.hb))) (Q r.group) r.message, ne, r.he) ∈ log)
    (hs : r.sig = σ i r.group ⟨r.aggnonce, T, r.message⟩ r.hb r.he) : GameInv Q σ (ss.set i ⟨T, some r⟩) log where
  distinct := hi.distinct
  signed := fun j T' r' h => by
    by_cases hij : i = j
    · subst hij
      rw [List.getElem?_set_self (List.getElem?_eq_some_iff.1 hss).1] at h
      cases h
      exact ⟨hb, he, hs⟩
    · rw [List.getElem?_set_ne hij] at h
      exact hi.signed j T' r' h
  points := fun x n h hm => by
    have : (ss.set i ⟨T, some r⟩).map (·.point) = ss.map (·.point) := by
      rw [List.map_set]
      refine List.ext_getElem? fun j => ?_
      by_cases hij : i = j
      · subst hij
        rw [List.getElem?_set_self (by rw [List.length_map]; exact (List.getElem?_eq_some_iff.1 hss).1), List.getElem?_map, hss]
        rfl
      · rw [List.getElem?_set_ne hij]
    rw [this]
    exact hi.points x n h hm

/-- The game ends with sessions and a log that fit together, and the challenge of the forgery in the log. -/
theorem game_inv {k' : ℕ} (H : Hash) (pn : ℕ → PubNonce) (y : Unknown k' → MaybeScalar) (ω : ℕ → Arr 32) {A : Adversary}
    {q k : ℕ} (hA : A.AsksAtMost q k) {ss : List Session} {log : Log Note} (hi : GameInv Q σ ss log) :
    let out := (game H Q pn (direct σ) .done A ss).run y ω log
    GameInv Q σ out.1.sessions out.2 ∧ out.1.sessions.length ≤ ss.length + k ∧
      (Spec.challengeQuery out.1.sig.rx.1 (Q out.1.group) out.1.msg, out.1.note, out.1.he) ∈ out.2 := by
  induction hA generalizing ss log with
  | submit q k g msg sig c =>
    rw [game]
    obtain ⟨n', h', log', hr, hm, hd, h1, h2⟩ := run_ask y ω hi.distinct (Spec.challengeQuery sig.rx.1 (Q g) msg) ⟨c, ss⟩
      fun n he => (.done ⟨g, msg, sig, n, he, ss⟩ : Play Note k' Outcome)
    rw [hr]
    exact ⟨hi.more hd h1 h2, Nat.le_add_right _ _, hm⟩
  | ask q k x c next h ih =>
    rw [game]
    split_ifs
    · obtain ⟨n', h', log', hr, hm, hd, h1, h2⟩ := run_ask y ω hi.distinct x ⟨c, ss⟩
        fun _ h => game H Q pn (direct σ) (.done : Outcome → Play Note k' Outcome) (next h) ss
      rw [hr]
      exact ih h' (hi.more hd h1 h2)
    · exact ih _ hi
  | other q k x c next hx h ih =>
    rw [game, if_neg hx]
    exact ih _ hi
  | start q k T next h ih =>
    rw [game]
    obtain ⟨h1, h2, h3⟩ := ih (pn ss.length) (hi.start T)
    refine ⟨h1, h2.trans ?_, h3⟩
    rw [List.length_append, List.length_singleton]
    omega
  | sign q k i g an msg next h ih =>
    rw [game]
    split
    · rename_i T hss
      obtain ⟨n', hb, log', hr, hm, hd, h1, h2⟩ := run_ask y ω hi.distinct (Spec.noncecoefQuery an (Q g) msg) ⟨.zero, ss⟩
        fun _ hb => .ask (Spec.challengeQuery (Spec.xbytes ((⟨an, T, msg⟩ : Spec.Reply).nonce hb)) (Q g) msg) ⟨.zero, ss⟩ fun _ he =>
          direct σ i g ⟨an, T, msg⟩ hb he fun s =>
            game H Q pn (direct σ) (.done : Outcome → Play Note k' Outcome) (next s) (ss.set i ⟨T, some ⟨g, an, msg, hb, he, s⟩⟩)
      rw [hr]
      have hi' := hi.more hd h1 h2
      obtain ⟨n'', he, log'', hr', hm', hd', h1', h2'⟩ := run_ask y ω hd
        (Spec.challengeQuery (Spec.xbytes ((⟨an, T, msg⟩ : Spec.Reply).nonce hb)) (Q g) msg) ⟨.zero, ss⟩ fun _ he =>
          direct σ i g ⟨an, T, msg⟩ hb he fun s =>
            game H Q pn (direct σ) (.done : Outcome → Play Note k' Outcome) (next s) (ss.set i ⟨T, some ⟨g, an, msg, hb, he, s⟩⟩)
      rw [hr']
      have hi'' := hi'.more hd' h1' h2'
      obtain ⟨g1, g2, g3⟩ := ih (σ i g ⟨an, T, msg⟩ hb he) (hi''.sign hss ⟨g, an, msg, hb, he, σ i g ⟨an, T, msg⟩ hb he⟩
        ⟨n', h1' _ hm⟩ ⟨n'', hm'⟩ rfl)
      refine ⟨g1, g2.trans ?_, g3⟩
      rw [List.length_set]
    · exact ih 0 hi

end

/-! ## Numbers of questions -/

/-- The session has been signed. -/
def IsSigned (ss : List Session) (i : ℕ) : Prop := ∃ T r, ss[i]? = some ⟨T, some r⟩

open Classical in
/-- How many of the first `K` sessions have been signed. -/
noncomputable def signedCount (K : ℕ) (ss : List Session) : ℕ := (Finset.univ.filter fun i : Fin K => IsSigned ss i.1).card

theorem signedCount_start (K : ℕ) (ss : List Session) (T : MaybePoint) :
    signedCount K (ss ++ [⟨T, none⟩]) = signedCount K ss := by
  unfold signedCount
  congr 1
  ext i
  simp only [Finset.mem_filter, Finset.mem_univ, true_and]
  unfold IsSigned
  refine exists_congr fun T' => exists_congr fun r => ?_
  rcases lt_or_ge i.1 ss.length with hlt | hge
  · rw [List.getElem?_append_left hlt]
  · rw [List.getElem?_append_right hge, List.getElem?_eq_none hge]
    constructor
    · intro h
      rcases Nat.eq_zero_or_pos (i.1 - ss.length) with h0 | h0
      · rw [h0] at h
        simp at h
      · rw [List.getElem?_eq_none (by rw [List.length_singleton]; omega)] at h
        cases h
    · intro h
      cases h

theorem signedCount_sign {K : ℕ} {ss : List Session} {i : ℕ} {T : MaybePoint} (hss : ss[i]? = some ⟨T, none⟩) (hi : i < K)
    (r : Signed) : signedCount K (ss.set i ⟨T, some r⟩) = signedCount K ss + 1 := by
  classical
  unfold signedCount
  rw [← Finset.card_insert_of_notMem (a := (⟨i, hi⟩ : Fin K))]
  · congr 1
    ext j
    simp only [Finset.mem_filter, Finset.mem_univ, true_and, Finset.mem_insert]
    unfold IsSigned
    by_cases hij : i = j.1
    · have hlen := (List.getElem?_eq_some_iff.1 hss).1
      constructor
      · intro _
        exact .inl (Fin.ext hij.symm)
      · intro _
        refine ⟨T, r, ?_⟩
        rw [← hij, List.getElem?_set_self hlen]
    · rw [List.getElem?_set_ne hij]
      constructor
      · exact .inr
      · rintro (h | h)
        · exact absurd (congrArg Fin.val h).symm hij
        · exact h
  · simp only [Finset.mem_filter, Finset.mem_univ, true_and]
    rintro ⟨T', r', h⟩
    rw [hss] at h
    cases h

theorem signedCount_le (K : ℕ) (ss : List Session) : signedCount K ss ≤ K := by
  unfold signedCount
  exact (Finset.card_le_univ _).trans (by rw [Fintype.card_fin])

theorem game_hashes {k' : ℕ} (H : Hash) (Q : ℕ → Point) (pn : ℕ → PubNonce)
    (σ : ℕ → ℕ → Spec.Reply → Arr 32 → Arr 32 → MaybeScalar) {A : Adversary} {q k K : ℕ} (hA : A.AsksAtMost q k)
    (ss : List Session) (hK : ss.length + k ≤ K) :
    HashesAtMost (q + 2 * (K - signedCount K ss) + 1) (game H Q pn (direct σ) (.done : Outcome → Play Note k' Outcome) A ss) := by
  induction hA generalizing ss with
  | submit q k g msg sig c =>
    rw [game]
    exact ⟨_, rfl, fun _ _ => trivial⟩
  | ask q k x c next h ih =>
    rw [game]
    split_ifs
    · exact ⟨q + 2 * (K - signedCount K ss) + 1, by omega, fun _ a => ih a ss hK⟩
    · exact (ih _ ss hK).mono (by omega)
  | other q k x c next hx h ih =>
    rw [game, if_neg hx]
    exact ih _ ss hK
  | start q k T next h ih =>
    rw [game, ← signedCount_start K ss T]
    exact ih _ _ (by rw [List.length_append, List.length_singleton]; omega)
  | sign q k i g an msg next h ih =>
    rw [game]
    split
    · rename_i T hss
      have hlen := (List.getElem?_eq_some_iff.1 hss).1
      have hc := fun r => signedCount_sign (K := K) hss (by omega) r
      have hle := fun r => signedCount_le K (ss.set i ⟨T, some r⟩)
      have hle' := hle ⟨g, an, msg, zeroSeed, zeroSeed, 0⟩
      rw [hc] at hle'
      refine ⟨q + 2 * (K - signedCount K ss), rfl, fun _ hb => ⟨q + 2 * (K - (signedCount K ss + 1)) + 1, by omega, fun _ he => ?_⟩⟩
      have := ih (σ i g ⟨an, T, msg⟩ hb he) (ss.set i ⟨T, some ⟨g, an, msg, hb, he, σ i g ⟨an, T, msg⟩ hb he⟩⟩)
        (by rw [List.length_set]; exact hK)
      rw [hc] at this
      exact this
    · exact ih 0 ss hK

end Verif.Concurrent
