import Verif.Spec.GroupForger
import Verif.Lemmas.Props.Forger

/-!
# Helpers of `Props/GroupForger`
-/

namespace Verif

namespace GroupForger

open Forger

variable {S : Setting} {H : Hash} {Fit : List Point → Prop}

theorem Arr.length_eq {n : ℕ} (a b : Arr n) : a.1.length = b.1.length := a.2.trans b.2.symm

theorem tagged_of_prefix {t : String} {x : Bytes} (h : Spec.taggedInput t [] <+: x) : ∃ r, x = Spec.taggedInput t r := by
  obtain ⟨r, rfl⟩ := h
  refine ⟨r, ?_⟩
  unfold Spec.taggedInput
  rw [List.append_nil]

theorem not_challenge_list (r : Bytes) : ¬ Spec.taggedInput "BIP0340/challenge" [] <+: Spec.taggedInput "KeyAgg list" r := by
  intro h
  obtain ⟨r', e⟩ := tagged_of_prefix h
  exact C66_domain_separation _ _ (by simp [Spec.tags]) (by simp [Spec.tags]) (by decide) _ _ e

theorem not_challenge_coeff (r : Bytes) :
    ¬ Spec.taggedInput "BIP0340/challenge" [] <+: Spec.taggedInput "KeyAgg coefficient" r := by
  intro h
  obtain ⟨r', e⟩ := tagged_of_prefix h
  exact C66_domain_separation _ _ (by simp [Spec.tags]) (by simp [Spec.tags]) (by decide) _ _ e

theorem challenge_prefix (rx : Bytes) (P : Point) (msg : Bytes) :
    Spec.taggedInput "BIP0340/challenge" [] <+: Spec.challengeQuery rx P msg := by
  refine ⟨rx ++ Spec.xbytes P.1 ++ msg, ?_⟩
  unfold Spec.challengeQuery Spec.taggedInput
  rw [List.append_nil]

theorem coeffQuery_inj {keys keys' : List Point} {K K' : Point} (h : Spec.coeffQuery H keys K = Spec.coeffQuery H keys' K') :
    H (Spec.taggedInput "KeyAgg list" (keys.map fun K => Spec.cbytes K.1).flatten)
      = H (Spec.taggedInput "KeyAgg list" (keys'.map fun K => Spec.cbytes K.1).flatten) ∧ K = K' := by
  unfold Spec.coeffQuery at h
  unfold Spec.taggedInput at h
  have h1 := List.append_cancel_left h
  obtain ⟨h2, h3⟩ := List.append_inj h1 (Arr.length_eq _ _)
  rw [spec_cbytes_point, spec_cbytes_point, serPoint_point_inj] at h3
  exact ⟨Subtype.ext h2, h3⟩

theorem xbytes_eq (P : Point) : Spec.xbytes P.1 = (xonly P.1).1 := spec_xbytes P.1

theorem challengeQuery_inj' {rx rx' : Arr 32} {P P' : Point} {msg msg' : Bytes}
    (h : Spec.challengeQuery rx.1 P msg = Spec.challengeQuery rx'.1 P' msg') :
    rx = rx' ∧ xonly P.1 = xonly P'.1 := by
  unfold Spec.challengeQuery Spec.taggedInput at h
  have h1 := List.append_cancel_left h
  rw [List.append_assoc, List.append_assoc] at h1
  obtain ⟨h2, h3⟩ := List.append_inj h1 (rx.2.trans rx'.2.symm)
  rw [xbytes_eq, xbytes_eq] at h3
  exact ⟨Subtype.ext h2, Subtype.ext (List.append_inj h3 (Arr.length_eq _ _)).1⟩

/-! ## Aggregation under hash functions that differ in challenges -/

theorem hashPubkeys_congr {H H' : Hash} (h : ∀ r, H (Spec.taggedInput "KeyAgg list" r) = H' (Spec.taggedInput "KeyAgg list" r))
    (keys : List Point) : hashPubkeys H keys = hashPubkeys H' keys := by
  rw [(C66_what_is_hashed _).1, (C66_what_is_hashed _).1, h]

theorem coeffQuery_eq (H : Hash) (keys : List Point) (K : Point) :
    Spec.coeffQuery H keys K = Spec.taggedInput "KeyAgg coefficient" ((hashPubkeys H keys).1 ++ Spec.cbytes K.1) := by
  rw [(C66_what_is_hashed _).1]
  rfl

theorem coeffOf_of_ne {H : Hash} {keys : List Point} {K : Point} (h2 : secondKey keys ≠ some K) :
    coeffOf H keys K = reduceFrom (H (Spec.coeffQuery H keys K)) := by
  unfold coeffOf
  rw [(C66_what_is_hashed _).2.1 _ _ _ h2, coeffQuery_eq]

theorem coeffOf_second {H : Hash} {keys : List Point} {K : Point} (h2 : secondKey keys = some K) : coeffOf H keys K = 1 := by
  unfold coeffOf computeKeyAggregationCoefficient
  rw [if_pos h2]

theorem coeffOf_congr {H H' : Hash}
    (h : ∀ x, ¬ Spec.taggedInput "BIP0340/challenge" [] <+: x → H x = H' x) (keys : List Point) (K : Point) :
    coeffOf H keys K = coeffOf H' keys K := by
  by_cases h2 : secondKey keys = some K
  · rw [coeffOf_second h2, coeffOf_second h2]
  · rw [coeffOf_of_ne h2, coeffOf_of_ne h2, coeffQuery_eq, coeffQuery_eq,
      hashPubkeys_congr (fun r => h _ (not_challenge_list r)), h _ (not_challenge_coeff _)]

theorem new_congr {H H' : Hash}
    (h : ∀ x, ¬ Spec.taggedInput "BIP0340/challenge" [] <+: x → H x = H' x) (keys : List Point) :
    KeyAggContext.new H keys = KeyAggContext.new H' keys := by
  have hc : coeffOf H keys = coeffOf H' keys := funext (coeffOf_congr h keys)
  rw [new_eq, new_eq]
  unfold keySum baseCtx
  rw [hc]

/-! ## Runs -/

theorem run_prefix (ω : ℕ → Arr 32) (A : GroupForger) (log : Log) : log <+: (A.run S H ω log).log := by
  induction A generalizing log with
  | submit keys msg sig => exact (Log.add_prefix _ _ _).trans (Log.add_prefix _ _ _)
  | ask x next ih =>
    unfold run
    split
    · exact (Log.add_prefix ω log x).trans (ih _ _)
    · exact ih _ _

theorem run_good (ω : ℕ → Arr 32) (A : GroupForger) (log : Log) (h : GoodLog ω log) : GoodLog ω (A.run S H ω log).log := by
  induction A generalizing log with
  | submit keys msg sig => exact (h.add _).add _
  | ask x next ih =>
    unfold run
    split
    · exact ih _ _ (h.add x)
    · exact ih _ _ h

theorem Log.hash_add (ω : ℕ → Arr 32) (log : Log) {x y : Bytes} (hne : y ≠ x) :
    (log.add ω x).hash H y = log.hash H y := by
  unfold Log.add Log.hash
  cases log.find x with
  | some _ => rfl
  | none =>
    simp only
    congr 1
    unfold Log.find
    rw [List.find?_append]
    cases log.find? fun e => decide (e.1 = y) with
    | some _ => rfl
    | none =>
      simp only [Option.none_or, List.find?_cons, List.find?_nil, Option.map_none]
      rw [decide_eq_false (fun e => hne e.symm)]
      rfl

theorem groupKey_add_challenge (ω : ℕ → Arr 32) (log : Log) (rx : Bytes) (P : Point) (msg : Bytes) (keys : List Point) :
    groupKey ((log.add ω (Spec.challengeQuery rx P msg)).hash H) keys = groupKey (log.hash H) keys := by
  unfold groupKey
  rw [new_congr]
  intro x hx
  refine Log.hash_add ω log ?_
  rintro rfl
  exact hx (challenge_prefix _ _ _)

/-- The string of the challenge of an outcome. -/
def chal (H : Hash) (out : Outcome) : Bytes :=
  Spec.challengeQuery out.sig.rx.1 (groupKey (out.log.hash H) out.keys) out.msg

/-- The string of the coefficient of the pivot of an outcome. -/
def coef (S : Setting) (H : Hash) (out : Outcome) : Bytes := Spec.coeffQuery H out.keys (S.pivot out.keys)

theorem run_mem (ω : ℕ → Arr 32) (A : GroupForger) (log : Log) :
    coef S H (A.run S H ω log) ∈ (A.run S H ω log).log.map (·.1) ∧
      chal H (A.run S H ω log) ∈ (A.run S H ω log).log.map (·.1) := by
  induction A generalizing log with
  | submit keys msg sig =>
    constructor
    · obtain ⟨t, ht⟩ := Log.add_prefix ω (log.add ω (Spec.coeffQuery H keys (S.pivot keys)))
        (Spec.challengeQuery sig.rx.1 (groupKey ((log.add ω (Spec.coeffQuery H keys (S.pivot keys))).hash H) keys) msg)
      change _ ∈ (Log.add ω _ _).map _
      rw [← ht, List.map_append]
      exact List.mem_append_left _ (Log.mem_add ω _ _)
    · change Spec.challengeQuery _ (groupKey ((Log.add ω _ _).hash H) keys) _ ∈ (Log.add ω _ _).map _
      rw [groupKey_add_challenge]
      exact Log.mem_add ω _ _
  | ask x next ih =>
    unfold run
    split
    · exact ih _ _
    · exact ih _ _

theorem run_length (ω : ℕ → Arr 32) {q : ℕ} {A : GroupForger} (hA : AsksAtMost S q A) (log : Log) :
    (A.run S H ω log).log.length ≤ log.length + q + 2 := by
  induction hA generalizing log with
  | submit q keys msg sig =>
    have h1 := Log.add_length ω log (Spec.coeffQuery H keys (S.pivot keys))
    have h2 := Log.add_length ω (log.add ω (Spec.coeffQuery H keys (S.pivot keys)))
      (Spec.challengeQuery sig.rx.1 (groupKey ((log.add ω (Spec.coeffQuery H keys (S.pivot keys))).hash H) keys) msg)
    change (Log.add ω _ _).length ≤ _
    omega
  | ask q x next h ih =>
    have h1 := ih (log.answer ω x) (log.add ω x)
    have h2 := Log.add_length ω log x
    unfold run
    split
    · omega
    · have := ih (H x) log
      omega
  | other q x next hx h ih =>
    unfold run
    rw [if_neg hx]
    exact ih _ _

/-- The string asked at an index depends only on the answers before it. -/
theorem run_causal (ω ω' : ℕ → Arr 32) (j : ℕ) (hω : ∀ i < j, ω i = ω' i) (A : GroupForger) (log : Log)
    (hl : log.length ≤ j) :
    (A.run S H ω log).log[j]?.map (·.1) = (A.run S H ω' log).log[j]?.map (·.1) := by
  induction A generalizing log with
  | submit keys msg sig =>
    change (Log.add ω (Log.add ω log _) _)[j]?.map _ = (Log.add ω' (Log.add ω' log _) _)[j]?.map _
    by_cases h : log.find (Spec.coeffQuery H keys (S.pivot keys)) ≠ none ∨ log.length < j
    · obtain ⟨h1, -, h3⟩ := add_same hl hω h
      rw [h1]
      generalize log.add ω' (Spec.coeffQuery H keys (S.pivot keys)) = log' at h3 ⊢
      generalize Spec.challengeQuery sig.rx.1 (groupKey (log'.hash H) keys) msg = x
      by_cases h' : log'.find x ≠ none ∨ log'.length < j
      · rw [(add_same h3 hω h').1]
      · rw [not_or, not_not] at h'
        rw [add_getElem h'.1 (by omega) ω List.prefix_rfl, add_getElem h'.1 (by omega) ω' List.prefix_rfl]
    · rw [not_or, not_not] at h
      rw [add_getElem h.1 (by omega) ω (Log.add_prefix _ _ _), add_getElem h.1 (by omega) ω' (Log.add_prefix _ _ _)]
  | ask x next ih =>
    unfold run
    by_cases hx : S.Draws x
    swap
    · rw [if_neg hx, if_neg hx]
      exact ih _ _ hl
    rw [if_pos hx, if_pos hx]
    by_cases h : log.find x ≠ none ∨ log.length < j
    · obtain ⟨h1, h2, h3⟩ := add_same hl hω h
      rw [h1, h2]
      exact ih _ _ h3
    · rw [not_or, not_not] at h
      rw [add_getElem h.1 (by omega) ω (run_prefix _ _ _), add_getElem h.1 (by omega) ω' (run_prefix _ _ _)]

theorem mem_add_iff (ω : ℕ → Arr 32) (log : Log) (x y : Bytes) (h : y ∈ (log.add ω x).map (·.1)) :
    y ∈ log.map (·.1) ∨ y = x := by
  unfold Log.add at h
  cases hx : log.find x with
  | some _ => rw [hx] at h; exact .inl h
  | none => rw [hx] at h; simpa using h

/-- Only strings that are drawn get into the log, and the coefficient of the pivot. -/
theorem run_draws (ω : ℕ → Arr 32) (A : GroupForger) (log : Log) (hl : ∀ x ∈ log.map (·.1), S.Draws x) :
    ∀ x ∈ (A.run S H ω log).log.map (·.1), S.Draws x ∨ x = coef S H (A.run S H ω log) := by
  induction A generalizing log with
  | submit keys msg sig =>
    intro x hx
    rcases mem_add_iff _ _ _ _ hx with hx | rfl
    · rcases mem_add_iff _ _ _ _ hx with hx | rfl
      · exact .inl (hl x hx)
      · exact .inr rfl
    · exact .inl (.inl (challenge_prefix _ _ _))
  | ask x next ih =>
    unfold run
    split
    · rename_i hx
      refine ih _ _ fun y hy => ?_
      rcases mem_add_iff _ _ _ _ hy with hy | rfl
      · exact hl y hy
      · exact hx
    · exact ih _ _ hl

theorem findIdx_getElem? {log : Log} {x : Bytes} (h : x ∈ log.map (·.1)) {ω : ℕ → Arr 32} (hg : GoodLog ω log) :
    log.findIdx (fun e => e.1 = x) < log.length ∧
      log[log.findIdx fun e => e.1 = x]? = some (x, ω (log.findIdx fun e => e.1 = x)) := by
  have hlt : log.findIdx (fun e => e.1 = x) < log.length := by
    rw [List.findIdx_lt_length]
    obtain ⟨e, he, hx⟩ := List.mem_map.1 h
    exact ⟨e, he, by simpa using hx⟩
  refine ⟨hlt, ?_⟩
  have hk : (log[log.findIdx fun e => e.1 = x]).1 = x := by
    have := List.findIdx_getElem (w := hlt)
    exact of_decide_eq_true this
  have ha := hg.ans _ _ (List.getElem?_eq_getElem hlt)
  rw [List.getElem?_eq_getElem hlt]
  exact congrArg some (Prod.ext hk ha)

theorem log_coef (ω : ℕ → Arr 32) (A : GroupForger) :
    (A.run S H ω []).log[coefficientIndex S H (A.run S H ω [])]?
      = some (coef S H (A.run S H ω []), ω (coefficientIndex S H (A.run S H ω []))) :=
  (findIdx_getElem? (run_mem ω A []).1 (run_good ω A [] (GoodLog.nil ω))).2

theorem log_chal (ω : ℕ → Arr 32) (A : GroupForger) :
    (A.run S H ω []).log[challengeIndex H (A.run S H ω [])]?
      = some (chal H (A.run S H ω []), ω (challengeIndex H (A.run S H ω []))) :=
  (findIdx_getElem? (run_mem ω A []).2 (run_good ω A [] (GoodLog.nil ω))).2

theorem coefficientIndex_lt (ω : ℕ → Arr 32) (A : GroupForger) :
    coefficientIndex S H (A.run S H ω []) < (A.run S H ω []).log.length :=
  (findIdx_getElem? (run_mem ω A []).1 (run_good ω A [] (GoodLog.nil ω))).1

theorem challengeIndex_lt (ω : ℕ → Arr 32) (A : GroupForger) :
    challengeIndex H (A.run S H ω []) < (A.run S H ω []).log.length :=
  (findIdx_getElem? (run_mem ω A []).2 (run_good ω A [] (GoodLog.nil ω))).1

theorem index_ne (ω : ℕ → Arr 32) (A : GroupForger) :
    coefficientIndex S H (A.run S H ω []) ≠ challengeIndex H (A.run S H ω []) := by
  intro e
  have h1 := log_coef (S := S) (H := H) ω A
  have h2 := log_chal (S := S) (H := H) ω A
  rw [e, h2] at h1
  have : chal H (A.run S H ω []) = coef S H (A.run S H ω []) := congrArg Prod.fst (Option.some.inj h1)
  have hp := challenge_prefix (A.run S H ω []).sig.rx.1 (groupKey ((A.run S H ω []).log.hash H) (A.run S H ω []).keys)
    (A.run S H ω []).msg
  change _ <+: chal H _ at hp
  rw [this] at hp
  unfold coef at hp
  rw [coeffQuery_eq] at hp
  exact not_challenge_coeff _ hp

theorem hash_coef (ω : ℕ → Arr 32) (A : GroupForger) :
    (A.run S H ω []).log.hash H (coef S H (A.run S H ω [])) = ω (coefficientIndex S H (A.run S H ω [])) := by
  unfold Log.hash
  rw [find_of_getElem (run_good ω A [] (GoodLog.nil ω)).nodup (log_coef ω A)]
  rfl

theorem hash_chal (ω : ℕ → Arr 32) (A : GroupForger) :
    (A.run S H ω []).log.hash H (chal H (A.run S H ω [])) = ω (challengeIndex H (A.run S H ω [])) := by
  unfold Log.hash
  rw [find_of_getElem (run_good ω A [] (GoodLog.nil ω)).nodup (log_chal ω A)]
  rfl

/-- The groups for which the pivot is the only key with a coefficient that is drawn. -/
structure Pivotal (S : Setting) (Fit : List Point → Prop) (keys : List Point) : Prop where
  fit : Fit keys
  mem : S.pivot keys ∈ keys
  drawn : S.drawn (S.pivot keys)
  second : secondKey keys ≠ some (S.pivot keys)
  other : ∀ K ∈ keys, K ≠ S.pivot keys → secondKey keys = some K ∨ ¬ S.drawn K

/-- The sum of the effective keys other than the pivot. -/
def rest (S : Setting) (H : Hash) (keys : List Point) : MaybePoint :=
  ((keys.filter (· ≠ S.pivot keys)).map fun K => coeffOf H keys K • K.1).sum

theorem hash_not_drawn (ω : ℕ → Arr 32) (A : GroupForger) {x : Bytes} (h1 : ¬ S.Draws x)
    (h2 : x ≠ coef S H (A.run S H ω [])) : (A.run S H ω []).log.hash H x = H x := by
  unfold Log.hash
  rw [Log.find_eq_none.2]
  · rfl
  · intro hx
    rcases run_draws ω A [] (by simp) x hx with h | h
    · exact h1 h
    · exact h2 h

/-- The sum of the effective keys after a run. -/
theorem keySum_run (ω : ℕ → Arr 32) (A : GroupForger) (hp : Pivotal S Fit (A.run S H ω []).keys) :
    keySum ((A.run S H ω []).log.hash H) (A.run S H ω []).keys
      = reduceFrom (ω (coefficientIndex S H (A.run S H ω [])))
          • ((((A.run S H ω []).keys.count (S.pivot (A.run S H ω []).keys) : ℕ) : MaybeScalar)
            • (S.pivot (A.run S H ω []).keys).1)
        + rest S H (A.run S H ω []).keys := by
  have hc := hash_coef (S := S) (H := H) ω A
  have hn := fun x => hash_not_drawn (S := S) (H := H) ω A (x := x)
  unfold coef at hc hn
  set out := A.run S H ω [] with hout
  set H' := out.log.hash H with hH'
  have hL : hashPubkeys H' out.keys = hashPubkeys H out.keys := by
    refine hashPubkeys_congr (fun r => hn _ ?_ ?_) _
    · rintro (h | ⟨h, K, -, e⟩)
      · exact not_challenge_list _ h
      · exact C66_domain_separation _ _ (by simp [Spec.tags]) (by simp [Spec.tags]) (by decide) _ _ e
    · rw [coeffQuery_eq]
      exact C66_domain_separation _ _ (by simp [Spec.tags]) (by simp [Spec.tags]) (by decide) _ _
  have hq : ∀ K, Spec.coeffQuery H' out.keys K = Spec.coeffQuery H out.keys K := by
    intro K
    rw [coeffQuery_eq, coeffQuery_eq, hL]
  have hco : ∀ K ∈ out.keys, coeffOf H' out.keys K
      = if K = S.pivot out.keys then reduceFrom (ω (coefficientIndex S H out)) else coeffOf H out.keys K := by
    intro K hK
    by_cases hKP : K = S.pivot out.keys
    · rw [if_pos hKP, coeffOf_of_ne (hKP ▸ hp.second), hq, hKP, hc]
    · rw [if_neg hKP]
      by_cases h2 : secondKey out.keys = some K
      · rw [coeffOf_second h2, coeffOf_second h2]
      · rw [coeffOf_of_ne h2, coeffOf_of_ne h2, hq]
        congr 1
        refine hn _ ?_ ?_
        · rintro (h | ⟨h, K', hd, e⟩)
          · rw [coeffQuery_eq] at h
            exact not_challenge_coeff _ h
          · rw [coeffQuery_eq] at e
            unfold Spec.taggedInput at e
            obtain ⟨-, e2⟩ := List.append_inj (List.append_cancel_left e) (Arr.length_eq _ _)
            rw [spec_cbytes_point, spec_cbytes_point, serPoint_point_inj] at e2
            subst e2
            exact ((hp.other K hK hKP).resolve_left h2) hd
        · intro e
          exact hKP (coeffQuery_inj e).2
  unfold keySum rest
  rw [List.map_congr_left (g := fun K => (if K = S.pivot out.keys then reduceFrom (ω (coefficientIndex S H out))
    else coeffOf H out.keys K) • K.1) (fun K hK => by rw [hco K hK]), sum_split]

/-! ## Accepted forgeries -/

/-- The run ends with an accepted forgery of a pivotal group. -/
def Wins (S : Setting) (H : Hash) (Fit : List Point → Prop) (A : GroupForger) (ω : ℕ → Arr 32) : Prop :=
  Pivotal S Fit (A.run S H ω []).keys ∧ ∃ ctx, KeyAggContext.new ((A.run S H ω []).log.hash H) (A.run S H ω []).keys = .ok ctx ∧
    verifySingle ((A.run S H ω []).log.hash H) ctx.aggregatedPubkey (A.run S H ω []).sig (A.run S H ω []).msg = .ok ()

/-- The key of the group submitted in a run. -/
noncomputable def runKey (S : Setting) (H : Hash) (A : GroupForger) (ω : ℕ → Arr 32) : Point :=
  groupKey ((A.run S H ω []).log.hash H) (A.run S H ω []).keys

theorem Wins.spec {A : GroupForger} {ω : ℕ → Arr 32} (h : Wins S H Fit A ω) :
    (runKey S H A ω).1 = keySum ((A.run S H ω []).log.hash H) (A.run S H ω []).keys ∧
      (A.run S H ω []).keys.length ≤ u32Max ∧
      verifySingle ((A.run S H ω []).log.hash H) (runKey S H A ω) (A.run S H ω []).sig (A.run S H ω []).msg = .ok () := by
  obtain ⟨-, ctx, h1, h2⟩ := h
  have hk : runKey S H A ω = ctx.aggregatedPubkey := by
    unfold runKey groupKey
    rw [h1]
  rw [hk]
  obtain ⟨-, h3, Q, h4, rfl⟩ := new_eq_ok.1 h1
  exact ⟨h4.symm, h3, h2⟩

theorem Wins.key {A : GroupForger} {ω : ℕ → Arr 32} (h : Wins S H Fit A ω) :
    (runKey S H A ω).1 = reduceFrom (ω (coefficientIndex S H (A.run S H ω [])))
          • ((((A.run S H ω []).keys.count (S.pivot (A.run S H ω []).keys) : ℕ) : MaybeScalar)
            • (S.pivot (A.run S H ω []).keys).1)
        + rest S H (A.run S H ω []).keys := by
  rw [h.spec.1, keySum_run ω A h.1]

theorem Wins.count_ne_zero {A : GroupForger} {ω : ℕ → Arr 32} (h : Wins S H Fit A ω) :
    (((A.run S H ω []).keys.count (S.pivot (A.run S H ω []).keys) : ℕ) : MaybeScalar) ≠ 0 := by
  have h1 := List.count_pos_iff.2 h.1.mem
  have h2 := (List.count_le_length (a := S.pivot (A.run S H ω []).keys) (l := (A.run S H ω []).keys)).trans h.spec.2.1
  have h3 : u32Max < orderN := by decide +kernel
  intro e
  rw [ZMod.natCast_eq_zero_iff] at e
  have := Nat.le_of_dvd h1 e
  omega

theorem toEvenY_eq (P : Point) : (toEvenY P).1 = Spec.sgn P.1 • P.1 := by
  rw [sgn_smul]
  unfold toEvenY negIf
  split <;> rfl

theorem toEvenY_congr {P P' : Point} (h : xonly P.1 = xonly P'.1) : (toEvenY P).1 = (toEvenY P').1 := by
  have h1 : xonly (toEvenY P).1 = xonly (toEvenY P').1 := by
    rw [xonly_toEvenY, xonly_toEvenY, h]
  exact eq_of_xonly_isOdd h1 ((isOdd_toEvenY P).trans (isOdd_toEvenY P').symm)

/-- Two accepted forgeries whose challenges were asked at the same index, of runs with the same answers before it,
reveal the secret key of the group. -/
theorem secret_of_fork (A : GroupForger) (ω ω' : ℕ → Arr 32) (j : ℕ)
    (hj : challengeIndex H (A.run S H ω []) = j) (hj' : challengeIndex H (A.run S H ω' []) = j)
    (hω : ∀ i < j, ω i = ω' i) (h : Wins S H Fit A ω) (h' : Wins S H Fit A ω')
    (hne : reduceFrom (ω j) ≠ reduceFrom (ω' j)) :
    (Spec.sgn (runKey S H A ω).1 * ((A.run S H ω []).sig.s - (A.run S H ω' []).sig.s)
      / (reduceFrom (ω j) - reduceFrom (ω' j))) • G = (runKey S H A ω).1 := by
  have hq := run_causal (S := S) (H := H) ω ω' j hω A [] (Nat.zero_le _)
  have hl := log_chal (S := S) (H := H) ω A
  have hl' := log_chal (S := S) (H := H) ω' A
  have hc := hash_chal (S := S) (H := H) ω A
  have hc' := hash_chal (S := S) (H := H) ω' A
  rw [hj] at hl hc
  rw [hj'] at hl' hc'
  rw [hl, hl'] at hq
  simp only [Option.map_some, Option.some.injEq] at hq
  obtain ⟨hrx, hx⟩ := challengeQuery_inj' hq
  have hv := h.spec.2.2
  have hv' := h'.spec.2.2
  rw [verifySingle_eq_ok, (C66_what_is_hashed _).2.2.2.1] at hv hv'
  obtain ⟨V, h1, h2, h3⟩ := hv
  obtain ⟨V', h1', h2', h3'⟩ := hv'
  have hV : V.1 = V'.1 := eq_of_xonly_isOdd (by rw [h3, h3', hrx]) (h2.trans h2'.symm)
  have e1 : (A.run S H ω []).sig.s • G = V.1 + reduceFrom (ω j) • (toEvenY (runKey S H A ω)).1 := by
    rw [← hc]
    exact h1
  have e1' : (A.run S H ω' []).sig.s • G = V'.1 + reduceFrom (ω' j) • (toEvenY (runKey S H A ω')).1 := by
    rw [← hc']
    exact h1'
  have hT : (toEvenY (runKey S H A ω')).1 = (toEvenY (runKey S H A ω)).1 := toEvenY_congr hx.symm
  rw [hV] at e1
  rw [hT] at e1'
  generalize reduceFrom (ω j) = e at *
  generalize reduceFrom (ω' j) = e' at *
  have hd : e - e' ≠ 0 := sub_ne_zero.2 hne
  have key : ((A.run S H ω []).sig.s - (A.run S H ω' []).sig.s) • G = (e - e') • (toEvenY (runKey S H A ω)).1 := by
    rw [sub_smul, e1, e1', sub_smul]
    abel
  generalize runKey S H A ω = P at *
  have hs : Spec.sgn P.1 * Spec.sgn P.1 = 1 := sgn_mul_sgn P.1
  rw [div_eq_inv_mul, mul_smul, mul_smul, key, toEvenY_eq, smul_smul (Spec.sgn P.1), smul_smul (Spec.sgn P.1 * _), smul_smul]
  have : (e - e')⁻¹ * (Spec.sgn P.1 * (e - e') * Spec.sgn P.1) = 1 := by
    rw [mul_comm (Spec.sgn P.1) (e - e'), mul_assoc, hs, mul_one, inv_mul_cancel₀ hd]
  rw [this, one_smul]

/-- Runs with the same answers before the coefficient of the pivot have the same group. -/
theorem keys_of_fork (A : GroupForger) (hL : NoListCollision S H A) (ω ω' : ℕ → Arr 32) (i : ℕ)
    (hi : coefficientIndex S H (A.run S H ω []) = i) (hi' : coefficientIndex S H (A.run S H ω' []) = i)
    (hω : ∀ k < i, ω k = ω' k) : (A.run S H ω []).keys = (A.run S H ω' []).keys := by
  have hq := run_causal (S := S) (H := H) ω ω' i hω A [] (Nat.zero_le _)
  have hl := log_coef (S := S) (H := H) ω A
  have hl' := log_coef (S := S) (H := H) ω' A
  rw [hi] at hl
  rw [hi'] at hl'
  rw [hl, hl'] at hq
  simp only [Option.map_some, Option.some.injEq] at hq
  exact hL ω ω' _ _ rfl rfl (coeffQuery_inj hq).1

/-- The keys of two such groups differ by a known multiple of the pivot. -/
theorem key_sub (A : GroupForger) (hL : NoListCollision S H A) (ω ω' : ℕ → Arr 32) (i : ℕ)
    (hi : coefficientIndex S H (A.run S H ω []) = i) (hi' : coefficientIndex S H (A.run S H ω' []) = i)
    (hω : ∀ k < i, ω k = ω' k) (h : Wins S H Fit A ω) (h' : Wins S H Fit A ω') :
    (runKey S H A ω).1 - (runKey S H A ω').1
      = ((reduceFrom (ω i) - reduceFrom (ω' i))
        * (((A.run S H ω []).keys.count (S.pivot (A.run S H ω []).keys) : ℕ) : MaybeScalar))
          • (S.pivot (A.run S H ω []).keys).1 := by
  have hk := keys_of_fork A hL ω ω' i hi hi' hω
  rw [h.key, h'.key, hi, hi', ← hk, mul_smul, sub_smul]
  abel

theorem answers_splice {q : ℕ} (j : Fin q) (ω ω' : Fin q → Arr 32) : ∀ i < j.1, answers ω i = answers (splice j ω ω') i := by
  intro i hi
  have hq := hi.trans j.2
  unfold answers
  rw [dif_pos hq, dif_pos hq]
  exact (if_pos (show (⟨i, hq⟩ : Fin q) < j from hi)).symm

theorem answers_splice_ge {q : ℕ} (j : Fin q) (ω ω' : Fin q → Arr 32) {i : ℕ} (hi : j.1 ≤ i) :
    answers (splice j ω ω') i = answers ω' i := by
  unfold answers
  split
  · exact if_neg (by
      rw [Fin.lt_def]
      exact not_lt.2 hi)
  · rfl

/-- The index of the challenge, if the forgery is accepted and the coefficient of the pivot was asked before. -/
noncomputable def forkIndex {q : ℕ} (S : Setting) (H : Hash) (Fit : List Point → Prop) (A : GroupForger) (ω : Fin q → Arr 32) : Option (Fin q) :=
  open Classical in
  if h : Wins S H Fit A (answers ω) ∧ coefficientIndex S H (A.run S H (answers ω) []) < challengeIndex H (A.run S H (answers ω) [])
      ∧ challengeIndex H (A.run S H (answers ω) []) < q then some ⟨_, h.2.2⟩ else none

theorem forkIndex_eq_some {q : ℕ} {A : GroupForger} {ω : Fin q → Arr 32} {j : Fin q} (h : forkIndex S H Fit A ω = some j) :
    Wins S H Fit A (answers ω) ∧ coefficientIndex S H (A.run S H (answers ω) []) < j.1 ∧
      challengeIndex H (A.run S H (answers ω) []) = j.1 := by
  unfold forkIndex at h
  split at h
  · rename_i hh
    cases h
    exact ⟨hh.1, hh.2.1, rfl⟩
  · cases h

theorem forkIndex_ne_none {q : ℕ} {A : GroupForger} (hA : AsksAtMost S q A) (ω : Fin (q + 2) → Arr 32)
    (h : Wins S H Fit A (answers ω))
    (hi : coefficientIndex S H (A.run S H (answers ω) []) < challengeIndex H (A.run S H (answers ω) [])) :
    forkIndex S H Fit A ω ≠ none := by
  have h1 := challengeIndex_lt (S := S) (H := H) (answers ω) A
  have h2 := run_length (H := H) (answers ω) hA []
  unfold forkIndex
  rw [dif_pos ⟨h, hi, by simp only [List.length_nil] at h2; omega⟩]
  exact Option.some_ne_none _

/-- The pair of sequences reveals the key of the group. -/
def Reveals {q : ℕ} (S : Setting) (H : Hash) (Fit : List Point → Prop) (A : GroupForger) (p : (Fin q → Arr 32) × (Fin q → Arr 32)) : Prop :=
  ∃ j, forkIndex S H Fit A p.1 = some j ∧ forkIndex S H Fit A (splice j p.1 p.2) = some j ∧
    ¬ reduceFrom (p.1 j) = reduceFrom (p.2 j)

theorem secret_of_reveals {q : ℕ} {A : GroupForger} {ω ω' : Fin q → Arr 32} (h : Reveals S H Fit A (ω, ω')) :
    groupSecret S H A ω ω' • G = (runKey S H A (answers ω)).1 := by
  obtain ⟨j, h1, h2, hne⟩ := h
  obtain ⟨hw, -, hj⟩ := forkIndex_eq_some h1
  obtain ⟨hw', -, hj'⟩ := forkIndex_eq_some h2
  have key := secret_of_fork A (answers ω) (answers (splice j ω ω')) j.1 hj hj' (answers_splice j ω ω') hw hw' ?_
  · unfold groupSecret
    simp only
    rw [hj, rewind_eq_splice]
    rw [answers_of_lt, answers_of_lt, splice_self] at key
    rw [answers_of_lt, answers_of_lt]
    exact key
  · rw [answers_of_lt, answers_of_lt, splice_self]
    exact hne

/-- The index of the coefficient, if the pair of sequences reveals the key of the group. -/
noncomputable def forkIndex2 {q : ℕ} (S : Setting) (H : Hash) (Fit : List Point → Prop) (A : GroupForger) (p : Fin q → Arr 32 × Arr 32) :
    Option (Fin q) :=
  open Classical in
  if h : Reveals S H Fit A (fun k => (p k).1, fun k => (p k).2) ∧
      coefficientIndex S H (A.run S H (answers fun k => (p k).1) []) < q then some ⟨_, h.2⟩ else none

theorem forkIndex2_eq_some {q : ℕ} {A : GroupForger} {p : Fin q → Arr 32 × Arr 32} {i : Fin q}
    (h : forkIndex2 S H Fit A p = some i) : Reveals S H Fit A (fun k => (p k).1, fun k => (p k).2) ∧
      coefficientIndex S H (A.run S H (answers fun k => (p k).1) []) = i.1 := by
  unfold forkIndex2 at h
  split at h
  · rename_i hh
    cases h
    exact ⟨hh.1, rfl⟩
  · cases h

theorem forkIndex2_ne_none {q : ℕ} {A : GroupForger} (p : Fin q → Arr 32 × Arr 32) :
    forkIndex2 S H Fit A p ≠ none ↔ Reveals S H Fit A (fun k => (p k).1, fun k => (p k).2) := by
  unfold forkIndex2
  constructor
  · intro h
    by_contra hn
    exact h (dif_neg fun x => hn x.1)
  · intro h
    have hc := h
    obtain ⟨j, h1, -, -⟩ := hc
    obtain ⟨-, hi, -⟩ := forkIndex_eq_some h1
    rw [dif_pos ⟨h, by exact hi.trans j.2⟩]
    exact Option.some_ne_none _

/-- Two sequences that differ before the challenge only in their second halves lead to the same secret. -/
theorem groupSecret_splice {q : ℕ} {A : GroupForger} {ω ω₂ ω₄ : Fin q → Arr 32} {i : Fin q}
    (hi : i.1 < challengeIndex H (A.run S H (answers ω) [])) :
    groupSecret S H A ω (splice i ω₂ ω₄) = groupSecret S H A ω ω₄ := by
  have h1 : rewind (challengeIndex H (A.run S H (answers ω) [])) ω (splice i ω₂ ω₄)
      = rewind (challengeIndex H (A.run S H (answers ω) [])) ω ω₄ := by
    funext k
    unfold rewind
    split
    · rfl
    · rename_i hk
      exact if_neg (by
        intro hlt
        have : k.1 < i.1 := hlt
        omega)
  have h2 := answers_splice_ge i ω₂ ω₄ hi.le
  unfold groupSecret
  simp only
  rw [h1, h2]

/-- Four sequences that fork at the coefficient and at the challenges reveal the secret key of the pivot. -/
theorem extract_of_indices {q : ℕ} {A : GroupForger} (hL : NoListCollision S H A) {p p' : Fin q → Arr 32 × Arr 32} {i : Fin q}
    (h : forkIndex2 S H Fit A p = some i) (h' : forkIndex2 S H Fit A (splice i p p') = some i)
    (hne : ¬ reduceFrom (p i).1 = reduceFrom (p' i).1) :
    Pivotal S Fit (A.run S H (answers fun k => (p k).1) []).keys ∧
    extract S H A (fun k => (p k).1) (fun k => (p k).2) (fun k => (p' k).1) (fun k => (p' k).2) • G
      = (S.pivot (A.run S H (answers fun k => (p k).1) []).keys).1 ∧
    groupSecret S H A (fun k => (p k).1) (fun k => (p k).2) • G = (runKey S H A (answers fun k => (p k).1)).1 := by
  obtain ⟨hr, hi⟩ := forkIndex2_eq_some h
  obtain ⟨hr', hi'⟩ := forkIndex2_eq_some h'
  have e1 : (fun k => (splice i p p' k).1) = splice i (fun k => (p k).1) (fun k => (p' k).1) := by
    funext k
    unfold splice
    split <;> rfl
  have e2 : (fun k => (splice i p p' k).2) = splice i (fun k => (p k).2) (fun k => (p' k).2) := by
    funext k
    unfold splice
    split <;> rfl
  rw [e1, e2] at hr'
  rw [e1] at hi'
  have hs := secret_of_reveals hr
  have hs' := secret_of_reveals hr'
  obtain ⟨j, f1, -, -⟩ := hr
  obtain ⟨j', f1', -, -⟩ := hr'
  obtain ⟨hw, -, -⟩ := forkIndex_eq_some f1
  obtain ⟨hw', hlt', hj'⟩ := forkIndex_eq_some f1'
  simp only at hs hs' hw hw' hlt' hj'
  rw [hi'] at hlt'
  rw [groupSecret_splice (by rw [hj']; exact hlt')] at hs'
  refine ⟨hw.1, ?_, hs⟩
  have hsub := key_sub A hL _ _ i.1 hi hi' (answers_splice i _ _) hw hw'
  unfold extract
  simp only
  rw [hi, rewind_eq_splice, div_eq_inv_mul, mul_smul, sub_smul, hs, hs', hsub, smul_smul]
  rw [answers_splice_ge i _ _ le_rfl, answers_of_lt, answers_of_lt]
  rw [inv_mul_cancel₀, one_smul]
  exact mul_ne_zero (sub_ne_zero.2 hne) hw.count_ne_zero

/-! ## Coefficients that are asked after the challenge -/

/-- The forgery is accepted, though the coefficient of the pivot was asked, at `i`, after the challenge, at `j`. -/
def Late {q : ℕ} (S : Setting) (H : Hash) (Fit : List Point → Prop) (A : GroupForger) (j i : ℕ) (ω : Fin q → Arr 32) : Prop :=
  Wins S H Fit A (answers ω) ∧ coefficientIndex S H (A.run S H (answers ω) []) = i ∧
    challengeIndex H (A.run S H (answers ω) []) = j

theorem answers_update {q : ℕ} (i : Fin q) (ω : Fin q → Arr 32) (a b : Arr 32) :
    ∀ k < i.1, answers (Function.update ω i a) k = answers (Function.update ω i b) k := by
  intro k hk
  unfold answers
  have hne : (⟨k, hk.trans i.2⟩ : Fin q) ≠ i := fun e => by
    have := congrArg Fin.val e
    simp only at this
    omega
  rw [dif_pos (hk.trans i.2), dif_pos (hk.trans i.2), Function.update_of_ne hne, Function.update_of_ne hne]

/-- At most four answers lead to that. -/
theorem late_ncard_le {q : ℕ} {A : GroupForger} (hL : NoListCollision S H A) (j : ℕ) (i : Fin q) (hji : j < i.1)
    (ω : Fin q → Arr 32) : {a | Late S H Fit A j i.1 (Function.update ω i a)}.ncard ≤ 4 := by
  classical
  by_cases hE : ∃ b, Late S H Fit A j i.1 (Function.update ω i b)
  swap
  · have : {a | Late S H Fit A j i.1 (Function.update ω i a)} = ∅ := by
      ext a
      simp only [Set.mem_setOf_eq, Set.mem_empty_iff_false, iff_false]
      exact fun h => hE ⟨a, h⟩
    rw [this, Set.ncard_empty]
    exact Nat.zero_le _
  obtain ⟨b, hb⟩ := hE
  set Q := runKey S H A (answers (Function.update ω i b)) with hQ
  set m := (((A.run S H (answers (Function.update ω i b)) []).keys.count
    (S.pivot (A.run S H (answers (Function.update ω i b)) []).keys) : ℕ) : MaybeScalar) with hm
  set W := S.pivot (A.run S H (answers (Function.update ω i b)) []).keys with hW
  obtain ⟨w, hw⟩ := exists_dlog W.1
  have hw0 : W.1 ≠ 0 := W.2
  have hm0 : m ≠ 0 := hb.1.count_ne_zero
  -- the two reductions
  have hsub : ∀ a, Late S H Fit A j i.1 (Function.update ω i a) →
      ((reduceFrom a - reduceFrom b) * m) • W.1 = 0 ∨ ((reduceFrom a - reduceFrom b) * m) • W.1 = -Q.1 - Q.1 := by
    intro a ha
    have hs := key_sub A hL _ _ i.1 hb.2.1 ha.2.1 (answers_update i ω b a) hb.1 ha.1
    rw [answers_of_lt, answers_of_lt, Function.update_self, Function.update_self] at hs
    have hq := run_causal (S := S) (H := H) _ _ j
      (fun k hk => answers_update i ω b a k (hk.trans hji)) A [] (Nat.zero_le _)
    have hl := log_chal (S := S) (H := H) (answers (Function.update ω i b)) A
    have hl' := log_chal (S := S) (H := H) (answers (Function.update ω i a)) A
    rw [hb.2.2] at hl
    rw [ha.2.2] at hl'
    rw [hl, hl'] at hq
    simp only [Option.map_some, Option.some.injEq] at hq
    obtain ⟨-, hx⟩ := challengeQuery_inj' hq
    have hx' : xonly (runKey S H A (answers (Function.update ω i a))).1 = xonly Q.1 := hx.symm
    have hs' : ((reduceFrom a - reduceFrom b) * m) • W.1 = (runKey S H A (answers (Function.update ω i a))).1 - Q.1 := by
      rw [← neg_sub (Q.1), hs, ← neg_smul, ← neg_mul, neg_sub]
    rw [hs']
    rcases xonly_eq_iff.1 hx' with h | h
    · left
      rw [h, sub_self]
    · right
      rw [h]
  obtain ⟨d, hd⟩ : ∃ d : MaybeScalar, (d * m) • W.1 = -Q.1 - Q.1 := by
    obtain ⟨t, ht⟩ := exists_dlog (-Q.1 - Q.1)
    have hw1 : w ≠ 0 := by
      rintro rfl
      rw [zero_smul] at hw
      exact hw0 hw.symm
    refine ⟨t / w / m, ?_⟩
    rw [div_mul_cancel₀ _ hm0, ← ht, ← hw, smul_smul, div_mul_cancel₀ _ hw1]
  have hset : {a | Late S H Fit A j i.1 (Function.update ω i a)}
      ⊆ {a : Arr 32 | beNat a.1 % orderN = (reduceFrom b).val} ∪ {a : Arr 32 | beNat a.1 % orderN = (reduceFrom b + d).val} := by
    intro a ha
    rcases hsub a ha with h | h
    · left
      have h1 := (smul_eq_zero_iff.1 h).resolve_right hw0
      have h2 := sub_eq_zero.1 ((mul_eq_zero.1 h1).resolve_right hm0)
      change _ = _
      rw [← h2, reduceFrom_val]
    · right
      rw [← hd] at h
      have h1 := mul_right_cancel₀ hm0 (smul_left_cancel hw0 h)
      have h2 : reduceFrom a = reduceFrom b + d := by rw [← h1]; ring
      change _ = _
      rw [← h2, reduceFrom_val]
  refine (Set.ncard_le_ncard hset (Set.toFinite _)).trans ((Set.ncard_union_le _ _).trans ?_)
  have h1 := ncard_mod_le (reduceFrom b).val
  have h2 := ncard_mod_le (reduceFrom b + d).val
  omega

/-! ## Counting -/

theorem forges_iff {q : ℕ} {A : GroupForger} (hFit : ∀ keys, Fit keys → Pivotal S Fit keys) (ω : Fin q → Arr 32) :
    A.Forges S H Fit ω ↔ Wins S H Fit A (answers ω) :=
  ⟨fun h => ⟨hFit _ h.1, h.2⟩, fun h => ⟨h.1.fit, h.2⟩⟩

section
open Classical Finset

variable [Fintype (Arr 32)]

theorem card_arr : Fintype.card (Arr 32) = 2 ^ 256 := by
  rw [← Nat.card_eq_fintype_card, arr_card]; norm_num

/-- Accepted forgeries with a late coefficient are rare. -/
theorem late_card_le {q : ℕ} {A : GroupForger} (hL : NoListCollision S H A) (hA : AsksAtMost S q A) :
    2 ^ 256 * #{ω : Fin (q + 2) → Arr 32 | Wins S H Fit A (answers ω) ∧ forkIndex S H Fit A ω = none}
      ≤ 2 * (q + 2) ^ 2 * Fintype.card (Fin (q + 2) → Arr 32) := by
  have hsub : (univ.filter fun ω : Fin (q + 2) → Arr 32 => Wins S H Fit A (answers ω) ∧ forkIndex S H Fit A ω = none)
      ⊆ univ.biUnion fun i : Fin (q + 2) => (range i.1).biUnion fun j =>
        univ.filter fun ω : Fin (q + 2) → Arr 32 => Late S H Fit A j i.1 ω := by
    intro ω hω
    rw [mem_filter] at hω
    obtain ⟨-, hw, hn⟩ := hω
    have h1 := coefficientIndex_lt (S := S) (H := H) (answers ω) A
    have h2 := run_length (H := H) (answers ω) hA []
    simp only [List.length_nil, zero_add] at h2
    have h3 := index_ne (S := S) (H := H) (answers ω) A
    have h4 : challengeIndex H (A.run S H (answers ω) []) < coefficientIndex S H (A.run S H (answers ω) []) := by
      by_contra hc
      exact forkIndex_ne_none hA ω hw (lt_of_le_of_ne (not_lt.1 hc) h3) hn
    rw [mem_biUnion]
    refine ⟨⟨coefficientIndex S H (A.run S H (answers ω) []), h1.trans_le h2⟩, mem_univ _, ?_⟩
    rw [mem_biUnion]
    refine ⟨_, mem_range.2 h4, ?_⟩
    rw [mem_filter]
    exact ⟨mem_univ _, hw, rfl, rfl⟩
  have hterm : ∀ (i : Fin (q + 2)) (j : ℕ), j ∈ range i.1 →
      2 ^ 256 * #{ω : Fin (q + 2) → Arr 32 | Late S H Fit A j i.1 ω} ≤ 4 * Fintype.card (Fin (q + 2) → Arr 32) := by
    intro i j hj
    have := card_update_le (A := Arr 32) i (Late S H Fit A j i.1) 4 fun ω => by
      have h := late_ncard_le (Fit := Fit) hL j i (mem_range.1 hj) ω
      rw [Set.ncard_eq_toFinset_card'] at h
      convert h using 2
      ext a
      simp
    rwa [card_arr] at this
  set W := Fintype.card (Fin (q + 2) → Arr 32)
  calc _ ≤ 2 ^ 256 * ∑ i : Fin (q + 2), ∑ j ∈ range i.1, #{ω : Fin (q + 2) → Arr 32 | Late S H Fit A j i.1 ω} := by
        refine Nat.mul_le_mul_left _ ((card_le_card hsub).trans (card_biUnion_le.trans ?_))
        exact sum_le_sum fun i _ => card_biUnion_le
    _ = ∑ i : Fin (q + 2), ∑ j ∈ range i.1, 2 ^ 256 * #{ω : Fin (q + 2) → Arr 32 | Late S H Fit A j i.1 ω} := by
        rw [mul_sum]
        exact sum_congr rfl fun i _ => mul_sum _ _ _
    _ ≤ ∑ i : Fin (q + 2), ∑ j ∈ range i.1, 4 * W := sum_le_sum fun i _ => sum_le_sum fun j hj => hterm i j hj
    _ = (∑ i : Fin (q + 2), i.1) * (4 * W) := by
        rw [sum_mul]
        refine sum_congr rfl fun i _ => ?_
        rw [sum_const, card_range, smul_eq_mul]
    _ = (∑ i ∈ range (q + 2), i) * 2 * (2 * W) := by
        rw [Fin.sum_univ_eq_sum_range (fun i => i)]
        ring
    _ = (q + 2) * (q + 2 - 1) * (2 * W) := by rw [sum_range_id_mul_two]
    _ ≤ (q + 2) * (q + 2) * (2 * W) := Nat.mul_le_mul_right _ (Nat.mul_le_mul_left _ (Nat.sub_le _ _))
    _ = 2 * (q + 2) ^ 2 * W := by ring

end

end GroupForger

/-! ## Arithmetic -/

theorem forked_mono (q : ℕ) {s t : ℚ} (hs : 0 ≤ s) (h : s ≤ t) : Spec.forked q s ≤ Spec.forked q t := by
  unfold Spec.forked
  obtain ⟨N, hN⟩ : ∃ N : ℚ, N = 2 ^ 256 := ⟨_, rfl⟩
  rw [← hN]
  by_cases hc : s ^ 2 / q - 2 * s / N ≤ 0
  · rw [max_eq_left hc]
    exact le_max_left _ _
  · rw [not_le] at hc
    refine max_le_max le_rfl ?_
    have e : s ^ 2 / q - 2 * s / N = s * (s / q - 2 / N) := by ring
    rw [e] at hc
    have h1 : 0 < s / q - 2 / N := by
      by_contra hn
      exact absurd (mul_nonpos_of_nonneg_of_nonpos hs (not_lt.1 hn)) (not_le.2 hc)
    have h2 : s / q ≤ t / q := div_le_div_of_nonneg_right h (Nat.cast_nonneg q)
    have h3 : t ^ 2 / q - 2 * t / N - (s ^ 2 / q - 2 * s / N) = (t - s) * (t / q + (s / q - 2 / N)) := by ring
    have h4 : 0 ≤ (t - s) * (t / q + (s / q - 2 / N)) := by
      refine mul_nonneg (sub_nonneg.2 h) (add_nonneg ?_ h1.le)
      exact div_nonneg (hs.trans h) (Nat.cast_nonneg q)
    linarith

theorem forked_le {q x y W : ℕ} (hq : 0 < q) (hW : 0 < W)
    (h : 2 ^ 256 * x ^ 2 ≤ q * (2 ^ 256 * y + 2 * x * W)) : Spec.forked q (x / W) ≤ y / (W * W) := by
  unfold Spec.forked
  have hWq : (0 : ℚ) < W := by exact_mod_cast hW
  have hqq : (0 : ℚ) < (q : ℚ) := by exact_mod_cast hq
  refine max_le (by positivity) ?_
  have hFq : (2 ^ 256 : ℚ) * (x : ℚ) ^ 2 ≤ q * (2 ^ 256 * y + 2 * x * W) := by exact_mod_cast h
  obtain ⟨N, hN⟩ : ∃ N : ℚ, N = 2 ^ 256 := ⟨_, rfl⟩
  have hN0 : 0 < N := by rw [hN]; positivity
  rw [← hN] at hFq ⊢
  have e : ((x : ℚ) / W) ^ 2 / q - 2 * (x / W) / N = (N * x ^ 2 - q * (2 * x * W)) / (N * q * (W * W)) := by
    field_simp
  rw [e, div_le_div_iff₀ (by positivity) (by positivity)]
  have : N * (x : ℚ) ^ 2 - q * (2 * x * W) ≤ q * (N * y) := by linarith
  calc (N * (x : ℚ) ^ 2 - q * (2 * x * W)) * (W * W) ≤ (q * (N * y)) * (W * W) := by gcongr
    _ = y * (N * q * (W * W)) := by ring

namespace GroupForger

open Forger

open Classical in
/-- The bound, for what follows from forks at the coefficient and at the challenges. -/
theorem nested_bound {S : Setting} {H : Hash} {Fit : List Point → Prop} {A : GroupForger} {q : ℕ} (hA : AsksAtMost S q A)
    (hL : NoListCollision S H A) (hFit : ∀ keys, Fit keys → Pivotal S Fit keys)
    (E : ((Fin (q + 2) → Arr 32) × (Fin (q + 2) → Arr 32)) × ((Fin (q + 2) → Arr 32) × (Fin (q + 2) → Arr 32)) → Prop)
    (hE : ∀ p, Wins S H Fit A (answers p.1.1) → extract S H A p.1.1 p.1.2 p.2.1 p.2.2 • G
        = (S.pivot (A.run S H (answers p.1.1) []).keys).1 →
      groupSecret S H A p.1.1 p.1.2 • G = (runKey S H A (answers p.1.1)).1 → E p) :
    Spec.forked (q + 2) (Spec.forked (q + 2)
        (max 0 (Spec.chance (fun ω : Fin (q + 2) → Arr 32 => A.Forges S H Fit ω) - 2 * (q + 2 : ℕ) ^ 2 / 2 ^ 256)))
      ≤ Spec.chance E := by
  let _ : Fintype (Arr 32) := Fintype.ofFinite _
  have hcard := card_arr
  have hbad : ∀ a : Arr 32, (Finset.univ.filter fun a' : Arr 32 => reduceFrom a = reduceFrom a').card ≤ 2 := by
    intro a
    have h := ncard_mod_le (reduceFrom a).val
    rw [Set.ncard_eq_toFinset_card'] at h
    refine (Finset.card_le_card fun a' ha' => ?_).trans h
    rw [Finset.mem_filter] at ha'
    rw [Set.mem_toFinset]
    change beNat a'.1 % orderN = _
    rw [← reduceFrom_val, ha'.2]
  have hbad2 : ∀ a : Arr 32 × Arr 32, (Finset.univ.filter fun a' : Arr 32 × Arr 32 =>
      reduceFrom a.1 = reduceFrom a'.1).card ≤ 2 * 2 ^ 256 := by
    intro a
    have e : (Finset.univ.filter fun a' : Arr 32 × Arr 32 => reduceFrom a.1 = reduceFrom a'.1)
        = (Finset.univ.filter fun a' : Arr 32 => reduceFrom a.1 = reduceFrom a') ×ˢ Finset.univ := by
      ext x
      simp
    rw [e, Finset.card_product, Finset.card_univ, hcard]
    exact Nat.mul_le_mul_right _ (hbad a.1)
  -- the first fork
  have hF := forking_count (forkIndex S H Fit A (q := q + 2)) (fun a a' => reduceFrom a = reduceFrom a') 2 hbad
  have hF2 := forking_count (forkIndex2 S H Fit A (q := q + 2)) (fun a a' => reduceFrom a.1 = reduceFrom a'.1) _ hbad2
  have hlate := late_card_le (Fit := Fit) hL hA
  set W := Fintype.card (Fin (q + 2) → Arr 32) with hW
  have hW2 : Fintype.card (Fin (q + 2) → Arr 32 × Arr 32) = W * W := by
    rw [Fintype.card_congr (Equiv.arrowProdEquivProdArrow (Fin (q + 2)) (fun _ => Arr 32) (fun _ => Arr 32)), Fintype.card_prod]
  set b := (Finset.univ.filter fun ω : Fin (q + 2) → Arr 32 => Wins S H Fit A (answers ω) ∧ forkIndex S H Fit A ω = none).card
  set x := (Finset.univ.filter fun ω => forkIndex S H Fit A (q := q + 2) ω ≠ none).card with hx
  set y := (Finset.univ.filter fun p : (Fin (q + 2) → Arr 32) × (Fin (q + 2) → Arr 32) =>
    ∃ j, forkIndex S H Fit A p.1 = some j ∧ forkIndex S H Fit A (splice j p.1 p.2) = some j ∧
      ¬ reduceFrom (p.1 j) = reduceFrom (p.2 j)).card with hy
  set z := (Finset.univ.filter fun p : (Fin (q + 2) → Arr 32 × Arr 32) × (Fin (q + 2) → Arr 32 × Arr 32) =>
    ∃ j, forkIndex2 S H Fit A p.1 = some j ∧ forkIndex2 S H Fit A (splice j p.1 p.2) = some j ∧
      ¬ reduceFrom (p.1 j).1 = reduceFrom (p.2 j).1).card with hz
  have hy2 : (Finset.univ.filter fun ω => forkIndex2 S H Fit A (q := q + 2) ω ≠ none).card = y := by
    refine Finset.card_equiv (Equiv.arrowProdEquivProdArrow (Fin (q + 2)) (fun _ => Arr 32) (fun _ => Arr 32)) fun p => ?_
    simp only [Finset.mem_filter, Finset.mem_univ, true_and]
    exact forkIndex2_ne_none p
  rw [hy2, Fintype.card_prod, hcard, hW2] at hF2
  rw [hcard] at hF
  have hW0 : 0 < W := Fintype.card_pos_iff.2 ⟨fun _ => zeroSeed⟩
  have hWq : (0 : ℚ) < W := by exact_mod_cast hW0
  have s1 : Spec.forked (q + 2) (x / W) ≤ y / (W * W) := forked_le (by omega) hW0 hF
  have s2 : Spec.forked (q + 2) ((y : ℚ) / (W * W : ℕ)) ≤ z / ((W * W : ℕ) * (W * W : ℕ)) := by
    refine forked_le (by omega) (Nat.mul_pos hW0 hW0) ?_
    refine Nat.le_of_mul_le_mul_left ?_ (show 0 < 2 ^ 256 by positivity)
    calc 2 ^ 256 * (2 ^ 256 * y ^ 2) = 2 ^ 256 * 2 ^ 256 * y ^ 2 := by ring
      _ ≤ _ := hF2
      _ = _ := by ring
  have hacc : Spec.chance (fun ω : Fin (q + 2) → Arr 32 => A.Forges S H Fit ω) ≤ (x + b : ℕ) / W := by
    unfold Spec.chance
    rw [Nat.card_eq_fintype_card, Set.ncard_eq_toFinset_card']
    refine div_le_div_of_nonneg_right (Nat.cast_le.2 ?_) hWq.le
    refine (Finset.card_le_card fun ω hω => ?_).trans (Finset.card_union_le _ _)
    rw [Set.mem_toFinset] at hω
    have hw := (forges_iff hFit ω).1 hω
    rw [Finset.mem_union, Finset.mem_filter, Finset.mem_filter]
    by_cases hn : forkIndex S H Fit A ω = none
    · exact .inr ⟨Finset.mem_univ _, hw, hn⟩
    · exact .inl ⟨Finset.mem_univ _, hn⟩
  have hb : (b : ℚ) / W ≤ 2 * (q + 2 : ℕ) ^ 2 / 2 ^ 256 := by
    have hl : (2 ^ 256 : ℚ) * b ≤ 2 * (q + 2 : ℕ) ^ 2 * W := by exact_mod_cast hlate
    rw [div_le_div_iff₀ hWq (by positivity)]
    linarith
  have hmax : max 0 (Spec.chance (fun ω : Fin (q + 2) → Arr 32 => A.Forges S H Fit ω) - 2 * (q + 2 : ℕ) ^ 2 / 2 ^ 256)
      ≤ (x : ℚ) / W := by
    refine max_le (by positivity) ?_
    rw [Nat.cast_add, add_div] at hacc
    linarith
  have hext : (z : ℚ) / ((W * W : ℕ) * (W * W : ℕ)) ≤ Spec.chance E := by
    unfold Spec.chance
    rw [Nat.card_prod, Nat.card_prod, Nat.card_eq_fintype_card, Set.ncard_eq_toFinset_card', ← Nat.cast_mul]
    refine div_le_div_of_nonneg_right (Nat.cast_le.2 ?_) (Nat.cast_nonneg _)
    let e := (Equiv.arrowProdEquivProdArrow (Fin (q + 2)) (fun _ => Arr 32) (fun _ => Arr 32))
    refine Finset.card_le_card_of_injOn (Equiv.prodCongr e e) (fun p hp => ?_) (Equiv.injective _).injOn
    rw [Finset.mem_coe, Finset.mem_filter] at hp
    obtain ⟨-, i, h1, h2, h3⟩ := hp
    rw [Finset.mem_coe, Set.mem_toFinset]
    obtain ⟨h4, h5⟩ := extract_of_indices hL h1 h2 h3
    obtain ⟨hr, -⟩ := forkIndex2_eq_some h1
    obtain ⟨j, f1, -, -⟩ := hr
    exact hE _ (forkIndex_eq_some f1).1 h5.1 h5.2
  refine le_trans ?_ hext
  refine (forked_mono _ (le_max_left _ _) ?_).trans s2
  refine (forked_mono _ (le_max_left _ _) hmax).trans ?_
  rw [Nat.cast_mul]
  exact s1

/-! ## The second of two members -/

theorem secondOfTwo_second {P : Point} {keys : List Point} (h : SecondOfTwo P keys) : secondKey keys = some P := by
  obtain ⟨X, others, rfl, hne, hP, hall⟩ := h
  change (others.find? fun pubkey => decide (pubkey ≠ X)) = some P
  induction others with
  | nil => cases hP
  | cons K l ih =>
    rw [List.find?_cons]
    by_cases hK : K = X
    · rw [decide_eq_false (not_not.2 hK)]
      refine ih ?_ fun K' hK' => hall K' (List.mem_cons_of_mem _ hK')
      rcases List.mem_cons.1 hP with e | e
      · exact absurd (e.trans hK).symm hne
      · exact e
    · rw [decide_eq_true hK]
      simp only
      rw [(hall K List.mem_cons_self).resolve_left hK]

theorem pivotal_of_second {P : Point} {keys : List Point} (h : SecondOfTwo P keys) :
    Pivotal (ofOthers P) (SecondOfTwo P) keys := by
  have h2 := secondOfTwo_second h
  have hc := h
  obtain ⟨X, others, rfl, hne, hP, hall⟩ := h
  refine ⟨hc, List.mem_cons_self, hne, ?_, fun K hK hKX => ?_⟩
  · rw [h2]
    exact fun e => hne (Option.some.inj e).symm
  · left
    rw [h2]
    rcases List.mem_cons.1 hK with e | e
    · exact absurd e hKX
    · exact congrArg some ((hall K e).resolve_left hKX).symm

theorem rest_second {P : Point} {keys : List Point} (h : SecondOfTwo P keys) :
    rest (ofOthers P) H keys = ((keys.count P : ℕ) : MaybeScalar) • P.1 := by
  have h2 := secondOfTwo_second h
  obtain ⟨X, others, rfl, hne, hP, hall⟩ := h
  have hl : (X :: others).filter (· ≠ X) = List.replicate ((X :: others).count P) P := by
    rw [List.eq_replicate_iff]
    have hmem : ∀ K ∈ (X :: others).filter (· ≠ X), K = P := by
      intro K hK
      rw [List.mem_filter] at hK
      have hKX : K ≠ X := by simpa using hK.2
      rcases List.mem_cons.1 hK.1 with e | e
      · exact absurd e hKX
      · exact (hall K e).resolve_left hKX
    refine ⟨?_, hmem⟩
    rw [← List.count_filter (p := (· ≠ X)) (by simpa using hne.symm)]
    exact (List.count_eq_length.2 fun K hK => (hmem K hK).symm).symm
  unfold rest
  change (((X :: others).filter (· ≠ X)).map _).sum = _
  rw [hl, List.map_replicate, List.sum_replicate, coeffOf_second h2, one_smul]
  rw [Nat.cast_smul_eq_nsmul]

theorem second_of_extract {P : Point} {A : GroupForger} {q : ℕ}
    {p : ((Fin q → Arr 32) × (Fin q → Arr 32)) × ((Fin q → Arr 32) × (Fin q → Arr 32))}
    (hw : Wins (ofOthers P) H (SecondOfTwo P) A (answers p.1.1))
    (he : extract (ofOthers P) H A p.1.1 p.1.2 p.2.1 p.2.2 • G
      = ((ofOthers P).pivot (A.run (ofOthers P) H (answers p.1.1) []).keys).1)
    (hg : groupSecret (ofOthers P) H A p.1.1 p.1.2 • G = (runKey (ofOthers P) H A (answers p.1.1)).1) :
    A.extractSecond H P p.1.1 p.1.2 p.2.1 p.2.2 • G = P.1 := by
  have hk := hw.key
  rw [rest_second hw.1.fit, ← he] at hk
  have hP : P ∈ (A.run (ofOthers P) H (answers p.1.1) []).keys := by
    obtain ⟨X, others, e, -, h, -⟩ := hw.1.fit
    rw [e]
    exact List.mem_cons_of_mem _ h
  have h1 := List.count_pos_iff.2 hP
  have h2 := (List.count_le_length (a := P) (l := (A.run (ofOthers P) H (answers p.1.1) []).keys)).trans hw.spec.2.1
  have h3 : (((A.run (ofOthers P) H (answers p.1.1) []).keys.count P : ℕ) : MaybeScalar) ≠ 0 := by
    have h3 : u32Max < orderN := by decide +kernel
    intro e
    rw [ZMod.natCast_eq_zero_iff] at e
    have := Nat.le_of_dvd h1 e
    omega
  unfold extractSecond
  simp only
  rw [div_eq_inv_mul, mul_smul, sub_smul, hg, hk, mul_assoc, mul_smul, mul_smul, add_sub_cancel_left, smul_smul,
    inv_mul_cancel₀ h3, one_smul]

/-! ## Example: a forger who knows the secret keys -/

/-- The group of `G` and `-G`. -/
def pairKeys : List Point := [Gpt, negGpt]

theorem pairKeys_second : secondKey pairKeys = some negGpt := by
  change ([negGpt].find? fun pubkey => decide (pubkey ≠ Gpt)) = some negGpt
  simp [negGpt_ne]

/-- The key of that group when the coefficient of `G` is `a`. -/
noncomputable def exKey (a : MaybeScalar) : Point :=
  open Classical in if h : (a - 1) • G ≠ 0 then ⟨(a - 1) • G, h⟩ else Gpt

/-- The forger asks for the coefficient of `G` and for the challenge, and signs with the secret key. -/
noncomputable def exForger (H : Hash) : GroupForger :=
  .ask (Spec.coeffQuery H pairKeys Gpt) fun a =>
    .ask (Spec.challengeQuery (xonly G).1 (exKey (reduceFrom a)) []) fun e =>
      .submit pairKeys [] ⟨xonly G, 1 + reduceFrom e * (Spec.sgn (exKey (reduceFrom a)).1 * (reduceFrom a - 1))⟩

theorem exForger_asks (S : Setting) (H : Hash) : AsksAtMost S 2 (exForger H) :=
  .ask 1 _ _ fun _ => .ask 0 _ _ fun _ => .submit 0 _ _ _

theorem exForger_keys (S : Setting) (H : Hash) (ω : ℕ → Arr 32) : ((exForger H).run S H ω []).keys = pairKeys := by
  unfold exForger
  unfold run
  split <;> (unfold run; split <;> rfl)

theorem exForger_noCollision (S : Setting) (H : Hash) : NoListCollision S H (exForger H) := by
  rintro ω ω' keys keys' rfl rfl -
  rw [exForger_keys, exForger_keys]

theorem ex_ne (H : Hash) (P : Point) : Spec.challengeQuery (xonly G).1 P [] ≠ Spec.coeffQuery H pairKeys Gpt := by
  intro e
  have hp := challenge_prefix (xonly G).1 P []
  rw [e, coeffQuery_eq] at hp
  exact not_challenge_coeff _ hp

/-- The log of the run. -/
noncomputable def exLog (H : Hash) (a e : Arr 32) : Log :=
  [(Spec.coeffQuery H pairKeys Gpt, a), (Spec.challengeQuery (xonly G).1 (exKey (reduceFrom a)) [], e)]

theorem exLog_coeff (H : Hash) (a e : Arr 32) : (exLog H a e).find (Spec.coeffQuery H pairKeys Gpt) = some a := by
  unfold exLog Log.find
  simp

theorem exLog_chal (H : Hash) (a e : Arr 32) :
    (exLog H a e).find (Spec.challengeQuery (xonly G).1 (exKey (reduceFrom a)) []) = some e := by
  unfold exLog Log.find
  rw [List.find?_cons, decide_eq_false (fun h => ex_ne H _ h.symm)]
  simp

theorem exLog_keySum (H : Hash) (a e : Arr 32) : keySum ((exLog H a e).hash H) pairKeys = (reduceFrom a - 1) • G := by
  have hL : hashPubkeys ((exLog H a e).hash H) pairKeys = hashPubkeys H pairKeys := by
    refine hashPubkeys_congr (fun r => ?_) _
    have hn : (exLog H a e).find (Spec.taggedInput "KeyAgg list" r) = none := by
      rw [Log.find_eq_none]
      unfold exLog
      simp only [List.map_cons, List.map_nil, List.mem_cons, List.not_mem_nil, or_false, not_or]
      constructor
      · rw [coeffQuery_eq]
        exact C66_domain_separation _ _ (by simp [Spec.tags]) (by simp [Spec.tags]) (by decide) _ _
      · intro h
        have hp := challenge_prefix (xonly G).1 (exKey (reduceFrom a)) []
        rw [← h] at hp
        exact not_challenge_list _ hp
    unfold Log.hash
    rw [hn]
    rfl
  have h1 : coeffOf ((exLog H a e).hash H) pairKeys Gpt = reduceFrom a := by
    rw [coeffOf_of_ne (by rw [pairKeys_second]; exact fun h => negGpt_ne (Option.some.inj h))]
    have hq : Spec.coeffQuery ((exLog H a e).hash H) pairKeys Gpt = Spec.coeffQuery H pairKeys Gpt := by
      rw [coeffQuery_eq, coeffQuery_eq, hL]
    rw [hq]
    unfold Log.hash
    rw [exLog_coeff]
    rfl
  have h2 : coeffOf ((exLog H a e).hash H) pairKeys negGpt = 1 := coeffOf_second pairKeys_second
  unfold keySum
  unfold pairKeys at h1 h2 ⊢
  simp only [List.map_cons, List.map_nil, List.sum_cons, List.sum_nil, add_zero]
  rw [h1, h2, one_smul, sub_smul, one_smul, sub_eq_add_neg]
  rfl

theorem ex_point {a : Arr 32} (ha : reduceFrom a ≠ 1) : (exKey (reduceFrom a)).1 = (reduceFrom a - 1) • G := by
  have h : (reduceFrom a - 1) • G ≠ 0 := by
    intro h
    rcases smul_eq_zero_iff.1 h with h | h
    · exact ha (sub_eq_zero.1 h)
    · exact Gpt.2 h
  unfold exKey
  rw [dif_pos h]

theorem ex_new (H : Hash) {a : Arr 32} (e : Arr 32) (ha : reduceFrom a ≠ 1) :
    KeyAggContext.new ((exLog H a e).hash H) pairKeys
      = .ok (baseCtx ((exLog H a e).hash H) pairKeys (exKey (reduceFrom a))) := by
  rw [new_eq_ok]
  refine ⟨by unfold pairKeys; simp, by unfold pairKeys u32Max; simp, exKey (reduceFrom a), ?_, rfl⟩
  rw [exLog_keySum, ex_point ha]

theorem ex_groupKey (H : Hash) {a : Arr 32} (e : Arr 32) (ha : reduceFrom a ≠ 1) :
    groupKey ((exLog H a e).hash H) pairKeys = exKey (reduceFrom a) := by
  unfold groupKey
  rw [ex_new H e ha]
  rfl

theorem exForger_run {S : Setting} (hd : S.drawn Gpt) (hp : S.pivot pairKeys = Gpt) (H : Hash) (ω : ℕ → Arr 32)
    (ha : reduceFrom (ω 0) ≠ 1) :
    (exForger H).run S H ω []
      = ⟨pairKeys, [], ⟨xonly G, 1 + reduceFrom (ω 1) * (Spec.sgn (exKey (reduceFrom (ω 0))).1 * (reduceFrom (ω 0) - 1))⟩,
          exLog H (ω 0) (ω 1)⟩ := by
  have d1 : S.Draws (Spec.coeffQuery H pairKeys Gpt) := .inr ⟨hashPubkeys H pairKeys, Gpt, hd, coeffQuery_eq H _ _⟩
  have d2 : ∀ P, S.Draws (Spec.challengeQuery (xonly G).1 P []) := fun P => .inl (challenge_prefix _ _ _)
  have a1 : Log.add ω [] (Spec.coeffQuery H pairKeys Gpt) = [(Spec.coeffQuery H pairKeys Gpt, ω 0)] := rfl
  have b1 : Log.answer ω [] (Spec.coeffQuery H pairKeys Gpt) = ω 0 := rfl
  have hn : Log.find [(Spec.coeffQuery H pairKeys Gpt, ω 0)]
      (Spec.challengeQuery (xonly G).1 (exKey (reduceFrom (ω 0))) []) = none := by
    rw [Log.find_eq_none]
    simp only [List.map_cons, List.map_nil, List.mem_singleton]
    exact ex_ne H _
  have a2 : Log.add ω [(Spec.coeffQuery H pairKeys Gpt, ω 0)]
      (Spec.challengeQuery (xonly G).1 (exKey (reduceFrom (ω 0))) []) = exLog H (ω 0) (ω 1) := by
    unfold Log.add
    rw [hn]
    rfl
  have b2 : Log.answer ω [(Spec.coeffQuery H pairKeys Gpt, ω 0)]
      (Spec.challengeQuery (xonly G).1 (exKey (reduceFrom (ω 0))) []) = ω 1 := by
    unfold Log.answer
    rw [hn]
    rfl
  have a3 : Log.add ω (exLog H (ω 0) (ω 1)) (Spec.coeffQuery H pairKeys Gpt) = exLog H (ω 0) (ω 1) := by
    unfold Log.add
    rw [exLog_coeff]
  have a4 : Log.add ω (exLog H (ω 0) (ω 1)) (Spec.challengeQuery (xonly G).1 (exKey (reduceFrom (ω 0))) [])
      = exLog H (ω 0) (ω 1) := by
    unfold Log.add
    rw [exLog_chal]
  unfold exForger
  rw [run, if_pos d1, a1, b1, run, if_pos (d2 _), a2, b2, run, hp, a3]
  simp only
  rw [ex_groupKey H _ ha, a4]

theorem exForger_forges {S : Setting} {Fit : List Point → Prop} (hd : S.drawn Gpt) (hp : S.pivot pairKeys = Gpt)
    (hF : Fit pairKeys) (H : Hash) {q : ℕ} (ω : Fin (q + 2) → Arr 32) (ha : reduceFrom (ω 0) ≠ 1) :
    (exForger H).Forges S H Fit ω := by
  have h0 : answers ω 0 = ω 0 := rfl
  unfold Forges
  simp only
  rw [exForger_run hd hp H (answers ω) (by rw [h0]; exact ha)]
  simp only [h0]
  generalize answers ω 1 = e
  refine ⟨hF, _, ex_new H e ha, ?_⟩
  change verifySingle _ (exKey (reduceFrom (ω 0))) _ _ = _
  rw [verifySingle_eq_ok, (C66_what_is_hashed _).2.2.2.1]
  refine ⟨Gpt, ?_, isOdd_G, rfl⟩
  have hc : (exLog H (ω 0) e).hash H (Spec.challengeQuery (xonly G).1 (exKey (reduceFrom (ω 0))) []) = e := by
    unfold Log.hash
    rw [exLog_chal]
    rfl
  unfold Spec.challengeQuery at hc
  rw [hc, toEvenY_eq, ex_point ha, add_smul, one_smul, smul_smul, smul_smul, mul_assoc]
  rfl

end GroupForger

end Verif
