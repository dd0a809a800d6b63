import Verif.Spec.AnyGroup
import Verif.Lemmas.ForkAct
import Verif.Lemmas.Props.SoloForger
import Verif.Lemmas.Props.DetForger
import Verif.Lemmas.Props.Oracle

/-!
# Helpers of `Props/AnyGroup`
-/

namespace Verif

namespace AnyForger

open Forger (Log Drawn answers rewind GoodLog find_of_getElem add_same add_getElem rewind_eq_splice
  answers_of_lt)
open GroupForger (Arr.length_eq not_challenge_list not_challenge_coeff challenge_prefix hashPubkeys_congr coeffOf_of_ne
  coeffOf_second new_congr findIdx_getElem? challengeQuery_inj' toEvenY_eq toEvenY_congr answers_splice coeffQuery_eq)

variable {H : Hash} {a : Table}

/-! ## Strings -/

theorem coeffString_inj {c c' : Arr 32 × Point} (h : coeffString c = coeffString c') : c = c' := by
  unfold coeffString Spec.taggedInput at h
  obtain ⟨h2, h3⟩ := List.append_inj (List.append_cancel_left h) (Arr.length_eq _ _)
  rw [spec_cbytes_point, spec_cbytes_point, serPoint_point_inj] at h3
  exact Prod.ext (Subtype.ext h2) h3

theorem isCoeff_coeffString (c : Arr 32 × Point) : IsCoeff (coeffString c) := ⟨c, rfl⟩

theorem choose_coeffString (c : Arr 32 × Point) (h : IsCoeff (coeffString c)) : h.choose = c :=
  (coeffString_inj h.choose_spec).symm

theorem IsCoeff.not_drawn {x : Bytes} (h : IsCoeff x) : ¬ Drawn x := by
  obtain ⟨c, rfl⟩ := h
  exact not_challenge_coeff _

theorem not_isCoeff_list (r : Bytes) : ¬ IsCoeff (Spec.taggedInput "KeyAgg list" r) := by
  rintro ⟨c, e⟩
  exact C66_domain_separation _ _ (by simp [Spec.tags]) (by simp [Spec.tags]) (by decide) _ _ e

theorem drawn_challenge (rx : Bytes) (P : Point) (msg : Bytes) : Drawn (Spec.challengeQuery rx P msg) :=
  challenge_prefix _ _ _

theorem not_isCoeff_challenge (rx : Bytes) (P : Point) (msg : Bytes) : ¬ IsCoeff (Spec.challengeQuery rx P msg) :=
  fun h => h.not_drawn (drawn_challenge _ _ _)

theorem hashOf_coeff (log : Log) (c : Arr 32 × Point) : hashOf H a log (coeffString c) = a c := by
  unfold hashOf
  rw [dif_pos (isCoeff_coeffString c), choose_coeffString]

theorem hashOf_not {x : Bytes} (log : Log) (h : ¬ IsCoeff x) : hashOf H a log x = log.hash H x := by
  unfold hashOf
  rw [dif_neg h]

/-- Only challenges are in the log. -/
def Clean (log : Log) : Prop := ∀ x ∈ log.map (·.1), Drawn x

theorem Clean.nil : Clean [] := fun _ h => absurd h (by simp)

theorem Clean.add {log : Log} (h : Clean log) (ω : ℕ → Arr 32) {x : Bytes} (hx : Drawn x) : Clean (log.add ω x) := by
  intro y hy
  rcases GroupForger.mem_add_iff _ _ _ _ hy with hy | rfl
  · exact h y hy
  · exact hx

theorem Clean.hash {log : Log} (h : Clean log) {x : Bytes} (hx : ¬ Drawn x) : log.hash H x = H x := by
  unfold Log.hash
  rw [Log.find_eq_none.2 fun hm => hx (h x hm)]
  rfl

theorem Clean.hashOf_list {log : Log} (h : Clean log) (r : Bytes) :
    hashOf H a log (Spec.taggedInput "KeyAgg list" r) = H (Spec.taggedInput "KeyAgg list" r) := by
  rw [hashOf_not _ (not_isCoeff_list r), h.hash (not_challenge_list r)]

theorem listHash_eq (H : Hash) (keys : List Point) : listHash H keys = hashPubkeys H keys := by
  rw [(C66_what_is_hashed _).1]
  rfl

/-- The coefficients that the verifier uses. -/
theorem coeffOf_hashOf {log : Log} (h : Clean log) (keys : List Point) (K : Point) :
    coeffOf (hashOf H a log) keys K = if secondKey keys = some K then 1 else reduceFrom (a (listHash H keys, K)) := by
  split
  · rename_i h2
    exact coeffOf_second h2
  · rename_i h2
    rw [coeffOf_of_ne h2, coeffQuery_eq, hashPubkeys_congr (H' := H) (fun r => h.hashOf_list r), ← listHash_eq]
    exact congrArg reduceFrom (hashOf_coeff log (listHash H keys, K))

theorem hashOf_congr_new (log : Log) (ω : ℕ → Arr 32) {x : Bytes} (hx : Drawn x) (keys : List Point) :
    KeyAggContext.new (hashOf H a (log.add ω x)) keys = KeyAggContext.new (hashOf H a log) keys := by
  refine new_congr (fun y hy => ?_) keys
  unfold hashOf
  split
  · rfl
  · refine GroupForger.Log.hash_add ω log ?_
    rintro rfl
    exact hy hx

theorem group_add (log : Log) (ω : ℕ → Arr 32) {x : Bytes} (hx : Drawn x) (keys : List Point) (tweaks : List (Scalar × Bool)) :
    group (hashOf H a (log.add ω x)) keys tweaks = group (hashOf H a log) keys tweaks := by
  unfold group
  rw [hashOf_congr_new log ω hx]

theorem groupKey_add (log : Log) (ω : ℕ → Arr 32) {x : Bytes} (hx : Drawn x) (keys : List Point) (tweaks : List (Scalar × Bool)) :
    groupKey (hashOf H a (log.add ω x)) keys tweaks = groupKey (hashOf H a log) keys tweaks := by
  unfold groupKey
  rw [group_add log ω hx]

/-! ## Runs -/

theorem run_prefix (ω : ℕ → Arr 32) (A : AnyForger) (log : Log) : log <+: (A.run H a ω log).log := by
  induction A generalizing log with
  | submit keys tweaks msg sig => exact Log.add_prefix _ _ _
  | ask x next ih =>
    unfold run
    split
    · exact ih _ _
    · split
      · exact (Log.add_prefix ω log x).trans (ih _ _)
      · exact ih _ _

theorem run_good (ω : ℕ → Arr 32) (A : AnyForger) (log : Log) (h : GoodLog ω log) : GoodLog ω (A.run H a ω log).log := by
  induction A generalizing log with
  | submit keys tweaks msg sig => exact h.add _
  | ask x next ih =>
    unfold run
    split
    · exact ih _ _ h
    · split
      · exact ih _ _ (h.add x)
      · exact ih _ _ h

theorem run_clean (ω : ℕ → Arr 32) (A : AnyForger) (log : Log) (h : Clean log) : Clean (A.run H a ω log).log := by
  induction A generalizing log with
  | submit keys tweaks msg sig => exact h.add _ (drawn_challenge _ _ _)
  | ask x next ih =>
    unfold run
    split
    · exact ih _ _ h
    · split
      · rename_i hd
        exact ih _ _ (h.add _ hd)
      · exact ih _ _ h

/-- The string of the challenge of an outcome. -/
noncomputable def chal (H : Hash) (a : Table) (out : Outcome) : Bytes :=
  Spec.challengeQuery out.sig.rx.1 (groupKey (hashOf H a out.log) out.keys out.tweaks) out.msg

theorem run_mem (ω : ℕ → Arr 32) (A : AnyForger) (log : Log) :
    chal H a (A.run H a ω log) ∈ (A.run H a ω log).log.map (·.1) := by
  induction A generalizing log with
  | submit keys tweaks msg sig =>
    change Spec.challengeQuery _ (groupKey (hashOf H a (Log.add ω _ _)) keys tweaks) _ ∈ (Log.add ω _ _).map _
    rw [groupKey_add _ _ (drawn_challenge _ _ _)]
    exact Log.mem_add ω _ _
  | ask x next ih =>
    unfold run
    split
    · exact ih _ _
    · split <;> exact ih _ _

theorem run_length (ω : ℕ → Arr 32) {N q r : ℕ} {A : AnyForger} (hA : AsksAtMost N q r A) (log : Log) :
    (A.run H a ω log).log.length ≤ log.length + q + 1 := by
  induction hA generalizing log with
  | submit q r keys tweaks msg sig h =>
    have h1 := Log.add_length ω log (Spec.challengeQuery sig.rx.1 (groupKey (hashOf H a log) keys tweaks) msg)
    change (Log.add ω _ _).length ≤ _
    omega
  | challenge q r x next hd h ih =>
    have h1 := ih (log.answer ω x) (log.add ω x)
    have h2 := Log.add_length ω log x
    unfold run
    rw [dif_neg (fun hc => hc.not_drawn hd), if_pos hd]
    omega
  | coefficient q r x next hx h ih =>
    unfold run
    rw [dif_pos hx]
    exact ih _ _
  | other q r x next hd hx h ih =>
    unfold run
    rw [dif_neg hx, if_neg hd]
    exact ih _ _

/-- The string asked at an index depends only on the answers before it. -/
theorem run_causal (ω ω' : ℕ → Arr 32) (j : ℕ) (hω : ∀ i < j, ω i = ω' i) (A : AnyForger) (log : Log)
    (hl : log.length ≤ j) :
    (A.run H a ω log).log[j]?.map (·.1) = (A.run H a ω' log).log[j]?.map (·.1) := by
  induction A generalizing log with
  | submit keys tweaks msg sig =>
    change (Log.add ω log _)[j]?.map _ = (Log.add ω' log _)[j]?.map _
    generalize Spec.challengeQuery sig.rx.1 (groupKey (hashOf H a log) keys tweaks) msg = x
    by_cases h' : log.find x ≠ none ∨ log.length < j
    · rw [(add_same hl hω h').1]
    · rw [not_or, not_not] at h'
      rw [add_getElem h'.1 (by omega) ω List.prefix_rfl, add_getElem h'.1 (by omega) ω' List.prefix_rfl]
  | ask x next ih =>
    unfold run
    by_cases hc : IsCoeff x
    · rw [dif_pos hc, dif_pos hc]
      exact ih _ _ hl
    rw [dif_neg hc, dif_neg hc]
    by_cases hx : Drawn x
    swap
    · rw [if_neg hx, if_neg hx]
      exact ih _ _ hl
    rw [if_pos hx, if_pos hx]
    by_cases h : log.find x ≠ none ∨ log.length < j
    · obtain ⟨h1, h2, h3⟩ := add_same hl hω h
      rw [h1, h2]
      exact ih _ _ h3
    · rw [not_or, not_not] at h
      rw [add_getElem h.1 (by omega) ω (run_prefix _ _ _), add_getElem h.1 (by omega) ω' (run_prefix _ _ _)]

theorem log_chal (ω : ℕ → Arr 32) (A : AnyForger) :
    (A.run H a ω []).log[challengeIndex H a (A.run H a ω [])]?
      = some (chal H a (A.run H a ω []), ω (challengeIndex H a (A.run H a ω []))) :=
  (findIdx_getElem? (run_mem ω A []) (run_good ω A [] (GoodLog.nil ω))).2

theorem challengeIndex_lt (ω : ℕ → Arr 32) (A : AnyForger) :
    challengeIndex H a (A.run H a ω []) < (A.run H a ω []).log.length :=
  (findIdx_getElem? (run_mem ω A []) (run_good ω A [] (GoodLog.nil ω))).1

theorem hash_chal (ω : ℕ → Arr 32) (A : AnyForger) :
    hashOf H a (A.run H a ω []).log (chal H a (A.run H a ω [])) = ω (challengeIndex H a (A.run H a ω [])) := by
  have hn : ¬ IsCoeff (chal H a (A.run H a ω [])) := not_isCoeff_challenge _ _ _
  rw [hashOf_not _ hn]
  unfold Log.hash
  rw [find_of_getElem (run_good ω A [] (GoodLog.nil ω)).nodup (log_chal ω A)]
  rfl

/-! ## Accepted forgeries -/

/-- The run ends with an accepted forgery of a group with `P`. -/
def Wins (H : Hash) (P : Point) (A : AnyForger) (a : Table) (ω : ℕ → Arr 32) : Prop :=
  P ∈ (A.run H a ω []).keys ∧ ∃ ctx ctx', KeyAggContext.new (hashOf H a (A.run H a ω []).log) (A.run H a ω []).keys = .ok ctx ∧
    ctx.withTweaks (A.run H a ω []).tweaks = .ok ctx' ∧
    verifySingle (hashOf H a (A.run H a ω []).log) ctx'.aggregatedPubkey (A.run H a ω []).sig (A.run H a ω []).msg = .ok ()

/-- The key of the group submitted in a run. -/
noncomputable def runKey (H : Hash) (A : AnyForger) (a : Table) (ω : ℕ → Arr 32) : Point :=
  groupKey (hashOf H a (A.run H a ω []).log) (A.run H a ω []).keys (A.run H a ω []).tweaks

variable {P : Point}

theorem Wins.spec {A : AnyForger} {ω : ℕ → Arr 32} (h : Wins H P A a ω) :
    ∃ ctx, group (hashOf H a (A.run H a ω []).log) (A.run H a ω []).keys (A.run H a ω []).tweaks = some ctx ∧
      runKey H A a ω = ctx.pubkey ∧
      ctx.pubkey.1 = negIf ctx.parityAcc (keySum (hashOf H a (A.run H a ω []).log) (A.run H a ω []).keys) + ctx.tweakAcc • G ∧
      (A.run H a ω []).keys.length ≤ u32Max ∧
      verifySingle (hashOf H a (A.run H a ω []).log) (runKey H A a ω) (A.run H a ω []).sig (A.run H a ω []).msg = .ok () := by
  obtain ⟨-, ctx, ctx', h1, h2, h3⟩ := h
  have hg : group (hashOf H a (A.run H a ω []).log) (A.run H a ω []).keys (A.run H a ω []).tweaks = some ctx' := by
    unfold group
    simp only [h1, h2]
  have hk : runKey H A a ω = ctx'.aggregatedPubkey := by
    unfold runKey groupKey
    rw [hg]
  refine ⟨ctx', hg, hk, ?_, ?_, hk ▸ h3⟩
  · have hc := ((CtxInv.of_new h1).of_withTweaks h2)
    have hp := hc.pub
    rw [(withTweaks_keys h2).1] at hp
    obtain ⟨-, -, Q, -, rfl⟩ := new_eq_ok.1 h1
    exact hp
  · exact (new_eq_ok.1 h1).2.1

theorem Wins.count_ne_zero {A : AnyForger} {ω : ℕ → Arr 32} (h : Wins H P A a ω) :
    (((A.run H a ω []).keys.count P : ℕ) : MaybeScalar) ≠ 0 := by
  obtain ⟨-, -, -, -, hlen, -⟩ := h.spec
  have h1 := List.count_pos_iff.2 h.1
  have h2 := (List.count_le_length (a := P) (l := (A.run H a ω []).keys)).trans hlen
  have h3 : u32Max < orderN := by decide +kernel
  intro e
  rw [ZMod.natCast_eq_zero_iff] at e
  have := Nat.le_of_dvd h1 e
  omega

/-- Two accepted forgeries whose challenges were asked at the same index, of runs with the same answers before it,
reveal the secret key of the group. -/
theorem secret_of_fork (A : AnyForger) (ω ω' : ℕ → Arr 32) (j : ℕ)
    (hj : challengeIndex H a (A.run H a ω []) = j) (hj' : challengeIndex H a (A.run H a ω' []) = j)
    (hω : ∀ i < j, ω i = ω' i) (h : Wins H P A a ω) (h' : Wins H P A a ω')
    (hne : reduceFrom (ω j) ≠ reduceFrom (ω' j)) :
    (Spec.sgn (runKey H A a ω).1 * ((A.run H a ω []).sig.s - (A.run H a ω' []).sig.s)
      / (reduceFrom (ω j) - reduceFrom (ω' j))) • G = (runKey H A a ω).1 := by
  have hq := run_causal (H := H) (a := a) ω ω' j hω A [] (Nat.zero_le _)
  have hl := log_chal (H := H) (a := a) ω A
  have hl' := log_chal (H := H) (a := a) ω' A
  have hc := hash_chal (H := H) (a := a) ω A
  have hc' := hash_chal (H := H) (a := a) ω' A
  rw [hj] at hl hc
  rw [hj'] at hl' hc'
  rw [hl, hl'] at hq
  simp only [Option.map_some, Option.some.injEq] at hq
  obtain ⟨hrx, hx⟩ := challengeQuery_inj' hq
  obtain ⟨-, -, -, -, -, hv⟩ := h.spec
  obtain ⟨-, -, -, -, -, hv'⟩ := h'.spec
  rw [verifySingle_eq_ok, (C66_what_is_hashed _).2.2.2.1] at hv hv'
  obtain ⟨V, h1, h2, h3⟩ := hv
  obtain ⟨V', h1', h2', h3'⟩ := hv'
  have hV : V.1 = V'.1 := eq_of_xonly_isOdd (by rw [h3, h3', hrx]) (h2.trans h2'.symm)
  have e1 : (A.run H a ω []).sig.s • G = V.1 + reduceFrom (ω j) • (toEvenY (runKey H A a ω)).1 := by
    rw [← hc]
    exact h1
  have e1' : (A.run H a ω' []).sig.s • G = V'.1 + reduceFrom (ω' j) • (toEvenY (runKey H A a ω')).1 := by
    rw [← hc']
    exact h1'
  have hT : (toEvenY (runKey H A a ω')).1 = (toEvenY (runKey H A a ω)).1 := toEvenY_congr hx.symm
  rw [hV] at e1
  rw [hT] at e1'
  generalize reduceFrom (ω j) = e at *
  generalize reduceFrom (ω' j) = e' at *
  have hd : e - e' ≠ 0 := sub_ne_zero.2 hne
  have key : ((A.run H a ω []).sig.s - (A.run H a ω' []).sig.s) • G = (e - e') • (toEvenY (runKey H A a ω)).1 := by
    rw [sub_smul, e1, e1', sub_smul]
    abel
  generalize runKey H A a ω = Q at *
  have hs : Spec.sgn Q.1 * Spec.sgn Q.1 = 1 := sgn_mul_sgn Q.1
  rw [div_eq_inv_mul, mul_smul, mul_smul, key, toEvenY_eq, smul_smul (Spec.sgn Q.1), smul_smul (Spec.sgn Q.1 * _), smul_smul]
  have : (e - e')⁻¹ * (Spec.sgn Q.1 * (e - e') * Spec.sgn Q.1) = 1 := by
    rw [mul_comm (Spec.sgn Q.1) (e - e'), mul_assoc, hs, mul_one, inv_mul_cancel₀ hd]
  rw [this, one_smul]

/-- The index of the challenge, if the forgery is accepted and all coefficients asked are good. -/
noncomputable def forkIndex {q : ℕ} (H : Hash) (P : Point) (A : AnyForger) (a : Table) (Good : (Fin q → Arr 32) → Prop)
    (ω : Fin q → Arr 32) : Option (Fin q) :=
  open Classical in
  if h : (Wins H P A a (answers ω) ∧ Good ω) ∧ challengeIndex H a (A.run H a (answers ω) []) < q then some ⟨_, h.2⟩ else none

theorem forkIndex_eq_some {q : ℕ} {A : AnyForger} {Good : (Fin q → Arr 32) → Prop} {ω : Fin q → Arr 32} {j : Fin q}
    (h : forkIndex H P A a Good ω = some j) :
    Wins H P A a (answers ω) ∧ Good ω ∧ challengeIndex H a (A.run H a (answers ω) []) = j.1 := by
  unfold forkIndex at h
  split at h
  · rename_i hh
    cases h
    exact ⟨hh.1.1, hh.1.2, rfl⟩
  · cases h

theorem forkIndex_ne_none {N q r : ℕ} {A : AnyForger} {Good : (Fin (q + 1) → Arr 32) → Prop} (hA : AsksAtMost N q r A)
    (ω : Fin (q + 1) → Arr 32) (h : Wins H P A a (answers ω)) (hg : Good ω) : forkIndex H P A a Good ω ≠ none := by
  have h1 := challengeIndex_lt (H := H) (a := a) (answers ω) A
  have h2 := run_length (H := H) (a := a) (answers ω) hA []
  unfold forkIndex
  rw [dif_pos ⟨⟨h, hg⟩, by simp only [List.length_nil] at h2; omega⟩]
  exact Option.some_ne_none _

/-- The pair of sequences reveals the key of the group. -/
def Reveals {q : ℕ} (H : Hash) (P : Point) (A : AnyForger) (a : Table) (Good : (Fin q → Arr 32) → Prop)
    (ω ω' : Fin q → Arr 32) : Prop :=
  ∃ j, forkIndex H P A a Good ω = some j ∧ forkIndex H P A a Good (splice j ω ω') = some j ∧
    ¬ reduceFrom (ω j) = reduceFrom (ω' j)

theorem secret_of_reveals {q : ℕ} {A : AnyForger} {Good : (Fin q → Arr 32) → Prop} {ω ω' : Fin q → Arr 32}
    (h : Reveals H P A a Good ω ω') : groupSecret H A a ω ω' • G = (runKey H A a (answers ω)).1 := by
  obtain ⟨j, h1, h2, hne⟩ := h
  obtain ⟨hw, -, hj⟩ := forkIndex_eq_some h1
  obtain ⟨hw', -, hj'⟩ := forkIndex_eq_some h2
  have key := secret_of_fork A (answers ω) (answers (splice j ω ω')) j.1 hj hj' (answers_splice j ω ω') hw hw' ?_
  · unfold groupSecret
    simp only
    rw [hj, rewind_eq_splice]
    rw [answers_of_lt, answers_of_lt, splice_self] at key
    rw [answers_of_lt, answers_of_lt]
    exact key
  · rw [answers_of_lt, answers_of_lt, splice_self]
    exact hne

/-- The coefficient of a key in a group. -/
noncomputable def co (H : Hash) (a : Table) (keys : List Point) (K : Point) : MaybeScalar :=
  open Classical in if secondKey keys = some K then 1 else reduceFrom (a (listHash H keys, K))

/-- The key of a group without tweaks. -/
noncomputable def plainSum (H : Hash) (a : Table) (keys : List Point) : MaybePoint := (keys.map fun K => co H a keys K • K.1).sum

theorem keySum_run (ω : ℕ → Arr 32) (A : AnyForger) :
    keySum (hashOf H a (A.run H a ω []).log) (A.run H a ω []).keys = plainSum H a (A.run H a ω []).keys := by
  unfold keySum plainSum
  congr 1
  refine List.map_congr_left fun K _ => ?_
  rw [coeffOf_hashOf (run_clean ω A [] Clean.nil)]
  unfold co
  congr 1

theorem plain_of_reveals {q : ℕ} {A : AnyForger} {Good : (Fin q → Arr 32) → Prop} {ω ω' : Fin q → Arr 32}
    (h : Reveals H P A a Good ω ω') : plainSecret H A a ω ω' • G = plainSum H a (A.run H a (answers ω) []).keys := by
  have hs := secret_of_reveals h
  obtain ⟨j, h1, -, -⟩ := h
  obtain ⟨hw, -, -⟩ := forkIndex_eq_some h1
  obtain ⟨ctx, hg, hk, hp, -, -⟩ := hw.spec
  unfold plainSecret
  simp only [hg]
  rw [hk, hp, keySum_run] at hs
  rw [← negIf_smul, sub_smul, hs, add_sub_cancel_right, negIf_negIf]
  simp

/-! ## The coefficients asked -/

open Classical in
/-- Note a coefficient, unless it has been noted before. -/
noncomputable def note (T : List (Arr 32 × Point)) (c : Arr 32 × Point) : List (Arr 32 × Point) :=
  if c ∈ T then T else T ++ [c]

/-- Note several coefficients. -/
noncomputable def noteAll (T L : List (Arr 32 × Point)) : List (Arr 32 × Point) := L.foldl note T

theorem note_prefix (T : List (Arr 32 × Point)) (c : Arr 32 × Point) : T <+: note T c := by
  unfold note
  split
  · exact List.prefix_rfl
  · exact List.prefix_append _ _

theorem note_nodup {T : List (Arr 32 × Point)} (h : T.Nodup) (c : Arr 32 × Point) : (note T c).Nodup := by
  unfold note
  split
  · exact h
  · rename_i hc
    rw [List.nodup_append]
    refine ⟨h, List.nodup_singleton c, ?_⟩
    intro x hx y hy
    rw [List.mem_singleton] at hy
    subst hy
    rintro rfl
    exact hc hx

theorem note_length (T : List (Arr 32 × Point)) (c : Arr 32 × Point) : (note T c).length ≤ T.length + 1 := by
  unfold note
  split
  · omega
  · simp

theorem mem_note (T : List (Arr 32 × Point)) (c : Arr 32 × Point) : c ∈ note T c := by
  unfold note
  split
  · assumption
  · simp

theorem noteAll_prefix (T L : List (Arr 32 × Point)) : T <+: noteAll T L := by
  induction L generalizing T with
  | nil => exact List.prefix_rfl
  | cons c L ih => exact (note_prefix T c).trans (ih _)

theorem noteAll_nodup {T : List (Arr 32 × Point)} (h : T.Nodup) (L : List (Arr 32 × Point)) : (noteAll T L).Nodup := by
  induction L generalizing T with
  | nil => exact h
  | cons c L ih => exact ih (note_nodup h c)

theorem noteAll_length (T L : List (Arr 32 × Point)) : (noteAll T L).length ≤ T.length + L.length := by
  induction L generalizing T with
  | nil => exact le_rfl
  | cons c L ih =>
    have h1 := ih (note T c)
    have h2 := note_length T c
    rw [List.length_cons]
    change (noteAll (note T c) L).length ≤ _
    omega

theorem mem_noteAll (T L : List (Arr 32 × Point)) {c : Arr 32 × Point} (h : c ∈ L) : c ∈ noteAll T L := by
  induction L generalizing T with
  | nil => cases h
  | cons d L ih =>
    rcases List.mem_cons.1 h with rfl | h
    · exact (noteAll_prefix (note T c) L).subset (mem_note T c)
    · exact ih _ h

/-- The coefficients of the group. -/
def members (H : Hash) (keys : List Point) : List (Arr 32 × Point) := keys.map fun K => (listHash H keys, K)

open Classical in
/-- The coefficients asked in a run, by the forger and by the verifier, each noted once. -/
noncomputable def trace (H : Hash) (a : Table) (ω : ℕ → Arr 32) : AnyForger → Log → List (Arr 32 × Point) → List (Arr 32 × Point)
  | .submit keys _ _ _, _, T => noteAll T (members H keys)
  | .ask x next, log, T =>
    if h : IsCoeff x then trace H a ω (next (a h.choose)) log (note T h.choose)
    else if Drawn x then trace H a ω (next (log.answer ω x)) (log.add ω x) T
    else trace H a ω (next (H x)) log T

theorem trace_prefix (ω : ℕ → Arr 32) (A : AnyForger) (log : Log) (T : List (Arr 32 × Point)) :
    T <+: trace H a ω A log T := by
  induction A generalizing log T with
  | submit keys tweaks msg sig => exact noteAll_prefix _ _
  | ask x next ih =>
    unfold trace
    split
    · exact (note_prefix _ _).trans (ih _ _ _)
    · split <;> exact ih _ _ _

theorem trace_nodup (ω : ℕ → Arr 32) (A : AnyForger) (log : Log) {T : List (Arr 32 × Point)} (h : T.Nodup) :
    (trace H a ω A log T).Nodup := by
  induction A generalizing log T with
  | submit keys tweaks msg sig => exact noteAll_nodup h _
  | ask x next ih =>
    unfold trace
    split
    · exact ih _ _ (note_nodup h _)
    · split <;> exact ih _ _ h

/-- The coefficients of the submitted group come last. -/
theorem trace_end (ω : ℕ → Arr 32) {N q r : ℕ} {A : AnyForger} (hA : AsksAtMost N q r A) (log : Log) (T : List (Arr 32 × Point)) :
    ∃ T0, T0.length ≤ T.length + r ∧ trace H a ω A log T = noteAll T0 (members H (A.run H a ω log).keys) ∧
      (A.run H a ω log).keys.length ≤ N := by
  induction hA generalizing log T with
  | submit q r keys tweaks msg sig h => exact ⟨T, by omega, rfl, h⟩
  | challenge q r x next hd h ih =>
    have hc : ¬ IsCoeff x := fun hc => hc.not_drawn hd
    unfold trace run
    rw [dif_neg hc, if_pos hd, dif_neg hc, if_pos hd]
    exact ih _ _ _
  | coefficient q r x next hx h ih =>
    unfold trace run
    rw [dif_pos hx, dif_pos hx]
    obtain ⟨T0, h1, h2, h3⟩ := ih (a hx.choose) log (note T hx.choose)
    have := note_length T hx.choose
    exact ⟨T0, by omega, h2, h3⟩
  | other q r x next hd hx h ih =>
    unfold trace run
    rw [dif_neg hx, if_neg hd, dif_neg hx, if_neg hd]
    exact ih _ _ _

theorem trace_length (ω : ℕ → Arr 32) {N q r : ℕ} {A : AnyForger} (hA : AsksAtMost N q r A) :
    (trace H a ω A [] []).length ≤ r + N := by
  obtain ⟨T0, h1, h2, h3⟩ := trace_end (H := H) (a := a) ω hA [] []
  rw [h2]
  have := noteAll_length T0 (members H (A.run H a ω []).keys)
  unfold members at this
  rw [List.length_map] at this
  simp only [List.length_nil, zero_add] at h1
  unfold members
  omega

theorem trace_mem (ω : ℕ → Arr 32) {N q r : ℕ} {A : AnyForger} (hA : AsksAtMost N q r A) {K : Point}
    (hK : K ∈ (A.run H a ω []).keys) : (listHash H (A.run H a ω []).keys, K) ∈ trace H a ω A [] [] := by
  obtain ⟨T0, -, h2, -⟩ := trace_end (H := H) (a := a) ω hA [] []
  rw [h2]
  exact mem_noteAll _ _ (List.mem_map_of_mem hK)

theorem findIdx_of_prefix {α : Type} {p : α → Bool} {l l' : List α} (h : l <+: l') {x : α} (hx : x ∈ l) (hp : p x = true) :
    l'.findIdx p = l.findIdx p ∧ l.findIdx p < l.length := by
  have hlt : l.findIdx p < l.length := List.findIdx_lt_length.2 ⟨x, hx, hp⟩
  obtain ⟨t, rfl⟩ := h
  rw [List.findIdx_append, if_pos hlt]
  exact ⟨rfl, hlt⟩

/-- A coefficient with the key list of the submitted group is asked early. -/
theorem trace_first (ω : ℕ → Arr 32) {N q r : ℕ} {A : AnyForger} (hA : AsksAtMost N q r A)
    (hne : (A.run H a ω []).keys ≠ []) :
    (trace H a ω A [] []).findIdx (fun c => c.1 = listHash H (A.run H a ω []).keys) < r + 1 := by
  obtain ⟨T0, h1, h2, -⟩ := trace_end (H := H) (a := a) ω hA [] []
  rw [h2]
  simp only [List.length_nil, zero_add] at h1
  obtain ⟨K, L, hK⟩ := List.exists_cons_of_ne_nil hne
  have hm : members H (A.run H a ω []).keys = (listHash H (A.run H a ω []).keys, K) ::
      L.map fun K => (listHash H (A.run H a ω []).keys, K) := by
    unfold members
    conv_lhs => rw [hK]
    rw [List.map_cons, ← hK]
  rw [hm]
  obtain ⟨e, hlt⟩ := findIdx_of_prefix (p := fun c => decide (c.1 = listHash H (A.run H a ω []).keys))
    (noteAll_prefix (note T0 (listHash H (A.run H a ω []).keys, K)) (L.map fun K => (listHash H (A.run H a ω []).keys, K)))
    (mem_note _ _) (by simp)
  have h3 := note_length T0 (listHash H (A.run H a ω []).keys, K)
  have h4 : noteAll T0 ((listHash H (A.run H a ω []).keys, K) :: L.map fun K => (listHash H (A.run H a ω []).keys, K))
      = noteAll (note T0 (listHash H (A.run H a ω []).keys, K)) (L.map fun K => (listHash H (A.run H a ω []).keys, K)) := rfl
  rw [h4, e]
  omega

/-- Which coefficient is asked at an index depends only on those asked before. -/
theorem trace_causal (ω : ℕ → Arr 32) (a a' : Table) (k : ℕ) (A : AnyForger) (log : Log) (T : List (Arr 32 × Point))
    (hT : T.length ≤ k) (h : ∀ c ∈ (trace H a ω A log T).take k, a c = a' c) :
    (trace H a ω A log T).take (k + 1) = (trace H a' ω A log T).take (k + 1) := by
  induction A generalizing log T with
  | submit keys tweaks msg sig => rfl
  | ask x next ih =>
    unfold trace at h ⊢
    by_cases hc : IsCoeff x
    · rw [dif_pos hc] at h ⊢
      rw [dif_pos hc]
      set c := hc.choose
      have hp := trace_prefix (H := H) (a := a) ω (next (a c)) log (note T c)
      by_cases hk : (note T c).length ≤ k
      · have hac : a c = a' c := by
          refine h c ?_
          obtain ⟨t, ht⟩ := hp
          rw [← ht, List.take_append, List.take_of_length_le hk]
          exact List.mem_append_left _ (mem_note T c)
        rw [← hac]
        exact ih _ _ _ hk h
      · have hl : (note T c).length = k + 1 := by
          have := note_length T c
          omega
        have hp' := trace_prefix (H := H) (a := a') ω (next (a' c)) log (note T c)
        obtain ⟨t, ht⟩ := hp
        obtain ⟨t', ht'⟩ := hp'
        rw [← ht, ← ht', ← hl, List.take_left', List.take_left'] <;> rfl
    · rw [dif_neg hc] at h ⊢
      rw [dif_neg hc]
      by_cases hd : Drawn x
      · rw [if_pos hd] at h ⊢
        rw [if_pos hd]
        exact ih _ _ _ hT h
      · rw [if_neg hd] at h ⊢
        rw [if_neg hd]
        exact ih _ _ _ hT h

/-! ## Changes of the table -/

/-- The key list hash that is first asked at the index. -/
def hAt (T : List (Arr 32 × Point)) (l : ℕ) : Option (Arr 32) :=
  match T[l]? with
  | some c => if T.findIdx (fun d => d.1 = c.1) = l then some c.1 else none
  | none => none

theorem hAt_eq_some {T : List (Arr 32 × Point)} {l : ℕ} {h : Arr 32} :
    hAt T l = some h ↔ (∃ K, T[l]? = some (h, K)) ∧ T.findIdx (fun d => d.1 = h) = l := by
  unfold hAt
  constructor
  · intro e
    split at e
    · rename_i c hc
      split at e
      · rename_i hl
        cases e
        exact ⟨⟨c.2, hc⟩, hl⟩
      · cases e
    · cases e
  · rintro ⟨⟨K, hK⟩, hl⟩
    rw [hK]
    simp only
    rw [if_pos hl]

theorem ne_of_mem_take {T : List (Arr 32 × Point)} {l : ℕ} {h : Arr 32} (hl : T.findIdx (fun d => d.1 = h) = l)
    {c : Arr 32 × Point} (hc : c ∈ T.take l) : c.1 ≠ h := by
  obtain ⟨i, hi, rfl⟩ := List.mem_take_iff_getElem.1 hc
  have h1 : i < T.findIdx (fun d => decide (d.1 = h)) := by
    rw [hl]
    omega
  have := List.not_of_lt_findIdx h1
  simpa using this

/-- Tables that differ only in coefficients for one key list lead to the same place of that key list. -/
theorem hAt_trace {ω : ℕ → Arr 32} {a a' : Table} {A : AnyForger} {l : ℕ} {h : Arr 32}
    (hh : hAt (trace H a ω A [] []) l = some h) (ha : ∀ c : Arr 32 × Point, c.1 ≠ h → a c = a' c) :
    hAt (trace H a' ω A [] []) l = some h := by
  rw [hAt_eq_some] at hh ⊢
  obtain ⟨⟨K, hK⟩, hl⟩ := hh
  have e := trace_causal (H := H) ω a a' l A [] [] (Nat.zero_le _) fun c hc => ha c (ne_of_mem_take hl hc)
  have hK' : (trace H a ω A [] [])[l]? = (trace H a' ω A [] [])[l]? := by
    rw [← List.getElem?_take_of_lt (Nat.lt_succ_self l), e, List.getElem?_take_of_lt (Nat.lt_succ_self l)]
  refine ⟨⟨K, hK' ▸ hK⟩, ?_⟩
  have hm : (h, K) ∈ (trace H a ω A [] []).take (l + 1) := by
    rw [List.mem_iff_getElem?]
    exact ⟨l, by rw [List.getElem?_take_of_lt (Nat.lt_succ_self l), hK]⟩
  have e1 := (findIdx_of_prefix (p := fun d => decide (d.1 = h)) (List.take_prefix (l + 1) (trace H a ω A [] [])) hm (by simp)).1
  rw [e] at hm e1
  have e2 := (findIdx_of_prefix (p := fun d => decide (d.1 = h)) (List.take_prefix (l + 1) (trace H a' ω A [] [])) hm (by simp)).1
  rw [e2, ← e1, hl]

/-! ## Multiples of coefficients -/

/-- The product of two scalars. -/
def smul' (c d : Scalar) : Scalar := ⟨c.1 * d.1, mul_ne_zero c.2 d.2⟩

/-- The inverse of a scalar. -/
def inv' (c : Scalar) : Scalar := ⟨c.1⁻¹, inv_ne_zero c.2⟩

theorem reduceFrom_serScalar (s : MaybeScalar) : reduceFrom (serScalar s) = s := by
  unfold reduceFrom
  rw [beNat_serScalar, ZMod.natCast_zmod_val]

theorem reduceFrom_scaled (c : Scalar) {t : Arr 32} (ht : t ∈ goodArr) : reduceFrom (scaled c t) = c.1 * reduceFrom t := by
  unfold scaled
  rw [if_pos ⟨ht.1, ht.2⟩, reduceFrom_serScalar]

theorem scaled_scaled (c d : Scalar) (t : Arr 32) : scaled d (scaled c t) = scaled (smul' d c) t := by
  by_cases ht : 0 < beNat t.1 ∧ beNat t.1 < orderN
  · have h0 : reduceFrom t ≠ 0 := by
      unfold reduceFrom
      intro e
      rw [ZMod.natCast_eq_zero_iff] at e
      have := Nat.le_of_dvd ht.1 e
      omega
    have hg : 0 < beNat (serScalar (c.1 * reduceFrom t)).1 ∧ beNat (serScalar (c.1 * reduceFrom t)).1 < orderN := by
      rw [beNat_serScalar]
      refine ⟨Nat.pos_of_ne_zero fun e => ?_, ZMod.val_lt _⟩
      rw [ZMod.val_eq_zero] at e
      exact (mul_ne_zero c.2 h0) e
    unfold scaled
    rw [if_pos ht, if_pos ht, if_pos hg, reduceFrom_serScalar]
    unfold smul'
    rw [mul_assoc]
  · unfold scaled
    rw [if_neg ht, if_neg ht, if_neg ht]

theorem scaled_one (t : Arr 32) : scaled scalarOne t = t := by
  unfold scaled
  split
  · rename_i ht
    apply arr_ext_beNat
    rw [beNat_serScalar]
    unfold scalarOne
    rw [one_mul, reduceFrom_val, Nat.mod_eq_of_lt ht.2]
  · rfl

theorem scaledAt_scaledAt (h : Arr 32) (c d : Scalar) (a : Table) : scaledAt h d (scaledAt h c a) = scaledAt h (smul' d c) a := by
  funext k
  unfold scaledAt
  split
  · exact scaled_scaled _ _ _
  · rfl

theorem scaledAt_one (h : Arr 32) (a : Table) : scaledAt h scalarOne a = a := by
  funext k
  unfold scaledAt
  split
  · exact scaled_one _
  · rfl

/-- A change of the table: for key lists that are first asked at an index. -/
noncomputable def act (H : Hash) (P : Point) (ω : ℕ → Arr 32) (A : AnyForger) (i : Bool × ℕ) (a : Table) (g : Scalar × Arr 32) :
    Table :=
  match hAt (trace H a ω A [] []) i.2 with
  | none => a
  | some h => if i.1 then scaledAt h g.1 a else open Classical in Function.update a (h, P) g.2

theorem act_off {ω : ℕ → Arr 32} {A : AnyForger} {i : Bool × ℕ} {a : Table} {h : Arr 32}
    (hh : hAt (trace H a ω A [] []) i.2 = some h) (g : Scalar × Arr 32) :
    hAt (trace H (act H P ω A i a g) ω A [] []) i.2 = some h := by
  refine hAt_trace hh fun c hc => ?_
  unfold act
  rw [hh]
  simp only
  split
  · unfold scaledAt
    rw [if_neg hc]
  · rw [Function.update_of_ne]
    rintro rfl
    exact hc rfl

theorem act_none {ω : ℕ → Arr 32} {A : AnyForger} {i : Bool × ℕ} {a : Table}
    (hh : hAt (trace H a ω A [] []) i.2 = none) (g : Scalar × Arr 32) : act H P ω A i a g = a := by
  unfold act
  rw [hh]

theorem act_some {ω : ℕ → Arr 32} {A : AnyForger} {i : Bool × ℕ} {a : Table} {h : Arr 32}
    (hh : hAt (trace H a ω A [] []) i.2 = some h) (g : Scalar × Arr 32) :
    act H P ω A i a g = if i.1 then scaledAt h g.1 a else open Classical in Function.update a (h, P) g.2 := by
  unfold act
  rw [hh]

/-- These changes can be undone and composed. -/
noncomputable def changes (H : Hash) (P : Point) (ω : ℕ → Arr 32) (A : AnyForger) (i : Bool × ℕ) :
    Changes (act H P ω A i) where
  back a g := match hAt (trace H a ω A [] []) i.2 with
    | none => g
    | some h => if i.1 then (inv' g.1, g.2) else (g.1, a (h, P))
  comp a g g' := match hAt (trace H a ω A [] []) i.2 with
    | none => g'
    | some _ => if i.1 then (smul' g'.1 g.1, g'.2) else g'
  act_back a g := by
    cases hh : hAt (trace H a ω A [] []) i.2 with
    | none =>
      simp only
      rw [act_none hh, act_none hh]
    | some h =>
      simp only
      rw [act_some (act_off hh g), act_some hh]
      cases i.1 with
      | true =>
        simp only [if_true]
        rw [scaledAt_scaledAt]
        have : smul' (inv' g.1) g.1 = scalarOne := Subtype.ext (inv_mul_cancel₀ g.1.2)
        rw [this, scaledAt_one]
      | false => simp
  back_back a g := by
    cases hh : hAt (trace H a ω A [] []) i.2 with
    | none =>
      simp only
      rw [act_none hh, hh]
    | some h =>
      simp only
      rw [act_off hh g]
      simp only
      rw [act_some hh]
      cases i.1 with
      | true =>
        simp only [if_true]
        exact Prod.ext (Subtype.ext (inv_inv _)) rfl
      | false => simp
  bij a g := by
    cases hh : hAt (trace H a ω A [] []) i.2 with
    | none => exact Function.bijective_id
    | some h =>
      simp only
      cases i.1 with
      | false =>
        simp only [Bool.false_eq_true, if_false]
        exact Function.bijective_id
      | true =>
        simp only [if_true]
        refine Function.bijective_iff_has_inverse.2 ⟨fun g' => (smul' g'.1 (inv' g.1), g'.2), fun g' => ?_, fun g' => ?_⟩
        · exact Prod.ext (Subtype.ext (mul_inv_cancel_right₀ g.1.2 _)) rfl
        · exact Prod.ext (Subtype.ext (inv_mul_cancel_right₀ g.1.2 _)) rfl
  act_act a g g' := by
    cases hh : hAt (trace H a ω A [] []) i.2 with
    | none =>
      simp only
      rw [act_none hh]
    | some h =>
      simp only
      rw [act_some (act_off hh g), act_some hh, act_some hh]
      cases i.1 with
      | true =>
        simp only [if_true]
        exact scaledAt_scaledAt _ _ _ _
      | false => simp

/-! ## The second fork -/

theorem isSecond_iff (P : Point) (keys : List Point) : IsSecond P keys ↔ secondKey keys = some P := by
  have h := spec_get_second_key keys
  unfold keyBytes at h
  unfold IsSecond
  rw [h]
  cases secondKey keys with
  | none =>
    simp only [reduceCtorEq, iff_false]
    rw [spec_cbytes_point]
    exact (serPoint_ne_zeros P).symm
  | some K =>
    simp only [Option.some.injEq]
    rw [spec_cbytes_point, serPoint_point_inj]

/-- All coefficients asked stand for themselves. -/
def Good {q : ℕ} (H : Hash) (A : AnyForger) (a : Table) (ω : Fin q → Arr 32) : Prop :=
  ∀ c ∈ trace H a (answers ω) A [] [], a c ∈ goodArr

/-- How and where the table is changed, if the pair of sequences reveals the key of the group. -/
noncomputable def outerIndex {q : ℕ} (H : Hash) (P : Point) (A : AnyForger) (r : ℕ) (ω ω' : Fin q → Arr 32) (a : Table) :
    Option (Bool × Fin (r + 1)) :=
  open Classical in
  if h : Reveals H P A a (Good H A a) ω ω' ∧ (trace H a (answers ω) A [] []).findIdx
      (fun c => c.1 = listHash H (A.run H a (answers ω) []).keys) < r + 1
  then some (decide (IsSecond P (A.run H a (answers ω) []).keys), ⟨_, h.2⟩) else none

theorem outerIndex_eq_some {q r : ℕ} {A : AnyForger} {ω ω' : Fin q → Arr 32} {a : Table} {i : Bool × Fin (r + 1)}
    (h : outerIndex H P A r ω ω' a = some i) :
    Reveals H P A a (Good H A a) ω ω' ∧ (trace H a (answers ω) A [] []).findIdx
      (fun c => c.1 = listHash H (A.run H a (answers ω) []).keys) = i.2.1 ∧
      (i.1 = true ↔ IsSecond P (A.run H a (answers ω) []).keys) := by
  unfold outerIndex at h
  split at h
  · rename_i hh
    cases h
    exact ⟨hh.1, rfl, by simp⟩
  · cases h

theorem outerIndex_ne_none {N q q' r : ℕ} {A : AnyForger} (hA : AsksAtMost N q' r A) {ω ω' : Fin q → Arr 32} {a : Table} :
    outerIndex H P A r ω ω' a ≠ none ↔ Reveals H P A a (Good H A a) ω ω' := by
  unfold outerIndex
  constructor
  · intro h
    by_contra hn
    exact h (dif_neg fun x => hn x.1)
  · intro h
    have hw := h
    obtain ⟨j, h1, -, -⟩ := hw
    obtain ⟨hw, -, -⟩ := forkIndex_eq_some h1
    rw [dif_pos ⟨h, trace_first _ hA (List.ne_nil_of_mem hw.1)⟩]
    exact Option.some_ne_none _

theorem hAt_of_index {N q q' r : ℕ} {A : AnyForger} (hA : AsksAtMost N q' r A) {ω ω' : Fin q → Arr 32} {a : Table}
    {i : Bool × Fin (r + 1)} (h : outerIndex H P A r ω ω' a = some i) :
    hAt (trace H a (answers ω) A [] []) i.2.1 = some (listHash H (A.run H a (answers ω) []).keys) := by
  obtain ⟨hr, hl, -⟩ := outerIndex_eq_some h
  obtain ⟨j, h1, -, -⟩ := hr
  obtain ⟨hw, -, -⟩ := forkIndex_eq_some h1
  have hm := trace_mem (H := H) (a := a) (answers ω) hA hw.1
  rw [hAt_eq_some]
  refine ⟨?_, hl⟩
  have hlt : (trace H a (answers ω) A [] []).findIdx
      (fun c => decide (c.1 = listHash H (A.run H a (answers ω) []).keys)) < (trace H a (answers ω) A [] []).length :=
    List.findIdx_lt_length.2 ⟨_, hm, by simp⟩
  have hk := of_decide_eq_true (List.findIdx_getElem (w := hlt))
  rw [← hl, List.getElem?_eq_getElem hlt]
  exact ⟨_, congrArg some (Prod.ext hk rfl)⟩

/-- The fresh randomness does not help. -/
def Useless (H : Hash) (P : Point) (ω : ℕ → Arr 32) (A : AnyForger) (i : Bool × ℕ) (a : Table) (g : Scalar × Arr 32) : Prop :=
  match hAt (trace H a ω A [] []) i.2 with
  | none => False
  | some h => if i.1 then g.1.1 = 1 else reduceFrom g.2 = reduceFrom (a (h, P))

theorem co_split (H : Hash) (a : Table) (P : Point) (keys : List Point) : plainSum H a keys
    = co H a keys P • (((keys.count P : ℕ) : MaybeScalar) • P.1)
      + ((keys.filter (· ≠ P)).map fun K => co H a keys K • K.1).sum := by
  unfold plainSum
  rw [← sum_split]
  congr 1
  refine List.map_congr_left fun K _ => ?_
  split
  · rename_i h
    rw [h]
  · rfl

/-- Four runs that fork at the key list and at the challenges reveal the secret key of the victim. -/
theorem extract_of_index {N q q' r : ℕ} {A : AnyForger} (hA : AsksAtMost N q' r A) {ω ω' : Fin q → Arr 32} {a : Table}
    {g : Scalar × Arr 32} {i : Bool × Fin (r + 1)} (h : outerIndex H P A r ω ω' a = some i)
    (h' : outerIndex H P A r ω ω' (act H P (answers ω) A (i.1, i.2.1) a g) = some i)
    (hu : ¬ Useless H P (answers ω) A (i.1, i.2.1) a g) :
    A.extract H P a g ω ω' • G = P.1 ∨ A.Collides H P a g ω := by
  have hh := hAt_of_index hA h
  have hh' := hAt_of_index hA h'
  obtain ⟨hr, -, h2⟩ := outerIndex_eq_some h
  obtain ⟨hr', -, h2'⟩ := outerIndex_eq_some h'
  have hs := plain_of_reveals hr
  have hs' := plain_of_reveals hr'
  obtain ⟨j, f1, -, -⟩ := hr
  obtain ⟨hw, hg, -⟩ := forkIndex_eq_some f1
  have hm := fun K => trace_mem (H := H) (a := a) (answers ω) hA (K := K)
  have hc0 := hw.count_ne_zero
  have hact := act_some (P := P) (i := (i.1, i.2.1)) hh g
  have hoff := act_off (P := P) (i := (i.1, i.2.1)) hh g
  have hL : listHash H (A.run H (act H P (answers ω) A (i.1, i.2.1) a g) (answers ω) []).keys
      = listHash H (A.run H a (answers ω) []).keys := by
    have e := hh'.symm.trans hoff
    exact Option.some.inj e
  have hren : act H P (answers ω) A (i.1, i.2.1) a g = renewed H P (A.run H a (answers ω) []).keys a g := by
    rw [hact]
    unfold renewed
    by_cases hsec : IsSecond P (A.run H a (answers ω) []).keys
    · rw [if_pos hsec, if_pos (h2.2 hsec)]
    · rw [if_neg hsec, if_neg fun e => hsec (h2.1 e)]
  rw [hren] at hL hs'
  unfold Useless at hu
  simp only [hh] at hu
  by_cases hk : (A.run H a (answers ω) []).keys = (A.run H (renewed H P (A.run H a (answers ω) []).keys a g) (answers ω) []).keys
  swap
  · exact .inr ⟨hk, hL.symm⟩
  left
  rw [← hk] at hs'
  clear hL hh' hoff hact hk
  set keys := (A.run H a (answers ω) []).keys with hkeys
  unfold extract
  simp only
  rw [← hkeys]
  by_cases hsec : IsSecond P keys
  · rw [if_pos hsec]
    have hi := h2.2 hsec
    rw [if_pos hi] at hu
    have hsk := (isSecond_iff P keys).1 hsec
    have hren' : renewed H P keys a g = scaledAt (listHash H keys) g.1 a := by
      unfold renewed
      rw [if_pos hsec]
    have c1 : ∀ a : Table, co H a keys P = 1 := fun a => by unfold co; rw [if_pos hsk]
    rw [co_split H _ P, c1, one_smul] at hs hs'
    have c2 : ((keys.filter (· ≠ P)).map fun K => co H (renewed H P keys a g) keys K • K.1).sum
        = g.1.1 • ((keys.filter (· ≠ P)).map fun K => co H a keys K • K.1).sum := by
      rw [List.smul_sum, List.map_map]
      congr 1
      refine List.map_congr_left fun K hK => ?_
      rw [List.mem_filter] at hK
      have hne : secondKey keys ≠ some K := by
        rw [hsk]
        intro e
        have := Option.some.inj e
        simp [this] at hK
      simp only [Function.comp_apply]
      unfold co
      rw [if_neg hne, if_neg hne, hren', smul_smul]
      congr 1
      unfold scaledAt
      rw [if_pos rfl]
      exact reduceFrom_scaled _ (hg _ (hm K hK.1))
    rw [c2] at hs'
    rw [div_eq_inv_mul, mul_smul, sub_smul, mul_smul, hs, hs', smul_add, add_sub_add_right_eq_sub]
    have e : ∀ X : MaybePoint, g.1.1 • X - X = (g.1.1 - 1) • X := fun X => by rw [sub_smul, one_smul]
    rw [e, smul_smul (g.1.1 - 1), smul_smul, inv_mul_cancel₀, one_smul]
    exact mul_ne_zero (sub_ne_zero.2 hu) hc0
  · rw [if_neg hsec]
    have hi : ¬ i.1 = true := fun e => hsec (h2.1 e)
    rw [if_neg hi] at hu
    have hsk : secondKey keys ≠ some P := fun e => hsec ((isSecond_iff P keys).2 e)
    have hren' : renewed H P keys a g = open Classical in Function.update a (listHash H keys, P) g.2 := by
      unfold renewed
      rw [if_neg hsec]
    rw [co_split H _ P] at hs hs'
    have c1 : co H a keys P = reduceFrom (a (listHash H keys, P)) := by unfold co; rw [if_neg hsk]
    have c1' : co H (renewed H P keys a g) keys P = reduceFrom g.2 := by
      unfold co
      rw [if_neg hsk, hren', Function.update_self]
    have c2 : ((keys.filter (· ≠ P)).map fun K => co H (renewed H P keys a g) keys K • K.1)
        = ((keys.filter (· ≠ P)).map fun K => co H a keys K • K.1) := by
      refine List.map_congr_left fun K hK => ?_
      rw [List.mem_filter] at hK
      unfold co
      rw [hren', Function.update_of_ne]
      rintro e
      have := congrArg Prod.snd e
      simp only at this
      simp [this] at hK
    rw [c1', c2] at hs'
    rw [c1] at hs
    rw [div_eq_inv_mul, mul_smul, sub_smul, hs, hs', add_sub_add_right_eq_sub, ← sub_smul,
      smul_smul (_ - _), smul_smul, inv_mul_cancel₀, one_smul]
    exact mul_ne_zero (sub_ne_zero.2 fun e => hu e.symm) hc0

/-! ## Counting -/

open CmaForger (chance_mono chance_or chance_snd chance_fst chance_equiv chance_nonneg chance_exists_fin)

theorem chance_reduce_eq (e : MaybeScalar) : (Spec.chance fun t : Arr 32 => reduceFrom t = e) ≤ 2 / 2 ^ 256 := by
  have h := Concurrent.chance_reduce_mem {e}
  simpa only [Finset.mem_singleton, Finset.card_singleton, Nat.cast_one, mul_one] using h

theorem chance_scalar_one : (Spec.chance fun c : Scalar => c.1 = 1) ≤ 2 / 2 ^ 256 := by
  unfold Spec.chance
  rw [card_scalar]
  have h1 : {c : Scalar | c.1 = 1}.ncard ≤ 1 := by
    rw [Set.ncard_le_one_iff]
    intro c d hc hd
    exact Subtype.ext (hc.trans hd.symm)
  have h2 : 2 ^ 256 ≤ 2 * (orderN - 1) := by decide +kernel
  have h3 : 0 < orderN - 1 := by decide +kernel
  generalize {c : Scalar | c.1 = 1}.ncard = m at h1
  generalize orderN - 1 = n at h2 h3
  have h2' : ((2 : ℚ) ^ 256) ≤ 2 * n := by exact_mod_cast h2
  obtain ⟨B, hB⟩ : ∃ B : ℚ, B = 2 ^ 256 := ⟨_, rfl⟩
  have hB0 : 0 < B := by rw [hB]; positivity
  rw [← hB] at h2' ⊢
  have hn : (0 : ℚ) < n := by exact_mod_cast h3
  have hm : (m : ℚ) ≤ 1 := by exact_mod_cast h1
  have hm0 : (0 : ℚ) ≤ m := by positivity
  rw [div_le_div_iff₀ hn hB0]
  nlinarith

theorem chance_useless (ω : ℕ → Arr 32) (A : AnyForger) (i : Bool × ℕ) (a : Table) :
    (Spec.chance fun g => Useless H P ω A i a g) ≤ 2 / 2 ^ 256 := by
  haveI : Nonempty (Arr 32) := ⟨zeroSeed⟩
  haveI : Nonempty Scalar := ⟨scalarOne⟩
  unfold Useless
  cases hAt (trace H a ω A [] []) i.2 with
  | none =>
    simp only
    rw [Decision.chance_false fun _ h => h]
    positivity
  | some h =>
    simp only
    cases i.1 with
    | true =>
      simp only [if_true]
      rw [chance_fst (Ω' := Arr 32) fun c : Scalar => c.1 = 1]
      exact chance_scalar_one
    | false =>
      simp only [Bool.false_eq_true, if_false]
      rw [← chance_equiv (Equiv.prodComm (Arr 32) Scalar)]
      change (Spec.chance fun p : Arr 32 × Scalar => reduceFrom p.1 = reduceFrom (a (h, P))) ≤ _
      rw [chance_fst (Ω' := Scalar) fun t : Arr 32 => reduceFrom t = reduceFrom (a (h, P))]
      exact chance_reduce_eq _

/-- Splicing sequences is a change. -/
def spliceChanges {q : ℕ} (j : Fin q) : Changes fun ω ω' : Fin q → Arr 32 => splice j ω ω' where
  back ω ω' := splice j ω' ω
  comp _ _ g := g
  act_back ω ω' := by
    funext i
    simp only [splice]
    split_ifs <;> rfl
  back_back ω ω' := by
    funext i
    simp only [splice]
    split_ifs <;> rfl
  bij _ _ := Function.bijective_id
  act_act ω ω' ω'' := splice_splice j ω ω'' ω'

/-- The first fork, for a given table. -/
theorem chance_reveals {N q r : ℕ} {A : AnyForger} (hA : AsksAtMost N q r A) (a : Table) :
    Spec.forked (q + 1) (Spec.chance fun ω : Fin (q + 1) → Arr 32 => Wins H P A a (answers ω) ∧ Good H A a ω)
      ≤ Spec.chance fun p : (Fin (q + 1) → Arr 32) × (Fin (q + 1) → Arr 32) => Reveals H P A a (Good H A a) p.1 p.2 := by
  classical
  haveI : Nonempty (Arr 32) := ⟨zeroSeed⟩
  letI := Fintype.ofFinite (Arr 32)
  have h := Changes.forked (X := Fin (q + 1) → Arr 32) (Γ := Fin (q + 1) → Arr 32) (ι := Fin (q + 1))
    (fun j => spliceChanges j) (forkIndex H P A a (Good H A a)) (fun j ω ω' => reduceFrom (ω j) = reduceFrom (ω' j))
    fun j ω _ => by
      have e := Decision.chance_eval_one (Y := fun _ : Fin (q + 1) => Arr 32) j fun t => reduceFrom (ω j) = reduceFrom t
      rw [e]
      refine le_trans (chance_mono fun t ht => ?_) (chance_reduce_eq (reduceFrom (ω j)))
      exact ht.symm
  rw [Fintype.card_fin] at h
  refine le_trans (le_of_eq ?_) h
  congr 2
  funext ω
  refine propext ⟨fun hw => forkIndex_ne_none hA ω hw.1 hw.2, fun hn => ?_⟩
  obtain ⟨j, hj⟩ := Option.ne_none_iff_exists'.1 hn
  obtain ⟨h1, h2, -⟩ := forkIndex_eq_some hj
  exact ⟨h1, h2⟩

/-- The second fork, for given sequences. -/
theorem chance_extract {N q r : ℕ} {A : AnyForger} (hA : AsksAtMost N q r A) (ω ω' : Fin (q + 1) → Arr 32) :
    Spec.forked (2 * (r + 1)) (Spec.chance fun a : Table => Reveals H P A a (Good H A a) ω ω')
      ≤ Spec.chance fun p : Table × (Scalar × Arr 32) =>
        A.extract H P p.1 p.2 ω ω' • G = P.1 ∨ A.Collides H P p.1 p.2 ω := by
  classical
  haveI : Nonempty (Arr 32) := ⟨zeroSeed⟩
  haveI : Nonempty Scalar := ⟨scalarOne⟩
  letI := Fintype.ofFinite Table
  letI := Fintype.ofFinite Scalar
  letI := Fintype.ofFinite (Arr 32)
  have h := Changes.forked (X := Table) (Γ := Scalar × Arr 32) (ι := Bool × Fin (r + 1))
    (fun i => changes H P (answers ω) A (i.1, i.2.1)) (outerIndex H P A r ω ω')
    (fun i a g => Useless H P (answers ω) A (i.1, i.2.1) a g) fun i a _ => chance_useless _ _ _ _
  rw [Fintype.card_prod, Fintype.card_bool, Fintype.card_fin] at h
  refine le_trans (le_of_eq ?_) (h.trans (chance_mono fun p hp => ?_))
  · congr 2
    funext a
    exact propext (outerIndex_ne_none hA).symm
  · obtain ⟨i, h1, h2, h3⟩ := hp
    exact extract_of_index hA h1 h2 h3

/-- A new value of the coefficient that is asked at an index. -/
noncomputable def redraw (H : Hash) (ω : ℕ → Arr 32) (A : AnyForger) (k : ℕ) (a : Table) (t : Arr 32) : Table :=
  match (trace H a ω A [] [])[k]? with
  | none => a
  | some c => open Classical in Function.update a c t

theorem redraw_trace {ω : ℕ → Arr 32} {A : AnyForger} {k : ℕ} {a : Table} (t : Arr 32) :
    (trace H (redraw H ω A k a t) ω A [] [])[k]? = (trace H a ω A [] [])[k]? := by
  have e := trace_causal (H := H) ω a (redraw H ω A k a t) k A [] [] (Nat.zero_le _) fun c hc => by
    unfold redraw
    cases hk : (trace H a ω A [] [])[k]? with
    | none => rfl
    | some d =>
      simp only
      rw [Function.update_of_ne]
      rintro rfl
      obtain ⟨i, hi, hic⟩ := List.mem_take_iff_getElem.1 hc
      obtain ⟨hlt, hkc⟩ := List.getElem?_eq_some_iff.1 hk
      have := (List.Nodup.getElem_inj_iff (trace_nodup (H := H) (a := a) ω A [] List.nodup_nil)).1 (hic.trans hkc.symm)
      omega
  rw [← List.getElem?_take_of_lt (Nat.lt_succ_self k), ← e, List.getElem?_take_of_lt (Nat.lt_succ_self k)]

theorem redraw_none {ω : ℕ → Arr 32} {A : AnyForger} {k : ℕ} {a : Table} (h : (trace H a ω A [] [])[k]? = none) (t : Arr 32) :
    redraw H ω A k a t = a := by
  unfold redraw
  rw [h]

theorem redraw_some {ω : ℕ → Arr 32} {A : AnyForger} {k : ℕ} {a : Table} {c : Arr 32 × Point}
    (h : (trace H a ω A [] [])[k]? = some c) (t : Arr 32) :
    redraw H ω A k a t = open Classical in Function.update a c t := by
  unfold redraw
  rw [h]

/-- Coefficients that do not stand for themselves are rare. -/
theorem chance_not_good {N q q' r : ℕ} {A : AnyForger} (hA : AsksAtMost N q' r A) (ω : Fin q → Arr 32) :
    (Spec.chance fun a : Table => ¬ Good H A a ω) ≤ (r + N : ℕ) * (1 / 2 ^ 127) := by
  classical
  refine le_trans (chance_mono fun a ha => ?_) (chance_exists_fin (r + N)
    (fun k a => ∃ c, (trace H a (answers ω) A [] [])[k.1]? = some c ∧ a c ∉ goodArr) (1 / 2 ^ 127) fun k => ?_)
  · unfold Good at ha
    push Not at ha
    obtain ⟨c, hc, hb⟩ := ha
    obtain ⟨i, hi, hic⟩ := List.mem_iff_getElem.1 hc
    have := trace_length (H := H) (a := a) (answers ω) hA
    exact ⟨⟨i, by omega⟩, c, by rw [List.getElem?_eq_getElem hi, hic], hb⟩
  · haveI : Nonempty (Arr 32) := ⟨zeroSeed⟩
    have hinv : Function.Involutive fun p : Table × Arr 32 => (redraw H (answers ω) A k.1 p.1 p.2,
        match (trace H p.1 (answers ω) A [] [])[k.1]? with
        | none => p.2
        | some c => p.1 c) := by
      rintro ⟨a, t⟩
      cases hk : (trace H a (answers ω) A [] [])[k.1]? with
      | none =>
        simp only [hk]
        rw [redraw_none hk]
        simp only [hk]
        rw [redraw_none hk]
      | some c =>
        have hk' : (trace H (redraw H (answers ω) A k.1 a t) (answers ω) A [] [])[k.1]? = some c := by
          rw [redraw_trace, hk]
        simp only [hk, hk']
        rw [redraw_some hk', redraw_some hk]
        simp
    rw [← chance_fst (Ω' := Arr 32), ← chance_equiv (Function.Involutive.toPerm _ hinv)]
    refine chance_snd (fun (a : Table) (t : Arr 32) => ∃ c, (trace H (redraw H (answers ω) A k.1 a t) (answers ω) A [] [])[k.1]? = some c
      ∧ redraw H (answers ω) A k.1 a t c ∉ goodArr) _ (fun a => ?_) (by positivity)
    cases hk : (trace H a (answers ω) A [] [])[k.1]? with
    | none =>
      rw [Decision.chance_false]
      · positivity
      · rintro t ⟨c, hc, -⟩
        rw [redraw_trace, hk] at hc
        cases hc
    | some c =>
      refine le_trans (chance_mono fun t ht => ?_) DetGame.chance_not_goodArr
      obtain ⟨c', hc, hb⟩ := ht
      rw [redraw_trace, hk] at hc
      cases hc
      rw [redraw_some hk, Function.update_self] at hb
      exact hb

/-- All together. -/
theorem any_bound {N q r : ℕ} {A : AnyForger} (hA : AsksAtMost N q r A) :
    Spec.forked (2 * (r + 1)) (Spec.forked (q + 1)
        (max 0 ((Spec.chance fun p : Table × (Fin (q + 1) → Arr 32) => A.Forges H P p.1 p.2) - (r + N : ℕ) / 2 ^ 127)))
      ≤ Spec.chance fun p : (Table × (Scalar × Arr 32)) × ((Fin (q + 1) → Arr 32) × (Fin (q + 1) → Arr 32)) =>
        A.extract H P p.1.1 p.1.2 p.2.1 p.2.2 • G = P.1 ∨ A.Collides H P p.1.1 p.1.2 p.2.1 := by
  classical
  haveI : Nonempty (Arr 32) := ⟨zeroSeed⟩
  haveI : Nonempty Scalar := ⟨scalarOne⟩
  letI := Fintype.ofFinite Table
  letI := Fintype.ofFinite Scalar
  letI := Fintype.ofFinite (Arr 32)
  have h1 : max 0 ((Spec.chance fun p : Table × (Fin (q + 1) → Arr 32) => A.Forges H P p.1 p.2) - (r + N : ℕ) / 2 ^ 127)
      ≤ Spec.chance fun p : Table × (Fin (q + 1) → Arr 32) => Wins H P A p.1 (answers p.2) ∧ Good H A p.1 p.2 := by
    refine max_le (chance_nonneg _) ?_
    have hb : (Spec.chance fun p : Table × (Fin (q + 1) → Arr 32) => ¬ Good H A p.1 p.2) ≤ (r + N : ℕ) / 2 ^ 127 := by
      rw [← chance_equiv (Equiv.prodComm (Fin (q + 1) → Arr 32) Table)]
      refine chance_snd (fun (ω : Fin (q + 1) → Arr 32) (a : Table) => ¬ Good H A a ω) _ (fun ω => ?_) (by positivity)
      refine (chance_not_good hA ω).trans (le_of_eq ?_)
      rw [mul_one_div]
    have := (chance_mono fun (p : Table × (Fin (q + 1) → Arr 32)) (hp : A.Forges H P p.1 p.2) =>
      show (Wins H P A p.1 (answers p.2) ∧ Good H A p.1 p.2) ∨ ¬ Good H A p.1 p.2 by
        by_cases hg : Good H A p.1 p.2
        · exact .inl ⟨hp, hg⟩
        · exact .inr hg).trans (chance_or _ _)
    linarith
  have h2 : Spec.forked (q + 1) (Spec.chance fun p : Table × (Fin (q + 1) → Arr 32) => Wins H P A p.1 (answers p.2) ∧ Good H A p.1 p.2)
      ≤ Spec.chance fun p : Table × ((Fin (q + 1) → Arr 32) × (Fin (q + 1) → Arr 32)) =>
        Reveals H P A p.1 (Good H A p.1) p.2.1 p.2.2 := by
    rw [Decision.chance_prod fun (a : Table) (ω : Fin (q + 1) → Arr 32) => Wins H P A a (answers ω) ∧ Good H A a ω,
      Decision.chance_prod fun (a : Table) (p : (Fin (q + 1) → Arr 32) × (Fin (q + 1) → Arr 32)) =>
        Reveals H P A a (Good H A a) p.1 p.2]
    refine (SoloForger.forked_jensen _ _).trans (div_le_div_of_nonneg_right (Finset.sum_le_sum fun a _ => ?_) (by positivity))
    exact chance_reveals hA a
  have h3 : Spec.forked (2 * (r + 1)) (Spec.chance fun p : Table × ((Fin (q + 1) → Arr 32) × (Fin (q + 1) → Arr 32)) =>
        Reveals H P A p.1 (Good H A p.1) p.2.1 p.2.2)
      ≤ Spec.chance fun p : (Table × (Scalar × Arr 32)) × ((Fin (q + 1) → Arr 32) × (Fin (q + 1) → Arr 32)) =>
        A.extract H P p.1.1 p.1.2 p.2.1 p.2.2 • G = P.1 ∨ A.Collides H P p.1.1 p.1.2 p.2.1 := by
    rw [← chance_equiv (Equiv.prodComm ((Fin (q + 1) → Arr 32) × (Fin (q + 1) → Arr 32)) Table),
      ← chance_equiv (Equiv.prodComm ((Fin (q + 1) → Arr 32) × (Fin (q + 1) → Arr 32)) (Table × (Scalar × Arr 32)))]
    have e1 := Decision.chance_prod fun (w : (Fin (q + 1) → Arr 32) × (Fin (q + 1) → Arr 32)) (a : Table) =>
      Reveals H P A a (Good H A a) w.1 w.2
    have e2 := Decision.chance_prod fun (w : (Fin (q + 1) → Arr 32) × (Fin (q + 1) → Arr 32)) (p : Table × (Scalar × Arr 32)) =>
      A.extract H P p.1 p.2 w.1 w.2 • G = P.1 ∨ A.Collides H P p.1 p.2 w.1
    refine (le_of_eq (congrArg _ e1)).trans (le_trans ?_ (le_of_eq e2.symm))
    refine (SoloForger.forked_jensen _ _).trans (div_le_div_of_nonneg_right (Finset.sum_le_sum fun w _ => ?_) (by positivity))
    exact chance_extract hA w.1 w.2
  refine le_trans (forked_mono _ ?_ ((forked_mono _ (le_max_left _ _) h1).trans h2)) h3
  unfold Spec.forked
  exact le_max_left _ _

/-! ## An example: the victim is the second of three members -/



theorem two_ne_zero' : (2 : MaybeScalar) • G ≠ 0 := by
  rw [Ne, smul_G_eq_zero]
  decide +kernel

/-- The key `2 • G`. -/
noncomputable def twoG : Point := ⟨(2 : MaybeScalar) • G, two_ne_zero'⟩

/-- The group of `G`, `-G` and `2 • G`. -/
noncomputable def threeKeys : List Point := [Gpt, negGpt, twoG]

theorem threeKeys_second : secondKey threeKeys = some negGpt := by
  change ([negGpt, twoG].find? fun pubkey => decide (pubkey ≠ Gpt)) = some negGpt
  simp [negGpt_ne]

/-- A multiple of `G`, as a key. -/
noncomputable def pt (s : MaybeScalar) : Point := open Classical in if h : s • G ≠ 0 then ⟨s • G, h⟩ else Gpt

theorem pt_eq {s : MaybeScalar} (h : s ≠ 0) : (pt s).1 = s • G := by
  unfold pt
  rw [dif_pos (by rw [Ne, smul_G_eq_zero]; exact h)]

/-- The secret key of the group, tweaked with 1, if the coefficients of `G` and `2 • G` are these. -/
def exSecret (t u : Arr 32) : MaybeScalar := reduceFrom t + 2 * reduceFrom u

/-- The forger asks for the two coefficients and for the challenge, and signs with the secret key. -/
noncomputable def exForger (H : Hash) : AnyForger :=
  .ask (coeffString (listHash H threeKeys, Gpt)) fun t =>
    .ask (coeffString (listHash H threeKeys, twoG)) fun u =>
      .ask (Spec.challengeQuery (xonly G).1 (pt (exSecret t u)) []) fun e =>
        .submit threeKeys [(scalarOne, false)] []
          ⟨xonly G, 1 + reduceFrom e * (Spec.sgn (pt (exSecret t u)).1 * exSecret t u)⟩

theorem exForger_asks (H : Hash) : AsksAtMost 3 1 2 (exForger H) :=
  .coefficient 1 1 _ _ (isCoeff_coeffString _) fun _ => .coefficient 1 0 _ _ (isCoeff_coeffString _) fun _ =>
    .challenge 0 0 _ _ (drawn_challenge _ _ _) fun _ => .submit 0 0 _ _ _ _ (by unfold threeKeys; simp)

/-- The secret key for a table. -/
noncomputable def tableSecret (H : Hash) (a : Table) : MaybeScalar :=
  exSecret (a (listHash H threeKeys, Gpt)) (a (listHash H threeKeys, twoG))

theorem plainSum_three (H : Hash) (a : Table) : plainSum H a threeKeys = (tableSecret H a - 1) • G := by
  have h1 : co H a threeKeys Gpt = reduceFrom (a (listHash H threeKeys, Gpt)) := by
    unfold co
    rw [threeKeys_second, if_neg fun e => negGpt_ne (Option.some.inj e)]
  have h2 : co H a threeKeys negGpt = 1 := by
    unfold co
    rw [threeKeys_second, if_pos rfl]
  have h3 : co H a threeKeys twoG = reduceFrom (a (listHash H threeKeys, twoG)) := by
    unfold co
    rw [threeKeys_second, if_neg]
    intro e
    have e1 : -G = (2 : MaybeScalar) • G := congrArg Subtype.val (Option.some.inj e)
    have e2 : (3 : MaybeScalar) • G = 0 := by
      have : (3 : MaybeScalar) = 2 + 1 := by norm_num
      rw [this, add_smul, one_smul, ← e1]
      abel
    rw [smul_G_eq_zero] at e2
    revert e2
    decide +kernel
  unfold plainSum
  have e : (threeKeys.map fun K => co H a threeKeys K • K.1)
      = [co H a threeKeys Gpt • G, co H a threeKeys negGpt • (-G), co H a threeKeys twoG • ((2 : MaybeScalar) • G)] := rfl
  rw [e, h1, h2, h3]
  simp only [List.sum_cons, List.sum_nil, add_zero]
  unfold tableSecret exSecret
  rw [one_smul, sub_smul, add_smul, one_smul, smul_smul, mul_comm (2 : MaybeScalar)]
  abel

theorem ex_group {H : Hash} {a : Table} {log : Log} (hl : Clean log) (h1 : tableSecret H a ≠ 1) (h0 : tableSecret H a ≠ 0) :
    ∃ ctx ctx', KeyAggContext.new (hashOf H a log) threeKeys = .ok ctx ∧
      ctx.withTweaks [(scalarOne, false)] = .ok ctx' ∧ ctx'.aggregatedPubkey = pt (tableSecret H a) := by
  have hs : keySum (hashOf H a log) threeKeys = plainSum H a threeKeys := by
    unfold keySum plainSum
    congr 1
    refine List.map_congr_left fun K _ => ?_
    rw [coeffOf_hashOf hl]
    rfl
  rw [plainSum_three] at hs
  have hne : tableSecret H a - 1 ≠ 0 := sub_ne_zero.2 h1
  refine ⟨_, _, new_eq_ok.2 ⟨by unfold threeKeys; simp, by unfold threeKeys u32Max; simp, pt (tableSecret H a - 1), ?_, rfl⟩,
    withTweaks_cons_eq_ok.2 ⟨_, withTweak_eq_ok.2 ⟨pt (tableSecret H a), ?_, rfl⟩, rfl⟩, rfl⟩
  · rw [hs, pt_eq hne]
  · change negIf false (pt (tableSecret H a - 1)).1 + (1 : MaybeScalar) • G = _
    rw [negIf_false, pt_eq hne, pt_eq h0, ← add_smul, sub_add_cancel]

theorem ex_groupKey {H : Hash} {a : Table} {log : Log} (hl : Clean log) (h1 : tableSecret H a ≠ 1) (h0 : tableSecret H a ≠ 0) :
    groupKey (hashOf H a log) threeKeys [(scalarOne, false)] = pt (tableSecret H a) := by
  obtain ⟨ctx, ctx', e1, e2, e3⟩ := ex_group hl h1 h0
  unfold groupKey group
  simp only [e1, e2]
  exact e3

/-- The log of the run. -/
noncomputable def exLog (H : Hash) (a : Table) (e : Arr 32) : Log :=
  [(Spec.challengeQuery (xonly G).1 (pt (tableSecret H a)) [], e)]

theorem exLog_clean (H : Hash) (a : Table) (e : Arr 32) : Clean (exLog H a e) := by
  intro x hx
  unfold exLog at hx
  simp only [List.map_cons, List.map_nil, List.mem_singleton] at hx
  subst hx
  exact drawn_challenge _ _ _

theorem exForger_run {H : Hash} {a : Table} (ω : ℕ → Arr 32) (h1 : tableSecret H a ≠ 1) (h0 : tableSecret H a ≠ 0) :
    (exForger H).run H a ω [] = ⟨threeKeys, [(scalarOne, false)], [],
      ⟨xonly G, 1 + reduceFrom (ω 0) * (Spec.sgn (pt (tableSecret H a)).1 * tableSecret H a)⟩, exLog H a (ω 0)⟩ := by
  have hd := drawn_challenge (xonly G).1 (pt (tableSecret H a)) []
  have hn := not_isCoeff_challenge (xonly G).1 (pt (tableSecret H a)) []
  have a1 : Log.add ω [] (Spec.challengeQuery (xonly G).1 (pt (tableSecret H a)) []) = exLog H a (ω 0) := rfl
  have b1 : Log.answer ω [] (Spec.challengeQuery (xonly G).1 (pt (tableSecret H a)) []) = ω 0 := rfl
  have a2 : Log.add ω (exLog H a (ω 0)) (Spec.challengeQuery (xonly G).1 (pt (tableSecret H a)) []) = exLog H a (ω 0) := by
    unfold Log.add exLog Log.find
    simp
  unfold exForger
  rw [run, dif_pos (isCoeff_coeffString _), choose_coeffString, run, dif_pos (isCoeff_coeffString _), choose_coeffString]
  change run H a ω (.ask (Spec.challengeQuery (xonly G).1 (pt (tableSecret H a)) []) fun e =>
        .submit threeKeys [(scalarOne, false)] []
          ⟨xonly G, 1 + reduceFrom e * (Spec.sgn (pt (tableSecret H a)).1 * tableSecret H a)⟩) [] = _
  rw [run, dif_neg hn, if_pos hd, a1, b1, run, ex_groupKey (exLog_clean _ _ _) h1 h0]
  simp only
  rw [a2]

theorem exForger_forges {H : Hash} {a : Table} {q : ℕ} (ω : Fin q → Arr 32) (h1 : tableSecret H a ≠ 1) (h0 : tableSecret H a ≠ 0) :
    (exForger H).Forges H negGpt a ω := by
  unfold Forges
  simp only
  rw [exForger_run (answers ω) h1 h0]
  simp only
  generalize answers ω 0 = e
  obtain ⟨ctx, ctx', e1, e2, e3⟩ := ex_group (exLog_clean H a e) h1 h0
  refine ⟨by unfold threeKeys; simp, ctx, ctx', e1, e2, ?_⟩
  rw [e3, verifySingle_eq_ok, (C66_what_is_hashed _).2.2.2.1]
  refine ⟨Gpt, ?_, isOdd_G, rfl⟩
  have hc : hashOf H a (exLog H a e) (Spec.challengeQuery (xonly G).1 (pt (tableSecret H a)) []) = e := by
    rw [hashOf_not _ (not_isCoeff_challenge _ _ _)]
    unfold Log.hash exLog Log.find
    simp
  unfold Spec.challengeQuery at hc
  rw [hc, toEvenY_eq, pt_eq h0, add_smul, one_smul, smul_smul, smul_smul, mul_assoc]
  rfl

theorem threeKeys_isSecond : IsSecond negGpt threeKeys := (isSecond_iff _ _).2 threeKeys_second

end AnyForger

end Verif
