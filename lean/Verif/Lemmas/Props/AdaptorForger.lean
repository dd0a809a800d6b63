import Verif.Spec.AdaptorForger
import Verif.Lemmas.Props.Decision
import Verif.Lemmas.Props.Exact

/-!
# Helpers of `Props/AdaptorForger`
-/

namespace Verif

open Forger (Log Drawn answers rewind GoodLog)
open Forger.Log (find_eq_none)
open CmaForger (nonceAnswering pairs find_append add_find_none soloNonce_nonceAnswering challenge_nonceAnswering toEvenY_sgn
  chance_mono chance_or chance_exists_fin chance_snd chance_update reduceOrOne_injOn chance_not_good forked_avg chance_nonneg
  chance_equiv chance_fst)

namespace AdaptorForger

/-! ## What the signer makes -/

theorem adaptor_eq (H : Hash) (h : Arr 32) (sk : Scalar) (msg : Bytes) (seed : Arr 32) (T : MaybePoint) :
    signSoloAdaptor (nonceAnswering H h) sk msg seed T =
      ⟨(mulG (SecNonceBuilder.reduceOrOne h)).1,
        negIf (isOdd ((mulG (SecNonceBuilder.reduceOrOne h)).1 + T)) (SecNonceBuilder.reduceOrOne h).1
        + computeChallengeHashTweak H (xonly ((mulG (SecNonceBuilder.reduceOrOne h)).1 + T)) (mulG sk) msg
          * negIf (isOdd (mulG sk).1) sk.1⟩ := by
  rw [signSoloAdaptor_eq, soloNonce_nonceAnswering, challenge_nonceAnswering]

/-! ## Transcripts -/

/-- The transcript of the signer with the nonce `k` and the answer `e`. -/
def ofNonce (sk k : Scalar) (e : Arr 32) (T : MaybePoint) : Transcript (mulG sk) T where
  R := mulG k
  e := e
  s := negIf (isOdd ((mulG k).1 + T)) k.1 + reduceFrom e * negIf (isOdd (mulG sk).1) sk.1
  eqn := by
    rw [add_smul, mul_smul, ← negIf_smul, ← negIf_smul, sgn_smul, sgn_smul]
    rfl

theorem Transcript.ext_of {P : Point} {T : MaybePoint} {t t' : Transcript P T} (hR : t.R = t'.R) (he : t.e = t'.e) : t = t' := by
  have hs : t.s = t'.s := by
    rw [← smul_G_inj, t.eqn, t'.eqn, hR, he]
  cases t
  cases t'
  simp only at hR he hs
  subst hR he hs
  rfl

/-- Transcripts are the pairs of a nonce and an answer. -/
noncomputable def transcriptEquiv (sk : Scalar) (T : MaybePoint) : Scalar × Arr 32 ≃ Transcript (mulG sk) T :=
  Equiv.ofBijective (fun p => ofNonce sk p.1 p.2 T) (by
    refine ⟨fun p p' h => ?_, fun t => ?_⟩
    · have h1 : mulG p.1 = mulG p'.1 := congrArg Transcript.R h
      have h2 : p.2 = p'.2 := congrArg Transcript.e h
      exact Prod.ext (Subtype.ext (smul_G_inj.1 (congrArg Subtype.val h1))) h2
    · obtain ⟨k, hk⟩ := exists_dlog t.R.1
      have h0 : k ≠ 0 := by
        rintro rfl
        rw [zero_smul] at hk
        exact t.R.2 hk.symm
      exact ⟨(⟨k, h0⟩, t.e), Transcript.ext_of (Subtype.ext hk) rfl⟩)

theorem exists_mulG (P : Point) : ∃ sk : Scalar, P = mulG sk := by
  obtain ⟨a, ha⟩ := exists_dlog P.1
  have h0 : a ≠ 0 := by
    rintro rfl
    rw [zero_smul] at ha
    exact P.2 ha.symm
  exact ⟨⟨a, h0⟩, Subtype.ext ha.symm⟩

instance (P : Point) (T : MaybePoint) : Finite (Transcript P T) := by
  obtain ⟨sk, rfl⟩ := exists_mulG P
  exact Finite.of_equiv _ (transcriptEquiv sk T)

instance (P : Point) (T : MaybePoint) : Nonempty (Transcript P T) := ⟨Transcript.spare P T⟩

theorem transcript_card (P : Point) (T : MaybePoint) : Nat.card (Transcript P T) = (orderN - 1) * 256 ^ 32 := by
  obtain ⟨sk, rfl⟩ := exists_mulG P
  rw [← Nat.card_congr (transcriptEquiv sk T), Nat.card_prod, arr_card, card_scalar]

/-! ## The runs -/

theorem State.find_eq_none {st : State} {x : Bytes} : st.find x = none ↔ st.prog.find x = none ∧ st.log.find x = none := by
  unfold State.find
  rw [Option.or_eq_none_iff]

theorem State.program_of_new {st : State} {x : Bytes} {e : Arr 32} (h : st.find x = none) :
    st.program x e = { st with prog := st.prog ++ [(x, e)] } := by
  unfold State.program
  rw [h]

theorem State.hash_program (H : Hash) {st : State} {x : Bytes} {e : Arr 32} (h : st.find x = none) :
    (st.program x e).hash H x = e := by
  rw [State.program_of_new h]
  unfold State.hash State.find
  simp only
  rw [find_append, (State.find_eq_none.1 h).1]
  simp

/-- The simulation is aborted or does what the signer does. -/
theorem simulate_or (H : Hash) (sk : Scalar) (seed ω : ℕ → Arr 32) (κ : ℕ → Arr 32 × Arr 32) (A : AdaptorForger) (st : State) :
    A.simulate H (mulG sk) ω (fun i T => ofNonce sk (SecNonceBuilder.reduceOrOne (κ i).1) (κ i).2 T) st = none ∨
      A.simulate H (mulG sk) ω (fun i T => ofNonce sk (SecNonceBuilder.reduceOrOne (κ i).1) (κ i).2 T) st
        = some (A.run H sk seed ω κ st) := by
  induction A generalizing st with
  | submit msg sig => exact .inr rfl
  | ask x next ih =>
    unfold simulate run
    split
    · exact ih _ _
    · exact ih _ _
  | sign msg T next ih =>
    unfold simulate run
    simp only
    set k := SecNonceBuilder.reduceOrOne (κ st.signed.length).1 with hk
    have hx : Spec.challengeQuery (Spec.xbytes ((ofNonce sk k (κ st.signed.length).2 T).R.1 + T)) (mulG sk) msg
        = Spec.challengeQuery (xonly ((mulG k).1 + T)).1 (mulG sk) msg := by
      rw [spec_xbytes]
      rfl
    rw [hx, adaptor_eq, adaptor_eq, ← hk]
    simp only
    cases h : st.find (Spec.challengeQuery (xonly ((mulG k).1 + T)).1 (mulG sk) msg) with
    | some a => exact .inl rfl
    | none =>
      simp only
      have hc : computeChallengeHashTweak ((st.program (Spec.challengeQuery (xonly ((mulG k).1 + T)).1 (mulG sk) msg)
          (κ st.signed.length).2).hash H) (xonly ((mulG k).1 + T)) (mulG sk) msg = reduceFrom (κ st.signed.length).2 := by
        rw [(C66_what_is_hashed _).2.2.2.1]
        exact congrArg _ (State.hash_program H h)
      rw [hc]
      exact ih _ _

/-- The simulation depends only on the transcripts it uses. -/
theorem simulate_congr (H : Hash) (P : Point) (ω : ℕ → Arr 32) {τ τ' : ℕ → (T : MaybePoint) → Transcript P T} {q s : ℕ} {A : AdaptorForger}
    (hA : AsksAtMost q s A) (st : State) (h : ∀ i < st.signed.length + s, τ i = τ' i) :
    A.simulate H P ω τ st = A.simulate H P ω τ' st := by
  induction hA generalizing st with
  | submit => rfl
  | ask q s x next _ ih =>
    have e : (st.ask ω x).signed = st.signed := by unfold State.ask; split <;> rfl
    unfold simulate
    split
    · exact ih _ _ (by rw [e]; exact h)
    · exact ih _ _ h
  | other q s x next hx _ ih =>
    unfold simulate
    rw [if_neg hx, if_neg hx]
    exact ih _ _ h
  | sign q s msg T next _ ih =>
    unfold simulate
    simp only
    have hT := h st.signed.length (by omega)
    rw [hT]
    cases hf : st.find (Spec.challengeQuery (Spec.xbytes ((τ' st.signed.length T).R.1 + T)) P msg) with
    | some a => rfl
    | none =>
      simp only
      apply ih
      intro i hi
      apply h
      rw [State.program_of_new hf] at hi
      simp only [State.record, List.length_append, List.length_singleton] at hi
      omega

/-- What holds of the states of simulated runs. -/
structure Good (P : Point) (ω : ℕ → Arr 32) (st : State) : Prop where
  log : GoodLog ω st.log
  disj : ∀ x, st.log.find x ≠ none → st.prog.find x = none
  prog : ∀ x e, st.prog.find x = some e → ∃ m ∈ st.signed, m.sig.R ≠ 0 ∧
    x = Spec.challengeQuery (xonly (m.sig.R + m.T)).1 P m.msg ∧
    m.sig.s • G = Spec.sgn (m.sig.R + m.T) • m.sig.R + reduceFrom e • Spec.sgn P.1 • P.1

theorem Good.init (P : Point) (ω : ℕ → Arr 32) : Good P ω State.init :=
  ⟨GoodLog.nil ω, fun _ _ => rfl, fun x e h => by cases h⟩

theorem Good.ask {P : Point} {ω : ℕ → Arr 32} {st : State} (h : Good P ω st) (x : Bytes) : Good P ω (st.ask ω x) := by
  unfold State.ask
  cases hx : st.prog.find x with
  | some a => exact h
  | none =>
    refine ⟨h.log.add x, fun y hy => ?_, h.prog⟩
    rcases add_find_none hy with h1 | rfl
    · exact h.disj y h1
    · exact hx

theorem Good.sign {P : Point} {ω : ℕ → Arr 32} {st : State} (h : Good P ω st) {T : MaybePoint} (t : Transcript P T) (msg : Bytes)
    (hx : st.find (Spec.challengeQuery (Spec.xbytes (t.R.1 + T)) P msg) = none) :
    Good P ω ((st.program (Spec.challengeQuery (Spec.xbytes (t.R.1 + T)) P msg) t.e).record ⟨msg, T, ⟨t.R.1, t.s⟩⟩) := by
  rw [State.program_of_new hx]
  obtain ⟨hx1, hx2⟩ := State.find_eq_none.1 hx
  refine ⟨h.log, fun y hy => ?_, fun y e hy => ?_⟩
  · change Log.find (st.prog ++ _) y = none
    rw [find_append, h.disj y hy, if_neg]
    · rfl
    · rintro rfl
      exact hy hx2
  · change Log.find (st.prog ++ _) y = some e at hy
    rw [find_append] at hy
    cases hp : st.prog.find y with
    | some a =>
      rw [hp] at hy
      obtain ⟨m, h1, h2⟩ := h.prog y a hp
      cases hy
      exact ⟨m, List.mem_append_left _ h1, h2⟩
    | none =>
      rw [hp] at hy
      by_cases hxy : Spec.challengeQuery (Spec.xbytes (t.R.1 + T)) P msg = y
      · rw [if_pos hxy] at hy
        cases hy
        refine ⟨⟨msg, T, ⟨t.R.1, t.s⟩⟩, List.mem_append_right _ (List.mem_singleton.2 rfl), t.R.2, ?_, t.eqn⟩
        rw [← hxy, spec_xbytes]
      · rw [if_neg hxy] at hy
        cases hy

theorem simulate_good (H : Hash) (P : Point) (ω : ℕ → Arr 32) (τ : ℕ → (T : MaybePoint) → Transcript P T) (A : AdaptorForger) (st : State)
    (h : Good P ω st) {out : Outcome} (ho : A.simulate H P ω τ st = some out) : Good P ω out.state := by
  induction A generalizing st with
  | submit msg sig =>
    cases ho
    exact h.ask _
  | ask x next ih =>
    unfold simulate at ho
    split at ho
    · exact ih _ _ (h.ask x) ho
    · exact ih _ _ h ho
  | sign msg T next ih =>
    unfold simulate at ho
    simp only at ho
    cases hf : st.find (Spec.challengeQuery (Spec.xbytes ((τ st.signed.length T).R.1 + T)) P msg) with
    | some a => rw [hf] at ho; cases ho
    | none =>
      rw [hf] at ho
      exact ih _ _ (h.sign _ _ hf) ho

theorem simulate_mem (H : Hash) (P : Point) (ω : ℕ → Arr 32) (τ : ℕ → (T : MaybePoint) → Transcript P T) (A : AdaptorForger) (st : State)
    {out : Outcome} (ho : A.simulate H P ω τ st = some out) :
    out.state.prog.find (Spec.challengeQuery out.sig.rx.1 P out.msg) ≠ none ∨
      Spec.challengeQuery out.sig.rx.1 P out.msg ∈ out.state.log.map (·.1) := by
  induction A generalizing st with
  | submit msg sig =>
    cases ho
    simp only
    unfold State.ask
    cases hp : st.prog.find (Spec.challengeQuery sig.rx.1 P msg) with
    | some a => exact .inl (by simp only [hp]; exact Option.some_ne_none _)
    | none => exact .inr (Log.mem_add _ _ _)
  | ask x next ih =>
    unfold simulate at ho
    split at ho
    · exact ih _ _ ho
    · exact ih _ _ ho
  | sign msg T next ih =>
    unfold simulate at ho
    simp only at ho
    cases hf : st.find (Spec.challengeQuery (Spec.xbytes ((τ st.signed.length T).R.1 + T)) P msg) with
    | some a => rw [hf] at ho; cases ho
    | none =>
      rw [hf] at ho
      exact ih _ _ ho

theorem ask_prefix (ω : ℕ → Arr 32) (st : State) (x : Bytes) : st.log <+: (st.ask ω x).log := by
  unfold State.ask
  split
  · exact List.prefix_rfl
  · exact Log.add_prefix _ _ _

theorem ask_length (ω : ℕ → Arr 32) (st : State) (x : Bytes) : (st.ask ω x).log.length ≤ st.log.length + 1 := by
  unfold State.ask
  split
  · exact Nat.le_succ _
  · exact Log.add_length _ _ _

theorem simulate_prefix (H : Hash) (P : Point) (ω : ℕ → Arr 32) (τ : ℕ → (T : MaybePoint) → Transcript P T) (A : AdaptorForger) (st : State)
    {out : Outcome} (ho : A.simulate H P ω τ st = some out) : st.log <+: out.state.log := by
  induction A generalizing st with
  | submit msg sig =>
    cases ho
    exact ask_prefix _ _ _
  | ask x next ih =>
    unfold simulate at ho
    split at ho
    · exact (ask_prefix ω st x).trans (ih _ _ ho)
    · exact ih _ _ ho
  | sign msg T next ih =>
    unfold simulate at ho
    simp only at ho
    cases hf : st.find (Spec.challengeQuery (Spec.xbytes ((τ st.signed.length T).R.1 + T)) P msg) with
    | some a => rw [hf] at ho; cases ho
    | none =>
      rw [hf] at ho
      have := ih _ _ ho
      rwa [State.program_of_new hf] at this

theorem simulate_length (H : Hash) (P : Point) (ω : ℕ → Arr 32) (τ : ℕ → (T : MaybePoint) → Transcript P T) {q s : ℕ} {A : AdaptorForger}
    (hA : AsksAtMost q s A) (st : State) {out : Outcome} (ho : A.simulate H P ω τ st = some out) :
    out.state.log.length ≤ st.log.length + q + 1 := by
  induction hA generalizing st with
  | submit q s msg sig =>
    cases ho
    have := ask_length ω st (Spec.challengeQuery sig.rx.1 P msg)
    simp only
    omega
  | ask q s x next _ ih =>
    unfold simulate at ho
    split at ho
    · have h1 := ih _ _ ho
      have h2 := ask_length ω st x
      omega
    · have := ih _ _ ho
      omega
  | other q s x next hx _ ih =>
    unfold simulate at ho
    rw [if_neg hx] at ho
    exact ih _ _ ho
  | sign q s msg T next _ ih =>
    unfold simulate at ho
    simp only at ho
    cases hf : st.find (Spec.challengeQuery (Spec.xbytes ((τ st.signed.length T).R.1 + T)) P msg) with
    | some a => rw [hf] at ho; cases ho
    | none =>
      rw [hf] at ho
      have := ih _ _ ho
      rwa [State.program_of_new hf] at this

/-- The string asked at an index depends only on the answers before it. -/
theorem simulate_causal (H : Hash) (P : Point) (ω ω' : ℕ → Arr 32) (τ : ℕ → (T : MaybePoint) → Transcript P T) (j : ℕ)
    (hω : ∀ i < j, ω i = ω' i) (A : AdaptorForger) (st : State) (hl : st.log.length ≤ j) {out out' : Outcome}
    (ho : A.simulate H P ω τ st = some out) (ho' : A.simulate H P ω' τ st = some out') :
    out.state.log[j]?.map (·.1) = out'.state.log[j]?.map (·.1) := by
  induction A generalizing st with
  | submit msg sig =>
    cases ho
    cases ho'
    simp only
    unfold State.ask
    cases hp : st.prog.find (Spec.challengeQuery sig.rx.1 P msg) with
    | some a => rfl
    | none =>
      simp only
      by_cases h : st.log.find (Spec.challengeQuery sig.rx.1 P msg) ≠ none ∨ st.log.length < j
      · rw [(Forger.add_same hl hω h).1]
      · rw [not_or, not_not] at h
        rw [Forger.add_getElem h.1 (by omega) ω List.prefix_rfl, Forger.add_getElem h.1 (by omega) ω' List.prefix_rfl]
  | ask x next ih =>
    unfold simulate at ho ho'
    by_cases hx : Drawn x
    swap
    · rw [if_neg hx] at ho ho'
      exact ih _ _ hl ho ho'
    rw [if_pos hx] at ho ho'
    unfold State.ask State.answer at ho ho'
    cases hp : st.prog.find x with
    | some a =>
      simp only [hp, Option.getD_some] at ho ho'
      exact ih _ _ hl ho ho'
    | none =>
      simp only [hp, Option.getD_none] at ho ho'
      by_cases h : st.log.find x ≠ none ∨ st.log.length < j
      · obtain ⟨h1, h2, h3⟩ := Forger.add_same hl hω h
        rw [h1, h2] at ho
        exact ih _ _ h3 ho ho'
      · rw [not_or, not_not] at h
        have p1 := simulate_prefix _ _ _ _ _ _ ho
        have p2 := simulate_prefix _ _ _ _ _ _ ho'
        rw [Forger.add_getElem h.1 (by omega) ω p1, Forger.add_getElem h.1 (by omega) ω' p2]
  | sign msg T next ih =>
    unfold simulate at ho ho'
    simp only at ho ho'
    cases hf : st.find (Spec.challengeQuery (Spec.xbytes ((τ st.signed.length T).R.1 + T)) P msg) with
    | some a => rw [hf] at ho; cases ho
    | none =>
      rw [hf] at ho ho'
      exact ih _ _ (by rw [State.program_of_new hf]; exact hl) ho ho'

/-! ## Two runs -/

/-- An accepted signature with the challenge of an adaptor signature completes it. -/
theorem reveal_of_same {P : MaybePoint} {e : MaybeScalar} {R T : MaybePoint} {s s' : MaybeScalar} {V : Point} (hR : R ≠ 0)
    (h : s • G = Spec.sgn (R + T) • R + e • P) (h' : s' • G = V.1 + e • P) (hV : isOdd V.1 = false)
    (hx : xonly V.1 = xonly (R + T)) :
    ∃ t, (⟨R, s⟩ : AdaptorSignature).revealSecret ⟨V, s'⟩ = some t ∧ t • G = T := by
  have h0 : R + T ≠ 0 := by
    intro h0
    rw [h0] at hx
    rcases xonly_eq_iff.1 hx with h1 | h1
    · exact V.2 h1
    · rw [neg_zero] at h1
      exact V.2 h1
  have hd : (s' - s) • G = V.1 - Spec.sgn (R + T) • R := by
    rw [sub_smul, h, h']
    abel
  unfold AdaptorSignature.revealSecret
  simp only
  rw [hd, sgn_smul]
  cases ho : isOdd (R + T) with
  | false =>
    have hV' : V.1 = R + T := eq_of_xonly_isOdd hx (hV.trans ho.symm)
    refine ⟨s' - s, if_pos rfl, ?_⟩
    rw [hd, sgn_smul, ho, hV', negIf_false, add_sub_cancel_left]
  | true =>
    have hV' : V.1 = -(R + T) := eq_of_xonly_isOdd (by rw [hx, xonly_neg]) (by rw [hV, isOdd_neg h0, ho]; rfl)
    rw [negIf_true, sub_neg_eq_add, if_neg, if_pos rfl]
    · refine ⟨-(s' - s), rfl, ?_⟩
      rw [neg_smul, hd, sgn_smul, ho, negIf_true, hV']
      abel
    · intro h1
      have h2 : R = -R := by
        have := add_left_cancel (h1.trans (sub_eq_add_neg _ _))
        exact this
      have h3 := isOdd_neg hR
      rw [← h2] at h3
      revert h3
      generalize isOdd R = b
      cases b <;> decide

/-- The string of the challenge of a new accepted signature was drawn for the forger. -/
theorem wins_log {H : Hash} {P : Point} {ω : ℕ → Arr 32} {τ : ℕ → (T : MaybePoint) → Transcript P T} {A : AdaptorForger} {out : Outcome}
    (ho : A.simulate H P ω τ State.init = some out) (hw : out.Wins H P) :
    challengeIndex P out < out.state.log.length ∧
      out.state.log[challengeIndex P out]?
        = some (Spec.challengeQuery out.sig.rx.1 P out.msg, ω (challengeIndex P out)) ∧
      computeChallengeHashTweak (out.state.hash H) out.sig.rx P out.msg = reduceFrom (ω (challengeIndex P out)) := by
  have hg := simulate_good H P ω τ A _ (Good.init P ω) ho
  have hhash : computeChallengeHashTweak (out.state.hash H) out.sig.rx P out.msg
      = reduceFrom (out.state.hash H (Spec.challengeQuery out.sig.rx.1 P out.msg)) := by
    rw [(C66_what_is_hashed _).2.2.2.1]
    rfl
  have hp : out.state.prog.find (Spec.challengeQuery out.sig.rx.1 P out.msg) = none := by
    rw [← Option.not_isSome_iff_eq_none]
    intro hs
    obtain ⟨e, he⟩ := Option.isSome_iff_exists.1 hs
    obtain ⟨m, hm, hR, hx, h1⟩ := hg.prog _ _ he
    obtain ⟨hrx, hmsg⟩ := Forger.challengeQuery_inj hx
    apply hw.2
    have hv := hw.1
    have hv0 := hv
    rw [verifySingle_eq_ok, hhash] at hv
    obtain ⟨V', h1', h2', h3'⟩ := hv
    have hh : out.state.hash H (Spec.challengeQuery out.sig.rx.1 P out.msg) = e := by
      unfold State.hash State.find
      rw [he]
      rfl
    rw [hh, toEvenY_sgn] at h1'
    obtain ⟨t, ht, htT⟩ := reveal_of_same hR h1 h1' h2' (h3'.trans hrx)
    refine ⟨m, hm, hmsg.symm, ⟨V', out.sig.s⟩, t, ?_, ht, htT⟩
    refine CompactSignature.liftNonce_eq_some.2 ⟨h2', ?_⟩
    cases hsig : out.sig
    rw [hsig] at h3'
    simp only at h3'
    rw [← h3']
    rfl
  have hmem : Spec.challengeQuery out.sig.rx.1 P out.msg ∈ out.state.log.map (·.1) :=
    (simulate_mem H P ω τ A _ ho).resolve_left fun h => h hp
  have hlt : challengeIndex P out < out.state.log.length := by
    unfold challengeIndex
    rw [List.findIdx_lt_length]
    obtain ⟨e, he, hx⟩ := List.mem_map.1 hmem
    exact ⟨e, he, by simpa using hx⟩
  have hk : (out.state.log[challengeIndex P out]).1 = Spec.challengeQuery out.sig.rx.1 P out.msg := by
    have := List.findIdx_getElem (w := hlt)
    exact of_decide_eq_true this
  have hget : out.state.log[challengeIndex P out]?
      = some (Spec.challengeQuery out.sig.rx.1 P out.msg, ω (challengeIndex P out)) := by
    rw [List.getElem?_eq_getElem hlt]
    have ha := hg.log.ans _ _ (List.getElem?_eq_getElem hlt)
    rw [← hk, ← ha]
  refine ⟨hlt, hget, ?_⟩
  rw [hhash]
  congr 1
  unfold State.hash State.find
  rw [hp, Forger.find_of_getElem hg.log.nodup hget]
  rfl

theorem reveal_of_fork {H : Hash} {P : Point} {ω ω' : ℕ → Arr 32} {τ : ℕ → (T : MaybePoint) → Transcript P T} {A : AdaptorForger} {out out' : Outcome}
    (ho : A.simulate H P ω τ State.init = some out) (ho' : A.simulate H P ω' τ State.init = some out')
    (hw : out.Wins H P) (hw' : out'.Wins H P) (hj : challengeIndex P out = challengeIndex P out')
    (hω : ∀ i < challengeIndex P out, ω i = ω' i)
    (hne : reduceFrom (ω (challengeIndex P out)) ≠ reduceFrom (ω' (challengeIndex P out))) :
    (Spec.sgn P.1 * (out.sig.s - out'.sig.s)
      / (reduceFrom (ω (challengeIndex P out)) - reduceFrom (ω' (challengeIndex P out)))) • G = P.1 := by
  have hq := simulate_causal H P ω ω' τ _ hω A State.init (Nat.zero_le _) ho ho'
  obtain ⟨-, h1, h2⟩ := wins_log ho hw
  obtain ⟨-, h1', h2'⟩ := wins_log ho' hw'
  rw [h1, hj, h1'] at hq
  simp only [Option.map_some, Option.some.injEq] at hq
  obtain ⟨hrx, -⟩ := Forger.challengeQuery_inj hq
  have hv := hw.1
  have hv' := hw'.1
  rw [verifySingle_eq_ok, h2] at hv
  rw [verifySingle_eq_ok, h2'] at hv'
  obtain ⟨V, a1, a2, a3⟩ := hv
  obtain ⟨V', a1', a2', a3'⟩ := hv'
  have hV : V.1 = V'.1 := eq_of_xonly_isOdd (by rw [a3, a3', hrx]) (a2.trans a2'.symm)
  rw [← hj] at a1'
  rw [hV] at a1
  generalize reduceFrom (ω (challengeIndex P out)) = e at *
  generalize reduceFrom (ω' (challengeIndex P out)) = e' at *
  have hd : e - e' ≠ 0 := sub_ne_zero.2 hne
  have key : (out.sig.s - out'.sig.s) • G = (e - e') • (toEvenY P).1 := by
    rw [sub_smul, a1, a1', sub_smul]
    abel
  have hs : Spec.sgn P.1 * Spec.sgn P.1 = 1 := sgn_mul_sgn P.1
  rw [div_eq_inv_mul, mul_smul, mul_smul, key, toEvenY_sgn, smul_smul (Spec.sgn P.1), smul_smul (Spec.sgn P.1 * _), smul_smul]
  have : (e - e')⁻¹ * (Spec.sgn P.1 * (e - e') * Spec.sgn P.1) = 1 := by
    rw [mul_comm (Spec.sgn P.1) (e - e'), mul_assoc, hs, mul_one, inv_mul_cancel₀ hd]
  rw [this, one_smul]

/-! ## Aborted simulations -/

/-- The simulation is aborted when the forger asks for the `j`-th signature. -/
def AbortAt (H : Hash) (P : Point) (ω : ℕ → Arr 32) (τ : ℕ → (T : MaybePoint) → Transcript P T) (j : ℕ) : AdaptorForger → State → Prop
  | .submit _ _, _ => False
  | .ask x next, st =>
    if Drawn x then AbortAt H P ω τ j (next (st.answer ω x)) (st.ask ω x) else AbortAt H P ω τ j (next (H x)) st
  | .sign msg T next, st =>
    let t := τ st.signed.length T
    let x := Spec.challengeQuery (Spec.xbytes (t.R.1 + T)) P msg
    let sig : AdaptorSignature := ⟨t.R.1, t.s⟩
    if st.signed.length = j then st.find x ≠ none
    else st.find x = none ∧ AbortAt H P ω τ j (next sig) ((st.program x t.e).record ⟨msg, T, sig⟩)

theorem ask_signed (ω : ℕ → Arr 32) (st : State) (x : Bytes) : (st.ask ω x).signed = st.signed := by
  unfold State.ask
  split <;> rfl

theorem ask_prog (ω : ℕ → Arr 32) (st : State) (x : Bytes) : (st.ask ω x).prog = st.prog := by
  unfold State.ask
  split <;> rfl

theorem record_signed_length (st : State) (x : Bytes) (e : Arr 32) (m : Made) :
    ((st.program x e).record m).signed.length = st.signed.length + 1 := by
  unfold State.record State.program
  split <;> simp

theorem abortAt_of_none {H : Hash} {P : Point} {ω : ℕ → Arr 32} {τ : ℕ → (T : MaybePoint) → Transcript P T} {q s : ℕ} {A : AdaptorForger}
    (hA : AsksAtMost q s A) (st : State) (h : A.simulate H P ω τ st = none) :
    ∃ j, st.signed.length ≤ j ∧ j < st.signed.length + s ∧ AbortAt H P ω τ j A st := by
  induction hA generalizing st with
  | submit => cases h
  | ask q s x next _ ih =>
    unfold simulate at h
    unfold AbortAt
    split at h
    · rename_i hx
      obtain ⟨j, h1, h2, h3⟩ := ih _ _ h
      rw [ask_signed] at h1 h2
      exact ⟨j, h1, h2, by rwa [if_pos hx]⟩
    · rename_i hx
      obtain ⟨j, h1, h2, h3⟩ := ih _ _ h
      exact ⟨j, h1, h2, by rwa [if_neg hx]⟩
  | other q s x next hx _ ih =>
    unfold simulate at h
    unfold AbortAt
    rw [if_neg hx] at h
    obtain ⟨j, h1, h2, h3⟩ := ih _ _ h
    exact ⟨j, h1, h2, by rwa [if_neg hx]⟩
  | sign q s msg T next _ ih =>
    unfold simulate at h
    unfold AbortAt
    simp only at h ⊢
    cases hf : st.find (Spec.challengeQuery (Spec.xbytes ((τ st.signed.length T).R.1 + T)) P msg) with
    | some a =>
      refine ⟨st.signed.length, le_rfl, by omega, ?_⟩
      rw [if_pos rfl]
      exact Option.some_ne_none _
    | none =>
      rw [hf] at h
      obtain ⟨j, h1, h2, h3⟩ := ih _ _ h
      rw [record_signed_length] at h1 h2
      refine ⟨j, by omega, by omega, ?_⟩
      rw [if_neg (by omega)]
      exact ⟨rfl, h3⟩

/-- The strings drawn before a signature is asked for do not depend on its transcript. -/
theorem abortAt_strings (H : Hash) (P : Point) (ω : ℕ → Arr 32) (τ : ℕ → (T : MaybePoint) → Transcript P T) (j : ℕ) {q s : ℕ} {A : AdaptorForger}
    (hA : AsksAtMost q s A) (st : State) :
    ∃ (L : List Bytes) (T : MaybePoint), L.length ≤ st.prog.length + st.log.length + q + s ∧
      ∀ t, AbortAt H P ω (Function.update τ j t) j A st →
        ∃ msg, Spec.challengeQuery (Spec.xbytes ((t T).R.1 + T)) P msg ∈ L := by
  induction hA generalizing st with
  | submit => exact ⟨[], 0, Nat.zero_le _, fun t h => h.elim⟩
  | ask q s x next _ ih =>
    by_cases hx : Drawn x
    · obtain ⟨L, T', h1, h2⟩ := ih (st.answer ω x) (st.ask ω x)
      have := ask_length ω st x
      rw [ask_prog] at h1
      refine ⟨L, T', by omega, fun t ht => h2 t ?_⟩
      unfold AbortAt at ht
      rwa [if_pos hx] at ht
    · obtain ⟨L, T', h1, h2⟩ := ih (H x) st
      refine ⟨L, T', by omega, fun t ht => h2 t ?_⟩
      unfold AbortAt at ht
      rwa [if_neg hx] at ht
  | other q s x next hx _ ih =>
    obtain ⟨L, T', h1, h2⟩ := ih (H x) st
    refine ⟨L, T', by omega, fun t ht => h2 t ?_⟩
    unfold AbortAt at ht
    rwa [if_neg hx] at ht
  | sign q s msg T next _ ih =>
    by_cases hj : st.signed.length = j
    · refine ⟨(st.prog ++ st.log).map (·.1), T, by simp; omega, fun t ht => ?_⟩
      unfold AbortAt at ht
      simp only at ht
      rw [if_pos hj, hj, Function.update_self] at ht
      refine ⟨msg, ?_⟩
      by_contra hn
      rw [List.map_append, List.mem_append, not_or] at hn
      exact ht (State.find_eq_none.2 ⟨Log.find_eq_none.2 hn.1, Log.find_eq_none.2 hn.2⟩)
    · set t0 := τ st.signed.length T with ht0
      obtain ⟨L, T', h1, h2⟩ := ih ⟨t0.R.1, t0.s⟩
        ((st.program (Spec.challengeQuery (Spec.xbytes (t0.R.1 + T)) P msg) t0.e).record ⟨msg, T, ⟨t0.R.1, t0.s⟩⟩)
      have hl : ((st.program (Spec.challengeQuery (Spec.xbytes (t0.R.1 + T)) P msg) t0.e).record ⟨msg, T, ⟨t0.R.1, t0.s⟩⟩).prog.length
          + ((st.program (Spec.challengeQuery (Spec.xbytes (t0.R.1 + T)) P msg) t0.e).record ⟨msg, T, ⟨t0.R.1, t0.s⟩⟩).log.length
          ≤ st.prog.length + st.log.length + 1 := by
        unfold State.record State.program
        split
        · simp
        · simp; omega
      refine ⟨L, T', by omega, fun t ht => h2 t ?_⟩
      unfold AbortAt at ht
      simp only at ht
      rw [if_neg hj, Function.update_of_ne hj, ← ht0] at ht
      exact ht.2

/-- Few transcripts have their string in a list. -/
theorem ncard_transcripts_le (P : Point) (T : MaybePoint) (L : List Bytes) :
    {t : Transcript P T | ∃ msg, Spec.challengeQuery (Spec.xbytes (t.R.1 + T)) P msg ∈ L}.ncard ≤ L.length * (2 * 256 ^ 32) := by
  induction L with
  | nil => simp
  | cons x L ih =>
    have hsub : {t : Transcript P T | ∃ msg, Spec.challengeQuery (Spec.xbytes (t.R.1 + T)) P msg ∈ x :: L}
        ⊆ {t | ∃ msg, Spec.challengeQuery (Spec.xbytes (t.R.1 + T)) P msg = x} ∪
          {t | ∃ msg, Spec.challengeQuery (Spec.xbytes (t.R.1 + T)) P msg ∈ L} := by
      rintro t ⟨msg, h⟩
      rcases List.mem_cons.1 h with h | h
      · exact .inl ⟨msg, h⟩
      · exact .inr ⟨msg, h⟩
    refine (Set.ncard_le_ncard hsub (Set.toFinite _)).trans ((Set.ncard_union_le _ _).trans ?_)
    have h1 : {t : Transcript P T | ∃ msg, Spec.challengeQuery (Spec.xbytes (t.R.1 + T)) P msg = x}.ncard ≤ 2 * 256 ^ 32 := by
      have hb : Nat.card (Bool × Arr 32) = 2 * 256 ^ 32 := by
        rw [Nat.card_prod, arr_card, Nat.card_eq_fintype_card (α := Bool), Fintype.card_bool]
      rw [← hb, ← Set.ncard_univ]
      refine Set.ncard_le_ncard_of_injOn (fun t => (isOdd (t.R.1 + T), t.e)) (fun _ _ => Set.mem_univ _) ?_ (Set.toFinite _)
      rintro t ⟨m, hm⟩ t' ⟨m', hm'⟩ he
      simp only [Prod.mk.injEq] at he
      rw [← hm', spec_xbytes, spec_xbytes] at hm
      have := eq_of_xonly_isOdd (Forger.challengeQuery_inj hm).1 he.1
      exact Transcript.ext_of (Subtype.ext (add_right_cancel this)) he.2
    rw [List.length_cons]
    calc _ ≤ 2 * 256 ^ 32 + L.length * (2 * 256 ^ 32) := Nat.add_le_add h1 ih
      _ = _ := by ring

theorem transcripts_update {P : Point} {s : ℕ} (τ : Fin s → (T : MaybePoint) → Transcript P T) (j : Fin s)
    (t : (T : MaybePoint) → Transcript P T) :
    transcripts (Function.update τ j t) = Function.update (transcripts τ) j.1 t := by
  funext i T
  unfold transcripts
  by_cases h : i = j.1
  · subst h
    rw [dif_pos j.2, Function.update_self, Function.update_self]
  · rw [Function.update_of_ne h]
    split
    · rename_i hi
      rw [Function.update_of_ne]
      rintro rfl
      exact h rfl
    · rfl

/-- Simulations are rarely aborted. -/
theorem chance_abort (H : Hash) (P : Point) (ω : ℕ → Arr 32) {q s : ℕ} {A : AdaptorForger} (hA : AsksAtMost q s A) :
    Spec.chance (fun τ : Fin s → (T : MaybePoint) → Transcript P T => A.simulate H P ω (transcripts τ) State.init = none)
      ≤ s * (2 * (q + s : ℕ) / (orderN - 1 : ℕ)) := by
  have hn : 0 < orderN - 1 := by have := one_lt_orderN; omega
  have h1 : ∀ τ : Fin s → (T : MaybePoint) → Transcript P T, A.simulate H P ω (transcripts τ) State.init = none →
      ∃ j : Fin s, AbortAt H P ω (transcripts τ) j.1 A State.init := by
    intro τ h
    obtain ⟨j, -, h2, h3⟩ := abortAt_of_none hA _ h
    exact ⟨⟨j, by simpa [State.init] using h2⟩, h3⟩
  refine (chance_mono h1).trans (chance_exists_fin s _ _ fun j => ?_)
  have hc0 : (0 : ℚ) ≤ 2 * (q + s : ℕ) / (orderN - 1 : ℕ) := by
    generalize orderN - 1 = n
    positivity
  refine Decision.chance_update_le j _ _ hc0 fun τ => ?_
  simp only [transcripts_update]
  obtain ⟨L, T, hL, h⟩ := abortAt_strings H P ω (transcripts τ) j.1 hA State.init
  have h2 := Decision.chance_eval_one (Y := Transcript P) T
    fun t => ∃ msg, Spec.challengeQuery (Spec.xbytes (t.R.1 + T)) P msg ∈ L
  refine (chance_mono fun t ht => h t ht).trans (h2.le.trans ?_)
  unfold Spec.chance
  have h3 := ncard_transcripts_le P T L
  have h4 : L.length ≤ q + s := by simpa [State.init] using hL
  rw [transcript_card]
  generalize {t : Transcript P T | ∃ msg, Spec.challengeQuery (Spec.xbytes (t.R.1 + T)) P msg ∈ L}.ncard = a at h3 ⊢
  obtain ⟨N, hN⟩ : ∃ N : ℕ, N = 256 ^ 32 := ⟨_, rfl⟩
  have hN0 : 0 < N := by rw [hN]; exact Nat.pow_pos (by decide)
  rw [← hN] at h3 ⊢
  generalize orderN - 1 = n at hn ⊢
  have h5 : a * n ≤ 2 * (q + s) * (n * N) :=
    calc a * n ≤ (L.length * (2 * N)) * n := Nat.mul_le_mul_right _ h3
      _ ≤ ((q + s) * (2 * N)) * n := Nat.mul_le_mul_right _ (Nat.mul_le_mul_right _ h4)
      _ = _ := by ring
  rw [div_le_div_iff₀ (by exact_mod_cast Nat.mul_pos hn hN0) (by exact_mod_cast hn)]
  exact_mod_cast h5

/-- The transcript of the signer for given answers. -/
def ofAnswers (sk : Scalar) (p : Arr 32 × Arr 32) (T : MaybePoint) : Transcript (mulG sk) T :=
  ofNonce sk (SecNonceBuilder.reduceOrOne p.1) p.2 T

/-- What becomes of a simulation, as a decision tree. -/
def tree (H : Hash) (P : Point) (ω : ℕ → Arr 32) (post : Option Outcome → Prop) :
    AdaptorForger → State → Decision.Tree MaybePoint (Transcript P)
  | .submit msg sig, st => .leaf (post (some ⟨msg, sig, st.ask ω (Spec.challengeQuery sig.rx.1 P msg)⟩))
  | .ask x next, st =>
    if Drawn x then tree H P ω post (next (st.answer ω x)) (st.ask ω x) else tree H P ω post (next (H x)) st
  | .sign msg T next, st => .node T fun t =>
    match st.find (Spec.challengeQuery (Spec.xbytes (t.R.1 + T)) P msg) with
    | some _ => .leaf (post none)
    | none => tree H P ω post (next ⟨t.R.1, t.s⟩)
        ((st.program (Spec.challengeQuery (Spec.xbytes (t.R.1 + T)) P msg) t.e).record ⟨msg, T, ⟨t.R.1, t.s⟩⟩)

theorem tree_eval (H : Hash) (P : Point) (ω : ℕ → Arr 32) (post : Option Outcome → Prop)
    (τ : ℕ → (T : MaybePoint) → Transcript P T) (A : AdaptorForger) (st : State) :
    (tree H P ω post A st).eval (fun n => τ (st.signed.length + n)) ↔ post (A.simulate H P ω τ st) := by
  induction A generalizing st with
  | submit msg sig => exact Iff.rfl
  | ask x next ih =>
    unfold tree simulate
    split
    · have := ih (st.answer ω x) (st.ask ω x)
      rwa [ask_signed] at this
    · exact ih _ _
  | sign msg T next ih =>
    unfold tree simulate
    rw [Decision.eval_node]
    simp only [Nat.add_zero]
    cases hf : st.find (Spec.challengeQuery (Spec.xbytes ((τ st.signed.length T).R.1 + T)) P msg) with
    | some a => exact Iff.rfl
    | none =>
      simp only
      have := ih ⟨(τ st.signed.length T).R.1, (τ st.signed.length T).s⟩
        ((st.program (Spec.challengeQuery (Spec.xbytes ((τ st.signed.length T).R.1 + T)) P msg) (τ st.signed.length T).e).record
          ⟨msg, T, ⟨(τ st.signed.length T).R.1, (τ st.signed.length T).s⟩⟩)
      rw [record_signed_length] at this
      rw [← this]
      have hn : (fun n => τ (st.signed.length + (n + 1))) = fun n => τ (st.signed.length + 1 + n) := by
        funext n
        rw [add_comm n 1, add_assoc]
      rw [hn]

/-- Answers that are numbers between one and the order give every transcript equally often. -/
theorem chance_pull {Ω : Type} [Finite Ω] (H : Hash) (sk : Scalar) (s : ℕ) (A : AdaptorForger) (ω : Ω → ℕ → Arr 32)
    (post : Option Outcome → Prop) :
    Spec.chance (fun p : Ω × (Fin s → Arr 32 × Arr 32) => (∀ j, (p.2 j).1 ∈ goodArr) ∧
        post (A.simulate H (mulG sk) (ω p.1) (transcripts fun j => ofAnswers sk (p.2 j)) State.init))
      ≤ Spec.chance fun p : Ω × (Fin s → (T : MaybePoint) → Transcript (mulG sk) T) =>
        post (A.simulate H (mulG sk) (ω p.1) (transcripts p.2) State.init) := by
  letI := Fintype.ofFinite Ω
  rw [Decision.chance_prod (fun (w : Ω) (κ : Fin s → Arr 32 × Arr 32) => (∀ j, (κ j).1 ∈ goodArr) ∧
        post (A.simulate H (mulG sk) (ω w) (transcripts fun j => ofAnswers sk (κ j)) State.init)),
    Decision.chance_prod (fun (w : Ω) (τ : Fin s → (T : MaybePoint) → Transcript (mulG sk) T) =>
        post (A.simulate H (mulG sk) (ω w) (transcripts τ) State.init))]
  refine div_le_div_of_nonneg_right (Finset.sum_le_sum fun w _ => ?_) (by positivity)
  have hinit : ∀ τ : ℕ → (T : MaybePoint) → Transcript (mulG sk) T,
      post (A.simulate H (mulG sk) (ω w) τ State.init) ↔ (tree H (mulG sk) (ω w) post A State.init).eval τ := by
    intro τ
    have := tree_eval H (mulG sk) (ω w) post τ A State.init
    simp only [State.init, List.length_nil, Nat.zero_add] at this
    exact this.symm
  simp only [hinit]
  have : Nonempty (Arr 32 × Arr 32) := ⟨(zeroSeed, zeroSeed)⟩
  refine Decision.chance_pull (fun p : Arr 32 × Arr 32 => p.1 ∈ goodArr) (fun T p => ofAnswers sk p T) ?_ ?_
    (Transcript.spare (mulG sk)) s _
  · intro T p p' hp hp' h
    have h1 := (transcriptEquiv sk T).injective (a₁ := (SecNonceBuilder.reduceOrOne p.1, p.2))
      (a₂ := (SecNonceBuilder.reduceOrOne p'.1, p'.2)) h
    simp only [Prod.mk.injEq] at h1
    exact Prod.ext (reduceOrOne_injOn hp hp' h1.1) h1.2
  · intro T
    rw [transcript_card, Nat.card_prod, arr_card]
    have := orderN_lt
    exact Nat.mul_le_mul_right _ (by omega)

/-! ## The fork -/

/-- The index of the challenge, if the simulated run is won. -/
noncomputable def forkIndex {q : ℕ} (H : Hash) (P : Point) (A : AdaptorForger) (τ : ℕ → (T : MaybePoint) → Transcript P T) (ω : Fin q → Arr 32) :
    Option (Fin q) :=
  open Classical in
  match A.simulate H P (answers ω) τ State.init with
  | none => none
  | some out => if h : out.Wins H P ∧ challengeIndex P out < q then some ⟨challengeIndex P out, h.2⟩ else none

/-- The simulated run is won. -/
def SimWins {q : ℕ} (H : Hash) (P : Point) (A : AdaptorForger) (τ : ℕ → (T : MaybePoint) → Transcript P T) (ω : Fin q → Arr 32) : Prop :=
  ∃ out, A.simulate H P (answers ω) τ State.init = some out ∧ out.Wins H P

theorem forkIndex_ne_none {q s : ℕ} {H : Hash} {P : Point} {A : AdaptorForger} {τ : ℕ → (T : MaybePoint) → Transcript P T} (hA : AsksAtMost q s A)
    (ω : Fin (q + 1) → Arr 32) : forkIndex H P A τ ω ≠ none ↔ SimWins H P A τ ω := by
  unfold forkIndex SimWins
  cases ho : A.simulate H P (answers ω) τ State.init with
  | none => simp
  | some out =>
    simp only [Option.some.injEq, exists_eq_left']
    constructor
    · intro h
      by_contra hn
      exact h (dif_neg fun x => hn x.1)
    · intro h
      have h1 := (wins_log ho h).1
      have h2 := simulate_length H P (answers ω) τ hA _ ho
      rw [dif_pos ⟨h, by simp only [State.init, List.length_nil] at h2; omega⟩]
      exact Option.some_ne_none _

theorem forkIndex_eq_some {q : ℕ} {H : Hash} {P : Point} {A : AdaptorForger} {τ : ℕ → (T : MaybePoint) → Transcript P T} {ω : Fin q → Arr 32}
    {j : Fin q} (h : forkIndex H P A τ ω = some j) :
    ∃ out, A.simulate H P (answers ω) τ State.init = some out ∧ out.Wins H P ∧ challengeIndex P out = j.1 := by
  unfold forkIndex at h
  cases ho : A.simulate H P (answers ω) τ State.init with
  | none =>
    rw [ho] at h
    cases h
  | some out =>
    rw [ho] at h
    simp only at h
    split at h
    · rename_i hh
      cases h
      exact ⟨out, rfl, hh.1, rfl⟩
    · cases h

theorem extract_of_indices {q s : ℕ} {H : Hash} {P : Point} {A : AdaptorForger} {τ : Fin s → (T : MaybePoint) → Transcript P T} {ω ω' : Fin q → Arr 32}
    {j : Fin q} (h : forkIndex H P A (transcripts τ) ω = some j)
    (h' : forkIndex H P A (transcripts τ) (splice j ω ω') = some j) (hne : reduceFrom (ω j) ≠ reduceFrom (ω' j)) :
    A.extract H P τ ω ω' • G = P.1 := by
  obtain ⟨out, ho, hw, hj⟩ := forkIndex_eq_some h
  obtain ⟨out', ho', hw', hj'⟩ := forkIndex_eq_some h'
  have key := reveal_of_fork ho ho' hw hw' (hj.trans hj'.symm) ?_ ?_
  · unfold extract
    rw [ho]
    simp only
    rw [hj, Forger.rewind_eq_splice, ho']
    simp only
    rw [hj, Forger.answers_of_lt, Forger.answers_of_lt, splice_self] at key
    rw [Forger.answers_of_lt, Forger.answers_of_lt]
    exact key
  · intro i hi
    rw [hj] at hi
    have hq := hi.trans j.2
    unfold answers
    rw [dif_pos hq, dif_pos hq]
    exact (if_pos (show (⟨i, hq⟩ : Fin q) < j from hi)).symm
  · rw [hj, Forger.answers_of_lt, Forger.answers_of_lt, splice_self]
    exact hne

open Classical in
/-- Two simulated runs reveal the secret key. -/
theorem simulated_fork (H : Hash) (P : Point) (A : AdaptorForger) (q s : ℕ) (hA : A.AsksAtMost q s) :
    Spec.forked (q + 1) (Spec.chance fun p : (Fin (q + 1) → Arr 32) × (Fin s → (T : MaybePoint) → Transcript P T) =>
        SimWins H P A (transcripts p.2) p.1)
      ≤ Spec.chance fun p : (Fin s → (T : MaybePoint) → Transcript P T) × (Fin (q + 1) → Arr 32) × (Fin (q + 1) → Arr 32) =>
        A.extract H P p.1 p.2.1 p.2.2 • G = P.1 := by
  letI : Fintype (Arr 32) := Fintype.ofFinite _
  letI : Fintype ((T : MaybePoint) → Transcript P T) := Fintype.ofFinite _
  have hcard : Fintype.card (Arr 32) = 2 ^ 256 := by
    rw [← Nat.card_eq_fintype_card, arr_card]; norm_num
  have hbad : ∀ a : Arr 32, (Finset.univ.filter fun a' : Arr 32 => reduceFrom a = reduceFrom a').card ≤ 2 := by
    intro a
    have h := ncard_mod_le (reduceFrom a).val
    rw [Set.ncard_eq_toFinset_card'] at h
    refine (Finset.card_le_card fun a' ha' => ?_).trans h
    rw [Finset.mem_filter] at ha'
    rw [Set.mem_toFinset]
    change beNat a'.1 % orderN = _
    rw [← reduceFrom_val, ha'.2]
  have hF := fun τ : Fin s → (T : MaybePoint) → Transcript P T =>
    forking_count (forkIndex H P A (transcripts τ) (q := q + 1)) (fun a a' => reduceFrom a = reduceFrom a') 2 hbad
  set W := Fintype.card (Fin (q + 1) → Arr 32) with hW
  rw [hcard] at hF
  have hW0 : 0 < W := Fintype.card_pos_iff.2 ⟨fun _ => zeroSeed⟩
  have hT0 : 0 < Fintype.card (Fin s → (T : MaybePoint) → Transcript P T) := Fintype.card_pos_iff.2 ⟨fun _ => Transcript.spare P⟩
  have hf := forked_avg (Nat.succ_pos q) hW0 hT0 _ _ hF
  refine le_trans (le_of_eq ?_) (hf.trans ?_)
  · congr 1
    unfold Spec.chance
    rw [Nat.card_prod, Nat.card_eq_fintype_card, Nat.card_eq_fintype_card, mul_comm (Fintype.card _)]
    congr 2
    rw [Set.ncard_eq_toFinset_card', Set.toFinset_setOf, Finset.card_filter, Fintype.sum_prod_type_right]
    refine Finset.sum_congr rfl fun τ _ => ?_
    rw [Finset.card_filter]
    refine Finset.sum_congr rfl fun ω _ => ?_
    simp only [forkIndex_ne_none hA]
  · unfold Spec.chance
    rw [Nat.card_prod, Nat.card_prod, Nat.card_eq_fintype_card, Nat.card_eq_fintype_card]
    refine div_le_div_of_nonneg_right (Nat.cast_le.2 ?_) (by positivity)
    rw [Set.ncard_eq_toFinset_card', Set.toFinset_setOf, Finset.card_filter, Fintype.sum_prod_type]
    refine Finset.sum_le_sum fun τ _ => ?_
    rw [← Finset.card_filter]
    refine Finset.card_le_card fun p hp => ?_
    rw [Finset.mem_filter] at hp ⊢
    obtain ⟨h0, j, h1, h2, h3⟩ := hp
    exact ⟨h0, extract_of_indices h1 h2 h3⟩

/-- A run against the signer is won only if a nonce is special, or the simulation is aborted or won. -/
theorem forges_cases {q s : ℕ} {H : Hash} {sk : Scalar} {seed : ℕ → Arr 32} {A : AdaptorForger} (hA : AsksAtMost q s A)
    (p : (Fin (q + 1) → Arr 32) × (Fin s → Arr 32 × Arr 32)) (h : A.Forges H sk seed p) :
    (∃ j, (p.2 j).1 ∉ goodArr) ∨
      ((∀ j, (p.2 j).1 ∈ goodArr) ∧ A.simulate H (mulG sk) (answers p.1) (transcripts fun j => ofAnswers sk (p.2 j))
        State.init = none) ∨
      ((∀ j, (p.2 j).1 ∈ goodArr) ∧ SimWins H (mulG sk) A (transcripts fun j => ofAnswers sk (p.2 j)) p.1) := by
  by_cases hg : ∀ j, (p.2 j).1 ∈ goodArr
  swap
  · exact .inl (not_forall.1 hg)
  right
  have hcongr := simulate_congr H (mulG sk) (answers p.1)
    (τ := fun i T => ofNonce sk (SecNonceBuilder.reduceOrOne (pairs p.2 i).1) (pairs p.2 i).2 T)
    (τ' := transcripts fun j => ofAnswers sk (p.2 j)) hA State.init (by
      intro i hi
      have hi' : i < s := by simpa [State.init] using hi
      funext T
      unfold pairs transcripts
      rw [dif_pos hi', dif_pos hi']
      rfl)
  rcases simulate_or H sk seed (answers p.1) (pairs p.2) A State.init with h1 | h1
  · exact .inl ⟨hg, hcongr ▸ h1⟩
  · exact .inr ⟨hg, _, hcongr ▸ h1, h⟩

theorem forges_chance {q s : ℕ} {H : Hash} {sk : Scalar} {seed : ℕ → Arr 32} {A : AdaptorForger} (hA : AsksAtMost q s A) :
    (Spec.chance fun p : (Fin (q + 1) → Arr 32) × (Fin s → Arr 32 × Arr 32) => A.Forges H sk seed p)
      ≤ s * (1 / 2 ^ 127) + (s * (2 * (q + s : ℕ) / (orderN - 1 : ℕ))
        + Spec.chance fun p : (Fin (q + 1) → Arr 32) × (Fin s → (T : MaybePoint) → Transcript (mulG sk) T) =>
          SimWins H (mulG sk) A (transcripts p.2) p.1) := by
  have h1 := chance_mono (Ω := (Fin (q + 1) → Arr 32) × (Fin s → Arr 32 × Arr 32))
    fun p h => forges_cases (H := H) (sk := sk) (seed := seed) hA p h
  have h2 := chance_or (Ω := (Fin (q + 1) → Arr 32) × (Fin s → Arr 32 × Arr 32)) (fun p => ∃ j, (p.2 j).1 ∉ goodArr)
    (fun p => ((∀ j, (p.2 j).1 ∈ goodArr) ∧ A.simulate H (mulG sk) (answers p.1)
        (transcripts fun j => ofAnswers sk (p.2 j)) State.init = none) ∨
      ((∀ j, (p.2 j).1 ∈ goodArr) ∧ SimWins H (mulG sk) A (transcripts fun j => ofAnswers sk (p.2 j)) p.1))
  have h3 := chance_or (Ω := (Fin (q + 1) → Arr 32) × (Fin s → Arr 32 × Arr 32))
    (fun p => (∀ j, (p.2 j).1 ∈ goodArr) ∧ A.simulate H (mulG sk) (answers p.1)
        (transcripts fun j => ofAnswers sk (p.2 j)) State.init = none)
    (fun p => (∀ j, (p.2 j).1 ∈ goodArr) ∧ SimWins H (mulG sk) A (transcripts fun j => ofAnswers sk (p.2 j)) p.1)
  have h4 : Spec.chance (fun p : (Fin (q + 1) → Arr 32) × (Fin s → Arr 32 × Arr 32) => ∃ j, (p.2 j).1 ∉ goodArr)
      ≤ s * (1 / 2 ^ 127) := by
    have h0 := chance_not_good s
    have h1 : (0 : ℚ) ≤ s * (1 / 2 ^ 127) := by positivity
    generalize (s : ℚ) * (1 / 2 ^ 127) = c at h0 h1 ⊢
    exact chance_snd (fun (_ : Fin (q + 1) → Arr 32) (κ : Fin s → Arr 32 × Arr 32) => ∃ j, (κ j).1 ∉ goodArr) c
      (fun _ => h0) h1
  have h5 := chance_pull (Ω := Fin (q + 1) → Arr 32) H sk s A answers (fun o => o = none)
  have h6 : Spec.chance (fun p : (Fin (q + 1) → Arr 32) × (Fin s → (T : MaybePoint) → Transcript (mulG sk) T) =>
      A.simulate H (mulG sk) (answers p.1) (transcripts p.2) State.init = none) ≤ s * (2 * (q + s : ℕ) / (orderN - 1 : ℕ)) := by
    have h0 : (0 : ℚ) ≤ s * (2 * (q + s : ℕ) / (orderN - 1 : ℕ)) := by
      generalize orderN - 1 = n
      positivity
    exact chance_snd (fun (ω : Fin (q + 1) → Arr 32) (τ : Fin s → (T : MaybePoint) → Transcript (mulG sk) T) =>
        A.simulate H (mulG sk) (answers ω) (transcripts τ) State.init = none) _
      (fun ω => chance_abort H (mulG sk) (answers ω) hA) h0
  have h7 := chance_pull (Ω := Fin (q + 1) → Arr 32) H sk s A answers (fun o => ∃ out, o = some out ∧ out.Wins H (mulG sk))
  exact (h1.trans h2).trans (add_le_add h4 (h3.trans (add_le_add (h5.trans h6) h7)))

/-- The adaptor signature with the nonce `k` and the challenge `e` is the one of their transcript. -/
theorem adaptor_ofNonce (H : Hash) (sk k : Scalar) (e : Arr 32) (msg : Bytes) (seed : Arr 32) (T : MaybePoint) :
    signSoloAdaptor (nonceAnswering (CmaForger.challengeAnswering H e) (serScalar k.1)) sk msg seed T
      = ⟨(ofNonce sk k e T).R.1, (ofNonce sk k e T).s⟩ := by
  have hc : computeChallengeHashTweak (CmaForger.challengeAnswering H e) (xonly ((mulG k).1 + T)) (mulG sk) msg = reduceFrom e := by
    rw [(C66_what_is_hashed _).2.2.2.1]
    exact congrArg _ (if_pos (CmaForger.drawn_challengeQuery _ _ _))
  rw [adaptor_eq, CmaForger.reduceOrOne_serScalar, hc]
  rfl

/-! ## Examples -/

/-- It asks for an adaptor signature with the adaptor point `G`, and completes it with the secret one. -/
def exComplete : AdaptorForger := .sign [0] G fun sig =>
  match sig.adapt 1 with
  | some L => .submit [0] L.compact
  | none => .submit [0] ⟨zeroSeed, 0⟩

theorem exComplete_asks : exComplete.AsksAtMost 0 1 := by
  refine .sign 0 0 _ _ _ fun sig => ?_
  cases sig.adapt 1 with
  | some L => exact .submit 0 0 _ _
  | none => exact .submit 0 0 _ _

theorem program_signed (st : State) (x : Bytes) (e : Arr 32) : (st.program x e).signed = st.signed := by
  unfold State.program
  split <;> rfl

theorem exComplete_signed (H : Hash) (sk : Scalar) (seed ω : ℕ → Arr 32) (κ : ℕ → Arr 32 × Arr 32)
    (hk : (SecNonceBuilder.reduceOrOne (κ 0).1).1 ≠ -1) :
    let out := exComplete.run H sk seed ω κ State.init
    out.msg = [0] ∧ ∃ sig : AdaptorSignature, sig.R ≠ 0 ∧ out.state.signed = [⟨[0], G, sig⟩] ∧
      ∃ L, sig.adapt 1 = some L ∧ L.compact = out.sig := by
  unfold exComplete run
  simp only
  set k := SecNonceBuilder.reduceOrOne (κ State.init.signed.length).1 with hk'
  generalize hsig : signSoloAdaptor (nonceAnswering ((State.init.program _ _).hash H) _) sk [0] _ G = sig
  have hR : sig.R = (mulG k).1 := by
    rw [← hsig, adaptor_eq]
  have h0 : sig.R ≠ 0 := by
    rw [hR]
    exact (mulG k).2
  have h1 : sig.R + (1 : MaybeScalar) • G ≠ 0 := by
    intro h
    rw [hR] at h
    have h2 : (k.1 + 1) • G = (0 : MaybeScalar) • G := by
      rw [add_smul, zero_smul]
      exact h
    exact hk (eq_neg_of_add_eq_zero_left (smul_G_inj.1 h2))
  cases hL : sig.adapt 1 with
  | none => exact absurd (adapt_eq_none.1 hL) h1
  | some L =>
    refine ⟨rfl, sig, h0, ?_, L, hL, rfl⟩
    simp only [run]
    rw [ask_signed]
    change (State.program _ _ _).signed ++ _ = _
    rw [program_signed]
    rfl

/-- It asks for an adaptor signature of the message `[0]`, and forges a signature of the empty message with the secret key one. -/
def exAdaptor : AdaptorForger :=
  .sign [0] G fun _ => .ask (Spec.challengeQuery (xonly G).1 Gpt []) fun a => .submit [] ⟨xonly G, 1 + reduceFrom a⟩

theorem exAdaptor_asks : exAdaptor.AsksAtMost 1 1 :=
  .sign 1 0 _ _ _ fun _ => .ask 0 0 _ _ fun _ => .submit 0 0 _ _

theorem exAdaptor_wins (H : Hash) (seed ω : ℕ → Arr 32) (κ : ℕ → Arr 32 × Arr 32) :
    (exAdaptor.run H scalarOne seed ω κ State.init).Wins H (mulG scalarOne) := by
  rw [CmaForger.mulG_one]
  unfold exAdaptor run
  simp only
  rw [adaptor_eq, adaptor_eq, CmaForger.mulG_one]
  simp only
  generalize xonly ((mulG (SecNonceBuilder.reduceOrOne (κ State.init.signed.length).1)).1 + G) = rx
  have hnew : State.init.find (Spec.challengeQuery rx.1 Gpt [0]) = none := rfl
  rw [State.program_of_new hnew]
  generalize (κ State.init.signed.length).2 = e
  generalize computeChallengeHashTweak _ rx Gpt [0] = c
  generalize AdaptorSignature.mk _ _ = sig
  set x := Spec.challengeQuery (xonly G).1 Gpt [] with hx
  have hne : Spec.challengeQuery rx.1 Gpt [0] ≠ x := by
    intro h
    have := (Forger.challengeQuery_inj h).2
    cases this
  have hst : (State.record ⟨State.init.log, State.init.prog ++ [(Spec.challengeQuery rx.1 Gpt [0], e)], State.init.signed⟩ ⟨[0], G, sig⟩)
      = ⟨[], [(Spec.challengeQuery rx.1 Gpt [0], e)], [⟨[0], G, sig⟩]⟩ := rfl
  rw [hst]
  have hp : Log.find [(Spec.challengeQuery rx.1 Gpt [0], e)] x = none := by
    rw [Log.find_eq_none]
    simpa using hne.symm
  have hl : Log.find [(x, ω 0)] x = some (ω 0) := by
    unfold Log.find
    simp
  unfold run
  rw [if_pos (CmaForger.drawn_challengeQuery _ _ _)]
  have ha : State.answer ω ⟨[], [(Spec.challengeQuery rx.1 Gpt [0], e)], [⟨[0], G, sig⟩]⟩ x = ω 0 := by
    unfold State.answer
    rw [hp]
    rfl
  have hs : State.ask ω ⟨[], [(Spec.challengeQuery rx.1 Gpt [0], e)], [⟨[0], G, sig⟩]⟩ x
      = ⟨[(x, ω 0)], [(Spec.challengeQuery rx.1 Gpt [0], e)], [⟨[0], G, sig⟩]⟩ := by
    unfold State.ask
    simp only [hp]
    rfl
  rw [ha, hs]
  unfold run
  simp only
  rw [CmaForger.mulG_one, ← hx]
  have hs' : State.ask ω ⟨[(x, ω 0)], [(Spec.challengeQuery rx.1 Gpt [0], e)], [⟨[0], G, sig⟩]⟩ x
      = ⟨[(x, ω 0)], [(Spec.challengeQuery rx.1 Gpt [0], e)], [⟨[0], G, sig⟩]⟩ := by
    unfold State.ask
    simp only [hp]
    unfold Log.add
    rw [hl]
  rw [hs']
  refine ⟨?_, ?_⟩
  swap
  · rintro ⟨m, hm, h, -⟩
    rw [List.mem_singleton.1 hm] at h
    cases h
  rw [verifySingle_eq_ok]
  have hc : computeChallengeHashTweak (State.hash H ⟨[(x, ω 0)], [(Spec.challengeQuery rx.1 Gpt [0], e)], [⟨[0], G, sig⟩]⟩)
      (xonly G) Gpt [] = reduceFrom (ω 0) := by
    rw [(C66_what_is_hashed _).2.2.2.1]
    congr 1
    change ((Log.find [(Spec.challengeQuery rx.1 Gpt [0], e)] x).or (Log.find [(x, ω 0)] x)).getD _ = _
    rw [hp, hl]
    rfl
  refine ⟨Gpt, ?_, isOdd_G, rfl⟩
  rw [toEvenY_of_even (P := Gpt) isOdd_G]
  simp only
  rw [hc, add_smul, one_smul]
  rfl

end AdaptorForger

end Verif
