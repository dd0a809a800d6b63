import Verif.Spec.Cma
import Verif.Lemmas.Props.GroupForger
import Verif.Lemmas.Props.Bip340

/-!
# Helpers of `Props/Cma`
-/

namespace Verif

open Forger (Log Drawn answers rewind GoodLog)
open Forger.Log (find_eq_none)

namespace CmaForger

/-! ## What the signer makes -/

theorem drawn_challenge (rx : Bytes) (P : Point) (msg : Bytes) :
    ¬ Spec.taggedInput "BIP0340/nonce" [] <+: Spec.challengeQuery rx P msg := by
  rintro ⟨t, ht⟩
  unfold Spec.challengeQuery at ht
  have : Spec.taggedInput "BIP0340/nonce" [] ++ t = Spec.taggedInput "BIP0340/nonce" t := by
    unfold Spec.taggedInput
    rw [List.append_nil]
  rw [this] at ht
  exact C66_domain_separation "BIP0340/nonce" "BIP0340/challenge" (by decide +kernel) (by decide +kernel) (by decide) _ _ ht

theorem soloNonce_nonceAnswering (H : Hash) (h : Arr 32) (sk : Scalar) (msg : Bytes) (seed : Arr 32) :
    soloNonce (nonceAnswering H h) sk msg seed = SecNonceBuilder.reduceOrOne h := by
  unfold soloNonce
  congr 1
  unfold tagHash nonceAnswering
  rw [if_pos]
  rw [taggedInput_eq (D := BIP0340_NONCE_TAG_DIGEST) (by simp [tagTable]), List.append_nil]
  exact List.prefix_append _ _

theorem challenge_nonceAnswering (H : Hash) (h : Arr 32) (rx : Arr 32) (P : Point) (msg : Bytes) :
    computeChallengeHashTweak (nonceAnswering H h) rx P msg = computeChallengeHashTweak H rx P msg := by
  rw [(C66_what_is_hashed _).2.2.2.1, (C66_what_is_hashed _).2.2.2.1]
  congr 1
  exact if_neg (drawn_challenge _ _ _)

/-- The nonce the signer uses, after adjusting its sign. -/
def evenNonce (k : Scalar) : Scalar := k.negIf (isOdd (mulG k).1)

theorem evenNonce_smul (k : Scalar) : (evenNonce k).1 • G = negIf (isOdd (mulG k).1) (mulG k).1 := by
  change negIf (isOdd (mulG k).1) k.1 • G = _
  rw [← negIf_smul]
  rfl

theorem isOdd_evenNonce (k : Scalar) : isOdd (mulG (evenNonce k)).1 = false := by
  change isOdd ((evenNonce k).1 • G) = false
  rw [evenNonce_smul, isOdd_negIf (mulG k).2, Bool.xor_self]

theorem xonly_evenNonce (k : Scalar) : xonly (mulG (evenNonce k)).1 = xonly (mulG k).1 := by
  change xonly ((evenNonce k).1 • G) = _
  rw [evenNonce_smul, xonly_eq_iff]
  cases isOdd (mulG k).1
  · exact .inl (negIf_false _)
  · exact .inr (negIf_true _)

theorem signature_eq (H : Hash) (h : Arr 32) (sk : Scalar) (msg : Bytes) (seed : Arr 32) :
    signature (nonceAnswering H h) sk msg seed =
      ⟨xonly (mulG (SecNonceBuilder.reduceOrOne h)).1, (evenNonce (SecNonceBuilder.reduceOrOne h)).1
        + computeChallengeHashTweak H (xonly (mulG (SecNonceBuilder.reduceOrOne h)).1) (mulG sk) msg
          * negIf (isOdd (mulG sk).1) sk.1⟩ := by
  have h1 : signSoloAdaptor (nonceAnswering H h) sk msg seed 0
      = ⟨(mulG (SecNonceBuilder.reduceOrOne h)).1, (evenNonce (SecNonceBuilder.reduceOrOne h)).1
        + computeChallengeHashTweak H (xonly (mulG (SecNonceBuilder.reduceOrOne h)).1) (mulG sk) msg
          * negIf (isOdd (mulG sk).1) sk.1⟩ := by
    rw [signSoloAdaptor_eq, soloNonce_nonceAnswering, add_zero, challenge_nonceAnswering]
    rfl
  unfold signature signSolo
  rw [h1, adapt_zero]
  simp only [Res.unwrap_some]
  unfold LiftedSignature.new LiftedSignature.compact CompactSignature.new
  simp only [xonly_toEvenY]

theorem nonce_eq (H : Hash) (h : Arr 32) (sk : Scalar) (msg : Bytes) (seed : Arr 32) :
    (signSoloAdaptor (nonceAnswering H h) sk msg seed 0).R = (mulG (SecNonceBuilder.reduceOrOne h)).1 := by
  rw [signSoloAdaptor_eq, soloNonce_nonceAnswering]

/-! ## Transcripts -/

/-- The transcript of the signer with the nonce `k` and the answer `e`. -/
def ofNonce (sk k : Scalar) (e : Arr 32) : Transcript (mulG sk) where
  R := mulG (evenNonce k)
  e := e
  s := (evenNonce k).1 + reduceFrom e * negIf (isOdd (mulG sk).1) sk.1
  even := by rw [spec_has_even_y, isOdd_evenNonce]; rfl
  eqn := by
    rw [add_smul, mul_smul, ← negIf_smul, sgn_smul]
    rfl

theorem Transcript.isOdd_R {P : Point} (t : Transcript P) : isOdd t.R.1 = false := by
  have := t.even
  rw [spec_has_even_y] at this
  cases h : isOdd t.R.1
  · rfl
  · rw [h] at this; cases this

theorem Transcript.ext_of {P : Point} {t t' : Transcript P} (hx : xonly t.R.1 = xonly t'.R.1) (he : t.e = t'.e) : t = t' := by
  have hR : t.R = t'.R := Subtype.ext (eq_of_xonly_isOdd hx (t.isOdd_R.trans t'.isOdd_R.symm))
  have hs : t.s = t'.s := by
    rw [← smul_G_inj, t.eqn, t'.eqn, hR, he]
  cases t
  cases t'
  simp only at hR he hs
  subst hR he hs
  rfl

/-- Transcripts are as many as half of the pairs of a nonce and an answer. -/
noncomputable def transcriptEquiv (sk : Scalar) : Scalar × Arr 32 ≃ Transcript (mulG sk) × Bool where
  toFun p := (ofNonce sk p.1 p.2, isOdd (mulG p.1).1)
  invFun p :=
    (Scalar.negIf p.2 ⟨p.1.s - reduceFrom p.1.e * negIf (isOdd (mulG sk).1) sk.1, by
      intro h
      apply p.1.R.2
      have h1 := p.1.eqn
      rw [sub_eq_zero.1 h, mul_smul, ← negIf_smul, sgn_smul] at h1
      exact right_eq_add.1 h1⟩, p.1.e)
  left_inv := by
    rintro ⟨k, e⟩
    simp only [ofNonce, add_sub_cancel_right, Prod.mk.injEq, and_true]
    apply Subtype.ext
    change negIf _ (negIf _ k.1) = k.1
    cases isOdd (mulG k).1
    · rfl
    · exact neg_neg _
  right_inv := by
    rintro ⟨t, b⟩
    set c : MaybeScalar := t.s - reduceFrom t.e * negIf (isOdd (mulG sk).1) sk.1 with hc
    have hcG : c • G = t.R.1 := by
      rw [hc, sub_smul, t.eqn, mul_smul, ← negIf_smul, sgn_smul]
      exact add_sub_cancel_right _ _
    have hc0 : c ≠ 0 := by
      intro h
      rw [h, zero_smul] at hcG
      exact t.R.2 hcG.symm
    have hodd : isOdd (mulG (Scalar.negIf b ⟨c, hc0⟩)).1 = b := by
      change isOdd (negIf b c • G) = b
      rw [← negIf_smul, hcG, isOdd_negIf t.R.2, t.isOdd_R, Bool.xor_false]
    refine Prod.ext (Transcript.ext_of ?_ rfl) hodd
    change xonly (mulG (evenNonce (Scalar.negIf b ⟨c, hc0⟩))).1 = _
    rw [xonly_evenNonce]
    change xonly (negIf b c • G) = _
    rw [← negIf_smul, hcG, xonly_negIf]

instance (P : Point) : Finite (Transcript P) := by
  obtain ⟨a, ha⟩ := exists_dlog P.1
  have h0 : a ≠ 0 := by
    rintro rfl
    rw [zero_smul] at ha
    exact P.2 ha.symm
  have hP : P = mulG ⟨a, h0⟩ := Subtype.ext ha.symm
  subst hP
  have : Finite (Transcript (mulG ⟨a, h0⟩) × Bool) := Finite.of_equiv _ (transcriptEquiv ⟨a, h0⟩)
  exact Finite.of_injective (fun t => (t, true)) fun a b h => (Prod.mk.inj h).1

theorem transcript_card (sk : Scalar) : Nat.card (Transcript (mulG sk)) * 2 = (orderN - 1) * 256 ^ 32 := by
  have h := Nat.card_congr (transcriptEquiv sk)
  rw [Nat.card_prod, Nat.card_prod, arr_card] at h
  have hs : Nat.card Scalar = orderN - 1 := by
    rw [Nat.card_eq_fintype_card, Fintype.card_subtype_compl, Fintype.card_subtype_eq]
    rw [ZMod.card]
  rw [hs] at h
  rw [h]
  simp

/-! ## The runs -/

theorem find_append (log : Log) (x y : Bytes) (e : Arr 32) :
    Log.find (log ++ [(x, e)]) y = (log.find y).or (if x = y then some e else none) := by
  unfold Log.find
  rw [List.find?_append]
  cases h : log.find? fun e => e.1 = y with
  | some a => simp
  | none =>
    by_cases hxy : x = y
    · simp [hxy]
    · simp [hxy]

theorem State.find_eq_none {st : State} {x : Bytes} : st.find x = none ↔ st.prog.find x = none ∧ st.log.find x = none := by
  unfold State.find
  rw [Option.or_eq_none_iff]

theorem State.program_of_new {st : State} {x : Bytes} {e : Arr 32} (h : st.find x = none) :
    st.program x e = { st with prog := st.prog ++ [(x, e)] } := by
  unfold State.program
  rw [h]

theorem State.hash_program (H : Hash) {st : State} {x : Bytes} {e : Arr 32} (h : st.find x = none) :
    (st.program x e).hash H x = e := by
  rw [State.program_of_new h]
  unfold State.hash State.find
  simp only
  rw [find_append, (State.find_eq_none.1 h).1]
  simp

/-- The simulation is aborted or does what the signer does. -/
theorem simulate_or (H : Hash) (sk : Scalar) (seed ω : ℕ → Arr 32) (κ : ℕ → Arr 32 × Arr 32) (A : CmaForger) (st : State) :
    A.simulate H (mulG sk) ω (fun i => ofNonce sk (SecNonceBuilder.reduceOrOne (κ i).1) (κ i).2) st = none ∨
      A.simulate H (mulG sk) ω (fun i => ofNonce sk (SecNonceBuilder.reduceOrOne (κ i).1) (κ i).2) st
        = some (A.run H sk seed ω κ st) := by
  induction A generalizing st with
  | submit msg sig => exact .inr rfl
  | ask x next ih =>
    unfold simulate run
    split
    · exact ih _ _
    · exact ih _ _
  | sign msg next ih =>
    unfold simulate run
    simp only
    set k := SecNonceBuilder.reduceOrOne (κ st.signed.length).1 with hk
    have hx : Spec.challengeQuery (Spec.xbytes (ofNonce sk k (κ st.signed.length).2).R.1) (mulG sk) msg
        = Spec.challengeQuery (xonly (mulG k).1).1 (mulG sk) msg := by
      rw [spec_xbytes]
      change Spec.challengeQuery (xonly (mulG (evenNonce k)).1).1 _ _ = _
      rw [xonly_evenNonce]
    rw [hx, nonce_eq, signature_eq, ← hk]
    cases h : st.find (Spec.challengeQuery (xonly (mulG k).1).1 (mulG sk) msg) with
    | some a => exact .inl rfl
    | none =>
      simp only
      have hc : computeChallengeHashTweak ((st.program (Spec.challengeQuery (xonly (mulG k).1).1 (mulG sk) msg)
          (κ st.signed.length).2).hash H) (xonly (mulG k).1) (mulG sk) msg = reduceFrom (κ st.signed.length).2 := by
        rw [(C66_what_is_hashed _).2.2.2.1]
        exact congrArg _ (State.hash_program H h)
      have hs : (⟨xonly (ofNonce sk k (κ st.signed.length).2).R.1, (ofNonce sk k (κ st.signed.length).2).s⟩ : CompactSignature)
          = ⟨xonly (mulG k).1, (evenNonce k).1 + computeChallengeHashTweak ((st.program
            (Spec.challengeQuery (xonly (mulG k).1).1 (mulG sk) msg) (κ st.signed.length).2).hash H) (xonly (mulG k).1)
              (mulG sk) msg * negIf (isOdd (mulG sk).1) sk.1⟩ := by
        rw [hc, ← xonly_evenNonce k]
        rfl
      rw [hs]
      exact ih _ _

/-- The simulation depends only on the transcripts it uses. -/
theorem simulate_congr (H : Hash) (P : Point) (ω : ℕ → Arr 32) {τ τ' : ℕ → Transcript P} {q s : ℕ} {A : CmaForger}
    (hA : AsksAtMost q s A) (st : State) (h : ∀ i < st.signed.length + s, τ i = τ' i) :
    A.simulate H P ω τ st = A.simulate H P ω τ' st := by
  induction hA generalizing st with
  | submit => rfl
  | ask q s x next _ ih =>
    have e : (st.ask ω x).signed = st.signed := by unfold State.ask; split <;> rfl
    unfold simulate
    split
    · exact ih _ _ (by rw [e]; exact h)
    · exact ih _ _ h
  | other q s x next hx _ ih =>
    unfold simulate
    rw [if_neg hx, if_neg hx]
    exact ih _ _ h
  | sign q s msg next _ ih =>
    unfold simulate
    simp only
    rw [h st.signed.length (by omega)]
    cases hf : st.find (Spec.challengeQuery (Spec.xbytes (τ' st.signed.length).R.1) P msg) with
    | some a => rfl
    | none =>
      simp only
      apply ih
      intro i hi
      apply h
      rw [State.program_of_new hf] at hi
      simp only [State.record, List.length_append, List.length_singleton] at hi
      omega

/-- What holds of the states of simulated runs. -/
structure Good (P : Point) (ω : ℕ → Arr 32) (st : State) : Prop where
  log : GoodLog ω st.log
  disj : ∀ x, st.log.find x ≠ none → st.prog.find x = none
  prog : ∀ x e, st.prog.find x = some e → ∃ msg sig, (msg, sig) ∈ st.signed ∧ x = Spec.challengeQuery sig.rx.1 P msg ∧
    ∃ V : MaybePoint, sig.s • G = V + reduceFrom e • Spec.sgn P.1 • P.1 ∧ isOdd V = false ∧ xonly V = sig.rx

theorem Good.init (P : Point) (ω : ℕ → Arr 32) : Good P ω State.init :=
  ⟨GoodLog.nil ω, fun _ _ => rfl, fun x e h => by cases h⟩

theorem add_find_none {ω : ℕ → Arr 32} {log : Log} {x y : Bytes} (h : (log.add ω x).find y ≠ none) :
    log.find y ≠ none ∨ y = x := by
  unfold Log.add at h
  cases hx : log.find x with
  | some a =>
    rw [hx] at h
    exact .inl h
  | none =>
    rw [hx] at h
    simp only at h
    rw [find_append] at h
    by_cases hxy : x = y
    · exact .inr hxy.symm
    · rw [if_neg hxy, Option.or_none] at h
      exact .inl h

theorem Good.ask {P : Point} {ω : ℕ → Arr 32} {st : State} (h : Good P ω st) (x : Bytes) : Good P ω (st.ask ω x) := by
  unfold State.ask
  cases hx : st.prog.find x with
  | some a => exact h
  | none =>
    refine ⟨h.log.add x, fun y hy => ?_, h.prog⟩
    rcases add_find_none hy with h1 | rfl
    · exact h.disj y h1
    · exact hx

theorem Good.sign {P : Point} {ω : ℕ → Arr 32} {st : State} (h : Good P ω st) (t : Transcript P) (msg : Bytes)
    (hx : st.find (Spec.challengeQuery (Spec.xbytes t.R.1) P msg) = none) :
    Good P ω ((st.program (Spec.challengeQuery (Spec.xbytes t.R.1) P msg) t.e).record msg ⟨xonly t.R.1, t.s⟩) := by
  rw [State.program_of_new hx]
  obtain ⟨hx1, hx2⟩ := State.find_eq_none.1 hx
  refine ⟨h.log, fun y hy => ?_, fun y e hy => ?_⟩
  · change Log.find (st.prog ++ _) y = none
    rw [find_append, h.disj y hy, if_neg]
    · rfl
    · rintro rfl
      exact hy hx2
  · change Log.find (st.prog ++ _) y = some e at hy
    rw [find_append] at hy
    cases hp : st.prog.find y with
    | some a =>
      rw [hp] at hy
      obtain ⟨m, sg, h1, h2⟩ := h.prog y a hp
      cases hy
      exact ⟨m, sg, List.mem_append_left _ h1, h2⟩
    | none =>
      rw [hp] at hy
      by_cases hxy : Spec.challengeQuery (Spec.xbytes t.R.1) P msg = y
      · rw [if_pos hxy] at hy
        cases hy
        refine ⟨msg, ⟨xonly t.R.1, t.s⟩, List.mem_append_right _ (List.mem_singleton.2 rfl), ?_, t.R.1, t.eqn, t.isOdd_R, rfl⟩
        rw [← hxy, spec_xbytes]
      · rw [if_neg hxy] at hy
        cases hy

theorem simulate_good (H : Hash) (P : Point) (ω : ℕ → Arr 32) (τ : ℕ → Transcript P) (A : CmaForger) (st : State)
    (h : Good P ω st) {out : Outcome} (ho : A.simulate H P ω τ st = some out) : Good P ω out.state := by
  induction A generalizing st with
  | submit msg sig =>
    cases ho
    exact h.ask _
  | ask x next ih =>
    unfold simulate at ho
    split at ho
    · exact ih _ _ (h.ask x) ho
    · exact ih _ _ h ho
  | sign msg next ih =>
    unfold simulate at ho
    simp only at ho
    cases hf : st.find (Spec.challengeQuery (Spec.xbytes (τ st.signed.length).R.1) P msg) with
    | some a => rw [hf] at ho; cases ho
    | none =>
      rw [hf] at ho
      exact ih _ _ (h.sign _ _ hf) ho

theorem simulate_mem (H : Hash) (P : Point) (ω : ℕ → Arr 32) (τ : ℕ → Transcript P) (A : CmaForger) (st : State)
    {out : Outcome} (ho : A.simulate H P ω τ st = some out) :
    out.state.prog.find (Spec.challengeQuery out.sig.rx.1 P out.msg) ≠ none ∨
      Spec.challengeQuery out.sig.rx.1 P out.msg ∈ out.state.log.map (·.1) := by
  induction A generalizing st with
  | submit msg sig =>
    cases ho
    simp only
    unfold State.ask
    cases hp : st.prog.find (Spec.challengeQuery sig.rx.1 P msg) with
    | some a => exact .inl (by simp only [hp]; exact Option.some_ne_none _)
    | none => exact .inr (Log.mem_add _ _ _)
  | ask x next ih =>
    unfold simulate at ho
    split at ho
    · exact ih _ _ ho
    · exact ih _ _ ho
  | sign msg next ih =>
    unfold simulate at ho
    simp only at ho
    cases hf : st.find (Spec.challengeQuery (Spec.xbytes (τ st.signed.length).R.1) P msg) with
    | some a => rw [hf] at ho; cases ho
    | none =>
      rw [hf] at ho
      exact ih _ _ ho

theorem ask_prefix (ω : ℕ → Arr 32) (st : State) (x : Bytes) : st.log <+: (st.ask ω x).log := by
  unfold State.ask
  split
  · exact List.prefix_rfl
  · exact Log.add_prefix _ _ _

theorem ask_length (ω : ℕ → Arr 32) (st : State) (x : Bytes) : (st.ask ω x).log.length ≤ st.log.length + 1 := by
  unfold State.ask
  split
  · exact Nat.le_succ _
  · exact Log.add_length _ _ _

theorem simulate_prefix (H : Hash) (P : Point) (ω : ℕ → Arr 32) (τ : ℕ → Transcript P) (A : CmaForger) (st : State)
    {out : Outcome} (ho : A.simulate H P ω τ st = some out) : st.log <+: out.state.log := by
  induction A generalizing st with
  | submit msg sig =>
    cases ho
    exact ask_prefix _ _ _
  | ask x next ih =>
    unfold simulate at ho
    split at ho
    · exact (ask_prefix ω st x).trans (ih _ _ ho)
    · exact ih _ _ ho
  | sign msg next ih =>
    unfold simulate at ho
    simp only at ho
    cases hf : st.find (Spec.challengeQuery (Spec.xbytes (τ st.signed.length).R.1) P msg) with
    | some a => rw [hf] at ho; cases ho
    | none =>
      rw [hf] at ho
      have := ih _ _ ho
      rwa [State.program_of_new hf] at this

theorem simulate_length (H : Hash) (P : Point) (ω : ℕ → Arr 32) (τ : ℕ → Transcript P) {q s : ℕ} {A : CmaForger}
    (hA : AsksAtMost q s A) (st : State) {out : Outcome} (ho : A.simulate H P ω τ st = some out) :
    out.state.log.length ≤ st.log.length + q + 1 := by
  induction hA generalizing st with
  | submit q s msg sig =>
    cases ho
    have := ask_length ω st (Spec.challengeQuery sig.rx.1 P msg)
    simp only
    omega
  | ask q s x next _ ih =>
    unfold simulate at ho
    split at ho
    · have h1 := ih _ _ ho
      have h2 := ask_length ω st x
      omega
    · have := ih _ _ ho
      omega
  | other q s x next hx _ ih =>
    unfold simulate at ho
    rw [if_neg hx] at ho
    exact ih _ _ ho
  | sign q s msg next _ ih =>
    unfold simulate at ho
    simp only at ho
    cases hf : st.find (Spec.challengeQuery (Spec.xbytes (τ st.signed.length).R.1) P msg) with
    | some a => rw [hf] at ho; cases ho
    | none =>
      rw [hf] at ho
      have := ih _ _ ho
      rwa [State.program_of_new hf] at this

/-- The string asked at an index depends only on the answers before it. -/
theorem simulate_causal (H : Hash) (P : Point) (ω ω' : ℕ → Arr 32) (τ : ℕ → Transcript P) (j : ℕ)
    (hω : ∀ i < j, ω i = ω' i) (A : CmaForger) (st : State) (hl : st.log.length ≤ j) {out out' : Outcome}
    (ho : A.simulate H P ω τ st = some out) (ho' : A.simulate H P ω' τ st = some out') :
    out.state.log[j]?.map (·.1) = out'.state.log[j]?.map (·.1) := by
  induction A generalizing st with
  | submit msg sig =>
    cases ho
    cases ho'
    simp only
    unfold State.ask
    cases hp : st.prog.find (Spec.challengeQuery sig.rx.1 P msg) with
    | some a => rfl
    | none =>
      simp only
      by_cases h : st.log.find (Spec.challengeQuery sig.rx.1 P msg) ≠ none ∨ st.log.length < j
      · rw [(Forger.add_same hl hω h).1]
      · rw [not_or, not_not] at h
        rw [Forger.add_getElem h.1 (by omega) ω List.prefix_rfl, Forger.add_getElem h.1 (by omega) ω' List.prefix_rfl]
  | ask x next ih =>
    unfold simulate at ho ho'
    by_cases hx : Drawn x
    swap
    · rw [if_neg hx] at ho ho'
      exact ih _ _ hl ho ho'
    rw [if_pos hx] at ho ho'
    unfold State.ask State.answer at ho ho'
    cases hp : st.prog.find x with
    | some a =>
      simp only [hp, Option.getD_some] at ho ho'
      exact ih _ _ hl ho ho'
    | none =>
      simp only [hp, Option.getD_none] at ho ho'
      by_cases h : st.log.find x ≠ none ∨ st.log.length < j
      · obtain ⟨h1, h2, h3⟩ := Forger.add_same hl hω h
        rw [h1, h2] at ho
        exact ih _ _ h3 ho ho'
      · rw [not_or, not_not] at h
        have p1 := simulate_prefix _ _ _ _ _ _ ho
        have p2 := simulate_prefix _ _ _ _ _ _ ho'
        rw [Forger.add_getElem h.1 (by omega) ω p1, Forger.add_getElem h.1 (by omega) ω' p2]
  | sign msg next ih =>
    unfold simulate at ho ho'
    simp only at ho ho'
    cases hf : st.find (Spec.challengeQuery (Spec.xbytes (τ st.signed.length).R.1) P msg) with
    | some a => rw [hf] at ho; cases ho
    | none =>
      rw [hf] at ho ho'
      exact ih _ _ (by rw [State.program_of_new hf]; exact hl) ho ho'

/-! ## Two runs -/

theorem toEvenY_sgn (P : Point) : (toEvenY P).1 = Spec.sgn P.1 • P.1 := by
  rw [sgn_smul, toEvenY_val]

/-- The string of the challenge of a new accepted signature was drawn for the forger. -/
theorem wins_log {H : Hash} {P : Point} {ω : ℕ → Arr 32} {τ : ℕ → Transcript P} {A : CmaForger} {out : Outcome}
    (ho : A.simulate H P ω τ State.init = some out) (hw : out.Wins H P) :
    challengeIndex P out < out.state.log.length ∧
      out.state.log[challengeIndex P out]?
        = some (Spec.challengeQuery out.sig.rx.1 P out.msg, ω (challengeIndex P out)) ∧
      computeChallengeHashTweak (out.state.hash H) out.sig.rx P out.msg = reduceFrom (ω (challengeIndex P out)) := by
  have hg := simulate_good H P ω τ A _ (Good.init P ω) ho
  have hhash : computeChallengeHashTweak (out.state.hash H) out.sig.rx P out.msg
      = reduceFrom (out.state.hash H (Spec.challengeQuery out.sig.rx.1 P out.msg)) := by
    rw [(C66_what_is_hashed _).2.2.2.1]
    rfl
  have hp : out.state.prog.find (Spec.challengeQuery out.sig.rx.1 P out.msg) = none := by
    rw [← Option.not_isSome_iff_eq_none]
    intro hs
    obtain ⟨e, he⟩ := Option.isSome_iff_exists.1 hs
    obtain ⟨m, sg, hm, hx, V, h1, h2, h3⟩ := hg.prog _ _ he
    obtain ⟨hrx, hmsg⟩ := Forger.challengeQuery_inj hx
    apply hw.1
    have hv := hw.2
    rw [verifySingle_eq_ok, hhash] at hv
    obtain ⟨V', h1', h2', h3'⟩ := hv
    have hh : out.state.hash H (Spec.challengeQuery out.sig.rx.1 P out.msg) = e := by
      unfold State.hash State.find
      rw [he]
      rfl
    rw [hh, toEvenY_sgn] at h1'
    have hV : V'.1 = V := eq_of_xonly_isOdd (by rw [h3, h3', hrx]) (h2'.trans h2.symm)
    have hsc : out.sig.s = sg.s := by rw [← smul_G_inj, h1, h1', hV]
    have : out.sig = sg := by
      cases hsig : out.sig
      cases sg
      rw [hsig] at hrx hsc
      simp only at hrx hsc
      rw [hrx, hsc]
    rw [hmsg, this]
    exact hm
  have hmem : Spec.challengeQuery out.sig.rx.1 P out.msg ∈ out.state.log.map (·.1) :=
    (simulate_mem H P ω τ A _ ho).resolve_left fun h => h hp
  have hlt : challengeIndex P out < out.state.log.length := by
    unfold challengeIndex
    rw [List.findIdx_lt_length]
    obtain ⟨e, he, hx⟩ := List.mem_map.1 hmem
    exact ⟨e, he, by simpa using hx⟩
  have hk : (out.state.log[challengeIndex P out]).1 = Spec.challengeQuery out.sig.rx.1 P out.msg := by
    have := List.findIdx_getElem (w := hlt)
    exact of_decide_eq_true this
  have hget : out.state.log[challengeIndex P out]?
      = some (Spec.challengeQuery out.sig.rx.1 P out.msg, ω (challengeIndex P out)) := by
    rw [List.getElem?_eq_getElem hlt]
    have ha := hg.log.ans _ _ (List.getElem?_eq_getElem hlt)
    rw [← hk, ← ha]
  refine ⟨hlt, hget, ?_⟩
  rw [hhash]
  congr 1
  unfold State.hash State.find
  rw [hp, Forger.find_of_getElem hg.log.nodup hget]
  rfl

theorem reveal_of_fork {H : Hash} {P : Point} {ω ω' : ℕ → Arr 32} {τ : ℕ → Transcript P} {A : CmaForger} {out out' : Outcome}
    (ho : A.simulate H P ω τ State.init = some out) (ho' : A.simulate H P ω' τ State.init = some out')
    (hw : out.Wins H P) (hw' : out'.Wins H P) (hj : challengeIndex P out = challengeIndex P out')
    (hω : ∀ i < challengeIndex P out, ω i = ω' i)
    (hne : reduceFrom (ω (challengeIndex P out)) ≠ reduceFrom (ω' (challengeIndex P out))) :
    (Spec.sgn P.1 * (out.sig.s - out'.sig.s)
      / (reduceFrom (ω (challengeIndex P out)) - reduceFrom (ω' (challengeIndex P out)))) • G = P.1 := by
  have hq := simulate_causal H P ω ω' τ _ hω A State.init (Nat.zero_le _) ho ho'
  obtain ⟨-, h1, h2⟩ := wins_log ho hw
  obtain ⟨-, h1', h2'⟩ := wins_log ho' hw'
  rw [h1, hj, h1'] at hq
  simp only [Option.map_some, Option.some.injEq] at hq
  obtain ⟨hrx, -⟩ := Forger.challengeQuery_inj hq
  have hv := hw.2
  have hv' := hw'.2
  rw [verifySingle_eq_ok, h2] at hv
  rw [verifySingle_eq_ok, h2'] at hv'
  obtain ⟨V, a1, a2, a3⟩ := hv
  obtain ⟨V', a1', a2', a3'⟩ := hv'
  have hV : V.1 = V'.1 := eq_of_xonly_isOdd (by rw [a3, a3', hrx]) (a2.trans a2'.symm)
  rw [← hj] at a1'
  rw [hV] at a1
  generalize reduceFrom (ω (challengeIndex P out)) = e at *
  generalize reduceFrom (ω' (challengeIndex P out)) = e' at *
  have hd : e - e' ≠ 0 := sub_ne_zero.2 hne
  have key : (out.sig.s - out'.sig.s) • G = (e - e') • (toEvenY P).1 := by
    rw [sub_smul, a1, a1', sub_smul]
    abel
  have hs : Spec.sgn P.1 * Spec.sgn P.1 = 1 := sgn_mul_sgn P.1
  rw [div_eq_inv_mul, mul_smul, mul_smul, key, toEvenY_sgn, smul_smul (Spec.sgn P.1), smul_smul (Spec.sgn P.1 * _), smul_smul]
  have : (e - e')⁻¹ * (Spec.sgn P.1 * (e - e') * Spec.sgn P.1) = 1 := by
    rw [mul_comm (Spec.sgn P.1) (e - e'), mul_assoc, hs, mul_one, inv_mul_cancel₀ hd]
  rw [this, one_smul]

/-! ## Aborted simulations -/

/-- The simulation is aborted when the forger asks for the `j`-th signature. -/
def AbortAt (H : Hash) (P : Point) (ω : ℕ → Arr 32) (τ : ℕ → Transcript P) (j : ℕ) : CmaForger → State → Prop
  | .submit _ _, _ => False
  | .ask x next, st =>
    if Drawn x then AbortAt H P ω τ j (next (st.answer ω x)) (st.ask ω x) else AbortAt H P ω τ j (next (H x)) st
  | .sign msg next, st =>
    let t := τ st.signed.length
    let x := Spec.challengeQuery (Spec.xbytes t.R.1) P msg
    let sig : CompactSignature := ⟨xonly t.R.1, t.s⟩
    if st.signed.length = j then st.find x ≠ none
    else st.find x = none ∧ AbortAt H P ω τ j (next sig) ((st.program x t.e).record msg sig)

theorem ask_signed (ω : ℕ → Arr 32) (st : State) (x : Bytes) : (st.ask ω x).signed = st.signed := by
  unfold State.ask
  split <;> rfl

theorem ask_prog (ω : ℕ → Arr 32) (st : State) (x : Bytes) : (st.ask ω x).prog = st.prog := by
  unfold State.ask
  split <;> rfl

theorem record_signed_length (st : State) (x : Bytes) (e : Arr 32) (msg : Bytes) (sig : CompactSignature) :
    ((st.program x e).record msg sig).signed.length = st.signed.length + 1 := by
  unfold State.record State.program
  split <;> simp

theorem abortAt_of_none {H : Hash} {P : Point} {ω : ℕ → Arr 32} {τ : ℕ → Transcript P} {q s : ℕ} {A : CmaForger}
    (hA : AsksAtMost q s A) (st : State) (h : A.simulate H P ω τ st = none) :
    ∃ j, st.signed.length ≤ j ∧ j < st.signed.length + s ∧ AbortAt H P ω τ j A st := by
  induction hA generalizing st with
  | submit => cases h
  | ask q s x next _ ih =>
    unfold simulate at h
    unfold AbortAt
    split at h
    · rename_i hx
      obtain ⟨j, h1, h2, h3⟩ := ih _ _ h
      rw [ask_signed] at h1 h2
      exact ⟨j, h1, h2, by rwa [if_pos hx]⟩
    · rename_i hx
      obtain ⟨j, h1, h2, h3⟩ := ih _ _ h
      exact ⟨j, h1, h2, by rwa [if_neg hx]⟩
  | other q s x next hx _ ih =>
    unfold simulate at h
    unfold AbortAt
    rw [if_neg hx] at h
    obtain ⟨j, h1, h2, h3⟩ := ih _ _ h
    exact ⟨j, h1, h2, by rwa [if_neg hx]⟩
  | sign q s msg next _ ih =>
    unfold simulate at h
    unfold AbortAt
    simp only at h ⊢
    cases hf : st.find (Spec.challengeQuery (Spec.xbytes (τ st.signed.length).R.1) P msg) with
    | some a =>
      refine ⟨st.signed.length, le_rfl, by omega, ?_⟩
      rw [if_pos rfl]
      exact Option.some_ne_none _
    | none =>
      rw [hf] at h
      obtain ⟨j, h1, h2, h3⟩ := ih _ _ h
      rw [record_signed_length] at h1 h2
      refine ⟨j, by omega, by omega, ?_⟩
      rw [if_neg (by omega)]
      exact ⟨rfl, h3⟩

/-- The strings drawn before a signature is asked for do not depend on its transcript. -/
theorem abortAt_strings (H : Hash) (P : Point) (ω : ℕ → Arr 32) (τ : ℕ → Transcript P) (j : ℕ) {q s : ℕ} {A : CmaForger}
    (hA : AsksAtMost q s A) (st : State) :
    ∃ L : List Bytes, L.length ≤ st.prog.length + st.log.length + q + s ∧
      ∀ t, AbortAt H P ω (Function.update τ j t) j A st →
        ∃ msg, Spec.challengeQuery (Spec.xbytes t.R.1) P msg ∈ L := by
  induction hA generalizing st with
  | submit => exact ⟨[], Nat.zero_le _, fun t h => h.elim⟩
  | ask q s x next _ ih =>
    by_cases hx : Drawn x
    · obtain ⟨L, h1, h2⟩ := ih (st.answer ω x) (st.ask ω x)
      have := ask_length ω st x
      rw [ask_prog] at h1
      refine ⟨L, by omega, fun t ht => h2 t ?_⟩
      unfold AbortAt at ht
      rwa [if_pos hx] at ht
    · obtain ⟨L, h1, h2⟩ := ih (H x) st
      refine ⟨L, by omega, fun t ht => h2 t ?_⟩
      unfold AbortAt at ht
      rwa [if_neg hx] at ht
  | other q s x next hx _ ih =>
    obtain ⟨L, h1, h2⟩ := ih (H x) st
    refine ⟨L, by omega, fun t ht => h2 t ?_⟩
    unfold AbortAt at ht
    rwa [if_neg hx] at ht
  | sign q s msg next _ ih =>
    by_cases hj : st.signed.length = j
    · refine ⟨(st.prog ++ st.log).map (·.1), by simp; omega, fun t ht => ?_⟩
      unfold AbortAt at ht
      simp only at ht
      rw [if_pos hj, hj, Function.update_self] at ht
      refine ⟨msg, ?_⟩
      by_contra hn
      rw [List.map_append, List.mem_append, not_or] at hn
      exact ht (State.find_eq_none.2 ⟨Log.find_eq_none.2 hn.1, Log.find_eq_none.2 hn.2⟩)
    · set t0 := τ st.signed.length with ht0
      obtain ⟨L, h1, h2⟩ := ih ⟨xonly t0.R.1, t0.s⟩
        ((st.program (Spec.challengeQuery (Spec.xbytes t0.R.1) P msg) t0.e).record msg ⟨xonly t0.R.1, t0.s⟩)
      have hl : ((st.program (Spec.challengeQuery (Spec.xbytes t0.R.1) P msg) t0.e).record msg ⟨xonly t0.R.1, t0.s⟩).prog.length
          + ((st.program (Spec.challengeQuery (Spec.xbytes t0.R.1) P msg) t0.e).record msg ⟨xonly t0.R.1, t0.s⟩).log.length
          ≤ st.prog.length + st.log.length + 1 := by
        unfold State.record State.program
        split
        · simp
        · simp; omega
      refine ⟨L, by omega, fun t ht => h2 t ?_⟩
      unfold AbortAt at ht
      simp only at ht
      rw [if_neg hj, Function.update_of_ne hj, ← ht0] at ht
      exact ht.2

/-- Few transcripts have their string in a list. -/
theorem ncard_transcripts_le (P : Point) (L : List Bytes) :
    {t : Transcript P | ∃ msg, Spec.challengeQuery (Spec.xbytes t.R.1) P msg ∈ L}.ncard ≤ L.length * 256 ^ 32 := by
  induction L with
  | nil => simp
  | cons x L ih =>
    have hsub : {t : Transcript P | ∃ msg, Spec.challengeQuery (Spec.xbytes t.R.1) P msg ∈ x :: L}
        ⊆ {t | ∃ msg, Spec.challengeQuery (Spec.xbytes t.R.1) P msg = x} ∪
          {t | ∃ msg, Spec.challengeQuery (Spec.xbytes t.R.1) P msg ∈ L} := by
      rintro t ⟨msg, h⟩
      rcases List.mem_cons.1 h with h | h
      · exact .inl ⟨msg, h⟩
      · exact .inr ⟨msg, h⟩
    refine (Set.ncard_le_ncard hsub (Set.toFinite _)).trans ((Set.ncard_union_le _ _).trans ?_)
    have h1 : {t : Transcript P | ∃ msg, Spec.challengeQuery (Spec.xbytes t.R.1) P msg = x}.ncard ≤ 256 ^ 32 := by
      rw [← arr_card, ← Set.ncard_univ]
      refine Set.ncard_le_ncard_of_injOn (fun t => t.e) (fun _ _ => Set.mem_univ _) ?_ (Set.toFinite _)
      rintro t ⟨m, hm⟩ t' ⟨m', hm'⟩ he
      rw [← hm', spec_xbytes, spec_xbytes] at hm
      exact Transcript.ext_of (Forger.challengeQuery_inj hm).1 he
    rw [List.length_cons]
    calc _ ≤ 256 ^ 32 + L.length * 256 ^ 32 := Nat.add_le_add h1 ih
      _ = _ := by ring

theorem transcripts_update {P : Point} {s : ℕ} (τ : Fin s → Transcript P) (j : Fin s) (t : Transcript P) :
    transcripts (Function.update τ j t) = Function.update (transcripts τ) j.1 t := by
  funext i
  unfold transcripts
  by_cases h : i = j.1
  · subst h
    rw [dif_pos j.2, Function.update_self, Function.update_self]
  · rw [Function.update_of_ne h]
    split
    · rename_i hi
      rw [Function.update_of_ne]
      rintro rfl
      exact h rfl
    · rfl

/-! ## Chances -/

section
variable {Ω Ω' : Type} [Finite Ω] [Finite Ω']

theorem chance_mono {E F : Ω → Prop} (h : ∀ ω, E ω → F ω) : Spec.chance E ≤ Spec.chance F := by
  unfold Spec.chance
  exact div_le_div_of_nonneg_right (Nat.cast_le.2 (Set.ncard_le_ncard (fun ω hω => h ω hω) (Set.toFinite _))) (by positivity)

theorem chance_or (E F : Ω → Prop) : Spec.chance (fun ω => E ω ∨ F ω) ≤ Spec.chance E + Spec.chance F := by
  unfold Spec.chance
  rw [← add_div]
  refine div_le_div_of_nonneg_right ?_ (by positivity)
  exact_mod_cast Set.ncard_union_le {ω | E ω} {ω | F ω}

theorem chance_exists_fin (s : ℕ) (E : Fin s → Ω → Prop) (c : ℚ) (h : ∀ j, Spec.chance (E j) ≤ c) :
    Spec.chance (fun ω => ∃ j, E j ω) ≤ s * c := by
  induction s with
  | zero =>
    unfold Spec.chance
    simp
  | succ s ih =>
    have h1 : Spec.chance (fun ω => ∃ j, E j ω) ≤ Spec.chance (fun ω => E 0 ω ∨ ∃ j : Fin s, E j.succ ω) := by
      apply chance_mono
      rintro ω ⟨j, hj⟩
      cases j using Fin.cases with
      | zero => exact .inl hj
      | succ j => exact .inr ⟨j, hj⟩
    refine h1.trans ((chance_or _ _).trans ?_)
    have h2 := ih (fun j => E j.succ) fun j => h _
    have h3 := h 0
    push_cast
    linarith

theorem chance_snd (E : Ω → Ω' → Prop) (c : ℚ) (h : ∀ ω, Spec.chance (E ω) ≤ c) (hc : 0 ≤ c) :
    Spec.chance (fun p : Ω × Ω' => E p.1 p.2) ≤ c := by
  classical
  letI := Fintype.ofFinite Ω
  letI := Fintype.ofFinite Ω'
  unfold Spec.chance at h ⊢
  have hs : {p : Ω × Ω' | E p.1 p.2}.ncard = ∑ ω : Ω, {ω' | E ω ω'}.ncard := by
    simp only [Set.ncard_eq_toFinset_card', Set.toFinset_setOf]
    rw [Finset.card_filter, Fintype.sum_prod_type]
    exact Finset.sum_congr rfl fun ω _ => (Finset.card_filter _ _).symm
  rcases Nat.eq_zero_or_pos (Nat.card Ω') with h0 | h0
  · rw [Nat.card_prod, h0, mul_zero, Nat.cast_zero, div_zero]
    exact hc
  rcases Nat.eq_zero_or_pos (Nat.card Ω) with h0' | h0'
  · rw [Nat.card_prod, h0', zero_mul, Nat.cast_zero, div_zero]
    exact hc
  rw [hs, Nat.card_prod, div_le_iff₀ (by positivity)]
  push_cast
  have : ∀ ω : Ω, (({ω' | E ω ω'}.ncard : ℕ) : ℚ) ≤ c * Nat.card Ω' := fun ω => by
    have := h ω
    rwa [div_le_iff₀ (by positivity)] at this
  calc ∑ ω : Ω, (({ω' | E ω ω'}.ncard : ℕ) : ℚ) ≤ ∑ _ω : Ω, c * Nat.card Ω' := Finset.sum_le_sum fun ω _ => this ω
    _ = c * (Nat.card Ω * Nat.card Ω') := by
      rw [Finset.sum_const, Finset.card_univ, nsmul_eq_mul, ← Nat.card_eq_fintype_card]
      ring

/-- An event that few values of one entry make happen. -/
theorem chance_update {s : ℕ} (j : Fin s) (E : (Fin s → Ω) → Prop) (m : ℕ) (hm : 0 < Nat.card Ω)
    (h : ∀ τ, {t | E (Function.update τ j t)}.ncard ≤ m) : Spec.chance E ≤ m / Nat.card Ω := by
  classical
  letI := Fintype.ofFinite Ω
  have key := card_update_le j E m fun τ => by
    have := h τ
    rwa [Set.ncard_eq_toFinset_card', Set.toFinset_setOf] at this
  unfold Spec.chance
  rw [Set.ncard_eq_toFinset_card', Set.toFinset_setOf]
  rw [← Nat.card_eq_fintype_card, ← Nat.card_eq_fintype_card] at key
  have hp : 0 < Nat.card (Fin s → Ω) := by
    rw [Nat.card_fun]
    exact pow_pos hm _
  rw [div_le_div_iff₀ (by exact_mod_cast hp) (by exact_mod_cast hm)]
  rw [mul_comm] at key
  exact_mod_cast key

end

/-- Simulations are rarely aborted. -/
theorem chance_abort (H : Hash) (sk : Scalar) (ω : ℕ → Arr 32) {q s : ℕ} {A : CmaForger} (hA : AsksAtMost q s A) :
    Spec.chance (fun τ : Fin s → Transcript (mulG sk) => A.simulate H (mulG sk) ω (transcripts τ) State.init = none)
      ≤ s * (2 * (q + s : ℕ) / (orderN - 1 : ℕ)) := by
  have hc := transcript_card sk
  have hn : 0 < orderN - 1 := by have := one_lt_orderN; omega
  obtain ⟨N, hN⟩ : ∃ N : ℕ, N = 256 ^ 32 := ⟨_, rfl⟩
  have hN0 : 0 < N := by rw [hN]; exact Nat.pow_pos (by decide)
  rw [← hN] at hc
  obtain ⟨n, hn'⟩ : ∃ n : ℕ, n = orderN - 1 := ⟨_, rfl⟩
  rw [← hn'] at hc hn ⊢
  have hpos : 0 < Nat.card (Transcript (mulG sk)) := by
    rcases Nat.eq_zero_or_pos (Nat.card (Transcript (mulG sk))) with h | h
    · rw [h, zero_mul] at hc
      have : 0 < n * N := Nat.mul_pos hn hN0
      omega
    · exact h
  have h1 : ∀ τ : Fin s → Transcript (mulG sk), A.simulate H (mulG sk) ω (transcripts τ) State.init = none →
      ∃ j : Fin s, AbortAt H (mulG sk) ω (transcripts τ) j.1 A State.init := by
    intro τ h
    obtain ⟨j, -, h2, h3⟩ := abortAt_of_none hA _ h
    exact ⟨⟨j, by simpa [State.init] using h2⟩, h3⟩
  refine (chance_mono h1).trans (chance_exists_fin s _ _ fun j => ?_)
  refine (chance_update j _ ((q + s) * N) hpos fun τ => ?_).trans (le_of_eq ?_)
  · simp only [transcripts_update]
    obtain ⟨L, hL, h⟩ := abortAt_strings H (mulG sk) ω (transcripts τ) j.1 hA State.init
    refine (Set.ncard_le_ncard (fun t ht => h t ht) (Set.toFinite _)).trans ((ncard_transcripts_le _ L).trans ?_)
    rw [← hN]
    exact Nat.mul_le_mul_right _ (by simpa [State.init] using hL)
  · have hcq : (Nat.card (Transcript (mulG sk)) : ℚ) * 2 = n * N := by exact_mod_cast hc
    have hnq : (0 : ℚ) < n := by exact_mod_cast hn
    have hpq : (0 : ℚ) < Nat.card (Transcript (mulG sk)) := by exact_mod_cast hpos
    rw [div_eq_div_iff hpq.ne' hnq.ne']
    push_cast
    calc ((q : ℚ) + s) * N * n = (q + s) * (n * N) := by ring
      _ = _ := by rw [← hcq]; ring

/-- The transcript of the signer, and the sign of its nonce, for given answers. -/
noncomputable def ofAnswers (sk : Scalar) (p : Arr 32 × Arr 32) : Transcript (mulG sk) × Bool :=
  transcriptEquiv sk (SecNonceBuilder.reduceOrOne p.1, p.2)

theorem reduceOrOne_injOn {a b : Arr 32} (ha : a ∈ goodArr) (hb : b ∈ goodArr)
    (h : SecNonceBuilder.reduceOrOne a = SecNonceBuilder.reduceOrOne b) : a = b := by
  have := congrArg (fun s : Scalar => s.1.val) h
  simp only [reduceOrOne_good ha, reduceOrOne_good hb] at this
  exact arr_ext_beNat this

/-- Answers that are numbers between one and the order give every transcript equally often. -/
theorem chance_pull {Ω : Type} [Finite Ω] (sk : Scalar) (s : ℕ) (E : Ω → (Fin s → Transcript (mulG sk)) → Prop) :
    Spec.chance (fun p : Ω × (Fin s → Arr 32 × Arr 32) => (∀ j, (p.2 j).1 ∈ goodArr) ∧ E p.1 fun j => (ofAnswers sk (p.2 j)).1)
      ≤ Spec.chance fun p : Ω × (Fin s → Transcript (mulG sk)) => E p.1 p.2 := by
  have hinj : {p : Ω × (Fin s → Arr 32 × Arr 32) | (∀ j, (p.2 j).1 ∈ goodArr) ∧ E p.1 fun j => (ofAnswers sk (p.2 j)).1}.ncard
      ≤ ({p : Ω × (Fin s → Transcript (mulG sk)) | E p.1 p.2} ×ˢ (Set.univ : Set (Fin s → Bool))).ncard := by
    refine Set.ncard_le_ncard_of_injOn
      (fun p => ((p.1, fun j => (ofAnswers sk (p.2 j)).1), fun j => (ofAnswers sk (p.2 j)).2)) ?_ ?_ (Set.toFinite _)
    · intro p hp
      exact ⟨hp.2, Set.mem_univ _⟩
    · rintro ⟨ω, κ⟩ ⟨hg, -⟩ ⟨ω', κ'⟩ ⟨hg', -⟩ h
      simp only [Prod.mk.injEq] at h
      obtain ⟨⟨h1, h2⟩, h3⟩ := h
      refine Prod.ext h1 (funext fun j => ?_)
      have h4 : ofAnswers sk (κ j) = ofAnswers sk (κ' j) := Prod.ext (congrFun h2 j) (congrFun h3 j)
      have h5 := (transcriptEquiv sk).injective h4
      simp only [Prod.mk.injEq] at h5
      exact Prod.ext (reduceOrOne_injOn (hg j) (hg' j) h5.1) h5.2
  rw [Set.ncard_prod, Set.ncard_univ, Nat.card_fun, Nat.card_eq_fintype_card (α := Bool), Fintype.card_bool,
    Nat.card_eq_fintype_card (α := Fin s), Fintype.card_fin] at hinj
  have hc := transcript_card sk
  obtain ⟨N, hN⟩ : ∃ N : ℕ, N = 256 ^ 32 := ⟨_, rfl⟩
  have hN0 : 0 < N := by rw [hN]; exact Nat.pow_pos (by decide)
  have hn : orderN - 1 ≤ N := by have := orderN_lt; omega
  have hn1 : 0 < orderN - 1 := by have := one_lt_orderN; omega
  rw [← hN] at hc
  have h2t : 2 * Nat.card (Transcript (mulG sk)) ≤ N * N := by
    rw [mul_comm, hc]
    exact Nat.mul_le_mul_right _ hn
  have hpos : 0 < Nat.card (Transcript (mulG sk)) := by
    rcases Nat.eq_zero_or_pos (Nat.card (Transcript (mulG sk))) with h | h
    · rw [h, zero_mul] at hc
      have : 0 < (orderN - 1) * N := Nat.mul_pos hn1 hN0
      omega
    · exact h
  unfold Spec.chance
  generalize {p : Ω × (Fin s → Arr 32 × Arr 32) | (∀ j, (p.2 j).1 ∈ goodArr) ∧ E p.1 fun j => (ofAnswers sk (p.2 j)).1}.ncard
    = a at hinj ⊢
  generalize {p : Ω × (Fin s → Transcript (mulG sk)) | E p.1 p.2}.ncard = c at hinj ⊢
  rw [Nat.card_prod, Nat.card_prod, Nat.card_fun, Nat.card_fun, Nat.card_prod, arr_card, ← hN,
    Nat.card_eq_fintype_card (α := Fin s), Fintype.card_fin]
  generalize Nat.card (Transcript (mulG sk)) = t at *
  generalize Nat.card Ω = w
  rcases Nat.eq_zero_or_pos w with rfl | hw
  · simp
  rw [div_le_div_iff₀ (by positivity) (by positivity)]
  have : a * (w * t ^ s) ≤ c * (w * (N * N) ^ s) :=
    calc a * (w * t ^ s) ≤ (c * 2 ^ s) * (w * t ^ s) := Nat.mul_le_mul_right _ hinj
      _ = c * (w * (2 * t) ^ s) := by rw [mul_pow]; ring
      _ ≤ _ := Nat.mul_le_mul_left _ (Nat.mul_le_mul_left _ (Nat.pow_le_pow_left h2t s))
  exact_mod_cast this

/-- Almost all answers are numbers between one and the order. -/
theorem chance_not_good (s : ℕ) :
    Spec.chance (fun κ : Fin s → Arr 32 × Arr 32 => ∃ j, (κ j).1 ∉ goodArr) ≤ s * (1 / 2 ^ 127) := by
  refine chance_exists_fin s _ _ fun j => ?_
  have hm : {t : Arr 32 × Arr 32 | t.1 ∉ goodArr}.ncard = (goodArrᶜ).ncard * 256 ^ 32 := by
    have : {t : Arr 32 × Arr 32 | t.1 ∉ goodArr} = goodArrᶜ ×ˢ Set.univ := by
      ext t
      simp
    rw [this, Set.ncard_prod, Set.ncard_univ, arr_card]
  have hcard : Nat.card (Arr 32 × Arr 32) = 256 ^ 32 * 256 ^ 32 := by rw [Nat.card_prod, arr_card]
  have hb : (goodArrᶜ).ncard ≤ 2 ^ 129 := by
    have h1 := ncard_compl_good
    have h2 := orderN_close
    have := one_lt_orderN
    omega
  obtain ⟨N, hN⟩ : ∃ N : ℕ, N = 256 ^ 32 := ⟨_, rfl⟩
  have hN0 : 0 < N := by rw [hN]; exact Nat.pow_pos (by decide)
  rw [← hN] at hm hcard
  refine (chance_update j _ ((goodArrᶜ).ncard * N) (by rw [hcard]; exact Nat.mul_pos hN0 hN0) fun κ => ?_).trans ?_
  · simp only [Function.update_self]
    exact hm.le
  · rw [hcard]
    push_cast
    rw [mul_div_mul_right _ _ (by positivity), div_le_div_iff₀ (by positivity) (by positivity), one_mul]
    have : (goodArrᶜ).ncard * 2 ^ 127 ≤ N := by
      calc (goodArrᶜ).ncard * 2 ^ 127 ≤ 2 ^ 129 * 2 ^ 127 := Nat.mul_le_mul_right _ hb
        _ = N := by rw [hN]; norm_num
    exact_mod_cast this

/-! ## The fork -/

/-- The index of the challenge, if the simulated run is won. -/
noncomputable def forkIndex {q : ℕ} (H : Hash) (P : Point) (A : CmaForger) (τ : ℕ → Transcript P) (ω : Fin q → Arr 32) :
    Option (Fin q) :=
  open Classical in
  match A.simulate H P (answers ω) τ State.init with
  | none => none
  | some out => if h : out.Wins H P ∧ challengeIndex P out < q then some ⟨challengeIndex P out, h.2⟩ else none

/-- The simulated run is won. -/
def SimWins {q : ℕ} (H : Hash) (P : Point) (A : CmaForger) (τ : ℕ → Transcript P) (ω : Fin q → Arr 32) : Prop :=
  ∃ out, A.simulate H P (answers ω) τ State.init = some out ∧ out.Wins H P

theorem forkIndex_ne_none {q s : ℕ} {H : Hash} {P : Point} {A : CmaForger} {τ : ℕ → Transcript P} (hA : AsksAtMost q s A)
    (ω : Fin (q + 1) → Arr 32) : forkIndex H P A τ ω ≠ none ↔ SimWins H P A τ ω := by
  unfold forkIndex SimWins
  cases ho : A.simulate H P (answers ω) τ State.init with
  | none => simp
  | some out =>
    simp only [Option.some.injEq, exists_eq_left']
    constructor
    · intro h
      by_contra hn
      exact h (dif_neg fun x => hn x.1)
    · intro h
      have h1 := (wins_log ho h).1
      have h2 := simulate_length H P (answers ω) τ hA _ ho
      rw [dif_pos ⟨h, by simp only [State.init, List.length_nil] at h2; omega⟩]
      exact Option.some_ne_none _

theorem forkIndex_eq_some {q : ℕ} {H : Hash} {P : Point} {A : CmaForger} {τ : ℕ → Transcript P} {ω : Fin q → Arr 32}
    {j : Fin q} (h : forkIndex H P A τ ω = some j) :
    ∃ out, A.simulate H P (answers ω) τ State.init = some out ∧ out.Wins H P ∧ challengeIndex P out = j.1 := by
  unfold forkIndex at h
  cases ho : A.simulate H P (answers ω) τ State.init with
  | none =>
    rw [ho] at h
    cases h
  | some out =>
    rw [ho] at h
    simp only at h
    split at h
    · rename_i hh
      cases h
      exact ⟨out, rfl, hh.1, rfl⟩
    · cases h

theorem extract_of_indices {q s : ℕ} {H : Hash} {P : Point} {A : CmaForger} {τ : Fin s → Transcript P} {ω ω' : Fin q → Arr 32}
    {j : Fin q} (h : forkIndex H P A (transcripts τ) ω = some j)
    (h' : forkIndex H P A (transcripts τ) (splice j ω ω') = some j) (hne : reduceFrom (ω j) ≠ reduceFrom (ω' j)) :
    A.extract H P τ ω ω' • G = P.1 := by
  obtain ⟨out, ho, hw, hj⟩ := forkIndex_eq_some h
  obtain ⟨out', ho', hw', hj'⟩ := forkIndex_eq_some h'
  have key := reveal_of_fork ho ho' hw hw' (hj.trans hj'.symm) ?_ ?_
  · unfold extract
    rw [ho]
    simp only
    rw [hj, Forger.rewind_eq_splice, ho']
    simp only
    rw [hj, Forger.answers_of_lt, Forger.answers_of_lt, splice_self] at key
    rw [Forger.answers_of_lt, Forger.answers_of_lt]
    exact key
  · intro i hi
    rw [hj] at hi
    have hq := hi.trans j.2
    unfold answers
    rw [dif_pos hq, dif_pos hq]
    exact (if_pos (show (⟨i, hq⟩ : Fin q) < j from hi)).symm
  · rw [hj, Forger.answers_of_lt, Forger.answers_of_lt, splice_self]
    exact hne

/-- The forking lemma, on the average over something drawn before. -/
theorem forked_avg {T : Type} [Fintype T] {q W : ℕ} (hq : 0 < q) (hW : 0 < W) (hT : 0 < Fintype.card T) (x y : T → ℕ)
    (h : ∀ t, 2 ^ 256 * x t ^ 2 ≤ q * (2 ^ 256 * y t + 2 * x t * W)) :
    Spec.forked q (((∑ t, x t : ℕ) : ℚ) / (Fintype.card T * W : ℕ)) ≤ ((∑ t, y t : ℕ) : ℚ) / (Fintype.card T * (W * W) : ℕ) := by
  obtain ⟨N, hN⟩ : ∃ N : ℕ, N = 2 ^ 256 := ⟨_, rfl⟩
  have key : 2 ^ 256 * (∑ t, x t) ^ 2
      ≤ q * (2 ^ 256 * (Fintype.card T * ∑ t, y t) + 2 * (∑ t, x t) * (Fintype.card T * W)) := by
    rw [← hN] at h ⊢
    have h1 : (∑ t, x t) ^ 2 ≤ Fintype.card T * ∑ t, x t ^ 2 := by
      have := sq_sum_le_card_mul_sum_sq (s := (Finset.univ : Finset T)) (f := fun t => x t)
      rwa [Finset.card_univ] at this
    have h2 : ∑ t, N * x t ^ 2 ≤ ∑ t, q * (N * y t + 2 * x t * W) := Finset.sum_le_sum fun t _ => h t
    rw [← Finset.mul_sum, ← Finset.mul_sum, Finset.sum_add_distrib, ← Finset.mul_sum, ← Finset.sum_mul, ← Finset.mul_sum] at h2
    calc N * (∑ t, x t) ^ 2 ≤ N * (Fintype.card T * ∑ t, x t ^ 2) := Nat.mul_le_mul_left _ h1
      _ = Fintype.card T * (N * ∑ t, x t ^ 2) := by ring
      _ ≤ Fintype.card T * (q * (N * ∑ t, y t + 2 * (∑ t, x t) * W)) := Nat.mul_le_mul_left _ h2
      _ = _ := by ring
  refine (forked_le hq (Nat.mul_pos hT hW) key).trans (le_of_eq ?_)
  have hTq : (0 : ℚ) < Fintype.card T := by exact_mod_cast hT
  have hWq : (0 : ℚ) < W := by exact_mod_cast hW
  push_cast
  field_simp

open Classical in
/-- Two simulated runs reveal the secret key. -/
theorem simulated_fork (H : Hash) (P : Point) (A : CmaForger) (q s : ℕ) (hA : A.AsksAtMost q s) :
    Spec.forked (q + 1) (Spec.chance fun p : (Fin (q + 1) → Arr 32) × (Fin s → Transcript P) =>
        SimWins H P A (transcripts p.2) p.1)
      ≤ Spec.chance fun p : (Fin s → Transcript P) × (Fin (q + 1) → Arr 32) × (Fin (q + 1) → Arr 32) =>
        A.extract H P p.1 p.2.1 p.2.2 • G = P.1 := by
  letI : Fintype (Arr 32) := Fintype.ofFinite _
  letI : Fintype (Transcript P) := Fintype.ofFinite _
  have hcard : Fintype.card (Arr 32) = 2 ^ 256 := by
    rw [← Nat.card_eq_fintype_card, arr_card]; norm_num
  have hbad : ∀ a : Arr 32, (Finset.univ.filter fun a' : Arr 32 => reduceFrom a = reduceFrom a').card ≤ 2 := by
    intro a
    have h := ncard_mod_le (reduceFrom a).val
    rw [Set.ncard_eq_toFinset_card'] at h
    refine (Finset.card_le_card fun a' ha' => ?_).trans h
    rw [Finset.mem_filter] at ha'
    rw [Set.mem_toFinset]
    change beNat a'.1 % orderN = _
    rw [← reduceFrom_val, ha'.2]
  have hF := fun τ : Fin s → Transcript P =>
    forking_count (forkIndex H P A (transcripts τ) (q := q + 1)) (fun a a' => reduceFrom a = reduceFrom a') 2 hbad
  set W := Fintype.card (Fin (q + 1) → Arr 32) with hW
  rw [hcard] at hF
  have hW0 : 0 < W := Fintype.card_pos_iff.2 ⟨fun _ => zeroSeed⟩
  have hT0 : 0 < Fintype.card (Fin s → Transcript P) := Fintype.card_pos_iff.2 ⟨fun _ => Transcript.spare P⟩
  have hf := forked_avg (Nat.succ_pos q) hW0 hT0 _ _ hF
  refine le_trans (le_of_eq ?_) (hf.trans ?_)
  · congr 1
    unfold Spec.chance
    rw [Nat.card_prod, Nat.card_eq_fintype_card, Nat.card_eq_fintype_card, mul_comm (Fintype.card _)]
    congr 2
    rw [Set.ncard_eq_toFinset_card', Set.toFinset_setOf, Finset.card_filter, Fintype.sum_prod_type_right]
    refine Finset.sum_congr rfl fun τ _ => ?_
    rw [Finset.card_filter]
    refine Finset.sum_congr rfl fun ω _ => ?_
    simp only [forkIndex_ne_none hA]
  · unfold Spec.chance
    rw [Nat.card_prod, Nat.card_prod, Nat.card_eq_fintype_card, Nat.card_eq_fintype_card]
    refine div_le_div_of_nonneg_right (Nat.cast_le.2 ?_) (by positivity)
    rw [Set.ncard_eq_toFinset_card', Set.toFinset_setOf, Finset.card_filter, Fintype.sum_prod_type]
    refine Finset.sum_le_sum fun τ _ => ?_
    rw [← Finset.card_filter]
    refine Finset.card_le_card fun p hp => ?_
    rw [Finset.mem_filter] at hp ⊢
    obtain ⟨h0, j, h1, h2, h3⟩ := hp
    exact ⟨h0, extract_of_indices h1 h2 h3⟩

/-- A run against the signer is won only if a nonce is special, or the simulation is aborted or won. -/
theorem forges_cases {q s : ℕ} {H : Hash} {sk : Scalar} {seed : ℕ → Arr 32} {A : CmaForger} (hA : AsksAtMost q s A)
    (p : (Fin (q + 1) → Arr 32) × (Fin s → Arr 32 × Arr 32)) (h : A.Forges H sk seed p) :
    (∃ j, (p.2 j).1 ∉ goodArr) ∨
      ((∀ j, (p.2 j).1 ∈ goodArr) ∧ A.simulate H (mulG sk) (answers p.1) (transcripts fun j => (ofAnswers sk (p.2 j)).1)
        State.init = none) ∨
      ((∀ j, (p.2 j).1 ∈ goodArr) ∧ SimWins H (mulG sk) A (transcripts fun j => (ofAnswers sk (p.2 j)).1) p.1) := by
  by_cases hg : ∀ j, (p.2 j).1 ∈ goodArr
  swap
  · exact .inl (not_forall.1 hg)
  right
  have hcongr := simulate_congr H (mulG sk) (answers p.1)
    (τ := fun i => ofNonce sk (SecNonceBuilder.reduceOrOne (pairs p.2 i).1) (pairs p.2 i).2)
    (τ' := transcripts fun j => (ofAnswers sk (p.2 j)).1) hA State.init (by
      intro i hi
      have hi' : i < s := by simpa [State.init] using hi
      unfold pairs transcripts
      rw [dif_pos hi', dif_pos hi']
      rfl)
  rcases simulate_or H sk seed (answers p.1) (pairs p.2) A State.init with h1 | h1
  · exact .inl ⟨hg, hcongr ▸ h1⟩
  · exact .inr ⟨hg, _, hcongr ▸ h1, h⟩

theorem forges_chance {q s : ℕ} {H : Hash} {sk : Scalar} {seed : ℕ → Arr 32} {A : CmaForger} (hA : AsksAtMost q s A) :
    (Spec.chance fun p : (Fin (q + 1) → Arr 32) × (Fin s → Arr 32 × Arr 32) => A.Forges H sk seed p)
      ≤ s * (1 / 2 ^ 127) + (s * (2 * (q + s : ℕ) / (orderN - 1 : ℕ))
        + Spec.chance fun p : (Fin (q + 1) → Arr 32) × (Fin s → Transcript (mulG sk)) =>
          SimWins H (mulG sk) A (transcripts p.2) p.1) := by
  have h1 := chance_mono (Ω := (Fin (q + 1) → Arr 32) × (Fin s → Arr 32 × Arr 32))
    fun p h => forges_cases (H := H) (sk := sk) (seed := seed) hA p h
  have h2 := chance_or (Ω := (Fin (q + 1) → Arr 32) × (Fin s → Arr 32 × Arr 32)) (fun p => ∃ j, (p.2 j).1 ∉ goodArr)
    (fun p => ((∀ j, (p.2 j).1 ∈ goodArr) ∧ A.simulate H (mulG sk) (answers p.1)
        (transcripts fun j => (ofAnswers sk (p.2 j)).1) State.init = none) ∨
      ((∀ j, (p.2 j).1 ∈ goodArr) ∧ SimWins H (mulG sk) A (transcripts fun j => (ofAnswers sk (p.2 j)).1) p.1))
  have h3 := chance_or (Ω := (Fin (q + 1) → Arr 32) × (Fin s → Arr 32 × Arr 32))
    (fun p => (∀ j, (p.2 j).1 ∈ goodArr) ∧ A.simulate H (mulG sk) (answers p.1)
        (transcripts fun j => (ofAnswers sk (p.2 j)).1) State.init = none)
    (fun p => (∀ j, (p.2 j).1 ∈ goodArr) ∧ SimWins H (mulG sk) A (transcripts fun j => (ofAnswers sk (p.2 j)).1) p.1)
  have h4 : Spec.chance (fun p : (Fin (q + 1) → Arr 32) × (Fin s → Arr 32 × Arr 32) => ∃ j, (p.2 j).1 ∉ goodArr)
      ≤ s * (1 / 2 ^ 127) := by
    have h0 := chance_not_good s
    have h1 : (0 : ℚ) ≤ s * (1 / 2 ^ 127) := by positivity
    generalize (s : ℚ) * (1 / 2 ^ 127) = c at h0 h1 ⊢
    exact chance_snd (fun (_ : Fin (q + 1) → Arr 32) (κ : Fin s → Arr 32 × Arr 32) => ∃ j, (κ j).1 ∉ goodArr) c
      (fun _ => h0) h1
  have h5 := chance_pull (Ω := Fin (q + 1) → Arr 32) sk s
    (fun ω τ => A.simulate H (mulG sk) (answers ω) (transcripts τ) State.init = none)
  have h6 : Spec.chance (fun p : (Fin (q + 1) → Arr 32) × (Fin s → Transcript (mulG sk)) =>
      A.simulate H (mulG sk) (answers p.1) (transcripts p.2) State.init = none) ≤ s * (2 * (q + s : ℕ) / (orderN - 1 : ℕ)) := by
    have h0 : (0 : ℚ) ≤ s * (2 * (q + s : ℕ) / (orderN - 1 : ℕ)) := by
      generalize orderN - 1 = n
      positivity
    exact chance_snd (fun ω τ => A.simulate H (mulG sk) (answers ω) (transcripts τ) State.init = none) _
      (fun ω => chance_abort H sk (answers ω) hA) h0
  have h7 := chance_pull (Ω := Fin (q + 1) → Arr 32) sk s (fun ω τ => SimWins H (mulG sk) A (transcripts τ) ω)
  exact (h1.trans h2).trans (add_le_add h4 (h3.trans (add_le_add (h5.trans h6) h7)))

theorem sub_le_of_parts {a b c w l : ℚ} (h : a ≤ b + (c + w)) (hl : l = c + b) : a - l ≤ w := by
  linarith

theorem chance_nonneg {Ω : Type} (E : Ω → Prop) : 0 ≤ Spec.chance E := by
  unfold Spec.chance
  positivity

theorem chance_equiv {Ω Ω' : Type} (f : Ω ≃ Ω') (E : Ω' → Prop) : (Spec.chance fun ω => E (f ω)) = Spec.chance E := by
  unfold Spec.chance
  rw [Nat.card_congr f]
  congr 2
  exact Set.ncard_congr (fun ω _ => f ω) (fun _ h => h) (fun _ _ _ _ h => f.injective h)
    fun ω' h => ⟨f.symm ω', by simpa using h, by simp⟩

theorem chance_fst {Ω Ω' : Type} [Finite Ω] [Finite Ω'] [Nonempty Ω'] (E : Ω → Prop) :
    (Spec.chance fun p : Ω × Ω' => E p.1) = Spec.chance E := by
  unfold Spec.chance
  have : {p : Ω × Ω' | E p.1} = {ω | E ω} ×ˢ Set.univ := by
    ext p
    simp
  rw [this, Set.ncard_prod, Set.ncard_univ, Nat.card_prod, Nat.cast_mul, Nat.cast_mul]
  exact mul_div_mul_right _ _ (by exact_mod_cast (Nat.card_pos (α := Ω')).ne')

theorem drawn_challengeQuery (rx : Bytes) (P : Point) (msg : Bytes) : Drawn (Spec.challengeQuery rx P msg) := by
  refine ⟨rx ++ Spec.xbytes P.1 ++ msg, ?_⟩
  unfold Spec.challengeQuery Spec.taggedInput
  rw [List.append_nil]

theorem reduceOrOne_serScalar (k : Scalar) : SecNonceBuilder.reduceOrOne (serScalar k.1) = k := by
  have hb : beNat (serScalar k.1).1 = k.1.val := beNat_serScalar k.1
  have hpos : k.1.val ≠ 0 := fun h => k.2 ((ZMod.val_eq_zero _).1 h)
  have hlt : k.1.val < orderN := ZMod.val_lt _
  have hg : serScalar k.1 ∈ goodArr := by
    constructor <;> rw [hb] <;> omega
  exact scalar_ext_val (by rw [reduceOrOne_good hg, hb])

/-- The signature with the nonce `k` and the challenge `e` is the one of their transcript. -/
theorem signature_ofNonce (H : Hash) (sk k : Scalar) (e : Arr 32) (msg : Bytes) (seed : Arr 32) :
    signature (nonceAnswering (challengeAnswering H e) (serScalar k.1)) sk msg seed
      = ⟨xonly (ofNonce sk k e).R.1, (ofNonce sk k e).s⟩ := by
  have hc : computeChallengeHashTweak (challengeAnswering H e) (xonly (mulG k).1) (mulG sk) msg = reduceFrom e := by
    rw [(C66_what_is_hashed _).2.2.2.1]
    exact congrArg _ (if_pos (drawn_challengeQuery _ _ _))
  rw [signature_eq, reduceOrOne_serScalar, hc, ← xonly_evenNonce k]
  rfl

/-! ## Examples -/

/-- It asks for a signature of the message `[0]`, and forges one of the empty message with the secret key one. -/
def exCma : CmaForger :=
  .sign [0] fun _ => .ask (Spec.challengeQuery (xonly G).1 Gpt []) fun a => .submit [] ⟨xonly G, 1 + reduceFrom a⟩

/-- It submits what it received. -/
def exReplay : CmaForger := .sign [0] fun sig => .submit [0] sig

theorem exCma_asks : exCma.AsksAtMost 1 1 :=
  .sign 1 0 _ _ fun _ => .ask 0 0 _ _ fun _ => .submit 0 0 _ _

theorem exReplay_asks : exReplay.AsksAtMost 0 1 := .sign 0 0 _ _ fun _ => .submit 0 0 _ _

theorem mulG_one : mulG scalarOne = Gpt := Subtype.ext (one_smul _ _)

theorem exCma_wins (H : Hash) (seed ω : ℕ → Arr 32) (κ : ℕ → Arr 32 × Arr 32) :
    (exCma.run H scalarOne seed ω κ State.init).Wins H (mulG scalarOne) := by
  rw [mulG_one]
  unfold exCma run
  simp only
  rw [nonce_eq, signature_eq, mulG_one]
  generalize xonly (mulG (SecNonceBuilder.reduceOrOne (κ State.init.signed.length).1)).1 = rx
  have hnew : State.init.find (Spec.challengeQuery rx.1 Gpt [0]) = none := rfl
  rw [State.program_of_new hnew]
  generalize (κ State.init.signed.length).2 = e
  generalize computeChallengeHashTweak _ rx Gpt [0] = c
  generalize CompactSignature.mk rx _ = sig
  set x := Spec.challengeQuery (xonly G).1 Gpt [] with hx
  have hne : Spec.challengeQuery rx.1 Gpt [0] ≠ x := by
    intro h
    have := (Forger.challengeQuery_inj h).2
    cases this
  have hst : (State.record ⟨State.init.log, State.init.prog ++ [(Spec.challengeQuery rx.1 Gpt [0], e)], State.init.signed⟩ [0] sig)
      = ⟨[], [(Spec.challengeQuery rx.1 Gpt [0], e)], [([0], sig)]⟩ := rfl
  rw [hst]
  have hp : Log.find [(Spec.challengeQuery rx.1 Gpt [0], e)] x = none := by
    rw [Log.find_eq_none]
    simpa using hne.symm
  have hl : Log.find [(x, ω 0)] x = some (ω 0) := by
    unfold Log.find
    simp
  unfold run
  rw [if_pos (drawn_challengeQuery _ _ _)]
  have ha : State.answer ω ⟨[], [(Spec.challengeQuery rx.1 Gpt [0], e)], [([0], sig)]⟩ x = ω 0 := by
    unfold State.answer
    rw [hp]
    rfl
  have hs : State.ask ω ⟨[], [(Spec.challengeQuery rx.1 Gpt [0], e)], [([0], sig)]⟩ x
      = ⟨[(x, ω 0)], [(Spec.challengeQuery rx.1 Gpt [0], e)], [([0], sig)]⟩ := by
    unfold State.ask
    simp only [hp]
    rfl
  rw [ha, hs]
  unfold run
  simp only
  rw [mulG_one, ← hx]
  have hs' : State.ask ω ⟨[(x, ω 0)], [(Spec.challengeQuery rx.1 Gpt [0], e)], [([0], sig)]⟩ x
      = ⟨[(x, ω 0)], [(Spec.challengeQuery rx.1 Gpt [0], e)], [([0], sig)]⟩ := by
    unfold State.ask
    simp only [hp]
    unfold Log.add
    rw [hl]
  rw [hs']
  refine ⟨by simp, ?_⟩
  rw [verifySingle_eq_ok]
  have hc : computeChallengeHashTweak (State.hash H ⟨[(x, ω 0)], [(Spec.challengeQuery rx.1 Gpt [0], e)], [([0], sig)]⟩)
      (xonly G) Gpt [] = reduceFrom (ω 0) := by
    rw [(C66_what_is_hashed _).2.2.2.1]
    congr 1
    change ((Log.find [(Spec.challengeQuery rx.1 Gpt [0], e)] x).or (Log.find [(x, ω 0)] x)).getD _ = _
    rw [hp, hl]
    rfl
  refine ⟨Gpt, ?_, isOdd_G, rfl⟩
  rw [toEvenY_of_even (P := Gpt) isOdd_G]
  simp only
  rw [hc, add_smul, one_smul]
  rfl

end CmaForger

end Verif
