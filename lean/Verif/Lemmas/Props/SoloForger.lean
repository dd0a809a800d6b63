import Verif.Spec.SoloForger
import Verif.Lemmas.Props.AdaptorForger

/-!
# Helpers of `Props/SoloForger`
-/

namespace Verif

open Forger (Log Drawn answers)
open CmaForger (nonceAnswering pairs find_append drawn_challengeQuery)
open AdaptorForger (Made)

namespace SoloForger

/-! ## What the signer hashes -/

theorem not_both {t t' : String} (ht : t ∈ Spec.tags) (ht' : t' ∈ Spec.tags) (hne : t ≠ t') (x : Bytes) :
    ¬ Spec.taggedInput t [] <+: Spec.taggedInput t' x := by
  rintro ⟨y, hy⟩
  have : Spec.taggedInput t [] ++ y = Spec.taggedInput t y := by
    unfold Spec.taggedInput
    rw [List.append_nil]
  rw [this] at hy
  exact C66_domain_separation t t' ht ht' hne _ _ hy

theorem nonceTag_nonceQuery (sk : Scalar) (h : Arr 32) (msg : Bytes) : NonceTag (nonceQuery sk h msg) := by
  unfold NonceTag nonceQuery Spec.taggedInput
  rw [List.append_nil]
  exact List.prefix_append _ _

theorem not_nonceTag_challenge (rx : Bytes) (P : Point) (msg : Bytes) : ¬ NonceTag (Spec.challengeQuery rx P msg) :=
  not_both (by decide +kernel) (by decide +kernel) (by decide) _

theorem mask_hash (H : Hash) (st : State) (seed : Arr 32) : mask (st.hash H) seed = mask H seed := by
  have h1 : ¬ NonceTag (Spec.taggedInput "BIP0340/aux" seed.1) :=
    not_both (by decide +kernel) (by decide +kernel) (by decide) _
  have h2 : ¬ Drawn (Spec.taggedInput "BIP0340/aux" seed.1) :=
    not_both (by decide +kernel) (by decide +kernel) (by decide) _
  unfold mask State.hash
  rw [if_neg h1, if_neg h2]

theorem soloNonce_eq (H : Hash) (sk : Scalar) (msg : Bytes) (seed : Arr 32) :
    soloNonce H sk msg seed = SecNonceBuilder.reduceOrOne (H (nonceQuery sk (mask H seed) msg)) := by
  unfold soloNonce nonceQuery mask
  rw [taggedInput_eq (D := BIP0340_NONCE_TAG_DIGEST) (by simp [tagTable]),
    taggedInput_eq (D := BIP0340_AUX_TAG_DIGEST) (by simp [tagTable]), spec_xbytes, sgn_mul]
  rfl

/-- The adaptor signature with the nonce hashed to `a` and the challenge hashed to `c`. -/
def sigOf (sk : Scalar) (a c : Arr 32) (T : MaybePoint) : AdaptorSignature :=
  ⟨(mulG (SecNonceBuilder.reduceOrOne a)).1,
    negIf (isOdd ((mulG (SecNonceBuilder.reduceOrOne a)).1 + T)) (SecNonceBuilder.reduceOrOne a).1
      + reduceFrom c * negIf (isOdd (mulG sk).1) sk.1⟩

/-- What is hashed to the challenge with the nonce hashed to `a`. -/
def chalOf (sk : Scalar) (a : Arr 32) (T : MaybePoint) (msg : Bytes) : Bytes :=
  Spec.challengeQuery (xonly ((mulG (SecNonceBuilder.reduceOrOne a)).1 + T)).1 (mulG sk) msg

theorem sign_eq (H : Hash) (sk : Scalar) (msg : Bytes) (seed : Arr 32) (T : MaybePoint) :
    signSoloAdaptor H sk msg seed T = sigOf sk (H (nonceQuery sk (mask H seed) msg))
      (H (chalOf sk (H (nonceQuery sk (mask H seed) msg)) T msg)) T := by
  rw [signSoloAdaptor_eq, soloNonce_eq, (C66_what_is_hashed _).2.2.2.1]
  rfl

theorem adaptor_sign_eq (H : Hash) (a : Arr 32) (sk : Scalar) (msg : Bytes) (seed : Arr 32) (T : MaybePoint) :
    signSoloAdaptor (nonceAnswering H a) sk msg seed T = sigOf sk a (H (chalOf sk a T msg)) T := by
  rw [AdaptorForger.adaptor_eq, (C66_what_is_hashed _).2.2.2.1]
  rfl

theorem nonceQuery_inj {sk : Scalar} {h h' : Arr 32} {msg msg' : Bytes} (e : nonceQuery sk h msg = nonceQuery sk h' msg') :
    h = h' ∧ msg = msg' := by
  have e := taggedInput_injective e
  rw [List.append_assoc, List.append_assoc] at e
  have hd : Spec.bytes_from_int (Spec.sgn (mulG sk).1 * sk.1).val = (serScalar (Spec.sgn (mulG sk).1 * sk.1)).1 := rfl
  rw [hd] at e
  obtain ⟨e1, e2⟩ := append_inj_len e (by
    change (xorBytes h _).1.length = (xorBytes h' _).1.length
    rw [(xorBytes h _).2, (xorBytes h' _).2])
  obtain ⟨-, e3⟩ := append_inj_len e2 rfl
  exact ⟨xorBytes_left_inj (Subtype.ext e1), e3⟩

/-! ## The key in the string of a nonce -/

theorem zipWith_xor_cancel (a b : Bytes) (h : a.length = b.length) :
    List.zipWith (· ^^^ ·) a (List.zipWith (· ^^^ ·) a b) = b := by
  induction a generalizing b with
  | nil => cases b with
    | nil => rfl
    | cons y b => simp at h
  | cons x a ih =>
    cases b with
    | nil => simp at h
    | cons y b =>
      simp only [List.zipWith_cons_cons, List.cons.injEq]
      refine ⟨?_, ih b (by simpa using h)⟩
      rw [← UInt8.xor_assoc, UInt8.xor_self, UInt8.zero_xor]

theorem keyOf_some {P : Point} {h : Arr 32} {x : Bytes} {d : Scalar} (e : keyOf P h x = some d) :
    d.1 • G = Spec.sgn P.1 • P.1 := by
  unfold keyOf at e
  split at e
  · split at e
    · rename_i h1
      cases e
      exact h1
    · cases e
  · cases e

theorem keyOf_nonceQuery (sk : Scalar) (h : Arr 32) (msg : Bytes) :
    ∃ d, keyOf (mulG sk) h (nonceQuery sk h msg) = some d := by
  refine ⟨sk.negIf (isOdd (mulG sk).1), ?_⟩
  have hx : ((nonceQuery sk h msg).drop 64).take 32 = (xorBytes h (serScalar (Spec.sgn (mulG sk).1 * sk.1))).1 := by
    unfold nonceQuery Spec.taggedInput
    rw [List.drop_left' (by rw [List.length_append, (sha256 _).2]), List.append_assoc]
    exact List.take_left' (xorBytes _ (serScalar _)).2
  have hp : parseScalar (Spec.bytes_xor h.1 (((nonceQuery sk h msg).drop 64).take 32)) = some (sk.negIf (isOdd (mulG sk).1)) := by
    rw [hx, parseScalar_eq_some]
    change List.zipWith _ _ (List.zipWith _ _ _) = _
    rw [zipWith_xor_cancel _ _ (by rw [h.2, (serScalar _).2]), sgn_mul]
    rfl
  unfold keyOf
  rw [hp]
  refine if_pos ?_
  change negIf (isOdd (mulG sk).1) sk.1 • G = _
  rw [← negIf_smul, sgn_smul]
  rfl

/-! ## Whoever knows the key forges -/

theorem answer_ask (ω : ℕ → Arr 32) (st : AdaptorForger.State) (x : Bytes) :
    (st.ask ω x).find x = some (st.answer ω x) := by
  unfold AdaptorForger.State.ask AdaptorForger.State.answer AdaptorForger.State.find
  cases h : st.prog.find x with
  | some a =>
    simp only [h]
    rfl
  | none =>
    simp only [h]
    unfold Log.add Log.answer
    cases h' : st.log.find x with
    | some a => simp [h']
    | none => simp [find_append, h']

theorem ask_find (ω : ℕ → Arr 32) (st : AdaptorForger.State) (x : Bytes) {y : Bytes} {a : Arr 32} (h : st.find y = some a) :
    (st.ask ω x).find y = some a := by
  unfold AdaptorForger.State.ask
  cases hp : st.prog.find x with
  | some b => exact h
  | none =>
    unfold AdaptorForger.State.find at h ⊢
    simp only
    cases h1 : st.prog.find y with
    | some b => rw [h1] at h; exact h
    | none =>
      rw [h1] at h
      simp only [Option.none_or] at h ⊢
      unfold Log.add
      cases st.log.find x with
      | some b => exact h
      | none => simp [find_append, h]

theorem cheat_wins (H : Hash) (sk : Scalar) (seed ω : ℕ → Arr 32) (κ : ℕ → Arr 32 × Arr 32) (d : Scalar)
    (hd : d.1 • G = Spec.sgn (mulG sk).1 • (mulG sk).1) (msgs : List Bytes) (st : AdaptorForger.State)
    (hm : ∀ m ∈ st.signed, m.msg ∈ msgs) :
    ((cheat (mulG sk) d msgs).run H sk seed ω κ st).Wins H (mulG sk) := by
  unfold cheat AdaptorForger.run
  simp only
  rw [if_pos (drawn_challengeQuery _ _ _)]
  unfold AdaptorForger.run
  simp only
  rw [← spec_xbytes]
  set x := Spec.challengeQuery (Spec.xbytes G) (mulG sk) (0 :: msgs.flatten) with hx
  have hf := answer_ask ω st x
  have hf2 := ask_find ω (st.ask ω x) x hf
  refine ⟨?_, ?_⟩
  · rw [verifySingle_eq_ok]
    have hc : computeChallengeHashTweak (((st.ask ω x).ask ω x).hash H) (xonly G) (mulG sk) (0 :: msgs.flatten)
        = reduceFrom (st.answer ω x) := by
      rw [(C66_what_is_hashed _).2.2.2.1]
      congr 1
      unfold AdaptorForger.State.hash
      rw [show Spec.taggedInput "BIP0340/challenge" ((xonly G).1 ++ Spec.xbytes (mulG sk).1 ++ (0 :: msgs.flatten)) = x by
        rw [← spec_xbytes]; rfl, hf2]
      rfl
    refine ⟨Gpt, ?_, isOdd_G, rfl⟩
    simp only
    rw [hc, add_smul, one_smul, mul_smul, hd, CmaForger.toEvenY_sgn]
    rfl
  · rintro ⟨m, h1, h2, -⟩
    rw [AdaptorForger.ask_signed, AdaptorForger.ask_signed] at h1
    simp only at h2
    have h3 := (List.sublist_flatten_of_mem (hm m h1)).length_le
    rw [h2, List.length_cons] at h3
    omega

/-! ## Asking -/

theorem strip_asks (H : Hash) (P : Point) (ν : ℕ → Arr 32) {q m s : ℕ} {A : SoloForger} (hA : AsksAtMost q m s A) (mem : Memory) :
    (A.strip H P ν mem).AsksAtMost (q + 1) s := by
  have hc : ∀ (q s : ℕ) (d : Scalar) (msgs : List Bytes), (cheat P d msgs).AsksAtMost (q + 1) s :=
    fun q s d msgs => .ask q s _ _ fun _ => .submit q s _ _
  have mono : ∀ {A : AdaptorForger} {q s : ℕ}, A.AsksAtMost q s → A.AsksAtMost (q + 1) s := by
    intro A q s h
    induction h with
    | submit => exact .submit _ _ _ _
    | ask q s x next _ ih => exact .ask _ _ _ _ ih
    | other q s x next hx _ ih => exact .other _ _ _ _ hx ih
    | sign q s msg T next _ ih => exact .sign _ _ _ _ _ ih
  have mono' : ∀ {A : AdaptorForger} {q s : ℕ}, A.AsksAtMost q s → A.AsksAtMost q (s + 1) := by
    intro A q s h
    induction h with
    | submit => exact .submit _ _ _ _
    | ask q s x next _ ih => exact .ask _ _ _ _ ih
    | other q s x next hx _ ih => exact .other _ _ _ _ hx ih
    | sign q s msg T next _ ih => exact .sign _ _ _ _ _ ih
  induction hA generalizing mem with
  | submit => exact .submit _ _ _ _
  | ask q m s x next _ ih =>
    unfold strip
    split
    · split
      · exact hc _ _ _ _
      · exact mono (ih _ _)
    · exact .ask _ _ _ _ fun a => ih a mem
  | nonce q m s x next hx _ ih =>
    unfold strip
    rw [if_pos hx]
    split
    · exact hc _ _ _ _
    · exact ih _ _
  | other q m s x next hx hx' _ ih =>
    unfold strip
    rw [if_neg hx']
    exact .other _ _ _ _ hx fun a => ih a mem
  | sign q m s msg seed T next _ ih =>
    unfold strip
    split
    · exact mono' (ih _ _)
    · split
      · exact hc _ _ _ _
      · exact .sign _ _ _ _ _ fun sig => ih _ _

/-! ## Nothing drawn is forgotten -/

/-- What is drawn in `st` is so in `st'`. -/
structure Le (st st' : State) : Prop where
  nonce : ∀ {x : Bytes} {a : Arr 32}, st.findNonce x = some a → st'.findNonce x = some a
  find : ∀ {x : Bytes} {a : Arr 32}, st.toState.find x = some a → st'.toState.find x = some a
  requests : ∀ {r : Bytes × MaybePoint}, r ∈ st.requests → r ∈ st'.requests

theorem Le.rfl {st : State} : Le st st := ⟨id, id, id⟩

theorem Le.trans {a b c : State} (h : Le a b) (h' : Le b c) : Le a c :=
  ⟨fun e => h'.nonce (h.nonce e), fun e => h'.find (h.find e), fun e => h'.requests (h.requests e)⟩

theorem le_ask (ω : ℕ → Arr 32) (st : State) (x : Bytes) : Le st { st with toState := st.toState.ask ω x } :=
  ⟨id, ask_find ω st.toState x, id⟩

theorem find_add {ν : ℕ → Arr 32} {log : Log} (x : Bytes) {y : Bytes} {a : Arr 32} (h : log.find y = some a) :
    (log.add ν x).find y = some a := by
  unfold Log.add
  cases log.find x with
  | some b => exact h
  | none => simp [find_append, h]

theorem le_askNonce (ν : ℕ → Arr 32) (st : State) (x : Bytes) : Le st (st.askNonce ν x) := by
  unfold State.askNonce
  cases hx : st.nprog.find x with
  | some b => exact Le.rfl
  | none =>
    refine ⟨fun {y a} h => ?_, id, id⟩
    unfold State.findNonce at h ⊢
    simp only
    cases h1 : st.nprog.find y with
    | some b => rw [h1] at h; exact h
    | none =>
      rw [h1] at h
      exact find_add x h

theorem answerNonce_find (ν : ℕ → Arr 32) (st : State) (x : Bytes) :
    (st.askNonce ν x).findNonce x = some (st.answerNonce ν x) := by
  unfold State.askNonce State.answerNonce State.findNonce
  cases h : st.nprog.find x with
  | some a =>
    simp only [h]
    rfl
  | none =>
    simp only [h]
    unfold Log.add Log.answer
    cases h' : st.nlog.find x with
    | some a => simp [h']
    | none => simp [find_append, h']

theorem le_programNonce (st : State) (x : Bytes) (a : Arr 32) : Le st (st.programNonce x a) := by
  unfold State.programNonce
  cases hx : st.findNonce x with
  | some b => exact Le.rfl
  | none =>
    refine ⟨fun {y b} h => ?_, id, id⟩
    unfold State.findNonce at h ⊢
    simp only [find_append]
    cases h1 : st.nprog.find y with
    | some c => rw [h1] at h; exact h
    | none =>
      rw [h1] at h
      have hxy : ¬ x = y := by
        rintro e
        subst e
        unfold State.findNonce at hx
        rw [h1, h] at hx
        cases hx
      simpa [hxy] using h

theorem programNonce_find (st : State) (x : Bytes) (a : Arr 32) : ∃ b, (st.programNonce x a).findNonce x = some b ∧
    (st.findNonce x = none → b = a) := by
  unfold State.programNonce
  cases hx : st.findNonce x with
  | some b => exact ⟨b, hx, by simp⟩
  | none =>
    refine ⟨a, ?_, fun _ => Eq.refl _⟩
    unfold State.findNonce at hx ⊢
    rw [Option.or_eq_none_iff] at hx
    simp [find_append, hx.1]

theorem program_find_mono (st : AdaptorForger.State) (x : Bytes) (e : Arr 32) {y : Bytes} {a : Arr 32} (h : st.find y = some a) :
    (st.program x e).find y = some a := by
  unfold AdaptorForger.State.program
  cases hx : st.find x with
  | some b => exact h
  | none =>
    unfold AdaptorForger.State.find at h hx ⊢
    simp only [find_append]
    cases h1 : st.prog.find y with
    | some c => rw [h1] at h; exact h
    | none =>
      rw [h1] at h
      have hxy : ¬ x = y := by
        rintro e
        subst e
        rw [h1, h] at hx
        cases hx
      simpa [hxy] using h

theorem program_find (st : AdaptorForger.State) (x : Bytes) (e : Arr 32) : ∃ c, (st.program x e).find x = some c := by
  unfold AdaptorForger.State.program
  cases hx : st.find x with
  | some b => exact ⟨b, hx⟩
  | none =>
    refine ⟨e, ?_⟩
    unfold AdaptorForger.State.find at hx ⊢
    rw [Option.or_eq_none_iff] at hx
    simp [find_append, hx.1]

theorem hash_nonce (H : Hash) {st : State} {sk : Scalar} {h : Arr 32} {msg : Bytes} {a : Arr 32}
    (e : st.findNonce (nonceQuery sk h msg) = some a) : st.hash H (nonceQuery sk h msg) = a := by
  unfold State.hash
  rw [if_pos (nonceTag_nonceQuery sk h msg), e]
  rfl

theorem hash_challenge (H : Hash) (st : State) (rx : Bytes) (P : Point) (msg : Bytes) :
    st.hash H (Spec.challengeQuery rx P msg) = st.toState.hash H (Spec.challengeQuery rx P msg) := by
  unfold State.hash
  rw [if_neg (not_nonceTag_challenge rx P msg), if_pos (drawn_challengeQuery _ _ _)]

/-- The signature when the hashes have been drawn. -/
theorem sign_drawn (H : Hash) {st : State} {sk : Scalar} {msg : Bytes} {seed : Arr 32} {T : MaybePoint} {a c : Arr 32}
    (ha : st.findNonce (nonceQuery sk (mask H seed) msg) = some a) (hc : st.toState.find (chalOf sk a T msg) = some c) :
    signSoloAdaptor (st.hash H) sk msg seed T = sigOf sk a c T := by
  rw [sign_eq, mask_hash, hash_nonce H ha]
  have : st.hash H (chalOf sk a T msg) = c := by
    unfold chalOf at hc ⊢
    rw [hash_challenge]
    unfold AdaptorForger.State.hash
    rw [hc]
    rfl
  rw [this]

theorem sign_R (H : Hash) {st : State} {sk : Scalar} {msg : Bytes} {seed : Arr 32} {T : MaybePoint} {a : Arr 32}
    (ha : st.findNonce (nonceQuery sk (mask H seed) msg) = some a) :
    (signSoloAdaptor (st.hash H) sk msg seed T).R = (mulG (SecNonceBuilder.reduceOrOne a)).1 := by
  rw [sign_eq, mask_hash, hash_nonce H ha]
  rfl

/-- The state after an adaptor signature with a new nonce or adaptor point. -/
def signed (H : Hash) (sk : Scalar) (κ : ℕ → Arr 32 × Arr 32) (msg : Bytes) (seed : Arr 32) (T : MaybePoint) (st : State) : State :=
  let x := nonceQuery sk (mask H seed) msg
  let i := st.signed.length
  let st₁ := st.programNonce x (κ i).1
  let R := (signSoloAdaptor (st₁.hash H) sk msg seed T).R
  { st₁ with toState := st₁.toState.program (Spec.challengeQuery (xonly (R + T)).1 (mulG sk) msg) (κ i).2 }

/-- It with the record of the signature. -/
def recorded (H : Hash) (sk : Scalar) (κ : ℕ → Arr 32 × Arr 32) (msg : Bytes) (seed : Arr 32) (T : MaybePoint) (st : State) : State :=
  let st₂ := signed H sk κ msg seed T st
  { st₂ with
    toState := st₂.toState.record ⟨msg, T, signSoloAdaptor (st₂.hash H) sk msg seed T⟩
    requests := st.requests ++ [(nonceQuery sk (mask H seed) msg, T)] }

theorem run_sign (H : Hash) (sk : Scalar) (ω ν : ℕ → Arr 32) (κ : ℕ → Arr 32 × Arr 32) (msg : Bytes) (seed : Arr 32) (T : MaybePoint)
    (next : AdaptorSignature → SoloForger) (st : State) :
    (SoloForger.sign msg seed T next).run H sk ω ν κ st =
      if (nonceQuery sk (mask H seed) msg, T) ∈ st.requests
      then (next (signSoloAdaptor (st.hash H) sk msg seed T)).run H sk ω ν κ st
      else (next (signSoloAdaptor ((signed H sk κ msg seed T st).hash H) sk msg seed T)).run H sk ω ν κ (recorded H sk κ msg seed T st) := by
  rfl

theorem programNonce_requests (st : State) (x : Bytes) (a : Arr 32) : (st.programNonce x a).requests = st.requests := by
  unfold State.programNonce
  cases st.findNonce x <;> rfl

theorem programNonce_toState (st : State) (x : Bytes) (a : Arr 32) : (st.programNonce x a).toState = st.toState := by
  unfold State.programNonce
  cases st.findNonce x <;> rfl

theorem programNonce_nlog (st : State) (x : Bytes) (a : Arr 32) : (st.programNonce x a).nlog = st.nlog := by
  unfold State.programNonce
  cases st.findNonce x <;> rfl

theorem le_signed (H : Hash) (sk : Scalar) (κ : ℕ → Arr 32 × Arr 32) (msg : Bytes) (seed : Arr 32) (T : MaybePoint) (st : State) :
    Le st (signed H sk κ msg seed T st) :=
  (le_programNonce st (nonceQuery sk (mask H seed) msg) (κ st.signed.length).1).trans
    ⟨id, fun h => program_find_mono _ _ _ h, id⟩

theorem le_recorded (H : Hash) (sk : Scalar) (κ : ℕ → Arr 32 × Arr 32) (msg : Bytes) (seed : Arr 32) (T : MaybePoint) (st : State) :
    Le st (recorded H sk κ msg seed T st) :=
  ⟨(le_signed H sk κ msg seed T st).nonce, (le_signed H sk κ msg seed T st).find, fun h => List.mem_append_left _ h⟩

/-- The hashes of the adaptor signature have been drawn. -/
theorem signed_drawn (H : Hash) (sk : Scalar) (κ : ℕ → Arr 32 × Arr 32) (msg : Bytes) (seed : Arr 32) (T : MaybePoint) (st : State) :
    ∃ a c, (signed H sk κ msg seed T st).findNonce (nonceQuery sk (mask H seed) msg) = some a ∧
      (signed H sk κ msg seed T st).toState.find (chalOf sk a T msg) = some c ∧
      (st.findNonce (nonceQuery sk (mask H seed) msg) = none → a = (κ st.signed.length).1) := by
  obtain ⟨a, ha, ha'⟩ := programNonce_find st (nonceQuery sk (mask H seed) msg) (κ st.signed.length).1
  obtain ⟨c, hc⟩ := program_find (st.programNonce (nonceQuery sk (mask H seed) msg) (κ st.signed.length).1).toState
    (Spec.challengeQuery (xonly ((signSoloAdaptor
      ((st.programNonce (nonceQuery sk (mask H seed) msg) (κ st.signed.length).1).hash H) sk msg seed T).R + T)).1 (mulG sk) msg)
    (κ st.signed.length).2
  refine ⟨a, c, ha, ?_, ha'⟩
  have hR := sign_R H (T := T) ha
  rw [hR] at hc
  unfold signed chalOf
  simp only
  rw [hR]
  exact hc

theorem run_le (H : Hash) (sk : Scalar) (ω ν : ℕ → Arr 32) (κ : ℕ → Arr 32 × Arr 32) (A : SoloForger) (st : State) :
    Le st (A.run H sk ω ν κ st).state := by
  induction A generalizing st with
  | submit msg sig => exact le_ask ω st _
  | ask x next ih =>
    unfold run
    split
    · exact (le_askNonce ν st x).trans (ih _ _)
    · split
      · exact (le_ask ω st x).trans (ih _ _)
      · exact ih _ _
  | sign msg seed T next ih =>
    rw [run_sign]
    split
    · exact ih _ _
    · exact (le_recorded H sk κ msg seed T st).trans (ih _ _)

/-! ## The run is that with one hash function -/

/-- Every request has been drawn. -/
def Answered (sk : Scalar) (st : State) : Prop :=
  ∀ h msg T, (nonceQuery sk h msg, T) ∈ st.requests →
    ∃ a c, st.findNonce (nonceQuery sk h msg) = some a ∧ st.toState.find (chalOf sk a T msg) = some c

theorem Answered.of_le {sk : Scalar} {st st' : State} (h : Answered sk st) (hle : Le st st') (hr : st'.requests = st.requests) :
    Answered sk st' := by
  intro g msg T hm
  rw [hr] at hm
  obtain ⟨a, c, ha, hc⟩ := h g msg T hm
  exact ⟨a, c, hle.nonce ha, hle.find hc⟩

theorem askNonce_requests (ν : ℕ → Arr 32) (st : State) (x : Bytes) : (st.askNonce ν x).requests = st.requests := by
  unfold State.askNonce
  cases st.nprog.find x <;> rfl

theorem Answered.recorded {H : Hash} {sk : Scalar} {st : State} (h : Answered sk st) (κ : ℕ → Arr 32 × Arr 32) (msg : Bytes)
    (seed : Arr 32) (T : MaybePoint) : Answered sk (recorded H sk κ msg seed T st) := by
  intro g m T' hm
  have hle := le_recorded H sk κ msg seed T st
  rcases List.mem_append.1 hm with hm | hm
  · obtain ⟨a, c, ha, hc⟩ := h g m T' hm
    exact ⟨a, c, hle.nonce ha, hle.find hc⟩
  · have e := List.mem_singleton.1 hm
    rw [Prod.mk.injEq] at e
    obtain ⟨e1, e2⟩ := e
    obtain ⟨-, em⟩ := nonceQuery_inj e1
    obtain ⟨a, c, ha, hc, -⟩ := signed_drawn H sk κ msg seed T st
    rw [e1, e2, em]
    exact ⟨a, c, ha, hc⟩

theorem sign_of_le (H : Hash) {st st' : State} (hle : Le st st') {sk : Scalar} {msg : Bytes} {seed : Arr 32} {T : MaybePoint} {a c : Arr 32}
    (ha : st.findNonce (nonceQuery sk (mask H seed) msg) = some a) (hc : st.toState.find (chalOf sk a T msg) = some c) :
    signSoloAdaptor (st.hash H) sk msg seed T = signSoloAdaptor (st'.hash H) sk msg seed T := by
  rw [sign_drawn H ha hc, sign_drawn H (hle.nonce ha) (hle.find hc)]

theorem play_run (H : Hash) (sk : Scalar) (ω ν : ℕ → Arr 32) (κ : ℕ → Arr 32 × Arr 32) (A : SoloForger) (st : State)
    (hst : Answered sk st) :
    A.play ((A.run H sk ω ν κ st).state.hash H) sk = ((A.run H sk ω ν κ st).msg, (A.run H sk ω ν κ st).sig) := by
  induction A generalizing st with
  | submit msg sig => rfl
  | ask x next ih =>
    unfold run play
    by_cases hx : NonceTag x
    · rw [if_pos hx]
      have hle := run_le H sk ω ν κ (next (st.answerNonce ν x)) (st.askNonce ν x)
      have hf := hle.nonce (answerNonce_find ν st x)
      have he : ((next (st.answerNonce ν x)).run H sk ω ν κ (st.askNonce ν x)).state.hash H x = st.answerNonce ν x := by
        unfold State.hash
        rw [if_pos hx, hf]
        rfl
      rw [he]
      exact ih _ _ (hst.of_le (le_askNonce ν st x) (askNonce_requests ν st x))
    · rw [if_neg hx]
      by_cases hd : Drawn x
      · rw [if_pos hd]
        have hle := run_le H sk ω ν κ (next (st.toState.answer ω x)) { st with toState := st.toState.ask ω x }
        have hf := hle.find (answer_ask ω st.toState x)
        have he : ((next (st.toState.answer ω x)).run H sk ω ν κ { st with toState := st.toState.ask ω x }).state.hash H x
            = st.toState.answer ω x := by
          unfold State.hash
          rw [if_neg hx, if_pos hd]
          unfold AdaptorForger.State.hash
          rw [hf]
          rfl
        rw [he]
        exact ih _ _ (hst.of_le (le_ask ω st x) rfl)
      · rw [if_neg hd]
        have he : ∀ st' : State, st'.hash H x = H x := by
          intro st'
          unfold State.hash
          rw [if_neg hx, if_neg hd]
        rw [he]
        exact ih _ _ hst
  | sign msg seed T next ih =>
    rw [run_sign]
    unfold play
    split
    · rename_i hm
      obtain ⟨a, c, ha, hc⟩ := hst _ _ _ hm
      have hle := run_le H sk ω ν κ (next (signSoloAdaptor (st.hash H) sk msg seed T)) st
      rw [← sign_of_le H hle ha hc]
      exact ih _ _ hst
    · obtain ⟨a, c, ha, hc, -⟩ := signed_drawn H sk κ msg seed T st
      have hle : Le (signed H sk κ msg seed T st) (recorded H sk κ msg seed T st) := ⟨id, id, fun {r} hr => by
        have : (signed H sk κ msg seed T st).requests = st.requests := programNonce_requests _ _ _
        rw [this] at hr
        exact List.mem_append_left _ hr⟩
      have hle := hle.trans (run_le H sk ω ν κ (next (signSoloAdaptor ((signed H sk κ msg seed T st).hash H) sk msg seed T))
        (recorded H sk κ msg seed T st))
      rw [← sign_of_le H hle ha hc]
      exact ih _ _ (hst.recorded κ msg seed T)

/-! ## The run without seeds -/

theorem verifySingle_congr {H H' : Hash} (h : ∀ rx P msg, H (Spec.challengeQuery rx P msg) = H' (Spec.challengeQuery rx P msg))
    (Q : Point) (sig : CompactSignature) (msg : Bytes) : verifySingle H Q sig msg = verifySingle H' Q sig msg := by
  have key : ∀ rx P msg, computeChallengeHashTweak H rx P msg = computeChallengeHashTweak H' rx P msg := by
    intro rx P msg
    rw [(C66_what_is_hashed H).2.2.2.1, (C66_what_is_hashed H').2.2.2.1]
    exact congrArg reduceFrom (h rx.1 P msg)
  unfold verifySingle verifySingleWith
  simp only [key]

/-- What `strip` keeps in mind is what has happened. -/
structure Inv (sk : Scalar) (st : State) (m : Memory) : Prop where
  nlog : m.nlog = st.nlog
  made : m.made.map (·.2) = st.signed
  requests : st.requests = m.made.map fun e => (nonceQuery sk e.1 e.2.msg, e.2.T)
  nprog : ∀ x, st.nprog.find x ≠ none → ∃ e ∈ m.made, x = nonceQuery sk e.1 e.2.msg
  sigs : ∀ e ∈ m.made, ∃ a c, st.findNonce (nonceQuery sk e.1 e.2.msg) = some a ∧
    st.toState.find (chalOf sk a e.2.T e.2.msg) = some c ∧ e.2.sig = sigOf sk a c e.2.T

theorem Inv.init (sk : Scalar) : Inv sk State.init ⟨[], []⟩ :=
  ⟨rfl, rfl, rfl, fun x h => absurd rfl h, fun e h => by cases h⟩

theorem Inv.signed {sk : Scalar} {st : State} {m : Memory} (h : Inv sk st m) : ∀ e ∈ st.signed, e.msg ∈ m.msgs := by
  intro e he
  rw [← h.made] at he
  obtain ⟨e', he', rfl⟩ := List.mem_map.1 he
  exact List.mem_map.2 ⟨e', he', rfl⟩

theorem Inv.sigs_of_le {sk : Scalar} {st st' : State} {m : Memory} (h : Inv sk st m) (hle : Le st st') (e : Arr 32 × Made)
    (he : e ∈ m.made) : ∃ a c, st'.findNonce (nonceQuery sk e.1 e.2.msg) = some a ∧
    st'.toState.find (chalOf sk a e.2.T e.2.msg) = some c ∧ e.2.sig = sigOf sk a c e.2.T := by
  obtain ⟨a, c, ha, hc, hs⟩ := h.sigs e he
  exact ⟨a, c, hle.nonce ha, hle.find hc, hs⟩

theorem Inv.ask {sk : Scalar} {st : State} {m : Memory} (h : Inv sk st m) (ω : ℕ → Arr 32) (x : Bytes) :
    Inv sk { st with toState := st.toState.ask ω x } m :=
  ⟨h.nlog, h.made.trans (AdaptorForger.ask_signed ω st.toState x).symm, h.requests, h.nprog, h.sigs_of_le (le_ask ω st x)⟩

theorem Inv.askNonce {sk : Scalar} {st : State} {m : Memory} (h : Inv sk st m) (ν : ℕ → Arr 32) {x : Bytes} (hx : st.nprog.find x = none) :
    Inv sk (st.askNonce ν x) { m with nlog := m.nlog.add ν x } := by
  have hs := h.sigs_of_le (le_askNonce ν st x)
  unfold State.askNonce at hs ⊢
  simp only [hx] at hs ⊢
  exact ⟨by rw [h.nlog], h.made, h.requests, h.nprog, hs⟩

theorem signed_toState (H : Hash) (sk : Scalar) (seed' : Arr 32) (κ : ℕ → Arr 32 × Arr 32) (msg : Bytes) (seed : Arr 32) (T : MaybePoint) (st : State)
    (hx : st.findNonce (nonceQuery sk (mask H seed) msg) = none) :
    let a := (κ st.signed.length).1
    let st' := st.toState.program (Spec.challengeQuery
      (xonly ((signSoloAdaptor (nonceAnswering H a) sk msg seed' T).R + T)).1 (mulG sk) msg) (κ st.signed.length).2
    (SoloForger.signed H sk κ msg seed T st).toState = st' ∧
      signSoloAdaptor ((SoloForger.signed H sk κ msg seed T st).hash H) sk msg seed T
        = signSoloAdaptor (nonceAnswering (st'.hash H) a) sk msg seed' T := by
  intro a st'
  have e1 : (SoloForger.signed H sk κ msg seed T st).toState = st' := by
    obtain ⟨b, hb, hb'⟩ := programNonce_find st (nonceQuery sk (mask H seed) msg) (κ st.signed.length).1
    have hR := sign_R H (T := T) hb
    rw [hb' hx] at hR
    unfold SoloForger.signed
    simp only
    rw [hR, programNonce_toState]
    unfold st'
    rw [adaptor_sign_eq]
    rfl
  refine ⟨e1, ?_⟩
  obtain ⟨b, c, hb, hc, hb'⟩ := signed_drawn H sk κ msg seed T st
  rw [sign_drawn H hb hc, adaptor_sign_eq, hb' hx]
  congr 1
  rw [e1, hb' hx] at hc
  unfold AdaptorForger.State.hash
  rw [hc]
  rfl

theorem Inv.recorded {H : Hash} {sk : Scalar} {st : State} {m : Memory} (h : Inv sk st m) (κ : ℕ → Arr 32 × Arr 32) (msg : Bytes)
    (seed : Arr 32) (T : MaybePoint) :
    Inv sk (recorded H sk κ msg seed T st)
      { m with made := m.made ++ [(mask H seed, ⟨msg, T, signSoloAdaptor ((SoloForger.signed H sk κ msg seed T st).hash H) sk msg seed T⟩)] } := by
  have hle := le_recorded H sk κ msg seed T st
  refine ⟨?_, ?_, ?_, ?_, ?_⟩
  · exact h.nlog.trans (programNonce_nlog _ _ _).symm
  · simp only [List.map_append, List.map_cons, List.map_nil]
    rw [h.made]
    change _ = (SoloForger.signed H sk κ msg seed T st).signed ++ _
    congr 1
    change _ = ((st.programNonce _ _).toState.program _ _).signed
    rw [AdaptorForger.program_signed, programNonce_toState]
  · simp only [List.map_append, List.map_cons, List.map_nil]
    rw [← h.requests]
    rfl
  · intro x hx
    have hx' : (st.programNonce (nonceQuery sk (mask H seed) msg) (κ st.signed.length).1).nprog.find x ≠ none := hx
    have : st.nprog.find x ≠ none ∨ x = nonceQuery sk (mask H seed) msg := by
      unfold State.programNonce at hx'
      split at hx'
      · exact .inl hx'
      · rw [find_append] at hx'
        by_cases hn : st.nprog.find x = none
        · right
          by_contra hne
          rw [hn, if_neg (Ne.symm hne)] at hx'
          exact hx' rfl
        · exact .inl hn
    rcases this with hn | hn
    · obtain ⟨e, he, hee⟩ := h.nprog x hn
      exact ⟨e, List.mem_append_left _ he, hee⟩
    · exact ⟨_, List.mem_append_right _ (List.mem_singleton.2 rfl), hn⟩
  · intro e he
    rcases List.mem_append.1 he with he | he
    · exact h.sigs_of_le hle e he
    · rw [List.mem_singleton.1 he]
      obtain ⟨a, c, ha, hc, -⟩ := signed_drawn H sk κ msg seed T st
      exact ⟨a, c, ha, hc, sign_drawn H ha hc⟩

theorem findSome_none {sk : Scalar} {m : Memory} {x : Bytes} (h : (m.made.findSome? fun e => keyOf (mulG sk) e.1 x) = none)
    {st : State} (hi : Inv sk st m) : st.nprog.find x = none := by
  by_contra hn
  obtain ⟨e, he, rfl⟩ := hi.nprog x hn
  obtain ⟨d, hd⟩ := keyOf_nonceQuery sk e.1 e.2.msg
  rw [List.findSome?_eq_none_iff] at h
  rw [h e he] at hd
  cases hd

/-- A win against the signer is one of the forger without seeds. -/
theorem strip_wins (H : Hash) (sk : Scalar) (seeds ω ν : ℕ → Arr 32) (κ : ℕ → Arr 32 × Arr 32) (A : SoloForger) (st : State) (m : Memory)
    (hi : Inv sk st m) (hw : (A.run H sk ω ν κ st).Wins H (mulG sk)) :
    ((A.strip H (mulG sk) ν m).run H sk seeds ω κ st.toState).Wins H (mulG sk) := by
  induction A generalizing st m with
  | submit msg' sig =>
    refine ⟨?_, hw.2.1⟩
    rw [← hw.1]
    refine verifySingle_congr (fun rx P msg => ?_) _ _ _
    exact (hash_challenge H { st with toState := st.toState.ask ω (Spec.challengeQuery sig.rx.1 (mulG sk) msg') } rx P msg).symm
  | ask x next ih =>
    unfold run at hw
    unfold strip
    split at hw
    · rename_i hx
      rw [if_pos hx]
      split
      · rename_i d hd
        obtain ⟨e, -, he⟩ := List.exists_of_findSome?_eq_some hd
        exact cheat_wins H sk seeds ω κ d (keyOf_some he) m.msgs st.toState hi.signed
      · rename_i hn
        have hp := findSome_none hn hi
        have hs : (st.askNonce ν x).toState = st.toState := by
          unfold State.askNonce
          rw [hp]
        have ha : st.answerNonce ν x = m.nlog.answer ν x := by
          unfold State.answerNonce
          rw [hp, hi.nlog]
          rfl
        have := ih _ _ _ (hi.askNonce ν hp) hw
        rwa [hs, ha] at this
    · rename_i hx
      rw [if_neg hx]
      unfold AdaptorForger.run
      split at hw
      · rename_i hd
        rw [if_pos hd]
        exact ih (st.toState.answer ω x) { st with toState := st.toState.ask ω x } m (hi.ask ω x) hw
      · rename_i hd
        rw [if_neg hd]
        exact ih _ _ _ hi hw
  | sign msg seed T next ih =>
    rw [run_sign] at hw
    unfold strip
    by_cases hm : (nonceQuery sk (mask H seed) msg, T) ∈ st.requests
    · rw [if_pos hm] at hw
      have hm' := hm
      rw [hi.requests] at hm'
      obtain ⟨e, he, hee⟩ := List.mem_map.1 hm'
      rw [Prod.mk.injEq] at hee
      obtain ⟨h1, h2⟩ := nonceQuery_inj hee.1
      cases hf : m.made.find? fun e => e.1 = mask H seed ∧ e.2.msg = msg ∧ e.2.T = T with
      | none =>
        rw [List.find?_eq_none] at hf
        exact absurd (decide_eq_true ⟨h1, h2, hee.2⟩) (hf e he)
      | some e' =>
        simp only
        have hp := List.find?_some hf
        have he' := List.mem_of_find?_eq_some hf
        simp only [decide_eq_true_eq] at hp
        obtain ⟨a, c, ha, hc, hs⟩ := hi.sigs e' he'
        rw [hp.1, hp.2.1] at ha
        rw [hp.2.1, hp.2.2] at hc
        rw [hp.2.2] at hs
        rw [hs, ← sign_drawn H ha hc]
        exact ih _ _ _ hi hw
    · rw [if_neg hm] at hw
      cases hf : m.made.find? fun e => e.1 = mask H seed ∧ e.2.msg = msg ∧ e.2.T = T with
      | some e' =>
        exfalso
        have hp := List.find?_some hf
        have he' := List.mem_of_find?_eq_some hf
        simp only [decide_eq_true_eq] at hp
        apply hm
        rw [hi.requests]
        refine List.mem_map.2 ⟨e', he', ?_⟩
        rw [hp.1, hp.2.1, hp.2.2]
      | none =>
        simp only
        split
        · rename_i d hd
          obtain ⟨e, -, he⟩ := List.exists_of_findSome?_eq_some hd
          exact cheat_wins H sk seeds ω κ d (keyOf_some he) m.msgs st.toState hi.signed
        · rename_i hn
          have hl : st.nlog.find (nonceQuery sk (mask H seed) msg) = none := by
            rw [Forger.Log.find_eq_none]
            intro hmem
            obtain ⟨e, he, hee⟩ := List.mem_map.1 hmem
            obtain ⟨d, hd⟩ := keyOf_nonceQuery sk (mask H seed) msg
            rw [List.findSome?_eq_none_iff] at hn
            rw [← hi.nlog] at he
            rw [← hee, hn e he] at hd
            cases hd
          by_cases hp : st.nprog.find (nonceQuery sk (mask H seed) msg) = none
          · have hx : st.findNonce (nonceQuery sk (mask H seed) msg) = none := by
              unfold State.findNonce
              rw [hp, hl]
              rfl
            have hs := signed_toState H sk (seeds st.signed.length) κ msg seed T st hx
            unfold AdaptorForger.run
            simp only at hs ⊢
            have := ih _ _ _ (hi.recorded (H := H) κ msg seed T) hw
            have hr : (SoloForger.recorded H sk κ msg seed T st).toState = (SoloForger.signed H sk κ msg seed T st).toState.record
              ⟨msg, T, signSoloAdaptor ((SoloForger.signed H sk κ msg seed T st).hash H) sk msg seed T⟩ := rfl
            rw [hr, hs.2, hs.1] at this
            exact this
          · exfalso
            obtain ⟨e, he, hee⟩ := hi.nprog _ hp
            have hr1 : (nonceQuery sk e.1 e.2.msg, e.2.T) ∈ st.requests := by
              rw [hi.requests]
              exact List.mem_map.2 ⟨e, he, rfl⟩
            have hle := run_le H sk ω ν κ (next (signSoloAdaptor ((SoloForger.signed H sk κ msg seed T st).hash H) sk msg seed T))
              (SoloForger.recorded H sk κ msg seed T st)
            have hr2 : (nonceQuery sk (mask H seed) msg, T) ∈ (SoloForger.recorded H sk κ msg seed T st).requests :=
              List.mem_append_right _ (List.mem_singleton.2 rfl)
            have hT := hw.2.2 _ (hle.requests ((le_recorded H sk κ msg seed T st).requests hr1)) _ (hle.requests hr2) hee.symm
            simp only at hT
            rw [← hee, hT] at hr1
            exact hm hr1

theorem strip_forges {q m s : ℕ} {H : Hash} {sk : Scalar} (seeds : ℕ → Arr 32) {A : SoloForger} {ν : Fin m → Arr 32}
    {p : (Fin q → Arr 32) × (Fin s → Arr 32 × Arr 32)} (h : A.Forges H sk (ν, p)) :
    (A.strip H (mulG sk) (answers ν) ⟨[], []⟩).Forges H sk seeds p := by
  unfold AdaptorForger.Forges
  unfold Forges at h
  exact strip_wins H sk seeds (answers p.1) (answers ν) (pairs p.2) A State.init ⟨[], []⟩ (Inv.init sk) h

/-! ## Averages -/

theorem forked_jensen {Ω : Type} [Fintype Ω] [Nonempty Ω] (q : ℕ) (f : Ω → ℚ) :
    Spec.forked q ((∑ ω, f ω) / Fintype.card Ω) ≤ (∑ ω, Spec.forked q (f ω)) / Fintype.card Ω := by
  unfold Spec.forked
  obtain ⟨N, hN⟩ : ∃ N : ℚ, N = 2 ^ 256 := ⟨_, rfl⟩
  have hN0 : 0 < N := by rw [hN]; positivity
  rw [← hN]
  have hc : (0 : ℚ) < Fintype.card Ω := by exact_mod_cast Fintype.card_pos
  have hle : ∑ ω, (f ω ^ 2 / q - 2 * f ω / N) ≤ ∑ ω, max 0 (f ω ^ 2 / q - 2 * f ω / N) :=
    Finset.sum_le_sum fun ω _ => le_max_right _ _
  have h0 : 0 ≤ ∑ ω, max 0 (f ω ^ 2 / q - 2 * f ω / N) := Finset.sum_nonneg fun ω _ => le_max_left _ _
  refine max_le (div_nonneg h0 hc.le) (le_trans ?_ (div_le_div_of_nonneg_right hle hc.le))
  have hsq : (∑ ω, f ω) ^ 2 ≤ Fintype.card Ω * ∑ ω, f ω ^ 2 := by
    have := sq_sum_le_card_mul_sum_sq (s := (Finset.univ : Finset Ω)) (f := f)
    rwa [Finset.card_univ] at this
  have e : ∑ ω, (f ω ^ 2 / q - 2 * f ω / N) = (∑ ω, f ω ^ 2) / q - 2 * (∑ ω, f ω) / N := by
    rw [Finset.sum_sub_distrib, Finset.sum_div, Finset.mul_sum, Finset.sum_div]
  rw [e, sub_div, div_pow]
  have h1 : (∑ ω, f ω) ^ 2 / (Fintype.card Ω : ℚ) ^ 2 / q ≤ (∑ ω, f ω ^ 2) / q / Fintype.card Ω := by
    rw [div_right_comm (∑ ω, f ω ^ 2)]
    refine div_le_div_of_nonneg_right (c := (q : ℚ)) ?_ (Nat.cast_nonneg q)
    rw [div_le_div_iff₀ (by positivity) hc]
    nlinarith
  have h2 : 2 * ((∑ ω, f ω) / Fintype.card Ω) / N = 2 * (∑ ω, f ω) / N / Fintype.card Ω := by ring
  rw [h2]
  exact sub_le_sub_right h1 _

/-! ## An example -/

/-- A forger that knows the secret key (one). It asks for an adaptor signature of the empty message and for a hash of a nonce, and
forges a signature of another message. -/
def exSolo : SoloForger :=
  .sign [] zeroSeed G fun _ => .ask (nonceQuery scalarOne zeroSeed []) fun _ =>
    .ask (Spec.challengeQuery (Spec.xbytes G) (mulG scalarOne) [0]) fun e => .submit [0] ⟨xonly G, 1 + reduceFrom e * scalarOne.1⟩

theorem exSolo_asks : AsksAtMost 1 1 1 exSolo :=
  .sign 1 1 0 _ _ _ _ fun _ => .nonce 1 0 0 _ _ (nonceTag_nonceQuery _ _ _) fun _ => .ask 0 0 0 _ _ fun _ => .submit 0 0 0 _ _

theorem exSolo_end (H : Hash) (ω ν : ℕ → Arr 32) (κ : ℕ → Arr 32 × Arr 32) (st : State) (hm : ∀ m ∈ st.signed, m.msg ∈ [[]])
    (hc : st.Careful) :
    ((SoloForger.ask (Spec.challengeQuery (Spec.xbytes G) (mulG scalarOne) [0]) fun e =>
      .submit [0] ⟨xonly G, 1 + reduceFrom e * scalarOne.1⟩).run H scalarOne ω ν κ st).Wins H (mulG scalarOne) := by
  have hw := cheat_wins H scalarOne (fun _ => zeroSeed) ω κ scalarOne (by
    have h1 : (mulG scalarOne).1 = G := one_smul _ _
    rw [h1, sgn_smul, isOdd_G]
    exact one_smul _ _) [[]] st.toState hm
  unfold cheat AdaptorForger.run at hw
  unfold run
  simp only at hw
  rw [if_pos (drawn_challengeQuery _ _ _)] at hw
  rw [if_neg (not_nonceTag_challenge _ _ _), if_pos (drawn_challengeQuery _ _ _)]
  unfold AdaptorForger.run at hw
  unfold run
  refine ⟨?_, hw.2, hc⟩
  rw [← hw.1]
  refine verifySingle_congr (fun rx P msg => ?_) _ _ _
  exact hash_challenge H _ rx P msg

theorem exSolo_wins (H : Hash) (ω ν : ℕ → Arr 32) (κ : ℕ → Arr 32 × Arr 32) :
    (exSolo.run H scalarOne ω ν κ State.init).Wins H (mulG scalarOne) := by
  unfold exSolo
  rw [run_sign, if_neg (by intro h; cases h)]
  unfold run
  rw [if_pos (nonceTag_nonceQuery _ _ _)]
  have hr := askNonce_requests ν (recorded H scalarOne κ [] zeroSeed G State.init) (nonceQuery scalarOne zeroSeed [])
  have hs : ((recorded H scalarOne κ [] zeroSeed G State.init).askNonce ν (nonceQuery scalarOne zeroSeed [])).signed
      = (recorded H scalarOne κ [] zeroSeed G State.init).signed := by
    unfold State.askNonce
    split <;> rfl
  have hi := (Inv.init scalarOne).recorded (H := H) κ [] zeroSeed G
  refine exSolo_end H ω ν κ _ ?_ ?_
  · rw [hs, ← hi.made]
    intro m hm
    simp only [List.nil_append, List.map_cons, List.map_nil, List.mem_singleton] at hm
    rw [hm]
    exact List.mem_singleton.2 rfl
  · unfold State.Careful
    rw [hr, hi.requests]
    intro r h1 r' h2 _
    simp only [List.nil_append, List.map_cons, List.map_nil, List.mem_singleton] at h1 h2
    rw [h1, h2]

end SoloForger

end Verif
