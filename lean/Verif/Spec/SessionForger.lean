import Verif.Spec.Views

/-!
# Forgers that take part in a session

A forger asks the hash function about byte strings, opens a session with a signer, who sends a public nonce, asks on, sends
an aggregated nonce, an adaptor point and a message, receives a partial signature, asks on, and finally submits another
message with a signature. Strings that begin with the tag of challenges are drawn from one sequence of answers, those that
begin with the tag of nonce coefficients from another. Used by `Props/SessionForger`.
-/

namespace Verif

open Forger (Log Drawn answers)

/-- Something that asks for hashes, one after the other, and then returns a result. -/
inductive Asking (α : Type) where
  | done (a : α)
  /-- Ask for the hash of `x`, and go on with the answer. -/
  | ask (x : Bytes) (next : Arr 32 → Asking α)

namespace Asking

/-- First the one, then the other. -/
def bind {α β : Type} : Asking α → (α → Asking β) → Asking β
  | .done a, k => k a
  | .ask x next, k => .ask x fun h => (next h).bind k

/-- The string begins with the tag of nonce coefficients. -/
def DrawnNonce (x : Bytes) : Prop := Spec.taggedInput "MuSig/noncecoef" [] <+: x

instance : DecidablePred DrawnNonce := fun x => inferInstanceAs (Decidable (_ <+: x))

/-- The strings drawn so far, of challenges and of nonce coefficients. -/
structure State where
  challenges : Log
  nonces : Log

/-- Nothing has been drawn. -/
def State.init : State := ⟨[], []⟩

/-- What is returned with the answers `ω` for challenges, `η` for nonce coefficients, and `H` for all else. -/
def run {α : Type} (H : Hash) (ω η : ℕ → Arr 32) : Asking α → State → α × State
  | .done a, st => (a, st)
  | .ask x next, st =>
    if Drawn x then run H ω η (next (st.challenges.answer ω x)) { st with challenges := st.challenges.add ω x }
    else if DrawnNonce x then run H ω η (next (st.nonces.answer η x)) { st with nonces := st.nonces.add η x }
    else run H ω η (next (H x)) st

/-- At most `q` challenges and `c` nonce coefficients are asked for, and what then remains of these numbers is enough for the
result. -/
def Within {α : Type} (post : ℕ → ℕ → α → Prop) : Asking α → ℕ → ℕ → Prop
  | .done a, q, c => post q c a
  | .ask x next, q, c =>
    if Drawn x then ∃ q', q = q' + 1 ∧ ∀ h, Within post (next h) q' c
    else if DrawnNonce x then ∃ c', c = c' + 1 ∧ ∀ h, Within post (next h) q c'
    else ∀ h, Within post (next h) q c

end Asking

/-- A forger that takes part in one session. -/
abbrev SessionForger : Type := Asking (PubNonce → Asking (Spec.Reply × (MaybeScalar → Asking (Bytes × CompactSignature))))

namespace SessionForger

open Asking

/-- The forger asks for at most `q` challenges and `c` nonce coefficients, whatever it receives, and as often as it likes for
other hashes. -/
def AsksAtMost (q c : ℕ) (A : SessionForger) : Prop :=
  A.Within (fun q c next => ∀ pn, (next pn).Within (fun q c p => ∀ s, (p.2 s).Within (fun _ _ _ => True) q c) q c) q c

/-- What comes out of a game: the reply in the session, the two hashes in it, and the forgery. -/
structure Result where
  reply : Spec.Reply
  hb : Arr 32
  he : Arr 32
  msg : Bytes
  sig : CompactSignature

/-- The game for the key `Q`, where the signer's public nonce is `pn` and partial signatures are made by `sign` from the
reply and the hashes of the nonce coefficient and the challenge. -/
def game (A : SessionForger) (Q : Point) (pn : PubNonce) (sign : Spec.Reply → Arr 32 → Arr 32 → MaybeScalar) :
    Asking Result :=
  A.bind fun next => (next pn).bind fun p =>
    .ask (Spec.noncecoefQuery p.1.aggnonce Q p.1.message) fun hb =>
      .ask (Spec.challengeQuery (Spec.xbytes (p.1.nonce hb)) Q p.1.message) fun he =>
        (p.2 (sign p.1 hb he)).bind fun f => .done ⟨p.1, hb, he, f.1, f.2⟩

/-- The partial signature of `sign_partial`, where the nonce coefficient is hashed to `hb` and the challenge to `he`. -/
def partialSignature (H : Hash) (ctx : KeyAggContext) (sk : Scalar) (sn : SecNonce) (r : Spec.Reply) (hb he : Arr 32) :
    MaybeScalar :=
  match signPartialAdaptor (Spec.sessionHash H hb he) ctx sk sn r.aggnonce r.adaptorPoint r.message with
  | .ok s => s
  | _ => 0

/-- The forgery is for another message than that of the session, and `verify_single` accepts it for the key `Q`, the
challenge being drawn if it is new. -/
def Wins (H : Hash) (Q : Point) (ω : ℕ → Arr 32) (out : Result × State) : Prop :=
  out.1.msg ≠ out.1.reply.message ∧
    verifySingle ((out.2.challenges.add ω (Spec.challengeQuery out.1.sig.rx.1 Q out.1.msg)).hash H) Q out.1.sig out.1.msg = .ok ()

/-- The game against the signer who has the secret key `sk` in the group `ctx`, and uses the nonces `sn`, is won. -/
def Forges {q c : ℕ} (H : Hash) (ctx : KeyAggContext) (sk : Scalar) (A : SessionForger)
    (p : SecNonce × (Fin c → Arr 32) × (Fin q → Arr 32)) : Prop :=
  Wins H ctx.aggregatedPubkey (answers p.2.2) ((A.game ctx.aggregatedPubkey p.1.publicNonce
    (partialSignature H ctx sk p.1)).run H (answers p.2.2) (answers p.2.1) State.init)

/-- What is drawn to play the game without the signer: which of the nonce coefficients and challenges asked for will be
those of the session, the answers for nonce coefficients, the answer for the challenge of the session, the partial signature,
the second nonce, and whether nonces will be negated. -/
structure Guess (q c : ℕ) where
  i : Fin c
  j : Fin q
  nonces : Fin c → Arr 32
  he : Arr 32
  sig : MaybeScalar
  k2 : Scalar
  neg : Bool

/-- What the simulator of a session draws. -/
def Guess.draws {q c : ℕ} (g : Guess q c) : Spec.Draws := ⟨g.nonces g.i, g.he, g.sig, g.k2, g.neg⟩

/-- A forger without a session that does what `t` does, with the answers `η` for nonce coefficients, and `he` instead of
the `j`-th answer for challenges. -/
def alone {α : Type} (η : ℕ → Arr 32) (j : ℕ) (he : Arr 32) (submit : α → Forger) : Asking α → State → Forger
  | .done a, _ => submit a
  | .ask x next, st =>
    if Drawn x then
      match st.challenges.find x with
      | some h => alone η j he submit (next h) st
      | none => .ask x fun h =>
        let h' := if st.challenges.length = j then he else h
        alone η j he submit (next h') { st with challenges := st.challenges ++ [(x, h')] }
    else if DrawnNonce x then
      alone η j he submit (next (st.nonces.answer η x)) { st with nonces := st.nonces.add η x }
    else .ask x fun h => alone η j he submit (next h) st

/-- The forger that plays both parts of the session. It knows the public key `P` of the signer and its coefficient `a`
only. -/
def simulator {q c : ℕ} (ctx : KeyAggContext) (P : Point) (a : MaybeScalar) (A : SessionForger) (g : Guess q c) : Forger :=
  match Spec.simulatedNonce ctx P a g.draws with
  | none => .submit [] ⟨zeroSeed, 0⟩
  | some pn => alone (answers g.nonces) g.j.1 g.he (fun r => .submit r.msg r.sig)
      (A.game ctx.aggregatedPubkey pn fun _ _ _ => g.sig) State.init

end SessionForger

end Verif
