import Verif.Spec.NonceUser

/-!
# Forgers that choose what goes into the nonces

As in `Spec/Adaptive`, a forger takes part in any number of sessions at once and makes up the groups during the game. Here it also chooses,
whenever it opens a session, how the signer sets up the builder of the nonce. The hashes of `SecNonceBuilder::build` are drawn like the
others, and the forger may ask for them. Used by `Props/Opener`.
-/

namespace Verif

open Concurrent (Play Log)
open Adaptive

/-- A forger, as the tree of what it does next. -/
inductive Opener where
  /-- Submit a forgery for the key of a group. -/
  | submit (keys : List Point) (tweaks : List (Scalar × Bool)) (msg : Bytes) (sig : CompactSignature) (d : Data)
  /-- Ask for the hash of `x`, and go on with the answer. -/
  | ask (x : Bytes) (d : Data) (next : Arr 32 → Opener)
  /-- Open a session with the adaptor point `T`, and go on with the public nonce of the signer. The signer who has the secret key `sk`
  makes the nonce with the builder `b sk`, with a seed of their own. -/
  | start (T : MaybePoint) (b : Scalar → SecNonceBuilder) (next : PubNonce → Opener)
  /-- Ask for the partial signature of a group in session `i`. -/
  | sign (i : ℕ) (keys : List Point) (tweaks : List (Scalar × Bool)) (an : AggNonce) (msg : Bytes) (d : Data)
      (next : MaybeScalar → Opener)

namespace Opener

/-- The string begins with a tag of challenges, nonce coefficients, key aggregation or of `SecNonceBuilder::build`. -/
def Drawn (x : Bytes) : Prop := Adaptive.Drawn x ∨ NonceUser.DrawnSeed x

instance : DecidablePred Drawn := fun _ => inferInstanceAs (Decidable (_ ∨ _))

/-- At most `q` strings are drawn, those that the verifier hashes and those that the signer hashes for partial signatures included, and at
most `k` sessions are opened. Other strings may be asked for as often as the forger likes. In each session it receives only one partial
signature. -/
inductive AsksAtMost : ℕ → ℕ → Opener → Prop where
  | submit (q k : ℕ) (keys : List Point) (tweaks : List (Scalar × Bool)) (msg : Bytes) (sig : CompactSignature) (d : Data) :
      AsksAtMost (q + keys.length + 2) k (.submit keys tweaks msg sig d)
  | ask (q k : ℕ) (x : Bytes) (d : Data) (next : Arr 32 → Opener) (h : ∀ a, AsksAtMost q k (next a)) :
      AsksAtMost (q + 1) k (.ask x d next)
  | other (q k : ℕ) (x : Bytes) (d : Data) (next : Arr 32 → Opener) (hx : ¬ Drawn x) (h : ∀ a, AsksAtMost q k (next a)) :
      AsksAtMost q k (.ask x d next)
  | start (q k : ℕ) (T : MaybePoint) (b : Scalar → SecNonceBuilder) (next : PubNonce → Opener) (h : ∀ pn, AsksAtMost q k (next pn)) :
      AsksAtMost q (k + 1) (.start T b next)
  | sign (q k i : ℕ) (keys : List Point) (tweaks : List (Scalar × Bool)) (an : AggNonce) (msg : Bytes) (d : Data)
      (next : MaybeScalar → Opener) (h : ∀ s, AsksAtMost q k (next s)) :
      AsksAtMost (q + keys.length + 3) k (.sign i keys tweaks an msg d next)

/-! ## The game -/

/-- The log after the hash `h` of `x` has been received. -/
def record (log : Log Note) (x : Bytes) (n : Note) (h : Arr 32) : Log Note :=
  match log.find x with
  | some _ => log
  | none => log ++ [(x, n, h)]

/-- Ask for the hashes that `p` asks for. It does not ask for discrete logarithms. -/
def hashes {k : ℕ} {α : Type} : Play Note k α → Log Note → (α → Log Note → NonceUser) → NonceUser
  | .done a, log, f => f a log
  | .ask x n next, log, f => .ask x fun h => match log.find x with
    | some e => hashes (next e.1 h) log f
    | none => hashes (next n h) (log ++ [(x, n, h)]) f
  | .dlog _ next, log, f => hashes (next 0) log f

/-- The nonce of session `i`. -/
def nonceOf (sns : List SecNonce) (i : ℕ) : SecNonce := sns.getD i ⟨scalarOne, scalarOne⟩

/-- The hashes of a submission. -/
def submission {k : ℕ} (H : Hash) (P : Point) (keys : List Point) (tweaks : List (Scalar × Bool)) (msg : Bytes) (sig : CompactSignature)
    (d : Data) (ss : List Session) : Play Note k (Option Outcome) :=
  (makeGroup H P keys tweaks ⟨d, ss.map (·.point)⟩).bind fun
    | none => .done none
    | some g => .ask (Spec.challengeQuery sig.rx.1 g.ctx.aggregatedPubkey msg) ⟨{ d with key := g.rep P }, ss.map (·.point)⟩
        fun n he => .done (some ⟨g, msg, sig, n, he, ss⟩)

/-- The hashes of a partial signature, in a session with the adaptor point `T` and the nonce `sn`. -/
def signature {k : ℕ} (H : Hash) (sk : Scalar) (sn : SecNonce) (keys : List Point) (tweaks : List (Scalar × Bool)) (r : Spec.Reply)
    (d : Data) (ss : List Session) : Play Note k (Option Signed) :=
  (makeGroup H (mulG sk) keys tweaks ⟨d, ss.map (·.point)⟩).bind fun
    | none => .done none
    | some g =>
      let n : Note := ⟨{ d with combination := .zero, key := g.rep (mulG sk) }, ss.map (·.point)⟩
      .ask (Spec.noncecoefQuery r.aggnonce g.ctx.aggregatedPubkey r.message) n fun nb hb =>
        .ask (Spec.challengeQuery (Spec.xbytes (r.nonce hb)) g.ctx.aggregatedPubkey r.message) n fun _ he =>
          .done (some ⟨g, r.aggnonce, r.message, nb, hb, he, SessionForger.partialSignature g.hash g.ctx sk sn r hb he⟩)

/-- The game against the signer who has the secret key `sk`, after the sessions `ss` with the nonces `sns` have been opened, and `log` has
been recorded. The verdict is that of `V` on the public nonces of the
sessions, what was submitted, and what has been recorded. -/
def play (V : (ℕ → PubNonce) → Option Outcome × Log Note → Prop) (k : ℕ) (H : Hash) (sk : Scalar) : 
    Opener → List Session → List SecNonce → Log Note → NonceUser
  | .submit keys tweaks msg sig d, ss, sns, log =>
    hashes (submission (k := k) H (mulG sk) keys tweaks msg sig d ss) log fun out log =>
      .done (V (fun i => (nonceOf sns i).publicNonce) (out, log))
  | .ask x d next, ss, sns, log => .ask x fun h =>
    play V k H sk (next h) ss sns (if Drawn x then record log x ⟨d, ss.map (·.point)⟩ h else log)
  | .start T b next, ss, sns, log => .nonce (b sk) fun sn => play V k H sk (next sn.publicNonce) (ss ++ [⟨T, none⟩]) (sns ++ [sn]) log
  | .sign i keys tweaks an msg d next, ss, sns, log =>
    match ss[i]? with
    | some ⟨T, none⟩ =>
      hashes (signature (k := k) H sk (nonceOf sns i) keys tweaks ⟨an, T, msg⟩ d ss) log fun
        | none, log => play V k H sk (next 0) ss sns log
        | some r, log => play V k H sk (next r.sig) (ss.set i ⟨T, some r⟩) sns log
    | _ => play V k H sk (next 0) ss sns log

/-- The game, where the verdict is whether the forger wins. -/
abbrev game (k : ℕ) (H : Hash) (sk : Scalar) : Opener → List Session → List SecNonce → Log Note → NonceUser :=
  play (Wins H (mulG sk)) k H sk

/-- The forger wins against the nonces of the library, when the secret key, the seeds and the hashes are drawn. It is given the public key. -/
def Forges {k m : ℕ} (H : Hash) (A : Point → Opener) (p : Scalar × (Fin k → Arr 32) × (Fin m → Arr 32)) : Prop :=
  (game k H p.1 (A (mulG p.1)) [] [] []).OnLibrary Drawn H p.2

/-! ## The game against the code -/

/-- A session with the code: its adaptor point, and the context, the message and the nonce that it was about. -/
abbrev CodeSession : Type := MaybePoint × Option (KeyAggContext × Bytes × MaybePoint)

/-- The same game against the code with the hash function `O`, where what the forger says about keys and nonces does not matter. The seeds
of the signer are `s 0`, `s 1`, …. The verdict is whether `verify_single` accepts a signature for a group with the signer's key, and no session
was about the message, the x-only key and the x-only nonce. -/
def AcceptedByCode (O : Hash) (sk : Scalar) : Opener → (ℕ → Arr 32) → List CodeSession → List SecNonce → Prop
  | .submit keys tweaks msg sig _, _, ss, _ => mulG sk ∈ keys ∧ ∃ ctx, makeContext O keys tweaks = some ctx ∧
      (∀ e ∈ ss, ∀ c m R, e.2 = some (c, m, R) →
        ¬ (m = msg ∧ Spec.xbytes c.aggregatedPubkey.1 = Spec.xbytes ctx.aggregatedPubkey.1 ∧ Spec.xbytes R = sig.rx.1)) ∧
      verifySingle O ctx.aggregatedPubkey sig msg = .ok ()
  | .ask x _ next, s, ss, sns => AcceptedByCode O sk (next (O x)) s ss sns
  | .start T b next, s, ss, sns =>
    let sn := (Spec.seeded (b sk) (s 0)).build O
    AcceptedByCode O sk (next sn.publicNonce) (fun i => s (i + 1)) (ss ++ [(T, none)]) (sns ++ [sn])
  | .sign i keys tweaks an msg _ next, s, ss, sns =>
    match ss[i]? with
    | some (T, none) =>
      match makeContext O keys tweaks with
      | some ctx => match signPartialAdaptor O ctx sk (nonceOf sns i) an T msg with
        | .ok sig => AcceptedByCode O sk (next sig) s (ss.set i (T, some (ctx, msg, Spec.sessionNonce O ctx.aggregatedPubkey ⟨an, T, msg⟩))) sns
        | _ => AcceptedByCode O sk (next 0) s ss sns
      | none => AcceptedByCode O sk (next 0) s ss sns
    | _ => AcceptedByCode O sk (next 0) s ss sns

/-- The hash function after the game, with all that has been drawn. -/
def drawnHash {k m : ℕ} (H : Hash) (A : Opener) (p : Scalar × (Fin k → Arr 32) × (Fin m → Arr 32)) : Hash :=
  (((game k H p.1 A [] [] []).library H (Outsider.extend zeroSeed p.2.1)).run Drawn H (Asker.draws p.2.2) []).2.hash H

/-- The part of `Wins` that is about sessions and the signature: no session was about the message, the x-only key and the
x-only nonce, and `verify_single` accepts the signature. -/
def Accepted (H : Hash) (r : Option Outcome × Log Note) : Prop := ∃ o, r.1 = some o ∧
  (∀ s ∈ o.sessions, ∀ r, s.signed = some r → ¬ (r.message = o.msg ∧
    Spec.xbytes r.group.ctx.aggregatedPubkey.1 = Spec.xbytes o.group.ctx.aggregatedPubkey.1 ∧
    Spec.xbytes ((⟨r.aggnonce, s.point, r.message⟩ : Spec.Reply).nonce r.hb) = o.sig.rx.1)) ∧
  verifySingle (r.2.hash H) o.group.ctx.aggregatedPubkey o.sig o.msg = .ok ()

/-! ## The forger against random nonces -/

/-- Strings that the forger of `Spec/Adaptive` asks for under another name. -/
def Renamed (x : Bytes) : Prop := NonceUser.DrawnSeed x ∨ Spec.taggedInput "KeyAgg list" [0] <+: x

instance : DecidablePred Renamed := fun _ => inferInstanceAs (Decidable (_ ∨ _))

/-- The name of a string: hashes of `SecNonceBuilder::build` become hashes of lists of keys, which begin with a zero, unlike real ones. -/
def rename (x : Bytes) : Bytes := if Renamed x then Spec.taggedInput "KeyAgg list" (0 :: x) else x

/-- The forger of `Spec/Adaptive` that plays against random nonces. For the hashes of `SecNonceBuilder::build` it asks for other hashes that
are drawn, and what goes into the nonces is forgotten. -/
def plain : Opener → Adversary
  | .submit keys tweaks msg sig d => .submit keys tweaks msg sig d
  | .ask x d next => .ask (rename x) d fun h => plain (next h)
  | .start T _ next => .start T fun pn => plain (next pn)
  | .sign i keys tweaks an msg d next => .sign i keys tweaks an msg d fun s => plain (next s)

end Opener

end Verif
