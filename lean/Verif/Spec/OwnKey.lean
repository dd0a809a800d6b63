import Verif.Spec.OneMore

/-!
# Forgers of signatures of a member's own key

A forger takes part in any number of sessions with a member of groups, as in `Spec/Adaptive`, and makes up the groups, tweaks, messages
and adaptor points. In the end it submits a signature that is not of a group, but of the key `P` of the member, or of a key `P + t·G`
with `t` of its choice, as they are derived from `P` by unhardened derivation or as taproot outputs. Used by `Props/OwnKey`.
-/

namespace Verif

open Forger (answers)
open Concurrent (Play Log Unknown secrets)
open Adaptive (Data Note Session Signed Group Drawn makeGroup Adversary)

/-- The key `P + t·G`, if it is one. -/
def Spec.offsetKey (P : Point) (t : MaybeScalar) : Option Point := notInf (P.1 + t • Verif.G)

/-- A forger, as the tree of what it does next. -/
inductive OwnForger where
  /-- Submit a forgery for the key `P + t·G`. -/
  | submit (t : MaybeScalar) (msg : Bytes) (sig : CompactSignature) (d : Data)
  /-- Ask for the hash of `x`, and go on with the answer. -/
  | ask (x : Bytes) (d : Data) (next : Arr 32 → OwnForger)
  /-- Open a session with the adaptor point `T`, and go on with the public nonce of the signer. -/
  | start (T : MaybePoint) (next : PubNonce → OwnForger)
  /-- Ask for the partial signature of a group in session `i`. -/
  | sign (i : ℕ) (keys : List Point) (tweaks : List (Scalar × Bool)) (an : AggNonce) (msg : Bytes) (d : Data)
      (next : MaybeScalar → OwnForger)

namespace OwnForger

/-- At most `q` strings are drawn, those that the signer and the verifier hash included, and at most `k` sessions are opened. Other
strings may be asked for as often as the forger likes. -/
inductive AsksAtMost : ℕ → ℕ → OwnForger → Prop where
  | submit (q k : ℕ) (t : MaybeScalar) (msg : Bytes) (sig : CompactSignature) (d : Data) : AsksAtMost (q + 1) k (.submit t msg sig d)
  | ask (q k : ℕ) (x : Bytes) (d : Data) (next : Arr 32 → OwnForger) (h : ∀ a, AsksAtMost q k (next a)) :
      AsksAtMost (q + 1) k (.ask x d next)
  | other (q k : ℕ) (x : Bytes) (d : Data) (next : Arr 32 → OwnForger) (hx : ¬ Drawn x) (h : ∀ a, AsksAtMost q k (next a)) :
      AsksAtMost q k (.ask x d next)
  | start (q k : ℕ) (T : MaybePoint) (next : PubNonce → OwnForger) (h : ∀ pn, AsksAtMost q k (next pn)) :
      AsksAtMost q (k + 1) (.start T next)
  | sign (q k i : ℕ) (keys : List Point) (tweaks : List (Scalar × Bool)) (an : AggNonce) (msg : Bytes) (d : Data)
      (next : MaybeScalar → OwnForger) (h : ∀ s, AsksAtMost q k (next s)) :
      AsksAtMost (q + keys.length + 3) k (.sign i keys tweaks an msg d next)

/-- The forger asks for at most `m` strings that are not drawn. -/
def OthersAtMost : ℕ → OwnForger → Prop
  | _, .submit _ _ _ _ => True
  | m, .ask x _ next =>
    (Drawn x → ∀ a, (next a).OthersAtMost m) ∧ (¬ Drawn x → ∃ m', m = m' + 1 ∧ ∀ a, (next a).OthersAtMost m')
  | m, .start _ next => ∀ pn, (next pn).OthersAtMost m
  | m, .sign _ _ _ _ _ _ next => ∀ s, (next s).OthersAtMost m

/-! ## The game -/

/-- What comes out of a game: the forgery and its key, the record of its challenge, and the sessions. -/
structure Outcome where
  key : Point
  msg : Bytes
  sig : CompactSignature
  note : Note
  sessions : List Session

/-- The end of the game: the hash of the challenge is asked for. -/
def finish {k : ℕ} (P : Point) (t : MaybeScalar) (msg : Bytes) (sig : CompactSignature) (d : Data) (ss : List Session) :
    Play Note k (Option Outcome) :=
  match Spec.offsetKey P t with
  | none => .done none
  | some Y => .ask (Spec.challengeQuery sig.rx.1 Y msg) ⟨{ d with key := (t, 1) }, ss.map (·.point)⟩
      fun n _ => .done (some ⟨Y, msg, sig, n, ss⟩)

/-- The game for the signer's key `P`, with public nonces `pn`. The sessions are those of `Adaptive.game`. -/
def game {k : ℕ} (H : Hash) (P : Point) (pn : ℕ → PubNonce)
    (sign : ℕ → Group → Spec.Reply → Arr 32 → Arr 32 → Play Note k MaybeScalar) :
    OwnForger → List Session → Play Note k (Option Outcome)
  | .submit t msg sig d, ss => finish P t msg sig d ss
  | .ask x d next, ss =>
    if Drawn x then .ask x ⟨d, ss.map (·.point)⟩ fun _ h => game H P pn sign (next h) ss
    else game H P pn sign (next (H x)) ss
  | .start T next, ss => game H P pn sign (next (pn ss.length)) (ss ++ [⟨T, none⟩])
  | .sign i keys tweaks an msg d next, ss =>
    match ss[i]? with
    | some ⟨T, none⟩ =>
      (makeGroup H P keys tweaks ⟨d, ss.map (·.point)⟩).bind fun
        | none => game H P pn sign (next 0) ss
        | some g =>
          let n : Note := ⟨{ d with combination := .zero, key := g.rep P }, ss.map (·.point)⟩
          .ask (Spec.noncecoefQuery an g.ctx.aggregatedPubkey msg) n fun nb hb =>
            .ask (Spec.challengeQuery (Spec.xbytes ((⟨an, T, msg⟩ : Spec.Reply).nonce hb)) g.ctx.aggregatedPubkey msg) n fun _ he =>
              (sign i g ⟨an, T, msg⟩ hb he).bind fun s =>
                game H P pn sign (next s) (ss.set i ⟨T, some ⟨g, an, msg, nb, hb, he, s⟩⟩)
    | _ => game H P pn sign (next 0) ss

/-- The game against the signer who has the secret key `sk` and uses the nonces `sn i` in session `i`. -/
def signerGame (k : ℕ) (H : Hash) (sk : Scalar) (sn : ℕ → SecNonce) (A : OwnForger) : Play Note k (Option Outcome) :=
  game H (mulG sk) (fun i => (sn i).publicNonce)
    (fun i g r hb he => .done (SessionForger.partialSignature g.hash g.ctx sk (sn i) r hb he)) A []

/-- No session was about the message, the x-only key and the x-only nonce of the forgery, `verify_single` accepts the signature, and what was recorded
about its nonce and key, about the keys of the groups of the sessions, and about their aggregated keys, was right. -/
def Wins (H : Hash) (P : Point) (pn : ℕ → PubNonce) : Option Outcome × Log Note → Prop
  | (none, _) => False
  | (some out, log) =>
    (∀ s ∈ out.sessions, ∀ r, s.signed = some r → ¬ (r.message = out.msg ∧
        Spec.xbytes r.group.ctx.aggregatedPubkey.1 = Spec.xbytes out.key.1 ∧
        Spec.xbytes ((⟨r.aggnonce, s.point, r.message⟩ : Spec.Reply).nonce r.hb) = out.sig.rx.1)) ∧
      verifySingle (log.hash H) out.key out.sig out.msg = .ok () ∧
      xonly (out.note.nonce.value P pn) = out.sig.rx ∧ xonly (out.note.keyPoint P) = xonly out.key.1 ∧
      ∀ s ∈ out.sessions, ∀ r, s.signed = some r →
        r.group.Right P ∧ xonly (r.note.keyPoint P) = xonly r.group.ctx.aggregatedPubkey.1

/-- The game against the signer is won. -/
def Forges (k : ℕ) {N : ℕ} (H : Hash) (sk : Scalar) (sn : ℕ → SecNonce) (A : OwnForger) (ω : Fin N → Arr 32) : Prop :=
  Wins H (mulG sk) (fun i => (sn i).publicNonce) ((signerGame k H sk sn A).run (secrets k sk sn) (answers ω) [])

/-! ## The group with the key of one member

The group of a key `κ·G` with a known secret key and of `P`, in this order, has the aggregated key `c·κ·G + P`, where `c` is a hash. With
the plain tweak `t - c·κ` it is `P + t·G`. -/

/-- The tweak `z`, or none if `z` is zero. -/
noncomputable def tweakBy (z : MaybeScalar) : List (Scalar × Bool) := by
  classical exact if h : z = 0 then [] else [(⟨z, h⟩, false)]

/-- A secret key whose group with `P` is not among the strings. -/
noncomputable def fresh (P : Point) (seen : List Bytes) : Scalar := by
  classical exact
    if h : ∃ κ : Scalar, mulG κ ≠ P ∧ Spec.listQuery [mulG κ, P] ∉ seen then h.choose else scalarOne

/-- Ask for the challenge, make the group whose key is `P + t·G`, and submit the forgery as one of this group. -/
noncomputable def ending (P : Point) (seen : List Bytes) (t : MaybeScalar) (msg : Bytes) (sig : CompactSignature) (d : Data) : Adversary :=
  match Spec.offsetKey P t with
  | none => .submit [] [] msg sig d
  | some Y => .ask (Spec.challengeQuery sig.rx.1 Y msg) { d with key := (t, 1) } fun _ =>
      .ask (Spec.listQuery [mulG (fresh P seen), P]) { d with reps := fun _ => ((fresh P seen).1, 0) } fun h =>
        .ask (Spec.coefString h (mulG (fresh P seen))) d fun c =>
          .submit [mulG (fresh P seen), P] (tweakBy (t - reduceFrom c * (fresh P seen).1)) msg sig d

/-- The forger as one of signatures of groups. It keeps the strings that have been asked for. -/
noncomputable def forGroup (P : Point) : OwnForger → List Bytes → Adversary
  | .submit t msg sig d, seen => ending P seen t msg sig d
  | .ask x d next, seen => .ask x d fun h => forGroup P (next h) (if Drawn x then x :: seen else seen)
  | .start T next, seen => .start T fun pn => forGroup P (next pn) seen
  | .sign i keys tweaks an msg d next, seen =>
    .sign i keys tweaks an msg d fun s => forGroup P (next s) (Spec.listQuery keys :: seen)

end OwnForger

end Verif
