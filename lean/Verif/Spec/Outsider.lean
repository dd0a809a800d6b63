import Verif.Spec.ManySigs
import Verif.Spec.Asker
import Verif.Spec.SessionForger

/-!
# Somebody who asks for signatures and wants to know whether a group makes them

They may ask for hashes and, at any time, choose a group with all its keys, the message, the adaptor secret or the adaptor point and the
nonces of all members but one, and get the signature, or the adaptor signature. The hashes of nonce coefficients are drawn while they are
asked for. Used by `Props/Outsider`.
-/

namespace Verif

open Asking (DrawnNonce)

/-- The value of a call that succeeds. -/
def Spec.okay {ε α : Type} : Res ε α → Option α
  | .ok a => some a
  | _ => none

namespace Spec.GroupSession

/-- The nonces of all members, if the one member has `p`. -/
def nonces (s : Spec.GroupSession) (p : Scalar × Scalar) : List SecNonce := s.before ++ ⟨p.1, p.2⟩ :: s.after

/-- The sum of the public nonces. -/
def aggNonce (s : Spec.GroupSession) (p : Scalar × Scalar) : AggNonce := AggNonce.sum ((s.nonces p).map SecNonce.publicNonce)

/-- What is hashed for the nonce coefficient of the session. -/
def query (s : Spec.GroupSession) (p : Scalar × Scalar) : Bytes := Spec.noncecoefQuery (s.aggNonce p) s.ctx.aggregatedPubkey s.msg

/-- The signature of the group: everybody makes a partial adaptor signature; these are aggregated and completed. -/
def signature (s : Spec.GroupSession) (H : Hash) (p : Scalar × Scalar) : Option Bytes := do
  let sigs ← (s.sks.zip (s.nonces p)).mapM fun m =>
    Spec.okay (signPartialAdaptor H s.ctx m.1 m.2 (s.aggNonce p) (s.t • Spec.G) s.msg)
  let asig ← Spec.okay (aggregatePartialAdaptorSignatures H s.ctx (s.aggNonce p) (s.t • Spec.G) sigs s.msg)
  let sig ← asig.adapt s.t
  some sig.toBytes

/-- The adaptor signature of the group for the adaptor point `T`, which is not completed. -/
def adaptorSignature (s : Spec.GroupSession) (H : Hash) (p : Scalar × Scalar) (T : MaybePoint) : Option Bytes := do
  let sigs ← (s.sks.zip (s.nonces p)).mapM fun m => Spec.okay (signPartialAdaptor H s.ctx m.1 m.2 (s.aggNonce p) T s.msg)
  let asig ← Spec.okay (aggregatePartialAdaptorSignatures H s.ctx (s.aggNonce p) T sigs s.msg)
  some asig.toBytes

end Spec.GroupSession

/-- An order for the signature of a session, or, if there is an adaptor point, for an adaptor signature. -/
structure Spec.GroupOrder extends Spec.GroupSession where
  point : Option MaybePoint

/-- An order for a signature, or an adaptor signature, of a single signer with the secret key `d`. -/
structure Spec.SignerOrder where
  d : Scalar
  point : Option MaybePoint
  msg : Bytes

/-- The adaptor signature that is made with the secret key `d` and the secret nonce `k`. -/
def Spec.adaptorWith (H : Hash) (d k : Scalar) (T : MaybePoint) (msg : Bytes) : Bytes :=
  Spec.cbytes_ext (k.1 • Spec.G) ++ Spec.bytes_from_int
    (Spec.sgn (k.1 • Spec.G + T) * k.1 + Spec.challenge H (k.1 • Spec.G + T) (d.1 • Spec.G) msg * (Spec.sgn (d.1 • Spec.G) * d.1)).val

/-- What a single signer makes with the nonce `k`. -/
def Spec.SignerOrder.sign (H : Hash) (o : Spec.SignerOrder) (k : Scalar) : Bytes :=
  match o.point with
  | none => Spec.signWith H o.d k o.msg
  | some T => Spec.adaptorWith H o.d k T o.msg

namespace Spec.GroupOrder

/-- The session is in order. -/
def Fits (H : Hash) (s : Spec.GroupOrder) : Prop := s.toGroupSession.Fits H

/-- What the group makes. -/
def output (s : Spec.GroupOrder) (H : Hash) (p : Scalar × Scalar) : Option Bytes :=
  match s.point with
  | none => s.signature H p
  | some T => s.adaptorSignature H p T

/-- The same order for a single signer who has the aggregated secret key. -/
def signer (s : Spec.GroupOrder) : Spec.SignerOrder := ⟨s.d, s.point, s.msg⟩

end Spec.GroupOrder

/-- Somebody who asks for hashes and signatures and in the end has a verdict. An order for a signature is of type `σ`. -/
inductive Outsider (σ : Type) where
  | done (verdict : Prop)
  | ask (x : Bytes) (next : Arr 32 → Outsider σ)
  | sign (s : σ) (next : Bytes → Outsider σ)

namespace Outsider

/-- Each order is replaced by another one. -/
def map {σ τ : Type} (f : σ → τ) : Outsider σ → Outsider τ
  | .done v => .done v
  | .ask x next => .ask x fun a => map f (next a)
  | .sign s next => .sign (f s) fun sig => map f (next sig)

/-- The groups sign, with the nonces `w 0`, `w 1`, … of the one member. If a group fails, the verdict is no. -/
def groups (H : Hash) : Outsider Spec.GroupOrder → (ℕ → Scalar × Scalar) → Asker Prop
  | .done v, _ => .done v
  | .ask x next, w => .ask x fun a => groups H (next a) w
  | .sign s next, w => .ask (s.query (w 0)) fun b =>
    match s.output (H.answering (s.query (w 0)) b) (w 0) with
    | some sig => groups H (next sig) fun i => w (i + 1)
    | none => .done False

/-- Single signers sign, with the nonces `c 0`, `c 1`, …. -/
def signers (H : Hash) : Outsider Spec.SignerOrder → (ℕ → Scalar) → Asker Prop
  | .done v, _ => .done v
  | .ask x next, c => .ask x fun a => signers H (next a) c
  | .sign s next, c => signers H (next (s.sign H (c 0))) fun i => c (i + 1)

/-- At most `q` hashes are asked for that are drawn and at most `k` signatures, and the orders are in order. -/
def Within {σ : Type} (D : Bytes → Prop) [DecidablePred D] (fits : σ → Prop) : ℕ → ℕ → Outsider σ → Prop
  | _, _, .done _ => True
  | q, k, .ask x next =>
    if D x then ∃ q', q = q' + 1 ∧ ∀ a, Within D fits q' k (next a) else ∀ a, Within D fits q k (next a)
  | q, k, .sign s next => fits s ∧ ∃ k', k = k' + 1 ∧ ∀ sig, Within D fits q k' (next sig)

/-- A finite sequence, continued somehow. -/
def extend {α : Type} (a : α) {k : ℕ} (w : Fin k → α) (i : ℕ) : α := if h : i < k then w ⟨i, h⟩ else a

/-- The verdict on groups, when the nonces are drawn as well as the hashes. -/
def OnGroups (H : Hash) (A : Outsider Spec.GroupOrder) {k m : ℕ} (w : (Fin k → Scalar × Scalar) × (Fin m → Arr 32)) : Prop :=
  ((A.groups H (extend (scalarOne, scalarOne) w.1)).run DrawnNonce H (Asker.draws w.2) []).1

/-- The verdict on single signers: for each group one signer signs who has the aggregated secret key. -/
def OnSigners (H : Hash) (A : Outsider Spec.GroupOrder) {k m : ℕ} (w : (Fin k → Scalar) × (Fin m → Arr 32)) : Prop :=
  (((A.map Spec.GroupOrder.signer).signers H (extend scalarOne w.1)).run DrawnNonce H (Asker.draws w.2) []).1

end Outsider

end Verif
