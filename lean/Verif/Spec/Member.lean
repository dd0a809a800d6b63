import Verif.Spec.Watcher
import Verif.Spec.NonceUser

/-!
# The games of `Spec/Outsider` and `Spec/Watcher`, if the one member makes their nonces with the library

The hashes that make nonces are drawn as well. Used by `Props/Member`.
-/

namespace Verif

open Asking (DrawnNonce)
open NonceUser (DrawnSeed)

namespace Outsider

/-- The hash is drawn. -/
def DrawnSigning (x : Bytes) : Prop := DrawnNonce x ∨ DrawnSeed x

instance : DecidablePred DrawnSigning := fun _ => inferInstanceAs (Decidable (_ ∨ _))

/-- The groups sign; the one member makes a nonce for each session. If a group fails, the verdict is no. -/
def member (H : Hash) : Outsider (SecNonceBuilder × Spec.GroupOrder) → NonceUser
  | .done v => .done v
  | .ask x next => .ask x fun a => member H (next a)
  | .sign s next => .nonce s.1 fun sn => .ask (s.2.query (sn.k1, sn.k2)) fun b =>
    match s.2.output (H.answering (s.2.query (sn.k1, sn.k2)) b) (sn.k1, sn.k2) with
    | some sig => member H (next sig)
    | none => .done False

/-- The verdict on single signers: for each group one signer signs who has the aggregated secret key. -/
def OnLoneSigners (H : Hash) (A : Outsider (SecNonceBuilder × Spec.GroupOrder)) {k m : ℕ} (w : (Fin k → Scalar) × (Fin m → Arr 32)) : Prop :=
  (((A.map fun s => s.2.signer).signers H (extend scalarOne w.1)).run DrawnSigning H (Asker.draws w.2) []).1

end Outsider

namespace Watcher

open KeyCommit (Group)

/-- The hash is drawn. -/
def DrawnAll (x : Bytes) : Prop := DrawnAny x ∨ DrawnSeed x

instance : DecidablePred DrawnAll := fun _ => inferInstanceAs (Decidable (_ ∨ _))

/-- The group shows its key and signs. The one member has the secret key `x` and makes their nonces with the seeds `s`. -/
def member (build : Group → Asker Built) (x : Scalar) (s : ℕ → Arr 32) (p : Plan) : Asker Prop :=
  (build ⟨(p.keys x).map mulG, p.root⟩).bind fun r =>
    match r.2 with
    | none => .done False
    | some ctx =>
      match Spec.okay (ctx.aggregatedSeckey (p.keys x)) with
      | none => .done False
      | some d => (Outsider.member r.1 ((p.watch ctx.aggregatedPubkey).map fun o => (o.inputs x, o.session ctx (p.keys x) d))).library r.1 s

/-- The verdict on the group. The secret key and the seeds of the one member are drawn. -/
def OnMember {α : Type} (D : Bytes → Prop) [DecidablePred D] (H : Hash) (build : Group → Asker Built) (A : Asker α) (plan : α → Plan) {k m : ℕ}
    (w : (Scalar × (Fin k → Arr 32)) × (Fin m → Arr 32)) : Prop :=
  ((A.bind fun a => member build w.1.1 (Outsider.extend zeroSeed w.1.2) (plan a)).run D H (Asker.draws w.2) []).1

end Watcher

end Verif
