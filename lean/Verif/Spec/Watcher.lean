import Verif.Spec.KeyHiding
import Verif.Spec.Outsider

/-!
# Somebody who wants to tell a group from a single signer by its key and its signatures

They may ask for hashes, choose the other members of a group with their secret keys, see the key, and then ask for hashes and have
signatures made. What they do not know is the secret key of one member, and their nonces. The hashes of key aggregation, of taproot tweaks
and of nonce coefficients are drawn while they are asked for. Used by `Props/Watcher`.
-/

namespace Verif.Watcher

open Forger (Log)
open AnyForger (coeffString)
open KeyCommit (Group Drawn listString)
open Asking (DrawnNonce)

/-- The hash is drawn. -/
def DrawnAny (x : Bytes) : Prop := Drawn x ∨ DrawnNonce x

instance : DecidablePred DrawnAny := fun _ => inferInstanceAs (Decidable (_ ∨ _))

/-- An order for a signature: the nonces of the members before and after the one that is not known, the adaptor secret, the adaptor point
if an adaptor signature is wanted that is not completed, and the message. -/
structure Order where
  before : List SecNonce
  after : List SecNonce
  t : MaybeScalar
  point : Option MaybePoint
  msg : Bytes
  /-- What the member that is not known puts into their nonce, if they make it with the library, depending on their secret key. -/
  inputs : Scalar → SecNonceBuilder

/-- The secret keys of the members before and after the one that is not known, what the taproot output commits to, and what is done with
the key that is shown. -/
structure Plan where
  before : List Scalar
  after : List Scalar
  root : Option (Arr 32)
  watch : Point → Outsider Order

/-- The secret keys of all members. -/
def Plan.keys (p : Plan) (x : Scalar) : List Scalar := p.before ++ x :: p.after

/-- The hashes of key aggregation. -/
def askAggregation (keys : List Point) : Asker Log :=
  .ask (listString keys) fun L =>
    let xs := keys.map fun P => coeffString (L, P)
    Asker.askHashes xs fun hs => .done ((listString keys, L) :: xs.zip hs)

/-- The hash function, as far as it is drawn, and the context of the group, if there is one. -/
abbrev Built := Hash × Option KeyAggContext

/-- The keys are aggregated. -/
def plain (H : Hash) (g : Group) : Asker Built :=
  (askAggregation g.keys).bind fun table => .done (table.hash H, Spec.okay (KeyAggContext.new (table.hash H) g.keys))

/-- The keys are aggregated, and the taproot tweak is applied. -/
def taproot (H : Hash) (g : Group) : Asker Built :=
  (askAggregation g.keys).bind fun table =>
    match Spec.okay (KeyAggContext.new (table.hash H) g.keys) with
    | none => .done (table.hash H, none)
    | some ctx => .ask (Spec.taptweakQuery ctx.aggregatedPubkey g.rootBytes) fun h =>
        let O := Log.hash H ((Spec.taptweakQuery ctx.aggregatedPubkey g.rootBytes, h) :: table)
        .done (O, (Spec.okay (KeyAggContext.new O g.keys)).bind fun ctx => Spec.okay (g.tweak O ctx))

/-- The session of a group with the context `ctx` and the secret keys `sks`. -/
def Order.session (ctx : KeyAggContext) (sks : List Scalar) (d : Scalar) (o : Order) : Spec.GroupOrder :=
  ⟨⟨ctx, sks, d, o.before, o.after, o.t, o.msg⟩, o.point⟩

/-- The order for a single signer with the secret key `x`. -/
def Order.signer (x : Scalar) (o : Order) : Spec.SignerOrder := ⟨x, o.point, o.msg⟩

/-- The group shows its key and signs. The one member has the secret key `x` and the nonces `w`. -/
def group (build : Group → Asker Built) (x : Scalar) (w : ℕ → Scalar × Scalar) (p : Plan) : Asker Prop :=
  (build ⟨(p.keys x).map mulG, p.root⟩).bind fun r =>
    match r.2 with
    | none => .done False
    | some ctx =>
      match Spec.okay (ctx.aggregatedSeckey (p.keys x)) with
      | none => .done False
      | some d => ((p.watch ctx.aggregatedPubkey).map (Order.session ctx (p.keys x) d)).groups r.1 w

/-- A single signer with the secret key `x` shows their key and signs, with the nonces `c`. -/
def single (H : Hash) (x : Scalar) (c : ℕ → Scalar) (p : Plan) : Asker Prop :=
  ((p.watch (mulG x)).map (Order.signer x)).signers H c

/-- The verdict on the group. The secret key and the nonces of the one member are drawn. -/
def OnGroup {α : Type} (D : Bytes → Prop) [DecidablePred D] (H : Hash) (build : Group → Asker Built) (A : Asker α) (plan : α → Plan) {k m : ℕ}
    (w : (Scalar × (Fin k → Scalar × Scalar)) × (Fin m → Arr 32)) : Prop :=
  ((A.bind fun a => group build w.1.1 (Outsider.extend (scalarOne, scalarOne) w.1.2) (plan a)).run D H (Asker.draws w.2) []).1

/-- The verdict on the single signer. -/
def OnSingle (D : Bytes → Prop) [DecidablePred D] (H : Hash) (A : Asker Plan) {k m : ℕ} (w : (Scalar × (Fin k → Scalar)) × (Fin m → Arr 32)) : Prop :=
  ((A.bind (single H w.1.1 (Outsider.extend scalarOne w.1.2))).run D H (Asker.draws w.2) []).1

/-- There are at most `N` other members; whatever key is shown, at most `q` hashes are asked for that are drawn and at most `k` signatures,
and all other members have nonces. -/
def Plan.Within (D : Bytes → Prop) [DecidablePred D] (N q k : ℕ) (p : Plan) : Prop :=
  p.before.length + p.after.length ≤ N ∧
  ∀ Q, (p.watch Q).Within D (fun o => o.before.length = p.before.length ∧ o.after.length = p.after.length) q k

end Verif.Watcher
