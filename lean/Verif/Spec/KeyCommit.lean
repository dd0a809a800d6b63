import Verif.Spec.Asker
import Verif.Spec.AnyGroup

/-!
# Somebody who looks for two groups with the same key

The hash function is given, but for the strings that begin with the tags of key aggregation or the tag of taproot tweaks: their hashes
are drawn while they are asked for. Used by `Props/KeyCommit`.
-/

namespace Verif.KeyCommit

open Forger (Log)
open AnyForger (coeffString)

/-- The hash is drawn. -/
def Drawn (x : Bytes) : Prop :=
  Spec.taggedInput "KeyAgg list" [] <+: x ∨ Spec.taggedInput "KeyAgg coefficient" [] <+: x ∨ Spec.taggedInput "TapTweak" [] <+: x

instance : DecidablePred Drawn := fun x => inferInstanceAs (Decidable (_ <+: x ∨ _ <+: x ∨ _ <+: x))

/-- The keys of a group, in their order, and what its taproot output commits to: a merkle root, or nothing. -/
structure Group where
  keys : List Point
  root : Option (Arr 32)

/-- The bytes of the root. -/
def Group.rootBytes (g : Group) : Bytes :=
  match g.root with
  | none => []
  | some r => r.1

/-- The aggregated key. -/
def Group.key (H : Hash) (g : Group) : Option Point :=
  match KeyAggContext.new H g.keys with
  | .ok ctx => some ctx.aggregatedPubkey
  | _ => none

/-- The taproot tweak of the group. -/
def Group.tweak (H : Hash) (g : Group) (ctx : KeyAggContext) : Res TweakError KeyAggContext :=
  match g.root with
  | none => ctx.withUnspendableTaprootTweak H
  | some r => ctx.withTaprootTweak H r

/-- The aggregated key after the taproot tweak. -/
def Group.output (H : Hash) (g : Group) : Option Point :=
  match KeyAggContext.new H g.keys with
  | .ok ctx =>
    match g.tweak H ctx with
    | .ok ctx' => some ctx'.aggregatedPubkey
    | _ => none
  | _ => none

/-- What is hashed to the hash of a key list. -/
def listString (keys : List Point) : Bytes := Spec.taggedInput "KeyAgg list" (keys.map fun K => Spec.cbytes K.1).flatten

/-- What is hashed for two groups, tag by tag. -/
def check (H : Hash) (g : Group × Group) : Asker (Group × Group) :=
  .ask (listString g.1.keys) fun L => .ask (listString g.2.keys) fun L' =>
    let xs := g.1.keys.map (fun P => coeffString (L, P)) ++ g.2.keys.map (fun P => coeffString (L', P))
    Asker.askHashes xs fun hs =>
      let O := Log.hash H ((listString g.1.keys, L) :: (listString g.2.keys, L') :: xs.zip hs)
      Asker.askHashes [Spec.taptweakQuery ((g.1.key O).getD Gpt) g.1.rootBytes, Spec.taptweakQuery ((g.2.key O).getD Gpt) g.2.rootBytes]
        fun _ => .done g

/-- Two different key lists have the same aggregated key, or two different groups have the same taproot output. Keys are compared by
their x coordinates. -/
def Clash (H : Hash) (g g' : Group) : Prop :=
  (g.keys ≠ g'.keys ∧ ∃ Q Q', g.key H = some Q ∧ g'.key H = some Q' ∧ Spec.xbytes Q.1 = Spec.xbytes Q'.1) ∨
  (g ≠ g' ∧ ∃ Q Q', g.output H = some Q ∧ g'.output H = some Q' ∧ Spec.xbytes Q.1 = Spec.xbytes Q'.1)

/-- The groups that are submitted clash. -/
def Finds {m : ℕ} (H : Hash) (A : Asker (Group × Group)) (ω : Fin m → Arr 32) : Prop :=
  let out := (A.bind (check H)).run Drawn H (Asker.draws ω) []
  Clash (out.2.hash H) out.1.1 out.1.2

end Verif.KeyCommit
