import Verif.Spec.KeyCommit

/-!
# Somebody who wants to tell an aggregated key from the key of a single signer

They may ask for hashes, choose the other members of the group, see the key, and ask for more hashes. What they do not know is the key of
one of the members. The hashes of key aggregation and of taproot tweaks are drawn while they are asked for. Used by `Props/KeyHiding`.
-/

namespace Verif.KeyHiding

open Forger (Log)
open AnyForger (coeffString)
open KeyCommit (Group Drawn listString)

/-- The members before and after the one whose key is not known, what the taproot output commits to, and what is done with the key that is
shown; in the end there is a verdict. -/
structure Test where
  before : List Point
  after : List Point
  root : Option (Arr 32)
  judge : Point → Asker Prop

/-- The members. -/
def Test.keys (t : Test) (X : Point) : List Point := t.before ++ X :: t.after

/-- The judge, if there is a key at all. -/
def Test.see (t : Test) : Option Point → Asker Prop
  | some Q => t.judge Q
  | none => .done False

/-- The key that is shown is the aggregated key of the group whose unknown member has the key `X`. -/
def group (H : Hash) (X : Point) (t : Test) : Asker Prop :=
  .ask (listString (t.keys X)) fun L =>
    let xs := (t.keys X).map fun P => coeffString (L, P)
    Asker.askHashes xs fun hs =>
      let O := Log.hash H ((listString (t.keys X), L) :: xs.zip hs)
      t.see (Group.key O ⟨t.keys X, t.root⟩)

/-- The key that is shown is the taproot output of the group. -/
def output (H : Hash) (X : Point) (t : Test) : Asker Prop :=
  .ask (listString (t.keys X)) fun L =>
    let xs := (t.keys X).map fun P => coeffString (L, P)
    Asker.askHashes xs fun hs =>
      let table := (listString (t.keys X), L) :: xs.zip hs
      let g : Group := ⟨t.keys X, t.root⟩
      match Group.key (Log.hash H table) g with
      | none => .done False
      | some Q => .ask (Spec.taptweakQuery Q g.rootBytes) fun h =>
          t.see (Group.output (Log.hash H ((Spec.taptweakQuery Q g.rootBytes, h) :: table)) g)

/-- The key that is shown is `X`. -/
def single (X : Point) (t : Test) : Asker Prop := t.judge X

/-- The verdict, when the secret key of the unknown member, or of the single signer, is drawn as well as the hashes. -/
def Verdict {α : Type} {m : ℕ} (H : Hash) (A : Asker α) (game : Point → α → Asker Prop) (w : Scalar × (Fin m → Arr 32)) : Prop :=
  ((A.bind (game (mulG w.1))).run Drawn H (Asker.draws w.2) []).1

/-- There are at most `N` other members, and the judge asks for at most `q` hashes that are drawn. -/
def Test.Within (N q : ℕ) (t : Test) (D : Bytes → Prop := Drawn) [DecidablePred D] : Prop :=
  t.before.length + t.after.length ≤ N ∧ ∀ Q, (t.judge Q).AsksAtMost D (fun _ => True) q

end Verif.KeyHiding
