import Verif.Spec.GroupForger

/-!
# Forgers that choose the group and its tweaks, in the random oracle model

As in `Spec/GroupForger`, but the victim may be at any place of the group, and the forger may tweak the group. All key
aggregation coefficients are drawn at random, by a table that tells for the hash of a key list and for a key what the
coefficient is; challenges are drawn while the forger asks; the other hashes are those of a given function. Used by
`Props/AnyGroup`.
-/

namespace Verif

/-- A forger, as the tree of what it does next. -/
inductive AnyForger where
  /-- Submit a group, with tweaks as for `with_tweaks`, and a forgery. -/
  | submit (keys : List Point) (tweaks : List (Scalar × Bool)) (msg : Bytes) (sig : CompactSignature)
  /-- Ask for the hash of `x`, and go on with the answer. -/
  | ask (x : Bytes) (next : Arr 32 → AnyForger)

namespace AnyForger

open Forger (Log Drawn)

/-- The coefficient, before the reduction, of a key in a group with the given hash of the key list. -/
abbrev Table := Arr 32 × Point → Arr 32

/-- The hash of the list of the keys of a group. -/
def listHash (H : Hash) (keys : List Point) : Arr 32 :=
  H (Spec.taggedInput "KeyAgg list" (keys.map fun K => Spec.cbytes K.1).flatten)

/-- The string whose hash is the coefficient of a key. -/
def coeffString (c : Arr 32 × Point) : Bytes := Spec.taggedInput "KeyAgg coefficient" (c.1.1 ++ Spec.cbytes c.2.1)

/-- The string is that of a coefficient. -/
def IsCoeff (x : Bytes) : Prop := ∃ c, x = coeffString c

/-- The forger asks for at most `q` challenges and for at most `r` coefficients, for other hashes as often as it likes,
and the group has at most `N` members. -/
inductive AsksAtMost (N : ℕ) : ℕ → ℕ → AnyForger → Prop where
  | submit (q r : ℕ) (keys : List Point) (tweaks : List (Scalar × Bool)) (msg : Bytes) (sig : CompactSignature)
      (h : keys.length ≤ N) : AsksAtMost N q r (.submit keys tweaks msg sig)
  | challenge (q r : ℕ) (x : Bytes) (next : Arr 32 → AnyForger) (hd : Drawn x) (h : ∀ a, AsksAtMost N q r (next a)) :
      AsksAtMost N (q + 1) r (.ask x next)
  | coefficient (q r : ℕ) (x : Bytes) (next : Arr 32 → AnyForger) (hx : IsCoeff x) (h : ∀ a, AsksAtMost N q r (next a)) :
      AsksAtMost N q (r + 1) (.ask x next)
  | other (q r : ℕ) (x : Bytes) (next : Arr 32 → AnyForger) (hd : ¬ Drawn x) (hx : ¬ IsCoeff x)
      (h : ∀ a, AsksAtMost N q r (next a)) : AsksAtMost N q r (.ask x next)

open Classical in
/-- The hash function of a table and a log; it is `H` where nothing has been drawn. -/
noncomputable def hashOf (H : Hash) (a : Table) (log : Log) : Hash := fun x =>
  if h : IsCoeff x then a h.choose else log.hash H x

/-- The group with its tweaks. -/
def group (H : Hash) (keys : List Point) (tweaks : List (Scalar × Bool)) : Option KeyAggContext :=
  match KeyAggContext.new H keys with
  | .ok ctx =>
    match ctx.withTweaks tweaks with
    | .ok ctx' => some ctx'
    | _ => none
  | _ => none

/-- The key of the group. (`G` if there is none; such forgeries are not accepted.) -/
def groupKey (H : Hash) (keys : List Point) (tweaks : List (Scalar × Bool)) : Point :=
  match group H keys tweaks with
  | some ctx => ctx.aggregatedPubkey
  | none => Gpt

/-- The outcome of a run. -/
structure Outcome where
  keys : List Point
  tweaks : List (Scalar × Bool)
  msg : Bytes
  sig : CompactSignature
  log : Log

open Classical in
/-- A run with the table `a` and the challenges `ω`, starting from a log. In the end the challenge of the forgery is
asked, as the verifier does. -/
noncomputable def run (H : Hash) (a : Table) (ω : ℕ → Arr 32) : AnyForger → Log → Outcome
  | .submit keys tweaks msg sig, log =>
    ⟨keys, tweaks, msg, sig, log.add ω (Spec.challengeQuery sig.rx.1 (groupKey (hashOf H a log) keys tweaks) msg)⟩
  | .ask x next, log =>
    if h : IsCoeff x then run H a ω (next (a h.choose)) log
    else if Drawn x then run H a ω (next (log.answer ω x)) (log.add ω x)
    else run H a ω (next (H x)) log

/-- The run with the table `a` and the challenges `ω` ends with a group that contains `P`, and with a signature that
`verify_single` accepts for its aggregated key, tweaked as the forger says. -/
def Forges {q : ℕ} (H : Hash) (P : Point) (A : AnyForger) (a : Table) (ω : Fin q → Arr 32) : Prop :=
  let out := A.run H a (Forger.answers ω) []
  P ∈ out.keys ∧ ∃ ctx ctx', KeyAggContext.new (hashOf H a out.log) out.keys = .ok ctx ∧
    ctx.withTweaks out.tweaks = .ok ctx' ∧ verifySingle (hashOf H a out.log) ctx'.aggregatedPubkey out.sig out.msg = .ok ()

/-- When in the run the challenge was asked. -/
noncomputable def challengeIndex (H : Hash) (a : Table) (out : Outcome) : ℕ :=
  out.log.findIdx fun e =>
    e.1 = Spec.challengeQuery out.sig.rx.1 (groupKey (hashOf H a out.log) out.keys out.tweaks) out.msg

/-- The secret key of the group with its tweaks, computed from two runs with the same table. -/
noncomputable def groupSecret {q : ℕ} (H : Hash) (A : AnyForger) (a : Table) (ω ω' : Fin q → Arr 32) : MaybeScalar :=
  let out := A.run H a (Forger.answers ω) []
  let j := challengeIndex H a out
  let out' := A.run H a (Forger.answers (Forger.rewind j ω ω')) []
  Spec.sgn (groupKey (hashOf H a out.log) out.keys out.tweaks).1 * (out.sig.s - out'.sig.s)
    / (reduceFrom (Forger.answers ω j) - reduceFrom (Forger.answers ω' j))

/-- The secret key of the group without its tweaks. -/
noncomputable def plainSecret {q : ℕ} (H : Hash) (A : AnyForger) (a : Table) (ω ω' : Fin q → Arr 32) : MaybeScalar :=
  let out := A.run H a (Forger.answers ω) []
  match group (hashOf H a out.log) out.keys out.tweaks with
  | some ctx => negIf ctx.parityAcc (groupSecret H A a ω ω' - ctx.tweakAcc)
  | none => 0

/-- A coefficient multiplied by `c`. (The few strings that stand for no scalar, or for zero, are left as they are.) -/
def scaled (c : Scalar) (t : Arr 32) : Arr 32 :=
  if 0 < beNat t.1 ∧ beNat t.1 < orderN then serScalar (c.1 * reduceFrom t) else t

open Classical in
/-- The table with all coefficients for one key list multiplied by `c`. -/
noncomputable def scaledAt (h : Arr 32) (c : Scalar) (a : Table) : Table := fun k =>
  if k.1 = h then scaled c (a k) else a k

/-- The key `P` is the second distinct key of the group, so its coefficient is 1. -/
def IsSecond (P : Point) (keys : List Point) : Prop :=
  Spec.get_second_key (keys.map fun K => Spec.cbytes K.1) = Spec.cbytes P.1

open Classical in
/-- The table for the second pair of runs. If `P` has the coefficient 1, all others of the group are multiplied by `c`;
otherwise the coefficient of `P` is drawn anew. -/
noncomputable def renewed (H : Hash) (P : Point) (keys : List Point) (a : Table) (g : Scalar × Arr 32) : Table :=
  if IsSecond P keys then scaledAt (listHash H keys) g.1 a else Function.update a (listHash H keys, P) g.2

open Classical in
/-- The extractor: it runs the forger four times, twice with the table `a` and twice with the renewed one. The result is
the secret key of `P`. -/
noncomputable def extract {q : ℕ} (H : Hash) (P : Point) (A : AnyForger) (a : Table) (g : Scalar × Arr 32)
    (ω ω' : Fin q → Arr 32) : MaybeScalar :=
  let keys := (A.run H a (Forger.answers ω) []).keys
  let a' := renewed H P keys a g
  let x := plainSecret H A a ω ω'
  let x' := plainSecret H A a' ω ω'
  if IsSecond P keys then (g.1.1 * x - x') / ((g.1.1 - 1) * (keys.count P : ℕ))
  else (x - x') / ((reduceFrom (a (listHash H keys, P)) - reduceFrom g.2) * (keys.count P : ℕ))

/-- The first and the third run submit different groups whose key lists have the same hash. -/
def Collides {q : ℕ} (H : Hash) (P : Point) (A : AnyForger) (a : Table) (g : Scalar × Arr 32) (ω : Fin q → Arr 32) : Prop :=
  let keys := (A.run H a (Forger.answers ω) []).keys
  let keys' := (A.run H (renewed H P keys a g) (Forger.answers ω) []).keys
  keys ≠ keys' ∧ listHash H keys = listHash H keys'

end AnyForger

end Verif
