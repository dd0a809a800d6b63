import Verif.Model.Rounds
import Verif.Spec.Reachable

/-!
# Executions of the signing state machines

What a caller can do with `FirstRound` and `SecondRound`, and which contributions count.
-/

namespace Verif

/-- The first value given for index `i` in a sequence of calls. -/
def Spec.firstValue {α : Type} (calls : List (ℕ × α)) (i : ℕ) : Option α :=
  (calls.find? fun c => c.1 == i).map (·.2)

/-- A sequence of `receive_nonce` calls: the final state and the result of every call. -/
def FirstRound.run (r : FirstRound) : List (ℕ × PubNonce) → FirstRound × List (Res RoundContributionError Unit)
  | [] => (r, [])
  | c :: cs =>
    let x := r.receiveNonce c.1 c.2
    let y := FirstRound.run x.1 cs
    (y.1, x.2 :: y.2)

/-- A sequence of `receive_signature` calls. -/
def SecondRound.run (H : Hash) (r : SecondRound) :
    List (ℕ × PartialSignature) → SecondRound × List (Res RoundContributionError Unit)
  | [] => (r, [])
  | c :: cs =>
    let x := r.receiveSignature H c.1 c.2
    let y := SecondRound.run H x.1 cs
    (y.1, x.2 :: y.2)

/-- The first rounds that can be obtained by public calls. -/
inductive FirstRound.Reachable (H : Hash) : FirstRound → Prop
  | new {ctx : KeyAggContext} {seed : Arr 32} {i : ℕ} {spices : SecNonceSpices} {r : FirstRound}
      (hc : Verif.Reachable H ctx) (h : FirstRound.new H ctx seed i spices = .ok r) : FirstRound.Reachable H r
  | receive {r : FirstRound} (hr : FirstRound.Reachable H r) (i : ℕ) (n : PubNonce) :
      FirstRound.Reachable H (r.receiveNonce i n).1

/-- The second rounds that can be obtained by public calls. -/
inductive SecondRound.Reachable (H : Hash) : SecondRound → Prop
  | finalize {r : FirstRound} {sk : Scalar} {T : MaybePoint} {msg : Bytes} {r2 : SecondRound}
      (hr : FirstRound.Reachable H r) (h : r.finalizeAdaptor H sk T msg = .ok r2) : SecondRound.Reachable H r2
  | receive {r : SecondRound} (hr : SecondRound.Reachable H r) (i : ℕ) (s : PartialSignature) :
      SecondRound.Reachable H (r.receiveSignature H i s).1

end Verif
