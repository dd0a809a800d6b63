import Verif.Spec.Rounds

/-!
# Everything a caller can do with one signing session

`FirstRound` and `SecondRound` are neither `Clone` nor `Copy`, and the methods that sign or finalize take `self` by
value. So at any time the caller of one session owns one first round, or one second round, or nothing any more.
-/

namespace Verif

/-- What the caller owns. -/
inductive Owned where
  | first (r : FirstRound)
  | second (r : SecondRound)
  | nothing

/-- A method call, with its arguments. -/
inductive SessionCall where
  | receiveNonce (i : ℕ) (n : PubNonce)
  | finalize (sk : Scalar) (msg : Bytes)
  | finalizeAdaptor (sk : Scalar) (T : MaybePoint) (msg : Bytes)
  | signForAggregator (sk : Scalar) (msg : Bytes) (an : AggNonce)
  | signForAggregatorAdaptor (sk : Scalar) (T : MaybePoint) (msg : Bytes) (an : AggNonce)
  | ourSignature
  | receiveSignature (i : ℕ) (s : PartialSignature)
  | finalizeSecond
  | finalizeSecondAdaptor

/-- The value of a result, if there is one. -/
def Res.toList {ε α : Type} : Res ε α → List α
  | .ok a => [a]
  | _ => []

/-- The second round of a result, if there is one: a failing call has consumed the first round. -/
def ownSecond {ε : Type} : Res ε SecondRound → Owned
  | .ok r => .second r
  | _ => .nothing

/-- The effect of a call on what is owned, and the partial signatures it returns. A method that the owned value does not
have cannot be called: nothing happens. -/
def Owned.call (H : Hash) : Owned → SessionCall → Owned × List PartialSignature
  | .first r, .receiveNonce i n => (.first (r.receiveNonce i n).1, [])
  | .first r, .finalize sk msg => (ownSecond (r.finalize H sk msg), [])
  | .first r, .finalizeAdaptor sk T msg => (ownSecond (r.finalizeAdaptor H sk T msg), [])
  | .first r, .signForAggregator sk msg an => (.nothing, (r.signForAggregator H sk msg an).toList)
  | .first r, .signForAggregatorAdaptor sk T msg an => (.nothing, (r.signForAggregatorAdaptor H sk T msg an).toList)
  | .second r, .ourSignature => (.second r, (r.ourSignature : Res Unit _).toList)
  | .second r, .receiveSignature i s => (.second (r.receiveSignature H i s).1, [])
  | .second _, .finalizeSecond => (.nothing, [])
  | .second _, .finalizeSecondAdaptor => (.nothing, [])
  | o, _ => (o, [])

/-- All partial signatures returned by a sequence of calls. -/
def Owned.signatures (H : Hash) : Owned → List SessionCall → List PartialSignature
  | _, [] => []
  | o, c :: cs => (o.call H c).2 ++ Owned.signatures H (o.call H c).1 cs

end Verif
