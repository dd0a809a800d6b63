import Verif.Spec.Claims
import Verif.Model.Rounds

/-!
# Sessions that are started again after they have signed

Used by `Props/Restart`.
-/

namespace Verif

/-- A copy of the first round `r` gives the partial signature `s`: for an aggregator that sends the nonce `an`, or, after some nonces were
delivered that add up to `an`, to the other members. -/
def Spec.GivesPartial (H : Hash) (r : FirstRound) (sk : Scalar) (an : AggNonce) (T : MaybePoint) (msg : Bytes) (s : PartialSignature) : Prop :=
  r.signForAggregatorAdaptor H sk T msg an = .ok s ∨
    ∃ (calls : List (ℕ × PubNonce)) (w : SecondRound),
      (calls.foldl (fun r c => (r.receiveNonce c.1 c.2).1) r).finalizeAdaptor H sk T msg = .ok w ∧
        w.aggregatedNonce = an ∧ (w.ourSignature : Res Unit _) = .ok s

/-- The secret key, from two partial signatures `s` and `s'` in sessions of which `o` and `o'` are observed. The coefficient of the key is `a`. -/
def Spec.keyOfTwo (ctx : KeyAggContext) (a : MaybeScalar) (o o' : Spec.Observed) (s s' : MaybeScalar) : MaybeScalar :=
  Spec.keySign ctx * ((o.sign * s - o'.sign * s') / (a * (o.e - o'.e)))

/-- The secret key, from three partial signatures. -/
def Spec.keyOfThree (ctx : KeyAggContext) (a : MaybeScalar) (o o' o'' : Spec.Observed) (s s' s'' : MaybeScalar) : MaybeScalar :=
  Spec.keySign ctx * (((o''.sign * s'' - o.sign * s) * (o'.b - o.b) - (o'.sign * s' - o.sign * s) * (o''.b - o.b))
    / (a * ((o''.e - o.e) * (o'.b - o.b) + (o.e - o'.e) * (o''.b - o.b))))

end Verif
