import Verif.Model.Nonces

/-!
# The derived orders of `src/nonces.rs`

`PubNonce` (nonces.rs:513-519) and `AggNonce` (nonces.rs:543-549) derive `Ord` and `PartialOrd`: the fields are compared
in the order of their declaration. The points belong to the crate `secp`: a `Point` is compared by its compressed
encoding (as `key_sort.rs:18-19` relies on), and the variant `Infinity` of `MaybePoint` comes before `Valid`.
-/

namespace Verif

/-- How the standard library compares byte arrays (`Ord` of `[u8; 33]`), as used by the order of `Point` in
key_sort.rs:18. -/
def cmpBytes : Bytes → Bytes → Ordering
  | [], [] => .eq
  | [], _ :: _ => .lt
  | _ :: _, [] => .gt
  | a :: as, b :: bs => if a < b then .lt else if b < a then .gt else cmpBytes as bs

/-- `Ord for Point`, as used in key_sort.rs:18 and by the derived order in nonces.rs:513. -/
def Point.cmp (P Q : Point) : Ordering := cmpBytes (serPoint P.1).1 (serPoint Q.1).1

/-- `Ord for MaybePoint`, as used by the derived order in nonces.rs:543. -/
def MaybePoint.cmp (P Q : MaybePoint) : Ordering :=
  match notInf P, notInf Q with
  | none, none => .eq
  | none, some _ => .lt
  | some _, none => .gt
  | some P, some Q => P.cmp Q

/-- `Ord for PubNonce`, nonces.rs:513-519. -/
def PubNonce.cmp (a b : PubNonce) : Ordering :=
  match a.R1.cmp b.R1 with
  | .eq => a.R2.cmp b.R2
  | o => o

/-- `Ord for AggNonce`, nonces.rs:543-549. -/
def AggNonce.cmp (a b : AggNonce) : Ordering :=
  match MaybePoint.cmp a.R1 b.R1 with
  | .eq => MaybePoint.cmp a.R2 b.R2
  | o => o

end Verif
