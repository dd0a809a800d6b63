import Verif.Secp
import Verif.Sha256

/-!
# Specification: BIP340

Written from the BIP and from `/repo/reference.py`, lines 19-104, over byte strings and integers. `none` stands for
"fail" / a raised exception. Only the group of the curve, the hash type and big-endian integers are shared with
the model; in particular the point and scalar helpers of `Verif.Secp` and everything in `Verif.Model` are not used.
-/

namespace Verif.Spec

/-- Points of secp256k1; `0` is infinity. By definition Mathlib's group of points of `curve`. -/
abbrev Pt := MaybePoint

/-- The base point. -/
def G : Pt := (baseG : CurvePoint)

/-- `x(P)`, for finite `P` (reference.py:37-39). -/
def x (P : Pt) : ℕ :=
  match (P : CurvePoint) with
  | .zero => 0
  | .some x _ _ => x.val

/-- `y(P)`, for finite `P` (reference.py:41-43). -/
def y (P : Pt) : ℕ :=
  match (P : CurvePoint) with
  | .zero => 0
  | .some _ y _ => y.val

/-- `has_even_y` (reference.py:82-84). -/
def has_even_y (P : Pt) : Bool := decide (y P % 2 = 0)

/-- `bytes_from_int` (reference.py:68-69). -/
def bytes_from_int (k : ℕ) : Bytes := beBytes 32 k

/-- `int_from_bytes` (reference.py:79-80). -/
def int_from_bytes (b : Bytes) : ℕ := beNat b

/-- UTF-8 bytes of a string. -/
def utf8 (s : String) : Bytes := s.toUTF8.toList

/-- `tagged_hash` (reference.py:30-32). -/
def tagged_hash (H : Hash) (tag : String) (msg : Bytes) : Bytes :=
  let tag_hash := (H (utf8 tag)).1
  (H (tag_hash ++ tag_hash ++ msg)).1

/-- The point with the given coordinates, if it is on the curve. -/
def point? (x y : Fp) : Option Pt :=
  if h : y ^ 2 = x ^ 3 + 7 then some (mkPoint x y h) else none

/-- `lift_x` (reference.py:71-79). -/
def lift_x (b : Bytes) : Option Pt :=
  let x := int_from_bytes b
  if x ≥ fieldP then none
  else
    let y_sq : Fp := (x : Fp) ^ 3 + 7
    let y : Fp := y_sq ^ ((fieldP + 1) / 4)
    if y ^ 2 ≠ y_sq then none
    else point? (x : Fp) (if y.val % 2 = 0 then y else -y)

/-- `xbytes` (reference.py:134-135); BIP340 `bytes(P)`. -/
def xbytes (P : Pt) : Bytes := bytes_from_int (x P)

/-- Byte-wise xor (reference.py:252-253). -/
def bytes_xor (a b : Bytes) : Bytes := List.zipWith (· ^^^ ·) a b

/-- BIP340 verification (reference.py:86-104), for messages of any length as in the BIP. -/
def schnorr_verify (H : Hash) (msg pubkey sig : Bytes) : Bool :=
  match lift_x pubkey with
  | none => false
  | some P =>
    let r := int_from_bytes (sig.take 32)
    let s := int_from_bytes (sig.drop 32)
    if r ≥ fieldP ∨ s ≥ orderN then false
    else
      let e := int_from_bytes (tagged_hash H "BIP0340/challenge" (sig.take 32 ++ pubkey ++ msg)) % orderN
      let R := s • G + (orderN - e) • P
      if R = 0 then false
      else if !has_even_y R then false
      else decide (x R = r)

/-- BIP340 default signing, with auxiliary randomness `a`. The final verification step of the BIP is left out. -/
def schnorr_sign (H : Hash) (sk msg a : Bytes) : Option Bytes :=
  let d' := int_from_bytes sk
  if d' = 0 ∨ d' ≥ orderN then none
  else
    let P := d' • G
    let d := if has_even_y P then d' else orderN - d'
    let t := bytes_xor (bytes_from_int d) (tagged_hash H "BIP0340/aux" a)
    let rand := tagged_hash H "BIP0340/nonce" (t ++ xbytes P ++ msg)
    let k' := int_from_bytes rand % orderN
    if k' = 0 then none
    else
      let R := k' • G
      let k := if has_even_y R then k' else orderN - k'
      let e := int_from_bytes (tagged_hash H "BIP0340/challenge" (xbytes R ++ xbytes P ++ msg)) % orderN
      some (xbytes R ++ bytes_from_int ((k + e * d) % orderN))

end Verif.Spec
