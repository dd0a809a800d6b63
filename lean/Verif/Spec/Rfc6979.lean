import Verif.Secp
import Verif.Sha256

/-!
# Specification: RFC 6979, section 3.2

For `q = n` (so `qlen = 256`) and a hash with 32-byte output.
-/

namespace Verif.Spec

/-- HMAC (RFC 2104, section 2) for a hash with blocks of 64 bytes and a key of any length: a key longer than a block is
hashed, the result is filled up with zeros to a block, and combined with the bytes `0x36` and `0x5c`. -/
def hmac (H : Hash) (key : Bytes) (text : Bytes) : Arr 32 :=
  let k := if key.length > 64 then (H key).1 else key
  let block := k ++ List.replicate (64 - k.length) 0
  let ipad : Bytes := List.replicate 64 0x36
  let opad : Bytes := List.replicate 64 0x5c
  H (List.zipWith (· ^^^ ·) block opad ++ (H (List.zipWith (· ^^^ ·) block ipad ++ text)).1)

/-- State of the generator (steps b, c). -/
structure DrbgState where
  K : Arr 32
  V : Arr 32

/-- `int2octets` (section 2.3.3). -/
def int2octets (k : ℕ) : Bytes := beBytes 32 k

/-- `bits2octets` (section 2.3.4): the 256-bit string as an integer, modulo `q`, as octets. -/
def bits2octets (b : Bytes) : Bytes := int2octets (beNat b % orderN)

/-- Steps b to g, for private key `key` and the octets that represent the message. -/
def drbgInitOctets (H : Hash) (key : ℕ) (octets : Bytes) : DrbgState :=
  let V : Arr 32 := ⟨List.replicate 32 1, rfl⟩
  let K : Arr 32 := ⟨List.replicate 32 0, rfl⟩
  let K := hmac H K.1 (V.1 ++ [0] ++ int2octets key ++ octets)
  let V := hmac H K.1 V.1
  let K := hmac H K.1 (V.1 ++ [1] ++ int2octets key ++ octets)
  let V := hmac H K.1 V.1
  ⟨K, V⟩

/-- Steps b to g, for private key `key` and message hash `h1` (step a). -/
def drbgInit (H : Hash) (key : ℕ) (h1 : Bytes) : DrbgState := drbgInitOctets H key (bits2octets h1)

/-- Step h.2 (one block suffices) and h.3: the next candidate and the new `V`. -/
def drbgCandidate (H : Hash) (s : DrbgState) : Arr 32 := hmac H s.K.1 s.V.1

/-- The state after a rejected candidate (step h.3). -/
def drbgRetry (H : Hash) (s : DrbgState) : DrbgState :=
  let V := drbgCandidate H s
  let K := hmac H s.K.1 (V.1 ++ [0])
  ⟨K, hmac H K.1 V.1⟩

/-- Candidate number `i` from the state on. -/
def candidate (H : Hash) (st : DrbgState) (i : ℕ) : ℕ := beNat (drbgCandidate H ((drbgRetry H)^[i] st)).1

/-- `k` is the first candidate in `[1, q-1]` from the state on. -/
def FirstValid (H : Hash) (st : DrbgState) (k : ℕ) : Prop :=
  ∃ i, k = candidate H st i ∧ 0 < k ∧ k < orderN ∧ ∀ j < i, ¬ (0 < candidate H st j ∧ candidate H st j < orderN)

/-- `k` is the RFC 6979 nonce. -/
def IsRfc6979Nonce (H : Hash) (key : ℕ) (msg : Bytes) (k : ℕ) : Prop := FirstValid H (drbgInit H key (H msg).1) k

end Verif.Spec
