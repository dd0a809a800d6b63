import Verif.Bytes

/-!
# SHA-256 and HMAC (FIPS 180-4, RFC 2104)

Stands for the `sha2` and `hmac` crates. Words are natural numbers below `2^32` so that the kernel can
evaluate the function.
-/

namespace Verif

namespace Sha256

def w32 : ℕ := 4294967296

def rotr (x k : ℕ) : ℕ := (x >>> k) ||| ((x <<< (32 - k)) % w32)

def ch (x y z : ℕ) : ℕ := (x &&& y) ^^^ ((x ^^^ 4294967295) &&& z)
def maj (x y z : ℕ) : ℕ := (x &&& y) ^^^ (x &&& z) ^^^ (y &&& z)
def bsig0 (x : ℕ) : ℕ := rotr x 2 ^^^ rotr x 13 ^^^ rotr x 22
def bsig1 (x : ℕ) : ℕ := rotr x 6 ^^^ rotr x 11 ^^^ rotr x 25
def ssig0 (x : ℕ) : ℕ := rotr x 7 ^^^ rotr x 18 ^^^ (x >>> 3)
def ssig1 (x : ℕ) : ℕ := rotr x 17 ^^^ rotr x 19 ^^^ (x >>> 10)

def roundK : List ℕ := [
  0x428a2f98, 0x71374491, 0xb5c0fbcf, 0xe9b5dba5, 0x3956c25b, 0x59f111f1, 0x923f82a4, 0xab1c5ed5,
  0xd807aa98, 0x12835b01, 0x243185be, 0x550c7dc3, 0x72be5d74, 0x80deb1fe, 0x9bdc06a7, 0xc19bf174,
  0xe49b69c1, 0xefbe4786, 0x0fc19dc6, 0x240ca1cc, 0x2de92c6f, 0x4a7484aa, 0x5cb0a9dc, 0x76f988da,
  0x983e5152, 0xa831c66d, 0xb00327c8, 0xbf597fc7, 0xc6e00bf3, 0xd5a79147, 0x06ca6351, 0x14292967,
  0x27b70a85, 0x2e1b2138, 0x4d2c6dfc, 0x53380d13, 0x650a7354, 0x766a0abb, 0x81c2c92e, 0x92722c85,
  0xa2bfe8a1, 0xa81a664b, 0xc24b8b70, 0xc76c51a3, 0xd192e819, 0xd6990624, 0xf40e3585, 0x106aa070,
  0x19a4c116, 0x1e376c08, 0x2748774c, 0x34b0bcb5, 0x391c0cb3, 0x4ed8aa4a, 0x5b9cca4f, 0x682e6ff3,
  0x748f82ee, 0x78a5636f, 0x84c87814, 0x8cc70208, 0x90befffa, 0xa4506ceb, 0xbef9a3f7, 0xc67178f2]

/-- The eight working variables. -/
structure State where
  a : ℕ
  b : ℕ
  c : ℕ
  d : ℕ
  e : ℕ
  f : ℕ
  g : ℕ
  h : ℕ

def iv : State :=
  ⟨0x6a09e667, 0xbb67ae85, 0x3c6ef372, 0xa54ff53a, 0x510e527f, 0x9b05688c, 0x1f83d9ab, 0x5be0cd19⟩

def round (s : State) (k w : ℕ) : State :=
  let t1 := s.h + bsig1 s.e + ch s.e s.f s.g + k + w
  let t2 := bsig0 s.a + maj s.a s.b s.c
  ⟨(t1 + t2) % w32, s.a, s.b, s.c, (s.d + t1) % w32, s.e, s.f, s.g⟩

/-- Run the rounds; `ws` is the sliding window of the next sixteen schedule words. -/
def rounds : List ℕ → List ℕ → State → State
  | k :: ks, w :: ws, s =>
    let next := (w + ssig0 (ws.getD 0 0) + ws.getD 8 0 + ssig1 (ws.getD 13 0)) % w32
    rounds ks (ws ++ [next]) (round s k w)
  | _, _, s => s

def words : ℕ → Bytes → List ℕ
  | 0, _ => []
  | k + 1, l => beNat (l.take 4) :: words k (l.drop 4)

def compress (s : State) (block : Bytes) : State :=
  let r := rounds roundK (words 16 block) s
  ⟨(s.a + r.a) % w32, (s.b + r.b) % w32, (s.c + r.c) % w32, (s.d + r.d) % w32,
   (s.e + r.e) % w32, (s.f + r.f) % w32, (s.g + r.g) % w32, (s.h + r.h) % w32⟩

def blocks : ℕ → Bytes → State → State
  | 0, _, s => s
  | k + 1, l, s => blocks k (l.drop 64) (compress s (l.take 64))

def pad (m : Bytes) : Bytes :=
  m ++ [0x80] ++ List.replicate ((119 - m.length % 64) % 64) 0 ++ beBytes 8 (8 * m.length)

def hash (m : Bytes) : Bytes :=
  let p := pad m
  let s := blocks (p.length / 64) p iv
  beBytes 4 s.a ++ beBytes 4 s.b ++ beBytes 4 s.c ++ beBytes 4 s.d ++
  beBytes 4 s.e ++ beBytes 4 s.f ++ beBytes 4 s.g ++ beBytes 4 s.h

end Sha256

/-- A hash function with 32-byte output; every protocol function is parametrised by one. -/
abbrev Hash := Bytes → Arr 32

/-- SHA-256. -/
def sha256 : Hash := fun m => ⟨Sha256.hash m, by simp [Sha256.hash]⟩

end Verif
