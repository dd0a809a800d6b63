import Mathlib.Tactic.Ring
import Mathlib.Data.List.Induction

/-!
# Byte strings and big-endian integers

Rust's `&[u8]`, `Vec<u8>` and `[u8; N]`.
-/

namespace Verif

/-- `&[u8]` and `Vec<u8>`. -/
abbrev Bytes := List UInt8

/-- `[u8; N]`. -/
abbrev Arr (n : ℕ) := {l : Bytes // l.length = n}

/-- The integer whose big-endian representation is `l`. -/
def beNat (l : Bytes) : ℕ := l.foldl (fun a b => a * 256 + b.toNat) 0

/-- The low `len` bytes of `v`, most significant first (`to_be_bytes`). -/
def beBytes : ℕ → ℕ → Bytes
  | 0, _ => []
  | len + 1, v => beBytes len (v / 256) ++ [UInt8.ofNat v]

@[simp] theorem beBytes_length : ∀ len v, (beBytes len v).length = len
  | 0, _ => rfl
  | len + 1, v => by simp [beBytes, beBytes_length len]

theorem beNat_nil : beNat [] = 0 := rfl

theorem beNat_concat (l : Bytes) (b : UInt8) : beNat (l ++ [b]) = beNat l * 256 + b.toNat := by
  simp [beNat]

theorem UInt8_toNat_ofNat (v : ℕ) : (UInt8.ofNat v).toNat = v % 256 := by
  simp [UInt8.toNat_ofNat']

theorem beNat_beBytes : ∀ len v, beNat (beBytes len v) = v % 256 ^ len
  | 0, v => by simp [beBytes, beNat_nil, Nat.mod_one]
  | len + 1, v => by
    rw [beBytes, beNat_concat, beNat_beBytes len, UInt8_toNat_ofNat, pow_succ, Nat.mul_comm (256 ^ len) 256,
      Nat.mod_mul]
    ring

theorem beNat_beBytes_of_lt {len v : ℕ} (h : v < 256 ^ len) : beNat (beBytes len v) = v := by
  rw [beNat_beBytes, Nat.mod_eq_of_lt h]

theorem beNat_lt (l : Bytes) : beNat l < 256 ^ l.length := by
  induction l using List.reverseRecOn with
  | nil => simp [beNat_nil]
  | append_singleton l b ih =>
    rw [beNat_concat, List.length_append, List.length_singleton, pow_succ]
    have := b.toNat_lt
    omega

theorem beBytes_beNat (l : Bytes) : beBytes l.length (beNat l) = l := by
  induction l using List.reverseRecOn with
  | nil => rfl
  | append_singleton l b ih =>
    rw [List.length_append, List.length_singleton, beBytes, beNat_concat]
    have hb := b.toNat_lt
    have h1 : (beNat l * 256 + b.toNat) / 256 = beNat l := by omega
    rw [h1, ih]
    congr 2
    apply UInt8.toNat.inj
    rw [UInt8_toNat_ofNat]
    omega

theorem beBytes_beNat' {l : Bytes} {len : ℕ} (h : l.length = len) : beBytes len (beNat l) = l := by
  subst h; exact beBytes_beNat l

theorem beNat_injective {a b : Bytes} (hl : a.length = b.length) (h : beNat a = beNat b) : a = b := by
  rw [← beBytes_beNat a, ← beBytes_beNat b, hl, h]

theorem beBytes_injective {len a b : ℕ} (ha : a < 256 ^ len) (hb : b < 256 ^ len)
    (h : beBytes len a = beBytes len b) : a = b := by
  rw [← beNat_beBytes_of_lt ha, ← beNat_beBytes_of_lt hb, h]

theorem pow_256_32 : (256 : ℕ) ^ 32 = 2 ^ 256 := by decide +kernel

/-- `to_be_bytes` as a fixed-size array. -/
def beArr (len v : ℕ) : Arr len := ⟨beBytes len v, beBytes_length len v⟩

/-- Big-endian byte strings compare like the numbers they denote. -/
theorem beNat_cons (b : UInt8) (l : Bytes) : beNat (b :: l) = b.toNat * 256 ^ l.length + beNat l := by
  induction l using List.reverseRecOn with
  | nil => simp [beNat]
  | append_singleton l c ih =>
    rw [← List.cons_append, beNat_concat, ih, beNat_concat]
    simp only [List.length_append, List.length_singleton, pow_succ]
    ring

/-- Splitting a concatenation at a known length. -/
theorem append_inj_len {a b c d : Bytes} (h : a ++ b = c ++ d) (hl : a.length = c.length) :
    a = c ∧ b = d := List.append_inj h hl

/-- Concatenations of blocks of a fixed positive length determine the blocks. -/
theorem flatten_injective {k : ℕ} (hk : 0 < k) : ∀ {a b : List Bytes},
    (∀ x ∈ a, x.length = k) → (∀ x ∈ b, x.length = k) → a.flatten = b.flatten → a = b
  | [], [], _, _, _ => rfl
  | [], y :: b, _, hb, h => by
    have := hb y (by simp)
    simp at h
    obtain ⟨h1, -⟩ := h
    subst h1; simp at this; omega
  | x :: a, [], ha, _, h => by
    have := ha x (by simp)
    simp at h
    obtain ⟨h1, -⟩ := h
    subst h1; simp at this; omega
  | x :: a, y :: b, ha, hb, h => by
    simp only [List.flatten_cons] at h
    obtain ⟨h1, h2⟩ := List.append_inj h ((ha x (by simp)).trans (hb y (by simp)).symm)
    rw [h1, flatten_injective hk (fun z hz => ha z (by simp [hz])) (fun z hz => hb z (by simp [hz])) h2]

attribute [irreducible] beNat beBytes

end Verif
