import Verif.Lemmas.KeyAggBytes
import Verif.Model.Width

/-!
# Facts about `Model.Width`
-/

namespace Verif

theorem Target.usize_fits {ε : Type} {t : Target} {x : ℕ} (h : x < 2 ^ t.bits) : (t.usize x : Res ε ℕ) = .ok x := by
  unfold Target.usize; rw [if_pos h]

theorem Target.usize_checked {ε : Type} {t : Target} {x : ℕ} (h : 2 ^ t.bits ≤ x) (hc : t.overflowChecks = true) :
    (t.usize x : Res ε ℕ) = .panic := by
  unfold Target.usize; rw [if_neg (by omega), if_pos hc]

theorem Target.usize_wraps {ε : Type} {t : Target} {x : ℕ} (hc : t.overflowChecks = false) :
    (t.usize x : Res ε ℕ) = .ok (x % 2 ^ t.bits) := by
  unfold Target.usize
  by_cases h : x < 2 ^ t.bits
  · rw [if_pos h, Nat.mod_eq_of_lt h]
  · rw [if_neg h, hc]; rfl

/-- The part of `from_bytes` after the keys' length has been computed. -/
def fromBytesKeys (H : Hash) (bytes : Bytes) (parityAcc : Bool) (tweakAcc : Option Scalar) (cursor keysLen : ℕ) :
    Res DecodeError KeyAggContext := do
  if bytes.length - cursor ≠ keysLen then .err (.badLength bytes.length)
  else
    let rest ← slice bytes cursor bytes.length
    let pubkeys ← KeyAggContext.parsePubkeys rest
    let keyAggCtx ← (KeyAggContext.new H pubkeys).mapErr DecodeError.customKeyAgg
    let keyAggCtx := { keyAggCtx with
      parityAcc
      pubkey := if parityAcc then Point.neg keyAggCtx.pubkey else keyAggCtx.pubkey }
    match tweakAcc with
    | none => return keyAggCtx
    | some t => (keyAggCtx.withPlainTweak t).mapErr DecodeError.customTweak

/-- The part of `from_bytes` after the tweak has been read. -/
def fromBytesOnTail (t : Target) (H : Hash) (bytes : Bytes) (parityAcc : Bool) (tweakAcc : Option Scalar) (cursor : ℕ) :
    Res DecodeError KeyAggContext := do
  let nPubkeyBytes ← slice bytes cursor (cursor + 4)
  let keysLen ← t.usize (beNat nPubkeyBytes * 33)
  fromBytesKeys H bytes parityAcc tweakAcc (cursor + 4) keysLen

theorem fromBytesOn_short {t : Target} {H : Hash} {b : Bytes} (h : b.length < 38) :
    KeyAggContext.fromBytesOn t H b = .err (.badLength b.length) := by
  unfold KeyAggContext.fromBytesOn
  rw [if_pos h]

theorem fromBytesOn_cons {t : Target} {H : Hash} (hd : UInt8) (b : Bytes) (hl : 37 ≤ b.length) :
    KeyAggContext.fromBytesOn t H (hd :: b)
      = if hd &&& 2 ≠ 0 then
          match parseScalar (b.take 32) with
          | none => .err .invalidScalar
          | some u => fromBytesOnTail t H (hd :: b) (decide (hd &&& 1 = 1)) (some u) 33
        else fromBytesOnTail t H (hd :: b) (decide (hd &&& 1 = 1)) none 1 := by
  unfold KeyAggContext.fromBytesOn
  rw [if_neg (by simp; omega)]
  simp only [index, List.getElem?_cons_zero, Res.unwrap_some, Res.bind_ok]
  by_cases ht : hd &&& 2 ≠ 0
  · rw [if_pos ht, if_pos ht, slice_ok (by simp; omega)]
    simp only [Res.bind_ok, List.drop_succ_cons, List.drop_zero]
    rw [show 1 + 32 - 1 = 32 from rfl]
    cases parseScalar (b.take 32) with
    | none => rfl
    | some t => rfl
  · rw [if_neg ht, if_neg ht]
    rfl

theorem fromBytesTail_eq (H : Hash) (bytes : Bytes) (par : Bool) (u : Option Scalar) (cursor : ℕ) :
    fromBytesTail H bytes par u cursor
      = (slice bytes cursor (cursor + 4) >>= fun nb => fromBytesKeys H bytes par u (cursor + 4) (beNat nb * 33)) := rfl

/-- Reading the tweak scalar: absent, or the 32 bytes of a scalar. -/
def TweakField (hd : UInt8) (tw : Bytes) (u : Option Scalar) : Prop :=
  match u with
  | none => hd &&& 2 = 0 ∧ tw = []
  | some u => hd &&& 2 ≠ 0 ∧ tw = (serScalar u.1).1

theorem slice_field {ε : Type} (pre cnt rest : Bytes) (hc : cnt.length = 4) :
    (slice (pre ++ cnt ++ rest) pre.length (pre.length + 4) : Res ε Bytes) = .ok cnt := by
  rw [slice_ok (by simp; omega), List.append_assoc, List.drop_left]
  congr 1
  rw [show pre.length + 4 - pre.length = cnt.length by omega, List.take_left]

theorem slice_rest {ε : Type} (pre cnt rest : Bytes) (hc : cnt.length = 4) :
    (slice (pre ++ cnt ++ rest) (pre.length + 4) (pre ++ cnt ++ rest).length : Res ε Bytes) = .ok rest := by
  rw [slice_ok (by simp; omega), show pre.length + 4 = (pre ++ cnt).length by simp; omega, List.drop_left]
  congr 1
  exact List.take_of_length_le (by simp; omega)

/-- `from_bytes` on a string cut into its fields. -/
theorem fromBytesOn_fields (t : Target) (H : Hash) (hd : UInt8) (tw cnt rest : Bytes) (u : Option Scalar)
    (hu : TweakField hd tw u) (hc : cnt.length = 4) (hl : 38 ≤ ((hd :: tw) ++ cnt ++ rest).length) :
    KeyAggContext.fromBytesOn t H ((hd :: tw) ++ cnt ++ rest)
      = (t.usize (beNat cnt * 33) >>= fun keysLen =>
          fromBytesKeys H ((hd :: tw) ++ cnt ++ rest) (decide (hd &&& 1 = 1)) u ((hd :: tw).length + 4) keysLen) := by
  have key : ∀ n, n = (hd :: tw).length → fromBytesOnTail t H ((hd :: tw) ++ cnt ++ rest) (decide (hd &&& 1 = 1)) u n
      = (t.usize (beNat cnt * 33) >>= fun keysLen =>
          fromBytesKeys H ((hd :: tw) ++ cnt ++ rest) (decide (hd &&& 1 = 1)) u ((hd :: tw).length + 4) keysLen) := by
    rintro n rfl
    unfold fromBytesOnTail
    rw [slice_field _ _ _ hc, Res.bind_ok]
  have hcons : (hd :: tw) ++ cnt ++ rest = hd :: (tw ++ cnt ++ rest) := by simp
  cases u with
  | none =>
    obtain ⟨h2, rfl⟩ := hu
    rw [← key 1 rfl, hcons, fromBytesOn_cons _ _ (by simp at hl ⊢; omega), if_neg (by rw [not_not]; exact h2)]
  | some u =>
    obtain ⟨h2, rfl⟩ := hu
    have hsl := (serScalar u.1).2
    rw [← key 33 (by simp [hsl]), hcons, fromBytesOn_cons _ _ (by simp at hl ⊢; omega), if_pos h2]
    rw [List.append_assoc, List.take_append_of_le_length (by omega), List.take_of_length_le (by omega), parseScalar_ser]

theorem fromBytes_fields (H : Hash) (hd : UInt8) (tw cnt rest : Bytes) (u : Option Scalar)
    (hu : TweakField hd tw u) (hc : cnt.length = 4) (hl : 38 ≤ ((hd :: tw) ++ cnt ++ rest).length) :
    KeyAggContext.fromBytes H ((hd :: tw) ++ cnt ++ rest)
      = fromBytesKeys H ((hd :: tw) ++ cnt ++ rest) (decide (hd &&& 1 = 1)) u ((hd :: tw).length + 4) (beNat cnt * 33) := by
  have key : ∀ n, n = (hd :: tw).length → fromBytesTail H ((hd :: tw) ++ cnt ++ rest) (decide (hd &&& 1 = 1)) u n
      = fromBytesKeys H ((hd :: tw) ++ cnt ++ rest) (decide (hd &&& 1 = 1)) u ((hd :: tw).length + 4) (beNat cnt * 33) := by
    rintro n rfl
    rw [fromBytesTail_eq, slice_field _ _ _ hc, Res.bind_ok]
  have hcons : (hd :: tw) ++ cnt ++ rest = hd :: (tw ++ cnt ++ rest) := by simp
  cases u with
  | none =>
    obtain ⟨h2, rfl⟩ := hu
    rw [← key 1 rfl, hcons, fromBytes_cons _ _ (by simp at hl ⊢; omega), if_neg (by rw [not_not]; exact h2)]
  | some u =>
    obtain ⟨h2, rfl⟩ := hu
    have hsl := (serScalar u.1).2
    rw [← key 33 (by simp [hsl]), hcons, fromBytes_cons _ _ (by simp at hl ⊢; omega), if_pos h2]
    rw [List.append_assoc, List.take_append_of_le_length (by omega), List.take_of_length_le (by omega), parseScalar_ser]

/-- Every string of at least 38 bytes either has an invalid tweak scalar, or splits into its fields. -/
theorem fields_cases (b : Bytes) (hl : 38 ≤ b.length) :
    (∃ hd r, b = hd :: r ∧ hd &&& 2 ≠ 0 ∧ parseScalar (r.take 32) = none) ∨
    ∃ (hd : UInt8) (tw cnt rest : Bytes) (u : Option Scalar), b = (hd :: tw) ++ cnt ++ rest ∧ TweakField hd tw u ∧
      cnt.length = 4 := by
  cases b with
  | nil => simp at hl
  | cons hd r =>
    simp only [List.length_cons] at hl
    by_cases h2 : hd &&& 2 = 0
    · right
      exact ⟨hd, [], r.take 4, r.drop 4, none, by simp, ⟨h2, rfl⟩, by simp; omega⟩
    · cases hp : parseScalar (r.take 32) with
      | none => left; exact ⟨hd, r, rfl, h2, hp⟩
      | some u =>
        right
        rw [parseScalar_eq_some] at hp
        refine ⟨hd, r.take 32, (r.drop 32).take 4, (r.drop 32).drop 4, some u, ?_, ⟨h2, hp⟩, by simp; omega⟩
        simp only [List.cons_append, List.append_assoc, List.take_append_drop]

theorem fromBytesOn_badTweak {t : Target} {H : Hash} {hd : UInt8} {r : Bytes} (hl : 37 ≤ r.length) (h2 : hd &&& 2 ≠ 0)
    (hp : parseScalar (r.take 32) = none) : KeyAggContext.fromBytesOn t H (hd :: r) = .err .invalidScalar := by
  rw [fromBytesOn_cons _ _ hl, if_pos h2, hp]

theorem fromBytes_badTweak {H : Hash} {hd : UInt8} {r : Bytes} (hl : 37 ≤ r.length) (h2 : hd &&& 2 ≠ 0)
    (hp : parseScalar (r.take 32) = none) : KeyAggContext.fromBytes H (hd :: r) = .err .invalidScalar := by
  rw [fromBytes_cons _ _ hl, if_pos h2, hp]

/-- The trailing bytes that are no whole key are ignored. -/
theorem parsePubkeys_whole (b : Bytes) :
    KeyAggContext.parsePubkeys b = KeyAggContext.parsePubkeys (b.take (b.length / 33 * 33)) := by
  generalize hk : b.length / 33 = k
  induction k generalizing b with
  | zero =>
    rw [KeyAggContext.parsePubkeys, dif_neg (by omega)]
    simp [KeyAggContext.parsePubkeys]
  | succ k ih =>
    have h33 : 33 ≤ b.length := by omega
    rw [KeyAggContext.parsePubkeys, dif_pos h33]
    conv_rhs => rw [KeyAggContext.parsePubkeys, dif_pos (by simp; omega)]
    rw [List.take_take, Nat.min_eq_left (by omega), List.drop_take, show (k + 1) * 33 - 33 = k * 33 by omega,
      ih (b.drop 33) (by simp; omega)]

/-- Reading a wrapped count: the string is read as if the count were the number of whole keys present. -/
theorem fromBytesKeys_whole (H : Hash) (hd : UInt8) (tw cnt rest : Bytes) (u : Option Scalar) (hc : cnt.length = 4)
    (hr : rest.length / 33 < 2 ^ 32) :
    fromBytesKeys H ((hd :: tw) ++ cnt ++ rest) (decide (hd &&& 1 = 1)) u ((hd :: tw).length + 4) rest.length
      = fromBytesKeys H ((hd :: tw) ++ beBytes 4 (rest.length / 33) ++ rest.take (rest.length / 33 * 33))
          (decide (hd &&& 1 = 1)) u ((hd :: tw).length + 4) (beNat (beBytes 4 (rest.length / 33)) * 33) := by
  unfold fromBytesKeys
  rw [if_neg, if_neg, slice_rest _ _ _ hc, slice_rest _ _ _ (by simp), Res.bind_ok, Res.bind_ok, ← parsePubkeys_whole]
  · rw [beNat_beBytes_of_lt (by omega)]
    simp
    omega
  · simp
    omega

theorem fromBytesKeys_empty (H : Hash) (hd : UInt8) (tw cnt rest : Bytes) (u : Option Scalar) (hc : cnt.length = 4)
    (hr : rest.length < 33) :
    fromBytesKeys H ((hd :: tw) ++ cnt ++ rest) (decide (hd &&& 1 = 1)) u ((hd :: tw).length + 4) rest.length
      = .panic := by
  unfold fromBytesKeys
  rw [if_neg (by simp; omega), slice_rest _ _ _ hc, Res.bind_ok, KeyAggContext.parsePubkeys, dif_neg (by omega)]
  rw [Res.bind_ok, new_eq, if_pos (Or.inl rfl)]
  rfl

end Verif
