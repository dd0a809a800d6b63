import Verif.Lemmas.KeyAgg

/-!
# Decoding and encoding of contexts
-/

namespace Verif

/-- The serialized key list. -/
def keysFlat (keys : List Point) : Bytes := (keys.map fun pk => (serPoint pk.1).1).flatten

theorem keysFlat_cons (P : Point) (keys : List Point) : keysFlat (P :: keys) = (serPoint P.1).1 ++ keysFlat keys := by
  simp [keysFlat]

theorem keysFlat_length (keys : List Point) : (keysFlat keys).length = keys.length * 33 := by
  induction keys with
  | nil => rfl
  | cons P keys ih =>
    rw [keysFlat_cons, List.length_append, ih, (serPoint P.1).2, List.length_cons]; ring

theorem keysFlat_injective : Function.Injective keysFlat := by
  intro a b h
  induction a generalizing b with
  | nil =>
    cases b with
    | nil => rfl
    | cons P b =>
      have := congrArg List.length h
      rw [keysFlat_length, keysFlat_length] at this
      simp at this
  | cons P a ih =>
    cases b with
    | nil =>
      have := congrArg List.length h
      rw [keysFlat_length, keysFlat_length] at this
      simp at this
    | cons Q b =>
      rw [keysFlat_cons, keysFlat_cons] at h
      obtain ⟨h1, h2⟩ := append_inj_len h ((serPoint P.1).2.trans (serPoint Q.1).2.symm)
      rw [serPoint_point_inj.1 h1, ih h2]

theorem parsePubkeys_ne_panic (b : Bytes) : KeyAggContext.parsePubkeys b ≠ .panic := by
  induction hn : b.length using Nat.strong_induction_on generalizing b with
  | _ n ih =>
    rw [KeyAggContext.parsePubkeys]
    split
    · rename_i hl
      rw [Ne, Res.bind_eq_panic]
      rintro (h | ⟨pk, -, h⟩)
      · exact Res.okOr_ne_panic h
      · rw [Res.bind_eq_panic] at h
        rcases h with h | ⟨_, -, h⟩
        · exact ih (b.drop 33).length (by simp; omega) (b.drop 33) rfl h
        · cases h
    · simp

theorem parsePubkeys_flat (keys : List Point) : KeyAggContext.parsePubkeys (keysFlat keys) = .ok keys := by
  induction keys with
  | nil => rw [KeyAggContext.parsePubkeys]; simp [keysFlat]
  | cons P keys ih =>
    rw [KeyAggContext.parsePubkeys, dif_pos (by rw [keysFlat_length]; simp)]
    have hl := (serPoint P.1).2
    rw [keysFlat_cons, List.take_append_of_le_length (by omega), List.take_of_length_le (by omega), parsePoint_ser,
      List.drop_append_of_le_length (by omega), List.drop_of_length_le (by omega), List.nil_append, ih]
    rfl

theorem parsePubkeys_eq_ok {b : Bytes} {keys : List Point} {k : ℕ} (hb : b.length = k * 33)
    (h : KeyAggContext.parsePubkeys b = .ok keys) : b = keysFlat keys := by
  induction k generalizing b keys with
  | zero =>
    have : b = [] := List.length_eq_zero_iff.1 (by omega)
    subst this
    rw [KeyAggContext.parsePubkeys] at h
    simp at h
    subst h; rfl
  | succ k ih =>
    rw [KeyAggContext.parsePubkeys, dif_pos (by omega)] at h
    obtain ⟨P, hP, h⟩ := Res.bind_eq_ok.1 h
    obtain ⟨keys', hk, h⟩ := Res.bind_eq_ok.1 h
    cases h
    rw [Res.okOr_eq_ok, parsePoint_eq_some] at hP
    rw [keysFlat_cons, ← hP, ← ih (by simp; omega) hk, List.take_append_drop]

/-! ## `from_bytes` -/

theorem slice_ok {ε : Type} {b : Bytes} {i j : ℕ} (h : i ≤ j ∧ j ≤ b.length) :
    (slice b i j : Res ε Bytes) = .ok ((b.drop i).take (j - i)) := by
  unfold slice; rw [if_pos h]

/-- The part of `from_bytes` after the tweak has been read. -/
def fromBytesTail (H : Hash) (bytes : Bytes) (parityAcc : Bool) (tweakAcc : Option Scalar) (cursor : ℕ) :
    Res DecodeError KeyAggContext := do
  let nPubkeyBytes ← slice bytes cursor (cursor + 4)
  let nPubkey := beNat nPubkeyBytes
  let cursor := cursor + 4
  if bytes.length - cursor ≠ nPubkey * 33 then .err (.badLength bytes.length)
  else
    let rest ← slice bytes cursor bytes.length
    let pubkeys ← KeyAggContext.parsePubkeys rest
    let keyAggCtx ← (KeyAggContext.new H pubkeys).mapErr DecodeError.customKeyAgg
    let keyAggCtx := { keyAggCtx with
      parityAcc
      pubkey := if parityAcc then Point.neg keyAggCtx.pubkey else keyAggCtx.pubkey }
    match tweakAcc with
    | none => return keyAggCtx
    | some t => (keyAggCtx.withPlainTweak t).mapErr DecodeError.customTweak

theorem fromBytes_short {H : Hash} {b : Bytes} (h : b.length < 38) :
    KeyAggContext.fromBytes H b = .err (.badLength b.length) := by
  unfold KeyAggContext.fromBytes
  rw [if_pos h]

theorem fromBytes_cons {H : Hash} (hd : UInt8) (b : Bytes) (hl : 37 ≤ b.length) :
    KeyAggContext.fromBytes H (hd :: b)
      = if hd &&& 2 ≠ 0 then
          match parseScalar (b.take 32) with
          | none => .err .invalidScalar
          | some t => fromBytesTail H (hd :: b) (decide (hd &&& 1 = 1)) (some t) 33
        else fromBytesTail H (hd :: b) (decide (hd &&& 1 = 1)) none 1 := by
  unfold KeyAggContext.fromBytes
  rw [if_neg (by simp; omega)]
  simp only [index, List.getElem?_cons_zero, Res.unwrap_some, Res.bind_ok]
  by_cases ht : hd &&& 2 ≠ 0
  · rw [if_pos ht, if_pos ht, slice_ok (by simp; omega)]
    simp only [Res.bind_ok, List.drop_succ_cons, List.drop_zero]
    rw [show 1 + 32 - 1 = 32 from rfl]
    cases parseScalar (b.take 32) with
    | none => rfl
    | some t => rfl
  · rw [if_neg ht, if_neg ht]
    rfl

/-- The context that decoding builds. -/
def decodedCtx (H : Hash) (keys : List Point) (parity : Bool) (t : MaybeScalar) (Q : Point) : KeyAggContext :=
  { baseCtx H keys Q with parityAcc := parity, tweakAcc := t }

theorem fromBytesTail_ne_panic {H : Hash} {bytes : Bytes} {par : Bool} {t : Option Scalar} {cursor : ℕ}
    (h1 : cursor ≤ 33) (hl : 38 ≤ bytes.length) :
    fromBytesTail H bytes par t cursor ≠ .panic := by
  intro hp
  unfold fromBytesTail at hp
  have hc : cursor + 4 ≤ bytes.length := by omega
  rw [slice_ok ⟨by omega, hc⟩, Res.bind_ok] at hp
  simp only at hp
  split at hp
  · cases hp
  rename_i hn
  rw [not_not] at hn
  rw [slice_ok ⟨hc, le_refl _⟩, Res.bind_ok] at hp
  set nb := (List.take (cursor + 4 - cursor) (List.drop cursor bytes)) with hnb
  have hnbl : nb.length = 4 := by rw [hnb]; simp; omega
  have hrl : ((bytes.drop (cursor + 4)).take (bytes.length - (cursor + 4))).length = beNat nb * 33 := by
    rw [← hn]; simp
  rw [Res.bind_eq_panic] at hp
  rcases hp with hp | ⟨keys, hk, hp⟩
  · exact parsePubkeys_ne_panic _ hp
  have hflat := parsePubkeys_eq_ok hrl hk
  have hkl : keys.length = beNat nb := by
    have := congrArg List.length hflat
    rw [hrl, keysFlat_length] at this
    omega
  rw [Res.bind_eq_panic] at hp
  rcases hp with hp | ⟨ctx, -, hp⟩
  · rw [Res.mapErr_eq_panic, new_eq] at hp
    split at hp
    · rename_i hbad
      rcases hbad with hbad | hbad
      · subst hbad
        simp at hkl
        rw [← hkl] at hn
        omega
      · have := beNat_lt nb
        rw [hnbl] at this
        rw [hkl] at hbad
        unfold u32Max at hbad
        omega
    · split at hp <;> cases hp
  · cases t with
    | none => cases hp
    | some t =>
      simp only [Res.mapErr_eq_panic] at hp
      exact withTweak_ne_panic _ t false hp

theorem negIf_point (par : Bool) (Q : Point) :
    (if par = true then Point.neg Q else Q).1 = negIf par Q.1 := by
  cases par <;> simp

theorem fromBytesTail_eq_ok {H : Hash} {pre rest : Bytes} {par : Bool} {t : Option Scalar} {ctx : KeyAggContext}
    (h4 : 4 ≤ rest.length) :
    fromBytesTail H (pre ++ rest) par t pre.length = .ok ctx ↔
      ∃ keys : List Point, rest = beBytes 4 keys.length ++ keysFlat keys ∧
        keys ≠ [] ∧ keys.length ≤ u32Max ∧ keySum H keys ≠ 0 ∧
        ∃ Q : Point, Q.1 = negIf par (keySum H keys) + ((t.map (·.1)).getD 0) • G ∧
          ctx = decodedCtx H keys par ((t.map (·.1)).getD 0) Q := by
  have hs1 : (slice (pre ++ rest) pre.length (pre.length + 4) : Res DecodeError Bytes) = .ok (rest.take 4) := by
    rw [slice_ok (by simp; omega)]
    simp
  have hs2 : (slice (pre ++ rest) (pre.length + 4) (pre ++ rest).length : Res DecodeError Bytes)
      = .ok (rest.drop 4) := by
    rw [slice_ok (by simp; omega), List.drop_append, List.drop_of_length_le (by omega), List.nil_append]
    congr 1
    rw [show pre.length + 4 - pre.length = 4 by omega]
    apply List.take_of_length_le
    simp; omega
  have hlen : (pre ++ rest).length - (pre.length + 4) = rest.length - 4 := by simp; omega
  unfold fromBytesTail
  rw [hs1, Res.bind_ok]
  simp only
  rw [hs2, Res.bind_ok, hlen]
  have ht4 : (rest.take 4).length = 4 := by simp; omega
  constructor
  · intro h
    split at h
    · cases h
    rename_i hn
    rw [not_not] at hn
    obtain ⟨keys, hk, h⟩ := Res.bind_eq_ok.1 h
    have hflat := parsePubkeys_eq_ok (by rw [List.length_drop]; exact hn) hk
    have hkl : keys.length = beNat (rest.take 4) := by
      have := congrArg List.length hflat
      rw [List.length_drop, hn, keysFlat_length] at this
      omega
    obtain ⟨c, hc, h⟩ := Res.bind_eq_ok.1 h
    rw [Res.mapErr_eq_ok] at hc
    obtain ⟨hk1, hk2, Q0, hQ0, rfl⟩ := new_eq_ok.1 hc
    refine ⟨keys, ?_, hk1, hk2, by rw [hQ0]; exact Q0.2, ?_⟩
    · rw [← hflat, hkl, beBytes_beNat' ht4, List.take_append_drop]
    · cases t with
      | none =>
        simp only [Res.pure_def, Res.ok.injEq] at h
        refine ⟨if par = true then Point.neg Q0 else Q0, ?_, h.symm⟩
        rw [negIf_point, hQ0]
        simp
      | some t =>
        rw [Res.mapErr_eq_ok] at h
        obtain ⟨Q, hQ, rfl⟩ := withPlainTweak_eq_ok.1 h
        refine ⟨Q, ?_, ?_⟩
        · rw [← hQ, negIf_point, hQ0]
          rfl
        · simp [decodedCtx, baseCtx]
  · rintro ⟨keys, rfl, hk1, hk2, hne, Q, hQ, rfl⟩
    have htake : (beBytes 4 keys.length ++ keysFlat keys).take 4 = beBytes 4 keys.length := by
      rw [List.take_append_of_le_length (by simp), List.take_of_length_le (by simp)]
    have hdrop : (beBytes 4 keys.length ++ keysFlat keys).drop 4 = keysFlat keys := by
      rw [List.drop_append_of_le_length (by simp), List.drop_of_length_le (by simp), List.nil_append]
    rw [htake, hdrop, beNat_beBytes_of_lt (by unfold u32Max at hk2; omega)]
    rw [if_neg (by rw [not_not]; simp [keysFlat_length]), parsePubkeys_flat, Res.bind_ok,
      new_eq_ok.2 ⟨hk1, hk2, ⟨_, hne⟩, rfl, rfl⟩]
    simp only [Res.mapErr_ok, Res.bind_ok]
    cases t with
    | none =>
      simp only [Res.pure_def, Res.ok.injEq, decodedCtx, Option.map_none, Option.getD_none, baseCtx]
      congr 1
      apply Subtype.ext
      rw [negIf_point, hQ]
      simp
    | some t =>
      simp only
      rw [Res.mapErr_eq_ok, withPlainTweak_eq_ok]
      refine ⟨Q, ?_, ?_⟩
      · rw [negIf_point, hQ]
        rfl
      · simp [decodedCtx, baseCtx]

/-- Exactly which byte strings decode, and to what. -/
theorem fromBytes_eq_ok {H : Hash} {b : Bytes} {ctx : KeyAggContext} :
    KeyAggContext.fromBytes H b = .ok ctx ↔
      ∃ (hd : UInt8) (keys : List Point) (t : Option Scalar),
        b = [hd] ++ (match t with | none => [] | some t => (serScalar t.1).1) ++ beBytes 4 keys.length ++ keysFlat keys ∧
        (hd &&& 2 ≠ 0 ↔ t.isSome = true) ∧
        keys ≠ [] ∧ keys.length ≤ u32Max ∧ keySum H keys ≠ 0 ∧
        ∃ Q : Point, Q.1 = negIf (decide (hd &&& 1 = 1)) (keySum H keys) + ((t.map (·.1)).getD 0) • G ∧
          ctx = decodedCtx H keys (decide (hd &&& 1 = 1)) ((t.map (·.1)).getD 0) Q := by
  constructor
  · intro h
    by_cases hl : b.length < 38
    · rw [fromBytes_short hl] at h; cases h
    cases b with
    | nil => simp at hl
    | cons hd b =>
      have hb : 37 ≤ b.length := by simp at hl; omega
      rw [fromBytes_cons hd b hb] at h
      by_cases ht : hd &&& 2 ≠ 0
      · rw [if_pos ht] at h
        cases hp : parseScalar (b.take 32) with
        | none => rw [hp] at h; cases h
        | some t =>
          rw [hp] at h
          simp only at h
          rw [parseScalar_eq_some] at hp
          have hsplit : hd :: b = (hd :: b.take 32) ++ b.drop 32 := by simp
          have hlen : (hd :: b.take 32).length = 33 := by simp; omega
          rw [hsplit, ← hlen, fromBytesTail_eq_ok (by simp; omega)] at h
          obtain ⟨keys, hr, h1, h2, h3, Q, hQ, hc⟩ := h
          refine ⟨hd, keys, some t, ?_, by simpa using ht, h1, h2, h3, Q, hQ, hc⟩
          rw [hsplit, hr, hp]
          simp
      · rw [if_neg ht] at h
        have hsplit : hd :: b = [hd] ++ b := rfl
        have h' : fromBytesTail H ([hd] ++ b) (decide (hd &&& 1 = 1)) none [hd].length = .ok ctx := h
        rw [fromBytesTail_eq_ok (by omega)] at h'
        obtain ⟨keys, hr, h1, h2, h3, Q, hQ, hc⟩ := h'
        refine ⟨hd, keys, none, ?_, by simpa using ht, h1, h2, h3, Q, hQ, hc⟩
        rw [hsplit, hr]
        simp
  · rintro ⟨hd, keys, t, rfl, ht, h1, h2, h3, Q, hQ, hc⟩
    have hkl : 1 ≤ keys.length := List.length_pos_iff.2 h1
    have hfl : 33 ≤ (keysFlat keys).length := by rw [keysFlat_length]; omega
    cases t with
    | none =>
      simp only [Option.isSome_none, Bool.false_eq_true, iff_false] at ht
      simp only [List.append_nil, List.nil_append, List.cons_append]
      rw [fromBytes_cons _ _ (by simp; omega), if_neg ht]
      have : fromBytesTail H ([hd] ++ (beBytes 4 keys.length ++ keysFlat keys)) (decide (hd &&& 1 = 1)) none [hd].length
          = .ok ctx := by
        rw [fromBytesTail_eq_ok (by simp)]
        exact ⟨keys, rfl, h1, h2, h3, Q, hQ, hc⟩
      exact this
    | some t =>
      simp only [Option.isSome_some, iff_true] at ht
      simp only [List.nil_append, List.cons_append, List.append_assoc]
      have hsl := (serScalar t.1).2
      rw [fromBytes_cons _ _ (by simp; omega), if_pos ht,
        List.take_append_of_le_length (by omega), List.take_of_length_le (by omega), parseScalar_ser]
      have : fromBytesTail H ((hd :: (serScalar t.1).1) ++ (beBytes 4 keys.length ++ keysFlat keys))
          (decide (hd &&& 1 = 1)) (some t) (hd :: (serScalar t.1).1).length = .ok ctx := by
        rw [fromBytesTail_eq_ok (by simp)]
        exact ⟨keys, rfl, h1, h2, h3, Q, hQ, hc⟩
      rw [List.length_cons, hsl] at this
      exact this

theorem fromBytes_ne_panic (H : Hash) (b : Bytes) : KeyAggContext.fromBytes H b ≠ .panic := by
  by_cases hl : b.length < 38
  · rw [fromBytes_short hl]; simp
  cases b with
  | nil => simp at hl
  | cons hd b =>
    have hb : 37 ≤ b.length := by simp at hl; omega
    rw [fromBytes_cons hd b hb]
    split
    · split
      · simp
      · exact fromBytesTail_ne_panic (by omega) (by simp; omega)
    · exact fromBytesTail_ne_panic (by omega) (by simp; omega)

theorem CtxInv.decoded {H : Hash} {keys : List Point} {par : Bool} {t : MaybeScalar} {Q : Point}
    (h1 : keys ≠ []) (h2 : keys.length ≤ u32Max) (h3 : keySum H keys ≠ 0)
    (hQ : Q.1 = negIf par (keySum H keys) + t • G) : CtxInv H (decodedCtx H keys par t Q) where
  nonempty := h1
  length_le := h2
  indexes := rfl
  coeffs := rfl
  eff := rfl
  sum_ne := h3
  pub := hQ

theorem CtxInv.of_fromBytes {H : Hash} {b : Bytes} {ctx : KeyAggContext}
    (h : KeyAggContext.fromBytes H b = .ok ctx) : CtxInv H ctx := by
  obtain ⟨hd, keys, t, -, -, h1, h2, h3, Q, hQ, rfl⟩ := fromBytes_eq_ok.1 h
  exact CtxInv.decoded h1 h2 h3 hQ

/-- A context with the invariant is determined by its keys, parity and tweak. -/
theorem CtxInv.eq_decoded {H : Hash} {ctx : KeyAggContext} (h : CtxInv H ctx) :
    ctx = decodedCtx H ctx.orderedPubkeys ctx.parityAcc ctx.tweakAcc ctx.pubkey := by
  obtain ⟨pk, keys, idx, co, eff, par, t⟩ := ctx
  simp only [decodedCtx, baseCtx]
  have h1 := h.indexes
  have h2 := h.coeffs
  have h3 := h.eff
  simp only at h1 h2 h3
  rw [h1, h2, h3]

theorem CtxInv.ext {H : Hash} {ctx ctx' : KeyAggContext} (h : CtxInv H ctx) (h' : CtxInv H ctx')
    (hk : ctx.orderedPubkeys = ctx'.orderedPubkeys) (hp : ctx.parityAcc = ctx'.parityAcc)
    (ht : ctx.tweakAcc = ctx'.tweakAcc) : ctx = ctx' := by
  have hQ : ctx.pubkey = ctx'.pubkey := by
    apply Subtype.ext
    rw [h.pub, h'.pub, hk, hp, ht]
  rw [h.eq_decoded, h'.eq_decoded, hk, hp, ht, hQ]

/-- The header byte of an encoding (key_agg.rs:558-561). -/
def headerByte (parity : Bool) (t : MaybeScalar) : UInt8 :=
  (if t ≠ 0 then (1 : UInt8) else 0) <<< (1 : UInt8) ||| (if parity then (1 : UInt8) else 0)

theorem headerByte_parity (parity : Bool) (t : MaybeScalar) : decide (headerByte parity t &&& 1 = 1) = parity := by
  unfold headerByte
  by_cases ht : t = 0
  · simp only [ht, ne_eq, not_true_eq_false, if_false]
    cases parity <;> decide
  · simp only [ht, ne_eq, not_false_eq_true, if_true]
    cases parity <;> decide

theorem headerByte_tweak (parity : Bool) (t : MaybeScalar) : headerByte parity t &&& 2 ≠ 0 ↔ t ≠ 0 := by
  unfold headerByte
  by_cases ht : t = 0
  · simp only [ht, ne_eq, not_true_eq_false, if_false]
    cases parity <;> decide
  · simp only [ht, ne_eq, not_false_eq_true, if_true]
    cases parity <;> decide

theorem toBytes_eq (ctx : KeyAggContext) :
    ctx.toBytes = [headerByte ctx.parityAcc ctx.tweakAcc]
      ++ (match notZero ctx.tweakAcc with | none => [] | some t => (serScalar t.1).1)
      ++ beBytes 4 ctx.orderedPubkeys.length ++ keysFlat ctx.orderedPubkeys := by
  unfold KeyAggContext.toBytes headerByte keysFlat
  by_cases ht : ctx.tweakAcc = 0
  · simp only [ht, notZero_zero, ne_eq, not_true_eq_false, if_false]
  · have : notZero ctx.tweakAcc = some ⟨_, ht⟩ := notZero_eq_some.2 rfl
    rw [this]
    simp only [ht, ne_eq, not_false_eq_true, if_true, show ¬ (1 : UInt8) = 0 by decide]

/-- Encoding and decoding gives the context back. -/
theorem CtxInv.fromBytes_toBytes {H : Hash} {ctx : KeyAggContext} (h : CtxInv H ctx) :
    KeyAggContext.fromBytes H ctx.toBytes = .ok ctx := by
  rw [fromBytes_eq_ok]
  refine ⟨_, ctx.orderedPubkeys, notZero ctx.tweakAcc, toBytes_eq ctx, ?_, h.nonempty, h.length_le, h.sum_ne,
    ctx.pubkey, ?_, ?_⟩
  · rw [headerByte_tweak, Option.isSome_iff_ne_none, Ne, Ne, notZero_eq_none]
  all_goals
    have htw : ((notZero ctx.tweakAcc).map (·.1)).getD 0 = ctx.tweakAcc := by
      by_cases ht : ctx.tweakAcc = 0
      · rw [ht]; simp
      · have : notZero ctx.tweakAcc = some ⟨_, ht⟩ := notZero_eq_some.2 rfl
        rw [this]; rfl
    rw [headerByte_parity, htw]
  · exact h.pub
  · exact h.eq_decoded

end Verif
