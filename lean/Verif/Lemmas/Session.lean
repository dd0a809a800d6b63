import Verif.Spec.Session
import Verif.Lemmas.SigAgg
import Verif.Lemmas.History

/-!
# Agreement of signing, verification and aggregation with BIP327
-/

namespace Verif

theorem Reachable.builtFrom {H : Hash} {ctx : KeyAggContext} (hc : Reachable H ctx) :
    ∃ ts, BuiltFrom H ctx ctx.orderedPubkeys ts := by
  obtain ⟨ctx0, ts, h0, h⟩ := hc.history
  exact ⟨ts, ctx0, h0, h⟩

theorem BuiltFrom.reachable {H : Hash} {ctx : KeyAggContext} {keys : List Point} {ts : List (Scalar × Bool)}
    (h : BuiltFrom H ctx keys ts) : Reachable H ctx := by
  obtain ⟨ctx0, h0, h⟩ := h
  exact .tweaks (.new h0) h

theorem BuiltFrom.keys {H : Hash} {ctx : KeyAggContext} {keys : List Point} {ts : List (Scalar × Bool)}
    (h : BuiltFrom H ctx keys ts) : ctx.orderedPubkeys = keys := by
  obtain ⟨ctx0, h0, h⟩ := h
  rw [(withTweaks_keys h).1]
  obtain ⟨-, -, Q, -, rfl⟩ := new_eq_ok.1 h0
  rfl

theorem sessionOf_eq (keys : List Point) (ts : List (Scalar × Bool)) (an : AggNonce) (msg : Bytes) :
    sessionOf keys ts an msg = specSession keys ts an msg := by
  unfold sessionOf specSession
  congr 1
  rw [spec_cbytes_ext, spec_cbytes_ext]; rfl

theorem spec_session_values {H : Hash} (hH : TagsAgree H) {keys : List Point} {ts : List (Scalar × Bool)}
    {ctx : KeyAggContext} (h : BuiltFrom H ctx keys ts) (an : AggNonce) (msg : Bytes) :
    ∃ v, Spec.get_session_values H (sessionOf keys ts an msg) = some v ∧
      v.Q = ctx.pubkey.1 ∧ (v.gacc : MaybeScalar) = negIf ctx.parityAcc 1 ∧ (v.tacc : MaybeScalar) = ctx.tweakAcc ∧
      v.b = (an.nonceCoefficient H ctx.pubkey msg).val ∧ v.R = (sessionR H ctx an msg).1 ∧
      v.e = (sessionE H ctx an 0 msg).val := by
  obtain ⟨ctx0, h0, h⟩ := h
  rw [sessionOf_eq]
  exact spec_session hH h0 h an msg

theorem spec_session_coeff {H : Hash} (hH : TagsAgree H) (keys : List Point) (ts : List (Scalar × Bool))
    (an : AggNonce) (msg : Bytes) (P : Point) :
    Spec.get_session_key_agg_coeff H (sessionOf keys ts an msg) P.1 =
      if P ∈ keys then some (coeffOf H keys P).val else none := by
  unfold Spec.get_session_key_agg_coeff sessionOf
  simp only
  have hmem : Spec.cbytes P.1 ∈ keys.map (fun P => Spec.cbytes P.1) ↔ P ∈ keys := by
    rw [List.mem_map]
    constructor
    · rintro ⟨Q, hQ, he⟩
      rw [spec_cbytes_point, spec_cbytes_point] at he
      have : Q = P := Subtype.ext (serPoint_injective (Subtype.ext he))
      rwa [← this]
    · intro h; exact ⟨P, h, rfl⟩
  by_cases h : P ∈ keys
  · rw [if_pos (hmem.2 h), if_pos h]
    have := spec_key_agg_coeff hH keys P
    rw [spec_cbytes_point]
    exact congrArg some this
  · rw [if_neg (fun h' => h (hmem.1 h')), if_neg h]

/-- `g` of the specification. -/
theorem spec_g (Q : MaybePoint) :
    ((if Spec.has_even_y Q = true then 1 else orderN - 1 : ℕ) : MaybeScalar) = negIf (isOdd Q) 1 := by
  rw [spec_has_even_y]
  cases isOdd Q
  · simp
  · simp only [Bool.not_true, Bool.false_eq_true, if_false, negIf_true]
    rw [cast_orderN_sub orderN_prime.one_lt.le, Nat.cast_one]

theorem negIf_one_mul (a b : Bool) : (negIf a 1 : MaybeScalar) * negIf b 1 = negIf (a ^^ b) 1 := by
  cases a <;> cases b <;> simp

theorem mul_negIf_one (a : Bool) (x : MaybeScalar) : x * negIf a 1 = negIf a x := by
  cases a <;> simp

theorem pubnonce_take (n : PubNonce) : (Spec.cbytes n.R1.1 ++ Spec.cbytes n.R2.1).take 33 = (serPoint n.R1.1).1 := by
  rw [spec_cbytes_point, List.take_left' (serPoint n.R1.1).2]

theorem pubnonce_drop (n : PubNonce) :
    ((Spec.cbytes n.R1.1 ++ Spec.cbytes n.R2.1).drop 33).take 33 = (serPoint n.R2.1).1 := by
  rw [spec_cbytes_point, spec_cbytes_point, List.drop_left' (serPoint n.R1.1).2,
    List.take_of_length_le (by rw [(serPoint n.R2.1).2])]

/-- Partial verification of the specification in one formula. -/
theorem spec_partial_verify {H : Hash} (hH : TagsAgree H) {keys : List Point} {ts : List (Scalar × Bool)}
    {ctx : KeyAggContext} (h : BuiltFrom H ctx keys ts) (an : AggNonce) (msg : Bytes) (s : MaybeScalar) (P : Point)
    (pn : PubNonce) :
    Spec.partial_sig_verify_internal H (Spec.bytes_from_int s.val) (Spec.cbytes pn.R1.1 ++ Spec.cbytes pn.R2.1)
      (Spec.cbytes P.1) (sessionOf keys ts an msg) =
    if P ∈ keys then some (decide (s • G = partialRhs H ctx an 0 P pn msg)) else none := by
  obtain ⟨v, hv, hQ, hg, ht, hb, hR, he⟩ := spec_session_values hH h an msg
  have hs : Spec.int_from_bytes (Spec.bytes_from_int s.val) = s.val := by
    unfold Spec.int_from_bytes Spec.bytes_from_int
    exact beNat_beBytes_of_lt ((ZMod.val_lt s).trans orderN_lt)
  unfold Spec.partial_sig_verify_internal
  rw [hv]
  simp only [Option.bind_eq_bind, Option.bind_some]
  have hlt : ¬ s.val ≥ orderN := by have := ZMod.val_lt s; omega
  rw [hs, if_neg hlt, pubnonce_take, pubnonce_drop, spec_cbytes_point, spec_cpoint_ser, spec_cpoint_ser,
    spec_cpoint_ser]
  simp only [Option.bind_some]
  rw [spec_session_coeff hH]
  by_cases hP : P ∈ keys
  · rw [if_pos hP, if_pos hP]
    simp only [Option.bind_some, Option.some.injEq]
    have e1 : s.val • Spec.G = s • G := rfl
    have e2 : (if Spec.has_even_y v.R = true then pn.R1.1 + v.b • pn.R2.1 else -(pn.R1.1 + v.b • pn.R2.1))
        = negIf (isOdd (sessionRT H ctx an 0 msg))
          (pn.R1.1 + an.nonceCoefficient H ctx.pubkey msg • pn.R2.1) := by
      rw [hR, hb, spec_has_even_y, ← smul_def]
      unfold sessionRT
      rw [add_zero]
      cases isOdd (sessionR H ctx an msg).1 <;> rfl
    have e3 : (v.e * (coeffOf H keys P).val * ((if Spec.has_even_y v.Q = true then 1 else orderN - 1) * v.gacc % orderN)
        % orderN) • P.1 = negIf (isOdd ctx.pubkey.1 ^^ ctx.parityAcc)
          (sessionE H ctx an 0 msg • (coeffOf H ctx.orderedPubkeys P • P.1)) := by
      rw [nsmul_eq, cast_mod_orderN, Nat.cast_mul, Nat.cast_mul, cast_mod_orderN, Nat.cast_mul, spec_g, hg, hQ,
        negIf_one_mul, mul_negIf_one, he, serScalar_val, serScalar_val, h.keys, ← negIf_smul, mul_smul]
    rw [e1, e2, e3]
    rfl
  · rw [if_neg hP, if_neg hP]
    rfl

/-- Negation of a nonzero scalar in the specification. -/
theorem spec_neg_val (k : MaybeScalar) (R : MaybePoint) :
    ((if Spec.has_even_y R = true then k.val else orderN - k.val : ℕ) : MaybeScalar) = negIf (isOdd R) k := by
  rw [spec_has_even_y]
  cases isOdd R
  · simp
  · simp only [Bool.not_true, Bool.false_eq_true, if_false, negIf_true]
    rw [cast_orderN_sub (ZMod.val_lt _).le, serScalar_val]

theorem scalar_val_bounds (k : Scalar) : 0 < k.1.val ∧ k.1.val < orderN := by
  have h2 : k.1.val ≠ 0 := by rw [Ne, ZMod.val_eq_zero]; exact k.2
  exact ⟨Nat.pos_of_ne_zero h2, ZMod.val_lt k.1⟩

theorem bytes_from_int_length (k : ℕ) : (Spec.bytes_from_int k).length = 32 := by
  unfold Spec.bytes_from_int; exact beBytes_length _ _

theorem int_bytes_val (s : MaybeScalar) : Spec.int_from_bytes (Spec.bytes_from_int s.val) = s.val := by
  unfold Spec.int_from_bytes Spec.bytes_from_int
  exact beNat_beBytes_of_lt ((ZMod.val_lt s).trans orderN_lt)

theorem take_append_32 (a b c : ℕ) (d : Bytes) :
    (Spec.bytes_from_int a ++ Spec.bytes_from_int b ++ d).take 32 = Spec.bytes_from_int a ∧
    ((Spec.bytes_from_int a ++ Spec.bytes_from_int b ++ d).drop 32).take 32 = Spec.bytes_from_int b ∧
    (Spec.bytes_from_int a ++ Spec.bytes_from_int b ++ d).drop 64 = d := by
  refine ⟨?_, ?_, ?_⟩
  · rw [List.append_assoc, List.take_left' (bytes_from_int_length a)]
  · rw [List.append_assoc, List.drop_left' (bytes_from_int_length a), List.take_left' (bytes_from_int_length b)]
  · rw [List.drop_left' (by rw [List.length_append, bytes_from_int_length, bytes_from_int_length])]

/-- Signing of the specification in one formula. -/
theorem spec_sign {H : Hash} (hH : TagsAgree H) {keys : List Point} {ts : List (Scalar × Bool)}
    {ctx : KeyAggContext} (h : BuiltFrom H ctx keys ts) (an : AggNonce) (msg : Bytes) (sk : Scalar) (sn : SecNonce) :
    Spec.sign H (Spec.bytes_from_int sn.k1.1.val ++ Spec.bytes_from_int sn.k2.1.val ++ Spec.cbytes (mulG sk).1)
      (Spec.bytes_from_int sk.1.val) (sessionOf keys ts an msg) =
    if mulG sk ∈ keys then some (Spec.bytes_from_int (partialSigValue H ctx sk sn an 0 msg).val) else none := by
  obtain ⟨v, hv, hQ, hg, ht, hb, hR, he⟩ := spec_session_values hH h an msg
  obtain ⟨t1, t2, t3⟩ := take_append_32 sn.k1.1.val sn.k2.1.val 0 (Spec.cbytes (mulG sk).1)
  have hpk : sk.1.val • Spec.G = (mulG sk).1 := rfl
  have hl : (Spec.cbytes (mulG sk).1).take 33 = Spec.cbytes (mulG sk).1 := by
    rw [spec_cbytes_point, List.take_of_length_le (by rw [(serPoint (mulG sk).1).2])]
  unfold Spec.sign
  rw [hv]
  simp only [Option.bind_eq_bind, Option.bind_some]
  rw [t1, t2, t3, hl, int_bytes_val, int_bytes_val, int_bytes_val,
    if_neg (not_not.2 (scalar_val_bounds sn.k1)), if_neg (not_not.2 (scalar_val_bounds sn.k2)),
    if_neg (not_not.2 (scalar_val_bounds sk)), hpk, if_neg (not_not.2 rfl), spec_session_coeff hH]
  by_cases hP : mulG sk ∈ keys
  · rw [if_pos hP, if_pos hP]
    simp only [Option.bind_some]
    have hs : (((if Spec.has_even_y v.R = true then sn.k1.1.val else orderN - sn.k1.1.val)
        + v.b * (if Spec.has_even_y v.R = true then sn.k2.1.val else orderN - sn.k2.1.val)
        + v.e * (coeffOf H keys (mulG sk)).val
          * ((if Spec.has_even_y v.Q = true then 1 else orderN - 1) * v.gacc * sk.1.val % orderN)) % orderN)
        = (partialSigValue H ctx sk sn an 0 msg).val := by
      rw [← ZMod.val_natCast]
      congr 1
      rw [Nat.cast_add, Nat.cast_add, Nat.cast_mul, Nat.cast_mul, Nat.cast_mul, cast_mod_orderN, Nat.cast_mul,
        Nat.cast_mul, spec_neg_val, spec_neg_val, spec_g, hg, hQ, hb, he, hR, negIf_one_mul]
      simp only [serScalar_val]
      unfold partialSigValue sessionRT
      rw [add_zero, h.keys]
      cases isOdd (sessionR H ctx an msg).1 <;> cases (isOdd ctx.pubkey.1 ^^ ctx.parityAcc) <;>
        simp only [negIf_true, negIf_false] <;> ring
    rw [hs]
    have hver := spec_partial_verify hH h an msg (partialSigValue H ctx sk sn an 0 msg) (mulG sk) sn.publicNonce
    rw [if_pos hP, partialSigValue_smul, decide_eq_true rfl] at hver
    have hpn : Spec.cbytes sn.publicNonce.R1.1 ++ Spec.cbytes sn.publicNonce.R2.1
        = Spec.cbytes (sn.k1.1.val • Spec.G) ++ Spec.cbytes (sn.k2.1.val • Spec.G) := rfl
    rw [← hpn, hver]
    rfl
  · rw [if_neg hP, if_neg hP]
    rfl

/-- Aggregation of the specification in one formula. -/
theorem spec_partial_sig_agg {H : Hash} (hH : TagsAgree H) {keys : List Point} {ts : List (Scalar × Bool)}
    {ctx : KeyAggContext} (h : BuiltFrom H ctx keys ts) (an : AggNonce) (msg : Bytes) (sigs : List MaybeScalar) :
    Spec.partial_sig_agg H (sigs.map fun s => Spec.bytes_from_int s.val) (sessionOf keys ts an msg) =
      some ((xonly (sessionR H ctx an msg).1).1 ++ (serScalar (aggValue H ctx an 0 sigs msg)).1) := by
  obtain ⟨v, hv, hQ, hg, ht, hb, hR, he⟩ := spec_session_values hH h an msg
  have hfold : ∀ (l : List MaybeScalar) (acc : ℕ), acc < orderN →
      (l.map fun s => Spec.bytes_from_int s.val).foldlM (m := Option) (fun (s : ℕ) psig =>
        if Spec.int_from_bytes psig ≥ orderN then none else some ((s + Spec.int_from_bytes psig) % orderN)) acc
      = some (((acc : MaybeScalar) + l.sum).val) := by
    intro l
    induction l with
    | nil =>
      intro acc hacc
      simp [ZMod.val_natCast, Nat.mod_eq_of_lt hacc]
    | cons x l ih =>
      intro acc hacc
      have hlt : ¬ x.val ≥ orderN := by have := ZMod.val_lt x; omega
      rw [List.map_cons, List.foldlM_cons, int_bytes_val, if_neg hlt]
      simp only [Option.bind_eq_bind, Option.bind_some]
      have := ih ((acc + x.val) % orderN) (Nat.mod_lt _ orderN_prime.pos)
      rw [this, cast_mod_orderN, Nat.cast_add, serScalar_val, List.sum_cons, add_assoc]
  unfold Spec.partial_sig_agg
  rw [hv]
  simp only [Option.bind_eq_bind, Option.bind_some]
  rw [hfold sigs 0 orderN_prime.pos]
  simp only [Option.bind_some, Option.some.injEq]
  rw [hR, spec_xbytes, spec_bytes_from_int_mod, Nat.cast_add, Nat.cast_mul, Nat.cast_mul, spec_g, serScalar_val, hQ, he,
    ht, serScalar_val, Nat.cast_zero, zero_add, mul_negIf_one]
  unfold aggValue
  congr 3
  cases isOdd ctx.pubkey.1 <;> simp

end Verif
