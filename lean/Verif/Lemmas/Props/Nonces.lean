import Verif.Spec.Claims
import Verif.Lemmas.Nonces
import Verif.Lemmas.Reachable
import Verif.Model.Rounds

/-!
# Lemmas and example data for `Props/Nonces`
-/

namespace Verif

/-- The preimages of the code and the specification agree when the secret key, the public key and some extra input
are given. -/
theorem build_eq_spec (H : Hash) (hH : TagsAgree H) (b : SecNonceBuilder) (sk : Scalar) (P : Point)
    (hsk : b.seckey = some sk) (hP : b.pubkey = some P) (hex : b.extraInputs ≠ []) :
    let k := Spec.nonce_scalars H b.nonceSeedBytes.1 (some (Spec.bytes_from_int sk.1.val)) (Spec.cbytes P.1)
      (b.aggregatedPubkey.map fun Q => Spec.xbytes Q.1) b.message (some b.extraInputs.flatten)
    (b.build H).k1.1.val = orOne k.1 ∧ (b.build H).k2.1.val = orOne k.2 := by
  intro k
  have hin : ∀ i : ℕ, i < 2 →
      Spec.bytes_xor (Spec.bytes_from_int sk.1.val) (Spec.tagged_hash H "MuSig/aux" b.nonceSeedBytes.1)
        ++ beBytes 1 (Spec.cbytes P.1).length ++ Spec.cbytes P.1
        ++ beBytes 1 ((b.aggregatedPubkey.map fun Q => Spec.xbytes Q.1).getD []).length
        ++ ((b.aggregatedPubkey.map fun Q => Spec.xbytes Q.1).getD [])
        ++ (match b.message with | none => [0] | some msg => [1] ++ beBytes 8 msg.length ++ msg)
        ++ beBytes 4 b.extraInputs.flatten.length ++ b.extraInputs.flatten ++ beBytes 1 i
      = b.hashInput H ++ [UInt8.ofNat i] := by
    intro i hi
    rw [hashInput_eq, hsk, hP, tagged_musigAux hH, spec_cbytes_point P, (serPoint P.1).2]
    rw [if_neg (by simpa using hex)]
    have h1 : beBytes 1 i = [UInt8.ofNat i] := by
      have : i = 0 ∨ i = 1 := by omega
      rcases this with rfl | rfl <;> decide +kernel
    rw [h1]
    have h33 : beBytes 1 33 = [33] := by decide +kernel
    rw [h33]
    simp only [List.append_assoc, Option.map_some, optField, extraField]
    congr 1
    simp only [List.cons_append, List.nil_append, List.cons.injEq, true_and]
    congr 1
    cases b.aggregatedPubkey with
    | none =>
      have h0 : beBytes 1 0 = [0] := by decide +kernel
      simp only [Option.map_none, Option.getD_none, List.length_nil, h0, List.cons_append, List.nil_append]
      cases b.message <;> simp [msgField]
    | some Q =>
      have h32 : beBytes 1 32 = [32] := by decide +kernel
      simp only [Option.map_some, Option.getD_some, spec_xbytes, (xonly Q.1).2, h32, List.cons_append,
        List.nil_append]
      cases b.message <;> simp [msgField]
  have key : ∀ i : ℕ, i < 2 → Spec.nonce_hash H
      (Spec.bytes_xor (Spec.bytes_from_int sk.1.val) (Spec.tagged_hash H "MuSig/aux" b.nonceSeedBytes.1))
      (Spec.cbytes P.1) ((b.aggregatedPubkey.map fun Q => Spec.xbytes Q.1).getD []) i
      (match b.message with | none => [0] | some msg => [1] ++ beBytes 8 msg.length ++ msg)
      b.extraInputs.flatten
      = beNat (tagHash H MUSIG_NONCE_TAG_DIGEST (b.hashInput H ++ [UInt8.ofNat i])).1 := by
    intro i hi
    unfold Spec.nonce_hash
    rw [hin i hi, tagged_musigNonce hH]
    rfl
  have hk1 : k.1 = beNat (tagHash H MUSIG_NONCE_TAG_DIGEST (b.hashInput H ++ [0])).1 % orderN :=
    congrArg (· % orderN) (key 0 (by norm_num))
  have hk2 : k.2 = beNat (tagHash H MUSIG_NONCE_TAG_DIGEST (b.hashInput H ++ [1])).1 % orderN :=
    congrArg (· % orderN) (key 1 (by norm_num))
  rw [hk1, hk2]
  exact ⟨SecNonceBuilder.reduceOrOne_val _, SecNonceBuilder.reduceOrOne_val _⟩

theorem mulG_one : mulG scalarOne = Gpt := Subtype.ext (one_smul _ G)

theorem serScalar_one : (serScalar (1 : MaybeScalar)).1 = beBytes 32 1 := by
  unfold serScalar beArr
  rw [ZMod.val_one'' (by have := one_lt_orderN; omega)]

theorem val_one_scalar : (1 : MaybeScalar).val = 1 := ZMod.val_one'' (by have := one_lt_orderN; omega)

theorem k1_of_input {H : Hash} {b : SecNonceBuilder} {m : Bytes} (h : b.hashInput H = m) :
    (b.build H).k1.1.val = orOne (beNat (tagHash H MUSIG_NONCE_TAG_DIGEST (m ++ [0])).1 % orderN) := by
  subst h
  exact SecNonceBuilder.reduceOrOne_val _

theorem input_no_extra (H : Hash) :
    ((SecNonceBuilder.new zeroSeed).withSeckey scalarOne).hashInput H
      = List.zipWith (· ^^^ ·) (beBytes 32 1) (tagHash H MUSIG_AUX_TAG_DIGEST zeroSeed.1).1
        ++ (33 :: gBytes ++ ([0] ++ ([0] ++ []))) := by
  rw [hashInput_eq]
  have hp : ((SecNonceBuilder.new zeroSeed).withSeckey scalarOne).pubkey.map (fun P => (serPoint P.1).1)
      = some gBytes := by
    change some (serPoint (mulG scalarOne).1).1 = _
    rw [mulG_one]
    exact congrArg some serPoint_G
  rw [hp, ← serScalar_one]
  rfl

theorem spec_no_extra (H : Hash) (hH : TagsAgree H) :
    (Spec.nonce_scalars H zeroSeed.1 (some (Spec.bytes_from_int 1)) (Spec.cbytes G) none none none).1
      = beNat (tagHash H MUSIG_NONCE_TAG_DIGEST
        (List.zipWith (· ^^^ ·) (beBytes 32 1) (tagHash H MUSIG_AUX_TAG_DIGEST zeroSeed.1).1
        ++ beBytes 1 gBytes.length ++ gBytes ++ beBytes 1 0 ++ [] ++ [0] ++ beBytes 4 0 ++ [] ++ beBytes 1 0)).1
        % orderN := by
  change Spec.nonce_hash H (Spec.bytes_xor (Spec.bytes_from_int 1) (Spec.tagged_hash H "MuSig/aux" _))
      (Spec.cbytes G) [] 0 [0] [] % orderN = _
  unfold Spec.nonce_hash
  rw [tagged_musigNonce hH, tagged_musigAux hH, spec_cbytes G_ne_zero, serPoint_G]
  rfl

theorem input_no_seckey (H : Hash) :
    ({ (SecNonceBuilder.new zeroSeed).withPubkey Gpt with extraInputs := [[]] } : SecNonceBuilder).hashInput H
      = List.zipWith (· ^^^ ·) (List.replicate 32 0) (tagHash H MUSIG_AUX_TAG_DIGEST zeroSeed.1).1
        ++ (33 :: gBytes ++ ([0] ++ ([0] ++ (beBytes 4 0 ++ [])))) := by
  rw [hashInput_eq]
  have hp : (some Gpt).map (fun P => (serPoint P.1).1) = some gBytes := congrArg some serPoint_G
  change _ ++ (optField 33 ((some Gpt).map (fun P => (serPoint P.1).1)) ++ _) = _
  rw [hp]
  rfl

theorem spec_no_seckey (H : Hash) (hH : TagsAgree H) :
    (Spec.nonce_scalars H zeroSeed.1 none (Spec.cbytes G) none none (some [])).1
      = beNat (tagHash H MUSIG_NONCE_TAG_DIGEST
        (zeroSeed.1 ++ beBytes 1 gBytes.length ++ gBytes ++ beBytes 1 0 ++ [] ++ [0] ++ beBytes 4 0 ++ []
          ++ beBytes 1 0)).1 % orderN := by
  change Spec.nonce_hash H zeroSeed.1 (Spec.cbytes G) [] 0 [0] [] % orderN = _
  unfold Spec.nonce_hash
  rw [tagged_musigNonce hH, spec_cbytes G_ne_zero, serPoint_G]
  rfl

theorem taggedInput_musigNonce (x : Bytes) :
    Spec.taggedInput "MuSig/nonce" x = MUSIG_NONCE_TAG_DIGEST ++ MUSIG_NONCE_TAG_DIGEST ++ x := by
  unfold Spec.taggedInput
  rw [sha256_tagsAgree.musigNonce]

theorem taggedInput_musigAux (x : Bytes) :
    Spec.taggedInput "MuSig/aux" x = MUSIG_AUX_TAG_DIGEST ++ MUSIG_AUX_TAG_DIGEST ++ x := by
  unfold Spec.taggedInput
  rw [sha256_tagsAgree.musigAux]

theorem maskedSeckey_eq (H : Hash) (seed : Arr 32) (o : Option Scalar) :
    maskedSeckey H seed o = (xorBytes (match o with
        | some seckey => serScalar seckey.1
        | none => ⟨List.replicate 32 0, rfl⟩) (tagHash H MUSIG_AUX_TAG_DIGEST seed.1)).1 := by
  unfold maskedSeckey
  rw [taggedInput_musigAux]
  cases o <;> rfl

theorem maskedSeckey_length (H : Hash) (seed : Arr 32) (o : Option Scalar) : (maskedSeckey H seed o).length = 32 := by
  rw [maskedSeckey_eq]
  exact (xorBytes _ _).2

theorem maskedSeckey_inj {H : Hash} {seed : Arr 32} {o o' : Option Scalar}
    (h : maskedSeckey H seed o = maskedSeckey H seed o') : o = o' := by
  rw [maskedSeckey_eq, maskedSeckey_eq] at h
  have he := xorBytes_left_inj (Subtype.ext h)
  have hz : (⟨List.replicate 32 0, rfl⟩ : Arr 32) = serScalar 0 := by
    rw [serScalar_zero]
    decide +kernel
  cases o with
  | none =>
    cases o' with
    | none => rfl
    | some s =>
      simp only [hz] at he
      exact absurd (serScalar_injective he).symm s.2
  | some s =>
    cases o' with
    | none =>
      simp only [hz] at he
      exact absurd (serScalar_injective he) s.2
    | some s' => rw [Subtype.ext (serScalar_injective he)]

/-- `NonceInputs.bytes` by fields. -/
theorem nonceInputs_bytes (x : NonceInputs) :
    x.bytes = x.masked ++ (optField 33 (x.pubkey.map fun P => (serPoint P.1).1) ++ (optField 32 x.aggX
      ++ (msgField x.message ++ extraField x.extra))) := by
  unfold NonceInputs.bytes
  simp only [List.append_assoc]
  congr 1
  congr 1
  · cases x.pubkey with
    | none => rfl
    | some P => simp only [spec_cbytes_point]; rfl

theorem hashInput_eq_bytes (H : Hash) (b : SecNonceBuilder) : b.hashInput H = (nonceInputs H b).bytes := by
  rw [nonceInputs_bytes, hashInput_eq]
  unfold nonceInputs
  simp only [maskedSeckey_eq, spec_xbytes, List.isEmpty_iff]
  cases b.seckey <;> rfl

theorem build_k1 (H : Hash) (b : SecNonceBuilder) :
    (b.build H).k1.1.val = nonceScalar H ((nonceInputs H b).bytes ++ [0]) := by
  unfold nonceScalar
  rw [← hashInput_eq_bytes, taggedInput_musigNonce]
  exact SecNonceBuilder.reduceOrOne_val _

theorem build_k2 (H : Hash) (b : SecNonceBuilder) :
    (b.build H).k2.1.val = nonceScalar H ((nonceInputs H b).bytes ++ [1]) := by
  unfold nonceScalar
  rw [← hashInput_eq_bytes, taggedInput_musigNonce]
  exact SecNonceBuilder.reduceOrOne_val _

/-- Field lengths of the inputs of a builder. -/
structure NonceInputs.WF (x : NonceInputs) : Prop where
  masked : x.masked.length = 32
  aggX : ∀ q ∈ x.aggX, q.length = 32
  message : ∀ m ∈ x.message, m.length < 2 ^ 64

theorem spec_xbytes_length (Q : Point) : (Spec.xbytes Q.1).length = 32 := by
  rw [spec_xbytes]
  exact (xonly _).2

theorem nonceInputs_wf (H : Hash) (b : SecNonceBuilder) (hm : ∀ m ∈ b.message, m.length < 2 ^ 64) :
    (nonceInputs H b).WF where
  masked := maskedSeckey_length _ _ _
  aggX := by
    intro q hq
    obtain ⟨Q, -, rfl⟩ := Option.mem_map.1 hq
    exact spec_xbytes_length Q
  message := hm

theorem arr_len_eq {n : ℕ} (a b : Arr n) : a.1.length = b.1.length := a.2.trans b.2.symm

theorem map_len {len : ℕ} (f : Point → Bytes) (o : Option Point) (hf : ∀ P, (f P).length = len) :
    ∀ x ∈ o.map f, x.length = len := by
  intro x hx
  obtain ⟨P, -, rfl⟩ := Option.mem_map.1 hx
  exact hf P

theorem nonceInputs_bytes_inj {x y : NonceInputs} (hx : x.WF) (hy : y.WF) {i j : UInt8}
    (h : x.bytes ++ [i] = y.bytes ++ [j]) : x = y ∧ i = j := by
  rw [nonceInputs_bytes, nonceInputs_bytes] at h
  simp only [List.append_assoc] at h
  obtain ⟨h1, h⟩ := append_inj_len h (by rw [hx.masked, hy.masked])
  obtain ⟨h2, h⟩ := optField_inj (len := 33) (by decide)
    (map_len _ _ fun P => (serPoint P.1).2) (map_len _ _ fun P => (serPoint P.1).2) h
  obtain ⟨h3, h⟩ := optField_inj (len := 32) (by decide) hx.aggX hy.aggX h
  obtain ⟨h4, h⟩ := msgField_inj (fun m hm => by have := hx.message m hm; norm_num at this ⊢; exact this)
    (fun m hm => by have := hy.message m hm; norm_num at this ⊢; exact this) h
  obtain ⟨h5, h6⟩ := extraField_inj h
  replace h2 : x.pubkey = y.pubkey :=
    Option.map_injective (fun P Q hPQ => serPoint_point_inj.1 hPQ) h2
  refine ⟨?_, h6⟩
  clear h hx hy
  cases x; cases y
  simp only at h1 h2 h3 h4 h5
  subst h1 h2 h3 h4 h5
  rfl

theorem xor_zero_bytes (a : Bytes) (h : a.length = 32) : Spec.bytes_xor (List.replicate 32 0) a = a := by
  have key : ∀ (n : ℕ) (a : Bytes), a.length = n → List.zipWith (· ^^^ ·) (List.replicate n (0 : UInt8)) a = a := by
    intro n
    induction n with
    | zero => intro a h; rw [List.eq_nil_of_length_eq_zero h]; rfl
    | succ n ih =>
      intro a h
      cases a with
      | nil => simp at h
      | cons x a =>
        rw [List.replicate_succ, List.zipWith_cons_cons, ih a (by simpa using h), UInt8.zero_xor]
  exact key 32 a h

/-- The BIP327 input by fields. -/
theorem nonce_input_eq (H : Hash) (seed : Arr 32) (sk : Option Scalar) (pk Q : Option Point) (msg extra : Option Bytes) :
    Spec.nonce_input H seed sk (pk.map fun P => Spec.cbytes P.1) (Q.map fun Q => Spec.xbytes Q.1) msg extra
      = Spec.nonce_rand H seed sk
      ++ (optField 33 (pk.map fun P => (serPoint P.1).1) ++ (optField 32 (Q.map fun Q => Spec.xbytes Q.1)
      ++ (msgField msg ++ extraField (some (extra.getD []))))) := by
  unfold Spec.nonce_input
  simp only [List.append_assoc]
  have h0 : beBytes 1 0 = [0] := by decide +kernel
  have h33 : beBytes 1 33 = [33] := by decide +kernel
  have h32 : beBytes 1 32 = [32] := by decide +kernel
  congr 1
  have e1 : ∀ r : Bytes, beBytes 1 ((pk.map fun P => Spec.cbytes P.1).getD []).length
      ++ ((pk.map fun P => Spec.cbytes P.1).getD [] ++ r) = optField 33 (pk.map fun P => (serPoint P.1).1) ++ r := by
    intro r
    cases pk with
    | none => simp [h0, optField]
    | some P =>
      simp only [Option.map_some, Option.getD_some, spec_cbytes_point, (serPoint P.1).2, h33, optField]
      rfl
  have e2 : ∀ r : Bytes, beBytes 1 ((Q.map fun Q => Spec.xbytes Q.1).getD []).length
      ++ ((Q.map fun Q => Spec.xbytes Q.1).getD [] ++ r) = optField 32 (Q.map fun Q => Spec.xbytes Q.1) ++ r := by
    intro r
    cases Q with
    | none => simp [h0, optField]
    | some P =>
      simp only [Option.map_some, Option.getD_some, spec_xbytes_length, h32, optField]
      rfl
  rw [e1, e2]
  cases msg <;> rfl

theorem AggNonce.sum_eq (l : List PubNonce) :
    AggNonce.sum l = ⟨(l.map fun n => n.R1.1).sum, (l.map fun n => n.R2.1).sum⟩ := by
  unfold AggNonce.sum
  simp only [List.map_map]
  rfl

theorem nonce_agg_component_eq (l : List PubNonce) (j : ℕ) (f : PubNonce → Point)
    (hf : ∀ n : PubNonce, (n.toBytes.drop ((j - 1) * 33)).take 33 = (serPoint (f n).1).1) (acc : MaybePoint) :
    (l.map PubNonce.toBytes).foldlM (m := Option) (fun (R_j : Spec.Pt) pubnonce => do
      let R_ij ← Spec.cpoint ((pubnonce.drop ((j - 1) * 33)).take 33)
      some (R_j + R_ij)) acc = some (acc + (l.map fun n => (f n).1).sum) := by
  induction l generalizing acc with
  | nil => simp
  | cons n l ih =>
    rw [List.map_cons, List.foldlM_cons, hf, spec_cpoint_ser]
    simp only [Option.bind_eq_bind, Option.bind_some]
    have := ih (acc + (f n).1)
    simp only [Option.bind_eq_bind] at this
    rw [this, List.map_cons, List.sum_cons, add_assoc]

theorem pubnonce_first (n : PubNonce) : (n.toBytes.drop ((1 - 1) * 33)).take 33 = (serPoint n.R1.1).1 := by
  unfold PubNonce.toBytes
  rw [Nat.sub_self, Nat.zero_mul, List.drop_zero, List.take_left' (serPoint n.R1.1).2]

theorem pubnonce_second (n : PubNonce) : (n.toBytes.drop ((2 - 1) * 33)).take 33 = (serPoint n.R2.1).1 := by
  unfold PubNonce.toBytes
  rw [show (2 - 1) * 33 = 33 from rfl, List.drop_left' (serPoint n.R1.1).2,
    List.take_of_length_le (by rw [(serPoint n.R2.1).2])]

end Verif
