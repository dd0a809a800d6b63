import Verif.Spec.Bip340

/-!
# Specification: BIP327

A transcription of `/repo/reference.py`, lines 106-466: byte strings and integers in, byte strings out. `none`
stands for a raised exception or a failed assertion.
-/

namespace Verif.Spec

/-- `cbytes` (reference.py:137-139). -/
def cbytes (P : Pt) : Bytes := (if has_even_y P then 2 else 3) :: xbytes P

/-- `cbytes_ext` (reference.py:141-145). -/
def cbytes_ext (P : Pt) : Bytes := if P = 0 then List.replicate 33 0 else cbytes P

/-- `cpoint` (reference.py:152-165). -/
def cpoint (b : Bytes) : Option Pt := do
  if b.length ≠ 33 then none
  else
    let P ← lift_x (b.drop 1)
    if b.head? = some 2 then some P
    else if b.head? = some 3 then some (-P)
    else none

/-- `cpoint_ext` (reference.py:167-171). -/
def cpoint_ext (b : Bytes) : Option Pt :=
  if b = List.replicate 33 0 then some 0 else cpoint b

/-- `individual_pk` (reference.py:174-180). -/
def individual_pk (seckey : Bytes) : Option Bytes :=
  let d0 := int_from_bytes seckey
  if 1 ≤ d0 ∧ d0 ≤ orderN - 1 then some (cbytes (d0 • G)) else none

/-- `KeyAggContext` (reference.py:186-188). -/
structure KeyAggCtx where
  Q : Pt
  gacc : ℕ
  tacc : ℕ

/-- `hash_keys` (reference.py:212-213). -/
def hash_keys (H : Hash) (pubkeys : List Bytes) : Bytes := tagged_hash H "KeyAgg list" pubkeys.flatten

/-- `get_second_key` (reference.py:215-220). -/
def get_second_key (pubkeys : List Bytes) : Bytes :=
  match pubkeys with
  | [] => List.replicate 33 0
  | pk0 :: rest => (rest.find? (fun pk => pk ≠ pk0)).getD (List.replicate 33 0)

/-- `key_agg_coeff_internal` (reference.py:226-230). -/
def key_agg_coeff_internal (H : Hash) (pubkeys : List Bytes) (pk_ pk2 : Bytes) : ℕ :=
  let L := hash_keys H pubkeys
  if pk_ = pk2 then 1
  else int_from_bytes (tagged_hash H "KeyAgg coefficient" (L ++ pk_)) % orderN

/-- `key_agg_coeff` (reference.py:222-224). -/
def key_agg_coeff (H : Hash) (pubkeys : List Bytes) (pk_ : Bytes) : ℕ :=
  key_agg_coeff_internal H pubkeys pk_ (get_second_key pubkeys)

/-- `key_agg` (reference.py:194-210). -/
def key_agg (H : Hash) (pubkeys : List Bytes) : Option KeyAggCtx := do
  let pk2 := get_second_key pubkeys
  let Q ← pubkeys.foldlM (fun (Q : Pt) pk => do
    let P_i ← cpoint pk
    let a_i := key_agg_coeff_internal H pubkeys pk pk2
    some (Q + a_i • P_i)) 0
  if Q = 0 then none else some ⟨Q, 1, 0⟩

/-- `apply_tweak` (reference.py:232-250). -/
def apply_tweak (c : KeyAggCtx) (tweak : Bytes) (is_xonly : Bool) : Option KeyAggCtx :=
  if tweak.length ≠ 32 then none
  else
    let g := if is_xonly && !has_even_y c.Q then orderN - 1 else 1
    let t := int_from_bytes tweak
    if t ≥ orderN then none
    else
      let Q_ := g • c.Q + t • G
      if Q_ = 0 then none
      else some ⟨Q_, g * c.gacc % orderN, (t + g * c.tacc) % orderN⟩

/-- `nonce_hash` (reference.py:255-266). -/
def nonce_hash (H : Hash) (rand pk aggpk : Bytes) (i : ℕ) (msg_prefixed extra_in : Bytes) : ℕ :=
  int_from_bytes (tagged_hash H "MuSig/nonce"
    (rand ++ beBytes 1 pk.length ++ pk ++ beBytes 1 aggpk.length ++ aggpk ++ msg_prefixed
      ++ beBytes 4 extra_in.length ++ extra_in ++ beBytes 1 i))

/-- The two integers `k_1`, `k_2` of `nonce_gen_internal` (reference.py:269-285), before the check for zero. -/
def nonce_scalars (H : Hash) (rand_ : Bytes) (sk : Option Bytes) (pk : Bytes) (aggpk msg extra_in : Option Bytes) :
    ℕ × ℕ :=
  let rand := match sk with
    | some sk => bytes_xor sk (tagged_hash H "MuSig/aux" rand_)
    | none => rand_
  let aggpk := aggpk.getD []
  let msg_prefixed := match msg with
    | none => [0]
    | some msg => [1] ++ beBytes 8 msg.length ++ msg
  let extra_in := extra_in.getD []
  (nonce_hash H rand pk aggpk 0 msg_prefixed extra_in % orderN,
   nonce_hash H rand pk aggpk 1 msg_prefixed extra_in % orderN)

/-- `nonce_gen_internal` (reference.py:268-295): `secnonce` and `pubnonce`. -/
def nonce_gen_internal (H : Hash) (rand_ : Bytes) (sk : Option Bytes) (pk : Bytes)
    (aggpk msg extra_in : Option Bytes) : Option (Bytes × Bytes) :=
  let k := nonce_scalars H rand_ sk pk aggpk msg extra_in
  if k.1 = 0 ∨ k.2 = 0 then none
  else some (bytes_from_int k.1 ++ bytes_from_int k.2 ++ pk, cbytes (k.1 • G) ++ cbytes (k.2 • G))

/-- One component of `nonce_agg`. -/
def nonce_agg_component (pubnonces : List Bytes) (j : ℕ) : Option Pt :=
  pubnonces.foldlM (fun (R_j : Pt) pubnonce => do
    let R_ij ← cpoint ((pubnonce.drop ((j - 1) * 33)).take 33)
    some (R_j + R_ij)) 0

/-- `nonce_agg` (reference.py:305-317). -/
def nonce_agg (pubnonces : List Bytes) : Option Bytes := do
  let R_1 ← nonce_agg_component pubnonces 1
  let R_2 ← nonce_agg_component pubnonces 2
  some (cbytes_ext R_1 ++ cbytes_ext R_2)

/-- `SessionContext` (reference.py:319-323), with the lists `tweaks` and `is_xonly` zipped. -/
structure SessionCtx where
  aggnonce : Bytes
  pubkeys : List Bytes
  tweaks : List (Bytes × Bool)
  msg : Bytes

/-- `key_agg_and_tweak` (reference.py:325-332). -/
def key_agg_and_tweak (H : Hash) (pubkeys : List Bytes) (tweaks : List (Bytes × Bool)) : Option KeyAggCtx := do
  let c ← key_agg H pubkeys
  tweaks.foldlM (fun c t => apply_tweak c t.1 t.2) c

/-- The result of `get_session_values`. -/
structure SessionValues where
  Q : Pt
  gacc : ℕ
  tacc : ℕ
  b : ℕ
  R : Pt
  e : ℕ

/-- `get_session_values` (reference.py:334-349). -/
def get_session_values (H : Hash) (c : SessionCtx) : Option SessionValues := do
  let kc ← key_agg_and_tweak H c.pubkeys c.tweaks
  let b := int_from_bytes (tagged_hash H "MuSig/noncecoef" (c.aggnonce ++ xbytes kc.Q ++ c.msg)) % orderN
  let R_1 ← cpoint_ext (c.aggnonce.take 33)
  let R_2 ← cpoint_ext ((c.aggnonce.drop 33).take 33)
  let R_ := R_1 + b • R_2
  let R := if R_ = 0 then G else R_
  let e := int_from_bytes (tagged_hash H "BIP0340/challenge" (xbytes R ++ xbytes kc.Q ++ c.msg)) % orderN
  some ⟨kc.Q, kc.gacc, kc.tacc, b, R, e⟩

/-- `get_session_key_agg_coeff` (reference.py:351-356). -/
def get_session_key_agg_coeff (H : Hash) (c : SessionCtx) (P : Pt) : Option ℕ :=
  let pk := cbytes P
  if pk ∈ c.pubkeys then some (key_agg_coeff H c.pubkeys pk) else none

/-- `partial_sig_verify_internal` (reference.py:436-452). -/
def partial_sig_verify_internal (H : Hash) (psig pubnonce pk : Bytes) (c : SessionCtx) : Option Bool := do
  let v ← get_session_values H c
  let s := int_from_bytes psig
  if s ≥ orderN then some false
  else
    let R_s1 ← cpoint (pubnonce.take 33)
    let R_s2 ← cpoint ((pubnonce.drop 33).take 33)
    let Re_s_ := R_s1 + v.b • R_s2
    let Re_s := if has_even_y v.R then Re_s_ else -Re_s_
    let P ← cpoint pk
    let a ← get_session_key_agg_coeff H c P
    let g := if has_even_y v.Q then 1 else orderN - 1
    let g_ := g * v.gacc % orderN
    some (decide (s • G = Re_s + (v.e * a * g_ % orderN) • P))

/-- `sign` (reference.py:358-393), including its final correctness check. -/
def sign (H : Hash) (secnonce sk : Bytes) (c : SessionCtx) : Option Bytes := do
  let v ← get_session_values H c
  let k_1_ := int_from_bytes (secnonce.take 32)
  let k_2_ := int_from_bytes ((secnonce.drop 32).take 32)
  if ¬ (0 < k_1_ ∧ k_1_ < orderN) then none
  else if ¬ (0 < k_2_ ∧ k_2_ < orderN) then none
  else
    let k_1 := if has_even_y v.R then k_1_ else orderN - k_1_
    let k_2 := if has_even_y v.R then k_2_ else orderN - k_2_
    let d_ := int_from_bytes sk
    if ¬ (0 < d_ ∧ d_ < orderN) then none
    else
      let P := d_ • G
      let pk := cbytes P
      if pk ≠ (secnonce.drop 64).take 33 then none
      else
        let a ← get_session_key_agg_coeff H c P
        let g := if has_even_y v.Q then 1 else orderN - 1
        let d := g * v.gacc * d_ % orderN
        let s := (k_1 + v.b * k_2 + v.e * a * d) % orderN
        let psig := bytes_from_int s
        let pubnonce := cbytes (k_1_ • G) ++ cbytes (k_2_ • G)
        let ok ← partial_sig_verify_internal H psig pubnonce pk c
        if ok then some psig else none

/-- `partial_sig_agg` (reference.py:454-466). -/
def partial_sig_agg (H : Hash) (psigs : List Bytes) (c : SessionCtx) : Option Bytes := do
  let v ← get_session_values H c
  let s ← psigs.foldlM (fun s psig =>
    let s_i := int_from_bytes psig
    if s_i ≥ orderN then none else some ((s + s_i) % orderN)) 0
  let g := if has_even_y v.Q then 1 else orderN - 1
  let s := (s + v.e * g * v.tacc) % orderN
  some (xbytes v.R ++ bytes_from_int s)

end Verif.Spec
