import Verif.Spec.DetForger
import Verif.Lemmas.Deterministic
import Verif.Lemmas.Props.SoloForger
import Verif.Lemmas.Props.OneMore

/-!
# Helpers of `Props/DetForger`
-/

namespace Verif

open Forger (Log Drawn answers)
open CmaForger (pairs find_append drawn_challengeQuery)
open AdaptorForger (Made)
open SoloForger (sigOf chalOf sign_eq mask nonceQuery)

namespace DetGame

/-! ## The chain -/

theorem chain_congr (sk : Scalar) (msg : Bytes) (h1 : Arr 32) {v w : ℕ → Arr 32} {j : ℕ} (hj : j < 12) (h : ∀ k < j, v k = w k) :
    chain sk msg h1 v j = chain sk msg h1 w j := by
  interval_cases j <;> simp only [chain] <;> simp only [h, Nat.reduceLT]

theorem map_xor_inj {c : UInt8} {a b : Bytes} (h : a.map (· ^^^ c) = b.map (· ^^^ c)) : a = b := by
  refine List.map_injective_iff.2 (fun x y e => ?_) h
  have e' := congrArg (· ^^^ c) e
  simpa only [UInt8.xor_assoc, UInt8.xor_self, UInt8.xor_zero] using e'

theorem block_length (K : Arr 32) (c : UInt8) : ((K.1 ++ List.replicate 32 0).map (· ^^^ c)).length = 64 := by
  rw [List.length_map, List.length_append, K.2, List.length_replicate]

theorem inner_inj {K K' : Arr 32} {m m' : Bytes} (h : inner K m = inner K' m') : K = K' ∧ m = m' := by
  obtain ⟨h1, h2⟩ := append_inj_len h (by rw [block_length, block_length])
  exact ⟨Subtype.ext (append_inj_len (map_xor_inj h1) (by rw [K.2, K'.2])).1, h2⟩

theorem outer_inj {K K' : Arr 32} {m m' : Arr 32} (h : outer K m = outer K' m') : K = K' ∧ m = m' := by
  obtain ⟨h1, h2⟩ := append_inj_len h (by rw [block_length, block_length])
  exact ⟨Subtype.ext (append_inj_len (map_xor_inj h1) (by rw [K.2, K'.2])).1, Subtype.ext h2⟩

/-- Each string of the chain determines the hash before it. -/
theorem chain_inj (sk : Scalar) (msg : Bytes) (h1 : Arr 32) (v w : ℕ → Arr 32) {j : ℕ} (hj : j < 11)
    (h : chain sk msg h1 v (j + 1) = chain sk msg h1 w (j + 1)) : v j = w j := by
  interval_cases j <;> simp only [chain] at h
  · exact (outer_inj h).2
  · exact (inner_inj h).1
  · exact (outer_inj h).2
  · have := (inner_inj h).2
    simp only [List.append_assoc] at this
    exact Subtype.ext (append_inj_len this (by rw [(v 3).2, (w 3).2])).1
  · exact (outer_inj h).2
  · exact (inner_inj h).1
  · exact (outer_inj h).2
  · exact Subtype.ext (inner_inj h).2
  · exact (outer_inj h).2
  · exact Subtype.ext (taggedInput_injective h)
  · exact (SoloForger.nonceQuery_inj h).1

theorem chain_zero_inj {sk : Scalar} {msg msg' : Bytes} {h1 h1' : Arr 32} {v w : ℕ → Arr 32}
    (h : chain sk msg h1 v 0 = chain sk msg' h1' w 0) : h1 = h1' := by
  simp only [chain] at h
  exact Subtype.ext (List.append_cancel_left (inner_inj h).2)

theorem drawn_bytes {x : Bytes} (h : Drawn x) : (x.drop 32).take 32 = BIP0340_CHALLENGE_TAG_DIGEST := by
  obtain ⟨y, rfl⟩ := h
  rw [taggedInput_eq (D := BIP0340_CHALLENGE_TAG_DIGEST) (by simp [tagTable])]
  simp only [List.append_nil, List.append_assoc]
  rw [List.drop_left' (by decide), List.take_left' (by decide)]

theorem block_bytes (K : Arr 32) (c : UInt8) (m : Bytes) :
    ((((K.1 ++ List.replicate 32 0).map (· ^^^ c)) ++ m).drop 32).take 32 = List.replicate 32 c := by
  rw [List.map_append, List.append_assoc, List.drop_left' (by rw [List.length_map, K.2]), List.take_left' (by simp),
    List.map_replicate, UInt8.zero_xor]

theorem not_drawn_block (K : Arr 32) {c : UInt8} (m : Bytes) (hc : List.replicate 32 c ≠ BIP0340_CHALLENGE_TAG_DIGEST) :
    ¬ Drawn (((K.1 ++ List.replicate 32 0).map (· ^^^ c)) ++ m) := by
  intro h
  have := drawn_bytes h
  rw [block_bytes] at this
  exact hc this

theorem not_drawn_inner (K : Arr 32) (m : Bytes) : ¬ Drawn (inner K m) := not_drawn_block K m (by decide)

theorem not_drawn_outer (K : Arr 32) (m : Arr 32) : ¬ Drawn (outer K m) := not_drawn_block K m.1 (by decide)

theorem not_drawn_chain (sk : Scalar) (msg : Bytes) (h1 : Arr 32) (v : ℕ → Arr 32) (j : ℕ) : ¬ Drawn (chain sk msg h1 v j) := by
  unfold chain
  split
  all_goals first
    | exact not_drawn_inner _ _
    | exact not_drawn_outer _ _
    | exact SoloForger.not_both (by decide +kernel) (by decide +kernel) (by decide) _

/-- The first string of the chain contains the secret key. -/
theorem keyAt_chain (sk : Scalar) (msg : Bytes) (h1 : Arr 32) (v : ℕ → Arr 32) :
    keyAt (mulG sk) (chain sk msg h1 v 0) = some (sk.negIf (isOdd (mulG sk).1)) := by
  have hx : ((chain sk msg h1 v 0).drop 97).take 32 = (serScalar sk.1).1 := by
    simp only [chain, inner]
    rw [List.append_assoc, List.append_assoc, ← List.append_assoc (rep32 1).1, ← List.append_assoc,
      List.drop_left' (by rw [List.length_append, block_length]; rfl), List.take_left' (serScalar sk.1).2]
  unfold keyAt
  rw [hx, parseScalar_ser]
  exact if_pos rfl

theorem keyAt_some {P : Point} {x : Bytes} {d : Scalar} (h : keyAt P x = some d) : d.1 • G = Spec.sgn P.1 • P.1 := by
  unfold keyAt at h
  split at h
  · split at h
    · rename_i e _ he
      cases h
      change negIf _ e.1 • G = _
      rw [← negIf_smul, sgn_smul, he]
    · cases h
  · cases h

/-- The signature when the hashes along the chain are known. -/
theorem sign_chain {F : Hash} {sk : Scalar} {msg : Bytes} (T : MaybePoint) {h1 : Arr 32} {d : ℕ → Arr 32} (hm : F msg = h1)
    (hd : ∀ j < 12, F (chain sk msg h1 d j) = d j) (hp : parseScalar (d 9).1 ≠ none) :
    deterministicSignSoloAdaptor F sk msg T = some (sigOf sk (d 11) (F (chalOf sk (d 11) T msg)) T) := by
  subst hm
  obtain ⟨k, hk⟩ := Option.ne_none_iff_exists'.1 hp
  have hh : ∀ K m, hmac F K m = F (outer K (F (inner K m))) := fun _ _ => rfl
  have h0 := hd 0 (by decide)
  have h1 := hd 1 (by decide)
  have h2 := hd 2 (by decide)
  have h3 := hd 3 (by decide)
  have h4 := hd 4 (by decide)
  have h5 := hd 5 (by decide)
  have h6 := hd 6 (by decide)
  have h7 := hd 7 (by decide)
  have h8 := hd 8 (by decide)
  have h9 := hd 9 (by decide)
  have h10 := hd 10 (by decide)
  have h11 := hd 11 (by decide)
  simp only [chain] at h0 h1 h2 h3 h4 h5 h6 h7 h8 h9 h10 h11
  have hn : deriveNonceRfc6979 F sk msg = some k := by
    unfold deriveNonceRfc6979 rfc6979Init
    simp only
    simp only [hh, h0, h1, h2, h3, h4, h5, h6, h7]
    rw [rfc6979Loop]
    simp only [hh, h8, h9, hk]
  have hs : serScalar k.1 = d 9 := Subtype.ext (parseScalar_eq_some.1 hk).symm
  unfold deterministicSignSoloAdaptor
  rw [hn]
  simp only
  rw [sign_eq, hs]
  unfold mask
  rw [h10, h11]

/-! ## One hash function -/

/-- The hash of `x`, if it has come up. -/
def State.val (H : Hash) (st : State) (x : Bytes) : Option (Arr 32) :=
  (st.table.find x).or (if Drawn x then st.toState.find x else if x ∈ st.asked then some (H x) else none)

theorem hash_of_val {H : Hash} {st : State} {x : Bytes} {a : Arr 32} (h : st.val H x = some a) : st.hash H x = a := by
  unfold State.val at h
  unfold State.hash
  cases ht : st.table.find x with
  | some b =>
    rw [ht] at h
    cases h
    rfl
  | none =>
    rw [ht, Option.none_or] at h
    simp only [Option.getD_none]
    split at h
    · rename_i hd
      rw [if_pos hd]
      unfold AdaptorForger.State.hash
      rw [h]
      rfl
    · rename_i hd
      rw [if_neg hd]
      split at h
      · cases h
        rfl
      · cases h

/-- What has come up in `st` has come up in `st'`, with the same hash. -/
def Le (H : Hash) (st st' : State) : Prop := ∀ x a, st.val H x = some a → st'.val H x = some a

theorem Le.rfl {H : Hash} {st : State} : Le H st st := fun _ _ h => h

theorem Le.trans {H : Hash} {a b c : State} (h : Le H a b) (h' : Le H b c) : Le H a c := fun x y e => h' x y (h x y e)

theorem le_toState {H : Hash} {st : State} {s : AdaptorForger.State} (h : ∀ x a, st.toState.find x = some a → s.find x = some a) :
    Le H st { st with toState := s } := by
  intro x a e
  unfold State.val at e ⊢
  simp only
  cases ht : st.table.find x with
  | some b => rw [ht] at e; exact e
  | none =>
    rw [ht, Option.none_or] at e
    rw [Option.none_or]
    split at e
    · rename_i hd
      rw [if_pos hd]
      exact h x a e
    · rename_i hd
      rw [if_neg hd]
      exact e

theorem le_hears (H : Hash) (ω : ℕ → Arr 32) (st : State) (x : Bytes) : Le H st (st.hears ω x) := by
  unfold State.hears
  split
  · exact le_toState fun y a h => SoloForger.ask_find ω st.toState x h
  · intro y a e
    unfold State.val at e ⊢
    simp only
    cases ht : st.table.find y with
    | some b => rw [ht] at e; exact e
    | none =>
      rw [ht, Option.none_or] at e
      rw [Option.none_or]
      split at e
      · rename_i hd
        rw [if_pos hd]
        exact e
      · rename_i hd
        rw [if_neg hd]
        split at e
        · rename_i hm
          rw [if_pos (List.mem_append_left _ hm)]
          exact e
        · cases e

theorem val_hears (H : Hash) (ω : ℕ → Arr 32) (st : State) (x : Bytes) : ∃ a, (st.hears ω x).val H x = some a := by
  unfold State.hears State.val
  by_cases hd : Drawn x
  · rw [if_pos hd]
    simp only [if_pos hd]
    rw [SoloForger.answer_ask]
    cases st.table.find x <;> exact ⟨_, rfl⟩
  · rw [if_neg hd]
    simp only [if_neg hd]
    rw [if_pos (by simp)]
    cases st.table.find x <;> exact ⟨_, rfl⟩

theorem val_hears_hash (H : Hash) (ω : ℕ → Arr 32) (st : State) (x : Bytes) :
    (st.hears ω x).val H x = some ((st.hears ω x).hash H x) := by
  obtain ⟨a, ha⟩ := val_hears H ω st x
  rw [ha, hash_of_val ha]

theorem le_draw (H : Hash) (st : State) {x : Bytes} (a : Arr 32) (hx : ¬ Drawn x) : Le H st (st.draw x a) := by
  unfold State.draw
  split
  · exact Le.rfl
  · rename_i hn
    rw [not_or] at hn
    intro y b e
    unfold State.val at e ⊢
    simp only [find_append]
    cases ht : st.table.find y with
    | some c => rw [ht] at e; exact e
    | none =>
      rw [ht, Option.none_or] at e
      have hxy : ¬ x = y := by
        rintro rfl
        rw [if_neg hx, if_neg hn.1] at e
        cases e
      rw [if_neg hxy, Option.none_or, Option.none_or]
      exact e

theorem val_draw (H : Hash) (st : State) {x : Bytes} (a : Arr 32) (hx : ¬ Drawn x) :
    (st.draw x a).val H x = some ((st.draw x a).hash H x) := by
  obtain ⟨b, hb⟩ : ∃ b, (st.draw x a).val H x = some b := by
    unfold State.draw State.val
    split
    · rename_i hn
      cases ht : st.table.find x with
      | some c => exact ⟨c, rfl⟩
      | none =>
        rw [ht] at hn
        rw [if_pos (hn.resolve_right (by simp))]
        exact ⟨_, rfl⟩
    · simp only [find_append, if_true]
      cases st.table.find x <;> exact ⟨_, rfl⟩
  rw [hb, hash_of_val hb]

theorem draw_fields (st : State) (x : Bytes) (a : Arr 32) :
    (st.draw x a).toState = st.toState ∧ (st.draw x a).asked = st.asked := by
  unfold State.draw
  split <;> exact ⟨rfl, rfl⟩

theorem derive_val (H : Hash) (sk : Scalar) (msg : Bytes) (h1 : Arr 32) (d : ℕ → Arr 32) (st : State) (n : ℕ) (hn : n ≤ 12) :
    Le H st (st.derive H sk msg h1 d n).1 ∧ (st.derive H sk msg h1 d n).1.toState = st.toState ∧
      ∀ j < n, (st.derive H sk msg h1 d n).1.val H (chain sk msg h1 (st.derive H sk msg h1 d n).2 j)
        = some ((st.derive H sk msg h1 d n).2 j) := by
  induction n with
  | zero => exact ⟨Le.rfl, rfl, fun j hj => absurd hj (by omega)⟩
  | succ n ih =>
    obtain ⟨i1, i2, i3⟩ := ih (by omega)
    unfold State.derive
    simp only
    set p := st.derive H sk msg h1 d n with hp
    have hx := not_drawn_chain sk msg h1 p.2 n
    refine ⟨i1.trans (le_draw H _ _ hx), (draw_fields _ _ _).1.trans i2, fun j hj => ?_⟩
    have hc : ∀ j ≤ n, chain sk msg h1 (Function.update p.2 n ((p.1.draw (chain sk msg h1 p.2 n) (d n)).hash H (chain sk msg h1 p.2 n))) j
        = chain sk msg h1 p.2 j := by
      intro j hj
      refine chain_congr _ _ _ (by omega) fun k hk => ?_
      rw [Function.update_of_ne (by omega)]
    rw [hc j (by omega)]
    rcases Nat.lt_or_ge j n with hjn | hjn
    · rw [Function.update_of_ne (by omega)]
      exact le_draw H _ _ hx _ _ (i3 j hjn)
    · have : j = n := by omega
      subst this
      rw [Function.update_self]
      exact val_draw H _ _ hx

/-- What signing hashes has come up. -/
def Settled (H : Hash) (sk : Scalar) (st : State) (msg : Bytes) (T : MaybePoint) (sig : AdaptorSignature) : Prop :=
  ∃ (h1 : Arr 32) (d : ℕ → Arr 32) (c : Arr 32), st.val H msg = some h1 ∧ (∀ j < 12, st.val H (chain sk msg h1 d j) = some (d j)) ∧
    parseScalar (d 9).1 ≠ none ∧ st.val H (chalOf sk (d 11) T msg) = some c ∧ sig = sigOf sk (d 11) c T

theorem Settled.of_le {H : Hash} {sk : Scalar} {st st' : State} {msg : Bytes} {T : MaybePoint} {sig : AdaptorSignature}
    (h : Settled H sk st msg T sig) (hle : Le H st st') : Settled H sk st' msg T sig := by
  obtain ⟨h1, d, c, e1, e2, e3, e4, e5⟩ := h
  exact ⟨h1, d, c, hle _ _ e1, fun j hj => hle _ _ (e2 j hj), e3, hle _ _ e4, e5⟩

theorem Settled.sign {H : Hash} {sk : Scalar} {st : State} {msg : Bytes} {T : MaybePoint} {sig : AdaptorSignature}
    (h : Settled H sk st msg T sig) : deterministicSignSoloAdaptor (st.hash H) sk msg T = some sig := by
  obtain ⟨h1, d, c, e1, e2, e3, e4, e5⟩ := h
  rw [sign_chain T (hash_of_val e1) (fun j hj => hash_of_val (e2 j hj)) e3, hash_of_val e4, e5]

theorem hears_signed (ω : ℕ → Arr 32) (st : State) (x : Bytes) : (st.hears ω x).signed = st.signed := by
  unfold State.hears
  split
  · exact AdaptorForger.ask_signed _ _ _
  · rfl

theorem val_program (H : Hash) (st : State) {x : Bytes} (e : Arr 32) (hx : Drawn x) :
    ∃ c, ({ st with toState := st.toState.program x e } : State).val H x = some c := by
  obtain ⟨c, hc⟩ := SoloForger.program_find st.toState x e
  unfold State.val
  simp only [if_pos hx]
  rw [hc]
  cases st.table.find x <;> exact ⟨_, rfl⟩

/-- A new request settles the signature. -/
theorem settled_new (H : Hash) (sk : Scalar) {st : State} {msg : Bytes} {h1 : Arr 32} (T : MaybePoint) {d : ℕ → Arr 32} (e : Arr 32)
    (hm : st.val H msg = some h1) (hd : ∀ j < 12, st.val H (chain sk msg h1 d j) = some (d j)) (hp : parseScalar (d 9).1 ≠ none) :
    (∃ c, deterministicSignSoloAdaptor (st.hash H) sk msg T = some (sigOf sk (d 11) c T)) ∧
      ∃ sig, Settled H sk { st with toState := st.toState.program (chalOf sk (d 11) T msg) e } msg T sig ∧
        Le H st { st with toState := st.toState.program (chalOf sk (d 11) T msg) e } := by
  refine ⟨⟨_, sign_chain T (hash_of_val hm) (fun j hj => hash_of_val (hd j hj)) hp⟩, ?_⟩
  have hle : Le H st { st with toState := st.toState.program (chalOf sk (d 11) T msg) e } :=
    le_toState fun x a h => SoloForger.program_find_mono _ _ _ h
  obtain ⟨c, hc⟩ := val_program H st (x := chalOf sk (d 11) T msg) e (drawn_challengeQuery _ _ _)
  exact ⟨_, ⟨h1, d, c, hle _ _ hm, fun j hj => hle _ _ (hd j hj), hp, hc, rfl⟩, hle⟩

theorem le_record (H : Hash) (st : State) (m : Made) : Le H st { st with toState := st.toState.record m } := le_toState fun _ _ h => h

/-! ## What a request does -/

/-- The message was signed with the adaptor point before. -/
def State.old (st : State) (msg : Bytes) (T : MaybePoint) : Option Made := st.signed.find? fun m => m.msg = msg ∧ m.T = T

/-- The message was signed before. -/
def State.clash (st : State) (msg : Bytes) : Option Made := st.signed.find? fun m => m.msg = msg

theorem old_some {st : State} {msg : Bytes} {T : MaybePoint} {m : Made} (h : st.old msg T = some m) :
    m ∈ st.signed ∧ m.msg = msg ∧ m.T = T := by
  unfold State.old at h
  have h2 := List.find?_some h
  simp only [decide_eq_true_eq] at h2
  exact ⟨List.mem_of_find?_eq_some h, h2⟩

theorem clash_none {st : State} {msg : Bytes} (h : st.clash msg = none) : ∀ m ∈ st.signed, m.msg ≠ msg := by
  unfold State.clash at h
  rw [List.find?_eq_none] at h
  intro m hm e
  exact h m hm (decide_eq_true e)

/-- The hashes of the chain for a new request. -/
def fresh (H : Hash) (sk : Scalar) (v : ℕ → Arr 32) (e : Arr 32 × Arr 32) (msg : Bytes) (st : State) : State × (ℕ → Arr 32) :=
  st.derive H sk msg (st.hash H msg) (drawsOf v e.1) 12

theorem fresh_val (H : Hash) (sk : Scalar) (v : ℕ → Arr 32) (e : Arr 32 × Arr 32) (msg : Bytes) (st : State) :
    Le H st (fresh H sk v e msg st).1 ∧ ∀ j < 12, (fresh H sk v e msg st).1.val H
      (chain sk msg (st.hash H msg) (fresh H sk v e msg st).2 j) = some ((fresh H sk v e msg st).2 j) := by
  unfold fresh
  obtain ⟨h1, -, h2⟩ := derive_val H sk msg (st.hash H msg) (drawsOf v e.1) st 12 le_rfl
  exact ⟨h1, h2⟩

/-- The state after the signer has hashed the challenge for a new request. -/
def after (H : Hash) (sk : Scalar) (v : ℕ → Arr 32) (e : Arr 32 × Arr 32) (msg : Bytes) (T : MaybePoint) (st : State) : State :=
  { (fresh H sk v e msg st).1 with
    toState := (fresh H sk v e msg st).1.toState.program (chalOf sk ((fresh H sk v e msg st).2 11) T msg) e.2 }

section
variable {H : Hash} {sk : Scalar} {v : ℕ → Arr 32} {e : Arr 32 × Arr 32} {msg : Bytes} {T : MaybePoint} {st : State}

theorem reply_repeat {m : Made} {sig : AdaptorSignature} (h : st.old msg T = some m)
    (hs : deterministicSignSoloAdaptor (st.hash H) sk msg T = some sig) :
    st.reply H sk v e msg T = .given sig st := by
  unfold State.old at h
  unfold State.reply
  rw [h]
  simp only
  rw [hs]

theorem reply_lost {m : Made} (h : st.old msg T = none) (h' : st.clash msg = some m) : st.reply H sk v e msg T = .lost := by
  unfold State.old at h
  unfold State.clash at h'
  unfold State.reply
  rw [h]
  simp only
  rw [h']

theorem reply_finish (h : st.old msg T = none) (h' : st.clash msg = none) :
    st.reply H sk v e msg T = (fresh H sk v e msg st).1.finish H sk e.2 msg T (fresh H sk v e msg st).2 := by
  unfold State.old at h
  unfold State.clash at h'
  unfold State.reply
  rw [h]
  simp only
  rw [h']
  rfl

theorem reply_stuck (h : st.old msg T = none) (h' : st.clash msg = none) (hp : parseScalar ((fresh H sk v e msg st).2 9).1 = none) :
    st.reply H sk v e msg T = .stuck := by
  rw [reply_finish h h']
  unfold State.finish
  rw [hp]

theorem finish_eq {d : ℕ → Arr 32} {a c c' : Arr 32} {sig : AdaptorSignature} (hp : parseScalar (d 9).1 ≠ none)
    (h1 : deterministicSignSoloAdaptor (st.hash H) sk msg T = some (sigOf sk a c T))
    (h4 : deterministicSignSoloAdaptor
      (({ st with toState := st.toState.program (chalOf sk a T msg) c' } : State).hash H) sk msg T = some sig) :
    st.finish H sk c' msg T d = .given sig { st with toState := (st.toState.program (chalOf sk a T msg) c').record ⟨msg, T, sig⟩ } := by
  obtain ⟨k, hk⟩ := Option.ne_none_iff_exists'.1 hp
  unfold chalOf at h4
  unfold State.finish
  rw [hk, h1]
  unfold sigOf
  simp only
  rw [h4]
  rfl

theorem reply_new (h : st.old msg T = none) (h' : st.clash msg = none) (hm : st.val H msg = some (st.hash H msg))
    (hp : parseScalar ((fresh H sk v e msg st).2 9).1 ≠ none) :
    ∃ sig, Settled H sk (after H sk v e msg T st) msg T sig ∧ Le H st (after H sk v e msg T st) ∧
      st.reply H sk v e msg T
        = .given sig { after H sk v e msg T st with toState := (after H sk v e msg T st).toState.record ⟨msg, T, sig⟩ } := by
  obtain ⟨i1, i3⟩ := fresh_val H sk v e msg st
  rw [reply_finish h h']
  unfold after
  generalize fresh H sk v e msg st = p at i1 i3 hp
  obtain ⟨⟨c, h1⟩, sig, h2, h3⟩ := settled_new H sk T e.2 (i1 _ _ hm) i3 hp
  exact ⟨sig, h2, i1.trans h3, finish_eq hp h1 h2.sign⟩

end

theorem after_signed (H : Hash) (sk : Scalar) (v : ℕ → Arr 32) (e : Arr 32 × Arr 32) (msg : Bytes) (T : MaybePoint) (st : State) :
    (after H sk v e msg T st).signed = st.signed := by
  unfold after
  simp only
  have h := (derive_val H sk msg (st.hash H msg) (drawsOf v e.1) st 12 le_rfl).2.1
  have hp : ∀ (s : AdaptorForger.State) x e, (s.program x e).signed = s.signed := by
    intro s x e
    unfold AdaptorForger.State.program
    split <;> rfl
  rw [hp]
  exact congrArg _ h

theorem play_run (H : Hash) (sk : Scalar) (ω : ℕ → Arr 32) (v : ℕ → ℕ → Arr 32) (κ : ℕ → Arr 32 × Arr 32) (A : AdaptorForger)
    (st : State) (hst : ∀ m ∈ st.signed, Settled H sk st m.msg m.T m.sig) {msg : Bytes} {sig : CompactSignature} {st' : State}
    (h : run H sk ω v κ A st = .submitted msg sig st') : Le H st st' ∧ play (st'.hash H) sk A = some (msg, sig) := by
  induction A generalizing st with
  | submit msg sig =>
    unfold run at h
    cases h
    exact ⟨le_toState fun x a e => SoloForger.ask_find ω st.toState _ e, rfl⟩
  | ask x next ih =>
    unfold run at h
    have hle := le_hears H ω st x
    obtain ⟨h1, h2⟩ := ih _ (st.hears ω x) (fun m hm => (hst m (by rwa [hears_signed] at hm)).of_le hle) h
    refine ⟨hle.trans h1, ?_⟩
    unfold play
    rw [hash_of_val (h1 _ _ (val_hears_hash H ω st x))]
    exact h2
  | sign msg T next ih =>
    have hle := le_hears H ω st msg
    have hst₀ : ∀ m ∈ (st.hears ω msg).signed, Settled H sk (st.hears ω msg) m.msg m.T m.sig := fun m hm =>
      (hst m (by rwa [hears_signed] at hm)).of_le hle
    have hv := val_hears_hash H ω st msg
    unfold run at h
    generalize st.hears ω msg = st₀ at h hle hst₀ hv
    cases ho : st₀.old msg T with
    | some m =>
      obtain ⟨h1, h2, h3⟩ := old_some ho
      have hs := hst₀ m h1
      rw [h2, h3] at hs
      rw [reply_repeat ho hs.sign] at h
      obtain ⟨i1, i2⟩ := ih _ _ hst₀ h
      refine ⟨hle.trans i1, ?_⟩
      unfold play
      rw [(hs.of_le i1).sign]
      exact i2
    | none =>
      cases hc : st₀.clash msg with
      | some m =>
        rw [reply_lost ho hc] at h
        cases h
      | none =>
        by_cases hp : parseScalar ((fresh H sk (v st.signed.length) (κ st.signed.length) msg st₀).2 9).1 = none
        · rw [reply_stuck ho hc hp] at h
          cases h
        · obtain ⟨sig', h1, h2, h3⟩ := reply_new ho hc hv hp
          rw [h3] at h
          have h4 := le_record H (after H sk (v st.signed.length) (κ st.signed.length) msg T st₀) ⟨msg, T, sig'⟩
          obtain ⟨i1, i2⟩ := ih _ _ (fun m hm => by
            change m ∈ (after H sk (v st.signed.length) (κ st.signed.length) msg T st₀).signed ++ _ at hm
            rcases List.mem_append.1 hm with hm | hm
            · rw [after_signed] at hm
              exact ((hst₀ m hm).of_le h2).of_le h4
            · rw [List.mem_singleton.1 hm]
              exact h1.of_le h4) h
          refine ⟨hle.trans (h2.trans (h4.trans i1)), ?_⟩
          unfold play
          rw [(h1.of_le (h4.trans i1)).sign]
          exact i2

/-! ## The run without a chain -/

/-- The state after the challenge has been hashed. -/
def noted (sk : Scalar) (e : Arr 32 × Arr 32) (msg : Bytes) (T : MaybePoint) (st : State) : State :=
  { st with toState := st.toState.program (chalOf sk e.1 T msg) e.2 }

/-- The signature for a new request, the nonce being hashed to `e.1`. -/
def idealSig (H : Hash) (sk : Scalar) (e : Arr 32 × Arr 32) (msg : Bytes) (T : MaybePoint) (st : State) : AdaptorSignature :=
  sigOf sk e.1 ((noted sk e msg T st).toState.hash H (chalOf sk e.1 T msg)) T

/-- The state after a new request. -/
def idealState (H : Hash) (sk : Scalar) (e : Arr 32 × Arr 32) (msg : Bytes) (T : MaybePoint) (st : State) : State :=
  { noted sk e msg T st with toState := (noted sk e msg T st).toState.record ⟨msg, T, idealSig H sk e msg T st⟩ }

/-- The run in which the nonces are drawn, and no strings of the chain come up. -/
def ideal (H : Hash) (sk : Scalar) (ω : ℕ → Arr 32) (κ : ℕ → Arr 32 × Arr 32) :
    AdaptorForger → State → Option (Bytes × CompactSignature) × State
  | .submit msg sig, st =>
    (some (msg, sig), { st with toState := st.toState.ask ω (Spec.challengeQuery sig.rx.1 (mulG sk) msg) })
  | .ask x next, st => ideal H sk ω κ (next ((st.hears ω x).hash H x)) (st.hears ω x)
  | .sign msg T next, st =>
    match (st.hears ω msg).old msg T with
    | some m => ideal H sk ω κ (next m.sig) (st.hears ω msg)
    | none =>
      match (st.hears ω msg).clash msg with
      | some _ => (none, st.hears ω msg)
      | none =>
        ideal H sk ω κ (next (idealSig H sk (κ st.signed.length) msg T (st.hears ω msg)))
          (idealState H sk (κ st.signed.length) msg T (st.hears ω msg))

/-- `st` comes before `st'`. -/
structure Below (H : Hash) (st st' : State) : Prop where
  asked : ∀ x ∈ st.asked, x ∈ st'.asked
  signed : st.signed <+: st'.signed
  le : Le H st st'

theorem Below.rfl {H : Hash} {st : State} : Below H st st := ⟨fun _ h => h, List.prefix_rfl, Le.rfl⟩

theorem Below.trans {H : Hash} {a b c : State} (h : Below H a b) (h' : Below H b c) : Below H a c :=
  ⟨fun x hx => h'.asked x (h.asked x hx), h.signed.trans h'.signed, h.le.trans h'.le⟩

theorem below_hears (H : Hash) (ω : ℕ → Arr 32) (st : State) (x : Bytes) : Below H st (st.hears ω x) := by
  refine ⟨?_, by rw [hears_signed], le_hears H ω st x⟩
  unfold State.hears
  split
  · exact fun _ h => h
  · exact fun _ h => List.mem_append_left _ h

theorem program_signed (s : AdaptorForger.State) (x : Bytes) (e : Arr 32) : (s.program x e).signed = s.signed := by
  unfold AdaptorForger.State.program
  split <;> rfl

theorem le_noted (H : Hash) (sk : Scalar) (e : Arr 32 × Arr 32) (msg : Bytes) (T : MaybePoint) (st : State) :
    Le H st (noted sk e msg T st) := le_toState fun _ _ h => SoloForger.program_find_mono _ _ _ h

theorem idealState_signed (H : Hash) (sk : Scalar) (e : Arr 32 × Arr 32) (msg : Bytes) (T : MaybePoint) (st : State) :
    (idealState H sk e msg T st).signed = st.signed ++ [⟨msg, T, idealSig H sk e msg T st⟩] := by
  unfold idealState AdaptorForger.State.record noted
  simp only [program_signed]

theorem below_idealState (H : Hash) (sk : Scalar) (e : Arr 32 × Arr 32) (msg : Bytes) (T : MaybePoint) (st : State) :
    Below H st (idealState H sk e msg T st) :=
  ⟨fun _ h => h, by rw [idealState_signed]; exact List.prefix_append _ _, (le_noted H sk e msg T st).trans (le_record H _ _)⟩

theorem below_ideal (H : Hash) (sk : Scalar) (ω : ℕ → Arr 32) (κ : ℕ → Arr 32 × Arr 32) (A : AdaptorForger) (st : State) :
    Below H st (ideal H sk ω κ A st).2 := by
  induction A generalizing st with
  | submit msg sig =>
    refine ⟨fun _ h => h, ?_, le_toState fun x a e => SoloForger.ask_find ω st.toState _ e⟩
    unfold ideal
    simp only [AdaptorForger.ask_signed]
    exact List.prefix_rfl
  | ask x next ih =>
    unfold ideal
    exact (below_hears H ω st x).trans (ih _ _)
  | sign msg T next ih =>
    unfold ideal
    refine (below_hears H ω st msg).trans ?_
    cases (st.hears ω msg).old msg T with
    | some m => exact ih _ _
    | none =>
      cases (st.hears ω msg).clash msg with
      | some m => exact Below.rfl
      | none => exact (below_idealState H sk _ msg T _).trans (ih _ _)

/-- What is known of the states of the run without a chain. -/
structure Inv (H : Hash) (sk : Scalar) (κ : ℕ → Arr 32 × Arr 32) (st : State) : Prop where
  table : st.table = []
  heard : ∀ m ∈ st.signed, st.val H m.msg = some (st.hash H m.msg)
  sig : ∀ i m, st.signed[i]? = some m → ∃ c, st.val H (chalOf sk (κ i).1 m.T m.msg) = some c ∧ m.sig = sigOf sk (κ i).1 c m.T
  apart : ∀ (i i' : ℕ) (m m' : Made), st.signed[i]? = some m → st.signed[i']? = some m' → m.msg = m'.msg → i = i'

theorem Inv.init (H : Hash) (sk : Scalar) (κ : ℕ → Arr 32 × Arr 32) : Inv H sk κ State.init :=
  ⟨rfl, fun _ h => (by cases h), fun _ _ h => (by cases h), fun _ _ _ _ h => (by cases h)⟩

theorem Inv.of_le {H : Hash} {sk : Scalar} {κ : ℕ → Arr 32 × Arr 32} {st st' : State} (h : Inv H sk κ st) (ht : st'.table = [])
    (hs : st'.signed = st.signed) (hle : Le H st st') : Inv H sk κ st' := by
  have hh : ∀ m ∈ st.signed, st'.hash H m.msg = st.hash H m.msg := fun m hm => hash_of_val (hle _ _ (h.heard m hm))
  refine ⟨ht, ?_, ?_, ?_⟩
  · rw [hs]
    intro m hm
    rw [hh m hm]
    exact hle _ _ (h.heard m hm)
  · rw [hs]
    intro i m hm
    obtain ⟨c, h1, h2⟩ := h.sig i m hm
    exact ⟨c, hle _ _ h1, h2⟩
  · rw [hs]
    exact h.apart

theorem hears_table (ω : ℕ → Arr 32) (st : State) (x : Bytes) : (st.hears ω x).table = st.table := by
  unfold State.hears
  split <;> rfl

theorem Inv.hears {H : Hash} {sk : Scalar} {κ : ℕ → Arr 32 × Arr 32} {st : State} (h : Inv H sk κ st) (ω : ℕ → Arr 32) (x : Bytes) :
    Inv H sk κ (st.hears ω x) := h.of_le (by rw [hears_table, h.table]) (hears_signed ω st x) (le_hears H ω st x)

theorem val_chal {H : Hash} {st : State} (ht : st.table = []) {x : Bytes} (hx : Drawn x) : st.val H x = st.toState.find x := by
  unfold State.val
  rw [ht, if_pos hx]
  rfl

theorem noted_val (H : Hash) (sk : Scalar) (e : Arr 32 × Arr 32) (msg : Bytes) (T : MaybePoint) {st : State} (ht : st.table = []) :
    (noted sk e msg T st).val H (chalOf sk e.1 T msg)
      = some ((noted sk e msg T st).toState.hash H (chalOf sk e.1 T msg)) := by
  rw [val_chal (x := chalOf sk e.1 T msg) (by exact ht) (drawn_challengeQuery _ _ _)]
  obtain ⟨c, hc⟩ := SoloForger.program_find st.toState (chalOf sk e.1 T msg) e.2
  have hc' : (noted sk e msg T st).toState.find (chalOf sk e.1 T msg) = some c := hc
  unfold AdaptorForger.State.hash
  rw [hc']
  rfl

theorem Inv.idealState {H : Hash} {sk : Scalar} {κ : ℕ → Arr 32 × Arr 32} {st : State} (h : Inv H sk κ st) {msg : Bytes} (T : MaybePoint)
    (hm : st.val H msg = some (st.hash H msg)) (hc : st.clash msg = none) :
    Inv H sk κ (idealState H sk (κ st.signed.length) msg T st) := by
  have hle := (below_idealState H sk (κ st.signed.length) msg T st).le
  have hmem : ∀ m ∈ st.signed ++ [⟨msg, T, idealSig H sk (κ st.signed.length) msg T st⟩], st.val H m.msg = some (st.hash H m.msg) := by
    intro m h1
    rcases List.mem_append.1 h1 with h1 | h1
    · exact h.heard m h1
    · rw [List.mem_singleton.1 h1]
      exact hm
  have hh : ∀ m ∈ st.signed ++ [⟨msg, T, idealSig H sk (κ st.signed.length) msg T st⟩],
      (DetGame.idealState H sk (κ st.signed.length) msg T st).hash H m.msg = st.hash H m.msg :=
    fun m h1 => hash_of_val (hle _ _ (hmem m h1))
  have hcl := clash_none hc
  refine ⟨h.table, ?_, ?_, ?_⟩
  · rw [idealState_signed]
    intro m h1
    rw [hh m h1]
    exact hle _ _ (hmem m h1)
  · rw [idealState_signed]
    intro i m h1
    rcases Nat.lt_or_ge i st.signed.length with hi | hi
    · rw [List.getElem?_append_left hi] at h1
      obtain ⟨c, h2, h3⟩ := h.sig i m h1
      exact ⟨c, hle _ _ h2, h3⟩
    · rw [List.getElem?_append_right hi] at h1
      have hi' : i - st.signed.length = 0 := by
        by_contra hne
        rw [List.getElem?_eq_none (by simp; omega)] at h1
        cases h1
      rw [hi'] at h1
      simp only [List.getElem?_cons_zero, Option.some.injEq] at h1
      subst h1
      have : i = st.signed.length := by omega
      subst this
      exact ⟨_, le_record H _ _ _ _ (noted_val H sk _ msg T h.table), rfl⟩
  · rw [idealState_signed]
    intro i i' m m' h1 h2 h3
    have key : ∀ {i : ℕ} {m : Made}, (st.signed ++ [⟨msg, T, idealSig H sk (κ st.signed.length) msg T st⟩])[i]? = some m →
        (st.signed[i]? = some m ∧ m ∈ st.signed) ∨ (i = st.signed.length ∧ m.msg = msg) := by
      intro i m h1
      rcases Nat.lt_or_ge i st.signed.length with hi | hi
      · rw [List.getElem?_append_left hi] at h1
        exact .inl ⟨h1, List.mem_of_getElem? h1⟩
      · rw [List.getElem?_append_right hi] at h1
        have hi' : i - st.signed.length = 0 := by
          by_contra hne
          rw [List.getElem?_eq_none (by simp; omega)] at h1
          cases h1
        rw [hi'] at h1
        simp only [List.getElem?_cons_zero, Option.some.injEq] at h1
        exact .inr ⟨by omega, by rw [← h1]⟩
    rcases key h1 with ⟨a, b⟩ | ⟨a, b⟩ <;> rcases key h2 with ⟨a', b'⟩ | ⟨a', b'⟩
    · exact h.apart i i' m m' a a' h3
    · rw [b'] at h3
      exact absurd h3 (hcl m b)
    · rw [b] at h3
      exact absurd h3.symm (hcl m' b')
    · omega

theorem inv_ideal (H : Hash) (sk : Scalar) (ω : ℕ → Arr 32) (κ : ℕ → Arr 32 × Arr 32) (A : AdaptorForger) (st : State)
    (h : Inv H sk κ st) : Inv H sk κ (ideal H sk ω κ A st).2 := by
  induction A generalizing st with
  | submit msg sig =>
    unfold ideal
    exact h.of_le h.table (AdaptorForger.ask_signed _ _ _) (le_toState fun x a e => SoloForger.ask_find ω st.toState _ e)
  | ask x next ih =>
    unfold ideal
    exact ih _ _ (h.hears ω x)
  | sign msg T next ih =>
    unfold ideal
    have h0 := h.hears ω msg
    have hv := val_hears_hash H ω st msg
    rw [← hears_signed ω st msg]
    generalize st.hears ω msg = st₀ at h0 hv
    cases ho : st₀.old msg T with
    | some m => exact ih _ _ h0
    | none =>
      cases hc : st₀.clash msg with
      | some m => exact h0
      | none => exact ih _ _ (h0.idealState T hv hc)

/-! ## The chain hides in the random draws -/

theorem derive_fresh (H : Hash) (sk : Scalar) (msg : Bytes) (h1 : Arr 32) (d d' : ℕ → Arr 32) (st : State)
    (hx : ∀ j < 12, chain sk msg h1 d j ∉ st.asked ∧
      (st.table.find (chain sk msg h1 d j) = none ∧ d' j = d j ∨ st.table.find (chain sk msg h1 d j) = some (d j)))
    (hinj : ∀ j < 12, ∀ j' < 12, chain sk msg h1 d j = chain sk msg h1 d j' → j = j') (n : ℕ) (hn : n ≤ 12) :
    (st.derive H sk msg h1 d' n).1.toState = st.toState ∧ (st.derive H sk msg h1 d' n).1.asked = st.asked ∧
      (∀ j < n, (st.derive H sk msg h1 d' n).2 j = d j) ∧
      (∀ j < n, (st.derive H sk msg h1 d' n).1.table.find (chain sk msg h1 d j) = some (d j)) ∧
      (∀ x a, st.table.find x = some a → (st.derive H sk msg h1 d' n).1.table.find x = some a) ∧
      ∀ x, (st.derive H sk msg h1 d' n).1.table.find x ≠ none → st.table.find x ≠ none ∨ ∃ j < n, x = chain sk msg h1 d j := by
  induction n with
  | zero =>
    exact ⟨rfl, rfl, fun j hj => absurd hj (by omega), fun j hj => absurd hj (by omega), fun _ _ h => h, fun _ h => .inl h⟩
  | succ n ih =>
    obtain ⟨i1, i2, i3, i4, i5, i6⟩ := ih (by omega)
    unfold State.derive
    simp only
    generalize st.derive H sk msg h1 d' n = p at i1 i2 i3 i4 i5 i6
    have hc : chain sk msg h1 p.2 n = chain sk msg h1 d n := chain_congr sk msg h1 (by omega) i3
    rw [hc]
    obtain ⟨hna, hxn⟩ := hx n (by omega)
    have hd : (p.1.draw (chain sk msg h1 d n) (d' n)).toState = p.1.toState ∧ (p.1.draw (chain sk msg h1 d n) (d' n)).asked = p.1.asked ∧
        (p.1.draw (chain sk msg h1 d n) (d' n)).table.find (chain sk msg h1 d n) = some (d n) ∧
        (∀ x a, p.1.table.find x = some a → (p.1.draw (chain sk msg h1 d n) (d' n)).table.find x = some a) ∧
        ∀ x, (p.1.draw (chain sk msg h1 d n) (d' n)).table.find x ≠ none → p.1.table.find x ≠ none ∨ x = chain sk msg h1 d n := by
      rcases hxn with ⟨ho, hdd⟩ | ho
      · have hnew : p.1.table.find (chain sk msg h1 d n) = none := by
          by_contra hne
          rcases i6 _ hne with h | ⟨j, hj, h⟩
          · exact h ho
          · have := hinj n (by omega) j (by omega) h
            omega
        unfold State.draw
        rw [if_neg (by rw [not_or, i2, hnew]; exact ⟨hna, by simp⟩)]
        refine ⟨rfl, rfl, ?_, fun x a h => ?_, fun x h => ?_⟩
        · simp only
          rw [find_append, hnew, if_pos rfl, hdd]
          rfl
        · simp only
          rw [find_append, h]
          rfl
        · simp only at h
          rw [find_append] at h
          cases hp : p.1.table.find x with
          | some a => exact .inl (by simp)
          | none =>
            rw [hp, Option.none_or] at h
            split at h
            · rename_i he
              exact .inr he.symm
            · exact absurd rfl h
      · have hold := i5 _ _ ho
        unfold State.draw
        rw [if_pos (by rw [hold]; exact .inr rfl)]
        exact ⟨rfl, rfl, hold, fun _ _ h => h, fun _ h => .inl h⟩
    obtain ⟨d1, d2, hf, d4, d5⟩ := hd
    generalize p.1.draw (chain sk msg h1 d n) (d' n) = r at d1 d2 hf d4 d5
    refine ⟨d1.trans i1, d2.trans i2, fun j hj => ?_, fun j hj => ?_, fun x a h => d4 x a (i5 x a h), fun x h => ?_⟩
    · rcases Nat.lt_or_ge j n with hjn | hjn
      · rw [Function.update_of_ne (by omega)]
        exact i3 j hjn
      · have : j = n := by omega
        subst this
        rw [Function.update_self]
        unfold State.hash
        rw [hf]
        rfl
    · rcases Nat.lt_or_ge j n with hjn | hjn
      · exact d4 _ _ (i4 j hjn)
      · have : j = n := by omega
        subst this
        exact hf
    · rcases d5 x h with h' | h'
      · rcases i6 x h' with h'' | ⟨j, hj, h''⟩
        · exact .inl h''
        · exact .inr ⟨j, by omega, h''⟩
      · exact .inr ⟨n, by omega, h'⟩

/-- The message of the `i`-th signature. -/
def msgAt (F : State) (i : ℕ) : Bytes := (F.signed[i]?.map Made.msg).getD []

open Classical in
/-- The first signature whose message has the same hash as that of the `i`-th. -/
noncomputable def cls (H : Hash) (F : State) (i : ℕ) : ℕ :=
  Nat.find (p := fun k => F.hash H (msgAt F k) = F.hash H (msgAt F i)) ⟨i, rfl⟩

theorem cls_hash (H : Hash) (F : State) (i : ℕ) : F.hash H (msgAt F (cls H F i)) = F.hash H (msgAt F i) :=
  Nat.find_spec (p := fun k => F.hash H (msgAt F k) = F.hash H (msgAt F i)) ⟨i, rfl⟩

theorem cls_le (H : Hash) (F : State) (i : ℕ) : cls H F i ≤ i :=
  Nat.find_min' (p := fun k => F.hash H (msgAt F k) = F.hash H (msgAt F i)) ⟨i, rfl⟩ rfl

theorem cls_eq {H : Hash} {F : State} {i i' : ℕ} (h : F.hash H (msgAt F i) = F.hash H (msgAt F i')) : cls H F i = cls H F i' := by
  unfold cls
  simp only [h]

/-- The strings of the chain of the `i`-th signature. -/
noncomputable def links (H : Hash) (sk : Scalar) (v : ℕ → ℕ → Arr 32) (F : State) (i j : ℕ) : Bytes :=
  chain sk (msgAt F i) (F.hash H (msgAt F i)) (v (cls H F i)) j

/-- The messages matter only for the last string. -/
theorem chain_msg (sk : Scalar) (msg msg' : Bytes) (h1 : Arr 32) (v : ℕ → Arr 32) {j : ℕ} (hj : j < 11) :
    chain sk msg h1 v j = chain sk msg' h1 v j := by
  interval_cases j <;> rfl

theorem links_cls (H : Hash) (sk : Scalar) (v : ℕ → ℕ → Arr 32) (F : State) (i : ℕ) {j : ℕ} (hj : j < 11) :
    links H sk v F (cls H F i) j = links H sk v F i j := by
  unfold links
  rw [cls_eq (cls_hash H F i), cls_hash, chain_msg sk _ (msgAt F i) _ _ hj]

/-- The strings of the chains are new. -/
structure Good (H : Hash) (sk : Scalar) (v : ℕ → ℕ → Arr 32) (F : State) : Prop where
  parse : ∀ i < F.signed.length, parseScalar (v i 9).1 ≠ none
  asked : ∀ i < F.signed.length, ∀ j < 12, links H sk v F i j ∉ F.asked
  apart : ∀ i < F.signed.length, ∀ i' < F.signed.length, ∀ j < 12, ∀ j' < 12,
    links H sk v F i j = links H sk v F i' j' → cls H F i = cls H F i' ∧ j = j' ∧ (j = 11 → i = i')

theorem links_draws (H : Hash) (sk : Scalar) (v : ℕ → ℕ → Arr 32) (F : State) (i : ℕ) (a : Arr 32) {j : ℕ} (hj : j < 12) :
    chain sk (msgAt F i) (F.hash H (msgAt F i)) (drawsOf (v (cls H F i)) a) j = links H sk v F i j := by
  refine chain_congr _ _ _ hj fun k hk => ?_
  unfold drawsOf
  rw [if_neg (by omega)]

/-- The real state `r` beside the state `st` of the run without a chain. -/
structure Rel (H : Hash) (sk : Scalar) (v : ℕ → ℕ → Arr 32) (κ : ℕ → Arr 32 × Arr 32) (F r st : State) : Prop where
  toState : r.toState = st.toState
  asked : r.asked = st.asked
  drawn : ∀ i < st.signed.length, ∀ j < 12, r.table.find (links H sk v F i j) = some (drawsOf (v (cls H F i)) (κ i).1 j)
  only : ∀ x, r.table.find x ≠ none → ∃ i < st.signed.length, ∃ j < 12, x = links H sk v F i j

section
variable {H : Hash} {sk : Scalar} {v : ℕ → ℕ → Arr 32} {κ : ℕ → Arr 32 × Arr 32} {F r st : State}

theorem Rel.table_none (h : Rel H sk v κ F r st) (hg : Good H sk v F) (hb : Below H st F) {x : Bytes} (hx : x ∈ F.asked ∨ Drawn x) :
    r.table.find x = none := by
  by_contra hne
  obtain ⟨i, hi, j, hj, rfl⟩ := h.only x hne
  rcases hx with hx | hx
  · exact hg.asked i (hi.trans_le hb.signed.length_le) j hj hx
  · exact not_drawn_chain _ _ _ _ _ hx

theorem Rel.hash (h : Rel H sk v κ F r st) (ht : st.table = []) (hg : Good H sk v F) (hb : Below H st F) {x : Bytes}
    (hx : x ∈ F.asked ∨ Drawn x) : r.hash H x = st.hash H x := by
  unfold State.hash
  rw [h.table_none hg hb hx, ht, h.toState]
  rfl

theorem Rel.hears (h : Rel H sk v κ F r st) (ω : ℕ → Arr 32) (x : Bytes) : Rel H sk v κ F (r.hears ω x) (st.hears ω x) := by
  refine ⟨?_, ?_, ?_, ?_⟩
  · unfold State.hears
    split
    · simp only [h.toState]
    · exact h.toState
  · unfold State.hears
    split
    · exact h.asked
    · simp only [h.asked]
  · rw [hears_signed, hears_table]
    exact h.drawn
  · rw [hears_signed, hears_table]
    exact h.only

theorem mem_hears (ω : ℕ → Arr 32) (st : State) (x : Bytes) : x ∈ (st.hears ω x).asked ∨ Drawn x := by
  by_cases hd : Drawn x
  · exact .inr hd
  · left
    unfold State.hears
    rw [if_neg hd]
    simp

end

/-- The outcome of the run without a chain is a forgery. -/
def IdealWins (H : Hash) (P : Point) (out : Option (Bytes × CompactSignature) × State) : Prop :=
  ∃ msg sig, out.1 = some (msg, sig) ∧ (⟨msg, sig, out.2.toState⟩ : AdaptorForger.Outcome).Wins H P

theorem verify_hash {H : Hash} {r : State} (hr : ∀ x, Drawn x → r.table.find x = none) (P : Point) (sig : CompactSignature) (msg : Bytes) :
    verifySingle (r.hash H) P sig msg = verifySingle (r.toState.hash H) P sig msg := by
  refine SoloForger.verifySingle_congr (fun rx Q m => ?_) P sig msg
  have hd := drawn_challengeQuery rx Q m
  unfold State.hash
  rw [hr _ hd, if_pos hd]
  rfl

theorem real_ideal (H : Hash) (sk : Scalar) (ω : ℕ → Arr 32) (v : ℕ → ℕ → Arr 32) (κ : ℕ → Arr 32 × Arr 32) (F : State) (hg : Good H sk v F)
    (A : AdaptorForger) (r st : State) (hrel : Rel H sk v κ F r st) (hinv : Inv H sk κ st) (hF : (ideal H sk ω κ A st).2 = F)
    (hw : (run H sk ω v κ A r).Wins H (mulG sk)) : IdealWins H (mulG sk) (ideal H sk ω κ A st) := by
  induction A generalizing r st with
  | submit msg sig =>
    unfold run at hw
    unfold ideal
    refine ⟨msg, sig, rfl, ?_⟩
    obtain ⟨h1, h2⟩ := hw
    have hb := below_ideal H sk ω κ (.submit msg sig) st
    rw [hF] at hb
    have h3 := (verify_hash (H := H)
      (r := { r with toState := r.toState.ask ω (Spec.challengeQuery sig.rx.1 (mulG sk) msg) })
      (fun x hx => hrel.table_none hg hb (.inr hx)) (mulG sk) sig msg).symm.trans h1
    simp only [hrel.toState] at h3 h2
    exact ⟨h3, h2⟩
  | ask x next ih =>
    unfold run at hw
    unfold ideal at hF ⊢
    have hrel' := hrel.hears ω x
    have hinv' := hinv.hears ω x
    have hb := below_ideal H sk ω κ (next ((st.hears ω x).hash H x)) (st.hears ω x)
    rw [hF] at hb
    rw [hrel'.hash hinv'.table hg hb ((mem_hears ω st x).imp_left (hb.asked x))] at hw
    exact ih _ _ _ hrel' hinv' hF hw
  | sign msg T next ih =>
    unfold run at hw
    have hrel' := hrel.hears ω msg
    have hinv' := hinv.hears ω msg
    have hv := val_hears_hash H ω st msg
    have hvr := val_hears_hash H ω r msg
    have hmem := mem_hears ω st msg
    have hlen : r.signed.length = (st.hears ω msg).signed.length := by
      rw [hears_signed]
      exact congrArg (fun s => s.signed.length) hrel.toState
    unfold ideal at hF ⊢
    rw [hlen] at hw
    rw [← hears_signed ω st msg] at hF ⊢
    have hbF : Below H (st.hears ω msg) F := by
      rw [← hF]
      cases (st.hears ω msg).old msg T with
      | some m => exact below_ideal _ _ _ _ _ _
      | none =>
        cases (st.hears ω msg).clash msg with
        | some m => exact Below.rfl
        | none => exact (below_idealState H sk _ msg T _).trans (below_ideal _ _ _ _ _ _)
    generalize st.hears ω msg = st₀ at *
    generalize r.hears ω msg = r₀ at *
    have hsigned : r₀.signed = st₀.signed := congrArg (fun s => s.signed) hrel'.toState
    have hmsg : msg ∈ F.asked ∨ Drawn msg := hmem.imp_left (hbF.asked msg)
    have hhm : r₀.hash H msg = st₀.hash H msg := hrel'.hash hinv'.table hg hbF hmsg
    have hold : r₀.old msg T = st₀.old msg T := by
      unfold State.old
      rw [hsigned]
    have hclash : r₀.clash msg = st₀.clash msg := by
      unfold State.clash
      rw [hsigned]
    cases ho : st₀.old msg T with
    | some m =>
      rw [ho] at hF
      simp only at hF ⊢
      obtain ⟨h1, h2, h3⟩ := old_some ho
      obtain ⟨i, hi, hget⟩ := List.mem_iff_getElem.1 h1
      have hget? : st₀.signed[i]? = some m := by rw [List.getElem?_eq_getElem hi, hget]
      obtain ⟨c, h4, h5⟩ := hinv'.sig i m hget?
      have hFi : F.signed[i]? = some m := by
        obtain ⟨t, ht⟩ := hbF.signed
        rw [← ht, List.getElem?_append_left hi, hget?]
      have hmi : msgAt F i = msg := by
        unfold msgAt
        rw [hFi, ← h2]
        rfl
      have hFh : F.hash H msg = st₀.hash H msg := hash_of_val (hbF.le _ _ hv)
      have hiF : i < F.signed.length := hi.trans_le hbF.signed.length_le
      have hlink : ∀ j < 12, chain sk msg (st₀.hash H msg) (drawsOf (v (cls H F i)) (κ i).1) j = links H sk v F i j := by
        intro j hj
        rw [← links_draws H sk v F i (κ i).1 hj, hmi, hFh]
      have hs : deterministicSignSoloAdaptor (r₀.hash H) sk msg T = some m.sig := by
        rw [sign_chain (d := drawsOf (v (cls H F i)) (κ i).1) T hhm (fun j hj => ?_) (by
          unfold drawsOf
          rw [if_neg (by decide)]
          exact hg.parse _ ((cls_le H F i).trans_lt hiF))]
        · rw [h5, h3]
          congr 2
          have hdr : drawsOf (v (cls H F i)) (κ i).1 11 = (κ i).1 := rfl
          rw [hdr, hrel'.hash (x := chalOf sk (κ i).1 T msg) hinv'.table hg hbF (.inr (drawn_challengeQuery _ _ _))]
          rw [h2, h3] at h4
          exact hash_of_val h4
        · rw [hlink j hj]
          unfold State.hash
          rw [hrel'.drawn i hi j hj]
          rfl
      rw [reply_repeat (hold.trans ho) hs] at hw
      exact ih _ _ _ hrel' hinv' hF hw
    | none =>
      rw [ho] at hF
      simp only at hF ⊢
      cases hc : st₀.clash msg with
      | some m =>
        rw [reply_lost (hold.trans ho) (hclash.trans hc)] at hw
        exact hw.elim
      | none =>
        rw [hc] at hF
        simp only at hF ⊢
        set n := st₀.signed.length with hn
        have hb3 := below_ideal H sk ω κ (next (idealSig H sk (κ n) msg T st₀)) (idealState H sk (κ n) msg T st₀)
        rw [hF] at hb3
        have hsg := idealState_signed H sk (κ n) msg T st₀
        have hnF : n < F.signed.length := by
          have := hb3.signed.length_le
          rw [hsg, List.length_append, List.length_singleton] at this
          omega
        have hmn : msgAt F n = msg := by
          obtain ⟨t, ht⟩ := hb3.signed
          unfold msgAt
          rw [← ht, hsg, List.append_assoc, List.getElem?_append_right (le_of_eq hn.symm), hn, Nat.sub_self]
          rfl
        have hFh : F.hash H msg = st₀.hash H msg := hash_of_val (hbF.le _ _ hv)
        have hlink : ∀ j < 12, chain sk msg (st₀.hash H msg) (drawsOf (v (cls H F n)) (κ n).1) j = links H sk v F n j := by
          intro j hj
          rw [← links_draws H sk v F n (κ n).1 hj, hmn, hFh]
        have hfr := derive_fresh H sk msg (st₀.hash H msg) (drawsOf (v (cls H F n)) (κ n).1) (drawsOf (v n) (κ n).1) r₀ (fun j hj => by
          rw [hlink j hj]
          refine ⟨fun h => hg.asked n hnF j hj ?_, ?_⟩
          · rw [hrel'.asked] at h
            exact hbF.asked _ h
          · by_cases hne : r₀.table.find (links H sk v F n j) = none
            · refine .inl ⟨hne, ?_⟩
              by_cases hj11 : j = 11
              · subst hj11
                rfl
              · rcases (cls_le H F n).lt_or_eq with hlt | heq
                · have := hrel'.drawn _ hlt j hj
                  rw [links_cls H sk v F n (by omega), hne] at this
                  cases this
                · rw [heq]
            · obtain ⟨i, hi, j', hj', he⟩ := hrel'.only _ hne
              obtain ⟨e1, e2, e3⟩ := hg.apart n hnF i (hi.trans_le hbF.signed.length_le) j hj j' hj' he
              subst e2
              have hj11 : j ≠ 11 := fun h => by
                have := e3 h
                omega
              right
              rw [he, hrel'.drawn i hi j hj, e1]
              unfold drawsOf
              rw [if_neg hj11, if_neg hj11]) (fun j hj j' hj' he => by
          rw [hlink j hj, hlink j' hj'] at he
          exact (hg.apart n hnF n hnF j hj j' hj' he).2.1) 12 le_rfl
        have hfv := fresh_val H sk (v n) (κ n) msg r₀
        have hfe : fresh H sk (v n) (κ n) msg r₀ = r₀.derive H sk msg (st₀.hash H msg) (drawsOf (v n) (κ n).1) 12 := by
          unfold fresh
          rw [hhm]
        rw [← hfe] at hfr
        obtain ⟨f1, f2, f3, f4, f5, f6⟩ := hfr
        rw [hhm] at hfv
        have hp : parseScalar ((fresh H sk (v n) (κ n) msg r₀).2 9).1 ≠ none := by
          rw [f3 9 (by decide)]
          exact hg.parse _ ((cls_le H F n).trans_lt hnF)
        obtain ⟨sig, s1, s2, s3⟩ := reply_new (hold.trans ho) (hclash.trans hc) hvr hp (T := T)
        rw [s3] at hw
        have hafter : after H sk (v n) (κ n) msg T r₀
            = { (fresh H sk (v n) (κ n) msg r₀).1 with toState := (noted sk (κ n) msg T st₀).toState } := by
          unfold after noted
          rw [f3 11 (by decide), f1, hrel'.toState]
          rfl
        have hle : Le H (fresh H sk (v n) (κ n) msg r₀).1 (after H sk (v n) (κ n) msg T r₀) := by
          unfold after
          exact le_toState fun x a h => SoloForger.program_find_mono _ _ _ h
        rw [hafter] at s1 s2 hle hw
        clear hafter s3 hfe
        generalize fresh H sk (v n) (κ n) msg r₀ = p at *
        have htab : ∀ x, Drawn x → p.1.table.find x = none := by
          intro x hx
          by_contra hne
          rcases f6 x hne with h | ⟨j, hj, rfl⟩
          · exact h (hrel'.table_none hg hbF (.inr hx))
          · exact not_drawn_chain _ _ _ _ _ hx
        have hsig : sig = idealSig H sk (κ n) msg T st₀ := by
          have h1 := s1.sign
          rw [sign_chain T (hash_of_val (s2 _ _ (by rw [hvr, hhm]))) (fun j hj => hash_of_val (hle _ _ (hfv.2 j hj))) hp,
            Option.some.injEq, f3 11 (by decide)] at h1
          rw [← h1]
          unfold idealSig
          congr 1
          have hd : Drawn (chalOf sk (κ n).1 T msg) := drawn_challengeQuery _ _ _
          unfold State.hash
          change (p.1.table.find (chalOf sk (κ n).1 T msg)).getD _ = _
          rw [htab _ hd, if_pos (show Drawn (chalOf sk (drawsOf (v (cls H F n)) (κ n).1 11) T msg) from hd)]
          rfl
        subst hsig
        refine ih _ _ _ ⟨?_, ?_, ?_, ?_⟩ (hinv'.idealState T hv hc) hF hw
        · rfl
        · exact f2.trans hrel'.asked
        · rw [hsg, List.length_append, List.length_singleton]
          intro i hi j hj
          rcases Nat.lt_or_ge i n with hin | hin
          · exact f5 _ _ (hrel'.drawn i hin j hj)
          · have : i = n := by omega
            subst this
            rw [← hlink j hj]
            exact f4 j hj
        · rw [hsg, List.length_append, List.length_singleton]
          intro x hx
          rcases f6 x hx with h | ⟨j, hj, h⟩
          · obtain ⟨i, hi, j, hj, e⟩ := hrel'.only x h
            exact ⟨i, by omega, j, hj, e⟩
          · exact ⟨n, by omega, j, hj, by rw [h, hlink j hj]⟩

/-! ## Whoever hashes the key forges -/

theorem hears_toState_drawn {ω : ℕ → Arr 32} {st : State} {x : Bytes} (hd : Drawn x) : (st.hears ω x).toState = st.toState.ask ω x := by
  unfold State.hears
  rw [if_pos hd]

theorem hears_toState {ω : ℕ → Arr 32} {st : State} {x : Bytes} (hd : ¬ Drawn x) : (st.hears ω x).toState = st.toState := by
  unfold State.hears
  rw [if_neg hd]

theorem hears_hash_drawn {H : Hash} {ω : ℕ → Arr 32} {st : State} {x : Bytes} (ht : st.table = []) (hd : Drawn x) :
    (st.hears ω x).hash H x = st.toState.answer ω x := by
  refine hash_of_val ?_
  rw [val_chal (by rw [hears_table, ht]) hd, hears_toState_drawn hd, SoloForger.answer_ask]

theorem hears_hash {H : Hash} {ω : ℕ → Arr 32} {st : State} {x : Bytes} (ht : st.table = []) (hd : ¬ Drawn x) :
    (st.hears ω x).hash H x = H x := by
  unfold State.hash
  rw [hears_table, ht, if_neg hd]
  rfl

theorem mem_hears_iff {ω : ℕ → Arr 32} {st : State} {x y : Bytes} (h : y ∈ (st.hears ω x).asked) : y ∈ st.asked ∨ y = x := by
  unfold State.hears at h
  split at h
  · exact .inl h
  · simpa using h

theorem strip_wins (H : Hash) (sk : Scalar) (seed ω : ℕ → Arr 32) (κ : ℕ → Arr 32 × Arr 32) (A : AdaptorForger) (st : State)
    (ht : st.table = []) (hk : ∀ x ∈ st.asked, keyAt (mulG sk) x = none)
    (hw : IdealWins H (mulG sk) (ideal H sk ω κ A st) ∨ ∃ x ∈ (ideal H sk ω κ A st).2.asked, keyAt (mulG sk) x ≠ none) :
    ((strip (mulG sk) A st.signed).run H sk seed ω κ st.toState).Wins H (mulG sk) := by
  induction A generalizing st with
  | submit msg sig =>
    unfold ideal at hw
    unfold strip AdaptorForger.run
    rcases hw with ⟨msg', sig', h1, h2⟩ | ⟨x, h1, h2⟩
    · cases h1
      exact h2
    · exact absurd (hk x h1) h2
  | ask x next ih =>
    unfold ideal at hw
    unfold strip
    cases hx : keyAt (mulG sk) x with
    | some d => exact SoloForger.cheat_wins H sk seed ω κ d (keyAt_some hx) _ _ fun m hm => List.mem_map_of_mem hm
    | none =>
      simp only
      unfold AdaptorForger.run
      have hk' : ∀ y ∈ (st.hears ω x).asked, keyAt (mulG sk) y = none := by
        intro y hy
        rcases mem_hears_iff hy with h | rfl
        · exact hk y h
        · exact hx
      have hi := ih _ (st.hears ω x) (by rw [hears_table, ht]) hk' hw
      rw [hears_signed] at hi
      by_cases hd : Drawn x
      · rw [if_pos hd]
        rw [hears_hash_drawn ht hd, hears_toState_drawn hd] at hi
        exact hi
      · rw [if_neg hd]
        rw [hears_hash ht hd, hears_toState hd] at hi
        exact hi
  | sign msg T next ih =>
    unfold ideal at hw
    unfold strip
    cases hx : keyAt (mulG sk) msg with
    | some d => exact SoloForger.cheat_wins H sk seed ω κ d (keyAt_some hx) _ _ fun m hm => List.mem_map_of_mem hm
    | none =>
      simp only
      have hk' : ∀ y ∈ (st.hears ω msg).asked, keyAt (mulG sk) y = none := by
        intro y hy
        rcases mem_hears_iff hy with h | rfl
        · exact hk y h
        · exact hx
      have ht' : (st.hears ω msg).table = [] := by rw [hears_table, ht]
      have hrun : ∀ B : AdaptorForger, (AdaptorForger.ask msg fun _ => B).run H sk seed ω κ st.toState
          = B.run H sk seed ω κ (st.hears ω msg).toState := by
        intro B
        rw [AdaptorForger.run]
        by_cases hd : Drawn msg
        · rw [if_pos hd, hears_toState_drawn hd]
        · rw [if_neg hd, hears_toState hd]
      rw [hrun, ← hears_signed ω st msg]
      rw [← hears_signed ω st msg] at hw
      generalize st.hears ω msg = st₀ at *
      change AdaptorForger.Outcome.Wins H (mulG sk) (AdaptorForger.run H sk seed ω κ
        (match st₀.old msg T with
          | some m => strip (mulG sk) (next m.sig) st₀.signed
          | none => .sign msg T fun sig => strip (mulG sk) (next sig) (st₀.signed ++ [⟨msg, T, sig⟩])) st₀.toState)
      cases ho : st₀.old msg T with
      | some m =>
        rw [ho] at hw
        exact ih _ st₀ ht' hk' hw
      | none =>
        rw [ho] at hw
        simp only at hw ⊢
        cases hc : st₀.clash msg with
        | some m =>
          rw [hc] at hw
          rcases hw with ⟨_, _, h1, _⟩ | ⟨x, h1, h2⟩
          · cases h1
          · exact absurd (hk' x h1) h2
        | none =>
          rw [hc] at hw
          simp only at hw
          have hi := ih _ _ (by exact ht') (by exact hk') hw
          rw [idealState_signed] at hi
          unfold AdaptorForger.run
          simp only
          rw [SoloForger.adaptor_sign_eq, SoloForger.adaptor_sign_eq]
          exact hi

theorem asks_mono {A : AdaptorForger} {q s : ℕ} (h : A.AsksAtMost q s) : A.AsksAtMost q (s + 1) := by
  induction h with
  | submit => exact .submit _ _ _ _
  | ask q s x next _ ih => exact .ask _ _ _ _ ih
  | other q s x next hx _ ih => exact .other _ _ _ _ hx ih
  | sign q s msg T next _ ih => exact .sign _ _ _ _ _ ih

theorem strip_asks (P : Point) {q m s : ℕ} {A : AdaptorForger} (hA : AsksAtMost q m s A) (made : List Made) :
    (strip P A made).AsksAtMost (q + s + 1) s := by
  have hc : ∀ (q s : ℕ) (d : Scalar) (msgs : List Bytes), (SoloForger.cheat P d msgs).AsksAtMost (q + 1) s :=
    fun q s d msgs => .ask q s _ _ fun _ => .submit q s _ _
  induction hA generalizing made with
  | submit => exact .submit _ _ _ _
  | challenge q m s x next hx _ ih =>
    unfold strip
    split
    · exact hc _ _ _ _
    · rw [show q + 1 + s + 1 = q + s + 1 + 1 by omega]
      exact .ask _ _ _ _ fun a => ih a made
  | other q m s x next hx _ ih =>
    unfold strip
    split
    · exact hc _ _ _ _
    · exact .other _ _ _ _ hx fun a => ih a made
  | sign q m s msg T next _ ih =>
    unfold strip
    split
    · exact hc _ _ _ _
    · rw [show q + (s + 1) + 1 = q + s + 1 + 1 by omega]
      refine .ask _ _ _ _ fun a => ?_
      split
      · exact asks_mono (ih _ _)
      · exact .sign _ _ _ _ _ fun sig => ih _ _

theorem hears_length (ω : ℕ → Arr 32) (st : State) (x : Bytes) : (st.hears ω x).asked.length ≤ st.asked.length + 1 := by
  unfold State.hears
  split
  · exact Nat.le_succ _
  · simp

theorem ideal_counts (H : Hash) (sk : Scalar) (ω : ℕ → Arr 32) (κ : ℕ → Arr 32 × Arr 32) {q m s : ℕ} {A : AdaptorForger}
    (hA : AsksAtMost q m s A) (st : State) :
    (ideal H sk ω κ A st).2.asked.length ≤ st.asked.length + (m + s) ∧
      (ideal H sk ω κ A st).2.signed.length ≤ st.signed.length + s := by
  induction hA generalizing st with
  | submit q m s msg sig =>
    unfold ideal
    simp only [AdaptorForger.ask_signed]
    exact ⟨by omega, by omega⟩
  | challenge q m s x next hx _ ih =>
    unfold ideal
    obtain ⟨h1, h2⟩ := ih ((st.hears ω x).hash H x) (st.hears ω x)
    rw [hears_signed] at h2
    have : (st.hears ω x).asked = st.asked := by
      unfold State.hears
      rw [if_pos hx]
    rw [this] at h1
    exact ⟨h1, h2⟩
  | other q m s x next hx _ ih =>
    unfold ideal
    obtain ⟨h1, h2⟩ := ih ((st.hears ω x).hash H x) (st.hears ω x)
    rw [hears_signed] at h2
    have := hears_length ω st x
    exact ⟨by omega, by omega⟩
  | sign q m s msg T next _ ih =>
    unfold ideal
    have h0 := hears_length ω st msg
    rw [← hears_signed ω st msg]
    generalize st.hears ω msg = st₀ at *
    cases st₀.old msg T with
    | some m' =>
      obtain ⟨h1, h2⟩ := ih m'.sig st₀
      exact ⟨by simp only; omega, by simp only; omega⟩
    | none =>
      cases st₀.clash msg with
      | some m' => exact ⟨by simp only; omega, by simp only; omega⟩
      | none =>
        obtain ⟨h1, h2⟩ := ih (idealSig H sk (κ st₀.signed.length) msg T st₀) (idealState H sk (κ st₀.signed.length) msg T st₀)
        rw [idealState_signed, List.length_append, List.length_singleton] at h2
        have h3 : (idealState H sk (κ st₀.signed.length) msg T st₀).asked = st₀.asked := rfl
        rw [h3] at h1
        exact ⟨by simp only; omega, by simp only; omega⟩

/-! ## How often the chain does not hide -/

/-- A string of a chain is not new. -/
def Bad (H : Hash) (sk : Scalar) (F : State) (s : ℕ) (v : ℕ → ℕ → Arr 32) : Prop :=
  ∃ i : Fin s, (v i 9 ∉ goodArr) ∨ ∃ j : Fin 11, links H sk v F i (j + 1) ∈ F.asked ∨
    ∃ (i' : Fin s) (j' : Fin 12), (cls H F i' ≠ cls H F i ∨ j'.1 ≤ j.1) ∧ links H sk v F i (j + 1) = links H sk v F i' j'

theorem good_of (H : Hash) (sk : Scalar) (κ : ℕ → Arr 32 × Arr 32) (F : State) (s : ℕ) (v : ℕ → ℕ → Arr 32) (hi : Inv H sk κ F)
    (hs : F.signed.length ≤ s) (hb : ¬ Bad H sk F s v) (hk : ∀ x ∈ F.asked, keyAt (mulG sk) x = none) : Good H sk v F := by
  unfold Bad at hb
  push Not at hb
  refine ⟨fun i h => ?_, fun i h j hj => ?_, ?_⟩
  · have := (hb ⟨i, h.trans_le hs⟩).1
    intro hn
    exact parseScalar_eq_none.1 hn this
  · cases j with
    | zero =>
      intro hm
      have := hk _ hm
      unfold links at this
      rw [keyAt_chain] at this
      cases this
    | succ j => exact ((hb ⟨i, h.trans_le hs⟩).2 ⟨j, by omega⟩).1
  · have key : ∀ i < F.signed.length, ∀ i' < F.signed.length, ∀ j < 11, ∀ j' < 12, (cls H F i' ≠ cls H F i ∨ j' ≤ j) →
        links H sk v F i (j + 1) ≠ links H sk v F i' j' := by
      intro i h i' h' j hj j' hj' hne
      exact ((hb ⟨i, h.trans_le hs⟩).2 ⟨j, hj⟩).2 ⟨i', h'.trans_le hs⟩ ⟨j', hj'⟩ hne
    intro i h i' h' j hj j' hj' he
    have h0 : ∀ i (h : i < F.signed.length), msgAt F i = F.signed[i].msg := by
      intro i h
      unfold msgAt
      rw [List.getElem?_eq_getElem h]
      rfl
    cases j with
    | zero =>
      cases j' with
      | zero =>
        exact ⟨cls_eq (chain_zero_inj he), rfl, fun h => absurd h (by decide)⟩
      | succ j' =>
        exact absurd he.symm (key i' h' i h j' (by omega) 0 (by omega) (.inr (Nat.zero_le _)))
    | succ j =>
      by_cases hii : cls H F i' = cls H F i
      · rcases Nat.lt_trichotomy j' (j + 1) with hl | hl | hl
        · exact absurd he (key i h i' h' j (by omega) j' hj' (.inr (by omega)))
        · subst hl
          refine ⟨hii.symm, rfl, fun h11 => ?_⟩
          obtain rfl : j = 10 := by omega
          have h1 := (SoloForger.nonceQuery_inj he).2
          rw [h0 i h, h0 i' h'] at h1
          exact hi.apart i i' _ _ (List.getElem?_eq_getElem h) (List.getElem?_eq_getElem h') h1
        · obtain ⟨k, rfl⟩ : ∃ k, j' = k + 1 := ⟨j' - 1, by omega⟩
          exact absurd he.symm (key i' h' i h k (by omega) (j + 1) hj (.inr (by omega)))
      · exact absurd he (key i h i' h' j (by omega) j' hj' (.inl hii))

theorem chance_two {s n : ℕ} {Ω : Type} [Finite Ω] (i : Fin s) (j : Fin n) (E : (Fin s → Fin n → Ω) → Prop) (c : ℚ) (hc : 0 ≤ c)
    (h : ∀ v, (Spec.chance fun t => E (Function.update v i (Function.update (v i) j t))) ≤ c) : Spec.chance E ≤ c := by
  refine Decision.chance_update_le i E c hc fun τ => ?_
  refine Decision.chance_update_le j _ c hc fun w => ?_
  have := h (Function.update τ i w)
  simpa only [Function.update_self, Function.update_idem] using this

theorem chance_list {f : Arr 32 → Bytes} (hf : Function.Injective f) (L : List Bytes) :
    (Spec.chance fun t => f t ∈ L) ≤ L.length / 2 ^ 256 := by
  have h1 := Adaptive.ncard_preimage_list hf L
  unfold Spec.chance
  rw [arr_card]
  have : (((256 ^ 32 : ℕ) : ℕ) : ℚ) = 2 ^ 256 := by norm_num
  rw [this]
  exact div_le_div_of_nonneg_right (by exact_mod_cast h1) (by positivity)

theorem chance_not_goodArr : (Spec.chance fun t : Arr 32 => t ∉ goodArr) ≤ 1 / 2 ^ 127 := by
  haveI : Nonempty (Arr 32) := ⟨zeroSeed⟩
  have h := CmaForger.chance_not_good 1
  have h1 : (Spec.chance fun κ : Fin 1 → Arr 32 × Arr 32 => (κ 0).1 ∉ goodArr) = Spec.chance fun e : Arr 32 × Arr 32 => e.1 ∉ goodArr :=
    Decision.chance_eval_one (Y := fun _ => Arr 32 × Arr 32) (0 : Fin 1) fun e => e.1 ∉ goodArr
  rw [CmaForger.chance_fst (Ω' := Arr 32) fun t : Arr 32 => t ∉ goodArr] at h1
  rw [← h1]
  refine le_trans (CmaForger.chance_mono fun κ hκ => ⟨0, hκ⟩) (h.trans (by norm_num))

theorem blocks_update {s : ℕ} (v : Fin s → Fin 11 → Arr 32) (i : Fin s) (j : Fin 11) (t : Arr 32) :
    blocks (Function.update v i (Function.update (v i) j t)) i j = t ∧
      (∀ k < j.1, blocks (Function.update v i (Function.update (v i) j t)) i k = blocks v i k) ∧
      ∀ i' : Fin s, i' ≠ i → blocks (Function.update v i (Function.update (v i) j t)) i' = blocks v i' := by
  unfold blocks answers
  refine ⟨?_, fun k hk => ?_, fun i' hi' => ?_⟩
  · simp
  · simp only [Fin.is_lt, dite_true, Function.update_self]
    split
    · rename_i h
      rw [Function.update_of_ne]
      intro e
      rw [Fin.ext_iff] at e
      simp only at e
      omega
    · rfl
  · simp only [Fin.is_lt, dite_true, Fin.eta, Function.update_of_ne hi']

theorem chance_bad (H : Hash) (sk : Scalar) (F : State) (s : ℕ) :
    (Spec.chance fun v : Fin s → Fin 11 → Arr 32 => Bad H sk F s (blocks v))
      ≤ s * (1 / 2 ^ 127 + 11 * (F.asked.length / 2 ^ 256 + s * (12 * (1 / 2 ^ 256)))) := by
  have hN : (0 : ℚ) < 2 ^ 256 := by positivity
  refine CmaForger.chance_exists_fin s _ _ fun i => ?_
  refine (CmaForger.chance_or _ _).trans (add_le_add ?_ ?_)
  · refine chance_two i 9 _ _ (by positivity) fun v => ?_
    refine le_trans (CmaForger.chance_mono fun t ht => ?_) chance_not_goodArr
    have := (blocks_update v i 9 t).1
    rw [show ((9 : Fin 11) : ℕ) = 9 from rfl] at this
    rwa [this] at ht
  · refine le_trans (CmaForger.chance_exists_fin 11 _ (F.asked.length / 2 ^ 256 + s * (12 * (1 / 2 ^ 256))) fun j => ?_) (by norm_num)
    let c : Fin s := ⟨cls H F i, (cls_le H F i).trans_lt i.2⟩
    have hinj : ∀ v : Fin s → Fin 11 → Arr 32, Function.Injective fun t =>
        links H sk (blocks (Function.update v c (Function.update (v c) j t))) F i (j + 1) := by
      intro v t t' h
      have := chain_inj _ _ _ _ _ j.2 h
      have e1 := (blocks_update v c j t).1
      have e2 := (blocks_update v c j t').1
      exact e1.symm.trans (this.trans e2)
    refine (CmaForger.chance_or _ _).trans (add_le_add ?_ ?_)
    · exact chance_two c j _ _ (by positivity) fun v => chance_list (hinj v) F.asked
    · refine CmaForger.chance_exists_fin s _ _ fun i' => ?_
      refine le_trans (CmaForger.chance_exists_fin 12 _ (1 / 2 ^ 256) fun j' => ?_) (by norm_num)
      by_cases hij : cls H F i' ≠ cls H F i ∨ j'.1 ≤ j.1
      · refine chance_two c j _ _ (by positivity) fun v => ?_
        refine le_trans (CmaForger.chance_mono fun t ht => ?_) ((chance_list (hinj v) [links H sk (blocks v) F i' j']).trans
          (by simp))
        rw [List.mem_singleton]
        refine ht.2.trans ?_
        obtain ⟨-, h2, h3⟩ := blocks_update v c j t
        unfold links
        by_cases hi : cls H F i' = cls H F i
        · rw [hi]
          refine chain_congr _ _ _ j'.2 fun k hk => h2 k ?_
          have := hij.resolve_left (by simp [hi])
          omega
        · rw [h3 ⟨cls H F i', (cls_le H F i').trans_lt i'.2⟩ fun e => hi (Fin.ext_iff.1 e)]
      · refine le_trans (CmaForger.chance_mono (F := fun _ => False) fun v hv => hij hv.1) ?_
        unfold Spec.chance
        simp

theorem forges_cases {q m s : ℕ} (H : Hash) (sk : Scalar) (seed : ℕ → Arr 32) {A : AdaptorForger} {q' : ℕ} (hA : AsksAtMost q m s A)
    (p : (Fin s → Fin 11 → Arr 32) × (Fin q' → Arr 32) × (Fin s → Arr 32 × Arr 32)) (h : Forges H sk A p) :
    (strip (mulG sk) A []).Forges H sk seed p.2 ∨
      Bad H sk (ideal H sk (answers p.2.1) (pairs p.2.2) A State.init).2 s (blocks p.1) := by
  by_contra hn
  rw [not_or] at hn
  obtain ⟨h1, h2⟩ := hn
  have hinv := inv_ideal H sk (answers p.2.1) (pairs p.2.2) A State.init (Inv.init H sk _)
  have hs := (ideal_counts H sk (answers p.2.1) (pairs p.2.2) hA State.init).2
  have hstr := strip_wins H sk seed (answers p.2.1) (pairs p.2.2) A State.init rfl (fun x hx => by cases hx)
  by_cases hk : ∃ x ∈ (ideal H sk (answers p.2.1) (pairs p.2.2) A State.init).2.asked, keyAt (mulG sk) x ≠ none
  · exact h1 (hstr (.inr hk))
  · push Not at hk
    have hg := good_of H sk _ _ s (blocks p.1) hinv (by simpa [State.init, AdaptorForger.State.init] using hs) h2 hk
    refine h1 (hstr (.inl ?_))
    refine real_ideal H sk (answers p.2.1) (blocks p.1) (pairs p.2.2) _ hg A State.init State.init ⟨rfl, rfl, ?_, ?_⟩ (Inv.init H sk _) rfl h
    · intro i hi
      exact absurd hi (Nat.not_lt_zero _)
    · intro x hx
      exact absurd rfl hx

theorem forges_chance {q m s : ℕ} (H : Hash) (sk : Scalar) (seed : ℕ → Arr 32) {A : AdaptorForger} {q' : ℕ} (hA : AsksAtMost q m s A) :
    (Spec.chance fun p : (Fin s → Fin 11 → Arr 32) × (Fin q' → Arr 32) × (Fin s → Arr 32 × Arr 32) => Forges H sk A p)
      ≤ (Spec.chance fun p : (Fin q' → Arr 32) × (Fin s → Arr 32 × Arr 32) => (strip (mulG sk) A []).Forges H sk seed p)
        + s * (1 / 2 ^ 127 + 11 * ((m + s : ℕ) / 2 ^ 256 + s * (12 * (1 / 2 ^ 256)))) := by
  have hN : (0 : ℚ) < 2 ^ 256 := by positivity
  haveI : Nonempty (Arr 32) := ⟨zeroSeed⟩
  rw [← CmaForger.chance_equiv (Equiv.prodComm _ _)]
  refine (CmaForger.chance_mono fun p hp => forges_cases H sk seed hA _ hp).trans ((CmaForger.chance_or _ _).trans (add_le_add ?_ ?_))
  · refine le_of_eq ?_
    exact CmaForger.chance_fst (Ω' := Fin s → Fin 11 → Arr 32) fun p : (Fin q' → Arr 32) × (Fin s → Arr 32 × Arr 32) =>
      (strip (mulG sk) A []).Forges H sk seed p
  · refine CmaForger.chance_snd (fun (p : (Fin q' → Arr 32) × (Fin s → Arr 32 × Arr 32)) (v : Fin s → Fin 11 → Arr 32) =>
      Bad H sk (ideal H sk (answers p.1) (pairs p.2) A State.init).2 s (blocks v)) _ (fun p => ?_) (by positivity)
    refine (chance_bad H sk _ s).trans ?_
    have h := (ideal_counts H sk (answers p.1) (pairs p.2) hA State.init).1
    have h' : (ideal H sk (answers p.1) (pairs p.2) A State.init).2.asked.length ≤ m + s := by
      simpa [State.init] using h
    have h'' : ((ideal H sk (answers p.1) (pairs p.2) A State.init).2.asked.length : ℚ) ≤ (m + s : ℕ) := by exact_mod_cast h'
    refine mul_le_mul_of_nonneg_left (add_le_add le_rfl (mul_le_mul_of_nonneg_left (add_le_add ?_ le_rfl) (by norm_num))) (by positivity)
    exact div_le_div_of_nonneg_right h'' hN.le

theorem loss_eq (q m s : ℕ) :
    (2 * s * (q + 2 * s + 1 : ℕ) / (orderN - 1 : ℕ) + 11 * s * (m + 13 * s : ℕ) / 2 ^ 256 + s / 2 ^ 126 : ℚ)
      = (2 * s * (q + s + 1 + s : ℕ) / (orderN - 1 : ℕ) + s / 2 ^ 127)
        + s * (1 / 2 ^ 127 + 11 * ((m + s : ℕ) / 2 ^ 256 + s * (12 * (1 / 2 ^ 256)))) := by
  have h126 : (2 : ℚ) ^ 127 = 2 ^ 126 * 2 := pow_succ _ _
  rw [h126]
  push_cast
  generalize ((orderN - 1 : ℕ) : ℚ) = n
  have h1 : (2 : ℚ) ^ 256 ≠ 0 := by positivity
  have h2 : (2 : ℚ) ^ 126 ≠ 0 := by positivity
  generalize (2 : ℚ) ^ 256 = N at h1
  generalize (2 : ℚ) ^ 126 = M at h2
  have e1 : (s : ℚ) / M = s / (M * 2) + s / (M * 2) := by field_simp; ring
  rw [e1]
  ring

/-! ## An example -/

/-- It asks for an adaptor signature of the empty message, and forges a signature of `[0]` with the secret key one. -/
def exDet : AdaptorForger :=
  .sign [] G fun _ => .ask [5] fun _ =>
    .ask (Spec.challengeQuery (Spec.xbytes G) (mulG scalarOne) [0]) fun e => .submit [0] ⟨xonly G, 1 + reduceFrom e * scalarOne.1⟩

theorem not_drawn_short {x : Bytes} (h : x.length < 64) : ¬ Drawn x := by
  intro hd
  have := hd.length_le
  rw [taggedInput_eq (D := BIP0340_CHALLENGE_TAG_DIGEST) (by simp [tagTable])] at this
  have hl : (BIP0340_CHALLENGE_TAG_DIGEST ++ BIP0340_CHALLENGE_TAG_DIGEST ++ ([] : Bytes)).length = 64 := by decide
  omega

theorem exDet_asks : AsksAtMost 1 1 1 exDet :=
  .sign 1 1 0 _ _ _ fun _ => .other 1 0 0 _ _ (not_drawn_short (by decide)) fun _ =>
    .challenge 0 0 0 _ _ (drawn_challengeQuery _ _ _) fun _ => .submit 0 0 0 _ _

theorem exDet_end (H : Hash) (ω : ℕ → Arr 32) (v : ℕ → ℕ → Arr 32) (κ : ℕ → Arr 32 × Arr 32) (st : State)
    (hm : ∀ m ∈ st.signed, m.msg ∈ [[]]) (ht : ∀ x, Drawn x → st.table.find x = none) :
    (run H scalarOne ω v κ (.ask (Spec.challengeQuery (Spec.xbytes G) (mulG scalarOne) [0]) fun e =>
      .submit [0] ⟨xonly G, 1 + reduceFrom e * scalarOne.1⟩) st).Wins H (mulG scalarOne) := by
  have hw := SoloForger.cheat_wins H scalarOne (fun _ => zeroSeed) ω κ scalarOne (by
    have h1 : (mulG scalarOne).1 = G := one_smul _ _
    rw [h1, sgn_smul, isOdd_G]
    exact one_smul _ _) [[]] st.toState hm
  have hd := drawn_challengeQuery (Spec.xbytes G) (mulG scalarOne) [0]
  unfold SoloForger.cheat AdaptorForger.run at hw
  simp only at hw
  rw [if_pos (by exact hd)] at hw
  unfold AdaptorForger.run at hw
  unfold run run
  have he : (st.hears ω (Spec.challengeQuery (Spec.xbytes G) (mulG scalarOne) [0])).hash H
      (Spec.challengeQuery (Spec.xbytes G) (mulG scalarOne) [0])
      = st.toState.answer ω (Spec.challengeQuery (Spec.xbytes G) (mulG scalarOne) [0]) := by
    refine hash_of_val ?_
    unfold State.val
    rw [hears_table, ht _ hd, if_pos hd, hears_toState_drawn hd, SoloForger.answer_ask]
    rfl
  rw [he]
  obtain ⟨h1, h2⟩ := hw
  refine ⟨?_, ?_⟩
  · rw [verify_hash]
    · simp only
      rw [hears_toState_drawn hd]
      exact h1
    · simp only [hears_table]
      exact ht
  · simp only
    rw [hears_toState_drawn hd]
    exact h2

theorem derive_drawn (H : Hash) (sk : Scalar) (msg : Bytes) (h1 : Arr 32) (d : ℕ → Arr 32) (st : State) (n : ℕ) {x : Bytes} (hx : Drawn x)
    (h : st.table.find x = none) : (st.derive H sk msg h1 d n).1.table.find x = none := by
  induction n with
  | zero => exact h
  | succ n ih =>
    unfold State.derive
    simp only
    generalize st.derive H sk msg h1 d n = p at ih
    unfold State.draw
    split
    · exact ih
    · simp only
      rw [find_append, ih, Option.none_or, if_neg]
      rintro rfl
      exact not_drawn_chain _ _ _ _ _ hx

theorem after_drawn (H : Hash) (sk : Scalar) (v : ℕ → Arr 32) (e : Arr 32 × Arr 32) (msg : Bytes) (T : MaybePoint) (st : State) {x : Bytes}
    (hx : Drawn x) (h : st.table.find x = none) : (after H sk v e msg T st).table.find x = none := by
  have hf : (fresh H sk v e msg st).1.table.find x = none := by
    unfold fresh
    exact derive_drawn H sk msg (st.hash H msg) (drawsOf v e.1) st 12 hx h
  unfold after
  generalize fresh H sk v e msg st = p at hf
  exact hf

theorem first_sign (H : Hash) (sk : Scalar) (ω : ℕ → Arr 32) (v : ℕ → ℕ → Arr 32) (κ : ℕ → Arr 32 × Arr 32) (msg : Bytes) (T : MaybePoint)
    (next : AdaptorSignature → AdaptorForger) (st : State) (hs : st.signed = []) (ht : st.table = []) :
    run H sk ω v κ (.sign msg T next) st = .stuck ∨ ∃ sig st', run H sk ω v κ (.sign msg T next) st = run H sk ω v κ (next sig) st' ∧
      st'.signed = [⟨msg, T, sig⟩] ∧ ∀ x, Drawn x → st'.table.find x = none := by
  rw [run]
  have hv := val_hears_hash H ω st msg
  have hs' : (st.hears ω msg).signed = [] := (hears_signed ω st msg).trans hs
  have ht' : (st.hears ω msg).table = [] := (hears_table ω st msg).trans ht
  generalize st.hears ω msg = st₀ at hv hs' ht'
  generalize v st.signed.length = v₀
  generalize κ st.signed.length = e
  have ho : st₀.old msg T = none := by
    unfold State.old
    rw [hs']
    rfl
  have hc : st₀.clash msg = none := by
    unfold State.clash
    rw [hs']
    rfl
  by_cases hp : parseScalar ((fresh H sk v₀ e msg st₀).2 9).1 = none
  · rw [reply_stuck ho hc hp]
    exact .inl rfl
  · obtain ⟨sig, -, -, h3⟩ := reply_new ho hc hv hp (T := T)
    rw [h3]
    have h4 := after_signed H sk v₀ e msg T st₀
    have h5 : ∀ x, Drawn x → (after H sk v₀ e msg T st₀).table.find x = none :=
      fun x hx => after_drawn _ _ _ _ _ _ _ hx (by rw [ht']; rfl)
    clear h3
    generalize after H sk v₀ e msg T st₀ = st₂ at h4 h5
    refine .inr ⟨sig, _, rfl, ?_, h5⟩
    change st₂.signed ++ _ = _
    rw [h4, hs', List.nil_append]

theorem exDet_wins (H : Hash) (ω : ℕ → Arr 32) (v : ℕ → ℕ → Arr 32) (κ : ℕ → Arr 32 × Arr 32) :
    (run H scalarOne ω v κ exDet State.init).Wins H (mulG scalarOne) := by
  unfold exDet
  rcases first_sign H scalarOne ω v κ [] G (fun _ => .ask [5] fun _ =>
    .ask (Spec.challengeQuery (Spec.xbytes G) (mulG scalarOne) [0]) fun e => .submit [0] ⟨xonly G, 1 + reduceFrom e * scalarOne.1⟩)
    State.init rfl rfl with h | ⟨sig, st, h, h1, h2⟩
  · rw [h]
    trivial
  · rw [h, run]
    refine exDet_end H ω v κ _ ?_ ?_
    · rw [hears_signed, h1]
      intro m hm
      rw [List.mem_singleton.1 hm]
      exact List.mem_singleton.2 rfl
    · rw [hears_table]
      exact h2

end DetGame

end Verif
