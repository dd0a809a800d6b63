import Verif.Spec.NonceClash
import Verif.Lemmas.Asker
import Verif.Lemmas.Props.KeyCommit
import Verif.Lemmas.Props.SoloForger
import Verif.Lemmas.Props.AdaptiveSolver
import Verif.Props.Nonces

/-!
# Lemmas for `Props/NonceClash`
-/

namespace Verif.NonceClash

open CmaForger (chance_mono chance_or chance_nonneg)
open Forger (Log)
open Asker (Distinct find_none mem_of_find find_of_mem)
open KeyCommit (hash_of_mem hash_table zip_mem mem_take)
open SecNonceBuilder (reduceOrOne)

/-! ## What is hashed -/

theorem xorBytes_comm (a b : Arr 32) : xorBytes a b = xorBytes b a :=
  Subtype.ext (List.zipWith_comm_of_comm fun x y => UInt8.xor_comm x y)

theorem drawn_seed (c : Call) : Drawn c.seedString := by
  cases c with
  | session b => exact .inl (tag_prefix _ _)
  | solo sk msg seed T => exact .inr (.inr (.inl (tag_prefix _ _)))

theorem drawn_nonces (H : Hash) (c : Call) : ∀ x ∈ c.nonceStrings H, Drawn x := by
  intro x hx
  cases c with
  | session b =>
    rcases List.mem_cons.1 hx with rfl | hx
    · exact .inr (.inl (tag_prefix _ _))
    · rw [List.mem_singleton.1 hx]
      exact .inr (.inl (tag_prefix _ _))
  | solo sk msg seed T =>
    rw [List.mem_singleton.1 hx]
    exact .inr (.inr (.inr (tag_prefix _ _)))

theorem nonceStrings_length (H : Hash) (c : Call) : (c.nonceStrings H).length ≤ 2 := by
  cases c <;> simp [Call.nonceStrings]

/-- The strings of the nonces depend on the hash of the seed only. -/
theorem nonceStrings_congr {O O' : Hash} {c : Call} (h : O c.seedString = O' c.seedString) : c.nonceStrings O = c.nonceStrings O' := by
  cases c with
  | session b =>
    have h : O (Spec.taggedInput "MuSig/aux" b.nonceSeedBytes.1) = O' (Spec.taggedInput "MuSig/aux" b.nonceSeedBytes.1) := h
    unfold Call.nonceStrings Spec.nonceQuery nonceInputs maskedSeckey
    simp only [h]
  | solo sk msg seed T =>
    have h : O (Spec.taggedInput "BIP0340/aux" seed.1) = O' (Spec.taggedInput "BIP0340/aux" seed.1) := h
    unfold Call.nonceStrings
    simp only [h]

/-- The point of a nonce that is hashed from the string. -/
def pointOf (O : Hash) (x : Bytes) : MaybePoint := (mulG (reduceOrOne (O x))).1

theorem build_eq (O : Hash) (b : SecNonceBuilder) :
    b.build O = ⟨reduceOrOne (O (Spec.nonceQuery O b 0)), reduceOrOne (O (Spec.nonceQuery O b 1))⟩ := by
  rw [nonceQuery_eq, nonceQuery_eq]
  rfl

theorem nonces_eq (O : Hash) (c : Call) : c.nonces O = (c.nonceStrings O).map (pointOf O) := by
  cases c with
  | session b =>
    change [(b.build O).publicNonce.R1.1, (b.build O).publicNonce.R2.1] = _
    rw [build_eq]
    rfl
  | solo sk msg seed T =>
    change [(signSoloAdaptor O sk msg seed T).R] = _
    rw [SoloForger.sign_eq]
    rfl

/-! ## The draws that are excluded -/

/-- `SecNonce::generate` is a call of the builder. -/
theorem generate_eq_build {ε : Type} (H : Hash) {seed : Arr 32} {sk : Scalar} {Q : Point} {msg extra : Bytes} (he : extra.length ≤ u32Max) :
    SecNonce.generate (ε := ε) H seed sk Q msg extra
      = .ok (SecNonceBuilder.build H ⟨seed, some sk, some (mulG sk), some Q, some msg, [extra]⟩) := by
  simp [SecNonce.generate, SecNonceBuilder.new, SecNonceBuilder.withSeckey, SecNonceBuilder.withAggregatedPubkey, SecNonceBuilder.withMessage,
    SecNonceBuilder.withExtraInput, extraInputLengthCheck, Res.assert, he]

theorem zero_xor (a : Arr 32) : Spec.bytes_xor (List.replicate 32 0) a.1 = a.1 := by
  have key : ∀ (n : ℕ) (l : Bytes), l.length = n → List.zipWith (· ^^^ ·) (List.replicate n 0) l = l := by
    intro n
    induction n with
    | zero => intro l hl; rw [List.length_eq_zero_iff.1 hl]; rfl
    | succ n ih =>
      intro l hl
      cases l with
      | nil => simp at hl
      | cons x l =>
        rw [List.replicate_succ, List.zipWith_cons_cons, UInt8.zero_xor, ih l (by simpa using hl)]
  exact key 32 a.1 a.2

/-- What must not be drawn: the hash of a nonce that was there before, up to sign. -/
def bad (log : Log) (_ : Bytes) (h : Arr 32) : Prop :=
  ∃ e ∈ log, xonly (mulG (reduceOrOne h)).1 = xonly (mulG (reduceOrOne e.2)).1

theorem reduceFrom_of_reduceOrOne {h : Arr 32} {k : Scalar} (e : reduceOrOne h = k) : reduceFrom h = k.1 ∨ reduceFrom h = 0 := by
  unfold SecNonceBuilder.reduceOrOne at e
  split at e
  · rename_i h0
    exact .inr (notZero_eq_none.1 h0)
  · rename_i k' h0
    subst e
    exact .inl (notZero_eq_some.1 h0)

theorem chance_bad (log : Log) (x : Bytes) : Spec.chance (bad log x) ≤ 6 * log.length / 2 ^ 256 := by
  have : Nonempty (Arr 32) := ⟨zeroSeed⟩
  refine (KeyCommit.chance_mem log (fun e h => xonly (mulG (reduceOrOne h)).1 = xonly (mulG (reduceOrOne e.2)).1) (6 / 2 ^ 256)
    fun e _ => ?_).trans_eq (by ring)
  classical
  have h1 := Concurrent.chance_reduce_mem {(reduceOrOne e.2).1, -(reduceOrOne e.2).1, 0}
  refine (chance_mono fun h hh => ?_).trans (h1.trans ?_)
  · have h2 : (reduceOrOne h).1 = (reduceOrOne e.2).1 ∨ (reduceOrOne h).1 = -(reduceOrOne e.2).1 := by
      rcases xonly_eq_iff.1 hh with h2 | h2
      · exact .inl (smul_G_inj.1 h2)
      · refine .inr (smul_G_inj.1 (h2.trans ?_))
        change -((reduceOrOne e.2).1 • G) = _
        rw [neg_smul]
    simp only [Finset.mem_insert, Finset.mem_singleton]
    rcases reduceFrom_of_reduceOrOne (h := h) rfl with h3 | h3
    · rw [h3]
      tauto
    · exact .inr (.inr h3)
  · refine div_le_div_of_nonneg_right ?_ (by positivity)
    have : (({(reduceOrOne e.2).1, -(reduceOrOne e.2).1, 0} : Finset MaybeScalar).card : ℚ) ≤ 3 := by exact_mod_cast Finset.card_le_three
    linarith

/-- Different strings have different nonces. -/
theorem apart {H : Hash} {log : Log} (hd : Distinct log) (hg : Asker.Good bad log) {x x' : Bytes} (hx : ∃ a, (x, a) ∈ log) (hx' : ∃ a, (x', a) ∈ log)
    (h : xonly (pointOf (log.hash H) x) = xonly (pointOf (log.hash H) x')) : x = x' := by
  obtain ⟨a, ha⟩ := hx
  obtain ⟨a', ha'⟩ := hx'
  unfold pointOf at h
  rw [hash_of_mem hd ha, hash_of_mem hd ha'] at h
  obtain ⟨i, hi⟩ := List.mem_iff_getElem?.1 ha
  obtain ⟨j, hj⟩ := List.mem_iff_getElem?.1 ha'
  rcases lt_trichotomy i j with hij | rfl | hij
  · exact (hg j _ _ hj ⟨_, mem_take hi hij, h.symm⟩).elim
  · rw [hi] at hj
    exact congrArg Prod.fst (Option.some.inj hj)
  · exact (hg i _ _ hi ⟨_, mem_take hj hij, h⟩).elim

theorem hash_inj {H : Hash} {log : Log} (hd : Distinct log) (hg : Asker.Good bad log) {x x' : Bytes} (hx : ∃ a, (x, a) ∈ log) (hx' : ∃ a, (x', a) ∈ log)
    (h : log.hash H x = log.hash H x') : x = x' :=
  apart (H := H) hd hg hx hx' (by unfold pointOf; rw [h])

/-! ## In the end -/

/-- What is in the log in the end. -/
theorem run_check (H : Hash) (ω : ℕ → Arr 32) (c : Call × Call) {log : Log} (hd : Distinct log) :
    ∃ log', (check H c).run Drawn H ω log = (c, log') ∧ Distinct log' ∧ (∃ a, (c.1.seedString, a) ∈ log') ∧ (∃ a, (c.2.seedString, a) ∈ log') ∧
      (∀ x ∈ c.1.nonceStrings (log'.hash H), ∃ a, (x, a) ∈ log') ∧ ∀ x ∈ c.2.nonceStrings (log'.hash H), ∃ a, (x, a) ∈ log' := by
  unfold check
  obtain ⟨a, log₁, h1, d1, p1, m1⟩ := Asker.run_ask (D := Drawn) H ω (drawn_seed c.1) _ hd
  rw [h1]
  obtain ⟨a', log₂, h2, d2, p2, m2⟩ := Asker.run_ask (D := Drawn) H ω (drawn_seed c.2) _ d1
  rw [h2]
  simp only
  set table : Log := [(c.1.seedString, a), (c.2.seedString, a')] with htable
  obtain ⟨hs, log₃, h3, d3, p3, m3⟩ := Asker.run_askHashes (D := Drawn) H ω
    (c.1.nonceStrings (table.hash H) ++ c.2.nonceStrings (table.hash H)) (fun x hx => by
      rcases List.mem_append.1 hx with hx | hx <;> exact drawn_nonces _ _ x hx) (fun _ => .done c) d2
  rw [h3]
  obtain ⟨z1, z2⟩ := zip_mem m3
  have hsub : ∀ e ∈ table, e ∈ log₃ := by
    intro e he
    rcases List.mem_cons.1 he with rfl | he
    · exact p3.mem (p2.mem m1)
    · rw [List.mem_singleton.1 he]
      exact p3.mem m2
  have k1 := nonceStrings_congr (c := c.1) (hash_table (H := H) d3 hsub ⟨a, by simp [htable]⟩)
  have k2 := nonceStrings_congr (c := c.2) (hash_table (H := H) d3 hsub ⟨a', by simp [htable]⟩)
  refine ⟨log₃, rfl, d3, ⟨a, hsub _ (by simp [htable])⟩, ⟨a', hsub _ (by simp [htable])⟩, ?_, ?_⟩
  · intro x hx
    rw [← k1] at hx
    obtain ⟨b, hb⟩ := z2 x (List.mem_append_left _ hx)
    exact ⟨b, z1 _ hb⟩
  · intro x hx
    rw [← k2] at hx
    obtain ⟨b, hb⟩ := z2 x (List.mem_append_right _ hx)
    exact ⟨b, z1 _ hb⟩

theorem nonceQuery_index {O : Hash} {b b' : SecNonceBuilder} (hm : ∀ m ∈ b.message, m.length < 2 ^ 64) (hm' : ∀ m ∈ b'.message, m.length < 2 ^ 64)
    {i j : UInt8} (h : Spec.nonceQuery O b i = Spec.nonceQuery O b' j) : nonceInputs O b = nonceInputs O b' ∧ i = j :=
  C18_nonce_preimage_injective O b b' i j hm hm' (taggedInput_injective h)

/-- Different calls hash different strings. -/
theorem strings_apart {H : Hash} {log : Log} (hd : Distinct log) (hg : Asker.Good bad log) {c c' : Call} (hf : c.Fits) (hf' : c'.Fits)
    (hs : ∃ a, (c.seedString, a) ∈ log) (hs' : ∃ a, (c'.seedString, a) ∈ log) (hne : Different c c') {x : Bytes}
    (hx : x ∈ c.nonceStrings (log.hash H)) (hx' : x ∈ c'.nonceStrings (log.hash H)) : False := by
  cases c with
  | session b =>
    have hxb : ∃ i, x = Spec.nonceQuery (log.hash H) b i := by
      rcases List.mem_cons.1 hx with rfl | hx
      · exact ⟨_, rfl⟩
      · exact ⟨_, List.mem_singleton.1 hx⟩
    obtain ⟨i, rfl⟩ := hxb
    cases c' with
    | session b' =>
      have hxb : ∃ j, Spec.nonceQuery (log.hash H) b i = Spec.nonceQuery (log.hash H) b' j := by
        rcases List.mem_cons.1 hx' with hx | hx
        · exact ⟨_, hx⟩
        · exact ⟨_, List.mem_singleton.1 hx⟩
      obtain ⟨j, hj⟩ := hxb
      obtain ⟨he, -⟩ := nonceQuery_index hf hf' hj
      have e1 := congrArg NonceInputs.masked he
      have e2 := congrArg NonceInputs.pubkey he
      have e3 := congrArg NonceInputs.aggX he
      have e4 := congrArg NonceInputs.message he
      have e5 := congrArg NonceInputs.extra he
      simp only [nonceInputs] at e1 e2 e3 e4 e5
      rcases hne with h | h | h | h | h | ⟨h, h'⟩ | ⟨h, h'⟩
      · exact h e2
      · exact h e3
      · exact h e4
      · refine h (propext ?_)
        split_ifs at e5 <;> simp_all
      · split_ifs at e5 <;> simp_all
      · rw [h] at e1
        have h1 : log.hash H (Spec.taggedInput "MuSig/aux" b.nonceSeedBytes.1) = log.hash H (Spec.taggedInput "MuSig/aux" b'.nonceSeedBytes.1) := by
          have h2 := (maskedSeckey_eq _ _ _).symm.trans (e1.trans (maskedSeckey_eq _ _ _))
          rw [xorBytes_comm, xorBytes_comm _ (tagHash (log.hash H) MUSIG_AUX_TAG_DIGEST b'.nonceSeedBytes.1)] at h2
          have h3 := xorBytes_left_inj (Subtype.ext h2)
          rw [taggedInput_musigAux, taggedInput_musigAux]
          exact h3
        exact h' (Subtype.ext (taggedInput_injective (hash_inj hd hg hs hs' h1)))
      · rw [h'] at e1
        exact h (maskedSeckey_inj e1)
    | solo sk msg seed T =>
      exact C66_domain_separation _ _ (by simp [Spec.tags]) (by simp [Spec.tags]) (by decide) _ _ (List.mem_singleton.1 hx')
  | solo sk msg seed T =>
    have hx := List.mem_singleton.1 hx
    cases c' with
    | session b' =>
      have hxb : ∃ j, x = Spec.nonceQuery (log.hash H) b' j := by
        rcases List.mem_cons.1 hx' with hx | hx
        · exact ⟨_, hx⟩
        · exact ⟨_, List.mem_singleton.1 hx⟩
      obtain ⟨j, hj⟩ := hxb
      exact C66_domain_separation _ _ (by simp [Spec.tags]) (by simp [Spec.tags]) (by decide) _ _ (hj.symm.trans hx)
    | solo sk' msg' seed' T' =>
      have hx' := List.mem_singleton.1 hx'
      have e := taggedInput_injective (hx.symm.trans hx')
      rw [List.append_assoc, List.append_assoc] at e
      obtain ⟨e1, e2⟩ := append_inj_len e (by
        change (xorBytes _ (serScalar _)).1.length = (xorBytes _ (serScalar _)).1.length
        rw [(xorBytes _ _).2, (xorBytes _ _).2])
      obtain ⟨e3, e4⟩ := append_inj_len e2 (by rw [spec_xbytes, spec_xbytes, (xonly _).2, (xonly _).2])
      rcases hne with h | h | h
      · exact h e3
      · exact h e4
      · have hk : Spec.sgn (mulG sk).1 * sk.1 = Spec.sgn (mulG sk').1 * sk'.1 := by
          rw [spec_xbytes, spec_xbytes] at e3
          have h1 := Adaptive.sgn_smul_congr (mulG sk').2 (Subtype.ext e3)
          change Spec.sgn (mulG sk).1 • sk.1 • G = Spec.sgn (mulG sk').1 • sk'.1 • G at h1
          rw [← mul_smul, ← mul_smul] at h1
          exact smul_G_inj.1 h1
        rw [hk] at e1
        have h1 : log.hash H (Spec.taggedInput "BIP0340/aux" seed.1) = log.hash H (Spec.taggedInput "BIP0340/aux" seed'.1) :=
          xorBytes_left_inj (m := serScalar (Spec.sgn (mulG sk').1 * sk'.1)) (Subtype.ext e1)
        exact h (Subtype.ext (taggedInput_injective (hash_inj hd hg hs hs' h1)))

/-- No clash. -/
theorem sound {H : Hash} {log : Log} (hd : Distinct log) (hg : Asker.Good bad log) {c c' : Call} (hf : c.Fits) (hf' : c'.Fits)
    (hs : ∃ a, (c.seedString, a) ∈ log) (hs' : ∃ a, (c'.seedString, a) ∈ log) (hn : ∀ x ∈ c.nonceStrings (log.hash H), ∃ a, (x, a) ∈ log)
    (hn' : ∀ x ∈ c'.nonceStrings (log.hash H), ∃ a, (x, a) ∈ log) : ¬ Clash (log.hash H) c c' := by
  rintro (⟨hne, R, hR, R', hR', hx⟩ | ⟨b, rfl, hx⟩)
  · rw [nonces_eq] at hR hR'
    obtain ⟨x, hxs, rfl⟩ := List.mem_map.1 hR
    obtain ⟨x', hxs', rfl⟩ := List.mem_map.1 hR'
    rw [spec_xbytes, spec_xbytes] at hx
    obtain rfl := apart (H := H) hd hg (hn x hxs) (hn' x' hxs') (Subtype.ext hx)
    exact strings_apart hd hg hf hf' hs hs' hne hxs hxs'
  · rw [build_eq, spec_xbytes, spec_xbytes] at hx
    have := apart (H := H) hd hg (hn (Spec.nonceQuery (log.hash H) b 0) (by simp [Call.nonceStrings]))
      (hn (Spec.nonceQuery (log.hash H) b 1) (by simp [Call.nonceStrings])) (Subtype.ext hx)
    exact absurd (nonceQuery_index hf hf this).2 (by decide)

theorem asks_check (H : Hash) (c : Call × Call) : Asker.AsksAtMost Drawn (fun _ => True) 6 (check H c) := by
  unfold check Asker.AsksAtMost
  rw [if_pos (drawn_seed _)]
  refine ⟨5, rfl, fun a => ?_⟩
  unfold Asker.AsksAtMost
  rw [if_pos (drawn_seed _)]
  refine ⟨4, rfl, fun a' => ?_⟩
  simp only
  generalize Log.hash H [(c.1.seedString, a), (c.2.seedString, a')] = O
  refine (Asker.asks_askHashes (D := Drawn) (post := fun _ => True) (m := 0) _ (fun x hx => ?_) (next := fun _ => .done c)
    fun _ => trivial).mono ?_
  · rcases List.mem_append.1 hx with hx | hx <;> exact drawn_nonces _ _ x hx
  · have h1 := nonceStrings_length O c.1
    have h2 := nonceStrings_length O c.2
    rw [List.length_append]
    omega

/-- The chance to find two calls. -/
theorem chance_finds (H : Hash) {A : Asker (Call × Call)} {q : ℕ} (hA : A.AsksAtMost Drawn (fun c => c.1.Fits ∧ c.2.Fits) q) :
    (Spec.chance fun ω : Fin (q + 6) → Arr 32 => Finds H A ω) ≤ 3 * (q + 6) ^ 2 / 2 ^ 256 := by
  have hasks : Asker.AsksAtMost Drawn (fun _ => True) (q + 6) (A.bind (check H)) := hA.bind fun c _ => asks_check H c
  have h1 := Asker.chance_hits bad H (fun l => 6 * l / 2 ^ 256) (fun l => by positivity) (fun log x => chance_bad log x) hasks []
  simp only [List.length_nil, Nat.sub_zero, Nat.zero_add] at h1
  refine (chance_mono fun ω hω => ?_).trans (h1.trans ?_)
  · by_contra hh
    have hgood := Asker.good_run bad H (log := []) (fun t q d ht => by simp at ht) hh
    have hrun := Asker.run_bind (D := Drawn) H (Asker.draws ω) A (check H) []
    have hd := Asker.run_distinct (D := Drawn) H (Asker.draws ω) A (log := []) (by simp [Distinct])
    have hpost := Asker.run_post (D := Drawn) (H := H) (ω := Asker.draws ω) hA []
    obtain ⟨log', k1, k2, k3, k4, k5, k6⟩ := run_check H (Asker.draws ω) (A.run Drawn H (Asker.draws ω) []).1 hd
    unfold Finds at hω
    simp only at hω
    rw [hrun, k1] at hω hgood
    exact sound k2 hgood hpost.1 hpost.2 k3 k4 k5 k6 hω
  · rw [← Finset.sum_div]
    refine div_le_div_of_nonneg_right ?_ (by positivity)
    have hsum : ∀ n : ℕ, (∑ t ∈ Finset.range n, 6 * (t : ℚ)) ≤ 3 * (n : ℚ) ^ 2 := by
      intro n
      induction n with
      | zero => simp
      | succ n ih =>
        rw [Finset.sum_range_succ]
        push_cast
        nlinarith
    refine (hsum _).trans (le_of_eq ?_)
    push_cast
    ring

end Verif.NonceClash
