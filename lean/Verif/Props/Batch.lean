import Verif.Lemmas.Props.Batch
import Verif.Lemmas.Batch
import Verif.Spec.Batch
import Verif.Props.Bip340
import Verif.Props.Hashes

/-!
# Properties C47-C50: batch verification
-/

namespace Verif

/-! ## C47 -/

/-- **C47**. A batch of valid items is accepted, whatever the generator of coefficients. -/
theorem C47_valid_batch_accepted (H : Hash) (rng : SeedRng) (items : List BatchItem)
    (hw : ∀ x ∈ items, x.WellFormed) (hv : ∀ x ∈ items, x.Valid H) :
    verifyBatch H rng (items.map (·.row H)) = .ok () := by
  rw [verifyBatch_eq_ok]
  apply batchDefect_all_zero
  intro row hr
  obtain ⟨x, hx, rfl⟩ := List.mem_map.1 hr
  exact (rowDefect_eq_zero (hw x hx)).2 (hv x hx)

/-- **C47**. The empty batch is accepted. -/
theorem C47_empty_batch (H : Hash) (rng : SeedRng) : verifyBatch H rng [] = .ok () :=
  C47_valid_batch_accepted H rng [] (by simp) (by simp)

/-- **C47**. There are only two outcomes. -/
theorem C47_outcomes (H : Hash) (rng : SeedRng) (rows : List BatchVerificationRow) :
    verifyBatch H rng rows = .ok () ∨ verifyBatch H rng rows = .err .badSignature :=
  verifyBatch_dichotomy H rng rows

/-- A batch of two valid items. -/
example (H : Hash) : ∃ items : List BatchItem, items.length = 2 ∧ (∀ x ∈ items, x.WellFormed) ∧
    ∀ x ∈ items, x.Valid H := by
  obtain ⟨v, a, w, h1, h2, h3, h4, -⟩ := batch_examples H
  exact ⟨[v, a], rfl, by simp [h1, h3], by simp [h2, h4]⟩

/-! ## C48 -/

/-- **C48**. A batch with exactly one invalid item, in any place, is rejected. -/
theorem C48_single_invalid_rejected (H : Hash) (rng : SeedRng) (before after : List BatchItem) (x : BatchItem)
    (hw : ∀ y ∈ before ++ x :: after, y.WellFormed) (hx : ¬ x.Valid H)
    (hb : ∀ y ∈ before, y.Valid H) (ha : ∀ y ∈ after, y.Valid H) :
    verifyBatch H rng ((before ++ x :: after).map (·.row H)) = .err .badSignature := by
  refine (verifyBatch_dichotomy _ _ _).resolve_left fun h => hx ?_
  rw [verifyBatch_eq_ok] at h
  generalize rng (batchSeed H (List.map (fun x => x.row H) (before ++ x :: after))) = r at h
  rw [List.map_append, List.map_cons, batchDefect_append, batchDefect, batchDefect_all_zero r (before.map _),
    batchDefect_all_zero r (after.map _), zero_add, add_zero, smul_eq_zero_iff] at h
  · exact (rowDefect_eq_zero (hw x (by simp))).1 (h.resolve_left (batchCoeff r _).2)
  · intro row hr
    obtain ⟨y, hy, rfl⟩ := List.mem_map.1 hr
    exact (rowDefect_eq_zero (hw y (by simp [hy]))).2 (ha y hy)
  · intro row hr
    obtain ⟨y, hy, rfl⟩ := List.mem_map.1 hr
    exact (rowDefect_eq_zero (hw y (by simp [hy]))).2 (hb y hy)

/-- **C48**. A batch of one item is accepted exactly when the item is valid. -/
theorem C48_singleton_batch (H : Hash) (rng : SeedRng) (x : BatchItem) (hw : x.WellFormed) :
    verifyBatch H rng [x.row H] = .ok () ↔ x.Valid H := by
  constructor
  · intro h
    by_contra hx
    have := C48_single_invalid_rejected H rng [] [] x (by simpa using hw) hx (by simp) (by simp)
    simp only [List.nil_append, List.map_cons, List.map_nil] at this
    rw [h] at this
    cases this
  · intro h
    exact C47_valid_batch_accepted H rng [x] (by simpa using hw) (by simpa using h)

example (H : Hash) : ∃ (v x a : BatchItem), (∀ y ∈ [v] ++ x :: [a], y.WellFormed) ∧ ¬ x.Valid H ∧
    (∀ y ∈ [v], y.Valid H) ∧ ∀ y ∈ [a], y.Valid H := by
  obtain ⟨v, a, w, h1, h2, h3, h4, h5, h6, -⟩ := batch_examples H
  exact ⟨v, w, a, by simp [h1, h3, h5], h6, by simpa using h2, by simpa using h4⟩

/-! ## C49 -/

/-- **C49**. If row `i > 0` is invalid, at most one value of its coefficient makes the batch pass, the others being
fixed. (Row `i` is multiplied by the `i`-th scalar drawn, counting from zero at row 1.) -/
theorem C49_at_most_one_coefficient (H : Hash) (items : List BatchItem) (i : ℕ) (hi : 0 < i) (x : BatchItem)
    (hx : items[i]? = some x) (hw : x.WellFormed) (hinv : ¬ x.Valid H) (r r' : ℕ → Scalar)
    (hr : ∀ j, j ≠ i - 1 → r j = r' j)
    (h : verifyBatch H (fun _ => r) (items.map (·.row H)) = .ok ())
    (h' : verifyBatch H (fun _ => r') (items.map (·.row H)) = .ok ()) : r (i - 1) = r' (i - 1) := by
  obtain ⟨hlt, hxi⟩ := List.getElem?_eq_some_iff.1 hx
  have hsplit : items = items.take i ++ x :: items.drop (i + 1) := by
    rw [← hxi, List.getElem_cons_drop, List.take_append_drop]
  rw [verifyBatch_eq_ok, hsplit, List.map_append, List.map_cons, batchDefect_append, batchDefect] at h h'
  have hlen : (0 + ((items.take i).map (·.row H)).length) = i := by
    rw [List.length_map, List.length_take]; omega
  have hc : ∀ j, j ≠ i → batchCoeff r j = batchCoeff r' j := by
    intro j hj
    unfold batchCoeff
    split_ifs with h0
    · rfl
    · exact hr _ (by omega)
  rw [hlen] at h h'
  have e1 : batchDefect r 0 ((items.take i).map (·.row H)) = batchDefect r' 0 ((items.take i).map (·.row H)) := by
    apply batchDefect_congr
    intro j _ hj
    exact hc j (by omega)
  have e2 : batchDefect r (i + 1) ((items.drop (i + 1)).map (·.row H))
      = batchDefect r' (i + 1) ((items.drop (i + 1)).map (·.row H)) := by
    apply batchDefect_congr
    intro j hj _
    exact hc j (by omega)
  rw [e1, e2, ← h'] at h
  have h3 := add_right_cancel (add_left_cancel h)
  have h4 : ((batchCoeff r i).1 - (batchCoeff r' i).1) • rowDefect (x.row H) = 0 := by
    rw [sub_smul, h3, sub_self]
  rcases smul_eq_zero_iff.1 h4 with h5 | h5
  · unfold batchCoeff at h5
    rw [if_neg (by omega), if_neg (by omega)] at h5
    exact Subtype.ext (sub_eq_zero.1 h5)
  · exact absurd ((rowDefect_eq_zero hw).1 h5) hinv

/-- **C49**. The same as a statement about the set of accepted values. -/
theorem C49_accepted_coefficients_subsingleton (H : Hash) (items : List BatchItem) (i : ℕ) (hi : 0 < i) (x : BatchItem)
    (hx : items[i]? = some x) (hw : x.WellFormed) (hinv : ¬ x.Valid H) (r : ℕ → Scalar) :
    Set.Subsingleton {v : Scalar |
      verifyBatch H (fun _ => Function.update r (i - 1) v) (items.map (·.row H)) = .ok ()} := by
  intro v hv v' hv'
  have := C49_at_most_one_coefficient H items i hi x hx hw hinv _ _ (fun j hj => by
    rw [Function.update_of_ne hj, Function.update_of_ne hj]) hv hv'
  simpa using this

/-- Two invalid rows and coefficients for which the batch passes: the bad luck that C49 bounds. -/
example (H : Hash) : ∃ (items : List BatchItem) (x : BatchItem) (r : ℕ → Scalar), items[1]? = some x ∧ x.WellFormed ∧
    ¬ x.Valid H ∧ verifyBatch H (fun _ => r) (items.map (·.row H)) = .ok () := by
  obtain ⟨-, -, w, -, -, -, -, h5, h6, -, P, m, s, rfl⟩ := batch_examples H
  refine ⟨[.plain P m s, .plain P m s], _, fun _ => ⟨-1, neg_ne_zero.2 one_ne_zero⟩, rfl, h5, h6, ?_⟩
  rw [verifyBatch_eq_ok]
  simp only [List.map_cons, List.map_nil, batchDefect, batchCoeff, if_pos, scalarOne]
  simp

/-! ## C50 -/

/-- **C50** is false for batches with adaptor rows: the seed does not commit to the nonce of an adaptor row, so for
every invalid signature `x` there is an adaptor row, computed without any secret and for every generator of
coefficients, that makes the batch pass. -/
theorem C50_batch_forgery (H : Hash) (rng : SeedRng) (x : BatchItem) (P : Point) (msg : Bytes) (s : MaybeScalar) :
    let R := forgedNonce H rng x P msg s
    verifyBatch H rng [x.row H, (BatchItem.adaptor P msg ⟨R, s⟩ (G - R)).row H] = .ok () := by
  intro R
  have hodd : isOdd (R + (G - R)) = false := by rw [add_sub_cancel]; exact isOdd_G
  have hrow : (BatchItem.adaptor P msg ⟨R, s⟩ (G - R)).row H
      = ⟨P, computeChallengeHashTweak H (xonly G) P msg, R, s⟩ := by
    unfold BatchItem.row BatchVerificationRow.fromAdaptorSignature
    simp only [hodd]
    rw [add_sub_cancel]
    rfl
  rw [hrow, verifyBatch_eq_ok]
  have hseed : batchSeed H [x.row H, ⟨P, computeChallengeHashTweak H (xonly G) P msg, R, s⟩]
      = H (Spec.taggedInput "BIP0340/batch" (Spec.bytes_from_int (x.row H).challenge.val
          ++ Spec.bytes_from_int (computeChallengeHashTweak H (xonly G) P msg).val
          ++ (Spec.bytes_from_int (x.row H).s.val ++ Spec.bytes_from_int s.val))) := by
    rw [batchSeed_eq]
    simp only [List.map_cons, List.map_nil, List.flatten_cons, List.flatten_nil, List.append_nil]
  rw [hseed]
  simp only [batchDefect, batchCoeff, if_pos, scalarOne, rowDefect]
  have hR : R = forgedNonce H rng x P msg s := rfl
  unfold forgedNonce at hR
  simp only at hR
  rw [hR]
  set a := rng (H (Spec.taggedInput "BIP0340/batch" (Spec.bytes_from_int (x.row H).challenge.val
          ++ Spec.bytes_from_int (computeChallengeHashTweak H (xonly G) P msg).val
          ++ (Spec.bytes_from_int (x.row H).s.val ++ Spec.bytes_from_int s.val)))) 0 with ha
  simp only [zero_add, one_ne_zero, if_false, one_smul, add_zero]
  set d := (x.row H).s • G - (x.row H).R - (x.row H).challenge • (toEvenY (x.row H).pubkey).1
  have : s • G - (s • G - computeChallengeHashTweak H (xonly G) P msg • (toEvenY P).1 + a.1⁻¹ • d)
      - computeChallengeHashTweak H (xonly G) P msg • (toEvenY P).1 = -(a.1⁻¹ • d) := by abel
  rw [this, smul_neg, smul_smul, mul_inv_cancel₀ a.2, one_smul, add_neg_cancel]

/-- **C50** is false: there is a batch that is accepted although it contains an invalid plain signature, for every hash
function and every generator. -/
theorem C50_invalid_batch_accepted (H : Hash) (rng : SeedRng) : ∃ items : List BatchItem,
    (∀ x ∈ items, x.WellFormed) ∧ (∃ P m s, BatchItem.plain P m s ∈ items ∧ ¬ (BatchItem.plain P m s).Valid H) ∧
    verifyBatch H rng (items.map (·.row H)) = .ok () := by
  obtain ⟨-, -, w, -, -, -, -, h5, h6, -, P, m, s, rfl⟩ := batch_examples H
  refine ⟨[.plain P m s, .adaptor Gpt [] ⟨forgedNonce H rng (.plain P m s) Gpt [] 0, 0⟩ _], ?_, ⟨P, m, s, by simp, h6⟩,
    C50_batch_forgery H rng (.plain P m s) Gpt [] 0⟩
  intro x hx
  rcases List.mem_cons.1 hx with rfl | hx
  · exact h5
  · rw [List.mem_singleton.1 hx]
    trivial

/-- **C50**, true part: for batches of plain signatures the seed commits to everything. If two such batches hash
the same bytes to their seeds, they contain the same signatures for the same messages and keys, unless two
different challenge inputs collide. Missing: adaptor rows, for which this fails (`C50_batch_forgery`). -/
theorem C50_seed_commits_partial (H : Hash) (items items' : List BatchItem)
    (hp : ∀ x ∈ items, ∃ P m s, x = .plain P m s ∧ isOdd s.R.1 = false)
    (hp' : ∀ x ∈ items', ∃ P m s, x = .plain P m s ∧ isOdd s.R.1 = false)
    (hseed : (items.map fun x => Spec.bytes_from_int (x.row H).challenge.val).flatten
        ++ (items.map fun x => Spec.bytes_from_int (x.row H).s.val).flatten
      = (items'.map fun x => Spec.bytes_from_int (x.row H).challenge.val).flatten
        ++ (items'.map fun x => Spec.bytes_from_int (x.row H).s.val).flatten) :
    List.Forall₂ BatchItem.Same items items' ∨
    ∃ x ∈ items, ∃ y ∈ items', x.challengeInput ≠ y.challengeInput ∧
      reduceFrom (H x.challengeInput) = reduceFrom (H y.challengeInput) := by
  have hl : ∀ (l : List BatchItem) (f : BatchItem → MaybeScalar), ∀ b ∈ l.map fun x => Spec.bytes_from_int (f x).val,
      b.length = 32 := by
    intro l f b hb
    obtain ⟨x, -, rfl⟩ := List.mem_map.1 hb
    exact beBytes_length _ _
  have hfl : ∀ (l : List BatchItem) (f : BatchItem → MaybeScalar),
      ((l.map fun x => Spec.bytes_from_int (f x).val).flatten).length = 32 * l.length := by
    intro l f
    induction l with
    | nil => rfl
    | cons x l ih =>
      simp only [List.map_cons, List.flatten_cons, List.length_append, ih, List.length_cons]
      have : (Spec.bytes_from_int (f x).val).length = 32 := beBytes_length _ _
      omega
  have hlen : items.length = items'.length := by
    have := congrArg List.length hseed
    rw [List.length_append, List.length_append, hfl _ fun x => (x.row H).challenge, hfl _ fun x => (x.row H).s,
      hfl _ fun x => (x.row H).challenge, hfl _ fun x => (x.row H).s] at this
    omega
  obtain ⟨h1, h2⟩ := append_inj_len hseed (by rw [hfl _ fun x => (x.row H).challenge,
    hfl _ fun x => (x.row H).challenge, hlen])
  replace h1 := flatten_injective (by norm_num) (hl items fun x => (x.row H).challenge)
    (hl items' fun x => (x.row H).challenge) h1
  replace h2 := flatten_injective (by norm_num) (hl items fun x => (x.row H).s) (hl items' fun x => (x.row H).s) h2
  clear hseed hl hfl hlen
  have hinj : ∀ a b : MaybeScalar, Spec.bytes_from_int a.val = Spec.bytes_from_int b.val → a = b := by
    intro a b h
    exact serScalar_injective (Subtype.ext h)
  induction items generalizing items' with
  | nil =>
    cases items' with
    | nil => exact Or.inl .nil
    | cons y l => cases h1
  | cons x items ih =>
    cases items' with
    | nil => cases h1
    | cons y items' =>
      simp only [List.map_cons, List.cons.injEq] at h1 h2
      rcases ih items' (fun z hz => hp z (by simp [hz])) (fun z hz => hp' z (by simp [hz])) h1.2 h2.2 with h | h
      · by_cases hc : x.challengeInput = y.challengeInput
        · left
          refine .cons ?_ h
          obtain ⟨P, m, s, rfl, hs⟩ := hp x (by simp)
          obtain ⟨P', m', s', rfl, hs'⟩ := hp' y (by simp)
          unfold BatchItem.challengeInput at hc
          simp only at hc
          rw [spec_xbytes s.R.1, spec_xbytes s'.R.1] at hc
          obtain ⟨e1, e2, e3⟩ := C66_inputs_determined.1 _ _ _ _ _ _ hc
          have e4 := hinj _ _ h2.1
          unfold BatchItem.row BatchVerificationRow.fromSignature at e4
          simp only at e4
          have e5 : s.R = s'.R := Subtype.ext (eq_of_xonly_isOdd e1 (hs.trans hs'.symm))
          refine ⟨?_, e3, xonly_eq_iff.2 e2⟩
          cases s; cases s'
          simp only at e4 e5
          rw [e4, e5]
        · right
          refine ⟨x, by simp, y, by simp, hc, ?_⟩
          rw [← row_challenge, ← row_challenge]
          exact hinj _ _ h1.1
      · right
        obtain ⟨a, ha, b, hb, h⟩ := h
        exact ⟨a, by simp [ha], b, by simp [hb], h⟩

/-- **C50**, what the seed commitment means: the coefficients are those of the generator seeded with the hash of these
bytes. -/
theorem C50_seed_input (H : Hash) (rng : SeedRng) (items : List BatchItem) :
    verifyBatch H rng (items.map (·.row H)) = verifyBatch H (fun _ => rng (H (Spec.taggedInput "BIP0340/batch"
      ((items.map fun x => Spec.bytes_from_int (x.row H).challenge.val).flatten
        ++ (items.map fun x => Spec.bytes_from_int (x.row H).s.val).flatten)))) (items.map (·.row H)) := by
  rw [(C66_what_is_hashed H).2.2.2.2.2.1 rng, List.map_map, List.map_map]
  rfl

/-- Plain batches exist. -/
example (H : Hash) : ∃ items : List BatchItem, items.length = 1 ∧
    ∀ x ∈ items, ∃ P m s, x = .plain P m s ∧ isOdd s.R.1 = false := by
  obtain ⟨v, -, -, h1, -, -, -, -, -, ⟨P, m, s, rfl⟩, -⟩ := batch_examples H
  exact ⟨[.plain P m s], rfl, fun x hx => ⟨P, m, s, List.mem_singleton.1 hx, h1⟩⟩

/-- **C50**, exactly. The first item counts once and item `j + 1` with the `j`-th scalar of the generator, seeded with the
tagged hash of all challenges and all signature scalars. The batch is accepted exactly if the verification equations
add up with these weights, whatever the items are. -/
theorem C50_batch_exact (H : Hash) (hH : TagsAgree H) (rng : SeedRng) (x : BatchItem) (items : List BatchItem) :
    let seed := H (Spec.taggedInput "BIP0340/batch"
      (((x :: items).map fun y => Spec.bytes_from_int (y.challengeOf H).val).flatten
        ++ ((x :: items).map fun y => Spec.bytes_from_int y.scalar.val).flatten))
    verifyBatch H rng ((x :: items).map (·.row H)) = .ok () ↔
      x.defect H + (items.mapIdx fun j y => (rng seed j).1 • y.defect H).sum = 0 := by
  intro seed
  rw [C50_seed_input, verifyBatch_eq_ok]
  have hs : H (Spec.taggedInput "BIP0340/batch"
      (((x :: items).map fun x => Spec.bytes_from_int (x.row H).challenge.val).flatten
        ++ ((x :: items).map fun x => Spec.bytes_from_int (x.row H).s.val).flatten)) = seed := by
    simp only [row_scalar, row_challengeOf hH]
    rfl
  rw [hs, List.map_cons, batchDefect, batchDefect_tail hH, rowDefect_eq hH]
  simp [batchCoeff, scalarOne]

/-- **C50**, exactly: the defect of an item vanishes exactly if it is valid. -/
theorem C50_defect_iff_invalid (H : Hash) (hH : TagsAgree H) (x : BatchItem) (hw : x.WellFormed) :
    x.defect H = 0 ↔ x.Valid H := by
  rw [← rowDefect_eq hH, rowDefect_eq_zero hw]

/-- Both kinds of items. -/
example : ∃ v w : BatchItem, v.WellFormed ∧ v.defect sha256 = 0 ∧ w.WellFormed ∧ w.defect sha256 ≠ 0 := by
  obtain ⟨v, a, w, h1, h2, -, -, h5, h6, -⟩ := batch_examples sha256
  exact ⟨v, w, h1, (C50_defect_iff_invalid _ sha256_tagsAgree v h1).2 h2, h5,
    fun h => h6 ((C50_defect_iff_invalid _ sha256_tagsAgree w h5).1 h)⟩

end Verif
