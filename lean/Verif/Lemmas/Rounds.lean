import Verif.Spec.Rounds
import Verif.Lemmas.Session
import Mathlib.Data.List.Range

/-!
# Lemmas about the signing state machines
-/

namespace Verif

/-! ## Binary search -/

theorem binarySearchLoop_spec {l : List ℕ} (hs : l.Pairwise (· < ·)) {x p : ℕ} (hp : l[p]? = some x) :
    ∀ (size base : ℕ), base ≤ p → p < base + size → base + size ≤ l.length → binarySearchLoop l x size base = p := by
  intro size
  induction size using Nat.strong_induction_on with
  | _ size ih =>
    intro base h1 h2 h3
    rw [binarySearchLoop]
    by_cases hsz : size > 1
    · rw [if_pos hsz]
      simp only
      have hmid : base + size / 2 < l.length := by omega
      have hpl : p < l.length := by omega
      rw [List.getElem?_eq_getElem hpl, Option.some.injEq] at hp
      rw [List.getElem?_eq_getElem hmid]
      simp only [Option.getD_some]
      by_cases hgt : l[base + size / 2] > x
      · rw [if_pos hgt]
        have hlt : p < base + size / 2 := by
          by_contra hn
          rcases Nat.lt_or_ge (base + size / 2) p with hlt | hge
          · have := List.pairwise_iff_getElem.1 hs _ _ hmid hpl hlt
            omega
          · have : p = base + size / 2 := by omega
            subst this
            omega
        exact ih _ (by omega) base h1 (by omega) (by omega)
      · rw [if_neg hgt]
        have hle : base + size / 2 ≤ p := by
          by_contra hn
          have := List.pairwise_iff_getElem.1 hs _ _ hpl hmid (by omega)
          omega
        exact ih _ (by omega) _ hle (by omega) (by omega)
    · rw [if_neg hsz]
      omega

theorem binarySearch_of_mem {l : List ℕ} (hs : l.Pairwise (· < ·)) {x p : ℕ} (hp : l[p]? = some x) :
    binarySearch l x = some p := by
  have hl : p < l.length := by
    by_contra hn
    rw [List.getElem?_eq_none (by omega)] at hp
    cases hp
  unfold binarySearch
  rw [if_neg (by omega)]
  simp only
  rw [binarySearchLoop_spec hs hp l.length 0 (by omega) (by omega) (by omega), if_pos hp]

/-! ## Slots -/

variable {T : Type}

/-- The open slots are the empty ones, in order. -/
def Slots.Inv (s : Slots T) : Prop :=
  s.openSlots = (List.range s.slots.length).filter fun i => s.slots[i]?.join.isNone

theorem Slots.inv_new (n : ℕ) : (Slots.new n : Slots T).Inv := by
  unfold Slots.Inv Slots.new
  simp only [List.length_replicate]
  symm
  rw [List.filter_eq_self]
  intro i hi
  rw [List.mem_range] at hi
  rw [List.getElem?_replicate_of_lt hi]
  rfl

theorem Slots.Inv.sorted {s : Slots T} (h : s.Inv) : s.openSlots.Pairwise (· < ·) := by
  rw [h]
  exact List.Pairwise.filter _ List.pairwise_lt_range

theorem Slots.Inv.mem {s : Slots T} (h : s.Inv) {i : ℕ} :
    i ∈ s.openSlots ↔ i < s.slots.length ∧ s.slots[i]?.join = none := by
  rw [h, List.mem_filter, List.mem_range, Option.isNone_iff_eq_none]

theorem eraseIdx_eq_filter {l : List ℕ} (hs : l.Pairwise (· < ·)) {p x : ℕ} (hp : l[p]? = some x) :
    l.eraseIdx p = l.filter (· != x) := by
  have hnd : l.Nodup := hs.imp fun h => by omega
  obtain ⟨hl, he⟩ := List.getElem?_eq_some_iff.1 hp
  rw [← hnd.erase_eq_filter, ← he, List.Nodup.erase_getElem hnd]

/-- The four outcomes of `place`. -/
theorem Slots.place_eq [DecidableEq T] {s : Slots T} (h : s.Inv) (v : T) (i : ℕ) :
    s.place v i =
      if i < s.slots.length then
        match s.slots[i]?.join with
        | some w => if v = w then (s, .ok ()) else (s, .err ⟨i, .inconsistentContribution⟩)
        | none => (⟨s.slots.set i (some v), s.openSlots.filter (· != i)⟩, .ok ())
      else (s, .err ⟨i, .outOfRange s.slots.length⟩) := by
  unfold Slots.place
  by_cases hi : i < s.slots.length
  · rw [if_neg (by omega), if_pos hi]
    rw [List.getElem?_eq_getElem hi]
    simp only
    cases hw : s.slots[i] with
    | some w => rfl
    | none =>
      simp only [Option.join_some]
      have hmem : i ∈ s.openSlots := h.mem.2 ⟨hi, by rw [List.getElem?_eq_getElem hi, hw]; rfl⟩
      obtain ⟨p, hp⟩ := List.getElem?_of_mem hmem
      rw [binarySearch_of_mem h.sorted hp]
      simp only
      rw [eraseIdx_eq_filter h.sorted hp]
  · rw [if_pos (by omega), if_neg hi]

theorem Slots.place_length [DecidableEq T] {s : Slots T} (h : s.Inv) (v : T) (i : ℕ) :
    (s.place v i).1.slots.length = s.slots.length := by
  rw [Slots.place_eq h]
  split_ifs
  · split
    · split_ifs <;> rfl
    · simp
  · rfl

/-- The stored value after `place`: first write wins. -/
theorem Slots.place_get [DecidableEq T] {s : Slots T} (h : s.Inv) (v : T) (i j : ℕ) (hj : j < s.slots.length) :
    (s.place v i).1.slots[j]?.join = s.slots[j]?.join.or (if i = j then some v else none) := by
  rw [Slots.place_eq h]
  by_cases hij : i = j
  · subst hij
    rw [if_pos hj, if_pos rfl]
    cases hw : s.slots[i]?.join with
    | some w =>
      simp only
      split_ifs <;> rw [hw] <;> rfl
    | none =>
      simp only [List.getElem?_set_self hj]
      rfl
  · rw [if_neg hij, Option.or_none]
    split_ifs
    · split
      · split_ifs <;> rfl
      · simp only [List.getElem?_set_ne hij]
    · rfl

theorem Slots.Inv.place [DecidableEq T] {s : Slots T} (h : s.Inv) (v : T) (i : ℕ) : (s.place v i).1.Inv := by
  by_cases hi : i < s.slots.length
  · cases hw : s.slots[i]?.join with
    | some w =>
      have : (s.place v i).1 = s := by
        rw [Slots.place_eq h, if_pos hi, hw]
        simp only
        split_ifs <;> rfl
      rw [this]
      exact h
    | none =>
      have he : (s.place v i).1 = ⟨s.slots.set i (some v), s.openSlots.filter (· != i)⟩ := by
        rw [Slots.place_eq h, if_pos hi, hw]
      rw [he]
      unfold Slots.Inv
      simp only [List.length_set]
      rw [h, List.filter_filter]
      apply List.filter_congr
      intro j hj
      by_cases hij : i = j
      · subst hij
        rw [List.getElem?_set_self hi]
        simp
      · rw [List.getElem?_set_ne hij]
        have : (j != i) = true := by simpa using fun h => hij h.symm
        rw [this, Bool.true_and]
  · have : (s.place v i).1 = s := by rw [Slots.place_eq h, if_neg hi]
    rw [this]
    exact h

theorem Slots.collect_eq_ok {l : List (Option T)} {vs : List T} :
    Slots.collect l = .ok vs ↔ l = vs.map some := by
  induction l generalizing vs with
  | nil =>
    unfold Slots.collect
    simp only [Res.ok.injEq]
    cases vs <;> simp
  | cons o os ih =>
    unfold Slots.collect
    simp only [Res.bind_eq_ok, Res.okOr_eq_ok]
    constructor
    · rintro ⟨v, rfl, ws, h, h2⟩
      cases h2
      rw [ih.1 h]
      rfl
    · intro h
      cases vs with
      | nil => cases h
      | cons v ws =>
        simp only [List.map_cons, List.cons.injEq] at h
        exact ⟨v, h.1, ws, ih.2 h.2, rfl⟩

theorem Slots.collect_cases (l : List (Option T)) :
    (∃ vs, Slots.collect l = .ok vs) ∨ Slots.collect l = .err .incomplete := by
  induction l with
  | nil => exact Or.inl ⟨_, rfl⟩
  | cons o os ih =>
    unfold Slots.collect
    cases o with
    | none => exact Or.inr rfl
    | some v =>
      rcases ih with ⟨vs, h⟩ | h
      · exact Or.inl ⟨v :: vs, by rw [h]; rfl⟩
      · exact Or.inr (by rw [h]; rfl)

theorem Slots.Inv.openSlots_nil {s : Slots T} (h : s.Inv) :
    s.openSlots = [] ↔ ∃ vs, s.finalize = .ok vs := by
  unfold Slots.finalize
  constructor
  · intro he
    refine ⟨s.slots.filterMap id, Slots.collect_eq_ok.2 ?_⟩
    apply List.ext_getElem?
    have hall : ∀ o ∈ s.slots, ∃ v, o = some v := by
      intro o ho
      obtain ⟨i, hi⟩ := List.getElem?_of_mem ho
      cases o with
      | some v => exact ⟨v, rfl⟩
      | none =>
        have : i ∈ s.openSlots := h.mem.2 ⟨(List.getElem?_eq_some_iff.1 hi).1, by rw [hi]; rfl⟩
        rw [he] at this
        cases this
    have hm : ∀ l : List (Option T), (∀ o ∈ l, ∃ v, o = some v) → l = (l.filterMap id).map some := by
      intro l hl
      induction l with
      | nil => rfl
      | cons o os ih =>
        obtain ⟨v, rfl⟩ := hl o (by simp)
        simp only [List.filterMap_cons, id, List.map_cons]
        exact congrArg (some v :: ·) (ih fun o ho => hl o (by simp [ho]))
    intro i
    rw [← hm _ hall]
  · rintro ⟨vs, he⟩
    rw [Slots.collect_eq_ok] at he
    rw [h, List.filter_eq_nil_iff]
    intro i hi
    rw [he] at hi ⊢
    simp only [List.length_map, List.mem_range] at hi
    simp [List.getElem?_eq_getElem hi]

/-- What `finalize` returns is what is stored. -/
theorem Slots.finalize_eq_ok {s : Slots T} {vs : List T} :
    s.finalize = .ok vs ↔ vs.length = s.slots.length ∧ ∀ i < s.slots.length, s.slots[i]?.join = vs[i]? := by
  unfold Slots.finalize
  rw [Slots.collect_eq_ok]
  constructor
  · intro h
    rw [h]
    refine ⟨by simp, fun i hi => ?_⟩
    rw [List.getElem?_map]
    cases vs[i]? <;> rfl
  · rintro ⟨hl, h⟩
    apply List.ext_getElem
    · simp [hl]
    · intro i h1 h2
      have := h i h1
      rw [List.getElem?_eq_getElem h1, List.getElem?_eq_getElem (by simpa using h2)] at this
      simpa using this

/-- Slots filled by a sequence of calls. -/
def Slots.placeAll [DecidableEq T] (s : Slots T) : List (ℕ × T) → Slots T
  | [] => s
  | c :: cs => Slots.placeAll (s.place c.2 c.1).1 cs

theorem Slots.placeAll_inv [DecidableEq T] : ∀ (cs : List (ℕ × T)) (s : Slots T), s.Inv →
    (s.placeAll cs).Inv ∧ (s.placeAll cs).slots.length = s.slots.length
  | [], _, h => ⟨h, rfl⟩
  | c :: cs, s, h => by
    obtain ⟨h1, h2⟩ := Slots.placeAll_inv cs _ (h.place c.2 c.1)
    exact ⟨h1, h2.trans (Slots.place_length h c.2 c.1)⟩

theorem Slots.placeAll_get [DecidableEq T] : ∀ (cs : List (ℕ × T)) (s : Slots T), s.Inv →
    ∀ j < s.slots.length, (s.placeAll cs).slots[j]?.join = s.slots[j]?.join.or (Spec.firstValue cs j)
  | [], s, _, j, _ => by simp [Slots.placeAll, Spec.firstValue]
  | c :: cs, s, h, j, hj => by
    unfold Slots.placeAll
    rw [Slots.placeAll_get cs _ (h.place c.2 c.1) j (by rw [Slots.place_length h]; exact hj),
      Slots.place_get h _ _ _ hj, Option.or_assoc]
    congr 1
    unfold Spec.firstValue
    by_cases hc : c.1 = j
    · rw [if_pos hc, List.find?_cons_of_pos (by simpa using hc)]
      rfl
    · rw [if_neg hc, List.find?_cons_of_neg (by simpa using hc)]
      rfl

theorem firstValue_append {α : Type} (l l' : List (ℕ × α)) (i : ℕ) :
    Spec.firstValue (l ++ l') i = (Spec.firstValue l i).or (Spec.firstValue l' i) := by
  unfold Spec.firstValue
  rw [List.find?_append]
  cases l.find? fun c => c.1 == i <;> rfl

theorem firstValue_eq_none {α : Type} {l : List (ℕ × α)} {i : ℕ} :
    Spec.firstValue l i = none ↔ ∀ c ∈ l, c.1 ≠ i := by
  unfold Spec.firstValue
  simp

theorem firstValue_mem {α : Type} {l : List (ℕ × α)} {i : ℕ} {v : α} (h : Spec.firstValue l i = some v) :
    (i, v) ∈ l := by
  unfold Spec.firstValue at h
  obtain ⟨c, hc, rfl⟩ := Option.map_eq_some_iff.1 h
  have h1 := List.mem_of_find?_eq_some hc
  have h2 := List.find?_some hc
  rw [beq_iff_eq] at h2
  rw [← h2]
  exact h1

/-! ## First round -/

/-- What holds in every first round. -/
structure FirstRound.Inv (H : Hash) (r : FirstRound) : Prop where
  ctx : Verif.Reachable H r.keyAggCtx
  own : r.signerIndex < r.keyAggCtx.pubkeys.length
  slots : r.pubnonceSlots.Inv
  len : r.pubnonceSlots.slots.length = r.keyAggCtx.pubkeys.length
  mine : r.pubnonceSlots.slots[r.signerIndex]?.join = some r.secnonce.publicNonce

theorem getPubkey_eq_none {ctx : KeyAggContext} {i : ℕ} : ctx.getPubkey i = none ↔ ctx.pubkeys.length ≤ i := by
  unfold KeyAggContext.getPubkey KeyAggContext.pubkeys
  exact List.getElem?_eq_none_iff

theorem Slots.place_new [DecidableEq T] {n i : ℕ} (hi : i < n) (v : T) :
    (Slots.new n).place v i = (⟨(List.replicate n none).set i (some v), (List.range n).filter (· != i)⟩, .ok ()) := by
  rw [Slots.place_eq (Slots.inv_new n)]
  have hl : (Slots.new n : Slots T).slots.length = n := List.length_replicate
  rw [if_pos (by rw [hl]; exact hi)]
  have : (Slots.new n : Slots T).slots[i]?.join = none := by
    unfold Slots.new
    simp only [List.getElem?_replicate_of_lt hi]
    rfl
  rw [this]
  rfl

theorem FirstRound.new_eq_ok {H : Hash} {ctx : KeyAggContext} {seed : Arr 32} {i : ℕ} {spices : SecNonceSpices}
    {r : FirstRound} : FirstRound.new H ctx seed i spices = .ok r ↔
      ∃ P b, ctx.pubkeys[i]? = some P ∧
        (FirstRound.builder seed P ctx.aggregatedPubkey i spices : Res SignerIndexError _) = .ok b ∧
        r = ⟨ctx, i, b.build H, ((Slots.new ctx.pubkeys.length).place (b.build H).publicNonce i).1⟩ := by
  unfold FirstRound.new
  simp only [Res.bind_eq_ok, Res.okOr_eq_ok]
  constructor
  · rintro ⟨P, h1, b, h2, u, h3, h4⟩
    cases h4
    exact ⟨P, b, h1, h2, rfl⟩
  · rintro ⟨P, b, h1, h2, rfl⟩
    refine ⟨P, h1, b, h2, (), ?_, rfl⟩
    have hi : i < ctx.pubkeys.length := by
      by_contra hn
      rw [List.getElem?_eq_none (by omega)] at h1
      cases h1
    rw [Slots.place_new hi]
    rfl

theorem FirstRound.inv_new {H : Hash} {ctx : KeyAggContext} {seed : Arr 32} {i : ℕ} {spices : SecNonceSpices}
    {r : FirstRound} (hc : Verif.Reachable H ctx) (h : FirstRound.new H ctx seed i spices = .ok r) : r.Inv H := by
  obtain ⟨P, b, h1, -, rfl⟩ := FirstRound.new_eq_ok.1 h
  have hi : i < ctx.pubkeys.length := (List.getElem?_eq_some_iff.1 h1).1
  refine ⟨hc, hi, (Slots.inv_new _).place _ _, ?_, ?_⟩
  · simp only
    rw [Slots.place_length (Slots.inv_new _)]
    exact List.length_replicate
  · simp only
    rw [Slots.place_new hi]
    simp only
    rw [List.getElem?_set_self (by simpa using hi)]
    rfl

theorem FirstRound.Inv.receive {H : Hash} {r : FirstRound} (h : r.Inv H) (i : ℕ) (n : PubNonce) :
    (r.receiveNonce i n).1.Inv H := by
  refine ⟨h.ctx, h.own, h.slots.place _ _, ?_, ?_⟩
  · exact (Slots.place_length h.slots _ _).trans h.len
  · have := Slots.place_get h.slots n i r.signerIndex (by rw [h.len]; exact h.own)
    rw [h.mine] at this
    exact this

theorem FirstRound.Reachable.inv {H : Hash} {r : FirstRound} (h : FirstRound.Reachable H r) : r.Inv H := by
  induction h with
  | new hc h => exact FirstRound.inv_new hc h
  | receive _ i n ih => exact ih.receive i n

theorem FirstRound.run_eq : ∀ (cs : List (ℕ × PubNonce)) (r : FirstRound),
    (r.run cs).1 = { r with pubnonceSlots := r.pubnonceSlots.placeAll cs }
  | [], _ => rfl
  | c :: cs, r => by
    unfold FirstRound.run
    simp only
    rw [FirstRound.run_eq cs]
    rfl

theorem FirstRound.Reachable.run {H : Hash} : ∀ (cs : List (ℕ × PubNonce)) {r : FirstRound},
    FirstRound.Reachable H r → FirstRound.Reachable H (r.run cs).1
  | [], _, h => h
  | c :: cs, _, h => FirstRound.Reachable.run cs (h.receive c.1 c.2)

theorem FirstRound.Inv.run {H : Hash} {r : FirstRound} (h : r.Inv H) (cs : List (ℕ × PubNonce)) :
    (r.run cs).1.Inv H := by
  induction cs generalizing r with
  | nil => exact h
  | cons c cs ih => exact ih (h.receive c.1 c.2)

/-- The nonce stored for `j`. -/
def FirstRound.stored (r : FirstRound) (j : ℕ) : Option PubNonce := r.pubnonceSlots.slots[j]?.join

theorem FirstRound.Inv.stored_run {H : Hash} {r : FirstRound} (h : r.Inv H) (cs : List (ℕ × PubNonce)) {j : ℕ}
    (hj : j < r.keyAggCtx.pubkeys.length) : (r.run cs).1.stored j = (r.stored j).or (Spec.firstValue cs j) := by
  unfold FirstRound.stored
  rw [FirstRound.run_eq]
  exact Slots.placeAll_get cs _ h.slots j (by rw [h.len]; exact hj)

/-- The stored nonces right after `new`. -/
theorem FirstRound.stored_new {H : Hash} {ctx : KeyAggContext} {seed : Arr 32} {i : ℕ} {spices : SecNonceSpices}
    {r : FirstRound} (h : FirstRound.new H ctx seed i spices = .ok r) {j : ℕ} (hj : j < ctx.pubkeys.length) :
    r.stored j = if i = j then some r.ourPublicNonce else none := by
  obtain ⟨P, b, h1, -, rfl⟩ := FirstRound.new_eq_ok.1 h
  unfold FirstRound.stored FirstRound.ourPublicNonce
  simp only
  have hl : (Slots.new ctx.pubkeys.length : Slots PubNonce).slots.length = ctx.pubkeys.length := List.length_replicate
  rw [Slots.place_get (Slots.inv_new _) _ _ _ (by rw [hl]; exact hj)]
  have : (Slots.new ctx.pubkeys.length : Slots PubNonce).slots[j]?.join = none := by
    unfold Slots.new
    simp only [List.getElem?_replicate_of_lt hj]
    rfl
  rw [this, Option.none_or]

theorem FirstRound.Inv.holdouts_eq {H : Hash} {r : FirstRound} (h : r.Inv H) :
    r.holdouts = (List.range r.keyAggCtx.pubkeys.length).filter fun i => (r.stored i).isNone := by
  unfold FirstRound.holdouts Slots.remaining FirstRound.stored
  rw [← h.len]
  exact h.slots

theorem FirstRound.Inv.receive_eq {H : Hash} {r : FirstRound} (h : r.Inv H) (i : ℕ) (n : PubNonce) :
    (r.receiveNonce i n).2 =
      if i < r.keyAggCtx.pubkeys.length then
        match r.stored i with
        | some w => if n = w then .ok () else .err ⟨i, .inconsistentContribution⟩
        | none => .ok ()
      else .err ⟨i, .outOfRange r.keyAggCtx.pubkeys.length⟩ := by
  unfold FirstRound.receiveNonce FirstRound.stored
  simp only
  rw [Slots.place_eq h.slots, h.len]
  split_ifs
  · cases r.pubnonceSlots.slots[i]?.join with
    | none => rfl
    | some w =>
      simp only
      split_ifs <;> rfl
  · rfl

theorem FirstRound.Inv.receive_unchanged {H : Hash} {r : FirstRound} (h : r.Inv H) (i : ℕ) (n : PubNonce)
    (hu : i < r.keyAggCtx.pubkeys.length → r.stored i ≠ none) : (r.receiveNonce i n).1 = r := by
  unfold FirstRound.receiveNonce
  simp only
  have : (r.pubnonceSlots.place n i).1 = r.pubnonceSlots := by
    rw [Slots.place_eq h.slots, h.len]
    split_ifs with hi
    · have := hu hi
      unfold FirstRound.stored at this
      cases hw : r.pubnonceSlots.slots[i]?.join with
      | none => exact absurd hw this
      | some w =>
        simp only
        split_ifs <;> rfl
    · rfl
  rw [this]

theorem FirstRound.Inv.slots_finalize {H : Hash} {r : FirstRound} (h : r.Inv H) (ns : List PubNonce) :
    r.pubnonceSlots.finalize = .ok ns ↔
      ns.length = r.keyAggCtx.pubkeys.length ∧ ∀ i < r.keyAggCtx.pubkeys.length, r.stored i = ns[i]? := by
  rw [Slots.finalize_eq_ok, h.len]
  rfl

theorem FirstRound.Inv.isComplete_iff {H : Hash} {r : FirstRound} (h : r.Inv H) :
    r.isComplete = true ↔ ∃ ns, r.pubnonceSlots.finalize = .ok ns := by
  unfold FirstRound.isComplete FirstRound.holdouts Slots.remaining
  rw [List.isEmpty_iff]
  exact h.slots.openSlots_nil

/-- Finalizing the first round in one formula. -/
theorem FirstRound.Inv.finalizeAdaptor_eq {H : Hash} {r : FirstRound} (h : r.Inv H) (sk : Scalar) (T : MaybePoint)
    (msg : Bytes) {ns : List PubNonce} (hns : r.pubnonceSlots.finalize = .ok ns) :
    r.finalizeAdaptor H sk T msg =
      if mulG sk ∈ r.keyAggCtx.orderedPubkeys then
        .ok ⟨r.keyAggCtx, r.signerIndex, ns, AggNonce.sum ns, T, msg,
          ((Slots.new ns.length).place (partialSigValue H r.keyAggCtx sk r.secnonce (AggNonce.sum ns) T msg)
            r.signerIndex).1⟩
      else .err (.signingError .unknownKey) := by
  unfold FirstRound.finalizeAdaptor
  rw [hns]
  simp only [Res.bind_ok]
  rw [signPartialAdaptor_eq h.ctx.inv]
  split_ifs with hm
  · simp only [Res.mapErr_ok, Res.bind_ok]
    have hl : r.signerIndex < ns.length := by
      rw [((h.slots_finalize ns).1 hns).1]
      exact h.own
    rw [Slots.place_new hl]
    rfl
  · rfl

theorem FirstRound.finalizeAdaptor_incomplete {H : Hash} {r : FirstRound} (sk : Scalar) (T : MaybePoint) (msg : Bytes)
    (hns : r.pubnonceSlots.finalize = .err .incomplete) : r.finalizeAdaptor H sk T msg = .err .incomplete := by
  unfold FirstRound.finalizeAdaptor
  rw [hns]
  rfl

/-! ## Second round -/

/-- The partial signature passes for the signer at the index. -/
def SecondRound.Accepts (H : Hash) (r : SecondRound) (i : ℕ) (s : PartialSignature) : Prop :=
  ∃ P n, r.keyAggCtx.pubkeys[i]? = some P ∧ r.pubnonces[i]? = some n ∧
    verifyPartialAdaptor H r.keyAggCtx s r.aggnonce r.adaptorPoint P n r.message = .ok ()

/-- The partial signature stored for `j`. -/
def SecondRound.stored (r : SecondRound) (j : ℕ) : Option PartialSignature := r.partialSignatureSlots.slots[j]?.join

/-- What holds in every second round. -/
structure SecondRound.Inv (H : Hash) (r : SecondRound) : Prop where
  ctx : Verif.Reachable H r.keyAggCtx
  own : r.signerIndex < r.keyAggCtx.pubkeys.length
  nonces : r.pubnonces.length = r.keyAggCtx.pubkeys.length
  agg : r.aggnonce = AggNonce.sum r.pubnonces
  slots : r.partialSignatureSlots.Inv
  len : r.partialSignatureSlots.slots.length = r.keyAggCtx.pubkeys.length
  mine : ∃ s, r.stored r.signerIndex = some s
  valid : ∀ j s, j ≠ r.signerIndex → r.stored j = some s → r.Accepts H j s

theorem SecondRound.Accepts.unique {H : Hash} {r : SecondRound} (h : Verif.Reachable H r.keyAggCtx) {i : ℕ}
    {s s' : PartialSignature} (h1 : r.Accepts H i s) (h2 : r.Accepts H i s') : s = s' := by
  obtain ⟨P, n, hP, hn, hv⟩ := h1
  obtain ⟨P', n', hP', hn', hv'⟩ := h2
  rw [hP] at hP'
  rw [hn] at hn'
  cases hP'
  cases hn'
  have e1 := ((verifyPartialAdaptor_eq_ok h.inv).1 hv).2
  have e2 := ((verifyPartialAdaptor_eq_ok h.inv).1 hv').2
  rw [← e2] at e1
  exact smul_G_inj.1 e1

theorem SecondRound.Inv.check_eq {H : Hash} {r : SecondRound} (h : r.Inv H) (i : ℕ) (s : PartialSignature) :
    (¬ i < r.keyAggCtx.pubkeys.length ∧
      r.checkSignature H i s = .err ⟨i, .outOfRange r.keyAggCtx.pubkeys.length⟩) ∨
    (i < r.keyAggCtx.pubkeys.length ∧ r.Accepts H i s ∧ r.checkSignature H i s = .ok ()) ∨
    (i < r.keyAggCtx.pubkeys.length ∧ ¬ r.Accepts H i s ∧ r.checkSignature H i s = .err ⟨i, .invalidSignature⟩) := by
  unfold SecondRound.checkSignature
  by_cases hi : i < r.keyAggCtx.pubkeys.length
  · right
    have hk : r.keyAggCtx.getPubkey i = some r.keyAggCtx.pubkeys[i] := List.getElem?_eq_getElem hi
    have hn : r.pubnonces[i]? = some (r.pubnonces[i]'(by rw [h.nonces]; exact hi)) :=
      List.getElem?_eq_getElem _
    rw [hk]
    simp only [Res.okOr_some, Res.bind_ok]
    unfold index
    rw [hn]
    simp only [Res.unwrap_some, Res.bind_ok]
    have hm : r.keyAggCtx.pubkeys[i] ∈ r.keyAggCtx.orderedPubkeys := List.getElem_mem hi
    rw [verifyPartialAdaptor_eq h.ctx.inv, if_pos hm]
    have hacc : r.Accepts H i s ↔ s • G = partialRhs H r.keyAggCtx r.aggnonce r.adaptorPoint r.keyAggCtx.pubkeys[i]
        (r.pubnonces[i]'(by rw [h.nonces]; exact hi)) r.message := by
      constructor
      · rintro ⟨P, n, h1, h2, h3⟩
        rw [List.getElem?_eq_getElem hi] at h1
        rw [hn] at h2
        cases h1
        cases h2
        exact ((verifyPartialAdaptor_eq_ok h.ctx.inv).1 h3).2
      · intro e
        exact ⟨_, _, hk, hn, (verifyPartialAdaptor_eq_ok h.ctx.inv).2 ⟨hm, e⟩⟩
    by_cases ha : r.Accepts H i s
    · left
      rw [if_pos (hacc.1 ha)]
      exact ⟨hi, ha, rfl⟩
    · right
      rw [if_neg (mt hacc.2 ha)]
      exact ⟨hi, ha, rfl⟩
  · left
    rw [getPubkey_eq_none.2 (by omega)]
    exact ⟨hi, rfl⟩

/-- The five outcomes of `receive_signature`. -/
theorem SecondRound.Inv.receive_cases {H : Hash} {r : SecondRound} (h : r.Inv H) (i : ℕ) (s : PartialSignature) :
    (¬ i < r.keyAggCtx.pubkeys.length ∧
      r.receiveSignature H i s = (r, .err ⟨i, .outOfRange r.keyAggCtx.pubkeys.length⟩)) ∨
    (i < r.keyAggCtx.pubkeys.length ∧ ¬ r.Accepts H i s ∧
      r.receiveSignature H i s = (r, .err ⟨i, .invalidSignature⟩)) ∨
    (i < r.keyAggCtx.pubkeys.length ∧ r.Accepts H i s ∧ r.stored i = some s ∧
      r.receiveSignature H i s = (r, .ok ())) ∨
    (i < r.keyAggCtx.pubkeys.length ∧ r.Accepts H i s ∧ (∃ w, r.stored i = some w ∧ s ≠ w) ∧
      r.receiveSignature H i s = (r, .err ⟨i, .inconsistentContribution⟩)) ∨
    (i < r.keyAggCtx.pubkeys.length ∧ r.Accepts H i s ∧ r.stored i = none ∧
      r.receiveSignature H i s =
        ({ r with partialSignatureSlots := (r.partialSignatureSlots.place s i).1 }, .ok ())) := by
  unfold SecondRound.receiveSignature
  rcases h.check_eq i s with ⟨hi, hc⟩ | ⟨hi, ha, hc⟩ | ⟨hi, ha, hc⟩
  · left
    rw [hc]
    exact ⟨hi, rfl⟩
  · rw [hc]
    right; right
    simp only
    have hp := Slots.place_eq h.slots s i
    rw [if_pos (by rw [h.len]; exact hi)] at hp
    cases hw : r.partialSignatureSlots.slots[i]?.join with
    | some w =>
      rw [hw] at hp
      simp only at hp
      by_cases hsw : s = w
      · left
        rw [if_pos hsw] at hp
        rw [hp]
        subst hsw
        exact ⟨hi, ha, hw, rfl⟩
      · right; left
        rw [if_neg hsw] at hp
        rw [hp]
        exact ⟨hi, ha, ⟨w, hw, hsw⟩, rfl⟩
    | none =>
      right; right
      rw [hw] at hp
      simp only at hp
      rw [hp]
      exact ⟨hi, ha, hw, rfl⟩
  · right; left
    rw [hc]
    exact ⟨hi, ha, rfl⟩

theorem SecondRound.Inv.receive {H : Hash} {r : SecondRound} (h : r.Inv H) (i : ℕ) (s : PartialSignature) :
    (r.receiveSignature H i s).1.Inv H := by
  rcases h.receive_cases i s with ⟨-, e⟩ | ⟨-, -, e⟩ | ⟨-, -, -, e⟩ | ⟨-, -, -, e⟩ | ⟨hi, ha, hw, e⟩ <;> rw [e]
  · exact h
  · exact h
  · exact h
  · exact h
  · have hg : ∀ j, j < r.keyAggCtx.pubkeys.length → (r.partialSignatureSlots.place s i).1.slots[j]?.join
        = r.partialSignatureSlots.slots[j]?.join.or (if i = j then some s else none) :=
      fun j hj => Slots.place_get h.slots s i j (by rw [h.len]; exact hj)
    refine ⟨h.ctx, h.own, h.nonces, h.agg, h.slots.place _ _, ?_, ?_, ?_⟩
    · exact (Slots.place_length h.slots _ _).trans h.len
    · obtain ⟨t, ht⟩ := h.mine
      refine ⟨t, ?_⟩
      unfold SecondRound.stored at ht ⊢
      simp only
      rw [hg _ h.own, ht]
      rfl
    · intro j t hj ht
      unfold SecondRound.stored at ht
      simp only at ht hj
      have hjl : j < r.keyAggCtx.pubkeys.length := by
        by_contra hn
        have hlen := Slots.place_length h.slots s i
        rw [List.getElem?_eq_none (by rw [hlen, h.len]; omega)] at ht
        cases ht
      rw [hg j hjl] at ht
      cases hw' : r.partialSignatureSlots.slots[j]?.join with
      | some w =>
        rw [hw'] at ht
        simp only [Option.some_or, Option.some.injEq] at ht
        rw [← ht]
        exact h.valid j w hj hw'
      | none =>
        rw [hw', Option.none_or] at ht
        split_ifs at ht with hij
        cases ht
        subst hij
        exact ha

theorem SecondRound.inv_finalize {H : Hash} {r : FirstRound} (h : r.Inv H) {sk : Scalar} {T : MaybePoint}
    {msg : Bytes} {r2 : SecondRound} (hf : r.finalizeAdaptor H sk T msg = .ok r2) : r2.Inv H := by
  rcases Slots.collect_cases r.pubnonceSlots.slots with ⟨ns, hns⟩ | hinc
  · have hns' : r.pubnonceSlots.finalize = .ok ns := hns
    rw [h.finalizeAdaptor_eq sk T msg hns'] at hf
    split_ifs at hf with hm
    cases hf
    have hl := ((h.slots_finalize ns).1 hns').1
    have hown : r.signerIndex < ns.length := by rw [hl]; exact h.own
    refine ⟨h.ctx, h.own, hl, rfl, (Slots.inv_new _).place _ _, ?_, ?_, ?_⟩
    · simp only
      rw [Slots.place_length (Slots.inv_new _), ← hl]
      exact List.length_replicate
    · refine ⟨partialSigValue H r.keyAggCtx sk r.secnonce (AggNonce.sum ns) T msg, ?_⟩
      unfold SecondRound.stored
      simp only
      rw [Slots.place_new hown]
      simp only
      rw [List.getElem?_set_self (by simpa using hown)]
      rfl
    · intro j s hj hs
      unfold SecondRound.stored at hs
      simp only at hs hj
      rw [Slots.place_new hown] at hs
      simp only at hs
      rw [List.getElem?_set_ne hj.symm, List.getElem?_replicate] at hs
      split_ifs at hs <;> cases hs
  · rw [FirstRound.finalizeAdaptor_incomplete sk T msg hinc] at hf
    cases hf

theorem SecondRound.Reachable.inv {H : Hash} {r : SecondRound} (h : SecondRound.Reachable H r) : r.Inv H := by
  induction h with
  | finalize hr h => exact SecondRound.inv_finalize hr.inv h
  | receive _ i n ih => exact ih.receive i n

theorem SecondRound.Inv.receive_same {H : Hash} {r : SecondRound} (h : r.Inv H) (i : ℕ) (s : PartialSignature) :
    (r.receiveSignature H i s).1.keyAggCtx = r.keyAggCtx ∧ (r.receiveSignature H i s).1.pubnonces = r.pubnonces ∧
    (r.receiveSignature H i s).1.aggnonce = r.aggnonce ∧
    (r.receiveSignature H i s).1.adaptorPoint = r.adaptorPoint ∧
    (r.receiveSignature H i s).1.message = r.message ∧ (r.receiveSignature H i s).1.signerIndex = r.signerIndex := by
  rcases h.receive_cases i s with ⟨-, e⟩ | ⟨-, -, e⟩ | ⟨-, -, -, e⟩ | ⟨-, -, -, e⟩ | ⟨hi, ha, hw, e⟩ <;> rw [e] <;>
    exact ⟨rfl, rfl, rfl, rfl, rfl, rfl⟩

theorem SecondRound.Inv.receive_accepts {H : Hash} {r : SecondRound} (h : r.Inv H) (i j : ℕ)
    (s t : PartialSignature) : (r.receiveSignature H i s).1.Accepts H j t ↔ r.Accepts H j t := by
  obtain ⟨h1, h2, h3, h4, h5, -⟩ := h.receive_same i s
  unfold SecondRound.Accepts
  rw [h1, h2, h3, h4, h5]

open Classical in
/-- What is stored after one call. -/
theorem SecondRound.Inv.stored_receive {H : Hash} {r : SecondRound} (h : r.Inv H) (i j : ℕ) (s : PartialSignature)
    (hj : j < r.keyAggCtx.pubkeys.length) :
    (r.receiveSignature H i s).1.stored j =
      (r.stored j).or (if i = j ∧ r.Accepts H i s then some s else none) := by
  rcases h.receive_cases i s with ⟨hi, e⟩ | ⟨-, ha, e⟩ | ⟨-, ha, hw, e⟩ | ⟨-, -, ⟨w, hw, -⟩, e⟩ | ⟨hi, ha, hw, e⟩ <;>
    rw [e]
  · rw [if_neg (by rintro ⟨rfl, -⟩; exact hi hj), Option.or_none]
  · rw [if_neg (by rintro ⟨-, h⟩; exact ha h), Option.or_none]
  · by_cases hij : i = j
    · subst hij
      rw [hw, Option.some_or]
    · rw [if_neg (fun h => hij h.1), Option.or_none]
  · by_cases hij : i = j
    · subst hij
      rw [hw, Option.some_or]
    · rw [if_neg (fun h => hij h.1), Option.or_none]
  · unfold SecondRound.stored
    simp only
    rw [Slots.place_get h.slots _ _ _ (by rw [h.len]; exact hj)]
    by_cases hij : i = j
    · rw [if_pos hij, if_pos ⟨hij, ha⟩]
    · rw [if_neg hij, if_neg (fun h => hij h.1)]

theorem SecondRound.Inv.run {H : Hash} : ∀ (cs : List (ℕ × PartialSignature)) {r : SecondRound}, r.Inv H →
    (r.run H cs).1.Inv H ∧ (r.run H cs).1.keyAggCtx = r.keyAggCtx ∧ (r.run H cs).1.pubnonces = r.pubnonces ∧
    (r.run H cs).1.aggnonce = r.aggnonce ∧ (r.run H cs).1.adaptorPoint = r.adaptorPoint ∧
    (r.run H cs).1.message = r.message ∧ (r.run H cs).1.signerIndex = r.signerIndex
  | [], _, h => ⟨h, rfl, rfl, rfl, rfl, rfl, rfl⟩
  | c :: cs, r, h => by
    obtain ⟨h0, h1, h2, h3, h4, h5, h6⟩ := SecondRound.Inv.run cs (h.receive c.1 c.2)
    obtain ⟨g1, g2, g3, g4, g5, g6⟩ := h.receive_same c.1 c.2
    exact ⟨h0, h1.trans g1, h2.trans g2, h3.trans g3, h4.trans g4, h5.trans g5, h6.trans g6⟩

open Classical in
/-- What is stored after a sequence of calls: the first acceptable value. -/
theorem SecondRound.Inv.stored_run {H : Hash} : ∀ (cs : List (ℕ × PartialSignature)) {r : SecondRound}, r.Inv H →
    ∀ j < r.keyAggCtx.pubkeys.length, (r.run H cs).1.stored j =
      (r.stored j).or (Spec.firstValue (cs.filter fun c => decide (r.Accepts H c.1 c.2)) j)
  | [], r, _, j, _ => by simp [SecondRound.run, Spec.firstValue]
  | c :: cs, r, h, j, hj => by
    have hs := h.receive_same c.1 c.2
    have := SecondRound.Inv.stored_run cs (h.receive c.1 c.2) j (by rw [hs.1]; exact hj)
    unfold SecondRound.run
    simp only
    rw [this, h.stored_receive _ _ _ hj, Option.or_assoc]
    have hf : (cs.filter fun c' => decide ((r.receiveSignature H c.1 c.2).1.Accepts H c'.1 c'.2))
        = cs.filter fun c' => decide (r.Accepts H c'.1 c'.2) := by
      apply List.filter_congr
      intro c' _
      rw [decide_eq_decide]
      exact h.receive_accepts _ _ _ _
    rw [hf]
    congr 1
    by_cases ha : r.Accepts H c.1 c.2
    · rw [List.filter_cons_of_pos (by simpa using ha)]
      unfold Spec.firstValue
      by_cases hc : c.1 = j
      · rw [if_pos ⟨hc, ha⟩, List.find?_cons_of_pos (by simpa using hc)]
        rfl
      · rw [if_neg (fun h => hc h.1), List.find?_cons_of_neg (by simpa using hc)]
        rfl
    · rw [List.filter_cons_of_neg (by simpa using ha), if_neg (fun h => ha h.2)]
      rfl

theorem SecondRound.Inv.holdouts_eq {H : Hash} {r : SecondRound} (h : r.Inv H) :
    r.holdouts = (List.range r.keyAggCtx.pubkeys.length).filter fun i => (r.stored i).isNone := by
  unfold SecondRound.holdouts Slots.remaining SecondRound.stored
  rw [← h.len]
  exact h.slots

theorem SecondRound.Inv.slots_finalize {H : Hash} {r : SecondRound} (h : r.Inv H) (ss : List PartialSignature) :
    r.partialSignatureSlots.finalize = .ok ss ↔
      ss.length = r.keyAggCtx.pubkeys.length ∧ ∀ i < r.keyAggCtx.pubkeys.length, r.stored i = ss[i]? := by
  rw [Slots.finalize_eq_ok, h.len]
  rfl

theorem SecondRound.Inv.isComplete_iff {H : Hash} {r : SecondRound} (h : r.Inv H) :
    r.isComplete = true ↔ ∃ ns, r.partialSignatureSlots.finalize = .ok ns := by
  unfold SecondRound.isComplete SecondRound.holdouts Slots.remaining
  rw [List.isEmpty_iff]
  exact h.slots.openSlots_nil

theorem SecondRound.finalizeAdaptor_eq {H : Hash} {r : SecondRound} {ss : List PartialSignature}
    (h : r.partialSignatureSlots.finalize = .ok ss) : r.finalizeAdaptor H =
      (aggregatePartialAdaptorSignatures H r.keyAggCtx r.aggnonce r.adaptorPoint ss r.message).mapErr
        RoundFinalizeError.invalidAggregatedSignature := by
  unfold SecondRound.finalizeAdaptor
  rw [h]
  rfl

theorem SecondRound.ourSignature_eq {H : Hash} {r : SecondRound} (h : r.Inv H) (ε : Type) :
    ∃ s, r.stored r.signerIndex = some s ∧ (r.ourSignature : Res ε _) = .ok s := by
  obtain ⟨s, hs⟩ := h.mine
  refine ⟨s, hs, ?_⟩
  unfold SecondRound.ourSignature index
  unfold SecondRound.stored at hs
  have hl : r.signerIndex < r.partialSignatureSlots.slots.length := by rw [h.len]; exact h.own
  rw [List.getElem?_eq_getElem hl] at hs ⊢
  simp only [Option.join_some] at hs
  simp only [hs]
  rfl

/-- A plain finalization is the adaptor finalization followed by forgetting the adaptor point; it never panics. -/
theorem SecondRound.finalize_of_ok {H : Hash} {r : SecondRound} {sig : AdaptorSignature}
    (h : r.finalizeAdaptor H = .ok sig) :
    ∃ R : Point, sig.R = R.1 ∧ r.finalize H = .ok (LiftedSignature.new R sig.s) := by
  have hR : ∃ R : Point, sig.R = R.1 := by
    unfold SecondRound.finalizeAdaptor at h
    obtain ⟨ss, -, h⟩ := Res.bind_eq_ok.1 h
    rw [Res.mapErr_eq_ok] at h
    obtain ⟨rfl, -⟩ := aggregateAdaptor_eq_ok.1 h
    exact ⟨_, rfl⟩
  obtain ⟨R, hR⟩ := hR
  refine ⟨R, hR, ?_⟩
  unfold SecondRound.finalize
  rw [h]
  simp only [Res.bind_ok]
  have : sig.adapt 0 = some (LiftedSignature.new R sig.s) := by
    have e : sig = ⟨R.1, sig.s⟩ := by rw [← hR]
    rw [e]
    exact adapt_zero R sig.s
  rw [this]
  rfl

theorem SecondRound.finalize_of_err {H : Hash} {r : SecondRound} {e : RoundFinalizeError}
    (h : r.finalizeAdaptor H = .err e) : r.finalize H = .err e := by
  unfold SecondRound.finalize
  rw [h]
  rfl

theorem SecondRound.finalizeAdaptor_cases (H : Hash) (r : SecondRound) :
    r.finalizeAdaptor H = .err .incomplete ∨
    r.finalizeAdaptor H = .err (.invalidAggregatedSignature .badSignature) ∨
    ∃ sig, r.finalizeAdaptor H = .ok sig := by
  rcases Slots.collect_cases r.partialSignatureSlots.slots with ⟨ns, hns⟩ | hinc
  · right
    rw [SecondRound.finalizeAdaptor_eq hns, aggregateAdaptor_eq]
    split_ifs
    · exact Or.inr ⟨_, rfl⟩
    · exact Or.inl rfl
  · left
    unfold SecondRound.finalizeAdaptor Slots.finalize
    rw [hinc]
    rfl

end Verif
