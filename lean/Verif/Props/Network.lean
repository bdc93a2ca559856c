import Verif.Props.Payments
import Verif.Props.Withdrawal

set_option linter.unusedSectionVars false

/-! # C100: owners who each see their own part

Nobody needs to see all that happens with a contract.  Owners who add to what they hold, after verifying no more than
that, and pay each other with excerpts from it, together write one history. -/

namespace Rgb
open Spec

section
variable {Seal : Type} [LinearOrder Seal] [RgbSeal Seal] [OpHash]
variable {C : Type} [ContractApi Seal C]
variable {R : Type} [ReadOperation Seal R]

/-- Owners `P` of a contract at work: `xs` is all that was done so far, in the order in which it was done, and `H p` is what
`p` holds.  In the beginning all hold the same.  Who acts verifies the new blocks after what they hold, and nothing else.
Who is paid adds an excerpt from what somebody else holds to what they hold.  All witnesses are among `W`. -/
inductive Spec.Owners {P : Type} [DecidableEq P] (c : C) (W : SealWitness Seal → Prop) :
    List (OperationSeals Seal) → (P → List (OperationSeals Seal)) → Prop where
  | start {R : Type} [ReadOperation Seal R] {r : R} {o : Outcome Seal R C (ReadOperation.Error Seal R)}
      {xs : List (OperationSeals Seal)} : Accepted c r xs o → xs ≠ [] → (∀ b ∈ xs, ∀ w, b.witness = some w → W w) →
      (∀ (i j : Nat) b b', xs[i]? = some b → xs[j]? = some b' →
        idAt (ContractApi.contractId Seal c) i b = idAt (ContractApi.contractId Seal c) j b' → i = j) →
      ReadsEarlier (ContractApi.contractId Seal c) xs → Owners c W xs fun _ => xs
  | act {R : Type} [ReadOperation Seal R] {r : R} {o : Outcome Seal R C (ReadOperation.Error Seal R)}
      {xs bs : List (OperationSeals Seal)} {H : P → List (OperationSeals Seal)} (p : P) : Owners c W xs H →
      Accepted c r (H p ++ bs) o → (∀ b ∈ bs, ∀ w, b.witness = some w → W w) →
      (∀ (i j : Nat) b b', (xs ++ bs)[i]? = some b → (xs ++ bs)[j]? = some b' →
        idAt (ContractApi.contractId Seal c) i b = idAt (ContractApi.contractId Seal c) j b' → i = j) →
      ReadsEarlier (ContractApi.contractId Seal c) (xs ++ bs) →
      (∀ b ∈ bs, ∀ a ∈ b.operation.immutableIn, ∀ j bj, xs[j]? = some bj →
        a.opid = idAt (ContractApi.contractId Seal c) j bj →
        ∃ k b', (H p)[k]? = some b' ∧ idAt (ContractApi.contractId Seal c) k b' = idAt (ContractApi.contractId Seal c) j bj) →
      Owners c W (xs ++ bs) (Function.update H p (H p ++ bs))
  | pay {xs ys : List (OperationSeals Seal)} {H : P → List (OperationSeals Seal)} (p q : P) : Owners c W xs H →
      Excerpt (ContractApi.contractId Seal c) (H p) ys →
      Owners c W xs (Function.update H q (join (ContractApi.contractId Seal c) (H q) ys))

theorem distinct_left {cid : ContractId} {xs bs : List (OperationSeals Seal)} (h : DistinctIds cid (xs ++ bs)) : DistinctIds cid xs :=
  fun i j b b' h1 h2 => h i j b b' (by rw [List.getElem?_append_left (lt_length_of_getElem? h1)]; exact h1)
    (by rw [List.getElem?_append_left (lt_length_of_getElem? h2)]; exact h2)

theorem excerpt_self {cid : ContractId} {xs : List (OperationSeals Seal)} (he : ∀ (i j : Nat) b bj a, xs[i]? = some b →
    Consumes b a ∨ a ∈ b.operation.immutableIn → xs[j]? = some bj → a.opid = idAt cid j bj → j < i) : Excerpt cid xs xs :=
  ⟨rfl, .refl _, fun k j b bj a hk ha hj e => ⟨j, bj, he k j b bj a hk ha hj e, hj, e⟩⟩

theorem excerpt_within {cid : ContractId} {xs ys zs : List (OperationSeals Seal)} (h : Excerpt cid xs ys) (h' : Excerpt cid ys zs) :
    Excerpt cid xs zs := by
  refine ⟨h'.head.trans h.head, h'.rest.trans h.rest, fun k j b bj a hk ha hj e => ?_⟩
  obtain ⟨i, hi, _⟩ := h'.place hk
  obtain ⟨i', b', _, h2, h3⟩ := h.creators i j b bj a hi ha hj e
  exact h'.creators k i' b b' a hk ha h2 h3

theorem refers_earlier {c : C} {xs : List (OperationSeals Seal)} (hx : DistinctIds (ContractApi.contractId Seal c) xs)
    (hr : ReadsEarlier (ContractApi.contractId Seal c) xs) (hv : LedgerValid c xs) (i j : Nat) (b bj : OperationSeals Seal)
    (a : CellAddr) (hb : xs[i]? = some b) (ha : Consumes b a ∨ a ∈ b.operation.immutableIn) (hj : xs[j]? = some bj)
    (e : a.opid = idAt (ContractApi.contractId Seal c) j bj) : j < i := by
  rcases ha with ha | ha
  · exact hv.earlier hx hb ha hj e
  · exact hr _ _ _ _ a ha hb hj e

/-- An excerpt is still one when more is added to the whole. -/
theorem excerpt_longer {c : C} {xs ys bs : List (OperationSeals Seal)} (hv : LedgerValid c (xs ++ bs))
    (hx : DistinctIds (ContractApi.contractId Seal c) (xs ++ bs)) (hr : ReadsEarlier (ContractApi.contractId Seal c) (xs ++ bs))
    (hne : xs ≠ []) (he : Excerpt (ContractApi.contractId Seal c) xs ys) : Excerpt (ContractApi.contractId Seal c) (xs ++ bs) ys := by
  refine ⟨?_, ?_, fun k j b bj a hk ha hj e => ?_⟩
  · rw [he.head, List.getElem?_append_left (List.length_pos_iff.2 hne)]
  · rw [List.tail_append_of_ne_nil hne]
    exact he.rest.trans (List.sublist_append_left _ _).subperm
  · obtain ⟨i, hi, _⟩ := he.place hk
    have hl := lt_length_of_getElem? hi
    have := refers_earlier hx hr hv i j b bj a (by rw [List.getElem?_append_left hl]; exact hi) ha hj e
    rw [List.getElem?_append_left (by omega)] at hj
    exact he.creators k j b bj a hk ha hj e

theorem announced_once {cid : ContractId} {i j : Nat} {b : OperationSeals Seal} {a : CellAddr} {s s' : Seal}
    (h : Announces cid i b a s) (h' : Announces cid j b a s') : s = s' := by
  obtain ⟨_, d, h1, h2⟩ := h
  obtain ⟨_, d', h1', h2'⟩ := h'
  have : d = d' := Option.some.inj ((OMap.get?_eq_some.2 h1).symm.trans (OMap.get?_eq_some.2 h1'))
  subst this
  rcases h2 with h2 | ⟨h2, w, hw, rfl⟩ <;> rcases h2' with h2' | ⟨h2', w', hw', rfl⟩
  · exact Option.some.inj (h2.symm.trans h2')
  · rw [h2] at h2'; cases h2'
  · rw [h2] at h2'; cases h2'
  · rw [hw] at hw'
    cases hw'
    rfl

/-- When seals are closed but once, what is verified after an excerpt spends nothing that was spent elsewhere. -/
theorem informs_of_valid {W : SealWitness Seal → Prop} (hsu : SingleUseAmong W) (hinj : Function.Injective (message Seal)) {c : C}
    {xs ys bs : List (OperationSeals Seal)} (hne : xs ≠ []) (hv : ValidConsignment c xs)
    (hw : ∀ b ∈ xs ++ bs, ∀ w, b.witness = some w → W w)
    (hx : DistinctIds (ContractApi.contractId Seal c) (xs ++ bs)) (he : Excerpt (ContractApi.contractId Seal c) xs ys)
    (hv' : ValidConsignment c (ys ++ bs))
    (hi : ∀ b ∈ bs, ∀ a ∈ b.operation.immutableIn, ∀ j bj, xs[j]? = some bj →
      a.opid = idAt (ContractApi.contractId Seal c) j bj →
      ∃ k b', ys[k]? = some b' ∧ idAt (ContractApi.contractId Seal c) k b' = idAt (ContractApi.contractId Seal c) j bj) :
    ∀ b ∈ bs, Informs (ContractApi.contractId Seal c) xs ys b := by
  generalize hcid : ContractApi.contractId Seal c = cid at *
  have hny : ys ≠ [] := fun e => hne (List.length_eq_zero_iff.1 (he.length_zero.2 (by simp [e])))
  have hx' := distinct_left hx
  intro b hb
  obtain ⟨n, hn⟩ := List.getElem?_of_mem hb
  have hpos : 0 < ys.length := List.length_pos_iff.2 hny
  have hposx : 0 < xs.length := List.length_pos_iff.2 hne
  have hby : (ys ++ bs)[ys.length + n]? = some b := by rw [List.getElem?_append_right (by omega)]; simpa using hn
  have hbx : (xs ++ bs)[xs.length + n]? = some b := by rw [List.getElem?_append_right (by omega)]; simpa using hn
  -- the creator of what is consumed is in the excerpt, if the whole has it
  have creator : ∀ (k j : Nat) (bk bj : OperationSeals Seal), (ys ++ bs)[k]? = some bk → xs[j]? = some bj →
      idAt cid k bk = idAt cid j bj → ys[k]? = some bk := by
    intro k j bk bj hk hj e
    by_cases hkl : k < ys.length
    · rwa [List.getElem?_append_left hkl] at hk
    · obtain ⟨g1, _, g3⟩ := append_place (cid := cid) hny hne hk (by omega)
      have hjl := lt_length_of_getElem? hj
      have := hx _ j bk bj g1 (by rw [List.getElem?_append_left hjl]; exact hj) (g3.trans e)
      omega
  refine ⟨?_, ?_⟩
  · intro j bj a ha hj e
    rcases ha with ⟨inp, hinp, rfl⟩ | ha
    · obtain ⟨w, seals, s, _, ⟨k, bk, _, hk, han, _⟩, _⟩ := closing_witness (hv' _ b hby) hinp
      rw [hcid] at han
      have := han.1.symm.trans e
      exact ⟨k, bk, creator k j bk bj hk hj this, this⟩
    · exact hi b hb a ha j bj hj e
  · rintro j bj a ⟨inp, hinp, rfl⟩ hj ⟨inp', hinp', ea⟩
    exfalso
    obtain ⟨w, seals, s, w1, ⟨k, bk, _, hk, han, _⟩, w2, w3⟩ := closing_witness (hv' _ b hby) hinp
    obtain ⟨w', seals', s', w1', ⟨k', bk', _, hk', han', _⟩, w2', w3'⟩ := closing_witness (hv j bj hj) hinp'
    rw [hcid] at han han' w3 w3'
    rw [ea] at han'
    have hky := creator k k' bk bk' hk hk' (han.1.symm.trans han'.1)
    obtain ⟨rfl, _⟩ := he.same_place hx' hky hk' (han.1.symm.trans han'.1)
    have := announced_once han han'
    subst this
    have hm := (hsu w w' (hw b (by simp [hb]) w w1) (hw bj (by simp [List.mem_of_getElem? hj]) w' w1') _ _ _ _ _ w3 w3' w2 w2').2
    have hid := hinj hm
    have hjl := lt_length_of_getElem? hj
    have := hx (xs.length + n) j b bj hbx (by rw [List.getElem?_append_left hjl]; exact hj) (by
      rw [← hid, idAt_pos (by omega), idAt_pos (by omega)])
    omega

/-- What holds whenever owners are at work. -/
theorem owners_invariant {P : Type} [DecidableEq P] {W : SealWitness Seal → Prop} (hsu : SingleUseAmong W)
    (hinj : Function.Injective (message Seal)) (hl : Lawful Seal C) (hm : LocalMemory Seal C) {c : C}
    (hf : Faithful (ContractApi.codex Seal c)) (hc : LocalCodex (ContractApi.codex Seal c)) {xs : List (OperationSeals Seal)}
    {H : P → List (OperationSeals Seal)} (h : Owners c W xs H) :
    xs ≠ [] ∧ ValidConsignment c xs ∧ (∀ b ∈ xs, ∀ w, b.witness = some w → W w) ∧ DistinctIds (ContractApi.contractId Seal c) xs ∧
      ReadsEarlier (ContractApi.contractId Seal c) xs ∧ ∀ p, Excerpt (ContractApi.contractId Seal c) xs (H p) := by
  induction h with
  | start h1 h2 h3 h4 h5 =>
    exact ⟨h2, h1.valid, h3, h4, h5, fun _ => excerpt_self (refers_earlier h4 h5 ((ledgerValid_iff h4).1 h1.valid).1)⟩
  | @act R _ r o xs bs H p _ h1 h2 h3 h4 h5 ih =>
    obtain ⟨k1, k2, k3, k4, k5, k6⟩ := ih
    have hw : ∀ b ∈ xs ++ bs, ∀ w, b.witness = some w → W w := fun b hb => (List.mem_append.1 hb).elim (k3 b) (h2 b)
    have hi := informs_of_valid hsu hinj k1 k2 hw h3 (k6 p) h1.valid h5
    have hv : ValidConsignment c (xs ++ bs) := by
      rcases judged_alike hl hm hf hc k2 k1 (k6 p) bs h3 h4 hi with h | ⟨pre, b, post, e, l, l', rfl, _, g2, _, g4⟩
      · exact h.1
      · have := h1.valid
        rw [show H p ++ (pre ++ b :: post) = (H p ++ pre ++ [b]) ++ post by simp] at this
        exact absurd (validConsignment_snoc.1 this.prefix).2 (not_valid_of_rejected g2 g4)
    obtain ⟨hlv, _⟩ := (ledgerValid_iff h3).1 hv
    refine ⟨by simp [k1], hv, hw, h3, h4, fun q => ?_⟩
    by_cases hq : q = p
    · subst hq
      rw [Function.update_self]
      exact excerpt_append hlv h3 h4 k1 (k6 q) hi
    · rw [Function.update_of_ne hq]
      exact excerpt_longer hlv h3 h4 k1 (k6 q)
  | @pay xs ys H p q _ h1 ih =>
    obtain ⟨k1, k2, k3, k4, k5, k6⟩ := ih
    refine ⟨k1, k2, k3, k4, k5, fun p' => ?_⟩
    by_cases hq : p' = q
    · subst hq
      rw [Function.update_self]
      exact (C99_joined (G := fun _ => False) (G' := fun _ => False) k4 ⟨k6 p', fun _ _ _ h => h.elim⟩
        ⟨excerpt_within (k6 p) h1, fun _ _ _ h => h.elim⟩).toExcerpt
    · rw [Function.update_of_ne hq]
      exact k6 p'

/-- All that the owners did is one history that is accepted, although nobody may have seen it. -/
theorem C100_history {P : Type} [DecidableEq P] {W : SealWitness Seal → Prop} (hsu : SingleUseAmong W)
    (hinj : Function.Injective (message Seal)) (hl : Lawful Seal C) (hm : LocalMemory Seal C) {c : C}
    (hf : Faithful (ContractApi.codex Seal c)) (hc : LocalCodex (ContractApi.codex Seal c)) {xs : List (OperationSeals Seal)}
    {H : P → List (OperationSeals Seal)} (h : Owners c W xs H) {r : R} (hd : Delivers r xs) : ∃ o, Accepted c r xs o := by
  obtain ⟨_, hv, _⟩ := owners_invariant hsu hinj hl hm hf hc h
  obtain ⟨o, h1, h2, _⟩ := evaluate_of_delivers hd hv
  exact ⟨o, h1, h2, hd⟩

/-- What each of them holds is an excerpt from it, which is accepted as well. -/
theorem C100_holdings {P : Type} [DecidableEq P] {W : SealWitness Seal → Prop} (hsu : SingleUseAmong W)
    (hinj : Function.Injective (message Seal)) (hl : Lawful Seal C) (hm : LocalMemory Seal C) {c : C}
    (hf : Faithful (ContractApi.codex Seal c)) (hc : LocalCodex (ContractApi.codex Seal c)) {xs : List (OperationSeals Seal)}
    {H : P → List (OperationSeals Seal)} (h : Owners c W xs H) (p : P) :
    Excerpt (ContractApi.contractId Seal c) xs (H p) ∧ ∀ r : R, Delivers r (H p) → ∃ o, Accepted c r (H p) o := by
  obtain ⟨_, hv, _, hx, hr, he⟩ := owners_invariant hsu hinj hl hm hf hc h
  refine ⟨he p, fun r hd => ?_⟩
  obtain ⟨o, h1, h2, _⟩ := evaluate_of_delivers hd (excerpt_valid hl hm hf hc hv hx hr (he p))
  exact ⟨o, h1, h2, hd⟩

/-- No two of them hold different blocks that spend the same cell. -/
theorem C100_spent_once {P : Type} [DecidableEq P] {W : SealWitness Seal → Prop} (hsu : SingleUseAmong W)
    (hinj : Function.Injective (message Seal)) (hl : Lawful Seal C) (hm : LocalMemory Seal C) {c : C}
    (hf : Faithful (ContractApi.codex Seal c)) (hc : LocalCodex (ContractApi.codex Seal c)) {xs : List (OperationSeals Seal)}
    {H : P → List (OperationSeals Seal)} (h : Owners c W xs H) {p q : P} {b b' : OperationSeals Seal} (hb : b ∈ H p) (hb' : b' ∈ H q)
    {a : CellAddr} (ha : Consumes b a) (ha' : Consumes b' a) : b = b' := by
  obtain ⟨_, hv, _, hx, _, he⟩ := owners_invariant hsu hinj hl hm hf hc h
  obtain ⟨k, hk⟩ := List.getElem?_of_mem hb
  obtain ⟨k', hk'⟩ := List.getElem?_of_mem hb'
  obtain ⟨i, hi, _⟩ := (he p).place hk
  obtain ⟨j, hj, _⟩ := (he q).place hk'
  have := nodup_once ((ledgerValid_iff hx).1 hv).1.once hi hj ha ha'
  subst this
  rw [hi] at hj
  exact Option.some.inj hj

/-- All that was done is held by somebody. -/
theorem C100_held {P : Type} [DecidableEq P] [Nonempty P] {W : SealWitness Seal → Prop} {c : C} {xs : List (OperationSeals Seal)}
    {H : P → List (OperationSeals Seal)} (h : Owners c W xs H) {b : OperationSeals Seal} (hb : b ∈ xs) : ∃ p, b ∈ H p := by
  induction h with
  | start => exact ⟨Classical.arbitrary P, hb⟩
  | @act R _ r o xs bs H p _ _ _ _ _ _ ih =>
    rcases List.mem_append.1 hb with h | h
    · obtain ⟨q, hq⟩ := ih h
      by_cases e : q = p
      · exact ⟨p, by rw [Function.update_self]; exact List.mem_append_left _ (e ▸ hq)⟩
      · exact ⟨q, by rw [Function.update_of_ne e]; exact hq⟩
    · exact ⟨p, by rw [Function.update_self]; exact List.mem_append_right _ h⟩
  | @pay xs ys H p q _ _ ih =>
    obtain ⟨p', hp⟩ := ih hb
    by_cases e : p' = q
    · exact ⟨q, by rw [Function.update_self]; exact List.mem_append_left _ (e ▸ hp)⟩
    · exact ⟨p', by rw [Function.update_of_ne e]; exact hp⟩

/-- A cell that somebody holds and nobody holds a spending of is open, in the whole as for its holder, and with the same
seal. -/
theorem C100_open {P : Type} [DecidableEq P] {W : SealWitness Seal → Prop} (hsu : SingleUseAmong W)
    (hinj : Function.Injective (message Seal)) (hl : Lawful Seal C) (hm : LocalMemory Seal C) {c : C}
    (hf : Faithful (ContractApi.codex Seal c)) (hc : LocalCodex (ContractApi.codex Seal c)) {xs : List (OperationSeals Seal)}
    {H : P → List (OperationSeals Seal)} (h : Owners c W xs H) (p : P) {k : Nat} {b : OperationSeals Seal} (hb : (H p)[k]? = some b)
    {a : CellAddr} {s : Seal} (ha : Announces (ContractApi.contractId Seal c) k b a s) (hn : ∀ q, ∀ b' ∈ H q, ¬ Consumes b' a) :
    OpenAt (ContractApi.contractId Seal c) xs xs.length a s ∧ OpenAt (ContractApi.contractId Seal c) (H p) (H p).length a s := by
  obtain ⟨_, hv, _, hx, hr, he⟩ := owners_invariant hsu hinj hl hm hf hc h
  have : Nonempty P := ⟨p⟩
  have key : ∀ {zs : List (OperationSeals Seal)} {m : Nat}, DistinctIds (ContractApi.contractId Seal c) zs → zs[m]? = some b →
      (∀ b' ∈ zs, ¬ Consumes b' a) → Announces (ContractApi.contractId Seal c) m b a s →
      OpenAt (ContractApi.contractId Seal c) zs zs.length a s := by
    intro zs m hz hm hno han
    refine ⟨m, b, lt_length_of_getElem? hm, hm, han, fun n b' h1 _ hb' => ⟨hno b' (List.mem_of_getElem? hb'), fun s' h => ?_⟩⟩
    have := hz m n b b' hm hb' (han.1.symm.trans h.1)
    omega
  obtain ⟨i, hi, h0⟩ := (he p).place hb
  refine ⟨key hx hi (fun b' hb' => ?_) ⟨by rw [← idAt_same h0]; exact ha.1, ha.2⟩, key ((he p).ids hx) hb (fun b' hb' => hn p b' hb') ha⟩
  obtain ⟨q, hq⟩ := C100_held h hb'
  exact hn q b' hq

/-- Whoever holds the creator of a cell that is open has it open, with the same seal and the same content as if they had
seen everything. -/
theorem C100_content {P : Type} [DecidableEq P] {R' : Type} [ReadOperation Seal R'] {W : SealWitness Seal → Prop} (hsu : SingleUseAmong W)
    (hinj : Function.Injective (message Seal)) (hl : Lawful Seal C) (hm : LocalMemory Seal C) {c : C}
    (hf : Faithful (ContractApi.codex Seal c)) (hc : LocalCodex (ContractApi.codex Seal c)) {xs : List (OperationSeals Seal)}
    {H : P → List (OperationSeals Seal)} (h : Owners c W xs H) (p : P) {r : R} {o} (hr : Accepted c r xs o) {r' : R'} {o'}
    (hr' : Accepted c r' (H p) o') {a : CellAddr} {s : Seal} (ho : OpenAt (ContractApi.contractId Seal c) xs xs.length a s)
    {k : Nat} {b : OperationSeals Seal} (hb : (H p)[k]? = some b) (ha : a.opid = idAt (ContractApi.contractId Seal c) k b) :
    OpenAt (ContractApi.contractId Seal c) (H p) (H p).length a s ∧
      (ContractApi.memory Seal o'.world.contract).destructible a = (ContractApi.memory Seal o.world.contract).destructible a := by
  obtain ⟨_, hv, _, hx, hre, he⟩ := owners_invariant hsu hinj hl hm hf hc h
  obtain ⟨o₁, h1, h2⟩ := C99_accepted hl hm hf hc hr hx hre (G := (· = a)) ⟨he p, fun j bj a' e _ e' => ⟨k, b, hb, by
    rw [← ha, ← e']
    exact congrArg CellAddr.opid e.symm⟩⟩ hr'.delivers
  obtain rfl := Option.some.inj (h1.run.symm.trans hr'.run)
  exact h2 a s rfl ho

end

section
variable {Ext : Type} [LinearOrder Ext] [BpCore Ext] [OpHash]
variable {C : Type} [ContractApi (TxoSeal Ext) C]
variable {R : Type} [ReadOperation (TxoSeal Ext) R]

/-- Over bitcoin seals, owners whose witness transactions are all in one chain write one history. -/
theorem C100_bitcoin {P : Type} [DecidableEq P] {Spent : BpCore.Tx Ext → Outpoint → Prop} {Chain : BpCore.Tx Ext → Prop}
    (hr : BitcoinRules Ext Spent Chain) (hinj : Function.Injective (BpCore.messageOfBytes (Ext := Ext)))
    (hl : Lawful (TxoSeal Ext) C) (hm : LocalMemory (TxoSeal Ext) C) {c : C} (hf : Faithful (ContractApi.codex (TxoSeal Ext) c))
    (hc : LocalCodex (ContractApi.codex (TxoSeal Ext) c)) {xs : List (OperationSeals (TxoSeal Ext))}
    {H : P → List (OperationSeals (TxoSeal Ext))} (h : Owners c (fun w => Chain w.published) xs H) :
    (∀ r : R, Delivers r xs → ∃ o, Accepted c r xs o) ∧
      ∀ p q, ∀ b ∈ H p, ∀ b' ∈ H q, ∀ a, Consumes b a → Consumes b' a → b = b' := by
  have hi : Function.Injective (message (TxoSeal Ext)) := by
    rintro ⟨x⟩ ⟨y⟩ e
    exact congrArg Opid.mk (hinj e)
  exact ⟨fun r hd => C100_history hr.singleUse hi hl hm hf hc h hd,
    fun p q b hb b' hb' a ha ha' => C100_spent_once hr.singleUse hi hl hm hf hc h hb hb' ha ha'⟩

end

namespace Demo.Once
/-- What was done, with `origin` known to both from the beginning: one owner made the first transfer, the other
published something and transferred the second cell. -/
def done : List (OperationSeals Int) := [origin] ++ [move1] ++ [publish, other]

theorem ids_of {bs : List (OperationSeals Int)} (h : (bs.zipIdx.map fun p => idAt ⟨9⟩ p.2 p.1).Nodup) :
    ∀ (i j : Nat) (b b' : OperationSeals Int), bs[i]? = some b → bs[j]? = some b' →
    idAt ⟨9⟩ i b = idAt ⟨9⟩ j b' → i = j := by
  intro i j b b' hb hb' e
  have h1 : (bs.zipIdx.map fun p => idAt ⟨9⟩ p.2 p.1)[i]? = some (idAt ⟨9⟩ i b) := by simp [hb]
  have h2 : (bs.zipIdx.map fun p => idAt ⟨9⟩ p.2 p.1)[j]? = some (idAt ⟨9⟩ i b) := by simp [hb', e]
  exact (List.getElem?_inj (lt_length_of_getElem? h1) h).1 (by rw [h1, h2])

theorem part_of {xs ys : List (OperationSeals Int)} (h0 : ys[0]? = xs[0]?) (h1 : ys.tail.Sublist xs.tail)
    (h2 : ∀ e ∈ ys.zipIdx, ∀ e' ∈ xs.zipIdx, ∀ a ∈ e.1.operation.destructibleIn.map (·.addr) ++ e.1.operation.immutableIn,
      a.opid = idAt ⟨9⟩ e'.2 e'.1 → ∃ e'' ∈ ys.zipIdx, e''.2 < e.2 ∧ a.opid = idAt ⟨9⟩ e''.2 e''.1) : Excerpt ⟨9⟩ xs ys where
  head := h0
  rest := h1.subperm
  creators k j b bj a hk ha hj e := by
    obtain ⟨⟨b', k'⟩, g1, g2, g3⟩ := h2 (b, k) (List.mem_zipIdx_iff_getElem?.2 hk) (bj, j) (List.mem_zipIdx_iff_getElem?.2 hj) a (by
      rw [List.mem_append, List.mem_map]
      exact ha) e
    exact ⟨k', b', g2, List.mem_zipIdx_iff_getElem?.1 g1, g3⟩

theorem none_read {bs : List (OperationSeals Int)} (h : ∀ b ∈ bs, b.operation.immutableIn = []) : ReadsEarlier ⟨9⟩ bs := by
  intro i j b bj a ha hb
  rw [h b (List.mem_of_getElem? hb)] at ha
  simp at ha

theorem owners_done : ∃ H : Bool → List (OperationSeals Int), Owners archive (fun _ => True) done H ∧
    H true = [origin, move1] ∧ H false = [origin, publish, other] := by
  obtain ⟨_, h1⟩ := passes_iff.2 (show passes archive [origin] = true by decide +kernel)
  obtain ⟨_, h2⟩ := passes_iff.2 (show passes archive ([origin] ++ [move1]) = true by decide +kernel)
  obtain ⟨_, h3⟩ := passes_iff.2 (show passes archive ([origin] ++ [publish, other]) = true by decide +kernel)
  have s1 := Owners.start (P := Bool) (W := fun _ => True) h1 (by simp) (fun _ _ _ _ => trivial) (ids_of (by decide +kernel)) (none_read (by decide +kernel))
  have s2 := s1.act true h2 (fun _ _ _ _ => trivial) (ids_of (by decide +kernel)) (none_read (by decide +kernel)) (by
    intro b hb a ha
    rw [show b.operation.immutableIn = [] from (by decide +kernel : ∀ b ∈ [move1], b.operation.immutableIn = []) b hb] at ha
    simp at ha)
  have s3 := s2.act false (by rw [Function.update_of_ne (by decide)]; exact h3) (fun _ _ _ _ => trivial) (ids_of (by decide +kernel)) (none_read (by decide +kernel)) (by
    intro b hb a ha
    rw [show b.operation.immutableIn = [] from (by decide +kernel : ∀ b ∈ [publish, other], b.operation.immutableIn = []) b hb] at ha
    simp at ha)
  exact ⟨_, s3, rfl, rfl⟩
end Demo.Once

open Demo Demo.Once in
/-- Two owners; the second pays the first with what came of their transfer, without what they published, and the first, who
spends what came of their own, later shows the second all they hold. -/
example : SingleUseAmong (Seal := Int) (fun _ => True) ∧ Function.Injective (message Int) ∧ Lawful Int Archive ∧ LocalMemory Int Archive ∧
    Faithful (ContractApi.codex Int archive) ∧ LocalCodex (ContractApi.codex Int archive) ∧
    ∃ H : Bool → List (OperationSeals Int), Owners archive (fun _ => True) (done ++ [move2]) H ∧
      H true = [origin, move1, other, move2] ∧ H false = [origin, publish, other, move1, move2] := by
  refine ⟨fun w w' _ _ => singleUse w w', message_injective, archive_lawful, archive_localMemory, reading_faithful, reading_local, ?_⟩
  obtain ⟨H, h, e1, e2⟩ := owners_done
  obtain ⟨_, h1⟩ := passes_iff.2 (show passes archive ([origin, move1, other] ++ [move2]) = true by decide +kernel)
  have s1 := h.pay (ys := [origin, other]) false true (by
    rw [e2]
    exact part_of rfl (.cons _ (.refl _)) (by decide +kernel))
  have f1 : Function.update H true (join (ContractApi.contractId Int archive) (H true) [origin, other]) true = [origin, move1, other] := by
    rw [Function.update_self, e1]
    rfl
  have s2 := s1.act (bs := [move2]) true (by rw [f1]; exact h1) (fun _ _ _ _ => trivial) (ids_of (by decide +kernel)) (none_read (by decide +kernel)) (by
    intro b hb a ha
    rw [show b.operation.immutableIn = [] from (by decide +kernel : ∀ b ∈ [move2], b.operation.immutableIn = []) b hb] at ha
    simp at ha)
  rw [f1] at s2
  have s3 := s2.pay (ys := [origin, move1, other, move2]) true false (by
    rw [Function.update_self]
    exact part_of rfl (.refl _) (by decide +kernel))
  refine ⟨_, s3, ?_, ?_⟩
  · rw [Function.update_of_ne (by decide), Function.update_self]
    rfl
  · rw [Function.update_self, Function.update_of_ne (by decide), Function.update_of_ne (by decide), e2]
    rfl

namespace Demo.Chain
open Once in
theorem archived {bs : List Blk} (h : (runBlocks (E := String) (ContractApi.contractId (TxoSeal Bool) Once.archive)
    (ContractApi.codex (TxoSeal Bool) Once.archive).codexId bs (initState Once.archive)).isOk = true) :
    ∃ o, Accepted Once.archive (TestReader.mk bs) bs o := by
  obtain ⟨o, h1, h2, _⟩ := evaluate_of_delivers (testReader_delivers bs) (valid_of_runBlocks h)
  exact ⟨o, h1, h2, testReader_delivers bs⟩

theorem ids_of {bs : List Blk} (h : (bs.zipIdx.map fun p => idAt ⟨9⟩ p.2 p.1).Nodup) :
    ∀ (i j : Nat) (b b' : Blk), bs[i]? = some b → bs[j]? = some b' → idAt ⟨9⟩ i b = idAt ⟨9⟩ j b' → i = j := by
  intro i j b b' hb hb' e
  have h1 : (bs.zipIdx.map fun p => idAt ⟨9⟩ p.2 p.1)[i]? = some (idAt ⟨9⟩ i b) := by simp [hb]
  have h2 : (bs.zipIdx.map fun p => idAt ⟨9⟩ p.2 p.1)[j]? = some (idAt ⟨9⟩ i b) := by simp [hb', e]
  exact (List.getElem?_inj (lt_length_of_getElem? h1) h).1 (by rw [h1, h2])

theorem none_read {bs : List Blk} (h : ∀ b ∈ bs, b.operation.immutableIn = []) : ReadsEarlier ⟨9⟩ bs := by
  intro i j b bj a ha hb
  rw [h b (List.mem_of_getElem? hb)] at ha
  simp at ha
end Demo.Chain

open Demo Demo.Once Demo.Chain in
/-- Two owners and two transactions of one chain: one owner pays the other, who pays on. -/
example : BitcoinRules Bool (fun (tx : Tx) p => p ∈ tx.inputs) (fun (tx : Tx) => tx ∈ [tx1, tx2]) ∧
    Function.Injective (BpCore.messageOfBytes (Ext := Bool)) ∧ Lawful (TxoSeal Bool) Archive ∧ LocalMemory (TxoSeal Bool) Archive ∧
    Faithful (ContractApi.codex (TxoSeal Bool) archive) ∧ LocalCodex (ContractApi.codex (TxoSeal Bool) archive) ∧
    ∃ H : Bool → List Blk, Owners archive (fun w => (w.published : Tx) ∈ [tx1, tx2]) ([start] ++ [pay1] ++ [pay2]) H ∧
      H true = [start, pay1] ∧ H false = [start, pay1, pay2] := by
  refine ⟨rules, fun _ _ h => h, archive_lawful, archive_localMemory, reading_faithful, reading_local, ?_⟩
  obtain ⟨_, h1⟩ := archived (bs := [start]) (by decide +kernel)
  obtain ⟨_, h2⟩ := archived (bs := [start] ++ [pay1]) (by decide +kernel)
  obtain ⟨_, h3⟩ := archived (bs := [start, pay1] ++ [pay2]) (by decide +kernel)
  have s1 := Owners.start (P := Bool) (W := fun w => (w.published : Tx) ∈ [tx1, tx2]) h1 (by simp) (published (by simp))
    (Chain.ids_of (by decide +kernel)) (Chain.none_read (by decide +kernel))
  have s2 := s1.act true h2 (published (by simp)) (Chain.ids_of (by decide +kernel)) (Chain.none_read (by decide +kernel)) (by
    intro b hb a ha
    rw [show b.operation.immutableIn = [] from (by decide +kernel : ∀ b ∈ [pay1], b.operation.immutableIn = []) b hb] at ha
    simp at ha)
  have s3 := s2.pay (ys := [start, pay1]) true false (by
    rw [Function.update_self]
    refine excerpt_self fun i j b bj a hb ha hj e => ?_
    have key : ∀ x ∈ [start, pay1].zipIdx, ∀ y ∈ [start, pay1].zipIdx,
        ∀ a ∈ x.1.operation.destructibleIn.map (·.addr) ++ x.1.operation.immutableIn, a.opid = idAt ⟨9⟩ y.2 y.1 → y.2 < x.2 := by decide +kernel
    exact key (b, i) (List.mem_zipIdx_iff_getElem?.2 hb) (bj, j) (List.mem_zipIdx_iff_getElem?.2 hj) a
      (by rw [List.mem_append, List.mem_map]; exact ha) e)
  have s4 := s3.act (bs := [pay2]) false (by rw [Function.update_self]; exact h3) (published (by simp)) (Chain.ids_of (by decide +kernel))
    (Chain.none_read (by decide +kernel)) (by
    intro b hb a ha
    rw [show b.operation.immutableIn = [] from (by decide +kernel : ∀ b ∈ [pay2], b.operation.immutableIn = []) b hb] at ha
    simp at ha)
  exact ⟨_, s4, rfl, rfl⟩

open Demo in
/-- Seals must be closed but once: otherwise two owners spend the same cell, each finding it open, and what they did is not
accepted together. -/
theorem C100_needs_single_use : ∃ (c : Ledger) (W : SealWitness Nat → Prop) (xs : List Block) (H : Bool → List Block) (r : Tape) (a : CellAddr)
    (o : Outcome Nat Tape Ledger String), Function.Injective (message Nat) ∧ Lawful Nat Ledger ∧ LocalMemory Nat Ledger ∧
    Faithful (ContractApi.codex Nat c) ∧ LocalCodex (ContractApi.codex Nat c) ∧ Owners c W xs H ∧
    evaluate (Seal := Nat) c r = some o ∧ o.result = .error (.sealUnknown a) ∧ StartsWith r xs := by
  obtain ⟨_, h1⟩ := accepted_of_accepts (c := ledger) (bs := [genesis]) (by decide +kernel)
  obtain ⟨_, h2⟩ := accepted_of_accepts (c := ledger) (bs := [genesis] ++ [transfer1]) (by decide +kernel)
  obtain ⟨_, h3⟩ := accepted_of_accepts (c := ledger) (bs := [genesis] ++ [doubleSpend]) (by decide +kernel)
  obtain ⟨o, k1, k2, k3, _⟩ := rejected_at (c := ledger) (bs := [genesis, transfer1]) (b := doubleSpend) (e := .sealUnknown (at_ 100 0)) rfl
  have s1 := Owners.start (P := Bool) (W := fun _ => True) h1 (by simp) (fun _ _ _ _ => trivial)
    (distinct_of_nodup (cid := ⟨9⟩) (by decide +kernel)) (reads_none (by decide +kernel))
  have s2 := s1.act true h2 (fun _ _ _ _ => trivial) (distinct_of_nodup (cid := ⟨9⟩) (by decide +kernel)) (reads_none (by decide +kernel)) (by
    intro b hb a ha
    rw [show b.operation.immutableIn = [] from (by decide +kernel : ∀ b ∈ [transfer1], b.operation.immutableIn = []) b hb] at ha
    simp at ha)
  have s3 := s2.act false (by rw [Function.update_of_ne (by decide)]; exact h3) (fun _ _ _ _ => trivial)
    (distinct_of_nodup (cid := ⟨9⟩) (by decide +kernel)) (reads_none (by decide +kernel)) (by
    intro b hb a ha
    rw [show b.operation.immutableIn = [] from (by decide +kernel : ∀ b ∈ [doubleSpend], b.operation.immutableIn = []) b hb] at ha
    simp at ha)
  exact ⟨ledger, _, _, _, _, at_ 100 0, o, by rintro ⟨x⟩ ⟨y⟩ h; exact congrArg Opid.mk h, ledger_lawful, ledger_localMemory, codex_faithful, codex_local, s3, k1, k2, k3⟩

end Rgb
