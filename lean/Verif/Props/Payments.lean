import Verif.Props.Demonstration

set_option linter.unusedSectionVars false

/-! # C99: a payment needs no more than the history of what is paid

Who hands cells on does not have to hand on everything known about the contract.  The history of the cells is
enough: the recipient comes to the same verdict about whatever is done with them. -/

namespace Rgb
open Spec

section
variable {Seal : Type} [LinearOrder Seal] [RgbSeal Seal] [OpHash]
variable {C : Type} [ContractApi Seal C]
variable {R : Type} [ReadOperation Seal R]
variable {R' : Type} [ReadOperation Seal R']

/-- `ys` hands on the cells `G` of `xs`: it is an excerpt with the creators of these cells. -/
structure Spec.HandsOn (cid : ContractId) (xs : List (OperationSeals Seal)) (G : CellAddr → Prop)
    (ys : List (OperationSeals Seal)) : Prop extends Excerpt cid xs ys where
  created : ∀ j bj a, G a → xs[j]? = some bj → a.opid = idAt cid j bj → ∃ k b', ys[k]? = some b' ∧ idAt cid k b' = idAt cid j bj

/-- The operations in the history of the cells `G` of `xs`: those which created the cells, those which created what
these refer to, and so on. -/
inductive Spec.Past (cid : ContractId) (xs : List (OperationSeals Seal)) (G : CellAddr → Prop) : Opid → Prop where
  | created {a : CellAddr} : G a → Past cid xs G a.opid
  | ancestor {a : CellAddr} {j : Nat} {bj : OperationSeals Seal} : Past cid xs G (idAt cid j bj) → xs[j]? = some bj →
      Consumes bj a ∨ a ∈ bj.operation.immutableIn → Past cid xs G a.opid

/-- What `ys` has of `xs` is enough to judge `b`: the creators of the cells it refers to and the operations that spent
the cells it consumes. -/
structure Spec.Informs (cid : ContractId) (xs ys : List (OperationSeals Seal)) (b : OperationSeals Seal) : Prop where
  refers : ∀ j bj a, Consumes b a ∨ a ∈ b.operation.immutableIn → xs[j]? = some bj → a.opid = idAt cid j bj →
    ∃ k b', ys[k]? = some b' ∧ idAt cid k b' = idAt cid j bj
  spender : ∀ j bj a, Consumes b a → xs[j]? = some bj → Consumes bj a →
    ∃ k b', ys[k]? = some b' ∧ idAt cid k b' = idAt cid j bj

/-- The blocks which a set of ids closed under creators selects are an excerpt. -/
theorem excerpt_of_closed {cid : ContractId} {xs : List (OperationSeals Seal)} {N : Opid → Prop}
    (hx : DistinctIds cid xs) (he : ∀ (i j : Nat) b bj a, xs[i]? = some b → Consumes b a ∨ a ∈ b.operation.immutableIn →
      xs[j]? = some bj → a.opid = idAt cid j bj → j < i)
    (hN : ∀ (j : Nat) bj a, xs[j]? = some bj → N (idAt cid j bj) → Consumes bj a ∨ a ∈ bj.operation.immutableIn → N a.opid) :
    ∃ ys : List (OperationSeals Seal), Excerpt cid xs ys ∧ ys.Sublist xs ∧ (∀ b ∈ ys.tail, N (opid b.operation)) ∧
      ∀ (i : Nat) b, xs[i]? = some b → N (idAt cid i b) → ∃ k b', ys[k]? = some b' ∧ idAt cid k b' = idAt cid i b := by
  classical
  have main : ∃ ys : List (OperationSeals Seal), ys[0]? = xs[0]? ∧ ys.tail.Sublist xs.tail ∧
      (∀ (i : Nat) b', xs[i]? = some b' → N (idAt cid i b') → ∃ k b'', ys[k]? = some b'' ∧ idAt cid k b'' = idAt cid i b') ∧
      ys.Sublist xs ∧ ∀ b' ∈ ys.tail, N (opid b'.operation) := by
    cases xs with
    | nil => exact ⟨[], rfl, .slnil, by simp, .slnil, by simp⟩
    | cons x xs =>
      refine ⟨x :: xs.filter (fun b' => N (opid b'.operation)), rfl, List.filter_sublist, ?_, List.filter_sublist.cons_cons x, ?_⟩
      · intro i b' hb hn
        cases i with
        | zero => exact ⟨0, b', hb, rfl⟩
        | succ i =>
          rw [idAt_pos (Nat.succ_ne_zero i)] at hn ⊢
          have hm : b' ∈ xs.filter (fun b' => N (opid b'.operation)) :=
            List.mem_filter.2 ⟨List.mem_of_getElem? (by simpa using hb), by simpa using hn⟩
          obtain ⟨k, hk⟩ := List.mem_iff_getElem?.1 hm
          exact ⟨k + 1, b', by simpa using hk, idAt_pos (Nat.succ_ne_zero k) b'⟩
      · intro b' hb'
        simpa using (List.mem_filter.1 hb').2
  obtain ⟨ys, head, rest, kept, sub, all⟩ := main
  refine ⟨ys, ⟨head, ⟨_, .refl _, rest⟩, ?_⟩, sub, all, kept⟩
  obtain ⟨g, hg, g0, hp⟩ := sublist_place head rest
  have zero : ∀ k, k = 0 ↔ g k = 0 := fun k => ⟨fun e => e ▸ g0, fun e => hg.injective (e.trans g0.symm)⟩
  intro k j bk bj a hk ha hj e
  have hi := (hp k).symm.trans hk
  have hji : j < g k := he _ _ _ _ _ hi ha hj e
  have hk0 : k ≠ 0 := by
    rintro rfl
    omega
  have hn : N (idAt cid (g k) bk) := by
    rw [← idAt_zero_iff (zero k), idAt_pos hk0]
    refine all bk (List.mem_of_getElem? (i := k - 1) ?_)
    rw [List.getElem?_tail, show k - 1 + 1 = k by omega]
    exact hk
  obtain ⟨k', b', h1, h2⟩ := kept j bj hj (e ▸ hN _ _ _ hi hn ha)
  refine ⟨k', b', ?_, h1, e.trans h2.symm⟩
  have := hx (g k') j b' bj ((hp k').symm.trans h1) hj (by rw [← idAt_zero_iff (zero k'), h2])
  rw [← this] at hji
  exact hg.lt_iff_lt.1 hji

theorem excerpt_valid (hl : Lawful Seal C) (hm : LocalMemory Seal C) {c : C} (hf : Faithful (ContractApi.codex Seal c))
    (hc : LocalCodex (ContractApi.codex Seal c)) {xs ys : List (OperationSeals Seal)} (h : ValidConsignment c xs)
    (hx : DistinctIds (ContractApi.contractId Seal c) xs) (hr : ReadsEarlier (ContractApi.contractId Seal c) xs)
    (he : Excerpt (ContractApi.contractId Seal c) xs ys) : ValidConsignment c ys := by
  obtain ⟨hv, hs⟩ := (ledgerValid_iff hx).1 h
  rw [ledgerValid_iff (he.ids hx)]
  refine ⟨excerpt_ledgerValid hx hv he, ?_⟩
  intro k b hk
  obtain ⟨i, hi, h0⟩ := he.place hk
  obtain ⟨h1, h2, _⟩ := excerpt_callbacks hl hm hf hc hx hv hr he k i b hk hi h0
  rw [idAt_same h0, opAt_same h0, h1, h2]
  exact hs i b hi

/-- A block of what follows, after the one and after the other. -/
theorem append_place {cid : ContractId} {xs ys bs : List (OperationSeals Seal)} (hx : xs ≠ []) (hy : ys ≠ []) {j : Nat}
    {b : OperationSeals Seal} (hj : (xs ++ bs)[j]? = some b) (hl : xs.length ≤ j) :
    (ys ++ bs)[ys.length + (j - xs.length)]? = some b ∧ b ∈ bs ∧ idAt cid (ys.length + (j - xs.length)) b = idAt cid j b := by
  rw [List.getElem?_append_right hl] at hj
  have h1 := List.length_pos_iff.2 hx
  have h2 := List.length_pos_iff.2 hy
  refine ⟨?_, List.mem_of_getElem? hj, ?_⟩
  · rw [List.getElem?_append_right (by omega)]
    simpa using hj
  · rw [idAt_pos (by omega), idAt_pos (by omega)]

/-- An excerpt stays one when both are continued. -/
theorem excerpt_append {c : C} {xs ys bs : List (OperationSeals Seal)} (hv : LedgerValid c (xs ++ bs))
    (hx : DistinctIds (ContractApi.contractId Seal c) (xs ++ bs)) (hr : ReadsEarlier (ContractApi.contractId Seal c) (xs ++ bs))
    (hne : xs ≠ []) (he : Excerpt (ContractApi.contractId Seal c) xs ys)
    (hi : ∀ b ∈ bs, Informs (ContractApi.contractId Seal c) xs ys b) :
    Excerpt (ContractApi.contractId Seal c) (xs ++ bs) (ys ++ bs) := by
  generalize hcid : ContractApi.contractId Seal c = cid at *
  have hny : ys ≠ [] := fun e => hne (List.length_eq_zero_iff.1 (he.length_zero.2 (by simp [e])))
  have earlier : ∀ {i j : Nat} {b bj a}, (xs ++ bs)[i]? = some b → Consumes b a ∨ a ∈ b.operation.immutableIn →
      (xs ++ bs)[j]? = some bj → a.opid = idAt cid j bj → j < i := by
    intro i j b bj a hb ha hj e
    rcases ha with ha | ha
    · subst hcid
      exact hv.earlier hx hb ha hj e
    · exact hr _ _ _ _ a ha hb hj e
  refine ⟨?_, ?_, ?_⟩
  · have := he.head
    cases xs <;> cases ys <;> simp_all
  · rw [List.tail_append_of_ne_nil hny, List.tail_append_of_ne_nil hne]
    exact (List.subperm_append_right bs).2 he.rest
  · intro k j b bj a hk ha hj e
    by_cases hkl : k < ys.length
    · rw [List.getElem?_append_left hkl] at hk
      obtain ⟨i, hi', _⟩ := he.place hk
      have hil := lt_length_of_getElem? hi'
      have hjl := earlier (by rw [List.getElem?_append_left hil]; exact hi') ha hj e
      rw [List.getElem?_append_left (by omega)] at hj
      obtain ⟨k', b', h1, h2, h3⟩ := he.creators k j b bj a hk ha hj e
      exact ⟨k', b', h1, by rw [List.getElem?_append_left (by omega)]; exact h2, h3⟩
    · obtain ⟨g1, g2, _⟩ := append_place (cid := cid) hny hne hk (by omega)
      by_cases hjl : j < xs.length
      · rw [List.getElem?_append_left hjl] at hj
        obtain ⟨k', b', h1, h2⟩ := (hi b g2).refers j bj a ha hj e
        have := lt_length_of_getElem? h1
        exact ⟨k', b', by omega, by rw [List.getElem?_append_left this]; exact h1, e.trans h2.symm⟩
      · obtain ⟨k1, _, k3⟩ := append_place (cid := cid) hne hny hj (by omega)
        have := earlier g1 ha hj e
        exact ⟨_, bj, by omega, k1, e.trans k3.symm⟩

/-- What is enough to judge a block is evidence against it, if it is rejected. -/
theorem evidence_append {cid : ContractId} {xs ys bs : List (OperationSeals Seal)} {b : OperationSeals Seal} {E : Type}
    {e : VerificationError Seal E} (hx : DistinctIds cid (xs ++ (bs ++ [b]))) (hne : xs ≠ []) (hny : ys ≠ [])
    (he : Excerpt cid (xs ++ bs) (ys ++ bs)) (hi : Informs cid xs ys b) (hc : ∀ a, e = .sealUnknown a → Consumes b a) :
    Evidence cid (xs ++ bs) b e (ys ++ bs) := by
  have later : ∀ {j : Nat} {bj : OperationSeals Seal}, (xs ++ bs)[j]? = some bj →
      (xs[j]? = some bj → ∃ k b', ys[k]? = some b' ∧ idAt cid k b' = idAt cid j bj) →
      ∃ k b', (ys ++ bs)[k]? = some b' ∧ idAt cid k b' = idAt cid j bj := by
    intro j bj hj h
    by_cases hjl : j < xs.length
    · rw [List.getElem?_append_left hjl] at hj
      obtain ⟨k, b', h1, h2⟩ := h hj
      exact ⟨k, b', by rw [List.getElem?_append_left (lt_length_of_getElem? h1)]; exact h1, h2⟩
    · obtain ⟨k1, _, k3⟩ := append_place (cid := cid) hne hny hj (by omega)
      exact ⟨_, bj, k1, k3⟩
  refine ⟨he, ?_, ?_, ?_⟩
  · exact fun j bj a ha hj e => later hj fun hj => hi.refers j bj a ha hj e
  · intro j bj hj e
    have hlt := lt_length_of_getElem? hj
    have := hx (xs ++ bs).length j b bj (by rw [← List.append_assoc]; simp) (by
      rw [← List.append_assoc, List.getElem?_append_left hlt]; exact hj) e
    omega
  · exact fun j bj a e hj h => later hj fun hj => hi.spender j bj a (hc a e) hj h

/-- Judging what follows, after the whole and after the excerpt. -/
theorem judged_alike (hl : Lawful Seal C) (hm : LocalMemory Seal C) {c : C} (hf : Faithful (ContractApi.codex Seal c))
    (hc : LocalCodex (ContractApi.codex Seal c)) {xs ys : List (OperationSeals Seal)} (hv : ValidConsignment c xs) (hne : xs ≠ [])
    (he : Excerpt (ContractApi.contractId Seal c) xs ys) (bs : List (OperationSeals Seal))
    (hx : DistinctIds (ContractApi.contractId Seal c) (xs ++ bs)) (hr : ReadsEarlier (ContractApi.contractId Seal c) (xs ++ bs))
    (hi : ∀ b ∈ bs, Informs (ContractApi.contractId Seal c) xs ys b) :
    (ValidConsignment c (xs ++ bs) ∧ ValidConsignment c (ys ++ bs)) ∨
      ∃ pre b post, ∃ e : VerificationError Seal Empty, ∃ l l', bs = pre ++ b :: post ∧ ValidConsignment c (xs ++ pre) ∧
        ValidConsignment c (ys ++ pre) ∧ Rejection c (xs ++ pre) b e l ∧ Rejection c (ys ++ pre) b e l' := by
  have hny : ys ≠ [] := fun e => hne (List.length_eq_zero_iff.1 (he.length_zero.2 (by simp [e])))
  induction bs using List.reverseRecOn with
  | nil =>
    simp only [List.append_nil] at hx hr ⊢
    exact .inl ⟨hv, excerpt_valid hl hm hf hc hv hx hr he⟩
  | append_singleton bs b ih =>
    have less : ∀ {i : Nat} {b' : OperationSeals Seal}, (xs ++ bs)[i]? = some b' → (xs ++ (bs ++ [b]))[i]? = some b' := by
      intro i b' h
      rw [← List.append_assoc, List.getElem?_append_left (lt_length_of_getElem? h)]
      exact h
    have hx' : DistinctIds (ContractApi.contractId Seal c) (xs ++ bs) := fun i j b₁ b₂ h1 h2 => hx i j b₁ b₂ (less h1) (less h2)
    have hr' : ReadsEarlier (ContractApi.contractId Seal c) (xs ++ bs) := fun i j b₁ b₂ a ha h1 h2 => hr i j b₁ b₂ a ha (less h1) (less h2)
    rcases ih hx' hr' fun b' h => hi b' (by simp [h]) with ⟨h1, h2⟩ | ⟨pre, b', post, e, l, l', rfl, h⟩
    · rcases valid_or_rejected (E := Empty) h1 b with hb | ⟨e, l, hb⟩
      · have h3 : ValidConsignment c (xs ++ (bs ++ [b])) := by
          rw [← List.append_assoc]
          exact validConsignment_snoc.2 ⟨h1, hb⟩
        exact .inl ⟨h3, excerpt_valid hl hm hf hc h3 hx hr (excerpt_append ((ledgerValid_iff hx).1 h3).1 hx hr hne he hi)⟩
      · have hlv := ((ledgerValid_iff hx').1 h1).1
        have hev := evidence_append hx hne hny (e := e) (excerpt_append hlv hx' hr' hne he fun b' h => hi b' (by simp [h])) (hi b (by simp)) (by
          rintro a rfl
          cases hb with
          | @unknown pre post inp _ _ h3 => exact ⟨inp, by rw [h3]; simp, rfl⟩)
        obtain ⟨l', hb'⟩ := evidence_rejection hl hm hf hc hx' hlv hr' hev hb
        exact .inr ⟨bs, b, [], e, l, l', rfl, h1, h2, hb, hb'⟩
    · exact .inr ⟨pre, b', post ++ [b], e, l, l', by simp, h⟩

/-- Whoever has an excerpt that informs about the blocks which follow comes to the same verdict about them, at the same
place, as with the whole. -/
theorem C99_continuation (hl : Lawful Seal C) (hm : LocalMemory Seal C) {c : C} (hf : Faithful (ContractApi.codex Seal c))
    (hc : LocalCodex (ContractApi.codex Seal c)) {R₀ : Type} [ReadOperation Seal R₀] {r₀ : R₀} {xs ys bs : List (OperationSeals Seal)} {o₀}
    (h : Accepted c r₀ xs o₀) (hne : xs ≠ [])
    (hx : ∀ (i j : Nat) b b', (xs ++ bs)[i]? = some b → (xs ++ bs)[j]? = some b' →
      idAt (ContractApi.contractId Seal c) i b = idAt (ContractApi.contractId Seal c) j b' → i = j)
    (hr : ReadsEarlier (ContractApi.contractId Seal c) (xs ++ bs)) (he : Excerpt (ContractApi.contractId Seal c) xs ys)
    (hi : ∀ b ∈ bs, Informs (ContractApi.contractId Seal c) xs ys b)
    {r : R} (hd : Delivers r (xs ++ bs)) {r' : R'} (hd' : Delivers r' (ys ++ bs)) :
    ∃ o o', evaluate (Seal := Seal) c r = some o ∧ evaluate (Seal := Seal) c r' = some o' ∧
      polls o.world.calls + ys.length = polls o'.world.calls + xs.length ∧
      (o.result = .ok () ∧ o'.result = .ok () ∨ ∃ e₀ : VerificationError Seal Empty,
        o.result = .error (e₀.mapStream Empty.elim) ∧ o'.result = .error (e₀.mapStream Empty.elim)) := by
  rcases judged_alike hl hm hf hc h.valid hne he bs hx hr hi with ⟨h1, h2⟩ | ⟨pre, b, post, e, l, l', rfl, h1, h2, h3, h4⟩
  · obtain ⟨o, k1, k2, k3⟩ := evaluate_of_delivers hd h1
    obtain ⟨o', k1', k2', k3'⟩ := evaluate_of_delivers hd' h2
    refine ⟨o, o', k1, k1', ?_, .inl ⟨k2, k2'⟩⟩
    rw [k3.polls, k3'.polls, List.length_append, List.length_append]
    omega
  · have starts : ∀ {R : Type} [ReadOperation Seal R] {r : R} {zs : List (OperationSeals Seal)}, Delivers r (zs ++ (pre ++ b :: post)) →
        StartsWith r (zs ++ pre ++ [b]) := by
      rintro R _ r zs ⟨r₁, _, hd, _⟩
      rw [show zs ++ (pre ++ b :: post) = zs ++ pre ++ [b] ++ post by simp] at hd
      obtain ⟨r₂, hr2, _⟩ := hd.split
      exact ⟨r₂, hr2⟩
    obtain ⟨o, k1, k2, _, k3⟩ := evaluate_of_rejection (starts hd) h1 (h3.map Empty.elim)
    obtain ⟨o', k1', k2', _, k3'⟩ := evaluate_of_rejection (starts hd') h2 (h4.map Empty.elim)
    refine ⟨o, o', k1, k1', ?_, .inr ⟨e, k2, k2'⟩⟩
    rw [k3.polls, k3'.polls, List.length_append, List.length_append]
    omega

/-- For any cells there is an excerpt that hands them on, in the order of the whole, and has nothing but the first block and
the history of the cells. -/
theorem C99_exists {c : C} {r : R} {xs : List (OperationSeals Seal)} {o} (h : Accepted c r xs o)
    (hx : ∀ (i j : Nat) b b', xs[i]? = some b → xs[j]? = some b' →
      idAt (ContractApi.contractId Seal c) i b = idAt (ContractApi.contractId Seal c) j b' → i = j)
    (hr : ReadsEarlier (ContractApi.contractId Seal c) xs) (G : CellAddr → Prop) :
    ∃ ys : List (OperationSeals Seal), HandsOn (ContractApi.contractId Seal c) xs G ys ∧ ys.Sublist xs ∧
      ∀ b ∈ ys.tail, Past (ContractApi.contractId Seal c) xs G (opid b.operation) := by
  obtain ⟨hv, _⟩ := (ledgerValid_iff hx).1 h.valid
  obtain ⟨ys, h1, h2, h3, h4⟩ := excerpt_of_closed (N := Past (ContractApi.contractId Seal c) xs G) hx (by
    intro i j b bj a hb ha hj e
    rcases ha with ha | ha
    · exact hv.earlier hx hb ha hj e
    · exact hr _ _ _ _ a ha hb hj e) (fun j bj a hj hn ha => .ancestor hn hj ha)
  exact ⟨ys, ⟨h1, fun j bj a ha hj e => h4 j bj hj (e ▸ .created ha)⟩, h2, h3⟩

/-- The history of the cells cannot be left out. -/
theorem C99_minimal {cid : ContractId} {xs ys : List (OperationSeals Seal)} {G : CellAddr → Prop}
    (hx : ∀ (i j : Nat) b b', xs[i]? = some b → xs[j]? = some b' → idAt cid i b = idAt cid j b' → i = j)
    (hy : HandsOn cid xs G ys) {i : Nat} {b : OperationSeals Seal} (hb : xs[i]? = some b) (hn : Past cid xs G (idAt cid i b)) :
    ∃ k, ys[k]? = some b ∧ (i = 0 ↔ k = 0) := by
  refine hy.toExcerpt.has hx hb ?_
  generalize hid : idAt cid i b = id at hn
  induction hn generalizing i b with
  | created ha => exact hid ▸ hy.created i b _ ha hb hid.symm
  | ancestor _ hj ha ih =>
    obtain ⟨k, hk, _⟩ := hy.toExcerpt.has hx hj (ih hj rfl)
    obtain ⟨k', b', _, h1, h2⟩ := hy.creators k i _ b _ hk ha hb hid.symm
    exact ⟨k', b', h1, h2.symm⟩

/-- What hands cells on is accepted, and leaves open those of them that are open, with the same seals, and with the same
content in the memory. -/
theorem C99_accepted (hl : Lawful Seal C) (hm : LocalMemory Seal C) {c : C} (hf : Faithful (ContractApi.codex Seal c))
    (hc : LocalCodex (ContractApi.codex Seal c)) {r : R} {xs ys : List (OperationSeals Seal)} {o} (h : Accepted c r xs o)
    (hx : ∀ (i j : Nat) b b', xs[i]? = some b → xs[j]? = some b' →
      idAt (ContractApi.contractId Seal c) i b = idAt (ContractApi.contractId Seal c) j b' → i = j)
    (hr : ReadsEarlier (ContractApi.contractId Seal c) xs) {G : CellAddr → Prop}
    (hy : HandsOn (ContractApi.contractId Seal c) xs G ys) {r' : R'} (hd : Delivers r' ys) :
    ∃ o', Accepted c r' ys o' ∧ ∀ a s, G a → OpenAt (ContractApi.contractId Seal c) xs xs.length a s →
      OpenAt (ContractApi.contractId Seal c) ys ys.length a s ∧
      (ContractApi.memory Seal o'.world.contract).destructible a = (ContractApi.memory Seal o.world.contract).destructible a := by
  obtain ⟨hv, _⟩ := (ledgerValid_iff hx).1 h.valid
  obtain ⟨o', h', _⟩ := C76_excerpt hl hm hf hc h hx hr hy.toExcerpt hd
  refine ⟨o', h', fun a s ha ho => ⟨excerpt_open hx hv hy.toExcerpt (fun j bj => hy.created j bj a ha) ho, ?_⟩⟩
  rw [h.shape.contract, h'.shape.contract, contractAt_eq_foldl, contractAt_eq_foldl]
  refine (observed_destructible hm a).same ?_
  have hcb := excerpt_callbacks hl hm hf hc hx hv hr hy.toExcerpt
  obtain ⟨j, bj, _, hj, han, hno⟩ := ho
  obtain ⟨k, hk, hk0⟩ := hy.toExcerpt.has hx hj (hy.created j bj a ha hj han.1)
  have only : ∀ (i : Nat) b (v : VerifiedOperation), xs[i]? = some b → v.opid = idAt (ContractApi.contractId Seal c) i b →
      v.operation = opAt (ContractApi.contractId Seal c) i b → touches a v = true → i = j := by
    intro i b v hb g2 g3 hq
    simp only [touches, Bool.or_eq_true, decide_eq_true_eq, List.any_eq_true] at hq
    rcases hq with hq | ⟨x, hx1, hx2⟩
    · exact hx i j b bj hb hj (g2.symm.trans (hq.symm.trans han.1))
    · exfalso
      rw [g3, opAt_inputs] at hx1
      exact (hno i b (hv.earlier hx hb ⟨x, hx1, hx2⟩ hj han.1) (lt_length_of_getElem? hb) hb).1 ⟨x, hx1, hx2⟩
  rw [filter_one (lt_length_of_getElem? hk), filter_one (lt_length_of_getElem? hj), (hcb k j bj hk hj hk0).2.2]
  · intro m _ hne
    refine callbacksOf_applies hl hf fun b v g1 g2 g3 => ?_
    by_contra hq
    exact hne (only m b v g1 g2 g3 (by simpa using hq))
  · intro m _ hne
    refine callbacksOf_applies hl hf fun b v g1 g2 g3 => ?_
    by_contra hq
    obtain ⟨i, hi, hi0⟩ := hy.toExcerpt.place g1
    rw [idAt_same hi0] at g2
    rw [opAt_same hi0] at g3
    have := only i b v hi g2 g3 (by simpa using hq)
    subst this
    rw [hj] at hi
    cases hi
    refine hne (hy.toExcerpt.ids hx m k bj bj g1 hk ?_)
    rw [idAt_same hi0, idAt_same hk0]

/-- The recipient comes to the same verdict as the sender about whatever is done with open cells that were handed on and
with what comes of them. -/
theorem C99_recipient (hl : Lawful Seal C) (hm : LocalMemory Seal C) {c : C} (hf : Faithful (ContractApi.codex Seal c))
    (hc : LocalCodex (ContractApi.codex Seal c)) {R₀ : Type} [ReadOperation Seal R₀] {r₀ : R₀} {xs ys bs : List (OperationSeals Seal)} {o₀}
    (h : Accepted c r₀ xs o₀) (hne : xs ≠ [])
    (hx : ∀ (i j : Nat) b b', (xs ++ bs)[i]? = some b → (xs ++ bs)[j]? = some b' →
      idAt (ContractApi.contractId Seal c) i b = idAt (ContractApi.contractId Seal c) j b' → i = j)
    (hr : ReadsEarlier (ContractApi.contractId Seal c) (xs ++ bs)) {G : CellAddr → Prop}
    (hy : HandsOn (ContractApi.contractId Seal c) xs G ys)
    (hG : ∀ b ∈ bs, ∀ a, Consumes b a ∨ a ∈ b.operation.immutableIn →
      G a ∨ ∀ j bj, xs[j]? = some bj → a.opid ≠ idAt (ContractApi.contractId Seal c) j bj)
    (ho : ∀ b ∈ bs, ∀ a, Consumes b a → G a → ∃ s, OpenAt (ContractApi.contractId Seal c) xs xs.length a s)
    {r : R} (hd : Delivers r (xs ++ bs)) {r' : R'} (hd' : Delivers r' (ys ++ bs)) :
    ∃ o o', evaluate (Seal := Seal) c r = some o ∧ evaluate (Seal := Seal) c r' = some o' ∧
      polls o.world.calls + ys.length = polls o'.world.calls + xs.length ∧
      (o.result = .ok () ∧ o'.result = .ok () ∨ ∃ e₀ : VerificationError Seal Empty,
        o.result = .error (e₀.mapStream Empty.elim) ∧ o'.result = .error (e₀.mapStream Empty.elim)) := by
  refine C99_continuation hl hm hf hc h hne hx hr hy.toExcerpt (fun b hb => ⟨?_, ?_⟩) hd hd'
  · intro j bj a ha hj e
    rcases hG b hb a ha with hg | hg
    · exact hy.created j bj a hg hj e
    · exact absurd e (hg j bj hj)
  · intro j bj a ha hj hcon
    have hx' : DistinctIds (ContractApi.contractId Seal c) xs := fun i j b b' h1 h2 =>
      hx i j b b' (by rw [List.getElem?_append_left (lt_length_of_getElem? h1)]; exact h1)
        (by rw [List.getElem?_append_left (lt_length_of_getElem? h2)]; exact h2)
    obtain ⟨hv, _⟩ := (ledgerValid_iff hx').1 h.valid
    exfalso
    rcases hG b hb a (.inl ha) with hg | hg
    · obtain ⟨s, i, bi, _, hbi, han, hno⟩ := ho b hb a ha hg
      exact (hno j bj (hv.earlier hx' hj hcon hbi han.1) (lt_length_of_getElem? hj) hj).1 hcon
    · obtain ⟨inp, hinp, rfl⟩ := hcon
      obtain ⟨seals, h1, _⟩ := hv.closed j bj hj
      obtain ⟨_, i, bi, _, g3, g4⟩ := forall₂_some h1 hinp
      exact hg i bi g3 g4.1
/-- Two lists of blocks joined: the blocks of the second whose operations the first does not have are put after it. -/
def Spec.join (cid : ContractId) (ys ys' : List (OperationSeals Seal)) : List (OperationSeals Seal) :=
  ys ++ ys'.tail.filter fun b => ys.zipIdx.all fun p => !decide (idAt cid p.2 p.1 = opid b.operation)

theorem nodup_of_ids {cid : ContractId} {xs : List (OperationSeals Seal)} (hx : DistinctIds cid xs) : xs.tail.Nodup := by
  rw [List.nodup_iff_pairwise_ne, List.pairwise_iff_getElem]
  intro i j hi hj hij e
  have h1 : xs[i + 1]? = some xs.tail[i] := by rw [← List.getElem?_tail]; exact List.getElem?_eq_getElem hi
  have h2 : xs[j + 1]? = some xs.tail[j] := by rw [← List.getElem?_tail]; exact List.getElem?_eq_getElem hj
  have := hx (i + 1) (j + 1) _ _ h1 h2 (by rw [e]; rfl)
  omega

/-- Whoever is paid several times from the same consignment can join the payments to one of all the cells. -/
theorem C99_joined {cid : ContractId} {xs ys ys' : List (OperationSeals Seal)} {G G' : CellAddr → Prop}
    (hx : ∀ (i j : Nat) b b', xs[i]? = some b → xs[j]? = some b' → idAt cid i b = idAt cid j b' → i = j)
    (hy : HandsOn cid xs G ys) (hy' : HandsOn cid xs G' ys') :
    HandsOn cid xs (fun a => G a ∨ G' a) (join cid ys ys') := by
  by_cases hne : ys = []
  · have h0 : xs = [] := List.length_eq_zero_iff.1 (hy.length_zero.2 (by simp [hne]))
    have h1 : ys' = [] := List.length_eq_zero_iff.1 (hy'.length_zero.1 (by simp [h0]))
    subst hne h0 h1
    exact ⟨⟨rfl, List.Subperm.refl _, fun k j b bj a hk => by simp [join] at hk⟩, fun j bj a _ hj => by simp at hj⟩
  generalize hws : (ys'.tail.filter fun b => ys.zipIdx.all fun p => !decide (idAt cid p.2 p.1 = opid b.operation)) = ws
  have hj : join cid ys ys' = ys ++ ws := by rw [join, hws]
  have hlen : 0 < ys.length := List.length_pos_iff.2 hne
  have hmem : ∀ b, b ∈ ws ↔ b ∈ ys'.tail ∧ ∀ (k : Nat) b', ys[k]? = some b' → idAt cid k b' ≠ opid b.operation := by
    intro b
    rw [← hws, List.mem_filter, List.all_eq_true]
    refine and_congr_right fun _ => ⟨fun h k b' hk => ?_, fun h p hp => ?_⟩
    · simpa using h (b', k) (List.mem_zipIdx_iff_getElem?.2 hk)
    · simpa using h p.2 p.1 (List.mem_zipIdx_iff_getElem?.1 hp)
  have hid : ∀ (k : Nat) (b : OperationSeals Seal), idAt cid (ys.length + k) b = opid b.operation := by
    intro k b
    obtain ⟨n, hn⟩ : ∃ n, ys.length + k = n + 1 := ⟨ys.length + k - 1, by omega⟩
    rw [hn]
    rfl
  have hd' : DistinctIds cid ys' := hy'.ids hx
  -- a block of the second is in the first, or its place among those added is known
  have hin : ∀ (k : Nat) b, ys'[k]? = some b → (∃ k' b', ys[k']? = some b' ∧ idAt cid k' b' = idAt cid k b) ∨
      b ∈ ws ∧ idAt cid k b = opid b.operation ∧ k ≠ 0 := by
    intro k b hk
    by_cases h : ∃ k' b', ys[k']? = some b' ∧ idAt cid k' b' = idAt cid k b
    · exact .inl h
    · right
      match k with
      | 0 =>
        exact absurd ⟨0, b, by rw [hy.head, ← hy'.head]; exact hk, rfl⟩ h
      | n + 1 =>
        refine ⟨(hmem b).2 ⟨List.mem_of_getElem? (by rw [List.getElem?_tail]; exact hk), ?_⟩, rfl, by omega⟩
        intro k' b' hk' e
        exact h ⟨k', b', hk', e⟩
  have hsub : ws.Sublist ys'.tail := hws ▸ List.filter_sublist
  rw [hj]
  refine ⟨⟨?_, ?_, ?_⟩, ?_⟩
  · rw [List.getElem?_append_left hlen]
    exact hy.head
  · rw [List.tail_append_of_ne_nil hne]
    refine List.subperm_of_subset ?_ ?_
    · refine List.Nodup.append (nodup_of_ids (hy.ids hx)) ((nodup_of_ids hd').sublist hsub) ?_
      intro b hb hb'
      obtain ⟨k, hk⟩ := List.getElem?_of_mem hb
      rw [List.getElem?_tail] at hk
      exact ((hmem b).1 hb').2 (k + 1) b hk rfl
    · intro b hb
      rcases List.mem_append.1 hb with h | h
      · exact hy.rest.subset h
      · exact hy'.rest.subset (hsub.subset h)
  · intro k j b bj a hk ha hj e
    by_cases hkl : k < ys.length
    · rw [List.getElem?_append_left hkl] at hk
      obtain ⟨k', b', h1, h2, h3⟩ := hy.creators k j b bj a hk ha hj e
      exact ⟨k', b', h1, by rw [List.getElem?_append_left (by omega)]; exact h2, h3⟩
    · rw [List.getElem?_append_right (by omega)] at hk
      obtain ⟨f, hf⟩ := List.sublist_iff_exists_orderEmbedding_getElem?_eq.1 hsub
      have hk' : ys'[f (k - ys.length) + 1]? = some b := by rw [← List.getElem?_tail, ← hf]; exact hk
      obtain ⟨m, b', h1, h2, h3⟩ := hy'.creators _ j b bj a hk' ha hj e
      rcases hin m b' h2 with ⟨k', b'', h4, h5⟩ | ⟨h4, h5, h6⟩
      · have := (List.getElem?_eq_some_iff.1 h4).1
        exact ⟨k', b'', by omega, by rw [List.getElem?_append_left this]; exact h4, by rw [h3, h5]⟩
      · obtain ⟨n, hn⟩ := List.getElem?_of_mem h4
        have h7 : ys'[f n + 1]? = some b' := by rw [← List.getElem?_tail, ← hf]; exact hn
        have h8 : f n + 1 = m := hd' _ _ _ _ h7 h2 (by rw [h5]; rfl)
        have h9 : n < k - ys.length := f.lt_iff_lt.1 (by omega)
        refine ⟨ys.length + n, b', by omega, ?_, by rw [h3, h5, hid]⟩
        rw [List.getElem?_append_right (by omega), Nat.add_sub_cancel_left]
        exact hn
  · intro j bj a ha hj e
    rcases ha with ha | ha
    · obtain ⟨k, b', h1, h2⟩ := hy.created j bj a ha hj e
      exact ⟨k, b', by rw [List.getElem?_append_left (List.getElem?_eq_some_iff.1 h1).1]; exact h1, h2⟩
    · obtain ⟨k, b', h1, h2⟩ := hy'.created j bj a ha hj e
      rcases hin k b' h1 with ⟨k', b'', h4, h5⟩ | ⟨h4, h5, _⟩
      · exact ⟨k', b'', by rw [List.getElem?_append_left (List.getElem?_eq_some_iff.1 h4).1]; exact h4, h5.trans h2⟩
      · obtain ⟨n, hn⟩ := List.getElem?_of_mem h4
        refine ⟨ys.length + n, b', ?_, by rw [hid, ← h5, h2]⟩
        rw [List.getElem?_append_right (by omega), Nat.add_sub_cancel_left]
        exact hn

end

namespace Demo
/-- What a recipient of the cell which `onward` creates has to see. -/
def handed : List Block := [genesis, transfer1, onward]

/-- A transfer of the cell by the recipient. -/
def passOn : Block := ⟨op 105 [at_ 104 0] [.abs 13], .collect [(0, .abs 13)], some (wit 55 [12] 105)⟩

/-- A transfer of the output of that, without a witness. -/
def careless : Block := ⟨op 106 [at_ 105 0] [.abs 14], .collect [(0, .abs 14)], none⟩

theorem handsOn_of {xs ys : List Block} {l : List CellAddr} (h0 : Excerpt (Seal := Nat) ⟨9⟩ xs ys)
    (h1 : ∀ p ∈ xs.zipIdx, ∀ a ∈ l, a.opid = idAt (Seal := Nat) ⟨9⟩ p.2 p.1 →
      ∃ q ∈ ys.zipIdx, idAt (Seal := Nat) ⟨9⟩ q.2 q.1 = idAt (Seal := Nat) ⟨9⟩ p.2 p.1) : HandsOn (Seal := Nat) ⟨9⟩ xs (· ∈ l) ys where
  toExcerpt := h0
  created j bj a ha hj e := by
    obtain ⟨⟨b', k⟩, h2, h3⟩ := h1 (bj, j) (List.mem_zipIdx_iff_getElem?.2 hj) a ha e
    exact ⟨k, b', List.mem_zipIdx_iff_getElem?.1 h2, h3⟩

theorem reads_none {xs : List Block} (h : ∀ b ∈ xs, b.operation.immutableIn = []) : ReadsEarlier (Seal := Nat) ⟨9⟩ xs := by
  intro i j b bj a ha hb
  rw [h b (List.mem_of_getElem? hb)] at ha
  simp at ha

theorem handed_on : HandsOn (Seal := Nat) ⟨9⟩ branches (· ∈ [at_ 104 0]) handed :=
  handsOn_of (excerpt_of rfl ⟨[transfer1, onward], .refl _, .cons_cons _ (.cons _ (.cons_cons _ .slnil))⟩ (by decide +kernel)) (by decide +kernel)

theorem handed_open : OpenAt (Seal := Nat) ⟨9⟩ branches branches.length (at_ 104 0) 12 := by
  refine ⟨3, onward, by decide, rfl, ⟨by decide +kernel, .abs 12, by decide +kernel, .inl rfl⟩, ?_⟩
  intro k b' h1 h2
  have : branches.length = 4 := rfl
  omega
end Demo

open Demo in
/-- Of two transfers from genesis and one of the output of the first, what the last one created is handed on without the
second one; a transfer of it is accepted, a transfer of the output of that is rejected. -/
example : ∃ o, Lawful Nat Ledger ∧ LocalMemory Nat Ledger ∧ Faithful (ContractApi.codex Nat ledger) ∧
    LocalCodex (ContractApi.codex Nat ledger) ∧ Accepted ledger (Tape.mk branches none) branches o ∧
    (∀ (i j : Nat) b b', (branches ++ [passOn, careless])[i]? = some b → (branches ++ [passOn, careless])[j]? = some b' →
      idAt (ContractApi.contractId Nat ledger) i b = idAt (ContractApi.contractId Nat ledger) j b' → i = j) ∧
    ReadsEarlier (ContractApi.contractId Nat ledger) (branches ++ [passOn, careless]) ∧
    HandsOn (ContractApi.contractId Nat ledger) branches (· ∈ [at_ 104 0]) handed ∧ handed.length < branches.length ∧
    (∀ b ∈ [passOn, careless], ∀ a, Consumes b a ∨ a ∈ b.operation.immutableIn →
      a ∈ [at_ 104 0] ∨ ∀ j bj, branches[j]? = some bj → a.opid ≠ idAt (ContractApi.contractId Nat ledger) j bj) ∧
    (∀ b ∈ [passOn, careless], ∀ a, Consumes b a → a ∈ [at_ 104 0] →
      ∃ s, OpenAt (ContractApi.contractId Nat ledger) branches branches.length a s) ∧
    accepts ledger (handed ++ [passOn]) = true ∧ accepts ledger (handed ++ [passOn, careless]) = false := by
  obtain ⟨o, h⟩ := accepted_of_accepts (c := ledger) (bs := branches) (by decide +kernel)
  refine ⟨o, ledger_lawful, ledger_localMemory, codex_faithful, codex_local, h, distinct_of_nodup (cid := ⟨9⟩) (by decide +kernel),
    reads_none (by decide +kernel), handed_on, by decide, ?_, ?_, by decide +kernel, by decide +kernel⟩
  · have refs : ∀ b ∈ [passOn, careless], ∀ a ∈ b.operation.destructibleIn.map (·.addr) ++ b.operation.immutableIn,
        a ∈ [at_ 104 0] ∨ ∀ p ∈ branches.zipIdx, a.opid ≠ idAt (Seal := Nat) ⟨9⟩ p.2 p.1 := by decide +kernel
    intro b hb a ha
    rcases refs b hb a (by rw [List.mem_append, List.mem_map]; exact ha) with h1 | h1
    · exact .inl h1
    · exact .inr fun j bj hj => h1 (bj, j) (List.mem_zipIdx_iff_getElem?.2 hj)
  · intro b _ a _ ha
    rw [List.mem_singleton] at ha
    exact ha ▸ ⟨12, handed_open⟩

open Demo in
/-- The history of the cell is genesis, the first transfer and the last. -/
example : Past (Seal := Nat) ⟨9⟩ branches (· ∈ [at_ 104 0]) (idAt ⟨9⟩ 1 transfer1) :=
  Past.ancestor (a := at_ 101 0) (j := 3) (bj := onward) (Past.created (a := at_ 104 0) (by simp)) rfl (.inl ⟨_, List.mem_cons_self, rfl⟩)

open Demo in
/-- Who is also given what the second transfer created joins the two payments. -/
example : HandsOn (Seal := Nat) ⟨9⟩ branches (· ∈ [at_ 104 0]) handed ∧
    HandsOn (Seal := Nat) ⟨9⟩ branches (· ∈ [⟨opid transfer3.operation, 0⟩]) [genesis, transfer3] ∧
    join (Seal := Nat) ⟨9⟩ handed [genesis, transfer3] = [genesis, transfer1, onward, transfer3] :=
  ⟨handed_on, handsOn_of (excerpt_of rfl ⟨[transfer3], .refl _, .cons _ (.cons_cons _ (.cons _ .slnil))⟩ (by decide +kernel))
    (by decide +kernel), rfl⟩

open Demo in
/-- The cells must be open: if a cell has been spent in what is not shown, the recipient may be made to accept that it
is spent otherwise. -/
theorem C99_needs_open : ∃ (c : Ledger) (xs ys : List Block) (b : Block) (a : CellAddr) (r : Tape)
    (o o' o'' : Outcome Nat Tape Ledger String), Lawful Nat Ledger ∧ LocalMemory Nat Ledger ∧ Faithful (ContractApi.codex Nat c) ∧ LocalCodex (ContractApi.codex Nat c) ∧
    Accepted c (Tape.mk xs none) xs o ∧ HandsOn (ContractApi.contractId Nat c) xs (· ∈ [a]) ys ∧
    (∀ a', Consumes b a' ∨ a' ∈ b.operation.immutableIn → a' ∈ [a]) ∧
    evaluate (Seal := Nat) c r = some o' ∧ o'.result = .error (.sealUnknown a) ∧ StartsWith r (xs ++ [b]) ∧
    Accepted c (Tape.mk (ys ++ [b]) none) (ys ++ [b]) o'' := by
  obtain ⟨o, h⟩ := accepted_of_accepts (c := ledger) (bs := branches) (by decide +kernel)
  obtain ⟨o', k1, k2, k3, _⟩ := rejected_at (c := ledger) (bs := branches) (b := doubleSpend) (e := .sealUnknown (at_ 100 0)) rfl
  obtain ⟨o'', h'⟩ := accepted_of_accepts (c := ledger) (bs := [genesis] ++ [doubleSpend]) (by decide +kernel)
  refine ⟨ledger, branches, [genesis], doubleSpend, at_ 100 0, _, o, o', o'', ledger_lawful, ledger_localMemory, codex_faithful, codex_local, h,
    handsOn_of (excerpt_of rfl ⟨[], .refl _, List.nil_sublist _⟩ (by decide +kernel)) (by decide +kernel), ?_, k1, k2, k3, h'⟩
  have : ∀ a' ∈ doubleSpend.operation.destructibleIn.map (·.addr) ++ doubleSpend.operation.immutableIn, a' ∈ [at_ 100 0] := by decide +kernel
  intro a' ha
  exact this a' (by rw [List.mem_append, List.mem_map]; exact ha)

open Demo in
/-- The creators of the cells must be shown: otherwise the recipient rejects what the sender accepts. -/
theorem C99_needs_creators : ∃ (c : Ledger) (xs ys : List Block) (b : Block) (a : CellAddr) (r : Tape) (o o' : Outcome Nat Tape Ledger String),
    Lawful Nat Ledger ∧ LocalMemory Nat Ledger ∧ Faithful (ContractApi.codex Nat c) ∧ LocalCodex (ContractApi.codex Nat c) ∧
    Excerpt (ContractApi.contractId Nat c) xs ys ∧ Accepted c (Tape.mk (xs ++ [b]) none) (xs ++ [b]) o ∧
    evaluate (Seal := Nat) c r = some o' ∧ o'.result = .error (.sealUnknown a) ∧ StartsWith r (ys ++ [b]) := by
  obtain ⟨o, h⟩ := accepted_of_accepts (c := ledger) (bs := branches ++ [passOn]) (by decide +kernel)
  obtain ⟨o', k1, k2, k3, _⟩ := rejected_at (c := ledger) (bs := [genesis, transfer1]) (b := passOn) (e := .sealUnknown (at_ 104 0)) rfl
  exact ⟨ledger, branches, [genesis, transfer1], passOn, at_ 104 0, _, o, o', ledger_lawful, ledger_localMemory, codex_faithful, codex_local,
    excerpt_of rfl ⟨[transfer1], .refl _, .cons_cons _ (.cons _ (.cons _ .slnil))⟩ (by decide +kernel), h, k1, k2, k3⟩

end Rgb
