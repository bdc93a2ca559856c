import Verif.Props.Retrying
import Mathlib.Data.List.NodupEquivFin

set_option linter.unusedSectionVars false

/-! # C94: what remains of a contract when operations are withdrawn

A witness may disappear after the fact: its transaction is reorganised out of the chain.  `ContractApi`
has no callback that takes an operation back, so the way to a correct state is to evaluate what remains
from an earlier state of the contract. -/

namespace Rgb
open Spec

section
variable {Seal : Type} [LinearOrder Seal] [RgbSeal Seal] [OpHash]
variable {C : Type} [ContractApi Seal C]
variable {R : Type} [ReadOperation Seal R]
variable {R' : Type} [ReadOperation Seal R']

/-- The operations of `xs` lost when those with property `D` are withdrawn: these themselves, and whatever
consumes or reads a cell of a lost operation. -/
inductive Lost (cid : ContractId) (xs : List (OperationSeals Seal)) (D : Opid → Prop) : Opid → Prop where
  | withdrawn {i : Nat} {b : OperationSeals Seal} : xs[i]? = some b → D (idAt cid i b) → Lost cid xs D (idAt cid i b)
  | refers {i : Nat} {b : OperationSeals Seal} {a : CellAddr} : xs[i]? = some b → Consumes b a ∨ a ∈ b.operation.immutableIn →
      Lost cid xs D a.opid → Lost cid xs D (idAt cid i b)

/-- The consignment `ys` is what remains of `xs` without the lost operations. -/
structure Remainder (cid : ContractId) (xs : List (OperationSeals Seal)) (D : Opid → Prop) (ys : List (OperationSeals Seal)) :
    Prop where
  head : ys[0]? = xs[0]?
  rest : ys.tail.Sublist xs.tail
  kept : ∀ (i : Nat) b, xs[i]? = some b → ¬ Lost cid xs D (idAt cid i b) →
    ∃ k b', ys[k]? = some b' ∧ idAt cid k b' = idAt cid i b
  clean : ∀ (k : Nat) b, ys[k]? = some b → ¬ Lost cid xs D (idAt cid k b)

/-- Where the blocks of the remainder come from. -/
theorem Remainder.place {cid : ContractId} {xs ys : List (OperationSeals Seal)} {D : Opid → Prop} (h : Remainder cid xs D ys) :
    ∃ g : Nat → Nat, StrictMono g ∧ g 0 = 0 ∧ ∀ k, ys[k]? = xs[g k]? := by
  obtain ⟨f, hf⟩ := List.sublist_iff_exists_orderEmbedding_getElem?_eq.1 h.rest
  refine ⟨fun k => if k = 0 then 0 else f (k - 1) + 1, ?_, rfl, ?_⟩
  · intro i j hij
    simp only
    rw [if_neg (by omega : j ≠ 0)]
    split
    · omega
    · have := f.lt_iff_lt.2 (show i - 1 < j - 1 by omega)
      omega
  · intro k
    simp only
    split
    · next e => rw [e]; exact h.head
    · next e =>
      have := hf (k - 1)
      rw [List.getElem?_tail, List.getElem?_tail, show k - 1 + 1 = k by omega] at this
      exact this

theorem idAt_zero_iff {cid : ContractId} {i j : Nat} (h : i = 0 ↔ j = 0) (b : OperationSeals Seal) : idAt cid i b = idAt cid j b := by
  unfold idAt opAt
  by_cases e : i = 0
  · rw [if_pos e, if_pos (h.1 e)]
  · rw [if_neg e, if_neg (fun e' => e (h.2 e'))]

theorem opAt_reads {cid : ContractId} {i : Nat} {b : OperationSeals Seal} :
    (opAt cid i b).immutableIn = b.operation.immutableIn := by
  unfold opAt; split <;> rfl

/-- Lost operations come after the first block. -/
theorem Lost.position {c : C} {r : R} {xs : List (OperationSeals Seal)} {o} (h : Accepted c r xs o)
    (hr : ReadsEarlier (ContractApi.contractId Seal c) xs) {D : Opid → Prop}
    (hD : ∀ b, xs[0]? = some b → ¬ D (idAt (ContractApi.contractId Seal c) 0 b)) {x : Opid}
    (hx : Lost (ContractApi.contractId Seal c) xs D x) :
    ∃ i b, i ≠ 0 ∧ xs[i]? = some b ∧ x = idAt (ContractApi.contractId Seal c) i b := by
  induction hx with
  | @withdrawn i b hb hd =>
    refine ⟨i, b, ?_, hb, rfl⟩
    rintro rfl
    exact hD b hb hd
  | @refers i b a hb ha _ ih =>
    refine ⟨i, b, ?_, hb, rfl⟩
    rintro rfl
    rcases ha with ⟨inp, hi, _⟩ | ha
    · obtain ⟨j, _, _, hj, _⟩ := C07_causality h hb hi
      omega
    · obtain ⟨j, bj, _, hj, e⟩ := ih
      have := hr 0 j b bj a ha hb hj e
      omega

/-- If the first block is not withdrawn, there is a remainder. -/
theorem C94_remainder {c : C} {r : R} {xs : List (OperationSeals Seal)} {o} (h : Accepted c r xs o)
    (hx : ∀ (i j : Nat) b b', xs[i]? = some b → xs[j]? = some b' →
      idAt (ContractApi.contractId Seal c) i b = idAt (ContractApi.contractId Seal c) j b' → i = j)
    (hr : ReadsEarlier (ContractApi.contractId Seal c) xs) {D : Opid → Prop}
    (hD : ∀ b, xs[0]? = some b → ¬ D (idAt (ContractApi.contractId Seal c) 0 b)) :
    ∃ ys : List (OperationSeals Seal), Remainder (ContractApi.contractId Seal c) xs D ys := by
  classical
  cases xs with
  | nil => exact ⟨[], rfl, .slnil, by simp, by simp⟩
  | cons x xs =>
    refine ⟨x :: xs.filter (fun b => ¬ Lost (ContractApi.contractId Seal c) (x :: xs) D (opid b.operation)), rfl,
      List.filter_sublist, ?_, ?_⟩
    · intro i b hb hn
      cases i with
      | zero => exact ⟨0, b, hb, rfl⟩
      | succ i =>
        rw [idAt_pos (Nat.succ_ne_zero i)] at hn ⊢
        have hm : b ∈ xs.filter (fun b => ¬ Lost (ContractApi.contractId Seal c) (x :: xs) D (opid b.operation)) :=
          List.mem_filter.2 ⟨List.mem_of_getElem? (by simpa using hb), by simpa using hn⟩
        obtain ⟨k, hk⟩ := List.mem_iff_getElem?.1 hm
        exact ⟨k + 1, b, by simpa using hk, idAt_pos (Nat.succ_ne_zero k) b⟩
    · intro k b hb hl
      cases k with
      | zero =>
        obtain ⟨i, b', hi, hb', e⟩ := hl.position h hr hD
        exact hi (hx 0 i b b' (by simpa using hb) hb' e).symm
      | succ k =>
        rw [idAt_pos (Nat.succ_ne_zero k)] at hl
        have hm := List.mem_of_getElem? (show (xs.filter _)[k]? = some b by simpa using hb)
        have := (List.mem_filter.1 hm).2
        simp only [Bool.not_eq_eq_eq_not, Bool.not_true, decide_eq_false_iff_not] at this
        exact this hl

/-- The remainder is an excerpt. -/
theorem Remainder.excerpt {c : C} {r : R} {xs ys : List (OperationSeals Seal)} {o} (h : Accepted c r xs o)
    (hx : ∀ (i j : Nat) b b', xs[i]? = some b → xs[j]? = some b' →
      idAt (ContractApi.contractId Seal c) i b = idAt (ContractApi.contractId Seal c) j b' → i = j)
    (hr : ReadsEarlier (ContractApi.contractId Seal c) xs) {D : Opid → Prop}
    (hy : Remainder (ContractApi.contractId Seal c) xs D ys) : Excerpt (ContractApi.contractId Seal c) xs ys := by
  obtain ⟨g, hg, g0, hp⟩ := hy.place
  have zero : ∀ k, k = 0 ↔ g k = 0 := fun k => ⟨fun e => e ▸ g0, fun e => hg.injective (e.trans g0.symm)⟩
  refine ⟨hy.head, ⟨_, .refl _, hy.rest⟩, ?_⟩
  intro k j b bj a hk ha hj e
  have hi := (hp k).symm.trans hk
  have hji : j < g k := by
    rcases ha with ⟨inp, hm, rfl⟩ | ha
    · obtain ⟨j', bj', _, h1, h2, h3, _⟩ := C07_causality h hi hm
      rw [hx j j' bj bj' hj h2 (e.symm.trans h3)]
      exact h1
    · exact hr _ _ _ _ a ha hi hj e
  have hn : ¬ Lost (ContractApi.contractId Seal c) xs D (idAt (ContractApi.contractId Seal c) j bj) := by
    intro hl
    refine hy.clean k b hk ?_
    rw [idAt_zero_iff (zero k)]
    exact .refers hi ha (e ▸ hl)
  obtain ⟨k', b', h1, h2⟩ := hy.kept j bj hj hn
  refine ⟨k', b', ?_, h1, e.trans h2.symm⟩
  have := hx (g k') j b' bj ((hp k').symm.trans h1) hj (by rw [← idAt_zero_iff (zero k'), h2])
  rw [← this] at hji
  exact hg.lt_iff_lt.1 hji

/-- What remains is accepted from the state in which the whole was accepted, nothing is done that was not done for
the whole, and the contract then knows precisely what it knew before and the operations that are not lost. -/
theorem C94_accepted (hl : Lawful Seal C) (hm : LocalMemory Seal C) {c : C} (hf : Faithful (ContractApi.codex Seal c))
    (hc : LocalCodex (ContractApi.codex Seal c)) {r : R} {xs ys : List (OperationSeals Seal)} {o} (h : Accepted c r xs o)
    (h0 : ∀ b, xs[0]? = some b → KnownStart c b)
    (hx : ∀ (i j : Nat) b b', xs[i]? = some b → xs[j]? = some b' →
      idAt (ContractApi.contractId Seal c) i b = idAt (ContractApi.contractId Seal c) j b' → i = j)
    (hr : ReadsEarlier (ContractApi.contractId Seal c) xs) {D : Opid → Prop}
    (hy : Remainder (ContractApi.contractId Seal c) xs D ys) {r' : R'} (hd : Delivers r' ys) :
    ∃ o', Accepted c r' ys o' ∧ o'.world.calls.Subperm o.world.calls ∧
      ∀ x, ContractApi.isKnown Seal o'.world.contract x = true ↔ ContractApi.isKnown Seal c x = true ∨
        ∃ i b, xs[i]? = some b ∧ x = idAt (ContractApi.contractId Seal c) i b ∧ ¬ Lost (ContractApi.contractId Seal c) xs D x := by
  obtain ⟨o', h1, h2, _⟩ := C76_excerpt hl hm hf hc h hx hr (hy.excerpt h hx hr) hd
  refine ⟨o', h1, h2, fun x => ?_⟩
  rw [C63_known_exactly hl hf h1 (by rw [hy.head]; exact h0)]
  refine or_congr_right ⟨?_, ?_⟩
  · rintro ⟨k, b, hk, rfl⟩
    obtain ⟨g, hg, g0, hp⟩ := hy.place
    exact ⟨g k, b, (hp k).symm.trans hk,
      idAt_zero_iff ⟨fun e => e ▸ g0, fun e => hg.injective (e.trans g0.symm)⟩ b, hy.clean k b hk⟩
  · rintro ⟨i, b, hb, rfl, hn⟩
    obtain ⟨k, b', h1, h2⟩ := hy.kept i b hb hn
    exact ⟨k, b', h1, h2.symm⟩

/-- Nothing more can be saved: no consignment the contract accepts without the withdrawn operations has a
lost one, whatever else it has. -/
theorem C94_maximal (hl : Lawful Seal C) (hm : LocalMemory Seal C) {c : C} (hf : Faithful (ContractApi.codex Seal c))
    (hrd : ChecksReads (ContractApi.codex Seal c)) (ht : Tidy (Seal := Seal) c)
    {r : R} {xs : List (OperationSeals Seal)} {o} (h : Accepted c r xs o)
    (hnew : ∀ (i : Nat) b, i ≠ 0 → xs[i]? = some b → ContractApi.isKnown Seal c (idAt (ContractApi.contractId Seal c) i b) = false)
    (hr : ReadsEarlier (ContractApi.contractId Seal c) xs) {D : Opid → Prop}
    (hD : ∀ b, xs[0]? = some b → ¬ D (idAt (ContractApi.contractId Seal c) 0 b))
    {r' : R'} {zs : List (OperationSeals Seal)} {o'} (h' : Accepted c r' zs o')
    (hno : NoCollision (ContractApi.contractId Seal c) xs zs)
    (hz : ∀ (k : Nat) b, zs[k]? = some b → ¬ D (idAt (ContractApi.contractId Seal c) k b)) :
    ∀ (k : Nat) b, zs[k]? = some b → ¬ Lost (ContractApi.contractId Seal c) xs D (idAt (ContractApi.contractId Seal c) k b) := by
  have new : ∀ {x}, Lost (ContractApi.contractId Seal c) xs D x → ContractApi.isKnown Seal c x = false := by
    intro x hx
    obtain ⟨i, b, hi, hb, rfl⟩ := hx.position h hr hD
    exact hnew i b hi hb
  suffices key : ∀ {x}, Lost (ContractApi.contractId Seal c) xs D x → ∀ (k : Nat) b, zs[k]? = some b →
      idAt (ContractApi.contractId Seal c) k b ≠ x from fun k b hb hx => key hx k b hb rfl
  intro x hx
  induction hx with
  | withdrawn hb hd =>
    intro k b hk e
    exact hz k b hk (e ▸ hd)
  | @refers i b a hb ha hla ih =>
    have hlx := Lost.refers hb ha hla
    intro k
    induction k using Nat.strong_induction_on with
    | _ k ihk =>
      intro b' hk e
      have eo := hno i k b b' hb hk e.symm
      rcases ha with ⟨inp, hi, rfl⟩ | ha
      · have hi' : inp ∈ b'.operation.destructibleIn := by
          rw [← opAt_inputs (cid := ContractApi.contractId Seal c) (i := k), ← eo, opAt_inputs]
          exact hi
        obtain ⟨j, bj, _, _, hj, ej, _⟩ := C07_causality h' hk hi'
        exact ih j bj hj ej.symm
      · have ha' : a ∈ b'.operation.immutableIn := by
          rw [← opAt_reads (cid := ContractApi.contractId Seal c) (i := k), ← eo, opAt_reads]
          exact ha
        cases hkn : ContractApi.isKnown Seal (contractAt (ContractApi.contractId Seal c) c zs k)
            (idAt (ContractApi.contractId Seal c) k b') with
        | true =>
          rcases known_from hl hf hkn with hc | ⟨j, bj, hj, hbj, ej⟩
          · rw [e, new hlx] at hc
            cases hc
          · exact ihk j hj bj hbj (ej.symm.trans e)
        | false =>
          obtain ⟨v, hv⟩ := (h'.valid k b' hk).script hkn
          unfold codexAnswer at hv
          rw [hl.contractAt_codex] at hv
          have hne := hrd _ _ _ _ _ hv a (by rw [opAt_reads]; exact ha')
          have hak : ContractApi.isKnown Seal (contractAt (ContractApi.contractId Seal c) c zs k) a.opid = true := by
            rw [contractAt_eq_foldl] at hne ⊢
            exact immutable_tidy hl hm ht.immutable _ a hne
          rcases known_from hl hf hak with hc | ⟨j, bj, _, hbj, ej⟩
          · rw [new hla] at hc
            cases hc
          · exact ih j bj hbj ej.symm

theorem accepted_history (hl : Lawful Seal C) {c : C} (hf : Faithful (ContractApi.codex Seal c)) {r : R}
    {xs : List (OperationSeals Seal)} {o} (h : Accepted c r xs o) (h0 : ∀ b, xs[0]? = some b → KnownStart c b) :
    ∃ l : List (Call Seal), History KnownStart c l o.world.contract ∧ ∀ v ∈ l.filterMap appliedOperation, ∃ i b, xs[i]? = some b ∧
      v.opid = idAt (ContractApi.contractId Seal c) i b ∧ v.operation = opAt (ContractApi.contractId Seal c) i b := by
  obtain ⟨l, h1, h2⟩ := allAccepted_history hl hf (.cons h h0 (.nil _))
  refine ⟨l, h1, fun v hv => ?_⟩
  obtain ⟨ys, hy, h⟩ := h2 v hv
  rw [List.mem_singleton.1 hy] at h
  exact h

/-- The state is determined by which operations are not lost: however a contract that was in the same state came to
know these and no others, it is in the state that evaluating the remainder leads to. -/
theorem C94_state (hl : Lawful Seal C) (hm : LawfulMemory Seal C) (hc : LocalMemory Seal C) {c : C}
    (hf : Faithful (ContractApi.codex Seal c)) (hx : LocalCodex (ContractApi.codex Seal c)) {r : R}
    {xs ys : List (OperationSeals Seal)} {o} (h : Accepted c r xs o) (h0 : ∀ b, xs[0]? = some b → KnownStart c b)
    (hids : ∀ (i j : Nat) b b', xs[i]? = some b → xs[j]? = some b' →
      idAt (ContractApi.contractId Seal c) i b = idAt (ContractApi.contractId Seal c) j b' → i = j)
    (hr : ReadsEarlier (ContractApi.contractId Seal c) xs) {D : Opid → Prop}
    (hy : Remainder (ContractApi.contractId Seal c) xs D ys) {r' : R'} {o'} (h' : Accepted c r' ys o')
    {d d' : C} {l : List (Call Seal)} (hd : SameState (Seal := Seal) c d) (hh : History KnownStart d l d')
    (hno : ∀ v ∈ l.filterMap appliedOperation, ∀ (i : Nat) b, xs[i]? = some b →
      v.opid = idAt (ContractApi.contractId Seal c) i b → v.operation = opAt (ContractApi.contractId Seal c) i b)
    (hk : ∀ x, ContractApi.isKnown Seal d' x = true ↔ ContractApi.isKnown Seal c x = true ∨
      ∃ i b, xs[i]? = some b ∧ x = idAt (ContractApi.contractId Seal c) i b ∧ ¬ Lost (ContractApi.contractId Seal c) xs D x) :
    SameState (Seal := Seal) o'.world.contract d' := by
  obtain ⟨o₁, h1, _, h3⟩ := C94_accepted hl hc hf hx h h0 hids hr hy h'.delivers
  have e : o₁ = o' := Option.some.inj (h1.run.symm.trans h'.run)
  subst e
  obtain ⟨l₁, g1, g2⟩ := accepted_history hl hf h' (by rw [hy.head]; exact h0)
  obtain ⟨g, hg, g0, hp⟩ := hy.place
  have zero : ∀ k, k = 0 ↔ g k = 0 := fun k => ⟨fun e => e ▸ g0, fun e => hg.injective (e.trans g0.symm)⟩
  refine C77_known hl hm hc hf hd g1 hh ?_ ?_
  · intro v hv v' hv' ev
    obtain ⟨k, b, hk, e1, e2⟩ := g2 v hv
    rw [e2, hno v' hv' (g k) b ((hp k).symm.trans hk) (by rw [← ev, e1, idAt_zero_iff (zero k)])]
    unfold opAt
    simp only [zero k]
  · intro x
    rw [Bool.eq_iff_iff, h3, hk]

theorem destructible_tidy (hl : Lawful Seal C) (hm : LawfulMemory Seal C) (hc : LocalMemory Seal C) {c : C}
    (h : ∀ a, (ContractApi.memory Seal c).destructible a ≠ none → ContractApi.isKnown Seal c a.opid = true) (l : List (Call Seal)) :
    ∀ a, (ContractApi.memory Seal (l.foldl perform c)).destructible a ≠ none →
      ContractApi.isKnown Seal (l.foldl perform c) a.opid = true := by
  induction l generalizing c with
  | nil => exact h
  | cons x l ih =>
    refine ih fun a ha => ?_
    by_cases hx : appliedOperation x = none
    · rw [hl.known_other hx]
      refine h a ?_
      cases x <;> simp only [perform, appliedOperation, reduceCtorEq] at hx ha <;> try exact ha
      · rwa [hc.witness] at ha
      · rwa [hc.seals] at ha
    · obtain ⟨v, rfl⟩ : ∃ v, x = .applyOperation v := by cases x <;> simp_all [appliedOperation]
      refine (hl.known_operation ..).2 ?_
      by_cases e : a.opid = v.opid
      · exact .inr e
      · refine .inl (h a ?_)
        by_cases hs : ∃ inp ∈ v.operation.destructibleIn, inp.addr = a
        · obtain ⟨inp, hi, rfl⟩ := hs
          exact absurd (hm.consumed c v inp hi) ha
        · push Not at hs
          rwa [show perform c (Call.applyOperation (Seal := Seal) v) = ContractApi.applyOperation Seal c v from rfl,
            hc.destructible _ _ _ e hs] at ha

/-- The outputs of lost operations are gone. -/
theorem C94_gone (hl : Lawful Seal C) (hm : LawfulMemory Seal C) (hc : LocalMemory Seal C) {c : C}
    (hf : Faithful (ContractApi.codex Seal c)) (ht : Tidy (Seal := Seal) c) {xs ys : List (OperationSeals Seal)}
    {D : Opid → Prop} (hy : Remainder (ContractApi.contractId Seal c) xs D ys) {r' : R'} {o'} (h' : Accepted c r' ys o')
    {a : CellAddr} (ha : Lost (ContractApi.contractId Seal c) xs D a.opid) (hn : ContractApi.isKnown Seal c a.opid = false) :
    (ContractApi.memory Seal o'.world.contract).destructible a = none ∧
      (ContractApi.memory Seal o'.world.contract).immutable a = none := by
  have hk : ¬ ContractApi.isKnown Seal o'.world.contract a.opid = true := by
    rw [h'.shape.contract]
    intro hk
    rcases known_from hl hf hk with hc | ⟨j, bj, _, hbj, ej⟩
    · rw [hn] at hc; cases hc
    · exact hy.clean j bj hbj (ej ▸ ha)
  rw [h'.shape.contract, contractAt_eq_foldl] at hk ⊢
  constructor
  · by_contra hne; exact hk (destructible_tidy hl hm hc ht.destructible _ a hne)
  · by_contra hne; exact hk (immutable_tidy hl hc ht.immutable _ a hne)

theorem single_spender {c : C} {r : R} {xs : List (OperationSeals Seal)} {o} (h : Accepted c r xs o)
    (hids : ∀ (i j : Nat) b b', xs[i]? = some b → xs[j]? = some b' →
      idAt (ContractApi.contractId Seal c) i b = idAt (ContractApi.contractId Seal c) j b' → i = j)
    {i j : Nat} {b b' : OperationSeals Seal} {a : CellAddr} (hi : xs[i]? = some b) (hj : xs[j]? = some b')
    (ci : Consumes b a) (cj : Consumes b' a) : i = j := by
  have key : ∀ {i j : Nat} {b b' : OperationSeals Seal}, xs[i]? = some b → xs[j]? = some b' → Consumes b a → Consumes b' a → ¬ i < j := by
    intro i j b b' hb hb' hc hc' hij
    obtain ⟨k, bk, h1, h2, h3, h4, _⟩ := C10_reannounced h hb hb' hij hc hc'
    obtain ⟨inp, hm, rfl⟩ := hc
    obtain ⟨k', bk', d, g1, g2, g3, _⟩ := C07_causality h hb hm
    have := hids k k' bk bk' h3 g2 (h4.symm.trans g3)
    omega
  have h1 := key hi hj ci cj
  have h2 := key hj hi cj ci
  omega

/-- The value of a cell after two histories in both of which only its creator, if any, touches it. -/
theorem untouched_same (hl : Lawful Seal C) (hc : LocalMemory Seal C) {c c₁ c₂ : C} (hf : Faithful (ContractApi.codex Seal c))
    {l₁ l₂ : List (Call Seal)} (h₁ : History KnownStart c l₁ c₁) (h₂ : History KnownStart c l₂ c₂) {a : CellAddr}
    (hk : ContractApi.isKnown Seal c₁ a.opid = ContractApi.isKnown Seal c₂ a.opid)
    (t1 : ∀ v ∈ l₁.filterMap appliedOperation, touches a v = true → v.opid = a.opid)
    (t2 : ∀ v ∈ l₂.filterMap appliedOperation, touches a v = true → v.opid = a.opid)
    (hno : ∀ v ∈ l₁.filterMap appliedOperation, ∀ v' ∈ l₂.filterMap appliedOperation, v.opid = v'.opid → v.operation = v'.operation) :
    (ContractApi.memory Seal c₁).destructible a = (ContractApi.memory Seal c₂).destructible a := by
  have half : ∀ {c₁ c₂ : C} {l₁ l₂ : List (Call Seal)}, History KnownStart c l₁ c₁ → History KnownStart c l₂ c₂ →
      ContractApi.isKnown Seal c₁ a.opid = ContractApi.isKnown Seal c₂ a.opid →
      (∀ v ∈ l₁.filterMap appliedOperation, touches a v = true → v.opid = a.opid) →
      (∀ v ∈ l₁.filterMap appliedOperation, ∀ v' ∈ l₂.filterMap appliedOperation, v.opid = v'.opid → v.operation = v'.operation) →
      ∀ v ∈ l₁.filterMap appliedOperation, touches a v = true → v ∈ l₂.filterMap appliedOperation := by
    intro c₁ c₂ l₁ l₂ h₁ h₂ hk t1 hno v hv ht
    obtain ⟨_, n1, k1⟩ := C34_applied_once hl hf h₁
    have e := t1 v hv ht
    have hk1 := (k1 v.opid).2 (.inr (List.mem_map_of_mem hv))
    rw [e, hk] at hk1
    obtain ⟨v', hv', e'⟩ := known_applied hl hf h₂ hk1 (e ▸ n1 v hv)
    have eo := hno v hv v' hv' (e.trans e'.symm)
    obtain ⟨x, p⟩ := v
    obtain ⟨x', p'⟩ := v'
    simp only at e e' eo
    subst eo
    rw [e, ← e']
    exact hv'
  have ho := observed_destructible hc (Seal := Seal) (C := C) a
  have g := ho.foldl_filter c l₁
  have g' := ho.foldl_filter c l₂
  rw [history_fold h₁, history_fold h₂, g, g', filter_applies, filter_applies]
  congr 4
  refine one_id (i := a.opid) (nodup_filter (C34_applied_once hl hf h₁).1 _) (nodup_filter (C34_applied_once hl hf h₂).1 _) ?_ ?_
  · intro v
    rw [List.mem_filter, List.mem_filter]
    exact ⟨fun ⟨hv, ht⟩ => ⟨half h₁ h₂ hk t1 hno v hv ht, ht⟩,
      fun ⟨hv, ht⟩ => ⟨half h₂ h₁ hk.symm t2 (fun v hv v' hv' e => (hno v' hv' v hv e.symm).symm) v hv ht, ht⟩⟩
  · intro v hv
    exact t1 v (List.mem_filter.1 hv).1 (List.mem_filter.1 hv).2

/-- Cells spent only by lost operations are back: each is as it was when the lost operation was reached. -/
theorem C94_returned (hl : Lawful Seal C) (hc : LocalMemory Seal C) {c : C}
    (hf : Faithful (ContractApi.codex Seal c)) (hx : LocalCodex (ContractApi.codex Seal c)) {r : R}
    {xs ys : List (OperationSeals Seal)} {o} (h : Accepted c r xs o) (h0 : ∀ b, xs[0]? = some b → KnownStart c b)
    (hids : ∀ (i j : Nat) b b', xs[i]? = some b → xs[j]? = some b' →
      idAt (ContractApi.contractId Seal c) i b = idAt (ContractApi.contractId Seal c) j b' → i = j)
    (hr : ReadsEarlier (ContractApi.contractId Seal c) xs) {D : Opid → Prop}
    (hy : Remainder (ContractApi.contractId Seal c) xs D ys) {r' : R'} {o'} (h' : Accepted c r' ys o')
    {i : Nat} {b : OperationSeals Seal} (hb : xs[i]? = some b) (hlo : Lost (ContractApi.contractId Seal c) xs D (idAt (ContractApi.contractId Seal c) i b))
    {a : CellAddr} (ha : Consumes b a) (hn : ¬ Lost (ContractApi.contractId Seal c) xs D a.opid) :
    (ContractApi.memory Seal o'.world.contract).destructible a =
      (ContractApi.memory Seal (contractAt (ContractApi.contractId Seal c) c xs i)).destructible a := by
  obtain ⟨o₁, h1, _, h3⟩ := C94_accepted hl hc hf hx h h0 hids hr hy h'.delivers
  have e : o₁ = o' := Option.some.inj (h1.run.symm.trans h'.run)
  subst e
  have ev : xs.take i ++ xs.drop i = xs := List.take_append_drop i xs
  obtain ⟨o₂, h2, _⟩ := C21_prefix (xs := xs.take i) (ys := xs.drop i) (ev.symm ▸ h) (testReader_delivers (xs.take i))
  have hlen : (xs.take i).length = i := by
    rw [List.length_take]
    exact Nat.min_eq_left (Nat.le_of_lt (lt_length_of_getElem? hb))
  have ec : o₂.world.contract = contractAt (ContractApi.contractId Seal c) c xs i := by
    rw [h2.shape.contract, hlen, contractAt_take i (Nat.le_refl i)]
  rw [← ec]
  have take0 : ∀ {j : Nat} {b' : OperationSeals Seal}, (xs.take i)[j]? = some b' → j < i ∧ xs[j]? = some b' := by
    intro j b' hj
    rw [List.getElem?_take] at hj
    split at hj
    · exact ⟨by assumption, hj⟩
    · cases hj
  have h02 : ∀ b, (xs.take i)[0]? = some b → KnownStart c b := fun b hb => h0 b (take0 hb).2
  obtain ⟨l₁, g1, g2⟩ := accepted_history hl hf h' (by rw [hy.head]; exact h0)
  obtain ⟨l₂, k1, k2⟩ := accepted_history hl hf h2 h02
  obtain ⟨g, hg, g0, hp⟩ := hy.place
  have zero : ∀ k, k = 0 ↔ g k = 0 := fun k => ⟨fun e => e ▸ g0, fun e => hg.injective (e.trans g0.symm)⟩
  obtain ⟨inp, hinp, rfl⟩ := ha
  obtain ⟨j, bj, _, hj, hbj, ej, _⟩ := C07_causality h hb hinp
  have touch : ∀ {v : VerifiedOperation} {b' : OperationSeals Seal} {k : Nat}, v.operation = opAt (ContractApi.contractId Seal c) k b' →
      ¬ Consumes b' inp.addr → touches inp.addr v = true → v.opid = inp.addr.opid := by
    intro v b' k e hn ht
    unfold touches at ht
    rw [Bool.or_eq_true, decide_eq_true_eq, List.any_eq_true] at ht
    rcases ht with ht | ⟨inp', h1, h2⟩
    · exact ht.symm
    · rw [e, opAt_inputs] at h1
      exact absurd ⟨inp', h1, of_decide_eq_true h2⟩ hn
  refine untouched_same hl hc hf g1 k1 ?_ ?_ ?_ ?_
  · rw [(h3 _).2 (.inr ⟨j, bj, hbj, ej, hn⟩), eq_comm, C63_known_exactly hl hf h2 h02]
    exact .inr ⟨j, bj, by rw [List.getElem?_take, if_pos hj]; exact hbj, ej⟩
  · intro v hv
    obtain ⟨k, b', hk, e1, e2⟩ := g2 v hv
    refine touch e2 fun hco => hy.clean k b' hk ?_
    have := single_spender h hids hb ((hp k).symm.trans hk) ⟨inp, hinp, rfl⟩ hco
    have hbb := (hp k).symm.trans hk
    rw [← this] at hbb
    obtain rfl := Option.some.inj (hb.symm.trans hbb)
    rw [idAt_zero_iff (zero k), ← this]
    exact hlo
  · intro v hv
    obtain ⟨k, b', hk, e1, e2⟩ := k2 v hv
    obtain ⟨hki, hk⟩ := take0 hk
    refine touch e2 fun hco => ?_
    have := single_spender h hids hb hk ⟨inp, hinp, rfl⟩ hco
    omega
  · intro v hv v' hv' e
    obtain ⟨k, b₁, hk, e1, e2⟩ := g2 v hv
    obtain ⟨k', b₂, hk', e1', e2'⟩ := k2 v' hv'
    obtain ⟨_, hk'⟩ := take0 hk'
    have hk := (hp k).symm.trans hk
    have hkk := hids (g k) k' b₁ b₂ hk hk' (by rw [← idAt_zero_iff (zero k), ← e1, ← e1', e])
    rw [hkk] at hk
    obtain rfl := Option.some.inj (hk.symm.trans hk')
    rw [e2, e2', ← hkk]
    unfold opAt
    simp only [zero k]

/-- When the withdrawn operations return, everything is as it was. -/
theorem C94_reinstated {R'' : Type} [ReadOperation Seal R''] (hl : Lawful Seal C) (hm : LawfulMemory Seal C) (hc : LocalMemory Seal C) {c : C}
    (hf : Faithful (ContractApi.codex Seal c)) (hx : LocalCodex (ContractApi.codex Seal c))
    (hi : ChecksInputs (ContractApi.codex Seal c)) (hrd : ChecksReads (ContractApi.codex Seal c)) (ht : Tidy (Seal := Seal) c) {r : R}
    {xs ys : List (OperationSeals Seal)} {o} (h : Accepted c r xs o) (h0 : ∀ b, xs[0]? = some b → KnownStart c b)
    (hids : ∀ (i j : Nat) b b', xs[i]? = some b → xs[j]? = some b' →
      idAt (ContractApi.contractId Seal c) i b = idAt (ContractApi.contractId Seal c) j b' → i = j)
    (hr : ReadsEarlier (ContractApi.contractId Seal c) xs) {D : Opid → Prop}
    (hy : Remainder (ContractApi.contractId Seal c) xs D ys) {r' : R'} {o'} (h' : Accepted c r' ys o')
    {r'' : R''} (hd : Delivers r'' xs) :
    ∃ o'', Accepted o'.world.contract r'' xs o'' ∧ SameState (Seal := Seal) o''.world.contract o.world.contract := by
  have h0' : ∀ b, ys[0]? = some b → KnownStart c b := by rw [hy.head]; exact h0
  obtain ⟨o₁, h1, _, h3⟩ := C94_accepted hl hc hf hx h h0 hids hr hy h'.delivers
  have e : o₁ = o' := Option.some.inj (h1.run.symm.trans h'.run)
  subst e
  obtain ⟨l₁, g1, g2⟩ := accepted_history hl hf h' h0'
  obtain ⟨l, k1, k2⟩ := accepted_history hl hf h h0
  obtain ⟨g, hg, g0, hp⟩ := hy.place
  have zero : ∀ k, k = 0 ↔ g k = 0 := fun k => ⟨fun e => e ▸ g0, fun e => hg.injective (e.trans g0.symm)⟩
  have id1 : ContractApi.contractId Seal o₁.world.contract = ContractApi.contractId Seal c := by
    rw [h'.shape.contract]; exact hl.contractAt_id
  have cx1 : ContractApi.codex Seal o₁.world.contract = ContractApi.codex Seal c := by
    rw [h'.shape.contract]; exact hl.contractAt_codex
  have g2' : ∀ v ∈ l₁.filterMap appliedOperation, ∃ i b, xs[i]? = some b ∧
      v.opid = idAt (ContractApi.contractId Seal c) i b ∧ v.operation = opAt (ContractApi.contractId Seal c) i b := by
    intro v hv
    obtain ⟨k, b, hk, e1, e2⟩ := g2 v hv
    refine ⟨g k, b, (hp k).symm.trans hk, by rw [e1, idAt_zero_iff (zero k)], ?_⟩
    rw [e2]
    unfold opAt
    simp only [zero k]
  have same : ∀ {i j : Nat} {b b' : OperationSeals Seal}, xs[i]? = some b → xs[j]? = some b' →
      idAt (ContractApi.contractId Seal c) i b = idAt (ContractApi.contractId Seal c) j b' →
      opAt (ContractApi.contractId Seal c) i b = opAt (ContractApi.contractId Seal c) j b' := by
    intro i j b b' hb hb' e
    obtain rfl := hids i j b b' hb hb' e
    obtain rfl := Option.some.inj (hb.symm.trans hb')
    rfl
  obtain ⟨o'', ho⟩ := (C82_stable hl hm hc hf hx hi hrd ht g1 h h0
    (T := fun p => ∃ i b, xs[i]? = some b ∧ p = opAt (ContractApi.contractId Seal c) i b)
    (by
      rintro _ _ ⟨i, b, hb, rfl⟩ ⟨j, b', hb', rfl⟩ e
      exact same hb hb' e)
    (by
      intro v hv
      obtain ⟨i, b, hb, _, e⟩ := g2' v hv
      exact ⟨i, b, hb, e⟩)
    (fun i b hb => ⟨i, b, hb, rfl⟩) hd).2 (by
      intro i b hb hk inp hinp v hv inp' hinp' e
      obtain ⟨j, b', hb', e1, e2⟩ := g2' v hv
      rw [e2, opAt_inputs] at hinp'
      obtain rfl := single_spender h hids hb hb' ⟨inp, hinp, rfl⟩ ⟨inp', hinp', e⟩
      obtain rfl := Option.some.inj (hb.symm.trans hb')
      have := ((C34_applied_once hl hf g1).2.2 v.opid).2 (.inr (List.mem_map_of_mem hv))
      rw [e1, hk] at this
      cases this)
  refine ⟨o'', ho, ?_⟩
  have h0'' : ∀ b, xs[0]? = some b → KnownStart o₁.world.contract b := by
    intro b hb
    unfold KnownStart
    rw [id1, h3]
    exact .inl (h0 b hb)
  obtain ⟨l₂, m1, m2⟩ := accepted_history hl (cx1 ▸ hf) ho h0''
  rw [id1] at m2
  refine C77_known hl hm hc hf ⟨rfl, rfl, rfl, rfl, fun _ => rfl⟩ (g1.append m1) k1 ?_ ?_
  · intro v hv v' hv' ev
    have : ∃ i b, xs[i]? = some b ∧ v.opid = idAt (ContractApi.contractId Seal c) i b ∧
        v.operation = opAt (ContractApi.contractId Seal c) i b := by
      rw [List.filterMap_append, List.mem_append] at hv
      exact hv.elim (g2' v) (m2 v)
    obtain ⟨i, b, hb, e1, e2⟩ := this
    obtain ⟨j, b', hb', e1', e2'⟩ := k2 v' hv'
    rw [e2, e2']
    exact same hb hb' (by rw [← e1, ← e1', ev])
  · intro x
    rw [Bool.eq_iff_iff, C63_known_exactly hl (cx1 ▸ hf) ho h0'', C63_known_exactly hl hf h h0, h3, id1]
    constructor
    · rintro ((h | ⟨i, b, hb, h, _⟩) | h)
      · exact .inl h
      · exact .inr ⟨i, b, hb, h⟩
      · exact .inr h
    · rintro (h | h)
      · exact .inl (.inl h)
      · exact .inr h

end

namespace Demo.Once
/-- The first transfer and the publication are withdrawn. -/
def reorganised (x : Opid) : Prop := x = ⟨101⟩ ∨ x = ⟨110⟩

/-- With them go the second transfer, which spends the output of the first one, and the operation reading what
was published. -/
theorem lost_shelf {x : Opid} : Lost ⟨9⟩ shelf reorganised x ↔ x ∈ [(⟨101⟩ : Opid), ⟨102⟩, ⟨110⟩, ⟨111⟩] := by
  constructor
  · intro h
    induction h with
    | withdrawn _ hd => rcases hd with e | e <;> rw [e] <;> decide
    | @refers i b a hb ha _ ih =>
      have key : ∀ e ∈ shelf.zipIdx, ∀ a ∈ e.1.operation.destructibleIn.map (·.addr) ++ e.1.operation.immutableIn,
          a.opid ∈ [(⟨101⟩ : Opid), ⟨102⟩, ⟨110⟩, ⟨111⟩] → idAt ⟨9⟩ e.2 e.1 ∈ [(⟨101⟩ : Opid), ⟨102⟩, ⟨110⟩, ⟨111⟩] := by
        decide +kernel
      refine key (b, i) (List.mem_zipIdx_iff_getElem?.2 hb) a ?_ ih
      rcases ha with ⟨inp, hi, rfl⟩ | ha
      · exact List.mem_append_left _ (List.mem_map_of_mem hi)
      · exact List.mem_append_right _ ha
  · have h1 : Lost ⟨9⟩ shelf reorganised ⟨101⟩ := .withdrawn (i := 1) (b := move1) rfl (.inl rfl)
    have h2 : Lost ⟨9⟩ shelf reorganised ⟨102⟩ :=
      .refers (i := 2) (b := move2) (a := at_ 101 0) rfl (.inl ⟨_, List.mem_cons_self .., rfl⟩) h1
    have h3 : Lost ⟨9⟩ shelf reorganised ⟨110⟩ := .withdrawn (i := 4) (b := publish) rfl (.inr rfl)
    have h4 : Lost ⟨9⟩ shelf reorganised ⟨111⟩ :=
      .refers (i := 5) (b := cite) (a := at_ 110 0) rfl (.inr (List.mem_cons_self ..)) h3
    intro h
    simp only [List.mem_cons, List.not_mem_nil, or_false] at h
    rcases h with rfl | rfl | rfl | rfl <;> assumption

theorem shelf_remainder : Remainder ⟨9⟩ shelf reorganised [origin, other] where
  head := rfl
  rest := .cons _ (.cons _ (.cons_cons _ (.cons _ (.cons _ .slnil))))
  kept i b hb hn := by
    rw [lost_shelf] at hn
    have key : ∀ e ∈ shelf.zipIdx, idAt ⟨9⟩ e.2 e.1 ∉ [(⟨101⟩ : Opid), ⟨102⟩, ⟨110⟩, ⟨111⟩] →
        idAt ⟨9⟩ 0 origin = idAt ⟨9⟩ e.2 e.1 ∨ idAt ⟨9⟩ 1 other = idAt ⟨9⟩ e.2 e.1 := by decide +kernel
    rcases key (b, i) (List.mem_zipIdx_iff_getElem?.2 hb) hn with e | e
    · exact ⟨0, origin, rfl, e⟩
    · exact ⟨1, other, rfl, e⟩
  clean k b hb := by
    rw [lost_shelf]
    have key : ∀ e ∈ [origin, other].zipIdx, idAt ⟨9⟩ e.2 e.1 ∉ [(⟨101⟩ : Opid), ⟨102⟩, ⟨110⟩, ⟨111⟩] := by decide +kernel
    exact key (b, k) (List.mem_zipIdx_iff_getElem?.2 hb)

theorem shelf_distinct : ∀ (i j : Nat) (b b' : OperationSeals Int), shelf[i]? = some b → shelf[j]? = some b' →
    idAt ⟨9⟩ i b = idAt ⟨9⟩ j b' → i = j := by
  intro i j b b' hb hb' e
  have key : ∀ x ∈ shelf.zipIdx, ∀ y ∈ shelf.zipIdx, idAt ⟨9⟩ x.2 x.1 = idAt ⟨9⟩ y.2 y.1 → x.2 = y.2 := by decide +kernel
  exact key (b, i) (List.mem_zipIdx_iff_getElem?.2 hb) (b', j) (List.mem_zipIdx_iff_getElem?.2 hb') e

theorem shelf_reads : ReadsEarlier ⟨9⟩ shelf := by
  intro i j b bj a ha hb hbj e
  have key : ∀ x ∈ shelf.zipIdx, ∀ y ∈ shelf.zipIdx, ∀ a ∈ x.1.operation.immutableIn, a.opid = idAt ⟨9⟩ y.2 y.1 → y.2 < x.2 := by
    decide +kernel
  exact key (b, i) (List.mem_zipIdx_iff_getElem?.2 hb) (bj, j) (List.mem_zipIdx_iff_getElem?.2 hbj) a ha e

theorem shelf_start : ∀ b, shelf[0]? = some b → KnownStart (Seal := Int) archive b := by
  rintro b hb
  cases hb
  rfl

theorem shelf_new : ∀ (i : Nat) (b : OperationSeals Int), i ≠ 0 → shelf[i]? = some b →
    ContractApi.isKnown Int archive (idAt ⟨9⟩ i b) = false := by
  intro i b hi hb
  have key : ∀ x ∈ shelf.zipIdx, x.2 ≠ 0 → ContractApi.isKnown Int archive (idAt ⟨9⟩ x.2 x.1) = false := by decide +kernel
  exact key (b, i) (List.mem_zipIdx_iff_getElem?.2 hb) hi
end Demo.Once

open Demo Demo.Once in
/-- Of six operations four are lost; the genesis output spent by the first transfer is there again, and when the
lost operations return they are accepted again. -/
example : ∃ o o' o'', Accepted archive (Feed.mk shelf) shelf o ∧ Remainder ⟨9⟩ shelf reorganised [origin, other] ∧
    Accepted archive (Feed.mk [origin, other]) [origin, other] o' ∧
    (∀ x, ContractApi.isKnown Int o'.world.contract x = true ↔ x = ⟨100⟩ ∨ x = ⟨103⟩) ∧
    (ContractApi.memory Int o.world.contract).destructible (at_ 100 0) = none ∧
    (ContractApi.memory Int o'.world.contract).destructible (at_ 100 0) ≠ none ∧
    (ContractApi.memory Int o'.world.contract).immutable (at_ 110 0) = none ∧
    Accepted o'.world.contract (Feed.mk shelf) shelf o'' ∧ SameState (Seal := Int) o''.world.contract o.world.contract := by
  obtain ⟨o, h⟩ := passes_iff.2 (show passes archive shelf = true by decide +kernel)
  obtain ⟨o', h1, _, h3⟩ := C94_accepted archive_lawful archive_localMemory reading_faithful reading_local h shelf_start
    shelf_distinct shelf_reads shelf_remainder (feed_delivers _)
  obtain ⟨o'', h4, h5⟩ := C94_reinstated archive_lawful archive_lawfulMemory archive_localMemory reading_faithful reading_local
    reading_checksInputs reading_checksReads archive_tidy h shelf_start shelf_distinct shelf_reads shelf_remainder h1 (feed_delivers shelf)
  have hb := C94_returned archive_lawful archive_localMemory reading_faithful reading_local h shelf_start
    shelf_distinct shelf_reads shelf_remainder h1 (i := 1) (b := move1) rfl (lost_shelf.2 (by decide +kernel)) (a := at_ 100 0)
    ⟨_, List.mem_cons_self .., rfl⟩ (fun h => absurd (lost_shelf.1 h) (by decide +kernel))
  have hg := C94_gone archive_lawful archive_lawfulMemory archive_localMemory reading_faithful archive_tidy shelf_remainder h1
    (a := at_ 110 0) (lost_shelf.2 (by decide +kernel)) rfl
  refine ⟨o, o', o'', h, shelf_remainder, h1, ?_, ?_, ?_, hg.2, h4, h5⟩
  · intro x
    rw [C63_known_exactly archive_lawful reading_faithful h1 (fun b hb => shelf_start b hb)]
    constructor
    · rintro (hk | ⟨i, b, hb, rfl⟩)
      · left
        simpa [ContractApi.isKnown, archive] using hk
      · match i, hb with
        | 0, hb => cases hb; exact .inl rfl
        | 1, hb => cases hb; exact .inr rfl
    · rintro (rfl | rfl)
      · exact .inl rfl
      · exact .inr ⟨1, other, rfl, rfl⟩
  · rw [h.shape.contract]
    rfl
  · rw [hb]
    decide +kernel

open Demo Demo.Once in
example : ∃ o, Lawful Int Archive ∧ LocalMemory Int Archive ∧ Faithful (ContractApi.codex Int archive) ∧
    ChecksReads (ContractApi.codex Int archive) ∧ Tidy (Seal := Int) archive ∧ Accepted archive (Feed.mk shelf) shelf o ∧
    (∀ (i : Nat) b, i ≠ 0 → shelf[i]? = some b → ContractApi.isKnown Int archive (idAt ⟨9⟩ i b) = false) ∧
    ReadsEarlier ⟨9⟩ shelf ∧ (∀ b, shelf[0]? = some b → ¬ reorganised (idAt ⟨9⟩ 0 b)) ∧
    (∃ o', Accepted archive (Feed.mk [origin, other]) [origin, other] o') ∧ NoCollision ⟨9⟩ shelf [origin, other] ∧
    ∀ (k : Nat) b, [origin, other][k]? = some b → ¬ reorganised (idAt ⟨9⟩ k b) := by
  obtain ⟨o, h⟩ := passes_iff.2 (show passes archive shelf = true by decide +kernel)
  refine ⟨o, archive_lawful, archive_localMemory, reading_faithful, reading_checksReads, archive_tidy, h, shelf_new, shelf_reads, ?_,
    passes_iff.2 (by decide +kernel), ?_, ?_⟩
  · rintro b hb
    cases hb
    rintro (e | e) <;> revert e <;> decide +kernel
  · intro i j b b' hb hb'
    have key : ∀ x ∈ shelf.zipIdx, ∀ y ∈ [origin, other].zipIdx, idAt ⟨9⟩ x.2 x.1 = idAt ⟨9⟩ y.2 y.1 →
        opAt ⟨9⟩ x.2 x.1 = opAt ⟨9⟩ y.2 y.1 := by decide +kernel
    exact key (b, i) (List.mem_zipIdx_iff_getElem?.2 hb) (b', j) (List.mem_zipIdx_iff_getElem?.2 hb')
  · rintro k b hb (e | e) <;> exact shelf_remainder.clean k b hb (lost_shelf.2 (by rw [show idAt ⟨9⟩ k b = _ from e]; decide))

open Demo Demo.Once in
/-- Someone who never had the lost operations is in the same state. -/
example : ∃ (o o' : Outcome Int Feed Archive String) (l : List (Call Int)) (d' : Archive), Accepted archive (Feed.mk shelf) shelf o ∧ Accepted archive (Feed.mk [origin, other]) [origin, other] o' ∧
    SameState (Seal := Int) archive archive ∧ History (Seal := Int) KnownStart archive l d' ∧
    (∀ v ∈ l.filterMap appliedOperation, ∀ (i : Nat) b, shelf[i]? = some b → v.opid = idAt ⟨9⟩ i b → v.operation = opAt ⟨9⟩ i b) ∧
    (∀ x, ContractApi.isKnown Int d' x = true ↔ ContractApi.isKnown Int archive x = true ∨
      ∃ i b, shelf[i]? = some b ∧ x = idAt ⟨9⟩ i b ∧ ¬ Lost ⟨9⟩ shelf reorganised x) := by
  obtain ⟨o, h⟩ := passes_iff.2 (show passes archive shelf = true by decide +kernel)
  obtain ⟨o', h1, _, h3⟩ := C94_accepted archive_lawful archive_localMemory reading_faithful reading_local h shelf_start
    shelf_distinct shelf_reads shelf_remainder (feed_delivers _)
  obtain ⟨l, g1, g2⟩ := accepted_history archive_lawful reading_faithful h1 (fun b hb => shelf_start b hb)
  refine ⟨o, o', l, _, h, h1, ⟨rfl, rfl, rfl, rfl, fun _ => rfl⟩, g1, ?_, h3⟩
  intro v hv i b hb e
  obtain ⟨k, b', hk, e1, e2⟩ := g2 v hv
  have key : ∀ x ∈ shelf.zipIdx, ∀ y ∈ [origin, other].zipIdx, idAt ⟨9⟩ x.2 x.1 = idAt ⟨9⟩ y.2 y.1 →
      opAt ⟨9⟩ x.2 x.1 = opAt ⟨9⟩ y.2 y.1 := by decide +kernel
  rw [e2]
  exact (key (b, i) (List.mem_zipIdx_iff_getElem?.2 hb) (b', k) (List.mem_zipIdx_iff_getElem?.2 hk) (e.symm.trans e1)).symm

end Rgb
