import Verif.Props.Agreement
import Verif.Props.TestContract

set_option linter.unusedSectionVars false

/-! # C97: the state is what has been created and not spent, whatever the implementation -/

namespace Rgb
open Spec

namespace Spec
/-- The contract keeps its memory as `ContractApi` (verify.rs:108-124) suggests: an operation applied
removes the cells it consumes and puts its outputs at their positions, provided these were free; all other
cells stay.  Reports do not touch the memory, and nothing changes the libraries. -/
structure StandardMemory (Seal : Type) [LinearOrder Seal] [RgbSeal Seal] (C : Type) [ContractApi Seal C] : Prop where
  consumed : ∀ (c : C) (v : VerifiedOperation), ∀ inp ∈ v.operation.destructibleIn,
    (ContractApi.memory Seal (ContractApi.applyOperation Seal c v)).destructible inp.addr = none
  created : ∀ (c : C) (v : VerifiedOperation) (a : CellAddr), a.opid = v.opid →
    (∀ inp ∈ v.operation.destructibleIn, inp.addr ≠ a) → (ContractApi.memory Seal c).destructible a = none →
    (ContractApi.memory Seal (ContractApi.applyOperation Seal c v)).destructible a = v.operation.destructibleOut[(a.pos : Nat)]?
  kept : ∀ (c : C) (v : VerifiedOperation) (a : CellAddr), a.opid ≠ v.opid →
    (∀ inp ∈ v.operation.destructibleIn, inp.addr ≠ a) →
    (ContractApi.memory Seal (ContractApi.applyOperation Seal c v)).destructible a = (ContractApi.memory Seal c).destructible a
  published : ∀ (c : C) (v : VerifiedOperation) (a : CellAddr), a.opid = v.opid → (ContractApi.memory Seal c).immutable a = none →
    (ContractApi.memory Seal (ContractApi.applyOperation Seal c v)).immutable a =
      (v.operation.immutableOut[(a.pos : Nat)]?).map (·.value)
  immutable : ∀ (c : C) (v : VerifiedOperation) (a : CellAddr), a.opid ≠ v.opid →
    (ContractApi.memory Seal (ContractApi.applyOperation Seal c v)).immutable a = (ContractApi.memory Seal c).immutable a
  seals : ∀ (c : C) (i : Opid) (s : OMap U16 (RgbSeal.Definition Seal)),
    ContractApi.memory Seal (ContractApi.applySeals c i s) = ContractApi.memory Seal c
  witness : ∀ (c : C) (i : Opid) (w : SealWitness Seal),
    ContractApi.memory Seal (ContractApi.applyWitness c i w) = ContractApi.memory Seal c
  repo : ∀ (c : C) (x : Call Seal), ContractApi.repo Seal (perform c x) = ContractApi.repo Seal c

/-- Contracts, of possibly different types, that agree in all they can be asked for. -/
structure Equivalent {Seal : Type} [LinearOrder Seal] [RgbSeal Seal] {C₁ C₂ : Type} [ContractApi Seal C₁] [ContractApi Seal C₂]
    (c : C₁) (d : C₂) : Prop where
  contractId : ContractApi.contractId Seal c = ContractApi.contractId Seal d
  codex : ContractApi.codex Seal c = ContractApi.codex Seal d
  memory : ContractApi.memory Seal c = ContractApi.memory Seal d
  repo : ContractApi.repo Seal c = ContractApi.repo Seal d
  isKnown : ∀ o, ContractApi.isKnown Seal c o = ContractApi.isKnown Seal d o
end Spec

section
variable {Seal : Type} [LinearOrder Seal] [RgbSeal Seal] [OpHash]
variable {C : Type} [ContractApi Seal C]
variable {R : Type} [ReadOperation Seal R]

theorem Spec.StandardMemory.lawful (hm : StandardMemory Seal C) : LawfulMemory Seal C where
  consumed := hm.consumed
  created c v a ha h := by
    by_cases hc : ∃ inp ∈ v.operation.destructibleIn, inp.addr = a
    · obtain ⟨inp, hi, rfl⟩ := hc
      exact hm.consumed c v inp hi
    · exact (hm.kept c v a ha fun inp hi e => hc ⟨inp, hi, e⟩).trans h
  seals c i s a := by rw [hm.seals]
  witness c i w a := by rw [hm.witness]

/-- The content of a cell which none of the operations applied consumes. -/
theorem exact_fold (hm : StandardMemory Seal C) {a : CellAddr} (l : List (Call Seal)) (c : C)
    (hn : ((l.filterMap appliedOperation).map (·.opid)).Nodup)
    (hc : ∀ v ∈ l.filterMap appliedOperation, ∀ inp ∈ v.operation.destructibleIn, inp.addr ≠ a)
    (h0 : ∀ v ∈ l.filterMap appliedOperation, v.opid = a.opid → (ContractApi.memory Seal c).destructible a = none) (cell : StateCell) :
    (ContractApi.memory Seal (l.foldl perform c)).destructible a = some cell ↔
      (ContractApi.memory Seal c).destructible a = some cell ∨
        ∃ v ∈ l.filterMap appliedOperation, v.opid = a.opid ∧ v.operation.destructibleOut[(a.pos : Nat)]? = some cell := by
  induction l generalizing c with
  | nil => simp
  | cons x l ih =>
    rw [List.foldl_cons]
    have skip : appliedOperation x = none →
        (ContractApi.memory Seal (perform c x)).destructible a = (ContractApi.memory Seal c).destructible a →
        ((ContractApi.memory Seal (l.foldl perform (perform c x))).destructible a = some cell ↔
          (ContractApi.memory Seal c).destructible a = some cell ∨
            ∃ v ∈ (x :: l).filterMap appliedOperation, v.opid = a.opid ∧ v.operation.destructibleOut[(a.pos : Nat)]? = some cell) := by
      intro hx e
      rw [List.filterMap_cons_none hx] at hn hc h0 ⊢
      rw [ih _ hn hc (by rw [e]; exact h0), e]
    cases x with
    | applyOperation u =>
      have hx : appliedOperation (Call.applyOperation (Seal := Seal) u) = some u := rfl
      rw [List.filterMap_cons_some hx] at hn hc h0 ⊢
      rw [List.map_cons, List.nodup_cons] at hn
      have hcu := hc u (by simp)
      have hc' : ∀ v ∈ l.filterMap appliedOperation, ∀ inp ∈ v.operation.destructibleIn, inp.addr ≠ a :=
        fun v hv => hc v (List.mem_cons_of_mem _ hv)
      by_cases hu : u.opid = a.opid
      · have hno : ∀ v ∈ l.filterMap appliedOperation, v.opid ≠ a.opid := fun v hv e =>
          hn.1 (List.mem_map.2 ⟨v, hv, e.trans hu.symm⟩)
        have e : (ContractApi.memory Seal (perform c (Call.applyOperation (Seal := Seal) u))).destructible a =
            u.operation.destructibleOut[(a.pos : Nat)]? := hm.created c u a hu.symm hcu (h0 u (by simp) hu)
        rw [ih _ hn.2 hc' (fun v hv e => absurd e (hno v hv)), e, h0 u (by simp) hu]
        constructor
        · rintro (h | ⟨v, hv, e, _⟩)
          · exact .inr ⟨u, by simp, hu, h⟩
          · exact absurd e (hno v hv)
        · rintro (h | ⟨v, hv, e, h⟩)
          · cases h
          · rcases List.mem_cons.1 hv with rfl | hv
            · exact .inl h
            · exact absurd e (hno v hv)
      · have e : (ContractApi.memory Seal (perform c (Call.applyOperation (Seal := Seal) u))).destructible a =
            (ContractApi.memory Seal c).destructible a := hm.kept c u a (Ne.symm hu) hcu
        rw [ih _ hn.2 hc' (fun v hv h => by rw [e]; exact h0 v (List.mem_cons_of_mem _ hv) h), e]
        constructor
        · rintro (h | ⟨v, hv, h⟩)
          · exact .inl h
          · exact .inr ⟨v, List.mem_cons_of_mem _ hv, h⟩
        · rintro (h | ⟨v, hv, e', h⟩)
          · exact .inl h
          · rcases List.mem_cons.1 hv with rfl | hv
            · exact absurd e' hu
            · exact .inr ⟨v, hv, e', h⟩
    | applySeals i s => exact skip rfl (by simp only [perform]; rw [hm.seals])
    | applyWitness i w => exact skip rfl (by simp only [perform]; rw [hm.witness])
    | _ => exact skip rfl rfl

/-- After any history of evaluations, accepted or rejected, the destructible memory consists of the cells
there were and the outputs of the operations applied, less the cells which operations applied consume. -/
theorem C97_unspent (hl : Lawful Seal C) (hm : StandardMemory Seal C) {c c' : C} (hf : Faithful (ContractApi.codex Seal c))
    (ht : Tidy (Seal := Seal) c) {l : List (Call Seal)} (h : History KnownStart c l c') (a : CellAddr) (cell : StateCell) :
    (ContractApi.memory Seal c').destructible a = some cell ↔
      ((ContractApi.memory Seal c).destructible a = some cell ∨
        ∃ v ∈ l.filterMap appliedOperation, v.opid = a.opid ∧ v.operation.destructibleOut[(a.pos : Nat)]? = some cell) ∧
      ∀ v ∈ l.filterMap appliedOperation, ∀ inp ∈ v.operation.destructibleIn, inp.addr ≠ a := by
  obtain ⟨hn, hnew, _⟩ := C34_applied_once hl hf h
  by_cases hc : ∃ v ∈ l.filterMap appliedOperation, ∃ inp ∈ v.operation.destructibleIn, inp.addr = a
  · obtain ⟨v, hv, inp, hi, rfl⟩ := hc
    rw [consumed_gone hl hm.lawful hf h hv hi]
    constructor
    · intro h; cases h
    · intro h; exact absurd rfl (h.2 v hv inp hi)
  · have hc' : ∀ v ∈ l.filterMap appliedOperation, ∀ inp ∈ v.operation.destructibleIn, inp.addr ≠ a :=
      fun v hv inp hi e => hc ⟨v, hv, inp, hi, e⟩
    rw [history_fold h, exact_fold hm l c hn hc' ?_ cell]
    · exact ⟨fun h => ⟨h, hc'⟩, fun h => h.1⟩
    · intro v hv e
      by_contra hne
      have := hnew v hv
      rw [e, ht.destructible a hne] at this
      cases this

theorem exact_fold_immutable (hm : StandardMemory Seal C) {a : CellAddr} (l : List (Call Seal)) (c : C)
    (hn : ((l.filterMap appliedOperation).map (·.opid)).Nodup)
    (h0 : ∀ v ∈ l.filterMap appliedOperation, v.opid = a.opid → (ContractApi.memory Seal c).immutable a = none) (x : StateValue) :
    (ContractApi.memory Seal (l.foldl perform c)).immutable a = some x ↔
      (ContractApi.memory Seal c).immutable a = some x ∨
        ∃ v ∈ l.filterMap appliedOperation, v.opid = a.opid ∧ (v.operation.immutableOut[(a.pos : Nat)]?).map (·.value) = some x := by
  induction l generalizing c with
  | nil => simp
  | cons y l ih =>
    rw [List.foldl_cons]
    have skip : appliedOperation y = none → ContractApi.memory Seal (perform c y) = ContractApi.memory Seal c →
        ((ContractApi.memory Seal (l.foldl perform (perform c y))).immutable a = some x ↔
          (ContractApi.memory Seal c).immutable a = some x ∨ ∃ v ∈ (y :: l).filterMap appliedOperation, v.opid = a.opid ∧
            (v.operation.immutableOut[(a.pos : Nat)]?).map (·.value) = some x) := by
      intro hy e
      rw [List.filterMap_cons_none hy] at hn h0 ⊢
      rw [ih _ hn (by rw [e]; exact h0), e]
    cases y with
    | applyOperation u =>
      have hx : appliedOperation (Call.applyOperation (Seal := Seal) u) = some u := rfl
      rw [List.filterMap_cons_some hx] at hn h0 ⊢
      rw [List.map_cons, List.nodup_cons] at hn
      by_cases hu : u.opid = a.opid
      · have hno : ∀ v ∈ l.filterMap appliedOperation, v.opid ≠ a.opid := fun v hv e =>
          hn.1 (List.mem_map.2 ⟨v, hv, e.trans hu.symm⟩)
        have e : (ContractApi.memory Seal (perform c (Call.applyOperation (Seal := Seal) u))).immutable a =
            (u.operation.immutableOut[(a.pos : Nat)]?).map (·.value) := hm.published c u a hu.symm (h0 u (by simp) hu)
        rw [ih _ hn.2 (fun v hv e => absurd e (hno v hv)), e, h0 u (by simp) hu]
        constructor
        · rintro (h | ⟨v, hv, e, _⟩)
          · exact .inr ⟨u, by simp, hu, h⟩
          · exact absurd e (hno v hv)
        · rintro (h | ⟨v, hv, e, h⟩)
          · cases h
          · rcases List.mem_cons.1 hv with rfl | hv
            · exact .inl h
            · exact absurd e (hno v hv)
      · have e : (ContractApi.memory Seal (perform c (Call.applyOperation (Seal := Seal) u))).immutable a =
            (ContractApi.memory Seal c).immutable a := hm.immutable c u a (Ne.symm hu)
        rw [ih _ hn.2
          (fun v hv h => by rw [e]; exact h0 v (List.mem_cons_of_mem _ hv) h), e]
        constructor
        · rintro (h | ⟨v, hv, h⟩)
          · exact .inl h
          · exact .inr ⟨v, List.mem_cons_of_mem _ hv, h⟩
        · rintro (h | ⟨v, hv, e', h⟩)
          · exact .inl h
          · rcases List.mem_cons.1 hv with rfl | hv
            · exact absurd e' hu
            · exact .inr ⟨v, hv, e', h⟩
    | applySeals i s => exact skip rfl (hm.seals ..)
    | applyWitness i w => exact skip rfl (hm.witness ..)
    | _ => exact skip rfl rfl

/-- And the immutable memory of what there was and the immutable outputs of the operations applied. -/
theorem C97_published (hl : Lawful Seal C) (hm : StandardMemory Seal C) {Start : C → OperationSeals Seal → Prop} {c c' : C}
    (hf : Faithful (ContractApi.codex Seal c)) (ht : Tidy (Seal := Seal) c) {l : List (Call Seal)} (h : History Start c l c')
    (a : CellAddr) (x : StateValue) :
    (ContractApi.memory Seal c').immutable a = some x ↔
      (ContractApi.memory Seal c).immutable a = some x ∨
        ∃ v ∈ l.filterMap appliedOperation, v.opid = a.opid ∧ (v.operation.immutableOut[(a.pos : Nat)]?).map (·.value) = some x := by
  obtain ⟨hn, hnew, _⟩ := C34_applied_once hl hf h
  have h0 : ∀ v ∈ l.filterMap appliedOperation, v.opid = a.opid → (ContractApi.memory Seal c).immutable a = none := by
    intro v hv e
    by_contra hne
    have := hnew v hv
    rw [e, ht.immutable a hne] at this
    cases this
  rw [history_fold h]
  exact exact_fold_immutable hm l c hn h0 x

/-! ## Implementations -/

section
variable {C₁ C₂ : Type} [ContractApi Seal C₁] [ContractApi Seal C₂]

theorem memory_ext {m m' : Memory} (h : ∀ a, m.destructible a = m'.destructible a) (h' : ∀ a, m.immutable a = m'.immutable a) : m = m' := by
  cases m; cases m'
  simp only [Memory.mk.injEq]
  exact ⟨funext h, funext h'⟩

theorem Spec.Equivalent.symm {c : C₁} {d : C₂} (h : Equivalent (Seal := Seal) c d) : Equivalent (Seal := Seal) d c :=
  ⟨h.contractId.symm, h.codex.symm, h.memory.symm, h.repo.symm, fun o => (h.isKnown o).symm⟩

theorem Spec.Equivalent.tidy {c : C₁} {d : C₂} (h : Equivalent (Seal := Seal) c d) (ht : Tidy (Seal := Seal) c) : Tidy (Seal := Seal) d :=
  ⟨fun a ha => by rw [← h.isKnown]; exact ht.destructible a (by rw [h.memory]; exact ha),
    fun a ha => by rw [← h.isKnown]; exact ht.immutable a (by rw [h.memory]; exact ha)⟩

theorem Spec.Equivalent.answer {c : C₁} {d : C₂} (h : Equivalent (Seal := Seal) c d) (cid : ContractId) (op : Operation) :
    codexAnswer Seal c cid op = codexAnswer Seal d cid op := by
  unfold codexAnswer; rw [h.codex, h.memory, h.repo]

theorem Spec.Equivalent.report (hl₁ : Lawful Seal C₁) (hm₁ : StandardMemory Seal C₁) (hl₂ : Lawful Seal C₂) (hm₂ : StandardMemory Seal C₂)
    {c : C₁} {d : C₂} (h : Equivalent (Seal := Seal) c d) {x : Call Seal} (hx : appliedOperation x = none) :
    Equivalent (Seal := Seal) (perform c x) (perform d x) := by
  refine ⟨by rw [hl₁.contractId, hl₂.contractId, h.contractId], by rw [hl₁.codex, hl₂.codex, h.codex], ?_,
    by rw [hm₁.repo, hm₂.repo, h.repo], ?_⟩
  · cases x with
    | applyOperation => cases hx
    | applySeals => simp only [perform]; rw [hm₁.seals, hm₂.seals, h.memory]
    | applyWitness => simp only [perform]; rw [hm₁.witness, hm₂.witness, h.memory]
    | _ => exact h.memory
  · intro o
    cases x with
    | applyOperation => cases hx
    | applySeals => simp only [perform]; rw [hl₁.known_seals, hl₂.known_seals, h.isKnown]
    | applyWitness => simp only [perform]; rw [hl₁.known_witness, hl₂.known_witness, h.isKnown]
    | _ => exact h.isKnown o

theorem tidy_report (hl : Lawful Seal C) (hm : StandardMemory Seal C) {c : C} (h : Tidy (Seal := Seal) c) {x : Call Seal}
    (hx : appliedOperation x = none) : Tidy (Seal := Seal) (perform c x) := by
  have e1 : ContractApi.memory Seal (perform c x) = ContractApi.memory Seal c := by
    cases x with
    | applyOperation => cases hx
    | applySeals => exact hm.seals ..
    | applyWitness => exact hm.witness ..
    | _ => rfl
  have e2 : ∀ o, ContractApi.isKnown Seal (perform c x) o = ContractApi.isKnown Seal c o := by
    intro o
    cases x with
    | applyOperation => cases hx
    | applySeals => exact hl.known_seals ..
    | applyWitness => exact hl.known_witness ..
    | _ => rfl
  exact ⟨fun a ha => by rw [e2]; exact h.destructible a (by rw [← e1]; exact ha),
    fun a ha => by rw [e2]; exact h.immutable a (by rw [← e1]; exact ha)⟩

/-- What a new operation does to the memory depends on the memory alone. -/
theorem Spec.Equivalent.operation (hl₁ : Lawful Seal C₁) (hm₁ : StandardMemory Seal C₁) (hl₂ : Lawful Seal C₂) (hm₂ : StandardMemory Seal C₂)
    {c : C₁} {d : C₂} (h : Equivalent (Seal := Seal) c d) (ht : Tidy (Seal := Seal) c) {v : VerifiedOperation}
    (hv : ContractApi.isKnown Seal c v.opid = false) :
    Equivalent (Seal := Seal) (ContractApi.applyOperation Seal c v) (ContractApi.applyOperation Seal d v) := by
  have ht' := h.tidy ht
  have hv' : ContractApi.isKnown Seal d v.opid = false := (h.isKnown _).symm.trans hv
  have p₁ : ContractApi.applyOperation Seal c v = perform c (Call.applyOperation (Seal := Seal) v) := rfl
  have p₂ : ContractApi.applyOperation Seal d v = perform d (Call.applyOperation (Seal := Seal) v) := rfl
  refine ⟨by rw [p₁, p₂, hl₁.contractId, hl₂.contractId, h.contractId], by rw [p₁, p₂, hl₁.codex, hl₂.codex, h.codex],
    memory_ext ?_ ?_, by rw [p₁, p₂, hm₁.repo, hm₂.repo, h.repo], ?_⟩
  · intro a
    by_cases hc : ∃ inp ∈ v.operation.destructibleIn, inp.addr = a
    · obtain ⟨inp, hi, rfl⟩ := hc
      rw [hm₁.consumed c v inp hi, hm₂.consumed d v inp hi]
    · have hc' : ∀ inp ∈ v.operation.destructibleIn, inp.addr ≠ a := fun inp hi e => hc ⟨inp, hi, e⟩
      by_cases ha : a.opid = v.opid
      · have e1 : (ContractApi.memory Seal c).destructible a = none := by
          by_contra hne
          rw [← ha, ht.destructible a hne] at hv; cases hv
        have e2 : (ContractApi.memory Seal d).destructible a = none := by rw [← h.memory]; exact e1
        rw [hm₁.created c v a ha hc' e1, hm₂.created d v a ha hc' e2]
      · rw [hm₁.kept c v a ha hc', hm₂.kept d v a ha hc', h.memory]
  · intro a
    by_cases ha : a.opid = v.opid
    · have e1 : (ContractApi.memory Seal c).immutable a = none := by
        by_contra hne
        rw [← ha, ht.immutable a hne] at hv; cases hv
      have e2 : (ContractApi.memory Seal d).immutable a = none := by rw [← h.memory]; exact e1
      rw [hm₁.published c v a ha e1, hm₂.published d v a ha e2]
    · rw [hm₁.immutable c v a ha, hm₂.immutable d v a ha, h.memory]
  · intro o
    rw [Bool.eq_iff_iff, hl₁.known_operation, hl₂.known_operation, h.isKnown]

theorem tidy_operation (hl : Lawful Seal C) (hm : StandardMemory Seal C) {c : C} (h : Tidy (Seal := Seal) c) (v : VerifiedOperation) :
    Tidy (Seal := Seal) (ContractApi.applyOperation Seal c v) := by
  constructor
  · intro a ha
    rw [hl.known_operation]
    by_cases e : a.opid = v.opid
    · exact .inr e
    · left
      refine h.destructible a ?_
      rwa [hm.kept c v a e ?_] at ha
      rintro inp hi rfl
      exact ha (hm.consumed c v inp hi)
  · intro a ha
    rw [hl.known_operation]
    by_cases e : a.opid = v.opid
    · exact .inr e
    · left
      refine h.immutable a ?_
      rwa [hm.immutable c v a e] at ha

/-- Answering alike, and in good order. -/
def InStep (c : C₁) (d : C₂) : Prop := Equivalent (Seal := Seal) c d ∧ Tidy (Seal := Seal) c

theorem inStep_reports (hl₁ : Lawful Seal C₁) (hm₁ : StandardMemory Seal C₁) (hl₂ : Lawful Seal C₂) (hm₂ : StandardMemory Seal C₂)
    {c : C₁} {d : C₂} (h : InStep (Seal := Seal) c d) {l : List (Call Seal)} (hx : ∀ x ∈ l, appliedOperation x = none) :
    InStep (Seal := Seal) (l.foldl perform c) (l.foldl perform d) := by
  induction l generalizing c d with
  | nil => exact h
  | cons x l ih =>
    exact ih ⟨h.1.report hl₁ hm₁ hl₂ hm₂ (hx x (by simp)), tidy_report hl₁ hm₁ h.2 (hx x (by simp))⟩
      fun y hy => hx y (List.mem_cons_of_mem _ hy)

theorem inStep_known (hl : Lawful Seal C) {c : C} {l : List (Call Seal)} (hx : ∀ x ∈ l, appliedOperation x = none) (o : Opid) :
    ContractApi.isKnown Seal (l.foldl perform c) o = ContractApi.isKnown Seal c o := by
  induction l generalizing c with
  | nil => rfl
  | cons x l ih =>
    rw [List.foldl_cons, ih fun y hy => hx y (List.mem_cons_of_mem _ hy)]
    have := hx x (by simp)
    cases x with
    | applyOperation => cases this
    | applySeals => exact hl.known_seals ..
    | applyWitness => exact hl.known_witness ..
    | _ => rfl

theorem inStep_callbacks {c : C₁} {d : C₂} (h : InStep (Seal := Seal) c d) (cid : ContractId) (i : Nat) (b : OperationSeals Seal) :
    callbacks cid c i b = callbacks cid d i b := by
  unfold callbacks operationCallbacks
  rw [h.1.isKnown, h.1.answer]

theorem inStep_block (hl₁ : Lawful Seal C₁) (hm₁ : StandardMemory Seal C₁) (hl₂ : Lawful Seal C₂) (hm₂ : StandardMemory Seal C₂)
    {c : C₁} {d : C₂} (hf : Faithful (ContractApi.codex Seal c)) (h : InStep (Seal := Seal) c d) (cid : ContractId) (i : Nat)
    (b : OperationSeals Seal) :
    InStep (Seal := Seal) ((callbacks cid c i b).foldl perform c) ((callbacks cid d i b).foldl perform d) := by
  rw [← inStep_callbacks h]
  unfold callbacks
  simp only [List.foldl_append]
  refine inStep_reports hl₁ hm₁ hl₂ hm₂ ?_ (sealCallbacks_applied _ _)
  have hw := inStep_reports hl₁ hm₁ hl₂ hm₂ h (witnessCallbacks_applied (idAt cid i b) b)
  unfold operationCallbacks
  split
  · exact hw
  · rename_i hnew
    cases hans : codexAnswer Seal c cid (opAt cid i b) with
    | error e => exact hw
    | ok v =>
      refine ⟨hw.1.operation hl₁ hm₁ hl₂ hm₂ hw.2 ?_, tidy_operation hl₁ hm₁ hw.2 v⟩
      rw [inStep_known hl₁ (witnessCallbacks_applied _ _), (hf _ _ _ _ _ hans).1]
      simp only [not_or, Bool.not_eq_true] at hnew
      exact hnew.2

theorem inStep_contractAt (hl₁ : Lawful Seal C₁) (hm₁ : StandardMemory Seal C₁) (hl₂ : Lawful Seal C₂) (hm₂ : StandardMemory Seal C₂)
    {c : C₁} {d : C₂} (hf : Faithful (ContractApi.codex Seal c)) (h : InStep (Seal := Seal) c d) (cid : ContractId)
    (blocks : List (OperationSeals Seal)) (n : Nat) :
    InStep (Seal := Seal) (contractAt cid c blocks n) (contractAt cid d blocks n) := by
  induction n with
  | zero => exact h
  | succ n ih =>
    simp only [contractAt]
    cases blocks[n]? with
    | none => exact ih
    | some b =>
      refine inStep_block hl₁ hm₁ hl₂ hm₂ ?_ ih cid n b
      rw [contractAt_eq_foldl, hl₁.foldl_codex]
      exact hf

/-- The contracts answer alike whatever is evaluated, and wherever in it. -/
structure Lockstep (c₁ : C₁) (c₂ : C₂) : Prop where
  contractId : ContractApi.contractId Seal c₁ = ContractApi.contractId Seal c₂
  codexId : (ContractApi.codex Seal c₁).codexId = (ContractApi.codex Seal c₂).codexId
  isKnown : ∀ cid blocks n o, ContractApi.isKnown Seal (contractAt (Seal := Seal) cid c₁ blocks n) o =
    ContractApi.isKnown Seal (contractAt (Seal := Seal) cid c₂ blocks n) o
  answer : ∀ cid blocks n cid' op, codexAnswer Seal (contractAt (Seal := Seal) cid c₁ blocks n) cid' op =
    codexAnswer Seal (contractAt (Seal := Seal) cid c₂ blocks n) cid' op

theorem Lockstep.symm {c₁ : C₁} {c₂ : C₂} (h : Lockstep (Seal := Seal) c₁ c₂) : Lockstep (Seal := Seal) c₂ c₁ :=
  ⟨h.contractId.symm, h.codexId.symm, fun _ _ _ _ => (h.isKnown ..).symm, fun _ _ _ _ _ => (h.answer ..).symm⟩

theorem Lockstep.callbacks {c₁ : C₁} {c₂ : C₂} (h : Lockstep (Seal := Seal) c₁ c₂) (cid : ContractId)
    (blocks : List (OperationSeals Seal)) (n i : Nat) (b : OperationSeals Seal) :
    Spec.callbacks cid (contractAt cid c₁ blocks n) i b = Spec.callbacks cid (contractAt cid c₂ blocks n) i b := by
  unfold Spec.callbacks operationCallbacks
  rw [h.isKnown, h.answer]

theorem Lockstep.queries {c₁ : C₁} {c₂ : C₂} (h : Lockstep (Seal := Seal) c₁ c₂) (cid : ContractId)
    (blocks : List (OperationSeals Seal)) (n i : Nat) (b : OperationSeals Seal) :
    Spec.queries cid (contractAt cid c₁ blocks n) i b = Spec.queries cid (contractAt cid c₂ blocks n) i b := by
  unfold Spec.queries
  rw [h.isKnown]

theorem Lockstep.valid {c₁ : C₁} {c₂ : C₂} (h : Lockstep (Seal := Seal) c₁ c₂)
    {blocks : List (OperationSeals Seal)} (hv : ValidConsignment c₁ blocks) : ValidConsignment c₂ blocks := by
  intro i b hb
  have vb := hv i b hb
  refine ⟨by rw [← h.codexId]; exact vb.codex, vb.committed, vb.distinct, by rw [← h.contractId]; exact vb.closed, ?_⟩
  rw [← h.contractId, ← h.isKnown]
  simp only [← h.answer]
  exact vb.script

theorem Lockstep.segments {c₁ : C₁} {c₂ : C₂} (h : Lockstep (Seal := Seal) c₁ c₂)
    {blocks : List (OperationSeals Seal)} {segs} (hs : Segments c₁ blocks segs) : Segments c₂ blocks segs := by
  refine ⟨hs.1, ?_⟩
  intro k b l hb hl
  obtain ⟨seals, h1, h2⟩ := hs.2 k b l hb hl
  refine ⟨seals, by rw [← h.contractId]; exact h1, ?_⟩
  rw [h2, h.queries, h.callbacks, h.contractId]

theorem Lockstep.rejection {E : Type} {c₁ : C₁} {c₂ : C₂} (h : Lockstep (Seal := Seal) c₁ c₂)
    {blocks : List (OperationSeals Seal)} {b : OperationSeals Seal} {e : VerificationError Seal E} {l}
    (hr : Rejection c₁ blocks b e l) : Rejection c₂ blocks b e l := by
  have hid := h.contractId
  have hcx : ∀ {b : OperationSeals Seal}, CommitsToCodex c₁ blocks b → CommitsToCodex c₂ blocks b := by
    intro b h1; unfold CommitsToCodex; rw [← h.codexId]; exact h1
  have hin : ∀ {b : OperationSeals Seal} {s}, InputsSealed c₁ blocks b s → InputsSealed c₂ blocks b s := by
    intro b s h1; unfold InputsSealed; rw [← hid]; exact h1
  have hsp : ScriptPasses c₁ blocks b → ScriptPasses c₂ blocks b := by
    intro h1; unfold ScriptPasses nextId at h1 ⊢
    simp only [← hid]
    simpa only [← h.isKnown, ← h.answer] using h1
  have hnx : nextId c₁ blocks b = nextId c₂ blocks b := by unfold nextId; rw [hid]
  have hqs : Spec.queries (ContractApi.contractId Seal c₁) (contractAt (ContractApi.contractId Seal c₁) c₁ blocks blocks.length)
      blocks.length b = Spec.queries (ContractApi.contractId Seal c₂)
        (contractAt (ContractApi.contractId Seal c₂) c₂ blocks blocks.length) blocks.length b := by
    rw [h.queries, hid]
  cases hr with
  | codex h1 h2 => exact .codex h1 (by rw [← h.codexId]; exact h2)
  | mismatch h1 h2 h3 h4 h5 =>
    rw [hnx]
    exact .mismatch (hcx h1) h2 h3 h4 h5
  | unknown h1 h2 h3 h4 h5 h6 =>
    exact .unknown (hcx h1) h2 h3 h4 (by rw [← hid]; exact h5) (by rw [← hid]; exact h6)
  | script h1 h2 h3 h4 h5 =>
    rw [hqs]
    refine .script (hcx h1) h2 (hin h3) ?_ ?_
    · rw [← hid, ← h.isKnown, ← hnx]; exact h4
    · rw [← hid, ← h.answer]; exact h5
  | notClosed h1 h2 h3 h4 h5 h6 =>
    rw [hqs, hnx]
    exact .notClosed (hcx h1) h2 (hin h3) (hsp h4) h5 (by rw [← hnx]; exact h6)
  | noWitness h1 h2 h3 h4 h5 h6 =>
    rw [hqs, hnx]
    exact .noWitness (hcx h1) h2 (hin h3) (hsp h4) h5 h6

theorem Lockstep.run {c₁ : C₁} {c₂ : C₂} (h : Lockstep (Seal := Seal) c₁ c₂) {r : R} {o₁}
    (h₁ : evaluate (Seal := Seal) c₁ r = some o₁) :
    ∃ (o₂ : Outcome Seal R C₂ (ReadOperation.Error Seal R)) (blocks : List (OperationSeals Seal)),
      evaluate (Seal := Seal) c₂ r = some o₂ ∧ o₁.result = o₂.result ∧ o₁.world.calls = o₂.world.calls ∧
      o₁.reader = o₂.reader ∧
      o₁.world.contract = contractAt (ContractApi.contractId Seal c₁) c₁ blocks blocks.length ∧
      o₂.world.contract = contractAt (ContractApi.contractId Seal c₁) c₂ blocks blocks.length := by
  obtain ⟨blocks, hs⟩ := run_shape h₁
  obtain ⟨segs, tail, k1, k2, k3⟩ := hs.stop
  have hsh : RunShape c₂ r blocks ⟨o₁.result,
      ⟨contractAt (ContractApi.contractId Seal c₂) c₂ blocks blocks.length, o₁.world.calls⟩, o₁.reader⟩ := by
    refine ⟨h.valid hs.valid, rfl, segs, tail, h.segments k1, k2, ?_⟩
    rcases k3 with k3 | k3 | ⟨b, e, k3, k4, k5⟩
    · exact .inl k3
    · exact .inr (.inl k3)
    · exact .inr (.inr ⟨b, e, k3, k4, h.rejection k5⟩)
  exact ⟨_, blocks, hsh.run, rfl, rfl, rfl, hs.contract, by rw [h.contractId]⟩

theorem inStep_lockstep (hl₁ : Lawful Seal C₁) (hm₁ : StandardMemory Seal C₁) (hl₂ : Lawful Seal C₂) (hm₂ : StandardMemory Seal C₂)
    {c : C₁} {d : C₂} (hf : Faithful (ContractApi.codex Seal c)) (h : InStep (Seal := Seal) c d) : Lockstep (Seal := Seal) c d :=
  ⟨h.1.contractId, by rw [h.1.codex], fun cid bs n => (inStep_contractAt hl₁ hm₁ hl₂ hm₂ hf h cid bs n).1.isKnown,
    fun cid bs n => (inStep_contractAt hl₁ hm₁ hl₂ hm₂ hf h cid bs n).1.answer⟩

/-- Two implementations of contracts with standard memory, of whatever types, which have the same id, codex,
libraries, memory and known operations, evaluate every stream alike: the result, the calls and the reader are
the same, one evaluation ends exactly if the other does, and they again have the same state. -/
theorem C97_implementations (hl₁ : Lawful Seal C₁) (hm₁ : StandardMemory Seal C₁) (hl₂ : Lawful Seal C₂) (hm₂ : StandardMemory Seal C₂)
    {c : C₁} {d : C₂} (hf : Faithful (ContractApi.codex Seal c)) (ht : Tidy (Seal := Seal) c)
    (h : Equivalent (Seal := Seal) c d) (r : R) :
    Option.Rel (fun (o₁ : Outcome Seal R C₁ (ReadOperation.Error Seal R)) (o₂ : Outcome Seal R C₂ (ReadOperation.Error Seal R)) =>
        o₁.result = o₂.result ∧ o₁.world.calls = o₂.world.calls ∧ o₁.reader = o₂.reader ∧
        Equivalent (Seal := Seal) o₁.world.contract o₂.world.contract ∧ Tidy (Seal := Seal) o₁.world.contract)
      (evaluate c r) (evaluate d r) := by
  have hk := inStep_lockstep hl₁ hm₁ hl₂ hm₂ hf ⟨h, ht⟩
  cases h₁ : evaluate (Seal := Seal) c r with
  | none =>
    cases h₂ : evaluate (Seal := Seal) d r with
    | none => exact .none
    | some o₂ =>
      obtain ⟨o₁, _, k, _⟩ := hk.symm.run h₂
      rw [h₁] at k
      simp at k
  | some o₁ =>
    obtain ⟨o₂, bs, k, k1, k2, k3, k4, k5⟩ := hk.run h₁
    rw [k]
    refine .some ⟨k1, k2, k3, ?_⟩
    rw [k4, k5]
    exact inStep_contractAt hl₁ hm₁ hl₂ hm₂ hf ⟨h, ht⟩ _ _ _

/-- The same over any number of evaluations: what one implementation goes through, the other one does as well. -/
theorem C97_histories (hl₁ : Lawful Seal C₁) (hm₁ : StandardMemory Seal C₁) (hl₂ : Lawful Seal C₂) (hm₂ : StandardMemory Seal C₂)
    {c c' : C₁} {d : C₂} (hf : Faithful (ContractApi.codex Seal c)) (ht : Tidy (Seal := Seal) c)
    (h : Equivalent (Seal := Seal) c d) {l : List (Call Seal)} (hh : History KnownStart c l c') :
    ∃ d', History KnownStart d l d' ∧ Equivalent (Seal := Seal) c' d' ∧ Tidy (Seal := Seal) c' := by
  induction hh generalizing d with
  | nil c => exact ⟨d, .nil d, h, ht⟩
  | @step R _ c c' r o l h0 h1 _ ih =>
    have hr := C97_implementations hl₁ hm₁ hl₂ hm₂ hf ht h r
    rw [h1] at hr
    cases h2 : evaluate (Seal := Seal) d r with
    | none => rw [h2] at hr; cases hr
    | some o₂ =>
      rw [h2] at hr
      cases hr with
      | some hr =>
        obtain ⟨_, e2, _, e4, e5⟩ := hr
        have hf' : Faithful (ContractApi.codex Seal o.world.contract) := by
          obtain ⟨bs, hs⟩ := run_shape h1
          rw [hs.contract, contractAt_eq_foldl, hl₁.foldl_codex]
          exact hf
        obtain ⟨d', k1, k2⟩ := ih hf' e5 e4
        refine ⟨d', ?_, k2⟩
        rw [e2]
        refine .step (fun b hb => ?_) h2 k1
        have := h0 b hb
        unfold KnownStart at this ⊢
        rw [← h.isKnown, ← h.contractId]
        exact this
end

/-! ## The cells with open seals -/

/-- After an accepted consignment of new and known operations, of the cells created by new operations for
which seals were revealed those are unspent whose seals the evaluation left open. -/
theorem C97_open (hl : Lawful Seal C) (hm : StandardMemory Seal C) {c : C} (hf : Faithful (ContractApi.codex Seal c))
    (ht : Tidy (Seal := Seal) c) {r : R} {xs : List (OperationSeals Seal)} {o} (h : Accepted c r xs o)
    (h0 : ∀ b, xs[0]? = some b → KnownStart c b)
    (hids : ∀ i j b b', xs[i]? = some b → xs[j]? = some b' →
      idAt (ContractApi.contractId Seal c) i b = idAt (ContractApi.contractId Seal c) j b' → i = j)
    (hpos : ∀ b ∈ xs, PositionsRight b)
    (hanc : ∀ (i : Nat) b, xs[i]? = some b → ContractApi.isKnown Seal c (idAt (ContractApi.contractId Seal c) i b) = true →
      ∀ inp ∈ b.operation.destructibleIn, ContractApi.isKnown Seal c inp.addr.opid = true)
    {a : CellAddr} (ha : ContractApi.isKnown Seal c a.opid = false) :
    (∃ s, OpenAt (ContractApi.contractId Seal c) xs xs.length a s) ↔
      (∃ j b s, xs[j]? = some b ∧ Announces (ContractApi.contractId Seal c) j b a s) ∧
        (ContractApi.memory Seal o.world.contract).destructible a ≠ none := by
  obtain ⟨l, hh, hsrc⟩ := allAccepted_history hl hf (.cons h h0 (.nil _))
  have src : ∀ v ∈ l.filterMap appliedOperation, ∃ (i : Nat) (b : OperationSeals Seal), xs[i]? = some b ∧
      v.opid = idAt (ContractApi.contractId Seal c) i b ∧ v.operation.destructibleIn = b.operation.destructibleIn ∧
      v.operation.destructibleOut = b.operation.destructibleOut := by
    intro v hv
    obtain ⟨ys, hys, i, b, h1, h2, h3⟩ := hsrc v hv
    rw [List.mem_singleton] at hys
    subst hys
    refine ⟨i, b, h1, h2, ?_, ?_⟩ <;> rw [h3] <;> unfold opAt <;> split <;> rfl
  have app : ∀ (i : Nat) b, xs[i]? = some b →
      ContractApi.isKnown Seal c (idAt (ContractApi.contractId Seal c) i b) = false →
      ∃ v ∈ l.filterMap appliedOperation, v.opid = idAt (ContractApi.contractId Seal c) i b ∧
        v.operation.destructibleIn = b.operation.destructibleIn ∧ v.operation.destructibleOut = b.operation.destructibleOut := by
    intro i b hb hk
    obtain ⟨v, hv, e⟩ := known_applied hl hf hh ((C63_known_exactly hl hf h h0 _).2 (.inr ⟨i, b, hb, rfl⟩)) hk
    obtain ⟨j, b', h1, h2, h3, h4⟩ := src v hv
    obtain rfl := hids i j b b' hb h1 (e.symm.trans h2)
    rw [hb] at h1
    cases h1
    exact ⟨v, hv, e, h3, h4⟩
  constructor
  · rintro ⟨s, j, b, _, hb, han, hlast⟩
    refine ⟨⟨j, b, s, hb, han⟩, ?_⟩
    obtain ⟨hid, d, hd, _⟩ := id han
    obtain ⟨cell, hcell, _⟩ := hpos b (List.mem_of_getElem? hb) _ _ hd
    obtain ⟨v, hv, e1, _, e3⟩ := app j b hb (hid ▸ ha)
    rw [(C97_unspent hl hm hf ht hh a cell).2 ⟨.inr ⟨v, hv, e1.trans hid.symm, by rw [e3]; exact hcell⟩, ?_⟩]
    · simp
    rintro u hu inp hi rfl
    obtain ⟨k, b', h1, _, h3, _⟩ := src u hu
    rw [h3] at hi
    obtain ⟨_, m, bm, hmk, hbm, ⟨hid', _⟩, _⟩ := closed_open (h.valid k b' h1) hi
    obtain rfl := hids j m b bm hb hbm (hid.symm.trans hid')
    exact (hlast k b' hmk (List.getElem?_eq_some_iff.1 h1).1 h1).1 ⟨inp, hi, rfl⟩
  · rintro ⟨⟨j, b, s, hb, han⟩, hne⟩
    obtain ⟨cell, hcell⟩ := Option.ne_none_iff_exists'.1 hne
    obtain ⟨_, hno⟩ := (C97_unspent hl hm hf ht hh a cell).1 hcell
    refine ⟨s, j, b, (List.getElem?_eq_some_iff.1 hb).1, hb, han, fun k b' hjk _ hb' => ⟨?_, ?_⟩⟩
    · rintro ⟨inp, hi, rfl⟩
      cases hk : ContractApi.isKnown Seal c (idAt (ContractApi.contractId Seal c) k b') with
      | true => rw [hanc k b' hb' hk inp hi] at ha; cases ha
      | false =>
        obtain ⟨v, hv, _, e, _⟩ := app k b' hb' hk
        exact hno v hv inp (e ▸ hi) rfl
    · rintro s' ⟨hid', _⟩
      have := hids j k b b' hb hb' (han.1.symm.trans hid')
      omega

/-- A contract that has only been through evaluations since it knew an ancestor-closed set of operations knows the
creators of what known operations spend, if no two of the operations involved have the same id. -/
theorem C97_open_later (hl : Lawful Seal C) (hm : StandardMemory Seal C) {c₀ c : C} (hf : Faithful (ContractApi.codex Seal c₀))
    (ht : Tidy (Seal := Seal) c₀) {l : List (Call Seal)} (hh : History KnownStart c₀ l c) {S : Operation → Prop}
    (h1 : ∀ o, ContractApi.isKnown Seal c₀ o = true ↔ ∃ op, S op ∧ opid op = o)
    (h2 : ∀ op, S op → ∀ inp ∈ op.destructibleIn, ContractApi.isKnown Seal c₀ inp.addr.opid = true)
    {r : R} {xs : List (OperationSeals Seal)} {o} (h : Accepted c r xs o) (h0 : ∀ b, xs[0]? = some b → KnownStart c b)
    (hids : ∀ i j b b', xs[i]? = some b → xs[j]? = some b' →
      idAt (ContractApi.contractId Seal c) i b = idAt (ContractApi.contractId Seal c) j b' → i = j)
    (hpos : ∀ b ∈ xs, PositionsRight b) {T : Operation → Prop} (hT : ∀ p q, T p → T q → opid p = opid q → p = q)
    (tS : ∀ op, S op → T op) (tl : ∀ v ∈ l.filterMap appliedOperation, T v.operation)
    (tx : ∀ (i : Nat) b, i ≠ 0 → xs[i]? = some b → T b.operation)
    {a : CellAddr} (ha : ContractApi.isKnown Seal c a.opid = false) :
    (∃ s, OpenAt (ContractApi.contractId Seal c) xs xs.length a s) ↔
      (∃ j b s, xs[j]? = some b ∧ Announces (ContractApi.contractId Seal c) j b a s) ∧
        (ContractApi.memory Seal o.world.contract).destructible a ≠ none := by
  obtain ⟨_, _, _, ht'⟩ := C97_histories hl hm hl hm hf ht ⟨rfl, rfl, rfl, rfl, fun _ => rfl⟩ hh
  have hf' : Faithful (ContractApi.codex Seal c) := by
    rw [history_fold hh, hl.foldl_codex]
    exact hf
  obtain ⟨k1, k2⟩ := C35_ancestor_closed hl hf hh h1 h2
  refine C97_open hl hm hf' ht' h h0 hids hpos ?_ ha
  intro i b hb hk inp hi
  cases i with
  | zero =>
    obtain ⟨_, _, _, hlt, _⟩ := closed_open (h.valid 0 b hb) hi
    omega
  | succ i =>
    rw [idAt_pos (Nat.succ_ne_zero i)] at hk
    obtain ⟨op, hop, e⟩ := (k1 _).1 hk
    have hTop : T op := by
      rcases hop with hop | ⟨v, hv, rfl⟩
      · exact tS op hop
      · exact tl v hv
    obtain rfl := hT op b.operation hTop (tx _ b (Nat.succ_ne_zero i) hb) e
    exact k2 _ hop inp hi
end

/-! ## The least contract -/

/-- A contract which is nothing but the answers it has to give. -/
structure Book where
  contractId : ContractId
  codex : Codex
  repo : LibRepo
  memory : Memory
  known : Opid → Bool

section
variable {Seal : Type} [LinearOrder Seal] [RgbSeal Seal] [OpHash]

namespace Book
scoped instance : ContractApi Seal Book where
  contractId m := m.contractId
  codex m := m.codex
  repo m := m.repo
  memory m := m.memory
  isKnown m o := m.known o
  applyOperation m v := { m with
    known := fun o => m.known o || decide (o = v.opid)
    memory := {
      destructible := fun a => if v.operation.destructibleIn.any (fun inp => decide (inp.addr = a)) then none
        else if a.opid = v.opid then v.operation.destructibleOut[(a.pos : Nat)]? else m.memory.destructible a
      immutable := fun a => if a.opid = v.opid then (v.operation.immutableOut[(a.pos : Nat)]?).map (·.value)
        else m.memory.immutable a } }
  applySeals m _ _ := m
  applyWitness m _ _ := m

theorem lawful : Lawful Seal Book where
  contractId c x := by cases x <;> rfl
  codex c x := by cases x <;> rfl
  known_operation c v o := by simp [ContractApi.isKnown, ContractApi.applyOperation]
  known_seals _ _ _ _ := rfl
  known_witness _ _ _ _ := rfl

theorem spends {v : VerifiedOperation} {a : CellAddr} (h : ∀ inp ∈ v.operation.destructibleIn, inp.addr ≠ a) :
    ¬ v.operation.destructibleIn.any (fun inp => decide (inp.addr = a)) = true := by
  rw [Bool.not_eq_true, List.any_eq_false]
  intro inp hi
  simpa using h inp hi

theorem exact : StandardMemory Seal Book where
  consumed c v inp hi := if_pos (List.any_eq_true.2 ⟨inp, hi, by simp⟩)
  created c v a ha hc _ := (if_neg (spends hc)).trans (if_pos ha)
  kept c v a ha hc := (if_neg (spends hc)).trans (if_neg ha)
  published c v a ha _ := if_pos ha
  immutable c v a ha := if_neg ha
  seals _ _ _ := rfl
  witness _ _ _ := rfl
  repo c x := by cases x <;> rfl
end Book

variable {C : Type} [ContractApi Seal C]
variable {R : Type} [ReadOperation Seal R]

/-- The book of a contract. -/
def bookOf (Seal : Type) [LinearOrder Seal] [RgbSeal Seal] {C : Type} [ContractApi Seal C] (c : C) : Book :=
  ⟨ContractApi.contractId Seal c, ContractApi.codex Seal c, ContractApi.repo Seal c, ContractApi.memory Seal c,
    ContractApi.isKnown Seal c⟩

open Book in
theorem bookOf_equivalent (c : C) : Equivalent (Seal := Seal) c (bookOf Seal c) := ⟨rfl, rfl, rfl, rfl, fun _ => rfl⟩

open Book in
/-- Every contract with standard memory evaluates every stream as its book does, and its book afterwards is that
of the book. -/
theorem C97_book (hl : Lawful Seal C) (hm : StandardMemory Seal C) {c : C} (hf : Faithful (ContractApi.codex Seal c))
    (ht : Tidy (Seal := Seal) c) (r : R) :
    Option.Rel (fun (o₁ : Outcome Seal R C (ReadOperation.Error Seal R)) (o₂ : Outcome Seal R Book (ReadOperation.Error Seal R)) =>
        o₁.result = o₂.result ∧ o₁.world.calls = o₂.world.calls ∧ o₁.reader = o₂.reader ∧
        o₂.world.contract = bookOf Seal o₁.world.contract)
      (evaluate c r) (evaluate (bookOf Seal c) r) := by
  have := C97_implementations hl hm Book.lawful Book.exact hf ht (bookOf_equivalent c) r
  cases h₁ : evaluate (Seal := Seal) c r <;> cases h₂ : evaluate (Seal := Seal) (bookOf Seal c) r <;> rw [h₁, h₂] at this <;> cases this
  · exact .none
  · rename_i o₁ o₂ k
    obtain ⟨k1, k2, k3, k4, _⟩ := k
    refine .some ⟨k1, k2, k3, ?_⟩
    have e1 := k4.contractId
    have e2 := k4.codex
    have e3 := k4.repo
    have e4 := k4.memory
    have e5 : ContractApi.isKnown Seal o₁.world.contract = ContractApi.isKnown Seal o₂.world.contract := funext k4.isKnown
    unfold bookOf
    rw [e1, e2, e3, e4, e5]
    rfl
end

namespace Demo.Once
theorem archive_exact {Seal : Type} [LinearOrder Seal] [RgbSeal Seal] : StandardMemory Seal Archive where
  consumed c v inp hi := if_pos (List.any_eq_true.2 ⟨inp, hi, by simp⟩)
  created c v a ha hc _ := (if_neg (Book.spends hc)).trans (if_pos ha)
  kept c v a ha hc := (if_neg (Book.spends hc)).trans (if_neg ha)
  published c v a ha _ := if_pos ha
  immutable c v a ha := if_neg ha
  seals _ _ _ := rfl
  witness _ _ _ := rfl
  repo c x := by cases x <;> rfl
end Demo.Once

open Demo Demo.Once in
/-- A history in which a cell is spent, another one stays, and a cell and data are created. -/
example : Lawful Int Archive ∧ StandardMemory Int Archive ∧ Faithful (ContractApi.codex Int archive) ∧ Tidy (Seal := Int) archive ∧
    ∃ l, History (Seal := Int) KnownStart archive l (later [origin, move1, publish]) ∧
      (l.filterMap appliedOperation).map (·.opid) = [⟨101⟩, ⟨110⟩] ∧
      (archive.cells (at_ 100 0)).isSome ∧ (later [origin, move1, publish]).cells (at_ 100 0) = none ∧
      ((later [origin, move1, publish]).cells (at_ 100 1)).isSome ∧ ((later [origin, move1, publish]).cells (at_ 101 0)).isSome ∧
      archive.cells (at_ 101 0) = none ∧ (later [origin, move1, publish]).data (at_ 110 0) = some ⟨[1]⟩ ∧ archive.data (at_ 110 0) = none := by
  obtain ⟨l, h1, _, h3⟩ := archive_history (bs := [origin, move1, publish]) (by decide +kernel) rfl (by simp [shelf])
  refine ⟨archive_lawful, archive_exact, reading_faithful, archive_tidy, l, h1, ?_, by decide +kernel, by decide +kernel, by decide +kernel,
    by decide +kernel, by decide +kernel, by decide +kernel, rfl⟩
  rw [applied_filter, h3]
  decide +kernel

open Demo Demo.Once Book in
/-- The archive and its book, with a consignment that is accepted and one that is rejected, as it spends a cell twice. -/
example : Lawful Int Archive ∧ StandardMemory Int Archive ∧ Lawful Int Book ∧ StandardMemory Int Book ∧
    Faithful (ContractApi.codex Int archive) ∧ Tidy (Seal := Int) archive ∧ Equivalent (Seal := Int) archive (bookOf Int archive) ∧
    (∃ o, Accepted archive (Feed.mk [origin, move1, publish, cite]) [origin, move1, publish, cite] o) ∧
    (∃ l, History (Seal := Int) KnownStart archive l (later [origin, move1, publish, cite]) ∧ l.filterMap appliedOperation ≠ []) ∧
    passes archive [origin, move1, move1, move2, move2] = false := by
  obtain ⟨l, h1, _, h3⟩ := archive_history (bs := [origin, move1, publish, cite]) (by decide +kernel) rfl (by simp [shelf])
  refine ⟨archive_lawful, archive_exact, Book.lawful, Book.exact, reading_faithful, archive_tidy, bookOf_equivalent _,
    passes_iff.2 (by decide +kernel), ⟨l, h1, ?_⟩, by decide +kernel⟩
  rw [applied_filter, h3]
  decide +kernel

open Demo Demo.Once in
/-- A consignment with a new cell spent and a new cell left. -/
example : ∃ (xs : List (OperationSeals Int)) (o : Outcome Int Feed Archive String), Accepted archive (Feed.mk xs) xs o ∧
    (∀ b, xs[0]? = some b → KnownStart archive b) ∧
    (∀ i j b b', xs[i]? = some b → xs[j]? = some b' → idAt ⟨9⟩ i b = idAt ⟨9⟩ j b' → i = j) ∧ (∀ b ∈ xs, PositionsRight b) ∧
    (∀ (i : Nat) b, xs[i]? = some b → ContractApi.isKnown Int archive (idAt ⟨9⟩ i b) = true →
      ∀ inp ∈ b.operation.destructibleIn, ContractApi.isKnown Int archive inp.addr.opid = true) ∧
    ContractApi.isKnown Int archive (at_ 101 0).opid = false ∧ ContractApi.isKnown Int archive (at_ 102 0).opid = false ∧
    (∃ j b s, xs[j]? = some b ∧ Announces ⟨9⟩ j b (at_ 101 0) s) ∧
    (ContractApi.memory Int o.world.contract).destructible (at_ 101 0) = none ∧
    (∃ j b s, xs[j]? = some b ∧ Announces ⟨9⟩ j b (at_ 102 0) s) ∧
    (ContractApi.memory Int o.world.contract).destructible (at_ 102 0) ≠ none := by
  obtain ⟨o, ho⟩ := passes_iff.2 (show passes archive [origin, move1, move2] = true by decide +kernel)
  have e : o.world.contract = later [origin, move1, move2] := ho.shape.contract
  have cases3 : ∀ {i : Nat} {b : OperationSeals Int}, [origin, move1, move2][i]? = some b →
      i = 0 ∧ b = origin ∨ i = 1 ∧ b = move1 ∨ i = 2 ∧ b = move2 := by
    intro i b h
    rcases i with _ | _ | _ | i <;> simp at h <;> simp [h]
  refine ⟨[origin, move1, move2], o, ho, ?_, ?_, ?_, ?_, by decide +kernel, by decide +kernel, ?_, ?_, ?_, ?_⟩
  · intro b h
    cases h
    rfl
  · intro i j b b' h h' hid
    rcases cases3 h with ⟨rfl, rfl⟩ | ⟨rfl, rfl⟩ | ⟨rfl, rfl⟩ <;> rcases cases3 h' with ⟨rfl, rfl⟩ | ⟨rfl, rfl⟩ | ⟨rfl, rfl⟩ <;>
      first | rfl | (revert hid; decide +kernel)
  · exact fun b hb => (shelf_wellFormed [origin, move1, move2] [] (by simp [shelf]) (by simp)).positions b (.inl hb)
  · intro i b h hk
    rcases cases3 h with ⟨rfl, rfl⟩ | ⟨rfl, rfl⟩ | ⟨rfl, rfl⟩ <;> revert hk <;> decide +kernel
  · exact ⟨1, move1, _, rfl, by decide +kernel, .rel 3, by decide +kernel, .inr ⟨rfl, _, rfl, rfl⟩⟩
  · rw [e]; decide +kernel
  · exact ⟨2, move2, _, rfl, by decide +kernel, .abs 8, by decide +kernel, .inl rfl⟩
  · rw [e]; decide +kernel

open Demo Demo.Once in
/-- The consignment coming in when the archive has received its first transfer already. -/
example : ∃ (l : List (Call Int)) (o : Outcome Int Feed Archive String) (S T : Operation → Prop),
    History (Seal := Int) KnownStart archive l (later [origin, move1]) ∧ l.filterMap appliedOperation ≠ [] ∧
    (∀ i, ContractApi.isKnown Int archive i = true ↔ ∃ op, S op ∧ opid op = i) ∧
    (∀ op, S op → ∀ inp ∈ op.destructibleIn, ContractApi.isKnown Int archive inp.addr.opid = true) ∧
    Accepted (later [origin, move1]) (Feed.mk [origin, move1, move2]) [origin, move1, move2] o ∧
    (∀ p q, T p → T q → opid p = opid q → p = q) ∧ (∀ op, S op → T op) ∧ (∀ v ∈ l.filterMap appliedOperation, T v.operation) ∧
    (∀ (i : Nat) b, i ≠ 0 → [origin, move1, move2][i]? = some b → T b.operation) ∧
    ContractApi.isKnown Int (later [origin, move1]) (at_ 102 0).opid = false ∧
    (ContractApi.memory Int o.world.contract).destructible (at_ 102 0) ≠ none := by
  obtain ⟨l, h1, _, h3⟩ := archive_history (bs := [origin, move1]) (by decide +kernel) rfl (by simp [shelf])
  obtain ⟨o, ho⟩ := passes_iff.2 (show passes (later [origin, move1]) [origin, move1, move2] = true by decide +kernel)
  have e : o.world.contract = contractAt ⟨9⟩ (later [origin, move1]) [origin, move1, move2] 3 := ho.shape.contract
  have hl : l.filterMap appliedOperation = [⟨⟨101⟩, move1.operation⟩] := by
    rw [applied_filter, h3]
    rfl
  refine ⟨l, o, (· ∈ [opAt (Seal := Int) ⟨9⟩ 0 origin]), (· ∈ [opAt (Seal := Int) ⟨9⟩ 0 origin, move1.operation, move2.operation]), h1, by rw [hl]; simp, ?_, ?_, ho, ?_, ?_, ?_,
    ?_, by decide +kernel, by rw [e]; decide +kernel⟩
  · intro i
    have : opid (opAt (Seal := Int) ⟨9⟩ 0 origin) = ⟨100⟩ := by decide +kernel
    simp [ContractApi.isKnown, archive, this, eq_comm]
  · decide +kernel
  · have : ∀ p ∈ [opAt (Seal := Int) ⟨9⟩ 0 origin, move1.operation, move2.operation], ∀ q ∈ [opAt (Seal := Int) ⟨9⟩ 0 origin, move1.operation, move2.operation],
        opid p = opid q → p = q := by decide +kernel
    exact fun p q hp hq => this p hp q hq
  · simp
  · rw [hl]; simp
  · intro i b hi hb
    rcases i with _ | _ | _ | i <;> simp at hb <;> simp [← hb] at hi ⊢

namespace Demo.Once
/-- An archive that knows an operation without knowing the one whose output it spends. -/
def gap : Archive := { archive with known := [⟨102⟩, ⟨100⟩] }
end Demo.Once

open Demo Demo.Once in
/-- That the contract knows the creators of what known operations spend is needed in `C97_open`: a known operation
closes a seal without removing the cell. -/
theorem C97_needs_ancestors : ∃ (c : Archive) (xs : List (OperationSeals Int)) (o : Outcome Int Feed Archive String) (a : CellAddr),
    Lawful Int Archive ∧ StandardMemory Int Archive ∧ Faithful (ContractApi.codex Int c) ∧ Tidy (Seal := Int) c ∧
    Accepted c (Feed.mk xs) xs o ∧ (∀ b, xs[0]? = some b → KnownStart c b) ∧
    (∀ i j b b', xs[i]? = some b → xs[j]? = some b' → idAt ⟨9⟩ i b = idAt ⟨9⟩ j b' → i = j) ∧ (∀ b ∈ xs, PositionsRight b) ∧
    ContractApi.isKnown Int c a.opid = false ∧ (∃ j b s, xs[j]? = some b ∧ Announces ⟨9⟩ j b a s) ∧
    (ContractApi.memory Int o.world.contract).destructible a ≠ none ∧ ¬ ∃ s, OpenAt ⟨9⟩ xs xs.length a s := by
  obtain ⟨o, ho⟩ := passes_iff.2 (show passes gap [origin, move1, move2] = true by decide +kernel)
  have e : o.world.contract = contractAt ⟨9⟩ gap [origin, move1, move2] 3 := ho.shape.contract
  have cases3 : ∀ {i : Nat} {b : OperationSeals Int}, [origin, move1, move2][i]? = some b →
      i = 0 ∧ b = origin ∨ i = 1 ∧ b = move1 ∨ i = 2 ∧ b = move2 := by
    intro i b h
    rcases i with _ | _ | _ | i <;> simp at h <;> simp [h]
  refine ⟨gap, [origin, move1, move2], o, at_ 101 0, archive_lawful, archive_exact, reading_faithful, ⟨?_, fun a h => absurd rfl h⟩, ho, ?_, ?_, ?_,
    by decide +kernel, ⟨1, move1, _, rfl, by decide +kernel, .rel 3, by decide +kernel, .inr ⟨rfl, _, rfl, rfl⟩⟩,
    by rw [e]; decide +kernel, ?_⟩
  · intro a h
    have := (archive_tidy (Seal := Int)).destructible a h
    simp only [ContractApi.isKnown, archive, gap, List.contains_cons] at this ⊢
    rw [this, Bool.or_true]
  · intro b h
    cases h
    rfl
  · intro i j b b' h h' hid
    rcases cases3 h with ⟨rfl, rfl⟩ | ⟨rfl, rfl⟩ | ⟨rfl, rfl⟩ <;> rcases cases3 h' with ⟨rfl, rfl⟩ | ⟨rfl, rfl⟩ | ⟨rfl, rfl⟩ <;>
      first | rfl | (revert hid; decide +kernel)
  · exact fun b hb => (shelf_wellFormed [origin, move1, move2] [] (by simp [shelf]) (by simp)).positions b (.inl hb)
  · rintro ⟨s, j, b, _, hb, ⟨hid, _⟩, hlast⟩
    rcases cases3 hb with ⟨rfl, rfl⟩ | ⟨rfl, rfl⟩ | ⟨rfl, rfl⟩
    · revert hid; decide +kernel
    · exact (hlast 2 move2 (by omega) (by decide) rfl).1 ⟨⟨at_ 101 0, _⟩, List.mem_singleton.2 rfl, rfl⟩
    · revert hid; decide +kernel

open Demo Book in
/-- That the evaluations start with known operations is needed: otherwise an operation not applied can have its
output spent, which is created, and stays, when the operation is applied later. -/
theorem C97_needs_genesis : ∃ (c c' : Book) (l : List (Call Nat)) (a : CellAddr), Lawful Nat Book ∧ StandardMemory Nat Book ∧
    Faithful (ContractApi.codex Nat c) ∧ Tidy (Seal := Nat) c ∧ History (Seal := Nat) AnyStart c l c' ∧
    (ContractApi.memory Nat c').destructible a ≠ none ∧
    ∃ v ∈ l.filterMap appliedOperation, ∃ inp ∈ v.operation.destructibleIn, inp.addr = a := by
  have run : ∀ {c : Book} {bs : List Block}, (runBlocks (Seal := Nat) (E := String) c.contractId c.codex.codexId bs (initState c)).isOk = true →
      ∃ o, Accepted (Seal := Nat) c (Tape.mk bs none) bs o := by
    intro c bs h
    obtain ⟨o, h1, h2, _⟩ := evaluate_of_delivers (tape_delivers bs) (valid_of_runBlocks h)
    exact ⟨o, h1, h2, tape_delivers bs⟩
  let c : Book := ⟨⟨9⟩, trustingCodex, ⟨fun _ => none⟩, ⟨fun _ => none, fun _ => none⟩, fun o => decide (o = ⟨100⟩)⟩
  obtain ⟨o₁, h1⟩ := run (c := c) (bs := [mintFirst, spendMint]) (by decide +kernel)
  have e1 : o₁.world.contract = contractAt (Seal := Nat) ⟨9⟩ c [mintFirst, spendMint] 2 := h1.shape.contract
  obtain ⟨o₂, h2⟩ := run (c := o₁.world.contract) (bs := [genesis, mint]) (by rw [e1]; decide +kernel)
  have k1 : o₁.world.calls.filterMap appliedOperation = [⟨⟨202⟩, spendMint.operation⟩] := by
    rw [applied_filter, h1.shape.callbacks]; rfl
  refine ⟨c, _, _, at_ 201 0, Book.lawful, Book.exact, ?_, ⟨fun a h => absurd rfl h, fun a h => absurd rfl h⟩,
    .step (fun _ _ => trivial) h1.run (.step (fun _ _ => trivial) h2.run (.nil _)), ?_,
    ⟨⟨202⟩, spendMint.operation⟩, ?_, ⟨at_ 201 0, _⟩, List.mem_singleton.2 rfl, rfl⟩
  · intro cid op mem repo v h
    injection h with h
    subst h
    exact ⟨rfl, rfl⟩
  · rw [h2.shape.contract, e1]
    decide +kernel
  · rw [List.filterMap_append, k1]
    simp

open Demo in
/-- The contract of the crate's tests keeps the cells spent, so nothing of this is about it. -/
theorem C97_not_reference : ¬ StandardMemory Nat (TestContract Nat) := fun h => C55_not_lawful_memory h.lawful

end Rgb
