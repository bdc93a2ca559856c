import Verif.Props.Conflicts

set_option linter.unusedSectionVars false

/-! # C65: cells that do not exist -/

namespace Rgb
open Spec

/-- Every cell consumed in an accepted consignment is an output of the operation it is attributed to. -/
def C65_statement : Prop :=
  ∀ (Seal : Type) [LinearOrder Seal] [RgbSeal Seal] [OpHash] (C : Type) [ContractApi Seal C]
    (R : Type) [ReadOperation Seal R] (c : C) (r : R) (blocks : List (OperationSeals Seal)) o,
    Accepted c r blocks o → ∀ (i : Nat) b, blocks[i]? = some b → ∀ inp ∈ b.operation.destructibleIn,
    ∃ (j : Nat) (bj : OperationSeals Seal), j < i ∧ blocks[j]? = some bj ∧
      inp.addr.opid = idAt (ContractApi.contractId Seal c) j bj ∧
      (inp.addr.pos : Nat) < bj.operation.destructibleOut.length

namespace Demo
/-- Genesis revealing the seal of output 0 as that of an output it does not have. -/
def ghostGenesis : Block := ⟨genesisOp, .collect [(7, .abs 1)], none⟩

/-- A known operation spending that output. -/
def ghostSpend : Block := ⟨op 111 [at_ 100 7] [], .collect [], some (wit 60 [1] 111)⟩
end Demo

open Demo in
theorem C65_refuted : ¬ C65_statement := by
  intro h
  obtain ⟨o, ho⟩ := accepted_of_accepts (c := { ledger with known := [⟨100⟩, ⟨111⟩] }) (bs := [ghostGenesis, ghostSpend])
    (by decide +kernel)
  obtain ⟨j, bj, hj, hbj, _, hlt⟩ := h Nat Ledger Tape _ _ _ o ho 1 ghostSpend rfl _ (List.mem_of_getElem? (i := 0) rfl)
  obtain rfl : j = 0 := by omega
  obtain rfl : ghostGenesis = bj := by simpa using hbj
  exact absurd hlt (by decide +kernel)

section
variable {Seal : Type} [LinearOrder Seal] [RgbSeal Seal] [OpHash]
variable {C E : Type} [ContractApi Seal C]
variable {R : Type} [ReadOperation Seal R]

/-- What holds within a consignment (missing: operations in blocks with wrong positions).  If the blocks
have their positions right, every consumed cell is an output of the operation of an earlier block. -/
theorem C65_consignment_partial {c : C} {r : R} {blocks : List (OperationSeals Seal)} {o} (h : Accepted c r blocks o)
    (hp : ∀ b ∈ blocks, PositionsRight b) {i : Nat} {b : OperationSeals Seal} (hb : blocks[i]? = some b)
    {inp : Input} (hi : inp ∈ b.operation.destructibleIn) :
    ∃ (j : Nat) (bj : OperationSeals Seal), j < i ∧ blocks[j]? = some bj ∧
      inp.addr.opid = idAt (ContractApi.contractId Seal c) j bj ∧
      (inp.addr.pos : Nat) < bj.operation.destructibleOut.length := by
  obtain ⟨s, j, bj, hj, hbj, ⟨ha, d, hd, _⟩, _⟩ := closed_open (h.valid i b hb) hi
  obtain ⟨cell, hc, _⟩ := hp bj (List.mem_of_getElem? hbj) _ _ hd
  exact ⟨j, bj, hj, hbj, ha, lt_length_of_getElem? hc⟩

theorem memory_from (ho : OutputsOnly Seal C) {l : List (Call Seal)} {c : C} {a : CellAddr} {x : StateCell}
    (h : (ContractApi.memory Seal (l.foldl perform c)).destructible a = some x) :
    (ContractApi.memory Seal c).destructible a = some x ∨
      ∃ v, Call.applyOperation v ∈ l ∧ a.opid = v.opid ∧ v.operation.destructibleOut[(a.pos : Nat)]? = some x := by
  induction l generalizing c with
  | nil => exact .inl h
  | cons y l ih =>
    rcases ih h with h | ⟨v, hv, h⟩
    · cases y with
      | applyOperation v =>
        rcases ho.operation c v a x h with h | h
        · exact .inl h
        · exact .inr ⟨v, by simp, h⟩
      | applySeals i s => exact .inl ((ho.seals c i s a).symm.trans h)
      | applyWitness i w => exact .inl ((ho.witness c i w a).symm.trans h)
      | _ => exact .inl h
    · exact .inr ⟨v, by simp [hv], h⟩

/-- What holds for applied operations (missing: known operations, which are not applied): over any
history, for a codex that checks the inputs and a contract whose cells are the outputs of applied
operations, every cell consumed by an applied operation was in memory at the start or is an output of an
operation applied earlier. -/
theorem C65_history_partial (hl : Lawful Seal C) (ho : OutputsOnly Seal C) {Start : C → OperationSeals Seal → Prop} {c c' : C}
    (hf : Faithful (ContractApi.codex Seal c)) (hi : ChecksInputs (ContractApi.codex Seal c))
    {pre post : List (Call Seal)} {v : VerifiedOperation} (h : History Start c (pre ++ .applyOperation v :: post) c')
    {inp : Input} (hinp : inp ∈ v.operation.destructibleIn) :
    ∃ x : StateCell, (ContractApi.memory Seal c).destructible inp.addr = some x ∨
      ∃ u, Call.applyOperation u ∈ pre ∧ inp.addr.opid = u.opid ∧
        u.operation.destructibleOut[(inp.addr.pos : Nat)]? = some x := by
  have hst := history_steps (Q := fun c v => InMemory Seal c v) hl
    (fun R _ c₀ r blocks o hc hs h0 => ?_) rfl h
  · obtain ⟨x, hx⟩ := Option.ne_none_iff_exists'.1 (hst.at inp hinp)
    exact ⟨x, memory_from ho hx⟩
  · refine steps_run hs ?_
    intro i b v hb _ hk hv inp hinp
    unfold codexAnswer at hv
    rw [hl.contractAt_codex] at hv
    rw [hc] at hv
    obtain ⟨_, e2⟩ := hf _ _ _ _ _ hv
    rw [e2] at hinp
    have hw : ∀ (d : C) (o : Opid), (ContractApi.memory Seal ((witnessCallbacks o b).foldl perform d)).destructible inp.addr =
        (ContractApi.memory Seal d).destructible inp.addr := by
      intro d o
      unfold witnessCallbacks
      split
      · exact ho.witness ..
      · rfl
    rw [hw]
    exact hi _ _ _ _ _ hv inp hinp

end

namespace Demo
theorem mem_outputs {id : Opid} {n : Nat} {l : List StateCell} (hn : n + l.length ≤ 65536) {e : CellAddr × StateCell}
    (h : e ∈ outputs id n l) : e.1.opid = id ∧ l[(e.1.pos : Nat) - n]? = some e.2 ∧ n ≤ (e.1.pos : Nat) := by
  induction l generalizing n with
  | nil => simp [outputs] at h
  | cons x l ih =>
    have hl : n + l.length + 1 ≤ 65536 := by simpa [Nat.add_assoc] using hn
    rcases List.mem_cons.1 h with rfl | h
    · have : n % 65536 = n := Nat.mod_eq_of_lt (by omega)
      simp [Fin.ofNat, this]
    · obtain ⟨h1, h2, h3⟩ := ih (by omega) h
      refine ⟨h1, ?_, by omega⟩
      rw [show (e.1.pos : Nat) - n = ((e.1.pos : Nat) - (n + 1)) + 1 by omega, List.getElem?_cons_succ]
      exact h2

/-- A ledger refusing operations with too many outputs, as does the real type of `destructible_out`. -/
structure Careful where
  ledger : Ledger

scoped instance : ContractApi Nat Careful where
  contractId l := l.ledger.contractId
  codex l := l.ledger.codex
  repo _ := ⟨fun _ => none⟩
  memory l := ⟨l.ledger.find, fun _ => none⟩
  isKnown l o := l.ledger.known.contains o
  applyOperation l v := ⟨ContractApi.applyOperation Nat l.ledger
    { v with operation := { v.operation with destructibleOut := v.operation.destructibleOut.take 65536 } }⟩
  applySeals l _ _ := l
  applyWitness l _ _ := l

theorem careful_outputs : OutputsOnly Nat Careful where
  operation c v a x h := by
    change ((ContractApi.applyOperation Nat c.ledger _).find a) = some x at h
    unfold Ledger.find at h
    obtain ⟨e, he, rfl⟩ := Option.map_eq_some_iff.1 h
    have ha : e.1 = a := by simpa using List.find?_some he
    subst ha
    have hfil := (List.mem_filter.1 (List.mem_of_find?_eq_some he)).2
    have key : ∀ l : List (CellAddr × StateCell), (l.filter fun e' =>
        !(v.operation.destructibleIn.map (·.addr)).contains e'.1).find? (fun e' => e'.1 == e.1) = l.find? (fun e' => e'.1 == e.1) := by
      intro l
      induction l with
      | nil => rfl
      | cons y l ih =>
        by_cases hy : y.1 = e.1
        · rw [List.filter_cons_of_pos (by rw [hy]; exact hfil)]
          simp [hy]
        · rw [List.find?_cons_of_neg (by simpa using hy), ← ih, List.filter_cons]
          split
          · rw [List.find?_cons_of_neg (by simpa using hy)]
          · rfl
    change List.find? _ (List.filter _ _) = some e at he
    rw [key, List.find?_append] at he
    rcases Option.or_eq_some_iff.1 he with h1 | ⟨_, h1⟩
    · left
      change (c.ledger.cells.find? _).map _ = _
      rw [h1]
      rfl
    · right
      obtain ⟨k1, k2, _⟩ := mem_outputs (by simp) (List.mem_of_find?_eq_some h1)
      refine ⟨k1, ?_⟩
      simp only [Nat.sub_zero, List.getElem?_take] at k2
      split at k2
      · exact k2
      · simp at k2
  seals _ _ _ _ := rfl
  witness _ _ _ _ := rfl

theorem careful_lawful : Lawful Nat Careful where
  contractId c x := by cases x <;> rfl
  codex c x := by cases x <;> rfl
  known_operation c v o := by simp [ContractApi.isKnown, ContractApi.applyOperation, or_comm]
  known_seals _ _ _ _ := rfl
  known_witness _ _ _ _ := rfl

theorem careful_story : ∃ o, Accepted (Careful.mk ledger) (Tape.mk story none) story o := by
  have hv : ValidConsignment (Careful.mk ledger) story := valid_of_runBlocks (by decide +kernel)
  obtain ⟨o, h1, h2, _⟩ := evaluate_of_delivers (tape_delivers story) hv
  exact ⟨o, h1, h2, tape_delivers story⟩
end Demo

open Demo in
example : Lawful Nat Careful ∧ OutputsOnly Nat Careful ∧ Faithful (ContractApi.codex Nat (Careful.mk ledger)) ∧
    ChecksInputs (ContractApi.codex Nat (Careful.mk ledger)) ∧
    ∃ pre post c', History (Seal := Nat) AnyStart (Careful.mk ledger)
      (pre ++ Call.applyOperation ⟨⟨102⟩, transfer2.operation⟩ :: post) c' ∧
      (⟨at_ 101 0, .none⟩ : Input) ∈ transfer2.operation.destructibleIn := by
  obtain ⟨o, h⟩ := careful_story
  have hm : Call.applyOperation ⟨⟨102⟩, transfer2.operation⟩ ∈ o.world.calls.filter IsCallback := by
    rw [h.shape.callbacks]
    exact List.mem_of_getElem? (i := 5) rfl
  obtain ⟨pre, post, heq⟩ := List.append_of_mem (List.mem_filter.1 hm).1
  refine ⟨careful_lawful, careful_outputs, codex_faithful, codex_checksInputs, pre, post, o.world.contract, ?_, List.mem_of_getElem? (i := 0) rfl⟩
  rw [← heq, ← List.append_nil o.world.calls]
  exact .step (fun _ _ => trivial) h.run (.nil _)

open Demo in
example : (∃ o, Accepted ledger (Tape.mk story none) story o) ∧ (∀ b ∈ story, PositionsRight (Seal := Nat) b) ∧
    story[2]? = some transfer2 ∧ (⟨at_ 101 0, .none⟩ : Input) ∈ transfer2.operation.destructibleIn := by
  have : ∀ b ∈ story, ∀ e ∈ b.definedSeals.entries,
      (b.operation.destructibleOut[(e.1 : Nat)]?).map (·.auth) = some (RgbSeal.authToken (Seal := Nat) e.2) := by
    decide +kernel
  refine ⟨story_run, ?_, rfl, List.mem_of_getElem? (i := 0) rfl⟩
  intro b hb p d hd
  have := this b hb (p, d) hd
  simpa [Option.map_eq_some_iff] using this

end Rgb
