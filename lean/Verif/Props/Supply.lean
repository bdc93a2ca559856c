import Verif.Props.Phantom
import Mathlib.Algebra.BigOperators.Group.Finset.Basic
import Mathlib.Algebra.BigOperators.Fin
import Mathlib.Algebra.Order.Group.Int
import Mathlib.Data.Fintype.BigOperators

set_option linter.unusedSectionVars false

/-! # C72: no inflation -/

namespace Rgb
open Spec

/-- Cell addresses are pairs of an operation id and a position. -/
def CellAddr.equiv : Opid × U16 ≃ CellAddr where
  toFun e := ⟨e.1, e.2⟩
  invFun a := (a.opid, a.pos)
  left_inv _ := rfl
  right_inv _ := rfl

instance : Fintype Opid := Fintype.ofEquiv Bytes32 ⟨Opid.mk, Opid.bytes, fun _ => rfl, fun _ => rfl⟩

instance : Fintype CellAddr := Fintype.ofEquiv _ CellAddr.equiv

section
variable {M : Type} [AddCommGroup M]

/-- What a cell is worth; an absent one is worth nothing. -/
def worth (μ : StateCell → M) : Option StateCell → M
  | some x => μ x
  | none => 0

/-- The codex accepts an operation only if its outputs are worth as much as the cells it consumes, each
counted as often as it is listed, and `δ op` more. -/
def Balanced (x : Codex) (μ : StateCell → M) (δ : Operation → M) : Prop :=
  ∀ cid op mem repo v, x.verify cid op mem repo = .ok v →
    (op.destructibleOut.map μ).sum = (op.destructibleIn.map fun inp => worth μ (mem.destructible inp.addr)).sum + δ op

variable {Seal : Type} [LinearOrder Seal] [RgbSeal Seal] [OpHash]
variable {C E : Type} [ContractApi Seal C]

/-- What all the cells in the memory of the contract are worth together. -/
def supply (Seal : Type) [LinearOrder Seal] [RgbSeal Seal] {C : Type} [ContractApi Seal C] (μ : StateCell → M) (c : C) : M :=
  ∑ a : CellAddr, worth μ ((ContractApi.memory Seal c).destructible a)

/-- Applying an operation whose inputs are in memory, and none of whose outputs is, removes the inputs from
the memory and adds the outputs, each at its position; reports do not touch the memory. -/
structure ExactMemory (Seal : Type) [LinearOrder Seal] [RgbSeal Seal] (C : Type) [ContractApi Seal C] : Prop where
  operation : ∀ (c : C) (v : VerifiedOperation),
    (∀ inp ∈ v.operation.destructibleIn, (ContractApi.memory Seal c).destructible inp.addr ≠ none) →
    (∀ a : CellAddr, a.opid = v.opid → (ContractApi.memory Seal c).destructible a = none) →
    ∀ a : CellAddr, (ContractApi.memory Seal (ContractApi.applyOperation Seal c v)).destructible a =
      if a ∈ v.operation.destructibleIn.map (·.addr) then none
      else if a.opid = v.opid then v.operation.destructibleOut[(a.pos : Nat)]?
      else (ContractApi.memory Seal c).destructible a
  seals : ∀ (c : C) (i : Opid) (s : OMap U16 (RgbSeal.Definition Seal)) (a : CellAddr),
    (ContractApi.memory Seal (ContractApi.applySeals c i s)).destructible a = (ContractApi.memory Seal c).destructible a
  witness : ∀ (c : C) (i : Opid) (w : SealWitness Seal) (a : CellAddr),
    (ContractApi.memory Seal (ContractApi.applyWitness c i w)).destructible a = (ContractApi.memory Seal c).destructible a

theorem sum_outputs (μ : StateCell → M) {l : List StateCell} (hl : l.length ≤ 65536) (o : Opid) :
    ∑ a : CellAddr, (if a.opid = o then worth μ l[(a.pos : Nat)]? else 0) = (l.map μ).sum := by
  rw [← Equiv.sum_comp CellAddr.equiv, Fintype.sum_prod_type_right]
  have : ∀ p : U16, ∑ x : Opid, (if (CellAddr.equiv (x, p)).opid = o then worth μ l[((CellAddr.equiv (x, p)).pos : Nat)]? else 0) =
      worth μ l[(p : Nat)]? := by
    intro p
    rw [Finset.sum_eq_single o]
    · exact if_pos rfl
    · intro x _ hx
      exact if_neg hx
    · intro ho
      exact absurd (Finset.mem_univ o) ho
  simp only [this]
  rw [Fin.sum_univ_eq_sum_range (fun p => worth μ l[p]?) 65536]
  have h2 : ∀ n, l.length ≤ n → ∑ p ∈ Finset.range n, worth μ l[p]? = ∑ p ∈ Finset.range l.length, worth μ l[p]? := by
    intro n hn
    induction n with
    | zero => simp [Nat.le_zero.1 hn]
    | succ n ih =>
      rcases Nat.lt_or_ge n l.length with h | h
      · rw [show n + 1 = l.length by omega]
      · rw [Finset.sum_range_succ, ih h, List.getElem?_eq_none h]
        simp [worth]
  rw [h2 _ hl]
  clear hl h2 this
  induction l with
  | nil => simp
  | cons x l ih =>
    rw [List.length_cons, Finset.sum_range_succ', List.map_cons, List.sum_cons, ← ih, add_comm]
    simp [worth]

theorem sum_inputs (f : CellAddr → M) {l : List CellAddr} (hl : l.Nodup) :
    ∑ a : CellAddr, (if a ∈ l then f a else 0) = (l.map f).sum := by
  induction l with
  | nil => simp
  | cons x l ih =>
    rw [List.nodup_cons] at hl
    rw [List.map_cons, List.sum_cons, ← ih hl.2]
    have : ∀ a, (if a ∈ x :: l then f a else 0) = (if a = x then f a else 0) + if a ∈ l then f a else 0 := by
      intro a
      by_cases h : a = x
      · subst h; simp [hl.1]
      · simp [h]
    simp only [this, Finset.sum_add_distrib]
    simp

theorem supply_apply (hm : ExactMemory Seal C) (μ : StateCell → M) {c : C} {v : VerifiedOperation}
    (hn : (v.operation.destructibleIn.map (·.addr)).Nodup) (hlen : v.operation.destructibleOut.length ≤ 65536)
    (hin : ∀ inp ∈ v.operation.destructibleIn, (ContractApi.memory Seal c).destructible inp.addr ≠ none)
    (hnew : ∀ a : CellAddr, a.opid = v.opid → (ContractApi.memory Seal c).destructible a = none) :
    supply Seal μ (ContractApi.applyOperation Seal c v) = supply Seal μ c + ((v.operation.destructibleOut.map μ).sum -
      (v.operation.destructibleIn.map fun inp => worth μ ((ContractApi.memory Seal c).destructible inp.addr)).sum) := by
  have key : ∀ a : CellAddr, worth μ ((ContractApi.memory Seal (ContractApi.applyOperation Seal c v)).destructible a) =
      worth μ ((ContractApi.memory Seal c).destructible a) +
      ((if a.opid = v.opid then worth μ v.operation.destructibleOut[(a.pos : Nat)]? else 0) -
      (if a ∈ v.operation.destructibleIn.map (·.addr) then worth μ ((ContractApi.memory Seal c).destructible a) else 0)) := by
    intro a
    rw [hm.operation c v hin hnew a]
    by_cases h1 : a ∈ v.operation.destructibleIn.map (·.addr)
    · have h2 : a.opid ≠ v.opid := by
        intro h2
        obtain ⟨inp, hi, rfl⟩ := List.mem_map.1 h1
        exact hin inp hi (hnew _ h2)
      rw [if_pos h1, if_pos h1, if_neg h2]
      simp [worth]
    · rw [if_neg h1, if_neg h1]
      by_cases h2 : a.opid = v.opid
      · rw [if_pos h2, if_pos h2, hnew a h2]
        simp [worth]
      · rw [if_neg h2, if_neg h2]
        simp
  unfold supply
  simp only [key, Finset.sum_add_distrib, Finset.sum_sub_distrib]
  rw [sum_outputs μ hlen, sum_inputs (fun a => worth μ ((ContractApi.memory Seal c).destructible a)) hn, List.map_map]
  rfl

/-- What is known when an operation is applied. -/
structure Sound (μ : StateCell → M) (δ : Operation → M) (c : C) (v : VerifiedOperation) : Prop where
  fresh : Fresh (Seal := Seal) c v
  memory : InMemory Seal c v
  balance : (v.operation.destructibleOut.map μ).sum =
    (v.operation.destructibleIn.map fun inp => worth μ ((ContractApi.memory Seal c).destructible inp.addr)).sum + δ v.operation

theorem supply_steps (hl : Lawful Seal C) (hm : ExactMemory Seal C) {μ : StateCell → M} {δ : Operation → M} {c c' : C}
    {l : List (Call Seal)} (h : Steps (Sound (Seal := Seal) μ δ) c l c')
    (hk : ∀ a : CellAddr, (ContractApi.memory Seal c).destructible a ≠ none → ContractApi.isKnown Seal c a.opid = true)
    (hlen : ∀ v ∈ l.filterMap appliedOperation, v.operation.destructibleOut.length ≤ 65536) :
    supply Seal μ c' = supply Seal μ c + ((l.filterMap appliedOperation).map fun v => δ v.operation).sum := by
  induction h with
  | nil => simp
  | @other c c' x l hx _ ih =>
    have hmem : ∀ a : CellAddr, (ContractApi.memory Seal (perform c x)).destructible a =
        (ContractApi.memory Seal c).destructible a := by
      intro a
      cases x <;> simp only [perform, appliedOperation, reduceCtorEq] at hx ⊢
      · exact hm.witness ..
      · exact hm.seals ..
    have hs : supply Seal μ (perform c x) = supply Seal μ c := by
      unfold supply
      simp only [hmem]
    rw [List.filterMap_cons_none hx] at hlen ⊢
    rw [ih (by intro a ha; rw [hl.known_other hx]; rw [hmem] at ha; exact hk a ha) hlen, hs]
  | @apply c c' v l hq _ ih =>
    have e : (Call.applyOperation (Seal := Seal) v :: l).filterMap appliedOperation = v :: l.filterMap appliedOperation := rfl
    rw [e] at hlen ⊢
    have hnew : ∀ a : CellAddr, a.opid = v.opid → (ContractApi.memory Seal c).destructible a = none := by
      intro a ha
      by_contra hne
      have := hk a hne
      rw [ha, hq.fresh.new] at this
      simp at this
    rw [ih ?_ fun v' hv' => hlen v' (by simp [hv'])]
    · rw [supply_apply hm μ hq.fresh.nodup (hlen v (by simp)) hq.memory hnew, hq.balance, List.map_cons, List.sum_cons,
        add_sub_cancel_left, add_assoc]
    · intro a ha
      rw [hl.known_operation]
      rw [hm.operation c v hq.memory hnew] at ha
      by_cases h2 : a.opid = v.opid
      · exact .inr h2
      · left
        split at ha
        · exact absurd rfl ha
        · exact hk a ha

/-- **C72.**  Over any history of evaluations, accepted or not, of any streams whatever, the worth of the cells
in memory changes exactly by what the codex lets the applied operations issue. -/
theorem C72_supply (hl : Lawful Seal C) (hm : ExactMemory Seal C) {μ : StateCell → M} {δ : Operation → M} {c c' : C}
    (hf : Faithful (ContractApi.codex Seal c)) (hi : ChecksInputs (ContractApi.codex Seal c))
    (hb : Balanced (ContractApi.codex Seal c) μ δ)
    (hk : ∀ a : CellAddr, (ContractApi.memory Seal c).destructible a ≠ none → ContractApi.isKnown Seal c a.opid = true)
    {l : List (Call Seal)} (h : History AnyStart c l c')
    (hlen : ∀ v ∈ l.filterMap appliedOperation, v.operation.destructibleOut.length ≤ 65536) :
    supply Seal μ c' = supply Seal μ c + ((l.filterMap appliedOperation).map fun v => δ v.operation).sum := by
  refine supply_steps hl hm (history_steps (Start := AnyStart) (Q := Sound (Seal := Seal) μ δ) hl ?_ rfl h) hk hlen
  intro R _ c₀ r blocks o hc hs _
  refine steps_run hs ?_
  intro i b v hbl _ hkn hv
  unfold codexAnswer at hv
  rw [hl.contractAt_codex, hc] at hv
  obtain ⟨e1, e2⟩ := hf _ _ _ _ _ hv
  have hmem : ∀ (d : C) (a : CellAddr), (ContractApi.memory Seal ((witnessCallbacks (opid b.operation) b).foldl perform d)).destructible a =
      (ContractApi.memory Seal d).destructible a := by
    intro d a
    unfold witnessCallbacks
    split
    · exact hm.witness ..
    · rfl
  refine ⟨⟨by rw [e1, hl.known_witnessCallbacks]; exact hkn, by rw [e2]; exact (hs.valid i b hbl).distinct⟩, ?_, ?_⟩
  · intro inp hinp
    rw [e2] at hinp
    rw [hmem]
    exact hi _ _ _ _ _ hv inp hinp
  · simp only [hmem]
    rw [e2]
    exact hb _ _ _ _ _ hv

/-- In particular a codex that lets nothing be issued conserves the supply for ever. -/
theorem C72_conserved (hl : Lawful Seal C) (hm : ExactMemory Seal C) {μ : StateCell → M} {c c' : C}
    (hf : Faithful (ContractApi.codex Seal c)) (hi : ChecksInputs (ContractApi.codex Seal c))
    (hb : Balanced (ContractApi.codex Seal c) μ fun _ => 0)
    (hk : ∀ a : CellAddr, (ContractApi.memory Seal c).destructible a ≠ none → ContractApi.isKnown Seal c a.opid = true)
    {l : List (Call Seal)} (h : History AnyStart c l c')
    (hlen : ∀ v ∈ l.filterMap appliedOperation, v.operation.destructibleOut.length ≤ 65536) :
    supply Seal μ c' = supply Seal μ c := by
  rw [C72_supply hl hm hf hi hb hk h hlen]
  simp

/-- And one that only lets cells be burnt never lets the supply grow. -/
theorem C72_no_inflation [PartialOrder M] [IsOrderedAddMonoid M] (hl : Lawful Seal C) (hm : ExactMemory Seal C)
    {μ : StateCell → M} {δ : Operation → M} {c c' : C}
    (hf : Faithful (ContractApi.codex Seal c)) (hi : ChecksInputs (ContractApi.codex Seal c))
    (hb : Balanced (ContractApi.codex Seal c) μ δ) (hδ : ∀ op, δ op ≤ 0)
    (hk : ∀ a : CellAddr, (ContractApi.memory Seal c).destructible a ≠ none → ContractApi.isKnown Seal c a.opid = true)
    {l : List (Call Seal)} (h : History AnyStart c l c')
    (hlen : ∀ v ∈ l.filterMap appliedOperation, v.operation.destructibleOut.length ≤ 65536) :
    supply Seal μ c' ≤ supply Seal μ c := by
  rw [C72_supply hl hm hf hi hb hk h hlen]
  refine add_le_of_nonpos_right ?_
  generalize l.filterMap appliedOperation = vs
  induction vs with
  | nil => simp
  | cons v vs ih =>
    rw [List.map_cons, List.sum_cons]
    exact add_nonpos (hδ _) ih

end

namespace Demo
theorem find_outputs {id : Opid} {n : Nat} {l : List StateCell} (hn : n + l.length ≤ 65536) {a : CellAddr} (ha : a.opid = id)
    (hp : n ≤ (a.pos : Nat)) : ((outputs id n l).find? (·.1 == a)).map (·.2) = l[(a.pos : Nat) - n]? := by
  induction l generalizing n with
  | nil => simp [outputs]
  | cons x l ih =>
    have hl : n + l.length + 1 ≤ 65536 := by simpa [Nat.add_assoc] using hn
    have hm : n % 65536 = n := Nat.mod_eq_of_lt (by omega)
    rw [outputs, List.find?_cons]
    by_cases h : (a.pos : Nat) = n
    · have e : (⟨id, Fin.ofNat _ n⟩ : CellAddr) = a := by
        obtain ⟨o, p⟩ := a
        obtain rfl : o = id := ha
        congr 1
        exact Fin.ext (by simp only [Fin.ofNat]; exact hm.trans h.symm)
      rw [e]
      simp [h]
    · have e : (⟨id, Fin.ofNat _ n⟩ : CellAddr) ≠ a := by
        rintro rfl
        exact h (by simp only [Fin.ofNat]; omega)
      rw [show ((⟨id, Fin.ofNat _ n⟩ : CellAddr) == a) = false by simpa using e]
      rw [show (a.pos : Nat) - n = ((a.pos : Nat) - (n + 1)) + 1 by omega, List.getElem?_cons_succ]
      exact ih (by omega) (by omega)

theorem find_filter (p : CellAddr → Bool) (l : List (CellAddr × StateCell)) (a : CellAddr) :
    (l.filter fun e => p e.1).find? (·.1 == a) = if p a then l.find? (·.1 == a) else none := by
  induction l with
  | nil => simp
  | cons y l ih =>
    rw [List.filter_cons]
    by_cases hy : y.1 = a
    · subst hy
      by_cases hp : p y.1 = true
      · simp [hp]
      · rw [if_neg hp, ih, if_neg hp, if_neg hp]
    · rw [List.find?_cons_of_neg (by simpa using hy), ← ih]
      split
      · rw [List.find?_cons_of_neg (by simpa using hy)]
      · rfl

theorem careful_exact : ExactMemory Nat Careful where
  operation c v hin hnew a := by
    change ((((c.ledger.cells ++ outputs v.opid 0 (v.operation.destructibleOut.take 65536)).filter fun e =>
      !(v.operation.destructibleIn.map (·.addr)).contains e.1).find? (·.1 == a)).map (·.2)) = _
    rw [find_filter fun x => !(v.operation.destructibleIn.map (·.addr)).contains x]
    by_cases h1 : a ∈ v.operation.destructibleIn.map (·.addr)
    · rw [if_pos h1, if_neg (by simpa using h1)]
      rfl
    · rw [if_neg h1, if_pos (by simpa using h1), List.find?_append]
      by_cases h2 : a.opid = v.opid
      · have h3 : (c.ledger.cells.find? (·.1 == a)).map (·.2) = none := hnew a h2
        rw [Option.map_eq_none_iff] at h3
        rw [if_pos h2, h3, Option.none_or, find_outputs (by simp) h2 (Nat.zero_le _), Nat.sub_zero, List.getElem?_take]
        exact if_pos a.pos.isLt
      · rw [if_neg h2]
        have h3 : (outputs v.opid 0 (v.operation.destructibleOut.take 65536)).find? (·.1 == a) = none := by
          rw [List.find?_eq_none]
          intro e he
          obtain ⟨k, _⟩ := mem_outputs (by simp) he
          simp only [beq_iff_eq]
          rintro rfl
          exact h2 k
        rw [h3, Option.or_none]
        rfl
  seals _ _ _ _ := rfl
  witness _ _ _ _ := rfl

theorem applied_callbacks (l : List (Call Nat)) : (l.filter IsCallback).filterMap appliedOperation = l.filterMap appliedOperation := by
  induction l with
  | nil => rfl
  | cons x l ih => cases x <;> simp [List.filter, IsCallback, appliedOperation, List.filterMap_cons, ih]

theorem careful_cells (x : Codex) (a : CellAddr)
    (ha : (ContractApi.memory Nat (Careful.mk { ledger with codex := x })).destructible a ≠ none) :
    ContractApi.isKnown Nat (Careful.mk { ledger with codex := x }) a.opid = true := by
  obtain ⟨x, hx⟩ := Option.ne_none_iff_exists'.1 ha
  obtain ⟨e, he, _⟩ := Option.map_eq_some_iff.1 (show (ledger.cells.find? (·.1 == a)).map (·.2) = some x from hx)
  have e1 : e.1 = a := by simpa using List.find?_some he
  have : ∀ e ∈ ledger.cells, ledger.known.contains e.1.opid = true := by decide +kernel
  rw [← e1]
  exact this e (List.mem_of_find?_eq_some he)

/-- The demo codex, accepting only operations with `p`. -/
def guarded (p : Operation → Bool) : Codex where
  codexId := ⟨7⟩
  verify cid op mem repo := if p op then codex.verify cid op mem repo else .error ⟨"unbalanced"⟩

theorem guarded_codex {p : Operation → Bool} {cid : ContractId} {op : Operation} {mem : Memory} {repo : LibRepo}
    {v : VerifiedOperation} (h : (guarded p).verify cid op mem repo = .ok v) :
    p op = true ∧ codex.verify cid op mem repo = .ok v := by
  simp only [guarded] at h
  split at h
  · rename_i hp
    exact ⟨hp, h⟩
  · simp at h

theorem guarded_faithful (p : Operation → Bool) : Faithful (guarded p) :=
  fun _ _ _ _ _ h => codex_faithful _ _ _ _ _ (guarded_codex h).2

theorem guarded_checksInputs (p : Operation → Bool) : ChecksInputs (guarded p) :=
  fun _ _ _ _ _ h => codex_checksInputs _ _ _ _ _ (guarded_codex h).2

/-- A codex in which every operation creates as many cells as it consumes. -/
def fair : Codex := guarded fun op => op.destructibleOut.length == op.destructibleIn.length

/-- A codex in which no operation creates more cells than it consumes. -/
def frugal : Codex := guarded fun op => op.destructibleOut.length ≤ op.destructibleIn.length

theorem sum_ones {l : List Input} {mem : Memory} (h : ∀ inp ∈ l, mem.destructible inp.addr ≠ none) :
    (l.map fun inp => worth (fun _ => (1 : Int)) (mem.destructible inp.addr)).sum = l.length := by
  induction l with
  | nil => rfl
  | cons x l ih =>
    rw [List.map_cons, List.sum_cons, ih fun inp hi => h inp (by simp [hi])]
    obtain ⟨y, hy⟩ := Option.ne_none_iff_exists'.1 (h x (by simp))
    rw [hy]
    simp [worth, Int.add_comm]

theorem codex_balanced : Balanced codex (fun _ => (1 : Int)) fun op => op.destructibleOut.length - op.destructibleIn.length := by
  intro cid op mem repo v h
  rw [sum_ones (codex_checksInputs _ _ _ _ _ h)]
  simp

theorem fair_balanced : Balanced fair (fun _ => (1 : Int)) fun _ => 0 := by
  intro cid op mem repo v h
  obtain ⟨h1, h2⟩ := guarded_codex h
  rw [codex_balanced _ _ _ _ _ h2]
  simp at h1
  simp [h1]

theorem frugal_balanced : Balanced frugal (fun _ => (1 : Int)) fun op =>
    min (op.destructibleOut.length - op.destructibleIn.length) 0 := by
  intro cid op mem repo v h
  obtain ⟨h1, h2⟩ := guarded_codex h
  rw [codex_balanced _ _ _ _ _ h2]
  simp at h1
  simp
  omega
end Demo

open Demo in
example : Lawful Nat Careful ∧ ExactMemory Nat Careful ∧ Faithful codex ∧ ChecksInputs codex ∧
    Balanced codex (fun _ => (1 : Int)) (fun op => op.destructibleOut.length - op.destructibleIn.length) ∧
    (∀ a : CellAddr, (ContractApi.memory Nat (Careful.mk ledger)).destructible a ≠ none →
      ContractApi.isKnown Nat (Careful.mk ledger) a.opid = true) ∧
    ∃ l c', History (Seal := Nat) AnyStart (Careful.mk ledger) l c' ∧
      l.filterMap appliedOperation = [⟨⟨101⟩, transfer1.operation⟩, ⟨⟨102⟩, transfer2.operation⟩] := by
  obtain ⟨o, h⟩ := careful_story
  refine ⟨careful_lawful, careful_exact, codex_faithful, codex_checksInputs, codex_balanced, ?_, _, _,
    .step (fun _ _ => trivial) h.run (.nil _), ?_⟩
  · exact careful_cells codex
  · rw [List.append_nil, ← applied_callbacks, h.shape.callbacks]
    rfl

open Demo in
example : Lawful Nat Careful ∧ ExactMemory Nat Careful ∧ Faithful fair ∧ ChecksInputs fair ∧
    Balanced fair (fun _ => (1 : Int)) (fun _ => 0) ∧
    (∀ a : CellAddr, (ContractApi.memory Nat (Careful.mk { ledger with codex := fair })).destructible a ≠ none →
      ContractApi.isKnown Nat (Careful.mk { ledger with codex := fair }) a.opid = true) ∧
    ∃ l c', History (Seal := Nat) AnyStart (Careful.mk { ledger with codex := fair }) l c' ∧
      l.filterMap appliedOperation = [⟨⟨101⟩, transfer1.operation⟩] := by
  have hv : ValidConsignment (Careful.mk { ledger with codex := fair }) [genesis, transfer1] :=
    valid_of_runBlocks (by decide +kernel)
  obtain ⟨o, h1, h2, _⟩ := evaluate_of_delivers (tape_delivers [genesis, transfer1]) hv
  have h : Accepted (Careful.mk { ledger with codex := fair }) (Tape.mk [genesis, transfer1] none) [genesis, transfer1] o :=
    ⟨h1, h2, tape_delivers _⟩
  refine ⟨careful_lawful, careful_exact, guarded_faithful _, guarded_checksInputs _, fair_balanced, careful_cells fair, _, _,
    .step (fun _ _ => trivial) h.run (.nil _), ?_⟩
  rw [List.append_nil, ← applied_callbacks, h.shape.callbacks]
  rfl

open Demo in
example : Lawful Nat Careful ∧ ExactMemory Nat Careful ∧ Faithful frugal ∧ ChecksInputs frugal ∧
    (∃ δ : Operation → Int, Balanced frugal (fun _ => 1) δ ∧ (∀ op, δ op ≤ 0) ∧ δ transfer2.operation = -1) ∧
    (∀ a : CellAddr, (ContractApi.memory Nat (Careful.mk { ledger with codex := frugal })).destructible a ≠ none →
      ContractApi.isKnown Nat (Careful.mk { ledger with codex := frugal }) a.opid = true) ∧
    ∃ l c', History (Seal := Nat) AnyStart (Careful.mk { ledger with codex := frugal }) l c' ∧
      l.filterMap appliedOperation = [⟨⟨101⟩, transfer1.operation⟩, ⟨⟨102⟩, transfer2.operation⟩] := by
  have hv : ValidConsignment (Careful.mk { ledger with codex := frugal }) story :=
    valid_of_runBlocks (by decide +kernel)
  obtain ⟨o, h1, h2, _⟩ := evaluate_of_delivers (tape_delivers story) hv
  have h : Accepted (Careful.mk { ledger with codex := frugal }) (Tape.mk story none) story o := ⟨h1, h2, tape_delivers _⟩
  refine ⟨careful_lawful, careful_exact, guarded_faithful _, guarded_checksInputs _,
    ⟨_, frugal_balanced, fun op => min_le_right _ _, by decide +kernel⟩, careful_cells frugal, _, _,
    .step (fun _ _ => trivial) h.run (.nil _), ?_⟩
  rw [List.append_nil, ← applied_callbacks, h.shape.callbacks]
  rfl

end Rgb
