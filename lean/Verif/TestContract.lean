import Verif.Lemmas.Laws

/-!
# The contract and the reader of the crate's own test-suite

`TestReader` (verify.rs:330-340), `TestContract` (verify.rs:342-383) and the assertions of the helper
`run` (verify.rs:470-500).

Simplifications: generic in the seal type (the tests use `TxoSeal`); `HashMap`s, of which only
lookups and equality are observed, are ordered maps; `libs` is its lookup function.
-/

namespace Rgb

/-- `TestReader` (verify.rs:330-340): an iterator over a vector. -/
structure TestReader (Seal : Type) [LinearOrder Seal] [RgbSeal Seal] where
  items : List (OperationSeals Seal)

section
variable {Seal : Type} [LinearOrder Seal] [RgbSeal Seal]

/-- `impl ReadOperation for TestReader` (verify.rs:332-337); the error type is `Infallible`. -/
instance : ReadOperation Seal (TestReader Seal) where
  Error := Empty
  readOperation r := match r.items with
    | [] => (.ok none, r)
    | b :: rest => (.ok (some b), ⟨rest⟩)

end

/-- `TestContract` (verify.rs:342-351). -/
structure TestContract (Seal : Type) [LinearOrder Seal] [RgbSeal Seal] where
  codex : Codex
  contractId : ContractId
  libs : LibRepo
  global : OMap CellAddr StateValue
  owned : OMap CellAddr StateCell
  knownOps : OMap Opid Operation
  sealDefinitions : OMap Opid (OMap U16 (RgbSeal.Definition Seal))
  witnesses : OMap Opid (List (SealWitness Seal))

section
variable {Seal : Type} [LinearOrder Seal] [RgbSeal Seal]

/-- The entries `(CellAddr::new(opid, no as u16), inp)` of the loops at verify.rs:368-374. -/
def numbered {α β : Type} (o : Opid) (f : α → β) (l : List α) : List (CellAddr × β) :=
  l.zipIdx.map fun e => (⟨o, Fin.ofNat _ e.2⟩, f e.1)

/-- `impl ContractApi for TestContract` (verify.rs:359-383), with `Memory` (verify.rs:352-355) and
`LibRepo` (verify.rs:356-358). -/
instance : ContractApi Seal (TestContract Seal) where
  contractId c := c.contractId
  codex c := c.codex
  repo c := c.libs
  memory c := ⟨c.owned.get?, c.global.get?⟩
  isKnown c o := (c.knownOps.get? o).isSome
  applyOperation c v := { c with
    global := c.global.extend (numbered v.opid StateData.value v.operation.immutableOut)
    owned := c.owned.extend (numbered v.opid id v.operation.destructibleOut)
    knownOps := c.knownOps.insert v.opid v.operation }
  applySeals c o seals := { c with
    sealDefinitions := c.sealDefinitions.insert o (((c.sealDefinitions.get? o).getD .empty).extend seals.entries) }
  applyWitness c o w := { c with
    witnesses := c.witnesses.insert o ((c.witnesses.get? o).getD [] ++ [w]) }

/-- `BTreeMap::pop_first` (verify.rs:486, 489, 492), dropping the entry. -/
def OMap.popFirst {K V : Type} [LinearOrder K] (m : OMap K V) : OMap K V :=
  ⟨m.entries.tail, m.sorted.tail⟩

/-- The assertions of the helper `run` (verify.rs:474-498) about the contract after the evaluation of
the stream `entries`: `ops`, `seals` and `witnesses` are built from the stream, their first entries
are replaced by the first entries of the contract, and the results are compared with the contract. -/
def RunAsserts [OpHash] (contract : TestContract Seal) (entries : List (OperationSeals Seal)) : Prop :=
  let ops := OMap.collect (entries.map fun e => (opid e.operation, e.operation))
  let seals := OMap.collect (entries.map fun e => (opid e.operation, OMap.collect e.definedSeals.entries))
  let witnesses := OMap.collect (entries.map fun e => (opid e.operation, e.witness.toList))
  (∃ first, contract.knownOps.entries.head? = some first ∧ ops.popFirst.insert first.1 first.2 = contract.knownOps) ∧
  (∃ first, contract.sealDefinitions.entries.head? = some first ∧
    seals.popFirst.insert first.1 first.2 = contract.sealDefinitions) ∧
  (∃ first, contract.witnesses.entries.head? = some first ∧
    witnesses.popFirst.insert first.1 first.2 = contract.witnesses)

end

open Spec

/-! ### facts -/

section
variable {Seal : Type} [LinearOrder Seal] [RgbSeal Seal] [OpHash]

theorem testReader_reads (xs ys : List (OperationSeals Seal)) :
    Reads (TestReader.mk (xs ++ ys)) xs (TestReader.mk (Seal := Seal) ys) := by
  induction xs with
  | nil => exact .nil _
  | cons b xs ih => exact .cons rfl ih

theorem testReader_delivers (xs : List (OperationSeals Seal)) : Delivers (TestReader.mk xs) xs :=
  ⟨⟨[]⟩, ⟨[]⟩, by simpa using testReader_reads xs [], rfl⟩

theorem testContract_lawful : Lawful Seal (TestContract Seal) where
  contractId c x := by cases x <;> rfl
  codex c x := by cases x <;> rfl
  known_operation c v o := by
    simp only [ContractApi.isKnown, ContractApi.applyOperation, OMap.get?_insert]
    split
    · rename_i h; simp [h]
    · rename_i h; simp [h]
  known_seals _ _ _ _ := rfl
  known_witness _ _ _ _ := rfl

theorem OMap.get?_extend_entries {K V : Type} [LinearOrder K] (m d : OMap K V) (k : K) :
    (m.extend d.entries).get? k = (d.get? k).or (m.get? k) := by
  cases h : d.get? k with
  | none =>
    rw [OMap.get?_extend_of_not_mem (OMap.get?_eq_none.1 h)]
    rfl
  | some v =>
    rw [OMap.get?_extend_of_mem (OMap.get?_eq_some.1 h) fun v' h' => OMap.key_unique h' (OMap.get?_eq_some.1 h)]
    rfl

theorem mem_numbered {α β : Type} {o : Opid} {f : α → β} {l : List α} (hl : l.length ≤ 65536) {a : CellAddr} {y : β} :
    (a, y) ∈ numbered o f l ↔ a.opid = o ∧ l[a.pos.val]?.map f = some y := by
  simp only [numbered, List.mem_map, Prod.mk.injEq, Prod.exists, List.mem_zipIdx_iff_getElem?, Option.map_eq_some_iff]
  constructor
  · rintro ⟨x, n, h1, rfl, rfl⟩
    have hn : n < 65536 := Nat.lt_of_lt_of_le (lt_length_of_getElem? h1) hl
    refine ⟨rfl, x, ?_, rfl⟩
    simpa [Fin.ofNat, Nat.mod_eq_of_lt hn] using h1
  · rintro ⟨rfl, x, h1, h2⟩
    refine ⟨x, a.pos.val, h1, ?_, h2⟩
    obtain ⟨o, p⟩ := a
    simp [Fin.ofNat, Nat.mod_eq_of_lt p.isLt]

theorem get?_extend_numbered {α β : Type} {o : Opid} {f : α → β} {l : List α} (hl : l.length ≤ 65536) (m : OMap CellAddr β)
    (a : CellAddr) : (m.extend (numbered o f l)).get? a =
      if a.opid = o then (l[a.pos.val]?.map f).or (m.get? a) else m.get? a := by
  split
  · rename_i h
    cases hx : l[a.pos.val]?.map f with
    | none =>
      rw [OMap.get?_extend_of_not_mem]
      · rfl
      · intro v hv
        rw [mem_numbered hl, hx] at hv
        simp at hv
    | some y =>
      rw [OMap.get?_extend_of_mem (v := y)]
      · rfl
      · exact (mem_numbered hl).2 ⟨h, hx⟩
      · intro v hv
        rw [mem_numbered hl, hx] at hv
        simpa using hv.2.symm
  · rename_i h
    rw [OMap.get?_extend_of_not_mem]
    intro v hv
    exact h ((mem_numbered hl).1 hv).1

end

end Rgb
