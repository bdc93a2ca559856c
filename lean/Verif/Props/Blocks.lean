import Verif.Demo

set_option linter.unusedSectionVars false

/-! # C01 - C13: which blocks are accepted, and what the witness must show -/

namespace Rgb
open Spec

/-! ## C01 -/

section
variable {Seal : Type} [LinearOrder Seal] [RgbSeal Seal] [OpHash]
variable {C E : Type} [ContractApi Seal C]
variable {R : Type} [ReadOperation Seal R]

/-- An empty consignment is accepted and changes nothing. -/
theorem C01_empty_noop {c : C} {r : R} (h : Delivers (Seal := Seal) r []) :
    ∃ o, evaluate (Seal := Seal) c r = some o ∧ o.result = .ok () ∧ o.world.contract = c ∧
      o.world.calls.filter IsCallback = [] := by
  obtain ⟨o, h1, h2, h3⟩ := evaluate_of_delivers (c := c) h validConsignment_nil
  exact ⟨o, h1, h2, h3.contract, h3.callbacks⟩

end

open Demo in
example : Delivers (Seal := Nat) (Tape.mk [] none) [] := tape_delivers []

/-! ## C02 -/

section
variable {Seal : Type} [LinearOrder Seal] [RgbSeal Seal] [OpHash]
variable {C E : Type} [ContractApi Seal C]
variable {R : Type} [ReadOperation Seal R]

/-- The first operation of an accepted consignment carries the codex id. -/
theorem C02_commits_to_codex {c : C} {r : R} {b : OperationSeals Seal} {rest} {o}
    (h : Accepted c r (b :: rest) o) :
    b.operation.contractId.bytes = (ContractApi.codex Seal c).codexId.bytes :=
  (h.valid 0 b rfl).codex rfl

/-- If it does not, the consignment is rejected at once, whatever follows. -/
theorem C02_rejected {c : C} {r : R} {b : OperationSeals Seal} (hr : StartsWith r [b])
    (hb : b.operation.contractId.bytes ≠ (ContractApi.codex Seal c).codexId.bytes) :
    ∃ o, evaluate (Seal := Seal) c r = some o ∧ o.result = .error .noCodexCommitment ∧ o.world.contract = c ∧
      o.world.calls.filter IsCallback = [] := by
  obtain ⟨o, h1, h2, _, h3⟩ := evaluate_of_rejection (c := c) (blocks := []) hr validConsignment_nil (.codex rfl hb)
  exact ⟨o, h1, h2, h3.contract, h3.callbacks⟩

end

open Demo in
example : ∃ o, Accepted ledger (Tape.mk story none) (genesis :: [transfer1, transfer2]) o := story_run

open Demo in
example : StartsWith (Seal := Nat) (Tape.mk (transfer1 :: [genesis]) none) [transfer1] ∧
    transfer1.operation.contractId.bytes ≠ (ContractApi.codex Nat ledger).codexId.bytes :=
  ⟨tape_startsWith [_] _ _, by decide +kernel⟩

/-! ## C03 -/

section
variable {Seal : Type} [LinearOrder Seal] [RgbSeal Seal] [OpHash]
variable {C E : Type} [ContractApi Seal C]
variable {R : Type} [ReadOperation Seal R]

/-- Every `apply_operation` call of any run belongs to a block after the first: when it is made, the
reader has been polled at least twice. -/
theorem C03_genesis_not_applied {c : C} {r : R} {o} (h : evaluate (Seal := Seal) c r = some o)
    {pre post : List (Call Seal)} {v : VerifiedOperation} (hc : o.world.calls = pre ++ .applyOperation v :: post) :
    ∃ (blocks : List (OperationSeals Seal)) (i : Nat) (b : OperationSeals Seal), StartsWith r blocks ∧ blocks[i]? = some b ∧ 1 ≤ i ∧ polls pre = i + 1 ∧
      codexAnswer Seal (contractAt (ContractApi.contractId Seal c) c blocks i) (ContractApi.contractId Seal c)
        b.operation = .ok v := by
  obtain ⟨blocks, i, b, seals, pre₀, cb₁, cb₂, h1, h2, h3, h4, h5, h6, h7, h8⟩ := locate h rfl hc
  have hmem : .applyOperation v ∈ operationCallbacks (Seal := Seal) (ContractApi.contractId Seal c)
      (contractAt (ContractApi.contractId Seal c) c blocks i) i b := by
    have : Call.applyOperation v ∈ callbacks (ContractApi.contractId Seal c)
      (contractAt (ContractApi.contractId Seal c) c blocks i) i b := by rw [h7]; simp
    simp only [callbacks, List.mem_append] at this
    rcases this with (this | this) | this
    · unfold witnessCallbacks at this; split at this <;> simp at this
    · exact this
    · unfold sealCallbacks at this; split at this <;> simp at this
  have hcb : polls cb₁ = 0 := by
    have := polls_callbacks (ContractApi.contractId Seal c) (contractAt (ContractApi.contractId Seal c) c blocks i) i b
    rw [h7, polls_append] at this
    omega
  unfold operationCallbacks at hmem
  split at hmem
  · simp at hmem
  · rename_i hn
    have hi : i ≠ 0 := fun e => hn (.inl e)
    have hop : opAt (ContractApi.contractId Seal c) i b = b.operation := by simp [opAt, hi]
    refine ⟨blocks, i, b, h1, h3, by omega, ?_, ?_⟩
    · rw [h8, polls_append, polls_cons_read, polls_append, polls_append, polls_queries, polls_sealQueries, hcb, h4]
    · rw [hop] at hmem
      split at hmem
      · rename_i hv
        simp only [List.mem_singleton, Call.applyOperation.injEq] at hmem
        rw [hv, hmem]
      · simp at hmem

end

open Demo in
example : ∃ o pre post v, evaluate (Seal := Nat) ledger (Tape.mk story none) = some o ∧
    o.world.calls = pre ++ .applyOperation v :: post := by
  obtain ⟨o, h⟩ := story_run
  obtain ⟨pre, post, hp⟩ := mem_calls h (l₁ := callbacksUpTo ⟨9⟩ ledger story 1 ++ [.applyWitness ⟨101⟩ (wit 50 [1] 101)])
    (x := .applyOperation ⟨⟨101⟩, transfer1.operation⟩) (l₂ := _) rfl
  exact ⟨o, pre, post, _, h.run, hp⟩

/-! ## C04 -/

section
variable {Seal : Type} [LinearOrder Seal] [RgbSeal Seal] [OpHash]
variable {C E : Type} [ContractApi Seal C]
variable {R : Type} [ReadOperation Seal R]

/-- The first operation of an accepted consignment has no destructible inputs. -/
theorem C04_first_closes_nothing {c : C} {r : R} {b : OperationSeals Seal} {rest} {o}
    (h : Accepted c r (b :: rest) o) : b.operation.destructibleIn = [] := by
  obtain ⟨seals, hf, _⟩ := (h.valid 0 b rfl).closed
  cases hins : b.operation.destructibleIn with
  | nil => rfl
  | cons inp t =>
    rw [hins] at hf
    cases hf with
    | cons ho _ => exact absurd ho Spec.OpenAt.zero

/-- If it has one, and passes the preceding checks, the error names its first input. -/
theorem C04_rejected {c : C} {r : R} {b : OperationSeals Seal} {inp : Input} {t : List Input}
    (hr : StartsWith r [b]) (h1 : b.operation.contractId.bytes = (ContractApi.codex Seal c).codexId.bytes)
    (h2 : SealsCommitted b) (h3 : b.operation.destructibleIn = inp :: t) :
    ∃ o, evaluate (Seal := Seal) c r = some o ∧ o.result = .error (.sealUnknown inp.addr) ∧ o.world.contract = c ∧
      o.world.calls.filter IsCallback = [] := by
  have rej : Rejection (E := ReadOperation.Error Seal R) c [] b (.sealUnknown inp.addr) [] :=
    .unknown (pre := []) (fun _ => h1) h2 h3 (by simp) (by simp) (.inl fun s => Spec.OpenAt.zero)
  obtain ⟨o, k1, k2, _, k3⟩ := evaluate_of_rejection (c := c) (blocks := []) hr validConsignment_nil rej
  exact ⟨o, k1, k2, k3.contract, k3.callbacks⟩

end

namespace Demo
/-- A genesis with an input. -/
def badGenesis : Block := { genesis with operation := { genesisOp with destructibleIn := [⟨at_ 3 0, .none⟩] } }
end Demo

open Demo in
example : StartsWith (Seal := Nat) (Tape.mk (badGenesis :: [transfer1]) none) [badGenesis] ∧
    badGenesis.operation.contractId.bytes = (ContractApi.codex Nat ledger).codexId.bytes ∧ SealsCommitted badGenesis ∧
    badGenesis.operation.destructibleIn = ⟨at_ 3 0, .none⟩ :: [] :=
  ⟨tape_startsWith [_] _ _, by decide +kernel, isSubset_iff_committed.1 (by decide +kernel), rfl⟩

/-! ## C05 -/

section
variable {Seal : Type} [LinearOrder Seal] [RgbSeal Seal] [OpHash]
variable {C E : Type} [ContractApi Seal C]
variable {R : Type} [ReadOperation Seal R]

/-- In an accepted consignment the token of every revealed seal is the token of a cell of the same operation. -/
theorem C05_seals_committed {c : C} {r : R} {blocks : List (OperationSeals Seal)} {o} (h : Accepted c r blocks o)
    {i : Nat} {b : OperationSeals Seal} (hb : blocks[i]? = some b) {p : U16} {d : RgbSeal.Definition Seal}
    (hd : (p, d) ∈ b.definedSeals.entries) :
    ∃ cell ∈ b.operation.destructibleOut, cell.auth = RgbSeal.authToken d :=
  (h.valid i b hb).committed p d hd

/-- Otherwise the block is rejected, and the error carries exactly the two token sets and the
displayed definitions. -/
theorem C05_rejected {c : C} {r : R} {blocks : List (OperationSeals Seal)} {b : OperationSeals Seal}
    (hr : StartsWith r (blocks ++ [b])) (hv : ValidConsignment c blocks) (h1 : CommitsToCodex c blocks b)
    {p : U16} {d : RgbSeal.Definition Seal} (hd : (p, d) ∈ b.definedSeals.entries)
    (hn : ∀ cell ∈ b.operation.destructibleOut, cell.auth ≠ RgbSeal.authToken d) :
    ∃ o reported defined sources, evaluate (Seal := Seal) c r = some o ∧
      o.result = .error (.sealsDefinitionMismatch (nextId c blocks b) reported defined sources) ∧
      (∀ t, t ∈ reported.elems ↔ ∃ p d, (p, d) ∈ b.definedSeals.entries ∧ t = RgbSeal.authToken d) ∧
      (∀ t, t ∈ defined.elems ↔ ∃ cell ∈ b.operation.destructibleOut, t = cell.auth) ∧
      (∀ p s, (p, s) ∈ sources.entries ↔ ∃ d, (p, d) ∈ b.definedSeals.entries ∧ s = RgbSeal.display d) := by
  obtain ⟨o, k1, k2, _, k3⟩ := evaluate_of_rejection (c := c) (blocks := blocks) hr hv
    (.mismatch h1 ⟨p, d, hd, hn⟩ (fun _ => mem_reportedSet) (fun _ => mem_definedSet) (fun _ _ => mem_sourcesMap))
  exact ⟨o, _, _, _, k1, k2, fun _ => mem_reportedSet, fun _ => mem_definedSet, fun _ _ => mem_sourcesMap⟩

end

namespace Demo
/-- A transfer revealing a seal it does not commit to. -/
def lyingTransfer : Block := { transfer1 with definedSeals := .collect [(0, .rel 3), (1, .abs 77)] }
end Demo

open Demo in
example : ∃ (o : _) (i : Nat) (b : Block) (p : U16) (d : Def), Accepted ledger (Tape.mk story none) story o ∧ story[i]? = some b ∧ (p, d) ∈ b.definedSeals.entries := by
  obtain ⟨o, h⟩ := story_run
  exact ⟨o, 0, genesis, 1, .abs 5, h, rfl, OMap.get?_eq_some.1 rfl⟩

open Demo in
example : StartsWith (Seal := Nat) (Tape.mk ([genesis] ++ [lyingTransfer]) none) ([genesis] ++ [lyingTransfer]) ∧
    ValidConsignment ledger [genesis] ∧ CommitsToCodex ledger [genesis] lyingTransfer ∧
    (1, Def.abs 77) ∈ lyingTransfer.definedSeals.entries ∧
    ∀ cell ∈ lyingTransfer.operation.destructibleOut, cell.auth ≠ RgbSeal.authToken (Seal := Nat) (Def.abs 77) :=
  ⟨by simpa using tape_startsWith ([genesis] ++ [lyingTransfer]) [] none, valid_of_accepts (by decide +kernel), by simp [CommitsToCodex],
    OMap.get?_eq_some.1 rfl, by decide +kernel⟩

/-! ## C06: refuted -/

section
variable {Seal : Type} [LinearOrder Seal] [RgbSeal Seal] [OpHash]
variable {C E : Type} [ContractApi Seal C]
variable {R : Type} [ReadOperation Seal R]

/-- The property as stated: position `n` reveals the seal committed to by cell `n`. -/
def C06_statement : Prop :=
  ∀ (Seal : Type) [LinearOrder Seal] [RgbSeal Seal] [OpHash] (C : Type) [ContractApi Seal C]
    (R : Type) [ReadOperation Seal R] (c : C) (r : R) (blocks : List (OperationSeals Seal)) o,
    Accepted c r blocks o →
    ∀ (i : Nat) b (p : U16) d, blocks[i]? = some b → (p, d) ∈ b.definedSeals.entries →
      ∃ cell : StateCell, b.operation.destructibleOut[(p : Nat)]? = some cell ∧ cell.auth = RgbSeal.authToken d

end

namespace Demo
/-- Genesis revealing its two seals at swapped positions, and one of them once more at a position
where there is no cell. -/
def swappedGenesis : Block := ⟨genesisOp, .collect [(0, .abs 5), (1, .abs 1), (9, .abs 1)], none⟩

/-- Spends output 0 of the swapped genesis by closing the seal committed to by output 1. -/
def wrongSpend : Block := ⟨op 103 [at_ 100 0] [], .empty, some (wit 60 [5] 103)⟩
end Demo

open Demo in
/-- C06 is false: definitions may be revealed at positions of other cells, and even at positions where
there is no cell; the cell is then spent by closing the wrong seal. -/
theorem C06_refuted : ¬ C06_statement := by
  intro h
  obtain ⟨o, ho⟩ := Demo.accepted_of_accepts (c := Demo.ledger) (bs := [Demo.swappedGenesis, Demo.wrongSpend]) (by decide +kernel)
  obtain ⟨cell, h1, h2⟩ := h Nat Ledger Tape _ _ _ o ho 0 _ 0 (.abs 5) rfl (OMap.get?_eq_some.1 rfl)
  have : Demo.swappedGenesis.operation.destructibleOut[((0 : U16) : Nat)]? = some (Demo.cell (.abs 1)) := rfl
  rw [this] at h1
  simp only [Option.some.injEq] at h1
  subst h1
  exact absurd h2 (by decide +kernel)

section
variable {Seal : Type} [LinearOrder Seal] [RgbSeal Seal] [OpHash]
variable {C E : Type} [ContractApi Seal C]
variable {R : Type} [ReadOperation Seal R]

/-- What holds instead (missing: the positions).  The revealed tokens are tokens of cells of the same
operation, at some position; so if all cells of the operation carry one token, the token at the
position is right whenever there is a cell at that position. -/
theorem C06_partial {c : C} {r : R} {blocks : List (OperationSeals Seal)} {o} (h : Accepted c r blocks o)
    {i : Nat} {b : OperationSeals Seal} (hb : blocks[i]? = some b) {p : U16} {d : RgbSeal.Definition Seal}
    (hd : (p, d) ∈ b.definedSeals.entries) :
    (∃ (n : Nat) (cell : StateCell), b.operation.destructibleOut[n]? = some cell ∧ cell.auth = RgbSeal.authToken d) ∧
    ((∀ x ∈ b.operation.destructibleOut, ∀ y ∈ b.operation.destructibleOut, x.auth = y.auth) →
      ∀ cell : StateCell, b.operation.destructibleOut[(p : Nat)]? = some cell → cell.auth = RgbSeal.authToken d) := by
  obtain ⟨cell, h1, h2⟩ := C05_seals_committed h hb hd
  refine ⟨?_, fun hall cell' hc' => ?_⟩
  · obtain ⟨n, hn⟩ := List.mem_iff_getElem?.1 h1
    exact ⟨n, cell, hn, h2⟩
  · rw [hall cell' (List.mem_of_getElem? hc') cell h1, h2]

/-! ## C07 -/

theorem closed_open {c : C} {blocks : List (OperationSeals Seal)} {i : Nat} {b : OperationSeals Seal}
    (h : ValidBlock c blocks i b) {inp : Input} (hi : inp ∈ b.operation.destructibleIn) :
    ∃ s, OpenAt (ContractApi.contractId Seal c) blocks i inp.addr s := by
  obtain ⟨seals, hf, hrest⟩ := h.closed
  clear hrest
  generalize b.operation.destructibleIn = l at hf hi
  induction hf with
  | nil => simp at hi
  | cons ho _ ih =>
    rcases List.mem_cons.1 hi with rfl | hi
    · exact ⟨_, ho⟩
    · exact ih hi

/-- Every input was announced by an earlier block, which carries the creating operation, reveals a seal
for the output, and gives the means to make it concrete. -/
theorem C07_causality {c : C} {r : R} {blocks : List (OperationSeals Seal)} {o} (h : Accepted c r blocks o)
    {i : Nat} {b : OperationSeals Seal} (hb : blocks[i]? = some b) {inp : Input} (hi : inp ∈ b.operation.destructibleIn) :
    ∃ j bj d, j < i ∧ blocks[j]? = some bj ∧ inp.addr.opid = idAt (ContractApi.contractId Seal c) j bj ∧
      (inp.addr.pos, d) ∈ bj.definedSeals.entries ∧ ((RgbSeal.toSrc d).isSome ∨ bj.witness.isSome) := by
  obtain ⟨s, j, bj, hj, hbj, ⟨ha, d, hd, hs⟩, _⟩ := closed_open (h.valid i b hb) hi
  refine ⟨j, bj, d, hj, hbj, ha, hd, ?_⟩
  rcases hs with hs | ⟨_, w, hw, _⟩
  · left; rw [hs]; rfl
  · right; rw [hw]; rfl

/-- With distinct operation ids, no block consumes an output of itself or of a later block. -/
theorem C07_not_later {c : C} {r : R} {blocks : List (OperationSeals Seal)} {o} (h : Accepted c r blocks o)
    (hids : ∀ i j b b', blocks[i]? = some b → blocks[j]? = some b' →
      idAt (ContractApi.contractId Seal c) i b = idAt (ContractApi.contractId Seal c) j b' → i = j)
    {i : Nat} {b : OperationSeals Seal} (hb : blocks[i]? = some b) {inp : Input} (hi : inp ∈ b.operation.destructibleIn)
    {k : Nat} {bk : OperationSeals Seal} (hk : i ≤ k) (hbk : blocks[k]? = some bk) :
    inp.addr.opid ≠ idAt (ContractApi.contractId Seal c) k bk := by
  obtain ⟨j, bj, d, hj, hbj, ha, _⟩ := C07_causality h hb hi
  intro e
  have := hids j k bj bk hbj hbk (ha.symm.trans e)
  omega

end

open Demo in
example : (∃ o, Accepted ledger (Tape.mk story none) story o) ∧
    (∀ i j b b', story[i]? = some b → story[j]? = some b' → idAt ⟨9⟩ i b = idAt ⟨9⟩ j b' → i = j) ∧
    transfer2.operation.destructibleIn.length = 2 := by
  refine ⟨story_run, ?_, rfl⟩
  intro i j b b' hb hb' he
  have hi := lt_length_of_getElem? hb
  have hj := lt_length_of_getElem? hb'
  have key : ∀ i < 3, ∀ j < 3, ∀ b ∈ story[i]?, ∀ b' ∈ story[j]?,
    idAt (Seal := Nat) ⟨9⟩ i b = idAt ⟨9⟩ j b' → i = j := by decide +kernel
  exact key i hi j hj b hb b' hb' he

/-! ## C08 -/

section
variable {Seal : Type} [LinearOrder Seal] [RgbSeal Seal] [OpHash]
variable {C E : Type} [ContractApi Seal C]
variable {R : Type} [ReadOperation Seal R]

/-- The inputs of each operation of an accepted consignment are pairwise distinct. -/
theorem C08_distinct_inputs {c : C} {r : R} {blocks : List (OperationSeals Seal)} {o} (h : Accepted c r blocks o)
    {b : OperationSeals Seal} (hb : b ∈ blocks) : (b.operation.destructibleIn.map (·.addr)).Nodup := by
  obtain ⟨i, hi⟩ := List.mem_iff_getElem?.1 hb
  exact (h.valid i b hi).distinct

/-- A stream presenting an operation with a repeated input is never accepted, wherever it stands. -/
theorem C08_never_accepted {c : C} {r : R} {blocks : List (OperationSeals Seal)} {b : OperationSeals Seal}
    (hr : StartsWith r (blocks ++ [b])) {p m q : List Input} {x y : Input}
    (hd : b.operation.destructibleIn = p ++ x :: m ++ y :: q) (hxy : x.addr = y.addr) {o}
    (h : evaluate (Seal := Seal) c r = some o) : ∃ e, o.result = .error e := by
  cases hres : o.result with
  | error e => exact ⟨e, rfl⟩
  | ok u =>
    exfalso
    obtain ⟨bs, hs⟩ := run_shape h
    obtain ⟨segs, tail, _, _, h3⟩ := hs.stop
    rcases h3 with ⟨_, _, r₁, h4, h5⟩ | ⟨e, he, _⟩ | ⟨b, e, he, _⟩
    · obtain ⟨r₂, hr⟩ := hr
      rcases h4.det hr with ⟨zs, e1, hz⟩ | ⟨zs, e1, hz⟩
      · cases hz with
        | nil =>
          have hnd := C08_distinct_inputs ⟨h, hres, r₁, _, h4, h5⟩ (b := b) (by rw [List.append_nil] at e1; rw [← e1]; simp)
          rw [hd] at hnd
          simp [List.nodup_append, hxy] at hnd
        | cons hz' _ => rw [h5] at hz'; simp at hz'
      · have hnd := C08_distinct_inputs ⟨h, hres, r₁, _, h4, h5⟩ (b := b) (by rw [e1]; simp)
        rw [hd] at hnd
        simp [List.nodup_append, hxy] at hnd
    · rw [hres] at he; simp at he
    · rw [hres] at he; simp at he

end

namespace Demo
/-- An operation spending the same cell twice. -/
def doubleInput : Block := ⟨op 104 [at_ 100 0, at_ 100 0] [], .empty, some (wit 60 [1, 1] 104)⟩
end Demo

open Demo in
example : StartsWith (Seal := Nat) (Tape.mk ([genesis] ++ [doubleInput]) none) ([genesis] ++ [doubleInput]) ∧
    doubleInput.operation.destructibleIn = [] ++ (⟨at_ 100 0, .none⟩ : Input) :: [] ++ ⟨at_ 100 0, .none⟩ :: [] :=
  ⟨by simpa using tape_startsWith ([genesis] ++ [doubleInput]) [] none, rfl⟩

/-! ## C09, C10 -/

section
variable {Seal : Type} [LinearOrder Seal] [RgbSeal Seal] [OpHash]
variable {C E : Type} [ContractApi Seal C]
variable {R : Type} [ReadOperation Seal R]

/-- Between two consumptions of a cell there is an announcement of it, by a block carrying the creating
operation. -/
theorem C10_reannounced {c : C} {r : R} {blocks : List (OperationSeals Seal)} {o} (h : Accepted c r blocks o)
    {i j : Nat} {bi bj : OperationSeals Seal} (hi : blocks[i]? = some bi) (hj : blocks[j]? = some bj) (hij : i < j)
    {a : CellAddr} (ci : Consumes bi a) (cj : Consumes bj a) :
    ∃ k bk, i ≤ k ∧ k < j ∧ blocks[k]? = some bk ∧ a.opid = idAt (ContractApi.contractId Seal c) k bk ∧
      (∃ d, (a.pos, d) ∈ bk.definedSeals.entries) ∧ ∃ s, Announces (ContractApi.contractId Seal c) k bk a s := by
  obtain ⟨inp, hm, rfl⟩ := cj
  obtain ⟨s, k, bk, hk, hbk, han, hno⟩ := closed_open (h.valid j bj hj) hm
  refine ⟨k, bk, ?_, hk, hbk, han.1, ?_, s, han⟩
  · by_contra hlt
    exact (hno i bi (by omega) hij hi).1 ci
  · obtain ⟨_, d, hd, _⟩ := han
    exact ⟨d, hd⟩

/-- Closings never outnumber announcements: each consuming position has its own announcing position,
earlier in the stream. -/
theorem C10_counted {c : C} {r : R} {blocks : List (OperationSeals Seal)} {o} (h : Accepted c r blocks o)
    (a : CellAddr) :
    ∃ f : Nat → Nat, (∀ i b, blocks[i]? = some b → Consumes b a →
        f i < i ∧ ∃ b' s, blocks[f i]? = some b' ∧ Announces (ContractApi.contractId Seal c) (f i) b' a s) ∧
      (∀ i j b b', blocks[i]? = some b → blocks[j]? = some b' → Consumes b a → Consumes b' a → f i = f j → i = j) := by
  classical
  have hex : ∀ i b, blocks[i]? = some b → Consumes b a → ∃ s, OpenAt (ContractApi.contractId Seal c) blocks i a s := by
    rintro i b hb ⟨inp, hm, rfl⟩
    exact closed_open (h.valid i b hb) hm
  let P : Nat → Nat → Prop := fun i j => ∃ b s, j < i ∧ blocks[j]? = some b ∧ Announces (ContractApi.contractId Seal c) j b a s ∧
    ∀ k b', j < k → k < i → blocks[k]? = some b' → ¬ Consumes b' a ∧ ∀ s', ¬ Announces (ContractApi.contractId Seal c) k b' a s'
  let f : Nat → Nat := fun i => if hp : ∃ j, P i j then Classical.choose hp else i
  have hf : ∀ i b, blocks[i]? = some b → Consumes b a → P i (f i) := by
    intro i b hb hc
    obtain ⟨s, j, bj, h1, h2, h3, h4⟩ := hex i b hb hc
    have hp : ∃ j, P i j := ⟨j, bj, s, h1, h2, h3, h4⟩
    have : f i = Classical.choose hp := dif_pos hp
    rw [this]
    exact Classical.choose_spec hp
  have hlt : ∀ i j b b', blocks[i]? = some b → blocks[j]? = some b' → Consumes b a → Consumes b' a → i < j → f i < f j := by
    intro i j b b' hb hb' hc hc' hij
    obtain ⟨_, _, h1, _⟩ := hf i b hb hc
    obtain ⟨_, _, _, _, _, h4⟩ := hf j b' hb' hc'
    by_contra hge
    exact (h4 i b (by omega) hij hb).1 hc
  refine ⟨f, ?_, ?_⟩
  · intro i b hb hc
    obtain ⟨b', s, h1, h2, h3, _⟩ := hf i b hb hc
    exact ⟨h1, b', s, h2, h3⟩
  · intro i j b b' hb hb' hc hc' he
    rcases Nat.lt_trichotomy i j with hl | hl | hl
    · have := hlt i j b b' hb hb' hc hc' hl; omega
    · exact hl
    · have := hlt j i b' b hb' hb hc' hc hl; omega

/-- If no two blocks carry the same operation id, no cell is consumed twice in the whole stream. -/
theorem C09_no_double_closing {c : C} {r : R} {blocks : List (OperationSeals Seal)} {o} (h : Accepted c r blocks o)
    (hids : ∀ i j b b', blocks[i]? = some b → blocks[j]? = some b' →
      idAt (ContractApi.contractId Seal c) i b = idAt (ContractApi.contractId Seal c) j b' → i = j) :
    (blocks.flatMap fun b => b.operation.destructibleIn.map (·.addr)).Nodup := by
  have hsingle : ∀ (i j : Nat) (b b' : OperationSeals Seal) (a : CellAddr), blocks[i]? = some b → blocks[j]? = some b' → i < j → Consumes b a → Consumes b' a → False := by
    intro i j b b' a hb hb' hij hc hc'
    obtain ⟨k, bk, h1, h2, h3, h4, _⟩ := C10_reannounced h hb hb' hij hc hc'
    obtain ⟨inp, hm, rfl⟩ := hc
    obtain ⟨k', bk', d, g1, g2, g3, _⟩ := C07_causality h hb hm
    have := hids k k' bk bk' h3 g2 (h4.symm.trans g3)
    omega
  have hpart : ∀ n, n ≤ blocks.length →
      ((blocks.take n).flatMap fun b => b.operation.destructibleIn.map (·.addr)).Nodup := by
    intro n hn
    induction n with
    | zero => simp
    | succ n ih =>
      have hlt : n < blocks.length := by omega
      have hb : blocks[n]? = some blocks[n] := by simp [hlt]
      rw [← List.take_append_getElem hlt, List.flatMap_append, List.nodup_append]
      refine ⟨ih (by omega), ?_, ?_⟩
      · simpa using (h.valid n _ hb).distinct
      · intro a ha a' ha' e
        subst e
        simp only [List.flatMap_cons, List.flatMap_nil, List.append_nil, List.mem_map] at ha'
        obtain ⟨inp', hm', e'⟩ := ha'
        obtain ⟨b, hbm, ha⟩ := List.mem_flatMap.1 ha
        obtain ⟨inp, hm, e⟩ := List.mem_map.1 ha
        obtain ⟨k, hk⟩ := List.mem_iff_getElem?.1 hbm
        have hkn : k < n := by
          have := lt_length_of_getElem? hk
          simp at this; omega
        rw [List.getElem?_take_of_lt hkn] at hk
        exact hsingle k n b _ a hk hb hkn ⟨inp, hm, e⟩ ⟨inp', hm', e'⟩
  simpa using hpart blocks.length (Nat.le_refl _)

/-- The unconditional claim: no cell is consumed by two blocks of an accepted consignment. -/
def C10_unconditional : Prop :=
  ∀ (Seal : Type) [LinearOrder Seal] [RgbSeal Seal] [OpHash] (C : Type) [ContractApi Seal C]
    (R : Type) [ReadOperation Seal R] (c : C) (r : R) (blocks : List (OperationSeals Seal)) o,
    Accepted c r blocks o →
    ∀ (i j : Nat) b b' a, blocks[i]? = some b → blocks[j]? = some b' → Consumes b a → Consumes b' a → i = j

end

namespace Demo
/-- Genesis presented again, as a known operation. -/
def genesisAgain : Block := ⟨op 100 [] [.abs 1, .abs 5, .rel 2], .collect [(0, .abs 1)], none⟩

/-- A consignment spending genesis output 0 twice. -/
def replay : List Block := [genesis, transfer1, genesisAgain, transfer1]
end Demo

open Demo in
/-- It is false: repeating an input-less operation re-opens its cells. -/
theorem C10_refuted : ¬ C10_unconditional := by
  intro h
  obtain ⟨o, ho⟩ := Demo.accepted_of_accepts (c := Demo.ledger) (bs := Demo.replay) (by decide +kernel)
  have hc : Consumes Demo.transfer1 (Demo.at_ 100 0) := ⟨⟨Demo.at_ 100 0, .none⟩, by simp [Demo.transfer1, Demo.op], rfl⟩
  have := h Nat Ledger Tape _ _ _ o ho 1 3 _ _ (Demo.at_ 100 0) rfl rfl hc hc
  omega

open Demo in
example : (∃ o, Accepted ledger (Tape.mk replay none) replay o) ∧ replay[1]? = some transfer1 ∧ replay[3]? = some transfer1 ∧
    Consumes transfer1 (at_ 100 0) :=
  ⟨accepted_of_accepts (by decide +kernel), rfl, rfl, ⟨⟨at_ 100 0, .none⟩, by simp [transfer1, op], rfl⟩⟩

/-! ## C11, C12, C13 -/

section
variable {Seal : Type} [LinearOrder Seal] [RgbSeal Seal] [OpHash]
variable {C E : Type} [ContractApi Seal C]
variable {R : Type} [ReadOperation Seal R]

/-- Every operation with inputs has a witness, and the seal protocol was asked about, and accepted, it
closing exactly the seals of the inputs, in order, over the operation id. -/
theorem C11_spending_witnessed {c : C} {r : R} {blocks : List (OperationSeals Seal)} {o} (h : Accepted c r blocks o)
    {i : Nat} {b : OperationSeals Seal} (hb : blocks[i]? = some b) (hin : b.operation.destructibleIn ≠ []) :
    ∃ w seals, b.witness = some w ∧
      List.Forall₂ (fun (inp : Input) s => OpenAt (ContractApi.contractId Seal c) blocks i inp.addr s)
        b.operation.destructibleIn seals ∧
      RgbSeal.verifySealsClosing w.published w.client seals
        (message Seal (idAt (ContractApi.contractId Seal c) i b)) = .ok () ∧
      .verifySealsClosing w seals (message Seal (idAt (ContractApi.contractId Seal c) i b)) ∈ o.world.calls := by
  obtain ⟨seals, h1, h2, h3⟩ := (h.valid i b hb).closed
  cases hw : b.witness with
  | none => exact absurd ((forall₂_length_nil h1).2 (h3 hw)) hin
  | some w =>
    refine ⟨w, seals, rfl, h1, h2 w hw, ?_⟩
    obtain ⟨segs, hs, hc⟩ := h.trace
    have hi := lt_length_of_getElem? hb
    have hl : i < segs.length := by rw [hs.1]; exact hi
    obtain ⟨seals', hf', hl'⟩ := hs.2 i b segs[i] hb (by simp)
    have : seals' = seals := sealed_unique h1 hf'
    subst this
    rw [hc]
    simp only [List.mem_append, List.mem_flatten]
    refine .inl (.inr ⟨segs[i], by simp, ?_⟩)
    rw [hl', sealQueries, hw]
    simp

end

open Demo in
example : (∃ o, Accepted ledger (Tape.mk story none) story o) ∧ story[2]? = some transfer2 ∧
    transfer2.operation.destructibleIn ≠ [] := ⟨story_run, rfl, by simp [transfer2, op]⟩

section
variable {Seal : Type} [LinearOrder Seal] [RgbSeal Seal] [OpHash]
variable {C E : Type} [ContractApi Seal C]
variable {R : Type} [ReadOperation Seal R]

/-- Every `apply_witness` call of any run is for a block carrying that witness, after the seal protocol
accepted it for the seals of the block's inputs and the block's operation id. -/
theorem C12_witness_verified {c : C} {r : R} {o} (h : evaluate (Seal := Seal) c r = some o)
    {pre post : List (Call Seal)} {id : Opid} {w : SealWitness Seal}
    (hc : o.world.calls = pre ++ .applyWitness id w :: post) :
    ∃ blocks i b seals, StartsWith r blocks ∧ blocks[i]? = some b ∧ polls pre = i + 1 ∧ b.witness = some w ∧
      id = idAt (ContractApi.contractId Seal c) i b ∧
      List.Forall₂ (fun (inp : Input) s => OpenAt (ContractApi.contractId Seal c) blocks i inp.addr s)
        b.operation.destructibleIn seals ∧
      RgbSeal.verifySealsClosing w.published w.client seals (message Seal id) = .ok () ∧
      ∃ pre', pre = pre' ++ [.verifySealsClosing w seals (message Seal id)] := by
  obtain ⟨blocks, i, b, seals, pre₀, cb₁, cb₂, h1, h2, h3, h4, h5, h6, h7, h8⟩ := locate h rfl hc
  have hcb : polls cb₁ = 0 := by
    have := polls_callbacks (ContractApi.contractId Seal c) (contractAt (ContractApi.contractId Seal c) c blocks i) i b
    rw [h7, polls_append] at this
    omega
  have hmem : .applyWitness id w ∈ witnessCallbacks (idAt (ContractApi.contractId Seal c) i b) b := by
    have : Call.applyWitness id w ∈ callbacks (ContractApi.contractId Seal c)
      (contractAt (ContractApi.contractId Seal c) c blocks i) i b := by rw [h7]; simp
    simp only [callbacks, List.mem_append] at this
    rcases this with (this | this) | this
    · exact this
    · unfold operationCallbacks at this
      split at this
      · simp at this
      · split at this <;> simp at this
    · unfold sealCallbacks at this; split at this <;> simp at this
  unfold witnessCallbacks at hmem
  split at hmem
  swap
  · simp at hmem
  rename_i w' hw
  simp only [List.mem_singleton, Call.applyWitness.injEq] at hmem
  obtain ⟨rfl, rfl⟩ := hmem
  have hcb1 : cb₁ = [] := by
    simp only [callbacks, witnessCallbacks, hw, List.cons_append, List.nil_append] at h7
    cases cb₁ with
    | nil => rfl
    | cons x t =>
      exfalso
      simp only [List.cons_append, List.cons.injEq] at h7
      have hx : Call.applyWitness (idAt (ContractApi.contractId Seal c) i b) w ∈
          operationCallbacks (ContractApi.contractId Seal c) (contractAt (ContractApi.contractId Seal c) c blocks i) i b ++
          sealCallbacks (idAt (ContractApi.contractId Seal c) i b) b := by rw [h7.2]; simp
      simp only [List.mem_append] at hx
      rcases hx with hx | hx
      · unfold operationCallbacks at hx
        split at hx
        · simp at hx
        · split at hx <;> simp at hx
      · unfold sealCallbacks at hx; split at hx <;> simp at hx
  subst hcb1
  obtain ⟨seals', k1, k2, _⟩ := (h2 i b h3).closed
  have hse : seals' = seals := sealed_unique h6 k1
  subst hse
  refine ⟨blocks, i, b, seals', h1, h3, ?_, hw, rfl, h6, k2 w hw, ?_⟩
  · rw [h8, polls_append, polls_cons_read, polls_append, polls_append, polls_queries, polls_sealQueries, hcb, h4]
  · refine ⟨pre₀ ++ .read :: queries (ContractApi.contractId Seal c)
      (contractAt (ContractApi.contractId Seal c) c blocks i) i b, ?_⟩
    rw [h8, sealQueries, hw]
    simp

end

open Demo in
example : ∃ o pre post, evaluate (Seal := Nat) ledger (Tape.mk story none) = some o ∧
    o.world.calls = pre ++ .applyWitness ⟨102⟩ (wit 51 [50003, 5] 102) :: post := by
  obtain ⟨o, h⟩ := story_run
  obtain ⟨pre, post, hp⟩ := mem_calls h (l₁ := callbacksUpTo ⟨9⟩ ledger story 2) (l₂ := _) rfl
  exact ⟨o, pre, post, h.run, hp⟩

section
variable {Seal : Type} [LinearOrder Seal] [RgbSeal Seal] [OpHash]
variable {C E : Type} [ContractApi Seal C]
variable {R : Type} [ReadOperation Seal R]

/-- A block without witness that passes the other checks is rejected with `NoWitness` if it has an
input ... -/
theorem C13_no_witness {c : C} {r : R} {blocks : List (OperationSeals Seal)} {b : OperationSeals Seal} {seals : List Seal}
    (hr : StartsWith r (blocks ++ [b])) (hv : ValidConsignment c blocks) (h1 : CommitsToCodex c blocks b)
    (h2 : SealsCommitted b) (h3 : InputsSealed c blocks b seals) (h4 : ScriptPasses c blocks b)
    (h5 : b.witness = none) (h6 : b.operation.destructibleIn ≠ []) :
    ∃ o, evaluate (Seal := Seal) c r = some o ∧ o.result = .error (.noWitness (nextId c blocks b)) := by
  obtain ⟨o, k1, k2, _⟩ := evaluate_of_rejection (c := c) (blocks := blocks) hr hv (.noWitness h1 h2 h3 h4 h5 h6)
  exact ⟨o, k1, k2⟩

/-- ... and is accepted if it has none. -/
theorem C13_accepted {c : C} {r : R} {blocks : List (OperationSeals Seal)} {b : OperationSeals Seal}
    (hr : Delivers r (blocks ++ [b])) (hv : ValidConsignment c blocks) (h1 : CommitsToCodex c blocks b)
    (h2 : SealsCommitted b) (h4 : ScriptPasses c blocks b)
    (h5 : b.witness = none) (h6 : b.operation.destructibleIn = []) :
    ∃ o, evaluate (Seal := Seal) c r = some o ∧ o.result = .ok () := by
  have hvb : ValidBlock c blocks blocks.length b := by
    refine ⟨fun h => h1 (List.length_eq_zero_iff.1 h), h2, by simp [h6], ⟨[], by simp [h6], by simp [h5], by simp⟩, ?_⟩
    intro hk
    rcases h4 with h4 | h4
    · change ContractApi.isKnown Seal _ (nextId c blocks b) = false at hk
      rw [hk] at h4; simp at h4
    · exact h4
  obtain ⟨o, k1, k2, _⟩ := evaluate_of_delivers hr (validConsignment_snoc.2 ⟨hv, hvb⟩)
  exact ⟨o, k1, k2⟩

theorem of_validBlock {c : C} {blocks : List (OperationSeals Seal)} {b : OperationSeals Seal}
    (h : ValidBlock c blocks blocks.length b) : CommitsToCodex c blocks b ∧ SealsCommitted b ∧
      (∃ seals, InputsSealed c blocks b seals) ∧ ScriptPasses c blocks b := by
  refine ⟨fun e => h.codex (by simp [e]), h.committed, ?_, ?_⟩
  · obtain ⟨seals, hf, _⟩ := h.closed
    exact ⟨seals, h.distinct, hf⟩
  · cases hk : ContractApi.isKnown Seal (contractAt (ContractApi.contractId Seal c) c blocks blocks.length)
      (nextId c blocks b) with
    | true => exact .inl hk
    | false => exact .inr (h.script hk)

end

namespace Demo
/-- `transfer1` without its witness. -/
def unwitnessed : Block := { transfer1 with witness := none }
end Demo

open Demo in
example : ∃ seals, StartsWith (Seal := Nat) (Tape.mk ([genesis] ++ [unwitnessed]) none) ([genesis] ++ [unwitnessed]) ∧
    ValidConsignment ledger [genesis] ∧ CommitsToCodex ledger [genesis] unwitnessed ∧ SealsCommitted unwitnessed ∧
    InputsSealed ledger [genesis] unwitnessed seals ∧ ScriptPasses ledger [genesis] unwitnessed ∧
    unwitnessed.witness = none ∧ unwitnessed.operation.destructibleIn ≠ [] := by
  have hv : ValidConsignment ledger ([genesis] ++ [transfer1]) := valid_of_accepts (by decide +kernel)
  obtain ⟨h0, h1⟩ := validConsignment_snoc.1 hv
  obtain ⟨k1, k2, ⟨seals, k3⟩, k4⟩ := of_validBlock h1
  exact ⟨seals, by simpa using tape_startsWith ([genesis] ++ [unwitnessed]) [] none, h0, k1, k2, k3, k4, rfl, by simp [unwitnessed, transfer1, op]⟩

namespace Demo
/-- A transfer with no inputs. -/
def inputless : Block := ⟨op 105 [] [.abs 4], .collect [(0, .abs 4)], none⟩
end Demo

open Demo in
example : Delivers (Seal := Nat) (Tape.mk ([genesis] ++ [inputless]) none) ([genesis] ++ [inputless]) ∧
    ValidConsignment ledger [genesis] ∧ CommitsToCodex ledger [genesis] inputless ∧ SealsCommitted inputless ∧
    ScriptPasses ledger [genesis] inputless ∧ inputless.witness = none ∧ inputless.operation.destructibleIn = [] := by
  have hv : ValidConsignment ledger ([genesis] ++ [inputless]) := valid_of_accepts (by decide +kernel)
  obtain ⟨h0, h1⟩ := validConsignment_snoc.1 hv
  obtain ⟨k1, k2, ⟨seals, k3⟩, k4⟩ := of_validBlock h1
  exact ⟨tape_delivers _, h0, k1, k2, k4, rfl, rfl⟩

end Rgb
