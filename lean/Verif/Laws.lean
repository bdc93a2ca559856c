import Verif.Spec

/-!
# Laws of contract implementations and histories of evaluations

`ContractApi` (verify.rs:92-138) says in prose what implementations must do; `evaluate` itself does
not rely on it.  Theorems about several evaluations in a row need some of it, as explicit hypotheses.
-/

namespace Rgb.Spec

variable (Seal : Type) [LinearOrder Seal] [RgbSeal Seal] [OpHash]
variable (C : Type) [ContractApi Seal C]

/-- Callbacks change neither the contract id nor the codex, and the known ids are exactly those known
before and those applied (`is_known`, verify.rs:112-118, `apply_operation`, verify.rs:120-124). -/
structure Lawful : Prop where
  contractId : ∀ (c : C) (x : Call Seal), ContractApi.contractId Seal (perform c x) = ContractApi.contractId Seal c
  codex : ∀ (c : C) (x : Call Seal), ContractApi.codex Seal (perform c x) = ContractApi.codex Seal c
  known_operation : ∀ (c : C) (v : VerifiedOperation) (o : Opid),
    ContractApi.isKnown Seal (ContractApi.applyOperation Seal c v) o = true ↔
      ContractApi.isKnown Seal c o = true ∨ o = v.opid
  known_seals : ∀ (c : C) (i : Opid) (s : OMap U16 (RgbSeal.Definition Seal)) (o : Opid),
    ContractApi.isKnown Seal (ContractApi.applySeals c i s) o = ContractApi.isKnown Seal c o
  known_witness : ∀ (c : C) (i : Opid) (w : SealWitness Seal) (o : Opid),
    ContractApi.isKnown Seal (ContractApi.applyWitness c i w) o = ContractApi.isKnown Seal c o

/-- The memory of the contract is only changed by applied operations: these remove the cells they
consume, and add none but their own outputs. -/
structure LawfulMemory : Prop where
  consumed : ∀ (c : C) (v : VerifiedOperation), ∀ inp ∈ v.operation.destructibleIn,
    (ContractApi.memory Seal (ContractApi.applyOperation Seal c v)).destructible inp.addr = none
  created : ∀ (c : C) (v : VerifiedOperation) (a : CellAddr), a.opid ≠ v.opid →
    (ContractApi.memory Seal c).destructible a = none →
    (ContractApi.memory Seal (ContractApi.applyOperation Seal c v)).destructible a = none
  seals : ∀ (c : C) (i : Opid) (s : OMap U16 (RgbSeal.Definition Seal)) (a : CellAddr),
    (ContractApi.memory Seal (ContractApi.applySeals c i s)).destructible a = (ContractApi.memory Seal c).destructible a
  witness : ∀ (c : C) (i : Opid) (w : SealWitness Seal) (a : CellAddr),
    (ContractApi.memory Seal (ContractApi.applyWitness c i w)).destructible a = (ContractApi.memory Seal c).destructible a

/-- A codex returns the operation it was given, with its id. -/
def Faithful (x : Codex) : Prop :=
  ∀ cid op mem repo v, x.verify cid op mem repo = .ok v → v.opid = opid op ∧ v.operation = op

/-- A codex accepts only operations whose destructible inputs are all in memory. -/
def ChecksInputs (x : Codex) : Prop :=
  ∀ cid op mem repo v, x.verify cid op mem repo = .ok v → ∀ inp ∈ op.destructibleIn, mem.destructible inp.addr ≠ none

/-- A codex accepts only operations whose immutable inputs are all in memory. -/
def ChecksReads (x : Codex) : Prop :=
  ∀ cid op mem repo v, x.verify cid op mem repo = .ok v → ∀ a ∈ op.immutableIn, mem.immutable a ≠ none

/-- A codex accepts only operations with property `P` for the contract with id `cid`. -/
def Guarantees (x : Codex) (cid : ContractId) (P : Operation → Prop) : Prop :=
  ∀ op mem repo v, x.verify cid op mem repo = .ok v → P op

variable {Seal C}

/-- Any number of evaluations one after the other, accepted or rejected, with readers of any kind:
from contract `c` to contract `c'`, `l` being all the calls made.  `Start` restricts the first blocks
of the streams. -/
inductive History (Start : C → OperationSeals Seal → Prop) : C → List (Call Seal) → C → Prop where
  | nil (c : C) : History Start c [] c
  | step {R : Type} [ReadOperation Seal R] {c c' : C} {r : R} {o : Outcome Seal R C (ReadOperation.Error Seal R)}
      {l : List (Call Seal)} : (∀ b, StartsWith r [b] → Start c b) → evaluate c r = some o →
      History Start o.world.contract l c' → History Start c (o.world.calls ++ l) c'

/-- No restriction on first blocks. -/
def AnyStart (_ : C) (_ : OperationSeals Seal) : Prop := True

/-- The first operation of the stream is known to the contract. -/
def KnownStart (c : C) (b : OperationSeals Seal) : Prop :=
  ContractApi.isKnown Seal c (opid { b.operation with contractId := ContractApi.contractId Seal c }) = true

/-- Two contract implementations, of possibly different types, that answer every question alike and
keep doing so when the same callbacks are made to both.  Memory and libraries matter only through the
answers of the codex. -/
structure Simulation {C₁ C₂ : Type} [ContractApi Seal C₁] [ContractApi Seal C₂] (S : C₁ → C₂ → Prop) : Prop where
  contractId : ∀ c₁ c₂, S c₁ c₂ → ContractApi.contractId Seal c₁ = ContractApi.contractId Seal c₂
  codexId : ∀ c₁ c₂, S c₁ c₂ → (ContractApi.codex Seal c₁).codexId = (ContractApi.codex Seal c₂).codexId
  isKnown : ∀ c₁ c₂, S c₁ c₂ → ∀ o, ContractApi.isKnown Seal c₁ o = ContractApi.isKnown Seal c₂ o
  verify : ∀ c₁ c₂, S c₁ c₂ → ∀ cid op, codexAnswer Seal c₁ cid op = codexAnswer Seal c₂ cid op
  operation : ∀ c₁ c₂, S c₁ c₂ → ∀ v, S (ContractApi.applyOperation Seal c₁ v) (ContractApi.applyOperation Seal c₂ v)
  witness : ∀ c₁ c₂, S c₁ c₂ → ∀ o (w : SealWitness Seal),
    S (ContractApi.applyWitness c₁ o w) (ContractApi.applyWitness c₂ o w)
  seals : ∀ c₁ c₂, S c₁ c₂ → ∀ o (s : OMap U16 (RgbSeal.Definition Seal)),
    S (ContractApi.applySeals c₁ o s) (ContractApi.applySeals c₂ o s)

/-- The answers of the contract do not depend on the seals reported to it: `S` relates contracts that
answer alike, and reporting seals to one of two related contracts leaves them related. -/
structure SealBlind (S : C → C → Prop) : Prop where
  refl : ∀ c, S c c
  isKnown : ∀ c d, S c d → ∀ o, ContractApi.isKnown Seal c o = ContractApi.isKnown Seal d o
  verify : ∀ c d, S c d → ∀ cid op, codexAnswer Seal c cid op = codexAnswer Seal d cid op
  operation : ∀ c d, S c d → ∀ v, S (ContractApi.applyOperation Seal c v) (ContractApi.applyOperation Seal d v)
  witness : ∀ c d, S c d → ∀ o (w : SealWitness Seal), S (ContractApi.applyWitness c o w) (ContractApi.applyWitness d o w)
  sealsLeft : ∀ c d, S c d → ∀ o (s : OMap U16 (RgbSeal.Definition Seal)), S (ContractApi.applySeals c o s) d
  sealsRight : ∀ c d, S c d → ∀ o (s : OMap U16 (RgbSeal.Definition Seal)), S c (ContractApi.applySeals d o s)

/-- `b'` is `b` with some of the revealed seal definitions left out, and `NotNeeded p` holds for the
positions of all those left out. -/
structure Pruned (b b' : OperationSeals Seal) (NotNeeded : U16 → Prop) : Prop where
  operation : b'.operation = b.operation
  witness : b'.witness = b.witness
  kept : ∀ e ∈ b'.definedSeals.entries, e ∈ b.definedSeals.entries
  dropped : ∀ p d, (p, d) ∈ b.definedSeals.entries → (p, d) ∉ b'.definedSeals.entries → NotNeeded p

/-- `blocks'` is `blocks` with some revealed seal definitions left out that no later block consumes. -/
structure Withheld (cid : ContractId) (blocks blocks' : List (OperationSeals Seal)) : Prop where
  length : blocks'.length = blocks.length
  pruned : ∀ (i : Nat) b b', blocks[i]? = some b → blocks'[i]? = some b' →
    Pruned b b' fun p => ∀ (k : Nat) bk, i < k → blocks[k]? = some bk → ¬ Consumes bk ⟨idAt cid i b, p⟩

/-- `blocks'` is `blocks` with some revealed seal definitions left out, needed or not. -/
structure Trimmed (blocks blocks' : List (OperationSeals Seal)) : Prop where
  length : blocks'.length = blocks.length
  pruned : ∀ (i : Nat) b b', blocks[i]? = some b → blocks'[i]? = some b' → Pruned b b' fun _ => True

/-- `blocks'` has the operations and witnesses of `blocks` and reveals any seal definitions at any positions,
except that for cells consumed by a later block the same definition is revealed as in `blocks`. -/
structure Relabelled (cid : ContractId) (blocks blocks' : List (OperationSeals Seal)) : Prop where
  length : blocks'.length = blocks.length
  operation : ∀ (i : Nat) b b', blocks[i]? = some b → blocks'[i]? = some b' → b'.operation = b.operation
  witness : ∀ (i : Nat) b b', blocks[i]? = some b → blocks'[i]? = some b' → b'.witness = b.witness
  spent : ∀ (i : Nat) b b', blocks[i]? = some b → blocks'[i]? = some b' →
    ∀ (k : Nat) bk p, i < k → blocks[k]? = some bk → Consumes bk ⟨idAt cid i b, p⟩ →
      ∀ d, (p, d) ∈ b'.definedSeals.entries ↔ (p, d) ∈ b.definedSeals.entries

/-- In the consignment `blocks`, some block with operation id `x` consumes an output of the operation
with id `y`. -/
def Spends (cid : ContractId) (blocks : List (OperationSeals Seal)) (x y : Opid) : Prop :=
  ∃ (i : Nat) (b : OperationSeals Seal) (p : U16), blocks[i]? = some b ∧ x = idAt cid i b ∧ Consumes b ⟨y, p⟩

/-- No two different operations of the two consignments have the same id. -/
def NoCollision (cid : ContractId) (xs ys : List (OperationSeals Seal)) : Prop :=
  ∀ (i j : Nat) b b', xs[i]? = some b → ys[j]? = some b' → idAt cid i b = idAt cid j b' → opAt cid i b = opAt cid j b'

/-- Is the call a request to the seal protocol? -/
def IsClosing : Call Seal → Bool
  | .verifySealsClosing .. => true
  | _ => false

/-- Is the call `apply_seals`? -/
def IsSealReport : Call Seal → Bool
  | .applySeals .. => true
  | _ => false

/-- The consignments `xs₁` on contract `c₁` and `xs₂` on `c₂` lead to the same point: the contract ids
agree, the same cells are open with the same seals, and the contracts reached are related by `S`. -/
structure SamePoint {C₁ C₂ : Type} [ContractApi Seal C₁] [ContractApi Seal C₂] (S : C₁ → C₂ → Prop)
    (c₁ : C₁) (xs₁ : List (OperationSeals Seal)) (c₂ : C₂) (xs₂ : List (OperationSeals Seal)) : Prop where
  begun₁ : xs₁ ≠ []
  begun₂ : xs₂ ≠ []
  contractId : ContractApi.contractId Seal c₁ = ContractApi.contractId Seal c₂
  seals : ∀ a s, OpenAt (ContractApi.contractId Seal c₁) xs₁ xs₁.length a s ↔
    OpenAt (ContractApi.contractId Seal c₂) xs₂ xs₂.length a s
  contract : S (contractAt (ContractApi.contractId Seal c₁) c₁ xs₁ xs₁.length)
    (contractAt (ContractApi.contractId Seal c₂) c₂ xs₂ xs₂.length)

/-- The answers of the contract do not depend on the seals and witnesses reported to it. -/
structure ReportBlind (S : C → C → Prop) : Prop where
  refl : ∀ c, S c c
  contractId : ∀ c d, S c d → ContractApi.contractId Seal c = ContractApi.contractId Seal d
  codexId : ∀ c d, S c d → (ContractApi.codex Seal c).codexId = (ContractApi.codex Seal d).codexId
  isKnown : ∀ c d, S c d → ∀ o, ContractApi.isKnown Seal c o = ContractApi.isKnown Seal d o
  verify : ∀ c d, S c d → ∀ cid op, codexAnswer Seal c cid op = codexAnswer Seal d cid op
  operation : ∀ c d, S c d → ∀ v, S (ContractApi.applyOperation Seal c v) (ContractApi.applyOperation Seal d v)
  sealsLeft : ∀ c d, S c d → ∀ o (s : OMap U16 (RgbSeal.Definition Seal)), S (ContractApi.applySeals c o s) d
  sealsRight : ∀ c d, S c d → ∀ o (s : OMap U16 (RgbSeal.Definition Seal)), S c (ContractApi.applySeals d o s)
  witnessLeft : ∀ c d, S c d → ∀ o (w : SealWitness Seal), S (ContractApi.applyWitness c o w) d
  witnessRight : ∀ c d, S c d → ∀ o (w : SealWitness Seal), S c (ContractApi.applyWitness d o w)

/-- Any number of accepted evaluations one after the other, of the given consignments, each starting
with a known operation, from contract `c` to contract `c'`. -/
inductive AllAccepted : C → List (List (OperationSeals Seal)) → C → Prop where
  | nil (c : C) : AllAccepted c [] c
  | cons {R : Type} [ReadOperation Seal R] {c c' : C} {r : R} {blocks : List (OperationSeals Seal)}
      {o : Outcome Seal R C (ReadOperation.Error Seal R)} {rest : List (List (OperationSeals Seal))} :
      Accepted c r blocks o → (∀ b, blocks[0]? = some b → KnownStart c b) →
      AllAccepted o.world.contract rest c' → AllAccepted c (blocks :: rest) c'

/-- The seal protocol deserves its name: whenever two witnesses close lists of seals with a seal in
common, they have the same id and the messages are the same. -/
def SingleUse (Seal : Type) [LinearOrder Seal] [RgbSeal Seal] : Prop :=
  ∀ (w w' : SealWitness Seal) (seals seals' : List Seal) (m m' : RgbSeal.Message Seal) (s : Seal),
    RgbSeal.verifySealsClosing w.published w.client seals m = .ok () →
    RgbSeal.verifySealsClosing w'.published w'.client seals' m' = .ok () →
    s ∈ seals → s ∈ seals' → RgbSeal.pubId w.published = RgbSeal.pubId w'.published ∧ m = m'

/-- The same among the witnesses satisfying `W`, for instance those which are published. -/
def SingleUseAmong (W : SealWitness Seal → Prop) : Prop :=
  ∀ (w w' : SealWitness Seal), W w → W w' → ∀ (seals seals' : List Seal) (m m' : RgbSeal.Message Seal) (s : Seal),
    RgbSeal.verifySealsClosing w.published w.client seals m = .ok () →
    RgbSeal.verifySealsClosing w'.published w'.client seals' m' = .ok () →
    s ∈ seals → s ∈ seals' → RgbSeal.pubId w.published = RgbSeal.pubId w'.published ∧ m = m'

/-- Block `b` at position `i` of `xs` has the witness `w`, block `b'` at position `j` of `ys` has the
witness `w'`, and both witnesses close lists of seals with a seal in common, each over the id of the
operation of its block. -/
def Contend (cid : ContractId) (xs ys : List (OperationSeals Seal)) (i j : Nat) (b b' : OperationSeals Seal)
    (w w' : SealWitness Seal) : Prop :=
  xs[i]? = some b ∧ ys[j]? = some b' ∧ b.witness = some w ∧ b'.witness = some w' ∧
    ∃ (seals seals' : List Seal) (s : Seal), s ∈ seals ∧ s ∈ seals' ∧
      RgbSeal.verifySealsClosing w.published w.client seals (message Seal (idAt cid i b)) = .ok () ∧
      RgbSeal.verifySealsClosing w'.published w'.client seals' (message Seal (idAt cid j b')) = .ok ()

/-- No two witnesses in the two consignments for the contract with id `cid` close a common seal
differently: those that close a common seal have the same id and close it over the same operation id. -/
def NoClash (cid : ContractId) (xs ys : List (OperationSeals Seal)) : Prop :=
  ∀ i j b b' w w', Contend cid xs ys i j b b' w w' →
    RgbSeal.pubId w.published = RgbSeal.pubId w'.published ∧ idAt cid i b = idAt cid j b'

/-- Every definition revealed by the block is committed to by the cell at its own position. -/
def PositionsRight (b : OperationSeals Seal) : Prop :=
  ∀ (p : U16) d, (p, d) ∈ b.definedSeals.entries →
    ∃ cell : StateCell, b.operation.destructibleOut[(p : Nat)]? = some cell ∧ cell.auth = RgbSeal.authToken d

/-- The block reveals definitions relative to its witness only if its operation consumes something. -/
def Anchored (b : OperationSeals Seal) : Prop :=
  ∀ p d, (p, d) ∈ b.definedSeals.entries → RgbSeal.toSrc d = none → b.operation.destructibleIn ≠ []

/-- Different definitions revealed in the two consignments have different tokens. -/
def TokensBind (xs ys : List (OperationSeals Seal)) : Prop :=
  ∀ b ∈ xs, ∀ b' ∈ ys, ∀ p d p' d', (p, d) ∈ b.definedSeals.entries → (p', d') ∈ b'.definedSeals.entries →
    RgbSeal.authToken d = RgbSeal.authToken d' → d = d'

/-- What is assumed of the operations and definitions of two consignments for the contract with id `cid`. -/
structure WellFormed (cid : ContractId) (xs ys : List (OperationSeals Seal)) : Prop where
  collision : NoCollision cid xs ys
  tokens : TokensBind xs ys
  positions : ∀ b, b ∈ xs ∨ b ∈ ys → PositionsRight b
  anchored : ∀ b, b ∈ xs ∨ b ∈ ys → Anchored b

/-- Any number of evaluations one after the other, accepted or rejected, from contract `c` to contract
`c'`, `l` being all the calls made, where all the readers deliver only blocks satisfying `P`. -/
inductive HistoryOf (P : OperationSeals Seal → Prop) : C → List (Call Seal) → C → Prop where
  | nil (c : C) : HistoryOf P c [] c
  | step {R : Type} [ReadOperation Seal R] {c c' : C} {r : R} {o : Outcome Seal R C (ReadOperation.Error Seal R)}
      {l : List (Call Seal)} : (∀ bs, StartsWith r bs → ∀ b ∈ bs, P b) → evaluate c r = some o →
      HistoryOf P o.world.contract l c' → HistoryOf P c (o.world.calls ++ l) c'

/-- Applying an operation adds to the memory no cells but the outputs of the operation, each at its
position, and replaces none by anything else; reports do not touch the memory. -/
structure OutputsOnly (Seal : Type) [LinearOrder Seal] [RgbSeal Seal] (C : Type) [ContractApi Seal C] : Prop where
  operation : ∀ (c : C) (v : VerifiedOperation) (a : CellAddr) (x : StateCell),
    (ContractApi.memory Seal (ContractApi.applyOperation Seal c v)).destructible a = some x →
    (ContractApi.memory Seal c).destructible a = some x ∨
      a.opid = v.opid ∧ v.operation.destructibleOut[(a.pos : Nat)]? = some x
  seals : ∀ (c : C) (i : Opid) (s : OMap U16 (RgbSeal.Definition Seal)) (a : CellAddr),
    (ContractApi.memory Seal (ContractApi.applySeals c i s)).destructible a = (ContractApi.memory Seal c).destructible a
  witness : ∀ (c : C) (i : Opid) (w : SealWitness Seal) (a : CellAddr),
    (ContractApi.memory Seal (ContractApi.applyWitness c i w)).destructible a = (ContractApi.memory Seal c).destructible a

/-- Two blocks at position `i` that agree in everything `evaluate` looks at itself: the operation id, for
the first block the commitment to the codex, the addresses of the inputs, the set of the tokens of the
outputs, the revealed seals and the witness.  The operations themselves are related by `A`. -/
structure Alike (A : Operation → Operation → Prop) (cid : ContractId) (i : Nat) (b₁ b₂ : OperationSeals Seal) : Prop where
  operation : A (opAt cid i b₁) (opAt cid i b₂)
  id : idAt cid i b₁ = idAt cid i b₂
  codex : i = 0 → b₁.operation.contractId.bytes = b₂.operation.contractId.bytes
  inputs : b₁.operation.destructibleIn.map (·.addr) = b₂.operation.destructibleIn.map (·.addr)
  tokens : ∀ t, (∃ cell ∈ b₁.operation.destructibleOut, cell.auth = t) ↔ ∃ cell ∈ b₂.operation.destructibleOut, cell.auth = t
  seals : b₁.definedSeals = b₂.definedSeals
  witness : b₁.witness = b₂.witness

/-- Two contract implementations related by `S` that answer alike, except that their codices are asked
about operations related by `A` and return verified operations related by `V`. -/
structure DataBlind {C₁ C₂ : Type} [ContractApi Seal C₁] [ContractApi Seal C₂] (A : Operation → Operation → Prop)
    (V : VerifiedOperation → VerifiedOperation → Prop) (S : C₁ → C₂ → Prop) : Prop where
  contractId : ∀ c₁ c₂, S c₁ c₂ → ContractApi.contractId Seal c₁ = ContractApi.contractId Seal c₂
  codexId : ∀ c₁ c₂, S c₁ c₂ → (ContractApi.codex Seal c₁).codexId = (ContractApi.codex Seal c₂).codexId
  isKnown : ∀ c₁ c₂, S c₁ c₂ → ∀ o, ContractApi.isKnown Seal c₁ o = ContractApi.isKnown Seal c₂ o
  verify : ∀ c₁ c₂, S c₁ c₂ → ∀ cid op₁ op₂, A op₁ op₂ →
    (∃ e, codexAnswer Seal c₁ cid op₁ = .error e ∧ codexAnswer Seal c₂ cid op₂ = .error e) ∨
    ∃ v₁ v₂, codexAnswer Seal c₁ cid op₁ = .ok v₁ ∧ codexAnswer Seal c₂ cid op₂ = .ok v₂ ∧ V v₁ v₂
  operation : ∀ c₁ c₂, S c₁ c₂ → ∀ v₁ v₂, V v₁ v₂ →
    S (ContractApi.applyOperation Seal c₁ v₁) (ContractApi.applyOperation Seal c₂ v₂)
  witness : ∀ c₁ c₂, S c₁ c₂ → ∀ o (w : SealWitness Seal),
    S (ContractApi.applyWitness c₁ o w) (ContractApi.applyWitness c₂ o w)
  seals : ∀ c₁ c₂, S c₁ c₂ → ∀ o (s : OMap U16 (RgbSeal.Definition Seal)),
    S (ContractApi.applySeals c₁ o s) (ContractApi.applySeals c₂ o s)

/-- Calls that are equal except for the operations in them. -/
inductive CallAlike (A : Operation → Operation → Prop) (V : VerifiedOperation → VerifiedOperation → Prop) :
    Call Seal → Call Seal → Prop where
  | same (x : Call Seal) : appliedOperation x = none → CallAlike A V x x
  | applyOperation {v₁ v₂ : VerifiedOperation} : V v₁ v₂ → CallAlike A V (.applyOperation v₁) (.applyOperation v₂)
  | codexVerify {cid : ContractId} {op₁ op₂ : Operation} : A op₁ op₂ → CallAlike A V (.codexVerify cid op₁) (.codexVerify cid op₂)

/-- The results of read number `n` of two readers are the same, except for operations. -/
inductive ReadAlike (A : Operation → Operation → Prop) (cid : ContractId) (n : Nat) {E : Type} :
    Except E (Option (OperationSeals Seal)) → Except E (Option (OperationSeals Seal)) → Prop where
  | eof : ReadAlike A cid n (.ok none) (.ok none)
  | error (e : E) : ReadAlike A cid n (.error e) (.error e)
  | block {b₁ b₂ : OperationSeals Seal} : Alike A cid n b₁ b₂ → ReadAlike A cid n (.ok (some b₁)) (.ok (some b₂))

/-- Evaluation of the stream of `r` may be interrupted after the calls `pre`: these are an initial part of
the calls made when evaluating an initial part of the stream.  Streams without end are included. -/
def InterruptedAfter {R : Type} [ReadOperation Seal R] (c : C) (r : R) (pre : List (Call Seal)) : Prop :=
  ∃ blocks : List (OperationSeals Seal), StartsWith r blocks ∧
    ∃ (R' : Type) (_ : ReadOperation Seal R') (r' : R') (o : Outcome Seal R' C (ReadOperation.Error Seal R')), Delivers r' blocks ∧ evaluate c r' = some o ∧ pre <+: o.world.calls

/-- Any number of attempts to evaluate the stream of `r`, each from its start and each interrupted, the
callbacks made being kept: from contract `c` to contract `c'`, `l` being all the calls made. -/
inductive Attempts {R : Type} [ReadOperation Seal R] (r : R) : C → List (Call Seal) → C → Prop where
  | nil (c : C) : Attempts r c [] c
  | interrupted {c c' : C} {pre l : List (Call Seal)} : InterruptedAfter c r pre →
      Attempts r (pre.foldl perform c) l c' → Attempts r c (pre ++ l) c'

/-- Applied operations change the memory of the contract only at their inputs and outputs, and there in a
way that depends only on the operation and the cell itself; nothing else changes the memory, and
nothing changes the libraries. -/
structure LocalMemory (Seal : Type) [LinearOrder Seal] [RgbSeal Seal] (C : Type) [ContractApi Seal C] : Prop where
  destructible : ∀ (c : C) (v : VerifiedOperation) (a : CellAddr), a.opid ≠ v.opid →
    (∀ inp ∈ v.operation.destructibleIn, inp.addr ≠ a) →
    (ContractApi.memory Seal (ContractApi.applyOperation Seal c v)).destructible a = (ContractApi.memory Seal c).destructible a
  destructible_congr : ∀ (c d : C) (v : VerifiedOperation) (a : CellAddr),
    (ContractApi.memory Seal c).destructible a = (ContractApi.memory Seal d).destructible a →
    (ContractApi.memory Seal (ContractApi.applyOperation Seal c v)).destructible a =
      (ContractApi.memory Seal (ContractApi.applyOperation Seal d v)).destructible a
  immutable : ∀ (c : C) (v : VerifiedOperation) (a : CellAddr), a.opid ≠ v.opid →
    (ContractApi.memory Seal (ContractApi.applyOperation Seal c v)).immutable a = (ContractApi.memory Seal c).immutable a
  immutable_congr : ∀ (c d : C) (v : VerifiedOperation) (a : CellAddr),
    (ContractApi.memory Seal c).immutable a = (ContractApi.memory Seal d).immutable a →
    (ContractApi.memory Seal (ContractApi.applyOperation Seal c v)).immutable a =
      (ContractApi.memory Seal (ContractApi.applyOperation Seal d v)).immutable a
  seals : ∀ (c : C) (i : Opid) (s : OMap U16 (RgbSeal.Definition Seal)),
    ContractApi.memory Seal (ContractApi.applySeals c i s) = ContractApi.memory Seal c
  witness : ∀ (c : C) (i : Opid) (w : SealWitness Seal),
    ContractApi.memory Seal (ContractApi.applyWitness c i w) = ContractApi.memory Seal c
  repo : ∀ (c : C) (x : Call Seal), ContractApi.repo Seal (perform c x) = ContractApi.repo Seal c

/-- The answer of the codex about an operation depends only on the cells the operation refers to. -/
def LocalCodex (x : Codex) : Prop :=
  ∀ cid op mem mem' repo, (∀ inp ∈ op.destructibleIn, mem.destructible inp.addr = mem'.destructible inp.addr) →
    (∀ a ∈ op.immutableIn, mem.immutable a = mem'.immutable a) → x.verify cid op mem repo = x.verify cid op mem' repo

/-- No operation of the consignment refers to an immutable output of itself or of a later one. -/
def ReadsEarlier (cid : ContractId) (xs : List (OperationSeals Seal)) : Prop :=
  ∀ i j b bj, ∀ a ∈ b.operation.immutableIn, xs[i]? = some b → xs[j]? = some bj → a.opid = idAt cid j bj → j < i

/-- `ys` is an excerpt from the consignment `xs`: it has the same first block and some of the others, in
any order, such that the operations in it are preceded by the creators of all cells they refer to, so
far as `xs` has them. -/
structure Excerpt (cid : ContractId) (xs ys : List (OperationSeals Seal)) : Prop where
  head : ys[0]? = xs[0]?
  rest : ys.tail.Subperm xs.tail
  creators : ∀ k j b bj a, ys[k]? = some b → Consumes b a ∨ a ∈ b.operation.immutableIn →
    xs[j]? = some bj → a.opid = idAt cid j bj → ∃ k' b', k' < k ∧ ys[k']? = some b' ∧ a.opid = idAt cid k' b'

/-- The contracts agree in all they can be asked for. -/
structure SameState (c d : C) : Prop where
  contractId : ContractApi.contractId Seal c = ContractApi.contractId Seal d
  codex : ContractApi.codex Seal c = ContractApi.codex Seal d
  memory : ContractApi.memory Seal c = ContractApi.memory Seal d
  repo : ContractApi.repo Seal c = ContractApi.repo Seal d
  isKnown : ∀ o, ContractApi.isKnown Seal c o = ContractApi.isKnown Seal d o

/-- The consignment `ys` is `xs` with other witnesses in place of those attached. -/
structure Rewitnessed (xs ys : List (OperationSeals Seal)) : Prop where
  length : ys.length = xs.length
  operation : ∀ (i : Nat) b b', xs[i]? = some b → ys[i]? = some b' → b'.operation = b.operation
  definedSeals : ∀ (i : Nat) b b', xs[i]? = some b → ys[i]? = some b' → b'.definedSeals = b.definedSeals
  witness : ∀ (i : Nat) b b', xs[i]? = some b → ys[i]? = some b' → (b'.witness = none ↔ b.witness = none)

/-- Does the call concern a witness: is it a request to the seal protocol or the report of a witness? -/
def ConcernsWitness : Call Seal → Bool
  | .verifySealsClosing .. | .applyWitness .. => true
  | _ => false

/-- The part of validity in which the contract has no say: for the given contract and codex id, the first
operation commits to the codex, the revealed seals are committed to, the inputs are distinct and open, and
the witnesses close their seals. -/
structure SealsInOrder (cid : ContractId) (codexId : CodexId) (blocks : List (OperationSeals Seal)) : Prop where
  codex : ∀ b, blocks[0]? = some b → b.operation.contractId.bytes = codexId.bytes
  committed : ∀ b ∈ blocks, ∀ p d, (p, d) ∈ b.definedSeals.entries →
    ∃ cell ∈ b.operation.destructibleOut, cell.auth = RgbSeal.authToken d
  distinct : ∀ b ∈ blocks, (b.operation.destructibleIn.map (·.addr)).Nodup
  closed : ∀ (i : Nat) b, blocks[i]? = some b → ∃ seals,
    List.Forall₂ (fun (inp : Input) s => OpenAt cid blocks i inp.addr s) b.operation.destructibleIn seals ∧
    match b.witness with
    | some w => RgbSeal.verifySealsClosing w.published w.client seals (message Seal (idAt cid i b)) = .ok ()
    | none => b.operation.destructibleIn = []

/-- The part of validity in which the seals have no say: each operation is known to the contract or
accepted by the codex when its turn comes. -/
def ScriptsPass (c : C) (blocks : List (OperationSeals Seal)) : Prop :=
  ∀ (i : Nat) b, blocks[i]? = some b →
    ContractApi.isKnown Seal (contractAt (ContractApi.contractId Seal c) c blocks i)
        (idAt (ContractApi.contractId Seal c) i b) = true ∨
      ∃ v, codexAnswer Seal (contractAt (ContractApi.contractId Seal c) c blocks i)
        (ContractApi.contractId Seal c) (opAt (ContractApi.contractId Seal c) i b) = .ok v

/-- The memory has only cells of known operations. -/
structure Tidy (c : C) : Prop where
  destructible : ∀ a, (ContractApi.memory Seal c).destructible a ≠ none → ContractApi.isKnown Seal c a.opid = true
  immutable : ∀ a, (ContractApi.memory Seal c).immutable a ≠ none → ContractApi.isKnown Seal c a.opid = true

/-- The id of every operation the operation reads is known to the contract, or is that of an earlier
block. -/
def ReadsAvailable (c : C) (blocks : List (OperationSeals Seal)) (i : Nat) (b : OperationSeals Seal) : Prop :=
  ∀ a ∈ b.operation.immutableIn, ContractApi.isKnown Seal c a.opid = true ∨
    ∃ j bj, j < i ∧ blocks[j]? = some bj ∧ a.opid = idAt (ContractApi.contractId Seal c) j bj

/-- Block `b` at position `i` of `xs` and block `b'` at position `j` of `ys` have the same operation, reveal
the same definitions so far as both reveal any, consume cells with the same seals, and if they consume
any, have witnesses with the same id. -/
structure Concordant (cid : ContractId) (xs ys : List (OperationSeals Seal)) (i j : Nat) (b b' : OperationSeals Seal) : Prop where
  operation : opAt cid i b = opAt cid j b'
  definitions : ∀ p d d', (p, d) ∈ b.definedSeals.entries → (p, d') ∈ b'.definedSeals.entries → d = d'
  seals : ∀ a s s', Consumes b a → OpenAt cid xs i a s → OpenAt cid ys j a s' → s = s'
  witness : b.operation.destructibleIn ≠ [] → ∃ w w', b.witness = some w ∧ b'.witness = some w' ∧
    RgbSeal.pubId w.published = RgbSeal.pubId w'.published

/-- The operations of the two consignments have the same ids, one by one. -/
structure SameIds (cid : ContractId) (xs ys : List (OperationSeals Seal)) : Prop where
  length : ys.length = xs.length
  ids : ∀ (i : Nat) b b', xs[i]? = some b → ys[i]? = some b' → idAt cid i b = idAt cid i b'

end Rgb.Spec
