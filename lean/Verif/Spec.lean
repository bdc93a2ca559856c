import Verif.Model

/-!
# Specification vocabulary

Used to state the properties.  Nothing here mentions the registry of open seals, the loop variables
or any helper of the model: a consignment is the list of blocks a reader delivers, and everything is
said by position in that list.
-/

namespace Rgb.Spec

variable {Seal : Type} [LinearOrder Seal] [RgbSeal Seal]

section Readers
variable {R : Type} [ReadOperation Seal R]

/-- `Reads r blocks r'`: the next `blocks.length` reads of `r` deliver exactly `blocks`; the reader is
then `r'`. -/
inductive Reads : R → List (OperationSeals Seal) → R → Prop where
  | nil (r : R) : Reads r [] r
  | cons {r r₁ r₂ : R} {b : OperationSeals Seal} {bs : List (OperationSeals Seal)} :
      ReadOperation.readOperation r = (.ok (some b), r₁) → Reads r₁ bs r₂ → Reads r (b :: bs) r₂

/-- The reader delivers exactly the blocks `blocks` and then reports the end of the stream. -/
def Delivers (r : R) (blocks : List (OperationSeals Seal)) : Prop :=
  ∃ r₁ r₂, Reads r blocks r₁ ∧ ReadOperation.readOperation (Seal := Seal) r₁ = (.ok none, r₂)

/-- The reader delivers exactly the blocks `blocks` and then fails with `e`. -/
def FailsAfter (r : R) (blocks : List (OperationSeals Seal)) (e : ReadOperation.Error Seal R) : Prop :=
  ∃ r₁ r₂, Reads r blocks r₁ ∧ ReadOperation.readOperation (Seal := Seal) r₁ = (.error e, r₂)

/-- The reader delivers at least the blocks `blocks`; what follows is left open. -/
def StartsWith (r : R) (blocks : List (OperationSeals Seal)) : Prop := ∃ r₁, Reads r blocks r₁

end Readers

section Blocks
variable [OpHash]

/-- The operation at position `i` of a consignment for contract `cid`: the first operation counts with
the contract id put in place of the codex id. -/
def opAt (cid : ContractId) (i : Nat) (b : OperationSeals Seal) : Operation :=
  if i = 0 then { b.operation with contractId := cid } else b.operation

/-- The operation id of the block at position `i`. -/
def idAt (cid : ContractId) (i : Nat) (b : OperationSeals Seal) : Opid := opid (opAt cid i b)

/-- Block `b` at position `i` announces seal `s` for cell address `a`: it carries the creating
operation and reveals, for that output position, a definition which either is self-contained and
stands for `s`, or is relative and resolves to `s` with the id of the block's own witness. -/
def Announces (cid : ContractId) (i : Nat) (b : OperationSeals Seal) (a : CellAddr) (s : Seal) : Prop :=
  a.opid = idAt cid i b ∧ ∃ d, (a.pos, d) ∈ b.definedSeals.entries ∧
    (RgbSeal.toSrc d = some s ∨
      RgbSeal.toSrc d = none ∧ ∃ w, b.witness = some w ∧ s = RgbSeal.resolve d (RgbSeal.pubId w.published))

/-- Block `b` consumes the cell at address `a`. -/
def Consumes (b : OperationSeals Seal) (a : CellAddr) : Prop :=
  ∃ inp ∈ b.operation.destructibleIn, inp.addr = a

/-- Before position `i`, the cell at `a` is sealed with `s`: some earlier block announces `s` for `a`,
and no block between it and `i` consumes `a` or announces any seal for it. -/
def OpenAt (cid : ContractId) (blocks : List (OperationSeals Seal)) (i : Nat) (a : CellAddr) (s : Seal) : Prop :=
  ∃ j b, j < i ∧ blocks[j]? = some b ∧ Announces cid j b a s ∧
    ∀ k b', j < k → k < i → blocks[k]? = some b' → ¬ Consumes b' a ∧ ∀ s', ¬ Announces cid k b' a s'

/-- The message a witness must close seals over, for an operation id. -/
def message (Seal : Type) [LinearOrder Seal] [RgbSeal Seal] (o : Opid) : RgbSeal.Message Seal :=
  RgbSeal.messageOfBytes o.bytes

variable {C : Type} [ContractApi Seal C]

/-- The answer of the codex of contract `c` for an operation, given the memory and libraries of `c`. -/
def codexAnswer (Seal : Type) [LinearOrder Seal] [RgbSeal Seal] {C : Type} [ContractApi Seal C]
    (c : C) (cid : ContractId) (op : Operation) : Except CallError VerifiedOperation :=
  (ContractApi.codex Seal c).verify cid op (ContractApi.memory Seal c) (ContractApi.repo Seal c)

/-- Callbacks due for the witness of a block. -/
def witnessCallbacks (o : Opid) (b : OperationSeals Seal) : List (Call Seal) :=
  match b.witness with
  | some w => [.applyWitness o w]
  | none => []

/-- Callbacks due for the operation of the block at position `i`, reached with contract state `c`: one
`apply_operation` with the codex's answer, if the block is not the first and its id is not known. -/
def operationCallbacks (cid : ContractId) (c : C) (i : Nat) (b : OperationSeals Seal) : List (Call Seal) :=
  if i = 0 ∨ ContractApi.isKnown Seal c (idAt cid i b) = true then []
  else match codexAnswer Seal c cid (opAt cid i b) with
    | .ok v => [.applyOperation v]
    | .error _ => []

/-- Callbacks due for the revealed seals of a block. -/
def sealCallbacks (o : Opid) (b : OperationSeals Seal) : List (Call Seal) :=
  if b.definedSeals.entries = [] then [] else [.applySeals o b.definedSeals]

/-- All callbacks due for the block at position `i`, reached with contract state `c`, in order. -/
def callbacks (cid : ContractId) (c : C) (i : Nat) (b : OperationSeals Seal) : List (Call Seal) :=
  witnessCallbacks (idAt cid i b) b ++ operationCallbacks cid c i b ++ sealCallbacks (idAt cid i b) b

/-- A call that changes the contract. -/
def IsCallback : Call Seal → Bool
  | .applyWitness .. | .applyOperation .. | .applySeals .. => true
  | _ => false

/-- What a call does to the contract. -/
def perform (c : C) : Call Seal → C
  | .applyWitness o w => ContractApi.applyWitness c o w
  | .applyOperation v => ContractApi.applyOperation Seal c v
  | .applySeals o s => ContractApi.applySeals c o s
  | _ => c

/-- The contract as it is when position `i` of the consignment is reached. -/
def contractAt (cid : ContractId) (c : C) (blocks : List (OperationSeals Seal)) : Nat → C
  | 0 => c
  | i + 1 => match blocks[i]? with
    | some b => (callbacks cid (contractAt cid c blocks i) i b).foldl perform (contractAt cid c blocks i)
    | none => contractAt cid c blocks i

/-- All callbacks due for the first `n` blocks of the consignment, in order. -/
def callbacksUpTo (cid : ContractId) (c : C) (blocks : List (OperationSeals Seal)) : Nat → List (Call Seal)
  | 0 => []
  | i + 1 => callbacksUpTo cid c blocks i ++
    match blocks[i]? with
    | some b => callbacks cid (contractAt cid c blocks i) i b
    | none => []

/-- Queries due for the operation of the block at position `i`, reached with contract state `c`:
`is_known`, and for unknown operations the codex verification. -/
def queries (cid : ContractId) (c : C) (i : Nat) (b : OperationSeals Seal) : List (Call Seal) :=
  if ContractApi.isKnown Seal c (idAt cid i b) = true then [.isKnown (idAt cid i b) true]
  else [.isKnown (idAt cid i b) false, .codex, .memory, .repo, .codexVerify cid (opAt cid i b)]

/-- The request to the seal protocol due for a block whose inputs are sealed with `seals`. -/
def sealQueries (o : Opid) (b : OperationSeals Seal) (seals : List Seal) : List (Call Seal) :=
  match b.witness with
  | some w => [.verifySealsClosing w seals (message Seal o)]
  | none => []

/-- `l` is the complete sequence of interactions due for the accepted block at position `i`. -/
def BlockTrace (c : C) (blocks : List (OperationSeals Seal)) (i : Nat) (b : OperationSeals Seal)
    (l : List (Call Seal)) : Prop :=
  let cid := ContractApi.contractId Seal c
  let now := contractAt cid c blocks i
  ∃ seals, List.Forall₂ (fun (inp : Input) s => OpenAt cid blocks i inp.addr s) b.operation.destructibleIn seals ∧
    l = .read :: (queries cid now i b ++ sealQueries (idAt cid i b) b seals ++ callbacks cid now i b)

/-- Validity of the block `b` at position `i` of a consignment evaluated on contract `c`. -/
structure ValidBlock (c : C) (blocks : List (OperationSeals Seal)) (i : Nat) (b : OperationSeals Seal) : Prop where
  /-- the first operation commits to the codex -/
  codex : i = 0 → b.operation.contractId.bytes = (ContractApi.codex Seal c).codexId.bytes
  /-- every revealed seal is committed to by some destructible output -/
  committed : ∀ p d, (p, d) ∈ b.definedSeals.entries →
    ∃ cell ∈ b.operation.destructibleOut, cell.auth = RgbSeal.authToken d
  /-- no cell is listed twice -/
  distinct : (b.operation.destructibleIn.map (·.addr)).Nodup
  /-- the inputs are open, and the witness closes exactly their seals, in order, over the operation id;
  a witness may be absent only if there is nothing to close -/
  closed : ∃ seals, List.Forall₂ (fun (inp : Input) s =>
      OpenAt (ContractApi.contractId Seal c) blocks i inp.addr s) b.operation.destructibleIn seals ∧
    (∀ w, b.witness = some w → RgbSeal.verifySealsClosing w.published w.client seals
      (message Seal (idAt (ContractApi.contractId Seal c) i b)) = .ok ()) ∧
    (b.witness = none → seals = [])
  /-- the codex accepts the operation, unless the contract knows it -/
  script : ContractApi.isKnown Seal (contractAt (ContractApi.contractId Seal c) c blocks i)
      (idAt (ContractApi.contractId Seal c) i b) = false →
    ∃ v, codexAnswer Seal (contractAt (ContractApi.contractId Seal c) c blocks i)
      (ContractApi.contractId Seal c) (opAt (ContractApi.contractId Seal c) i b) = .ok v

/-- Validity of a whole consignment on contract `c`. -/
def ValidConsignment (c : C) (blocks : List (OperationSeals Seal)) : Prop :=
  ∀ i b, blocks[i]? = some b → ValidBlock c blocks i b

/-- The operation id of the next block after the consignment `blocks`. -/
def nextId (c : C) (blocks : List (OperationSeals Seal)) (b : OperationSeals Seal) : Opid :=
  idAt (ContractApi.contractId Seal c) blocks.length b

/-- The inputs of `b`, as the next block after `blocks`, are distinct and sealed with `seals`. -/
def InputsSealed (c : C) (blocks : List (OperationSeals Seal)) (b : OperationSeals Seal) (seals : List Seal) : Prop :=
  (b.operation.destructibleIn.map (·.addr)).Nodup ∧
    List.Forall₂ (fun (inp : Input) s =>
      OpenAt (ContractApi.contractId Seal c) blocks blocks.length inp.addr s) b.operation.destructibleIn seals

/-- The codex commitment check passes for `b` as the next block after `blocks`. -/
def CommitsToCodex (c : C) (blocks : List (OperationSeals Seal)) (b : OperationSeals Seal) : Prop :=
  blocks = [] → b.operation.contractId.bytes = (ContractApi.codex Seal c).codexId.bytes

/-- Every seal revealed by `b` is committed to by some destructible output. -/
def SealsCommitted (b : OperationSeals Seal) : Prop :=
  ∀ p d, (p, d) ∈ b.definedSeals.entries → ∃ cell ∈ b.operation.destructibleOut, cell.auth = RgbSeal.authToken d

/-- The codex accepts `b` as the next block after `blocks`, or the contract knows it. -/
def ScriptPasses (c : C) (blocks : List (OperationSeals Seal)) (b : OperationSeals Seal) : Prop :=
  let cid := ContractApi.contractId Seal c
  let now := contractAt cid c blocks blocks.length
  ContractApi.isKnown Seal now (nextId c blocks b) = true ∨
    ∃ v, codexAnswer Seal now cid (opAt cid blocks.length b) = .ok v

/-- `Rejection c blocks b e l`: after the accepted consignment `blocks`, the next block `b` has to be
rejected with error `e`, after the interactions `l`.  The cases are in order of precedence. -/
inductive Rejection (c : C) (blocks : List (OperationSeals Seal)) (b : OperationSeals Seal) {E : Type} :
    VerificationError Seal E → List (Call Seal) → Prop where
  /-- the first operation does not commit to the codex -/
  | codex : blocks = [] → b.operation.contractId.bytes ≠ (ContractApi.codex Seal c).codexId.bytes →
      Rejection c blocks b .noCodexCommitment []
  /-- some revealed seal is not committed to -/
  | mismatch {reported defined : OSet AuthToken} {sources : OMap U16 String} :
      CommitsToCodex c blocks b →
      (∃ p d, (p, d) ∈ b.definedSeals.entries ∧ ∀ cell ∈ b.operation.destructibleOut, cell.auth ≠ RgbSeal.authToken d) →
      (∀ t, t ∈ reported.elems ↔ ∃ p d, (p, d) ∈ b.definedSeals.entries ∧ t = RgbSeal.authToken d) →
      (∀ t, t ∈ defined.elems ↔ ∃ cell ∈ b.operation.destructibleOut, t = cell.auth) →
      (∀ p s, (p, s) ∈ sources.entries ↔ ∃ d, (p, d) ∈ b.definedSeals.entries ∧ s = RgbSeal.display d) →
      Rejection c blocks b (.sealsDefinitionMismatch (nextId c blocks b) reported defined sources) []
  /-- `inp` is the first input which is not open or repeats an earlier one -/
  | unknown {pre post : List Input} {inp : Input} :
      CommitsToCodex c blocks b → SealsCommitted b →
      b.operation.destructibleIn = pre ++ inp :: post →
      (pre.map (·.addr)).Nodup →
      (∀ i ∈ pre, ∃ s, OpenAt (ContractApi.contractId Seal c) blocks blocks.length i.addr s) →
      ((∀ s, ¬ OpenAt (ContractApi.contractId Seal c) blocks blocks.length inp.addr s) ∨ inp.addr ∈ pre.map (·.addr)) →
      Rejection c blocks b (.sealUnknown inp.addr) []
  /-- the operation is not known and the codex rejects it -/
  | script {seals : List Seal} {e : CallError} :
      CommitsToCodex c blocks b → SealsCommitted b → InputsSealed c blocks b seals →
      ContractApi.isKnown Seal (contractAt (ContractApi.contractId Seal c) c blocks blocks.length)
        (nextId c blocks b) = false →
      codexAnswer Seal (contractAt (ContractApi.contractId Seal c) c blocks blocks.length)
        (ContractApi.contractId Seal c) (opAt (ContractApi.contractId Seal c) blocks.length b) = .error e →
      Rejection c blocks b (.vm e)
        (queries (ContractApi.contractId Seal c) (contractAt (ContractApi.contractId Seal c) c blocks blocks.length)
          blocks.length b)
  /-- the witness does not close the seals of the inputs -/
  | notClosed {seals : List Seal} {w : SealWitness Seal} {e : RgbSeal.SealError Seal} :
      CommitsToCodex c blocks b → SealsCommitted b → InputsSealed c blocks b seals → ScriptPasses c blocks b →
      b.witness = some w →
      RgbSeal.verifySealsClosing w.published w.client seals (message Seal (nextId c blocks b)) = .error e →
      Rejection c blocks b (.sealsNotClosed (RgbSeal.pubId w.published) (nextId c blocks b) e)
        (queries (ContractApi.contractId Seal c) (contractAt (ContractApi.contractId Seal c) c blocks blocks.length)
          blocks.length b ++ [.verifySealsClosing w seals (message Seal (nextId c blocks b))])
  /-- there are inputs but no witness -/
  | noWitness {seals : List Seal} :
      CommitsToCodex c blocks b → SealsCommitted b → InputsSealed c blocks b seals → ScriptPasses c blocks b →
      b.witness = none → b.operation.destructibleIn ≠ [] →
      Rejection c blocks b (.noWitness (nextId c blocks b))
        (queries (ContractApi.contractId Seal c) (contractAt (ContractApi.contractId Seal c) c blocks blocks.length)
          blocks.length b)

/-- The same error, with the reader's own error transformed. -/
def _root_.Rgb.VerificationError.mapStream {E E' : Type} (f : E → E') : VerificationError Seal E → VerificationError Seal E'
  | .stream e => .stream (f e)
  | .noCodexCommitment => .noCodexCommitment
  | .noWitness o => .noWitness o
  | .sealsNotClosed w o e => .sealsNotClosed w o e
  | .sealUnknown a => .sealUnknown a
  | .sealsDefinitionMismatch o r d s => .sealsDefinitionMismatch o r d s
  | .vm e => .vm e

/-- Is the call a poll of the reader? -/
def IsRead : Call Seal → Bool
  | .read => true
  | _ => false

/-- How often the reader was polled. -/
def polls (l : List (Call Seal)) : Nat := l.countP IsRead

/-- The operation applied by a call. -/
def appliedOperation : Call Seal → Option VerifiedOperation
  | .applyOperation v => some v
  | _ => none

/-- The seals reported by a call. -/
def reportedSeals : Call Seal → Option (Opid × OMap U16 (RgbSeal.Definition Seal))
  | .applySeals o s => some (o, s)
  | _ => none

/-- The witness reported by a call. -/
def reportedWitness : Call Seal → Option (Opid × SealWitness Seal)
  | .applyWitness o w => some (o, w)
  | _ => none

/-- Is the block at position `i` new, i.e. not the first and with an id which the contract does not
know when the block is reached? -/
def isNew (c : C) (blocks : List (OperationSeals Seal)) (i : Nat) : Bool :=
  match blocks[i]? with
  | some b => i ≠ 0 && !ContractApi.isKnown Seal (contractAt (ContractApi.contractId Seal c) c blocks i)
      (idAt (ContractApi.contractId Seal c) i b)
  | none => false

/-- Is the call a question to the contract? -/
def IsQuery : Call Seal → Bool
  | .contractId | .codex | .memory | .repo | .isKnown .. | .codexVerify .. => true
  | _ => false

/-- The questions asked during one round of the loop: none, or one `is_known` answered with yes, or
one answered with no and then one each for the codex, the memory and the repository, followed by one
codex verification with contract id `cid`. -/
def Disciplined (cid : ContractId) (seg : List (Call Seal)) : Prop :=
  seg.filter IsQuery = [] ∨ (∃ o, seg.filter IsQuery = [.isKnown o true]) ∨
    ∃ o op, seg.filter IsQuery = [.isKnown o false, .codex, .memory, .repo, .codexVerify cid op]

variable {R : Type} [ReadOperation Seal R]

/-- The result of read number `n` of a reader, counting from 0 and reading on whatever comes. -/
def readAt (Seal : Type) [LinearOrder Seal] [RgbSeal Seal] {R : Type} [ReadOperation Seal R] (r : R) :
    Nat → Except (ReadOperation.Error Seal R) (Option (OperationSeals Seal))
  | 0 => (ReadOperation.readOperation (Seal := Seal) r).1
  | n + 1 => readAt Seal (ReadOperation.readOperation (Seal := Seal) r).2 n

/-- The reader after `n` reads. -/
def readerAfter (Seal : Type) [LinearOrder Seal] [RgbSeal Seal] {R : Type} [ReadOperation Seal R] (r : R) : Nat → R
  | 0 => r
  | n + 1 => readerAfter Seal (ReadOperation.readOperation (Seal := Seal) r).2 n

/-- `evaluate` on contract `c` and reader `r` returned `Ok` with outcome `o`, and `blocks` is what the
reader delivered. -/
structure Accepted (c : C) (r : R) (blocks : List (OperationSeals Seal))
    (o : Outcome Seal R C (ReadOperation.Error Seal R)) : Prop where
  run : evaluate c r = some o
  ok : o.result = .ok ()
  delivers : Delivers r blocks

end Blocks
end Rgb.Spec
