import Verif.Types

/-!
# The model of `/repo/src/verify.rs` and of the traits in `/repo/src/seals.rs`

The function `evaluate` below follows `ContractVerify::evaluate` (verify.rs:151-258) statement by
statement.  `?` and `return Err` are `throw`; `&mut self` is the state of the monad, which survives
errors, exactly as the Rust contract does.  Each interaction with code outside `/repo/src` is
recorded in a trace.
-/

namespace Rgb

/-- Traits `RgbSeal` and `RgbSealDef` with their associated types (seals.rs:39-78), and what
`evaluate` uses of the `single_use_seals` traits they extend. -/
class RgbSeal (Seal : Type) [LinearOrder Seal] where
  /-- `RgbSeal::Definition` (seals.rs:71) -/
  Definition : Type
  /-- `RgbSeal::Published` (seals.rs:73) -/
  Published : Type
  /-- `RgbSeal::Client` (seals.rs:75) -/
  Client : Type
  /-- `RgbSeal::WitnessId` (seals.rs:77) -/
  WitnessId : Type
  /-- `SingleUseSeal::Message` (seals.rs:68) -/
  Message : Type
  /-- `single_use_seals::SealError<Seal>` (verify.rs:281) -/
  SealError : Type
  /-- `RgbSealDef::auth_token` (seals.rs:45) -/
  authToken : Definition → AuthToken
  /-- `RgbSealDef::resolve` (seals.rs:54-57) -/
  resolve : Definition → WitnessId → Seal
  /-- `RgbSealDef::to_src` (seals.rs:63) -/
  toSrc : Definition → Option Seal
  /-- `Display for Definition` (seals.rs:39; used at verify.rs:190) -/
  display : Definition → String
  /-- `Message: From<[u8; 32]>` (seals.rs:68; used at verify.rs:228) -/
  messageOfBytes : Bytes32 → Message
  /-- `PublishedWitness::pub_id` (seals.rs:73; used at verify.rs:229, 232) -/
  pubId : Published → WitnessId
  /-- `SealWitness::verify_seals_closing` (verify.rs:228), in crate `single_use_seals`: a parameter -/
  verifySealsClosing : Published → Client → List Seal → Message → Except SealError Unit

section
variable (Seal : Type) [LinearOrder Seal] [RgbSeal Seal]

/-- `single_use_seals::SealWitness<Seal>` (verify.rs:61, 229): published and client-side parts. -/
structure SealWitness where
  published : RgbSeal.Published Seal
  client : RgbSeal.Client Seal

/-- `OperationSeals<Seal>` (verify.rs:55-62). -/
structure OperationSeals where
  operation : Operation
  definedSeals : OMap U16 (RgbSeal.Definition Seal)
  witness : Option (SealWitness Seal)

/-- `Clone for OperationSeals` (verify.rs:64-76), field by field; `clone` of the component types is
the identity. -/
def OperationSeals.clone {Seal : Type} [LinearOrder Seal] [RgbSeal Seal] (self : OperationSeals Seal) :
    OperationSeals Seal :=
  { operation := self.operation, definedSeals := self.definedSeals, witness := self.witness }

/-- Trait `ReadOperation` (verify.rs:79-86).  `&mut self` returns the advanced reader. -/
class ReadOperation (R : Type) where
  Error : Type
  readOperation : R → Except Error (Option (OperationSeals Seal)) × R

/-- Trait `ContractApi<Seal>` (verify.rs:92-138). -/
class ContractApi (C : Type) where
  /-- verify.rs:96 -/
  contractId : C → ContractId
  /-- verify.rs:101 -/
  codex : C → Codex
  /-- verify.rs:106 -/
  repo : C → LibRepo
  /-- verify.rs:110 -/
  memory : C → Memory
  /-- verify.rs:116 -/
  isKnown : C → Opid → Bool
  /-- verify.rs:124 -/
  applyOperation : C → VerifiedOperation → C
  /-- verify.rs:131 -/
  applySeals : C → Opid → OMap U16 (RgbSeal.Definition Seal) → C
  /-- verify.rs:137 -/
  applyWitness : C → Opid → SealWitness Seal → C

/-- `VerificationError<Seal>` (verify.rs:266-306).  `StreamError` stands for the boxed `dyn Error`. -/
inductive VerificationError (StreamError : Type) where
  /-- verify.rs:270 -/
  | stream (e : StreamError)
  /-- verify.rs:273 -/
  | noCodexCommitment
  /-- verify.rs:276 -/
  | noWitness (opid : Opid)
  /-- verify.rs:281 -/
  | sealsNotClosed (witnessId : RgbSeal.WitnessId Seal) (opid : Opid) (e : RgbSeal.SealError Seal)
  /-- verify.rs:284 -/
  | sealUnknown (addr : CellAddr)
  /-- verify.rs:295-300 -/
  | sealsDefinitionMismatch (opid : Opid) (reported defined : OSet AuthToken) (sources : OMap U16 String)
  /-- verify.rs:305 -/
  | vm (e : CallError)

/-- The interactions of `evaluate` with its environment, in the order in which they happen. -/
inductive Call where
  /-- `reader.read_operation()` (verify.rs:158-159) -/
  | read
  /-- `self.contract_id()` (verify.rs:152) -/
  | contractId
  /-- `self.codex()` (verify.rs:153, 211) -/
  | codex
  /-- `self.memory()` (verify.rs:212) -/
  | memory
  /-- `self.repo()` (verify.rs:212) -/
  | repo
  /-- `self.is_known(opid)` and its answer (verify.rs:206) -/
  | isKnown (opid : Opid) (answer : Bool)
  /-- `Codex::verify(contract_id, operation, ..)` (verify.rs:212) -/
  | codexVerify (contractId : ContractId) (operation : Operation)
  /-- `witness.verify_seals_closing(&closed_seals, msg)` (verify.rs:227-228) -/
  | verifySealsClosing (witness : SealWitness Seal) (seals : List Seal) (message : RgbSeal.Message Seal)
  /-- `self.apply_witness(opid, witness)` (verify.rs:240) -/
  | applyWitness (opid : Opid) (witness : SealWitness Seal)
  /-- `self.apply_operation(operation)` (verify.rs:249) -/
  | applyOperation (operation : VerifiedOperation)
  /-- `self.apply_seals(opid, seals)` (verify.rs:253) -/
  | applySeals (opid : Opid) (seals : OMap U16 (RgbSeal.Definition Seal))

/-- The mutable world of a run: the contract behind `&mut self` and the calls made so far. -/
structure World (C : Type) where
  contract : C
  calls : List (Call Seal)

/-- Computations of `evaluate`: they may fail with a `VerificationError`; the contract survives. -/
abbrev EvalM (C E : Type) := ExceptT (VerificationError Seal E) (StateM (World Seal C))

end

variable {Seal : Type} [LinearOrder Seal] [RgbSeal Seal]
variable {C E : Type} [ContractApi Seal C]

/-- Record an interaction that does not change the contract. -/
def note (c : Call Seal) : EvalM Seal C E Unit :=
  modify fun w => { w with calls := w.calls ++ [c] }

/-- `self.contract_id()` -/
def callContractId : EvalM Seal C E ContractId := do
  note .contractId
  return ContractApi.contractId Seal (← get).contract

/-- `self.codex()` -/
def callCodex : EvalM Seal C E Codex := do
  note .codex
  return ContractApi.codex Seal (← get).contract

/-- `self.memory()` -/
def callMemory : EvalM Seal C E Memory := do
  note .memory
  return ContractApi.memory Seal (← get).contract

/-- `self.repo()` -/
def callRepo : EvalM Seal C E LibRepo := do
  note .repo
  return ContractApi.repo Seal (← get).contract

/-- `self.is_known(opid)` -/
def callIsKnown (opid : Opid) : EvalM Seal C E Bool := do
  let known := ContractApi.isKnown Seal (← get).contract opid
  note (.isKnown opid known)
  return known

/-- `self.apply_witness(opid, witness)` -/
def callApplyWitness (opid : Opid) (witness : SealWitness Seal) : EvalM Seal C E Unit := do
  note (.applyWitness opid witness)
  modify fun w => { w with contract := ContractApi.applyWitness w.contract opid witness }

/-- `self.apply_operation(operation)` -/
def callApplyOperation (operation : VerifiedOperation) : EvalM Seal C E Unit := do
  note (.applyOperation operation)
  modify fun w => { w with contract := ContractApi.applyOperation Seal w.contract operation }

/-- `self.apply_seals(opid, seals)` -/
def callApplySeals (opid : Opid) (seals : OMap U16 (RgbSeal.Definition Seal)) : EvalM Seal C E Unit := do
  note (.applySeals opid seals)
  modify fun w => { w with contract := ContractApi.applySeals w.contract opid seals }

/-- The loop collecting single-use seal closings (verify.rs:195-202).  Takes the registry and returns
`closed_seals` and the registry after the removals. -/
def collectClosed (seals : OMap CellAddr Seal) (closed_seals : List Seal) :
    List Input → EvalM Seal C E (List Seal × OMap CellAddr Seal)
  | [] => return (closed_seals, seals)
  | input :: rest => do
    -- let seal = seals.remove(&input.addr).ok_or(VerificationError::SealUnknown(input.addr))?;
    match seals.remove input.addr with
    | (none, _) => throw (.sealUnknown input.addr)
    | (some s, seals) =>
      -- closed_seals.push(seal);
      collectClosed seals (closed_seals ++ [s]) rest

section
variable [OpHash]

/-- Genesis check and substitution (verify.rs:162-169): the first operation must carry the codex id in
place of the contract id, which is then put in. -/
def admitGenesis (contract_id : ContractId) (codex_id : CodexId) (is_genesis : Bool)
    (block : OperationSeals Seal) : EvalM Seal C E (OperationSeals Seal) :=
  if is_genesis then
    if block.operation.contractId.bytes ≠ codex_id.bytes then
      throw .noCodexCommitment
    else
      pure { block with operation := { block.operation with contractId := contract_id } }
  else
    pure block

/-- Check that the revealed seal definitions match the operation-defined cells (verify.rs:172-193). -/
def checkDefinedSeals (opid : Opid) (block : OperationSeals Seal) : EvalM Seal C E Unit :=
  -- verify.rs:173-178
  let defined := OSet.collect (block.operation.destructibleOut.map fun cell => cell.auth)
  -- verify.rs:179-183
  let reported := OSet.collect (block.definedSeals.values.map RgbSeal.authToken)
  -- verify.rs:186-193
  if !reported.isSubset defined then
    let sources := OMap.collect (block.definedSeals.entries.map fun e => (e.1, RgbSeal.display e.2))
    throw (.sealsDefinitionMismatch opid reported defined sources)
  else
    pure ()

/-- Codex verification of operations which are not known yet (verify.rs:204-214). -/
def verifyUnknown (contract_id : ContractId) (opid : Opid) (operation : Operation) :
    EvalM Seal C E (Option VerifiedOperation) := do
  let known ← callIsKnown opid
  if known then
    return none
  else
    let codex ← callCodex
    let memory ← callMemory
    let repo ← callRepo
    note (.codexVerify contract_id operation)
    match codex.verify contract_id operation memory repo with
    | .error e => throw (.vm e)
    | .ok verified => return some verified

/-- Self-contained seals defined by the block (verify.rs:219-223). -/
def sourceSeals (opid : Opid) (block : OperationSeals Seal) : OSet (CellAddr ×ₗ Seal) :=
  OSet.collect <| block.definedSeals.entries.filterMap fun e =>
    (RgbSeal.toSrc e.2).map fun s => toLex (CellAddr.mk opid e.1, s)

/-- Witness-output-based seals defined by the block (verify.rs:231-237). -/
def witnessSeals (opid : Opid) (pub_id : RgbSeal.WitnessId Seal) (block : OperationSeals Seal) :
    List (CellAddr ×ₗ Seal) :=
  (block.definedSeals.entries.filter fun e => (RgbSeal.toSrc e.2).isNone).map fun e =>
    toLex (CellAddr.mk opid e.1, RgbSeal.resolve e.2 pub_id)

/-- Verification of the seal closing and collection of the newly defined seals (verify.rs:216-243). -/
def closeSeals (opid : Opid) (block : OperationSeals Seal) (closed_seals : List Seal) :
    EvalM Seal C E (OSet (CellAddr ×ₗ Seal)) := do
  let seal_sources := sourceSeals opid block
  match block.witness with
  | some witness =>
    let msg : RgbSeal.Message Seal := RgbSeal.messageOfBytes opid.bytes
    note (.verifySealsClosing witness closed_seals msg)
    match RgbSeal.verifySealsClosing witness.published witness.client closed_seals msg with
    | .error e => throw (.sealsNotClosed (RgbSeal.pubId witness.published) opid e)
    | .ok () =>
      let pub_id := RgbSeal.pubId witness.published
      let seal_sources := seal_sources.extend (witnessSeals opid pub_id block)
      callApplyWitness opid witness
      return seal_sources
  | none =>
    if !closed_seals.isEmpty then throw (.noWitness opid) else return seal_sources

/-- Application of a newly verified operation, except for the first one (verify.rs:246-250). -/
def applyUnlessGenesis (is_genesis : Bool) (operation : Option VerifiedOperation) : EvalM Seal C E Unit :=
  if is_genesis then pure ()
  else match operation with
    | some operation => callApplyOperation operation
    | none => pure ()

/-- Reporting of the defined seals to the contract (verify.rs:252-254). -/
def reportSeals (opid : Opid) (block : OperationSeals Seal) : EvalM Seal C E Unit :=
  if !block.definedSeals.isEmpty then callApplySeals opid block.definedSeals else pure ()

/-- The body of the `while let` loop (verify.rs:162-254).  `is_genesis` and `seals` are the loop's
mutable variables (verify.rs:155-156), passed in and returned. -/
def processBlock (contract_id : ContractId) (codex_id : CodexId)
    (is_genesis : Bool) (seals : OMap CellAddr Seal) (block : OperationSeals Seal) :
    EvalM Seal C E (Bool × OMap CellAddr Seal) := do
  -- verify.rs:164-169
  let block ← admitGenesis contract_id codex_id is_genesis block
  -- verify.rs:170
  let opid := opid block.operation
  -- verify.rs:172-193
  checkDefinedSeals opid block
  -- verify.rs:195-202
  let (closed_seals, seals) ← collectClosed seals [] block.operation.destructibleIn
  -- verify.rs:206-214
  let operation ← verifyUnknown contract_id opid block.operation
  -- verify.rs:219-243
  let seal_sources ← closeSeals opid block closed_seals
  -- verify.rs:245
  let seals := seals.extend (seal_sources.elems.map ofLex)
  -- verify.rs:246-250
  applyUnlessGenesis is_genesis operation
  -- verify.rs:252-254
  reportSeals opid block
  return (false, seals)

/-- What a call of `evaluate` leaves behind: its return value, the contract and the calls made, and
the reader (which Rust drops; kept to state how far it was read). -/
structure Outcome (Seal : Type) [LinearOrder Seal] [RgbSeal Seal] (R C E : Type) where
  result : Except (VerificationError Seal E) Unit
  world : World Seal C
  reader : R

variable {R : Type} [ReadOperation Seal R]

/-- The `while let` loop (verify.rs:158-257).  `none` means that the loop never ends, which happens
for a reader that keeps delivering acceptable blocks. -/
def evalLoop (contract_id : ContractId) (codex_id : CodexId) (reader : R)
    (is_genesis : Bool) (seals : OMap CellAddr Seal) (world : World Seal C) :
    Option (Outcome Seal R C (ReadOperation.Error Seal R)) :=
  let world := { world with calls := world.calls ++ [.read] }
  match ReadOperation.readOperation (Seal := Seal) reader with
  -- verify.rs:160
  | (.error e, reader) => some ⟨.error (.stream e), world, reader⟩
  -- verify.rs:257
  | (.ok none, reader) => some ⟨.ok (), world, reader⟩
  | (.ok (some block), reader) =>
    match (processBlock contract_id codex_id is_genesis seals block).run.run world with
    | (.error e, world) => some ⟨.error e, world, reader⟩
    | (.ok (is_genesis, seals), world) => evalLoop contract_id codex_id reader is_genesis seals world
partial_fixpoint

/-- `ContractVerify::evaluate` (verify.rs:151-258). -/
def evaluate (contract : C) (reader : R) : Option (Outcome Seal R C (ReadOperation.Error Seal R)) :=
  -- verify.rs:152-153
  let init : EvalM Seal C (ReadOperation.Error Seal R) (ContractId × CodexId) := do
    let contract_id ← callContractId
    let codex ← callCodex
    return (contract_id, codex.codexId)
  match init.run.run ⟨contract, []⟩ with
  | (.error e, world) => some ⟨.error e, world, reader⟩
  -- verify.rs:155-156
  | (.ok (contract_id, codex_id), world) => evalLoop contract_id codex_id reader true OMap.empty world

end
end Rgb
