import Verif.Model

/-!
# `evaluate` in an arbitrary environment

`Model.lean` takes `&self` methods to be functions of the contract and the reader to be independent of
it.  Rust does not enforce either: with interior mutability (`Cell`, `RefCell`, locks, files, clocks)
every method may change what later ones answer, and reader and contract may share state.  Here the
whole outside is one state machine with a state `σ`, asked again for every call.  `evaluateIn` follows
verify.rs:151-258 as `evaluate` does; that both agree for environments without such effects is
theorem `C73_pure`.

Simplification: the four calls `codex`, `memory`, `repo` and `Codex::verify` of verify.rs:210-213,
between which the code does nothing, are one question here.  Methods of values, such as `pub_id` or
`auth_token`, are pure.
-/

namespace Rgb

section
variable (Seal : Type) [LinearOrder Seal] [RgbSeal Seal]

/-- An environment: how it answers each call, depending on and changing its state. -/
structure Env (E σ : Type) where
  /-- `reader.read_operation()` (verify.rs:158-159) -/
  read : σ → Except E (Option (OperationSeals Seal)) × σ
  /-- `self.contract_id()` (verify.rs:152) -/
  contractId : σ → ContractId × σ
  /-- `self.codex().codex_id()` (verify.rs:153) -/
  codexId : σ → CodexId × σ
  /-- `self.is_known(opid)` (verify.rs:206) -/
  isKnown : Opid → σ → Bool × σ
  /-- `self.codex().verify(contract_id, operation, self.memory(), self.repo())` (verify.rs:210-212) -/
  verify : ContractId → Operation → σ → Except CallError VerifiedOperation × σ
  /-- `witness.verify_seals_closing(&closed_seals, msg)` (verify.rs:227-228) -/
  closing : SealWitness Seal → List Seal → RgbSeal.Message Seal → σ → Except (RgbSeal.SealError Seal) Unit × σ
  /-- `self.apply_witness(opid, witness)` (verify.rs:240) -/
  applyWitness : Opid → SealWitness Seal → σ → σ
  /-- `self.apply_operation(operation)` (verify.rs:249) -/
  applyOperation : VerifiedOperation → σ → σ
  /-- `self.apply_seals(opid, seals)` (verify.rs:253) -/
  applySeals : Opid → OMap U16 (RgbSeal.Definition Seal) → σ → σ

/-- A call with its answer. -/
inductive Event (E : Type) where
  | read (answer : Except E (Option (OperationSeals Seal)))
  | contractId (answer : ContractId)
  | codexId (answer : CodexId)
  | isKnown (opid : Opid) (answer : Bool)
  | verify (contractId : ContractId) (operation : Operation) (answer : Except CallError VerifiedOperation)
  | closing (witness : SealWitness Seal) (seals : List Seal) (message : RgbSeal.Message Seal)
      (answer : Except (RgbSeal.SealError Seal) Unit)
  | applyWitness (opid : Opid) (witness : SealWitness Seal)
  | applyOperation (operation : VerifiedOperation)
  | applySeals (opid : Opid) (seals : OMap U16 (RgbSeal.Definition Seal))

/-- The state of the environment and what has happened so far. -/
structure Scene (E σ : Type) where
  state : σ
  events : List (Event Seal E)

/-- Computations in an environment. -/
abbrev EnvM (E σ : Type) := ExceptT (VerificationError Seal E) (StateM (Scene Seal E σ))

end

variable {Seal : Type} [LinearOrder Seal] [RgbSeal Seal]
variable {E σ : Type}

/-- Ask the environment. -/
def ask {α : Type} (question : σ → α × σ) (event : α → Event Seal E) : EnvM Seal E σ α := do
  let w ← get
  let (answer, state) := question w.state
  set (⟨state, w.events ++ [event answer]⟩ : Scene Seal E σ)
  return answer

/-- Tell the environment. -/
def tell (effect : σ → σ) (event : Event Seal E) : EnvM Seal E σ Unit :=
  ask (fun s => ((), effect s)) fun _ => event

/-- The loop collecting single-use seal closings (verify.rs:195-202). -/
def removeAll (seals : OMap CellAddr Seal) (closed_seals : List Seal) :
    List Input → EnvM Seal E σ (List Seal × OMap CellAddr Seal)
  | [] => return (closed_seals, seals)
  | input :: rest => do
    match seals.remove input.addr with
    | (none, _) => throw (.sealUnknown input.addr)
    | (some s, seals) => removeAll seals (closed_seals ++ [s]) rest

section
variable [OpHash]

/-- Codex verification of operations which are not known yet (verify.rs:204-214). -/
def verifyUnknownIn (env : Env Seal E σ) (contract_id : ContractId) (opid : Opid) (operation : Operation) :
    EnvM Seal E σ (Option VerifiedOperation) := do
  if ← ask (env.isKnown opid) (.isKnown opid) then
    return none
  else
    match ← ask (env.verify contract_id operation) (.verify contract_id operation) with
    | .error e => throw (.vm e)
    | .ok verified => return some verified

/-- Verification of the seal closing and collection of the newly defined seals (verify.rs:216-243). -/
def closeSealsIn (env : Env Seal E σ) (opid : Opid) (block : OperationSeals Seal) (closed_seals : List Seal) :
    EnvM Seal E σ (OSet (CellAddr ×ₗ Seal)) := do
  let seal_sources := sourceSeals opid block
  match block.witness with
  | some witness =>
    let msg : RgbSeal.Message Seal := RgbSeal.messageOfBytes opid.bytes
    match ← ask (env.closing witness closed_seals msg) (.closing witness closed_seals msg) with
    | .error e => throw (.sealsNotClosed (RgbSeal.pubId witness.published) opid e)
    | .ok () =>
      tell (env.applyWitness opid witness) (.applyWitness opid witness)
      return seal_sources.extend (witnessSeals opid (RgbSeal.pubId witness.published) block)
  | none =>
    if !closed_seals.isEmpty then throw (.noWitness opid) else return seal_sources

/-- The body of the `while let` loop (verify.rs:162-254). -/
def processIn (env : Env Seal E σ) (contract_id : ContractId) (codex_id : CodexId)
    (is_genesis : Bool) (seals : OMap CellAddr Seal) (block : OperationSeals Seal) :
    EnvM Seal E σ (Bool × OMap CellAddr Seal) := do
  -- verify.rs:164-169
  if is_genesis && block.operation.contractId.bytes != codex_id.bytes then throw .noCodexCommitment
  let operation := if is_genesis then { block.operation with contractId := contract_id } else block.operation
  -- verify.rs:170
  let opid := opid operation
  -- verify.rs:172-193
  let defined := OSet.collect (operation.destructibleOut.map fun cell => cell.auth)
  let reported := OSet.collect (block.definedSeals.values.map RgbSeal.authToken)
  if !reported.isSubset defined then
    throw (.sealsDefinitionMismatch opid reported defined
      (OMap.collect (block.definedSeals.entries.map fun e => (e.1, RgbSeal.display e.2))))
  -- verify.rs:195-202
  let (closed_seals, seals) ← removeAll seals [] operation.destructibleIn
  -- verify.rs:206-214
  let verified ← verifyUnknownIn env contract_id opid operation
  -- verify.rs:219-243
  let seal_sources ← closeSealsIn env opid block closed_seals
  -- verify.rs:245
  let seals := seals.extend (seal_sources.elems.map ofLex)
  -- verify.rs:246-250
  if !is_genesis then
    match verified with
    | some v => tell (env.applyOperation v) (.applyOperation v)
    | none => pure ()
  -- verify.rs:252-254
  if !block.definedSeals.isEmpty then
    tell (env.applySeals opid block.definedSeals) (.applySeals opid block.definedSeals)
  return (false, seals)

/-- The `while let` loop (verify.rs:158-257). -/
def loopIn (env : Env Seal E σ) (contract_id : ContractId) (codex_id : CodexId)
    (is_genesis : Bool) (seals : OMap CellAddr Seal) (scene : Scene Seal E σ) :
    Option (Except (VerificationError Seal E) Unit × Scene Seal E σ) :=
  match (ask env.read Event.read).run.run scene with
  | (.error e, scene) => some (.error e, scene)
  -- verify.rs:160
  | (.ok (.error e), scene) => some (.error (.stream e), scene)
  -- verify.rs:257
  | (.ok (.ok none), scene) => some (.ok (), scene)
  | (.ok (.ok (some block)), scene) =>
    match (processIn env contract_id codex_id is_genesis seals block).run.run scene with
    | (.error e, scene) => some (.error e, scene)
    | (.ok (is_genesis, seals), scene) => loopIn env contract_id codex_id is_genesis seals scene
partial_fixpoint

/-- `ContractVerify::evaluate` (verify.rs:151-258) in an arbitrary environment. -/
def evaluateIn (env : Env Seal E σ) (state : σ) : Option (Except (VerificationError Seal E) Unit × Scene Seal E σ) :=
  -- verify.rs:152-153
  let init : EnvM Seal E σ (ContractId × CodexId) := do
    let contract_id ← ask env.contractId .contractId
    let codex_id ← ask env.codexId .codexId
    return (contract_id, codex_id)
  match init.run.run ⟨state, []⟩ with
  | (.error e, scene) => some (.error e, scene)
  -- verify.rs:155-156
  | (.ok (contract_id, codex_id), scene) => loopIn env contract_id codex_id true OMap.empty scene

end
end Rgb
