import Verif.Bitcoin
import Verif.TestContract

/-!
# The fixtures and streams of the crate's unit tests (verify.rs:386-723)

`lib()` and `codex()` (verify.rs:385-408) configure the virtual machine of another crate; like every
`strict_dumb()` value and the coinbase outpoint they are parameters.  `Genesis` is a type of
`ultrasonic`; its fields are those set at verify.rs:419-430 and the remaining ones of `Operation` which
are not inputs (an operation made by `to_operation` has none: the tests' genesis passes as a first
operation, verify.rs:508-516).
-/

namespace Rgb

/-- `ultrasonic::Genesis` (verify.rs:419-430). -/
structure Genesis where
  version : Nat
  codexId : CodexId
  callId : Nat
  nonce : Nat
  witness : StateValue
  destructibleOut : List StateCell
  immutableOut : List StateData
  deriving DecidableEq

/-- `Genesis::to_operation` (verify.rs:435, 452, 511). -/
def Genesis.toOperation (self : Genesis) (contractId : ContractId) : Operation where
  version := self.version
  contractId := contractId
  callId := self.callId
  nonce := self.nonce
  witness := self.witness
  destructibleIn := []
  immutableIn := []
  destructibleOut := self.destructibleOut
  immutableOut := self.immutableOut

/-- Values the tests take from other crates. -/
structure Fixtures (Ext : Type) where
  /-- `codex()` (verify.rs:392-408) -/
  codex : Codex
  /-- `map! { lib_id => lib }` (verify.rs:440) -/
  libs : LibRepo
  /-- `Genesis::strict_dumb()` (verify.rs:420) -/
  genesisDumb : Genesis
  /-- `ContractId::strict_dumb()` (verify.rs:435, 439) -/
  contractIdDumb : ContractId
  /-- `StateData::new(0u64, 1000u64)` (verify.rs:422) -/
  data : StateData
  /-- `Outpoint::coinbase()` (verify.rs:415) -/
  coinbase : Outpoint
  /-- `TxoSealExt::Fallback(Outpoint::coinbase())` (verify.rs:411, 416) -/
  fallback : Ext
  /-- `WTxoSeal::strict_dumb()` (verify.rs:557) -/
  sealDumb : WTxoSeal Ext
  /-- `default!()` for the version (verify.rs:455) and `fe256::ZERO` (verify.rs:458) -/
  version : Nat
  zero : Nat

namespace Fixtures
variable {Ext : Type} [LinearOrder Ext] [BpCore Ext] [OpHash] (f : Fixtures Ext)

/-- `SEAL_WOUT` (verify.rs:409-412). -/
def sealWout : WTxoSeal Ext := ⟨.wout 0, f.fallback⟩

/-- `SEAL_1` (verify.rs:414-417). -/
def seal1 : WTxoSeal Ext := ⟨.extern f.coinbase, f.fallback⟩

/-- `genesis()` (verify.rs:419-430). -/
def genesis : Genesis := { f.genesisDumb with
  codexId := f.codex.codexId
  immutableOut := [f.data]
  destructibleOut := [⟨.none, f.seal1.authToken, none⟩] }

/-- `genesis_op` of `contract()` and `operation()` (verify.rs:435, 452). -/
def genesisOp : Operation := f.genesis.toOperation f.contractIdDumb

/-- `genesis_opid` (verify.rs:436, 453). -/
def genesisOpid : Opid := opid f.genesisOp

/-- `contract()` (verify.rs:431-447). -/
def contract : TestContract (TxoSeal Ext) where
  codex := f.codex
  contractId := f.contractIdDumb
  libs := f.libs
  global := .empty
  owned := .collect [(⟨f.genesisOpid, 0⟩, ⟨.none, f.seal1.authToken, none⟩)]
  knownOps := .collect [(f.genesisOpid, f.genesisOp)]
  sealDefinitions := .collect [(f.genesisOpid, .empty)]
  witnesses := .collect [(f.genesisOpid, [])]

/-- `operation()` (verify.rs:449-468). -/
def operation : Operation where
  version := f.version
  contractId := f.contract.contractId
  callId := 0
  nonce := f.zero
  witness := .none
  destructibleIn := [⟨⟨f.genesisOpid, 0⟩, .none⟩]
  immutableIn := []
  destructibleOut := []
  immutableOut := []

/-- A genesis as it appears in a stream: `genesis.to_operation(genesis.codex_id.to_byte_array().into())`
(verify.rs:511, 523 and so on). -/
def streamed (g : Genesis) : Operation := g.toOperation ⟨g.codexId.bytes⟩

/-- The stream of `genesis_only` (verify.rs:508-516). -/
def genesisOnly : List (OperationSeals (TxoSeal Ext)) := [⟨streamed f.genesis, .empty, none⟩]

/-- The genesis of `invalid_genesis` (verify.rs:522-523), committing to another codex id (`[0xAD; 32]`
in the test). -/
def foreignGenesis (x : CodexId) : Genesis := { f.genesis with codexId := x }

/-- The stream of `invalid_genesis` (verify.rs:518-528). -/
def invalidGenesis (x : CodexId) : List (OperationSeals (TxoSeal Ext)) := [⟨streamed (f.foreignGenesis x), .empty, none⟩]

/-- The stream of `invalid_seals` (verify.rs:530-561). -/
def invalidSeals : List (OperationSeals (TxoSeal Ext)) :=
  [⟨streamed f.genesis, .collect [((0 : U16), (f.sealDumb : RgbSeal.Definition (TxoSeal Ext)))], none⟩]

/-- The stream of `seal_unknown` (verify.rs:563-575). -/
def sealUnknown : List (OperationSeals (TxoSeal Ext)) :=
  [⟨streamed f.genesis, .empty, none⟩, ⟨f.operation, .empty, none⟩]

/-- The genesis of `genesis_with_wout` (verify.rs:580-582), with any seal definition `d` (the test takes
`SEAL_WOUT`). -/
def genesisWith (d : WTxoSeal Ext) : Genesis := { f.genesis with destructibleOut := [⟨.none, d.authToken, none⟩] }

/-- The stream of `genesis_with_wout` (verify.rs:577-594). -/
def genesisWithSeal (d : WTxoSeal Ext) : List (OperationSeals (TxoSeal Ext)) :=
  [⟨streamed (f.genesisWith d), .collect [((0 : U16), (d : RgbSeal.Definition (TxoSeal Ext)))], none⟩,
    ⟨f.operation, .empty, none⟩]

/-- The streams of `no_witness`, `seals_unclosed`, `not_spending_utxo` and `missing_commitment`
(verify.rs:596-723): they differ in the witness only. -/
def spending (w : Option (SealWitness (TxoSeal Ext))) : List (OperationSeals (TxoSeal Ext)) :=
  [⟨streamed f.genesis, .collect [((0 : U16), (f.seal1 : RgbSeal.Definition (TxoSeal Ext)))], none⟩, ⟨f.operation, .empty, w⟩]

/-- The error with which `run` ends (verify.rs:471-473), if any. -/
def Fails (blocks : List (OperationSeals (TxoSeal Ext))) (e : VerificationError (TxoSeal Ext) Empty) : Prop :=
  ∃ o, evaluate (Seal := TxoSeal Ext) f.contract (TestReader.mk blocks) = some o ∧ o.result = .error e

/-- `run` succeeds (verify.rs:471-500): the stream is accepted and the assertions hold. -/
def Passes (blocks : List (OperationSeals (TxoSeal Ext))) : Prop :=
  ∃ o, evaluate (Seal := TxoSeal Ext) f.contract (TestReader.mk blocks) = some o ∧ o.result = .ok () ∧ RunAsserts o.world.contract blocks

end Fixtures
end Rgb
