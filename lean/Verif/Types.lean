import Verif.Collections

/-!
# Data types from `ultrasonic` used by rgb-core

`/repo/src/verify.rs:31-37` imports these types from the `ultrasonic` crate, which is not part of
`/repo`.  Only what `/repo/src` itself reads or builds is given structure.  Field names follow their
uses in `/repo/src/verify.rs` (lines 165-200 and 449-468).

Simplifications, all of them enlarging the set of values (so that every theorem quantifying over all
values covers the real ones): numeric payloads are unbounded naturals, `SmallVec`s have no length
bound, script errors are opaque strings.
-/

namespace Rgb

/-- Rust `u16` (verify.rs:59). -/
abbrev U16 := Fin 65536

/-- `[u8; 32]`, read as a big-endian number: lexicographic order of byte arrays is numeric order.
Used through `to_byte_array` at verify.rs:165 and verify.rs:226. -/
abbrev Bytes32 := Fin (2 ^ 256)

/-- `ultrasonic::ContractId` (verify.rs:34, 96): a 32-byte id. -/
structure ContractId where
  bytes : Bytes32
  deriving DecidableEq

/-- `ultrasonic::CodexId` (verify.rs:153, 326): a 32-byte id. -/
structure CodexId where
  bytes : Bytes32
  deriving DecidableEq

/-- `ultrasonic::Opid` (verify.rs:34): a 32-byte operation id. -/
structure Opid where
  bytes : Bytes32
  deriving DecidableEq

instance : LinearOrder Opid :=
  LinearOrder.lift' Opid.bytes (fun a b h => by cases a; cases b; simp_all)

/-- `ultrasonic::CellAddr` (verify.rs:34): operation id and output position, as built by
`CellAddr::new(opid, pos)` at verify.rs:222 and verify.rs:237. -/
structure CellAddr where
  opid : Opid
  pos : U16
  deriving DecidableEq

/-- `CellAddr: Ord` (needed by `BTreeMap<CellAddr, _>`, verify.rs:156): lexicographic. -/
instance : LinearOrder CellAddr :=
  LinearOrder.lift' (fun a => (toLex (a.opid, a.pos) : Opid ×ₗ U16))
    (fun a b h => by cases a; cases b; simpa using h)

/-- `ultrasonic::AuthToken` (verify.rs:34, seals.rs:30): a 256-bit field element
(verify.rs:535-546).  Tokens of bitcoin seals are below `2 ^ 240` (seals.rs:103-108), but the cells of
an operation may hold any element. -/
structure AuthToken where
  fe : Fin (2 ^ 256)
  deriving DecidableEq

instance : LinearOrder AuthToken :=
  LinearOrder.lift' AuthToken.fe (fun a b h => by cases a; cases b; simp_all)

/-- `ultrasonic::StateValue` (verify.rs:326, 347): a sequence of field elements; `StateValue::None`
is the empty one.  Never inspected by `/repo/src`. -/
structure StateValue where
  elems : List Nat
  deriving DecidableEq

/-- `StateValue::None` (verify.rs:424, 459). -/
def StateValue.none : StateValue := ⟨[]⟩

/-- `ultrasonic::StateCell` (verify.rs:423-427): destructible output.  `/repo/src` reads only
`auth` (verify.rs:177). -/
structure StateCell where
  data : StateValue
  auth : AuthToken
  lock : Option Nat
  deriving DecidableEq

/-- `ultrasonic::StateData` (verify.rs:422, 370): immutable output. -/
structure StateData where
  value : StateValue
  raw : Option (List Nat)
  deriving DecidableEq

/-- `ultrasonic::Input` (verify.rs:460-463): destructible input. -/
structure Input where
  addr : CellAddr
  witness : StateValue
  deriving DecidableEq

/-- `ultrasonic::Operation`; fields as in the literal at verify.rs:454-467. -/
structure Operation where
  version : Nat
  contractId : ContractId
  callId : Nat
  nonce : Nat
  witness : StateValue
  destructibleIn : List Input
  immutableIn : List CellAddr
  destructibleOut : List StateCell
  immutableOut : List StateData
  deriving DecidableEq

/-- `Operation::opid` (verify.rs:170): the commitment hash of the whole operation.  A parameter:
nothing is assumed about it unless a theorem says so. -/
class OpHash where
  opid : Operation → Opid

export OpHash (opid)

/-- `ultrasonic::VerifiedOperation` (verify.rs:34, 124): result of a successful codex verification;
observed through `opid()` and `into_operation()` (verify.rs:366-367). -/
structure VerifiedOperation where
  opid : Opid
  operation : Operation
  deriving DecidableEq

/-- `ultrasonic::CallError` (verify.rs:305). Opaque. -/
structure CallError where
  details : String
  deriving DecidableEq

/-- `ultrasonic::Memory` (verify.rs:110, 352-355): read access to the state cells. -/
structure Memory where
  destructible : CellAddr → Option StateCell
  immutable : CellAddr → Option StateValue

/-- `ultrasonic::LibRepo` (verify.rs:106, 356-358): script libraries by id. Opaque payload. -/
structure LibRepo where
  getLib : Nat → Option (List Nat)

/-- `ultrasonic::Codex`, as used by `evaluate`: its id (verify.rs:153) and its verification
procedure (verify.rs:210-212), which runs the contract scripts in a virtual machine.  Both are
parameters. -/
structure Codex where
  codexId : CodexId
  verify : ContractId → Operation → Memory → LibRepo → Except CallError VerifiedOperation

end Rgb
