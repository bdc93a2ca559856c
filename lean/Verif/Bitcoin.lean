import Verif.Model

/-!
# Bitcoin seals: the module `bitcoin` of `/repo/src/seals.rs`

The types come from `bp-core` (seals.rs:84-85), which is not part of `/repo`; their shape is taken
from their uses at seals.rs:98-127, seals.rs:141-176 and verify.rs:410-418.
What `/repo/src` only passes around (`TxoSealExt`, `Tx`, `Anchor`, the closing check, the commitment
hash, `Display`) is a parameter.
-/

namespace Rgb

/-- Rust `u8`. -/
abbrev U8 := Fin 256

/-- `bp::Txid` (seals.rs:85, 94): 32 bytes. -/
structure Txid where
  bytes : Bytes32
  deriving DecidableEq

instance : LinearOrder Txid :=
  LinearOrder.lift' Txid.bytes (fun a b h => by cases a; cases b; simp_all)

/-- `bp::Outpoint` (seals.rs:85): `Outpoint::new(txid, vout)` (seals.rs:115); `vout` is a `u32`
(seals.rs:144, verify.rs:411). -/
structure Outpoint where
  txid : Txid
  vout : Fin (2 ^ 32)
  deriving DecidableEq

instance : LinearOrder Outpoint :=
  LinearOrder.lift' (fun a => (toLex (a.txid, a.vout) : Txid ×ₗ Fin (2 ^ 32)))
    (fun a b h => by cases a; cases b; simpa using h)

/-- `bp::seals::WOutpoint` (seals.rs:84, 114-117): an output of the witness transaction still to be
built, or of an existing one. -/
inductive WOutpoint where
  | wout (vout : Fin (2 ^ 32))
  | extern (outpoint : Outpoint)
  deriving DecidableEq

/-- `bp::seals::WTxoSeal` (seals.rs:84): a seal definition.  `Ext` is `bp::seals::TxoSealExt`. -/
structure WTxoSeal (Ext : Type) where
  primary : WOutpoint
  secondary : Ext
  deriving DecidableEq

/-- `bp::seals::TxoSeal` (seals.rs:84, 118): a seal. -/
structure TxoSeal (Ext : Type) where
  primary : Outpoint
  secondary : Ext
  deriving DecidableEq

/-- `TxoSeal: Ord` (required at seals.rs:68), derived, hence lexicographic.  `evaluate` does not depend
on which order it is. -/
instance {Ext : Type} [LinearOrder Ext] : LinearOrder (TxoSeal Ext) :=
  LinearOrder.lift' (fun a => (toLex (a.primary, a.secondary) : Outpoint ×ₗ Ext))
    (fun a b h => by cases a; cases b; simpa using h)

/-- What is left to `bp-core`, `commit_verify` and `ultrasonic`. -/
class BpCore (Ext : Type) where
  /-- `bp::Tx` (seals.rs:92) -/
  Tx : Type
  /-- `bp::seals::Anchor` (seals.rs:93) -/
  Anchor : Type
  Message : Type
  SealError : Type
  /-- `PublishedWitness::pub_id` for `Tx` -/
  txid : Tx → Txid
  /-- `CommitId::commit_id` (seals.rs:86, 104): a tagged SHA256 hash -/
  commitId : WTxoSeal Ext → Fin 32 → U8
  /-- does `AuthToken::from_byte_array` (seals.rs:107) read the bytes as a big-endian number? -/
  bigEndian : Bool
  display : WTxoSeal Ext → String
  messageOfBytes : Bytes32 → Message
  verifySealsClosing : Tx → Anchor → List (TxoSeal Ext) → Message → Except SealError Unit

/-- Little-endian number. -/
def leNat : List U8 → Nat
  | [] => 0
  | b :: l => b + 256 * leNat l

theorem leNat_lt (l : List U8) : leNat l < 256 ^ l.length := by
  induction l with
  | nil => simp [leNat]
  | cons b l ih =>
    simp only [leNat, List.length_cons, Nat.pow_succ]
    have := b.isLt
    omega

theorem leNat_inj : ∀ {l l' : List U8}, l.length = l'.length → leNat l = leNat l' → l = l'
  | [], [], _, _ => rfl
  | b :: l, b' :: l', hl, h => by
    simp only [leNat] at h
    have h1 := b.isLt
    have h2 := b'.isLt
    have e : b = b' := Fin.ext (by omega)
    subst e
    exact congrArg (b :: ·) (leNat_inj (by simpa using hl) (by omega))

/-- `AuthToken::from_byte_array` (seals.rs:107), in crate `ultrasonic`: the 30 bytes as a number. -/
def AuthToken.fromByteArray (bigEndian : Bool) (bytes : List U8) (h : bytes.length = 30) : AuthToken :=
  ⟨⟨leNat (if bigEndian then bytes.reverse else bytes), by
    have := leNat_lt (if bigEndian then bytes.reverse else bytes)
    have e : (if bigEndian = true then bytes.reverse else bytes).length = 30 := by split <;> simp [h]
    rw [e] at this
    exact Nat.lt_of_lt_of_le this (by decide)⟩⟩

namespace WTxoSeal
variable {Ext : Type}

/-- `shortened_id` (seals.rs:105-106): bytes 0 to 29 of the commitment. -/
def shortenedId [BpCore Ext] (self : WTxoSeal Ext) : List U8 :=
  (List.ofFn (BpCore.commitId self)).take 30

theorem shortenedId_length [BpCore Ext] (self : WTxoSeal Ext) : self.shortenedId.length = 30 := by
  simp [shortenedId]

/-- `WTxoSeal::auth_token` (seals.rs:103-108). -/
def authToken [BpCore Ext] (self : WTxoSeal Ext) : AuthToken :=
  AuthToken.fromByteArray (BpCore.bigEndian Ext) self.shortenedId self.shortenedId_length

/-- `WTxoSeal::resolve` (seals.rs:110-119). -/
def resolve (self : WTxoSeal Ext) (witnessId : Txid) : TxoSeal Ext :=
  let primary := match self.primary with
    | .wout wout => ⟨witnessId, wout⟩
    | .extern outpoint => outpoint
  { primary, secondary := self.secondary }

/-- `WTxoSeal::to_src` (seals.rs:121-127). -/
def toSrc (self : WTxoSeal Ext) : Option (TxoSeal Ext) :=
  match self.primary with
  | .wout _ => none
  | .extern outpoint => some { primary := outpoint, secondary := self.secondary }

end WTxoSeal

/-- `impl RgbSeal for TxoSeal` (seals.rs:90-95). -/
instance {Ext : Type} [LinearOrder Ext] [BpCore Ext] : RgbSeal (TxoSeal Ext) where
  Definition := WTxoSeal Ext
  Published := BpCore.Tx Ext
  Client := BpCore.Anchor Ext
  WitnessId := Txid
  Message := BpCore.Message Ext
  SealError := BpCore.SealError Ext
  authToken := WTxoSeal.authToken
  resolve := WTxoSeal.resolve
  toSrc := WTxoSeal.toSrc
  display := BpCore.display
  messageOfBytes := BpCore.messageOfBytes
  pubId := BpCore.txid
  verifySealsClosing := BpCore.verifySealsClosing

/-- The order of the field in the tests (`FIELD_ORDER_SECP`, verify.rs:322, 402): that of secp256k1. -/
def fieldOrderSecp : Nat := 2 ^ 256 - 2 ^ 32 - 977

end Rgb
