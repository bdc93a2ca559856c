import Verif.Bitcoin
import Verif.Lemmas.Outcome
import Verif.Props.TestContract

set_option linter.unusedSectionVars false

/-! # C44–C47, C53: bitcoin seals -/

namespace Rgb
open Spec

section
variable {Ext : Type}

/-! ## C44 -/

/-- A self-contained definition resolves to its seal whatever the witness. -/
theorem C44_self_contained {d : WTxoSeal Ext} {s : TxoSeal Ext} (h : d.toSrc = some s) (w : Txid) : d.resolve w = s := by
  obtain ⟨p | p, e⟩ := d
  · simp [WTxoSeal.toSrc] at h
  · simpa [WTxoSeal.toSrc, WTxoSeal.resolve] using h

/-- The seal of a definition which is not self-contained depends on the witness. -/
theorem C44_relative {d : WTxoSeal Ext} (h : d.toSrc = none) {w w' : Txid} (hw : w ≠ w') : d.resolve w ≠ d.resolve w' := by
  obtain ⟨p | p, e⟩ := d
  · simpa [WTxoSeal.resolve] using hw
  · simp [WTxoSeal.toSrc] at h

example : (WTxoSeal.mk (.extern ⟨⟨5⟩, 1⟩) ()).toSrc = some ⟨⟨⟨5⟩, 1⟩, ()⟩ ∧ (WTxoSeal.mk (.wout 3) ()).toSrc = none ∧
    (⟨5⟩ : Txid) ≠ ⟨6⟩ := ⟨rfl, rfl, by decide +kernel⟩

/-! ## C45 -/

/-- Exactly the witness-output definitions are not self-contained. -/
theorem C45_relative_iff (d : WTxoSeal Ext) : d.toSrc = none ↔ ∃ v, d.primary = .wout v := by
  obtain ⟨p | p, e⟩ := d <;> simp [WTxoSeal.toSrc]

/-- A witness-output definition resolves to that output of the witness; an external one to the
outpoint it names, which is also what `to_src` gives; the secondary part is kept. -/
theorem C45_resolved (d : WTxoSeal Ext) (w : Txid) :
    (∀ v, d.primary = .wout v → (d.resolve w).primary.txid = w ∧ (d.resolve w).primary.vout = v) ∧
    (∀ p, d.primary = .extern p → (d.resolve w).primary = p ∧ d.toSrc = some ⟨p, d.secondary⟩) ∧
    (d.resolve w).secondary = d.secondary ∧ ∀ s, d.toSrc = some s → s.secondary = d.secondary := by
  obtain ⟨p | p, e⟩ := d
  · simp [WTxoSeal.toSrc, WTxoSeal.resolve]
  · simp only [WTxoSeal.toSrc, WTxoSeal.resolve, reduceCtorEq, false_implies, implies_true, WOutpoint.extern.injEq,
      Option.some.injEq, TxoSeal.mk.injEq, and_true, true_and]
    exact ⟨fun _ h => ⟨h, h⟩, fun _ h => by rw [← h]⟩

/-! ## C46 -/

/-- Two definitions resolve to the same seal with the witness `w` exactly if they have the same
secondary part and their primary parts are equal or one is an output of the witness and the other the
same output of `w`. -/
theorem C46_resolve_eq_iff (d d' : WTxoSeal Ext) (w : Txid) :
    d.resolve w = d'.resolve w ↔ d.secondary = d'.secondary ∧
      (d.primary = d'.primary ∨ (∃ v, d.primary = .wout v ∧ d'.primary = .extern ⟨w, v⟩) ∨
        ∃ v, d.primary = .extern ⟨w, v⟩ ∧ d'.primary = .wout v) := by
  obtain ⟨p | ⟨t, p⟩, e⟩ := d <;> obtain ⟨q | ⟨u, q⟩, e'⟩ := d' <;>
    simp [WTxoSeal.resolve, and_comm, eq_comm]

/-- One witness-output definition never gives the same seal for different witnesses. -/
theorem C46_other_witness {d : WTxoSeal Ext} {v} (h : d.primary = .wout v) {w w' : Txid} :
    d.resolve w = d.resolve w' ↔ w = w' := by
  obtain ⟨p, e⟩ := d
  subst h
  simp [WTxoSeal.resolve]

example : (WTxoSeal.mk (.wout 3) ()).resolve ⟨7⟩ = (WTxoSeal.mk (.extern ⟨⟨7⟩, 3⟩) ()).resolve ⟨7⟩ ∧
    WTxoSeal.mk (.wout 3) () ≠ WTxoSeal.mk (.extern ⟨⟨7⟩, 3⟩) () := by decide +kernel

/-! ## C47 -/

theorem shortenedId_get [BpCore Ext] (d : WTxoSeal Ext) (i : Nat) (h : i < d.shortenedId.length) :
    d.shortenedId[i] = BpCore.commitId d ⟨i, by rw [d.shortenedId_length] at h; omega⟩ := by
  simp only [WTxoSeal.shortenedId, List.getElem_take, List.getElem_ofFn]

/-- Two definitions have the same token exactly if the first 30 bytes of their commitments agree. -/
theorem C47_token_eq_iff [BpCore Ext] (d d' : WTxoSeal Ext) :
    d.authToken = d'.authToken ↔ ∀ i : Fin 32, i.val < 30 → BpCore.commitId d i = BpCore.commitId d' i := by
  have key : d.authToken = d'.authToken ↔ d.shortenedId = d'.shortenedId := by
    constructor
    · intro h
      have h' := congrArg (fun t : AuthToken => t.fe.val) h
      simp only [WTxoSeal.authToken, AuthToken.fromByteArray] at h'
      have := leNat_inj (by split <;> simp [WTxoSeal.shortenedId_length]) h'
      split at this
      · exact List.reverse_inj.1 this
      · exact this
    · intro h
      simp only [WTxoSeal.authToken, h]
  rw [key]
  constructor
  · intro h i hi
    have h1 := shortenedId_get d i.val (by rw [d.shortenedId_length]; exact hi)
    have h2 := shortenedId_get d' i.val (by rw [d'.shortenedId_length]; exact hi)
    rw [← h1, ← h2]
    simp only [h]
  · intro h
    refine List.ext_getElem (by rw [d.shortenedId_length, d'.shortenedId_length]) fun n h1 h2 => ?_
    rw [shortenedId_get d n h1, shortenedId_get d' n h2]
    exact h _ (by rw [d.shortenedId_length] at h1; exact h1)

/-- The token is below `2 ^ 240`, so it is a canonical element of every field of a larger order, as
that of secp256k1. -/
theorem C47_no_reduction [BpCore Ext] (d : WTxoSeal Ext) :
    d.authToken.fe.val < 2 ^ 240 ∧ d.authToken.fe.val < fieldOrderSecp ∧ d.authToken.fe.val % fieldOrderSecp = d.authToken.fe.val := by
  have h : d.authToken.fe.val < 2 ^ 240 := by
    have := leNat_lt (if BpCore.bigEndian Ext then d.shortenedId.reverse else d.shortenedId)
    have e : (if BpCore.bigEndian Ext = true then d.shortenedId.reverse else d.shortenedId).length = 30 := by
      split <;> simp [d.shortenedId_length]
    rw [e] at this
    exact Nat.lt_of_lt_of_le this (by decide)
  have h2 : d.authToken.fe.val < fieldOrderSecp := Nat.lt_trans h (by decide)
  exact ⟨h, h2, Nat.mod_eq_of_lt h2⟩

theorem leNat_digit (l : List U8) (i : Nat) (h : i < l.length) : leNat l / 256 ^ i % 256 = l[i].val := by
  induction l generalizing i with
  | nil => simp at h
  | cons b l ih =>
    have := b.isLt
    cases i with
    | zero =>
      simp only [leNat, Nat.pow_zero, Nat.div_one, List.getElem_cons_zero]
      omega
    | succ i =>
      simp only [leNat, Nat.pow_succ', ← Nat.div_div_eq_div_mul, List.getElem_cons_succ]
      have e : (b.val + 256 * leNat l) / 256 = leNat l := by omega
      rw [e]
      exact ih i (by simpa using h)

/-- Each of the first 30 bytes of the commitment can be read off the token. -/
theorem C47_bytes [BpCore Ext] (d : WTxoSeal Ext) (i : Fin 32) (hi : i.val < 30) :
    (BpCore.commitId d i).val = d.authToken.fe.val / 256 ^ (if BpCore.bigEndian Ext then 29 - i.val else i.val) % 256 := by
  have hlen := d.shortenedId_length
  have hs : ∀ h : i.val < d.shortenedId.length, d.shortenedId[i.val] = BpCore.commitId d i := by
    intro h; rw [shortenedId_get d i.val h]
  simp only [WTxoSeal.authToken, AuthToken.fromByteArray]
  cases BpCore.bigEndian Ext with
  | false =>
    simp only [Bool.false_eq_true, if_false]
    rw [leNat_digit _ _ (by omega), hs]
  | true =>
    simp only [if_true]
    rw [leNat_digit _ _ (by simp; omega), List.getElem_reverse]
    have e : d.shortenedId.length - 1 - (29 - i.val) = i.val := by omega
    simp only [e]
    rw [hs]

/-- A toy instance: the commitment of a definition is its output number in the first byte and, in the
last byte, whether it is external. -/
@[instance_reducible] def Demo.toyBp : BpCore Unit where
  Tx := Txid
  Anchor := List (TxoSeal Unit) × Bytes32
  Message := Bytes32
  SealError := String
  txid t := t
  commitId d i := match d.primary with
    | .wout v => if i = 0 then Fin.ofNat _ v.val else 0
    | .extern p => if i = 0 then Fin.ofNat _ p.vout.val else if i = 31 then 1 else 0
  bigEndian := false
  display _ := ""
  messageOfBytes b := b
  verifySealsClosing _ anchor seals msg := if anchor = (seals, msg) then .ok () else .error "not closed"

/-- Two definitions whose commitments differ only in the last byte have the same token, and one which
differs in the first byte has another. -/
example : letI := Demo.toyBp
    (WTxoSeal.mk (.wout 3) ()).authToken = (WTxoSeal.mk (.extern ⟨⟨7⟩, 3⟩) ()).authToken ∧
    (WTxoSeal.mk (.wout 3) ()).authToken ≠ (WTxoSeal.mk (.wout 4) ()).authToken := by
  decide +kernel

end

/-! ## C53 -/

section
variable {Ext : Type} [LinearOrder Ext] [BpCore Ext] [OpHash]
variable {C : Type} [ContractApi (TxoSeal Ext) C] {R : Type} [ReadOperation (TxoSeal Ext) R]

/-- In an accepted consignment over bitcoin seals, the transaction attached to a block passed the
closing check for a list of seals, one for each input in order, over the operation id.  The seal of an
input is given by the definition which an earlier block revealed for it: the outpoint named there, or
the named output of the transaction attached to that earlier block; its secondary part is that of the
definition. -/
theorem C53_bitcoin_seals {c : C} {r : R} {blocks : List (OperationSeals (TxoSeal Ext))} {o} (h : Accepted c r blocks o)
    {i : Nat} {b : OperationSeals (TxoSeal Ext)} (hb : blocks[i]? = some b) {w : SealWitness (TxoSeal Ext)}
    (hw : b.witness = some w) :
    ∃ seals : List (TxoSeal Ext),
      BpCore.verifySealsClosing w.published w.client seals
        (BpCore.messageOfBytes (Ext := Ext) (idAt (ContractApi.contractId (TxoSeal Ext) c) i b).bytes) = .ok () ∧
      List.Forall₂ (fun (inp : Input) (s : TxoSeal Ext) => ∃ (j : Nat) (bj : OperationSeals (TxoSeal Ext)) (d : WTxoSeal Ext),
          j < i ∧ blocks[j]? = some bj ∧ inp.addr.opid = idAt (ContractApi.contractId (TxoSeal Ext) c) j bj ∧
          bj.definedSeals.get? inp.addr.pos = some d ∧ s.secondary = d.secondary ∧
          (d.primary = .extern s.primary ∨
            ∃ (v : Fin (2 ^ 32)) (wj : SealWitness (TxoSeal Ext)), d.primary = .wout v ∧ bj.witness = some wj ∧
              s.primary = ⟨BpCore.txid wj.published, v⟩))
        b.operation.destructibleIn seals := by
  obtain ⟨seals, h1, h2, _⟩ := (h.valid i b hb).closed
  refine ⟨seals, h2 w hw, h1.imp ?_⟩
  rintro inp s ⟨j, bj, hj, hbj, ⟨ha, d, hd, hs⟩, _⟩
  refine ⟨j, bj, d, hj, hbj, ha, OMap.get?_eq_some.2 hd, ?_⟩
  obtain ⟨p | p, e⟩ := d
  · rcases hs with hs | ⟨_, wj, hwj, rfl⟩
    · exact absurd hs (by simp [RgbSeal.toSrc, WTxoSeal.toSrc])
    · exact ⟨rfl, .inr ⟨p, wj, rfl, hwj, rfl⟩⟩
  · rcases hs with hs | ⟨hs, _⟩
    · have hs' : (⟨p, e⟩ : TxoSeal Ext) = s := Option.some.inj hs
      subst hs'
      exact ⟨rfl, .inl rfl⟩
    · exact absurd hs (by simp [RgbSeal.toSrc, WTxoSeal.toSrc])

end

namespace Demo
scoped instance : BpCore Unit := toyBp

/-- A bundle over bitcoin seals. -/
abbrev BtcBlock := OperationSeals (TxoSeal Unit)

/-- The definition of an output of a given transaction, and of the witness. -/
def out (txid vout : Nat) : WTxoSeal Unit := ⟨.extern ⟨⟨Fin.ofNat _ txid⟩, Fin.ofNat _ vout⟩, ()⟩
/-- See `out`. -/
def wout (vout : Nat) : WTxoSeal Unit := ⟨.wout (Fin.ofNat _ vout), ()⟩

/-- An operation over bitcoin seals. -/
def btcOp (nonce : Nat) (ins : List CellAddr) (outs : List (WTxoSeal Unit)) : Operation :=
  { op nonce ins [] with destructibleOut := outs.map fun d => ⟨.none, d.authToken, none⟩ }

/-- A transaction closing seals over a message. -/
def btcWit (txid : Nat) (seals : List (TxoSeal Unit)) (msg : Bytes32) : SealWitness (TxoSeal Unit) :=
  ⟨(⟨Fin.ofNat _ txid⟩ : Txid), ((seals, msg) : List (TxoSeal Unit) × Bytes32)⟩

/-- Genesis assigning an existing output, a transfer of it to output 1 of its own witness, and a
transfer of that. -/
def btcStory : List BtcBlock :=
  [⟨{ btcOp 100 [] [out 40 0] with contractId := ⟨7⟩ }, .collect [(0, out 40 0)], none⟩,
   ⟨btcOp 101 [at_ 100 0] [wout 1], .collect [(0, wout 1)], some (btcWit 41 [⟨⟨⟨40⟩, 0⟩, ()⟩] 101)⟩,
   ⟨btcOp 102 [at_ 101 0] [wout 0], .collect [(0, wout 0)], some (btcWit 42 [⟨⟨⟨41⟩, 1⟩, ()⟩] 102)⟩]

/-- The contract of the tests over bitcoin seals. -/
def btcContract : TestContract (TxoSeal Unit) where
  codex := codex
  contractId := ⟨9⟩
  libs := ⟨fun _ => none⟩
  global := .empty
  owned := .collect (numbered ⟨100⟩ id (btcOp 100 [] [out 40 0]).destructibleOut)
  knownOps := .collect [(⟨100⟩, btcOp 100 [] [out 40 0])]
  sealDefinitions := .collect [(⟨100⟩, .empty)]
  witnesses := .collect [(⟨100⟩, [])]
end Demo

open Demo in
example : (∃ o, Accepted btcContract (TestReader.mk btcStory) btcStory o) ∧
    ∃ b w, btcStory[2]? = some b ∧ b.witness = some w ∧ b.operation.destructibleIn ≠ [] :=
  ⟨accepted_by_test (by decide +kernel), _, _, rfl, rfl, by simp [btcOp, op]⟩

end Rgb
