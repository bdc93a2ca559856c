import Verif.UnitTests
import Verif.Props.TestContract
import Verif.Props.Bitcoin

set_option linter.unusedSectionVars false

/-! # C57, C58: the crate's unit tests, for every hash function, codex and seal closing check -/

namespace Rgb
open Spec

open Fixtures

section
variable {Ext : Type} [LinearOrder Ext] [BpCore Ext] [OpHash] (f : Fixtures Ext)

theorem Fixtures.fails_of {blocks rest : List (OperationSeals (TxoSeal Ext))} {b : OperationSeals (TxoSeal Ext)}
    {e : VerificationError (TxoSeal Ext) Empty} {l} (hv : ValidConsignment f.contract blocks)
    (hr : Rejection f.contract blocks b e l) : f.Fails (blocks ++ [b] ++ rest) e := by
  obtain ⟨o, h1, h2, _⟩ := evaluate_of_rejection (r := TestReader.mk (blocks ++ [b] ++ rest))
    ⟨_, testReader_reads (blocks ++ [b]) rest⟩ hv hr
  exact ⟨o, h1, h2⟩

/-- A first block with genesis, whatever it reveals of its only seal, is valid. -/
theorem Fixtures.valid_genesis {m : OMap U16 (RgbSeal.Definition (TxoSeal Ext))}
    (hm : ∀ p d, (p, d) ∈ m.entries → RgbSeal.authToken (Seal := TxoSeal Ext) d = f.seal1.authToken) :
    ValidConsignment f.contract [⟨streamed f.genesis, m, none⟩] := by
  refine (validConsignment_snoc (xs := [])).2 ⟨validConsignment_nil, fun _ => rfl, ?_, by simp [streamed, Genesis.toOperation], ?_, ?_⟩
  · intro p d hd
    exact ⟨⟨.none, f.seal1.authToken, none⟩, by simp [streamed, Genesis.toOperation, genesis], (hm p d hd).symm⟩
  · exact ⟨[], by simp [streamed, Genesis.toOperation], by simp, by simp⟩
  · intro hk
    change (f.contract.knownOps.get? f.genesisOpid).isSome = false at hk
    rw [contract, show OMap.collect [(f.genesisOpid, f.genesisOp)] = OMap.empty.insert f.genesisOpid f.genesisOp from rfl,
      OMap.get?_insert] at hk
    simp at hk

theorem Fixtures.openAt_one {cid : ContractId} {b : OperationSeals (TxoSeal Ext)} {a : CellAddr} {s : TxoSeal Ext} :
    OpenAt cid [b] 1 a s ↔ Announces cid 0 b a s := by
  constructor
  · rintro ⟨j, b', hj, hb, ha, _⟩
    obtain rfl : j = 0 := by omega
    obtain rfl : b = b' := by simpa using hb
    exact ha
  · intro h
    exact ⟨0, b, by omega, rfl, h, fun k b' h1 h2 => by omega⟩

theorem Fixtures.mem_single {K V : Type} [LinearOrder K] {k k' : K} {v v' : V} :
    (k', v') ∈ (OMap.collect [(k, v)]).entries ↔ k' = k ∧ v' = v := by
  change (k', v') ∈ [(k, v)] ↔ _
  simp

/-! ## C57 -/

/-- Test `empty` (verify.rs:502-506) passes. -/
theorem C57_empty : f.Passes [] := by
  obtain ⟨o, h1, h2, h3⟩ := evaluate_of_delivers (testReader_delivers (Seal := TxoSeal Ext) []) (validConsignment_nil (c := f.contract))
  refine ⟨o, h1, h2, ?_⟩
  rw [h3.contract]
  exact ⟨⟨_, rfl, rfl⟩, ⟨_, rfl, rfl⟩, ⟨_, rfl, rfl⟩⟩

/-- Test `genesis_only` (verify.rs:508-516) passes. -/
theorem C57_genesis_only : f.Passes f.genesisOnly := by
  have hv : ValidConsignment f.contract f.genesisOnly := f.valid_genesis (m := .empty) (by simp [OMap.empty])
  obtain ⟨o, h1, h2, h3⟩ := evaluate_of_delivers (testReader_delivers _) hv
  refine ⟨o, h1, h2, ?_⟩
  have : o.world.contract = f.contract := by
    rw [h3.contract]; rfl
  rw [this]
  exact ⟨⟨_, rfl, rfl⟩, ⟨_, rfl, rfl⟩, ⟨_, rfl, rfl⟩⟩

/-- Test `invalid_genesis` (verify.rs:518-528): fails as expected, for every foreign codex id. -/
theorem C57_invalid_genesis {x : CodexId} (hx : x ≠ f.codex.codexId) : f.Fails (f.invalidGenesis x) .noCodexCommitment := by
  refine f.fails_of (blocks := []) (rest := []) (l := []) validConsignment_nil (.codex rfl ?_)
  intro h
  exact hx (by cases x; cases hc : f.codex.codexId; simp_all [streamed, Genesis.toOperation, foreignGenesis, contract, ContractApi.codex])

/-- Test `invalid_seals` (verify.rs:530-561): fails as expected, and the error names both tokens and the
definition. -/
theorem C57_invalid_seals (hd : f.sealDumb.authToken ≠ f.seal1.authToken) :
    f.Fails f.invalidSeals (.sealsDefinitionMismatch f.genesisOpid (.collect [f.sealDumb.authToken])
      (.collect [f.seal1.authToken]) (.collect [(0, BpCore.display f.sealDumb)])) := by
  refine f.fails_of (blocks := []) (rest := []) (l := []) validConsignment_nil
    (.mismatch (fun _ => rfl) ⟨0, f.sealDumb, mem_single.2 ⟨rfl, rfl⟩, ?_⟩ ?_ ?_ ?_)
  · intro cell hc
    simp only [streamed, Genesis.toOperation, genesis, List.mem_singleton] at hc
    subst hc
    exact fun h => hd h.symm
  · intro t
    simp only [OSet.mem_collect, List.mem_singleton]
    constructor
    · rintro rfl; exact ⟨0, f.sealDumb, mem_single.2 ⟨rfl, rfl⟩, rfl⟩
    · rintro ⟨p, d, h, rfl⟩; obtain ⟨_, rfl⟩ := mem_single.1 h; rfl
  · intro t
    simp [OSet.mem_collect, streamed, Genesis.toOperation, genesis]
  · intro p s
    rw [mem_single]
    constructor
    · rintro ⟨rfl, rfl⟩; exact ⟨f.sealDumb, mem_single.2 ⟨rfl, rfl⟩, rfl⟩
    · rintro ⟨d, h, rfl⟩; obtain ⟨rfl, rfl⟩ := mem_single.1 h; exact ⟨rfl, rfl⟩

/-- The second operation of the tests reveals no seals. -/
theorem Fixtures.operation_committed (w : Option (SealWitness (TxoSeal Ext))) : SealsCommitted ⟨f.operation, .empty, w⟩ := by
  intro p d h; simp [OMap.empty] at h

/-- Test `seal_unknown` (verify.rs:563-575): fails as expected. -/
theorem C57_seal_unknown : f.Fails f.sealUnknown (.sealUnknown ⟨f.genesisOpid, 0⟩) := by
  refine f.fails_of (blocks := [⟨streamed f.genesis, .empty, none⟩]) (rest := []) (l := [])
    (f.valid_genesis (by simp [OMap.empty])) ?_
  refine .unknown (pre := []) (post := []) (inp := ⟨⟨f.genesisOpid, 0⟩, .none⟩) (fun h => by simp at h)
    (f.operation_committed none) rfl (by simp) (by simp) (.inl ?_)
  intro s h
  obtain ⟨_, d, h, _⟩ := openAt_one.1 h
  simp [OMap.empty] at h

/-- `operation()` is known (which a collision could cause) or the codex accepts it after genesis. -/
def Fixtures.OperationPasses : Prop :=
  opid f.operation = f.genesisOpid ∨ ∃ v, codexAnswer (TxoSeal Ext) f.contract f.contractIdDumb f.operation = .ok v

/-- The contract after a genesis revealing seals answers like before. -/
theorem Fixtures.passes_after {m : OMap U16 (RgbSeal.Definition (TxoSeal Ext))} {w : Option (SealWitness (TxoSeal Ext))}
    (h : f.OperationPasses) : ScriptPasses f.contract [⟨streamed f.genesis, m, none⟩] ⟨f.operation, .empty, w⟩ := by
  have hc : ∀ o, ContractApi.isKnown (TxoSeal Ext) (contractAt f.contract.contractId f.contract [⟨streamed f.genesis, m, none⟩] 1) o =
      ContractApi.isKnown (TxoSeal Ext) f.contract o := by
    intro o
    simp only [contractAt, List.getElem?_cons_zero, callbacks, witnessCallbacks, operationCallbacks, true_or, if_true,
      List.nil_append, sealCallbacks]
    split <;> rfl
  have hx : codexAnswer (TxoSeal Ext) (contractAt f.contract.contractId f.contract [⟨streamed f.genesis, m, none⟩] 1)
      f.contractIdDumb f.operation = codexAnswer (TxoSeal Ext) f.contract f.contractIdDumb f.operation := by
    simp only [contractAt, List.getElem?_cons_zero, callbacks, witnessCallbacks, operationCallbacks, true_or, if_true,
      List.nil_append, sealCallbacks]
    split <;> rfl
  rcases h with h | ⟨v, h⟩
  · left
    change ContractApi.isKnown (TxoSeal Ext) (contractAt f.contract.contractId f.contract [⟨streamed f.genesis, m, none⟩] 1) (opid f.operation) = true
    rw [hc, h]
    change ((OMap.empty.insert f.genesisOpid f.genesisOp).get? f.genesisOpid).isSome = true
    rw [OMap.get?_insert]; simp
  · exact .inr ⟨v, by rw [← h, ← hx]; rfl⟩

/-- After genesis has revealed `SEAL_1` its output is open with it. -/
theorem Fixtures.seal1_open {w : Option (SealWitness (TxoSeal Ext))} : InputsSealed f.contract
    [⟨streamed f.genesis, .collect [((0 : U16), (f.seal1 : RgbSeal.Definition (TxoSeal Ext)))], none⟩]
    ⟨f.operation, .empty, w⟩ [⟨f.coinbase, f.fallback⟩] := by
  refine ⟨by simp [operation], .cons (openAt_one.2 ⟨rfl, f.seal1, mem_single.2 ⟨rfl, rfl⟩, .inl rfl⟩) .nil⟩

/-- Test `no_witness` (verify.rs:596-612): fails as expected if the codex accepts the operation. -/
theorem C57_no_witness (h : f.OperationPasses) : f.Fails (f.spending none) (.noWitness (opid f.operation)) :=
  f.fails_of (blocks := [_]) (rest := [])
    (f.valid_genesis (by intro p d h; obtain ⟨_, rfl⟩ := mem_single.1 h; rfl))
    (.noWitness (fun h => by simp at h) (f.operation_committed none) f.seal1_open (f.passes_after h) rfl (by simp [operation]))

/-- Tests `seals_unclosed`, `not_spending_utxo` and `missing_commitment` (verify.rs:614-723): fail as
expected, with the error of the seal protocol, for every witness that does not close `SEAL_1` over the
operation id. -/
theorem C57_not_closed (h : f.OperationPasses) {w : SealWitness (TxoSeal Ext)} {e : BpCore.SealError Ext}
    (hw : BpCore.verifySealsClosing w.published w.client [(⟨f.coinbase, f.fallback⟩ : TxoSeal Ext)]
      (BpCore.messageOfBytes (Ext := Ext) (opid f.operation).bytes) = .error e) :
    f.Fails (f.spending (some w)) (.sealsNotClosed (BpCore.txid w.published) (opid f.operation) e) :=
  f.fails_of (blocks := [_]) (rest := [])
    (f.valid_genesis (by intro p d h; obtain ⟨_, rfl⟩ := mem_single.1 h; rfl))
    (.notClosed (fun h => by simp at h) (f.operation_committed _) f.seal1_open (f.passes_after h) rfl hw)

/-! ## C58 -/

/-- The id of the genesis of `genesis_with_wout`. -/
def Fixtures.modifiedId (d : WTxoSeal Ext) : Opid := opid ((f.genesisWith d).toOperation f.contractIdDumb)

/-- The modified genesis is new to the contract (or collides with the known one), and the codex accepts it. -/
def Fixtures.GenesisPasses (d : WTxoSeal Ext) : Prop :=
  f.modifiedId d = f.genesisOpid ∨
    ∃ v, codexAnswer (TxoSeal Ext) f.contract f.contractIdDumb ((f.genesisWith d).toOperation f.contractIdDumb) = .ok v

/-- The first block of `genesis_with_wout`, with any definition. -/
def Fixtures.modified (d : WTxoSeal Ext) : OperationSeals (TxoSeal Ext) :=
  ⟨streamed (f.genesisWith d), .collect [((0 : U16), (d : RgbSeal.Definition (TxoSeal Ext)))], none⟩

/-- The block with the modified genesis is valid. -/
theorem Fixtures.valid_modified {d : WTxoSeal Ext} (h : f.GenesisPasses d) : ValidConsignment f.contract [f.modified d] := by
  refine (validConsignment_snoc (xs := [])).2 ⟨validConsignment_nil, fun _ => rfl, ?_, by simp [modified, streamed, Genesis.toOperation], ?_, ?_⟩
  · intro p d' hd
    obtain ⟨rfl, rfl⟩ := mem_single.1 hd
    exact ⟨⟨.none, _, none⟩, List.mem_singleton.2 rfl, rfl⟩
  · exact ⟨[], by simp [modified, streamed, Genesis.toOperation], by simp [modified], by simp⟩
  · intro hk
    rcases h with h | h
    · change ((OMap.empty.insert f.genesisOpid f.genesisOp).get? (f.modifiedId d)).isSome = false at hk
      rw [OMap.get?_insert, h] at hk
      simp at hk
    · exact h

/-- Test `genesis_with_wout` (verify.rs:577-594) ends with the error it expects whatever seal definition
genesis reveals, relative to a witness or not, as soon as the changed genesis has another id: the
second operation refers to the id of the unchanged genesis.  (With the same id it is `seal_unknown` if the
definition is relative.)  So the test does not show anything about relative seals of genesis. -/
theorem C58_genesis_with_wout {d : WTxoSeal Ext} (h : f.GenesisPasses d) (hne : f.modifiedId d ≠ f.genesisOpid) :
    f.Fails (f.genesisWithSeal d) (.sealUnknown ⟨f.genesisOpid, 0⟩) := by
  refine f.fails_of (blocks := [_]) (rest := []) (l := []) (f.valid_modified h) ?_
  refine .unknown (pre := []) (post := []) (inp := ⟨⟨f.genesisOpid, 0⟩, .none⟩) (fun h => by simp at h)
    (f.operation_committed none) rfl (by simp) (by simp) (.inl ?_)
  intro s h
  obtain ⟨h, _⟩ := openAt_one.1 h
  exact hne h.symm

/-- The operation spending the output of the modified genesis. -/
def Fixtures.redirected (d : WTxoSeal Ext) : Operation := { f.operation with destructibleIn := [⟨⟨f.modifiedId d, 0⟩, .none⟩] }

/-- What the test is meant to show does hold: with the second operation spending the output of the
changed genesis, a relative definition leaves the seal unknown. -/
theorem C58_relative_seal {v : Fin (2 ^ 32)} {e : Ext} (h : f.GenesisPasses ⟨.wout v, e⟩) :
    f.Fails [f.modified ⟨.wout v, e⟩, ⟨f.redirected ⟨.wout v, e⟩, .empty, none⟩] (.sealUnknown ⟨f.modifiedId ⟨.wout v, e⟩, 0⟩) := by
  refine f.fails_of (blocks := [_]) (rest := []) (l := []) (f.valid_modified h) ?_
  refine .unknown (pre := []) (post := []) (inp := ⟨⟨f.modifiedId ⟨.wout v, e⟩, 0⟩, .none⟩) (fun h => by simp at h)
    (fun p d h => by simp [OMap.empty] at h) rfl (by simp) (by simp) (.inl ?_)
  intro s h
  obtain ⟨_, d, hd, hs | ⟨_, w, hw, _⟩⟩ := openAt_one.1 h
  · obtain ⟨_, rfl⟩ := mem_single.1 hd
    simp [RgbSeal.toSrc, WTxoSeal.toSrc] at hs
  · cases hw

/-- With the second operation spending the output of the changed genesis, an external definition gives a
different error: so the corrected test does tell relative from external definitions. -/
theorem C58_external_seal {p : Outpoint} {e : Ext} (h : f.GenesisPasses ⟨.extern p, e⟩)
    (h' : ScriptPasses f.contract [f.modified ⟨.extern p, e⟩] ⟨f.redirected ⟨.extern p, e⟩, .empty, none⟩) :
    f.Fails [f.modified ⟨.extern p, e⟩, ⟨f.redirected ⟨.extern p, e⟩, .empty, none⟩] (.noWitness (opid (f.redirected ⟨.extern p, e⟩))) :=
  f.fails_of (blocks := [_]) (rest := []) (f.valid_modified h)
    (.noWitness (seals := [⟨p, e⟩]) (fun h => by simp at h) (fun p d h => by simp [OMap.empty] at h)
      ⟨by simp [redirected], .cons (openAt_one.2 ⟨rfl, _, mem_single.2 ⟨rfl, rfl⟩, .inl rfl⟩) .nil⟩ h' rfl (by simp [redirected]))

/-- No test of the suite evaluates an accepted spending, and none can with these helpers: whenever the
stream of the last four tests is accepted, with any witness, the assertions of `run` fail (provided the
ids involved are distinct). -/
theorem C58_no_accepted_spending {w : Option (SealWitness (TxoSeal Ext))}
    (h1 : opid (streamed f.genesis) ≠ f.genesisOpid) (h2 : opid f.operation ≠ f.genesisOpid)
    (h3 : opid f.operation ≠ opid (streamed f.genesis)) : ¬ f.Passes (f.spending w) := by
  rintro ⟨o, ho, hr, _, ⟨first, hf1, hf2⟩, _⟩
  have ha : Accepted f.contract (TestReader.mk (f.spending w)) (f.spending w) o := ⟨ho, hr, testReader_delivers _⟩
  -- the contract has an entry of seal definitions for genesis only
  have hs : ∀ x, (o.world.contract.sealDefinitions.get? x).isSome → x = f.genesisOpid := by
    intro x hx
    rcases (C51_seal_entries ha x).1 hx with hx | ⟨i, b, hb, hi, hn⟩
    · change ((OMap.empty.insert f.genesisOpid _).get? x).isSome at hx
      rw [OMap.get?_insert] at hx
      split at hx
      · assumption
      · simp [OMap.get?, OMap.empty, OMap.lookupL] at hx
    · match i, hb with
      | 0, hb =>
        simp only [spending, List.getElem?_cons_zero, Option.some.injEq] at hb
        subst hb
        exact hi.symm
      | 1, hb =>
        simp only [spending, List.getElem?_cons_succ, List.getElem?_cons_zero, Option.some.injEq] at hb
        subst hb
        simp [OMap.empty] at hn
      | n + 2, hb => simp [spending] at hb
  -- but two different ids are expected, one of which is removed
  have key : ∀ (a b : Opid) (va vb : OMap U16 (RgbSeal.Definition (TxoSeal Ext))), a ≠ b →
      ∃ x, (x = a ∨ x = b) ∧ ((OMap.collect [(a, va), (b, vb)]).popFirst.get? x).isSome := by
    intro a b va vb hab
    rcases lt_trichotomy a b with hlt | he | hlt
    · refine ⟨b, .inr rfl, ?_⟩
      rw [get?_popFirst_collect (by simpa using hlt)]
      simp [OMap.collect, OMap.extend, OMap.get?_insert]
    · exact absurd he hab
    · refine ⟨a, .inl rfl, ?_⟩
      have : OMap.collect [(a, va), (b, vb)] = OMap.collect [(b, vb), (a, va)] := by
        refine OMap.ext_get? fun x => ?_
        simp only [OMap.collect, OMap.extend, List.foldl_cons, List.foldl_nil, OMap.get?_insert]
        by_cases e1 : x = a <;> by_cases e2 : x = b <;> simp_all
      rw [this, get?_popFirst_collect (by simpa using hlt)]
      simp [OMap.collect, OMap.extend, OMap.get?_insert]
  obtain ⟨x, hx, hx'⟩ := key (opid (streamed f.genesis)) (opid f.operation) _ _ (Ne.symm h3)
  have hx2 : (o.world.contract.sealDefinitions.get? x).isSome := by
    rw [← hf2, OMap.get?_insert]
    split
    · rfl
    · exact hx'
  have := hs x hx2
  rcases hx with rfl | rfl
  · exact h1 this
  · exact h2 this

end

/-! ### the hypotheses can be met -/

/-- A toy hash depending on the nonce, the contract id, the outputs and the inputs. -/
@[instance_reducible] def Demo.toyHash : OpHash where
  opid op := ⟨Fin.ofNat _ (op.nonce + 1000 * op.contractId.bytes.val + 100000 * op.destructibleIn.length +
    1000000 * (op.destructibleOut.map (·.auth.fe.val)).sum)⟩

/-- Toy fixtures with a codex accepting everything. -/
def Demo.fixtures : letI := Demo.toyHash; Fixtures Unit :=
  letI := Demo.toyHash
  { codex := ⟨⟨7⟩, fun _ op _ _ => .ok ⟨opid op, op⟩⟩
    libs := ⟨fun _ => none⟩
    genesisDumb := ⟨0, ⟨0⟩, 0, 1, .none, [], []⟩
    contractIdDumb := ⟨9⟩
    data := ⟨.none, none⟩
    coinbase := ⟨⟨0⟩, 0⟩
    fallback := ()
    sealDumb := ⟨.wout 5, ()⟩
    version := 0
    zero := 0 }

open Demo in
example : letI := toyBp; letI := toyHash
    (⟨8⟩ : CodexId) ≠ fixtures.codex.codexId ∧ fixtures.sealDumb.authToken ≠ fixtures.seal1.authToken ∧
    fixtures.OperationPasses ∧
    (∃ (w : SealWitness (TxoSeal Unit)) (e : String), BpCore.verifySealsClosing w.published w.client
      [(⟨fixtures.coinbase, fixtures.fallback⟩ : TxoSeal Unit)]
      (BpCore.messageOfBytes (Ext := Unit) (opid fixtures.operation).bytes) = .error e) := by
  let := toyBp; let := toyHash
  refine ⟨by decide +kernel, by decide +kernel, .inr ⟨_, rfl⟩, ⟨((⟨0⟩ : Txid) : BpCore.Tx Unit), (([], 0) : BpCore.Anchor Unit)⟩, "not closed", ?_⟩
  exact if_neg (by intro h; injection h with h; simp at h)

open Demo in
example : letI := toyBp; letI := toyHash
    (∃ d : WTxoSeal Unit, fixtures.GenesisPasses d ∧ fixtures.modifiedId d ≠ fixtures.genesisOpid ∧ d.toSrc = none) ∧
    (∃ (p : Outpoint) (e : Unit), fixtures.GenesisPasses ⟨.extern p, e⟩ ∧ fixtures.modifiedId ⟨.extern p, e⟩ ≠ fixtures.genesisOpid ∧
      ScriptPasses fixtures.contract [fixtures.modified ⟨.extern p, e⟩] ⟨fixtures.redirected ⟨.extern p, e⟩, .empty, none⟩) := by
  let := toyBp; let := toyHash
  exact ⟨⟨⟨.wout 5, ()⟩, .inr ⟨_, rfl⟩, by decide +kernel, rfl⟩, ⟨⟨⟨0⟩, 4⟩, (), .inr ⟨_, rfl⟩, by decide +kernel, .inr ⟨_, rfl⟩⟩⟩

open Demo in
/-- The ids are distinct and the spending stream is accepted with a suitable witness. -/
example : letI := toyBp; letI := toyHash
    opid (Fixtures.streamed fixtures.genesis) ≠ fixtures.genesisOpid ∧ opid fixtures.operation ≠ fixtures.genesisOpid ∧
    opid fixtures.operation ≠ opid (Fixtures.streamed fixtures.genesis) ∧
    ∃ w o, Accepted fixtures.contract (TestReader.mk (fixtures.spending (some w))) (fixtures.spending (some w)) o := by
  let := toyBp; let := toyHash
  refine ⟨by decide +kernel, by decide +kernel, by decide +kernel,
    ⟨((⟨0⟩ : Txid) : BpCore.Tx Unit), (([⟨⟨⟨0⟩, 0⟩, ()⟩], (opid fixtures.operation).bytes) : BpCore.Anchor Unit)⟩,
    accepted_by_test (by decide +kernel)⟩

end Rgb
