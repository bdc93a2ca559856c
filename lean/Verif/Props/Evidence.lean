import Verif.Props.Conflicts
import Verif.Props.Bitcoin

set_option linter.unusedSectionVars false

/-! # C71: a conflict between accepted consignments is provable misconduct of witnesses -/

namespace Rgb
open Spec

section
variable {Seal : Type} [LinearOrder Seal] [RgbSeal Seal] [OpHash]
variable {C E : Type} [ContractApi Seal C]
variable {R : Type} [ReadOperation Seal R]

/-- **C71.**  If two accepted consignments for the same contract contain different operations consuming the
same cell, then they contain two witnesses which close a common seal, and which have different ids or do
so over different operation ids.  Nothing is assumed of the seal protocol. -/
theorem C71_evidence {C' : Type} [ContractApi Seal C'] {R' : Type} [ReadOperation Seal R'] {c : C} {c' : C'} {r : R} {r' : R'}
    {xs ys : List (OperationSeals Seal)} {o o'} (h : Accepted c r xs o) (h' : Accepted c' r' ys o')
    (hcid : ContractApi.contractId Seal c' = ContractApi.contractId Seal c)
    (hw : WellFormed (ContractApi.contractId Seal c) xs ys)
    {i j : Nat} {b b' : OperationSeals Seal} (hb : xs[i]? = some b) (hb' : ys[j]? = some b')
    {a : CellAddr} (ha : Consumes b a) (ha' : Consumes b' a)
    (hne : idAt (ContractApi.contractId Seal c) i b ≠ idAt (ContractApi.contractId Seal c) j b') :
    ∃ (k l : Nat) (bk bl : OperationSeals Seal) (w w' : SealWitness Seal),
      Contend (ContractApi.contractId Seal c) xs ys k l bk bl w w' ∧
      (RgbSeal.pubId w.published ≠ RgbSeal.pubId w'.published ∨
        idAt (ContractApi.contractId Seal c) k bk ≠ idAt (ContractApi.contractId Seal c) l bl) := by
  by_contra hno
  refine hne (no_conflict rfl hcid h.valid h'.valid hw ?_ hb hb' ha ha')
  intro k l bk bl w w' hcon
  by_contra hbad
  refine hno ⟨k, l, bk, bl, w, w', hcon, ?_⟩
  by_contra hgood
  exact hbad (by simpa [not_or] using hgood)

theorem noClash_among {W : SealWitness Seal → Prop} (hsu : SingleUseAmong W) (hinj : Function.Injective (message Seal))
    {cid : ContractId} {xs ys : List (OperationSeals Seal)} (hx : ∀ b ∈ xs, ∀ w, b.witness = some w → W w)
    (hy : ∀ b ∈ ys, ∀ w, b.witness = some w → W w) : NoClash cid xs ys := by
  rintro i j b b' w w' ⟨h1, h2, h3, h4, seals, seals', s, hs, hs', k, k'⟩
  obtain ⟨e1, e2⟩ := hsu w w' (hx b (List.mem_of_getElem? h1) w h3) (hy b' (List.mem_of_getElem? h2) w' h4)
    seals seals' _ _ s k k' hs hs'
  exact ⟨e1, hinj e2⟩

/-- So if all the witnesses belong to a class within which no seal is closed twice, for instance the
published ones, the consignments do not conflict. -/
theorem C71_published {W : SealWitness Seal → Prop} (hsu : SingleUseAmong W) (hinj : Function.Injective (message Seal))
    {C' : Type} [ContractApi Seal C'] {R' : Type} [ReadOperation Seal R'] {c : C} {c' : C'} {r : R} {r' : R'}
    {xs ys : List (OperationSeals Seal)} {o o'} (h : Accepted c r xs o) (h' : Accepted c' r' ys o')
    (hcid : ContractApi.contractId Seal c' = ContractApi.contractId Seal c)
    (hw : WellFormed (ContractApi.contractId Seal c) xs ys)
    (hx : ∀ b ∈ xs, ∀ w, b.witness = some w → W w) (hy : ∀ b ∈ ys, ∀ w, b.witness = some w → W w)
    {i j : Nat} {b b' : OperationSeals Seal} (hb : xs[i]? = some b) (hb' : ys[j]? = some b')
    {a : CellAddr} (ha : Consumes b a) (ha' : Consumes b' a) :
    idAt (ContractApi.contractId Seal c) i b = idAt (ContractApi.contractId Seal c) j b' :=
  no_conflict rfl hcid h.valid h'.valid hw (noClash_among hsu hinj hx hy) hb hb' ha ha'

/-- And over a history of evaluations of streams with such witnesses no cell is consumed twice by applied
operations. -/
theorem C71_history {W : SealWitness Seal → Prop} (hsu : SingleUseAmong W) (hinj : Function.Injective (message Seal))
    (hl : Lawful Seal C) {c c' : C} (hf : Faithful (ContractApi.codex Seal c)) {P : OperationSeals Seal → Prop}
    (hw : ∀ xs ys : List (OperationSeals Seal), (∀ b ∈ xs, P b) → (∀ b ∈ ys, P b) →
      WellFormed (ContractApi.contractId Seal c) xs ys)
    {l : List (Call Seal)} (h : HistoryOf (fun b => P b ∧ ∀ w, b.witness = some w → W w) c l c') :
    ((l.filterMap appliedOperation).flatMap fun v => v.operation.destructibleIn.map (·.addr)).Nodup :=
  history_noClash hl hf (fun xs ys hx hy => hw xs ys (fun b hb => (hx b hb).1) fun b hb => (hy b hb).1)
    (fun _ _ hx hy => noClash_among hsu hinj (fun b hb => (hx b hb).2) fun b hb => (hy b hb).2) h

end

section
variable {Ext : Type} [LinearOrder Ext] [BpCore Ext] [OpHash]
variable {C : Type} [ContractApi (TxoSeal Ext) C] {R : Type} [ReadOperation (TxoSeal Ext) R]

/-- What is assumed of bitcoin: `Spent tx p` says that the transaction spends the outpoint, and `Chain tx`
that it is in the chain. -/
structure BitcoinRules (Ext : Type) [LinearOrder Ext] [BpCore Ext] (Spent : BpCore.Tx Ext → Outpoint → Prop)
    (Chain : BpCore.Tx Ext → Prop) : Prop where
  /-- a transaction closes only seals whose primary outpoint it spends -/
  spends : ∀ tx anchor (seals : List (TxoSeal Ext)) m, BpCore.verifySealsClosing tx anchor seals m = .ok () →
    ∀ s ∈ seals, Spent tx s.primary
  /-- a transaction closes a seal over one message only -/
  commits : ∀ tx anchor anchor' (seals seals' : List (TxoSeal Ext)) m m' s,
    BpCore.verifySealsClosing tx anchor seals m = .ok () → BpCore.verifySealsClosing tx anchor' seals' m' = .ok () →
    s ∈ seals → s ∈ seals' → m = m'
  /-- there are no double spends in the chain -/
  noDoubleSpend : ∀ tx tx' p, Chain tx → Chain tx' → Spent tx p → Spent tx' p → tx = tx'

theorem BitcoinRules.singleUse {Spent : BpCore.Tx Ext → Outpoint → Prop} {Chain : BpCore.Tx Ext → Prop}
    (hr : BitcoinRules Ext Spent Chain) : SingleUseAmong (Seal := TxoSeal Ext) fun w => Chain w.published := by
  rintro ⟨tx, a⟩ ⟨tx', a'⟩ hc hc' seals seals' m m' s k k' hs hs'
  obtain rfl : tx = tx' := hr.noDoubleSpend tx tx' s.primary hc hc' (hr.spends tx a seals m k s hs)
    (hr.spends tx' a' seals' m' k' s hs')
  exact ⟨rfl, hr.commits tx a a' seals seals' m m' s k k' hs hs'⟩

/-- Over bitcoin seals, two accepted consignments for the same contract whose witness transactions are all
in one chain never contain two different operations consuming the same cell. -/
theorem C71_bitcoin {Spent : BpCore.Tx Ext → Outpoint → Prop} {Chain : BpCore.Tx Ext → Prop}
    (hr : BitcoinRules Ext Spent Chain) (hinj : Function.Injective (BpCore.messageOfBytes (Ext := Ext)))
    {C' : Type} [ContractApi (TxoSeal Ext) C'] {R' : Type} [ReadOperation (TxoSeal Ext) R'] {c : C} {c' : C'} {r : R} {r' : R'}
    {xs ys : List (OperationSeals (TxoSeal Ext))} {o o'} (h : Accepted c r xs o) (h' : Accepted c' r' ys o')
    (hcid : ContractApi.contractId (TxoSeal Ext) c' = ContractApi.contractId (TxoSeal Ext) c)
    (hw : WellFormed (ContractApi.contractId (TxoSeal Ext) c) xs ys)
    (hx : ∀ b ∈ xs, ∀ w, b.witness = some w → Chain w.published) (hy : ∀ b ∈ ys, ∀ w, b.witness = some w → Chain w.published)
    {i j : Nat} {b b' : OperationSeals (TxoSeal Ext)} (hb : xs[i]? = some b) (hb' : ys[j]? = some b')
    {a : CellAddr} (ha : Consumes b a) (ha' : Consumes b' a) :
    idAt (ContractApi.contractId (TxoSeal Ext) c) i b = idAt (ContractApi.contractId (TxoSeal Ext) c) j b' := by
  refine C71_published hr.singleUse ?_ h h' hcid hw hx hy hb hb' ha ha'
  rintro ⟨x⟩ ⟨y⟩ e
  exact congrArg Opid.mk (hinj e)

end

namespace Demo.Chain
/-! A toy bitcoin: transactions with inputs and one commitment. -/

structure Tx where
  id : Txid
  inputs : List Outpoint
  commitment : Bytes32
  deriving DecidableEq

scoped instance : BpCore Bool where
  Tx := Tx
  Anchor := Unit
  Message := Bytes32
  SealError := String
  txid t := t.id
  commitId d i := match d.primary with
    | .wout v => if i = 0 then Fin.ofNat _ v.val else if i = 1 then 1 else 0
    | .extern p => if i = 0 then Fin.ofNat _ p.vout.val else if i = 2 then Fin.ofNat _ p.txid.bytes.val else 0
  bigEndian := false
  display _ := ""
  messageOfBytes b := b
  verifySealsClosing tx _ seals msg :=
    if seals.all (fun s => tx.inputs.contains s.primary) && decide (tx.commitment = msg) then .ok () else .error "not closed"

abbrev Blk := OperationSeals (TxoSeal Bool)

scoped instance : DecidableEq (RgbSeal.Definition (TxoSeal Bool)) := inferInstanceAs (DecidableEq (WTxoSeal Bool))

def out (txid vout : Nat) : WTxoSeal Bool := ⟨.extern ⟨⟨Fin.ofNat _ txid⟩, Fin.ofNat _ vout⟩, false⟩

def wout (vout : Nat) : WTxoSeal Bool := ⟨.wout (Fin.ofNat _ vout), false⟩

def txOp (nonce : Nat) (ins : List CellAddr) (outs : List (WTxoSeal Bool)) : Operation :=
  { op nonce ins [] with destructibleOut := outs.map fun d => ⟨.none, d.authToken, none⟩ }

def tx1 : Tx := ⟨⟨41⟩, [⟨⟨40⟩, 0⟩], 101⟩
def tx2 : Tx := ⟨⟨42⟩, [⟨⟨41⟩, 1⟩, ⟨⟨30⟩, 3⟩], 102⟩
/-- A transaction conflicting with `tx1`, which is not in the chain. -/
def tx3 : Tx := ⟨⟨43⟩, [⟨⟨40⟩, 0⟩], 103⟩

def start : Blk := ⟨{ txOp 100 [] [out 40 0] with contractId := ⟨7⟩ }, .collect [(0, out 40 0)], none⟩
def pay1 : Blk := ⟨txOp 101 [at_ 100 0] [wout 1], .collect [(0, wout 1)], some ⟨tx1, ()⟩⟩
def pay2 : Blk := ⟨txOp 102 [at_ 101 0] [wout 0], .collect [(0, wout 0)], some ⟨tx2, ()⟩⟩
def rival : Blk := ⟨txOp 103 [at_ 100 0] [wout 2], .collect [(0, wout 2)], some ⟨tx3, ()⟩⟩

def contract : TestContract (TxoSeal Bool) where
  codex := codex
  contractId := ⟨9⟩
  libs := ⟨fun _ => none⟩
  global := .empty
  owned := .collect (numbered ⟨100⟩ id (txOp 100 [] [out 40 0]).destructibleOut)
  knownOps := .collect [(⟨100⟩, txOp 100 [] [out 40 0])]
  sealDefinitions := .collect [(⟨100⟩, .empty)]
  witnesses := .collect [(⟨100⟩, [])]

theorem rules : BitcoinRules Bool (fun (tx : Tx) p => p ∈ tx.inputs) (fun (tx : Tx) => tx ∈ [tx1, tx2]) where
  spends tx anchor seals m h s hs := by
    simp only [BpCore.verifySealsClosing] at h
    split at h
    · rename_i k
      rw [Bool.and_eq_true, List.all_eq_true] at k
      simpa using k.1 s hs
    · simp at h
  commits tx anchor anchor' seals seals' m m' s h h' _ _ := by
    simp only [BpCore.verifySealsClosing] at h h'
    split at h
    · rename_i k
      split at h'
      · rename_i k'
        rw [Bool.and_eq_true, decide_eq_true_eq] at k k'
        exact k.2.symm.trans k'.2
      · simp at h'
    · simp at h
  noDoubleSpend := by
    have h : ∀ tx ∈ [tx1, tx2], ∀ tx' ∈ [tx1, tx2], ∀ p ∈ tx.inputs, p ∈ tx'.inputs → tx = tx' := by decide +kernel
    exact fun tx tx' p h1 h2 h3 h4 => h tx h1 tx' h2 p h3 h4

def blocks : List Blk := [start, pay1, pay2, rival]

theorem wellFormed (xs ys : List Blk) (hx : ∀ b ∈ xs, b ∈ blocks) (hy : ∀ b ∈ ys, b ∈ blocks) : WellFormed ⟨9⟩ xs ys := by
  have hb : ∀ b, b ∈ xs ∨ b ∈ ys → b ∈ blocks := fun b h => h.elim (hx b) (hy b)
  have pos : ∀ b ∈ blocks, ∀ e ∈ b.definedSeals.entries,
      (b.operation.destructibleOut[(e.1 : Nat)]?).map (·.auth) = some (RgbSeal.authToken (Seal := TxoSeal Bool) e.2) := by
    decide +kernel
  have tok : ∀ b ∈ blocks, ∀ b' ∈ blocks, ∀ e ∈ b.definedSeals.entries, ∀ e' ∈ b'.definedSeals.entries,
      RgbSeal.authToken (Seal := TxoSeal Bool) e.2 = RgbSeal.authToken (Seal := TxoSeal Bool) e'.2 → e.2 = e'.2 := by
    decide +kernel
  have anc : ∀ b ∈ blocks, ∀ e ∈ b.definedSeals.entries, RgbSeal.toSrc (Seal := TxoSeal Bool) e.2 = none →
      b.operation.destructibleIn ≠ [] := by
    decide +kernel
  have col : ∀ b ∈ blocks, ∀ b' ∈ blocks, ∀ i ∈ [0, 1], ∀ j ∈ [0, 1],
      idAt ⟨9⟩ i b = idAt ⟨9⟩ j b' → opAt ⟨9⟩ i b = opAt ⟨9⟩ j b' := by decide +kernel
  have hsmall : ∀ i : Nat, ∃ k ∈ [0, 1], ∀ b : Blk, opAt ⟨9⟩ i b = opAt ⟨9⟩ k b := by
    intro i
    rcases Nat.eq_zero_or_pos i with rfl | h
    · exact ⟨0, by simp, fun _ => rfl⟩
    · exact ⟨1, by simp, fun b => by simp [opAt, Nat.pos_iff_ne_zero.1 h]⟩
  refine ⟨?_, ?_, ?_, ?_⟩
  · intro i j b b' h1 h2 h
    obtain ⟨k, hk, ek⟩ := hsmall i
    obtain ⟨l, hl, el⟩ := hsmall j
    rw [idAt, idAt, ek, el] at h
    rw [ek, el]
    exact col b (hx b (List.mem_of_getElem? h1)) b' (hy b' (List.mem_of_getElem? h2)) k hk l hl h
  · intro b h1 b' h2 p d p' d' h3 h4 h5
    exact tok b (hx b h1) b' (hy b' h2) (p, d) h3 (p', d') h4 h5
  · intro b h p d hd
    have := pos b (hb b h) (p, d) hd
    simpa [Option.map_eq_some_iff] using this
  · exact fun b h p d hd => anc b (hb b h) (p, d) hd

theorem published {xs : List Blk} (hx : ∀ b ∈ xs, b ∈ [start, pay1, pay2]) :
    ∀ b ∈ xs, ∀ w, b.witness = some w → (w.published : Tx) ∈ [tx1, tx2] := by
  intro b hb w hw
  have := hx b hb
  simp only [List.mem_cons, List.not_mem_nil, or_false] at this
  rcases this with rfl | rfl | rfl
  · simp [start] at hw
  · simp only [pay1, Option.some.injEq] at hw; subst hw; simp
  · simp only [pay2, Option.some.injEq] at hw; subst hw; simp

theorem reader_starts {bs xs : List Blk} (h : StartsWith (Seal := TxoSeal Bool) (TestReader.mk bs) xs) : ∀ b ∈ xs, b ∈ bs := by
  obtain ⟨r₁, h⟩ := h
  generalize hr : TestReader.mk bs = r at h
  induction h generalizing bs with
  | nil => simp
  | cons h1 _ ih =>
    subst hr
    cases bs with
    | nil => simp [ReadOperation.readOperation] at h1
    | cons x bs =>
      simp only [ReadOperation.readOperation, Prod.mk.injEq, Except.ok.injEq, Option.some.injEq] at h1
      obtain ⟨rfl, h1⟩ := h1
      intro b hb
      rcases List.mem_cons.1 hb with rfl | hb
      · simp
      · exact List.mem_cons_of_mem _ (ih h1 b hb)
end Demo.Chain

open Demo Demo.Chain in
/-- Two accepted consignments with different operations consuming the same cell. -/
example : (∃ o, Accepted contract (TestReader.mk [start, pay1]) [start, pay1] o) ∧
    (∃ o, Accepted contract (TestReader.mk [start, rival]) [start, rival] o) ∧
    WellFormed ⟨9⟩ [start, pay1] [start, rival] ∧ Consumes pay1 (at_ 100 0) ∧ Consumes rival (at_ 100 0) ∧
    idAt ⟨9⟩ 1 pay1 ≠ idAt ⟨9⟩ 1 rival :=
  ⟨accepted_by_test (by decide +kernel), accepted_by_test (by decide +kernel),
    wellFormed _ _ (by simp [blocks]) (by simp [blocks]), ⟨_, List.mem_of_getElem? (i := 0) rfl, rfl⟩,
    ⟨_, List.mem_of_getElem? (i := 0) rfl, rfl⟩, by decide +kernel⟩

open Demo Demo.Chain in
/-- A chain, and two accepted consignments all of whose transactions are in it, which share a transfer; and
a history of evaluating one of them in which a transfer is applied. -/
example : BitcoinRules Bool (fun (tx : Tx) p => p ∈ tx.inputs) (fun (tx : Tx) => tx ∈ [tx1, tx2]) ∧
    SingleUseAmong (Seal := TxoSeal Bool) (fun w => (w.published : Tx) ∈ [tx1, tx2]) ∧
    Function.Injective (BpCore.messageOfBytes (Ext := Bool)) ∧ Function.Injective (message (TxoSeal Bool)) ∧
    (∃ o, Accepted contract (TestReader.mk [start, pay1, pay2]) [start, pay1, pay2] o) ∧
    (∃ o, Accepted contract (TestReader.mk [start, pay1]) [start, pay1] o) ∧
    WellFormed ⟨9⟩ [start, pay1, pay2] [start, pay1] ∧
    (∀ b ∈ [start, pay1, pay2], ∀ w, b.witness = some w → (w.published : Tx) ∈ [tx1, tx2]) ∧
    Consumes pay1 (at_ 100 0) ∧ Lawful (TxoSeal Bool) (TestContract (TxoSeal Bool)) ∧ Faithful contract.codex ∧
    ∃ l c', HistoryOf (Seal := TxoSeal Bool) (fun b => b ∈ blocks ∧ ∀ w, b.witness = some w → (w.published : Tx) ∈ [tx1, tx2])
      contract l c' ∧ Call.applyOperation ⟨⟨101⟩, pay1.operation⟩ ∈ l := by
  obtain ⟨o, h⟩ := accepted_by_test (c := contract) (bs := [start, pay1, pay2]) (by decide +kernel)
  refine ⟨rules, rules.singleUse, fun _ _ h => h, fun _ _ h => congrArg Opid.mk h, ⟨o, h⟩, accepted_by_test (by decide +kernel),
    wellFormed _ _ (by simp [blocks]) (by simp [blocks]), published (by simp), ⟨_, List.mem_of_getElem? (i := 0) rfl, rfl⟩,
    testContract_lawful, codex_faithful, o.world.calls ++ [], _, .step ?_ h.run (.nil _), ?_⟩
  · intro bs hs b hb
    have := reader_starts hs b hb
    refine ⟨?_, published (by simp) b this⟩
    simp only [List.mem_cons, List.not_mem_nil, or_false, blocks] at this ⊢
    tauto
  · rw [List.append_nil]
    refine (List.mem_filter.1 (?_ : _ ∈ o.world.calls.filter IsCallback)).1
    rw [h.shape.callbacks]
    exact List.mem_of_getElem? (i := 2) rfl

open Demo Demo.Chain in
/-- Without the chain the conclusion fails: the closing check alone does not make seals single-use. -/
theorem C71_needs_publication : ¬ ∀ (Seal : Type) [LinearOrder Seal] [RgbSeal Seal] [OpHash] (C : Type) [ContractApi Seal C]
    (R : Type) [ReadOperation Seal R] (c : C) (r r' : R) (xs ys : List (OperationSeals Seal)) o o',
    Accepted c r xs o → Accepted c r' ys o' → WellFormed (ContractApi.contractId Seal c) xs ys →
    ∀ (i j : Nat) b b' a, xs[i]? = some b → ys[j]? = some b' → Consumes b a → Consumes b' a →
    idAt (ContractApi.contractId Seal c) i b = idAt (ContractApi.contractId Seal c) j b' := by
  intro h
  obtain ⟨o, ho⟩ := accepted_by_test (c := contract) (bs := [start, pay1]) (by decide +kernel)
  obtain ⟨o', ho'⟩ := accepted_by_test (c := contract) (bs := [start, rival]) (by decide +kernel)
  exact absurd (h (TxoSeal Bool) _ _ contract _ _ _ _ o o' ho ho' (wellFormed _ _ (by simp [blocks]) (by simp [blocks])) 1 1
    pay1 rival (at_ 100 0) rfl rfl ⟨_, List.mem_of_getElem? (i := 0) rfl, rfl⟩ ⟨_, List.mem_of_getElem? (i := 0) rfl, rfl⟩)
    (by decide +kernel)

end Rgb
