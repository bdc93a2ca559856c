import Verif.Props.Auditors
import Verif.Props.Authenticity

set_option linter.unusedSectionVars false

/-! # C86: what the recipient of a cell gets -/

namespace Rgb
open Spec

section
variable {Seal : Type} [LinearOrder Seal] [RgbSeal Seal] [OpHash]
variable {C E σ : Type} [ContractApi Seal C]
variable {R : Type} [ReadOperation Seal R]
variable {xs ys : List (OperationSeals Seal)}

theorem holder_closes {W : SealWitness Seal → Prop} (hsu : SingleUseAmong W) {C' : Type} [ContractApi Seal C']
    {c : C} {c' : C'} {cid : ContractId} (hc : ContractApi.contractId Seal c = cid) (hc' : ContractApi.contractId Seal c' = cid)
    (hv : ValidConsignment c xs) (hv' : ValidConsignment c' ys) (hw : WellFormed cid xs ys)
    (hx : ∀ b ∈ xs, ∀ w, b.witness = some w → W w) (hy : ∀ b ∈ ys, ∀ w, b.witness = some w → W w)
    {i j : Nat} {b b' : OperationSeals Seal} (hb : xs[i]? = some b) (hb' : ys[j]? = some b')
    {a : CellAddr} {s : Seal} (ha : Announces cid i b a s) (hs : Consumes b' a) :
    ∃ w seals, b'.witness = some w ∧ W w ∧ s ∈ seals ∧
      RgbSeal.verifySealsClosing w.published w.client seals (message Seal (idAt cid j b')) = .ok () := by
  obtain ⟨inp, hi, rfl⟩ := hs
  obtain ⟨w, seals, t, k1, k2, k3, k4⟩ := closing_witness (hv' j b' hb') hi
  rw [hc'] at k2 k4
  obtain ⟨l, bl, _, hbl, hal, _⟩ := k2
  obtain rfl : s = t := by
    refine same_seal hc hc' hv hv' hw ?_ i hb hbl ha hal
    rintro i j b b' w w' ⟨h1, h2, h3, h4, seals, seals', s, hs, hs', k, k'⟩
    exact (hsu w w' (hx b (List.mem_of_getElem? h1) w h3) (hy b' (List.mem_of_getElem? h2) w' h4)
      seals seals' _ _ s k k' hs hs').1
  exact ⟨w, seals, k1, hy b' (List.mem_of_getElem? hb') w k1, k3, k4⟩

/-- **C86.**  Once an accepted consignment announces a seal for a cell, whatever consumes the cell in any
accepted consignment for the contract, whoever made and evaluated it, has a witness closing that very seal
over the id of the consuming operation, provided the witnesses of both are in a class within which seals are
single-use. -/
theorem C86_control {W : SealWitness Seal → Prop} (hsu : SingleUseAmong W)
    {C' : Type} [ContractApi Seal C'] {R' : Type} [ReadOperation Seal R'] {c : C} {c' : C'} {r : R} {r' : R'}
    {o o'} (h : Accepted c r xs o) (h' : Accepted c' r' ys o')
    (hcid : ContractApi.contractId Seal c' = ContractApi.contractId Seal c)
    (hw : WellFormed (ContractApi.contractId Seal c) xs ys)
    (hx : ∀ b ∈ xs, ∀ w, b.witness = some w → W w) (hy : ∀ b ∈ ys, ∀ w, b.witness = some w → W w)
    {i j : Nat} {b b' : OperationSeals Seal} (hb : xs[i]? = some b) (hb' : ys[j]? = some b')
    {a : CellAddr} {s : Seal} (ha : Announces (ContractApi.contractId Seal c) i b a s) (hs : Consumes b' a) :
    ∃ w seals, b'.witness = some w ∧ W w ∧ s ∈ seals ∧ RgbSeal.verifySealsClosing w.published w.client seals
      (message Seal (idAt (ContractApi.contractId Seal c) j b')) = .ok () :=
  holder_closes hsu rfl hcid h.valid h'.valid hw hx hy hb hb' ha hs

/-- As long as no such witness closes the seal, no such consignment consumes the cell. -/
theorem C86_safe {W : SealWitness Seal → Prop} (hsu : SingleUseAmong W)
    {C' : Type} [ContractApi Seal C'] {R' : Type} [ReadOperation Seal R'] {c : C} {c' : C'} {r : R} {r' : R'}
    {o o'} (h : Accepted c r xs o) (h' : Accepted c' r' ys o')
    (hcid : ContractApi.contractId Seal c' = ContractApi.contractId Seal c)
    (hw : WellFormed (ContractApi.contractId Seal c) xs ys)
    (hx : ∀ b ∈ xs, ∀ w, b.witness = some w → W w) (hy : ∀ b ∈ ys, ∀ w, b.witness = some w → W w)
    {i : Nat} {b : OperationSeals Seal} (hb : xs[i]? = some b)
    {a : CellAddr} {s : Seal} (ha : Announces (ContractApi.contractId Seal c) i b a s)
    (hs : ∀ w, W w → ∀ seals m, RgbSeal.verifySealsClosing w.published w.client seals m = .ok () → s ∉ seals) :
    ∀ b' ∈ ys, ¬ Consumes b' a := by
  intro b' hb' hc
  obtain ⟨j, hj⟩ := List.getElem?_of_mem hb'
  obtain ⟨w, seals, _, h1, h2, h3⟩ := C86_control hsu h h' hcid hw hx hy hb hj ha hc
  exact hs w h1 seals _ h3 h2

/-- In any history of evaluations, of whatever streams and with whatever results, by anyone with a contract
of that id, an operation applied that consumes the cell has such a witness. -/
theorem C86_history {W : SealWitness Seal → Prop} (hsu : SingleUseAmong W)
    {C' : Type} [ContractApi Seal C'] {c : C} {r : R} {o} (h : Accepted c r xs o)
    (hl : Lawful Seal C') {c' d : C'} (hf : Faithful (ContractApi.codex Seal c'))
    (hcid : ContractApi.contractId Seal c' = ContractApi.contractId Seal c) {P : OperationSeals Seal → Prop}
    (hw : ∀ ys : List (OperationSeals Seal), (∀ b ∈ ys, P b) → WellFormed (ContractApi.contractId Seal c) xs ys)
    (hx : ∀ b ∈ xs, ∀ w, b.witness = some w → W w)
    {l : List (Call Seal)} (h' : HistoryOf (fun b => P b ∧ ∀ w, b.witness = some w → W w) c' l d)
    {i : Nat} {b : OperationSeals Seal} (hb : xs[i]? = some b)
    {a : CellAddr} {s : Seal} (ha : Announces (ContractApi.contractId Seal c) i b a s)
    {v : VerifiedOperation} (hv : Call.applyOperation v ∈ l) (hs : a ∈ v.operation.destructibleIn.map (·.addr)) :
    ∃ w seals, W w ∧ s ∈ seals ∧ RgbSeal.verifySealsClosing w.published w.client seals (message Seal v.opid) = .ok () := by
  obtain ⟨d, ys, j, b', h1, h2, h3, h4, h5, h6⟩ := HistoryOf.source hl h' hf hv
  obtain ⟨inp, hi, hia⟩ := List.mem_map.1 hs
  rw [h6] at hi
  obtain ⟨w, seals, _, k2, k3, k4⟩ := holder_closes hsu rfl (h1.trans hcid) h.valid h3 (hw ys fun b hb => (h2 b hb).1) hx
    (fun b hb => (h2 b hb).2) hb h4 ha ⟨inp, hi, hia⟩
  refine ⟨w, seals, k2, k3, ?_⟩
  rw [h5, hcid]
  exact k4

/-- The same whatever contract, codex and reader do, hidden state included. -/
theorem C86_anywhere {W : SealWitness Seal → Prop} (hsu : SingleUseAmong W) {c : C} {r : R} {o} (h : Accepted c r xs o)
    {env : Env Seal E σ} {t : σ} {res} {scene : Scene Seal E σ} (h' : evaluateIn env t = some (res, scene))
    (hat : Attests scene.events) (hf : ReturnsAsked scene.events)
    (hid : scene.events.head? = some (.contractId (ContractApi.contractId Seal c)))
    (hw : WellFormed (ContractApi.contractId Seal c) xs (blocksRead scene.events))
    (hx : ∀ b ∈ xs, ∀ w, b.witness = some w → W w) (hy : ∀ b ∈ blocksRead scene.events, ∀ w, b.witness = some w → W w)
    {i : Nat} {b : OperationSeals Seal} (hb : xs[i]? = some b)
    {a : CellAddr} {s : Seal} (ha : Announces (ContractApi.contractId Seal c) i b a s)
    {v : VerifiedOperation} (hv : Event.applyOperation v ∈ scene.events) (hs : a ∈ v.operation.destructibleIn.map (·.addr)) :
    ∃ w seals, W w ∧ s ∈ seals ∧ RgbSeal.verifySealsClosing w.published w.client seals (message Seal v.opid) = .ok () := by
  obtain ⟨cid, xid, ys, b1, b2, _, _, b3, b4⟩ := C80_environment h' hat
  obtain rfl := head_ids b1 hid
  obtain ⟨o', ho'⟩ := (C80_auditor ⟨ContractApi.contractId Seal c, xid⟩ (scroll_delivers _)).2 b3
  obtain ⟨j, b', _, hb', e⟩ := b4 v hv
  obtain ⟨f1, f2⟩ := hf _ _ _ e
  obtain ⟨inp, hi, hia⟩ := List.mem_map.1 hs
  rw [f2, opAt_inputs] at hi
  obtain ⟨w, seals, _, k2, k3, k4⟩ := holder_closes (c := c) (c' := Auditor.mk (ContractApi.contractId Seal c) xid) hsu rfl rfl h.valid ho'.valid (hw.prefixes (List.prefix_refl _) b2) hx
    (fun b hb => hy b (b2.subset hb)) hb hb' ha ⟨inp, hi, hia⟩
  refine ⟨w, seals, k2, k3, ?_⟩
  rw [f1]
  exact k4

/-- If the owner of the seal had it closed over one operation id only, then that operation alone can consume
the cell. -/
theorem C86_intended {W : SealWitness Seal → Prop} (hsu : SingleUseAmong W) (hinj : Function.Injective (message Seal))
    {C' : Type} [ContractApi Seal C'] {R' : Type} [ReadOperation Seal R'] {c : C} {c' : C'} {r : R} {r' : R'}
    {o o'} (h : Accepted c r xs o) (h' : Accepted c' r' ys o')
    (hcid : ContractApi.contractId Seal c' = ContractApi.contractId Seal c)
    (hw : WellFormed (ContractApi.contractId Seal c) xs ys)
    (hx : ∀ b ∈ xs, ∀ w, b.witness = some w → W w) (hy : ∀ b ∈ ys, ∀ w, b.witness = some w → W w)
    {i j : Nat} {b b' : OperationSeals Seal} (hb : xs[i]? = some b) (hb' : ys[j]? = some b')
    {a : CellAddr} {s : Seal} (ha : Announces (ContractApi.contractId Seal c) i b a s) (hs : Consumes b' a)
    {w₀ : SealWitness Seal} (hw₀ : W w₀) {seals₀ : List Seal} {x : Opid} (hs₀ : s ∈ seals₀)
    (hc₀ : RgbSeal.verifySealsClosing w₀.published w₀.client seals₀ (message Seal x) = .ok ()) :
    idAt (ContractApi.contractId Seal c) j b' = x := by
  obtain ⟨w, seals, _, h1, h2, h3⟩ := C86_control hsu h h' hcid hw hx hy hb hb' ha hs
  exact hinj (hsu w w₀ h1 hw₀ seals seals₀ _ _ s h3 hc₀ h2 hs₀).2

/-- The owner can spend: a consignment is accepted with a further block consuming open cells, which reveals
only seals committed to and passes the codex, if and only if the witness of the block closes the seals of
the cells over the id of the operation. -/
theorem C86_spend {R' : Type} [ReadOperation Seal R'] {c : C} {r : R} {r' : R'} {o} (h : Accepted c r xs o) (hne : xs ≠ [])
    {b : OperationSeals Seal} (hd : Delivers r' (xs ++ [b])) (hsc : SealsCommitted b) (hsp : ScriptPasses c xs b)
    {seals : List Seal} (hin : InputsSealed c xs b seals) {w : SealWitness Seal} (hw : b.witness = some w) :
    (∃ o', Accepted c r' (xs ++ [b]) o') ↔
      RgbSeal.verifySealsClosing w.published w.client seals (message Seal (nextId c xs b)) = .ok () := by
  constructor
  · rintro ⟨o', h'⟩
    obtain ⟨seals', k1, k2, _⟩ := (validConsignment_snoc.1 h'.valid).2.closed
    rw [sealed_unique hin.2 k1] at k2
    exact k2 w hw
  · intro hc
    have hvb : ValidBlock c xs xs.length b := by
      refine ⟨fun e => absurd (List.length_eq_zero_iff.1 e) hne, hsc, hin.1, ⟨seals, hin.2, ?_, by simp [hw]⟩, ?_⟩
      · intro w' hw'
        rw [hw, Option.some.injEq] at hw'
        subst hw'
        exact hc
      · intro hk
        rcases hsp with h4 | h4
        · change ContractApi.isKnown Seal _ (nextId c xs b) = false at hk
          rw [hk] at h4; simp at h4
        · exact h4
    obtain ⟨o', k1, k2, _⟩ := evaluate_of_delivers hd (validConsignment_snoc.2 ⟨h.valid, hvb⟩)
    exact ⟨o', k1, k2, hd⟩

end

section
variable {Ext : Type} [LinearOrder Ext] [BpCore Ext] [OpHash]
variable {C : Type} [ContractApi (TxoSeal Ext) C] {R : Type} [ReadOperation (TxoSeal Ext) R]

/-- Over bitcoin seals, where all the witness transactions are in one chain, whatever consumes the cell has
as its witness a transaction of the chain that spends the primary outpoint of the seal. -/
theorem C86_bitcoin {Spent : BpCore.Tx Ext → Outpoint → Prop} {Chain : BpCore.Tx Ext → Prop} (hr : BitcoinRules Ext Spent Chain)
    {C' : Type} [ContractApi (TxoSeal Ext) C'] {R' : Type} [ReadOperation (TxoSeal Ext) R'] {c : C} {c' : C'} {r : R} {r' : R'}
    {xs ys : List (OperationSeals (TxoSeal Ext))} {o o'} (h : Accepted c r xs o) (h' : Accepted c' r' ys o')
    (hcid : ContractApi.contractId (TxoSeal Ext) c' = ContractApi.contractId (TxoSeal Ext) c)
    (hw : WellFormed (ContractApi.contractId (TxoSeal Ext) c) xs ys)
    (hx : ∀ b ∈ xs, ∀ w, b.witness = some w → Chain w.published) (hy : ∀ b ∈ ys, ∀ w, b.witness = some w → Chain w.published)
    {i : Nat} {b : OperationSeals (TxoSeal Ext)} (hb : xs[i]? = some b) {a : CellAddr} {s : TxoSeal Ext}
    (ha : Announces (ContractApi.contractId (TxoSeal Ext) c) i b a s) :
    ∀ b' ∈ ys, Consumes b' a → ∃ w, b'.witness = some w ∧ Chain w.published ∧ Spent w.published s.primary := by
  intro b' hb' hc
  obtain ⟨j, hj⟩ := List.getElem?_of_mem hb'
  obtain ⟨w, seals, h0, h1, h2, h3⟩ := C86_control hr.singleUse h h' hcid hw hx hy hb hj ha hc
  exact ⟨w, h0, h1, hr.spends _ _ _ _ h3 s h2⟩

end

open Demo Demo.Once in
/-- Genesis announces the seal 1 for a cell, which another consignment consumes. -/
example : SingleUseAmong (Seal := Int) (fun _ => True) ∧ Function.Injective (message Int) ∧
    (∃ o, Accepted node (Feed.mk [origin, other]) [origin, other] o) ∧
    (∃ o, Accepted node (Feed.mk [origin, move1, move2]) [origin, move1, move2] o) ∧
    WellFormed ⟨9⟩ [origin, other] [origin, move1, move2] ∧ Announces (Seal := Int) ⟨9⟩ 0 origin (at_ 100 0) 1 ∧
    Consumes move1 (at_ 100 0) ∧ RgbSeal.verifySealsClosing (Seal := Int) (tx 50).published () [1] (message Int ⟨101⟩) = .ok () ∧
    idAt ⟨9⟩ 1 move1 = ⟨101⟩ :=
  ⟨fun w w' _ _ => singleUse w w', message_injective, accepted_of (by decide +kernel), accepted_of (by decide +kernel),
    pool_wellFormed _ _ (by simp [pool]) (by simp [pool]), ⟨rfl, .abs 1, by decide +kernel, .inl rfl⟩,
    ⟨_, List.mem_of_getElem? (i := 0) rfl, rfl⟩, rfl, rfl⟩

open Demo Demo.Once in
/-- `move2` announces the seal 8 for a cell, which no witness closes. -/
example : (∃ o, Accepted node (Feed.mk [origin, move1, move2]) [origin, move1, move2] o) ∧
    Announces (Seal := Int) ⟨9⟩ 2 move2 (at_ 102 0) 8 ∧
    ∀ w : SealWitness Int, True → ∀ seals m, RgbSeal.verifySealsClosing w.published w.client seals m = .ok () → (8 : Int) ∉ seals := by
  refine ⟨accepted_of (by decide +kernel), ⟨rfl, .abs 8, by decide +kernel, .inl rfl⟩, ?_⟩
  intro w _ seals m h hs
  simp only [RgbSeal.verifySealsClosing] at h
  split at h
  · rename_i k
    have := List.all_eq_true.1 k 8 hs
    simp [closedBy] at this
  · simp at h

open Demo Demo.Once in
/-- A history and an evaluation by a contract with hidden state in which the cell is consumed. -/
example : (∃ o, Accepted node (Feed.mk [origin, other]) [origin, other] o) ∧ Lawful Int Node ∧
    Faithful (ContractApi.codex Int node) ∧
    (∀ ys : List (OperationSeals Int), (∀ b ∈ ys, b ∈ pool) → WellFormed ⟨9⟩ [origin, other] ys) ∧
    (∃ l d, HistoryOf (Seal := Int) (fun b => b ∈ pool ∧ ∀ w, b.witness = some w → True) node l d ∧
      Call.applyOperation ⟨⟨101⟩, move1.operation⟩ ∈ l) ∧
    (∃ scene, evaluateIn (fickle strict) ([origin, move1, move2], 0) = some (.ok (), scene) ∧ Attests scene.events ∧
      ReturnsAsked scene.events ∧ scene.events.head? = some (.contractId ⟨9⟩) ∧
      WellFormed ⟨9⟩ [origin, other] (blocksRead scene.events) ∧ Event.applyOperation ⟨⟨101⟩, move1.operation⟩ ∈ scene.events) ∧
    at_ 100 0 ∈ move1.operation.destructibleIn.map (·.addr) := by
  have hw : ∀ ys : List (OperationSeals Int), (∀ b ∈ ys, b ∈ pool) → WellFormed ⟨9⟩ [origin, other] ys :=
    fun ys hy => pool_wellFormed _ _ (by simp [pool]) hy
  refine ⟨accepted_of (by decide +kernel), node_lawful, node_faithful _, hw, ?_, ?_, by simp [move1, op]⟩
  · obtain ⟨o, h⟩ := accepted_of (n := node) (bs := [origin, move1, move2]) (by decide +kernel)
    refine ⟨o.world.calls ++ [], _, .step ?_ h.run (.nil _), ?_⟩
    · intro bs hs b hb
      have := feed_starts hs b hb
      simp only [List.mem_cons, List.not_mem_nil, or_false, pool] at this ⊢
      exact ⟨by tauto, fun _ _ => trivial⟩
    · rw [List.append_nil]
      refine (List.mem_filter.1 (?_ : _ ∈ o.world.calls.filter IsCallback)).1
      rw [h.shape.callbacks]
      exact List.mem_of_getElem? (i := 2) rfl
  · have h : evaluateIn (fickle strict) ([origin, move1, move2], 0) = some (.ok (), _) := loopFor_some (n := 4) (x := (.ok (), _)) rfl
    refine ⟨_, h, fickle_attests h, fickle_returns h, rfl, hw _ ?_, mem_appliedOps (List.mem_of_getElem? (i := 0) rfl)⟩
    show ∀ b ∈ [origin, move1, move2], b ∈ pool
    simp [pool]

open Demo Demo.Once in
/-- A block spending a cell, with a witness that closes its seal and with one that does not. -/
example : (∃ o, Accepted node (Feed.mk [origin]) [origin] o) ∧ ∀ b ∈ [move1, { move1 with witness := some (tx 60) }],
    Delivers (Seal := Int) (Feed.mk ([origin] ++ [b])) ([origin] ++ [b]) ∧ SealsCommitted b ∧ ScriptPasses node [origin] b ∧
    InputsSealed node [origin] b [1] := by
  refine ⟨accepted_of (by decide +kernel), ?_⟩
  have hv : ValidConsignment node ([origin] ++ [move1]) := valid_of_runBlocks (by decide +kernel)
  obtain ⟨h0, h1⟩ := validConsignment_snoc.1 hv
  obtain ⟨k1, k2, ⟨seals, k3⟩, k4⟩ := of_validBlock h1
  have hs : InputsSealed node [origin] move1 [1] := by
    refine ⟨k3.1, .cons ⟨0, origin, by simp, rfl, ⟨rfl, .abs 1, by decide +kernel, .inl rfl⟩, ?_⟩ .nil⟩
    intro k b' hk hk'
    simp at hk'
    omega
  intro b hb
  simp only [List.mem_cons, List.not_mem_nil, or_false] at hb
  rcases hb with rfl | rfl
  · exact ⟨feed_delivers _, k2, k4, hs⟩
  · exact ⟨feed_delivers _, k2, k4, hs⟩

open Demo Demo.Chain in
/-- A chain, an accepted consignment announcing a seal for a cell, and one consuming the cell. -/
example : BitcoinRules Bool (fun (tx : Tx) p => p ∈ tx.inputs) (fun (tx : Tx) => tx ∈ [tx1, tx2]) ∧
    (∃ o, Accepted contract (TestReader.mk [start, pay1]) [start, pay1] o) ∧
    (∃ o, Accepted contract (TestReader.mk [start, pay1, pay2]) [start, pay1, pay2] o) ∧
    WellFormed ⟨9⟩ [start, pay1] [start, pay1, pay2] ∧
    (∀ b ∈ [start, pay1, pay2], ∀ w, b.witness = some w → (w.published : Tx) ∈ [tx1, tx2]) ∧
    Announces (Seal := TxoSeal Bool) ⟨9⟩ 1 pay1 (at_ 101 0) ⟨⟨⟨41⟩, 1⟩, false⟩ ∧ Consumes pay2 (at_ 101 0) :=
  ⟨rules, accepted_by_test (by decide +kernel), accepted_by_test (by decide +kernel),
    wellFormed _ _ (by simp [blocks]) (by simp [blocks]), published (by simp),
    ⟨rfl, wout 1, by decide +kernel, .inr ⟨rfl, _, rfl, rfl⟩⟩, ⟨_, List.mem_of_getElem? (i := 0) rfl, rfl⟩⟩

open Demo Demo.Once in
/-- The recipient depends on the positions of revealed seals being right, which the code does not check: a
cell announced with the seal 1 is consumed, in another accepted consignment, with a witness which does not
close that seal. -/
theorem C86_needs_positions : ¬ ∀ (Seal : Type) [LinearOrder Seal] [RgbSeal Seal] [OpHash] (C : Type) [ContractApi Seal C]
    (R : Type) [ReadOperation Seal R] (c : C) (r r' : R) (xs ys : List (OperationSeals Seal)) o o',
    SingleUse Seal → Accepted c r xs o → Accepted c r' ys o' → NoCollision (ContractApi.contractId Seal c) xs ys → TokensBind xs ys →
    (∀ b, b ∈ xs ∨ b ∈ ys → Anchored b) →
    ∀ (i j : Nat) b b' a s, xs[i]? = some b → ys[j]? = some b' → Announces (ContractApi.contractId Seal c) i b a s → Consumes b' a →
    ∃ w seals m, b'.witness = some w ∧ s ∈ seals ∧ RgbSeal.verifySealsClosing w.published w.client seals m = .ok () := by
  intro h
  obtain ⟨o, ho⟩ := accepted_of (n := node) (bs := [origin]) (by decide +kernel)
  obtain ⟨o', ho'⟩ := accepted_of (n := node) (bs := [swapped, thief]) (by decide +kernel)
  have anc : ∀ b, b ∈ [origin] ∨ b ∈ [swapped, thief] → Anchored (Seal := Int) b := by
    have : ∀ b ∈ [origin] ++ [swapped, thief], ∀ e ∈ b.definedSeals.entries,
        RgbSeal.toSrc (Seal := Int) e.2 = none → b.operation.destructibleIn ≠ [] := by decide +kernel
    exact fun b hb p d hd => this b (List.mem_append.2 hb) (p, d) hd
  obtain ⟨w, seals, m, h1, h2, h3⟩ := h Int _ _ node _ _ _ _ o o' singleUse ho ho' (collision_of (by decide +kernel))
    (tokens_of (by decide +kernel)) anc 0 1 origin thief (at_ 100 0) 1 rfl rfl
    ⟨rfl, .abs 1, by decide +kernel, .inl rfl⟩ ⟨_, List.mem_of_getElem? (i := 0) rfl, rfl⟩
  simp only [thief, Option.some.injEq] at h1
  subst h1
  simp only [RgbSeal.verifySealsClosing] at h3
  split at h3
  · rename_i k
    have := List.all_eq_true.1 k 1 h2
    simp [closedBy, tx] at this
  · simp at h3

end Rgb
