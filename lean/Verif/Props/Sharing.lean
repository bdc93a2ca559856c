import Verif.Props.Receipt
import Verif.Props.Isolation

set_option linter.unusedSectionVars false

/-!
# C90: cells sharing a seal

Nothing in `evaluate` keeps the seals of different cells apart: an operation may define a seal that is open
already, or has been closed.  If seals are single-use such cells can only be spent together.
-/

namespace Rgb
open Spec

section
variable {Seal : Type} [LinearOrder Seal] [RgbSeal Seal] [OpHash]
variable {C : Type} [ContractApi Seal C]
variable {R : Type} [ReadOperation Seal R]
variable {xs ys : List (OperationSeals Seal)}

theorem closed_with {c : C} {i : Nat} {b : OperationSeals Seal} (hv : ValidBlock c xs i b) {a : CellAddr} {s : Seal}
    (ha : Consumes b a) (hs : OpenAt (ContractApi.contractId Seal c) xs i a s) :
    ∃ w seals, b.witness = some w ∧ s ∈ seals ∧
      RgbSeal.verifySealsClosing w.published w.client seals (message Seal (idAt (ContractApi.contractId Seal c) i b)) = .ok () := by
  obtain ⟨inp, hi, rfl⟩ := ha
  obtain ⟨w, seals, t, k1, k2, k3, k4⟩ := closing_witness hv hi
  have := sealed_unique (l := [inp]) (.cons hs .nil) (.cons k2 .nil)
  obtain rfl : t = s := by simpa using this
  exact ⟨w, seals, k1, k3, k4⟩

/-- **C90.**  Whatever consumes cells with the same seal, in whatever accepted consignments, for whatever
contracts, is the same operation, and the witnesses have the same id. -/
theorem C90_together {W : SealWitness Seal → Prop} (hsu : SingleUseAmong W) (hinj : Function.Injective (message Seal))
    {C' : Type} [ContractApi Seal C'] {R' : Type} [ReadOperation Seal R'] {c : C} {c' : C'} {r : R} {r' : R'}
    {o o'} (h : Accepted c r xs o) (h' : Accepted c' r' ys o')
    (hx : ∀ b ∈ xs, ∀ w, b.witness = some w → W w) (hy : ∀ b ∈ ys, ∀ w, b.witness = some w → W w)
    {i j : Nat} {b b' : OperationSeals Seal} (hb : xs[i]? = some b) (hb' : ys[j]? = some b')
    {a a' : CellAddr} (ha : Consumes b a) (ha' : Consumes b' a')
    {s : Seal} (hs : OpenAt (ContractApi.contractId Seal c) xs i a s) (hs' : OpenAt (ContractApi.contractId Seal c') ys j a' s) :
    idAt (ContractApi.contractId Seal c) i b = idAt (ContractApi.contractId Seal c') j b' ∧
      ∃ w w', b.witness = some w ∧ b'.witness = some w' ∧ RgbSeal.pubId w.published = RgbSeal.pubId w'.published := by
  obtain ⟨w, seals, k1, k2, k3⟩ := closed_with (h.valid i b hb) ha hs
  obtain ⟨w', seals', k1', k2', k3'⟩ := closed_with (h'.valid j b' hb') ha' hs'
  obtain ⟨e1, e2⟩ := hsu w w' (hx b (List.mem_of_getElem? hb) w k1) (hy b' (List.mem_of_getElem? hb') w' k1')
    seals seals' _ _ s k3 k3' k2 k2'
  exact ⟨hinj e2, w, w', k1, k1', e1⟩

/-- A cell announced, before or after, with a seal which an operation closes, without being consumed by that
operation, can never be spent. -/
theorem C90_stranded {W : SealWitness Seal → Prop} (hsu : SingleUseAmong W) (hinj : Function.Injective (message Seal))
    {C' : Type} [ContractApi Seal C'] {R' : Type} [ReadOperation Seal R'] {c : C} {c' : C'} {r : R} {r' : R'}
    {o o'} (h : Accepted c r xs o) (h' : Accepted c' r' ys o')
    (hcid : ContractApi.contractId Seal c' = ContractApi.contractId Seal c)
    (hw : WellFormed (ContractApi.contractId Seal c) xs ys)
    (hx : ∀ b ∈ xs, ∀ w, b.witness = some w → W w) (hy : ∀ b ∈ ys, ∀ w, b.witness = some w → W w)
    {i k : Nat} {b bk : OperationSeals Seal} (hb : xs[i]? = some b) (hbk : xs[k]? = some bk)
    {a a' : CellAddr} {s : Seal} (ha : Consumes b a) (hs : OpenAt (ContractApi.contractId Seal c) xs i a s)
    (ha' : Announces (ContractApi.contractId Seal c) k bk a' s) (hn : ¬ Consumes b a') :
    ∀ b' ∈ ys, ¬ Consumes b' a' := by
  intro b' hb' hc
  obtain ⟨j, hj⟩ := List.getElem?_of_mem hb'
  obtain ⟨w, seals, k1, k2, k3⟩ := closed_with (h.valid i b hb) ha hs
  have e := C86_intended hsu hinj h h' hcid hw hx hy hbk hj ha' hc (hx b (List.mem_of_getElem? hb) w k1) k2 k3
  have e := hw.collision i j b b' hb hj e.symm
  refine hn ?_
  obtain ⟨inp, h1, h2⟩ := hc
  refine ⟨inp, ?_, h2⟩
  have : (opAt (ContractApi.contractId Seal c) i b).destructibleIn = (opAt (ContractApi.contractId Seal c) j b').destructibleIn := by rw [e]
  unfold opAt at this
  split at this <;> split at this <;> (rw [this]; exact h1)

/-- If the cells belong to contracts with different ids, at most one of the two can be spent, provided the
contracts reject operations of other contracts and operation ids commit to contract ids. -/
theorem C90_contracts {W : SealWitness Seal → Prop} (hsu : SingleUseAmong W) (hinj : Function.Injective (message Seal))
    {C' : Type} [ContractApi Seal C'] {R' : Type} [ReadOperation Seal R'] {c : C} {c' : C'} {r : R} {r' : R'}
    {o o'} (h : Accepted c r xs o) (h' : Accepted c' r' ys o') (hc : Guarded c xs) (hc' : Guarded c' ys)
    (hx : ∀ b ∈ xs, ∀ w, b.witness = some w → W w) (hy : ∀ b ∈ ys, ∀ w, b.witness = some w → W w)
    (hid : ∀ b ∈ xs, ∀ b' ∈ ys, opid b.operation = opid b'.operation → b.operation.contractId = b'.operation.contractId)
    {i j : Nat} {b b' : OperationSeals Seal} (hb : xs[i]? = some b) (hb' : ys[j]? = some b')
    {a a' : CellAddr} (ha : Consumes b a) (ha' : Consumes b' a')
    {s : Seal} (hs : OpenAt (ContractApi.contractId Seal c) xs i a s) (hs' : OpenAt (ContractApi.contractId Seal c') ys j a' s) :
    ContractApi.contractId Seal c = ContractApi.contractId Seal c' := by
  obtain ⟨e, _⟩ := C90_together hsu hinj h h' hx hy hb hb' ha ha' hs hs'
  have hi : i ≠ 0 := by rintro rfl; obtain ⟨_, _, h, _⟩ := hs; omega
  have hj : j ≠ 0 := by rintro rfl; obtain ⟨_, _, h, _⟩ := hs'; omega
  obtain ⟨hl, c₀, l, S, k1, k2, k3, k4, k5, k6⟩ := hc
  obtain ⟨hl', c₀', l', S', k1', k2', k3', k4', k5', k6'⟩ := hc'
  have e1 := C74_isolated hl k2 k3 k1 k4 k5 h k6 hb hi
  have e2 := C74_isolated hl' k2' k3' k1' k4' k5' h' k6' hb' hj
  rw [(history_id hl k1).1, (history_id hl' k1').1, ← e1, ← e2]
  refine hid b (List.mem_of_getElem? hb) b' (List.mem_of_getElem? hb') ?_
  rwa [idAt, idAt, opAt, opAt, if_neg hi, if_neg hj] at e

end

section
variable {Ext : Type} [LinearOrder Ext] [BpCore Ext] [OpHash]
variable {C : Type} [ContractApi (TxoSeal Ext) C] {R : Type} [ReadOperation (TxoSeal Ext) R]

/-- Over bitcoin seals, all cells whose seals are on the same outpoint, whatever the contracts, are spent
through the same transaction of the chain. -/
theorem C90_bitcoin {Spent : BpCore.Tx Ext → Outpoint → Prop} {Chain : BpCore.Tx Ext → Prop} (hr : BitcoinRules Ext Spent Chain)
    {C' : Type} [ContractApi (TxoSeal Ext) C'] {R' : Type} [ReadOperation (TxoSeal Ext) R'] {c : C} {c' : C'} {r : R} {r' : R'}
    {xs ys : List (OperationSeals (TxoSeal Ext))} {o o'} (h : Accepted c r xs o) (h' : Accepted c' r' ys o')
    (hx : ∀ b ∈ xs, ∀ w, b.witness = some w → Chain w.published) (hy : ∀ b ∈ ys, ∀ w, b.witness = some w → Chain w.published)
    {i j : Nat} {b b' : OperationSeals (TxoSeal Ext)} (hb : xs[i]? = some b) (hb' : ys[j]? = some b')
    {a a' : CellAddr} (ha : Consumes b a) (ha' : Consumes b' a') {s s' : TxoSeal Ext} (hp : s.primary = s'.primary)
    (hs : OpenAt (ContractApi.contractId (TxoSeal Ext) c) xs i a s)
    (hs' : OpenAt (ContractApi.contractId (TxoSeal Ext) c') ys j a' s') :
    ∃ w w', b.witness = some w ∧ b'.witness = some w' ∧ w.published = w'.published := by
  obtain ⟨w, seals, k1, k2, k3⟩ := closed_with (h.valid i b hb) ha hs
  obtain ⟨w', seals', k1', k2', k3'⟩ := closed_with (h'.valid j b' hb') ha' hs'
  have e1 := hr.spends _ _ _ _ k3 s k2
  have e2 := hr.spends _ _ _ _ k3' s' k2'
  rw [← hp] at e2
  exact ⟨w, w', k1, k1', hr.noDoubleSpend _ _ _ (hx b (List.mem_of_getElem? hb) w k1) (hy b' (List.mem_of_getElem? hb') w' k1') e1 e2⟩
end

namespace Demo.Once
/-- An issue with an output sealed like output 0 of genesis. -/
def issue : OperationSeals Int := ⟨op 110 [] [.abs 1], .collect [(0, .abs 1)], none⟩

/-- A transfer of both. -/
def both : OperationSeals Int := ⟨op 101 [at_ 100 0, at_ 110 0] [.rel 3], .collect [(0, .rel 3)], some (tx 50)⟩

theorem open_first {s : Int} {b : OperationSeals Int} {bs : List (OperationSeals Int)} {i : Nat} {a : CellAddr}
    (h : Announces ⟨9⟩ 0 b a s) (hi : i = 1 ∨ i = 2 ∧ ∃ b₁, bs.head? = some b₁ ∧ ¬ Consumes b₁ a ∧ ∀ s', ¬ Announces ⟨9⟩ 1 b₁ a s') :
    OpenAt ⟨9⟩ (b :: bs) i a s := by
  refine ⟨0, b, by omega, rfl, h, fun k b' h1 h2 hk => ?_⟩
  obtain ⟨rfl, b₁, h3, h4⟩ : i = 2 ∧ _ := hi.resolve_left (by omega)
  obtain rfl : k = 1 := by omega
  rw [List.getElem?_cons_succ, ← List.head?_eq_getElem?, h3] at hk
  obtain rfl := Option.some.inj hk
  exact h4
end Demo.Once

open Demo Demo.Once in
/-- Cells of two operations sealed alike, spent together. -/
example : SingleUseAmong (Seal := Int) (fun _ => True) ∧ Function.Injective (message Int) ∧
    (∃ o, Accepted node (Feed.mk [origin, issue, both]) [origin, issue, both] o) ∧
    Consumes both (at_ 100 0) ∧ Consumes both (at_ 110 0) ∧
    OpenAt ⟨9⟩ [origin, issue, both] 2 (at_ 100 0) (1 : Int) ∧ OpenAt ⟨9⟩ [origin, issue, both] 2 (at_ 110 0) (1 : Int) := by
  refine ⟨fun w w' _ _ => singleUse w w', message_injective, accepted_of (by decide +kernel),
    ⟨_, List.mem_of_getElem? (i := 0) rfl, rfl⟩, ⟨_, List.mem_of_getElem? (i := 1) rfl, rfl⟩, ?_, ?_⟩
  · refine open_first ⟨rfl, .abs 1, OMap.get?_eq_some.1 rfl, .inl rfl⟩ (.inr ⟨rfl, issue, rfl, ?_, ?_⟩)
    · rintro ⟨inp, h, _⟩
      simp [issue, op] at h
    · intro s' h
      exact absurd h.1 (by decide +kernel)
  · exact ⟨1, issue, by omega, rfl, ⟨by decide +kernel, .abs 1, OMap.get?_eq_some.1 rfl, .inl rfl⟩, fun k b' h1 h2 => by omega⟩

open Demo Demo.Once in
/-- A cell assigned to a seal which has been closed already, and which is accepted all the same. -/
example : (∃ o, Accepted node (Feed.mk [origin, move1, issue]) [origin, move1, issue] o) ∧
    (∃ o, Accepted node (Feed.mk [origin, issue, other]) [origin, issue, other] o) ∧
    WellFormed ⟨9⟩ [origin, move1, issue] [origin, issue, other] ∧
    Consumes move1 (at_ 100 0) ∧ OpenAt ⟨9⟩ [origin, move1, issue] 1 (at_ 100 0) (1 : Int) ∧
    Announces ⟨9⟩ 2 issue (at_ 110 0) (1 : Int) ∧ ¬ Consumes move1 (at_ 110 0) := by
  refine ⟨accepted_of (by decide +kernel), accepted_of (by decide +kernel),
    wellFormed_of (by decide +kernel) (by decide +kernel) (by decide +kernel) (by decide +kernel),
    ⟨_, List.mem_of_getElem? (i := 0) rfl, rfl⟩, open_first ⟨rfl, .abs 1, OMap.get?_eq_some.1 rfl, .inl rfl⟩ (.inl rfl),
    ⟨by decide +kernel, .abs 1, OMap.get?_eq_some.1 rfl, .inl rfl⟩, ?_⟩
  have : ∀ inp ∈ move1.operation.destructibleIn, inp.addr ≠ at_ 110 0 := by decide +kernel
  exact fun ⟨inp, h1, h2⟩ => this inp h1 h2

open Demo in
/-- A contract that rejects operations of other contracts and an accepted spending, with a class of witnesses
which are single-use. -/
example : ∃ (c : Ledger) (r : Tape) (o : Outcome Nat Tape Ledger String),
    SingleUseAmong (Seal := Nat) (fun w => w = wit 50 [1] 101 ∨ w = wit 51 [50003, 5] 102) ∧ Function.Injective (message Nat) ∧
    Accepted c r story o ∧ Guarded c story ∧
    (∀ b ∈ story, ∀ w, b.witness = some w → w = wit 50 [1] 101 ∨ w = wit 51 [50003, 5] 102) ∧
    (∀ b ∈ story, ∀ b' ∈ story, opid b.operation = opid b'.operation → b.operation.contractId = b'.operation.contractId) ∧
    Consumes transfer1 (at_ 100 0) ∧ OpenAt ⟨9⟩ story 1 (at_ 100 0) (1 : Nat) := by
  obtain ⟨l, c', S, r, o, h1, h2, h3, h4, -, h5, h6, h7, -, h8⟩ := demo_isolated
  refine ⟨c', r, o, ?_, ?_, h7, ⟨h1, _, l, S, h4, h2, h3, h5, h6, h8⟩, ?_, by decide +kernel,
    ⟨_, List.mem_of_getElem? (i := 0) rfl, rfl⟩,
    ⟨0, genesis, by omega, rfl, ⟨rfl, .abs 1, OMap.get?_eq_some.1 rfl, .inl rfl⟩, fun k b' h1 h2 => by omega⟩⟩
  · have key : ∀ w seals m, RgbSeal.verifySealsClosing (Seal := Nat) w.published w.client seals m = .ok () →
        w = wit 50 [1] 101 ∨ w = wit 51 [50003, 5] 102 →
        (RgbSeal.pubId w.published = (50 : Nat) ∧ seals = [1] ∧ m = (101 : Bytes32)) ∨
        (RgbSeal.pubId w.published = (51 : Nat) ∧ seals = [50003, 5] ∧ m = (102 : Bytes32)) := by
      intro w seals m h hw
      simp only [RgbSeal.verifySealsClosing] at h
      split at h
      · rename_i hk
        rcases hw with rfl | rfl
        · simp only [wit, Prod.mk.injEq] at hk
          exact .inl ⟨rfl, hk.1.symm, hk.2.symm⟩
        · simp only [wit, Prod.mk.injEq] at hk
          exact .inr ⟨rfl, hk.1.symm, hk.2.symm⟩
      · simp at h
    intro w w' hw hw' seals seals' m m' s h h' hs hs'
    rcases key w seals m h hw with ⟨e1, rfl, rfl⟩ | ⟨e1, rfl, rfl⟩ <;>
      rcases key w' seals' m' h' hw' with ⟨e2, rfl, rfl⟩ | ⟨e2, rfl, rfl⟩
    · exact ⟨e1.trans e2.symm, rfl⟩
    · simp at hs hs'; omega
    · simp at hs hs'; omega
    · exact ⟨e1.trans e2.symm, rfl⟩
  · rintro ⟨x⟩ ⟨y⟩ h
    exact congrArg Opid.mk h
  · intro b hb w hw
    simp only [story, List.mem_cons, List.not_mem_nil, or_false] at hb
    rcases hb with rfl | rfl | rfl
    · cases hw
    · exact .inl (Option.some.inj hw).symm
    · exact .inr (Option.some.inj hw).symm

open Demo Demo.Chain in
/-- A chain and two consignments spending the same cell. -/
example : BitcoinRules Bool (fun (tx : Tx) p => p ∈ tx.inputs) (fun (tx : Tx) => tx ∈ [tx1, tx2]) ∧
    (∃ o, Accepted contract (TestReader.mk [start, pay1]) [start, pay1] o) ∧
    (∃ o, Accepted contract (TestReader.mk [start, pay1, pay2]) [start, pay1, pay2] o) ∧
    (∀ b ∈ [start, pay1, pay2], ∀ w, b.witness = some w → (w.published : Tx) ∈ [tx1, tx2]) ∧
    Consumes pay2 (at_ 101 0) ∧ OpenAt (Seal := TxoSeal Bool) ⟨9⟩ [start, pay1, pay2] 2 (at_ 101 0) ⟨⟨⟨41⟩, 1⟩, false⟩ :=
  ⟨rules, accepted_by_test (by decide +kernel), accepted_by_test (by decide +kernel), published (by simp),
    ⟨_, List.mem_of_getElem? (i := 0) rfl, rfl⟩,
    ⟨1, pay1, by omega, rfl, ⟨rfl, wout 1, by decide +kernel, .inr ⟨rfl, _, rfl, rfl⟩⟩, fun k b' h1 h2 => by omega⟩⟩

open Demo Demo.Once in
/-- That no two cells have the same seal is not checked, nor that a seal is not closed yet when it is defined:
here the second cell is announced after the seal has been closed by the operation spending the first, so it is
lost from the beginning. -/
theorem C90_unchecked : ¬ ∀ (Seal : Type) [LinearOrder Seal] [RgbSeal Seal] [OpHash] (C : Type) [ContractApi Seal C]
    (R : Type) [ReadOperation Seal R] (c : C) (r : R) (xs : List (OperationSeals Seal)) o, SingleUse Seal → Accepted c r xs o →
    ∀ (i k : Nat) b bk a a' s, i < k → xs[i]? = some b → xs[k]? = some bk → Consumes b a →
    OpenAt (ContractApi.contractId Seal c) xs i a s → ¬ Announces (ContractApi.contractId Seal c) k bk a' s := by
  intro h
  obtain ⟨o, ho⟩ := accepted_of (n := node) (bs := [origin, move1, issue]) (by decide +kernel)
  exact h Int _ _ node _ _ o singleUse ho 1 2 move1 issue (at_ 100 0) (at_ 110 0) 1 (by omega) rfl rfl
    ⟨_, List.mem_of_getElem? (i := 0) rfl, rfl⟩ (open_first ⟨rfl, .abs 1, OMap.get?_eq_some.1 rfl, .inl rfl⟩ (.inl rfl))
    ⟨by decide +kernel, .abs 1, OMap.get?_eq_some.1 rfl, .inl rfl⟩

end Rgb
