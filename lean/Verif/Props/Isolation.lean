import Verif.Props.Continuation

set_option linter.unusedSectionVars false

/-! # C74: what the codex guarantees holds for everything accepted; contracts are isolated -/

namespace Rgb
open Spec

section
variable {Seal : Type} [LinearOrder Seal] [RgbSeal Seal] [OpHash]
variable {C E : Type} [ContractApi Seal C]
variable {R : Type} [ReadOperation Seal R]

theorem steps_guaranteed (hl : Lawful Seal C) {c : C} {cid : ContractId} {r : R} {blocks : List (OperationSeals Seal)}
    {o : Outcome Seal R C (ReadOperation.Error Seal R)} (h : RunShape c r blocks o)
    (hf : Faithful (ContractApi.codex Seal c)) {P : Operation → Prop} (hid : ContractApi.contractId Seal c = cid)
    (hg : Guarantees (ContractApi.codex Seal c) cid P) :
    Steps (fun _ v => P v.operation ∧ v.opid = opid v.operation) c o.world.calls o.world.contract := by
  refine steps_run h ?_
  intro i b v hb _ _ hv
  unfold codexAnswer at hv
  rw [hl.contractAt_codex, hid] at hv
  obtain ⟨e1, e2⟩ := hf _ _ _ _ _ hv
  rw [e2]
  exact ⟨hg _ _ _ _ hv, e1⟩

/-- Over any history, the operations applied are such as the codex guarantees. -/
theorem C74_applied (hl : Lawful Seal C) {Start : C → OperationSeals Seal → Prop} {c c' : C} (hf : Faithful (ContractApi.codex Seal c))
    {P : Operation → Prop} (hg : Guarantees (ContractApi.codex Seal c) (ContractApi.contractId Seal c) P)
    {l : List (Call Seal)} (h : History Start c l c') :
    ∀ v ∈ l.filterMap appliedOperation, P v.operation ∧ v.opid = opid v.operation := by
  have hst : ∀ {c₀ c₁ : C} {l : List (Call Seal)}, History Start c₀ l c₁ → ContractApi.codex Seal c₀ = ContractApi.codex Seal c →
      ContractApi.contractId Seal c₀ = ContractApi.contractId Seal c →
      Steps (fun _ v => P v.operation ∧ v.opid = opid v.operation) c₀ l c₁ := by
    intro c₀ c₁ l h
    induction h with
    | nil => exact fun _ _ => .nil _
    | @step R _ c₁ c₂ r o l hs he _ ih =>
      intro h1 h2
      obtain ⟨blocks, hsh⟩ := run_shape he
      have st := steps_guaranteed hl hsh (h1 ▸ hf) h2 (h1 ▸ hg)
      refine st.append (ih ?_ ?_)
      · rw [st.fold, hl.foldl_codex, h1]
      · rw [st.fold, hl.foldl_id, h2]
  intro v hv
  obtain ⟨x, hx, hxv⟩ := List.mem_filterMap.1 hv
  have hx' : x = .applyOperation v := by cases x <;> simp_all [appliedOperation]
  subst hx'
  obtain ⟨pre, post, rfl⟩ := List.append_of_mem hx
  exact (hst h rfl rfl).at

theorem history_id (hl : Lawful Seal C) {Start : C → OperationSeals Seal → Prop} {c c' : C} {l : List (Call Seal)}
    (h : History Start c l c') : ContractApi.contractId Seal c' = ContractApi.contractId Seal c ∧
      ContractApi.codex Seal c' = ContractApi.codex Seal c := by
  induction h with
  | nil => exact ⟨rfl, rfl⟩
  | @step R _ c₁ c₂ r o l hs he _ ih =>
    obtain ⟨blocks, hsh⟩ := run_shape he
    rw [ih.1, ih.2, hsh.contract]
    exact ⟨hl.contractAt_id, hl.contractAt_codex⟩

/-- **C74.**  Let the codex accept only operations with property `P`, and let the contract know initially only
operations in `S`, all having `P`.  After any history of evaluations, each operation of each accepted
consignment has property `P`, including those which are not verified because they are known; unless it has
the same id as a different operation in `S`, applied in the history, or earlier in the consignment. -/
theorem C74_guaranteed (hl : Lawful Seal C) {Start : C → OperationSeals Seal → Prop} {c c' : C} (hf : Faithful (ContractApi.codex Seal c))
    {P : Operation → Prop} (hg : Guarantees (ContractApi.codex Seal c) (ContractApi.contractId Seal c) P)
    {l : List (Call Seal)} (h : History Start c l c') {S : Operation → Prop} (hS : ∀ op, S op → P op)
    (hk : ∀ o, ContractApi.isKnown Seal c o = true → ∃ op, S op ∧ opid op = o)
    {r : R} {blocks : List (OperationSeals Seal)} {o} (ha : Accepted c' r blocks o) {i : Nat} {b : OperationSeals Seal}
    (hb : blocks[i]? = some b) :
    P (opAt (ContractApi.contractId Seal c) i b) ∨
      ∃ op, op ≠ opAt (ContractApi.contractId Seal c) i b ∧ opid op = idAt (ContractApi.contractId Seal c) i b ∧
        (S op ∨ (∃ v ∈ l.filterMap appliedOperation, v.operation = op) ∨
          ∃ j bj, j < i ∧ blocks[j]? = some bj ∧ opAt (ContractApi.contractId Seal c) j bj = op) := by
  obtain ⟨hid, hcx⟩ := history_id hl h
  have hap := C74_applied hl hf hg h
  have hv := ha.valid
  have hf' : Faithful (ContractApi.codex Seal c') := hcx ▸ hf
  rw [← hid] at hg ⊢
  induction i using Nat.strong_induction_on generalizing b with
  | _ i ih =>
    cases hkn : ContractApi.isKnown Seal (contractAt (ContractApi.contractId Seal c') c' blocks i)
        (idAt (ContractApi.contractId Seal c') i b) with
    | false =>
      obtain ⟨v, hvv⟩ := (hv i b hb).script hkn
      unfold codexAnswer at hvv
      rw [hl.contractAt_codex, hcx] at hvv
      exact .inl (hg _ _ _ _ hvv)
    | true =>
      by_cases hp : P (opAt (ContractApi.contractId Seal c') i b)
      · exact .inl hp
      right
      rcases known_from hl hf' hkn with hkn | ⟨j, bj, hj, hbj, e⟩
      · rcases (C34_applied_once hl hf h).2.2 _ |>.1 hkn with hkn | hkn
        · obtain ⟨op, hs, e⟩ := hk _ hkn
          exact ⟨op, fun e' => hp (e' ▸ hS _ hs), e, .inl hs⟩
        · obtain ⟨v, hvm, e⟩ := List.mem_map.1 hkn
          obtain ⟨p1, p2⟩ := hap v hvm
          exact ⟨v.operation, fun e' => hp (e' ▸ p1), by rw [← p2, e], .inr (.inl ⟨v, hvm, rfl⟩)⟩
      · rcases ih j hj hbj with hpj | ⟨op, h1, h2, h3⟩
        · exact ⟨_, fun e' => hp (e' ▸ hpj), e.symm, .inr (.inr ⟨j, bj, hj, hbj, rfl⟩)⟩
        · by_cases he : op = opAt (ContractApi.contractId Seal c') i b
          · exact ⟨_, fun e' => h1 (he.trans e'.symm), e.symm, .inr (.inr ⟨j, bj, hj, hbj, rfl⟩)⟩
          · refine ⟨op, he, h2.trans e.symm, ?_⟩
            rcases h3 with h3 | h3 | ⟨k, bk, hkj, h3⟩
            · exact .inl h3
            · exact .inr (.inl h3)
            · exact .inr (.inr ⟨k, bk, hkj.trans hj, h3⟩)

/-- No operation of `blocks` has the same id as a different one in `S`, applied in `l`, or in `blocks`. -/
structure NoForgery (cid : ContractId) (S : Operation → Prop) (l : List (Call Seal)) (blocks : List (OperationSeals Seal)) : Prop where
  initial : ∀ (i : Nat) b op, blocks[i]? = some b → S op → opid op = idAt cid i b → op = opAt cid i b
  applied : ∀ (i : Nat) b, ∀ v ∈ l.filterMap appliedOperation, blocks[i]? = some b → opid v.operation = idAt cid i b →
    v.operation = opAt cid i b
  internal : NoCollision cid blocks blocks

/-- Without collisions everything accepted is as the codex guarantees. -/
theorem C74_all (hl : Lawful Seal C) {Start : C → OperationSeals Seal → Prop} {c c' : C} (hf : Faithful (ContractApi.codex Seal c))
    {P : Operation → Prop} (hg : Guarantees (ContractApi.codex Seal c) (ContractApi.contractId Seal c) P)
    {l : List (Call Seal)} (h : History Start c l c') {S : Operation → Prop} (hS : ∀ op, S op → P op)
    (hk : ∀ o, ContractApi.isKnown Seal c o = true → ∃ op, S op ∧ opid op = o)
    {r : R} {blocks : List (OperationSeals Seal)} {o} (ha : Accepted c' r blocks o)
    (hn : NoForgery (ContractApi.contractId Seal c) S l blocks) {i : Nat} {b : OperationSeals Seal}
    (hb : blocks[i]? = some b) : P (opAt (ContractApi.contractId Seal c) i b) := by
  rcases C74_guaranteed hl hf hg h hS hk ha hb with hp | ⟨op, h1, h2, h3⟩
  · exact hp
  · rcases h3 with h3 | ⟨v, hv, rfl⟩ | ⟨j, bj, _, hbj, rfl⟩
    · exact absurd (hn.initial i b op hb h3 h2) h1
    · exact absurd (hn.applied i b v hv hb h2) h1
    · exact absurd (hn.internal j i bj b hbj hb h2) h1

/-- If the codex rejects operations of other contracts, all operations of accepted consignments but the first
carry the id of the contract (and the first one carries that of the codex). -/
theorem C74_isolated (hl : Lawful Seal C) {Start : C → OperationSeals Seal → Prop} {c c' : C} (hf : Faithful (ContractApi.codex Seal c))
    (hg : Guarantees (ContractApi.codex Seal c) (ContractApi.contractId Seal c) fun op => op.contractId = ContractApi.contractId Seal c)
    {l : List (Call Seal)} (h : History Start c l c') {S : Operation → Prop}
    (hS : ∀ op, S op → op.contractId = ContractApi.contractId Seal c)
    (hk : ∀ o, ContractApi.isKnown Seal c o = true → ∃ op, S op ∧ opid op = o)
    {r : R} {blocks : List (OperationSeals Seal)} {o} (ha : Accepted c' r blocks o)
    (hn : NoForgery (ContractApi.contractId Seal c) S l blocks) {i : Nat} {b : OperationSeals Seal}
    (hb : blocks[i]? = some b) (hi : i ≠ 0) : b.operation.contractId = ContractApi.contractId Seal c := by
  have := C74_all hl hf hg h hS hk ha hn hb
  rwa [opAt, if_neg hi] at this

/-- A contract, at some point of its history, which checks contract ids and is not deceived by collisions in
`blocks`. -/
def Guarded {C : Type} [ContractApi Seal C] (c' : C) (blocks : List (OperationSeals Seal)) : Prop :=
  Lawful Seal C ∧ ∃ (c : C) (l : List (Call Seal)) (S : Operation → Prop), History AnyStart c l c' ∧
    Faithful (ContractApi.codex Seal c) ∧
    Guarantees (ContractApi.codex Seal c) (ContractApi.contractId Seal c) (fun op => op.contractId = ContractApi.contractId Seal c) ∧
    (∀ op, S op → op.contractId = ContractApi.contractId Seal c) ∧
    (∀ o, ContractApi.isKnown Seal c o = true → ∃ op, S op ∧ opid op = o) ∧
    NoForgery (ContractApi.contractId Seal c) S l blocks

/-- No replay across contracts: a consignment with more than the first operation is accepted by at most one of
several contracts with different ids, whatever their implementations and histories. -/
theorem C74_no_replay {C' : Type} [ContractApi Seal C'] {R' : Type} [ReadOperation Seal R'] {c : C} {c' : C'} {r : R} {r' : R'}
    {blocks : List (OperationSeals Seal)} {o o'} (h : Accepted c r blocks o) (h' : Accepted c' r' blocks o')
    (hc : Guarded c blocks) (hc' : Guarded c' blocks) (hlen : 1 < blocks.length) :
    ContractApi.contractId Seal c = ContractApi.contractId Seal c' := by
  obtain ⟨hl, c₀, l, S, k1, k2, k3, k4, k5, k6⟩ := hc
  obtain ⟨hl', c₀', l', S', k1', k2', k3', k4', k5', k6'⟩ := hc'
  have hb : blocks[1]? = some blocks[1] := by simp
  have e := C74_isolated hl k2 k3 k1 k4 k5 h k6 hb (by simp)
  have e' := C74_isolated hl' k2' k3' k1' k4' k5' h' k6' hb (by simp)
  rw [(history_id hl k1).1, (history_id hl' k1').1, ← e, ← e']

end

open Demo in
theorem codex_guards (cid : ContractId) : Guarantees codex cid fun op => op.contractId = cid := by
  intro op mem repo v h
  simp only [codex] at h
  split at h
  · simp at h
  · rename_i hc
    simpa using hc

open Demo in
/-- The demo contract after a history, which then accepts a consignment without verifying anything. -/
theorem demo_isolated : ∃ (l : List (Call Nat)) (c' : Ledger) (S : Operation → Prop) (r : Tape) (o : Outcome Nat Tape Ledger String),
    Lawful Nat Ledger ∧ Faithful (ContractApi.codex Nat ledger) ∧
    Guarantees (ContractApi.codex Nat ledger) (ContractApi.contractId Nat ledger) (fun op => op.contractId = ContractApi.contractId Nat ledger) ∧
    History (Seal := Nat) AnyStart ledger l c' ∧ l.filterMap appliedOperation ≠ [] ∧
    (∀ op, S op → op.contractId = ContractApi.contractId Nat ledger) ∧
    (∀ o, ContractApi.isKnown Nat ledger o = true → ∃ op, S op ∧ opid op = o) ∧
    Accepted c' r story o ∧ o.world.calls.filterMap appliedOperation = [] ∧
    NoForgery (ContractApi.contractId Nat ledger) S l story := by
  obtain ⟨o, h⟩ := story_run
  have h0 : ∀ b, story[0]? = some b → KnownStart ledger b := by
    intro b hb
    simp only [story, List.getElem?_cons_zero, Option.some.injEq] at hb
    subst hb
    unfold KnownStart
    decide +kernel
  obtain ⟨o', h', hn, _⟩ := C33_idempotent ledger_lawful codex_faithful h h0 (tape_delivers story)
  have hap : o.world.calls.filterMap appliedOperation = [⟨⟨101⟩, transfer1.operation⟩, ⟨⟨102⟩, transfer2.operation⟩] := by
    rw [calls_of h]; rfl
  refine ⟨o.world.calls ++ [], o.world.contract, fun op => op = opAt ⟨9⟩ 0 genesis, _, o', ledger_lawful, codex_faithful,
    codex_guards _, .step (fun _ _ => trivial) h.run (.nil _), by simp [hap], ?_, ?_, h', hn, ?_, ?_, ?_⟩
  · rintro op rfl; rfl
  · intro x hx
    have : x = ⟨100⟩ := by simpa [ContractApi.isKnown, ledger] using hx
    exact ⟨_, rfl, this ▸ by decide +kernel⟩
  · rintro i b _ hb rfl he
    match i, hb with
    | 0, hb => cases hb; rfl
    | 1, hb => cases hb; exact absurd he (by decide +kernel)
    | 2, hb => cases hb; exact absurd he (by decide +kernel)
  · intro i b v hv hb he
    rw [List.append_nil, hap] at hv
    simp only [List.mem_cons, List.not_mem_nil, or_false] at hv
    match i, hb with
    | 0, hb => cases hb; rcases hv with rfl | rfl <;> exact absurd he (by decide +kernel)
    | 1, hb => cases hb; rcases hv with rfl | rfl <;> first | rfl | exact absurd he (by decide +kernel)
    | 2, hb => cases hb; rcases hv with rfl | rfl <;> first | rfl | exact absurd he (by decide +kernel)
  · intro i j b b' hb hb' he
    match i, j, hb, hb' with
    | 0, 0, hb, hb' | 1, 1, hb, hb' | 2, 2, hb, hb' => cases hb; cases hb'; rfl
    | 0, 1, hb, hb' | 0, 2, hb, hb' | 1, 0, hb, hb' | 1, 2, hb, hb' | 2, 0, hb, hb' | 2, 1, hb, hb' =>
      cases hb; cases hb'; exact absurd he (by decide +kernel)

open Demo in
example : ∃ (c : Ledger) (r : Tape) (o : Outcome Nat Tape Ledger String), Accepted c r story o ∧ Guarded c story ∧ 1 < story.length := by
  obtain ⟨l, c', S, r, o, h1, h2, h3, h4, -, h5, h6, h7, -, h8⟩ := demo_isolated
  exact ⟨c', r, o, h7, ⟨h1, _, l, S, h4, h2, h3, h5, h6, h8⟩, by decide⟩

open Demo in
/-- A codex which does not look at contract ids. -/
def carelessCodex : Codex where
  codexId := ⟨7⟩
  verify _ op _ _ := .ok ⟨opid op, op⟩

open Demo in
/-- An operation of another contract. -/
def foreign : Block := ⟨{ op 330 [at_ 100 0] [.abs 4] with contractId := ⟨5⟩ }, .collect [(0, .abs 4)], some (wit 50 [1] 110)⟩

open Demo in
/-- `evaluate` itself does not compare contract ids: if the codex does not either, operations of other
contracts are accepted. -/
theorem C74_needs_codex : ∃ (c : Ledger) (r : Tape) (o : Outcome Nat Tape Ledger String) (b : Block),
    Lawful Nat Ledger ∧ Faithful (ContractApi.codex Nat c) ∧ Accepted c r [genesis, b] o ∧
    b.operation.contractId ≠ ContractApi.contractId Nat c := by
  obtain ⟨o, h⟩ := accepted_of_accepts (c := { ledger with codex := carelessCodex }) (bs := [genesis, foreign]) (by decide +kernel)
  refine ⟨_, _, o, foreign, ledger_lawful, ?_, h, by decide +kernel⟩
  intro cid op mem repo v h
  cases h
  exact ⟨rfl, rfl⟩

end Rgb
