import Verif.Demo

set_option linter.unusedSectionVars false

/-! # C14 - C20: what is reported to the contract -/

namespace Rgb
open Spec

/-! ## C14 -/

section
variable {Seal : Type} [LinearOrder Seal] [RgbSeal Seal] [OpHash]
variable {C E : Type} [ContractApi Seal C]
variable {R : Type} [ReadOperation Seal R]

/-- A known operation is accepted exactly if it passes the checks other than codex verification. -/
theorem C14_same_checks {c : C} {r : R} {blocks : List (OperationSeals Seal)} {b : OperationSeals Seal}
    (hr : Delivers r (blocks ++ [b])) (hv : ValidConsignment c blocks)
    (hk : ContractApi.isKnown Seal (contractAt (ContractApi.contractId Seal c) c blocks blocks.length)
      (nextId c blocks b) = true) :
    (∃ o, evaluate (Seal := Seal) c r = some o ∧ o.result = .ok ()) ↔
      CommitsToCodex c blocks b ∧ SealsCommitted b ∧ ∃ seals, InputsSealed c blocks b seals ∧
        (∀ w, b.witness = some w →
          RgbSeal.verifySealsClosing w.published w.client seals (message Seal (nextId c blocks b)) = .ok ()) ∧
        (b.witness = none → b.operation.destructibleIn = []) := by
  constructor
  · rintro ⟨o, h1, h2⟩
    have hvv := (Accepted.mk h1 h2 hr).valid
    have hvb := (validConsignment_snoc.1 hvv).2
    obtain ⟨seals, k1, k2, k3⟩ := hvb.closed
    refine ⟨fun e => hvb.codex (by simp [e]), hvb.committed, seals, ⟨hvb.distinct, k1⟩, k2, fun hw => ?_⟩
    exact (forall₂_length_nil k1).2 (k3 hw)
  · rintro ⟨h1, h2, seals, ⟨h3, h4⟩, h5, h6⟩
    have hvb : ValidBlock c blocks blocks.length b := by
      refine ⟨fun h => h1 (List.length_eq_zero_iff.1 h), h2, h3, ⟨seals, h4, h5, fun hw => (forall₂_length_nil h4).1 (h6 hw)⟩, ?_⟩
      intro hn
      change ContractApi.isKnown Seal _ (nextId c blocks b) = false at hn
      rw [hk] at hn; simp at hn
    obtain ⟨o, k1, k2, _⟩ := evaluate_of_delivers hr (validConsignment_snoc.2 ⟨hv, hvb⟩)
    exact ⟨o, k1, k2⟩

/-- A known operation is never rejected with an error of the virtual machine. -/
theorem C14_no_vm_error {c : C} {r : R} {blocks : List (OperationSeals Seal)} {b : OperationSeals Seal}
    (hr : StartsWith r (blocks ++ [b])) (hv : ValidConsignment c blocks)
    (hk : ContractApi.isKnown Seal (contractAt (ContractApi.contractId Seal c) c blocks blocks.length)
      (nextId c blocks b) = true)
    {o} (h : evaluate (Seal := Seal) c r = some o) (hp : polls o.world.calls = blocks.length + 1) (e : CallError) :
    o.result ≠ .error (.vm e) := by
  intro he
  rcases valid_or_rejected (E := ReadOperation.Error Seal R) hv b with hvb | ⟨e', l, hrej⟩
  · obtain ⟨bs, hs⟩ := run_shape h
    obtain ⟨segs, tail, _, _, h3⟩ := hs.stop
    rcases h3 with ⟨h0, _⟩ | ⟨_, h0, _⟩ | ⟨b2, e2, he2, hrd, hrj⟩
    · rw [he] at h0; simp at h0
    · rw [he] at h0; simp at h0
    · have hl : bs.length = blocks.length := by have := hs.polls; omega
      obtain ⟨r₂, hr⟩ := hr
      have heq : bs ++ [b2] = blocks ++ [b] := by
        rcases hrd.det hr with ⟨zs, e3, hz⟩ | ⟨zs, e3, hz⟩
        all_goals
          have hlen := congrArg List.length e3
          simp only [List.length_append, List.length_cons, List.length_nil] at hlen
          have : zs = [] := List.length_eq_zero_iff.1 (by omega)
          subst this
          simp [e3]
      obtain ⟨rfl, e4⟩ := List.append_inj heq hl
      simp only [List.cons.injEq, and_true] at e4
      subst e4
      exact not_valid_of_rejected hv hrj hvb
  · obtain ⟨o', h1, h2, _⟩ := evaluate_of_rejection hr hv hrej
    rw [h] at h1
    simp only [Option.some.injEq] at h1
    subst h1
    rw [he] at h2
    simp only [Except.error.injEq] at h2
    subst h2
    cases hrej with
    | script _ _ _ hn _ => rw [hk] at hn; simp at hn

/-- Whatever the run does, while it handles a known operation it neither asks the codex nor applies an
operation. -/
theorem C14_not_verified {c : C} {r : R} {blocks : List (OperationSeals Seal)} {b : OperationSeals Seal}
    (hr : StartsWith r (blocks ++ [b]))
    (hk : ContractApi.isKnown Seal (contractAt (ContractApi.contractId Seal c) c blocks blocks.length)
      (nextId c blocks b) = true)
    {o} (h : evaluate (Seal := Seal) c r = some o) {pre post : List (Call Seal)} {x : Call Seal}
    (hc : o.world.calls = pre ++ x :: post) (hp : polls pre = blocks.length + 1) :
    (∀ cid op, x ≠ .codexVerify cid op) ∧ (∀ v, x ≠ .applyOperation v) := by
  have hq : queries (ContractApi.contractId Seal c) (contractAt (ContractApi.contractId Seal c) c blocks blocks.length)
      blocks.length b = [.isKnown (nextId c blocks b) true] := if_pos hk
  have ho : operationCallbacks (Seal := Seal) (ContractApi.contractId Seal c)
      (contractAt (ContractApi.contractId Seal c) c blocks blocks.length) blocks.length b = [] := if_pos (.inr hk)
  by_cases hx : x = .read
  · subst hx; simp
  rcases round hr h hx hc hp with ⟨seals, p, q, _, _, hl⟩ | ⟨e, l, p, q, hrej, hl⟩
  · have hm : x ∈ [Call.isKnown (nextId c blocks b) true] ++ sealQueries (nextId c blocks b) b seals ++
        (witnessCallbacks (nextId c blocks b) b ++ [] ++ sealCallbacks (nextId c blocks b) b) := by
      have : x ∈ p ++ x :: q := by simp
      rw [← hl, hq, callbacks, ho] at this
      exact this
    unfold sealQueries witnessCallbacks sealCallbacks at hm
    constructor
    · rintro cid op rfl
      cases hw : b.witness <;> by_cases hd : b.definedSeals.entries = [] <;> simp [hd, hw] at hm
    · rintro v rfl
      cases hw : b.witness <;> by_cases hd : b.definedSeals.entries = [] <;> simp [hd, hw] at hm
  · have hm : x ∈ l := by rw [hl]; simp
    cases hrej with
    | codex => simp at hm
    | mismatch => simp at hm
    | unknown => simp at hm
    | script _ _ _ hn => rw [hk] at hn; simp at hn
    | notClosed =>
      rw [hq] at hm
      constructor
      · rintro cid op rfl; simp at hm
      · rintro v rfl; simp at hm
    | noWitness =>
      rw [hq] at hm
      constructor
      · rintro cid op rfl; simp at hm
      · rintro v rfl; simp at hm

/-- An accepted known operation is reported with its witness and its seals, as any other. -/
theorem C14_callbacks {c : C} {r r' : R} {blocks : List (OperationSeals Seal)} {b : OperationSeals Seal} {o o'}
    (h : Accepted c r blocks o) (h' : Accepted c r' (blocks ++ [b]) o')
    (hk : ContractApi.isKnown Seal o.world.contract (nextId c blocks b) = true) :
    o'.world.calls.filter IsCallback = o.world.calls.filter IsCallback ++
      (match b.witness with | some w => [.applyWitness (nextId c blocks b) w] | none => []) ++
      (if b.definedSeals.entries = [] then [] else [.applySeals (nextId c blocks b) b.definedSeals]) := by
  rw [h.shape.callbacks, h'.shape.callbacks]
  rw [h.shape.contract] at hk
  have ho : operationCallbacks (Seal := Seal) (ContractApi.contractId Seal c)
      (contractAt (ContractApi.contractId Seal c) c blocks blocks.length) blocks.length b = [] := if_pos (.inr hk)
  simp only [List.length_append, List.length_cons, List.length_nil, callbacksUpTo, Nat.zero_add]
  rw [callbacksUpTo_congr fun k hk => (getElem?_append_lt (Nat.le_refl _) k hk).symm, contractAt_append]
  simp only [List.getElem?_append_right (Nat.le_refl _), Nat.sub_self, List.getElem?_cons_zero]
  rw [callbacks, ho, List.append_nil, ← List.append_assoc]
  rfl

end

open Demo in
example : Delivers (Seal := Nat) (Tape.mk ([genesis] ++ [transfer1]) none) ([genesis] ++ [transfer1]) ∧
    ValidConsignment late [genesis] ∧
    ContractApi.isKnown Nat (contractAt (ContractApi.contractId Nat late) late [genesis] 1) (nextId late [genesis] transfer1) = true :=
  ⟨tape_delivers _, valid_of_accepts (by decide +kernel), by decide +kernel⟩

open Demo in
example : ∃ o o', Accepted late (Tape.mk [genesis] none) [genesis] o ∧
    Accepted late (Tape.mk ([genesis] ++ [transfer1]) none) ([genesis] ++ [transfer1]) o' ∧
    ContractApi.isKnown Nat o.world.contract (nextId late [genesis] transfer1) = true := by
  obtain ⟨o, h⟩ := accepted_of_accepts (c := late) (bs := [genesis]) (by decide +kernel)
  obtain ⟨o', h'⟩ := accepted_of_accepts (c := late) (bs := [genesis] ++ [transfer1]) (by decide +kernel)
  refine ⟨o, o', h, h', ?_⟩
  rw [h.shape.contract]
  decide +kernel

/-! ## C15 -/

section
variable {Seal : Type} [LinearOrder Seal] [RgbSeal Seal] [OpHash]
variable {C E : Type} [ContractApi Seal C]
variable {R : Type} [ReadOperation Seal R]

/-- Every applied operation is the codex's positive answer for the operation of its block, which the
contract did not know. -/
theorem C15_applied_verified {c : C} {r : R} {o} (h : evaluate (Seal := Seal) c r = some o)
    {pre post : List (Call Seal)} {v : VerifiedOperation} (hc : o.world.calls = pre ++ .applyOperation v :: post) :
    ∃ (blocks : List (OperationSeals Seal)) (i : Nat) (b : OperationSeals Seal) (pre₀ mid : List (Call Seal)),
      StartsWith r blocks ∧ blocks[i]? = some b ∧ pre = pre₀ ++ .read :: mid ∧ polls pre₀ = i ∧
      polls mid = 0 ∧ 1 ≤ i ∧
      codexAnswer Seal (pre₀.foldl perform c) (ContractApi.contractId Seal c) b.operation = .ok v ∧
      ContractApi.isKnown Seal (pre₀.foldl perform c) (opid b.operation) = false ∧
      .codexVerify (ContractApi.contractId Seal c) b.operation ∈ mid ∧ .isKnown (opid b.operation) false ∈ mid := by
  obtain ⟨blocks, i, b, seals, pre₀, cb₁, cb₂, h1, h2, h3, h4, h5, h6, h7, h8⟩ := locate h rfl hc
  have hmem : .applyOperation v ∈ operationCallbacks (Seal := Seal) (ContractApi.contractId Seal c)
      (contractAt (ContractApi.contractId Seal c) c blocks i) i b := by
    have : Call.applyOperation v ∈ callbacks (ContractApi.contractId Seal c)
      (contractAt (ContractApi.contractId Seal c) c blocks i) i b := by rw [h7]; simp
    simp only [callbacks, List.mem_append] at this
    rcases this with (this | this) | this
    · unfold witnessCallbacks at this; split at this <;> simp at this
    · exact this
    · unfold sealCallbacks at this; split at this <;> simp at this
  have hcb : polls cb₁ = 0 := by
    have := polls_callbacks (ContractApi.contractId Seal c) (contractAt (ContractApi.contractId Seal c) c blocks i) i b
    rw [h7, polls_append] at this
    omega
  unfold operationCallbacks at hmem
  split at hmem
  · simp at hmem
  rename_i hn
  have hi : i ≠ 0 := fun e => hn (.inl e)
  have hop : opAt (ContractApi.contractId Seal c) i b = b.operation := by simp [opAt, hi]
  have hid : idAt (ContractApi.contractId Seal c) i b = opid b.operation := by rw [idAt, hop]
  have hk : ContractApi.isKnown Seal (contractAt (ContractApi.contractId Seal c) c blocks i) (opid b.operation) = false := by
    rw [← hid]
    cases hkk : ContractApi.isKnown Seal (contractAt (ContractApi.contractId Seal c) c blocks i)
      (idAt (ContractApi.contractId Seal c) i b) with
    | false => rfl
    | true => exact absurd (.inr hkk) hn
  have hq : queries (ContractApi.contractId Seal c) (contractAt (ContractApi.contractId Seal c) c blocks i) i b =
      [.isKnown (opid b.operation) false, .codex, .memory, .repo, .codexVerify (ContractApi.contractId Seal c) b.operation] := by
    unfold queries
    rw [hid, hop, hk]
    rfl
  refine ⟨blocks, i, b, pre₀, _, h1, h3, h8, h4, ?_, by omega, ?_, by rw [h5]; exact hk, ?_, ?_⟩
  · rw [polls_append, polls_append, polls_queries, polls_sealQueries, hcb]
  · rw [h5]
    rw [hop] at hmem
    split at hmem
    · rename_i hv
      simp only [List.mem_singleton, Call.applyOperation.injEq] at hmem
      rw [hv, hmem]
    · simp at hmem
  · rw [hq]; simp
  · rw [hq]; simp

end

open Demo in
example : ∃ o pre post, evaluate (Seal := Nat) ledger (Tape.mk story none) = some o ∧
    o.world.calls = pre ++ .applyOperation ⟨⟨102⟩, transfer2.operation⟩ :: post := by
  obtain ⟨o, h⟩ := story_run
  obtain ⟨pre, post, hp⟩ := mem_calls h (l₁ := callbacksUpTo ⟨9⟩ ledger story 2 ++ [.applyWitness ⟨102⟩ (wit 51 [50003, 5] 102)])
    (x := .applyOperation ⟨⟨102⟩, transfer2.operation⟩) (l₂ := _) rfl
  exact ⟨o, pre, post, h.run, hp⟩

/-! ## C16 -/

section
variable {Seal : Type} [LinearOrder Seal] [RgbSeal Seal] [OpHash]
variable {C E : Type} [ContractApi Seal C]
variable {R : Type} [ReadOperation Seal R]

theorem filterMap_callbacks {α : Type} (f : Call Seal → Option α) (hf : ∀ x, IsCallback x = false → f x = none)
    (l : List (Call Seal)) : l.filterMap f = (l.filter IsCallback).filterMap f := by
  induction l with
  | nil => rfl
  | cons x t ih =>
    cases hx : IsCallback x with
    | true => rw [List.filter_cons_of_pos hx]; simp [List.filterMap_cons, ih]
    | false => rw [List.filter_cons_of_neg (by simp [hx])]; simp [ih, hf x hx]

/-- The applied operations are the codex's answers for the new blocks: one for each, in order. -/
theorem C16_applied_once {c : C} {r : R} {blocks : List (OperationSeals Seal)} {o} (h : Accepted c r blocks o) :
    List.Forall₂ (fun (i : Nat) v => ∃ b, blocks[i]? = some b ∧
        codexAnswer Seal (contractAt (ContractApi.contractId Seal c) c blocks i) (ContractApi.contractId Seal c)
          b.operation = .ok v)
      ((List.range blocks.length).filter (isNew c blocks)) (o.world.calls.filterMap appliedOperation) := by
  rw [filterMap_callbacks _ (by intro x hx; cases x <;> simp_all [IsCallback, appliedOperation]), h.shape.callbacks]
  have hv := h.valid
  suffices ∀ n ≤ blocks.length, List.Forall₂ (fun (i : Nat) v => ∃ b, blocks[i]? = some b ∧
        codexAnswer Seal (contractAt (ContractApi.contractId Seal c) c blocks i) (ContractApi.contractId Seal c)
          b.operation = .ok v)
      ((List.range n).filter (isNew c blocks))
      ((callbacksUpTo (ContractApi.contractId Seal c) c blocks n).filterMap appliedOperation) from this _ (Nat.le_refl _)
  intro n hn
  induction n with
  | zero => exact .nil
  | succ n ih =>
    have hb : blocks[n]? = some blocks[n] := by simp
    rw [List.range_succ, List.filter_append, callbacksUpTo, List.filterMap_append]
    refine List.rel_append (ih (by omega)) ?_
    simp only [hb]
    have hw : (witnessCallbacks (idAt (ContractApi.contractId Seal c) n blocks[n]) blocks[n]).filterMap appliedOperation = [] := by
      unfold witnessCallbacks; split <;> rfl
    have hs : (sealCallbacks (idAt (ContractApi.contractId Seal c) n blocks[n]) blocks[n]).filterMap appliedOperation = [] := by
      unfold sealCallbacks; split <;> rfl
    rw [callbacks, List.filterMap_append, List.filterMap_append, hw, hs, List.nil_append, List.append_nil]
    cases hnew : isNew c blocks n with
    | false =>
      have : n = 0 ∨ ContractApi.isKnown Seal (contractAt (ContractApi.contractId Seal c) c blocks n)
          (idAt (ContractApi.contractId Seal c) n blocks[n]) = true := by
        simp only [isNew, hb] at hnew
        by_cases h0 : n = 0
        · exact .inl h0
        · right; simpa [h0] using hnew
      rw [operationCallbacks, if_pos this]
      simp [hnew]
    | true =>
      simp only [isNew, hb, Bool.and_eq_true, Bool.not_eq_true', decide_eq_true_eq] at hnew
      obtain ⟨h0, hk⟩ := hnew
      have hop : opAt (ContractApi.contractId Seal c) n blocks[n] = blocks[n].operation := by simp [opAt, h0]
      obtain ⟨v, hv'⟩ := (hv n _ hb).script hk
      rw [operationCallbacks, if_neg (by simp [h0, hk]), hv']
      have : isNew c blocks n = true := by simp [isNew, hb, h0, hk]
      simp only [List.filter_cons_of_pos this, List.filter_nil, List.filterMap_cons, appliedOperation, List.filterMap_nil]
      exact .cons ⟨_, hb, by rw [← hop]; exact hv'⟩ .nil

end

open Demo in
example : (∃ o, Accepted ledger (Tape.mk story none) story o) ∧
    (List.range story.length).filter (isNew ledger story) = [1, 2] := ⟨story_run, by decide +kernel⟩

/-! ## C17 -/

section
variable {Seal : Type} [LinearOrder Seal] [RgbSeal Seal] [OpHash]
variable {C E : Type} [ContractApi Seal C]
variable {R : Type} [ReadOperation Seal R]

/-- The callbacks of an accepted consignment, in order, are those due for each block. -/
theorem C17_callback_order {c : C} {r : R} {blocks : List (OperationSeals Seal)} {o} (h : Accepted c r blocks o) :
    o.world.calls.filter IsCallback = (List.range blocks.length).flatMap fun i =>
      match blocks[i]? with
      | none => []
      | some b =>
        let id := idAt (ContractApi.contractId Seal c) i b
        let now := contractAt (ContractApi.contractId Seal c) c blocks i
        (match b.witness with | some w => [.applyWitness id w] | none => []) ++
        (if i = 0 ∨ ContractApi.isKnown Seal now id = true then []
          else match codexAnswer Seal now (ContractApi.contractId Seal c) b.operation with
            | .ok v => [.applyOperation v]
            | .error _ => []) ++
        (if b.definedSeals.entries = [] then [] else [.applySeals id b.definedSeals]) := by
  rw [h.shape.callbacks]
  generalize blocks.length = n
  induction n with
  | zero => rfl
  | succ n ih =>
    rw [List.range_succ, List.flatMap_append, callbacksUpTo, ih]
    congr 1
    simp only [List.flatMap_cons, List.flatMap_nil, List.append_nil]
    cases hb : blocks[n]? with
    | none => rfl
    | some b =>
      simp only [callbacks, operationCallbacks]
      by_cases h0 : n = 0
      · simp [h0]; rfl
      · have hop : opAt (ContractApi.contractId Seal c) n b = b.operation := by simp [opAt, h0]
        rw [hop]; rfl

/-- In any run, an operation is applied only directly after its own witness, if it has one. -/
theorem C17_witness_first {c : C} {r : R} {o} (h : evaluate (Seal := Seal) c r = some o)
    {pre post : List (Call Seal)} {v : VerifiedOperation} (hc : o.world.calls = pre ++ .applyOperation v :: post) :
    ∃ blocks i b, StartsWith r blocks ∧ blocks[i]? = some b ∧ polls pre = i + 1 ∧
      ∀ w, b.witness = some w → ∃ pre', pre = pre' ++ [.applyWitness (idAt (ContractApi.contractId Seal c) i b) w] := by
  obtain ⟨blocks, i, b, seals, pre₀, cb₁, cb₂, h1, h2, h3, h4, h5, h6, h7, h8⟩ := locate h rfl hc
  have hcb : polls cb₁ = 0 := by
    have := polls_callbacks (ContractApi.contractId Seal c) (contractAt (ContractApi.contractId Seal c) c blocks i) i b
    rw [h7, polls_append] at this
    omega
  refine ⟨blocks, i, b, h1, h3, ?_, ?_⟩
  · rw [h8, polls_append, polls_cons_read, polls_append, polls_append, polls_queries, polls_sealQueries, hcb, h4]
  · intro w hw
    have : cb₁ = [.applyWitness (idAt (ContractApi.contractId Seal c) i b) w] := by
      simp only [callbacks, witnessCallbacks, hw] at h7
      rw [List.append_assoc] at h7
      obtain ⟨k, rfl, h9⟩ := split_left h7 (by simp)
      cases k with
      | nil => rfl
      | cons y k =>
        exfalso
        unfold operationCallbacks sealCallbacks at h9
        split at h9
        · split at h9 <;> simp at h9
        · split at h9
          · split at h9
            · simp at h9
            · simp only [List.cons_append, List.nil_append, List.cons.injEq] at h9
              have : Call.applyOperation v ∈ [Call.applySeals (idAt (ContractApi.contractId Seal c) i b) b.definedSeals] := by
                rw [h9.2]; simp
              simp at this
          · split at h9 <;> simp at h9
    rw [h8, this]
    exact ⟨pre₀ ++ .read :: (queries (ContractApi.contractId Seal c)
        (contractAt (ContractApi.contractId Seal c) c blocks i) i b ++
        sealQueries (idAt (ContractApi.contractId Seal c) i b) b seals), by simp⟩

/-! ## C18, C19 -/

/-- The reported seals are exactly the non-empty maps revealed by the blocks, in order. -/
theorem C18_seals_exact {c : C} {r : R} {blocks : List (OperationSeals Seal)} {o} (h : Accepted c r blocks o) :
    o.world.calls.filterMap reportedSeals = (List.range blocks.length).filterMap fun i =>
      blocks[i]?.bind fun b => if b.definedSeals.entries = [] then none
        else some (idAt (ContractApi.contractId Seal c) i b, b.definedSeals) := by
  rw [filterMap_callbacks _ (by intro x hx; cases x <;> simp_all [IsCallback, reportedSeals]), h.shape.callbacks]
  generalize blocks.length = n
  induction n with
  | zero => rfl
  | succ n ih =>
    rw [List.range_succ, List.filterMap_append, callbacksUpTo, List.filterMap_append, ih]
    congr 1
    cases hb : blocks[n]? with
    | none => simp [hb]
    | some b =>
      have hw : (witnessCallbacks (idAt (ContractApi.contractId Seal c) n b) b).filterMap reportedSeals = [] := by
        unfold witnessCallbacks; split <;> rfl
      have ho : (operationCallbacks (ContractApi.contractId Seal c)
          (contractAt (ContractApi.contractId Seal c) c blocks n) n b).filterMap (reportedSeals (Seal := Seal)) = [] := by
        unfold operationCallbacks
        split
        · rfl
        · split <;> rfl
      simp only [callbacks, List.filterMap_append, hw, ho, List.nil_append, sealCallbacks, List.filterMap_cons,
        List.filterMap_nil, hb, Option.bind_some]
      split <;> rfl

/-- The reported witnesses are exactly the witnesses of the blocks, in order. -/
theorem C19_witnesses_exact {c : C} {r : R} {blocks : List (OperationSeals Seal)} {o} (h : Accepted c r blocks o) :
    o.world.calls.filterMap reportedWitness = (List.range blocks.length).filterMap fun i =>
      blocks[i]?.bind fun b => b.witness.map fun w => (idAt (ContractApi.contractId Seal c) i b, w) := by
  rw [filterMap_callbacks _ (by intro x hx; cases x <;> simp_all [IsCallback, reportedWitness]), h.shape.callbacks]
  generalize blocks.length = n
  induction n with
  | zero => rfl
  | succ n ih =>
    rw [List.range_succ, List.filterMap_append, callbacksUpTo, List.filterMap_append, ih]
    congr 1
    cases hb : blocks[n]? with
    | none => simp [hb]
    | some b =>
      have hs : (sealCallbacks (idAt (ContractApi.contractId Seal c) n b) b).filterMap reportedWitness = [] := by
        unfold sealCallbacks; split <;> rfl
      have ho : (operationCallbacks (ContractApi.contractId Seal c)
          (contractAt (ContractApi.contractId Seal c) c blocks n) n b).filterMap (reportedWitness (Seal := Seal)) = [] := by
        unfold operationCallbacks
        split
        · rfl
        · split <;> rfl
      simp only [callbacks, List.filterMap_append, hs, ho, List.append_nil, witnessCallbacks, List.filterMap_cons,
        List.filterMap_nil, hb, Option.bind_some]
      cases b.witness <;> rfl

end

open Demo in
example : ∃ o, Accepted ledger (Tape.mk (story ++ [⟨op 106 [] [], .empty, none⟩]) none) (story ++ [⟨op 106 [] [], .empty, none⟩]) o :=
  accepted_of_accepts (by decide +kernel)

/-! ## C20 -/

section
variable {Seal : Type} [LinearOrder Seal] [RgbSeal Seal] [OpHash]
variable {C E : Type} [ContractApi Seal C]
variable {R : Type} [ReadOperation Seal R]

/-- A run ending in an error leaves the same contract, after the same callbacks, as the accepted run
over the blocks before the failure. -/
theorem C20_rejected_no_effect {c : C} {r : R} {o} {e} (h : evaluate (Seal := Seal) c r = some o)
    (he : o.result = .error e) :
    ∃ blocks, polls o.world.calls = blocks.length + 1 ∧
      ((∃ b, StartsWith r (blocks ++ [b])) ∨ ∃ e', FailsAfter r blocks e') ∧
      ∀ (R' : Type) [ReadOperation Seal R'] (r' : R'), Delivers r' blocks →
        ∃ o', Accepted c r' blocks o' ∧ o'.world.contract = o.world.contract ∧
          o'.world.calls.filter IsCallback = o.world.calls.filter IsCallback := by
  obtain ⟨blocks, hs⟩ := run_shape h
  refine ⟨blocks, hs.polls, ?_, ?_⟩
  · obtain ⟨_, _, _, _, h3⟩ := hs.stop
    rcases h3 with ⟨h0, _⟩ | ⟨e', _, _, r₁, h4, h5⟩ | ⟨b, _, _, h4, _⟩
    · rw [he] at h0; simp at h0
    · exact .inr ⟨e', r₁, _, h4, h5⟩
    · exact .inl ⟨b, _, h4⟩
  · intro R' _ r' hd
    obtain ⟨o', h1, h2, h3⟩ := evaluate_of_delivers (c := c) hd hs.valid
    exact ⟨o', ⟨h1, h2, hd⟩, h3.contract.trans hs.contract.symm, h3.callbacks.trans hs.callbacks.symm⟩

end

open Demo in
example : ∃ o, evaluate (Seal := Nat) ledger (Tape.mk ([genesis, transfer1] ++ [doubleSpend] ++ [transfer2]) none) = some o ∧
    o.result = .error (.sealUnknown (at_ 100 0)) := rejected_of rfl [transfer2] none

end Rgb
