import Verif.Demo
import Verif.Lemmas.Laws

set_option linter.unusedSectionVars false

/-! # C33–C36: several evaluations in a row -/

namespace Rgb
open Spec

namespace Demo

theorem ledger_lawful : Lawful Nat Ledger where
  contractId c x := by cases x <;> rfl
  codex c x := by cases x <;> rfl
  known_operation c v o := by simp [ContractApi.isKnown, ContractApi.applyOperation, or_comm]
  known_seals _ _ _ _ := rfl
  known_witness _ _ _ _ := rfl

theorem outputs_opid {id : Opid} {n : Nat} {l : List StateCell} {e : CellAddr × StateCell} (h : e ∈ outputs id n l) :
    e.1.opid = id := by
  induction l generalizing n with
  | nil => simp [outputs] at h
  | cons x l ih =>
    rcases List.mem_cons.1 h with rfl | h
    · rfl
    · exact ih h

theorem find_none {l : Ledger} {a : CellAddr} : l.find a = none ↔ ∀ e ∈ l.cells, e.1 ≠ a := by
  simp [Ledger.find]

theorem ledger_lawfulMemory : LawfulMemory Nat Ledger where
  consumed c v inp hi := by
    refine find_none.2 ?_
    intro e he ha
    have := (List.mem_filter.1 he).2
    rw [ha] at this
    simp only [Bool.not_eq_true', List.contains_eq_mem, decide_eq_false_iff_not, List.mem_map] at this
    exact this ⟨inp, hi, rfl⟩
  created c v a ha h := by
    refine find_none.2 ?_
    intro e he hea
    rcases List.mem_append.1 (List.mem_filter.1 he).1 with h1 | h1
    · exact find_none.1 h e h1 hea
    · exact ha (by rw [← hea]; exact outputs_opid h1)
  seals _ _ _ _ := rfl
  witness _ _ _ _ := rfl

theorem codex_faithful : Faithful codex := by
  intro cid op mem repo v h
  simp only [codex] at h
  split at h
  · simp at h
  · split at h
    · simp at h
    · split at h
      · simp at h
      · simp only [Except.ok.injEq] at h
        subst h
        exact ⟨rfl, rfl⟩

theorem codex_checksInputs : ChecksInputs codex := by
  intro cid op mem repo v h inp hi hn
  simp only [codex] at h
  split at h
  · simp at h
  · split at h
    · simp at h
    · rename_i hany
      exact hany (List.any_eq_true.2 ⟨inp, hi, by rw [hn]; rfl⟩)

/-- Two evaluations on the demo ledger: one rejected half way, one accepted. -/
theorem two_runs : ∃ l c', History (Seal := Nat) KnownStart ledger l c' ∧
    (l.filterMap appliedOperation).map (·.opid) = [⟨101⟩, ⟨102⟩] := by
  obtain ⟨hv, l₁, hr⟩ := rejection_of (c := ledger) (bs := [genesis, transfer1]) (b := doubleSpend)
    (e := .sealUnknown (at_ 100 0)) rfl
  obtain ⟨o₁, h1, h2, _, h3⟩ := evaluate_of_rejection (tape_startsWith ([genesis, transfer1] ++ [doubleSpend]) [] none) hv hr
  have hstart : ∀ (c : Ledger) (rest : List Block) (b : Block), c.known.contains ⟨100⟩ = true → c.contractId = ⟨9⟩ →
      StartsWith (Seal := Nat) (Tape.mk (genesis :: rest) none) [b] → KnownStart c b := by
    rintro c rest b hk hid ⟨r₁, hr⟩
    cases hr with
    | cons hr _ =>
      have : genesis = b := by
        have := congrArg Prod.fst hr
        simpa [ReadOperation.readOperation] using this
      subst this
      have e : opid { genesis.operation with contractId := ContractApi.contractId Nat c } = ⟨100⟩ := by
        change opid { genesis.operation with contractId := c.contractId } = _
        rw [hid]
        rfl
      unfold KnownStart
      rw [e]
      exact hk
  have hc1 : o₁.world.contract = contractAt (ContractApi.contractId Nat ledger) ledger [genesis, transfer1] 2 := h3.contract
  have hacc : accepts o₁.world.contract story = true := by rw [hc1]; decide +kernel
  obtain ⟨o₂, hA⟩ := accepted_of_accepts hacc
  refine ⟨o₁.world.calls ++ (o₂.world.calls ++ []), _, .step ?_ h1 (.step ?_ hA.run (.nil _)), ?_⟩
  · exact fun b hb => hstart ledger [transfer1, doubleSpend] b (by decide +kernel) rfl (by simpa using hb)
  · exact fun b hb => hstart _ [transfer1, transfer2] b (by rw [hc1]; decide +kernel) (by rw [hc1]; rfl) hb
  · have hb : ∀ l : List (Call Nat), l.filterMap appliedOperation = (l.filter IsCallback).filterMap appliedOperation := by
      intro l
      rw [List.filterMap_filter]
      congr 1
      funext x
      cases x <;> rfl
    rw [List.append_nil, List.filterMap_append, hb, h3.callbacks, hb o₂.world.calls, hA.shape.callbacks, hc1]
    decide +kernel

end Demo

/-! ## C33 -/

section
variable {Seal : Type} [LinearOrder Seal] [RgbSeal Seal] [OpHash]
variable {C E : Type} [ContractApi Seal C]
variable {R : Type} [ReadOperation Seal R]

/-- Evaluating an accepted consignment again, on the contract the first evaluation left, is accepted,
applies no operation, and makes the same witness and seal callbacks, in the same order. -/
theorem C33_idempotent (hl : Lawful Seal C) {c : C} (hf : Faithful (ContractApi.codex Seal c)) {r : R}
    {blocks : List (OperationSeals Seal)} {o} (h : Accepted c r blocks o)
    (h0 : ∀ b, blocks[0]? = some b → KnownStart c b) {R' : Type} [ReadOperation Seal R'] {r' : R'}
    (hr : Delivers r' blocks) :
    ∃ o', Accepted o.world.contract r' blocks o' ∧ o'.world.calls.filterMap appliedOperation = [] ∧
      o'.world.calls.filter IsCallback =
        o.world.calls.filter (fun x => IsCallback x && (appliedOperation x).isNone) := by
  have hc := h.shape.contract
  have hv := h.valid
  generalize hc' : o.world.contract = c' at *
  have hid : ContractApi.contractId Seal c' = ContractApi.contractId Seal c := by rw [hc]; exact hl.contractAt_id
  have hcx : ContractApi.codex Seal c' = ContractApi.codex Seal c := by rw [hc]; exact hl.contractAt_codex
  have hknown : ∀ i b n, blocks[i]? = some b → ContractApi.isKnown Seal
      (contractAt (ContractApi.contractId Seal c') c' blocks n) (idAt (ContractApi.contractId Seal c) i b) = true := by
    intro i b n hb
    refine hl.contractAt_mono (Nat.zero_le n) ?_
    simp only [contractAt]
    rw [hc]
    exact hl.contractAt_mono (lt_length_of_getElem? hb) (known_after hl hv hf h0 hb)
  have hv' : ValidConsignment c' blocks := by
    intro i b hb
    have vb := hv i b hb
    refine ⟨fun e => by rw [hcx]; exact vb.codex e, vb.committed, vb.distinct, by rw [hid]; exact vb.closed, ?_⟩
    intro hk
    rw [hid] at hk
    have := hknown i b i hb
    rw [hid] at this
    rw [this] at hk
    simp at hk
  obtain ⟨o', k1, k2, k3⟩ := evaluate_of_delivers hr hv'
  refine ⟨o', ⟨k1, k2, hr⟩, ?_⟩
  have key : ∀ n, callbacksUpTo (ContractApi.contractId Seal c') c' blocks n =
      (callbacksUpTo (ContractApi.contractId Seal c) c blocks n).filter fun x => (appliedOperation x).isNone := by
    intro n
    induction n with
    | zero => rfl
    | succ n ih =>
      rw [callbacksUpTo, callbacksUpTo, List.filter_append, ih]
      congr 1
      cases hb : blocks[n]? with
      | none => rfl
      | some b =>
        have e1 : operationCallbacks (ContractApi.contractId Seal c') (contractAt (ContractApi.contractId Seal c') c' blocks n)
            n b = [] := by
          unfold operationCallbacks
          rw [if_pos (.inr (by rw [hid]; have := hknown n b n hb; rwa [hid] at this))]
        have e2 : (operationCallbacks (ContractApi.contractId Seal c) (contractAt (ContractApi.contractId Seal c) c blocks n)
            n b).filter (fun x => (appliedOperation x).isNone) = [] := by
          unfold operationCallbacks
          split
          · rfl
          · split <;> rfl
        have e3 : ∀ o, (witnessCallbacks o b).filter (fun x => (appliedOperation x).isNone) = witnessCallbacks o b := by
          intro o; unfold witnessCallbacks; split <;> rfl
        have e4 : ∀ o, (sealCallbacks o b).filter (fun x => (appliedOperation x).isNone) = sealCallbacks o b := by
          intro o; unfold sealCallbacks; split <;> rfl
        simp only [callbacks, List.filter_append, e1, e2, e3, e4, idAt, opAt]
        rw [hid]
  have hfil : o'.world.calls.filter IsCallback =
      o.world.calls.filter (fun x => IsCallback x && (appliedOperation x).isNone) := by
    rw [k3.callbacks, key, ← h.shape.callbacks, List.filter_filter]
    congr 1
    funext x
    exact Bool.and_comm _ _
  refine ⟨?_, hfil⟩
  rw [List.filterMap_eq_nil_iff]
  intro x hx
  cases hcx : IsCallback x with
  | false => cases x <;> simp_all [IsCallback, appliedOperation]
  | true =>
    have : x ∈ o'.world.calls.filter IsCallback := List.mem_filter.2 ⟨hx, hcx⟩
    rw [hfil] at this
    have := (List.mem_filter.1 this).2
    simpa [hcx] using this

end

open Demo in
example : ∃ o, Lawful Nat Ledger ∧ Faithful (ContractApi.codex Nat ledger) ∧
    Accepted ledger (Tape.mk story none) story o ∧ (∀ b, story[0]? = some b → KnownStart ledger b) ∧
    Delivers (Seal := Nat) (Tape.mk story none) story := by
  obtain ⟨o, h⟩ := story_run
  refine ⟨o, ledger_lawful, codex_faithful, h, ?_, tape_delivers _⟩
  intro b hb
  simp only [story, List.getElem?_cons_zero, Option.some.injEq] at hb
  subst hb
  unfold KnownStart
  decide +kernel

/-! ## C34 -/

section
variable {Seal : Type} [LinearOrder Seal] [RgbSeal Seal] [OpHash]
variable {C E : Type} [ContractApi Seal C]
variable {R : Type} [ReadOperation Seal R]

theorem history_steps (hl : Lawful Seal C) {Start : C → OperationSeals Seal → Prop} {Q : C → VerifiedOperation → Prop}
    {X : Codex} (hQ : ∀ (R : Type) [ReadOperation Seal R] (c : C) (r : R) (blocks : List (OperationSeals Seal))
      (o : Outcome Seal R C (ReadOperation.Error Seal R)), ContractApi.codex Seal c = X → RunShape c r blocks o →
      (∀ b : OperationSeals Seal, StartsWith r [b] → Start c b) → Steps Q c o.world.calls o.world.contract)
    {c c' : C} {l : List (Call Seal)} (hc : ContractApi.codex Seal c = X) (h : History Start c l c') : Steps Q c l c' := by
  induction h with
  | nil => exact .nil _
  | @step R _ c c' r o l hs he _ ih =>
    obtain ⟨blocks, hsh⟩ := run_shape he
    have st := hQ R c r blocks o hc hsh hs
    refine st.append (ih ?_)
    rw [st.fold, hl.foldl_codex]
    exact hc

theorem steps_known (hl : Lawful Seal C) {c c' : C} {l : List (Call Seal)}
    (h : Steps (fun c v => Fresh (Seal := Seal) c v) c l c') :
    ((l.filterMap appliedOperation).map (·.opid)).Nodup ∧
      (∀ v ∈ l.filterMap appliedOperation, ContractApi.isKnown Seal c v.opid = false) ∧
      ∀ o, ContractApi.isKnown Seal c' o = true ↔
        ContractApi.isKnown Seal c o = true ∨ o ∈ (l.filterMap appliedOperation).map (·.opid) := by
  induction h with
  | nil => simp
  | other hx _ ih =>
    rw [List.filterMap_cons_none hx]
    simp only [hl.known_other hx] at ih
    exact ih
  | @apply c c' v l hq _ ih =>
    obtain ⟨i1, i2, i3⟩ := ih
    rw [show (Call.applyOperation (Seal := Seal) v :: l).filterMap appliedOperation = v :: l.filterMap appliedOperation from rfl]
    have i2' : ∀ v' ∈ l.filterMap appliedOperation, ContractApi.isKnown Seal c v'.opid = false ∧ v'.opid ≠ v.opid := by
      intro v' hv'
      have := i2 v' hv'
      rw [← Bool.not_eq_true, hl.known_operation, not_or] at this
      exact ⟨by simpa using this.1, this.2⟩
    refine ⟨?_, ?_, ?_⟩
    · rw [List.map_cons, List.nodup_cons]
      refine ⟨?_, i1⟩
      rw [List.mem_map]
      rintro ⟨v', hv', e⟩
      exact (i2' v' hv').2 e
    · intro v' hv'
      rcases List.mem_cons.1 hv' with rfl | hv'
      · exact hq.new
      · exact (i2' v' hv').1
    · intro o
      rw [i3, hl.known_operation, List.map_cons, List.mem_cons, or_assoc]

/-- Over any history no operation id is applied twice, none is applied that was known at the start, and
the known ids at the end are those known at the start and those applied. -/
theorem C34_applied_once (hl : Lawful Seal C) {Start : C → OperationSeals Seal → Prop} {c c' : C}
    (hf : Faithful (ContractApi.codex Seal c)) {l : List (Call Seal)} (h : History Start c l c') :
    ((l.filterMap appliedOperation).map (·.opid)).Nodup ∧
      (∀ v ∈ l.filterMap appliedOperation, ContractApi.isKnown Seal c v.opid = false) ∧
      ∀ o, ContractApi.isKnown Seal c' o = true ↔
        ContractApi.isKnown Seal c o = true ∨ o ∈ (l.filterMap appliedOperation).map (·.opid) :=
  steps_known hl (history_steps hl (fun _ _ _ _ _ _ hc hs _ => steps_fresh hl hs (hc ▸ hf)) rfl h)

end

open Demo in
example : Lawful Nat Ledger ∧ Faithful (ContractApi.codex Nat ledger) ∧
    ∃ l c', History (Seal := Nat) KnownStart ledger l c' ∧ (l.filterMap appliedOperation).map (·.opid) = [⟨101⟩, ⟨102⟩] :=
  ⟨ledger_lawful, codex_faithful, two_runs⟩

/-! ## C35 -/

section
variable {Seal : Type} [LinearOrder Seal] [RgbSeal Seal] [OpHash]
variable {C E : Type} [ContractApi Seal C]
variable {R : Type} [ReadOperation Seal R]

/-- In any history in which all streams start with known operations, at the moment an operation is
applied the contract already knows the creators of all its destructible inputs. -/
theorem C35_creators_first (hl : Lawful Seal C) {c c' : C} (hf : Faithful (ContractApi.codex Seal c))
    {pre post : List (Call Seal)} {v : VerifiedOperation} (h : History KnownStart c (pre ++ .applyOperation v :: post) c')
    {inp : Input} (hi : inp ∈ v.operation.destructibleIn) :
    ContractApi.isKnown Seal (pre.foldl perform c) inp.addr.opid = true :=
  (history_steps (Q := fun c v => CreatorsKnown Seal c v) hl
    (fun _ _ _ _ _ _ hc hs h0 => steps_creators hl hs (hc ▸ hf) h0) rfl h).at inp hi

/-- If the known ids are those of a set of operations closed under taking creators of destructible
inputs, then after any such history they are those of that set and the applied operations, which is
closed again. -/
theorem C35_ancestor_closed (hl : Lawful Seal C) {c c' : C} (hf : Faithful (ContractApi.codex Seal c))
    {l : List (Call Seal)} (h : History KnownStart c l c') {S : Operation → Prop}
    (h1 : ∀ o, ContractApi.isKnown Seal c o = true ↔ ∃ op, S op ∧ opid op = o)
    (h2 : ∀ op, S op → ∀ inp ∈ op.destructibleIn, ContractApi.isKnown Seal c inp.addr.opid = true) :
    (∀ o, ContractApi.isKnown Seal c' o = true ↔
      ∃ op, (S op ∨ ∃ v ∈ l.filterMap appliedOperation, v.operation = op) ∧ opid op = o) ∧
    ∀ op, (S op ∨ ∃ v ∈ l.filterMap appliedOperation, v.operation = op) →
      ∀ inp ∈ op.destructibleIn, ContractApi.isKnown Seal c' inp.addr.opid = true := by
  have hst := history_steps (Q := fun c v => CreatorsKnown Seal c v ∧ v.opid = opid v.operation) hl
    (fun R _ c₀ r blocks o hc hs h0 => ?_) rfl h
  · have hk := C34_applied_once hl hf h
    have hid : ∀ v ∈ l.filterMap appliedOperation, v.opid = opid v.operation ∧
        ∀ inp ∈ v.operation.destructibleIn, ContractApi.isKnown Seal c' inp.addr.opid = true := by
      intro v hv
      obtain ⟨x, hx, hxv⟩ := List.mem_filterMap.1 hv
      have hx' : x = .applyOperation v := by cases x <;> simp_all [appliedOperation]
      subst hx'
      obtain ⟨pre, post, rfl⟩ := List.append_of_mem hx
      refine ⟨hst.at.2, ?_⟩
      intro inp hi
      have := hst.at.1 inp hi
      rw [hst.fold, List.foldl_append]
      exact hl.foldl_mono this
    constructor
    · intro o
      rw [hk.2.2, h1, List.mem_map]
      constructor
      · rintro (⟨op, hs, e⟩ | ⟨v, hv, e⟩)
        · exact ⟨op, .inl hs, e⟩
        · exact ⟨v.operation, .inr ⟨v, hv, rfl⟩, by rw [← (hid v hv).1, e]⟩
      · rintro ⟨op, hs | ⟨v, hv, rfl⟩, e⟩
        · exact .inl ⟨op, hs, e⟩
        · exact .inr ⟨v, hv, by rw [(hid v hv).1, e]⟩
    · rintro op (hs | ⟨v, hv, rfl⟩) inp hi
      · exact (hk.2.2 _).2 (.inl (h2 op hs inp hi))
      · exact (hid v hv).2 inp hi
  · have hf' : Faithful (ContractApi.codex Seal c₀) := hc ▸ hf
    have s1 := steps_creators hl hs hf' h0
    refine steps_run hs ?_
    intro i b v hb h0' hk' hv
    refine ⟨?_, ?_⟩
    · exact creators_at hl hs hf' h0 hb hv
    · unfold codexAnswer at hv
      rw [hl.contractAt_codex] at hv
      obtain ⟨e1, e2⟩ := hf' _ _ _ _ _ hv
      rw [e1, e2]

end

open Demo in
example : Lawful Nat Ledger ∧ Faithful (ContractApi.codex Nat ledger) ∧
    (∃ l c', History (Seal := Nat) KnownStart ledger l c' ∧ (l.filterMap appliedOperation).map (·.opid) = [⟨101⟩, ⟨102⟩]) ∧
    (∀ o, ContractApi.isKnown Nat ledger o = true ↔
      ∃ op, op = { genesisOp with contractId := ⟨9⟩ } ∧ opid op = o) ∧
    ∀ op, op = { genesisOp with contractId := ⟨9⟩ } → ∀ inp ∈ op.destructibleIn,
      ContractApi.isKnown Nat ledger inp.addr.opid = true := by
  refine ⟨ledger_lawful, codex_faithful, two_runs, ?_, ?_⟩
  · intro o
    have : ContractApi.isKnown Nat ledger o = true ↔ o = ⟨100⟩ := by
      simp [ContractApi.isKnown, ledger]
    rw [this]
    constructor
    · rintro rfl
      exact ⟨_, rfl, rfl⟩
    · rintro ⟨_, rfl, rfl⟩
      rfl
  · rintro _ rfl inp hi
    exact absurd hi (by simp [genesisOp, op])

/-! ## C36 -/

section
variable {Seal : Type} [LinearOrder Seal] [RgbSeal Seal] [OpHash]
variable {C E : Type} [ContractApi Seal C]
variable {R : Type} [ReadOperation Seal R]

theorem steps_consumed (hl : Lawful Seal C) (hm : LawfulMemory Seal C) {c c' : C} {l : List (Call Seal)}
    (h : Steps (fun c v => Fresh (Seal := Seal) c v ∧ InMemory Seal c v) c l c')
    (h0 : ∀ a, (ContractApi.memory Seal c).destructible a ≠ none → ContractApi.isKnown Seal c a.opid = true) :
    ((l.filterMap appliedOperation).flatMap fun v => v.operation.destructibleIn.map (·.addr)).Nodup ∧
    ∀ a, ContractApi.isKnown Seal c a.opid = true → (ContractApi.memory Seal c).destructible a = none →
      a ∉ (l.filterMap appliedOperation).flatMap fun v => v.operation.destructibleIn.map (·.addr) := by
  induction h with
  | nil => simp
  | @other c c' x l hx _ ih =>
    rw [List.filterMap_cons_none hx]
    have hmem : ∀ a, (ContractApi.memory Seal (perform c x)).destructible a = (ContractApi.memory Seal c).destructible a := by
      intro a
      cases x <;> simp only [perform, appliedOperation, reduceCtorEq] at hx ⊢
      · exact hm.witness ..
      · exact hm.seals ..
    simp only [hl.known_other hx, hmem] at ih
    exact ih h0
  | @apply c c' v l hq _ ih =>
    rw [show (Call.applyOperation (Seal := Seal) v :: l).filterMap appliedOperation = v :: l.filterMap appliedOperation from rfl]
    obtain ⟨⟨hnew, hnd⟩, hin⟩ := hq
    have hkc : ∀ a ∈ v.operation.destructibleIn.map (·.addr), ContractApi.isKnown Seal c a.opid = true := by
      intro a ha
      obtain ⟨inp, hi, rfl⟩ := List.mem_map.1 ha
      exact h0 _ (hin inp hi)
    obtain ⟨i1, i2⟩ := ih (by
      intro a ha
      by_cases e : a.opid = v.opid
      · exact (hl.known_operation ..).2 (.inr e)
      · refine (hl.known_operation ..).2 (.inl (h0 a fun hn => ha (hm.created _ _ _ e hn))))
    have hgone : ∀ a, ContractApi.isKnown Seal c a.opid = true →
        (ContractApi.memory Seal (ContractApi.applyOperation Seal c v)).destructible a = none →
        a ∉ (l.filterMap appliedOperation).flatMap fun v => v.operation.destructibleIn.map (·.addr) :=
      fun a hk hn => i2 a ((hl.known_operation ..).2 (.inl hk)) hn
    have hne : ∀ a : CellAddr, ContractApi.isKnown Seal c a.opid = true → a.opid ≠ v.opid := by
      intro a hk e
      rw [e, hnew] at hk
      simp at hk
    rw [List.flatMap_cons]
    refine ⟨?_, ?_⟩
    · rw [List.nodup_append]
      refine ⟨hnd, i1, ?_⟩
      intro a ha b hb e
      subst e
      obtain ⟨inp, hi, rfl⟩ := List.mem_map.1 ha
      exact hgone _ (hkc _ ha) (hm.consumed _ _ _ hi) hb
    · intro a hk hn hmem
      rcases List.mem_append.1 hmem with ha | ha
      · obtain ⟨inp, hi, rfl⟩ := List.mem_map.1 ha
        exact hin inp hi hn
      · exact hgone a hk (hm.created _ _ _ (hne a hk) hn) ha

/-- Over any history no cell is consumed twice by applied operations, provided at the start every cell
in memory was created by a known operation. -/
theorem C36_no_double_spend (hl : Lawful Seal C) (hm : LawfulMemory Seal C) {Start : C → OperationSeals Seal → Prop}
    {c c' : C} (hf : Faithful (ContractApi.codex Seal c)) (hi : ChecksInputs (ContractApi.codex Seal c))
    (h0 : ∀ a, (ContractApi.memory Seal c).destructible a ≠ none → ContractApi.isKnown Seal c a.opid = true)
    {l : List (Call Seal)} (h : History Start c l c') :
    ((l.filterMap appliedOperation).flatMap fun v => v.operation.destructibleIn.map (·.addr)).Nodup :=
  (steps_consumed hl hm (history_steps (Q := fun c v => Fresh (Seal := Seal) c v ∧ InMemory Seal c v) hl
    (fun _ _ _ _ _ _ hc hs _ => steps_memory hl hm hs (hc ▸ hf) (hc ▸ hi)) rfl h) h0).1

/-- In particular two different applied operations of a history never share an input, whichever
evaluations they come from. -/
theorem C36_conflicts (hl : Lawful Seal C) (hm : LawfulMemory Seal C) {Start : C → OperationSeals Seal → Prop}
    {c c' : C} (hf : Faithful (ContractApi.codex Seal c)) (hi : ChecksInputs (ContractApi.codex Seal c))
    (h0 : ∀ a, (ContractApi.memory Seal c).destructible a ≠ none → ContractApi.isKnown Seal c a.opid = true)
    {pre mid post : List (Call Seal)} {v v' : VerifiedOperation}
    (h : History Start c (pre ++ .applyOperation v :: (mid ++ .applyOperation v' :: post)) c') :
    ∀ inp ∈ v.operation.destructibleIn, ∀ inp' ∈ v'.operation.destructibleIn, inp.addr ≠ inp'.addr := by
  have hn := C36_no_double_spend hl hm hf hi h0 h
  intro inp h1 inp' h2 e
  have hcons : ∀ (v : VerifiedOperation) (l : List (Call Seal)),
      (Call.applyOperation v :: l).filterMap appliedOperation = v :: l.filterMap appliedOperation := fun _ _ => rfl
  simp only [List.filterMap_append, hcons, List.flatMap_append, List.flatMap_cons] at hn
  have hn' := (List.nodup_append.1 hn).2.1
  refine (List.nodup_append.1 hn').2.2 inp.addr (List.mem_map.2 ⟨inp, h1, rfl⟩) inp'.addr ?_ e
  simp only [List.mem_append, List.mem_map]
  exact .inr (.inl ⟨inp', h2, rfl⟩)

end

open Demo in
example : Lawful Nat Ledger ∧ LawfulMemory Nat Ledger ∧ Faithful (ContractApi.codex Nat ledger) ∧
    ChecksInputs (ContractApi.codex Nat ledger) ∧
    (∀ a, (ContractApi.memory Nat ledger).destructible a ≠ none → ContractApi.isKnown Nat ledger a.opid = true) ∧
    ∃ l c', History (Seal := Nat) KnownStart ledger l c' ∧ (l.filterMap appliedOperation).map (·.opid) = [⟨101⟩, ⟨102⟩] := by
  refine ⟨ledger_lawful, ledger_lawfulMemory, codex_faithful, codex_checksInputs, ?_, two_runs⟩
  intro a ha
  have : ∃ e ∈ ledger.cells, e.1 = a := by
    by_contra hn
    exact ha (find_none.2 fun e he hea => hn ⟨e, he, hea⟩)
  obtain ⟨e, he, rfl⟩ := this
  have key : ∀ e ∈ ledger.cells, ContractApi.isKnown Nat ledger e.1.opid = true := by decide +kernel
  exact key e he

end Rgb
