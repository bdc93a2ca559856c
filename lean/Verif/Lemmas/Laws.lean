import Verif.Laws
import Verif.Lemmas.Outcome

set_option linter.unusedSectionVars false

/-! Consequences of the laws of contracts. -/

namespace Rgb
open Spec

variable {Seal : Type} [LinearOrder Seal] [RgbSeal Seal] [OpHash]
variable {C E : Type} [ContractApi Seal C]
variable {R : Type} [ReadOperation Seal R]

theorem Spec.Lawful.known_mono (hl : Lawful Seal C) {c : C} {x : Call Seal} {o : Opid}
    (h : ContractApi.isKnown Seal c o = true) : ContractApi.isKnown Seal (perform c x) o = true := by
  cases x <;> simp only [perform] <;> first | exact h | skip
  · rw [hl.known_witness]; exact h
  · exact (hl.known_operation ..).2 (.inl h)
  · rw [hl.known_seals]; exact h

theorem Spec.Lawful.known_other (hl : Lawful Seal C) {c : C} {x : Call Seal} {o : Opid} (hx : appliedOperation x = none) :
    ContractApi.isKnown Seal (perform c x) o = ContractApi.isKnown Seal c o := by
  cases x <;> simp only [perform, appliedOperation, reduceCtorEq] at hx ⊢
  · exact hl.known_witness ..
  · exact hl.known_seals ..

theorem Spec.Lawful.foldl_mono (hl : Lawful Seal C) {c : C} {l : List (Call Seal)} {o : Opid}
    (h : ContractApi.isKnown Seal c o = true) : ContractApi.isKnown Seal (l.foldl perform c) o = true := by
  induction l generalizing c with
  | nil => exact h
  | cons x l ih => exact ih (hl.known_mono h)

theorem Spec.Lawful.foldl_id (hl : Lawful Seal C) {c : C} {l : List (Call Seal)} :
    ContractApi.contractId Seal (l.foldl perform c) = ContractApi.contractId Seal c := by
  induction l generalizing c with
  | nil => rfl
  | cons x l ih => exact ih.trans (hl.contractId ..)

theorem Spec.Lawful.foldl_codex (hl : Lawful Seal C) {c : C} {l : List (Call Seal)} :
    ContractApi.codex Seal (l.foldl perform c) = ContractApi.codex Seal c := by
  induction l generalizing c with
  | nil => rfl
  | cons x l ih => exact ih.trans (hl.codex ..)

theorem contractAt_eq_foldl (cid : ContractId) (c : C) (blocks : List (OperationSeals Seal)) (n : Nat) :
    contractAt cid c blocks n = (callbacksUpTo cid c blocks n).foldl perform c := by
  induction n with
  | zero => rfl
  | succ n ih =>
    rw [contractAt, callbacksUpTo]
    cases blocks[n]? with
    | none => simp [ih]
    | some b => simp [List.foldl_append, ← ih]

theorem contractAt_add (cid : ContractId) (c : C) (blocks : List (OperationSeals Seal)) (n m : Nat) :
    ∃ l : List (Call Seal), contractAt cid c blocks (n + m) = l.foldl perform (contractAt cid c blocks n) := by
  induction m with
  | zero => exact ⟨[], rfl⟩
  | succ m ih =>
    obtain ⟨l, hl⟩ := ih
    rw [← Nat.add_assoc, contractAt]
    cases blocks[n + m]? with
    | none => exact ⟨l, hl⟩
    | some b => exact ⟨l ++ _, by rw [List.foldl_append, ← hl]⟩

theorem Spec.Lawful.contractAt_id (hl : Lawful Seal C) {c : C} {cid} {blocks : List (OperationSeals Seal)} {n : Nat} :
    ContractApi.contractId Seal (contractAt cid c blocks n) = ContractApi.contractId Seal c := by
  rw [contractAt_eq_foldl]; exact hl.foldl_id

theorem Spec.Lawful.contractAt_codex (hl : Lawful Seal C) {c : C} {cid} {blocks : List (OperationSeals Seal)} {n : Nat} :
    ContractApi.codex Seal (contractAt cid c blocks n) = ContractApi.codex Seal c := by
  rw [contractAt_eq_foldl]; exact hl.foldl_codex

theorem Spec.Lawful.contractAt_mono (hl : Lawful Seal C) {c : C} {cid} {blocks : List (OperationSeals Seal)} {n m : Nat}
    {o : Opid} (hnm : n ≤ m) (h : ContractApi.isKnown Seal (contractAt cid c blocks n) o = true) :
    ContractApi.isKnown Seal (contractAt cid c blocks m) o = true := by
  obtain ⟨k, rfl⟩ := Nat.exists_eq_add_of_le hnm
  obtain ⟨l, hl'⟩ := contractAt_add cid c blocks n k
  rw [hl']
  exact hl.foldl_mono h

/-- A sequence of calls, with the contract before and after, in which every applied operation
satisfies `Q` in the contract it is applied to. -/
inductive Steps (Q : C → VerifiedOperation → Prop) : C → List (Call Seal) → C → Prop where
  | nil (c : C) : Steps Q c [] c
  | other {c c' : C} {x : Call Seal} {l : List (Call Seal)} : appliedOperation x = none →
      Steps Q (perform c x) l c' → Steps Q c (x :: l) c'
  | apply {c c' : C} {v : VerifiedOperation} {l : List (Call Seal)} : Q c v →
      Steps Q (ContractApi.applyOperation Seal c v) l c' → Steps Q c (.applyOperation v :: l) c'

theorem Steps.append {Q : C → VerifiedOperation → Prop} {c c' c'' : C} {l l' : List (Call Seal)} (h : Steps Q c l c')
    (h' : Steps Q c' l' c'') : Steps Q c (l ++ l') c'' := by
  induction h with
  | nil => exact h'
  | other hx _ ih => exact .other hx (ih h')
  | apply hq _ ih => exact .apply hq (ih h')

theorem Steps.fold {Q : C → VerifiedOperation → Prop} {c c' : C} {l : List (Call Seal)} (h : Steps Q c l c') :
    c' = l.foldl perform c := by
  induction h with
  | nil => rfl
  | other hx _ ih => exact ih
  | apply hq _ ih => exact ih

theorem Steps.imp {Q Q' : C → VerifiedOperation → Prop} (hq : ∀ c v, Q c v → Q' c v) {c c' : C} {l : List (Call Seal)}
    (h : Steps Q c l c') : Steps Q' c l c' := by
  induction h with
  | nil => exact .nil _
  | other hx _ ih => exact .other hx ih
  | apply h _ ih => exact .apply (hq _ _ h) ih

theorem Steps.others {Q : C → VerifiedOperation → Prop} {c : C} {l : List (Call Seal)}
    (h : ∀ x ∈ l, appliedOperation x = none) : Steps Q c l (l.foldl perform c) := by
  induction l generalizing c with
  | nil => exact .nil _
  | cons x l ih => exact .other (h x (by simp)) (ih fun y hy => h y (by simp [hy]))

/-- The contract to which an occurrence of `apply_operation` is applied satisfies `Q`. -/
theorem Steps.at {Q : C → VerifiedOperation → Prop} {c c' : C} {pre post : List (Call Seal)} {v : VerifiedOperation}
    (h : Steps Q c (pre ++ .applyOperation v :: post) c') : Q (pre.foldl perform c) v := by
  induction pre generalizing c with
  | nil =>
    cases h with
    | other hx _ => simp [appliedOperation] at hx
    | apply hq _ => exact hq
  | cons x pre ih =>
    cases h with
    | other hx h => exact ih h
    | apply _ h => exact ih h

/-- What is known about an operation when it is applied. -/
structure Fresh (c : C) (v : VerifiedOperation) : Prop where
  new : ContractApi.isKnown Seal c v.opid = false
  nodup : (v.operation.destructibleIn.map (·.addr)).Nodup

theorem noncallback_applied {l : List (Call Seal)} (h : l.filter IsCallback = []) :
    ∀ x ∈ l, appliedOperation x = none := by
  intro x hx
  cases x <;> try rfl
  have : Call.applyOperation (Seal := Seal) _ ∈ l.filter IsCallback := List.mem_filter.2 ⟨hx, rfl⟩
  rw [h] at this
  simp at this

theorem steps_run {Q : C → VerifiedOperation → Prop} {c : C} {r : R} {blocks : List (OperationSeals Seal)}
    {o : Outcome Seal R C (ReadOperation.Error Seal R)} (h : RunShape c r blocks o)
    (hQ : ∀ i b v, blocks[i]? = some b → i ≠ 0 →
      ContractApi.isKnown Seal (contractAt (ContractApi.contractId Seal c) c blocks i) (opid b.operation) = false →
      codexAnswer Seal (contractAt (ContractApi.contractId Seal c) c blocks i) (ContractApi.contractId Seal c)
        b.operation = .ok v →
      Q ((witnessCallbacks (opid b.operation) b).foldl perform (contractAt (ContractApi.contractId Seal c) c blocks i)) v) :
    Steps Q c o.world.calls o.world.contract := by
  obtain ⟨segs, tail, h1, h2, h3, _⟩ := h.tail
  have key : ∀ n ≤ blocks.length, Steps Q c (segs.take n).flatten (contractAt (ContractApi.contractId Seal c) c blocks n) := by
    intro n hn
    induction n with
    | zero => exact .nil _
    | succ n ih =>
      have hlt : n < segs.length := by rw [h1.1]; omega
      have hb : blocks[n]? = some blocks[n] := by simp
      have hsg : segs[n]? = some segs[n] := by simp
      rw [← List.take_append_getElem hlt, List.flatten_append]
      refine (ih (by omega)).append ?_
      simp only [List.flatten_cons, List.flatten_nil, List.append_nil]
      obtain ⟨seals, _, e⟩ := h1.2 n _ _ hb hsg
      rw [e, contractAt, hb]
      simp only
      generalize hcc : contractAt (ContractApi.contractId Seal c) c blocks n = cc at *
      have s1 : Steps Q cc (.read :: (queries (ContractApi.contractId Seal c) cc n blocks[n] ++
          sealQueries (idAt (ContractApi.contractId Seal c) n blocks[n]) blocks[n] seals)) cc := by
        have := Steps.others (Q := Q) (c := cc) (l := .read :: (queries (ContractApi.contractId Seal c) cc n blocks[n] ++
          sealQueries (idAt (ContractApi.contractId Seal c) n blocks[n]) blocks[n] seals)) (noncallback_applied (by
            rw [List.filter_cons_of_neg (by simp [IsCallback]), List.filter_append, filter_queries, filter_sealQueries]
            rfl))
        have e2 : (Call.read :: (queries (ContractApi.contractId Seal c) cc n blocks[n] ++
          sealQueries (idAt (ContractApi.contractId Seal c) n blocks[n]) blocks[n] seals)).foldl perform cc = cc := by
          rw [← foldl_perform_filter, List.filter_cons_of_neg (by simp [IsCallback]), List.filter_append, filter_queries,
            filter_sealQueries]
          rfl
        rwa [e2] at this
      rw [show ∀ a b d : List (Call Seal), Call.read :: (a ++ b ++ d) = (Call.read :: (a ++ b)) ++ d by simp]
      refine s1.append ?_
      rw [callbacks, List.foldl_append, List.foldl_append]
      refine ((Steps.others ?_).append ?_).append (Steps.others ?_)
      · intro x hx
        unfold witnessCallbacks at hx
        split at hx <;> simp at hx
        subst hx; rfl
      · unfold operationCallbacks
        split
        · exact .nil _
        · rename_i hn0
          rw [not_or] at hn0
          have hid : idAt (ContractApi.contractId Seal c) n blocks[n] = opid blocks[n].operation := by
            rw [idAt, opAt, if_neg hn0.1]
          split
          · rename_i v hv
            rw [opAt, if_neg hn0.1] at hv
            have hk : ContractApi.isKnown Seal cc (opid blocks[n].operation) = false := by
              have := hn0.2
              rw [hid] at this
              simpa using this
            have := hQ n blocks[n] v hb hn0.1 (by rw [hcc]; exact hk) (by rw [hcc]; exact hv)
            rw [hcc] at this
            refine .apply ?_ (.nil _)
            rw [hid]; exact this
          · exact .nil _
      · intro x hx
        unfold sealCallbacks at hx
        split at hx <;> simp at hx
        subst hx; rfl
  have hall := key blocks.length (Nat.le_refl _)
  rw [h1.take_all] at hall
  rw [h2, h.contract]
  have s0 : Steps Q c [Call.contractId (Seal := Seal), .codex] c := .other rfl (.other rfl (.nil _))
  refine (s0.append hall).append ?_
  have := Steps.others (Q := Q) (c := contractAt (ContractApi.contractId Seal c) c blocks blocks.length)
    (l := .read :: tail) (noncallback_applied (by rw [List.filter_cons_of_neg (by simp [IsCallback]), h3]))
  have e2 : (Call.read :: tail).foldl perform (contractAt (ContractApi.contractId Seal c) c blocks blocks.length) =
      contractAt (ContractApi.contractId Seal c) c blocks blocks.length := by
    rw [← foldl_perform_filter, List.filter_cons_of_neg (by simp [IsCallback]), h3]
    rfl
  rwa [e2] at this

theorem Spec.Lawful.known_witnessCallbacks (hl : Lawful Seal C) {c : C} {i o : Opid} {b : OperationSeals Seal} :
    ContractApi.isKnown Seal ((witnessCallbacks i b).foldl perform c) o = ContractApi.isKnown Seal c o := by
  unfold witnessCallbacks
  split
  · exact hl.known_witness ..
  · rfl

theorem Spec.LawfulMemory.witnessCallbacks (hl : LawfulMemory Seal C) {c : C} {i : Opid} {a : CellAddr}
    {b : OperationSeals Seal} :
    (ContractApi.memory Seal ((witnessCallbacks i b).foldl perform c)).destructible a =
      (ContractApi.memory Seal c).destructible a := by
  unfold Spec.witnessCallbacks
  split
  · exact hl.witness ..
  · rfl

/-- The operation applied for block `i` is new and has distinct inputs. -/
theorem steps_fresh (hl : Lawful Seal C) {c : C} {r : R} {blocks : List (OperationSeals Seal)}
    {o : Outcome Seal R C (ReadOperation.Error Seal R)} (h : RunShape c r blocks o)
    (hf : Faithful (ContractApi.codex Seal c)) : Steps (Fresh (Seal := Seal)) c o.world.calls o.world.contract := by
  refine steps_run h ?_
  intro i b v hb _ hk hv
  unfold codexAnswer at hv
  rw [hl.contractAt_codex] at hv
  obtain ⟨e1, e2⟩ := hf _ _ _ _ _ hv
  exact ⟨by rw [e1, hl.known_witnessCallbacks]; exact hk, by rw [e2]; exact (h.valid i b hb).distinct⟩

/-- The inputs of the operation are in memory. -/
def InMemory (Seal : Type) [LinearOrder Seal] [RgbSeal Seal] {C : Type} [ContractApi Seal C] (c : C)
    (v : VerifiedOperation) : Prop :=
  ∀ inp ∈ v.operation.destructibleIn, (ContractApi.memory Seal c).destructible inp.addr ≠ none

theorem steps_memory (hl : Lawful Seal C) (hm : LawfulMemory Seal C) {c : C} {r : R} {blocks : List (OperationSeals Seal)}
    {o : Outcome Seal R C (ReadOperation.Error Seal R)} (h : RunShape c r blocks o)
    (hf : Faithful (ContractApi.codex Seal c)) (hi : ChecksInputs (ContractApi.codex Seal c)) :
    Steps (fun c v => Fresh (Seal := Seal) c v ∧ InMemory Seal c v) c o.world.calls o.world.contract := by
  refine steps_run h ?_
  intro i b v hb _ hk hv
  unfold codexAnswer at hv
  rw [hl.contractAt_codex] at hv
  obtain ⟨e1, e2⟩ := hf _ _ _ _ _ hv
  refine ⟨⟨by rw [e1, hl.known_witnessCallbacks]; exact hk, by rw [e2]; exact (h.valid i b hb).distinct⟩, ?_⟩
  intro inp hinp
  rw [e2] at hinp
  rw [hm.witnessCallbacks]
  exact hi _ _ _ _ _ hv inp hinp

/-- The creators of the inputs of the operation are known. -/
def CreatorsKnown (Seal : Type) [LinearOrder Seal] [RgbSeal Seal] {C : Type} [ContractApi Seal C] (c : C)
    (v : VerifiedOperation) : Prop :=
  ∀ inp ∈ v.operation.destructibleIn, ContractApi.isKnown Seal c inp.addr.opid = true

/-- Every block is known once it is processed. -/
theorem known_after (hl : Lawful Seal C) {c : C} {blocks : List (OperationSeals Seal)} (hv : ValidConsignment c blocks)
    (hf : Faithful (ContractApi.codex Seal c))
    (h0 : ∀ b, blocks[0]? = some b → KnownStart c b) {i : Nat} {b : OperationSeals Seal} (hb : blocks[i]? = some b) :
    ContractApi.isKnown Seal (contractAt (ContractApi.contractId Seal c) c blocks (i + 1))
      (idAt (ContractApi.contractId Seal c) i b) = true := by
  cases hk : ContractApi.isKnown Seal (contractAt (ContractApi.contractId Seal c) c blocks i)
      (idAt (ContractApi.contractId Seal c) i b) with
  | true => exact hl.contractAt_mono (Nat.le_succ i) hk
  | false =>
    by_cases hi : i = 0
    · subst hi
      have := h0 b hb
      simp only [contractAt] at hk
      unfold KnownStart at this
      rw [idAt, opAt, if_pos rfl] at hk
      rw [hk] at this
      simp at this
    · obtain ⟨v, hans⟩ := (hv i b hb).script hk
      have hcb : operationCallbacks (ContractApi.contractId Seal c)
          (contractAt (ContractApi.contractId Seal c) c blocks i) i b = [.applyOperation v] := by
        unfold operationCallbacks
        rw [if_neg (by simp [hi, hk]), hans]
      have hans' := hans
      unfold codexAnswer at hans'
      rw [hl.contractAt_codex] at hans'
      obtain ⟨e1, _⟩ := hf _ _ _ _ _ hans'
      simp only [contractAt, hb, callbacks, hcb, List.foldl_append]
      refine hl.foldl_mono ?_
      exact (hl.known_operation ..).2 (.inr e1.symm)

/-- The creators of the inputs of the operation applied for block `i` are known. -/
theorem creators_at (hl : Lawful Seal C) {c : C} {r : R} {blocks : List (OperationSeals Seal)}
    {o : Outcome Seal R C (ReadOperation.Error Seal R)} (h : RunShape c r blocks o)
    (hf : Faithful (ContractApi.codex Seal c)) (h0 : ∀ b : OperationSeals Seal, StartsWith r [b] → KnownStart c b)
    {i : Nat} {b : OperationSeals Seal} {v : VerifiedOperation} (hb : blocks[i]? = some b)
    (hv : codexAnswer Seal (contractAt (ContractApi.contractId Seal c) c blocks i) (ContractApi.contractId Seal c)
      b.operation = .ok v) :
    CreatorsKnown Seal ((witnessCallbacks (opid b.operation) b).foldl perform
      (contractAt (ContractApi.contractId Seal c) c blocks i)) v := by
  intro inp hinp
  unfold codexAnswer at hv
  rw [hl.contractAt_codex] at hv
  obtain ⟨_, e2⟩ := hf _ _ _ _ _ hv
  rw [e2] at hinp
  rw [hl.known_witnessCallbacks]
  obtain ⟨seals, hfs, hcl⟩ := (h.valid i b hb).closed
  clear hcl
  have : ∃ s, OpenAt (ContractApi.contractId Seal c) blocks i inp.addr s := by
    generalize b.operation.destructibleIn = l at hfs hinp
    induction hfs with
    | nil => simp at hinp
    | cons ho _ ih =>
      rcases List.mem_cons.1 hinp with rfl | hinp
      · exact ⟨_, ho⟩
      · exact ih hinp
  obtain ⟨s, j, bj, hj, hbj, ⟨ha, _⟩, _⟩ := this
  rw [ha]
  refine hl.contractAt_mono hj (known_after hl h.valid hf ?_ hbj)
  intro b₀ hb₀
  refine h0 b₀ ?_
  obtain ⟨r₁, hr⟩ := h.starts
  cases blocks with
  | nil => simp at hb₀
  | cons x xs =>
    simp only [List.getElem?_cons_zero, Option.some.injEq] at hb₀
    subst hb₀
    cases hr with
    | cons h1 _ => exact ⟨_, .cons h1 (.nil _)⟩

theorem steps_creators (hl : Lawful Seal C) {c : C} {r : R} {blocks : List (OperationSeals Seal)}
    {o : Outcome Seal R C (ReadOperation.Error Seal R)} (h : RunShape c r blocks o)
    (hf : Faithful (ContractApi.codex Seal c)) (h0 : ∀ b : OperationSeals Seal, StartsWith r [b] → KnownStart c b) :
    Steps (fun c v => CreatorsKnown Seal c v) c o.world.calls o.world.contract :=
  steps_run h fun _ _ _ hb _ _ hv => creators_at hl h hf h0 hb hv

end Rgb
