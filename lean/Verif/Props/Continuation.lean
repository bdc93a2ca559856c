import Verif.Props.History
import Verif.Props.Streams

set_option linter.unusedSectionVars false

/-! # C59, C61, C62, C63: complete specification, checkpoints, incremental delivery -/

namespace Rgb
open Spec

/-! ## C59 -/

section
variable {Seal : Type} [LinearOrder Seal] [RgbSeal Seal] [OpHash]
variable {C E : Type} [ContractApi Seal C]
variable {R : Type} [ReadOperation Seal R]

theorem opAt_pos {cid : ContractId} {i : Nat} (hi : i ≠ 0) (b : OperationSeals Seal) : opAt cid i b = b.operation :=
  if_neg hi

theorem idAt_pos {cid : ContractId} {i : Nat} (hi : i ≠ 0) (b : OperationSeals Seal) : idAt cid i b = opid b.operation := by
  rw [idAt, opAt_pos hi]

/-- Complete specification of `evaluate`: it returns with outcome `o` exactly if there is a valid
consignment `blocks` such that the contract of `o` is `c` after the callbacks due for it, the calls of
`o` are the two questions at the start, those due for each block and one more poll, and after `blocks`
the reader ended, or failed and `o` reports that, or delivered a block that has to be rejected with the
error of `o` after the remaining calls. -/
theorem C59_specification {c : C} {r : R} {o : Outcome Seal R C (ReadOperation.Error Seal R)} :
    evaluate c r = some o ↔ ∃ (blocks : List (OperationSeals Seal)) (segs : List (List (Call Seal))) (tail : List (Call Seal)),
      (∀ i b, blocks[i]? = some b → ValidBlock c blocks i b) ∧
      o.world.contract = contractAt (ContractApi.contractId Seal c) c blocks blocks.length ∧
      segs.length = blocks.length ∧
      (∀ i b l, blocks[i]? = some b → segs[i]? = some l → BlockTrace c blocks i b l) ∧
      o.world.calls = [.contractId, .codex] ++ segs.flatten ++ .read :: tail ∧
      ((o.result = .ok () ∧ tail = [] ∧ ∃ r₁, Reads r blocks r₁ ∧
          ReadOperation.readOperation (Seal := Seal) r₁ = (.ok none, o.reader)) ∨
       (∃ e, o.result = .error (.stream e) ∧ tail = [] ∧ ∃ r₁, Reads r blocks r₁ ∧
          ReadOperation.readOperation (Seal := Seal) r₁ = (.error e, o.reader)) ∨
       (∃ b e, o.result = .error e ∧ Reads r (blocks ++ [b]) o.reader ∧ Rejection c blocks b e tail)) := by
  constructor
  · intro h
    obtain ⟨blocks, hs⟩ := run_shape h
    obtain ⟨segs, tail, h1, h2, h3⟩ := hs.stop
    exact ⟨blocks, segs, tail, hs.valid, hs.contract, h1.1, h1.2, h2, h3⟩
  · rintro ⟨blocks, segs, tail, h1, h2, h3, h4, h5, h6⟩
    exact RunShape.run (blocks := blocks) ⟨h1, h2, segs, tail, ⟨h3, h4⟩, h5, h6⟩

/-- And `evaluate` does not return exactly if the reader delivers blocks forever, all valid. -/
theorem C59_divergence {c : C} {r : R} :
    evaluate (Seal := Seal) c r = none ↔
      ∀ n, ∃ blocks : List (OperationSeals Seal), blocks.length = n ∧ StartsWith r blocks ∧
        ∀ i b, blocks[i]? = some b → ValidBlock c blocks i b := by
  constructor
  · intro h n
    induction n with
    | zero => exact ⟨[], rfl, ⟨r, .nil r⟩, by simp⟩
    | succ n ih =>
      obtain ⟨blocks, h1, ⟨r₁, h2⟩, h3⟩ := ih
      rcases hr : ReadOperation.readOperation (Seal := Seal) r₁ with ⟨e | _ | b, r₂⟩
      · obtain ⟨o, k, _⟩ := evaluate_of_fails (c := c) ⟨r₁, r₂, h2, hr⟩ h3
        rw [h] at k; simp at k
      · obtain ⟨o, k, _⟩ := evaluate_of_delivers (c := c) ⟨r₁, r₂, h2, hr⟩ h3
        rw [h] at k; simp at k
      · have hst : StartsWith r (blocks ++ [b]) := ⟨r₂, h2.append (.cons hr (.nil _))⟩
        rcases valid_or_rejected (E := ReadOperation.Error Seal R) h3 b with hv | ⟨e, l, hj⟩
        · exact ⟨blocks ++ [b], by simp [h1], hst, validConsignment_snoc.2 ⟨h3, hv⟩⟩
        · obtain ⟨o, k, _⟩ := evaluate_of_rejection hst h3 hj
          rw [h] at k; simp at k
  · intro h
    cases ho : evaluate (Seal := Seal) c r with
    | none => rfl
    | some o =>
      exfalso
      obtain ⟨blocks, hs⟩ := run_shape ho
      obtain ⟨bs, h1, h2, h3⟩ := h (blocks.length + 1)
      obtain ⟨rb, hb⟩ := h2
      obtain ⟨segs, tail, _, _, h6⟩ := hs.stop
      rcases h6 with ⟨_, _, r₁, h7, h8⟩ | ⟨e, _, _, r₁, h7, h8⟩ | ⟨b, e, _, h7, h8⟩
      · rcases h7.det hb with ⟨zs, rfl, hz⟩ | ⟨zs, e, hz⟩
        · cases hz with
          | nil => simp at h1
          | cons hz _ => rw [h8] at hz; simp at hz
        · have := congrArg List.length e; simp at this; omega
      · rcases h7.det hb with ⟨zs, rfl, hz⟩ | ⟨zs, e, hz⟩
        · cases hz with
          | nil => simp at h1
          | cons hz _ => rw [h8] at hz; simp at hz
        · have := congrArg List.length e; simp at this; omega
      · obtain ⟨rfl, _⟩ := reads_same_length h7 hb (by simp [h1])
        exact not_valid_of_rejected hs.valid h8 (validConsignment_snoc.1 h3).2

end

open Demo in
example : ∃ o, evaluate (Seal := Nat) ledger (Tape.mk story none) = some o ∧ o.result = .ok () :=
  evaluate_of_accepts story_accepted

namespace Demo
/-- An operation without inputs and outputs. -/
def idle : Block := ⟨op 102 [] [], .empty, none⟩

theorem loop_reads (b : Block) (n : Nat) : Reads (Loop.mk false b) (List.replicate n b) (Loop.mk false b) := by
  induction n with
  | zero => exact .nil _
  | succ n ih => exact .cons rfl ih

theorem idle_valid (n : Nat) : ValidConsignment ledger (genesis :: List.replicate n idle) := by
  induction n with
  | zero => exact valid_of_accepts (by decide +kernel)
  | succ n ih =>
    rw [List.replicate_succ', ← List.cons_append]
    refine validConsignment_snoc.2 ⟨ih, fun h => by simp at h, ?_, by simp [idle, op], ⟨[], .nil, by simp [idle], by simp⟩, ?_⟩
    · intro p d h; simp [idle, OMap.empty] at h
    · intro _
      refine ⟨⟨opid idle.operation, idle.operation⟩, ?_⟩
      unfold codexAnswer
      rw [ledger_lawful.contractAt_codex, opAt_pos (by simp)]
      rfl
end Demo

open Demo in
/-- Evaluating an operation without inputs and outputs over and over never ends. -/
example : evaluate (Seal := Nat) ledger (Loop.mk true idle) = none := by
  rw [C59_divergence]
  rintro (_ | n)
  · exact ⟨[], rfl, ⟨_, .nil _⟩, by simp⟩
  · exact ⟨genesis :: List.replicate n idle, by simp, ⟨_, .cons rfl (loop_reads idle n)⟩, idle_valid n⟩

/-! ## C61 -/

section
variable {Seal : Type} [LinearOrder Seal] [RgbSeal Seal] [OpHash]
variable {C E : Type} [ContractApi Seal C]
variable {R : Type} [ReadOperation Seal R]

theorem announces_pos {cid : ContractId} {i j : Nat} (hi : i ≠ 0) (hj : j ≠ 0) {b : OperationSeals Seal} {a : CellAddr}
    {s : Seal} : Announces cid i b a s ↔ Announces cid j b a s := by
  unfold Announces
  rw [idAt_pos hi, idAt_pos hj]

theorem callbacks_pos {cid : ContractId} {c : C} {i j : Nat} (hi : i ≠ 0) (hj : j ≠ 0) (b : OperationSeals Seal) :
    callbacks cid c i b = callbacks cid c j b := by
  unfold callbacks operationCallbacks
  rw [idAt_pos hi, idAt_pos hj, opAt_pos hi, opAt_pos hj]
  simp only [hi, hj]

theorem queries_pos {cid : ContractId} {c : C} {i j : Nat} (hi : i ≠ 0) (hj : j ≠ 0) (b : OperationSeals Seal) :
    queries cid c i b = queries cid c j b := by
  unfold queries
  rw [idAt_pos hi, idAt_pos hj, opAt_pos hi, opAt_pos hj]

theorem segments_snoc {c : C} {xs : List (OperationSeals Seal)} {b : OperationSeals Seal} {segs : List (List (Call Seal))}
    {l : List (Call Seal)} :
    Segments c (xs ++ [b]) (segs ++ [l]) ↔ Segments c xs segs ∧ BlockTrace c xs xs.length b l := by
  have hcongr : ∀ {k b' l'}, k ≤ xs.length → BlockTrace c xs k b' l' → BlockTrace c (xs ++ [b]) k b' l' := by
    rintro k b' l' hk ⟨seals, h1, h2⟩
    have hc := getElem?_append_lt (ys := [b]) hk
    exact ⟨seals, h1.imp fun _ _ h => (openAt_congr hc).1 h, by rw [← contractAt_congr hc]; exact h2⟩
  have hcongr' : ∀ {k b' l'}, k ≤ xs.length → BlockTrace c (xs ++ [b]) k b' l' → BlockTrace c xs k b' l' := by
    rintro k b' l' hk ⟨seals, h1, h2⟩
    have hc := getElem?_append_lt (ys := [b]) hk
    exact ⟨seals, h1.imp fun _ _ h => (openAt_congr hc).2 h, by rw [contractAt_congr hc]; exact h2⟩
  constructor
  · rintro ⟨h1, h2⟩
    have hlen : segs.length = xs.length := by simpa using h1
    refine ⟨⟨hlen, ?_⟩, ?_⟩
    · intro k b' l' hb hl
      have hk := lt_length_of_getElem? hb
      exact hcongr' (Nat.le_of_lt hk) (h2 k b' l' (by rw [List.getElem?_append_left hk]; exact hb)
        (by rw [List.getElem?_append_left (by omega)]; exact hl))
    · exact hcongr' (Nat.le_refl _) (h2 xs.length b l (by simp) (by rw [← hlen]; simp))
  · rintro ⟨⟨hlen, h1⟩, h2⟩
    refine ⟨by simpa using hlen, ?_⟩
    intro k b' l' hb hl
    by_cases hk : k < xs.length
    · rw [List.getElem?_append_left hk] at hb
      rw [List.getElem?_append_left (by omega)] at hl
      exact hcongr (Nat.le_of_lt hk) (h1 k b' l' hb hl)
    · have := lt_length_of_getElem? hb
      simp only [List.length_append, List.length_cons, List.length_nil, Nat.zero_add] at this
      obtain rfl : k = xs.length := by omega
      simp only [List.getElem?_concat_length, Option.some.injEq] at hb
      rw [← hlen] at hl
      simp only [List.getElem?_concat_length, Option.some.injEq] at hl
      subst hb hl
      exact hcongr (Nat.le_refl _) h2

section
variable {C₁ C₂ : Type} [ContractApi Seal C₁] [ContractApi Seal C₂] {S : C₁ → C₂ → Prop}

theorem samePoint_snoc (hS : Simulation (Seal := Seal) S) {c₁ : C₁} {c₂ : C₂} {xs₁ xs₂ : List (OperationSeals Seal)}
    (h : SamePoint S c₁ xs₁ c₂ xs₂) (b : OperationSeals Seal) : SamePoint S c₁ (xs₁ ++ [b]) c₂ (xs₂ ++ [b]) := by
  have n₁ : xs₁.length ≠ 0 := by simpa using h.begun₁
  have n₂ : xs₂.length ≠ 0 := by simpa using h.begun₂
  refine ⟨by simp, by simp, h.contractId, ?_, ?_⟩
  · intro a s
    simp only [List.length_append, List.length_cons, List.length_nil, Nat.zero_add]
    rw [openAt_succ (b := b) (by simp), openAt_succ (b := b) (by simp)]
    rw [openAt_congr (getElem?_append_lt (Nat.le_refl _) · · |>.symm), openAt_congr (getElem?_append_lt (Nat.le_refl _) · · |>.symm),
      h.seals, h.contractId]
    simp only [announces_pos n₁ n₂]
  · simp only [List.length_append, List.length_cons, List.length_nil, Nat.zero_add, contractAt, List.getElem?_concat_length,
      contractAt_append]
    rw [sim_callbacks hS h.contract, callbacks_pos n₁ n₂, h.contractId]
    have := h.contract
    rw [h.contractId] at this
    exact sim_perform hS this _

theorem samePoint_append (hS : Simulation (Seal := Seal) S) {c₁ : C₁} {c₂ : C₂} {xs₁ xs₂ : List (OperationSeals Seal)}
    (h : SamePoint S c₁ xs₁ c₂ xs₂) (ys : List (OperationSeals Seal)) : SamePoint S c₁ (xs₁ ++ ys) c₂ (xs₂ ++ ys) := by
  induction ys generalizing xs₁ xs₂ with
  | nil => simpa using h
  | cons b ys ih => simpa using ih (samePoint_snoc hS h b)

theorem samePoint_valid (hS : Simulation (Seal := Seal) S) {c₁ : C₁} {c₂ : C₂} {xs₁ xs₂ : List (OperationSeals Seal)}
    (h : SamePoint S c₁ xs₁ c₂ xs₂) {b : OperationSeals Seal} (hv : ValidBlock c₁ xs₁ xs₁.length b) :
    ValidBlock c₂ xs₂ xs₂.length b := by
  have n₁ : xs₁.length ≠ 0 := by simpa using h.begun₁
  have n₂ : xs₂.length ≠ 0 := by simpa using h.begun₂
  refine ⟨fun e => absurd e n₂, hv.committed, hv.distinct, ?_, ?_⟩
  · obtain ⟨seals, h1, h2, h3⟩ := hv.closed
    refine ⟨seals, h1.imp fun _ _ => (h.seals _ _).1, ?_, h3⟩
    rw [idAt_pos n₂, ← idAt_pos n₁ (cid := ContractApi.contractId Seal c₁)]
    exact h2
  · have := hv.script
    rw [idAt_pos n₁, opAt_pos n₁, hS.isKnown _ _ h.contract, hS.verify _ _ h.contract, h.contractId] at this
    rw [idAt_pos n₂, opAt_pos n₂]
    exact this

theorem samePoint_trace (hS : Simulation (Seal := Seal) S) {c₁ : C₁} {c₂ : C₂} {xs₁ xs₂ : List (OperationSeals Seal)}
    (h : SamePoint S c₁ xs₁ c₂ xs₂) {b : OperationSeals Seal} {l} (hv : BlockTrace c₁ xs₁ xs₁.length b l) :
    BlockTrace c₂ xs₂ xs₂.length b l := by
  have n₁ : xs₁.length ≠ 0 := by simpa using h.begun₁
  have n₂ : xs₂.length ≠ 0 := by simpa using h.begun₂
  obtain ⟨seals, h1, rfl⟩ := hv
  refine ⟨seals, h1.imp fun _ _ => (h.seals _ _).1, ?_⟩
  rw [sim_callbacks hS h.contract, sim_queries hS h.contract, callbacks_pos n₁ n₂, queries_pos n₁ n₂, idAt_pos n₁, idAt_pos n₂,
    h.contractId]

theorem samePoint_rejection (hS : Simulation (Seal := Seal) S) {c₁ : C₁} {c₂ : C₂} {xs₁ xs₂ : List (OperationSeals Seal)}
    (h : SamePoint S c₁ xs₁ c₂ xs₂) {b : OperationSeals Seal} {e : VerificationError Seal E} {l}
    (hr : Rejection c₁ xs₁ b e l) : Rejection c₂ xs₂ b e l := by
  have n₁ : xs₁.length ≠ 0 := by simpa using h.begun₁
  have n₂ : xs₂.length ≠ 0 := by simpa using h.begun₂
  have hcx : CommitsToCodex c₂ xs₂ b := fun e => absurd e h.begun₂
  have hin : ∀ {s}, InputsSealed c₁ xs₁ b s → InputsSealed c₂ xs₂ b s :=
    fun ⟨h1, h2⟩ => ⟨h1, h2.imp fun _ _ => (h.seals _ _).1⟩
  have hnx : nextId c₁ xs₁ b = nextId c₂ xs₂ b := by unfold nextId; rw [idAt_pos n₁, idAt_pos n₂]
  have hsp : ScriptPasses c₁ xs₁ b → ScriptPasses c₂ xs₂ b := by
    intro h1
    unfold ScriptPasses at h1 ⊢
    simp only at h1 ⊢
    rw [opAt_pos n₁, hnx, hS.isKnown _ _ h.contract, hS.verify _ _ h.contract, h.contractId] at h1
    rw [opAt_pos n₂]
    exact h1
  have hqs : queries (ContractApi.contractId Seal c₁) (contractAt (ContractApi.contractId Seal c₁) c₁ xs₁ xs₁.length)
      xs₁.length b = queries (ContractApi.contractId Seal c₂)
        (contractAt (ContractApi.contractId Seal c₂) c₂ xs₂ xs₂.length) xs₂.length b := by
    rw [sim_queries hS h.contract, queries_pos n₁ n₂, h.contractId]
  cases hr with
  | codex h1 h2 => exact absurd h1 h.begun₁
  | mismatch h1 h2 h3 h4 h5 => rw [hnx]; exact .mismatch hcx h2 h3 h4 h5
  | unknown h1 h2 h3 h4 h5 h6 =>
    refine .unknown hcx h2 h3 h4 ?_ ?_
    · intro i hi
      obtain ⟨s, hs⟩ := h5 i hi
      exact ⟨s, (h.seals _ _).1 hs⟩
    · exact h6.imp (fun k s hs => k s ((h.seals _ _).2 hs)) id
  | script h1 h2 h3 h4 h5 =>
    rw [hqs]
    refine .script hcx h2 (hin h3) ?_ ?_
    · rw [← hS.isKnown _ _ h.contract, ← hnx]; exact h4
    · rw [opAt_pos n₂, ← hS.verify _ _ h.contract, ← h.contractId]; rw [opAt_pos n₁] at h5; exact h5
  | notClosed h1 h2 h3 h4 h5 h6 =>
    rw [hqs, hnx]
    exact .notClosed hcx h2 (hin h3) (hsp h4) h5 (by rw [← hnx]; exact h6)
  | noWitness h1 h2 h3 h4 h5 h6 =>
    rw [hqs, hnx]
    exact .noWitness hcx h2 (hin h3) (hsp h4) h5 h6

/-- Only the callbacks apply operations. -/
theorem applied_filter (l : List (Call Seal)) :
    l.filterMap appliedOperation = (l.filter IsCallback).filterMap appliedOperation := by
  rw [List.filterMap_filter]
  congr 1
  funext x
  cases x <;> rfl

theorem Spec.ReportBlind.simulation {S : C → C → Prop} (hS : ReportBlind (Seal := Seal) S) : Simulation (Seal := Seal) S where
  contractId := hS.contractId
  codexId := hS.codexId
  isKnown := hS.isKnown
  verify := hS.verify
  operation := hS.operation
  witness _ _ h _ _ := hS.witnessLeft _ _ (hS.witnessRight _ _ h _ _) _ _
  seals _ _ h _ _ := hS.sealsLeft _ _ (hS.sealsRight _ _ h _ _) _ _

theorem Spec.ReportBlind.foldl {S : C → C → Prop} (hS : ReportBlind (Seal := Seal) S) {c d : C} {l : List (Call Seal)}
    (hl : ∀ x ∈ l, appliedOperation x = none) (h : S c d) : S (l.foldl perform c) d := by
  induction l generalizing c with
  | nil => exact h
  | cons x l ih =>
    refine ih (fun y hy => hl y (by simp [hy])) ?_
    have := hl x (by simp)
    cases x <;> first | exact h | (simp [appliedOperation] at this; done) | skip
    · exact hS.witnessLeft _ _ h _ _
    · exact hS.sealsLeft _ _ h _ _

/-- Validity and trace of a continuation carry over. -/
theorem samePoint_continue (hS : Simulation (Seal := Seal) S) {c₁ : C₁} {c₂ : C₂} {xs₁ xs₂ : List (OperationSeals Seal)}
    (h : SamePoint S c₁ xs₁ c₂ xs₂) {segs₂ : List (List (Call Seal))} (v₂ : ValidConsignment c₂ xs₂) (t₂ : Segments c₂ xs₂ segs₂)
    {ys : List (OperationSeals Seal)} {segs : List (List (Call Seal))} (v₁ : ValidConsignment c₁ (xs₁ ++ ys))
    (t₁ : Segments c₁ (xs₁ ++ ys) segs) :
    ∃ segs₁ more, segs = segs₁ ++ more ∧ Segments c₁ xs₁ segs₁ ∧ ValidConsignment c₂ (xs₂ ++ ys) ∧
      Segments c₂ (xs₂ ++ ys) (segs₂ ++ more) := by
  induction ys using List.reverseRecOn generalizing segs with
  | nil => exact ⟨segs, [], by simp, by simpa using t₁, by simpa using v₂, by simpa using t₂⟩
  | append_singleton ys b ih =>
    rw [← List.append_assoc] at v₁ t₁ ⊢
    obtain ⟨init, l, rfl⟩ : ∃ init l, segs = init ++ [l] := by
      have := t₁.1
      rcases List.eq_nil_or_concat segs with rfl | ⟨init, l, rfl⟩
      · simp at this
      · exact ⟨init, l, by simp⟩
    rw [segments_snoc] at t₁
    rw [validConsignment_snoc] at v₁
    obtain ⟨segs₁, more, rfl, k1, k2, k3⟩ := ih v₁.1 t₁.1
    have hp := samePoint_append hS h ys
    refine ⟨segs₁, more ++ [l], by simp, k1, validConsignment_snoc.2 ⟨k2, samePoint_valid hS hp v₁.2⟩, ?_⟩
    rw [← List.append_assoc, segments_snoc]
    exact ⟨k3, samePoint_trace hS hp t₁.2⟩

/-- A run on a stream with a valid prefix gets past it. -/
theorem RunShape.past {c : C} {r r₁ : R} {xs blocks : List (OperationSeals Seal)} {o} (hs : RunShape c r blocks o)
    (hr : Reads r xs r₁) (hv : ValidConsignment c xs) : ∃ ys, blocks = xs ++ ys := by
  obtain ⟨segs, tail, _, _, h6⟩ := hs.stop
  rcases h6 with ⟨_, _, r₂, h7, h8⟩ | ⟨e, _, _, r₂, h7, h8⟩ | ⟨b, e, _, h7, h8⟩
  · rcases h7.det hr with ⟨zs, rfl, hz⟩ | ⟨zs, e, hz⟩
    · cases hz with
      | nil => exact ⟨[], by simp⟩
      | cons hz _ => rw [h8] at hz; simp at hz
    · exact ⟨zs, e⟩
  · rcases h7.det hr with ⟨zs, rfl, hz⟩ | ⟨zs, e, hz⟩
    · cases hz with
      | nil => exact ⟨[], by simp⟩
      | cons hz _ => rw [h8] at hz; simp at hz
    · exact ⟨zs, e⟩
  · rcases h7.det hr with ⟨zs, rfl, hz⟩ | ⟨zs, e', hz⟩
    · exact absurd (validConsignment_snoc.1 hv.prefix).2 (not_valid_of_rejected hs.valid h8)
    · rcases List.eq_nil_or_concat zs with rfl | ⟨init, l, rfl⟩
      · simp only [List.append_nil] at e'
        subst e'
        exact absurd (validConsignment_snoc.1 hv).2 (not_valid_of_rejected hs.valid h8)
      · refine ⟨init, ?_⟩
        have : blocks ++ [b] = (xs ++ init) ++ [l] := by simpa using e'
        exact (List.append_inj' this rfl).1

theorem samePoint_run (hS : Simulation (Seal := Seal) S) {c₁ : C₁} {c₂ : C₂} {xs₁ xs₂ : List (OperationSeals Seal)}
    (h : SamePoint S c₁ xs₁ c₂ xs₂) (v₁ : ValidConsignment c₁ xs₁) (v₂ : ValidConsignment c₂ xs₂)
    {r₁ r₂ r : R} (hr₁ : Reads r₁ xs₁ r) (hr₂ : Reads r₂ xs₂ r) {o₁} (h₁ : evaluate (Seal := Seal) c₁ r₁ = some o₁) :
    ∃ o₂, evaluate (Seal := Seal) c₂ r₂ = some o₂ ∧ o₁.result = o₂.result ∧ o₁.reader = o₂.reader ∧
      S o₁.world.contract o₂.world.contract ∧
      ∃ before₁ before₂ after, o₁.world.calls = before₁ ++ after ∧ o₂.world.calls = before₂ ++ after ∧
        polls before₁ = xs₁.length ∧ polls before₂ = xs₂.length ∧
        before₁.filter IsCallback = callbacksUpTo (ContractApi.contractId Seal c₁) c₁ xs₁ xs₁.length ∧
        before₂.filter IsCallback = callbacksUpTo (ContractApi.contractId Seal c₂) c₂ xs₂ xs₂.length := by
  obtain ⟨blocks, hs⟩ := run_shape h₁
  obtain ⟨ys, rfl⟩ := hs.past hr₁ v₁
  obtain ⟨segs, tail, k1, k2, k3⟩ := hs.stop
  obtain ⟨st, _, hi⟩ := run_of_validConsignment (E := ReadOperation.Error Seal R) v₂
  obtain ⟨segs₂, t₂, _⟩ := hi.segments
  obtain ⟨segs₁, more, rfl, m1, m2, m3⟩ := samePoint_continue hS h v₂ t₂ hs.valid k1
  have hp := samePoint_append hS h ys
  have hreads : ∀ {zs : List (OperationSeals Seal)} {q}, Reads r₁ (xs₁ ++ zs) q → Reads r₂ (xs₂ ++ zs) q := by
    intro zs q hq
    obtain ⟨q', q1, q2⟩ := hq.split
    obtain ⟨_, rfl⟩ := reads_same_length q1 hr₁ rfl
    exact hr₂.append q2
  have hsh : RunShape c₂ r₂ (xs₂ ++ ys) ⟨o₁.result, ⟨contractAt (ContractApi.contractId Seal c₂) c₂ (xs₂ ++ ys) (xs₂ ++ ys).length,
      [.contractId, .codex] ++ (segs₂ ++ more).flatten ++ .read :: tail⟩, o₁.reader⟩ := by
    refine ⟨m2, rfl, segs₂ ++ more, tail, m3, rfl, ?_⟩
    rcases k3 with ⟨k3, k4, q, k5, k6⟩ | ⟨e, k3, k4, q, k5, k6⟩ | ⟨b, e, k3, k4, k5⟩
    · exact .inl ⟨k3, k4, q, hreads k5, k6⟩
    · exact .inr (.inl ⟨e, k3, k4, q, hreads k5, k6⟩)
    · refine .inr (.inr ⟨b, e, k3, ?_, samePoint_rejection hS hp k5⟩)
      rw [List.append_assoc] at k4 ⊢
      exact hreads k4
  refine ⟨_, hsh.run, rfl, rfl, ?_, [.contractId, .codex] ++ segs₁.flatten, [.contractId, .codex] ++ segs₂.flatten,
    more.flatten ++ .read :: tail, ?_, ?_, ?_, ?_, ?_, ?_⟩
  · rw [hs.contract]; exact hp.contract
  · rw [k2]; simp
  · simp
  · rw [polls_append, ← m1.take_all, m1.polls_take (Nat.le_refl _)]; simp [polls, IsRead]
  · rw [polls_append, ← t₂.take_all, t₂.polls_take (Nat.le_refl _)]; simp [polls, IsRead]
  · rw [List.filter_append, ← m1.callbacks_take (Nat.le_refl _), m1.take_all]; simp [IsCallback]
  · rw [List.filter_append, ← t₂.callbacks_take (Nat.le_refl _), t₂.take_all]; simp [IsCallback]

/-- The outcome of an evaluation after some point depends only on the open cells with their seals and
the contract at that point, not on how it was reached: if two valid consignments lead to the same
point, and the readers coincide from there on, then the evaluations return the same result, leave the
reader and the contract in the same (related) state and make the same calls, in the same order, after
that point; and one terminates exactly if the other does. -/
theorem C61_checkpoint (hS : Simulation (Seal := Seal) S) {c₁ : C₁} {c₂ : C₂} {xs₁ xs₂ : List (OperationSeals Seal)}
    (h : SamePoint S c₁ xs₁ c₂ xs₂) (v₁ : ValidConsignment c₁ xs₁) (v₂ : ValidConsignment c₂ xs₂)
    {r₁ r₂ r : R} (hr₁ : Reads r₁ xs₁ r) (hr₂ : Reads r₂ xs₂ r) :
    Option.Rel (fun (o₁ : Outcome Seal R C₁ (ReadOperation.Error Seal R)) (o₂ : Outcome Seal R C₂ (ReadOperation.Error Seal R)) =>
        o₁.result = o₂.result ∧ o₁.reader = o₂.reader ∧ S o₁.world.contract o₂.world.contract ∧
        ∃ before₁ before₂ after, o₁.world.calls = before₁ ++ after ∧ o₂.world.calls = before₂ ++ after ∧
          polls before₁ = xs₁.length ∧ polls before₂ = xs₂.length ∧
          before₁.filter IsCallback = callbacksUpTo (ContractApi.contractId Seal c₁) c₁ xs₁ xs₁.length ∧
          before₂.filter IsCallback = callbacksUpTo (ContractApi.contractId Seal c₂) c₂ xs₂ xs₂.length) (evaluate c₁ r₁) (evaluate c₂ r₂) := by
  cases h₁ : evaluate (Seal := Seal) c₁ r₁ with
  | some o₁ =>
    obtain ⟨o₂, k, hk⟩ := samePoint_run hS h v₁ v₂ hr₁ hr₂ h₁
    rw [k]
    exact .some hk
  | none =>
    cases h₂ : evaluate (Seal := Seal) c₂ r₂ with
    | none => exact .none
    | some o₂ =>
      have h' : SamePoint (fun c₂ c₁ => S c₁ c₂) c₂ xs₂ c₁ xs₁ :=
        ⟨h.begun₂, h.begun₁, h.contractId.symm, fun a s => (h.seals a s).symm, h.contract⟩
      obtain ⟨o₁, k, _⟩ := samePoint_run (sim_symm hS) h' v₂ v₁ hr₂ hr₁ h₂
      rw [h₁] at k
      simp at k

end
end

namespace Demo
/-- The ledgers agree but for their logs of seals and witnesses. -/
def sameBooks (l l' : Ledger) : Prop :=
  l.contractId = l'.contractId ∧ l.codex = l'.codex ∧ l.known = l'.known ∧ l.cells = l'.cells

theorem sameBooks_blind : ReportBlind (Seal := Nat) sameBooks where
  refl _ := ⟨rfl, rfl, rfl, rfl⟩
  contractId _ _ h := h.1
  codexId _ _ h := congrArg Codex.codexId h.2.1
  isKnown c d h o := by change c.known.contains o = d.known.contains o; rw [h.2.2.1]
  verify c d h cid op := by
    change c.codex.verify cid op ⟨c.find, _⟩ _ = d.codex.verify cid op ⟨d.find, _⟩ _
    have : c.find = d.find := by funext a; unfold Ledger.find; rw [h.2.2.2]
    rw [h.2.1, this]
    rfl
  operation c d h v := by
    refine ⟨h.1, h.2.1, ?_, ?_⟩
    · change v.opid :: c.known = v.opid :: d.known; rw [h.2.2.1]
    · simp only [ContractApi.applyOperation, h.2.2.2]
  sealsLeft _ _ h _ _ := h
  sealsRight _ _ h _ _ := h
  witnessLeft _ _ h _ _ := h
  witnessRight _ _ h _ _ := h

/-- The open seals after a list of accepted bundles, computed. -/
def registryOf (c : Ledger) (bs : List Block) : Option (List (CellAddr × Nat)) :=
  match runBlocks (E := String) (ContractApi.contractId Nat c) (ContractApi.codex Nat c).codexId bs (initState c) with
  | .ok st => some st.seals.entries
  | .error _ => none

theorem openAt_registry {c : Ledger} {bs : List Block} {l : List (CellAddr × Nat)} (h : registryOf c bs = some l) (a : CellAddr) (s : Nat) :
    OpenAt c.contractId bs bs.length a s ↔ (a, s) ∈ l := by
  unfold registryOf at h
  split at h
  · rename_i st hst
    rw [← List.take_length (l := bs)] at hst
    have := (inv_run (Nat.le_refl _) hst).1.seals a s
    simp only [Option.some.injEq] at h
    subst h
    rw [← OMap.get?_eq_some]
    exact this.symm
  · simp at h

/-- A transfer of genesis output 1. -/
def transfer3 : Block := ⟨op 103 [at_ 100 1] [.abs 11], .collect [(0, .abs 11)], some (wit 53 [5] 103)⟩

/-- A ledger knowing genesis and two transfers from it. -/
def wise : Ledger := { ledger with known := [⟨100⟩, ⟨101⟩, ⟨103⟩] }
end Demo

open Demo in
/-- Delivering two independent known operations in either order leads to the same point. -/
example : Simulation (Seal := Nat) sameBooks ∧
    SamePoint sameBooks wise [genesis, transfer1, transfer3] wise [genesis, transfer3, transfer1] ∧
    ValidConsignment wise [genesis, transfer1, transfer3] ∧ ValidConsignment wise [genesis, transfer3, transfer1] ∧
    [genesis, transfer1, transfer3] ≠ [genesis, transfer3, transfer1] := by
  refine ⟨sameBooks_blind.simulation, ⟨by simp, by simp, rfl, ?_, ⟨rfl, rfl, by decide +kernel, by decide +kernel⟩⟩,
    valid_of_accepts (by decide +kernel), valid_of_accepts (by decide +kernel), ?_⟩
  · intro a s
    have h₁ := openAt_registry (c := wise) (bs := [genesis, transfer1, transfer3]) rfl a s
    have h₂ := openAt_registry (c := wise) (bs := [genesis, transfer3, transfer1]) rfl a s
    exact h₁.trans (Iff.trans (by rfl) h₂.symm)
  · intro h
    have := congrArg (fun l : List Block => l.map fun b => b.operation.nonce) h
    simp [transfer1, transfer3, op] at this

/-! ## C62 -/

section
variable {Seal : Type} [LinearOrder Seal] [RgbSeal Seal] [OpHash]
variable {C E : Type} [ContractApi Seal C]
variable {R : Type} [ReadOperation Seal R]

/-- Receiving a consignment and then, on the contract this leaves, an extended one, amounts to receiving
the extended one only: the second evaluation returns the same result as an evaluation of the extended
consignment on the initial contract, ends with a contract giving the same answers, and applies exactly
the operations that the first one had not applied. -/
theorem C62_incremental (hl : Lawful Seal C) {S : C → C → Prop} (hS : ReportBlind (Seal := Seal) S) {c : C}
    (hf : Faithful (ContractApi.codex Seal c)) {R' : Type} [ReadOperation Seal R'] {r' : R'} {xs : List (OperationSeals Seal)} {o}
    (h : Accepted c r' xs o) (h0 : ∀ b, xs[0]? = some b → KnownStart c b) {r : R} (hr : StartsWith r xs) :
    Option.Rel (fun (o₁ o₂ : Outcome Seal R C (ReadOperation.Error Seal R)) =>
        o₁.result = o₂.result ∧ o₁.reader = o₂.reader ∧ S o₁.world.contract o₂.world.contract ∧
        o.world.calls.filterMap appliedOperation ++ o₁.world.calls.filterMap appliedOperation =
          o₂.world.calls.filterMap appliedOperation)
      (evaluate o.world.contract r) (evaluate c r) := by
  obtain ⟨r₁, hr⟩ := hr
  have hc := h.shape.contract
  by_cases hne : xs = []
  · subst hne
    have hc' : o.world.contract = c := hc
    have ha : o.world.calls.filterMap appliedOperation = [] :=
      List.filterMap_eq_nil_iff.2 (noncallback_applied h.shape.callbacks)
    rw [hc', ha]
    cases evaluate (Seal := Seal) c r with
    | none => exact .none
    | some o => exact .some ⟨rfl, rfl, hS.refl _, rfl⟩
  · obtain ⟨o', k1, k2, _⟩ := C33_idempotent hl hf h h0 h.delivers
    have hid : ContractApi.contractId Seal o.world.contract = ContractApi.contractId Seal c := by rw [hc]; exact hl.contractAt_id
    have hcb := k1.shape.callbacks
    have hp : SamePoint S o.world.contract xs c xs := by
      refine ⟨hne, hne, hid, fun a s => by rw [hid], ?_⟩
      rw [contractAt_eq_foldl, ← hc, ← hcb]
      refine hS.foldl ?_ (hS.refl _)
      intro x hx
      have := (List.filterMap_eq_nil_iff.1 k2) x (List.mem_filter.1 hx).1
      exact this
    have key := C61_checkpoint hS.simulation hp k1.valid h.valid hr hr
    generalize evaluate (Seal := Seal) o.world.contract r = x, evaluate (Seal := Seal) c r = y at key ⊢
    cases key with
    | none => exact .none
    | @some o₁ o₂ key =>
      obtain ⟨e1, e2, e3, b₁, b₂, after, e4, e5, _, _, e6, e7⟩ := key
      refine .some ⟨e1, e2, e3, ?_⟩
      rw [e4, e5, List.filterMap_append, List.filterMap_append, ← List.append_assoc]
      congr 1
      rw [applied_filter b₁, applied_filter b₂, e6, e7, ← hcb, ← h.shape.callbacks, ← applied_filter, ← applied_filter, k2]
      simp

end

open Demo in
example : ∃ o, Lawful Nat Ledger ∧ ReportBlind (Seal := Nat) sameBooks ∧ Faithful (ContractApi.codex Nat ledger) ∧
    Accepted ledger (Tape.mk [genesis, transfer1] none) [genesis, transfer1] o ∧
    (∀ b, [genesis, transfer1][0]? = some b → KnownStart ledger b) ∧
    StartsWith (Seal := Nat) (Tape.mk story none) [genesis, transfer1] := by
  obtain ⟨o, h⟩ := accepted_of_accepts (c := ledger) (bs := [genesis, transfer1]) (by decide +kernel)
  refine ⟨o, ledger_lawful, sameBooks_blind, codex_faithful, h, ?_, tape_startsWith [genesis, transfer1] [transfer2] none⟩
  intro b hb
  simp only [List.getElem?_cons_zero, Option.some.injEq] at hb
  subst hb
  rfl

/-! ## C63 -/

section
variable {Seal : Type} [LinearOrder Seal] [RgbSeal Seal] [OpHash]
variable {C E : Type} [ContractApi Seal C]
variable {R : Type} [ReadOperation Seal R]

theorem known_from (hl : Lawful Seal C) {c : C} (hf : Faithful (ContractApi.codex Seal c))
    {blocks : List (OperationSeals Seal)} {n : Nat} {x : Opid}
    (h : ContractApi.isKnown Seal (contractAt (ContractApi.contractId Seal c) c blocks n) x = true) :
    ContractApi.isKnown Seal c x = true ∨ ∃ i b, i < n ∧ blocks[i]? = some b ∧ x = idAt (ContractApi.contractId Seal c) i b := by
  have lift : ∀ {n}, (ContractApi.isKnown Seal c x = true ∨ ∃ i b, i < n ∧ blocks[i]? = some b ∧
      x = idAt (ContractApi.contractId Seal c) i b) → ContractApi.isKnown Seal c x = true ∨ ∃ i b, i < n + 1 ∧ blocks[i]? = some b ∧
      x = idAt (ContractApi.contractId Seal c) i b := by
    rintro n (h | ⟨i, b, h1, h2⟩)
    · exact .inl h
    · exact .inr ⟨i, b, Nat.lt_succ_of_lt h1, h2⟩
  induction n with
  | zero => exact .inl h
  | succ n ih =>
    rw [contractAt] at h
    cases hb : blocks[n]? with
    | none => rw [hb] at h; exact lift (ih h)
    | some b =>
      rw [hb] at h
      simp only [callbacks, List.foldl_append] at h
      have hs : ∀ (c' : C) o, ContractApi.isKnown Seal ((sealCallbacks o b).foldl perform c') x = ContractApi.isKnown Seal c' x := by
        intro c' o
        unfold sealCallbacks
        split
        · rfl
        · exact hl.known_seals ..
      rw [hs] at h
      unfold operationCallbacks at h
      split at h
      · exact lift (ih (by rw [List.foldl_nil, hl.known_witnessCallbacks] at h; exact h))
      · split at h
        · rename_i v hv
          change ContractApi.isKnown Seal (ContractApi.applyOperation Seal _ v) x = true at h
          rw [hl.known_operation, hl.known_witnessCallbacks] at h
          rcases h with h | h
          · exact lift (ih h)
          · refine .inr ⟨n, b, Nat.lt_succ_self n, hb, ?_⟩
            unfold codexAnswer at hv
            rw [hl.contractAt_codex] at hv
            rw [h, (hf _ _ _ _ _ hv).1]
            rfl
        · exact lift (ih (by rw [List.foldl_nil, hl.known_witnessCallbacks] at h; exact h))

/-- After an accepted consignment starting with a known operation the contract knows exactly what it
knew and the operations of the consignment. -/
theorem C63_known_exactly (hl : Lawful Seal C) {c : C} (hf : Faithful (ContractApi.codex Seal c)) {r : R}
    {blocks : List (OperationSeals Seal)} {o} (h : Accepted c r blocks o) (h0 : ∀ b, blocks[0]? = some b → KnownStart c b)
    (x : Opid) :
    ContractApi.isKnown Seal o.world.contract x = true ↔
      ContractApi.isKnown Seal c x = true ∨ ∃ i b, blocks[i]? = some b ∧ x = idAt (ContractApi.contractId Seal c) i b := by
  rw [h.shape.contract]
  constructor
  · intro h
    rcases known_from hl hf h with h | ⟨i, b, _, h⟩
    · exact .inl h
    · exact .inr ⟨i, b, h⟩
  · rintro (hk | ⟨i, b, hb, rfl⟩)
    · exact hl.contractAt_mono (Nat.zero_le _) hk
    · exact hl.contractAt_mono (lt_length_of_getElem? hb) (known_after hl h.valid hf h0 hb)

theorem allAccepted_known (hl : Lawful Seal C) {c c' : C} (hf : Faithful (ContractApi.codex Seal c))
    {css : List (List (OperationSeals Seal))} (h : AllAccepted c css c') (x : Opid) :
    ContractApi.isKnown Seal c' x = true ↔ ContractApi.isKnown Seal c x = true ∨
      ∃ blocks ∈ css, ∃ i b, blocks[i]? = some b ∧ x = idAt (ContractApi.contractId Seal c) i b := by
  induction h with
  | nil => simp
  | @cons R _ c c' r blocks o rest ha h0 _ ih =>
    have hid : ContractApi.contractId Seal o.world.contract = ContractApi.contractId Seal c := by
      rw [ha.shape.contract]; exact hl.contractAt_id
    have hcx : ContractApi.codex Seal o.world.contract = ContractApi.codex Seal c := by
      rw [ha.shape.contract]; exact hl.contractAt_codex
    rw [ih (hcx ▸ hf), C63_known_exactly hl hf ha h0, hid]
    simp only [List.mem_cons, exists_eq_or_imp, or_assoc]

/-- Consignments accepted one after the other leave the same operations known in whatever order they
are received. -/
theorem C63_order_irrelevant (hl : Lawful Seal C) {c c₁ c₂ : C} (hf : Faithful (ContractApi.codex Seal c))
    {css₁ css₂ : List (List (OperationSeals Seal))} (hp : css₁.Perm css₂) (h₁ : AllAccepted c css₁ c₁)
    (h₂ : AllAccepted c css₂ c₂) (x : Opid) : ContractApi.isKnown Seal c₁ x = ContractApi.isKnown Seal c₂ x := by
  rw [Bool.eq_iff_iff, allAccepted_known hl hf h₁, allAccepted_known hl hf h₂]
  simp only [hp.mem_iff]

end

namespace Demo
theorem allAccepted_two {xs ys : List Block} (h : accepts ledger xs = true)
    (h' : accepts (contractAt ledger.contractId ledger xs xs.length) ys = true)
    (hx : ∀ b, xs[0]? = some b → KnownStart ledger b)
    (hy : ∀ b, ys[0]? = some b → KnownStart (contractAt ledger.contractId ledger xs xs.length) b) :
    ∃ c', AllAccepted (Seal := Nat) ledger [xs, ys] c' := by
  obtain ⟨o, ha⟩ := accepted_of_accepts h
  have hc : o.world.contract = contractAt ledger.contractId ledger xs xs.length := ha.shape.contract
  rw [← hc] at h' hy
  obtain ⟨o', ha'⟩ := accepted_of_accepts h'
  exact ⟨_, .cons ha hx (.cons ha' hy (.nil _))⟩
end Demo

open Demo in
/-- Two different transfers from genesis, received in either order. -/
example : Lawful Nat Ledger ∧ Faithful (ContractApi.codex Nat ledger) ∧
    (∃ c', AllAccepted (Seal := Nat) ledger [[genesis, transfer1], [genesis, transfer3]] c') ∧
    (∃ c', AllAccepted (Seal := Nat) ledger [[genesis, transfer3], [genesis, transfer1]] c') ∧
    List.Perm [[genesis, transfer1], [genesis, transfer3]] [[genesis, transfer3], [genesis, transfer1]] := by
  refine ⟨ledger_lawful, codex_faithful, ?_, ?_, .swap ..⟩
  all_goals
    refine allAccepted_two (by decide +kernel) (by decide +kernel) ?_ ?_
    all_goals
      intro b hb
      simp only [List.getElem?_cons_zero, Option.some.injEq] at hb
      subst hb
      unfold KnownStart
      decide +kernel

end Rgb
