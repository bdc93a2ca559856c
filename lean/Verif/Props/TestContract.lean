import Verif.TestContract
import Verif.Props.History

set_option linter.unusedSectionVars false

/-! # C51, C55, C56: the contract and the helper of the crate's test-suite -/

namespace Rgb
open Spec

section
variable {Seal : Type} [LinearOrder Seal] [RgbSeal Seal] [OpHash]
variable {R : Type} [ReadOperation Seal R]

/-- The operation with id `x` which the stream adds to what the contract knows: the first one after
the first block with that id, if the contract does not know the id. -/
def added (c : TestContract Seal) (blocks : List (OperationSeals Seal)) (x : Opid) : Option Operation :=
  if (c.knownOps.get? x).isSome then none
  else (blocks.tail.find? fun b => decide (opid b.operation = x)).map (·.operation)

/-- The witnesses which the stream attaches to blocks with id `x`, in order. -/
def attached (cid : ContractId) (blocks : List (OperationSeals Seal)) (x : Opid) : List (SealWitness Seal) :=
  blocks.zipIdx.filterMap fun e => if idAt cid e.2 e.1 = x then e.1.witness else none

/-- The seal definitions which the stream reveals for position `p` of operations with id `x`, in order. -/
def revealed (cid : ContractId) (blocks : List (OperationSeals Seal)) (x : Opid) (p : U16) :
    List (RgbSeal.Definition Seal) :=
  blocks.zipIdx.filterMap fun e => if idAt cid e.2 e.1 = x then e.1.definedSeals.get? p else none

theorem take_succ_tail {α : Type} {l : List α} {n : Nat} {b : α} (hb : l[n]? = some b) (hn : n ≠ 0) :
    (l.take (n + 1)).tail = (l.take n).tail ++ [b] := by
  have hlt := lt_length_of_getElem? hb
  rw [List.take_add_one, hb]
  cases n with
  | zero => exact absurd rfl hn
  | succ n =>
    cases l with
    | nil => simp at hlt
    | cons a l => rfl

theorem take_succ_zipIdx {α : Type} {l : List α} {n : Nat} {b : α} (hb : l[n]? = some b) :
    (l.take (n + 1)).zipIdx = (l.take n).zipIdx ++ [(b, n)] := by
  have hlt := lt_length_of_getElem? hb
  rw [List.take_add_one, hb, List.zipIdx_append]
  simp [Nat.min_eq_left (Nat.le_of_lt hlt)]

section fields
variable (cid : ContractId) (c : TestContract Seal) (i : Nat) (b : OperationSeals Seal)

/-- The contract after a block. -/
def after : TestContract Seal := (callbacks cid c i b).foldl perform c

theorem after_eq : after cid c i b = (sealCallbacks (idAt cid i b) b).foldl perform
    ((operationCallbacks cid c i b).foldl perform ((witnessCallbacks (idAt cid i b) b).foldl perform c)) := by
  rw [after, callbacks, List.foldl_append, List.foldl_append]

theorem witness_fields : ∀ c : TestContract Seal,
    ((witnessCallbacks (idAt cid i b) b).foldl perform c).knownOps = c.knownOps ∧
    ((witnessCallbacks (idAt cid i b) b).foldl perform c).owned = c.owned ∧
    ((witnessCallbacks (idAt cid i b) b).foldl perform c).global = c.global ∧
    ((witnessCallbacks (idAt cid i b) b).foldl perform c).sealDefinitions = c.sealDefinitions := by
  intro c; unfold witnessCallbacks; split <;> exact ⟨rfl, rfl, rfl, rfl⟩

theorem seal_fields : ∀ c : TestContract Seal,
    ((sealCallbacks (idAt cid i b) b).foldl perform c).knownOps = c.knownOps ∧
    ((sealCallbacks (idAt cid i b) b).foldl perform c).owned = c.owned ∧
    ((sealCallbacks (idAt cid i b) b).foldl perform c).global = c.global ∧
    ((sealCallbacks (idAt cid i b) b).foldl perform c).witnesses = c.witnesses := by
  intro c; unfold sealCallbacks; split <;> exact ⟨rfl, rfl, rfl, rfl⟩

theorem operation_fields : ∀ d : TestContract Seal,
    ((operationCallbacks cid c i b).foldl perform d).witnesses = d.witnesses ∧
    ((operationCallbacks cid c i b).foldl perform d).sealDefinitions = d.sealDefinitions := by
  intro d; unfold operationCallbacks
  split
  · exact ⟨rfl, rfl⟩
  · split <;> exact ⟨rfl, rfl⟩

theorem after_witnesses (x : Opid) : (after cid c i b).witnesses.get? x =
    if idAt cid i b = x ∧ b.witness.isSome then some ((c.witnesses.get? x).getD [] ++ b.witness.toList) else c.witnesses.get? x := by
  rw [after_eq, (seal_fields cid i b _).2.2.2, (operation_fields cid c i b _).1]
  unfold witnessCallbacks
  cases b.witness with
  | none => simp
  | some w =>
    simp only [List.foldl_cons, List.foldl_nil, perform, ContractApi.applyWitness, OMap.get?_insert, Option.isSome_some,
      and_true, Option.toList_some]
    by_cases h : x = idAt cid i b
    · subst h; simp
    · rw [if_neg h, if_neg (Ne.symm h)]

theorem after_seals (x : Opid) : (after cid c i b).sealDefinitions.get? x =
    if idAt cid i b = x ∧ b.definedSeals.entries ≠ [] then
      some (((c.sealDefinitions.get? x).getD .empty).extend b.definedSeals.entries) else c.sealDefinitions.get? x := by
  rw [after_eq]
  unfold sealCallbacks
  have e : ((operationCallbacks cid c i b).foldl perform ((witnessCallbacks (idAt cid i b) b).foldl perform c)).sealDefinitions =
      c.sealDefinitions := by rw [(operation_fields cid c i b _).2, (witness_fields cid i b _).2.2.2]
  split
  · rename_i h; simp [h, e]
  · rename_i h
    simp only [List.foldl_cons, List.foldl_nil, perform, ContractApi.applySeals, e, OMap.get?_insert]
    by_cases hx : x = idAt cid i b
    · subst hx; simp [h]
    · rw [if_neg hx, if_neg fun h' => hx h'.1.symm]

/-- After an accepted block, only a new operation has changed known operations and memory. -/
theorem after_operation (hf : Faithful c.codex)
    (hs : ContractApi.isKnown Seal c (idAt cid i b) = false → ∃ v, codexAnswer Seal c cid (opAt cid i b) = .ok v) :
    (((i = 0 ∨ (c.knownOps.get? (idAt cid i b)).isSome) ∧ (after cid c i b).knownOps = c.knownOps ∧
      (after cid c i b).owned = c.owned ∧ (after cid c i b).global = c.global) ∨
    (i ≠ 0 ∧ c.knownOps.get? (idAt cid i b) = none ∧ idAt cid i b = opid b.operation ∧
      (after cid c i b).knownOps = c.knownOps.insert (opid b.operation) b.operation ∧
      (after cid c i b).owned = c.owned.extend (numbered (opid b.operation) id b.operation.destructibleOut) ∧
      (after cid c i b).global = c.global.extend (numbered (opid b.operation) StateData.value b.operation.immutableOut))) := by
  rw [after_eq]
  obtain ⟨s1, s2, s3, _⟩ := seal_fields (Seal := Seal) cid i b
    ((operationCallbacks cid c i b).foldl perform ((witnessCallbacks (idAt cid i b) b).foldl perform c))
  obtain ⟨w1, w2, w3, _⟩ := witness_fields (Seal := Seal) cid i b c
  rw [s1, s2, s3]
  unfold operationCallbacks
  split
  · rename_i h
    exact .inl ⟨h, w1, w2, w3⟩
  · rename_i h
    rw [not_or] at h
    obtain ⟨v, hv⟩ := hs (by simpa using h.2)
    obtain ⟨v1, v2⟩ := hf _ _ _ _ _ hv
    have hop : opAt cid i b = b.operation := by simp [opAt, h.1]
    have hid : idAt cid i b = opid b.operation := by rw [idAt, hop]
    refine .inr ⟨h.1, ?_, hid, ?_⟩
    · have := h.2
      simpa [ContractApi.isKnown] using this
    · rw [hv]
      rw [hop] at v1 v2
      simp only [List.foldl_cons, List.foldl_nil, perform, ContractApi.applyOperation, w1, w2, w3, v1, v2]
      exact ⟨trivial, trivial, trivial⟩

end fields

theorem contractAt_after (cid : ContractId) (c : TestContract Seal) (blocks : List (OperationSeals Seal)) {n : Nat}
    {b : OperationSeals Seal} (hb : blocks[n]? = some b) :
    contractAt cid c blocks (n + 1) = after cid (contractAt cid c blocks n) n b := by
  simp only [contractAt, hb, after]

theorem added_succ {c : TestContract Seal} {blocks : List (OperationSeals Seal)} {n : Nat} {b : OperationSeals Seal}
    (hb : blocks[n]? = some b) (hn : n ≠ 0) (x : Opid) :
    added c (blocks.take (n + 1)) x = (added c (blocks.take n) x).or
      (if (c.knownOps.get? x).isSome then none else if opid b.operation = x then some b.operation else none) := by
  unfold added
  split
  · rfl
  · rw [take_succ_tail hb hn, List.find?_append]
    simp only [List.find?_cons, List.find?_nil]
    cases List.find? (fun b => decide (opid b.operation = x)) (blocks.take n).tail with
    | some a => rfl
    | none =>
      by_cases h : opid b.operation = x <;> simp [h]

theorem tc_at {c : TestContract Seal} (hf : Faithful c.codex) {blocks : List (OperationSeals Seal)}
    (hv : ValidConsignment c blocks) {n : Nat} (hn : n ≤ blocks.length) :
    (∀ x, (contractAt c.contractId c blocks n).knownOps.get? x = (c.knownOps.get? x).or (added c (blocks.take n) x)) ∧
    ((∀ b ∈ blocks, b.operation.destructibleOut.length ≤ 65536) → ∀ a,
      (contractAt c.contractId c blocks n).owned.get? a =
        ((added c (blocks.take n) a.opid).bind fun op => op.destructibleOut[a.pos.val]?).or (c.owned.get? a)) ∧
    ((∀ b ∈ blocks, b.operation.immutableOut.length ≤ 65536) → ∀ a,
      (contractAt c.contractId c blocks n).global.get? a =
        ((added c (blocks.take n) a.opid).bind fun op => op.immutableOut[a.pos.val]?.map StateData.value).or (c.global.get? a)) := by
  induction n with
  | zero =>
    have e : ∀ x, added c (blocks.take 0) x = none := by intro x; simp [added]
    simp only [e]
    refine ⟨fun x => ?_, fun _ a => rfl, fun _ a => rfl⟩
    rw [Option.or_none]
    rfl
  | succ n ih =>
    obtain ⟨ih1, ih2, ih3⟩ := ih (by omega)
    have hlt : n < blocks.length := by omega
    have hb : blocks[n]? = some blocks[n] := by simp
    have hcx : (contractAt c.contractId c blocks n).codex = c.codex :=
      testContract_lawful.contractAt_codex
    have hs := (hv n _ hb).script
    rcases after_operation c.contractId (contractAt c.contractId c blocks n) n blocks[n] (by rw [hcx]; exact hf) hs with
      ⟨h1, h2, h3, h4⟩ | ⟨h1, h2, h3, h4, h5, h6⟩
    · rw [contractAt_after _ _ _ hb, h2, h3, h4]
      have e : ∀ x, added c (blocks.take (n + 1)) x = added c (blocks.take n) x := by
        intro x
        by_cases hn0 : n = 0
        · subst hn0
          unfold added
          cases blocks with
          | nil => simp at hlt
          | cons a l => simp
        · rw [added_succ hb hn0]
          rcases h1 with h1 | h1
          · exact absurd h1 hn0
          · have hid : idAt c.contractId n blocks[n] = opid blocks[n].operation := by
              simp [idAt, opAt, hn0]
            rw [hid, ih1] at h1
            by_cases hx : opid blocks[n].operation = x
            · subst hx
              cases hk : c.knownOps.get? (opid blocks[n].operation) with
              | some y => simp
              | none =>
                rw [hk, Option.none_or] at h1
                obtain ⟨y, hy⟩ := Option.isSome_iff_exists.1 h1
                rw [hy]; rfl
            · simp [hx]
      simp only [e]
      exact ⟨ih1, ih2, ih3⟩
    · rw [contractAt_after _ _ _ hb, h4, h5, h6]
      rw [ih1, h3, Option.or_eq_none_iff] at h2
      have e : ∀ x, added c (blocks.take (n + 1)) x = if x = opid blocks[n].operation then some blocks[n].operation
          else added c (blocks.take n) x := by
        intro x
        rw [added_succ hb h1]
        by_cases hx : x = opid blocks[n].operation
        · subst hx
          simp [h2.1, h2.2]
        · simp [hx, Ne.symm hx]
      have hmem : blocks[n] ∈ blocks := List.getElem_mem hlt
      refine ⟨?_, ?_, ?_⟩
      · intro x
        rw [OMap.get?_insert, e]
        split
        · rename_i hx; subst hx; simp [h2.1]
        · exact ih1 x
      · intro hl a
        rw [get?_extend_numbered (hl _ hmem), e]
        split
        · rename_i hx
          rw [ih2 hl, hx, h2.2]
          simp
        · exact ih2 hl a
      · intro hl a
        rw [get?_extend_numbered (hl _ hmem), e]
        split
        · rename_i hx
          rw [ih3 hl, hx, h2.2]
          simp
        · exact ih3 hl a

/-! ## C51 -/

/-- After an accepted consignment, the test contract knows what it knew and the operations of the
stream after the first, each under its id, the earliest one if ids repeat. -/
theorem C51_known_operations {c : TestContract Seal} (hf : Faithful c.codex) {r : R} {blocks : List (OperationSeals Seal)} {o}
    (h : Accepted c r blocks o) (x : Opid) :
    o.world.contract.knownOps.get? x =
      (c.knownOps.get? x).or ((blocks.tail.find? fun b => decide (opid b.operation = x)).map (·.operation)) := by
  rw [h.shape.contract]
  have := (tc_at hf h.valid (Nat.le_refl _)).1 x
  rw [List.take_length] at this
  refine Eq.trans this ?_
  unfold added
  split
  · rename_i hk
    obtain ⟨y, hy⟩ := Option.isSome_iff_exists.1 hk
    rw [hy]; rfl
  · rfl

/-- With a known first operation, the known ids are the initial ones and all ids of the stream. -/
theorem C51_known_ids {c : TestContract Seal} (hf : Faithful c.codex) {r : R} {b₀ : OperationSeals Seal}
    {rest : List (OperationSeals Seal)} {o} (h : Accepted c r (b₀ :: rest) o)
    (hk : (c.knownOps.get? (opid { b₀.operation with contractId := c.contractId })).isSome) (x : Opid) :
    (o.world.contract.knownOps.get? x).isSome ↔ (c.knownOps.get? x).isSome ∨
      x = opid { b₀.operation with contractId := c.contractId } ∨ ∃ b ∈ rest, opid b.operation = x := by
  rw [C51_known_operations hf h]
  simp only [Option.isSome_or, Option.isSome_map, Bool.or_eq_true, List.tail_cons, List.find?_isSome, decide_eq_true_eq]
  constructor
  · rintro (h | h)
    · exact .inl h
    · exact .inr (.inr h)
  · rintro (h | h | h)
    · exact .inl h
    · exact .inl (h ▸ hk)
    · exact .inr h

/-- The list of witnesses of each operation is the initial one followed by the witnesses which the
stream attaches to blocks with that id, in order; there is no list if there was none and no witness. -/
theorem C51_witnesses {c : TestContract Seal} {r : R} {blocks : List (OperationSeals Seal)} {o}
    (h : Accepted c r blocks o) (x : Opid) :
    o.world.contract.witnesses.get? x =
      if attached c.contractId blocks x = [] then c.witnesses.get? x
      else some ((c.witnesses.get? x).getD [] ++ attached c.contractId blocks x) := by
  have key : ∀ n ≤ blocks.length, (contractAt c.contractId c blocks n).witnesses.get? x =
      if attached c.contractId (blocks.take n) x = [] then c.witnesses.get? x
      else some ((c.witnesses.get? x).getD [] ++ attached c.contractId (blocks.take n) x) := by
    intro n hn
    induction n with
    | zero => rfl
    | succ n ih =>
      have hlt : n < blocks.length := by omega
      have hb : blocks[n]? = some blocks[n] := by simp
      rw [contractAt_after _ _ _ hb, after_witnesses, ih (by omega)]
      have e : attached c.contractId (blocks.take (n + 1)) x = attached c.contractId (blocks.take n) x ++
          if idAt c.contractId n blocks[n] = x then blocks[n].witness.toList else [] := by
        unfold attached
        rw [take_succ_zipIdx hb, List.filterMap_append]
        congr 1
        simp only [List.filterMap_cons, List.filterMap_nil]
        split <;> rename_i hx
        · split at hx
          · rename_i hid; simp [hid, hx]
          · rename_i hid; simp [hid]
        · split at hx
          · rename_i hid; simp [hid, hx]
          · simp at hx
      rw [e]
      by_cases hid : idAt c.contractId n blocks[n] = x
      · cases hw : blocks[n].witness with
        | none => simp
        | some w =>
          simp only [hid, Option.isSome_some, and_true, if_true, Option.toList_some, List.append_eq_nil_iff,
            List.cons_ne_self, and_false, if_false, Option.some.injEq]
          split
          · rename_i h0; rw [h0]; simp
          · simp
      · simp [hid]
  have := key _ (Nat.le_refl _)
  rw [List.take_length] at this
  rw [h.shape.contract]
  exact this

/-- The definition recorded for a position of an operation is the last one which the stream reveals
for it, else the initial one. -/
theorem C51_seals {c : TestContract Seal} {r : R} {blocks : List (OperationSeals Seal)} {o}
    (h : Accepted c r blocks o) (x : Opid) (p : U16) :
    (o.world.contract.sealDefinitions.get? x).bind (·.get? p) =
      (revealed c.contractId blocks x p).getLast?.or ((c.sealDefinitions.get? x).bind (·.get? p)) := by
  have key : ∀ n ≤ blocks.length, ((contractAt c.contractId c blocks n).sealDefinitions.get? x).bind (·.get? p) =
      (revealed c.contractId (blocks.take n) x p).getLast?.or ((c.sealDefinitions.get? x).bind (·.get? p)) := by
    intro n hn
    induction n with
    | zero => rfl
    | succ n ih =>
      have hlt : n < blocks.length := by omega
      have hb : blocks[n]? = some blocks[n] := by simp
      rw [contractAt_after _ _ _ hb, after_seals]
      have e : revealed c.contractId (blocks.take (n + 1)) x p = revealed c.contractId (blocks.take n) x p ++
          if idAt c.contractId n blocks[n] = x then (blocks[n].definedSeals.get? p).toList else [] := by
        unfold revealed
        rw [take_succ_zipIdx hb, List.filterMap_append]
        congr 1
        simp only [List.filterMap_cons, List.filterMap_nil]
        split <;> rename_i hx
        · split at hx
          · rename_i hid; simp [hid, hx]
          · rename_i hid; simp [hid]
        · split at hx
          · rename_i hid; simp [hid, hx]
          · simp at hx
      rw [e]
      by_cases hid : idAt c.contractId n blocks[n] = x
      · by_cases hd : blocks[n].definedSeals.entries = []
        · have hg : blocks[n].definedSeals.get? p = none := by
            rw [OMap.get?_eq_none, hd]; simp
          simp only [hd, ne_eq, not_true_eq_false, and_false, if_false, hg, Option.toList_none, ite_self, List.append_nil]
          exact ih (by omega)
        · simp only [hid, ne_eq, hd, not_false_eq_true, and_self, if_true, Option.bind_some, OMap.get?_extend_entries]
          have e2 : ((contractAt c.contractId c blocks n).sealDefinitions.get? x |>.getD .empty).get? p =
              ((contractAt c.contractId c blocks n).sealDefinitions.get? x).bind (·.get? p) := by
            cases (contractAt c.contractId c blocks n).sealDefinitions.get? x <;> rfl
          rw [e2, ih (by omega), List.getLast?_append]
          cases blocks[n].definedSeals.get? p <;> simp
      · simp only [hid, false_and, if_false, List.append_nil]
        exact ih (by omega)
  have := key _ (Nat.le_refl _)
  rw [List.take_length] at this
  rw [h.shape.contract]
  exact this

/-- An entry for an operation is present if it was or the stream reveals some seal for it. -/
theorem C51_seal_entries {c : TestContract Seal} {r : R} {blocks : List (OperationSeals Seal)} {o}
    (h : Accepted c r blocks o) (x : Opid) :
    (o.world.contract.sealDefinitions.get? x).isSome ↔ (c.sealDefinitions.get? x).isSome ∨
      ∃ (i : Nat) (b : OperationSeals Seal), blocks[i]? = some b ∧ idAt c.contractId i b = x ∧ b.definedSeals.entries ≠ [] := by
  have key : ∀ n ≤ blocks.length, ((contractAt c.contractId c blocks n).sealDefinitions.get? x).isSome ↔
      (c.sealDefinitions.get? x).isSome ∨ ∃ (i : Nat) (b : OperationSeals Seal), i < n ∧ blocks[i]? = some b ∧
        idAt c.contractId i b = x ∧ b.definedSeals.entries ≠ [] := by
    intro n hn
    induction n with
    | zero => simp [contractAt]
    | succ n ih =>
      have hlt : n < blocks.length := by omega
      have hb : blocks[n]? = some blocks[n] := by simp
      rw [contractAt_after _ _ _ hb, after_seals]
      split
      · rename_i hh
        simp only [Option.isSome_some, true_iff]
        exact .inr ⟨n, _, by omega, hb, hh⟩
      · rename_i hh
        rw [ih (by omega)]
        constructor
        · rintro (h1 | ⟨i, b, h1, h2⟩)
          · exact .inl h1
          · exact .inr ⟨i, b, by omega, h2⟩
        · rintro (h1 | ⟨i, b, h1, h2, h3⟩)
          · exact .inl h1
          · rcases Nat.lt_or_ge i n with hi | hi
            · exact .inr ⟨i, b, hi, h2, h3⟩
            · obtain rfl : i = n := by omega
              rw [hb] at h2
              simp only [Option.some.injEq] at h2
              subst h2
              exact absurd h3 hh
  rw [h.shape.contract]
  refine (key _ (Nat.le_refl _)).trans (or_congr_right ⟨?_, ?_⟩)
  · rintro ⟨i, b, _, h2⟩; exact ⟨i, b, h2⟩
  · rintro ⟨i, b, h1, h2⟩; exact ⟨i, b, lt_length_of_getElem? h1, h1, h2⟩

/-! ## C55 -/

/-- After an accepted consignment, the owned cells of the test contract are the initial ones and the
outputs of the operations it added, and nothing else: consumed cells stay. -/
theorem C55_cells {c : TestContract Seal} (hf : Faithful c.codex) {r : R} {blocks : List (OperationSeals Seal)} {o}
    (h : Accepted c r blocks o) (hl : ∀ b ∈ blocks, b.operation.destructibleOut.length ≤ 65536) (a : CellAddr) :
    o.world.contract.owned.get? a =
      ((added c blocks a.opid).bind fun op => op.destructibleOut[a.pos.val]?).or (c.owned.get? a) := by
  rw [h.shape.contract]
  have := (tc_at hf h.valid (Nat.le_refl _)).2.1 hl a
  rw [List.take_length] at this
  exact this

/-- The same for the global cells. -/
theorem C55_global {c : TestContract Seal} (hf : Faithful c.codex) {r : R} {blocks : List (OperationSeals Seal)} {o}
    (h : Accepted c r blocks o) (hl : ∀ b ∈ blocks, b.operation.immutableOut.length ≤ 65536) (a : CellAddr) :
    o.world.contract.global.get? a =
      ((added c blocks a.opid).bind fun op => op.immutableOut[a.pos.val]?.map StateData.value).or (c.global.get? a) := by
  rw [h.shape.contract]
  have := (tc_at hf h.valid (Nat.le_refl _)).2.2 hl a
  rw [List.take_length] at this
  exact this

/-- No owned cell disappears. -/
theorem C55_spent_cells_stay {c : TestContract Seal} (hf : Faithful c.codex) {r : R} {blocks : List (OperationSeals Seal)} {o}
    (h : Accepted c r blocks o) (hl : ∀ b ∈ blocks, b.operation.destructibleOut.length ≤ 65536) {a : CellAddr}
    (ha : (c.owned.get? a).isSome) : (o.world.contract.owned.get? a).isSome := by
  rw [C55_cells hf h hl]
  simp [ha]

end

namespace Demo
/-- A successful run of the blocks shows that they are accepted. -/
theorem accepted_by_test {Seal : Type} [LinearOrder Seal] [RgbSeal Seal] [OpHash] {c : TestContract Seal}
    {bs : List (OperationSeals Seal)}
    (h : (match runBlocks (E := Empty) c.contractId c.codex.codexId bs (initState c) with
      | .ok _ => true
      | .error _ => false) = true) : ∃ o, Accepted c (TestReader.mk bs) bs o := by
  split at h
  · rename_i st hst
    rw [← List.take_length (l := bs)] at hst
    have hv : ValidConsignment c bs := fun i b hb =>
      (inv_run (c := c) (Nat.le_refl _) hst).2 i b (lt_length_of_getElem? hb) hb
    obtain ⟨o, h1, h2, _⟩ := evaluate_of_delivers (testReader_delivers bs) hv
    exact ⟨o, h1, h2, testReader_delivers bs⟩
  · simp at h

/-- Genesis with the contract id, as the contract knows it. -/
def knownGenesis : Operation := { genesisOp with contractId := ⟨9⟩ }

/-- The contract of the tests (verify.rs:432-447) in the toy world. -/
def testContract : TestContract Nat where
  codex := codex
  contractId := ⟨9⟩
  libs := ⟨fun _ => none⟩
  global := .empty
  owned := .collect (numbered ⟨100⟩ id genesisOp.destructibleOut)
  knownOps := .collect [(⟨100⟩, knownGenesis)]
  sealDefinitions := .collect [(⟨100⟩, .empty)]
  witnesses := .collect [(⟨100⟩, [])]

theorem test_story : ∃ o, Accepted testContract (TestReader.mk story) story o := accepted_by_test (by decide +kernel)
end Demo

open Demo in
example : Faithful testContract.codex ∧ (∃ o, Accepted testContract (TestReader.mk story) story o) ∧
    (testContract.knownOps.get? (opid { genesis.operation with contractId := testContract.contractId })).isSome ∧
    (∀ b ∈ story, b.operation.destructibleOut.length ≤ 65536) ∧
    (∀ b ∈ story, b.operation.immutableOut.length ≤ 65536) ∧
    added testContract story ⟨101⟩ = some transfer1.operation ∧
    attached testContract.contractId story ⟨102⟩ ≠ [] ∧ revealed testContract.contractId story ⟨100⟩ 2 = [Def.rel 2] :=
  ⟨codex_faithful, test_story, by decide +kernel, by decide +kernel, by decide +kernel, by decide +kernel,
    List.ne_nil_of_mem (List.mem_of_getElem? (i := 0) rfl), rfl⟩

open Demo in
/-- The test contract does not have the memory which C36 asks for. -/
theorem C55_not_lawful_memory : ¬ LawfulMemory Nat (TestContract Nat) := by
  intro h
  have := h.consumed testContract ⟨⟨101⟩, transfer1.operation⟩ ⟨at_ 100 0, .none⟩ (by simp [transfer1, op])
  revert this
  decide +kernel

open Demo in
/-- The test contract accepts, one after the other, two consignments spending the same cell, with a
codex that rejects operations spending absent cells. -/
theorem C55_double_spend : ChecksInputs testContract.codex ∧ ∃ o o',
    Accepted testContract (TestReader.mk [genesis, transfer1]) [genesis, transfer1] o ∧
    Accepted o.world.contract (TestReader.mk [genesis, doubleSpend]) [genesis, doubleSpend] o' ∧
    Call.applyOperation ⟨⟨101⟩, transfer1.operation⟩ ∈ o.world.calls ∧
    Call.applyOperation ⟨⟨109⟩, doubleSpend.operation⟩ ∈ o'.world.calls ∧
    ∃ a, Consumes transfer1 a ∧ Consumes doubleSpend a := by
  obtain ⟨o, h⟩ := accepted_by_test (c := testContract) (bs := [genesis, transfer1]) (by decide +kernel)
  have hc : o.world.contract = contractAt (ContractApi.contractId Nat testContract) testContract [genesis, transfer1] 2 :=
    h.shape.contract
  obtain ⟨o', h'⟩ := accepted_by_test (c := o.world.contract) (bs := [genesis, doubleSpend]) (by rw [hc]; decide +kernel)
  refine ⟨codex_checksInputs, o, o', h, h', ?_, ?_, at_ 100 0, ⟨_, List.mem_of_getElem? (i := 0) rfl, rfl⟩,
    ⟨_, List.mem_of_getElem? (i := 0) rfl, rfl⟩⟩
  · refine (List.mem_filter.1 (?_ : _ ∈ o.world.calls.filter IsCallback)).1
    rw [h.shape.callbacks]
    exact List.mem_of_getElem? (i := 2) rfl
  · refine (List.mem_filter.1 (?_ : _ ∈ o'.world.calls.filter IsCallback)).1
    rw [h'.shape.callbacks, hc]
    exact List.mem_of_getElem? (i := 2) rfl

/-! ## C56 -/

section
variable {Seal : Type} [LinearOrder Seal] [RgbSeal Seal] [OpHash]
variable {R : Type} [ReadOperation Seal R]

/-- The contract as the tests set it up (verify.rs:432-447): it knows genesis and nothing else. -/
structure SingleGenesis (c : TestContract Seal) (gid : Opid) (gop : Operation) : Prop where
  known : c.knownOps = .collect [(gid, gop)]
  seals : c.sealDefinitions = .collect [(gid, .empty)]
  witnesses : c.witnesses = .collect [(gid, [])]

end

/-- The assertions of `run` hold after every accepted stream. -/
def C56_statement : Prop :=
  ∀ (Seal : Type) [LinearOrder Seal] [RgbSeal Seal] [OpHash] (c : TestContract Seal) (gop : Operation)
    (blocks : List (OperationSeals Seal)) o, Faithful c.codex → SingleGenesis c (opid gop) gop →
    Accepted c (TestReader.mk blocks) blocks o → RunAsserts o.world.contract blocks

namespace Demo
/-- A transfer without outputs, as `operation()` of the tests (verify.rs:449-468). -/
def burn : Block := ⟨op 104 [at_ 100 0] [], .empty, some (wit 60 [1] 104)⟩
end Demo

open Demo in
/-- The assertions fail on the simplest accepted transfer, one without outputs: the contract has no
entry of seal definitions for it, while the helper expects an empty one. -/
theorem C56_refuted : ¬ C56_statement := by
  intro h
  obtain ⟨o, ho⟩ := accepted_by_test (c := testContract) (bs := [genesis, burn]) (by decide +kernel)
  obtain ⟨_, ⟨first, _, h2⟩, _⟩ := h Nat testContract knownGenesis [genesis, burn] o codex_faithful ⟨rfl, rfl, rfl⟩ ho
  have h3 : (o.world.contract.sealDefinitions.get? ⟨104⟩).isSome = true := by
    rw [← h2, OMap.get?_insert]
    split
    · rfl
    · decide +kernel
  rw [C51_seal_entries ho] at h3
  rcases h3 with h3 | ⟨i, b, h3, h4, h5⟩
  · exact absurd h3 (by decide +kernel)
  · match i, h3 with
    | 0, h3 =>
      obtain rfl : genesis = b := by simpa using h3
      exact absurd h4 (by decide +kernel)
    | 1, h3 =>
      obtain rfl : burn = b := by simpa using h3
      exact h5 rfl
    | n + 2, h3 => simp at h3

section
variable {Seal : Type} [LinearOrder Seal] [RgbSeal Seal] [OpHash]
variable {R : Type} [ReadOperation Seal R]

theorem get?_popFirst_collect {V : Type} {k : Opid} {v : V} {items : List (Opid × V)}
    (hlt : ∀ e ∈ items, k < e.1) (x : Opid) :
    (OMap.collect ((k, v) :: items)).popFirst.get? x = (OMap.collect items).get? x := by
  have h1 : (OMap.collect ((k, v) :: items)) = ⟨(k, v) :: (OMap.collect items).entries, List.pairwise_cons.2
      ⟨fun e he => by
        obtain ⟨k', v'⟩ := e
        have hg := OMap.get?_eq_some.2 he
        by_contra hno
        rw [OMap.collect, OMap.get?_extend_of_not_mem (fun w hw => hno (hlt (k', w) hw))] at hg
        simp at hg, (OMap.collect items).sorted⟩⟩ := by
    refine OMap.ext_get? fun y => ?_
    have e1 : OMap.collect ((k, v) :: items) = (OMap.empty.insert k v).extend items := rfl
    rw [e1]
    by_cases hy : ∃ w, (y, w) ∈ items
    · have hne : y ≠ k := by
        rintro rfl
        obtain ⟨w, hw⟩ := hy
        exact lt_irrefl _ (hlt _ hw)
      have e2 : ((OMap.empty.insert k v).extend items).get? y = (OMap.collect items).get? y := by
        rw [OMap.collect]
        clear e1
        have : (OMap.empty.insert k v).get? y = (OMap.empty (V := V)).get? y := by
          rw [OMap.get?_insert, if_neg hne]
        generalize (OMap.empty.insert k v) = m at this ⊢
        generalize (OMap.empty : OMap Opid V) = m' at this ⊢
        clear hy hlt
        induction items generalizing m m' with
        | nil => exact this
        | cons e items ih =>
          refine ih (m.insert e.1 e.2) (m'.insert e.1 e.2) ?_
          rw [OMap.get?_insert, OMap.get?_insert, this]
      rw [e2]
      simp only [OMap.get?, OMap.lookupL, if_neg hne]
    · rw [OMap.get?_extend_of_not_mem (fun w hw => hy ⟨w, hw⟩), OMap.get?_insert]
      by_cases hk : y = k
      · subst hk; simp [OMap.get?, OMap.lookupL]
      · rw [if_neg hk]
        have : (OMap.collect items).get? y = none := by
          rw [OMap.collect, OMap.get?_extend_of_not_mem fun w hw => hy ⟨w, hw⟩]
          rfl
        simp only [OMap.get?, OMap.lookupL, if_neg hk] at this ⊢
        exact this.symm
  rw [h1]
  rfl

theorem eq_of_nodup_map {α β : Type} {f : α → β} : ∀ {l : List α}, (l.map f).Nodup → ∀ {a b}, a ∈ l → b ∈ l → f a = f b → a = b
  | [], _, _, _, h, _, _ => by simp at h
  | x :: l, hn, a, b, ha, hb, hab => by
    simp only [List.map_cons, List.nodup_cons, List.mem_map, not_exists, not_and] at hn
    rcases List.mem_cons.1 ha with rfl | ha' <;> rcases List.mem_cons.1 hb with rfl | hb'
    · rfl
    · exact absurd hab.symm (hn.1 b hb')
    · exact absurd hab (hn.1 a ha')
    · exact eq_of_nodup_map hn.2 ha' hb' hab

theorem get?_collect_map {α V : Type} {f : α → Opid} {g : α → V} {l : List α} (hn : (l.map f).Nodup) (x : Opid) :
    (OMap.collect (l.map fun a => (f a, g a))).get? x = (l.find? fun a => decide (f a = x)).map g := by
  cases hf : l.find? fun a => decide (f a = x) with
  | none =>
    rw [OMap.collect, OMap.get?_extend_of_not_mem]
    · rfl
    · intro v hv
      obtain ⟨a, ha, e⟩ := List.mem_map.1 hv
      simp only [Prod.mk.injEq] at e
      exact absurd e.1 (by simpa using List.find?_eq_none.1 hf a ha)
  | some a =>
    have ha := List.mem_of_find?_eq_some hf
    have hx : f a = x := by simpa using List.find?_some hf
    rw [OMap.collect, OMap.get?_extend_of_mem (v := g a)]
    · rfl
    · exact List.mem_map.2 ⟨a, ha, by rw [hx]⟩
    · intro v hv
      obtain ⟨a', ha', e⟩ := List.mem_map.1 hv
      simp only [Prod.mk.injEq] at e
      have : a' = a := eq_of_nodup_map hn ha' ha (e.1.trans hx.symm)
      rw [← e.2, this]

theorem head_of_min {V : Type} {m : OMap Opid V} {k : Opid} {v : V} (h : m.get? k = some v)
    (hmin : ∀ x, (m.get? x).isSome → k ≤ x) : m.entries.head? = some (k, v) := by
  have hm := OMap.get?_eq_some.1 h
  have hs := m.sorted
  cases hent : m.entries with
  | nil => rw [hent] at hm; simp at hm
  | cons e l =>
    rw [hent] at hm hs
    rcases List.mem_cons.1 hm with he | he
    · rw [List.head?_cons, he]
    · have h1 := (List.pairwise_cons.1 hs).1 _ he
      have h2 : k ≤ e.1 := by
        refine hmin _ ?_
        have : m.get? e.1 = some e.2 := OMap.get?_eq_some.2 (by rw [hent]; simp)
        rw [this]; rfl
      exact absurd (lt_of_lt_of_le h1 h2) (lt_irrefl _)

/-- What holds (missing: everything the hypotheses exclude).  The assertions of `run` hold after an
accepted stream if its first operation is genesis and, with the codex id in place of the contract id
too, has a smaller id than all others, the ids of the others are distinct, and each of the others
has a witness and reveals some seal. -/
theorem C56_partial {c : TestContract Seal} {gop : Operation} (hg : SingleGenesis c (opid gop) gop) (hf : Faithful c.codex)
    {r : R} {b₀ : OperationSeals Seal} {rest : List (OperationSeals Seal)} {o} (h : Accepted c r (b₀ :: rest) o)
    (h0 : opid { b₀.operation with contractId := c.contractId } = opid gop)
    (hlt : ∀ b ∈ rest, opid b₀.operation < opid b.operation ∧ opid gop < opid b.operation)
    (hn : (rest.map fun b => opid b.operation).Nodup)
    (hw : ∀ b ∈ rest, b.witness.isSome) (hd : ∀ b ∈ rest, b.definedSeals.entries ≠ []) :
    RunAsserts o.world.contract (b₀ :: rest) := by
  have hid0 : idAt c.contractId 0 b₀ = opid gop := h0
  have hne : ∀ b ∈ rest, opid b.operation ≠ opid gop := fun b hb e => by
    have := (hlt b hb).2; rw [e] at this; exact lt_irrefl _ this
  have hfind : ∀ {x : Opid}, x = opid gop → (rest.find? fun b => decide (opid b.operation = x)) = none := by
    rintro x rfl
    rw [List.find?_eq_none]
    intro b hb
    simpa using hne b hb
  have hmem : ∀ {x : Opid} {b : OperationSeals Seal}, (rest.find? fun b => decide (opid b.operation = x)) = some b →
      b ∈ rest ∧ opid b.operation = x := fun hx => ⟨List.mem_of_find?_eq_some hx, by simpa using List.find?_some hx⟩
  have hsingle : ∀ {V : Type} (v : V) (x : Opid), (OMap.collect [(opid gop, v)]).get? x = if x = opid gop then some v else none := by
    intro V v x
    have : OMap.collect [(opid gop, v)] = OMap.empty.insert (opid gop) v := rfl
    rw [this, OMap.get?_insert]
    by_cases hx : x = opid gop <;> simp [hx, OMap.get?, OMap.empty, OMap.lookupL]
  -- the stream's blocks with id x after the first
  have htail : ∀ (x : Opid) {β : Type} (f : OperationSeals Seal → Option β),
      ((b₀ :: rest).zipIdx.filterMap fun e => if idAt c.contractId e.2 e.1 = x then f e.1 else none) =
        (if opid gop = x then (f b₀).toList else []) ++ rest.filterMap fun b => if opid b.operation = x then f b else none := by
    intro x β f
    have e1 : ∀ (l : List (OperationSeals Seal)) (k : Nat), k ≠ 0 →
        ((l.zipIdx k).filterMap fun e => if idAt c.contractId e.2 e.1 = x then f e.1 else none) =
          l.filterMap fun b => if opid b.operation = x then f b else none := by
      intro l
      induction l with
      | nil => intro k _; rfl
      | cons b l ih =>
        intro k hk
        rw [List.zipIdx_cons, List.filterMap_cons, List.filterMap_cons, ih (k + 1) (by omega)]
        have : idAt c.contractId k b = opid b.operation := by simp [idAt, opAt, hk]
        simp only [this]
    rw [List.zipIdx_cons, List.filterMap_cons, e1 _ _ (by omega)]
    simp only [hid0]
    by_cases hx : opid gop = x
    · simp only [hx, if_true]
      cases f b₀ <;> rfl
    · simp [hx]
  have huniq : ∀ (x : Opid) {β : Type} (f : OperationSeals Seal → Option β),
      (rest.filterMap fun b => if opid b.operation = x then f b else none) =
        ((rest.find? fun b => decide (opid b.operation = x)).bind f).toList := by
    intro x β f
    clear * - hn
    induction rest with
    | nil => rfl
    | cons b l ih =>
      simp only [List.map_cons, List.nodup_cons] at hn
      rw [List.filterMap_cons, List.find?_cons]
      by_cases hx : opid b.operation = x
      · simp only [hx, if_true, decide_true]
        have : (l.filterMap fun b => if opid b.operation = x then f b else none) = [] := by
          rw [List.filterMap_eq_nil_iff]
          intro b' hb'
          rw [if_neg]
          intro hx'
          exact hn.1 (List.mem_map.2 ⟨b', hb', hx'.trans hx.symm⟩)
        rw [this]
        cases hfb : f b <;> simp [hfb]
      · simp only [hx, if_false, decide_false]
        exact ih hn.2
  have hpop : ∀ {V : Type} (g : OperationSeals Seal → V) (x : Opid),
      (OMap.collect ((b₀ :: rest).map fun e => (opid e.operation, g e))).popFirst.get? x =
        (rest.find? fun b => decide (opid b.operation = x)).map g := by
    intro V g x
    rw [List.map_cons, get?_popFirst_collect, get?_collect_map hn]
    intro e he
    obtain ⟨b, hb, rfl⟩ := List.mem_map.1 he
    exact (hlt b hb).1
  refine ⟨?_, ?_, ?_⟩
  · have hget : ∀ x, o.world.contract.knownOps.get? x = (if x = opid gop then some gop else none).or
        ((rest.find? fun b => decide (opid b.operation = x)).map (·.operation)) := by
      intro x
      rw [C51_known_operations hf h, hg.known, hsingle]
      rfl
    refine ⟨(opid gop, gop), head_of_min (by rw [hget]; simp) ?_, ?_⟩
    · intro x hx
      rw [hget] at hx
      by_cases he : x = opid gop
      · rw [he]
      · simp only [he, if_false, Option.none_or, Option.isSome_map] at hx
        obtain ⟨b, hb⟩ := Option.isSome_iff_exists.1 hx
        obtain ⟨hb', rfl⟩ := hmem hb
        exact le_of_lt (hlt b hb').2
    · refine OMap.ext_get? fun x => ?_
      rw [OMap.get?_insert, hget, hpop]
      by_cases he : x = opid gop <;> simp [he]
  · have hsome : ∀ x, (o.world.contract.sealDefinitions.get? x).isSome ↔
        x = opid gop ∨ (rest.find? fun b => decide (opid b.operation = x)).isSome := by
      intro x
      rw [C51_seal_entries h, hg.seals, hsingle]
      constructor
      · rintro (hx | ⟨i, b, hb, hx, _⟩)
        · left
          by_contra hne
          simp [hne] at hx
        · cases i with
          | zero =>
            left
            simp only [List.getElem?_cons_zero, Option.some.injEq] at hb
            subst hb
            rw [← hx, hid0]
          | succ i =>
            right
            rw [List.find?_isSome]
            exact ⟨b, List.mem_of_getElem? (i := i) (by simpa using hb), by simpa [idAt, opAt] using hx⟩
      · rintro (hx | hx)
        · left; simp [hx]
        · right
          obtain ⟨b, hb⟩ := Option.isSome_iff_exists.1 hx
          obtain ⟨hb, hbx⟩ := hmem hb
          obtain ⟨i, hi⟩ := List.getElem?_of_mem hb
          exact ⟨i + 1, b, by simpa using hi, hbx, hd b hb⟩
    obtain ⟨g, hgs⟩ := Option.isSome_iff_exists.1 ((hsome (opid gop)).2 (.inl rfl))
    refine ⟨(opid gop, g), head_of_min hgs ?_, ?_⟩
    · intro x hx
      rcases (hsome x).1 hx with rfl | hx
      · exact le_refl _
      · obtain ⟨b, hb⟩ := Option.isSome_iff_exists.1 hx
        obtain ⟨hb', rfl⟩ := hmem hb
        exact le_of_lt (hlt b hb').2
    · refine OMap.ext_get? fun x => ?_
      rw [OMap.get?_insert, hpop]
      split
      · rename_i hx; rw [hx, hgs]
      · rename_i hx
        cases hfx : rest.find? fun b => decide (opid b.operation = x) with
        | none =>
          have := hsome x
          rw [hfx] at this
          simp only [hx, Option.isSome_none, Bool.false_eq_true, or_self, iff_false, Bool.not_eq_true,
            Option.isSome_eq_false_iff, Option.isNone_iff_eq_none] at this
          rw [this]; rfl
        | some b =>
          obtain ⟨m, hm⟩ := Option.isSome_iff_exists.1 ((hsome x).2 (.inr (by rw [hfx]; rfl)))
          rw [hm, Option.map_some, Option.some.injEq]
          refine OMap.ext_get? fun p => ?_
          have := C51_seals h x p
          rw [hm, hg.seals, hsingle, if_neg hx, revealed, htail x (fun b => b.definedSeals.get? p), if_neg (Ne.symm hx), huniq, hfx] at this
          simp only [Option.bind_some, Option.bind_none, List.nil_append, Option.or_none] at this
          rw [this, OMap.collect, OMap.get?_extend_entries]
          cases b.definedSeals.get? p <;> rfl
  · have hget : ∀ x, x ≠ opid gop → o.world.contract.witnesses.get? x =
        (rest.find? fun b => decide (opid b.operation = x)).map (·.witness.toList) := by
      intro x hx
      rw [C51_witnesses h, hg.witnesses, hsingle, if_neg hx, attached, htail x (fun b => b.witness), if_neg (Ne.symm hx), huniq]
      cases hfx : rest.find? fun b => decide (opid b.operation = x) with
      | none => simp
      | some b =>
        obtain ⟨w, hbw⟩ := Option.isSome_iff_exists.1 (hw b (hmem hfx).1)
        simp [hbw]
    have hg0 : (o.world.contract.witnesses.get? (opid gop)).isSome := by
      rw [C51_witnesses h, hg.witnesses, hsingle]
      split <;> simp
    obtain ⟨g, hgs⟩ := Option.isSome_iff_exists.1 hg0
    refine ⟨(opid gop, g), head_of_min hgs ?_, ?_⟩
    · intro x hx
      by_cases he : x = opid gop
      · rw [he]
      · rw [hget x he, Option.isSome_map] at hx
        obtain ⟨b, hb⟩ := Option.isSome_iff_exists.1 hx
        obtain ⟨hb', rfl⟩ := hmem hb
        exact le_of_lt (hlt b hb').2
    · refine OMap.ext_get? fun x => ?_
      rw [OMap.get?_insert, hpop]
      split
      · rename_i hx; rw [hx, hgs]
      · rename_i hx; rw [hget x hx]

end

open Demo in
example : ∃ o, RunAsserts (Seal := Nat) o story := by
  obtain ⟨o, h⟩ := test_story
  refine ⟨_, C56_partial (gop := knownGenesis) ⟨rfl, rfl, rfl⟩ codex_faithful h rfl ?_ ?_ ?_ ?_⟩
  · decide +kernel
  · decide +kernel
  · decide +kernel
  · decide +kernel

end Rgb
