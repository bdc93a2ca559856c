import Verif.Props.Agreement
import Verif.Props.Merging

set_option linter.unusedSectionVars false

/-! # C91: what a contract is told suffices to hand the history on -/

namespace Rgb
open Spec

section
variable {Seal : Type} [LinearOrder Seal] [RgbSeal Seal] [OpHash]
variable {C : Type} [ContractApi Seal C]
variable {R : Type} [ReadOperation Seal R]

namespace Spec

/-- Any number of accepted evaluations one after the other, of the given consignments, each starting with a
known operation, from contract `c` to contract `c'`, `l` being all the calls made. -/
inductive Received : C → List (List (OperationSeals Seal)) → List (Call Seal) → C → Prop where
  | nil (c : C) : Received c [] [] c
  | cons {R : Type} [ReadOperation Seal R] {c c' : C} {r : R} {blocks : List (OperationSeals Seal)}
      {o : Outcome Seal R C (ReadOperation.Error Seal R)} {rest : List (List (OperationSeals Seal))} {l : List (Call Seal)} :
      Accepted c r blocks o → (∀ b, blocks[0]? = some b → KnownStart c b) →
      Received o.world.contract rest l c' → Received c (blocks :: rest) (o.world.calls ++ l) c'

/-- The stream `zs` is read off the record `l` of calls made by evaluations for the contract with id `cid`: it
has the operations the contract was asked about, each once, as they were applied or as `old` has them, with a
witness which was reported for them, if any was, and with all seals reported for them, creators before
consumers. -/
structure ReadOff (cid : ContractId) (old : Opid → Option Operation) (l : List (Call Seal))
    (zs : List (OperationSeals Seal)) : Prop where
  distinct : ∀ (i j : Nat) b b', zs[i]? = some b → zs[j]? = some b' → idAt cid i b = idAt cid j b' → i = j
  asked : ∀ (k : Nat) z, zs[k]? = some z → ∃ known, Call.isKnown (idAt cid k z) known ∈ l
  present : ∀ o known, Call.isKnown o known ∈ l → ∃ (k : Nat) (z : OperationSeals Seal), zs[k]? = some z ∧ idAt cid k z = o
  operation : ∀ (k : Nat) z, zs[k]? = some z →
    Call.applyOperation ⟨idAt cid k z, opAt cid k z⟩ ∈ l ∨ old (idAt cid k z) = some (opAt cid k z)
  witness : ∀ (k : Nat) z w, zs[k]? = some z → z.witness = some w → Call.applyWitness (idAt cid k z) w ∈ l
  noWitness : ∀ (k : Nat) z w, zs[k]? = some z → z.witness = none → Call.applyWitness (idAt cid k z) w ∉ l
  seals : ∀ (k : Nat) z p d, zs[k]? = some z →
    ((p, d) ∈ z.definedSeals.entries ↔ ∃ s, Call.applySeals (idAt cid k z) s ∈ l ∧ (p, d) ∈ s.entries)
  creatorsFirst : ∀ (i j : Nat) b b' a, zs[i]? = some b → zs[j]? = some b' → Consumes b a → a.opid = idAt cid j b' → j < i

end Spec

theorem Spec.Received.allAccepted {c c' : C} {L : List (List (OperationSeals Seal))} {l : List (Call Seal)}
    (h : Received c L l c') : AllAccepted c L c' := by
  induction h with
  | nil c => exact .nil c
  | cons ha h0 _ ih => exact .cons ha h0 ih

theorem Spec.Received.history {c c' : C} {L : List (List (OperationSeals Seal))} {l : List (Call Seal)}
    (h : Received c L l c') : History KnownStart c l c' := by
  induction h with
  | nil c => exact .nil c
  | cons ha h0 _ ih => exact .step (fun b hb => h0 b (delivers_first ha.delivers hb)) ha.run ih

/-- The questions and reports to the contract in an accepted evaluation are those due for its blocks. -/
theorem accepted_calls {c : C} {r : R} {blocks : List (OperationSeals Seal)} {o} (h : Accepted c r blocks o) {x : Call Seal}
    (hx : IsCallback x = true ∨ ∃ i known, x = .isKnown i known) : x ∈ o.world.calls ↔
      ∃ i b, blocks[i]? = some b ∧
        (x ∈ queries (ContractApi.contractId Seal c) (contractAt (ContractApi.contractId Seal c) c blocks i) i b ∨
          x ∈ callbacks (ContractApi.contractId Seal c) (contractAt (ContractApi.contractId Seal c) c blocks i) i b) := by
  obtain ⟨segs, tail, ⟨h1, h2⟩, h3, h4⟩ := h.shape.stop
  have ht : tail = [] := by
    rcases h4 with ⟨_, h4, _⟩ | ⟨_, h4, _⟩ | ⟨b, e, h4, _⟩
    · exact h4
    · rw [h.ok] at h4; simp at h4
    · rw [h.ok] at h4; simp at h4
  have n1 : x ≠ .contractId := by rintro rfl; simp [IsCallback] at hx
  have n2 : x ≠ .codex := by rintro rfl; simp [IsCallback] at hx
  have n3 : x ≠ .read := by rintro rfl; simp [IsCallback] at hx
  have n4 : ∀ w s m, x ≠ .verifySealsClosing w s m := by rintro w s m rfl; simp [IsCallback] at hx
  rw [h3, ht]
  have n5 : ∀ i b seals, x ∉ sealQueries i b seals := by
    intro i b seals hm
    unfold sealQueries at hm
    split at hm
    · exact n4 _ _ _ (List.mem_singleton.1 hm)
    · simp at hm
  simp only [List.mem_append, List.mem_cons, List.not_mem_nil, or_false, n1, n2, n3, false_or, List.mem_flatten]
  constructor
  · rintro ⟨l, hl, hm⟩
    obtain ⟨i, hi⟩ := List.getElem?_of_mem hl
    have hlt : i < blocks.length := h1 ▸ lt_length_of_getElem? hi
    obtain ⟨seals, _, e⟩ := h2 i blocks[i] l (by simp) hi
    rw [e] at hm
    simp only [List.mem_cons, List.mem_append, n3, n5, false_or, or_false] at hm
    exact ⟨i, blocks[i], by simp, hm⟩
  · rintro ⟨i, b, hb, hm⟩
    have hlt : i < segs.length := h1 ▸ lt_length_of_getElem? hb
    refine ⟨segs[i], List.getElem_mem hlt, ?_⟩
    obtain ⟨seals, _, e⟩ := h2 i b segs[i] hb (by simp)
    rw [e]
    simp only [List.mem_cons, List.mem_append, n3, n5, false_or, or_false]
    exact hm

theorem accepted_asked {c : C} {r : R} {blocks : List (OperationSeals Seal)} {o} (h : Accepted c r blocks o) {x : Opid} :
    (∃ known, Call.isKnown x known ∈ o.world.calls) ↔ ∃ i b, blocks[i]? = some b ∧ idAt (ContractApi.contractId Seal c) i b = x := by
  simp only [accepted_calls h (.inr ⟨_, _, rfl⟩)]
  constructor
  · rintro ⟨known, i, b, hb, hm | hm⟩
    · refine ⟨i, b, hb, ?_⟩
      unfold queries at hm
      split at hm <;> simp at hm <;> exact hm.1.symm
    · rw [← filter_callbacks] at hm
      simp [IsCallback] at hm
  · rintro ⟨i, b, hb, rfl⟩
    refine ⟨ContractApi.isKnown Seal (contractAt (ContractApi.contractId Seal c) c blocks i) (idAt (ContractApi.contractId Seal c) i b),
      i, b, hb, .inl ?_⟩
    unfold queries
    split <;> rename_i hk
    · rw [hk]; simp
    · rw [Bool.not_eq_true] at hk; rw [hk]; simp

theorem accepted_witness {c : C} {r : R} {blocks : List (OperationSeals Seal)} {o} (h : Accepted c r blocks o) {x : Opid} {w} :
    Call.applyWitness x w ∈ o.world.calls ↔
      ∃ i b, blocks[i]? = some b ∧ idAt (ContractApi.contractId Seal c) i b = x ∧ b.witness = some w := by
  rw [accepted_calls h (.inl rfl)]
  refine exists_congr fun i => exists_congr fun b => and_congr_right fun hb => ?_
  constructor
  · rintro (hm | hm)
    · unfold queries at hm
      split at hm <;> simp at hm
    · unfold callbacks witnessCallbacks operationCallbacks sealCallbacks at hm
      simp only [List.mem_append] at hm
      rcases hm with (hm | hm) | hm
      · split at hm
        · rename_i w' hw
          simp only [List.mem_singleton, Call.applyWitness.injEq] at hm
          exact ⟨hm.1.symm, by rw [hw, hm.2]⟩
        · simp at hm
      · split at hm
        · simp at hm
        · split at hm <;> simp at hm
      · split at hm <;> simp at hm
  · rintro ⟨rfl, hw⟩
    refine .inr ?_
    unfold callbacks witnessCallbacks
    rw [hw]
    simp

theorem accepted_seals {c : C} {r : R} {blocks : List (OperationSeals Seal)} {o} (h : Accepted c r blocks o) {x : Opid} {s} :
    Call.applySeals x s ∈ o.world.calls ↔ s.entries ≠ [] ∧
      ∃ i b, blocks[i]? = some b ∧ idAt (ContractApi.contractId Seal c) i b = x ∧ b.definedSeals = s := by
  rw [accepted_calls h (.inl rfl), ← exists_and_left]
  refine exists_congr fun i => ?_
  rw [← exists_and_left]
  refine exists_congr fun b => ?_
  rw [and_left_comm]
  refine and_congr_right fun hb => ?_
  constructor
  · rintro (hm | hm)
    · unfold queries at hm
      split at hm <;> simp at hm
    · unfold callbacks witnessCallbacks operationCallbacks sealCallbacks at hm
      simp only [List.mem_append] at hm
      rcases hm with (hm | hm) | hm
      · split at hm <;> simp at hm
      · split at hm
        · simp at hm
        · split at hm <;> simp at hm
      · split at hm
        · simp at hm
        · rename_i hne
          simp only [List.mem_singleton, Call.applySeals.injEq] at hm
          exact ⟨by rw [hm.2]; exact hne, hm.1.symm, hm.2.symm⟩
  · rintro ⟨hne, rfl, rfl⟩
    refine .inr ?_
    unfold callbacks sealCallbacks
    rw [if_neg hne]
    simp

theorem received_asked (hl : Lawful Seal C) {c c' : C} {L : List (List (OperationSeals Seal))} {l : List (Call Seal)}
    (h : Received c L l c') {x : Opid} : (∃ known, Call.isKnown x known ∈ l) ↔
      ∃ xs ∈ L, ∃ i b, xs[i]? = some b ∧ idAt (ContractApi.contractId Seal c) i b = x := by
  induction h with
  | nil c => simp
  | @cons R _ c c' r xs o rest l ha h0 _ ih =>
    have hid : ContractApi.contractId Seal o.world.contract = ContractApi.contractId Seal c := by
      rw [ha.shape.contract]; exact hl.contractAt_id
    rw [hid] at ih
    simp only [List.mem_append, exists_or, accepted_asked ha, ih, List.mem_cons, or_and_right, exists_eq_left]

theorem received_witness (hl : Lawful Seal C) {c c' : C} {L : List (List (OperationSeals Seal))} {l : List (Call Seal)}
    (h : Received c L l c') {x : Opid} {w} : Call.applyWitness x w ∈ l ↔
      ∃ xs ∈ L, ∃ i b, xs[i]? = some b ∧ idAt (ContractApi.contractId Seal c) i b = x ∧ b.witness = some w := by
  induction h with
  | nil c => simp
  | @cons R _ c c' r xs o rest l ha h0 _ ih =>
    have hid : ContractApi.contractId Seal o.world.contract = ContractApi.contractId Seal c := by
      rw [ha.shape.contract]; exact hl.contractAt_id
    rw [hid] at ih
    simp only [List.mem_append, exists_or, accepted_witness ha, ih, List.mem_cons, or_and_right, exists_eq_left]

theorem received_seals (hl : Lawful Seal C) {c c' : C} {L : List (List (OperationSeals Seal))} {l : List (Call Seal)}
    (h : Received c L l c') {x : Opid} {s} : Call.applySeals x s ∈ l ↔ s.entries ≠ [] ∧
      ∃ xs ∈ L, ∃ i b, xs[i]? = some b ∧ idAt (ContractApi.contractId Seal c) i b = x ∧ b.definedSeals = s := by
  induction h with
  | nil c => simp
  | @cons R _ c c' r xs o rest l ha h0 _ ih =>
    have hid : ContractApi.contractId Seal o.world.contract = ContractApi.contractId Seal c := by
      rw [ha.shape.contract]; exact hl.contractAt_id
    rw [hid] at ih
    simp only [List.mem_append, exists_or, accepted_seals ha, ih, List.mem_cons, or_and_right, exists_eq_left, and_or_left]

theorem received_operation (hl : Lawful Seal C) {c c' : C} {L : List (List (OperationSeals Seal))} {l : List (Call Seal)}
    (hf : Faithful (ContractApi.codex Seal c)) (h : Received c L l c') {v : VerifiedOperation} (hv : Call.applyOperation v ∈ l) :
    ∃ xs ∈ L, ∃ i b, xs[i]? = some b ∧ idAt (ContractApi.contractId Seal c) i b = v.opid ∧
      opAt (ContractApi.contractId Seal c) i b = v.operation := by
  induction h with
  | nil c => simp at hv
  | @cons R _ c c' r xs o rest l ha h0 _ ih =>
    have hid : ContractApi.contractId Seal o.world.contract = ContractApi.contractId Seal c := by
      rw [ha.shape.contract]; exact hl.contractAt_id
    have hcx : ContractApi.codex Seal o.world.contract = ContractApi.codex Seal c := by
      rw [ha.shape.contract]; exact hl.contractAt_codex
    rw [hid, hcx] at ih
    rcases List.mem_append.1 hv with hv | hv
    · obtain ⟨i, b, hb, hm⟩ := (accepted_calls ha (.inl rfl)).1 hv
      refine ⟨xs, by simp, i, b, hb, ?_⟩
      rcases hm with hm | hm
      · unfold queries at hm
        split at hm <;> simp at hm
      · unfold callbacks witnessCallbacks operationCallbacks sealCallbacks at hm
        simp only [List.mem_append] at hm
        rcases hm with (hm | hm) | hm
        · split at hm <;> simp at hm
        · split at hm
          · simp at hm
          · split at hm
            · rename_i u hu
              simp only [List.mem_singleton, Call.applyOperation.injEq] at hm
              subst hm
              unfold codexAnswer at hu
              rw [hl.contractAt_codex] at hu
              obtain ⟨e1, e2⟩ := hf _ _ _ _ _ hu
              exact ⟨e1.symm, e2.symm⟩
            · simp at hm
        · split at hm <;> simp at hm
    · obtain ⟨ys, hy, h⟩ := ih hf hv
      exact ⟨ys, by simp [hy], h⟩

/-- What is read off the record is a merge of the consignments received. -/
theorem C91_merges (hl : Lawful Seal C) {c c' : C} {L : List (List (OperationSeals Seal))} {l : List (Call Seal)}
    (hf : Faithful (ContractApi.codex Seal c)) (h : Received c L l c')
    (hno : ∀ xs ∈ L, ∀ ys ∈ L, NoCollision (ContractApi.contractId Seal c) xs ys)
    {old : Opid → Option Operation}
    (hold : ∀ xs ∈ L, ∀ (i : Nat) b p, xs[i]? = some b → old (idAt (ContractApi.contractId Seal c) i b) = some p →
      p = opAt (ContractApi.contractId Seal c) i b)
    {zs : List (OperationSeals Seal)} (hz : ReadOff (ContractApi.contractId Seal c) old l zs) :
    Merges (ContractApi.contractId Seal c) (· ∈ L) zs := by
  generalize hcid : ContractApi.contractId Seal c = cid at *
  have ids : ∀ {k : Nat} {z}, zs[k]? = some z → ∃ xs ∈ L, ∃ i b, xs[i]? = some b ∧ idAt cid i b = idAt cid k z := by
    intro k z hk
    have := (received_asked hl h).1 (hz.asked k z hk)
    rwa [hcid] at this
  have ops : ∀ {k : Nat} {z}, zs[k]? = some z → ∀ xs ∈ L, ∀ i b, xs[i]? = some b → idAt cid i b = idAt cid k z →
      opAt cid i b = opAt cid k z := by
    intro k z hk xs hx i b hb e
    rcases hz.operation k z hk with hv | hv
    · obtain ⟨ys, hy, j, b', hb', e1, e2⟩ := received_operation hl hf h hv
      rw [hcid] at e1 e2
      rw [← show opAt cid j b' = opAt cid k z from e2]
      exact hno xs hx ys hy i j b b' hb hb' (e.trans e1.symm)
    · rw [← e] at hv
      exact (hold xs hx i b _ hb hv).symm
  refine ⟨hz.distinct, ?_, ?_, ?_, ?_, hz.creatorsFirst⟩
  · intro k z hk
    cases hw : z.witness with
    | some w =>
      have := (received_witness hl h).1 (hz.witness k z w hk hw)
      rw [hcid] at this
      obtain ⟨xs, hx, i, b, hb, e, e'⟩ := this
      exact ⟨xs, i, b, hx, hb, ops hk xs hx i b hb e, e'⟩
    | none =>
      obtain ⟨xs, hx, i, b, hb, e⟩ := ids hk
      refine ⟨xs, i, b, hx, hb, ops hk xs hx i b hb e, ?_⟩
      cases hw' : b.witness with
      | none => rfl
      | some w => exact absurd ((received_witness hl h).2 ⟨xs, hx, i, b, hb, by rw [hcid]; exact e, hw'⟩) (hz.noWitness k z w hk hw)
  · intro xs i x hx hb
    obtain ⟨known, hq⟩ := (received_asked hl h).2 ⟨xs, hx, i, x, hb, by rw [hcid]⟩
    exact hz.present _ _ hq
  · intro k z p d hk hd
    obtain ⟨s, hs, hd'⟩ := (hz.seals k z p d hk).1 hd
    obtain ⟨_, xs, hx, i, b, hb, e, rfl⟩ := (received_seals hl h).1 hs
    rw [hcid] at e
    exact ⟨xs, i, b, hx, hb, e, hd'⟩
  · intro xs i x k z p d hx hb hk e hd
    refine (hz.seals k z p d hk).2 ⟨x.definedSeals, ?_, hd⟩
    refine (received_seals hl h).2 ⟨List.ne_nil_of_mem hd, xs, hx, i, x, hb, ?_, rfl⟩
    rw [hcid]; exact e.symm

/-- Conversely, a merge of the consignments which lacks a witness only where all of them do is read off the record. -/
theorem C91_readOff (hl : Lawful Seal C) {c c' : C} {L : List (List (OperationSeals Seal))} {l : List (Call Seal)}
    (hf : Faithful (ContractApi.codex Seal c)) (h : Received c L l c')
    (hno : ∀ xs ∈ L, ∀ ys ∈ L, NoCollision (ContractApi.contractId Seal c) xs ys)
    {old : Opid → Option Operation}
    (hold : ∀ xs ∈ L, ∀ (i : Nat) b, xs[i]? = some b →
      ContractApi.isKnown Seal c (idAt (ContractApi.contractId Seal c) i b) = true →
      old (idAt (ContractApi.contractId Seal c) i b) = some (opAt (ContractApi.contractId Seal c) i b))
    {zs : List (OperationSeals Seal)} (hz : Merges (ContractApi.contractId Seal c) (· ∈ L) zs)
    (hwn : ∀ (k : Nat) z, zs[k]? = some z → z.witness = none → ∀ xs ∈ L, ∀ (i : Nat) b, xs[i]? = some b →
      idAt (ContractApi.contractId Seal c) i b = idAt (ContractApi.contractId Seal c) k z → b.witness = none) :
    ReadOff (ContractApi.contractId Seal c) old l zs := by
  refine ⟨hz.distinct, ?_, ?_, ?_, ?_, ?_, ?_, hz.creatorsFirst⟩
  · intro k z hk
    obtain ⟨xs, i, x, hx, hb, e, _⟩ := hz.source k z hk
    exact (received_asked hl h).2 ⟨xs, hx, i, x, hb, by rw [idAt, idAt, e]⟩
  · intro x known hq
    obtain ⟨xs, hx, i, b, hb, rfl⟩ := (received_asked hl h).1 ⟨known, hq⟩
    exact hz.present xs i b hx hb
  · intro k z hk
    obtain ⟨xs, i, x, hx, hb, e, _⟩ := hz.source k z hk
    have e' : idAt (ContractApi.contractId Seal c) i x = idAt (ContractApi.contractId Seal c) k z := by rw [idAt, idAt, e]
    rw [← e, ← e']
    cases hkn : ContractApi.isKnown Seal c (idAt (ContractApi.contractId Seal c) i x) with
    | true => exact .inr (hold xs hx i x hb hkn)
    | false =>
      refine .inl ?_
      have h1 := (allAccepted_known hl hf h.allAccepted (idAt (ContractApi.contractId Seal c) i x)).2 (.inr ⟨xs, hx, i, x, hb, rfl⟩)
      have h2 := ((C34_applied_once hl hf h.history).2.2 _).1 h1
      rw [hkn] at h2
      simp only [Bool.false_eq_true, false_or, List.mem_map] at h2
      obtain ⟨v, hv, ev⟩ := h2
      have hv' := applied_mem hv
      obtain ⟨ys, hy, j, y, hby, e1, e2⟩ := received_operation hl hf h hv'
      have := hno xs hx ys hy i j x y hb hby (ev.symm.trans e1.symm)
      rw [this, e2, ← ev]
      exact hv'
  · intro k z w hk hw
    obtain ⟨xs, i, x, hx, hb, e, ew⟩ := hz.source k z hk
    exact (received_witness hl h).2 ⟨xs, hx, i, x, hb, by rw [idAt, idAt, e], ew.trans hw⟩
  · intro k z w hk hw hmem
    obtain ⟨xs, hx, i, x, hb, e, ew⟩ := (received_witness hl h).1 hmem
    rw [hwn k z hk hw xs hx i x hb e] at ew
    simp at ew
  · intro k z p d hk
    constructor
    · intro hd
      obtain ⟨xs, i, x, hx, hb, e, hd'⟩ := hz.revealed k z p d hk hd
      exact ⟨x.definedSeals, (received_seals hl h).2 ⟨List.ne_nil_of_mem hd', xs, hx, i, x, hb, e, rfl⟩, hd'⟩
    · rintro ⟨s, hs, hd⟩
      obtain ⟨_, xs, hx, i, x, hb, e, rfl⟩ := (received_seals hl h).1 hs
      exact hz.kept xs i x k z p d hx hb hk e.symm hd

theorem Spec.Received.each (hl : Lawful Seal C) {c c' : C} {L : List (List (OperationSeals Seal))} {l : List (Call Seal)}
    (h : Received c L l c') : ∀ xs ∈ L, ∃ (d : C) (R : Type) (_ : ReadOperation Seal R) (r : R) (o : _),
      ContractApi.contractId Seal d = ContractApi.contractId Seal c ∧ Accepted d r xs o := by
  induction h with
  | nil c => simp
  | @cons R _ c c' r xs o rest l ha h0 _ ih =>
    have hid : ContractApi.contractId Seal o.world.contract = ContractApi.contractId Seal c := by
      rw [ha.shape.contract]; exact hl.contractAt_id
    rw [hid] at ih
    intro ys hy
    rcases List.mem_cons.1 hy with rfl | hy
    · exact ⟨c, R, _, r, o, rfl, ha⟩
    · exact ih ys hy

theorem Spec.Received.starts (hl : Lawful Seal C) {c c' : C} {L : List (List (OperationSeals Seal))} {l : List (Call Seal)}
    (h : Received c L l c')
    (h0 : ∀ xs ∈ L, ∀ ys ∈ L, ∀ x y, xs[0]? = some x → ys[0]? = some y →
      idAt (ContractApi.contractId Seal c) 0 x = idAt (ContractApi.contractId Seal c) 0 y) :
    ∀ xs ∈ L, ∀ x, xs[0]? = some x →
      x.operation.contractId.bytes = (ContractApi.codex Seal c).codexId.bytes ∧ KnownStart c x := by
  induction h with
  | nil c => simp
  | @cons R _ c c' r xs o rest l ha hk _ ih =>
    have hid : ContractApi.contractId Seal o.world.contract = ContractApi.contractId Seal c := by
      rw [ha.shape.contract]; exact hl.contractAt_id
    have hcx : ContractApi.codex Seal o.world.contract = ContractApi.codex Seal c := by
      rw [ha.shape.contract]; exact hl.contractAt_codex
    have IH := ih (by rw [hid]; exact fun ys hy zs hz => h0 ys (by simp [hy]) zs (by simp [hz]))
    intro ys hy y hb
    rcases List.mem_cons.1 hy with rfl | hy
    · exact ⟨(ha.valid 0 y hb).codex rfl, hk y hb⟩
    · obtain ⟨h1, h2⟩ := IH ys hy y hb
      rw [hcx] at h1
      refine ⟨h1, ?_⟩
      cases xs with
      | nil =>
        have : o.world.contract = c := by rw [ha.shape.contract]; rfl
        rwa [this] at h2
      | cons x xs =>
        have e : idAt (ContractApi.contractId Seal c) 0 x = idAt (ContractApi.contractId Seal c) 0 y :=
          h0 (x :: xs) (by simp) ys (by simp [hy]) x y rfl hb
        have hx : ContractApi.isKnown Seal c (idAt (ContractApi.contractId Seal c) 0 x) = true := hk x rfl
        rw [e] at hx
        exact hx

/-- The contract can be handed what is read off its record: it has to accept it. -/
theorem C91_self (hl : Lawful Seal C) {c c' : C} {L : List (List (OperationSeals Seal))} {l : List (Call Seal)}
    (hf : Faithful (ContractApi.codex Seal c)) (h : Received c L l c')
    (hw : ∀ xs ∈ L, ∀ ys ∈ L, WellFormed (ContractApi.contractId Seal c) xs ys)
    (hn : ∀ xs ∈ L, ∀ ys ∈ L, NoClash (ContractApi.contractId Seal c) xs ys)
    {old : Opid → Option Operation}
    (hold : ∀ xs ∈ L, ∀ (i : Nat) b p, xs[i]? = some b → old (idAt (ContractApi.contractId Seal c) i b) = some p →
      p = opAt (ContractApi.contractId Seal c) i b)
    {zs : List (OperationSeals Seal)} (hz : ReadOff (ContractApi.contractId Seal c) old l zs)
    (h0 : ∀ z, zs[0]? = some z → z.operation.contractId.bytes = (ContractApi.codex Seal c).codexId.bytes)
    {r : R} (hr : Delivers r zs) : ∃ o, Accepted c' r zs o := by
  have hid : ContractApi.contractId Seal c' = ContractApi.contractId Seal c := by rw [history_fold h.history, hl.foldl_id]
  have hcx : ContractApi.codex Seal c' = ContractApi.codex Seal c := by rw [history_fold h.history, hl.foldl_codex]
  have hz' := C91_merges hl hf h (fun xs hx ys hy => (hw xs hx ys hy).collision) hold hz
  have hk := allAccepted_known hl hf h.allAccepted
  rw [← hid] at hz' hw hn hk
  rw [← hcx] at h0
  refine C69_known ?_ (fun xs ys hx hy => hw xs hx ys hy) (fun xs ys hx hy => hn xs hx ys hy) (fun c x o hk => ?_) ?_ hz' h0 hr
  · intro xs hx
    obtain ⟨d, R', _, r', o', e, ha⟩ := h.each hl xs hx
    exact ⟨C, _, d, R', _, r', o', e.trans hid.symm, ha⟩
  · exact hl.foldl_mono (l := [x]) hk
  · intro xs i x hx hb
    exact (hk _).2 (.inr ⟨xs, hx, i, x, hb, rfl⟩)

/-- The record suffices to start anew: the contract as it was at the beginning accepts what is read off the
record, provided that the operations to be read are known to it or come earlier. -/
theorem C91_restart (hl : Lawful Seal C) (hm : LawfulMemory Seal C) (hc : LocalMemory Seal C) {c c' : C}
    {L : List (List (OperationSeals Seal))} {l : List (Call Seal)}
    (hf : Faithful (ContractApi.codex Seal c)) (hx : LocalCodex (ContractApi.codex Seal c))
    (hi : ChecksInputs (ContractApi.codex Seal c)) (hrd : ChecksReads (ContractApi.codex Seal c)) (ht : Tidy (Seal := Seal) c)
    (h : Received c L l c')
    (hw : ∀ xs ∈ L, ∀ ys ∈ L, WellFormed (ContractApi.contractId Seal c) xs ys)
    (hn : ∀ xs ∈ L, ∀ ys ∈ L, NoClash (ContractApi.contractId Seal c) xs ys)
    {old : Opid → Option Operation}
    (hold : ∀ xs ∈ L, ∀ (i : Nat) b p, xs[i]? = some b → old (idAt (ContractApi.contractId Seal c) i b) = some p →
      p = opAt (ContractApi.contractId Seal c) i b)
    {zs : List (OperationSeals Seal)} (hz : ReadOff (ContractApi.contractId Seal c) old l zs)
    (h0 : ∀ z, zs[0]? = some z → z.operation.contractId.bytes = (ContractApi.codex Seal c).codexId.bytes)
    (hk0 : ∀ z, zs[0]? = some z → KnownStart c z)
    {r : R} (hr : Delivers r zs) :
    (∃ o, Accepted c r zs o) ↔
      ∀ (i : Nat) z, zs[i]? = some z → ContractApi.isKnown Seal c (idAt (ContractApi.contractId Seal c) i z) = false →
        ReadsAvailable c zs i z := by
  have hno : ∀ xs ∈ L, ∀ ys ∈ L, NoCollision (ContractApi.contractId Seal c) xs ys := fun xs hx ys hy => (hw xs hx ys hy).collision
  have hz' := C91_merges hl hf h hno hold hz
  obtain ⟨o, ho⟩ := C91_self hl hf h hw hn hold hz h0 hr
  let T : Operation → Prop := fun p => ∃ xs ∈ L, ∃ (i : Nat) (b : OperationSeals Seal), xs[i]? = some b ∧
    p = opAt (ContractApi.contractId Seal c) i b
  have hT : ∀ p q, T p → T q → opid p = opid q → p = q := by
    rintro p q ⟨zs, hz, i, b, hb, rfl⟩ ⟨zs', hz', j, b', hb', rfl⟩ e
    exact hno zs hz zs' hz' i j b b' hb hb' e
  rw [C82_agreement hl hm hc hf hx hi hrd ht h.history (.nil c) ho hk0 hT ?_ (by simp) ?_ hr]
  · simp
  · intro v hv
    obtain ⟨xs, hx, i, b, hb, _, e⟩ := received_operation hl hf h (applied_mem hv)
    exact ⟨xs, hx, i, b, hb, e.symm⟩
  · intro k z hk
    obtain ⟨xs, i, x, hx, hb, e, _⟩ := hz'.source k z hk
    exact ⟨xs, hx, i, x, hb, e.symm⟩

/-- Whoever starts anew arrives at the same state. -/
theorem C91_state (hl : Lawful Seal C) (hm : LawfulMemory Seal C) (hc : LocalMemory Seal C) {c c' : C}
    {L : List (List (OperationSeals Seal))} {l : List (Call Seal)} (hf : Faithful (ContractApi.codex Seal c)) (h : Received c L l c')
    (hno : ∀ xs ∈ L, ∀ ys ∈ L, NoCollision (ContractApi.contractId Seal c) xs ys)
    {old : Opid → Option Operation}
    (hold : ∀ xs ∈ L, ∀ (i : Nat) b p, xs[i]? = some b → old (idAt (ContractApi.contractId Seal c) i b) = some p →
      p = opAt (ContractApi.contractId Seal c) i b)
    {zs : List (OperationSeals Seal)} (hz : ReadOff (ContractApi.contractId Seal c) old l zs)
    (hk0 : ∀ z, zs[0]? = some z → KnownStart c z) {r : R} {o} (ho : Accepted c r zs o) :
    SameState (Seal := Seal) o.world.contract c' := by
  have hz' := C91_merges hl hf h hno hold hz
  have hrec : Received c [zs] (o.world.calls ++ []) o.world.contract := .cons ho hk0 (.nil _)
  refine C77_known hl hm hc hf ⟨rfl, rfl, rfl, rfl, fun _ => rfl⟩ hrec.history h.history ?_ ?_
  · intro v hv v' hv' e
    obtain ⟨ys, hy, k, z, hk, e1, e2⟩ := received_operation hl hf hrec (applied_mem hv)
    rw [List.mem_singleton] at hy
    subst hy
    obtain ⟨xs, hx, i, b, hb, e3, e4⟩ := received_operation hl hf h (applied_mem hv')
    obtain ⟨xs', i', b', hx', hb', e5, _⟩ := hz'.source k z hk
    rw [← e2, ← e4, ← e5]
    refine hno xs' hx' xs hx i' i b' b hb' hb ?_
    rw [e3, ← e, ← e1]
    unfold idAt
    rw [e5]
  · intro x
    rw [Bool.eq_iff_iff, allAccepted_known hl hf hrec.allAccepted, allAccepted_known hl hf h.allAccepted]
    refine or_congr_right ?_
    constructor
    · rintro ⟨ys, hy, k, z, hk, rfl⟩
      rw [List.mem_singleton] at hy
      subst hy
      obtain ⟨xs, i, b, hx, hb, e, _⟩ := hz'.source k z hk
      exact ⟨xs, hx, i, b, hb, by unfold idAt; rw [e]⟩
    · rintro ⟨xs, hx, i, b, hb, rfl⟩
      obtain ⟨k, z, hk, e⟩ := hz'.present xs i b hx hb
      exact ⟨zs, by simp, k, z, hk, e.symm⟩

/-- Operations new to the contract read only what it knows or has received before. -/
theorem reads_before (hl : Lawful Seal C) (hc : LocalMemory Seal C) {c c' : C} {L : List (List (OperationSeals Seal))} {l : List (Call Seal)}
    (hf : Faithful (ContractApi.codex Seal c)) (hrd : ChecksReads (ContractApi.codex Seal c)) (h : Received c L l c')
    (ht : ∀ a, (ContractApi.memory Seal c).immutable a ≠ none → ContractApi.isKnown Seal c a.opid = true)
    (hno : ∀ xs ∈ L, ∀ ys ∈ L, NoCollision (ContractApi.contractId Seal c) xs ys) :
    Before (fun x : OperationSeals Seal × Nat => idAt (ContractApi.contractId Seal c) x.2 x.1)
      (fun x o => ContractApi.isKnown Seal c (idAt (ContractApi.contractId Seal c) x.2 x.1) = false ∧
        ContractApi.isKnown Seal c o = false ∧ ∃ p, ⟨o, p⟩ ∈ (opAt (ContractApi.contractId Seal c) x.2 x.1).immutableIn)
      (L.flatMap List.zipIdx) := by
  induction h with
  | nil c => intro t x k hx; simp at hx
  | @cons R _ c c' r xs o rest l ha h0 hrest ih =>
    have hcx : ContractApi.codex Seal o.world.contract = ContractApi.codex Seal c := by
      rw [ha.shape.contract]; exact hl.contractAt_codex
    have hid : ContractApi.contractId Seal o.world.contract = ContractApi.contractId Seal c := by
      rw [ha.shape.contract]; exact hl.contractAt_id
    have ht' : ∀ a, (ContractApi.memory Seal o.world.contract).immutable a ≠ none →
        ContractApi.isKnown Seal o.world.contract a.opid = true := by
      rw [ha.shape.contract, contractAt_eq_foldl]
      exact immutable_tidy hl hc ht _
    have hone : ∀ x, ContractApi.isKnown Seal o.world.contract x = true ↔ ContractApi.isKnown Seal c x = true ∨
        ∃ i b, xs[i]? = some b ∧ x = idAt (ContractApi.contractId Seal c) i b := by
      intro x
      rw [allAccepted_known hl hf (.cons ha h0 (.nil _))]
      simp
    have IH := ih (hcx ▸ hf) (hcx ▸ hrd) ht' (by
      rw [hid]
      exact fun ys hy zs hz => hno ys (by simp [hy]) zs (by simp [hz]))
    rw [hid] at IH
    generalize hcid : ContractApi.contractId Seal c = cid at *
    -- the first consignment
    have first : ∀ n i b p x, i < n → xs[i]? = some b → ContractApi.isKnown Seal c (idAt cid i b) = false →
        ContractApi.isKnown Seal c x = false → ⟨x, p⟩ ∈ (opAt cid i b).immutableIn → ∃ j bj, j < i ∧ xs[j]? = some bj ∧ idAt cid j bj = x := by
      intro n
      induction n with
      | zero => intro i b p x h; omega
      | succ n ihn =>
        intro i b p x hlt hb hk hkx hp
        have hv := ha.valid i b hb
        -- what is known on the way
        have hpre : ∀ y, ContractApi.isKnown Seal (contractAt cid c xs i) y = true → ContractApi.isKnown Seal c y = false →
            ∃ j bj, j < i ∧ xs[j]? = some bj ∧ idAt cid j bj = y := by
          intro y hy hyc
          have hvt : ValidConsignment c (xs.take i) := by
            have := ha.valid
            rw [← List.take_append_drop i xs] at this
            exact this.prefix
          obtain ⟨o', k1, k2, k3⟩ := evaluate_of_delivers (scroll_delivers (xs.take i)) hvt
          have e := allAccepted_known hl hf (.cons (⟨k1, k2, scroll_delivers _⟩ : Accepted c (Scroll.mk (xs.take i)) (xs.take i) o') (fun b hb => by
            rw [List.getElem?_take] at hb
            split at hb
            · exact h0 b hb
            · simp at hb) (.nil _)) y
          rw [k3.contract, hcid] at e
          have e' : contractAt cid c (xs.take i) (xs.take i).length = contractAt cid c xs i := by
            rw [List.length_take, Nat.min_eq_left (Nat.le_of_lt (lt_length_of_getElem? hb))]
            refine contractAt_congr fun j hj => ?_
            rw [List.getElem?_take, if_pos hj]
          rw [e', hy, hyc] at e
          simp only [List.mem_singleton, exists_eq_left, Bool.false_eq_true, false_or, true_iff] at e
          obtain ⟨j, bj, hj, rfl⟩ := e
          rw [List.getElem?_take] at hj
          split at hj
          · rename_i hlt
            exact ⟨j, bj, hlt, hj, rfl⟩
          · simp at hj
        cases hnow : ContractApi.isKnown Seal (contractAt cid c xs i) (idAt cid i b) with
        | true =>
          obtain ⟨j, bj, hj, hbj, e⟩ := hpre _ hnow hk
          have eop := hno xs (by simp) xs (by simp) j i bj b hbj hb e
          obtain ⟨j', bj', g1, g2, g3⟩ := ihn j bj p x (by omega) hbj (e ▸ hk) hkx (eop ▸ hp)
          exact ⟨j', bj', by omega, g2, g3⟩
        | false =>
          obtain ⟨v, hv⟩ := hv.script (by rw [hcid]; exact hnow)
          unfold codexAnswer at hv
          rw [hcid, show ContractApi.codex Seal (contractAt cid c xs i) = _ from hl.contractAt_codex] at hv
          have := hrd _ _ _ _ _ hv _ hp
          refine hpre x ?_ hkx
          rw [contractAt_eq_foldl] at this ⊢
          exact immutable_tidy hl hc ht _ _ this
    rw [List.flatMap_cons]
    rintro t ⟨b, i⟩ x hq ⟨hk, hkx, p, hp⟩
    by_cases hlt : t < xs.zipIdx.length
    · rw [List.getElem?_append_left hlt] at hq
      simp only [List.getElem?_zipIdx, Nat.zero_add, Option.map_eq_some_iff, Prod.mk.injEq] at hq
      obtain ⟨b', hb, rfl, rfl⟩ := hq
      obtain ⟨j, bj, g1, g2, g3⟩ := first _ t b' p x (Nat.lt_succ_self _) hb hk hkx hp
      refine ⟨j, (bj, j), g1, ?_, g3⟩
      rw [List.getElem?_append_left (by omega)]
      simp [List.getElem?_zipIdx, g2]
    · have put : ∀ {j bj}, xs[j]? = some bj → j < t ∧ (xs.zipIdx ++ rest.flatMap List.zipIdx)[j]? = some (bj, j) := by
        intro j bj hj
        have h1 := lt_length_of_getElem? hj
        have h2 : xs.zipIdx.length = xs.length := by simp
        refine ⟨by omega, ?_⟩
        rw [List.getElem?_append_left (by omega)]
        simp [List.getElem?_zipIdx, hj]
      have hq0 := hq
      rw [List.getElem?_append_right (by omega)] at hq
      cases hk1 : ContractApi.isKnown Seal o.world.contract (idAt cid i b) with
      | true =>
        have hk1' := hk1
        rw [hone, hk] at hk1
        simp only [Bool.false_eq_true, false_or] at hk1
        obtain ⟨j, bj, hj, e⟩ := hk1
        obtain ⟨ys, hy, hyb⟩ : ∃ ys ∈ rest, ys[i]? = some b := by
          have := List.mem_of_getElem? hq
          simpa [List.mem_flatMap, List.mem_zipIdx_iff_getElem?] using this
        have eop := hno ys (by simp [hy]) xs (by simp) i j b bj hyb hj e
        obtain ⟨j', bj', g1, g2, g3⟩ := first _ j bj p x (Nat.lt_succ_self _) hj (e ▸ hk) hkx (eop ▸ hp)
        exact ⟨j', (bj', j'), (put g2).1, (put g2).2, g3⟩
      | false =>
        cases hk2 : ContractApi.isKnown Seal o.world.contract x with
        | true =>
          rw [hone, hkx] at hk2
          simp only [Bool.false_eq_true, false_or] at hk2
          obtain ⟨j, bj, hj, e⟩ := hk2
          exact ⟨j, (bj, j), (put hj).1, (put hj).2, e.symm⟩
        | false =>
          obtain ⟨u, y, g1, g2, g3⟩ := IH _ (b, i) x hq ⟨hk1, hk2, p, hp⟩
          refine ⟨xs.zipIdx.length + u, y, by omega, ?_, g3⟩
          rw [List.getElem?_append_right (by omega)]
          simpa using g2

/-- There is always something to be read off the record, and the contract as it was at the beginning accepts it and
arrives at its present state: whoever keeps what the contract is told can hand the whole history on as one consignment. -/
theorem C91_exists (hl : Lawful Seal C) (hm : LawfulMemory Seal C) (hc : LocalMemory Seal C) {c c' : C}
    {L : List (List (OperationSeals Seal))} {l : List (Call Seal)}
    (hf : Faithful (ContractApi.codex Seal c)) (hx : LocalCodex (ContractApi.codex Seal c))
    (hi : ChecksInputs (ContractApi.codex Seal c)) (hrd : ChecksReads (ContractApi.codex Seal c)) (ht : Tidy (Seal := Seal) c)
    (h : Received c L l c')
    (hw : ∀ xs ∈ L, ∀ ys ∈ L, WellFormed (ContractApi.contractId Seal c) xs ys)
    (hn : ∀ xs ∈ L, ∀ ys ∈ L, NoClash (ContractApi.contractId Seal c) xs ys)
    (h0 : ∀ xs ∈ L, ∀ ys ∈ L, ∀ x y, xs[0]? = some x → ys[0]? = some y →
      idAt (ContractApi.contractId Seal c) 0 x = idAt (ContractApi.contractId Seal c) 0 y)
    {old : Opid → Option Operation}
    (hold : ∀ xs ∈ L, ∀ (i : Nat) b, xs[i]? = some b →
      ContractApi.isKnown Seal c (idAt (ContractApi.contractId Seal c) i b) = true →
      old (idAt (ContractApi.contractId Seal c) i b) = some (opAt (ContractApi.contractId Seal c) i b))
    (hnone : ∀ x, ContractApi.isKnown Seal c x = false → old x = none) :
    ∃ zs, ReadOff (ContractApi.contractId Seal c) old l zs ∧
      (∀ z, zs[0]? = some z → ∃ xs ∈ L, ∃ x, xs[0]? = some x ∧ z.operation = x.operation) ∧
      ∀ (R : Type) (_ : ReadOperation Seal R) (r : R), Delivers r zs →
        ∃ o, Accepted c r zs o ∧ SameState (Seal := Seal) o.world.contract c' := by
  classical
  have hno : ∀ xs ∈ L, ∀ ys ∈ L, NoCollision (ContractApi.contractId Seal c) xs ys := fun xs hx ys hy => (hw xs hx ys hy).collision
  have hold' : ∀ xs ∈ L, ∀ (i : Nat) b p, xs[i]? = some b → old (idAt (ContractApi.contractId Seal c) i b) = some p →
      p = opAt (ContractApi.contractId Seal c) i b := by
    intro xs hxs i b p hb hp
    cases hk : ContractApi.isKnown Seal c (idAt (ContractApi.contractId Seal c) i b) with
    | true => rw [hold xs hxs i b hb hk] at hp; exact (Option.some.inj hp).symm
    | false => rw [hnone _ hk] at hp; simp at hp
  have hL : ∀ xs ∈ L, ∃ (C' : Type) (_ : ContractApi Seal C') (c' : C') (R' : Type) (_ : ReadOperation Seal R') (r' : R') (o' : _),
      ContractApi.contractId Seal c' = ContractApi.contractId Seal c ∧ Accepted c' r' xs o' := by
    intro xs hx
    obtain ⟨d, R', _, r', o', e, ha⟩ := h.each hl xs hx
    exact ⟨C, _, d, R', _, r', o', e, ha⟩
  obtain ⟨zs₀, m1, m2, m3⟩ := merge_exists hL hw h0
    (E := fun op o => ContractApi.isKnown Seal c (opid op) = false ∧ ContractApi.isKnown Seal c o = false ∧ ∃ p, (⟨o, p⟩ : CellAddr) ∈ op.immutableIn)
    (reads_before hl hc hf hrd h ht.immutable hno)
  -- the witnesses received, if any
  let pick : Opid → Option (SealWitness Seal) := fun x =>
    if hw : ∃ w, ∃ xs ∈ L, ∃ (i : Nat) (b : OperationSeals Seal), xs[i]? = some b ∧ idAt (ContractApi.contractId Seal c) i b = x ∧ b.witness = some w
    then some hw.choose else none
  let zs : List (OperationSeals Seal) := zs₀.mapIdx fun k z => { z with witness := pick (idAt (ContractApi.contractId Seal c) k z) }
  have get : ∀ {k : Nat} {z : OperationSeals Seal}, zs[k]? = some z →
      ∃ z₀, zs₀[k]? = some z₀ ∧ z = { z₀ with witness := pick (idAt (ContractApi.contractId Seal c) k z₀) } := by
    intro k z hk
    simp only [zs, List.getElem?_mapIdx, Option.map_eq_some_iff] at hk
    obtain ⟨z₀, h1, h2⟩ := hk
    exact ⟨z₀, h1, h2.symm⟩
  have put : ∀ {k : Nat} {z₀ : OperationSeals Seal}, zs₀[k]? = some z₀ →
      zs[k]? = some { z₀ with witness := pick (idAt (ContractApi.contractId Seal c) k z₀) } := by
    intro k z₀ hk
    simp [zs, hk]
  have hwn : ∀ (k : Nat) z, zs[k]? = some z → z.witness = none → ∀ xs ∈ L, ∀ (i : Nat) b, xs[i]? = some b →
      idAt (ContractApi.contractId Seal c) i b = idAt (ContractApi.contractId Seal c) k z → b.witness = none := by
    intro k z hk hwz xs hx i b hb e
    obtain ⟨z₀, g1, rfl⟩ := get hk
    cases hbw : b.witness with
    | none => rfl
    | some w =>
      simp only [pick] at hwz
      rw [dif_pos ⟨w, xs, hx, i, b, hb, e, hbw⟩] at hwz
      simp at hwz
  have hzm : Merges (ContractApi.contractId Seal c) (· ∈ L) zs := by
    refine ⟨?_, ?_, ?_, ?_, ?_, ?_⟩
    · intro i j b b' hb hb' e
      obtain ⟨b₀, g1, rfl⟩ := get hb
      obtain ⟨b₀', g1', rfl⟩ := get hb'
      exact m1.distinct i j _ _ g1 g1' e
    · intro k z hk
      obtain ⟨z₀, g1, hz₀⟩ := get hk
      obtain ⟨xs, i, x, hx, hb, e, ew⟩ := m1.source k z₀ g1
      have eo : opAt (ContractApi.contractId Seal c) k z = opAt (ContractApi.contractId Seal c) k z₀ := by rw [hz₀]; rfl
      have ei : idAt (ContractApi.contractId Seal c) k z = idAt (ContractApi.contractId Seal c) k z₀ := by rw [idAt, idAt, eo]
      by_cases hp : ∃ w, ∃ xs ∈ L, ∃ (i : Nat) (b : OperationSeals Seal), xs[i]? = some b ∧
          idAt (ContractApi.contractId Seal c) i b = idAt (ContractApi.contractId Seal c) k z₀ ∧ b.witness = some w
      · obtain ⟨ys, hy, j, y, hby, e', ew'⟩ := hp.choose_spec
        refine ⟨ys, j, y, hy, hby, ?_, ?_⟩
        · rw [eo, ← e]
          exact hno ys hy xs hx j i y x hby hb (by rw [e', idAt, idAt, e])
        · rw [ew', hz₀]
          simp only [pick]
          rw [dif_pos hp]
      · have hwz : z.witness = none := by
          rw [hz₀]
          simp only [pick]
          rw [dif_neg hp]
        exact ⟨xs, i, x, hx, hb, e.trans eo.symm, by
          rw [hwz]; exact hwn k z hk hwz xs hx i x hb (by rw [ei, idAt, idAt, e])⟩
    · intro xs i x hx hb
      obtain ⟨k, z, g1, g2⟩ := m1.present xs i x hx hb
      exact ⟨k, _, put g1, g2⟩
    · intro k z p d hk hd
      obtain ⟨z₀, g1, rfl⟩ := get hk
      exact m1.revealed k z₀ p d g1 hd
    · intro xs i x k z p d hx hb hk e hd
      obtain ⟨z₀, g1, rfl⟩ := get hk
      exact m1.kept xs i x k z₀ p d hx hb g1 e hd
    · intro i j b b' a hb hb' ha e
      obtain ⟨b₀, g1, rfl⟩ := get hb
      obtain ⟨b₀', g1', rfl⟩ := get hb'
      exact m1.creatorsFirst i j _ _ a g1 g1' ha e
  have hz : ReadOff (ContractApi.contractId Seal c) old l zs := C91_readOff hl hf h hno hold hzm hwn
  have start : ∀ z, zs[0]? = some z → ∃ xs ∈ L, ∃ x, xs[0]? = some x ∧ z.operation = x.operation := by
    intro z hz
    obtain ⟨z₀, g1, rfl⟩ := get hz
    exact m2 z₀ g1
  have h0' : ∀ z, zs[0]? = some z → z.operation.contractId.bytes = (ContractApi.codex Seal c).codexId.bytes ∧ KnownStart c z := by
    intro z hz
    obtain ⟨xs, hx, x, hb, e⟩ := start z hz
    obtain ⟨g1, g2⟩ := h.starts hl h0 xs hx x hb
    refine ⟨by rw [e]; exact g1, ?_⟩
    unfold KnownStart at g2 ⊢
    rw [e]
    exact g2
  refine ⟨zs, hz, start, ?_⟩
  intro R _ r hr
  obtain ⟨o, ho⟩ := (C91_restart hl hm hc hf hx hi hrd ht h hw hn hold' hz (fun z hz => (h0' z hz).1) (fun z hz => (h0' z hz).2) hr).2 (by
    intro i z hk hkn a ha
    cases hka : ContractApi.isKnown Seal c a.opid with
    | true => exact .inl rfl
    | false =>
      obtain ⟨z₀, g1, rfl⟩ := get hk
      obtain ⟨k', z', g2, g3, g4⟩ := m3 i z₀ a.opid g1 ⟨hkn, hka, a.pos, by unfold opAt; split <;> exact ha⟩
      exact .inr ⟨k', _, g2, put g3, g4.symm⟩)
  exact ⟨o, ho, C91_state hl hm hc hf h hno hold' hz (fun z hz => (h0' z hz).2) ho⟩

end
namespace Demo.Once
/-- What the archive had before: the genesis. -/
def first : Opid → Option Operation := fun x => if x = ⟨100⟩ then some (opAt (⟨9⟩ : ContractId) 0 origin) else none

/-- Two consignments received by the archive. -/
def received : List (List (OperationSeals Int)) := [[origin, publish], [origin, move1, cite, move2]]

theorem received_ok : ∃ l c', Received (Seal := Int) archive received l c' := by
  obtain ⟨o, h⟩ := passes_iff.2 (show passes archive [origin, publish] = true by decide +kernel)
  have e : o.world.contract = later [origin, publish] := h.shape.contract
  obtain ⟨o', h'⟩ := passes_iff.2 (show passes (later [origin, publish]) [origin, move1, cite, move2] = true by decide +kernel)
  rw [← e] at h'
  refine ⟨_, _, .cons h (by rintro b hb; cases hb; rfl) (.cons h' ?_ (.nil _))⟩
  rintro b hb
  cases hb
  rw [e]
  rfl

theorem received_shelf : ∀ xs ∈ received, ∀ b ∈ xs, b ∈ shelf := by
  intro xs hx
  rcases (by simpa [received] using hx : xs = _ ∨ xs = _) with rfl | rfl <;> simp [shelf]

theorem received_first : ∀ xs ∈ received, ∀ (i : Nat) b, xs[i]? = some b →
    ContractApi.isKnown Int archive (idAt ⟨9⟩ i b) = true → first (idAt ⟨9⟩ i b) = some (opAt ⟨9⟩ i b) := by
  have h : ∀ xs ∈ received, ∀ e ∈ xs.zipIdx, ContractApi.isKnown Int archive (idAt ⟨9⟩ e.2 e.1) = true →
      first (idAt ⟨9⟩ e.2 e.1) = some (opAt ⟨9⟩ e.2 e.1) := by decide +kernel
  exact fun xs hx i b hb => h xs hx (b, i) (List.mem_zipIdx_iff_getElem?.2 hb)

/-- A merge in which a note is read before it is published. -/
def shuffled : List (OperationSeals Int) := [origin, move1, cite, publish, move2]

theorem shuffled_merges : Merges ⟨9⟩ (· ∈ received) shuffled := by
  refine ⟨distinct_of (by decide +kernel), ?_, ?_, ?_, ?_, ?_⟩
  · intro k z hz
    match k, hz with
    | 0, hz => cases hz; exact ⟨[origin, publish], 0, origin, by simp [received], rfl, rfl, rfl⟩
    | 1, hz => cases hz; exact ⟨[origin, move1, cite, move2], 1, move1, by simp [received], rfl, rfl, rfl⟩
    | 2, hz => cases hz; exact ⟨[origin, move1, cite, move2], 2, cite, by simp [received], rfl, rfl, rfl⟩
    | 3, hz => cases hz; exact ⟨[origin, publish], 1, publish, by simp [received], rfl, rfl, rfl⟩
    | 4, hz => cases hz; exact ⟨[origin, move1, cite, move2], 3, move2, by simp [received], rfl, rfl, rfl⟩
    | k + 5, hz => simp [shuffled] at hz
  · have h : ∀ xs ∈ received, ∀ e ∈ xs.zipIdx, ∃ f ∈ shuffled.zipIdx, idAt ⟨9⟩ f.2 f.1 = idAt ⟨9⟩ e.2 e.1 := by decide +kernel
    intro xs i x hx hb
    obtain ⟨f, hf, e⟩ := h xs hx (x, i) (List.mem_zipIdx_iff_getElem?.2 hb)
    exact ⟨f.2, f.1, List.mem_zipIdx_iff_getElem?.1 hf, e⟩
  · have h : ∀ f ∈ shuffled.zipIdx, ∃ xs ∈ received, ∃ e ∈ xs.zipIdx, idAt ⟨9⟩ e.2 e.1 = idAt ⟨9⟩ f.2 f.1 ∧
        e.1.definedSeals.entries = f.1.definedSeals.entries := by decide +kernel
    intro k z p d hz hd
    obtain ⟨xs, hx, e, he, h1, h2⟩ := h (z, k) (List.mem_zipIdx_iff_getElem?.2 hz)
    exact ⟨xs, e.2, e.1, hx, List.mem_zipIdx_iff_getElem?.1 he, h1, h2 ▸ hd⟩
  · have h : ∀ xs ∈ received, ∀ e ∈ xs.zipIdx, ∀ f ∈ shuffled.zipIdx, idAt ⟨9⟩ f.2 f.1 = idAt ⟨9⟩ e.2 e.1 →
        f.1.definedSeals.entries = e.1.definedSeals.entries := by decide +kernel
    intro xs i x k z p d hx hb hz e hd
    rw [h xs hx (x, i) (List.mem_zipIdx_iff_getElem?.2 hb) (z, k) (List.mem_zipIdx_iff_getElem?.2 hz) e]
    exact hd
  · rintro i j b b' a hb hb' ⟨inp, hi, rfl⟩ e
    have h : ∀ f ∈ shuffled.zipIdx, ∀ g ∈ shuffled.zipIdx,
        ∀ x ∈ f.1.operation.destructibleIn, x.addr.opid = idAt ⟨9⟩ g.2 g.1 → g.2 < f.2 := by decide +kernel
    exact h (b, i) (List.mem_zipIdx_iff_getElem?.2 hb) (b', j) (List.mem_zipIdx_iff_getElem?.2 hb') inp hi e

theorem shuffled_witnesses (k : Nat) (z : OperationSeals Int) (hk : shuffled[k]? = some z) (hw : z.witness = none)
    (xs) (hx : xs ∈ received) (i : Nat) (b) (hb : xs[i]? = some b) (e : idAt ⟨9⟩ i b = idAt ⟨9⟩ k z) : b.witness = none := by
  have h : ∀ f ∈ shuffled.zipIdx, f.1.witness.isNone → ∀ xs ∈ received, ∀ g ∈ xs.zipIdx, idAt ⟨9⟩ g.2 g.1 = idAt ⟨9⟩ f.2 f.1 →
      g.1.witness.isNone := by decide +kernel
  exact Option.isNone_iff_eq_none.1 (h (z, k) (List.mem_zipIdx_iff_getElem?.2 hk) (by simp [hw]) xs hx (b, i)
    (List.mem_zipIdx_iff_getElem?.2 hb) e)
end Demo.Once

open Demo Demo.Once in
/-- C91: a contract which received two consignments, with something to be read off its record. -/
example : ∃ l c', Received (Seal := Int) archive received l c' ∧ Lawful Int Archive ∧ LawfulMemory Int Archive ∧
    LocalMemory Int Archive ∧ Faithful reading ∧ LocalCodex reading ∧ ChecksInputs reading ∧ ChecksReads reading ∧
    Tidy (Seal := Int) archive ∧ (∀ xs ∈ received, ∀ ys ∈ received, WellFormed ⟨9⟩ xs ys) ∧
    (∀ xs ∈ received, ∀ ys ∈ received, NoClash ⟨9⟩ xs ys) ∧
    (∀ xs ∈ received, ∀ ys ∈ received, ∀ x y, xs[0]? = some x → ys[0]? = some y → idAt ⟨9⟩ 0 x = idAt ⟨9⟩ 0 y) ∧
    (∀ xs ∈ received, ∀ (i : Nat) b, xs[i]? = some b →
      ContractApi.isKnown Int archive (idAt ⟨9⟩ i b) = true → first (idAt ⟨9⟩ i b) = some (opAt ⟨9⟩ i b)) ∧
    (∀ x, ContractApi.isKnown Int archive x = false → first x = none) ∧
    ∃ zs, ReadOff ⟨9⟩ first l zs ∧ (∃ o, Accepted archive (Feed.mk zs) zs o ∧ SameState (Seal := Int) o.world.contract c') ∧
      ∀ xs ∈ received, ∀ (i : Nat) b, xs[i]? = some b →
        ∃ (k : Nat) (z : OperationSeals Int), zs[k]? = some z ∧ idAt ⟨9⟩ k z = idAt ⟨9⟩ i b := by
  obtain ⟨l, c', h⟩ := received_ok
  have hw : ∀ xs ∈ received, ∀ ys ∈ received, WellFormed (Seal := Int) ⟨9⟩ xs ys :=
    fun xs hx ys hy => shelf_wellFormed xs ys (received_shelf xs hx) (received_shelf ys hy)
  have hn : ∀ xs ∈ received, ∀ ys ∈ received, NoClash (Seal := Int) ⟨9⟩ xs ys :=
    fun _ _ _ _ => noClash singleUse message_injective
  have h0 : ∀ xs ∈ received, ∀ ys ∈ received, ∀ x y : OperationSeals Int, xs[0]? = some x → ys[0]? = some y →
      idAt ⟨9⟩ 0 x = idAt ⟨9⟩ 0 y := by
    intro xs hx ys hy x y e1 e2
    rcases (by simpa [received] using hx : xs = _ ∨ xs = _) with rfl | rfl <;>
      rcases (by simpa [received] using hy : ys = _ ∨ ys = _) with rfl | rfl <;> cases e1 <;> cases e2 <;> rfl
  have hnone : ∀ x, ContractApi.isKnown Int archive x = false → first x = none := by
    intro x hx
    unfold first
    split
    · rename_i e; subst e; exact absurd hx (by decide +kernel)
    · rfl
  obtain ⟨zs, hz, _, hacc⟩ := C91_exists archive_lawful archive_lawfulMemory archive_localMemory reading_faithful reading_local
    reading_checksInputs reading_checksReads archive_tidy h hw hn h0 received_first hnone
  refine ⟨l, c', h, archive_lawful, archive_lawfulMemory, archive_localMemory, reading_faithful, reading_local,
    reading_checksInputs, reading_checksReads, archive_tidy, hw, hn, h0, received_first, hnone, zs, hz,
    hacc _ _ _ (feed_delivers zs), ?_⟩
  intro xs hxs i b hb
  obtain ⟨known, hq⟩ := (received_asked archive_lawful h).2 ⟨xs, hxs, i, b, hb, rfl⟩
  exact hz.present _ known hq

open Demo Demo.Once in
/-- The order matters for reads: a consignment read off the record, which its owner accepts, is rejected by the
contract as it was at the beginning if a note is read before it is published. -/
theorem C91_needs_reads : ∃ (l : List (Call Int)) (c' : Archive), Received (Seal := Int) archive received l c' ∧
    ReadOff ⟨9⟩ first l shuffled ∧ (∃ o, Accepted c' (Feed.mk shuffled) shuffled o) ∧
    ¬ ∃ o, Accepted archive (Feed.mk shuffled) shuffled o := by
  obtain ⟨l, c', h⟩ := received_ok
  have hw : ∀ xs ∈ received, ∀ ys ∈ received, WellFormed (Seal := Int) ⟨9⟩ xs ys :=
    fun xs hx ys hy => shelf_wellFormed xs ys (received_shelf xs hx) (received_shelf ys hy)
  have hz : ReadOff ⟨9⟩ first l shuffled := C91_readOff archive_lawful reading_faithful h (fun xs hx ys hy => (hw xs hx ys hy).collision)
    received_first shuffled_merges shuffled_witnesses
  refine ⟨l, c', h, hz, ?_, ?_⟩
  · refine C91_self archive_lawful reading_faithful h hw (fun _ _ _ _ => noClash singleUse message_injective)
      ?_ hz (by intro z hz; cases hz; rfl) (feed_delivers _)
    have hf : ∀ xs ∈ received, ∀ e ∈ xs.zipIdx, ∀ p ∈ first (idAt ⟨9⟩ e.2 e.1), p = opAt ⟨9⟩ e.2 e.1 := by decide +kernel
    exact fun xs hx i b p hb hp => hf xs hx (b, i) (List.mem_zipIdx_iff_getElem?.2 hb) p hp
  · rw [passes_iff]
    decide +kernel

end Rgb
