import Verif.Props.Excerpts
import Verif.Props.Effects

set_option linter.unusedSectionVars false

/-! # C77: the state depends only on the operations known -/

namespace Rgb
open Spec

section
variable {Seal : Type} [LinearOrder Seal] [RgbSeal Seal] [OpHash]
variable {C E : Type} [ContractApi Seal C]
variable {R : Type} [ReadOperation Seal R]

theorem history_fold {Start : C → OperationSeals Seal → Prop} {c c' : C} {l : List (Call Seal)} (h : History Start c l c') :
    c' = l.foldl perform c := by
  induction h with
  | nil => rfl
  | step _ he _ ih => rw [ih, List.foldl_append, C31_only_callbacks he]

theorem filter_applies (q : VerifiedOperation → Bool) (l : List (Call Seal)) :
    l.filter (Applies q) = ((l.filterMap appliedOperation).filter q).map .applyOperation := by
  induction l with
  | nil => rfl
  | cons x l ih =>
    cases hx : appliedOperation x with
    | none =>
      rw [List.filterMap_cons_none hx, List.filter_cons_of_neg (by simp [Applies, hx])]
      exact ih
    | some v =>
      have : x = .applyOperation v := by cases x <;> simp_all [appliedOperation]
      subst this
      rw [show (Call.applyOperation (Seal := Seal) v :: l).filterMap appliedOperation = v :: l.filterMap appliedOperation from rfl]
      cases hq : q v with
      | true => rw [List.filter_cons_of_pos (by simp [Applies, appliedOperation, hq]), List.filter_cons_of_pos hq, List.map_cons, ih]
      | false => rw [List.filter_cons_of_neg (by simp [Applies, appliedOperation, hq]), List.filter_cons_of_neg (by simp [hq]), ih]

/-- Two lists with the same elements, all of which have one id, which does not repeat in either list. -/
theorem one_id {l₁ l₂ : List VerifiedOperation} {i : Opid} (h₁ : (l₁.map (·.opid)).Nodup) (h₂ : (l₂.map (·.opid)).Nodup)
    (hs : ∀ v, v ∈ l₁ ↔ v ∈ l₂) (hi : ∀ v ∈ l₁, v.opid = i) : l₁ = l₂ := by
  have small : ∀ l : List VerifiedOperation, (l.map (·.opid)).Nodup → (∀ v ∈ l, v.opid = i) → l = [] ∨ ∃ v, l = [v] := by
    intro l hn hi
    match l with
    | [] => exact .inl rfl
    | [v] => exact .inr ⟨v, rfl⟩
    | v :: w :: l =>
      rw [List.map_cons, List.nodup_cons] at hn
      exact absurd (by rw [hi v (by simp), ← hi w (by simp)]; simp) hn.1
  rcases small l₁ h₁ hi with rfl | ⟨v, rfl⟩
  · rcases small l₂ h₂ (fun v hv => hi v ((hs v).2 hv)) with rfl | ⟨w, rfl⟩
    · rfl
    · exact absurd ((hs w).2 (by simp)) (by simp)
  · rcases small l₂ h₂ (fun v hv => hi v ((hs v).2 hv)) with rfl | ⟨w, rfl⟩
    · exact absurd ((hs v).1 (by simp)) (by simp)
    · rw [List.mem_singleton.1 ((hs v).1 (by simp))]

theorem nodup_filter {l : List VerifiedOperation} (h : (l.map (·.opid)).Nodup) (q : VerifiedOperation → Bool) :
    ((l.filter q).map (·.opid)).Nodup :=
  h.sublist (List.filter_sublist.map _)

/-- A cell consumed by an applied operation is gone for good. -/
theorem consumed_gone (hl : Lawful Seal C) (hm : LawfulMemory Seal C) {c c' : C} (hf : Faithful (ContractApi.codex Seal c))
    {l : List (Call Seal)} (h : History KnownStart c l c') {v : VerifiedOperation} (hv : v ∈ l.filterMap appliedOperation)
    {inp : Input} (hi : inp ∈ v.operation.destructibleIn) : (ContractApi.memory Seal c').destructible inp.addr = none := by
  obtain ⟨x, hx, hxv⟩ := List.mem_filterMap.1 hv
  have hx' : x = .applyOperation v := by cases x <;> simp_all [appliedOperation]
  subst hx'
  obtain ⟨pre, post, rfl⟩ := List.append_of_mem hx
  have hk := C35_creators_first hl hf h hi
  obtain ⟨hn, hnew, hend⟩ := C34_applied_once hl hf h
  have hlater : ∀ u ∈ post.filterMap appliedOperation, u.opid ≠ inp.addr.opid := by
    intro u hu e
    have hall : u ∈ (pre ++ Call.applyOperation v :: post).filterMap appliedOperation := by
      rw [List.filterMap_append, List.mem_append]
      exact .inr (List.mem_cons_of_mem _ hu)
    have := (observed_known hl inp.addr.opid).foldl_filter c pre
    rw [filter_applies] at this
    simp only [this] at hk
    cases hpre : (pre.filterMap appliedOperation).filter (creates inp.addr.opid) with
    | nil =>
      rw [hpre] at hk
      rw [← e] at hk
      exact Bool.noConfusion ((hnew u hall).symm.trans hk)
    | cons w ws =>
      have hw : w ∈ (pre.filterMap appliedOperation).filter (creates inp.addr.opid) := by rw [hpre]; simp
      rw [List.mem_filter] at hw
      have e' : inp.addr.opid = w.opid := by simpa [creates] using hw.2
      rw [List.filterMap_append, List.map_append] at hn
      refine (List.nodup_append.1 hn).2.2 w.opid (List.mem_map_of_mem hw.1) u.opid ?_ (e'.symm.trans e.symm)
      exact List.mem_map_of_mem (List.mem_cons_of_mem _ hu)
  rw [history_fold h, List.foldl_append, List.foldl_cons]
  have h0 : (ContractApi.memory Seal (perform (pre.foldl perform c) (.applyOperation v))).destructible inp.addr = none :=
    hm.consumed _ _ _ hi
  generalize perform (pre.foldl perform c) (Call.applyOperation (Seal := Seal) v) = d at h0
  clear h hx hv hxv hk hn hnew hend
  induction post generalizing d with
  | nil => exact h0
  | cons x post ih =>
    rw [List.foldl_cons]
    cases x with
    | applyOperation u =>
      exact ih (fun w hw => hlater w (List.mem_cons_of_mem _ hw)) _ (hm.created _ _ _ (fun e => hlater u (List.mem_cons_self ..) e.symm) h0)
    | applySeals i s => exact ih hlater _ ((hm.seals ..).trans h0)
    | applyWitness i w => exact ih hlater _ ((hm.witness ..).trans h0)
    | _ => exact ih hlater _ h0

theorem observed_repo (hm : LocalMemory Seal C) : Observed (Seal := Seal) (fun c : C => ContractApi.repo Seal c) (fun _ : Call Seal => false) where
  congr c d x h := ((hm.repo c x).trans h).trans (hm.repo d x).symm
  skip c x _ := hm.repo c x

/-- The state reached by a history depends only on the state at its start and on the set of operations
applied: not on their order, on the evaluations in which they came, on rejected consignments or on the
seals and witnesses reported. -/
theorem C77_convergence (hl : Lawful Seal C) (hm : LawfulMemory Seal C) (hc : LocalMemory Seal C) {c d c' d' : C}
    (hf : Faithful (ContractApi.codex Seal c)) (h0 : SameState (Seal := Seal) c d) {l l' : List (Call Seal)}
    (h : History KnownStart c l c') (h' : History KnownStart d l' d')
    (hs : ∀ v, v ∈ l.filterMap appliedOperation ↔ v ∈ l'.filterMap appliedOperation) : SameState (Seal := Seal) c' d' := by
  have hf' : Faithful (ContractApi.codex Seal d) := h0.codex ▸ hf
  have e := history_fold h
  have e' := history_fold h'
  have hn := (C34_applied_once hl hf h).1
  have hn' := (C34_applied_once hl hf' h').1
  have key : ∀ {X : Type} {f : C → X} {q : VerifiedOperation → Bool} {i : Opid}, Observed f (Applies (Seal := Seal) q) →
      f c = f d → (∀ v ∈ l.filterMap appliedOperation, q v = true → v.opid = i) → f c' = f d' := by
    intro X f q i ho hcd hq
    rw [e, e', ho.foldl_congr hcd, ho.foldl_filter, ho.foldl_filter d l', filter_applies, filter_applies]
    congr 3
    refine one_id (i := i) (nodup_filter hn q) (nodup_filter hn' q) ?_ ?_
    · intro v; rw [List.mem_filter, List.mem_filter, hs]
    · intro v hv; rw [List.mem_filter] at hv; exact hq v hv.1 hv.2
  have hmem : ∀ a, (ContractApi.memory Seal c').destructible a = (ContractApi.memory Seal d').destructible a := by
    intro a
    by_cases hcon : ∃ v ∈ l.filterMap appliedOperation, ∃ inp ∈ v.operation.destructibleIn, inp.addr = a
    · obtain ⟨v, hv, inp, hi, rfl⟩ := hcon
      rw [consumed_gone hl hm hf h hv hi, consumed_gone hl hm hf' h' ((hs v).1 hv) hi]
    · refine key (i := a.opid) (observed_destructible hc a) (by simp only [h0.memory]) ?_
      intro v hv hq
      simp only [touches, Bool.or_eq_true, decide_eq_true_eq, List.any_eq_true] at hq
      rcases hq with hq | ⟨inp, hi, e⟩
      · exact hq.symm
      · exact absurd ⟨v, hv, inp, hi, e⟩ hcon
  have himm : ∀ a, (ContractApi.memory Seal c').immutable a = (ContractApi.memory Seal d').immutable a := by
    intro a
    refine key (i := a.opid) (observed_immutable hc a) (by simp only [h0.memory]) ?_
    intro v _ hq
    simpa [creates, eq_comm] using hq
  refine ⟨?_, ?_, ?_, ?_, ?_⟩
  · rw [e, e', hl.foldl_id, hl.foldl_id, h0.contractId]
  · rw [e, e', hl.foldl_codex, hl.foldl_codex, h0.codex]
  · cases h1 : ContractApi.memory Seal c' with
    | mk a b =>
      cases h2 : ContractApi.memory Seal d' with
      | mk a' b' =>
        rw [h1, h2] at hmem himm
        have e1 : a = a' := funext hmem
        have e2 : b = b' := funext himm
        rw [e1, e2]
  · have hr := observed_repo (Seal := Seal) hc
    rw [e, e']
    have h1 := hr.foldl_filter c l
    have h2 := hr.foldl_filter d l'
    simp only [List.filter_false, List.foldl_nil] at h1 h2
    rw [h1, h2, h0.repo]
  · intro o
    refine key (i := o) (observed_known hl o) (h0.isKnown o) ?_
    intro v _ hq
    simpa [creates, eq_comm] using hq

/-- Contracts which have come to know the same operations are in the same state, unless different
operations have the same id. -/
theorem C77_known (hl : Lawful Seal C) (hm : LawfulMemory Seal C) (hc : LocalMemory Seal C) {c d c' d' : C}
    (hf : Faithful (ContractApi.codex Seal c)) (h0 : SameState (Seal := Seal) c d) {l l' : List (Call Seal)}
    (h : History KnownStart c l c') (h' : History KnownStart d l' d')
    (hno : ∀ v ∈ l.filterMap appliedOperation, ∀ v' ∈ l'.filterMap appliedOperation, v.opid = v'.opid → v.operation = v'.operation)
    (hk : ∀ o, ContractApi.isKnown Seal c' o = ContractApi.isKnown Seal d' o) : SameState (Seal := Seal) c' d' := by
  have hf' : Faithful (ContractApi.codex Seal d) := h0.codex ▸ hf
  obtain ⟨_, hn, hk1⟩ := C34_applied_once hl hf h
  obtain ⟨_, hn', hk2⟩ := C34_applied_once hl hf' h'
  refine C77_convergence hl hm hc hf h0 h h' ?_
  have key : ∀ {l l' : List (Call Seal)} {c d c' d' : C}, (∀ o, ContractApi.isKnown Seal c o = ContractApi.isKnown Seal d o) →
      (∀ v ∈ l.filterMap appliedOperation, ContractApi.isKnown Seal c v.opid = false) →
      (∀ o, ContractApi.isKnown Seal c' o = true ↔ ContractApi.isKnown Seal c o = true ∨ o ∈ (l.filterMap appliedOperation).map (·.opid)) →
      (∀ o, ContractApi.isKnown Seal d' o = true ↔ ContractApi.isKnown Seal d o = true ∨ o ∈ (l'.filterMap appliedOperation).map (·.opid)) →
      (∀ o, ContractApi.isKnown Seal c' o = ContractApi.isKnown Seal d' o) →
      (∀ v ∈ l.filterMap appliedOperation, ∀ v' ∈ l'.filterMap appliedOperation, v.opid = v'.opid → v.operation = v'.operation) →
      ∀ v ∈ l.filterMap appliedOperation, v ∈ l'.filterMap appliedOperation := by
    intro l l' c d c' d' h0 hn hk1 hk2 hk hno v hv
    have h1 := (hk1 v.opid).2 (.inr (List.mem_map_of_mem hv))
    rw [hk] at h1
    rcases (hk2 _).1 h1 with h2 | h2
    · rw [← h0, hn v hv] at h2
      exact Bool.noConfusion h2
    · obtain ⟨v', hv', e⟩ := List.mem_map.1 h2
      have := hno v hv v' hv' e.symm
      have : v = v' := by cases v; cases v'; simp_all
      exact this ▸ hv'
  exact fun v => ⟨key h0.isKnown hn hk1 hk2 hk hno v, key (fun o => (h0.isKnown o).symm) hn' hk2 hk1 (fun o => (hk o).symm)
    (fun v hv v' hv' e => (hno v' hv' v hv e.symm).symm) v⟩

/-- Contracts in the same state behave alike ever after. -/
theorem sameState_simulation (hl : Lawful Seal C) (hc : LocalMemory Seal C) : Simulation (Seal := Seal) (SameState (Seal := Seal) (C := C)) where
  contractId _ _ h := h.contractId
  codexId _ _ h := congrArg _ h.codex
  isKnown _ _ h := h.isKnown
  verify _ _ h cid op := by unfold codexAnswer; rw [h.codex, h.memory, h.repo]
  operation c d h v := by
    refine ⟨?_, ?_, ?_, ?_, ?_⟩
    · exact (hl.contractId c (.applyOperation v)).trans (h.contractId.trans (hl.contractId d (.applyOperation v)).symm)
    · exact (hl.codex c (.applyOperation v)).trans (h.codex.trans (hl.codex d (.applyOperation v)).symm)
    · have h1 := fun a => hc.destructible_congr c d v a (by rw [h.memory])
      have h2 := fun a => hc.immutable_congr c d v a (by rw [h.memory])
      cases e1 : ContractApi.memory Seal (ContractApi.applyOperation Seal c v) with
      | mk a b =>
        cases e2 : ContractApi.memory Seal (ContractApi.applyOperation Seal d v) with
        | mk a' b' =>
          rw [e1, e2] at h1 h2
          have k1 : a = a' := funext h1
          have k2 : b = b' := funext h2
          rw [k1, k2]
    · exact (hc.repo c (.applyOperation v)).trans (h.repo.trans (hc.repo d (.applyOperation v)).symm)
    · intro o
      rw [Bool.eq_iff_iff, hl.known_operation, hl.known_operation, h.isKnown]
  witness c d h o w := by
    refine ⟨?_, ?_, ?_, ?_, ?_⟩
    · exact (hl.contractId c (.applyWitness o w)).trans (h.contractId.trans (hl.contractId d (.applyWitness o w)).symm)
    · exact (hl.codex c (.applyWitness o w)).trans (h.codex.trans (hl.codex d (.applyWitness o w)).symm)
    · rw [hc.witness, hc.witness, h.memory]
    · exact (hc.repo c (.applyWitness o w)).trans (h.repo.trans (hc.repo d (.applyWitness o w)).symm)
    · intro i; rw [hl.known_witness, hl.known_witness, h.isKnown]
  seals c d h o s := by
    refine ⟨?_, ?_, ?_, ?_, ?_⟩
    · exact (hl.contractId c (.applySeals o s)).trans (h.contractId.trans (hl.contractId d (.applySeals o s)).symm)
    · exact (hl.codex c (.applySeals o s)).trans (h.codex.trans (hl.codex d (.applySeals o s)).symm)
    · rw [hc.seals, hc.seals, h.memory]
    · exact (hc.repo c (.applySeals o s)).trans (h.repo.trans (hc.repo d (.applySeals o s)).symm)
    · intro i; rw [hl.known_seals, hl.known_seals, h.isKnown]

/-- Contracts which have come to know the same operations answer every further stream alike: with the same
result, the same calls, and again the same state. -/
theorem C77_future (hl : Lawful Seal C) (hm : LawfulMemory Seal C) (hc : LocalMemory Seal C) {c d c' d' : C}
    (hf : Faithful (ContractApi.codex Seal c)) (h0 : SameState (Seal := Seal) c d) {l l' : List (Call Seal)}
    (h : History KnownStart c l c') (h' : History KnownStart d l' d')
    (hno : ∀ v ∈ l.filterMap appliedOperation, ∀ v' ∈ l'.filterMap appliedOperation, v.opid = v'.opid → v.operation = v'.operation)
    (hk : ∀ o, ContractApi.isKnown Seal c' o = ContractApi.isKnown Seal d' o) (r : R) :
    Option.Rel (fun (o₁ o₂ : Outcome Seal R C (ReadOperation.Error Seal R)) =>
        o₁.result = o₂.result ∧ o₁.world.calls = o₂.world.calls ∧ o₁.reader = o₂.reader ∧
        SameState (Seal := Seal) o₁.world.contract o₂.world.contract) (evaluate c' r) (evaluate d' r) :=
  C42_parametricity (sameState_simulation hl hc) (C77_known hl hm hc hf h0 h h' hno hk) r

theorem delivers_first {r : R} {xs : List (OperationSeals Seal)} (h : Delivers r xs) {b : OperationSeals Seal}
    (hb : StartsWith r [b]) : xs[0]? = some b := by
  obtain ⟨r₁, hb⟩ := hb
  obtain ⟨r₂, r₃, hr, he⟩ := h
  cases hb with
  | cons h1 _ =>
    cases hr with
    | nil => rw [h1] at he; simp at he
    | cons h2 _ =>
      rw [h1] at h2
      simp only [Prod.mk.injEq, Except.ok.injEq, Option.some.injEq] at h2
      rw [h2.1]
      rfl

/-- Accepted consignments make a history in which only operations of the consignments are applied. -/
theorem allAccepted_history (hl : Lawful Seal C) {c c' : C} (hf : Faithful (ContractApi.codex Seal c))
    {css : List (List (OperationSeals Seal))} (h : AllAccepted c css c') :
    ∃ l : List (Call Seal), History KnownStart c l c' ∧ ∀ v ∈ l.filterMap appliedOperation, ∃ xs ∈ css, ∃ i b, xs[i]? = some b ∧
      v.opid = idAt (ContractApi.contractId Seal c) i b ∧ v.operation = opAt (ContractApi.contractId Seal c) i b := by
  induction h with
  | nil c => exact ⟨[], .nil c, by simp⟩
  | @cons R _ c c' r xs o rest ha h0 _ ih =>
    have hid : ContractApi.contractId Seal o.world.contract = ContractApi.contractId Seal c := by
      rw [ha.shape.contract]; exact hl.contractAt_id
    have hcx : ContractApi.codex Seal o.world.contract = ContractApi.codex Seal c := by
      rw [ha.shape.contract]; exact hl.contractAt_codex
    obtain ⟨l, hh, hv⟩ := ih (hcx ▸ hf)
    refine ⟨_, .step (fun b hb => h0 b (delivers_first ha.delivers hb)) ha.run hh, ?_⟩
    intro v hm
    rw [List.filterMap_append, List.mem_append] at hm
    rcases hm with hm | hm
    · have hF := C16_applied_once ha
      obtain ⟨i, hi, b, hb, hx⟩ : ∃ i ∈ (List.range xs.length).filter (isNew c xs), ∃ b, xs[i]? = some b ∧
          codexAnswer Seal (contractAt (ContractApi.contractId Seal c) c xs i) (ContractApi.contractId Seal c) b.operation = .ok v := by
        generalize (List.range xs.length).filter (isNew c xs) = k at hF ⊢
        generalize o.world.calls.filterMap appliedOperation = m at hF hm
        induction hF with
        | nil => simp at hm
        | cons h1 _ ih' =>
          rcases List.mem_cons.1 hm with rfl | hm
          · exact ⟨_, List.mem_cons_self .., h1⟩
          · obtain ⟨i, hi, h⟩ := ih' hm
            exact ⟨i, List.mem_cons_of_mem _ hi, h⟩
      have h1 : i ≠ 0 := by
        have := (List.mem_filter.1 hi).2
        unfold isNew at this
        rw [hb] at this
        simp only [ne_eq, decide_not, Bool.and_eq_true, Bool.not_eq_eq_eq_not, Bool.not_true, decide_eq_false_iff_not] at this
        exact this.1
      unfold codexAnswer at hx
      rw [hl.contractAt_codex] at hx
      obtain ⟨e1, e2⟩ := hf _ _ _ _ _ hx
      refine ⟨xs, List.mem_cons_self .., i, b, hb, ?_, ?_⟩
      · rw [e1, idAt_pos h1]
      · rw [e2, opAt_pos h1]
    · obtain ⟨ys, hy, i, b, h1, h2⟩ := hv v hm
      rw [hid] at h2
      exact ⟨ys, List.mem_cons_of_mem _ hy, i, b, h1, h2⟩

/-- Receiving the same consignments in any order and any number of times leads to the same state, provided
that different operations in them have different ids. -/
theorem C77_deliveries (hl : Lawful Seal C) (hm : LawfulMemory Seal C) (hc : LocalMemory Seal C) {c d c' d' : C}
    (hf : Faithful (ContractApi.codex Seal c)) (h0 : SameState (Seal := Seal) c d) {css dss : List (List (OperationSeals Seal))}
    (hs : ∀ xs, xs ∈ css ↔ xs ∈ dss) (hno : ∀ xs ∈ css, ∀ ys ∈ css, NoCollision (ContractApi.contractId Seal c) xs ys)
    (h : AllAccepted c css c') (h' : AllAccepted d dss d') : SameState (Seal := Seal) c' d' := by
  have hf' : Faithful (ContractApi.codex Seal d) := h0.codex ▸ hf
  obtain ⟨l, hh, hv⟩ := allAccepted_history hl hf h
  obtain ⟨l', hh', hv'⟩ := allAccepted_history hl hf' h'
  refine C77_known hl hm hc hf h0 hh hh' ?_ ?_
  · intro v hvl v' hvl' e
    obtain ⟨xs, hxs, i, b, h1, h2, h3⟩ := hv v hvl
    obtain ⟨ys, hys, j, b', k1, k2, k3⟩ := hv' v' hvl'
    rw [← h0.contractId] at k2 k3
    rw [h3, k3]
    exact hno xs hxs ys ((hs ys).2 hys) i j b b' h1 k1 (h2.symm.trans (e.trans k2))
  · intro o
    rw [Bool.eq_iff_iff, allAccepted_known hl hf h, allAccepted_known hl hf' h', h0.isKnown, h0.contractId]
    simp only [hs]

end

open Demo in
/-- Two transfers in either order: the contracts reached are different but in the same state. -/
example : ∃ c' d', Lawful Nat Ledger ∧ LawfulMemory Nat Ledger ∧ LocalMemory Nat Ledger ∧ Faithful (ContractApi.codex Nat ledger) ∧
    AllAccepted (Seal := Nat) ledger [[genesis, transfer1], [genesis, transfer3]] c' ∧
    AllAccepted (Seal := Nat) ledger [[genesis, transfer3], [genesis, transfer1]] d' ∧
    (∀ xs ∈ [[genesis, transfer1], [genesis, transfer3]], ∀ ys ∈ [[genesis, transfer1], [genesis, transfer3]],
      NoCollision (ContractApi.contractId Nat ledger) xs ys) ∧
    SameState (Seal := Nat) c' d' ∧ c' ≠ d' := by
  have known : ∀ (c : Ledger) (t : Block), c.known.contains ⟨100⟩ = true → c.contractId = ⟨9⟩ →
      ∀ b, [genesis, t][0]? = some b → KnownStart c b := by
    intro c t hk hid b hb
    simp only [List.getElem?_cons_zero, Option.some.injEq] at hb
    subst hb
    unfold KnownStart
    change c.known.contains (opid { genesis.operation with contractId := c.contractId }) = true
    rw [hid]
    exact hk
  obtain ⟨o₁, h1⟩ := accepted_of_accepts (c := ledger) (bs := [genesis, transfer1]) (by decide +kernel)
  have e1 : o₁.world.contract = contractAt ledger.contractId ledger [genesis, transfer1] 2 := h1.shape.contract
  obtain ⟨o₂, h2⟩ := accepted_of_accepts (c := o₁.world.contract) (bs := [genesis, transfer3]) (by rw [e1]; decide +kernel)
  obtain ⟨o₃, h3⟩ := accepted_of_accepts (c := ledger) (bs := [genesis, transfer3]) (by decide +kernel)
  have e3 : o₃.world.contract = contractAt ledger.contractId ledger [genesis, transfer3] 2 := h3.shape.contract
  obtain ⟨o₄, h4⟩ := accepted_of_accepts (c := o₃.world.contract) (bs := [genesis, transfer1]) (by rw [e3]; decide +kernel)
  have H : AllAccepted (Seal := Nat) ledger [[genesis, transfer1], [genesis, transfer3]] o₂.world.contract :=
    .cons h1 (known _ _ (by decide +kernel) rfl)
      (.cons h2 (known _ _ (by rw [e1]; decide +kernel) (by rw [e1]; rfl)) (.nil _))
  have H' : AllAccepted (Seal := Nat) ledger [[genesis, transfer3], [genesis, transfer1]] o₄.world.contract :=
    .cons h3 (known _ _ (by decide +kernel) rfl)
      (.cons h4 (known _ _ (by rw [e3]; decide +kernel) (by rw [e3]; rfl)) (.nil _))
  have hno : ∀ xs ∈ [[genesis, transfer1], [genesis, transfer3]], ∀ ys ∈ [[genesis, transfer1], [genesis, transfer3]],
      NoCollision (ContractApi.contractId Nat ledger) xs ys := by
    intro xs hx ys hy i j b b' hb hb' e
    simp only [List.mem_cons, List.not_mem_nil, or_false] at hx hy
    rcases hx with rfl | rfl <;> rcases hy with rfl | rfl <;> rcases i with _ | _ | i <;> rcases j with _ | _ | j <;>
      simp at hb hb' <;> subst hb hb' <;> first | rfl | exact absurd e (by decide +kernel)
  refine ⟨_, _, ledger_lawful, ledger_lawfulMemory, ledger_localMemory, codex_faithful, H, H', hno,
    C77_deliveries ledger_lawful ledger_lawfulMemory ledger_localMemory codex_faithful ⟨rfl, rfl, rfl, rfl, fun _ => rfl⟩
      (by intro xs; simp [or_comm]) hno H H', ?_⟩
  rw [h2.shape.contract, h4.shape.contract, e1, e3]
  intro h
  have := congrArg Ledger.known h
  revert this
  decide +kernel

open Demo in
/-- A consignment rejected at its third operation and then a longer one, or the longer one alone. -/
example : ∃ l l' c' d', Lawful Nat Ledger ∧ LawfulMemory Nat Ledger ∧ LocalMemory Nat Ledger ∧
    Faithful (ContractApi.codex Nat ledger) ∧ SameState (Seal := Nat) ledger ledger ∧
    History (Seal := Nat) KnownStart ledger l c' ∧ History (Seal := Nat) KnownStart ledger l' d' ∧
    (∀ v, v ∈ l.filterMap appliedOperation ↔ v ∈ l'.filterMap appliedOperation) ∧ l.filterMap appliedOperation ≠ [] ∧ c' ≠ d' := by
  obtain ⟨hv, l₁, hr⟩ := rejection_of (c := ledger) (bs := [genesis, transfer1]) (b := doubleSpend)
    (e := .sealUnknown (at_ 100 0)) rfl
  obtain ⟨o₁, h1, h2, _, h3⟩ := evaluate_of_rejection (tape_startsWith ([genesis, transfer1] ++ [doubleSpend]) [] none) hv hr
  have hstart : ∀ (c : Ledger) (rest : List Block) (b : Block), c.known.contains ⟨100⟩ = true → c.contractId = ⟨9⟩ →
      StartsWith (Seal := Nat) (Tape.mk (genesis :: rest) none) [b] → KnownStart c b := by
    intro c rest b hk hid hb
    have := delivers_first (tape_delivers (genesis :: rest)) hb
    simp only [List.getElem?_cons_zero, Option.some.injEq] at this
    subst this
    unfold KnownStart
    change c.known.contains (opid { genesis.operation with contractId := c.contractId }) = true
    rw [hid]
    exact hk
  have hc1 : o₁.world.contract = contractAt ledger.contractId ledger [genesis, transfer1] 2 := h3.contract
  obtain ⟨o₂, hA⟩ := accepted_of_accepts (c := o₁.world.contract) (bs := story) (by rw [hc1]; decide +kernel)
  obtain ⟨o₃, hB⟩ := accepted_of_accepts (c := ledger) (bs := story) story_accepted
  have k1 : o₁.world.calls.filterMap appliedOperation = [⟨⟨101⟩, transfer1.operation⟩] := by
    rw [applied_filter, h3.callbacks]; rfl
  have k2 : o₂.world.calls.filterMap appliedOperation = [⟨⟨102⟩, transfer2.operation⟩] := by
    rw [applied_filter, hA.shape.callbacks, hc1]; rfl
  have k3 : o₃.world.calls.filterMap appliedOperation = [⟨⟨101⟩, transfer1.operation⟩, ⟨⟨102⟩, transfer2.operation⟩] := by
    rw [applied_filter, hB.shape.callbacks]; rfl
  refine ⟨_, _, _, _, ledger_lawful, ledger_lawfulMemory, ledger_localMemory, codex_faithful, ⟨rfl, rfl, rfl, rfl, fun _ => rfl⟩,
    .step (fun b hb => hstart ledger [transfer1, doubleSpend] b (by decide +kernel) rfl (by simpa using hb)) h1
      (.step (fun b hb => hstart _ [transfer1, transfer2] b (by rw [hc1]; decide +kernel) (by rw [hc1]; rfl) hb) hA.run (.nil _)),
    .step (fun b hb => hstart ledger [transfer1, transfer2] b (by decide +kernel) rfl hb) hB.run (.nil _), ?_, ?_, ?_⟩
  · intro v
    rw [List.filterMap_append, List.filterMap_append, List.filterMap_append, k1, k2, k3]
    rfl
  · rw [List.filterMap_append, k1]
    simp
  · rw [hA.shape.contract, hB.shape.contract, hc1]
    intro h
    have := congrArg (fun c : Ledger => c.witnessLog.length) h
    revert this
    decide +kernel

namespace Demo
/-- An operation issuing a cell, as the first of a consignment, where it passes for genesis. -/
def mintFirst : Block := ⟨{ op 201 [] [.abs 30] with contractId := ⟨7⟩ }, .collect [(0, .abs 30)], none⟩

/-- The same operation further on in a consignment. -/
def mint : Block := ⟨op 201 [] [.abs 30], .collect [(0, .abs 30)], none⟩

/-- An operation spending the cell issued. -/
def spendMint : Block := ⟨op 202 [at_ 201 0] [], .empty, some (wit 60 [30] 202)⟩

/-- A codex accepting all operations. -/
def trustingCodex : Codex where
  codexId := ⟨7⟩
  verify _ op _ _ := .ok ⟨opid op, op⟩

/-- A ledger with this codex. -/
def trusting : Ledger := { ledger with codex := trustingCodex }
end Demo

open Demo in
/-- That the evaluations start with known operations is needed: a codex not looking for the inputs lets a
cell be spent before the operation creating it is applied. -/
theorem C77_needs_genesis : ∃ (c c' d' : Ledger) (l l' : List (Call Nat)), Lawful Nat Ledger ∧ LawfulMemory Nat Ledger ∧
    LocalMemory Nat Ledger ∧ Faithful (ContractApi.codex Nat c) ∧ History (Seal := Nat) AnyStart c l c' ∧
    History (Seal := Nat) AnyStart c l' d' ∧
    (∀ v, v ∈ l.filterMap appliedOperation ↔ v ∈ l'.filterMap appliedOperation) ∧
    ContractApi.memory Nat c' ≠ ContractApi.memory Nat d' := by
  obtain ⟨o₁, h1⟩ := accepted_of_accepts (c := trusting) (bs := [mintFirst, spendMint]) (by decide +kernel)
  have e1 : o₁.world.contract = contractAt trusting.contractId trusting [mintFirst, spendMint] 2 := h1.shape.contract
  obtain ⟨o₂, h2⟩ := accepted_of_accepts (c := o₁.world.contract) (bs := [genesis, mint]) (by rw [e1]; decide +kernel)
  obtain ⟨o₃, h3⟩ := accepted_of_accepts (c := trusting) (bs := [genesis, mint, spendMint]) (by decide +kernel)
  refine ⟨trusting, _, _, _, _, ledger_lawful, ledger_lawfulMemory, ledger_localMemory, ?_,
    .step (fun _ _ => trivial) h1.run (.step (fun _ _ => trivial) h2.run (.nil _)), .step (fun _ _ => trivial) h3.run (.nil _), ?_, ?_⟩
  · intro cid op mem repo v h
    injection h with h
    subst h
    exact ⟨rfl, rfl⟩
  · intro v
    have k1 : o₁.world.calls.filterMap appliedOperation = [⟨⟨202⟩, spendMint.operation⟩] := by
      rw [applied_filter, h1.shape.callbacks]; rfl
    have k2 : o₂.world.calls.filterMap appliedOperation = [⟨⟨201⟩, mint.operation⟩] := by
      rw [applied_filter, h2.shape.callbacks, e1]; rfl
    have k3 : o₃.world.calls.filterMap appliedOperation = [⟨⟨201⟩, mint.operation⟩, ⟨⟨202⟩, spendMint.operation⟩] := by
      rw [applied_filter, h3.shape.callbacks]; rfl
    rw [List.filterMap_append, List.filterMap_append, List.filterMap_append, k1, k2, k3]
    simp [or_comm]
  · rw [h2.shape.contract, h3.shape.contract, e1]
    intro h
    have := congrArg (fun m : Memory => m.destructible (at_ 201 0)) h
    revert this
    decide +kernel

end Rgb
