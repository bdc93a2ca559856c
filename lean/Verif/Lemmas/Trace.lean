import Verif.Lemmas.Main

set_option linter.unusedSectionVars false

/-! Locating calls in the trace of a run. -/

namespace Rgb
open Spec

variable {Seal : Type} [LinearOrder Seal] [RgbSeal Seal] [OpHash]
variable {C E : Type} [ContractApi Seal C]
variable {R : Type} [ReadOperation Seal R]

theorem split_left {α : Type} {A B pre post : List α} {x : α} (h : A ++ B = pre ++ x :: post) (hx : x ∉ A) :
    ∃ k, pre = A ++ k ∧ B = k ++ x :: post := by
  rcases List.append_eq_append_iff.1 h with ⟨k, h1, h2⟩ | ⟨k, h1, h2⟩
  · exact ⟨k, h1, h2⟩
  · cases k with
    | nil => exact ⟨[], by simpa using h1.symm, by simpa using h2.symm⟩
    | cons y k =>
      simp only [List.cons_append, List.cons.injEq] at h2
      obtain ⟨rfl, _⟩ := h2
      exact absurd (by rw [h1]; simp) hx

theorem split_right {α : Type} {A B pre post : List α} {x : α} (h : A ++ B = pre ++ x :: post) (hx : x ∉ B) :
    ∃ k, post = k ++ B ∧ A = pre ++ x :: k := by
  rcases List.append_eq_append_iff.1 h with ⟨k, h1, h2⟩ | ⟨k, h1, h2⟩
  · exact absurd (by rw [h2]; simp) hx
  · cases k with
    | nil =>
      simp only [List.nil_append] at h2
      exact absurd (by rw [← h2]; simp) hx
    | cons y k =>
      simp only [List.cons_append, List.cons.injEq] at h2
      obtain ⟨rfl, h2⟩ := h2
      exact ⟨k, h2, h1⟩

theorem split_flatten {α : Type} {segs : List (List α)} {pre post : List α} {x : α}
    (h : segs.flatten = pre ++ x :: post) :
    ∃ i l p q, segs[i]? = some l ∧ l = p ++ x :: q ∧ pre = (segs.take i).flatten ++ p := by
  induction segs generalizing pre with
  | nil => simp at h
  | cons s t ih =>
    rw [List.flatten_cons] at h
    rcases List.append_eq_append_iff.1 h with ⟨k, h1, h2⟩ | ⟨k, h1, h2⟩
    · obtain ⟨i, l, p, q, e1, e2, e3⟩ := ih h2
      exact ⟨i + 1, l, p, q, by simpa using e1, e2, by simp [h1, e3]⟩
    · cases k with
      | nil =>
        simp only [List.nil_append] at h2
        obtain ⟨i, l, p, q, e1, e2, e3⟩ := ih (pre := []) h2.symm
        refine ⟨i + 1, l, p, q, by simpa using e1, e2, ?_⟩
        simp only [List.append_nil] at h1
        simp [h1, ← e3]
      | cons y k =>
        simp only [List.cons_append, List.cons.injEq] at h2
        obtain ⟨rfl, h2⟩ := h2
        exact ⟨0, s, pre, k, rfl, h1, by simp⟩

theorem polls_append (l m : List (Call Seal)) : polls (l ++ m) = polls l + polls m := List.countP_append

theorem polls_queries (cid : ContractId) (c : C) (i : Nat) (b : OperationSeals Seal) : polls (queries cid c i b) = 0 := by
  unfold queries; split <;> rfl

theorem polls_sealQueries (o : Opid) (b : OperationSeals Seal) (seals : List Seal) : polls (sealQueries o b seals) = 0 := by
  unfold sealQueries; split <;> rfl

theorem polls_eq_zero_of_callbacks {l : List (Call Seal)} (h : l.filter IsCallback = l) : polls l = 0 := by
  rw [polls, List.countP_eq_zero]
  intro x hx hr
  rw [← h] at hx
  have := (List.mem_filter.1 hx).2
  cases x <;> simp_all [IsCallback, IsRead]

theorem polls_callbacks (cid : ContractId) (c : C) (i : Nat) (b : OperationSeals Seal) : polls (callbacks cid c i b) = 0 :=
  polls_eq_zero_of_callbacks (filter_callbacks ..)

theorem Spec.BlockTrace.polls {c : C} {blocks : List (OperationSeals Seal)} {i : Nat} {b : OperationSeals Seal}
    {l : List (Call Seal)} (h : BlockTrace c blocks i b l) : Spec.polls l = 1 := by
  obtain ⟨seals, _, rfl⟩ := h
  have : ∀ l : List (Call Seal), Spec.polls (.read :: l) = Spec.polls l + 1 := fun l => List.countP_cons_of_pos rfl
  rw [this, polls_append, polls_append, polls_queries, polls_sealQueries, polls_callbacks]

theorem filter_queries (cid : ContractId) (c : C) (i : Nat) (b : OperationSeals Seal) :
    (queries cid c i b).filter IsCallback = [] := by
  unfold queries; split <;> rfl

theorem filter_sealQueries (o : Opid) (b : OperationSeals Seal) (seals : List Seal) :
    (sealQueries o b seals).filter IsCallback = [] := by
  unfold sealQueries; split <;> rfl

theorem Spec.BlockTrace.callbacks {c : C} {blocks : List (OperationSeals Seal)} {i : Nat} {b : OperationSeals Seal}
    {l : List (Call Seal)} (h : BlockTrace c blocks i b l) :
    l.filter IsCallback = Spec.callbacks (ContractApi.contractId Seal c)
      (contractAt (ContractApi.contractId Seal c) c blocks i) i b := by
  obtain ⟨seals, _, rfl⟩ := h
  rw [List.filter_cons_of_neg (by simp [IsCallback]), List.filter_append, List.filter_append, filter_queries,
    filter_sealQueries, filter_callbacks]
  rfl

theorem Segments.polls_take {c : C} {blocks : List (OperationSeals Seal)} {segs : List (List (Call Seal))}
    (h : Segments c blocks segs) {i : Nat} (hi : i ≤ blocks.length) : polls (segs.take i).flatten = i := by
  induction i with
  | zero => rfl
  | succ i ih =>
    have hlt : i < segs.length := by rw [h.1]; omega
    have hb : blocks[i]? = some blocks[i] := by simp
    rw [← List.take_append_getElem hlt, List.flatten_append, polls_append, ih (by omega)]
    simp only [List.flatten_cons, List.flatten_nil, List.append_nil]
    rw [(h.2 i _ _ hb (by simp [hlt] : segs[i]? = some segs[i])).polls]

theorem Segments.callbacks_take {c : C} {blocks : List (OperationSeals Seal)} {segs : List (List (Call Seal))}
    (h : Segments c blocks segs) {i : Nat} (hi : i ≤ blocks.length) :
    (segs.take i).flatten.filter IsCallback = callbacksUpTo (ContractApi.contractId Seal c) c blocks i := by
  induction i with
  | zero => rfl
  | succ i ih =>
    have hlt : i < segs.length := by rw [h.1]; omega
    have hb : blocks[i]? = some blocks[i] := by simp
    rw [← List.take_append_getElem hlt, List.flatten_append, List.filter_append, ih (by omega)]
    simp only [List.flatten_cons, List.flatten_nil, List.append_nil]
    rw [(h.2 i _ _ hb (by simp [hlt] : segs[i]? = some segs[i])).callbacks]
    simp only [callbacksUpTo, hb]

theorem Segments.perform_take {c : C} {blocks : List (OperationSeals Seal)} {segs : List (List (Call Seal))}
    (h : Segments c blocks segs) {i : Nat} (hi : i ≤ blocks.length) :
    (segs.take i).flatten.foldl perform c = contractAt (ContractApi.contractId Seal c) c blocks i := by
  induction i with
  | zero => rfl
  | succ i ih =>
    have hlt : i < segs.length := by rw [h.1]; omega
    have hb : blocks[i]? = some blocks[i] := by simp
    rw [← List.take_append_getElem hlt, List.flatten_append, List.foldl_append, ih (by omega)]
    simp only [List.flatten_cons, List.flatten_nil, List.append_nil]
    rw [← foldl_perform_filter, (h.2 i _ _ hb (by simp [hlt] : segs[i]? = some segs[i])).callbacks]
    simp only [contractAt, hb]

theorem Segments.take_all {c : C} {blocks : List (OperationSeals Seal)} {segs : List (List (Call Seal))}
    (h : Segments c blocks segs) : segs.take blocks.length = segs := by
  rw [← h.1, List.take_length]

theorem Spec.Rejection.filter_callbacks {c : C} {blocks : List (OperationSeals Seal)} {b : OperationSeals Seal}
    {e : VerificationError Seal E} {l} (h : Rejection c blocks b e l) : l.filter IsCallback = [] := by
  cases h <;> simp [filter_queries, IsCallback]

theorem Spec.Rejection.polls {c : C} {blocks : List (OperationSeals Seal)} {b : OperationSeals Seal}
    {e : VerificationError Seal E} {l} (h : Rejection c blocks b e l) : Spec.polls l = 0 := by
  cases h <;> first | rfl | exact polls_queries .. | (rw [polls_append, polls_queries]; rfl)

theorem Spec.Rejection.not_stream {c : C} {blocks : List (OperationSeals Seal)} {b : OperationSeals Seal}
    {e : E} {l} : ¬ Rejection c blocks b (.stream e) l := by
  intro h; cases h

theorem polls_cons_read (l : List (Call Seal)) : polls (.read :: l) = polls l + 1 := by
  exact List.countP_cons_of_pos rfl

/-- The parts of a run's trace. -/
theorem RunShape.tail {c : C} {r : R} {blocks : List (OperationSeals Seal)}
    {o : Outcome Seal R C (ReadOperation.Error Seal R)} (h : RunShape c r blocks o) :
    ∃ segs tail, Segments c blocks segs ∧
      o.world.calls = [.contractId, .codex] ++ segs.flatten ++ .read :: tail ∧
      tail.filter IsCallback = [] ∧ polls tail = 0 ∧ StartsWith r blocks ∧
      (tail = [] ∨ ∃ b e, Rejection (E := ReadOperation.Error Seal R) c blocks b e tail) := by
  obtain ⟨segs, tail, h1, h2, h3⟩ := h.stop
  refine ⟨segs, tail, h1, h2, ?_⟩
  rcases h3 with ⟨_, rfl, r₁, h4, _⟩ | ⟨e, _, rfl, r₁, h4, _⟩ | ⟨b, e, _, h4, h5⟩
  · exact ⟨rfl, rfl, ⟨_, h4⟩, .inl rfl⟩
  · exact ⟨rfl, rfl, ⟨_, h4⟩, .inl rfl⟩
  · obtain ⟨r₁, h6, _⟩ := h4.split
    exact ⟨h5.filter_callbacks, h5.polls, ⟨_, h6⟩, .inr ⟨b, e, h5⟩⟩

theorem RunShape.callbacks {c : C} {r : R} {blocks : List (OperationSeals Seal)}
    {o : Outcome Seal R C (ReadOperation.Error Seal R)} (h : RunShape c r blocks o) :
    o.world.calls.filter IsCallback = callbacksUpTo (ContractApi.contractId Seal c) c blocks blocks.length := by
  obtain ⟨segs, tail, h1, h2, h3, _⟩ := h.tail
  have := h1.callbacks_take (Nat.le_refl _)
  rw [h1.take_all] at this
  have e : (Call.read :: tail).filter IsCallback = tail.filter IsCallback := List.filter_cons_of_neg (by simp [IsCallback])
  rw [h2, List.filter_append, List.filter_append, this, e, h3]
  simp [IsCallback]

theorem RunShape.polls {c : C} {r : R} {blocks : List (OperationSeals Seal)}
    {o : Outcome Seal R C (ReadOperation.Error Seal R)} (h : RunShape c r blocks o) :
    Spec.polls o.world.calls = blocks.length + 1 := by
  obtain ⟨segs, tail, h1, h2, h3, h4, _⟩ := h.tail
  have := h1.polls_take (Nat.le_refl _)
  rw [h1.take_all] at this
  rw [h2, polls_append, polls_append, this, polls_cons_read, h4]
  simp [Spec.polls, IsRead]

/-- Every callback in the trace of a run belongs to an accepted block. -/
theorem locate {c : C} {r : R} {o} (h : evaluate (Seal := Seal) c r = some o) {x : Call Seal} (hx : IsCallback x = true)
    {pre post : List (Call Seal)} (heq : o.world.calls = pre ++ x :: post) :
    ∃ blocks i b seals pre₀ cb₁ cb₂, StartsWith r blocks ∧ ValidConsignment c blocks ∧ blocks[i]? = some b ∧
      polls pre₀ = i ∧ pre₀.foldl perform c = contractAt (ContractApi.contractId Seal c) c blocks i ∧
      List.Forall₂ (fun (inp : Input) s => OpenAt (ContractApi.contractId Seal c) blocks i inp.addr s)
        b.operation.destructibleIn seals ∧
      callbacks (ContractApi.contractId Seal c) (contractAt (ContractApi.contractId Seal c) c blocks i) i b =
        cb₁ ++ x :: cb₂ ∧
      pre = pre₀ ++ .read :: (queries (ContractApi.contractId Seal c)
        (contractAt (ContractApi.contractId Seal c) c blocks i) i b ++
        sealQueries (idAt (ContractApi.contractId Seal c) i b) b seals ++ cb₁) := by
  obtain ⟨blocks, hs⟩ := run_shape h
  obtain ⟨segs, tail, h1, h2, h3, h4, h5, _⟩ := hs.tail
  have nomem : ∀ l : List (Call Seal), l.filter IsCallback = [] → x ∉ l := by
    intro l hl hm
    have : x ∈ l.filter IsCallback := List.mem_filter.2 ⟨hm, hx⟩
    rw [hl] at this
    simp at this
  rw [h2] at heq
  obtain ⟨k, _, heq1⟩ := split_right heq (nomem _ (by rw [List.filter_cons_of_neg (by simp [IsCallback]), h3]))
  obtain ⟨k', rfl, heq2⟩ := split_left heq1 (nomem _ rfl)
  obtain ⟨i, l, p, q, e1, e2, e3⟩ := split_flatten heq2
  have hi : i < blocks.length := by rw [← h1.1]; exact lt_length_of_getElem? e1
  have hb : blocks[i]? = some blocks[i] := by simp
  obtain ⟨seals, hf, hl⟩ := h1.2 i _ l hb e1
  rw [e2] at hl
  have hl' : ([.read] ++ queries (ContractApi.contractId Seal c) (contractAt (ContractApi.contractId Seal c) c blocks i) i blocks[i]
      ++ sealQueries (idAt (ContractApi.contractId Seal c) i blocks[i]) blocks[i] seals) ++
      callbacks (ContractApi.contractId Seal c) (contractAt (ContractApi.contractId Seal c) c blocks i) i blocks[i] =
      p ++ x :: q := by rw [hl]; simp
  obtain ⟨k, rfl, hcb⟩ := split_left hl' (nomem _ (by
    rw [List.filter_append, List.filter_append, filter_queries, filter_sealQueries]; rfl))
  refine ⟨blocks, i, blocks[i], seals, [.contractId, .codex] ++ (segs.take i).flatten, k, q, h5, hs.valid, hb, ?_, ?_, hf, hcb, ?_⟩
  · rw [polls_append, h1.polls_take (Nat.le_of_lt hi)]; simp [polls, IsRead]
  · rw [List.foldl_append, show List.foldl perform c [.contractId, .codex] = c from rfl, h1.perform_take (Nat.le_of_lt hi)]
  · rw [e3]; simp

theorem Spec.Accepted.shape {c : C} {r : R} {blocks : List (OperationSeals Seal)}
    {o : Outcome Seal R C (ReadOperation.Error Seal R)} (h : Accepted c r blocks o) : RunShape c r blocks o := by
  obtain ⟨bs, hs⟩ := run_shape h.run
  obtain ⟨segs, tail, h1, h2, h3⟩ := hs.stop
  rcases h3 with ⟨_, rfl, r₁, h4, h5⟩ | ⟨e, he, _⟩ | ⟨b, e, he, _⟩
  · obtain ⟨q₁, q₂, hq, hq'⟩ := h.delivers
    obtain ⟨rfl, _⟩ := h4.unique_of_stop h5 (by simp) hq hq' (by simp)
    exact hs
  · rw [h.ok] at he; simp at he
  · rw [h.ok] at he; simp at he

theorem Spec.Accepted.valid {c : C} {r : R} {blocks : List (OperationSeals Seal)}
    {o : Outcome Seal R C (ReadOperation.Error Seal R)} (h : Accepted c r blocks o) : ValidConsignment c blocks :=
  h.shape.valid

/-- The trace of an accepted run. -/
theorem Spec.Accepted.trace {c : C} {r : R} {blocks : List (OperationSeals Seal)}
    {o : Outcome Seal R C (ReadOperation.Error Seal R)} (h : Accepted c r blocks o) :
    ∃ segs, Segments c blocks segs ∧ o.world.calls = [.contractId, .codex] ++ segs.flatten ++ [.read] := by
  obtain ⟨segs, tail, h1, h2, h3⟩ := h.shape.stop
  rcases h3 with ⟨_, rfl, r₁, h4, h5⟩ | ⟨e, he, _⟩ | ⟨b, e, he, _⟩
  · exact ⟨segs, h1, h2⟩
  · rw [h.ok] at he; simp at he
  · rw [h.ok] at he; simp at he

/-- Every call made while an accepted block was processed, with its place in the trace. -/
theorem Spec.Accepted.call_of_block {c : C} {r : R} {blocks : List (OperationSeals Seal)}
    {o : Outcome Seal R C (ReadOperation.Error Seal R)} (h : Accepted c r blocks o) {x : Call Seal}
    {pre post : List (Call Seal)} (heq : o.world.calls = pre ++ x :: post) (h1 : x ≠ .contractId)
    (h2 : x = .codex → pre ≠ [.contractId]) (h3 : x = .read → polls pre < blocks.length) :
    ∃ i b l pre₀ p q, blocks[i]? = some b ∧ BlockTrace c blocks i b l ∧ l = p ++ x :: q ∧ pre = pre₀ ++ p ∧
      polls pre₀ = i ∧ pre₀.foldl perform c = contractAt (ContractApi.contractId Seal c) c blocks i := by
  obtain ⟨segs, hs, hc⟩ := h.trace
  rw [hc] at heq
  have hall : polls segs.flatten = blocks.length := by
    have := hs.polls_take (Nat.le_refl _)
    rwa [hs.take_all] at this
  have step1 : ∃ k, post = k ++ [.read] ∧ [.contractId, .codex] ++ segs.flatten = pre ++ x :: k := by
    by_cases hx : x ∈ [Call.read]
    · simp only [List.mem_singleton] at hx
      have hp := h3 hx
      subst hx
      rcases List.append_eq_append_iff.1 heq with ⟨k, e1, e2⟩ | ⟨k, e1, e2⟩
      · exfalso
        have : polls pre ≥ blocks.length := by
          rw [e1, polls_append, polls_append, hall]; omega
        omega
      · cases k with
        | nil =>
          exfalso
          simp only [List.append_nil] at e1
          rw [← e1, polls_append, hall] at hp
          omega
        | cons y k =>
          simp only [List.cons_append, List.cons.injEq] at e2
          obtain ⟨rfl, e2⟩ := e2
          exact ⟨k, e2, e1⟩
    · exact split_right heq hx
  obtain ⟨k, _, heq⟩ := step1
  have step2 : ∃ k', pre = [.contractId, .codex] ++ k' ∧ segs.flatten = k' ++ x :: k := by
    cases pre with
    | nil =>
      simp only [List.cons_append, List.nil_append, List.cons.injEq] at heq
      exact absurd heq.1.symm h1
    | cons y pre =>
      cases pre with
      | nil =>
        simp only [List.cons_append, List.nil_append, List.cons.injEq] at heq
        exact absurd (by rw [← heq.1]) (h2 heq.2.1.symm)
      | cons z pre =>
        simp only [List.cons_append, List.nil_append, List.cons.injEq] at heq
        obtain ⟨rfl, rfl, e⟩ := heq
        exact ⟨pre, rfl, e⟩
  obtain ⟨k', rfl, heq2⟩ := step2
  obtain ⟨i, l, p, q, e1, e2, e3⟩ := split_flatten heq2
  have hi : i < blocks.length := by rw [← hs.1]; exact lt_length_of_getElem? e1
  refine ⟨i, blocks[i], l, [.contractId, .codex] ++ (segs.take i).flatten, p, q, by simp, hs.2 i _ l (by simp) e1, e2, ?_, ?_, ?_⟩
  · rw [e3]; simp
  · rw [polls_append, hs.polls_take (Nat.le_of_lt hi)]; simp [polls, IsRead]
  · rw [List.foldl_append, show List.foldl perform c [.contractId, .codex] = c from rfl, hs.perform_take (Nat.le_of_lt hi)]

end Rgb
