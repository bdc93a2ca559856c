import Verif.Lemmas.Run

set_option linter.unusedSectionVars false

/-! Lemmas connecting `evaluate` on arbitrary readers with lists of blocks. -/

namespace Rgb
open Spec

variable {Seal : Type} [LinearOrder Seal] [RgbSeal Seal] [OpHash]
variable {C E : Type} [ContractApi Seal C]
variable {R : Type} [ReadOperation Seal R]

/-- The loop from a given state. -/
def loopFrom (cid : ContractId) (xid : CodexId) (r : R) (st : LoopState Seal C) :
    Option (Outcome Seal R C (ReadOperation.Error Seal R)) :=
  evalLoop cid xid r st.g st.seals ⟨st.contract, st.calls⟩

theorem loopFrom_eof {cid : ContractId} {xid : CodexId} {r r' : R} {st : LoopState Seal C}
    (h : ReadOperation.readOperation (Seal := Seal) r = (.ok none, r')) :
    loopFrom cid xid r st = some ⟨.ok (), ⟨st.contract, st.calls ++ [.read]⟩, r'⟩ := by
  unfold loopFrom
  rw [evalLoop, h]

theorem loopFrom_fail {cid : ContractId} {xid : CodexId} {r r' : R} {st : LoopState Seal C}
    {e : ReadOperation.Error Seal R}
    (h : ReadOperation.readOperation (Seal := Seal) r = (.error e, r')) :
    loopFrom cid xid r st = some ⟨.error (.stream e), ⟨st.contract, st.calls ++ [.read]⟩, r'⟩ := by
  unfold loopFrom
  rw [evalLoop, h]

theorem loopFrom_ok {cid : ContractId} {xid : CodexId} {r r' : R} {st : LoopState Seal C}
    {b : OperationSeals Seal} {sl : OMap CellAddr Seal}
    (h : ReadOperation.readOperation r = (.ok (some b), r'))
    (hs : (pureStep (E := ReadOperation.Error Seal R) cid xid st.g st.seals b st.contract).res = .ok sl) :
    loopFrom cid xid r st = loopFrom cid xid r'
      (st.next (pureStep (E := ReadOperation.Error Seal R) cid xid st.g st.seals b st.contract) sl) := by
  unfold loopFrom
  conv => lhs; rw [evalLoop]
  rw [h]
  simp only [processBlock_run, hs, Except.map]
  rfl

theorem pureStep_error_filter {cid : ContractId} {xid : CodexId} {g : Bool} {seals : OMap CellAddr Seal}
    {b : OperationSeals Seal} {c : C} {e : VerificationError Seal E}
    (h : (pureStep (E := E) cid xid g seals b c).res = .error e) :
    (pureStep (E := E) cid xid g seals b c).calls.filter IsCallback = [] := by
  unfold pureStep at h ⊢
  split
  · rfl
  rename_i h1
  rw [if_neg h1] at h
  split
  · rfl
  rename_i h2
  rw [if_neg h2] at h
  split
  · rfl
  rename_i hc
  simp only [hc] at h
  split
  · exact filter_opCalls ..
  rename_i hv
  simp only [hv] at h
  split
  · simp [filter_opCalls, filter_witnessCalls]
  rename_i hw
  simp [hw] at h

theorem foldl_applyCall_of_filter {l : List (Call Seal)} {c : C} (h : l.filter IsCallback = []) :
    l.foldl applyCall c = c := by
  rw [foldl_applyCall_eq_perform, ← foldl_perform_filter, h]; rfl

theorem loopFrom_err {cid : ContractId} {xid : CodexId} {r r' : R} {st : LoopState Seal C}
    {b : OperationSeals Seal} {e : VerificationError Seal (ReadOperation.Error Seal R)}
    (h : ReadOperation.readOperation r = (.ok (some b), r'))
    (hs : (pureStep (E := ReadOperation.Error Seal R) cid xid st.g st.seals b st.contract).res = .error e) :
    loopFrom cid xid r st = some ⟨.error e, ⟨st.contract, st.calls ++ [.read] ++
      (pureStep (E := ReadOperation.Error Seal R) cid xid st.g st.seals b st.contract).calls⟩, r'⟩ := by
  unfold loopFrom
  conv => lhs; rw [evalLoop]
  rw [h]
  have hf := foldl_applyCall_of_filter (c := st.contract) (pureStep_error_filter hs)
  simp only [processBlock_run, hs, Except.map, hf]

/-- How a run of the loop, standing before reader `r` in state `st`, comes to its end with outcome `o`. -/
inductive Ends (cid : ContractId) (xid : CodexId) (r : R) (st : LoopState Seal C) :
    Outcome Seal R C (ReadOperation.Error Seal R) → Prop where
  | eof {r'} : ReadOperation.readOperation (Seal := Seal) r = (.ok none, r') →
      Ends cid xid r st ⟨.ok (), ⟨st.contract, st.calls ++ [.read]⟩, r'⟩
  | fail {e r'} : ReadOperation.readOperation (Seal := Seal) r = (.error e, r') →
      Ends cid xid r st ⟨.error (.stream e), ⟨st.contract, st.calls ++ [.read]⟩, r'⟩
  | reject {b e r'} : ReadOperation.readOperation r = (.ok (some b), r') →
      (pureStep (E := ReadOperation.Error Seal R) cid xid st.g st.seals b st.contract).res = .error e →
      Ends cid xid r st ⟨.error e, ⟨st.contract, st.calls ++ [.read] ++
      (pureStep (E := ReadOperation.Error Seal R) cid xid st.g st.seals b st.contract).calls⟩, r'⟩

theorem Ends.loop {cid : ContractId} {xid : CodexId} {r : R} {st : LoopState Seal C} {o}
    (h : Ends cid xid r st o) : loopFrom cid xid r st = some o := by
  cases h with
  | eof h => exact loopFrom_eof h
  | fail h => exact loopFrom_fail h
  | reject h hs => exact loopFrom_err h hs

theorem loopFrom_reads {cid : ContractId} {xid : CodexId} {r r' : R} {st st' : LoopState Seal C}
    {blocks : List (OperationSeals Seal)} (h : Reads r blocks r')
    (hs : runBlocks (E := ReadOperation.Error Seal R) cid xid blocks st = .ok st') :
    loopFrom cid xid r st = loopFrom cid xid r' st' := by
  induction h generalizing st with
  | nil r =>
    simp only [runBlocks, Except.ok.injEq] at hs
    rw [hs]
  | cons hr _ ih =>
    simp only [runBlocks] at hs
    split at hs
    · exact absurd hs (by simp)
    · rename_i sl hsl
      rw [loopFrom_ok hr hsl]
      exact ih hs

theorem loop_ends {cid : ContractId} {xid : CodexId} {r : R} {st : LoopState Seal C} {o}
    (h : loopFrom cid xid r st = some o) :
    ∃ blocks r₁ st₁, Reads r blocks r₁ ∧
      runBlocks (E := ReadOperation.Error Seal R) cid xid blocks st = .ok st₁ ∧ Ends cid xid r₁ st₁ o := by
  have key := evalLoop.partial_correctness (Seal := Seal) (C := C) (R := R) cid xid
    (fun r g seals w o => ∃ blocks r₁ st₁, Reads r blocks r₁ ∧
      runBlocks (E := ReadOperation.Error Seal R) cid xid blocks (⟨g, seals, w.contract, w.calls⟩ : LoopState Seal C)
        = .ok st₁ ∧ Ends cid xid r₁ st₁ o)
  refine key ?_ r st.g st.seals ⟨st.contract, st.calls⟩ o h
  intro loop ih r g seals w o ho
  rcases hr : ReadOperation.readOperation (Seal := Seal) r with ⟨_ | _ | b, r'⟩
  · rw [hr] at ho
    simp only [Option.some.injEq] at ho
    subst ho
    exact ⟨[], r, _, .nil r, rfl, .fail hr⟩
  · rw [hr] at ho
    simp only [Option.some.injEq] at ho
    subst ho
    exact ⟨[], r, _, .nil r, rfl, .eof hr⟩
  · rw [hr] at ho
    simp only [processBlock_run] at ho
    rcases hs : (pureStep (E := ReadOperation.Error Seal R) cid xid g seals b w.contract).res with e | sl
    · rw [hs] at ho
      simp only [Except.map, Option.some.injEq] at ho
      subst ho
      refine ⟨[], r, _, .nil r, rfl, ?_⟩
      rw [foldl_applyCall_of_filter (pureStep_error_filter hs)]
      exact .reject (st := ⟨g, seals, w.contract, w.calls⟩) hr hs
    · rw [hs] at ho
      simp only [Except.map] at ho
      obtain ⟨blocks, r₁, st₁, h1, h2, h3⟩ := ih _ _ _ _ _ ho
      refine ⟨b :: blocks, r₁, st₁, .cons hr h1, ?_, h3⟩
      simp only [runBlocks, hs]
      exact h2

theorem loop_iff {cid : ContractId} {xid : CodexId} {r : R} {st : LoopState Seal C} {o} :
    loopFrom cid xid r st = some o ↔ ∃ blocks r₁ st₁, Reads r blocks r₁ ∧
      runBlocks (E := ReadOperation.Error Seal R) cid xid blocks st = .ok st₁ ∧ Ends cid xid r₁ st₁ o := by
  refine ⟨loop_ends, ?_⟩
  rintro ⟨blocks, r₁, st₁, h1, h2, h3⟩
  rw [loopFrom_reads h1 h2, h3.loop]

/-- The state in which `evaluate` enters its loop. -/
def initState (c : C) : LoopState Seal C := ⟨true, OMap.empty, c, [.contractId, .codex]⟩

theorem evaluate_eq_loop (c : C) (r : R) :
    evaluate c r = loopFrom (Seal := Seal) (ContractApi.contractId Seal c) (ContractApi.codex Seal c).codexId r (initState c) :=
  rfl

/-! ### readers -/

theorem Spec.Reads.append {r r₁ r₂ : R} {xs ys : List (OperationSeals Seal)} (h1 : Reads r xs r₁) (h2 : Reads r₁ ys r₂) :
    Reads r (xs ++ ys) r₂ := by
  induction h1 with
  | nil => exact h2
  | cons h _ ih => exact .cons h (ih h2)

theorem Spec.Reads.split {r r₂ : R} {xs ys : List (OperationSeals Seal)} (h : Reads r (xs ++ ys) r₂) :
    ∃ r₁, Reads r xs r₁ ∧ Reads r₁ ys r₂ := by
  induction xs generalizing r with
  | nil => exact ⟨r, .nil r, h⟩
  | cons x t ih =>
    cases h with
    | cons hr ht =>
      obtain ⟨r₁, h1, h2⟩ := ih ht
      exact ⟨r₁, .cons hr h1, h2⟩

/-- Readers are deterministic. -/
theorem Spec.Reads.det {r r₁ r₂ : R} {xs ys : List (OperationSeals Seal)} (h1 : Reads r xs r₁) (h2 : Reads r ys r₂) :
    (∃ zs, ys = xs ++ zs ∧ Reads r₁ zs r₂) ∨ (∃ zs, xs = ys ++ zs ∧ Reads r₂ zs r₁) := by
  induction h1 generalizing ys with
  | nil r => exact .inl ⟨ys, rfl, h2⟩
  | @cons r r₁ r' b bs hr h1 ih =>
    cases h2 with
    | nil => exact .inr ⟨b :: bs, rfl, .cons hr h1⟩
    | cons hr' h2 =>
      rw [hr] at hr'
      simp only [Prod.mk.injEq, Except.ok.injEq, Option.some.injEq] at hr'
      obtain ⟨rfl, rfl⟩ := hr'
      rcases ih h2 with ⟨zs, rfl, h⟩ | ⟨zs, rfl, h⟩
      · exact .inl ⟨zs, rfl, h⟩
      · exact .inr ⟨zs, rfl, h⟩

theorem Spec.Reads.unique_of_stop {r r₁ r₂ r₁' r₂' : R} {xs ys : List (OperationSeals Seal)}
    {x y : Except (ReadOperation.Error Seal R) (Option (OperationSeals Seal))}
    (h1 : Reads r xs r₁) (e1 : ReadOperation.readOperation (Seal := Seal) r₁ = (x, r₁'))
    (hx : ∀ b, x ≠ .ok (some b))
    (h2 : Reads r ys r₂) (e2 : ReadOperation.readOperation (Seal := Seal) r₂ = (y, r₂'))
    (hy : ∀ b, y ≠ .ok (some b)) : xs = ys ∧ r₁ = r₂ := by
  rcases h1.det h2 with ⟨zs, rfl, h⟩ | ⟨zs, rfl, h⟩
  · cases h with
    | nil => simp
    | cons hr _ => rw [e1] at hr; simp only [Prod.mk.injEq] at hr; exact absurd hr.1 (hx _)
  · cases h with
    | nil => simp
    | cons hr _ => rw [e2] at hr; simp only [Prod.mk.injEq] at hr; exact absurd hr.1 (hy _)

/-! ### the invariant along a run -/

theorem inv_run {c : C} {blocks : List (OperationSeals Seal)} {n : Nat} (hn : n ≤ blocks.length) {st : LoopState Seal C}
    (h : runBlocks (E := E) (ContractApi.contractId Seal c) (ContractApi.codex Seal c).codexId (blocks.take n)
      (initState c) = .ok st) :
    Inv c blocks n st ∧ ∀ i b, i < n → blocks[i]? = some b → ValidBlock c blocks i b := by
  induction n generalizing st with
  | zero =>
    simp only [List.take_zero, runBlocks, Except.ok.injEq] at h
    subst h
    exact ⟨Inv.init c blocks, by intros; omega⟩
  | succ n ih =>
    have hlt : n < blocks.length := by omega
    have hb : blocks[n]? = some blocks[n] := by simp [hlt]
    rw [← List.take_append_getElem hlt, runBlocks_append] at h
    cases h0 : runBlocks (E := E) (ContractApi.contractId Seal c) (ContractApi.codex Seal c).codexId (blocks.take n)
      (initState c) with
    | error e => rw [h0] at h; exact absurd h (by simp [Except.bind])
    | ok st0 =>
      rw [h0] at h
      obtain ⟨hinv, hval⟩ := ih (by omega) h0
      simp only [Except.bind, runBlocks] at h
      split at h
      · exact absurd h (by simp)
      · rename_i sl hsl
        simp only [Except.ok.injEq] at h
        subst h
        refine ⟨hinv.step hb hsl, ?_⟩
        intro i b hi hbi
        by_cases e : i < n
        · exact hval i b e hbi
        · have : i = n := by omega
          subst this
          rw [hb] at hbi
          simp only [Option.some.injEq] at hbi
          subst hbi
          exact hinv.step_valid.1 ⟨sl, hsl⟩

theorem run_of_valid {c : C} {blocks : List (OperationSeals Seal)} {n : Nat} (hn : n ≤ blocks.length)
    (h : ∀ i b, i < n → blocks[i]? = some b → ValidBlock c blocks i b) :
    ∃ st, runBlocks (E := E) (ContractApi.contractId Seal c) (ContractApi.codex Seal c).codexId (blocks.take n)
      (initState c) = .ok st := by
  induction n with
  | zero => exact ⟨_, rfl⟩
  | succ n ih =>
    have hlt : n < blocks.length := by omega
    have hb : blocks[n]? = some blocks[n] := by simp [hlt]
    obtain ⟨st, hst⟩ := ih (by omega) (fun i b hi => h i b (by omega))
    have hinv := (inv_run (by omega) hst).1
    obtain ⟨sl, hsl⟩ := (hinv.step_valid (E := E)).2 (h n _ (by omega) hb)
    rw [← List.take_append_getElem hlt, runBlocks_append, hst]
    simp only [Except.bind, runBlocks]
    rw [hsl]
    exact ⟨_, rfl⟩

/-- Master lemma: the shape of every terminating run of `evaluate`. -/
theorem evaluate_ends {c : C} {r : R} {o} (h : evaluate (Seal := Seal) c r = some o) :
    ∃ blocks r₁ st, Reads r blocks r₁ ∧
      runBlocks (E := ReadOperation.Error Seal R) (ContractApi.contractId Seal c) (ContractApi.codex Seal c).codexId blocks
        (initState c) = .ok st ∧
      Inv c blocks blocks.length st ∧ ValidConsignment c blocks ∧
      Ends (ContractApi.contractId Seal c) (ContractApi.codex Seal c).codexId r₁ st o := by
  rw [evaluate_eq_loop] at h
  obtain ⟨blocks, r₁, st, h1, h2, h3⟩ := loop_ends h
  have h2' := h2
  rw [← List.take_length (l := blocks)] at h2'
  obtain ⟨hi, hv⟩ := inv_run (Nat.le_refl _) h2'
  refine ⟨blocks, r₁, st, h1, h2, hi, ?_, h3⟩
  intro i b hb
  have : i < blocks.length := by
    by_contra hc
    rw [List.getElem?_eq_none (by omega)] at hb
    simp at hb
  exact hv i b this hb

theorem run_of_validConsignment {c : C} {blocks : List (OperationSeals Seal)} (h : ValidConsignment c blocks) :
    ∃ st, runBlocks (E := E) (ContractApi.contractId Seal c) (ContractApi.codex Seal c).codexId blocks
      (initState c) = .ok st ∧ Inv c blocks blocks.length st := by
  obtain ⟨st, hst⟩ := run_of_valid (E := E) (Nat.le_refl blocks.length) (fun i b _ hb => h i b hb)
  have hi := (inv_run (Nat.le_refl _) hst).1
  rw [List.take_length] at hst
  exact ⟨st, hst, hi⟩

/-- An accepted run. -/
theorem accepted {c : C} {r : R} {o} {blocks : List (OperationSeals Seal)}
    (h : evaluate (Seal := Seal) c r = some o) (hok : o.result = .ok ()) (hd : Delivers r blocks) :
    ∃ r₁ st, Reads r blocks r₁ ∧
      runBlocks (E := ReadOperation.Error Seal R) (ContractApi.contractId Seal c) (ContractApi.codex Seal c).codexId blocks
        (initState c) = .ok st ∧
      Inv c blocks blocks.length st ∧ ValidConsignment c blocks ∧
      o.world = ⟨st.contract, st.calls ++ [.read]⟩ ∧
      ReadOperation.readOperation (Seal := Seal) r₁ = (.ok none, o.reader) := by
  obtain ⟨bs, r₁, st, h1, h2, h3, h4, h5⟩ := evaluate_ends h
  obtain ⟨q₁, q₂, hq, hq'⟩ := hd
  cases h5 with
  | eof hr =>
    obtain ⟨rfl, rfl⟩ := h1.unique_of_stop hr (by simp) hq hq' (by simp)
    exact ⟨r₁, st, h1, h2, h3, h4, rfl, hr⟩
  | fail => simp at hok
  | reject => simp at hok

end Rgb
