import Verif.Spec
import Mathlib.Data.List.Forall2
import Verif.Lemmas.Step

set_option linter.unusedSectionVars false

/-! Lemmas about whole runs: lists of blocks, readers and the loop. -/

namespace Rgb
open Spec

variable {Seal : Type} [LinearOrder Seal] [RgbSeal Seal] [OpHash]
variable {C E : Type} [ContractApi Seal C]

/-! ### closing inputs -/

theorem closeAll_ok {seals : OMap CellAddr Seal} {ins : List Input} {closed : List Seal}
    {seals' : OMap CellAddr Seal} (h : closeAll seals ins = .ok (closed, seals')) :
    (ins.map (·.addr)).Nodup ∧ List.Forall₂ (fun (inp : Input) s => seals.get? inp.addr = some s) ins closed ∧
      ∀ a, seals'.get? a = if a ∈ ins.map (·.addr) then none else seals.get? a := by
  induction ins generalizing seals closed seals' with
  | nil =>
    simp only [closeAll, Except.ok.injEq, Prod.mk.injEq] at h
    obtain ⟨rfl, rfl⟩ := h
    simp
  | cons inp rest ih =>
    simp only [closeAll] at h
    split at h
    · exact absurd h (by simp)
    · rename_i s hs
      split at h
      · exact absurd h (by simp)
      · rename_i cl sl hc
        simp only [Except.ok.injEq, Prod.mk.injEq] at h
        obtain ⟨rfl, rfl⟩ := h
        obtain ⟨h1, h2, h3⟩ := ih hc
        have hn : inp.addr ∉ rest.map (·.addr) := by
          intro hm
          obtain ⟨inp', hi', he⟩ := List.mem_map.1 hm
          have : ∃ s, (seals.remove inp.addr).2.get? inp'.addr = some s := by
            have aux : ∀ {l : List Input} {cl : List Seal}, List.Forall₂ (fun (inp_1 : Input) s =>
              (seals.remove inp.addr).2.get? inp_1.addr = some s) l cl → inp' ∈ l →
              ∃ s, (seals.remove inp.addr).2.get? inp'.addr = some s := by
              intro l cl hf
              induction hf with
              | nil => simp
              | cons ha _ ihf =>
                intro hm
                rcases List.mem_cons.1 hm with rfl | hm
                · exact ⟨_, ha⟩
                · exact ihf hm
            exact aux h2 hi'
          obtain ⟨s', hs'⟩ := this
          rw [OMap.get?_remove, if_pos he] at hs'
          exact absurd hs' (by simp)
        refine ⟨by simpa using ⟨by simpa using hn, h1⟩, .cons hs ?_, ?_⟩
        · apply List.Forall₂.imp _ h2
          intro inp' s' hs'
          rw [OMap.get?_remove] at hs'
          split at hs'
          · exact absurd hs' (by simp)
          · exact hs'
        · intro a
          rw [h3, OMap.get?_remove]
          simp only [List.map_cons, List.mem_cons]
          split
          · simp_all
          · split <;> simp_all

theorem closeAll_of {seals : OMap CellAddr Seal} {ins : List Input} {closed : List Seal}
    (h1 : (ins.map (·.addr)).Nodup)
    (h2 : List.Forall₂ (fun (inp : Input) s => seals.get? inp.addr = some s) ins closed) :
    ∃ seals', closeAll seals ins = .ok (closed, seals') := by
  induction ins generalizing seals closed with
  | nil => cases h2; exact ⟨seals, rfl⟩
  | cons inp rest ih =>
    cases h2 with
    | @cons _ s _ cl ha hf =>
      simp only [List.map_cons, List.nodup_cons] at h1
      have hf' : List.Forall₂ (fun (i : Input) s => (seals.remove inp.addr).2.get? i.addr = some s) rest cl := by
        have aux : ∀ {l : List Input} {cl : List Seal}, (∀ i ∈ l, i ∈ rest) →
            List.Forall₂ (fun (i : Input) s => seals.get? i.addr = some s) l cl →
            List.Forall₂ (fun (i : Input) s => (seals.remove inp.addr).2.get? i.addr = some s) l cl := by
          intro l cl hsub hf
          induction hf with
          | nil => exact .nil
          | @cons i s l cl hi _ ihf =>
            refine .cons ?_ (ihf fun i hi => hsub i (by simp [hi]))
            rw [OMap.get?_remove, if_neg]
            · exact hi
            · intro he
              exact h1.1 (List.mem_map.2 ⟨i, hsub i (by simp), he⟩)
        exact aux (fun _ h => h) hf
      obtain ⟨seals', hs'⟩ := ih h1.2 hf'
      exact ⟨seals', by simp [closeAll, ha, hs']⟩

/-- The address reported by a failing closing is the first unusable one. -/
theorem closeAll_error {seals : OMap CellAddr Seal} {ins : List Input} {a : CellAddr}
    (h : closeAll seals ins = .error a) :
    ∃ pre inp post, ins = pre ++ inp :: post ∧ inp.addr = a ∧ (pre.map (·.addr)).Nodup ∧
      (∀ i ∈ pre, ∃ s, seals.get? i.addr = some s) ∧ (seals.get? a = none ∨ a ∈ pre.map (·.addr)) := by
  induction ins generalizing seals with
  | nil => simp [closeAll] at h
  | cons inp rest ih =>
    simp only [closeAll] at h
    split at h
    · rename_i hn
      simp only [Except.error.injEq] at h
      exact ⟨[], inp, rest, rfl, h, by simp, by simp, .inl (h ▸ hn)⟩
    · rename_i s hs
      split at h
      · rename_i a' hc
        simp only [Except.error.injEq] at h
        subst h
        obtain ⟨pre, inp', post, e, ea, nd, op, un⟩ := ih hc
        have hpre : ∀ i ∈ pre, i.addr ≠ inp.addr ∧ ∃ s, seals.get? i.addr = some s := by
          intro i hi
          obtain ⟨s', hs'⟩ := op i hi
          rw [OMap.get?_remove] at hs'
          split at hs'
          · exact absurd hs' (by simp)
          · exact ⟨by assumption, s', hs'⟩
        refine ⟨inp :: pre, inp', post, by simp [e], ea, ?_, ?_, ?_⟩
        · simp only [List.map_cons, List.nodup_cons, List.mem_map, not_exists, not_and]
          exact ⟨fun i hi => (hpre i hi).1, nd⟩
        · intro i hi
          rcases List.mem_cons.1 hi with rfl | hi
          · exact ⟨s, hs⟩
          · exact (hpre i hi).2
        · rcases un with un | un
          · rw [OMap.get?_remove] at un
            split at un
            · right; simp_all
            · left; exact un
          · right; simp [un]
      · exact absurd h (by simp)

/-! ### registered seals -/

theorem mem_registered {o : Opid} {b : OperationSeals Seal} {a : CellAddr} {s : Seal} :
    (a, s) ∈ registered o b ↔ a.opid = o ∧ ∃ d, (a.pos, d) ∈ b.definedSeals.entries ∧
    (RgbSeal.toSrc d = some s ∨
      RgbSeal.toSrc d = none ∧ ∃ w, b.witness = some w ∧ s = RgbSeal.resolve d (RgbSeal.pubId w.published)) := by
  have hmap : ∀ (l : OSet (CellAddr ×ₗ Seal)), (a, s) ∈ l.elems.map ofLex ↔ toLex (a, s) ∈ l.elems := by
    intro l
    simp only [List.mem_map]
    constructor
    · rintro ⟨x, hx, e⟩
      rw [← e]; exact hx
    · intro h; exact ⟨_, h, rfl⟩
  have hsrc : toLex (a, s) ∈ (sourceSeals o b).elems ↔ a.opid = o ∧ ∃ d, (a.pos, d) ∈ b.definedSeals.entries ∧
      RgbSeal.toSrc d = some s := by
    simp only [sourceSeals, OSet.mem_collect, List.mem_filterMap, Option.map_eq_some_iff]
    constructor
    · rintro ⟨⟨p, d⟩, hm, s', hs', e⟩
      have e' := toLex_inj.1 e
      simp only [Prod.mk.injEq] at e'
      obtain ⟨rfl, rfl⟩ := e'
      exact ⟨rfl, d, hm, hs'⟩
    · rintro ⟨rfl, d, hm, hs'⟩
      exact ⟨(a.pos, d), hm, s, hs', rfl⟩
  unfold registered
  simp only [hmap]
  cases hw : b.witness with
  | none =>
    simp only [hsrc, reduceCtorEq, false_and, exists_false, and_false, or_false]
  | some w =>
    simp only [OSet.mem_extend, hsrc, witnessSeals, List.mem_map, List.mem_filter, Option.isNone_iff_eq_none]
    constructor
    · rintro (⟨h1, d, hm, hs⟩ | ⟨⟨p, d⟩, ⟨hm, hn⟩, e⟩)
      · exact ⟨h1, d, hm, .inl hs⟩
      · have e' := toLex_inj.1 e
        simp only [Prod.mk.injEq] at e'
        obtain ⟨rfl, rfl⟩ := e'
        exact ⟨rfl, d, hm, .inr ⟨hn, w, rfl, rfl⟩⟩
    · rintro ⟨rfl, d, hm, hs | ⟨hn, w', hw', rfl⟩⟩
      · exact .inl ⟨rfl, d, hm, hs⟩
      · right
        simp only [Option.some.injEq] at hw'
        subst hw'
        exact ⟨(a.pos, d), ⟨hm, hn⟩, rfl⟩

theorem registered_functional {o : Opid} {b : OperationSeals Seal} {a : CellAddr} {s s' : Seal}
    (h : (a, s) ∈ registered o b) (h' : (a, s') ∈ registered o b) : s' = s := by
  rw [mem_registered] at h h'
  obtain ⟨_, d, hm, hd⟩ := h
  obtain ⟨_, d', hm', hd'⟩ := h'
  have := OMap.key_unique hm hm'
  subst this
  rcases hd with hd | ⟨hd, w, hw, rfl⟩ <;> rcases hd' with hd' | ⟨hd', w', hw', rfl⟩
  · rw [hd] at hd'; exact (Option.some.inj hd').symm
  · simp [hd] at hd'
  · simp [hd] at hd'
  · rw [hw] at hw'; simp only [Option.some.injEq] at hw'; rw [hw']

theorem effOp_opAt (cid : ContractId) (i : Nat) (b : OperationSeals Seal) :
    effOp cid (decide (i = 0)) b = opAt cid i b := by
  simp [effOp, opAt]

theorem mem_registered_iff_announces {cid : ContractId} {i : Nat} {b : OperationSeals Seal} {a : CellAddr} {s : Seal} :
    (a, s) ∈ registered (idAt cid i b) b ↔ Announces cid i b a s := mem_registered

theorem Spec.Announces.functional {cid : ContractId} {i : Nat} {b : OperationSeals Seal} {a : CellAddr} {s s' : Seal}
    (h : Announces cid i b a s) (h' : Announces cid i b a s') : s' = s :=
  registered_functional (mem_registered_iff_announces.2 h) (mem_registered_iff_announces.2 h')

/-! ### open seals -/

theorem Spec.OpenAt.zero {cid : ContractId} {blocks : List (OperationSeals Seal)} {a : CellAddr} {s : Seal} :
    ¬ OpenAt cid blocks 0 a s := by
  rintro ⟨j, _, hj, _⟩; omega

theorem openAt_succ {cid : ContractId} {blocks : List (OperationSeals Seal)} {i : Nat} {b : OperationSeals Seal}
    (hb : blocks[i]? = some b) {a : CellAddr} {s : Seal} :
    OpenAt cid blocks (i + 1) a s ↔ Announces cid i b a s ∨
      (OpenAt cid blocks i a s ∧ ¬ Consumes b a ∧ ∀ s', ¬ Announces cid i b a s') := by
  constructor
  · rintro ⟨j, bj, hj, hbj, han, hno⟩
    by_cases e : j = i
    · subst e
      rw [hb] at hbj
      simp only [Option.some.injEq] at hbj
      subst hbj
      exact .inl han
    · right
      refine ⟨⟨j, bj, by omega, hbj, han, fun k b' h1 h2 h3 => hno k b' h1 (by omega) h3⟩, ?_⟩
      exact hno i b (by omega) (by omega) hb
  · rintro (han | ⟨⟨j, bj, hj, hbj, han, hno⟩, hc, hna⟩)
    · exact ⟨i, b, by omega, hb, han, fun k b' h1 h2 h3 => by omega⟩
    · refine ⟨j, bj, by omega, hbj, han, fun k b' h1 h2 h3 => ?_⟩
      by_cases e : k = i
      · subst e
        rw [hb] at h3
        simp only [Option.some.injEq] at h3
        subst h3
        exact ⟨hc, hna⟩
      · exact hno k b' h1 (by omega) h3

theorem Spec.OpenAt.functional {cid : ContractId} {blocks : List (OperationSeals Seal)} {i : Nat} {a : CellAddr}
    {s s' : Seal} (h : OpenAt cid blocks i a s) (h' : OpenAt cid blocks i a s') : s' = s := by
  obtain ⟨j, b, hj, hb, han, hno⟩ := h
  obtain ⟨j', b', hj', hb', han', hno'⟩ := h'
  rcases Nat.lt_trichotomy j j' with h | h | h
  · exact absurd han' ((hno j' b' h hj' hb').2 s')
  · subst h
    rw [hb] at hb'
    simp only [Option.some.injEq] at hb'
    subst hb'
    exact han.functional han'
  · exact absurd han ((hno' j b h hj hb).2 s)

/-! ### one step and the invariant -/

/-- The state of the loop between two iterations. -/
structure LoopState (Seal : Type) [LinearOrder Seal] [RgbSeal Seal] (C : Type) where
  g : Bool
  seals : OMap CellAddr Seal
  contract : C
  calls : List (Call Seal)

/-- The loop state after an accepted block. -/
def LoopState.next (st : LoopState Seal C) (p : StepResult Seal E) (seals' : OMap CellAddr Seal) : LoopState Seal C :=
  ⟨false, seals', p.calls.foldl applyCall st.contract, st.calls ++ [.read] ++ p.calls⟩

/-- Successive blocks. -/
def runBlocks (cid : ContractId) (xid : CodexId) :
    List (OperationSeals Seal) → LoopState Seal C → Except (VerificationError Seal E) (LoopState Seal C)
  | [], st => .ok st
  | b :: bs, st =>
    match (pureStep (E := E) cid xid st.g st.seals b st.contract).res with
    | .error e => .error e
    | .ok seals' => runBlocks cid xid bs (st.next (pureStep (E := E) cid xid st.g st.seals b st.contract) seals')

theorem runBlocks_append (cid : ContractId) (xid : CodexId) (xs ys : List (OperationSeals Seal)) (st : LoopState Seal C) :
    runBlocks (E := E) cid xid (xs ++ ys) st = (runBlocks (E := E) cid xid xs st).bind (runBlocks cid xid ys) := by
  induction xs generalizing st with
  | nil => rfl
  | cons b bs ih =>
    simp only [List.cons_append, runBlocks]
    split
    · rfl
    · exact ih _

/-- The loop state at position `i` of a consignment reflects the specification. -/
structure Inv (c : C) (blocks : List (OperationSeals Seal)) (i : Nat) (st : LoopState Seal C) : Prop where
  g : st.g = decide (i = 0)
  seals : ∀ a s, st.seals.get? a = some s ↔ OpenAt (ContractApi.contractId Seal c) blocks i a s
  contract : st.contract = contractAt (ContractApi.contractId Seal c) c blocks i
  calls : st.calls.filter IsCallback = callbacksUpTo (ContractApi.contractId Seal c) c blocks i
  trace : ∃ segs : List (List (Call Seal)), segs.length = i ∧
    st.calls = [.contractId, .codex] ++ segs.flatten ∧
    ∀ k b l, k < i → blocks[k]? = some b → segs[k]? = some l → BlockTrace c blocks k b l

theorem foldl_applyCall_eq_perform (l : List (Call Seal)) (c : C) : l.foldl applyCall c = l.foldl perform c := rfl

theorem foldl_perform_filter (l : List (Call Seal)) (c : C) : (l.filter IsCallback).foldl perform c = l.foldl perform c := by
  induction l generalizing c with
  | nil => rfl
  | cons x t ih =>
    cases x <;> simp [List.filter, IsCallback, perform, ih]

/-- Unpacked acceptance of one block. -/
theorem pureStep_ok {cid : ContractId} {xid : CodexId} {g : Bool} {seals : OMap CellAddr Seal}
    {b : OperationSeals Seal} {c : C} {sl : OMap CellAddr Seal} :
    (pureStep (E := E) cid xid g seals b c).res = .ok sl ↔
      (g = true → b.operation.contractId.bytes = xid.bytes) ∧
      (reportedSet b).isSubset (definedSet b) = true ∧
      ∃ closed seals' ver, closeAll seals b.operation.destructibleIn = .ok (closed, seals') ∧
        opCheck Seal c cid (effOp cid g b) = .ok ver ∧
        witnessCheck (E := E) (opid (effOp cid g b)) b closed = .ok () ∧
        sl = seals'.extend (registered (opid (effOp cid g b)) b) := by
  unfold pureStep
  split
  · rename_i h
    simp only [reduceCtorEq, false_iff, not_and]
    intro h'; exact absurd (h' h.1) h.2
  rename_i h1
  split
  · rename_i h; simp [h]
  rename_i h2
  have h1' : (g = true → b.operation.contractId.bytes = xid.bytes) := by
    intro hg; by_contra hne; exact h1 ⟨hg, hne⟩
  have h2' : (reportedSet b).isSubset (definedSet b) = true := by simpa using h2
  split
  · simp_all
  rename_i closed seals' hc
  split
  · simp_all
  rename_i ver hv
  split
  · rename_i e he
    simp only [reduceCtorEq, false_iff]
    rintro ⟨_, _, cl, s', v, e1, e2, e3, e4⟩
    rw [hc] at e1
    simp only [Except.ok.injEq, Prod.mk.injEq] at e1
    rw [← e1.1, he] at e3
    exact absurd e3 (by simp)
  · rename_i he
    simp only [Except.ok.injEq]
    constructor
    · rintro rfl
      exact ⟨h1', h2', closed, seals', ver, hc, hv, he, rfl⟩
    · rintro ⟨_, _, cl, s', v, e1, e2, e3, rfl⟩
      rw [hc] at e1
      simp only [Except.ok.injEq, Prod.mk.injEq] at e1
      rw [e1.2]

/-- The calls of an accepted block. -/
theorem pureStep_calls {cid : ContractId} {xid : CodexId} {g : Bool} {seals : OMap CellAddr Seal}
    {b : OperationSeals Seal} {c : C} {sl : OMap CellAddr Seal}
    (h : (pureStep (E := E) cid xid g seals b c).res = .ok sl) :
    ∃ closed seals' ver, closeAll seals b.operation.destructibleIn = .ok (closed, seals') ∧
      opCheck Seal c cid (effOp cid g b) = .ok ver ∧
      (pureStep (E := E) cid xid g seals b c).calls =
        opCalls c cid (effOp cid g b) ++ witnessCalls (opid (effOp cid g b)) b closed ++
            blockMuts g (opid (effOp cid g b)) b ver := by
  have h' := h
  rw [pureStep_ok] at h'
  obtain ⟨h1, h2, closed, seals', ver, hc, hv, hw, rfl⟩ := h'
  refine ⟨closed, seals', ver, hc, hv, ?_⟩
  unfold pureStep
  rw [if_neg (by simpa using h1), if_neg (by simp [h2]), hc]
  simp only [hv, hw]

theorem filter_opCalls (c : C) (cid : ContractId) (op : Operation) :
    (opCalls (Seal := Seal) c cid op).filter IsCallback = [] := by
  unfold opCalls; split <;> rfl

theorem filter_witnessCalls (o : Opid) (b : OperationSeals Seal) (closed : List Seal) :
    (witnessCalls o b closed).filter IsCallback = [] := by
  unfold witnessCalls; split <;> rfl

theorem blockMuts_eq_callbacks {cid : ContractId} {c : C} {i : Nat} {b : OperationSeals Seal}
    {ver : Option VerifiedOperation} (hv : opCheck Seal c cid (opAt cid i b) = .ok ver) :
    blockMuts (decide (i = 0)) (idAt cid i b) b ver = callbacks cid c i b := by
  unfold blockMuts callbacks
  congr 1
  · congr 1
    unfold operationCallbacks
    unfold opCheck at hv
    change (if ContractApi.isKnown Seal c (idAt cid i b) = true then _ else _) = _ at hv
    by_cases hi : i = 0
    · simp [hi]
    · simp only [hi, decide_false, Bool.false_eq_true, if_false, false_or]
      change _ = if _ then _ else match verifyOf Seal c cid (opAt cid i b) with | .ok v => _ | .error _ => _
      split at hv
      · rename_i hk
        simp only [Except.ok.injEq] at hv
        subst hv
        simp [hk]
      · rename_i hk
        rw [if_neg hk]
        split at hv
        · exact absurd hv (by simp)
        · rename_i hok
          simp only [Except.ok.injEq] at hv
          subst hv
          simp [hok]
  · simp [sealCallbacks, OMap.isEmpty]

theorem filter_callbacks (cid : ContractId) (c : C) (i : Nat) (b : OperationSeals Seal) :
    (callbacks cid c i b).filter IsCallback = callbacks cid c i b := by
  rw [List.filter_eq_self]
  unfold callbacks witnessCallbacks operationCallbacks sealCallbacks
  intro x hx
  simp only [List.mem_append] at hx
  rcases hx with (hx | hx) | hx
  · split at hx <;> simp_all [IsCallback]
  · split at hx
    · simp at hx
    · split at hx <;> simp_all [IsCallback]
  · split at hx <;> simp_all [IsCallback]

theorem isSubset_iff_committed {b : OperationSeals Seal} :
    (reportedSet b).isSubset (definedSet b) = true ↔ ∀ p d, (p, d) ∈ b.definedSeals.entries →
      ∃ cell ∈ b.operation.destructibleOut, cell.auth = RgbSeal.authToken d := by
  rw [OSet.isSubset_iff]
  simp only [reportedSet, definedSet, OSet.mem_collect, OMap.values, List.map_map, List.mem_map,
    Function.comp_apply, forall_exists_index, and_imp, Prod.forall]
  exact ⟨fun h p d hm => h _ p d hm rfl, fun h x p d hm e => e ▸ h p d hm⟩

theorem opCheck_ok {c : C} {cid : ContractId} {op : Operation} :
    (∃ ver, opCheck Seal c cid op = .ok ver) ↔
      (ContractApi.isKnown Seal c (opid op) = false → ∃ v, codexAnswer Seal c cid op = .ok v) := by
  unfold opCheck
  change _ ↔ (_ → ∃ v, verifyOf Seal c cid op = .ok v)
  cases ContractApi.isKnown Seal c (opid op)
  · cases verifyOf Seal c cid op <;> simp
  · simp

theorem witnessCheck_ok {o : Opid} {b : OperationSeals Seal} {closed : List Seal} :
    witnessCheck (E := E) o b closed = .ok () ↔
      (∀ w, b.witness = some w →
        RgbSeal.verifySealsClosing w.published w.client closed (message Seal o) = .ok ()) ∧
      (b.witness = none → closed = []) := by
  unfold witnessCheck
  cases hw : b.witness with
  | none => simp
  | some w =>
    simp only [Option.some.injEq, forall_eq', reduceCtorEq, false_implies, and_true]
    change _ ↔ RgbSeal.verifySealsClosing w.published w.client closed (msgOf Seal o) = .ok ()
    cases RgbSeal.verifySealsClosing w.published w.client closed (msgOf Seal o) <;> simp

theorem Inv.init (c : C) (blocks : List (OperationSeals Seal)) :
    Inv c blocks 0 ⟨true, OMap.empty, c, [.contractId, .codex]⟩ where
  g := rfl
  seals := by intro a s; simp [OpenAt.zero]
  contract := rfl
  calls := rfl
  trace := ⟨[], rfl, rfl, by intros; omega⟩

theorem Inv.effOp {c : C} {blocks : List (OperationSeals Seal)} {i : Nat} {st : LoopState Seal C}
    (h : Inv c blocks i st) (cid : ContractId) (b : OperationSeals Seal) : effOp cid st.g b = opAt cid i b := by
  rw [h.g, effOp_opAt]

theorem Inv.step_valid {c : C} {blocks : List (OperationSeals Seal)} {i : Nat} {st : LoopState Seal C}
    (h : Inv c blocks i st) {b : OperationSeals Seal} :
    (∃ sl, (pureStep (E := E) (ContractApi.contractId Seal c) (ContractApi.codex Seal c).codexId st.g st.seals b
      st.contract).res = .ok sl) ↔ ValidBlock c blocks i b := by
  constructor
  · rintro ⟨sl, hs⟩
    rw [pureStep_ok] at hs
    obtain ⟨h1, h2, closed, seals', ver, hc, hv, hw, rfl⟩ := hs
    rw [h.effOp] at hv hw
    obtain ⟨c1, c2, c3⟩ := closeAll_ok hc
    refine ⟨fun hi => h1 (by simp [h.g, hi]), isSubset_iff_committed.1 h2, c1, ⟨closed, ?_, ?_⟩, ?_⟩
    · exact c2.imp fun inp s hs => (h.seals _ _).1 hs
    · exact witnessCheck_ok.1 hw
    · have := opCheck_ok.1 ⟨ver, hv⟩
      rwa [h.contract] at this
  · rintro ⟨v1, v2, v3, ⟨closed, v4, v5⟩, v6⟩
    have v4' : List.Forall₂ (fun (inp : Input) s => st.seals.get? inp.addr = some s) b.operation.destructibleIn closed :=
      v4.imp fun inp s hs => (h.seals _ _).2 hs
    obtain ⟨seals', hc⟩ := closeAll_of v3 v4'
    obtain ⟨ver, hver⟩ := opCheck_ok.2 v6
    refine ⟨_, pureStep_ok.2 ⟨?_, isSubset_iff_committed.2 v2, closed, seals', ver, hc, ?_, ?_, rfl⟩⟩
    · intro hg
      rw [h.g] at hg
      exact v1 (by simpa using hg)
    · rw [h.effOp, h.contract]; exact hver
    · rw [h.effOp]; exact witnessCheck_ok.2 v5

/-- The registry after an accepted block. -/
theorem registry_step {cid : ContractId} {blocks : List (OperationSeals Seal)} {i : Nat} {b : OperationSeals Seal}
    (hb : blocks[i]? = some b) {seals seals' : OMap CellAddr Seal} {closed : List Seal}
    (h : ∀ a s, seals.get? a = some s ↔ OpenAt cid blocks i a s)
    (hc : closeAll seals b.operation.destructibleIn = .ok (closed, seals')) (a : CellAddr) (s : Seal) :
    (seals'.extend (registered (idAt cid i b) b)).get? a = some s ↔ OpenAt cid blocks (i + 1) a s := by
  rw [openAt_succ hb]
  obtain ⟨c1, c2, c3⟩ := closeAll_ok hc
  by_cases ha : ∃ s', Announces cid i b a s'
  · obtain ⟨s', hs'⟩ := ha
    rw [OMap.get?_extend_of_mem (mem_registered_iff_announces.2 hs')
      (fun s'' h'' => hs'.functional (mem_registered_iff_announces.1 h''))]
    constructor
    · rintro e
      simp only [Option.some.injEq] at e
      subst e
      exact .inl hs'
    · rintro (hs'' | ⟨_, _, hno⟩)
      · rw [hs'.functional hs'']
      · exact absurd hs' (hno _)
  · have ha' : ∀ s', ¬ Announces cid i b a s' := fun s' hs' => ha ⟨s', hs'⟩
    rw [OMap.get?_extend_of_not_mem (fun v hv => ha' v (mem_registered_iff_announces.1 hv)), c3]
    have hcon : a ∈ b.operation.destructibleIn.map (·.addr) ↔ Consumes b a := by
      simp [Consumes]
    split
    · rename_i hin
      simp only [reduceCtorEq, false_iff]
      rintro (hs' | ⟨_, hno, _⟩)
      · exact ha' _ hs'
      · exact hno (hcon.1 hin)
    · rename_i hin
      rw [h]
      constructor
      · intro ho
        exact .inr ⟨ho, fun hh => hin (hcon.2 hh), ha'⟩
      · rintro (hs' | ⟨ho, _⟩)
        · exact absurd hs' (ha' _)
        · exact ho

theorem Inv.step {c : C} {blocks : List (OperationSeals Seal)} {i : Nat} {st : LoopState Seal C}
    (h : Inv c blocks i st) {b : OperationSeals Seal} (hb : blocks[i]? = some b) {sl : OMap CellAddr Seal}
    (hs : (pureStep (E := E) (ContractApi.contractId Seal c) (ContractApi.codex Seal c).codexId st.g st.seals b
      st.contract).res = .ok sl) :
    Inv c blocks (i + 1) (st.next (pureStep (E := E) (ContractApi.contractId Seal c) (ContractApi.codex Seal c).codexId
      st.g st.seals b st.contract) sl) := by
  obtain ⟨closed, seals', ver, hc, hv, hcalls⟩ := pureStep_calls hs
  have hs' := hs
  rw [pureStep_ok] at hs'
  obtain ⟨_, _, closed2, seals2, _, hc2, _, _, hsl⟩ := hs'
  rw [hc] at hc2
  simp only [Except.ok.injEq, Prod.mk.injEq] at hc2
  obtain ⟨rfl, rfl⟩ := hc2
  rw [h.effOp] at hv hsl
  rw [h.effOp] at hcalls
  have hm := blockMuts_eq_callbacks hv
  change blockMuts _ (opid (opAt _ i b)) b ver = _ at hm
  rw [← h.g] at hm
  rw [hm] at hcalls
  have hfilt : (pureStep (E := E) (ContractApi.contractId Seal c) (ContractApi.codex Seal c).codexId
      st.g st.seals b st.contract).calls.filter IsCallback =
      callbacks (ContractApi.contractId Seal c) (contractAt (ContractApi.contractId Seal c) c blocks i) i b := by
    rw [hcalls, ← h.contract]
    simp [filter_opCalls, filter_witnessCalls, filter_callbacks]
  refine ⟨by simp [LoopState.next], ?_, ?_, ?_, ?_⟩
  · intro a s
    simp only [LoopState.next]
    rw [hsl]
    exact registry_step hb h.seals hc a s
  · simp only [LoopState.next, contractAt, hb]
    rw [foldl_applyCall_eq_perform, ← foldl_perform_filter, hfilt, h.contract]
  · simp only [LoopState.next, callbacksUpTo, hb, List.filter_append, hfilt, h.calls]
    simp [IsCallback]
  · obtain ⟨segs, hl, hcat, hseg⟩ := h.trace
    refine ⟨segs ++ [.read :: (pureStep (E := E) (ContractApi.contractId Seal c) (ContractApi.codex Seal c).codexId
      st.g st.seals b st.contract).calls], by simp [hl], by simp [LoopState.next, hcat], ?_⟩
    intro k bk l hk hbk hsk
    by_cases e : k < i
    · rw [List.getElem?_append_left (by omega)] at hsk
      exact hseg k bk l e hbk hsk
    · have e' : k = i := by omega
      subst e'
      rw [hb] at hbk
      simp only [Option.some.injEq] at hbk
      subst hbk
      rw [List.getElem?_append_right (by omega)] at hsk
      simp only [hl, Nat.sub_self, List.getElem?_cons_zero, Option.some.injEq] at hsk
      subst hsk
      obtain ⟨c1, c2, c3⟩ := closeAll_ok hc
      refine ⟨closed, c2.imp fun inp s hs => (h.seals _ _).1 hs, ?_⟩
      rw [hcalls, h.contract]
      rfl

end Rgb
