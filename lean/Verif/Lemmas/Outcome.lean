import Verif.Lemmas.Trace
import Mathlib.Data.List.Induction

set_option linter.unusedSectionVars false

/-! Uniqueness of outcomes, errors across reader types, and the place of every call. -/

namespace Rgb
open Spec

variable {Seal : Type} [LinearOrder Seal] [RgbSeal Seal] [OpHash]
variable {C E E' : Type} [ContractApi Seal C]
variable {R : Type} [ReadOperation Seal R]
variable {R' : Type} [ReadOperation Seal R']

theorem sealed_unique {cid : ContractId} {blocks : List (OperationSeals Seal)} {i : Nat} {l : List Input} {m m' : List Seal}
    (hm : List.Forall₂ (fun (inp : Input) s => OpenAt cid blocks i inp.addr s) l m)
    (h' : List.Forall₂ (fun (inp : Input) s => OpenAt cid blocks i inp.addr s) l m') : m' = m := by
  induction hm generalizing m' with
  | nil => cases h'; rfl
  | cons ha _ ih =>
    cases h' with
    | cons ha' ht' => rw [ih ht', ha.functional ha']

theorem Spec.BlockTrace.unique {c : C} {blocks : List (OperationSeals Seal)} {i : Nat} {b : OperationSeals Seal}
    {l l' : List (Call Seal)} (h : BlockTrace c blocks i b l) (h' : BlockTrace c blocks i b l') : l = l' := by
  obtain ⟨s, h1, rfl⟩ := h
  obtain ⟨s', h1', rfl⟩ := h'
  rw [sealed_unique h1 h1']

theorem Segments.unique {c : C} {blocks : List (OperationSeals Seal)} {s s' : List (List (Call Seal))}
    (h : Segments c blocks s) (h' : Segments c blocks s') : s = s' := by
  apply List.ext_getElem? 
  intro k
  by_cases hk : k < blocks.length
  · have hb : blocks[k]? = some blocks[k] := by simp
    have e1 : s[k]? = some (s[k]'(by rw [h.1]; exact hk)) := by simp
    have e2 : s'[k]? = some (s'[k]'(by rw [h'.1]; exact hk)) := by simp
    rw [e1, e2, (h.2 k _ _ hb e1).unique (h'.2 k _ _ hb e2)]
  · rw [List.getElem?_eq_none (by rw [h.1]; omega), List.getElem?_eq_none (by rw [h'.1]; omega)]

theorem Spec.Rejection.map {c : C} {blocks : List (OperationSeals Seal)} {b : OperationSeals Seal}
    {e : VerificationError Seal E} {l} (f : E → E') (h : Rejection c blocks b e l) :
    Rejection c blocks b (e.mapStream f) l := by
  cases h with
  | codex h1 h2 => exact .codex h1 h2
  | mismatch h1 h2 h3 h4 h5 => exact .mismatch h1 h2 h3 h4 h5
  | unknown h1 h2 h3 h4 h5 h6 => exact .unknown h1 h2 h3 h4 h5 h6
  | script h1 h2 h3 h4 h5 => exact .script h1 h2 h3 h4 h5
  | notClosed h1 h2 h3 h4 h5 h6 => exact .notClosed h1 h2 h3 h4 h5 h6
  | noWitness h1 h2 h3 h4 h5 h6 => exact .noWitness h1 h2 h3 h4 h5 h6

theorem Spec.Rejection.empty {c : C} {blocks : List (OperationSeals Seal)} {b : OperationSeals Seal}
    {e : VerificationError Seal E} {l} (h : Rejection c blocks b e l) :
    ∃ e₀ : VerificationError Seal Empty, e = e₀.mapStream Empty.elim ∧ Rejection c blocks b e₀ l := by
  cases h with
  | codex h1 h2 => exact ⟨_, rfl, .codex h1 h2⟩
  | mismatch h1 h2 h3 h4 h5 => exact ⟨.sealsDefinitionMismatch _ _ _ _, rfl, .mismatch h1 h2 h3 h4 h5⟩
  | unknown h1 h2 h3 h4 h5 h6 => exact ⟨.sealUnknown _, rfl, .unknown h1 h2 h3 h4 h5 h6⟩
  | script h1 h2 h3 h4 h5 => exact ⟨.vm _, rfl, .script h1 h2 h3 h4 h5⟩
  | notClosed h1 h2 h3 h4 h5 h6 => exact ⟨.sealsNotClosed _ _ _, rfl, .notClosed h1 h2 h3 h4 h5 h6⟩
  | noWitness h1 h2 h3 h4 h5 h6 => exact ⟨.noWitness _, rfl, .noWitness h1 h2 h3 h4 h5 h6⟩

/-- Any call of any run is the initial reading of the ids, or belongs to an accepted block, or to the
last poll and rejected block. -/
theorem RunShape.place {c : C} {r : R} {blocks : List (OperationSeals Seal)}
    {o : Outcome Seal R C (ReadOperation.Error Seal R)} (h : RunShape c r blocks o) {x : Call Seal}
    {pre post : List (Call Seal)} (heq : o.world.calls = pre ++ x :: post) :
    (pre = [] ∧ x = .contractId) ∨ (pre = [.contractId] ∧ x = .codex) ∨
    (∃ i b l p q pre₀, blocks[i]? = some b ∧ BlockTrace c blocks i b l ∧ l = p ++ x :: q ∧ pre = pre₀ ++ p ∧
      Spec.polls pre₀ = i ∧ pre₀.foldl perform c = contractAt (ContractApi.contractId Seal c) c blocks i) ∨
    (∃ tail p q pre₀, .read :: tail = p ++ x :: q ∧ pre = pre₀ ++ p ∧ Spec.polls pre₀ = blocks.length ∧
      (tail = [] ∨ ∃ b e, StartsWith r (blocks ++ [b]) ∧
        Rejection (E := ReadOperation.Error Seal R) c blocks b e tail)) := by
  obtain ⟨segs, tail, h1, h2, h3⟩ := h.stop
  have h6 : tail = [] ∨ ∃ b e, StartsWith r (blocks ++ [b]) ∧
      Rejection (E := ReadOperation.Error Seal R) c blocks b e tail := by
    rcases h3 with ⟨_, h3, _⟩ | ⟨_, _, h3, _⟩ | ⟨b, e, _, h3, h4⟩
    · exact .inl h3
    · exact .inl h3
    · exact .inr ⟨b, e, ⟨_, h3⟩, h4⟩
  rw [h2] at heq
  have hall : Spec.polls segs.flatten = blocks.length := by
    have := h1.polls_take (Nat.le_refl _)
    rwa [h1.take_all] at this
  rcases List.append_eq_append_iff.1 heq with ⟨k, e1, e2⟩ | ⟨k, e1, e2⟩
  · refine .inr (.inr (.inr ⟨tail, k, post, _, e2, e1, ?_, h6⟩))
    rw [polls_append, hall]; simp [Spec.polls, IsRead]
  · cases k with
    | nil =>
      simp only [List.nil_append, List.append_nil] at e1 e2
      refine .inr (.inr (.inr ⟨tail, [], post, _, by simp [← e2], by simp; rfl, ?_, h6⟩))
      rw [← e1, polls_append, hall]; simp [Spec.polls, IsRead]
    | cons y k =>
      simp only [List.cons_append, List.cons.injEq] at e2
      obtain ⟨rfl, e2⟩ := e2
      cases pre with
      | nil =>
        simp only [List.cons_append, List.nil_append, List.cons.injEq] at e1
        exact .inl ⟨rfl, e1.1.symm⟩
      | cons y pre =>
        cases pre with
        | nil =>
          simp only [List.cons_append, List.nil_append, List.cons.injEq] at e1
          exact .inr (.inl ⟨by rw [← e1.1], e1.2.1.symm⟩)
        | cons z pre =>
          simp only [List.cons_append, List.nil_append, List.cons.injEq] at e1
          obtain ⟨rfl, rfl, e⟩ := e1
          obtain ⟨i, l, p, q, f1, f2, f3⟩ := split_flatten e
          have hi : i < blocks.length := by rw [← h1.1]; exact lt_length_of_getElem? f1
          have hb : blocks[i]? = some blocks[i] := by simp
          refine .inr (.inr (.inl ⟨i, _, l, p, q, [.contractId, .codex] ++ (segs.take i).flatten, hb, h1.2 i _ l hb f1, f2, ?_, ?_, ?_⟩))
          · rw [f3]; simp
          · rw [polls_append, h1.polls_take (Nat.le_of_lt hi)]; simp [Spec.polls, IsRead]
          · rw [List.foldl_append, show List.foldl perform c [.contractId, .codex] = c from rfl,
              h1.perform_take (Nat.le_of_lt hi)]

theorem RunShape.starts {c : C} {r : R} {blocks : List (OperationSeals Seal)}
    {o : Outcome Seal R C (ReadOperation.Error Seal R)} (h : RunShape c r blocks o) : StartsWith r blocks := by
  obtain ⟨_, _, _, _, _, _, k, _⟩ := h.tail
  exact k

/-- Two lists of blocks delivered by the same reader agree as far as they go. -/
theorem starts_agree {r : R} {xs ys : List (OperationSeals Seal)} (hx : StartsWith r xs) (hy : StartsWith r ys)
    {j : Nat} (h1 : j < xs.length) (h2 : j < ys.length) : xs[j]? = ys[j]? := by
  obtain ⟨_, hx⟩ := hx
  obtain ⟨_, hy⟩ := hy
  rcases hx.det hy with ⟨zs, rfl, _⟩ | ⟨zs, rfl, _⟩
  · rw [List.getElem?_append_left h1]
  · rw [List.getElem?_append_left h2]

/-- The calls made between reading block `b`, after `blocks`, and the next read. -/
theorem round {c : C} {r : R} {blocks : List (OperationSeals Seal)} {b : OperationSeals Seal}
    (hr : StartsWith r (blocks ++ [b])) {o} (h : evaluate (Seal := Seal) c r = some o)
    {pre post : List (Call Seal)} {x : Call Seal} (hx : x ≠ .read)
    (hc : o.world.calls = pre ++ x :: post) (hp : polls pre = blocks.length + 1) :
    (∃ seals p q, ValidBlock c blocks blocks.length b ∧
      List.Forall₂ (fun (inp : Input) s => OpenAt (ContractApi.contractId Seal c) blocks blocks.length inp.addr s)
        b.operation.destructibleIn seals ∧
      queries (ContractApi.contractId Seal c) (contractAt (ContractApi.contractId Seal c) c blocks blocks.length)
        blocks.length b ++ sealQueries (nextId c blocks b) b seals ++
      callbacks (ContractApi.contractId Seal c) (contractAt (ContractApi.contractId Seal c) c blocks blocks.length)
        blocks.length b = p ++ x :: q) ∨
    ∃ (e : VerificationError Seal (ReadOperation.Error Seal R)) (l p q : _), Rejection c blocks b e l ∧ l = p ++ x :: q := by
  obtain ⟨bs, hs⟩ := run_shape h
  rcases hs.place hc with ⟨h1, _⟩ | ⟨h1, _⟩ | ⟨i, b', l, p, q, pre₀, h1, h2, h3, h4, h5, _⟩ | ⟨tail, p, q, pre₀, h1, h2, h3, h4⟩
  · subst h1; simp [polls] at hp
  · subst h1; simp [polls, IsRead] at hp
  · obtain ⟨seals, hf, hl⟩ := h2
    rw [h3] at hl
    cases p with
    | nil =>
      simp only [List.nil_append, List.cons.injEq] at hl
      exact absurd hl.1 hx
    | cons y p =>
      simp only [List.cons_append, List.cons.injEq] at hl
      obtain ⟨rfl, hl⟩ := hl
      have hp0 : polls p = 0 := by
        have := congrArg polls hl
        rw [polls_append, polls_append, polls_append, polls_queries, polls_sealQueries, polls_callbacks] at this
        omega
      rw [h4, polls_append, polls_cons_read, h5, hp0] at hp
      have hi : i = blocks.length := by omega
      subst hi
      have hlt := lt_length_of_getElem? h1
      have key : ∀ j, j ≤ blocks.length → bs[j]? = (blocks ++ [b])[j]? := fun j hj =>
        starts_agree hs.starts hr (by omega) (by simp; omega)
      have hbb := key _ (Nat.le_refl _)
      rw [h1] at hbb
      simp only [List.length_append, List.length_cons, List.length_nil, Nat.zero_add, Nat.lt_add_one,
        List.getElem?_append_right, Nat.le_refl, Nat.sub_self, List.getElem?_cons_zero, Option.some.injEq] at hbb
      subst hbb
      have hk : ∀ j < blocks.length, bs[j]? = blocks[j]? := by
        intro j hj
        rw [key j (by omega), List.getElem?_append_left hj]
      rw [contractAt_congr hk] at hl
      exact .inl ⟨seals, p, q, validBlock_congr hk (hs.valid _ _ h1), hf.imp fun _ _ ho => (openAt_congr hk).1 ho, hl.symm⟩
  · cases p with
    | nil =>
      simp only [List.nil_append, List.cons.injEq] at h1
      exact absurd h1.1.symm hx
    | cons y p =>
      simp only [List.cons_append, List.cons.injEq] at h1
      obtain ⟨rfl, h1⟩ := h1
      rcases h4 with rfl | ⟨b', e, hst, hrej⟩
      · simp at h1
      have hpt : polls p = 0 := by
        have := hrej.polls
        rw [h1, polls_append] at this
        omega
      rw [h2, polls_append, polls_cons_read, h3, hpt] at hp
      have hbl : bs.length = blocks.length := by omega
      have heq : bs ++ [b'] = blocks ++ [b] := by
        apply List.ext_getElem?
        intro j
        by_cases hj : j < bs.length + 1
        · exact starts_agree hst hr (by simp; omega) (by simp; omega)
        · rw [List.getElem?_eq_none (by simp; omega), List.getElem?_eq_none (by simp; omega)]
      obtain ⟨rfl, e4⟩ := List.append_inj heq hbl
      simp only [List.cons.injEq, and_true] at e4
      subst e4
      exact .inr ⟨e, tail, p, q, hrej, h1⟩

/-- A consignment that is not valid has a first block that is not. -/
theorem first_invalid {c : C} {blocks : List (OperationSeals Seal)} (hv : ¬ ValidConsignment c blocks) :
    ∃ xs b ys, blocks = xs ++ b :: ys ∧ ValidConsignment c xs ∧ ¬ ValidBlock c xs xs.length b := by
  induction blocks using List.reverseRecOn with
  | nil => exact absurd validConsignment_nil hv
  | append_singleton xs b ih =>
    by_cases hx : ValidConsignment c xs
    · exact ⟨xs, b, [], by simp, hx, fun hb => hv (validConsignment_snoc.2 ⟨hx, hb⟩)⟩
    · obtain ⟨us, d, vs, rfl, h1, h2⟩ := ih hx
      exact ⟨us, d, vs ++ [b], by simp, h1, h2⟩

/-- Any call other than a read and the two initial questions belongs to the round of some block. -/
theorem in_round {c : C} {r : R} {o} (h : evaluate (Seal := Seal) c r = some o)
    {pre post : List (Call Seal)} {x : Call Seal} (hx : x ≠ .read) (hx₁ : x ≠ .contractId) (hx₂ : x ≠ .codex)
    (hc : o.world.calls = pre ++ x :: post) :
    ∃ (blocks : List (OperationSeals Seal)) (b : OperationSeals Seal), StartsWith r (blocks ++ [b]) ∧
      polls pre = blocks.length + 1 ∧ ValidConsignment c blocks := by
  obtain ⟨bs, hs⟩ := run_shape h
  rcases hs.place hc with ⟨_, h1⟩ | ⟨_, h1⟩ | ⟨i, b, l, p, q, pre₀, h1, h2, h3, h4, h5, _⟩ | ⟨tail, p, q, pre₀, h1, h2, h3, h4⟩
  · exact absurd h1 hx₁
  · exact absurd h1 hx₂
  · have hlt := lt_length_of_getElem? h1
    have hb : b = bs[i] := by
      rw [List.getElem?_eq_getElem hlt] at h1
      exact (Option.some.inj h1).symm
    have hsplit : bs = bs.take i ++ [b] ++ bs.drop (i + 1) := by
      rw [hb, List.append_assoc]
      simp
    have hpoll : polls p = 1 := by
      have hl := h2.polls
      rw [h3, polls_append] at hl
      obtain ⟨seals, hf, e⟩ := h2
      rw [h3] at e
      cases p with
      | nil =>
        simp only [List.nil_append, List.cons.injEq] at e
        exact absurd e.1 hx
      | cons y p =>
        simp only [List.cons_append, List.cons.injEq] at e
        obtain ⟨rfl, _⟩ := e
        rw [polls_cons_read] at hl ⊢
        omega
    refine ⟨bs.take i, b, ?_, ?_, ?_⟩
    · obtain ⟨r₁, hr⟩ := hs.starts
      rw [hsplit] at hr
      obtain ⟨r₂, hr, _⟩ := hr.split
      exact ⟨r₂, hr⟩
    · rw [h4, polls_append, hpoll, h5]; simp; omega
    · have := hs.valid
      rw [hsplit, List.append_assoc] at this
      exact this.prefix
  · cases p with
    | nil =>
      simp only [List.nil_append, List.cons.injEq] at h1
      exact absurd h1.1.symm hx
    | cons y p =>
      simp only [List.cons_append, List.cons.injEq] at h1
      obtain ⟨rfl, h1⟩ := h1
      rcases h4 with rfl | ⟨b', e, hst, hrej⟩
      · simp at h1
      have hpt : polls p = 0 := by
        have := hrej.polls
        rw [h1, polls_append] at this
        omega
      exact ⟨bs, b', hst, by rw [h2, polls_append, polls_cons_read, h3, hpt], hs.valid⟩

/-- The seal protocol is asked only about the witness of the block and the open seals of its inputs. -/
theorem asked_of_round {c : C} {r : R} {blocks : List (OperationSeals Seal)} {b : OperationSeals Seal}
    (hr : StartsWith r (blocks ++ [b])) {o} (h : evaluate (Seal := Seal) c r = some o)
    {pre post : List (Call Seal)} {w : SealWitness Seal} {seals : List Seal} {m : RgbSeal.Message Seal}
    (hc : o.world.calls = pre ++ .verifySealsClosing w seals m :: post) (hp : polls pre = blocks.length + 1) :
    b.witness = some w ∧ m = message Seal (nextId c blocks b) ∧
      List.Forall₂ (fun (inp : Input) s => OpenAt (ContractApi.contractId Seal c) blocks blocks.length inp.addr s)
        b.operation.destructibleIn seals := by
  have hq : ∀ c' : C, ∀ s, Call.verifySealsClosing w s m ∉ queries (ContractApi.contractId Seal c) c' blocks.length b := by
    intro c' s
    unfold queries; split <;> simp
  rcases round hr h (by simp) hc hp with ⟨seals', p, q, _, hf, hl⟩ | ⟨e, l, p, q, hrej, hl⟩
  · have hm : Call.verifySealsClosing w seals m ∈ p ++ Call.verifySealsClosing w seals m :: q := by simp
    rw [← hl, List.mem_append, List.mem_append] at hm
    rcases hm with (hm | hm) | hm
    · exact absurd hm (hq _ _)
    · unfold sealQueries at hm
      split at hm
      · rename_i w' hw
        simp only [List.mem_singleton, Call.verifySealsClosing.injEq] at hm
        obtain ⟨rfl, rfl, rfl⟩ := hm
        exact ⟨hw, rfl, hf⟩
      · simp at hm
    · rw [← filter_callbacks] at hm
      simp [IsCallback] at hm
  · have hm : Call.verifySealsClosing w seals m ∈ l := by rw [hl]; simp
    cases hrej with
    | codex => simp at hm
    | mismatch => simp at hm
    | unknown => simp at hm
    | script => exact absurd hm (hq _ _)
    | notClosed _ _ h3 _ h5 _ =>
      rw [List.mem_append] at hm
      rcases hm with hm | hm
      · exact absurd hm (hq _ _)
      · simp only [List.mem_singleton, Call.verifySealsClosing.injEq] at hm
        obtain ⟨rfl, rfl, rfl⟩ := hm
        exact ⟨h5, rfl, h3.2⟩
    | noWitness => exact absurd hm (hq _ _)

/-- Outcomes with the same accepted blocks and the same end agree. -/
theorem RunShape.calls_eq {c : C} {r : R} {r' : R'} {blocks : List (OperationSeals Seal)}
    {o : Outcome Seal R C (ReadOperation.Error Seal R)} {o' : Outcome Seal R' C (ReadOperation.Error Seal R')}
    (h : RunShape c r blocks o) (h' : RunShape c r' blocks o') (hok : o.result = .ok () ∨ ∃ e, o.result = .error (.stream e))
    (hok' : o'.result = .ok () ∨ ∃ e, o'.result = .error (.stream e)) : o.world = o'.world := by
  have aux : ∀ {R : Type} [ReadOperation Seal R] {r : R} {o : Outcome Seal R C (ReadOperation.Error Seal R)},
      RunShape c r blocks o → (o.result = .ok () ∨ ∃ e, o.result = .error (.stream e)) →
      ∃ segs, Segments c blocks segs ∧ o.world.calls = [.contractId, .codex] ++ segs.flatten ++ [.read] := by
    intro R _ r o h hok
    obtain ⟨segs, tail, h1, h2, h3⟩ := h.stop
    refine ⟨segs, h1, ?_⟩
    rcases h3 with ⟨_, rfl, _⟩ | ⟨e, _, rfl, _⟩ | ⟨b, e, he, _, hr⟩
    · exact h2
    · exact h2
    · rcases hok with hok | ⟨e', hok⟩
      · rw [he] at hok; simp at hok
      · rw [he] at hok
        simp only [Except.error.injEq] at hok
        subst hok
        exact absurd hr Rejection.not_stream
  obtain ⟨s, h1, h2⟩ := aux h hok
  obtain ⟨s', h1', h2'⟩ := aux h' hok'
  have := h1.unique h1'
  subst this
  have hc := h.contract.trans h'.contract.symm
  rcases o with ⟨_, ⟨_, _⟩, _⟩
  rcases o' with ⟨_, ⟨_, _⟩, _⟩
  simp_all

theorem RunShape.calls_eq_reject {c : C} {r : R} {r' : R'} {blocks : List (OperationSeals Seal)} {b : OperationSeals Seal} {l}
    {o : Outcome Seal R C (ReadOperation.Error Seal R)} {o' : Outcome Seal R' C (ReadOperation.Error Seal R')}
    {e e'} (h : RunShape c r blocks o) (h' : RunShape c r' blocks o') (hr : o.result = .error e) (hr' : o'.result = .error e')
    (hd : Reads r (blocks ++ [b]) o.reader) (hd' : Reads r' (blocks ++ [b]) o'.reader)
    (hj : Rejection c blocks b e l) (hj' : Rejection c blocks b e' l) : o.world = o'.world := by
  have aux : ∀ {R : Type} [ReadOperation Seal R] {r : R} {o : Outcome Seal R C (ReadOperation.Error Seal R)} {e},
      RunShape c r blocks o → o.result = .error e → Reads r (blocks ++ [b]) o.reader → Rejection c blocks b e l →
      ∃ segs, Segments c blocks segs ∧ o.world.calls = [.contractId, .codex] ++ segs.flatten ++ .read :: l := by
    intro R _ r o e h hr hd hj
    obtain ⟨segs, tail, h1, h2, h3⟩ := h.stop
    refine ⟨segs, h1, ?_⟩
    rcases h3 with ⟨hk, _⟩ | ⟨e2, he, _⟩ | ⟨b2, e2, he, hrd, hrj⟩
    · rw [hr] at hk; simp at hk
    · rw [hr] at he
      simp only [Except.error.injEq] at he
      subst he
      exact absurd hj Rejection.not_stream
    · rcases hrd.det hd with ⟨zs, e3, hz⟩ | ⟨zs, e3, hz⟩
      all_goals
        have hlen := congrArg List.length e3
        simp only [List.length_append, List.length_cons, List.length_nil] at hlen
        have : zs = [] := List.length_eq_zero_iff.1 (by omega)
        subst this
        simp only [List.append_nil, List.append_cancel_left_eq, List.cons.injEq, and_true] at e3
        subst e3
        rw [(hj.unique h.valid hrj).2]
        exact h2
  obtain ⟨s, h1, h2⟩ := aux h hr hd hj
  obtain ⟨s', h1', h2'⟩ := aux h' hr' hd' hj'
  have := h1.unique h1'
  subst this
  have hc := h.contract.trans h'.contract.symm
  rcases o with ⟨_, ⟨_, _⟩, _⟩
  rcases o' with ⟨_, ⟨_, _⟩, _⟩
  simp_all

theorem reads_same_length {r r₁ r₂ : R} {xs ys : List (OperationSeals Seal)} (h1 : Reads r xs r₁) (h2 : Reads r ys r₂)
    (hl : xs.length = ys.length) : xs = ys ∧ r₁ = r₂ := by
  rcases h1.det h2 with ⟨zs, e, h⟩ | ⟨zs, e, h⟩
  all_goals
    have := congrArg List.length e
    rw [List.length_append] at this
    have hz : zs = [] := List.length_eq_zero_iff.1 (by omega)
    subst hz
    cases h
    simp [e]

/-- The description of runs determines the outcome. -/
theorem RunShape.run {c : C} {r : R} {blocks : List (OperationSeals Seal)}
    {o : Outcome Seal R C (ReadOperation.Error Seal R)} (h : RunShape c r blocks o) :
    evaluate (Seal := Seal) c r = some o := by
  have ext : ∀ {o o' : Outcome Seal R C (ReadOperation.Error Seal R)}, o.result = o'.result → o.world = o'.world →
      o.reader = o'.reader → o = o' := by
    rintro ⟨_, _, _⟩ ⟨_, _, _⟩ h1 h2 h3
    simp_all
  obtain ⟨segs, tail, _, _, h3⟩ := h.stop
  rcases h3 with ⟨h0, _, r₁, h4, h5⟩ | ⟨e, h0, _, r₁, h4, h5⟩ | ⟨b, e, h0, h4, hrej⟩
  · obtain ⟨o', k1, k2, k3⟩ := evaluate_of_delivers (c := c) ⟨r₁, _, h4, h5⟩ h.valid
    rw [k1]
    congr 1
    refine ext (k2.trans h0.symm) (k3.calls_eq h (.inl k2) (.inl h0)) ?_
    obtain ⟨_, _, _, _, q⟩ := k3.stop
    rcases q with ⟨_, _, r₁', q4, q5⟩ | ⟨e, q0, _⟩ | ⟨b, e, q0, _⟩
    · obtain ⟨_, rfl⟩ := reads_same_length h4 q4 rfl
      rw [h5] at q5
      exact (congrArg Prod.snd q5).symm
    · rw [k2] at q0; simp at q0
    · rw [k2] at q0; simp at q0
  · obtain ⟨o', k1, k2, k3⟩ := evaluate_of_fails (c := c) ⟨r₁, _, h4, h5⟩ h.valid
    rw [k1]
    congr 1
    refine ext (k2.trans h0.symm) (k3.calls_eq h (.inr ⟨_, k2⟩) (.inr ⟨_, h0⟩)) ?_
    obtain ⟨_, _, _, _, q⟩ := k3.stop
    rcases q with ⟨q0, _⟩ | ⟨e, q0, _, r₁', q4, q5⟩ | ⟨b, e', q0, _, q5⟩
    · rw [k2] at q0; simp at q0
    · obtain ⟨_, rfl⟩ := reads_same_length h4 q4 rfl
      rw [h5] at q5
      exact (congrArg Prod.snd q5).symm
    · rw [k2] at q0
      simp only [Except.error.injEq] at q0
      subst q0
      exact absurd q5 Rejection.not_stream
  · obtain ⟨o', k1, k2, k3, k4⟩ := evaluate_of_rejection ⟨_, h4⟩ h.valid hrej
    rw [k1]
    congr 1
    exact ext (k2.trans h0.symm) (k4.calls_eq_reject h k2 h0 k3 h4 hrej hrej) (reads_same_length k3 h4 rfl).2

end Rgb
