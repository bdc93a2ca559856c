import Verif.Props.Auditors
import Verif.Props.Conflicts

set_option linter.unusedSectionVars false

/-! # C82: when one party accepts what another has accepted -/

namespace Rgb
open Spec

section
variable {Seal : Type} [LinearOrder Seal] [RgbSeal Seal] [OpHash]
variable {C : Type} [ContractApi Seal C]
variable {R R' : Type} [ReadOperation Seal R] [ReadOperation Seal R']
variable {xs : List (OperationSeals Seal)}

theorem Spec.History.append {Start : C → OperationSeals Seal → Prop} {c c' c'' : C} {l l' : List (Call Seal)}
    (h : History Start c l c') (h' : History Start c' l' c'') : History Start c (l ++ l') c'' := by
  induction h with
  | nil => exact h'
  | step hs he _ ih => rw [List.append_assoc]; exact .step hs he (ih h')

theorem Steps.first {Q : C → VerifiedOperation → Prop} {c c' : C} {l l' : List (Call Seal)} (h : Steps Q c (l ++ l') c') :
    Steps Q c l (l.foldl perform c) := by
  induction l generalizing c with
  | nil => exact .nil _
  | cons x l ih =>
    cases h with
    | other hx h => exact .other hx (ih h)
    | apply hq h => exact .apply hq (ih h)

/-- The operation is new, and the codex accepts it. -/
structure Verified (c : C) (v : VerifiedOperation) : Prop where
  fresh : Fresh (Seal := Seal) c v
  answer : codexAnswer Seal c (ContractApi.contractId Seal c) v.operation = .ok v

theorem history_verified (hl : Lawful Seal C) (hc : LocalMemory Seal C) {Start : C → OperationSeals Seal → Prop} {c c' : C}
    (hf : Faithful (ContractApi.codex Seal c)) {l : List (Call Seal)} (h : History Start c l c') :
    Steps (fun c v => Verified (Seal := Seal) c v) c l c' := by
  refine history_steps (X := ContractApi.codex Seal c) hl (fun R _ d r blocks o hd hs _ => steps_run hs ?_) rfl h
  intro i b v hb _ hk hv
  have hv' := hv
  unfold codexAnswer at hv
  rw [hl.contractAt_codex, hd] at hv
  obtain ⟨e1, e2⟩ := hf _ _ _ _ _ hv
  refine ⟨⟨by rw [e1, hl.known_witnessCallbacks]; exact hk, by rw [e2]; exact (hs.valid i b hb).distinct⟩, ?_⟩
  rw [e2, hl.foldl_id, hl.contractAt_id, ← hv']
  unfold codexAnswer
  rw [hl.foldl_codex]
  unfold witnessCallbacks
  split
  · simp only [List.foldl_cons, List.foldl_nil]
    rw [show (perform (contractAt (ContractApi.contractId Seal d) d blocks i) (Call.applyWitness (Seal := Seal) (opid b.operation) _)) =
      ContractApi.applyWitness _ _ _ from rfl, hc.witness]
    exact congrArg _ (hc.repo _ (.applyWitness _ _))
  · rfl

theorem applied_mem {l : List (Call Seal)} {v : VerifiedOperation} (h : v ∈ l.filterMap appliedOperation) : Call.applyOperation v ∈ l := by
  obtain ⟨x, hx, hxv⟩ := List.mem_filterMap.1 h
  have : x = .applyOperation v := by cases x <;> simp_all [appliedOperation]
  exact this ▸ hx

/-- What was accepted in one history is accepted at the end of another one in which the cells it refers to
are there. -/
theorem same_answer (hl : Lawful Seal C) (hm : LawfulMemory Seal C) (hc : LocalMemory Seal C) {c c₁ d : C}
    (hf : Faithful (ContractApi.codex Seal c)) (hx : LocalCodex (ContractApi.codex Seal c))
    (hi : ChecksInputs (ContractApi.codex Seal c)) (hr : ChecksReads (ContractApi.codex Seal c)) (ht : Tidy (Seal := Seal) c)
    {l₁ l₂ : List (Call Seal)} (h₁ : History KnownStart c l₁ c₁) (h₂ : History KnownStart c l₂ d)
    {v : VerifiedOperation} (hv : v ∈ l₁.filterMap appliedOperation)
    (hno : ∀ u ∈ l₁.filterMap appliedOperation, ∀ u' ∈ l₂.filterMap appliedOperation, u.opid = u'.opid → u.operation = u'.operation)
    (hin : ∀ inp ∈ v.operation.destructibleIn, ContractApi.isKnown Seal d inp.addr.opid = true)
    (hread : ∀ a ∈ v.operation.immutableIn, ContractApi.isKnown Seal d a.opid = true)
    (hfree : ∀ u ∈ l₂.filterMap appliedOperation, ∀ inp ∈ u.operation.destructibleIn, ∀ inp' ∈ v.operation.destructibleIn,
      inp.addr ≠ inp'.addr) :
    codexAnswer Seal d (ContractApi.contractId Seal c) v.operation = .ok v := by
  obtain ⟨pre, post, rfl⟩ := List.append_of_mem (applied_mem hv)
  have hst := history_verified hl hc hf h₁
  obtain ⟨_, ha⟩ := hst.at
  have hpre := steps_known hl (Steps.imp (fun _ _ h => h.fresh) hst.first)
  obtain ⟨n2, new2, k2⟩ := C34_applied_once hl hf h₂
  have sub : ∀ u ∈ pre.filterMap appliedOperation, u ∈ (pre ++ Call.applyOperation v :: post).filterMap appliedOperation := by
    intro u hu
    rw [List.filterMap_append, List.mem_append]
    exact .inl hu
  -- the creators of a cell known at both points
  have same : ∀ x : Opid, ContractApi.isKnown Seal (pre.foldl perform c) x = true → ContractApi.isKnown Seal d x = true →
      (pre.filterMap appliedOperation).filter (creates x) = (l₂.filterMap appliedOperation).filter (creates x) := by
    intro x hx1 hx2
    refine one_id (i := x) (nodup_filter hpre.1 _) (nodup_filter n2 _) ?_ ?_
    · cases hcx : ContractApi.isKnown Seal c x with
      | true =>
        intro u
        simp only [List.mem_filter, creates, decide_eq_true_eq]
        constructor
        · rintro ⟨hu, rfl⟩
          rw [hpre.2.1 u hu] at hcx
          simp at hcx
        · rintro ⟨hu, rfl⟩
          rw [new2 u hu] at hcx
          simp at hcx
      | false =>
        have e1 := (hpre.2.2 x).1 hx1
        have e2 := (k2 x).1 hx2
        rw [hcx] at e1 e2
        simp only [Bool.false_eq_true, false_or, List.mem_map] at e1 e2
        obtain ⟨u1, hu1, rfl⟩ := e1
        obtain ⟨u2, hu2, e⟩ := e2
        have hop := hno u1 (sub u1 hu1) u2 hu2 e.symm
        have hu : u1 = u2 := by cases u1; cases u2; simp_all
        subst hu
        intro u
        simp only [List.mem_filter, creates, decide_eq_true_eq]
        constructor
        · rintro ⟨hu, e'⟩
          rw [List.inj_on_of_nodup_map hpre.1 hu hu1 e'.symm]
          exact ⟨hu2, rfl⟩
        · rintro ⟨hu, e'⟩
          rw [List.inj_on_of_nodup_map n2 hu hu2 e'.symm]
          exact ⟨hu1, rfl⟩
    · intro u hu
      have := (List.mem_filter.1 hu).2
      simpa [creates, eq_comm] using this
  have hcx1 : ContractApi.codex Seal (pre.foldl perform c) = ContractApi.codex Seal c := hl.foldl_codex
  have ed := history_fold h₂
  have key : ∀ {X : Type} {f : C → X} {q q' : VerifiedOperation → Bool}, Observed f (Applies (Seal := Seal) q) →
      (∀ u ∈ pre.filterMap appliedOperation, q u = q' u) → (∀ u ∈ l₂.filterMap appliedOperation, q u = q' u) →
      (pre.filterMap appliedOperation).filter q' = (l₂.filterMap appliedOperation).filter q' → f (pre.foldl perform c) = f d := by
    intro X f q q' ho e1 e2 e3
    rw [ed]
    refine ho.same ?_
    rw [filter_applies, filter_applies, List.filter_congr e1, List.filter_congr e2, e3]
  have hans := ha
  unfold codexAnswer at ha
  rw [hl.foldl_id, hcx1] at ha
  have hd1 : ∀ inp ∈ v.operation.destructibleIn, (ContractApi.memory Seal (pre.foldl perform c)).destructible inp.addr =
      (ContractApi.memory Seal d).destructible inp.addr := by
    intro inp hinp
    refine key (observed_destructible hc inp.addr) (q' := creates inp.addr.opid) ?_ ?_
      (same _ (C35_creators_first hl hf h₁ hinp) (hin inp hinp))
    · intro u hu
      obtain ⟨p, q, rfl⟩ := List.append_of_mem (applied_mem hu)
      have hcf := C36_conflicts hl hm hf hi ht.destructible (pre := p) (mid := q) (v := u) (v' := v) (post := post)
        (c' := c₁) (Start := KnownStart) (by simpa using h₁)
      unfold touches creates
      have : (u.operation.destructibleIn.any fun inp' => decide (inp'.addr = inp.addr)) = false := by
        rw [List.any_eq_false]
        intro inp' h'
        simpa using hcf inp' h' inp hinp
      rw [this, Bool.or_false]
    · intro u hu
      unfold touches creates
      have : (u.operation.destructibleIn.any fun inp' => decide (inp'.addr = inp.addr)) = false := by
        rw [List.any_eq_false]
        intro inp' h'
        simpa using hfree u hu inp' h' inp hinp
      rw [this, Bool.or_false]
  have hi1 : ∀ a ∈ v.operation.immutableIn, (ContractApi.memory Seal (pre.foldl perform c)).immutable a =
      (ContractApi.memory Seal d).immutable a := by
    intro a haI
    refine key (observed_immutable hc a) (q' := creates a.opid) (fun _ _ => rfl) (fun _ _ => rfl) (same _ ?_ (hread a haI))
    by_contra hk
    have hmem := hr _ _ _ _ _ ha a haI
    apply hmem
    have hnone : (pre.filterMap appliedOperation).filter (creates a.opid) = [] := by
      rw [List.filter_eq_nil_iff]
      intro u hu he
      have e : a.opid = u.opid := by simpa [creates] using he
      exact hk ((hpre.2.2 _).2 (.inr (e ▸ List.mem_map_of_mem hu)))
    have h1 := (observed_immutable hc a).foldl_filter c pre
    rw [filter_applies, hnone] at h1
    simp only [List.map_nil, List.foldl_nil] at h1
    rw [h1]
    by_contra hne
    exact hk ((hpre.2.2 _).2 (.inl (ht.immutable a hne)))
  have hrep : ContractApi.repo Seal (pre.foldl perform c) = ContractApi.repo Seal d := by
    have ho := observed_repo (Seal := Seal) hc
    have h1 := ho.foldl_filter c pre
    have h2 := ho.foldl_filter c l₂
    simp only [List.filter_false, List.foldl_nil] at h1 h2
    rw [ed, h1, h2]
  unfold codexAnswer
  rw [show ContractApi.codex Seal d = ContractApi.codex Seal c by rw [ed, hl.foldl_codex],
    ← hx _ v.operation (ContractApi.memory Seal (pre.foldl perform c)) _ _ hd1 hi1, ← hrep]
  exact ha

/-- What has become known has been applied. -/
theorem known_applied (hl : Lawful Seal C) {c c' : C} (hf : Faithful (ContractApi.codex Seal c))
    {l : List (Call Seal)} (h : History KnownStart c l c') {x : Opid} (hk : ContractApi.isKnown Seal c' x = true)
    (hn : ContractApi.isKnown Seal c x = false) : ∃ v ∈ l.filterMap appliedOperation, v.opid = x := by
  have := ((C34_applied_once hl hf h).2.2 x).1 hk
  rw [hn] at this
  simpa using this

theorem nodup_inputs {l : List VerifiedOperation} (h : (l.flatMap fun v => v.operation.destructibleIn.map (·.addr)).Nodup)
    {u v : VerifiedOperation} (hu : u ∈ l) (hv : v ∈ l) {i j : Input} (hi : i ∈ u.operation.destructibleIn)
    (hj : j ∈ v.operation.destructibleIn) (e : i.addr = j.addr) : u = v := by
  induction l with
  | nil => simp at hu
  | cons x l ih =>
    rw [List.flatMap_cons, List.nodup_append] at h
    have mem : ∀ {y : VerifiedOperation} {k : Input}, y ∈ l → k ∈ y.operation.destructibleIn →
        k.addr ∈ l.flatMap fun v => v.operation.destructibleIn.map (·.addr) := fun hy hk =>
      List.mem_flatMap.2 ⟨_, hy, List.mem_map_of_mem hk⟩
    rcases List.mem_cons.1 hu with e1 | hu <;> rcases List.mem_cons.1 hv with e2 | hv
    · rw [e1, e2]
    · exact absurd e (h.2.2 _ (List.mem_map_of_mem (e1 ▸ hi)) _ (mem hv hj))
    · exact absurd e.symm (h.2.2 _ (List.mem_map_of_mem (e2 ▸ hj)) _ (mem hu hi))
    · exact ih h.2.1 hu hv

theorem immutable_tidy (hl : Lawful Seal C) (hc : LocalMemory Seal C) {c : C}
    (h : ∀ a, (ContractApi.memory Seal c).immutable a ≠ none → ContractApi.isKnown Seal c a.opid = true) (l : List (Call Seal)) :
    ∀ a, (ContractApi.memory Seal (l.foldl perform c)).immutable a ≠ none →
      ContractApi.isKnown Seal (l.foldl perform c) a.opid = true := by
  induction l generalizing c with
  | nil => exact h
  | cons x l ih =>
    refine ih ?_
    intro a ha
    cases hx : appliedOperation x with
    | none =>
      rw [hl.known_other hx]
      refine h a ?_
      rwa [(observed_immutable hc a).skip c x (by simp [Applies, hx])] at ha
    | some v =>
      have : x = .applyOperation v := by cases x <;> simp_all [appliedOperation]
      subst this
      refine (hl.known_operation ..).2 ?_
      by_cases e : a.opid = v.opid
      · exact .inr e
      · refine .inl (h a ?_)
        rwa [show perform c (Call.applyOperation (Seal := Seal) v) = ContractApi.applyOperation Seal c v from rfl, hc.immutable _ _ _ e] at ha

/-- Two parties start alike and receive whatever they receive.  What the one accepts the other accepts
as well, if and only if, for each operation in it that is new to the other, the operations it reads are known or
come earlier, and none of its inputs has been spent by an operation the other has applied. -/
theorem C82_agreement (hl : Lawful Seal C) (hm : LawfulMemory Seal C) (hc : LocalMemory Seal C) {c c₁ c₂ : C}
    (hf : Faithful (ContractApi.codex Seal c)) (hx : LocalCodex (ContractApi.codex Seal c))
    (hi : ChecksInputs (ContractApi.codex Seal c)) (hrd : ChecksReads (ContractApi.codex Seal c)) (ht : Tidy (Seal := Seal) c)
    {l₁ l₂ : List (Call Seal)} (h₁ : History KnownStart c l₁ c₁) (h₂ : History KnownStart c l₂ c₂)
    {r : R} {o} (h : Accepted c₁ r xs o) (h0 : ∀ b, xs[0]? = some b → KnownStart c b)
    {T : Operation → Prop} (hT : ∀ p q, T p → T q → opid p = opid q → p = q)
    (t1 : ∀ v ∈ l₁.filterMap appliedOperation, T v.operation) (t2 : ∀ v ∈ l₂.filterMap appliedOperation, T v.operation)
    (tx : ∀ (i : Nat) b, xs[i]? = some b → T (opAt (ContractApi.contractId Seal c) i b))
    {r' : R'} (hr : Delivers r' xs) :
    (∃ o', Accepted c₂ r' xs o') ↔
      ∀ (i : Nat) b, xs[i]? = some b → ContractApi.isKnown Seal c₂ (idAt (ContractApi.contractId Seal c) i b) = false →
        ReadsAvailable c₂ xs i b ∧ ∀ inp ∈ b.operation.destructibleIn, ∀ v ∈ l₂.filterMap appliedOperation,
          ∀ inp' ∈ v.operation.destructibleIn, inp'.addr ≠ inp.addr := by
  have f1 := history_fold h₁
  have f2 := history_fold h₂
  have id1 : ContractApi.contractId Seal c₁ = ContractApi.contractId Seal c := by rw [f1, hl.foldl_id]
  have id2 : ContractApi.contractId Seal c₂ = ContractApi.contractId Seal c := by rw [f2, hl.foldl_id]
  have cx1 : ContractApi.codex Seal c₁ = ContractApi.codex Seal c := by rw [f1, hl.foldl_codex]
  have cx2 : ContractApi.codex Seal c₂ = ContractApi.codex Seal c := by rw [f2, hl.foldl_codex]
  have start : ∀ {d : C} {l : List (Call Seal)}, d = l.foldl perform c → ∀ b, xs[0]? = some b → KnownStart d b := by
    rintro d l rfl b hb
    have := hl.foldl_mono (l := l) (h0 b hb)
    unfold KnownStart
    rw [hl.foldl_id]
    exact this
  have later : ∀ {d d' : C} {l : List (Call Seal)} {x : Opid}, History KnownStart d l d' → ContractApi.isKnown Seal d x = true →
      ContractApi.isKnown Seal d' x = true := by
    intro d d' l x hh hk
    rw [history_fold hh]
    exact hl.foldl_mono hk
  -- a prefix accepted by either party extends its history
  have extend : ∀ {d : C} {l : List (Call Seal)} {n : Nat}, History KnownStart c l d → ValidConsignment d (xs.take n) →
      (∀ v ∈ l.filterMap appliedOperation, T v.operation) →
      ∃ l', History KnownStart c (l ++ l') (contractAt (ContractApi.contractId Seal c) d (xs.take n) (xs.take n).length) ∧
        History KnownStart d l' (contractAt (ContractApi.contractId Seal c) d (xs.take n) (xs.take n).length) ∧
        (∀ v ∈ (l ++ l').filterMap appliedOperation, T v.operation) ∧
        ∀ v ∈ l'.filterMap appliedOperation, ∃ i b, i < n ∧ xs[i]? = some b ∧ v.opid = idAt (ContractApi.contractId Seal c) i b ∧
          v.operation = opAt (ContractApi.contractId Seal c) i b := by
    intro d l n hd hv hT
    have fd := history_fold hd
    have idd : ContractApi.contractId Seal d = ContractApi.contractId Seal c := by rw [fd, hl.foldl_id]
    have cxd : ContractApi.codex Seal d = ContractApi.codex Seal c := by rw [fd, hl.foldl_codex]
    obtain ⟨o, k1, k2, k3⟩ := evaluate_of_delivers (scroll_delivers (xs.take n)) hv
    have hacc : Accepted d (Scroll.mk (xs.take n)) (xs.take n) o := ⟨k1, k2, scroll_delivers _⟩
    have hst : ∀ b, (xs.take n)[0]? = some b → KnownStart d b := by
      intro b hb
      rw [List.getElem?_take] at hb
      split at hb
      · exact start fd b hb
      · simp at hb
    obtain ⟨l', g1, g2⟩ := allAccepted_history hl (cxd ▸ hf) (.cons hacc hst (.nil _))
    rw [k3.contract, idd] at g1
    have src : ∀ v ∈ l'.filterMap appliedOperation, ∃ i b, i < n ∧ xs[i]? = some b ∧ v.opid = idAt (ContractApi.contractId Seal c) i b ∧
          v.operation = opAt (ContractApi.contractId Seal c) i b := by
      intro v hv
      obtain ⟨ys, hys, i, b, e1, e2, e3⟩ := g2 v hv
      rw [List.mem_singleton] at hys
      subst hys
      rw [List.getElem?_take] at e1
      split at e1
      · rename_i hlt
        rw [idd] at e2 e3
        exact ⟨i, b, hlt, e1, e2, e3⟩
      · simp at e1
    refine ⟨l', hd.append g1, g1, ?_, src⟩
    intro v hv
    rw [List.filterMap_append, List.mem_append] at hv
    rcases hv with hv | hv
    · exact hT v hv
    · obtain ⟨i, b, _, e1, _, e3⟩ := src v hv
      rw [e3]
      exact tx i b e1
  have vop : ∀ {d : C} {l : List (Call Seal)}, History KnownStart c l d → ∀ v ∈ l.filterMap appliedOperation, v.opid = opid v.operation := by
    intro d l hd v hv
    obtain ⟨p, q, rfl⟩ := List.append_of_mem (applied_mem hv)
    have := (history_verified hl hc hf hd).at.answer
    unfold codexAnswer at this
    rw [hl.foldl_codex] at this
    exact (hf _ _ _ _ _ this).1
  have whole : ∀ {d : C} {l : List (Call Seal)}, History KnownStart c l d → ValidConsignment d xs →
      (∀ v ∈ l.filterMap appliedOperation, T v.operation) →
      ∃ l' d', History KnownStart c (l ++ l') d' ∧ History KnownStart d l' d' ∧
        (∀ v ∈ (l ++ l').filterMap appliedOperation, T v.operation) ∧
        ∀ (i : Nat) b, xs[i]? = some b → ContractApi.isKnown Seal d' (idAt (ContractApi.contractId Seal c) i b) = true := by
    intro d l hd hv hT
    have fd := history_fold hd
    have idd : ContractApi.contractId Seal d = ContractApi.contractId Seal c := by rw [fd, hl.foldl_id]
    have cxd : ContractApi.codex Seal d = ContractApi.codex Seal c := by rw [fd, hl.foldl_codex]
    obtain ⟨l', g1, g2, g3, _⟩ := extend (n := xs.length) hd (by rw [List.take_length]; exact hv) hT
    refine ⟨l', _, g1, g2, g3, ?_⟩
    intro i b hb
    have := known_after hl hv (cxd ▸ hf) (start fd) hb
    rw [idd] at this
    rw [List.take_length]
    exact hl.contractAt_mono (lt_length_of_getElem? hb) this
  constructor
  · rintro ⟨o', ha⟩ i b hb hk
    have hi0 : i ≠ 0 := by
      rintro rfl
      have := start f2 b hb
      unfold KnownStart at this
      rw [id2] at this
      rw [idAt, opAt, if_pos rfl, this] at hk
      simp at hk
    obtain ⟨l', d', g1, g2, g3, g4⟩ := whole h₂ ha.valid t2
    obtain ⟨w, hw, ew⟩ := known_applied hl (cx2 ▸ hf) g2 (g4 i b hb) hk
    have hw' : w ∈ (l₂ ++ l').filterMap appliedOperation := by
      rw [List.filterMap_append, List.mem_append]; exact .inr hw
    have hwo : w.operation = b.operation := by
      rw [← opAt_pos (cid := ContractApi.contractId Seal c) (b := b) hi0]
      exact hT _ _ (g3 w hw') (tx i b hb) ((vop g1 w hw').symm.trans ew)
    refine ⟨?_, ?_⟩
    · intro a haI
      have hkb : ContractApi.isKnown Seal (contractAt (ContractApi.contractId Seal c₂) c₂ xs i) a.opid = true := by
        clear hw hw' hwo ew w
        induction i using Nat.strongRecOn generalizing b with
        | ind i ih =>
          cases hki : ContractApi.isKnown Seal (contractAt (ContractApi.contractId Seal c₂) c₂ xs i)
              (idAt (ContractApi.contractId Seal c₂) i b) with
          | true =>
            rcases known_from hl (cx2 ▸ hf) hki with hk' | ⟨j, bj, hj, hbj, e⟩
            · rw [id2, hk] at hk'
              simp at hk'
            · rw [id2] at e
              have hj0 : j ≠ 0 := by
                rintro rfl
                have := start f2 bj hbj
                unfold KnownStart at this
                rw [id2] at this
                rw [e, idAt, opAt, if_pos rfl, this] at hk
                simp at hk
              have hop := hT _ _ (tx j bj hbj) (tx i b hb) e.symm
              rw [opAt_pos hj0, opAt_pos hi0] at hop
              exact hl.contractAt_mono (Nat.le_of_lt hj) (ih j hj bj hbj (e ▸ hk) hj0 (hop ▸ haI))
          | false =>
            obtain ⟨v, hv⟩ := (ha.valid i b hb).script hki
            unfold codexAnswer at hv
            rw [hl.contractAt_codex, cx2] at hv
            have hne := hrd _ _ _ _ _ hv a (by rw [opAt_pos hi0]; exact haI)
            rw [contractAt_eq_foldl, f2, ← List.foldl_append] at hne ⊢
            exact immutable_tidy hl hc ht.immutable _ a hne
      exact known_from hl (cx2 ▸ hf) hkb
    · intro inp hinp v hv inp' hinp' e
      have hv' : v ∈ (l₂ ++ l').filterMap appliedOperation := by
        rw [List.filterMap_append, List.mem_append]; exact .inl hv
      have := nodup_inputs (C36_no_double_spend hl hm hf hi ht.destructible g1) hv' hw' hinp' (hwo ▸ hinp) e
      subst this
      have := ((C34_applied_once hl hf h₂).2.2 v.opid).2 (.inr (List.mem_map_of_mem hv))
      rw [ew, hk] at this
      simp at this
  · intro hcond
    obtain ⟨k₁, d₁, g1, g2, g3, g4⟩ := whole h₁ h.valid t1
    refine (C79_contracts h (id2.trans id1.symm) (by rw [cx1, cx2]) hr).2 ?_
    have key : ∀ n ≤ xs.length, ValidConsignment c₂ (xs.take n) := by
      intro n hn
      induction n with
      | zero => exact validConsignment_nil
      | succ n ih =>
        have ihv := ih (by omega)
        have hlt : n < xs.length := by omega
        have hb : xs[n]? = some xs[n] := by simp
        have hlen : (xs.take n).length = n := by rw [List.length_take]; omega
        have cong : ∀ k < n, xs[k]? = (xs.take n)[k]? := by
          intro k hk
          rw [List.getElem?_take, if_pos hk]
        rw [← List.take_append_getElem hlt, validConsignment_snoc]
        refine ⟨ihv, ?_⟩
        rw [hlen]
        have hvb := validBlock_congr cong (h.valid n _ hb)
        have hclosed := hvb.closed
        rw [id1] at hclosed
        refine ⟨?_, hvb.committed, hvb.distinct, by rw [id2]; exact hclosed, ?_⟩
        · rw [cx2, ← cx1]
          exact hvb.codex
        · generalize hbn : xs[n] = b at *
          rw [id2]
          intro hk
          obtain ⟨l', G1, G2, G3, G4⟩ := extend h₂ ihv t2
          rw [hlen] at G1 G2
          generalize hD : contractAt (ContractApi.contractId Seal c) c₂ (xs.take n) n = D at *
          have unk : ∀ {d d' : C} {l : List (Call Seal)} {x : Opid}, History KnownStart d l d' → ContractApi.isKnown Seal d' x = false →
              ContractApi.isKnown Seal d x = false := by
            intro d d' l x hh hx
            cases hk : ContractApi.isKnown Seal d x with
            | false => rfl
            | true => rw [later hh hk] at hx; simp at hx
          have hk2 := unk G2 hk
          have hk0 := unk h₂ hk2
          have hn0 : n ≠ 0 := by
            rintro rfl
            have := h0 b hb
            unfold KnownStart at this
            rw [idAt, opAt, if_pos rfl, this] at hk0
            simp at hk0
          obtain ⟨v, hv, ev⟩ := known_applied hl hf g1 (g4 n b hb) hk0
          have hvo : v.operation = opAt (ContractApi.contractId Seal c) n b :=
            hT _ _ (g3 v hv) (tx n b hb) ((vop g1 v hv).symm.trans ev)
          have hvb' : v.operation = b.operation := by rw [hvo, opAt_pos hn0]
          have earlier : ∀ {j : Nat} {bj : OperationSeals Seal}, j < n → xs[j]? = some bj →
              ContractApi.isKnown Seal D (idAt (ContractApi.contractId Seal c) j bj) = true := by
            intro j bj hj hbj
            have hbj' : (xs.take n)[j]? = some bj := by rw [← cong j hj]; exact hbj
            have := known_after hl ihv (cx2 ▸ hf) (by
              intro b' hb'
              refine start f2 b' ?_
              rw [← cong 0 (by omega)] at hb'
              exact hb') hbj'
            rw [id2] at this
            rw [← hD]
            exact hl.contractAt_mono hj this
          refine ⟨v, ?_⟩
          rw [← hvo]
          refine same_answer hl hm hc hf hx hi hrd ht g1 G1 hv ?_ ?_ ?_ ?_
          · intro u hu u' hu' e
            refine hT _ _ (g3 u hu) (G3 u' hu') ?_
            rw [← vop g1 u hu, ← vop G1 u' hu', e]
          · intro inp hinp
            rw [hvb'] at hinp
            obtain ⟨j, bj, _, hj, hbj, e, _⟩ := C07_causality h hb hinp
            rw [e, id1]
            exact earlier hj hbj
          · intro a haI
            rw [hvb'] at haI
            rcases (hcond n b hb hk2).1 a haI with hk' | ⟨j, bj, hj, hbj, e⟩
            · exact later G2 hk'
            · rw [e, id2]
              exact earlier hj hbj
          · intro u hu inp hinp inp' hinp' e
            rw [hvb'] at hinp'
            rw [List.filterMap_append, List.mem_append] at hu
            rcases hu with hu | hu
            · exact (hcond n b hb hk2).2 inp' hinp' u hu inp hinp e
            · obtain ⟨j, bj, _, hbj, e1, e2⟩ := G4 u hu
              have hu2 := (C34_applied_once hl (cx2 ▸ hf) G2).2.1 u hu
              obtain ⟨w, hw, ew⟩ := known_applied hl hf g1 (g4 j bj hbj) (unk h₂ (e1 ▸ hu2))
              have hwo : w.operation = u.operation := by
                rw [e2]
                exact hT _ _ (g3 w hw) (tx j bj hbj) ((vop g1 w hw).symm.trans ew)
              have hwv := nodup_inputs (C36_no_double_spend hl hm hf hi ht.destructible g1) hw hv (hwo ▸ hinp) (hvb' ▸ hinp') e
              have hkn := ((C34_applied_once hl (cx2 ▸ hf) G2).2.2 u.opid).2 (.inr (List.mem_map_of_mem hu))
              rw [e1, ← ew, hwv, ev, hk] at hkn
              simp at hkn
    have := key xs.length (Nat.le_refl _)
    rw [List.take_length] at this
    exact (valid_separation.1 this).2

/-- What is accepted stays acceptable whatever comes in between, unless one of its operations, not received
in between, spends a cell which an operation received in between has spent. -/
theorem C82_stable (hl : Lawful Seal C) (hm : LawfulMemory Seal C) (hc : LocalMemory Seal C) {c c' : C}
    (hf : Faithful (ContractApi.codex Seal c)) (hx : LocalCodex (ContractApi.codex Seal c))
    (hi : ChecksInputs (ContractApi.codex Seal c)) (hrd : ChecksReads (ContractApi.codex Seal c)) (ht : Tidy (Seal := Seal) c)
    {l : List (Call Seal)} (hh : History KnownStart c l c')
    {r : R} {o} (h : Accepted c r xs o) (h0 : ∀ b, xs[0]? = some b → KnownStart c b)
    {T : Operation → Prop} (hT : ∀ p q, T p → T q → opid p = opid q → p = q)
    (tl : ∀ v ∈ l.filterMap appliedOperation, T v.operation)
    (tx : ∀ (i : Nat) b, xs[i]? = some b → T (opAt (ContractApi.contractId Seal c) i b))
    {r' : R'} (hr : Delivers r' xs) :
    (∃ o', Accepted c' r' xs o') ↔
      ∀ (i : Nat) b, xs[i]? = some b → ContractApi.isKnown Seal c' (idAt (ContractApi.contractId Seal c) i b) = false →
        ∀ inp ∈ b.operation.destructibleIn, ∀ v ∈ l.filterMap appliedOperation,
          ∀ inp' ∈ v.operation.destructibleIn, inp'.addr ≠ inp.addr := by
  have mono : ∀ {x : Opid}, ContractApi.isKnown Seal c x = true → ContractApi.isKnown Seal c' x = true := by
    intro x hk
    rw [history_fold hh]
    exact hl.foldl_mono hk
  have hid : ContractApi.contractId Seal c' = ContractApi.contractId Seal c := by rw [history_fold hh, hl.foldl_id]
  have start := (C82_agreement hl hm hc hf hx hi hrd ht (.nil c) (.nil c) h h0 hT (by simp) (by simp) tx h.delivers).1 ⟨_, h⟩
  rw [C82_agreement hl hm hc hf hx hi hrd ht (.nil c) hh h h0 hT (by simp) tl tx hr]
  refine forall_congr' fun i => forall_congr' fun b => forall_congr' fun hb => forall_congr' fun hk => ?_
  refine and_iff_right ?_
  have hk0 : ContractApi.isKnown Seal c (idAt (ContractApi.contractId Seal c) i b) = false := by
    cases hk' : ContractApi.isKnown Seal c (idAt (ContractApi.contractId Seal c) i b) with
    | false => rfl
    | true => rw [mono hk'] at hk; simp at hk
  intro a ha
  rcases (start i b hb hk0).1 a ha with h' | h'
  · exact .inl (mono h')
  · rw [hid]
    exact .inr h'

/-- Whether both of two acceptable consignments can be accepted does not depend on which comes first. -/
theorem C82_order (hl : Lawful Seal C) (hm : LawfulMemory Seal C) (hc : LocalMemory Seal C) {c : C}
    (hf : Faithful (ContractApi.codex Seal c)) (hx : LocalCodex (ContractApi.codex Seal c))
    (hi : ChecksInputs (ContractApi.codex Seal c)) (hrd : ChecksReads (ContractApi.codex Seal c)) (ht : Tidy (Seal := Seal) c)
    {ys : List (OperationSeals Seal)} {r : R} {r' : R'} {o o'} (h : Accepted c r xs o) (h' : Accepted c r' ys o')
    (h0 : ∀ b, xs[0]? = some b → KnownStart c b) (h0' : ∀ b, ys[0]? = some b → KnownStart c b)
    (hno : ∀ zs ∈ [xs, ys], ∀ zs' ∈ [xs, ys], NoCollision (ContractApi.contractId Seal c) zs zs') :
    (∃ p, Accepted o.world.contract r' ys p) ↔ ∃ p, Accepted o'.world.contract r xs p := by
  let T : Operation → Prop := fun p => ∃ zs ∈ [xs, ys], ∃ (i : Nat) (b : OperationSeals Seal), zs[i]? = some b ∧
    p = opAt (ContractApi.contractId Seal c) i b
  have hT : ∀ p q, T p → T q → opid p = opid q → p = q := by
    rintro p q ⟨zs, hz, i, b, hb, rfl⟩ ⟨zs', hz', j, b', hb', rfl⟩ e
    exact hno zs hz zs' hz' i j b b' hb hb' e
  have tx : ∀ (i : Nat) b, xs[i]? = some b → T (opAt (ContractApi.contractId Seal c) i b) :=
    fun i b hb => ⟨xs, by simp, i, b, hb, rfl⟩
  have ty : ∀ (i : Nat) b, ys[i]? = some b → T (opAt (ContractApi.contractId Seal c) i b) :=
    fun i b hb => ⟨ys, by simp, i, b, hb, rfl⟩
  have key : ∀ {xs ys : List (OperationSeals Seal)} {R R' : Type} [ReadOperation Seal R] [ReadOperation Seal R'] {r : R} {r' : R'} {o o'},
      Accepted c r xs o → Accepted c r' ys o' → (∀ b, xs[0]? = some b → KnownStart c b) → (∀ b, ys[0]? = some b → KnownStart c b) →
      (∀ (i : Nat) b, xs[i]? = some b → T (opAt (ContractApi.contractId Seal c) i b)) →
      (∀ (i : Nat) b, ys[i]? = some b → T (opAt (ContractApi.contractId Seal c) i b)) →
      (∃ p, Accepted o'.world.contract r xs p) → ∃ p, Accepted o.world.contract r' ys p := by
    intro xs ys R R' _ _ r r' o o' h h' h0 h0' tx ty hacc
    obtain ⟨l, hl1, hl2⟩ := allAccepted_history hl hf (.cons h h0 (.nil _))
    obtain ⟨l', hl1', hl2'⟩ := allAccepted_history hl hf (.cons h' h0' (.nil _))
    have tl : ∀ v ∈ l.filterMap appliedOperation, T v.operation := by
      intro v hv
      obtain ⟨zs, hz, i, b, hb, _, e⟩ := hl2 v hv
      rw [List.mem_singleton] at hz
      subst hz
      exact e ▸ tx i b hb
    have tl' : ∀ v ∈ l'.filterMap appliedOperation, T v.operation := by
      intro v hv
      obtain ⟨zs, hz, i, b, hb, _, e⟩ := hl2' v hv
      rw [List.mem_singleton] at hz
      subst hz
      exact e ▸ ty i b hb
    have hstab := (C82_stable hl hm hc hf hx hi hrd ht hl1' h h0 hT tl' tx h.delivers).1 hacc
    refine (C82_stable hl hm hc hf hx hi hrd ht hl1 h' h0' hT tl ty h'.delivers).2 ?_
    intro i b hb hk inp hinp v hv inp' hinp' e
    have k1 := (C34_applied_once hl hf hl1).2
    have k2 := (C34_applied_once hl hf hl1').2
    have hk0 : ContractApi.isKnown Seal c (idAt (ContractApi.contractId Seal c) i b) = false := by
      cases hk' : ContractApi.isKnown Seal c (idAt (ContractApi.contractId Seal c) i b) with
      | false => rfl
      | true => rw [(k1.2 _).2 (.inl hk')] at hk; simp at hk
    have hkb := (C63_known_exactly hl hf h' h0' _).2 (.inr ⟨i, b, hb, rfl⟩)
    obtain ⟨w, hw, ew⟩ := known_applied hl hf hl1' hkb hk0
    obtain ⟨zs, hz, j', b', hb', e1, e2⟩ := hl2' w hw
    rw [List.mem_singleton] at hz
    subst hz
    have hwo : w.operation = opAt (ContractApi.contractId Seal c) i b := by
      rw [e2]
      exact hT _ _ (ty j' b' hb') (ty i b hb) (e1.symm.trans ew)
    have hwi : inp ∈ w.operation.destructibleIn := by rw [hwo, opAt_inputs]; exact hinp
    obtain ⟨zs, hz, j, bj, hbj, f1, f2⟩ := hl2 v hv
    rw [List.mem_singleton] at hz
    subst hz
    have hvj : inp' ∈ bj.operation.destructibleIn := by rw [f2, opAt_inputs] at hinp'; exact hinp'
    cases hkv : ContractApi.isKnown Seal o'.world.contract v.opid with
    | false => exact hstab j bj hbj (f1 ▸ hkv) inp' hvj w hw inp hwi e.symm
    | true =>
      obtain ⟨u, hu, eu⟩ := known_applied hl hf hl1' hkv (k1.1 v hv)
      obtain ⟨zs, hz, m, bm, hbm, d1, d2⟩ := hl2' u hu
      rw [List.mem_singleton] at hz
      subst hz
      have huo : u.operation = v.operation := by
        rw [d2, f2]
        exact hT _ _ (ty m bm hbm) (tx j bj hbj) (d1.symm.trans (eu.trans f1))
      have := nodup_inputs (C36_no_double_spend hl hm hf hi ht.destructible hl1') hu hw (huo ▸ hinp') hwi e
      have hknown := (k1.2 v.opid).2 (.inr (List.mem_map_of_mem hv))
      rw [← eu, this, ew, hk] at hknown
      simp at hknown
  exact ⟨key h' h h0' h0 ty tx, key h h' h0 h0' tx ty⟩

/-- With single-use seals there is nothing to conflict: what one party accepts every other one accepts that has
the operations read. -/
theorem C82_single_use (hsu : SingleUse Seal) (hinj : Function.Injective (message Seal))
    (hl : Lawful Seal C) (hm : LawfulMemory Seal C) (hc : LocalMemory Seal C) {c c₁ c₂ : C}
    (hf : Faithful (ContractApi.codex Seal c)) (hx : LocalCodex (ContractApi.codex Seal c))
    (hi : ChecksInputs (ContractApi.codex Seal c)) (hrd : ChecksReads (ContractApi.codex Seal c)) (ht : Tidy (Seal := Seal) c)
    {P : OperationSeals Seal → Prop} (hw : ∀ xs ys : List (OperationSeals Seal), (∀ b ∈ xs, P b) → (∀ b ∈ ys, P b) →
      WellFormed (ContractApi.contractId Seal c) xs ys)
    {l₁ l₂ : List (Call Seal)} (h₁ : History KnownStart c l₁ c₁) (h₂ : History KnownStart c l₂ c₂)
    (p₁ : HistoryOf P c l₁ c₁) (p₂ : HistoryOf P c l₂ c₂)
    {r : R} {o} (h : Accepted c₁ r xs o) (h0 : ∀ b, xs[0]? = some b → KnownStart c b) (hp : ∀ b ∈ xs, P b)
    {r' : R'} (hr : Delivers r' xs) :
    (∃ o', Accepted c₂ r' xs o') ↔
      ∀ (i : Nat) b, xs[i]? = some b → ContractApi.isKnown Seal c₂ (idAt (ContractApi.contractId Seal c) i b) = false →
        ReadsAvailable c₂ xs i b := by
  let T : Operation → Prop := fun p => ∃ (i : Nat) (b : OperationSeals Seal), P b ∧ p = opAt (ContractApi.contractId Seal c) i b
  have hT : ∀ p q, T p → T q → opid p = opid q → p = q := by
    rintro p q ⟨i, b, hb, rfl⟩ ⟨j, b', hb', rfl⟩ e
    refine (hw (List.replicate (i + 1) b) (List.replicate (j + 1) b') ?_ ?_).collision i j b b' ?_ ?_ e
    · intro x hx
      exact List.eq_of_mem_replicate hx ▸ hb
    · intro x hx
      exact List.eq_of_mem_replicate hx ▸ hb'
    · simp
    · simp
  have tl : ∀ {l : List (Call Seal)} {d : C}, HistoryOf P c l d → ∀ v ∈ l.filterMap appliedOperation, T v.operation := by
    intro l d hd v hv
    obtain ⟨_, ys, j, b, _, hP, _, hb, _, e⟩ := HistoryOf.source hl hd hf (applied_mem hv)
    exact ⟨1, b, hP b (List.mem_of_getElem? hb), by rw [e, opAt_pos Nat.one_ne_zero]⟩
  rw [C82_agreement hl hm hc hf hx hi hrd ht h₁ h₂ h h0 hT (tl p₁) (tl p₂)
    (fun i b hb => ⟨i, b, hp b (List.mem_of_getElem? hb), rfl⟩) hr]
  refine forall_congr' fun i => forall_congr' fun b => forall_congr' fun hb => forall_congr' fun hk => ?_
  refine and_iff_left ?_
  intro inp hinp v hv inp' hinp' e
  obtain ⟨d, ys, j, b', hd, hP, hval, hb', e1, e2⟩ := HistoryOf.source hl p₂ hf (applied_mem hv)
  have id1 : ContractApi.contractId Seal c₁ = ContractApi.contractId Seal c := by rw [history_fold h₁, hl.foldl_id]
  have := no_conflict id1 hd h.valid hval (hw xs ys hp hP) (noClash hsu hinj) hb hb' ⟨inp, hinp, rfl⟩ ⟨inp', e2 ▸ hinp', e⟩
  have hkn := ((C34_applied_once hl hf h₂).2.2 v.opid).2 (.inr (List.mem_map_of_mem hv))
  rw [e1, ← this, hk] at hkn
  simp at hkn

end

namespace Demo.Once
/-- A contract with both kinds of memory. -/
structure Archive where
  known : List Opid
  cells : CellAddr → Option StateCell
  data : CellAddr → Option StateValue

/-- A codex that wants inputs and operations read to be there. -/
def reading : Codex where
  codexId := ⟨7⟩
  verify cid op mem _ :=
    if op.contractId ≠ cid then .error ⟨"foreign operation"⟩
    else if op.destructibleIn.any (fun i => (mem.destructible i.addr).isNone) then .error ⟨"absent input"⟩
    else if op.immutableIn.any (fun a => (mem.immutable a).isNone) then .error ⟨"absent data"⟩
    else .ok ⟨opid op, op⟩

section
variable {Seal : Type} [LinearOrder Seal] [RgbSeal Seal]

scoped instance : ContractApi Seal Archive where
  contractId _ := ⟨9⟩
  codex _ := reading
  repo _ := ⟨fun _ => none⟩
  memory m := ⟨m.cells, m.data⟩
  isKnown m o := m.known.contains o
  applyOperation m v := {
    known := v.opid :: m.known
    cells := fun a => if v.operation.destructibleIn.any (fun inp => decide (inp.addr = a)) then none
      else if a.opid = v.opid then v.operation.destructibleOut[(a.pos : Nat)]? else m.cells a
    data := fun a => if a.opid = v.opid then (v.operation.immutableOut[(a.pos : Nat)]?).map (·.value) else m.data a }
  applySeals m _ _ := m
  applyWitness m _ _ := m

theorem archive_lawful : Lawful Seal Archive where
  contractId c x := by cases x <;> rfl
  codex c x := by cases x <;> rfl
  known_operation c v o := by simp [ContractApi.isKnown, ContractApi.applyOperation, or_comm]
  known_seals _ _ _ _ := rfl
  known_witness _ _ _ _ := rfl

theorem archive_lawfulMemory : LawfulMemory Seal Archive where
  consumed c v inp hi := if_pos (List.any_eq_true.2 ⟨inp, hi, by simp⟩)
  created c v a ha h := by
    simp only [ContractApi.memory, ContractApi.applyOperation, if_neg ha] at h ⊢
    split
    · rfl
    · exact h
  seals _ _ _ _ := rfl
  witness _ _ _ _ := rfl

theorem archive_localMemory : LocalMemory Seal Archive where
  destructible c v a ha hi := by
    simp only [ContractApi.memory, ContractApi.applyOperation]
    rw [if_neg, if_neg ha]
    rw [Bool.not_eq_true, List.any_eq_false]
    intro inp h
    simpa using hi inp h
  destructible_congr c d v a h := by
    simp only [ContractApi.memory, ContractApi.applyOperation] at h ⊢
    rw [h]
  immutable c v a ha := if_neg ha
  immutable_congr c d v a h := by
    simp only [ContractApi.memory, ContractApi.applyOperation] at h ⊢
    rw [h]
  seals _ _ _ := rfl
  witness _ _ _ := rfl
  repo c x := by cases x <;> rfl

end

theorem reading_inv {cid op mem repo v} (h : reading.verify cid op mem repo = .ok v) :
    (∀ inp ∈ op.destructibleIn, mem.destructible inp.addr ≠ none) ∧ (∀ a ∈ op.immutableIn, mem.immutable a ≠ none) ∧
      v = ⟨opid op, op⟩ := by
  simp only [reading] at h
  split at h
  · simp at h
  · split at h
    · simp at h
    · rename_i h1
      split at h
      · simp at h
      · rename_i h2
        rw [Except.ok.injEq] at h
        refine ⟨fun inp hi hn => h1 (List.any_eq_true.2 ⟨inp, hi, by rw [hn]; rfl⟩),
          fun a ha hn => h2 (List.any_eq_true.2 ⟨a, ha, by rw [hn]; rfl⟩), h.symm⟩

theorem reading_faithful : Faithful reading := by
  intro cid op mem repo v h
  rw [(reading_inv h).2.2]
  exact ⟨rfl, rfl⟩

theorem reading_checksInputs : ChecksInputs reading := fun _ _ _ _ _ h => (reading_inv h).1

theorem reading_checksReads : ChecksReads reading := fun _ _ _ _ _ h => (reading_inv h).2.1

theorem any_same {α : Type} {l : List α} {p q : α → Bool} (h : ∀ x ∈ l, p x = q x) : l.any p = l.any q := by
  induction l with
  | nil => rfl
  | cons x l ih => rw [List.any_cons, List.any_cons, h x (by simp), ih fun y hy => h y (by simp [hy])]

theorem reading_local : LocalCodex reading := by
  intro cid op mem mem' repo h1 h2
  simp only [reading]
  have e1 : op.destructibleIn.any (fun i => (mem.destructible i.addr).isNone) =
      op.destructibleIn.any fun i => (mem'.destructible i.addr).isNone := any_same fun inp hi => by rw [h1 inp hi]
  have e2 : op.immutableIn.any (fun a => (mem.immutable a).isNone) = op.immutableIn.any fun a => (mem'.immutable a).isNone :=
    any_same fun a ha => by rw [h2 a ha]
  rw [e1, e2]

/-- The archive with the genesis known. -/
def archive : Archive where
  known := [⟨100⟩]
  cells a := if a.opid = ⟨100⟩ then genesisOp.destructibleOut[(a.pos : Nat)]? else none
  data _ := none

theorem archive_tidy {Seal : Type} [LinearOrder Seal] [RgbSeal Seal] : Tidy (Seal := Seal) archive where
  destructible a h := by
    simp only [ContractApi.memory, archive] at h
    split at h
    · rename_i e
      rw [e]; rfl
    · simp at h
  immutable a h := absurd rfl h

/-- An operation that only publishes data. -/
def publish : OperationSeals Int := ⟨{ op 110 [] [] with immutableOut := [⟨⟨[1]⟩, none⟩] }, .collect [], none⟩

/-- An operation that reads it. -/
def cite : OperationSeals Int := ⟨{ op 111 [] [.abs 12] with immutableIn := [at_ 110 0] }, .collect [(0, .abs 12)], none⟩

def shelf : List (OperationSeals Int) := [origin, move1, move2, other, publish, cite]

theorem shelf_wellFormed (xs ys : List (OperationSeals Int)) (hx : ∀ b ∈ xs, b ∈ shelf) (hy : ∀ b ∈ ys, b ∈ shelf) :
    WellFormed ⟨9⟩ xs ys := by
  have hb : ∀ b, b ∈ xs ∨ b ∈ ys → b ∈ shelf := fun b h => h.elim (hx b) (hy b)
  have pos : ∀ b ∈ shelf, ∀ e ∈ b.definedSeals.entries,
      (b.operation.destructibleOut[(e.1 : Nat)]?).map (·.auth) = some (RgbSeal.authToken (Seal := Int) e.2) := by
    decide +kernel
  have tok : ∀ b ∈ shelf, ∀ b' ∈ shelf, ∀ e ∈ b.definedSeals.entries, ∀ e' ∈ b'.definedSeals.entries,
      RgbSeal.authToken (Seal := Int) e.2 = RgbSeal.authToken (Seal := Int) e'.2 → e.2 = e'.2 := by
    decide +kernel
  have anc : ∀ b ∈ shelf, ∀ e ∈ b.definedSeals.entries, RgbSeal.toSrc (Seal := Int) e.2 = none → b.operation.destructibleIn ≠ [] := by
    decide +kernel
  have col : ∀ b ∈ shelf, ∀ b' ∈ shelf, ∀ i ∈ [0, 1], ∀ j ∈ [0, 1],
      idAt ⟨9⟩ i b = idAt ⟨9⟩ j b' → opAt ⟨9⟩ i b = opAt ⟨9⟩ j b' := by decide +kernel
  have hsmall : ∀ i : Nat, ∃ k ∈ [0, 1], ∀ b : OperationSeals Int, opAt ⟨9⟩ i b = opAt ⟨9⟩ k b := by
    intro i
    rcases Nat.eq_zero_or_pos i with rfl | h
    · exact ⟨0, by simp, fun _ => rfl⟩
    · exact ⟨1, by simp, fun b => by simp [opAt, Nat.pos_iff_ne_zero.1 h]⟩
  refine ⟨?_, ?_, ?_, ?_⟩
  · intro i j b b' h1 h2 h
    obtain ⟨k, hk, ek⟩ := hsmall i
    obtain ⟨l, hl, el⟩ := hsmall j
    rw [idAt, idAt, ek, el] at h
    rw [ek, el]
    exact col b (hx b (List.mem_of_getElem? h1)) b' (hy b' (List.mem_of_getElem? h2)) k hk l hl h
  · exact fun b h1 b' h2 p d p' d' h3 h4 => tok b (hx b h1) b' (hy b' h2) _ h3 _ h4
  · intro b h p d hd
    have := pos b (hb b h) (p, d) hd
    simpa [Option.map_eq_some_iff] using this
  · exact fun b h p d hd => anc b (hb b h) (p, d) hd

def passes (m : Archive) (bs : List (OperationSeals Int)) : Bool :=
  (runBlocks (E := String) (ContractApi.contractId Int m) (ContractApi.codex Int m).codexId bs (initState m)).isOk

theorem passes_iff {m : Archive} {bs : List (OperationSeals Int)} :
    (∃ o, Accepted m (Feed.mk bs) bs o) ↔ passes m bs = true := by
  constructor
  · rintro ⟨o, h⟩
    obtain ⟨st, h1, _⟩ := run_of_validConsignment (E := String) h.valid
    unfold passes
    rw [h1]
    rfl
  · intro h
    obtain ⟨o, h1, h2, _⟩ := evaluate_of_delivers (feed_delivers bs) (valid_of_runBlocks h)
    exact ⟨o, h1, h2, feed_delivers bs⟩

/-- The archive after a consignment. -/
def later (bs : List (OperationSeals Int)) : Archive := contractAt ⟨9⟩ archive bs bs.length

theorem archive_history {bs : List (OperationSeals Int)} (h : passes archive bs = true) (h0 : bs[0]? = some origin)
    (hp : ∀ b ∈ bs, b ∈ shelf) : ∃ l, History (Seal := Int) KnownStart archive l (later bs) ∧
      HistoryOf (· ∈ shelf) archive l (later bs) ∧ l.filter IsCallback = callbacksUpTo ⟨9⟩ archive bs bs.length := by
  obtain ⟨o, ho⟩ := passes_iff.2 h
  have e : o.world.contract = later bs := ho.shape.contract
  refine ⟨o.world.calls ++ [], .step ?_ ho.run (e ▸ .nil _), .step ?_ ho.run (e ▸ .nil _), ?_⟩
  · intro b hb
    have := delivers_first ho.delivers hb
    rw [h0] at this
    cases this
    rfl
  · exact fun xs hs b hb => hp b (feed_starts hs b hb)
  · rw [List.append_nil]
    exact ho.shape.callbacks
end Demo.Once

open Demo Demo.Once in
/-- Two parties with a common start: one has received a note, the other one the note and a transfer.  The first
one accepts two further transfers and an operation reading the note; the second one, which knows the note, does as well. -/
example : ∃ l₁ l₂, History (Seal := Int) KnownStart archive l₁ (later [origin, publish]) ∧
    History (Seal := Int) KnownStart archive l₂ (later [origin, other, publish]) ∧
    HistoryOf (· ∈ shelf) archive l₁ (later [origin, publish]) ∧ HistoryOf (· ∈ shelf) archive l₂ (later [origin, other, publish]) ∧
    Call.applyOperation ⟨⟨103⟩, other.operation⟩ ∈ l₂ ∧
    (∃ o, Accepted (later [origin, publish]) (Feed.mk [origin, move1, cite, move2]) [origin, move1, cite, move2] o) ∧
    (∃ o, Accepted (later [origin, other, publish]) (Feed.mk [origin, move1, cite, move2]) [origin, move1, cite, move2] o) ∧
    (∀ b, [origin, move1, cite, move2][0]? = some b → KnownStart archive b) ∧
    (∀ b ∈ [origin, move1, cite, move2], b ∈ shelf) ∧
    (∀ xs ys : List (OperationSeals Int), (∀ b ∈ xs, b ∈ shelf) → (∀ b ∈ ys, b ∈ shelf) → WellFormed ⟨9⟩ xs ys) ∧
    SingleUse Int ∧ Function.Injective (message Int) ∧ Lawful Int Archive ∧ LawfulMemory Int Archive ∧ LocalMemory Int Archive ∧
    Faithful reading ∧ LocalCodex reading ∧ ChecksInputs reading ∧ ChecksReads reading ∧ Tidy (Seal := Int) archive ∧
    cite.operation.immutableIn = [at_ 110 0] := by
  obtain ⟨l₁, a1, a2, _⟩ := archive_history (bs := [origin, publish]) (by decide +kernel) rfl (by simp [shelf])
  obtain ⟨l₂, b1, b2, b3⟩ := archive_history (bs := [origin, other, publish]) (by decide +kernel) rfl (by simp [shelf])
  refine ⟨l₁, l₂, a1, b1, a2, b2, ?_, passes_iff.2 (by decide +kernel), passes_iff.2 (by decide +kernel), ?_, by simp [shelf],
    shelf_wellFormed, singleUse, message_injective, archive_lawful, archive_lawfulMemory, archive_localMemory, reading_faithful,
    reading_local, reading_checksInputs, reading_checksReads, archive_tidy, rfl⟩
  · have : Call.applyOperation ⟨⟨103⟩, other.operation⟩ ∈ l₂.filter IsCallback := by
      rw [b3]
      exact List.mem_of_getElem? (i := 2) rfl
    exact (List.mem_filter.1 this).1
  · rintro b hb
    cases hb
    rfl

open Demo Demo.Once in
/-- Without a single-use seal protocol: after one of two conflicting transfers the other one is not acceptable
any more, though a transfer of another cell is. -/
example : ∃ o, Accepted (Seal := Nat) archive (Tape.mk [genesis, transfer1] none) [genesis, transfer1] o ∧
    ValidConsignment (Seal := Nat) archive [genesis, doubleSpend] ∧
    ¬ ValidConsignment (Seal := Nat) o.world.contract [genesis, doubleSpend] ∧
    ValidConsignment (Seal := Nat) o.world.contract [genesis, transfer1, transfer2] := by
  have hv : ValidConsignment (Seal := Nat) archive [genesis, transfer1] := valid_of_runBlocks (by decide +kernel)
  obtain ⟨o, h1, h2, h3⟩ := evaluate_of_delivers (tape_delivers [genesis, transfer1]) hv
  have e : o.world.contract = contractAt (Seal := Nat) ⟨9⟩ archive [genesis, transfer1] 2 := h3.contract
  refine ⟨o, ⟨h1, h2, tape_delivers _⟩, valid_of_runBlocks (by decide +kernel), ?_, ?_⟩
  · rw [e]
    intro h
    obtain ⟨st, h, _⟩ := run_of_validConsignment (E := String) h
    have hf : (runBlocks (Seal := Nat) (E := String) ⟨9⟩ ⟨7⟩ [genesis, doubleSpend]
      (initState (contractAt (Seal := Nat) ⟨9⟩ archive [genesis, transfer1] 2))).isOk = false := by decide +kernel
    have ht : (runBlocks (Seal := Nat) (E := String) ⟨9⟩ ⟨7⟩ [genesis, doubleSpend]
      (initState (contractAt (Seal := Nat) ⟨9⟩ archive [genesis, transfer1] 2))).isOk = true := congrArg Except.isOk h
    rw [hf] at ht
    exact Bool.noConfusion ht
  · rw [e]
    exact valid_of_runBlocks (by decide +kernel)

open Demo Demo.Once in
/-- Two consignments acceptable in either order. -/
example : ∃ o o', Accepted archive (Feed.mk [origin, move1]) [origin, move1] o ∧
    Accepted archive (Feed.mk [origin, other, publish]) [origin, other, publish] o' ∧
    (∀ zs ∈ [[origin, move1], [origin, other, publish]], ∀ zs' ∈ [[origin, move1], [origin, other, publish]],
      NoCollision (Seal := Int) ⟨9⟩ zs zs') ∧
    ∃ p, Accepted o.world.contract (Feed.mk [origin, other, publish]) [origin, other, publish] p := by
  obtain ⟨o, h⟩ := passes_iff.2 (show passes archive [origin, move1] = true by decide +kernel)
  obtain ⟨o', h'⟩ := passes_iff.2 (show passes archive [origin, other, publish] = true by decide +kernel)
  refine ⟨o, o', h, h', ?_, ?_⟩
  · intro zs hz zs' hz'
    refine (shelf_wellFormed zs zs' ?_ ?_).collision
    · rcases (by simpa using hz : zs = _ ∨ zs = _) with rfl | rfl <;> simp [shelf]
    · rcases (by simpa using hz' : zs' = _ ∨ zs' = _) with rfl | rfl <;> simp [shelf]
  · have e : o.world.contract = later [origin, move1] := h.shape.contract
    rw [e]
    exact passes_iff.2 (by decide +kernel)

open Demo Demo.Once in
/-- Operations read need not be in the consignment: a consignment accepted by one party, none of whose inputs
was spent by anyone, is rejected by another which lacks an operation read. -/
theorem C82_needs_reads : ∃ (c c₁ : Archive) (l₁ : List (Call Int)) (xs : List (OperationSeals Int)),
    Lawful Int Archive ∧ LawfulMemory Int Archive ∧ LocalMemory Int Archive ∧ Faithful (ContractApi.codex Int c) ∧
    LocalCodex (ContractApi.codex Int c) ∧ ChecksInputs (ContractApi.codex Int c) ∧ ChecksReads (ContractApi.codex Int c) ∧
    Tidy (Seal := Int) c ∧ History (Seal := Int) KnownStart c l₁ c₁ ∧ (∀ b, xs[0]? = some b → KnownStart c b) ∧
    (∀ b ∈ xs, b.operation.destructibleIn = []) ∧
    (∃ o, Accepted c₁ (Feed.mk xs) xs o) ∧ ¬ ∃ o, Accepted c (Feed.mk xs) xs o := by
  obtain ⟨l₁, a1, _, _⟩ := archive_history (bs := [origin, publish]) (by decide +kernel) rfl (by simp [shelf])
  refine ⟨archive, later [origin, publish], l₁, [origin, cite], archive_lawful, archive_lawfulMemory, archive_localMemory,
    reading_faithful, reading_local, reading_checksInputs, reading_checksReads, archive_tidy, a1, ?_, ?_,
    passes_iff.2 (by decide +kernel), ?_⟩
  · rintro b hb
    cases hb
    rfl
  · intro b hb
    rcases (by simpa using hb : b = _ ∨ b = _) with rfl | rfl <;> rfl
  · rw [passes_iff]
    decide +kernel

end Rgb
