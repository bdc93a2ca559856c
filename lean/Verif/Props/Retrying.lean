import Verif.Props.Agreement
import Verif.Props.Recovery
import Verif.Props.Separation
import Verif.Props.Auditors

set_option linter.unusedSectionVars false

/-! # C93: when it helps to try a rejected consignment again -/

namespace Rgb
open Spec

section
variable {Seal : Type} [LinearOrder Seal] [RgbSeal Seal] [OpHash]
variable {C : Type} [ContractApi Seal C]
variable {R : Type} [ReadOperation Seal R]

/-- The codex of `c` rejects `p`, and the contract knows the creators of all cells `p` refers to. -/
structure Hopeless (c : C) (cid : ContractId) (p : Operation) : Prop where
  rejected : ∃ e, codexAnswer Seal c cid p = .error e
  inputs : ∀ inp ∈ p.destructibleIn, ContractApi.isKnown Seal c inp.addr.opid = true
  reads : ∀ a ∈ p.immutableIn, ContractApi.isKnown Seal c a.opid = true

theorem Hopeless.other (hl : Lawful Seal C) (hc : LocalMemory Seal C) {c : C} {cid : ContractId} {p : Operation}
    (h : Hopeless (Seal := Seal) c cid p) {x : Call Seal} (hx : appliedOperation x = none) :
    Hopeless (Seal := Seal) (perform c x) cid p := by
  obtain ⟨⟨e, he⟩, hi, hr⟩ := h
  have hm : ContractApi.memory Seal (perform c x) = ContractApi.memory Seal c := by
    cases x <;> simp only [perform, appliedOperation, reduceCtorEq] at hx ⊢
    · exact hc.witness ..
    · exact hc.seals ..
  refine ⟨⟨e, ?_⟩, fun inp h => ?_, fun a h => ?_⟩
  · rw [← he]
    unfold codexAnswer
    rw [hl.codex, hc.repo, hm]
  · rw [hl.known_other hx]; exact hi inp h
  · rw [hl.known_other hx]; exact hr a h

theorem Hopeless.apply (hl : Lawful Seal C) (hm : LawfulMemory Seal C) (hc : LocalMemory Seal C) {c : C}
    (hx : LocalCodex (ContractApi.codex Seal c)) (hi : ChecksInputs (ContractApi.codex Seal c)) {cid : ContractId} {p : Operation}
    (h : Hopeless (Seal := Seal) c cid p) {v : VerifiedOperation} (hv : ContractApi.isKnown Seal c v.opid = false) :
    Hopeless (Seal := Seal) (ContractApi.applyOperation Seal c v) cid p := by
  obtain ⟨⟨e, he⟩, hin, hr⟩ := h
  have ne : ∀ {x : Opid}, ContractApi.isKnown Seal c x = true → x ≠ v.opid := by
    rintro x h rfl
    rw [hv] at h
    cases h
  have hcx : ContractApi.codex Seal (ContractApi.applyOperation Seal c v) = ContractApi.codex Seal c := hl.codex c (.applyOperation v)
  have hrp : ContractApi.repo Seal (ContractApi.applyOperation Seal c v) = ContractApi.repo Seal c := hc.repo c (.applyOperation v)
  refine ⟨?_, fun inp h => (hl.known_operation ..).2 (.inl (hin inp h)), fun a h => (hl.known_operation ..).2 (.inl (hr a h))⟩
  by_cases hs : ∃ inp ∈ p.destructibleIn, ∃ inp' ∈ v.operation.destructibleIn, inp'.addr = inp.addr
  · obtain ⟨inp, h1, inp', h2, h3⟩ := hs
    cases ha : codexAnswer Seal (ContractApi.applyOperation Seal c v) cid p with
    | error e' => exact ⟨e', rfl⟩
    | ok u =>
      unfold codexAnswer at ha
      rw [hcx] at ha
      refine absurd ?_ (hi _ _ _ _ _ ha inp h1)
      rw [← h3]
      exact hm.consumed c v inp' h2
  · refine ⟨e, ?_⟩
    rw [← he]
    unfold codexAnswer
    rw [hcx, hrp]
    refine hx _ _ _ _ _ (fun inp h => ?_) (fun a h => ?_)
    · exact hc.destructible _ _ _ (ne (hin inp h)) fun inp' h' e => hs ⟨inp, h, inp', h', e⟩
    · exact hc.immutable _ _ _ (ne (hr a h))

theorem Hopeless.steps (hl : Lawful Seal C) (hm : LawfulMemory Seal C) (hc : LocalMemory Seal C) {c c' : C}
    (hx : LocalCodex (ContractApi.codex Seal c)) (hi : ChecksInputs (ContractApi.codex Seal c)) {p : Operation}
    (h : Hopeless (Seal := Seal) c (ContractApi.contractId Seal c) p) {l : List (Call Seal)}
    (hs : Steps (fun c v => Verified (Seal := Seal) c v) c l c') :
    Hopeless (Seal := Seal) c' (ContractApi.contractId Seal c) p ∧ ∀ v ∈ l.filterMap appliedOperation, v.operation ≠ p := by
  induction hs with
  | nil => exact ⟨h, by simp⟩
  | @other c c' x l ho _ ih =>
    have := ih (by rw [hl.codex]; exact hx) (by rw [hl.codex]; exact hi) (by rw [hl.contractId]; exact h.other hl hc ho)
    rw [hl.contractId] at this
    simpa [List.filterMap_cons, ho] using this
  | @apply c c' v l hv _ ih =>
    have hcx : ContractApi.codex Seal (ContractApi.applyOperation Seal c v) = ContractApi.codex Seal c := hl.codex c (.applyOperation v)
    have hid : ContractApi.contractId Seal (ContractApi.applyOperation Seal c v) = ContractApi.contractId Seal c :=
      hl.contractId c (.applyOperation v)
    obtain ⟨h1, h2⟩ := ih (by rw [hcx]; exact hx) (by rw [hcx]; exact hi)
      (by rw [hid]; exact h.apply hl hm hc hx hi hv.fresh.new)
    rw [hid] at h1
    refine ⟨h1, ?_⟩
    simp only [List.filterMap_cons, appliedOperation, List.mem_cons]
    rintro u (rfl | hu)
    · rintro rfl
      obtain ⟨e, he⟩ := h.rejected
      rw [hv.answer] at he
      cases he
    · exact h2 u hu

/-- Evaluating the blocks of a valid consignment, or of a part of it, is a history. -/
theorem history_at {c : C} {xs : List (OperationSeals Seal)} (hv : ValidConsignment c xs) :
    ∃ l, History (Seal := Seal) AnyStart c l (contractAt (ContractApi.contractId Seal c) c xs xs.length) := by
  obtain ⟨o, h1, _, h3⟩ := evaluate_of_delivers (c := c) (testReader_delivers xs) hv
  exact ⟨o.world.calls ++ [], .step (fun _ _ => trivial) h1 (h3.contract ▸ .nil _)⟩

theorem contractAt_take {cid : ContractId} {c : C} {xs : List (OperationSeals Seal)} {n : Nat} :
    ∀ k, k ≤ n → contractAt cid c (xs.take n) k = contractAt cid c xs k := by
  intro k
  induction k with
  | zero => exact fun _ => rfl
  | succ k ih =>
    intro hk
    simp only [contractAt, ih (by omega), List.getElem?_take, if_pos (show k < n by omega)]

theorem Spec.History.any {Start : C → OperationSeals Seal → Prop} {c c' : C} {l : List (Call Seal)} (h : History Start c l c') :
    History (Seal := Seal) AnyStart c l c' := by
  induction h with
  | nil c => exact .nil c
  | step _ h1 _ ih => exact .step (fun _ _ => trivial) h1 ih

/-- The rejection of an operation by the codex is final if the contract knows the creators of all cells the
operation refers to: whatever the contract receives from then on, the codex keeps rejecting the operation, it is never
applied, and no consignment containing it is accepted. -/
theorem C93_final (hl : Lawful Seal C) (hm : LawfulMemory Seal C) (hc : LocalMemory Seal C) {c c' : C}
    (hf : Faithful (ContractApi.codex Seal c)) (hx : LocalCodex (ContractApi.codex Seal c))
    (hi : ChecksInputs (ContractApi.codex Seal c)) {p : Operation} {e : CallError}
    (hrej : codexAnswer Seal c (ContractApi.contractId Seal c) p = .error e)
    (hnew : ContractApi.isKnown Seal c (opid p) = false)
    (hin : ∀ inp ∈ p.destructibleIn, ContractApi.isKnown Seal c inp.addr.opid = true)
    (hrd : ∀ a ∈ p.immutableIn, ContractApi.isKnown Seal c a.opid = true)
    {Start : C → OperationSeals Seal → Prop} {l : List (Call Seal)} (h : History Start c l c')
    (hno : ∀ v ∈ l.filterMap appliedOperation, v.opid = opid p → v.operation = p) :
    (∃ e', codexAnswer Seal c' (ContractApi.contractId Seal c) p = .error e') ∧
      (∀ v ∈ l.filterMap appliedOperation, v.operation ≠ p) ∧ ContractApi.isKnown Seal c' (opid p) = false ∧
      ∀ (r : R) (xs : List (OperationSeals Seal)) o, Accepted c' r xs o →
        (∀ (j : Nat) b, xs[j]? = some b → idAt (ContractApi.contractId Seal c) j b = opid p →
          opAt (ContractApi.contractId Seal c) j b = p) →
        ∀ (j : Nat) b, xs[j]? = some b → opAt (ContractApi.contractId Seal c) j b ≠ p := by
  have hp : Hopeless (Seal := Seal) c (ContractApi.contractId Seal c) p := ⟨⟨e, hrej⟩, hin, hrd⟩
  obtain ⟨k1, k2⟩ := hp.steps hl hm hc hx hi (history_verified hl hc hf h)
  have hk : ContractApi.isKnown Seal c' (opid p) = false := by
    cases hk : ContractApi.isKnown Seal c' (opid p) with
    | false => rfl
    | true =>
      rcases ((C34_applied_once hl hf h).2.2 _).1 hk with hk | hk
      · rw [hnew] at hk; cases hk
      · obtain ⟨v, h1, h2⟩ := List.mem_map.1 hk
        exact absurd (hno v h1 h2) (k2 v h1)
  refine ⟨k1.rejected, k2, hk, ?_⟩
  intro r xs o ha hcol j b hb hop
  have hid : ContractApi.contractId Seal c' = ContractApi.contractId Seal c := by rw [history_fold h, hl.foldl_id]
  have hcx : ContractApi.codex Seal c' = ContractApi.codex Seal c := by rw [history_fold h, hl.foldl_codex]
  -- the first position of the operation
  induction j using Nat.strong_induction_on generalizing b with
  | _ j ih =>
  have hv : ValidConsignment c' (xs.take j) := by
    have := ha.valid
    rw [← List.take_append_drop j xs] at this
    exact this.prefix
  have hlen : (xs.take j).length = j := by
    rw [List.length_take]
    exact Nat.min_eq_left (Nat.le_of_lt (lt_length_of_getElem? hb))
  obtain ⟨l', hl'⟩ := history_at hv
  rw [hlen, contractAt_take j (Nat.le_refl j)] at hl'
  rw [← hid] at k1
  obtain ⟨q1, _⟩ := k1.steps hl hm hc (by rw [hcx]; exact hx) (by rw [hcx]; exact hi)
    (history_verified hl hc (by rw [hcx]; exact hf) hl')
  obtain ⟨e', he'⟩ := q1.rejected
  cases hkj : ContractApi.isKnown Seal (contractAt (ContractApi.contractId Seal c') c' xs j) (opid p) with
  | false =>
    obtain ⟨v, hv⟩ := (ha.valid j b hb).script (by rw [hid, idAt, hop, ← hid]; exact hkj)
    rw [hid, hop, ← hid, he'] at hv
    cases hv
  | true =>
    rcases known_from hl (by rw [hcx]; exact hf) hkj with h' | ⟨i, bi, hij, hbi, e⟩
    · rw [hk] at h'; cases h'
    · rw [hid] at e
      exact ih i hij bi hbi (hcol i bi hbi e.symm)

/-- What the contract knows of an operation rejected by its codex: it is new, and the creators of all its inputs
are known. -/
theorem C93_script (hl : Lawful Seal C) {c : C} (hf : Faithful (ContractApi.codex Seal c)) {r : R} {o}
    (h : evaluate (Seal := Seal) c r = some o) (h0 : ∀ b : OperationSeals Seal, StartsWith r [b] → KnownStart c b)
    {e : CallError} (he : o.result = .error (.vm e)) :
    ∃ (xs : List (OperationSeals Seal)) (b : OperationSeals Seal), StartsWith r (xs ++ [b]) ∧ polls o.world.calls = xs.length + 1 ∧
      codexAnswer Seal o.world.contract (ContractApi.contractId Seal c) (opAt (ContractApi.contractId Seal c) xs.length b) = .error e ∧
      ContractApi.isKnown Seal o.world.contract (idAt (ContractApi.contractId Seal c) xs.length b) = false ∧
      (∀ inp ∈ b.operation.destructibleIn, ContractApi.isKnown Seal o.world.contract inp.addr.opid = true) ∧
      ∀ (j : Nat) bj, xs[j]? = some bj →
        ContractApi.isKnown Seal o.world.contract (idAt (ContractApi.contractId Seal c) j bj) = true := by
  obtain ⟨xs, hs⟩ := run_shape h
  have hpl := hs.polls
  obtain ⟨segs, tail, _, _, h3⟩ := hs.stop
  rcases h3 with ⟨h4, _⟩ | ⟨x, h4, _⟩ | ⟨b, e', h4, h5, hrej⟩
  · rw [he] at h4; cases h4
  · rw [he] at h4; cases h4
  rw [he] at h4
  cases h4
  have hst : ∀ b, xs[0]? = some b → KnownStart c b := by
    intro b' hb'
    refine h0 b' ?_
    cases xs with
    | nil => cases hb'
    | cons y ys =>
      cases hb'
      cases h5 with
      | cons k _ => exact ⟨_, .cons k (.nil _)⟩
  have hkn : ∀ (j : Nat) bj, xs[j]? = some bj →
      ContractApi.isKnown Seal o.world.contract (idAt (ContractApi.contractId Seal c) j bj) = true := by
    intro j bj hj
    rw [hs.contract]
    exact hl.contractAt_mono (lt_length_of_getElem? hj) (known_after hl hs.valid hf hst hj)
  cases hrej with
  | script g1 g2 g3 g4 g5 =>
    rw [← hs.contract] at g4 g5
    refine ⟨xs, b, ⟨_, h5⟩, hpl, g5, g4, ?_, hkn⟩
    intro inp hinp
    obtain ⟨s, hs'⟩ : ∃ s, OpenAt (ContractApi.contractId Seal c) xs xs.length inp.addr s := by
      obtain ⟨i, hi, rfl⟩ := List.mem_iff_getElem.1 hinp
      exact ⟨_, (List.forall₂_iff_get.1 g3.2).2 i hi ((List.forall₂_iff_get.1 g3.2).1 ▸ hi)⟩
    obtain ⟨j, bj, _, hbj, ⟨ha, _⟩, _⟩ := hs'
    rw [ha]
    exact hkn j bj hbj

/-- A consignment which has been rejected, other than for the stream failing, is later accepted only if it was
rejected by the codex, the operation rejected reads an output of an operation which the contract did not know, and
the contract has come to know that operation in between. -/
theorem C93_retry (hl : Lawful Seal C) (hm : LawfulMemory Seal C) (hc : LocalMemory Seal C) {c c' : C}
    (hf : Faithful (ContractApi.codex Seal c)) (hx : LocalCodex (ContractApi.codex Seal c))
    (hi : ChecksInputs (ContractApi.codex Seal c)) (hrd : ChecksReads (ContractApi.codex Seal c)) (ht : Tidy (Seal := Seal) c)
    {r : R} {o} (h : evaluate (Seal := Seal) c r = some o) (h0 : ∀ b : OperationSeals Seal, StartsWith r [b] → KnownStart c b)
    {e : VerificationError Seal (ReadOperation.Error Seal R)} (he : o.result = .error e) (hns : ∀ x, e ≠ .stream x)
    {Start : C → OperationSeals Seal → Prop} {l : List (Call Seal)} (hh : History Start o.world.contract l c')
    {T : Operation → Prop} (hT : ∀ p q, T p → T q → opid p = opid q → p = q)
    (tl : ∀ v ∈ l.filterMap appliedOperation, T v.operation)
    (tx : ∀ xs : List (OperationSeals Seal), StartsWith r xs → ∀ (i : Nat) b, xs[i]? = some b →
      T (opAt (ContractApi.contractId Seal c) i b))
    {o'} (h' : evaluate (Seal := Seal) c' r = some o') (ho' : o'.result = .ok ()) :
    ∃ (x : CallError) (xs : List (OperationSeals Seal)) (b : OperationSeals Seal), e = .vm x ∧ StartsWith r (xs ++ [b]) ∧ polls o.world.calls = xs.length + 1 ∧
      ∃ a ∈ b.operation.immutableIn, ContractApi.isKnown Seal o.world.contract a.opid = false ∧
        ContractApi.isKnown Seal c' a.opid = true := by
  have ho : o.world.contract = o.world.calls.foldl perform c := by
    have := history_fold (Start := AnyStart) (.step (fun _ _ => trivial) h (.nil _))
    simpa using this
  have hid : ContractApi.contractId Seal o.world.contract = ContractApi.contractId Seal c := by rw [ho, hl.foldl_id]
  have hcx : ContractApi.codex Seal o.world.contract = ContractApi.codex Seal c := by rw [ho, hl.foldl_codex]
  have hid' : ContractApi.contractId Seal c' = ContractApi.contractId Seal c := by rw [history_fold hh, hl.foldl_id, hid]
  have hcx' : ContractApi.codex Seal c' = ContractApi.codex Seal c := by rw [history_fold hh, hl.foldl_codex, hcx]
  obtain ⟨x, rfl⟩ : ∃ x, e = .vm x := by
    by_contra hno
    obtain ⟨o'', k1, k2⟩ := C79_verdicts (d := c') h hid' (by rw [hcx']) (fun x hx => by
      rw [he] at hx; cases hx; exact hno ⟨x, rfl⟩)
    rw [h'] at k1
    cases k1
    rcases k2 with ⟨k2, _⟩ | ⟨x, k2⟩
    · rw [ho', he] at k2; cases k2
    · rw [ho'] at k2; cases k2
  obtain ⟨xs, b, hst, hpl, hrej, hnew, hin, hkn⟩ := C93_script hl hf h h0 he
  refine ⟨x, xs, b, rfl, hst, hpl, ?_⟩
  by_contra hno
  have hno : ∀ a ∈ b.operation.immutableIn, ContractApi.isKnown Seal o.world.contract a.opid = false →
      ContractApi.isKnown Seal c' a.opid = false := by
    intro a ha hk
    cases hk' : ContractApi.isKnown Seal c' a.opid with
    | false => rfl
    | true => exact absurd ⟨a, ha, hk, hk'⟩ hno
  -- what the accepted evaluation has read
  obtain ⟨ys, hsh⟩ := run_shape h'
  have hd : ∃ zs, ys = xs ++ b :: zs := by
    obtain ⟨segs, tail, _, _, h3⟩ := hsh.stop
    rcases h3 with ⟨_, _, r₁, h4, h5⟩ | ⟨x, h4, _⟩ | ⟨b, e', h4, _⟩
    · obtain ⟨q, hq⟩ := hst
      rcases hq.det h4 with ⟨zs, h1, _⟩ | ⟨zs, h1, h2⟩
      · exact ⟨zs, by rw [h1]; simp⟩
      · cases h2 with
        | nil => exact ⟨[], by simpa using h1.symm⟩
        | cons h2 _ => rw [h5] at h2; simp at h2
    · rw [ho'] at h4; cases h4
    · rw [ho'] at h4; cases h4
  obtain ⟨zs, rfl⟩ := hd
  have hb : (xs ++ b :: zs)[xs.length]? = some b := by simp
  have hop : (opAt (ContractApi.contractId Seal c) xs.length b).immutableIn = b.operation.immutableIn := by
    unfold opAt; split <;> rfl
  have hop' : (opAt (ContractApi.contractId Seal c) xs.length b).destructibleIn = b.operation.destructibleIn := by
    unfold opAt; split <;> rfl
  have tp : T (opAt (ContractApi.contractId Seal c) xs.length b) := tx _ hst _ _ (by simp)
  have hcol : ∀ v ∈ l.filterMap appliedOperation, v.opid = opid (opAt (ContractApi.contractId Seal c) xs.length b) →
      v.operation = opAt (ContractApi.contractId Seal c) xs.length b := by
    intro v hv hvo
    refine hT _ _ (tl v hv) tp ?_
    rw [← hvo]
    obtain ⟨pre, post, rfl⟩ := List.append_of_mem (applied_mem hv)
    have hans := (history_verified hl hc (by rw [hcx]; exact hf) hh).at.answer
    unfold codexAnswer at hans
    rw [hl.foldl_codex, hcx] at hans
    exact (hf _ _ _ _ _ hans).1.symm
  have mono : ∀ {x : Opid}, ContractApi.isKnown Seal o.world.contract x = true → ContractApi.isKnown Seal c' x = true := by
    intro x hk
    rw [history_fold hh]
    exact hl.foldl_mono hk
  by_cases hall : ∀ a ∈ b.operation.immutableIn, ContractApi.isKnown Seal o.world.contract a.opid = true
  · have key := C93_final (R := TestReader Seal) hl hm hc (c := o.world.contract) (by rw [hcx]; exact hf) (by rw [hcx]; exact hx)
      (by rw [hcx]; exact hi) (by rw [hid]; exact hrej) hnew (by rw [hop']; exact hin) (by rw [hop]; exact hall) hh hcol
    obtain ⟨o'', k1, k2, _⟩ := evaluate_of_delivers (c := c') (testReader_delivers (xs ++ b :: zs)) hsh.valid
    refine key.2.2.2 _ _ o'' ⟨k1, k2, testReader_delivers _⟩ ?_ xs.length b hb (by rw [hid])
    intro j bj hj e'
    rw [hid] at e' ⊢
    exact hT _ _ (tx _ hsh.starts j bj hj) tp e'
  · obtain ⟨a, ha, hka⟩ : ∃ a ∈ b.operation.immutableIn, ContractApi.isKnown Seal o.world.contract a.opid = false := by
      by_contra hn
      refine hall fun a ha => ?_
      cases hk : ContractApi.isKnown Seal o.world.contract a.opid with
      | true => rfl
      | false => exact absurd ⟨a, ha, hk⟩ hn
    have hka' := hno a ha hka
    have tidy : ∀ (L : List (Call Seal)) (v : VerifiedOperation),
        codexAnswer Seal (L.foldl perform c) (ContractApi.contractId Seal c) (opAt (ContractApi.contractId Seal c) xs.length b) = .ok v →
        ContractApi.isKnown Seal (L.foldl perform c) a.opid = true := by
      intro L v hv
      refine immutable_tidy hl hc ht.immutable L a ?_
      unfold codexAnswer at hv
      rw [hl.foldl_codex] at hv
      exact hrd _ _ _ _ _ hv a (by rw [hop]; exact ha)
    have hnap : ∀ v ∈ l.filterMap appliedOperation, v.operation ≠ opAt (ContractApi.contractId Seal c) xs.length b := by
      intro v hv e
      obtain ⟨pre, post, rfl⟩ := List.append_of_mem (applied_mem hv)
      have hans := (history_verified hl hc (by rw [hcx]; exact hf) hh).at.answer
      rw [e, hl.foldl_id, hid, ho, ← List.foldl_append] at hans
      have := tidy _ _ hans
      rw [List.foldl_append, ← ho] at this
      have := hl.foldl_mono (l := .applyOperation v :: post) this
      rw [← List.foldl_append, ← history_fold hh, hka'] at this
      cases this
    have hnew' : ContractApi.isKnown Seal c' (idAt (ContractApi.contractId Seal c) xs.length b) = false := by
      cases hk : ContractApi.isKnown Seal c' (idAt (ContractApi.contractId Seal c) xs.length b) with
      | false => rfl
      | true =>
        rcases ((C34_applied_once hl (by rw [hcx]; exact hf) hh).2.2 _).1 hk with hk | hk
        · rw [hnew] at hk; cases hk
        · obtain ⟨v, h1, h2⟩ := List.mem_map.1 hk
          exact absurd (hcol v h1 h2) (hnap v h1)
    have earlier : ∀ y, ContractApi.isKnown Seal (contractAt (ContractApi.contractId Seal c') c' (xs ++ b :: zs) xs.length) y = true →
        ContractApi.isKnown Seal c' y = true := by
      intro y hy
      rcases known_from hl (by rw [hcx']; exact hf) hy with hy | ⟨i, bi, hlt, hbi, e⟩
      · exact hy
      · rw [List.getElem?_append_left hlt] at hbi
        rw [e, hid']
        exact mono (hkn i bi hbi)
    obtain ⟨v, hv⟩ := (hsh.valid _ _ hb).script (by
      cases hk : ContractApi.isKnown Seal (contractAt (ContractApi.contractId Seal c') c' (xs ++ b :: zs) xs.length)
          (idAt (ContractApi.contractId Seal c') xs.length b) with
      | false => rfl
      | true => rw [hid', ← hid'] at hk; have := earlier _ hk; rw [hid', hnew'] at this; cases this)
    obtain ⟨l', hl'⟩ := history_at (Seal := Seal) (c := c') (xs := xs) hsh.valid.prefix
    have hat : contractAt (ContractApi.contractId Seal c') c' (xs ++ b :: zs) xs.length =
        (o.world.calls ++ l ++ l').foldl perform c := by
      have := contractAt_take (cid := ContractApi.contractId Seal c') (c := c') (xs := xs ++ b :: zs) (n := xs.length) xs.length (Nat.le_refl _)
      rw [List.take_left' rfl] at this
      rw [← this, history_fold hl', List.foldl_append, List.foldl_append, ← ho, ← history_fold hh]
    rw [hid', ← hid', hat, hid'] at hv
    have := tidy _ _ hv
    rw [← hat] at this
    rw [earlier _ this] at hka'
    cases hka'

/-- A rejection which is due neither to the codex nor to the stream is permanent: whatever contract with the same
id and codex id the blocks read are given to, of whatever kind and in whatever state, and whatever follows them, the
evaluation ends with the same error or with the codex rejecting an operation. -/
theorem C93_permanent {D : Type} [ContractApi Seal D] {R' : Type} [ReadOperation Seal R'] {c : C} {d : D} {r : R} {o}
    (h : evaluate (Seal := Seal) c r = some o) {e : VerificationError Seal (ReadOperation.Error Seal R)}
    (he : o.result = .error e) (hns : ∀ x, e ≠ .stream x) (hvm : ∀ x, e ≠ .vm x)
    (hid : ContractApi.contractId Seal d = ContractApi.contractId Seal c)
    (hx : (ContractApi.codex Seal d).codexId = (ContractApi.codex Seal c).codexId) :
    ∃ (blocks : List (OperationSeals Seal)) (e₀ : VerificationError Seal Empty), StartsWith r blocks ∧
      polls o.world.calls = blocks.length ∧ e = e₀.mapStream Empty.elim ∧
      ∀ r' : R', StartsWith r' blocks → ∃ o', evaluate (Seal := Seal) d r' = some o' ∧
        (o'.result = .error (e₀.mapStream Empty.elim) ∨ ∃ x, o'.result = .error (.vm x)) := by
  obtain ⟨blocks, e₀, h1, h2, _, h4, h5⟩ := C22_rejected_block h he hns
  refine ⟨blocks, e₀, h1, h2, h4, fun r' hr' => ?_⟩
  obtain ⟨o₁, k1, k2, _⟩ := h5 R' r' hr'
  obtain ⟨o', g1, g2⟩ := C79_verdicts (d := d) k1 hid hx (fun x hx => by
    rw [k2] at hx
    cases e₀ with
    | vm y => exact hvm y h4
    | _ => cases hx)
  rw [k2] at g2
  exact ⟨o', g1, g2.imp_left And.left⟩

theorem sameState_blind (hl : Lawful Seal C) (hc : LocalMemory Seal C) : ReportBlind (Seal := Seal) (SameState (Seal := Seal) (C := C)) where
  refl _ := ⟨rfl, rfl, rfl, rfl, fun _ => rfl⟩
  contractId _ _ h := h.contractId
  codexId _ _ h := by rw [h.codex]
  isKnown _ _ h := h.isKnown
  verify _ _ h _ _ := by unfold codexAnswer; rw [h.codex, h.memory, h.repo]
  operation c d h v := by
    have p : ∀ c : C, ContractApi.applyOperation Seal c v = perform c (Call.applyOperation (Seal := Seal) v) := fun _ => rfl
    refine ⟨?_, ?_, ?_, ?_, fun o => ?_⟩
    · rw [p, p, hl.contractId, hl.contractId, h.contractId]
    · rw [p, p, hl.codex, hl.codex, h.codex]
    · have h1 : (ContractApi.memory Seal (ContractApi.applyOperation Seal c v)).destructible =
          (ContractApi.memory Seal (ContractApi.applyOperation Seal d v)).destructible :=
        funext fun a => hc.destructible_congr _ _ _ _ (by rw [h.memory])
      have h2 : (ContractApi.memory Seal (ContractApi.applyOperation Seal c v)).immutable =
          (ContractApi.memory Seal (ContractApi.applyOperation Seal d v)).immutable :=
        funext fun a => hc.immutable_congr _ _ _ _ (by rw [h.memory])
      cases h3 : ContractApi.memory Seal (ContractApi.applyOperation Seal c v)
      cases h4 : ContractApi.memory Seal (ContractApi.applyOperation Seal d v)
      rw [h3, h4] at h1 h2
      simp only at h1 h2
      rw [h1, h2]
    · rw [p, p, hc.repo, hc.repo, h.repo]
    · rw [Bool.eq_iff_iff, hl.known_operation, hl.known_operation, h.isKnown]
  sealsLeft c d h o s := ⟨(hl.contractId c (.applySeals o s)).trans h.contractId, (hl.codex c (.applySeals o s)).trans h.codex,
    (hc.seals ..).trans h.memory, (hc.repo c (.applySeals o s)).trans h.repo, fun x => (hl.known_seals ..).trans (h.isKnown x)⟩
  sealsRight c d h o s := ⟨h.contractId.trans (hl.contractId d (.applySeals o s)).symm,
    h.codex.trans (hl.codex d (.applySeals o s)).symm, h.memory.trans (hc.seals ..).symm,
    h.repo.trans (hc.repo d (.applySeals o s)).symm, fun x => (h.isKnown x).trans (hl.known_seals ..).symm⟩
  witnessLeft c d h o s := ⟨(hl.contractId c (.applyWitness o s)).trans h.contractId, (hl.codex c (.applyWitness o s)).trans h.codex,
    (hc.witness ..).trans h.memory, (hc.repo c (.applyWitness o s)).trans h.repo, fun x => (hl.known_witness ..).trans (h.isKnown x)⟩
  witnessRight c d h o s := ⟨h.contractId.trans (hl.contractId d (.applyWitness o s)).symm,
    h.codex.trans (hl.codex d (.applyWitness o s)).symm, h.memory.trans (hc.witness ..).symm,
    h.repo.trans (hc.repo d (.applyWitness o s)).symm, fun x => (h.isKnown x).trans (hl.known_witness ..).symm⟩

/-- Trying again at once is of no use: the same stream has the same result, whatever it was, no operation is applied
and the contract answers as before. -/
theorem C93_again (hl : Lawful Seal C) (hc : LocalMemory Seal C) {c : C} (hf : Faithful (ContractApi.codex Seal c)) {r : R} {o}
    (h : evaluate (Seal := Seal) c r = some o) (h0 : ∀ b : OperationSeals Seal, StartsWith r [b] → KnownStart c b) :
    ∃ o', evaluate (Seal := Seal) o.world.contract r = some o' ∧ o'.result = o.result ∧ o'.reader = o.reader ∧
      o'.world.calls.filterMap appliedOperation = [] ∧ SameState (Seal := Seal) o'.world.contract o.world.contract := by
  have ho : o.world.contract = o.world.calls.foldl perform c := by
    have := history_fold (Start := AnyStart) (.step (fun _ _ => trivial) h (.nil _))
    simpa using this
  have := C75_recovery hl (sameState_blind hl hc)
    (fun a b d h h' => ⟨h.contractId.trans h'.contractId, h.codex.trans h'.codex, h.memory.trans h'.memory,
      h.repo.trans h'.repo, fun x => (h.isKnown x).trans (h'.isKnown x)⟩) hf h0
    (.interrupted (C75_covers h (List.prefix_refl _)) (.nil _))
  rw [← ho, h] at this
  generalize hg : evaluate (Seal := Seal) o.world.contract r = g at this
  cases this with
  | some k =>
    obtain ⟨k1, k2, k3, k4, _⟩ := k
    refine ⟨_, rfl, k1, k2, ?_, k3⟩
    simpa using k4

end

namespace Demo.Once
theorem archive_rejects : ∃ o, evaluate (Seal := Int) archive (Feed.mk [origin, cite]) = some o ∧
    o.result = .error (.vm ⟨"absent data"⟩) ∧ o.world.contract = archive := by
  have hv : ValidConsignment (Seal := Int) archive [origin] := valid_of_runBlocks (by decide +kernel)
  have hv' : ValidConsignment (Seal := Int) (later [origin, publish]) [origin, cite] := valid_of_runBlocks (by decide +kernel)
  have hr : Rejection (E := String) archive [origin] cite (.vm ⟨"absent data"⟩) _ :=
    .script (seals := []) (fun h => nomatch h) (fun p d h => (hv' 1 cite rfl).committed p d h) ⟨.nil, .nil⟩ rfl rfl
  obtain ⟨o, h1, h2, h3, h4⟩ := evaluate_of_rejection (R := Feed) (r := Feed.mk [origin, cite])
    ⟨_, feed_reads ([origin] ++ [cite])⟩ hv hr
  exact ⟨o, h1, h2, h4.contract⟩

/-- The operations of the shelf, as any block of any consignment may have them. -/
def Shelved (p : Operation) : Prop := ∃ b ∈ shelf, ∃ i : Nat, p = opAt ⟨9⟩ i b

theorem shelved_inj : ∀ p q, Shelved p → Shelved q → opid p = opid q → p = q := by
  rintro p q ⟨b, hb, i, rfl⟩ ⟨b', hb', j, rfl⟩ h
  have hc := (shelf_wellFormed (List.replicate (i + 1) b) (List.replicate (j + 1) b')
    (fun x hx => (List.eq_of_mem_replicate hx).symm ▸ hb) (fun x hx => (List.eq_of_mem_replicate hx).symm ▸ hb')).collision
  exact hc i j b b' (by simp) (by simp) h
end Demo.Once

open Demo Demo.Once in
/-- The exception does occur: a consignment is rejected for reading what is not there, the operation it reads is
received, and the same consignment is accepted. -/
theorem C93_transient : ∃ (c c' : Archive) (xs : List (OperationSeals Int)) (o o' : Outcome Int Feed Archive String) (l : List (Call Int))
    (T : Operation → Prop),
    Lawful Int Archive ∧ LawfulMemory Int Archive ∧ LocalMemory Int Archive ∧ Faithful (ContractApi.codex Int c) ∧
    LocalCodex (ContractApi.codex Int c) ∧ ChecksInputs (ContractApi.codex Int c) ∧ ChecksReads (ContractApi.codex Int c) ∧
    Tidy (Seal := Int) c ∧ evaluate c (Feed.mk xs) = some o ∧ o.result = .error (.vm ⟨"absent data"⟩) ∧
    (∀ b : OperationSeals Int, StartsWith (Feed.mk xs) [b] → KnownStart c b) ∧
    History (Seal := Int) KnownStart o.world.contract l c' ∧
    (∀ p q, T p → T q → opid p = opid q → p = q) ∧ (∀ v ∈ l.filterMap appliedOperation, T v.operation) ∧
    (∀ ys : List (OperationSeals Int), StartsWith (Feed.mk xs) ys → ∀ (i : Nat) b, ys[i]? = some b → T (opAt (ContractApi.contractId Int c) i b)) ∧
    evaluate c' (Feed.mk xs) = some o' ∧ o'.result = .ok () := by
  obtain ⟨o, h1, h2, h3⟩ := archive_rejects
  obtain ⟨l, a1, _, a3⟩ := archive_history (bs := [origin, publish]) (by decide +kernel) rfl (by simp [shelf])
  obtain ⟨o', ha⟩ := passes_iff.2 (show passes (later [origin, publish]) [origin, cite] = true by decide +kernel)
  refine ⟨archive, later [origin, publish], [origin, cite], o, o', l, Shelved, archive_lawful, archive_lawfulMemory, archive_localMemory,
    reading_faithful, reading_local, reading_checksInputs, reading_checksReads, archive_tidy, h1, h2, ?_, h3 ▸ a1, shelved_inj, ?_, ?_,
    ha.run, ha.ok⟩
  · intro b hb
    have := delivers_first (feed_delivers _) hb
    cases this
    rfl
  · intro v hv
    have hv : Call.applyOperation v ∈ l.filter IsCallback := List.mem_filter.2 ⟨applied_mem hv, rfl⟩
    rw [a3] at hv
    have : callbacksUpTo (Seal := Int) ⟨9⟩ archive [origin, publish] 2 = [.applySeals ⟨100⟩ origin.definedSeals, .applyOperation ⟨⟨110⟩, publish.operation⟩] := rfl
    rw [show [origin, publish].length = 2 from rfl, this] at hv
    obtain rfl : v = ⟨⟨110⟩, publish.operation⟩ := by simpa using hv
    exact ⟨publish, by simp [shelf], 1, rfl⟩
  · intro ys hy i b hb
    refine ⟨b, ?_, i, rfl⟩
    have := feed_starts hy b (List.mem_of_getElem? hb)
    rcases (by simpa using this : b = _ ∨ b = _) with rfl | rfl <;> simp [shelf]

open Demo Demo.Once in
/-- A rejection which is not due to the codex, and a contract of another kind with the same ids. -/
example : ∃ o, evaluate (Seal := Nat) ledger (Tape.mk ([genesis, transfer1] ++ [doubleSpend] ++ [transfer2]) none) = some o ∧
    o.result = .error (.sealUnknown (at_ 100 0)) ∧
    ContractApi.contractId Nat archive = ContractApi.contractId Nat ledger ∧
    (ContractApi.codex Nat archive).codexId = (ContractApi.codex Nat ledger).codexId := by
  obtain ⟨o, h1, h2⟩ := rejected_of (c := ledger) (bs := [genesis, transfer1]) (b := doubleSpend) (e := .sealUnknown (at_ 100 0)) rfl
    [transfer2] none
  exact ⟨o, h1, h2, rfl, rfl⟩

open Demo Demo.Once in
/-- A double spend: a party which knows one transfer rejects the other one for good. -/
example : ∃ l, History (Seal := Int) KnownStart (later [origin, move1]) l (contractAt ⟨9⟩ (later [origin, move1]) [origin, other] 2) ∧
    Lawful Int Archive ∧ LawfulMemory Int Archive ∧ LocalMemory Int Archive ∧ Faithful reading ∧
    LocalCodex reading ∧ ChecksInputs reading ∧
    codexAnswer Int (later [origin, move1]) ⟨9⟩ (opAt ⟨9⟩ 1 rival) = .error ⟨"absent input"⟩ ∧
    codexAnswer Int archive ⟨9⟩ (opAt ⟨9⟩ 1 rival) = .ok ⟨⟨104⟩, rival.operation⟩ ∧
    ContractApi.isKnown Int (later [origin, move1]) (opid (opAt ⟨9⟩ 1 rival)) = false ∧
    (∀ inp ∈ (opAt ⟨9⟩ 1 rival).destructibleIn, ContractApi.isKnown Int (later [origin, move1]) inp.addr.opid = true) ∧
    (∀ a ∈ (opAt ⟨9⟩ 1 rival).immutableIn, ContractApi.isKnown Int (later [origin, move1]) a.opid = true) ∧
    (∀ v ∈ l.filterMap appliedOperation, v.opid = opid (opAt ⟨9⟩ 1 rival) → v.operation = opAt ⟨9⟩ 1 rival) ∧
    ∃ o, Accepted (later [origin, move1]) (Feed.mk [origin, other]) [origin, other] o := by
  obtain ⟨o, ha⟩ := passes_iff.2 (show passes (later [origin, move1]) [origin, other] = true by decide +kernel)
  refine ⟨o.world.calls ++ [], .step ?_ ha.run (ha.shape.contract ▸ .nil _), archive_lawful, archive_lawfulMemory, archive_localMemory,
    reading_faithful, reading_local, reading_checksInputs, rfl, rfl, by decide +kernel, by decide +kernel, by decide +kernel, ?_, o, ha⟩
  · intro b hb
    have := delivers_first (feed_delivers _) hb
    cases this
    rfl
  · intro v hv hvo
    have hv : Call.applyOperation v ∈ o.world.calls.filter IsCallback := by
      rw [List.append_nil] at hv
      exact List.mem_filter.2 ⟨applied_mem hv, rfl⟩
    rw [ha.shape.callbacks] at hv
    have : callbacksUpTo (Seal := Int) ⟨9⟩ (later [origin, move1]) [origin, other] 2 =
      [.applySeals ⟨100⟩ origin.definedSeals, .applyWitness ⟨103⟩ (tx 60), .applyOperation ⟨⟨103⟩, other.operation⟩, .applySeals ⟨103⟩ other.definedSeals] := rfl
    rw [show [origin, other].length = 2 from rfl, show ContractApi.contractId Int (later [origin, move1]) = ⟨9⟩ from rfl, this] at hv
    obtain rfl : v = ⟨⟨103⟩, other.operation⟩ := by simpa using hv
    exact absurd hvo (by decide +kernel)

end Rgb
