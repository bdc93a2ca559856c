import Verif.Props.Withdrawal

set_option linter.unusedSectionVars false

/-! # C98: evidence for a rejection

A party that rejects a consignment may be asked why.  What has to be shown is usually much less than the
consignment: the rejected block, the first block, the history of the cells the rejected block refers to,
and, if the complaint is that a cell has been spent already, the operation that spent it, with its
history. -/

namespace Rgb
open Spec

section
variable {Seal : Type} [LinearOrder Seal] [RgbSeal Seal] [OpHash]
variable {C : Type} [ContractApi Seal C]
variable {R : Type} [ReadOperation Seal R]
variable {R' : Type} [ReadOperation Seal R']

/-- The consignment `ys` is evidence that `b` has to be rejected with error `e` after `xs`: it is an excerpt of
`xs`, in any order, that has the creators of the cells `b` refers to, any block with the operation id of `b`, and if
the complaint is about the seal of a cell, the block that spent that cell, all so far as `xs` has them. -/
structure Spec.Evidence (cid : ContractId) (xs : List (OperationSeals Seal)) (b : OperationSeals Seal) {E : Type}
    (e : VerificationError Seal E) (ys : List (OperationSeals Seal)) : Prop extends Excerpt cid xs ys where
  refers : ∀ j bj a, Consumes b a ∨ a ∈ b.operation.immutableIn → xs[j]? = some bj → a.opid = idAt cid j bj →
    ∃ k b', ys[k]? = some b' ∧ idAt cid k b' = idAt cid j bj
  repeated : ∀ j bj, xs[j]? = some bj → idAt cid xs.length b = idAt cid j bj →
    ∃ k b', ys[k]? = some b' ∧ idAt cid k b' = idAt cid j bj
  spender : ∀ j bj a, e = .sealUnknown a → xs[j]? = some bj → Consumes bj a →
    ∃ k b', ys[k]? = some b' ∧ idAt cid k b' = idAt cid j bj

/-- The ids of the operations of `xs` that must be in the evidence: the conditions of `Evidence`, closed under
creators of cells referred to. -/
inductive Spec.Needed (cid : ContractId) (xs : List (OperationSeals Seal)) (b : OperationSeals Seal) {E : Type}
    (e : VerificationError Seal E) : Opid → Prop where
  | refers {a : CellAddr} : Consumes b a ∨ a ∈ b.operation.immutableIn → Needed cid xs b e a.opid
  | repeated : Needed cid xs b e (idAt cid xs.length b)
  | spender {a : CellAddr} {j : Nat} {bj : OperationSeals Seal} : e = .sealUnknown a → xs[j]? = some bj → Consumes bj a →
      Needed cid xs b e (idAt cid j bj)
  | ancestor {a : CellAddr} {j : Nat} {bj : OperationSeals Seal} : Needed cid xs b e (idAt cid j bj) → xs[j]? = some bj →
      Consumes bj a ∨ a ∈ bj.operation.immutableIn → Needed cid xs b e a.opid

theorem Spec.Excerpt.length_zero {cid : ContractId} {xs ys : List (OperationSeals Seal)} (h : Excerpt cid xs ys) :
    xs.length = 0 ↔ ys.length = 0 := by
  have := h.head
  cases xs <;> cases ys <;> simp_all

/-- The place in an excerpt of a block the excerpt has. -/
theorem Spec.Excerpt.has {cid : ContractId} {xs ys : List (OperationSeals Seal)} (h : Excerpt cid xs ys)
    (hx : DistinctIds cid xs) {j : Nat} {bj : OperationSeals Seal} (hj : xs[j]? = some bj)
    (hk : ∃ k b', ys[k]? = some b' ∧ idAt cid k b' = idAt cid j bj) : ∃ k, ys[k]? = some bj ∧ (j = 0 ↔ k = 0) := by
  obtain ⟨k, b', h1, h2⟩ := hk
  obtain ⟨rfl, h0⟩ := h.same_place hx h1 hj h2
  exact ⟨k, h1, h0⟩

/-- The creator of a consumed cell comes earlier. -/
theorem LedgerValid.earlier {c : C} {zs : List (OperationSeals Seal)} (hz : LedgerValid c zs)
    (hx : DistinctIds (ContractApi.contractId Seal c) zs) {i j : Nat} {b bj : OperationSeals Seal} {a : CellAddr}
    (hb : zs[i]? = some b) (hc : Consumes b a) (hj : zs[j]? = some bj) (e : a.opid = idAt (ContractApi.contractId Seal c) j bj) :
    j < i := by
  obtain ⟨inp, hinp, rfl⟩ := hc
  obtain ⟨seals, h1, _⟩ := hz.closed i b hb
  obtain ⟨s', j', bj', g2, g3, g4⟩ := forall₂_some h1 hinp
  rw [hx j j' bj bj' hj g3 (e.symm.trans g4.1)]
  exact g2

/-- A cell that is open after the whole is open after an excerpt that has its creator. -/
theorem excerpt_open {c : C} {xs ys : List (OperationSeals Seal)} (hx : DistinctIds (ContractApi.contractId Seal c) xs)
    (hv : LedgerValid c xs) (he : Excerpt (ContractApi.contractId Seal c) xs ys) {a : CellAddr} {s : Seal}
    (hk : ∀ j bj, xs[j]? = some bj → a.opid = idAt (ContractApi.contractId Seal c) j bj →
      ∃ k b', ys[k]? = some b' ∧ idAt (ContractApi.contractId Seal c) k b' = idAt (ContractApi.contractId Seal c) j bj)
    (ho : OpenAt (ContractApi.contractId Seal c) xs xs.length a s) :
    OpenAt (ContractApi.contractId Seal c) ys ys.length a s := by
  obtain ⟨j, bj, _, hj, ha, hn⟩ := ho
  obtain ⟨k, h1, h0⟩ := he.has hx hj (hk j bj hj ha.1)
  refine ⟨k, bj, lt_length_of_getElem? h1, h1, ⟨by rw [idAt_same h0]; exact ha.1, ha.2⟩, ?_⟩
  intro m b' hkm _ hb'
  obtain ⟨i, hi, hi0⟩ := he.place hb'
  refine ⟨fun hc => ?_, fun s' hs' => ?_⟩
  · exact (hn i b' (hv.earlier hx hi hc hj ha.1) (lt_length_of_getElem? hi) hi).1 hc
  · have := he.ids hx k m bj b' h1 hb' (by rw [idAt_same h0]; exact ha.1.symm.trans hs'.1)
    omega

/-- And the other way round, if the excerpt has the block that spent it. -/
theorem excerpt_open_of {c : C} {xs ys : List (OperationSeals Seal)} (hx : DistinctIds (ContractApi.contractId Seal c) xs)
    (hv : LedgerValid c xs) (he : Excerpt (ContractApi.contractId Seal c) xs ys) {a : CellAddr} {s : Seal}
    (hk : ∀ j bj, xs[j]? = some bj → Consumes bj a →
      ∃ k b', ys[k]? = some b' ∧ idAt (ContractApi.contractId Seal c) k b' = idAt (ContractApi.contractId Seal c) j bj)
    (ho : OpenAt (ContractApi.contractId Seal c) ys ys.length a s) :
    OpenAt (ContractApi.contractId Seal c) xs xs.length a s := by
  obtain ⟨k, b, _, hb, ha, hn⟩ := ho
  obtain ⟨j, hj, h0⟩ := he.place hb
  have haj : a.opid = idAt (ContractApi.contractId Seal c) j b := by rw [← idAt_same h0]; exact ha.1
  refine ⟨j, b, lt_length_of_getElem? hj, hj, ⟨haj, ha.2⟩, ?_⟩
  intro m b' hjm _ hb'
  refine ⟨fun hc => ?_, fun s' hs' => ?_⟩
  · obtain ⟨k', h1, h0'⟩ := he.has hx hb' (hk m b' hb' hc)
    have := (excerpt_ledgerValid hx hv he).earlier (he.ids hx) h1 hc hb ha.1
    exact (hn k' b' this (lt_length_of_getElem? h1) h1).1 hc
  · have := hx j m b b' hj hb' (haj.symm.trans hs'.1)
    omega

/-- After the evidence the contract answers as after the whole, about the rejected block. -/
theorem evidence_answers (hl : Lawful Seal C) (hm : LocalMemory Seal C) {c : C} (hf : Faithful (ContractApi.codex Seal c))
    (hc : LocalCodex (ContractApi.codex Seal c)) {xs ys : List (OperationSeals Seal)}
    (hx : DistinctIds (ContractApi.contractId Seal c) xs) (hv : LedgerValid c xs)
    (hr : ReadsEarlier (ContractApi.contractId Seal c) xs) {b : OperationSeals Seal} {E : Type} {e : VerificationError Seal E}
    (he : Evidence (ContractApi.contractId Seal c) xs b e ys)
    (ho : ∀ inp ∈ b.operation.destructibleIn, ∃ s, OpenAt (ContractApi.contractId Seal c) xs xs.length inp.addr s) :
    ContractApi.isKnown Seal (contractAt (ContractApi.contractId Seal c) c ys ys.length) (nextId c ys b) =
      ContractApi.isKnown Seal (contractAt (ContractApi.contractId Seal c) c xs xs.length) (nextId c xs b) ∧
    codexAnswer Seal (contractAt (ContractApi.contractId Seal c) c ys ys.length) (ContractApi.contractId Seal c)
        (opAt (ContractApi.contractId Seal c) ys.length b) =
      codexAnswer Seal (contractAt (ContractApi.contractId Seal c) c xs xs.length) (ContractApi.contractId Seal c)
        (opAt (ContractApi.contractId Seal c) xs.length b) := by
  have hcb := excerpt_callbacks hl hm hf hc hx hv hr he.toExcerpt
  have h0 := he.toExcerpt.length_zero
  have hy : DistinctIds _ ys := he.toExcerpt.ids hx
  unfold nextId
  rw [idAt_same h0, opAt_same h0]
  generalize hcid : ContractApi.contractId Seal c = cid at *
  have only : ∀ {zs : List (OperationSeals Seal)} {q : VerifiedOperation → Bool} {m : Nat},
      (∀ b' v, zs[m]? = some b' → v.opid = idAt cid m b' → v.operation = opAt cid m b' → q v = false) →
      (callbacksOf cid c zs m).filter (Applies q) = [] := by
    intro zs q m h
    subst hcid
    exact callbacksOf_applies hl hf h
  have obs : ∀ {X : Type} {f : C → X} {q : VerifiedOperation → Bool} {o : Opid}, Observed f (Applies (Seal := Seal) q) →
      (∀ m b' v, xs[m]? = some b' → v.opid = idAt cid m b' → v.operation = opAt cid m b' → q v = true → o = idAt cid m b') →
      (∀ j bj, xs[j]? = some bj → o = idAt cid j bj → ∃ k b', ys[k]? = some b' ∧ idAt cid k b' = idAt cid j bj) →
      f (contractAt cid c ys ys.length) = f (contractAt cid c xs xs.length) := by
    intro X f q o ho h1 h2
    rw [contractAt_eq_foldl, contractAt_eq_foldl]
    refine ho.same ?_
    have h1' : ∀ m b' v, ys[m]? = some b' → v.opid = idAt cid m b' → v.operation = opAt cid m b' → q v = true → o = idAt cid m b' := by
      intro m b' v g1 g2 g3 hq
      obtain ⟨i, hi, hi0⟩ := he.toExcerpt.place g1
      rw [idAt_same hi0] at g2 ⊢
      rw [opAt_same hi0] at g3
      exact h1 i b' v hi g2 g3 hq
    by_cases hex : ∃ j bj, xs[j]? = some bj ∧ o = idAt cid j bj
    · obtain ⟨j, bj, hj, hoj⟩ := hex
      obtain ⟨k, hk, hk0⟩ := he.toExcerpt.has hx hj (h2 j bj hj hoj)
      rw [filter_one (lt_length_of_getElem? hk), filter_one (lt_length_of_getElem? hj), (hcb k j bj hk hj hk0).2.2]
      · intro m _ hne
        refine only fun b'' v g1 g2 g3 => ?_
        by_contra hq
        exact hne (hx m j b'' bj g1 hj ((h1 m b'' v g1 g2 g3 (by simpa using hq)).symm.trans hoj))
      · intro m _ hne
        refine only fun b'' v g1 g2 g3 => ?_
        by_contra hq
        exact hne (hy m k b'' bj g1 hk (by rw [idAt_same hk0]; exact (h1' m b'' v g1 g2 g3 (by simpa using hq)).symm.trans hoj))
    · rw [filter_none, filter_none]
      · intro m _
        refine only fun b'' v g1 g2 g3 => ?_
        by_contra hq
        exact hex ⟨m, b'', g1, h1 m b'' v g1 g2 g3 (by simpa using hq)⟩
      · intro m _
        refine only fun b'' v g1 g2 g3 => ?_
        by_contra hq
        obtain ⟨j, hj, hj0⟩ := he.toExcerpt.place g1
        exact hex ⟨j, b'', hj, by rw [← idAt_same hj0]; exact h1' m b'' v g1 g2 g3 (by simpa using hq)⟩
  refine ⟨?_, ?_⟩
  · refine obs (o := idAt cid xs.length b) (observed_known hl _) ?_ he.repeated
    intro m b' v _ g2 _ hq
    simp only [creates, decide_eq_true_eq] at hq
    exact hq.trans g2
  · unfold codexAnswer
    rw [hl.contractAt_codex, hl.contractAt_codex]
    have hrepo : ∀ l : List (Call Seal), ∀ d : C, ContractApi.repo Seal (l.foldl perform d) = ContractApi.repo Seal d := by
      intro l
      induction l with
      | nil => intro d; rfl
      | cons x l ihl => intro d; rw [List.foldl_cons, ihl, hm.repo]
    rw [contractAt_eq_foldl cid c ys, contractAt_eq_foldl cid c xs, hrepo, hrepo, ← contractAt_eq_foldl, ← contractAt_eq_foldl]
    refine hc _ _ _ _ _ ?_ ?_
    · rw [opAt_inputs]
      intro inp hinp
      refine obs (o := inp.addr.opid) (observed_destructible hm inp.addr) ?_ ?_
      · intro m b' v g1 g2 g3 hq
        simp only [touches, Bool.or_eq_true, decide_eq_true_eq, List.any_eq_true] at hq
        rcases hq with hq | ⟨x, hx1, hx2⟩
        · exact hq.trans g2
        · exfalso
          rw [g3, opAt_inputs] at hx1
          obtain ⟨s, j, bj, _, hj, ha, hn⟩ := ho inp hinp
          subst hcid
          exact (hn m b' (hv.earlier hx g1 ⟨x, hx1, hx2⟩ hj ha.1) (lt_length_of_getElem? g1) g1).1 ⟨x, hx1, hx2⟩
      · exact fun j bj hj e => he.refers j bj _ (.inl ⟨inp, hinp, rfl⟩) hj e
    · rw [opAt_reads]
      intro a ha
      refine obs (o := a.opid) (observed_immutable hm a) ?_ ?_
      · intro m b' v _ g2 _ hq
        simp only [creates, decide_eq_true_eq] at hq
        exact hq.trans g2
      · exact fun j bj hj e => he.refers j bj _ (.inr ha) hj e

/-- What follows the whole and is rejected, is rejected for the same reason after the evidence. -/
theorem evidence_rejection (hl : Lawful Seal C) (hm : LocalMemory Seal C) {c : C} (hf : Faithful (ContractApi.codex Seal c))
    (hc : LocalCodex (ContractApi.codex Seal c)) {xs ys : List (OperationSeals Seal)}
    (hx : DistinctIds (ContractApi.contractId Seal c) xs) (hv : LedgerValid c xs)
    (hr : ReadsEarlier (ContractApi.contractId Seal c) xs) {b : OperationSeals Seal} {E : Type} {e : VerificationError Seal E}
    {l : List (Call Seal)} (he : Evidence (ContractApi.contractId Seal c) xs b e ys) (hj : Rejection c xs b e l) :
    ∃ l', Rejection c ys b e l' := by
  have h0 := he.toExcerpt.length_zero
  have hn : nextId c ys b = nextId c xs b := idAt_same h0 b
  have hcx : CommitsToCodex c xs b → CommitsToCodex c ys b := by
    intro h e'
    exact h (List.length_eq_zero_iff.1 (h0.2 (List.length_eq_zero_iff.2 e')))
  have hop : ∀ a s, Consumes b a → OpenAt (ContractApi.contractId Seal c) xs xs.length a s →
      OpenAt (ContractApi.contractId Seal c) ys ys.length a s :=
    fun a s ha => excerpt_open hx hv he.toExcerpt fun j bj => he.refers j bj a (.inl ha)
  have hin : ∀ {seals}, InputsSealed c xs b seals → InputsSealed c ys b seals := fun h =>
    ⟨h.1, forall₂_imp_mem h.2 fun inp hinp s hs => hop _ s ⟨inp, hinp, rfl⟩ hs⟩
  have hans : ∀ {seals}, InputsSealed c xs b seals → _ := fun {seals} h =>
    evidence_answers hl hm hf hc hx hv hr he fun inp hinp => forall₂_some h.2 hinp
  have hsp : ∀ {seals}, InputsSealed c xs b seals → ScriptPasses c xs b → ScriptPasses c ys b := by
    intro seals h1 h2
    obtain ⟨k1, k2⟩ := hans h1
    unfold ScriptPasses at h2 ⊢
    simp only at h2 ⊢
    rw [k1, k2]
    exact h2
  cases hj with
  | codex h1 h2 =>
    exact ⟨_, .codex (List.length_eq_zero_iff.1 (h0.1 (by simp [h1]))) h2⟩
  | mismatch h1 h2 h3 h4 h5 =>
    have := Rejection.mismatch (E := E) (hcx h1) h2 h3 h4 h5
    rw [hn] at this
    exact ⟨_, this⟩
  | @unknown pre post inp h1 h2 h3 h4 h5 h6 =>
    refine ⟨_, .unknown (hcx h1) h2 h3 h4 ?_ (h6.imp ?_ id)⟩
    · intro i hi
      obtain ⟨s, hs⟩ := h5 i hi
      exact ⟨s, hop _ s ⟨i, by rw [h3]; simp [hi], rfl⟩ hs⟩
    · intro hno s hs
      exact hno s (excerpt_open_of hx hv he.toExcerpt (fun j bj hj hcon => he.spender j bj _ rfl hj hcon) hs)
  | script h1 h2 h3 h4 h5 =>
    obtain ⟨k1, k2⟩ := hans h3
    exact ⟨_, .script (hcx h1) h2 (hin h3) (k1.trans h4) (k2.trans h5)⟩
  | notClosed h1 h2 h3 h4 h5 h6 =>
    have := Rejection.notClosed (E := E) (hcx h1) h2 (hin h3) (hsp h3 h4) h5 (by rw [hn]; exact h6)
    rw [hn] at this
    exact ⟨_, this⟩
  | noWitness h1 h2 h3 h4 h5 h6 =>
    have := Rejection.noWitness (E := E) (hcx h1) h2 (hin h3) (hsp h3 h4) h5 h6
    rw [hn] at this
    exact ⟨_, this⟩

theorem mapStream_injective {E : Type} {e e' : VerificationError Seal Empty}
    (h : e.mapStream (Empty.elim : Empty → E) = e'.mapStream Empty.elim) : e = e' := by
  cases e <;> cases e' <;> (simp_all [VerificationError.mapStream]; try contradiction)

/-- The block a stream was rejected at. -/
theorem rejection_at {c : C} {r : R} {o} (h : evaluate (Seal := Seal) c r = some o)
    {e₀ : VerificationError Seal Empty} (he : o.result = .error (e₀.mapStream Empty.elim))
    {xs : List (OperationSeals Seal)} {b : OperationSeals Seal} (hs : StartsWith r (xs ++ [b]))
    (hp : polls o.world.calls = xs.length + 1) : ValidConsignment c xs ∧ ∃ l, Rejection c xs b e₀ l := by
  obtain ⟨bs, hsh⟩ := run_shape h
  have hpl := hsh.polls
  obtain ⟨segs, tail, _, _, h3⟩ := hsh.stop
  rcases h3 with ⟨h0, _⟩ | ⟨x, h0, _⟩ | ⟨b', e', h0, h4, hrej⟩
  · rw [he] at h0; cases h0
  · rw [he] at h0
    cases e₀ with
    | stream y => exact y.elim
    | _ => cases h0
  · obtain ⟨r₁, hr₁⟩ := hs
    have hlen : bs.length = xs.length := by omega
    have heq : bs ++ [b'] = xs ++ [b] := by
      rcases h4.det hr₁ with ⟨zs, hz, _⟩ | ⟨zs, hz, _⟩
      · have := congrArg List.length hz
        simp at this
        rw [hz, List.length_eq_zero_iff.1 (by omega : zs.length = 0), List.append_nil]
      · have := congrArg List.length hz
        simp at this
        rw [hz, List.length_eq_zero_iff.1 (by omega : zs.length = 0), List.append_nil]
    obtain ⟨rfl, h5⟩ := List.append_inj heq hlen
    obtain rfl : b' = b := by simpa using h5
    refine ⟨hsh.valid, tail, ?_⟩
    obtain ⟨e₁, rfl, hrej₁⟩ := hrej.empty
    rw [he] at h0
    have : e₁ = e₀ := by
      exact (mapStream_injective (Except.error.inj h0)).symm
    exact this ▸ hrej₁

/-- Evidence convinces: whoever is given, in place of the consignment up to the rejected block, only the evidence and
the rejected block, rejects with the same error at the same block. -/
theorem C98_evidence (hl : Lawful Seal C) (hm : LocalMemory Seal C) {c : C} (hf : Faithful (ContractApi.codex Seal c))
    (hc : LocalCodex (ContractApi.codex Seal c)) {r : R} {o} (h : evaluate (Seal := Seal) c r = some o)
    {e₀ : VerificationError Seal Empty} (he : o.result = .error (e₀.mapStream Empty.elim))
    {xs ys : List (OperationSeals Seal)} {b : OperationSeals Seal} (hs : StartsWith r (xs ++ [b]))
    (hp : polls o.world.calls = xs.length + 1)
    (hx : ∀ (i j : Nat) b b', xs[i]? = some b → xs[j]? = some b' →
      idAt (ContractApi.contractId Seal c) i b = idAt (ContractApi.contractId Seal c) j b' → i = j)
    (hr : ReadsEarlier (ContractApi.contractId Seal c) xs)
    (hy : Evidence (ContractApi.contractId Seal c) xs b e₀ ys) {r' : R'} (hd : StartsWith r' (ys ++ [b])) :
    ∃ o', evaluate (Seal := Seal) c r' = some o' ∧ o'.result = .error (e₀.mapStream Empty.elim) ∧
      polls o'.world.calls = ys.length + 1 := by
  obtain ⟨hvx, l, hj⟩ := rejection_at h he hs hp
  obtain ⟨hv, hsc⟩ := (ledgerValid_iff hx).1 hvx
  obtain ⟨l', hj'⟩ := evidence_rejection hl hm hf hc hx hv hr hy hj
  have hvy : ValidConsignment c ys := by
    rw [ledgerValid_iff (hy.toExcerpt.ids hx)]
    refine ⟨excerpt_ledgerValid hx hv hy.toExcerpt, ?_⟩
    intro k b hk
    obtain ⟨i, hi, h0⟩ := hy.toExcerpt.place hk
    obtain ⟨h1, h2, _⟩ := excerpt_callbacks hl hm hf hc hx hv hr hy.toExcerpt k i b hk hi h0
    rw [idAt_same h0, opAt_same h0, h1, h2]
    exact hsc i b hi
  obtain ⟨o', k1, k2, _, k3⟩ := evaluate_of_rejection hd hvy (hj'.map Empty.elim)
  exact ⟨o', k1, k2, k3.polls⟩

/-- Where the blocks of a sublist with the same first block come from. -/
theorem sublist_place {xs ys : List (OperationSeals Seal)} (head : ys[0]? = xs[0]?) (rest : ys.tail.Sublist xs.tail) :
    ∃ g : Nat → Nat, StrictMono g ∧ g 0 = 0 ∧ ∀ k, ys[k]? = xs[g k]? := by
  obtain ⟨f, hf⟩ := List.sublist_iff_exists_orderEmbedding_getElem?_eq.1 rest
  refine ⟨fun k => if k = 0 then 0 else f (k - 1) + 1, ?_, rfl, ?_⟩
  · intro i j hij
    simp only
    rw [if_neg (by omega : j ≠ 0)]
    split
    · omega
    · have := f.lt_iff_lt.2 (show i - 1 < j - 1 by omega)
      omega
  · intro k
    simp only
    split
    · next e => rw [e]; exact head
    · next e =>
      have := hf (k - 1)
      rw [List.getElem?_tail, List.getElem?_tail, show k - 1 + 1 = k by omega] at this
      exact this

/-- There is evidence for every rejection, and it need not have more than the first block and those needed, in the
order of the consignment. -/
theorem C98_exists {c : C} {r : R} {o} (h : evaluate (Seal := Seal) c r = some o)
    {e₀ : VerificationError Seal Empty} (he : o.result = .error (e₀.mapStream Empty.elim))
    {xs : List (OperationSeals Seal)} {b : OperationSeals Seal} (hs : StartsWith r (xs ++ [b]))
    (hp : polls o.world.calls = xs.length + 1)
    (hx : ∀ (i j : Nat) b b', xs[i]? = some b → xs[j]? = some b' →
      idAt (ContractApi.contractId Seal c) i b = idAt (ContractApi.contractId Seal c) j b' → i = j)
    (hr : ReadsEarlier (ContractApi.contractId Seal c) xs) :
    ∃ ys : List (OperationSeals Seal), Evidence (ContractApi.contractId Seal c) xs b e₀ ys ∧ ys.Sublist xs ∧
      ∀ b' ∈ ys.tail, Needed (ContractApi.contractId Seal c) xs b e₀ (opid b'.operation) := by
  classical
  obtain ⟨hvx, l, hj⟩ := rejection_at h he hs hp
  obtain ⟨hv, _⟩ := (ledgerValid_iff hx).1 hvx
  generalize hcid : ContractApi.contractId Seal c = cid at *
  have main : ∃ ys : List (OperationSeals Seal), ys[0]? = xs[0]? ∧ ys.tail.Sublist xs.tail ∧
      (∀ (i : Nat) b', xs[i]? = some b' → Needed cid xs b e₀ (idAt cid i b') → ∃ k b'', ys[k]? = some b'' ∧ idAt cid k b'' = idAt cid i b') ∧
      ys.Sublist xs ∧ ∀ b' ∈ ys.tail, Needed cid xs b e₀ (opid b'.operation) := by
    cases xs with
    | nil => exact ⟨[], rfl, .slnil, by simp, .slnil, by simp⟩
    | cons x xs =>
      refine ⟨x :: xs.filter (fun b' => Needed cid (x :: xs) b e₀ (opid b'.operation)), rfl, List.filter_sublist, ?_,
        List.filter_sublist.cons_cons x, ?_⟩
      · intro i b' hb hn
        cases i with
        | zero => exact ⟨0, b', hb, rfl⟩
        | succ i =>
          rw [idAt_pos (Nat.succ_ne_zero i)] at hn ⊢
          have hm : b' ∈ xs.filter (fun b' => Needed cid (x :: xs) b e₀ (opid b'.operation)) :=
            List.mem_filter.2 ⟨List.mem_of_getElem? (by simpa using hb), by simpa using hn⟩
          obtain ⟨k, hk⟩ := List.mem_iff_getElem?.1 hm
          exact ⟨k + 1, b', by simpa using hk, idAt_pos (Nat.succ_ne_zero k) b'⟩
      · intro b' hb'
        simpa using (List.mem_filter.1 hb').2
  obtain ⟨ys, head, rest, kept, sub, all⟩ := main
  refine ⟨ys, ⟨⟨head, ⟨_, .refl _, rest⟩, ?_⟩, ?_, ?_, ?_⟩, sub, all⟩
  · obtain ⟨g, hg, g0, hp⟩ := sublist_place head rest
    have zero : ∀ k, k = 0 ↔ g k = 0 := fun k => ⟨fun e => e ▸ g0, fun e => hg.injective (e.trans g0.symm)⟩
    intro k j bk bj a hk ha hj e
    have hi := (hp k).symm.trans hk
    have hji : j < g k := by
      rcases ha with ha | ha
      · subst hcid
        exact hv.earlier hx hi ha hj e
      · exact hr _ _ _ _ a ha hi hj e
    have hk0 : k ≠ 0 := by
      rintro rfl
      omega
    have hn : Needed cid xs b e₀ (idAt cid (g k) bk) := by
      rw [← idAt_zero_iff (zero k), idAt_pos hk0]
      refine all bk (List.mem_of_getElem? (i := k - 1) ?_)
      rw [List.getElem?_tail, show k - 1 + 1 = k by omega]
      exact hk
    obtain ⟨k', b', h1, h2⟩ := kept j bj hj (e ▸ .ancestor hn hi ha)
    refine ⟨k', b', ?_, h1, e.trans h2.symm⟩
    have := hx (g k') j b' bj ((hp k').symm.trans h1) hj (by rw [← idAt_zero_iff (zero k'), h2])
    rw [← this] at hji
    exact hg.lt_iff_lt.1 hji
  · exact fun j bj a ha hj e => kept j bj hj (e ▸ .refers ha)
  · exact fun j bj hj e => kept j bj hj (e ▸ .repeated)
  · exact fun j bj a e hj ha => kept j bj hj (.spender e hj ha)

/-- The blocks needed are in all evidence, so that what `C98_exists` provides cannot be shortened. -/
theorem C98_minimal {cid : ContractId} {xs ys : List (OperationSeals Seal)} {b : OperationSeals Seal} {E : Type}
    {e : VerificationError Seal E}
    (hx : ∀ (i j : Nat) b b', xs[i]? = some b → xs[j]? = some b' → idAt cid i b = idAt cid j b' → i = j)
    (hy : Evidence cid xs b e ys) {i : Nat} {bi : OperationSeals Seal} (hb : xs[i]? = some bi)
    (hn : Needed cid xs b e (idAt cid i bi)) : ∃ k, ys[k]? = some bi ∧ (i = 0 ↔ k = 0) := by
  refine hy.toExcerpt.has hx hb ?_
  generalize hid : idAt cid i bi = id at hn
  induction hn generalizing i bi with
  | refers ha => exact hid ▸ hy.refers i bi _ ha hb hid.symm
  | repeated => exact hid ▸ hy.repeated i bi hb hid.symm
  | spender he hj hc => exact hy.spender _ _ _ he hj hc
  | ancestor _ hj ha ih =>
    obtain ⟨k, hk, _⟩ := hy.toExcerpt.has hx hj (ih hj rfl)
    obtain ⟨k', b', _, h1, h2⟩ := hy.creators k i _ bi _ hk ha hb hid.symm
    exact ⟨k', b', h1, h2.symm⟩

/-- Evidence is conclusive: if the contract rejects `zs`, it accepts no consignment without repetitions that has `zs`
as an excerpt, whatever else that consignment has and in whatever order. -/
theorem C98_conclusive (hl : Lawful Seal C) (hm : LocalMemory Seal C) {c : C} (hf : Faithful (ContractApi.codex Seal c))
    (hc : LocalCodex (ContractApi.codex Seal c)) {r : R} {o} (h : evaluate (Seal := Seal) c r = some o)
    {e : VerificationError Seal (ReadOperation.Error Seal R)} (he : o.result = .error e) {zs : List (OperationSeals Seal)}
    (hd : Delivers r zs) {r' : R'} {xs : List (OperationSeals Seal)} {o'} (h' : Accepted c r' xs o')
    (hx : ∀ (i j : Nat) b b', xs[i]? = some b → xs[j]? = some b' →
      idAt (ContractApi.contractId Seal c) i b = idAt (ContractApi.contractId Seal c) j b' → i = j)
    (hr : ReadsEarlier (ContractApi.contractId Seal c) xs) : ¬ Excerpt (ContractApi.contractId Seal c) xs zs := by
  intro hy
  obtain ⟨o₁, h1, _⟩ := C76_excerpt hl hm hf hc h' hx hr hy hd
  have := h.symm.trans h1.run
  simp only [Option.some.injEq] at this
  subst this
  exact absurd (he.symm.trans h1.ok) (by simp)

/-- Evidence is transferable unless it is the codex that rejected: anyone with the same contract and codex id rejects it,
whatever they know and whatever their codex decides. -/
theorem C98_transferable {D : Type} [ContractApi Seal D] (hl : Lawful Seal C) (hm : LocalMemory Seal C) {c : C}
    (hf : Faithful (ContractApi.codex Seal c))
    (hc : LocalCodex (ContractApi.codex Seal c)) {r : R} {o} (h : evaluate (Seal := Seal) c r = some o)
    {e₀ : VerificationError Seal Empty} (he : o.result = .error (e₀.mapStream Empty.elim)) (hvm : ∀ x, e₀ ≠ .vm x)
    {xs ys : List (OperationSeals Seal)} {b : OperationSeals Seal} (hs : StartsWith r (xs ++ [b]))
    (hp : polls o.world.calls = xs.length + 1)
    (hx : ∀ (i j : Nat) b b', xs[i]? = some b → xs[j]? = some b' →
      idAt (ContractApi.contractId Seal c) i b = idAt (ContractApi.contractId Seal c) j b' → i = j)
    (hr : ReadsEarlier (ContractApi.contractId Seal c) xs)
    (hy : Evidence (ContractApi.contractId Seal c) xs b e₀ ys) {d : D}
    (hid : ContractApi.contractId Seal d = ContractApi.contractId Seal c)
    (hcx : (ContractApi.codex Seal d).codexId = (ContractApi.codex Seal c).codexId) {r' : R'} (hd : StartsWith r' (ys ++ [b])) :
    ∃ o', evaluate (Seal := Seal) d r' = some o' ∧
      (o'.result = .error (e₀.mapStream Empty.elim) ∨ ∃ x, o'.result = .error (.vm x)) := by
  obtain ⟨o₁, k1, k2, k3⟩ := C98_evidence hl hm hf hc h he hs hp hx hr hy hd
  obtain ⟨bs, e₁, g1, g2, g3, g4⟩ := C93_permanent (R' := R') (d := d) k1 k2
    (by intro x e; cases e₀ with
        | stream y => exact y.elim
        | _ => cases e)
    (by intro x e; cases e₀ with
        | vm y => exact hvm y rfl
        | stream y => exact y.elim
        | _ => cases e) hid hcx
  have := g4 r' g1
  rwa [← g3] at this
end

namespace Demo
theorem evidence_of {xs ys : List Block} {b : Block} {e : VerificationError Nat Empty} (h0 : Excerpt (Seal := Nat) ⟨9⟩ xs ys)
    (h1 : ∀ p ∈ xs.zipIdx, p.2 < ys.length ∨ (∀ inp ∈ b.operation.destructibleIn, inp.addr.opid ≠ idAt (Seal := Nat) ⟨9⟩ p.2 p.1) ∧
      idAt (Seal := Nat) ⟨9⟩ xs.length b ≠ idAt (Seal := Nat) ⟨9⟩ p.2 p.1)
    (h2 : ∀ a, e = .sealUnknown a → ∀ p ∈ xs.zipIdx, p.2 < ys.length ∨ ∀ inp ∈ p.1.operation.destructibleIn, inp.addr ≠ a)
    (h3 : b.operation.immutableIn = []) (h4 : ys <+: xs) : Evidence (Seal := Nat) ⟨9⟩ xs b e ys where
  toExcerpt := h0
  refers j bj a ha hj e := by
    rcases h1 (bj, j) (List.mem_zipIdx_iff_getElem?.2 hj) with h | ⟨h, _⟩
    · exact ⟨j, bj, by obtain ⟨zs, rfl⟩ := h4; rwa [List.getElem?_append_left h] at hj, rfl⟩
    · rw [h3] at ha
      rcases ha with ⟨inp, hi, rfl⟩ | ha
      · exact absurd e (h inp hi)
      · simp at ha
  repeated j bj hj e := by
    rcases h1 (bj, j) (List.mem_zipIdx_iff_getElem?.2 hj) with h | ⟨_, h⟩
    · exact ⟨j, bj, by obtain ⟨zs, rfl⟩ := h4; rwa [List.getElem?_append_left h] at hj, rfl⟩
    · exact absurd e h
  spender j bj a ha hj hc := by
    rcases h2 a ha (bj, j) (List.mem_zipIdx_iff_getElem?.2 hj) with h | h
    · exact ⟨j, bj, by obtain ⟨zs, rfl⟩ := h4; rwa [List.getElem?_append_left h] at hj, rfl⟩
    · obtain ⟨inp, hi, e⟩ := hc
      exact absurd e (h inp hi)

theorem branches_distinct : ∀ (i j : Nat) (b b' : Block), branches[i]? = some b → branches[j]? = some b' →
    idAt (ContractApi.contractId Nat ledger) i b = idAt (ContractApi.contractId Nat ledger) j b' → i = j :=
  distinct_of_nodup (cid := ⟨9⟩) (by decide +kernel)

/-- A run rejected at a known place. -/
theorem rejected_at {c : Ledger} {bs : List Block} {b : Block} {e : VerificationError Nat String}
    (h : rejects c bs b = some e) : ∃ o, evaluate (Seal := Nat) c (Tape.mk (bs ++ [b]) none) = some o ∧ o.result = .error e ∧
      StartsWith (Seal := Nat) (Tape.mk (bs ++ [b]) none) (bs ++ [b]) ∧ polls o.world.calls = bs.length + 1 := by
  obtain ⟨hv, l, hr⟩ := rejection_of h
  have hs : StartsWith (Seal := Nat) (Tape.mk (bs ++ [b]) none) (bs ++ [b]) := by
    simpa using tape_startsWith (bs ++ [b]) [] none
  obtain ⟨o, h1, h2, _, h3⟩ := evaluate_of_rejection hs hv hr
  exact ⟨o, h1, h2, hs, h3.polls⟩
end Demo

open Demo in
/-- Genesis output 0 is spent a second time after four blocks; genesis and the block that spent it show as much. -/
example : ∃ o, Lawful Nat Ledger ∧ LocalMemory Nat Ledger ∧ Faithful (ContractApi.codex Nat ledger) ∧
    LocalCodex (ContractApi.codex Nat ledger) ∧
    evaluate (Seal := Nat) ledger (Tape.mk (branches ++ [doubleSpend]) none) = some o ∧
    o.result = .error ((VerificationError.sealUnknown (Seal := Nat) (at_ 100 0)).mapStream Empty.elim) ∧
    StartsWith (Seal := Nat) (Tape.mk (branches ++ [doubleSpend]) none) (branches ++ [doubleSpend]) ∧
    polls o.world.calls = branches.length + 1 ∧
    (∀ (i j : Nat) b b', branches[i]? = some b → branches[j]? = some b' →
      idAt (ContractApi.contractId Nat ledger) i b = idAt (ContractApi.contractId Nat ledger) j b' → i = j) ∧
    ReadsEarlier (ContractApi.contractId Nat ledger) branches ∧
    Evidence (E := Empty) (ContractApi.contractId Nat ledger) branches doubleSpend (.sealUnknown (at_ 100 0)) [genesis, transfer1] ∧
    StartsWith (Seal := Nat) (Tape.mk ([genesis, transfer1] ++ [doubleSpend]) none) ([genesis, transfer1] ++ [doubleSpend]) ∧
    ∀ x, (VerificationError.sealUnknown (at_ 100 0) : VerificationError Nat Empty) ≠ .vm x := by
  obtain ⟨o, h1, h2, h3, h4⟩ := rejected_at (c := ledger) (bs := branches) (b := doubleSpend) (e := .sealUnknown (at_ 100 0)) rfl
  refine ⟨o, ledger_lawful, ledger_localMemory, codex_faithful, codex_local, h1, h2, h3, h4, branches_distinct, branches_reads,
    evidence_of (excerpt_of rfl ⟨[transfer1], .refl _, .cons_cons _ (.cons _ (.cons _ .slnil))⟩ (by decide +kernel)) (by decide +kernel) ?_ rfl ⟨_, rfl⟩,
    by simpa using tape_startsWith ([genesis, transfer1] ++ [doubleSpend]) [] none, by simp⟩
  intro a e
  cases e
  decide +kernel

open Demo in
/-- The evidence for that cannot be had without the block that spent the cell. -/
example : Evidence (E := Empty) (Seal := Nat) ⟨9⟩ branches doubleSpend (.sealUnknown (at_ 100 0)) [genesis, transfer1] ∧
    branches[1]? = some transfer1 ∧
    Needed (E := Empty) (Seal := Nat) ⟨9⟩ branches doubleSpend (.sealUnknown (at_ 100 0)) (idAt ⟨9⟩ 1 transfer1) := by
  refine ⟨evidence_of (excerpt_of rfl ⟨[transfer1], .refl _, .cons_cons _ (.cons _ (.cons _ .slnil))⟩ (by decide +kernel)) (by decide +kernel) ?_ rfl
    ⟨_, rfl⟩, rfl, .spender (j := 1) rfl rfl ⟨_, List.mem_cons_self, rfl⟩⟩
  intro a e
  cases e
  decide +kernel

open Demo in
/-- The double spend convicts every consignment that has both operations. -/
example : ∃ o, evaluate (Seal := Nat) ledger (Tape.mk [genesis, transfer1, doubleSpend] none) = some o ∧
    o.result = .error (.sealUnknown (at_ 100 0)) ∧
    Delivers (Seal := Nat) (Tape.mk [genesis, transfer1, doubleSpend] none) [genesis, transfer1, doubleSpend] := by
  obtain ⟨o, h1, h2, _⟩ := rejected_at (c := ledger) (bs := [genesis, transfer1]) (b := doubleSpend) (e := .sealUnknown (at_ 100 0)) rfl
  exact ⟨o, h1, h2, tape_delivers _⟩

open Demo in
/-- The block that spent the cell must be shown: without it, the rest is accepted. -/
theorem C98_needs_spender : ∃ (c : Ledger) (xs ys : List Block) (b : Block) (a : CellAddr) (r r' : Tape) (o o' : Outcome Nat Tape Ledger String),
    Lawful Nat Ledger ∧ LocalMemory Nat Ledger ∧ Faithful (ContractApi.codex Nat c) ∧ LocalCodex (ContractApi.codex Nat c) ∧
    evaluate (Seal := Nat) c r = some o ∧ o.result = .error (.sealUnknown a) ∧ StartsWith r (xs ++ [b]) ∧
    polls o.world.calls = xs.length + 1 ∧ ReadsEarlier (ContractApi.contractId Nat c) xs ∧
    Excerpt (ContractApi.contractId Nat c) xs ys ∧
    (∀ j bj a, Consumes b a ∨ a ∈ b.operation.immutableIn → xs[j]? = some bj → a.opid = idAt (ContractApi.contractId Nat c) j bj →
      ∃ k b', ys[k]? = some b' ∧ idAt (ContractApi.contractId Nat c) k b' = idAt (ContractApi.contractId Nat c) j bj) ∧
    Accepted c r' (ys ++ [b]) o' := by
  obtain ⟨o, h1, h2, h3, h4⟩ := rejected_at (c := ledger) (bs := branches) (b := doubleSpend) (e := .sealUnknown (at_ 100 0)) rfl
  obtain ⟨o', h'⟩ := accepted_of_accepts (c := ledger) (bs := [genesis] ++ [doubleSpend]) (by decide +kernel)
  refine ⟨ledger, branches, [genesis], doubleSpend, at_ 100 0, _, _, o, o', ledger_lawful, ledger_localMemory, codex_faithful, codex_local, h1,
    h2, h3, h4, branches_reads, excerpt_of rfl ⟨[], .refl _, List.nil_sublist _⟩ (by decide +kernel), ?_, h'⟩
  have hev : Evidence (E := Empty) (ContractApi.contractId Nat ledger) branches doubleSpend .noCodexCommitment [genesis] :=
    evidence_of (excerpt_of rfl ⟨[], .refl _, List.nil_sublist _⟩ (by decide +kernel)) (by decide +kernel) (by simp) rfl ⟨_, rfl⟩
  exact hev.refers

open Demo in
/-- The creators of the cells referred to must be shown: without them, the complaint is another. -/
theorem C98_needs_creators : ∃ (c : Ledger) (xs ys : List Block) (b : Block) (e : CallError) (a : CellAddr) (r r' : Tape)
    (o o' : Outcome Nat Tape Ledger String),
    evaluate (Seal := Nat) c r = some o ∧ o.result = .error (.vm e) ∧ StartsWith r (xs ++ [b]) ∧
    polls o.world.calls = xs.length + 1 ∧ Excerpt (ContractApi.contractId Nat c) xs ys ∧
    evaluate (Seal := Nat) c r' = some o' ∧ o'.result = .error (.sealUnknown a) ∧ StartsWith r' (ys ++ [b]) := by
  obtain ⟨o, h1, h2, h3, h4⟩ := rejected_at (c := ledger) (bs := [genesis, transfer1])
    (b := ⟨{ op 106 [at_ 101 0] [.abs 8] with callId := 13 }, .collect [(0, .abs 8)], some (wit 56 [50003] 106)⟩)
    (e := .vm ⟨"script failure"⟩) rfl
  obtain ⟨o', k1, k2, k3, _⟩ := rejected_at (c := ledger) (bs := [genesis])
    (b := ⟨{ op 106 [at_ 101 0] [.abs 8] with callId := 13 }, .collect [(0, .abs 8)], some (wit 56 [50003] 106)⟩)
    (e := .sealUnknown (at_ 101 0)) rfl
  exact ⟨_, _, [genesis], _, _, _, _, _, o, o', h1, h2, h3, h4,
    excerpt_of rfl ⟨[], .refl _, List.nil_sublist _⟩ (by decide +kernel), k1, k2, k3⟩

end Rgb
