import Verif.Props.Reanchoring

set_option linter.unusedSectionVars false

/-! # C79: what the contract decides and what the seals decide -/

namespace Rgb
open Spec

section
variable {Seal : Type} [LinearOrder Seal] [RgbSeal Seal] [OpHash]
variable {C D : Type} [ContractApi Seal C] [ContractApi Seal D]
variable {R : Type} [ReadOperation Seal R]
variable {xs ys : List (OperationSeals Seal)}

theorem valid_separation {c : C} : ValidConsignment c xs ↔
    SealsInOrder (ContractApi.contractId Seal c) (ContractApi.codex Seal c).codexId xs ∧ ScriptsPass (Seal := Seal) c xs := by
  constructor
  · intro h
    refine ⟨⟨fun b hb => (h 0 b hb).codex rfl, ?_, ?_, ?_⟩, ?_⟩
    · intro b hb
      obtain ⟨i, hi⟩ := List.mem_iff_getElem?.1 hb
      exact (h i b hi).committed
    · intro b hb
      obtain ⟨i, hi⟩ := List.mem_iff_getElem?.1 hb
      exact (h i b hi).distinct
    · intro i b hb
      obtain ⟨seals, h1, h2, h3⟩ := (h i b hb).closed
      refine ⟨seals, h1, ?_⟩
      cases hw : b.witness with
      | some w => exact h2 w hw
      | none =>
        have := h3 hw
        subst this
        generalize b.operation.destructibleIn = l at h1
        cases h1
        rfl
    · intro i b hb
      cases hk : ContractApi.isKnown Seal (contractAt (ContractApi.contractId Seal c) c xs i)
          (idAt (ContractApi.contractId Seal c) i b) with
      | true => exact .inl rfl
      | false => exact .inr ((h i b hb).script hk)
  · rintro ⟨h, hs⟩ i b hb
    obtain ⟨seals, h1, h2⟩ := h.closed i b hb
    refine ⟨?_, h.committed b (List.mem_of_getElem? hb), h.distinct b (List.mem_of_getElem? hb), ⟨seals, h1, ?_, ?_⟩, ?_⟩
    · rintro rfl
      exact h.codex b hb
    · intro w hw
      rw [hw] at h2
      exact h2
    · intro hw
      rw [hw] at h2
      simp only at h2
      rw [h2] at h1
      cases h1
      rfl
    · intro hk
      rcases hs i b hb with h' | h'
      · rw [h'] at hk; simp at hk
      · exact h'

/-- Acceptance is the conjunction of two conditions: one on the seals, in which of the contract only the
two ids occur, and one on the operations, in which seals and witnesses occur only as reports made to the
contract. -/
theorem C79_separation {c : C} {r : R} (hr : Delivers r xs) :
    (∃ o, Accepted c r xs o) ↔
      SealsInOrder (ContractApi.contractId Seal c) (ContractApi.codex Seal c).codexId xs ∧ ScriptsPass (Seal := Seal) c xs := by
  rw [← valid_separation]
  constructor
  · rintro ⟨o, h⟩
    exact h.valid
  · intro h
    obtain ⟨o, k1, k2, _⟩ := evaluate_of_delivers hr h
    exact ⟨o, k1, k2, hr⟩

/-- Once one contract has accepted a consignment, another one with the same two ids, whatever its code
and state, accepts it if and only if no script fails. -/
theorem C79_contracts {c : C} {d : D} {r : R} {o} (h : Accepted c r xs o)
    (hid : ContractApi.contractId Seal d = ContractApi.contractId Seal c)
    (hx : (ContractApi.codex Seal d).codexId = (ContractApi.codex Seal c).codexId)
    {R' : Type} [ReadOperation Seal R'] {r' : R'} (hr : Delivers r' xs) :
    (∃ o', Accepted d r' xs o') ↔ ScriptsPass (Seal := Seal) d xs := by
  rw [C79_separation hr, hid, hx]
  exact ⟨fun k => k.2, fun k => ⟨(valid_separation.1 h.valid).1, k⟩⟩

theorem reads_same {r r₁ r₂ : R} (h1 : Reads r xs r₁) (h2 : Reads r xs r₂) : r₁ = r₂ := by
  rcases h1.det h2 with ⟨zs, e, h⟩ | ⟨zs, e, h⟩
  · have : zs = [] := by simpa using e
    subst this
    cases h
    rfl
  · have : zs = [] := by simpa using e
    subst this
    cases h
    rfl

/-- The rejection of a block for another reason than its script does not depend on the contract, unless
the script of the other contract fails. -/
theorem rejection_other {c : C} {d : D} {E : Type} {b : OperationSeals Seal} {e : VerificationError Seal E} {l}
    (h : Rejection c xs b e l) (hid : ContractApi.contractId Seal d = ContractApi.contractId Seal c)
    (hx : (ContractApi.codex Seal d).codexId = (ContractApi.codex Seal c).codexId) (hvm : ∀ e', e ≠ .vm e') :
    (∃ l', Rejection d xs b e l') ∨ ∃ e' l', Rejection d xs b (E := E) (.vm e') l' := by
  have hn : nextId c xs b = nextId d xs b := by unfold nextId; rw [hid]
  have key : ∀ {seals}, CommitsToCodex c xs b → SealsCommitted b → InputsSealed c xs b seals →
      ScriptPasses d xs b ∨ ∃ e' l', Rejection d xs b (E := E) (.vm e') l' := by
    intro seals h1 h2 h3
    cases hk : ContractApi.isKnown Seal (contractAt (ContractApi.contractId Seal d) d xs xs.length) (nextId d xs b) with
    | true => exact .inl (.inl hk)
    | false =>
      cases ha : codexAnswer Seal (contractAt (ContractApi.contractId Seal d) d xs xs.length)
          (ContractApi.contractId Seal d) (opAt (ContractApi.contractId Seal d) xs.length b) with
      | ok v => exact .inl (.inr ⟨v, ha⟩)
      | error e' =>
        exact .inr ⟨e', _, .script (seals := seals) (by unfold CommitsToCodex; rw [hx]; exact h1) h2
          (by unfold InputsSealed; rw [hid]; exact h3) hk ha⟩
  cases h with
  | codex h1 h2 => exact .inl ⟨_, .codex h1 (by rw [hx]; exact h2)⟩
  | mismatch h1 h2 h3 h4 h5 =>
    rw [hn]
    exact .inl ⟨_, .mismatch (by unfold CommitsToCodex; rw [hx]; exact h1) h2 h3 h4 h5⟩
  | unknown h1 h2 h3 h4 h5 h6 =>
    exact .inl ⟨_, .unknown (by unfold CommitsToCodex; rw [hx]; exact h1) h2 h3 h4 (by rw [hid]; exact h5) (by rw [hid]; exact h6)⟩
  | script h1 h2 h3 h4 h5 => exact absurd rfl (hvm _)
  | notClosed h1 h2 h3 h4 h5 h6 =>
    refine (key h1 h2 h3).imp_left fun k => ?_
    rw [hn] at h6 ⊢
    exact ⟨_, .notClosed (by unfold CommitsToCodex; rw [hx]; exact h1) h2 (by unfold InputsSealed; rw [hid]; exact h3) k h5 h6⟩
  | noWitness h1 h2 h3 h4 h5 h6 =>
    refine (key h1 h2 h3).imp_left fun k => ?_
    rw [hn]
    exact ⟨_, .noWitness (by unfold CommitsToCodex; rw [hx]; exact h1) h2 (by unfold InputsSealed; rw [hid]; exact h3) k h5 h6⟩

/-- Of blocks on which the seals are in order, a contract accepts all or rejects one for its script. -/
theorem script_or_vm {d : D} (h : SealsInOrder (ContractApi.contractId Seal d) (ContractApi.codex Seal d).codexId xs)
    {r : R} (hr : StartsWith r xs) : ValidConsignment d xs ∨
      ∃ o e, evaluate (Seal := Seal) d r = some o ∧ o.result = .error (.vm e) := by
  by_cases hs : ScriptsPass (Seal := Seal) d xs
  · exact .inl (valid_separation.2 ⟨h, hs⟩)
  · right
    classical
    have hex : ∃ i : Nat, ∃ b, xs[i]? = some b ∧
        ContractApi.isKnown Seal (contractAt (ContractApi.contractId Seal d) d xs i) (idAt (ContractApi.contractId Seal d) i b) = false ∧
        ∃ e, codexAnswer Seal (contractAt (ContractApi.contractId Seal d) d xs i)
          (ContractApi.contractId Seal d) (opAt (ContractApi.contractId Seal d) i b) = .error e := by
      unfold ScriptsPass at hs
      push Not at hs
      obtain ⟨i, b, hb, h1, h2⟩ := hs
      refine ⟨i, b, hb, by simpa using h1, ?_⟩
      cases ha : codexAnswer Seal (contractAt (ContractApi.contractId Seal d) d xs i)
          (ContractApi.contractId Seal d) (opAt (ContractApi.contractId Seal d) i b) with
      | ok v => exact absurd ha (h2 v)
      | error e => exact ⟨e, rfl⟩
    obtain ⟨b, hb, hk, e, he⟩ := Nat.find_spec hex
    have hmin := fun j hj => Nat.find_min hex (m := j) hj
    generalize Nat.find hex = i at hb hk he hmin
    have hlt := lt_length_of_getElem? hb
    have hlen : (xs.take i).length = i := by rw [List.length_take]; omega
    have hcg : ∀ k < i, (xs.take i)[k]? = xs[k]? := fun k hk => List.getElem?_take_of_lt hk
    have hv : ValidConsignment d (xs.take i) := by
      refine valid_separation.2 ⟨⟨?_, ?_, ?_, ?_⟩, ?_⟩
      · intro b0 hb0
        have : 0 < i := by rw [← hlen]; exact lt_length_of_getElem? hb0
        rw [hcg 0 this] at hb0
        exact h.codex b0 hb0
      · exact fun b0 hb0 => h.committed b0 (List.mem_of_mem_take hb0)
      · exact fun b0 hb0 => h.distinct b0 (List.mem_of_mem_take hb0)
      · intro j bj hbj
        have hj : j < i := by rw [← hlen]; exact lt_length_of_getElem? hbj
        rw [hcg j hj] at hbj
        obtain ⟨seals, h1, h2⟩ := h.closed j bj hbj
        exact ⟨seals, h1.imp fun _ _ k => (openAt_congr fun m hm => hcg m (by omega)).2 k, h2⟩
      · intro j bj hbj
        have hj : j < i := by rw [← hlen]; exact lt_length_of_getElem? hbj
        rw [hcg j hj] at hbj
        rw [contractAt_congr fun m hm => hcg m (by omega)]
        by_contra hno
        push Not at hno
        obtain ⟨n1, n2⟩ := hno
        refine hmin j hj ⟨bj, hbj, by simpa using n1, ?_⟩
        cases ha : codexAnswer Seal (contractAt (ContractApi.contractId Seal d) d xs j)
            (ContractApi.contractId Seal d) (opAt (ContractApi.contractId Seal d) j bj) with
        | ok v => exact absurd ha (n2 v)
        | error e => exact ⟨e, rfl⟩
    have hst : StartsWith r (xs.take i ++ [b]) := by
      obtain ⟨r₁, hrd⟩ := hr
      have : xs = (xs.take i ++ [b]) ++ xs.drop (i + 1) := by
        have e : xs[i] = b := (List.getElem?_eq_some_iff.1 hb).2
        rw [List.append_assoc, List.singleton_append, ← e, List.getElem_cons_drop, List.take_append_drop]
      rw [this] at hrd
      obtain ⟨r₂, h1, _⟩ := hrd.split
      exact ⟨r₂, h1⟩
    obtain ⟨seals, h1, _⟩ := h.closed i b hb
    have hrej : ∃ l, Rejection d (xs.take i) b (E := ReadOperation.Error Seal R) (.vm e) l := by
      refine ⟨_, .script (seals := seals) ?_ (h.committed b (List.mem_of_getElem? hb)) ⟨h.distinct b (List.mem_of_getElem? hb), ?_⟩ ?_ ?_⟩
      · intro hnil
        have : i = 0 := by rw [← hlen, hnil]; rfl
        subst this
        exact h.codex b hb
      · rw [hlen]
        exact h1.imp fun _ _ k => (openAt_congr hcg).2 k
      · unfold nextId
        rw [hlen, contractAt_congr hcg]
        exact hk
      · rw [hlen, contractAt_congr hcg]
        exact he
    obtain ⟨o, k1, k2, _⟩ := evaluate_of_rejection hst hv hrej.choose_spec
    exact ⟨o, e, k1, k2⟩

/-- Whatever two contracts with the same two ids do with the same stream, their verdicts are the same,
with the same error at the same place, as long as neither is the failure of a script. -/
theorem C79_verdicts {c : C} {d : D} {r : R} {o} (h : evaluate (Seal := Seal) c r = some o)
    (hid : ContractApi.contractId Seal d = ContractApi.contractId Seal c)
    (hx : (ContractApi.codex Seal d).codexId = (ContractApi.codex Seal c).codexId)
    (hvm : ∀ e, o.result ≠ .error (.vm e)) :
    ∃ o', evaluate (Seal := Seal) d r = some o' ∧
      ((o'.result = o.result ∧ o'.reader = o.reader) ∨ ∃ e, o'.result = .error (.vm e)) := by
  obtain ⟨blocks, hsh⟩ := run_shape h
  have hso := (valid_separation.1 hsh.valid).1
  rw [← hid, ← hx] at hso
  obtain ⟨segs, tail, _, _, hstop⟩ := hsh.stop
  have hst : StartsWith r blocks := by
    rcases hstop with ⟨_, _, r₁, h1, _⟩ | ⟨_, _, _, r₁, h1, _⟩ | ⟨b, e, _, h1, _⟩
    · exact ⟨r₁, h1⟩
    · exact ⟨r₁, h1⟩
    · obtain ⟨r₂, h2, _⟩ := h1.split
      exact ⟨r₂, h2⟩
  rcases script_or_vm hso hst with hv | ⟨o', e, k1, k2⟩
  swap
  · exact ⟨o', k1, .inr ⟨e, k2⟩⟩
  rcases hstop with ⟨hok, _, r₁, h1, h2⟩ | ⟨e, hok, _, r₁, h1, h2⟩ | ⟨b, e, hok, h1, h2⟩
  · obtain ⟨o', k1, k2, k3⟩ := evaluate_of_delivers ⟨r₁, _, h1, h2⟩ hv
    refine ⟨o', k1, .inl ⟨by rw [k2, hok], ?_⟩⟩
    obtain ⟨_, _, _, _, q⟩ := k3.stop
    rcases q with ⟨_, _, r₂, q1, q2⟩ | ⟨_, q, _⟩ | ⟨_, _, q, _⟩
    · have := reads_same h1 q1
      subst this
      rw [h2] at q2
      exact (Prod.mk.inj q2).2.symm
    · rw [k2] at q; simp at q
    · rw [k2] at q; simp at q
  · obtain ⟨o', k1, k2, k3⟩ := evaluate_of_fails ⟨r₁, _, h1, h2⟩ hv
    refine ⟨o', k1, .inl ⟨by rw [k2, hok], ?_⟩⟩
    obtain ⟨_, _, _, _, q⟩ := k3.stop
    rcases q with ⟨q, _⟩ | ⟨_, _, _, r₂, q1, q2⟩ | ⟨_, _, q, _, q'⟩
    · rw [k2] at q; simp at q
    · have := reads_same h1 q1
      subst this
      rw [h2] at q2
      exact (Prod.mk.inj q2).2.symm
    · rw [k2] at q
      injection q with q
      subst q
      cases q'
  · rcases rejection_other h2 hid hx (fun e' he => hvm e' (by rw [hok, he])) with ⟨l', h3⟩ | ⟨e', l', h3⟩
    · obtain ⟨o', k1, k2, k3, _⟩ := evaluate_of_rejection ⟨_, h1⟩ hv h3
      exact ⟨o', k1, .inl ⟨by rw [k2, hok], reads_same k3 h1⟩⟩
    · obtain ⟨o', k1, k2, _⟩ := evaluate_of_rejection ⟨_, h1⟩ hv h3
      exact ⟨o', k1, .inr ⟨e', k2⟩⟩

theorem same_operation (h : ys.map (·.operation) = xs.map (·.operation)) {i : Nat} {b' : OperationSeals Seal} (hb : ys[i]? = some b') :
    ∃ b, xs[i]? = some b ∧ b'.operation = b.operation := by
  have : (ys.map (·.operation))[i]? = some b'.operation := by rw [List.getElem?_map, hb]; rfl
  rw [h, List.getElem?_map] at this
  obtain ⟨b, hb', e⟩ := Option.map_eq_some_iff.1 this
  exact ⟨b, hb', e.symm⟩

theorem same_operations_at {S : C → C → Prop} (hS : ReportBlind (Seal := Seal) S) (c : C) {cid : ContractId}
    (h : ys.map (·.operation) = xs.map (·.operation)) (n : Nat) : S (contractAt cid c xs n) (contractAt cid c ys n) := by
  induction n with
  | zero => exact hS.refl c
  | succ n ih =>
    simp only [contractAt]
    cases hb' : ys[n]? with
    | none =>
      have : xs[n]? = none := by
        have hl := congrArg List.length h
        simp only [List.length_map] at hl
        rw [List.getElem?_eq_none_iff] at hb' ⊢
        rw [← hl]; exact hb'
      rw [this]
      exact ih
    | some b' =>
      obtain ⟨b, hb, e1⟩ := same_operation h hb'
      rw [hb]
      simp only [callbacks, List.foldl_append]
      rw [rewitnessed_operation hS ih cid n e1]
      refine hS.foldl (sealCallbacks_applied _ _) (hS.foldlRight (sealCallbacks_applied _ _) ?_)
      have h1 : S ((witnessCallbacks (idAt cid n b) b).foldl perform (contractAt cid c xs n))
          ((witnessCallbacks (idAt cid n b') b').foldl perform (contractAt cid c ys n)) :=
        hS.foldl (witnessCallbacks_applied _ _) (hS.foldlRight (witnessCallbacks_applied _ _) ih)
      unfold operationCallbacks
      split
      · exact h1
      · split
        · exact hS.operation _ _ h1 _
        · exact h1

/-- If the contract does not look at the seals and witnesses reported to it, another consignment of the
same operations, with other seals revealed and other witnesses attached, is accepted if and only if its
seals are in order. -/
theorem C79_operations {S : C → C → Prop} (hS : ReportBlind (Seal := Seal) S) {c : C} {r : R} {o}
    (h : Accepted c r xs o) (hop : ys.map (·.operation) = xs.map (·.operation))
    {R' : Type} [ReadOperation Seal R'] {r' : R'} (hr : Delivers r' ys) :
    (∃ o', Accepted c r' ys o') ↔
      SealsInOrder (ContractApi.contractId Seal c) (ContractApi.codex Seal c).codexId ys := by
  rw [C79_separation hr]
  refine ⟨fun k => k.1, fun k => ⟨k, ?_⟩⟩
  intro i b' hb'
  obtain ⟨b, hb, e⟩ := same_operation hop hb'
  have hc := same_operations_at hS c (cid := ContractApi.contractId Seal c) hop i
  rw [(same_ids e _ _).1, (same_ids e _ _).2, ← hS.isKnown _ _ hc, ← hS.verify _ _ hc]
  exact (valid_separation.1 h.valid).2 i b hb

/-- In particular no script failure can result from exchanging seals and witnesses only. -/
theorem C79_no_script {S : C → C → Prop} (hS : ReportBlind (Seal := Seal) S) {c : C} {r : R} {o}
    (h : Accepted c r xs o) (hop : ys.map (·.operation) = xs.map (·.operation))
    {R' : Type} [ReadOperation Seal R'] {r' : R'} (hr : Delivers r' ys) {o'} (h' : evaluate (Seal := Seal) c r' = some o')
    (e : CallError) : o'.result ≠ .error (.vm e) := by
  intro he
  obtain ⟨blocks, hsh⟩ := run_shape h'
  obtain ⟨_, _, _, _, q⟩ := hsh.stop
  rcases q with ⟨q, _⟩ | ⟨_, q, _⟩ | ⟨b', e', q, q1, q2⟩
  · rw [he] at q; simp at q
  · rw [he] at q; simp at q
  · rw [he] at q
    injection q with q
    subst q
    obtain ⟨r₁, r₂, hr1, hr2⟩ := hr
    have hpre : ∃ zs, ys = (blocks ++ [b']) ++ zs := by
      rcases q1.det hr1 with ⟨zs, e, _⟩ | ⟨zs, e, h3⟩
      · exact ⟨zs, e⟩
      · cases h3 with
        | nil => exact ⟨[], by simpa using e.symm⟩
        | cons k _ => rw [hr2] at k; simp at k
    obtain ⟨zs, rfl⟩ := hpre
    have hb' : (blocks ++ [b'] ++ zs)[blocks.length]? = some b' := by simp
    have hcg : ∀ k < blocks.length, blocks[k]? = (blocks ++ [b'] ++ zs)[k]? := by
      intro k hk
      rw [List.append_assoc, List.getElem?_append_left hk]
    obtain ⟨b, hb, e1⟩ := same_operation hop hb'
    have hc := same_operations_at hS c (cid := ContractApi.contractId Seal c) hop blocks.length
    cases q2 with
    | script k1 k2 k3 k4 k5 =>
      unfold nextId at k4
      rw [contractAt_congr hcg, ← hS.isKnown _ _ hc, (same_ids e1 _ _).2] at k4
      rw [contractAt_congr hcg, ← hS.verify _ _ hc, (same_ids e1 _ _).1] at k5
      obtain ⟨v, hv⟩ := (h.valid _ b hb).script k4
      rw [k5] at hv
      simp at hv

end

namespace Demo
/-- Genesis revealing only the seals which are spent in the story. -/
def genesisPart : Block := ⟨genesisOp, .collect [(0, .abs 1), (1, .abs 5)], none⟩

/-- An operation the codex of the ledger refuses. -/
def scripted : Block := ⟨{ op 103 [at_ 100 0] [.rel 3] with callId := 13 }, .collect [(0, .rel 3)], some (wit 50 [1] 103)⟩
end Demo

open Demo in
/-- Two contracts with the same ids and different codices, accepting the story. -/
example : ∃ o o', Accepted ledger (Tape.mk story none) story o ∧
    ContractApi.contractId Nat trusting = ContractApi.contractId Nat ledger ∧
    (ContractApi.codex Nat trusting).codexId = (ContractApi.codex Nat ledger).codexId ∧
    SealsInOrder (Seal := Nat) ledger.contractId ledger.codex.codexId story ∧ ScriptsPass (Seal := Nat) ledger story ∧
    ScriptsPass (Seal := Nat) trusting story ∧ Accepted trusting (Tape.mk story none) story o' := by
  obtain ⟨o, h⟩ := story_run
  obtain ⟨o', h'⟩ := accepted_of_accepts (c := trusting) (bs := story) (by decide +kernel)
  have h1 := valid_separation.1 h.valid
  exact ⟨o, o', h, rfl, rfl, h1.1, h1.2, (valid_separation.1 h'.valid).2, h'⟩

open Demo in
/-- A stream rejected for a seal by both a new and a trusting contract. -/
example : ∃ (o o' : Outcome Nat Tape Ledger String),
    evaluate (Seal := Nat) ledger (Tape.mk [genesis, transfer1, doubleSpend] none) = some o ∧
    evaluate (Seal := Nat) trusting (Tape.mk [genesis, transfer1, doubleSpend] none) = some o' ∧
    o.result = .error (.sealUnknown (at_ 100 0)) ∧ o'.result = .error (.sealUnknown (at_ 100 0)) := by
  obtain ⟨o, h1, h2⟩ := rejected_of (c := ledger) (bs := [genesis, transfer1]) (b := doubleSpend)
    (e := .sealUnknown (at_ 100 0)) rfl [] none
  obtain ⟨o', h1', h2'⟩ := rejected_of (c := trusting) (bs := [genesis, transfer1]) (b := doubleSpend)
    (e := .sealUnknown (at_ 100 0)) rfl [] none
  exact ⟨o, o', h1, h1', h2, h2'⟩

open Demo in
/-- The same operations with other witnesses and fewer seals revealed. -/
example : ∃ o o', ReportBlind (Seal := Nat) sameBooks ∧ Accepted ledger (Tape.mk story none) story o ∧
    ([genesisPart, moved1, moved2] : List Block).map (·.operation) =
      story.map (·.operation) ∧
    Accepted ledger (Tape.mk [genesisPart, moved1, moved2] none)
      [genesisPart, moved1, moved2] o' := by
  obtain ⟨o, h⟩ := story_run
  obtain ⟨o', h'⟩ := accepted_of_accepts (c := ledger)
    (bs := [genesisPart, moved1, moved2]) (by decide +kernel)
  exact ⟨o, o', sameBooks_blind, h, rfl, h'⟩

open Demo in
/-- That neither verdict is the failure of a script is needed: the ledger stops at a script where the
trusting one goes on. -/
theorem C79_needs_script : ∃ (c d : Ledger) (r : Tape) (o o' : Outcome Nat Tape Ledger String) (e : CallError),
    ContractApi.contractId Nat d = ContractApi.contractId Nat c ∧
    (ContractApi.codex Nat d).codexId = (ContractApi.codex Nat c).codexId ∧
    evaluate (Seal := Nat) c r = some o ∧ evaluate (Seal := Nat) d r = some o' ∧
    o'.result = .ok () ∧ o.result = .error (.vm e) := by
  obtain ⟨o, h1, h2⟩ := rejected_of (c := ledger) (bs := [genesis]) (b := scripted)
    (e := .vm ⟨"script failure"⟩) rfl [] none
  obtain ⟨o', h'⟩ := accepted_of_accepts (c := trusting) (bs := [genesis, scripted]) (by decide +kernel)
  exact ⟨ledger, trusting, _, o, o', _, rfl, rfl, h1, h'.run, h'.ok, h2⟩

end Rgb
