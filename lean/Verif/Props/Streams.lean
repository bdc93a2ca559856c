import Verif.Demo
import Verif.Lemmas.Laws
import Verif.Props.Blocks
import Verif.Props.Runs

set_option linter.unusedSectionVars false

/-! # C38, C39, C42, C43, C49: related streams, related contracts -/

namespace Rgb
open Spec

/-! ## C42 -/

section
variable {Seal : Type} [LinearOrder Seal] [RgbSeal Seal] [OpHash]
variable {C E : Type} [ContractApi Seal C]
variable {R : Type} [ReadOperation Seal R]

section Simulations
variable {C₁ C₂ : Type} [ContractApi Seal C₁] [ContractApi Seal C₂] {S : C₁ → C₂ → Prop}

theorem sim_perform (hS : Simulation (Seal := Seal) S) {c₁ : C₁} {c₂ : C₂} (h : S c₁ c₂) (l : List (Call Seal)) :
    S (l.foldl perform c₁) (l.foldl perform c₂) := by
  induction l generalizing c₁ c₂ with
  | nil => exact h
  | cons x l ih =>
    refine ih ?_
    cases x <;> first | exact h | skip
    · exact hS.witness _ _ h _ _
    · exact hS.operation _ _ h _
    · exact hS.seals _ _ h _ _

theorem sim_callbacks (hS : Simulation (Seal := Seal) S) {c₁ : C₁} {c₂ : C₂} (h : S c₁ c₂) (cid : ContractId) (i : Nat)
    (b : OperationSeals Seal) : callbacks cid c₁ i b = callbacks cid c₂ i b := by
  unfold callbacks operationCallbacks
  rw [hS.isKnown _ _ h, hS.verify _ _ h]

theorem sim_queries (hS : Simulation (Seal := Seal) S) {c₁ : C₁} {c₂ : C₂} (h : S c₁ c₂) (cid : ContractId) (i : Nat)
    (b : OperationSeals Seal) : queries cid c₁ i b = queries cid c₂ i b := by
  unfold queries
  rw [hS.isKnown _ _ h]

theorem sim_contractAt (hS : Simulation (Seal := Seal) S) {c₁ : C₁} {c₂ : C₂} (h : S c₁ c₂) (cid : ContractId)
    (blocks : List (OperationSeals Seal)) (n : Nat) : S (contractAt cid c₁ blocks n) (contractAt cid c₂ blocks n) := by
  induction n with
  | zero => exact h
  | succ n ih =>
    simp only [contractAt]
    cases blocks[n]? with
    | none => exact ih
    | some b =>
      simp only
      rw [sim_callbacks hS ih]
      exact sim_perform hS ih _

theorem sim_valid (hS : Simulation (Seal := Seal) S) {c₁ : C₁} {c₂ : C₂} (h : S c₁ c₂)
    {blocks : List (OperationSeals Seal)} (hv : ValidConsignment c₁ blocks) : ValidConsignment c₂ blocks := by
  intro i b hb
  have vb := hv i b hb
  have hc := sim_contractAt hS h (ContractApi.contractId Seal c₁) blocks i
  refine ⟨by rw [← hS.codexId _ _ h]; exact vb.codex, vb.committed, vb.distinct, by rw [← hS.contractId _ _ h]; exact vb.closed, ?_⟩
  rw [← hS.contractId _ _ h, ← hS.isKnown _ _ hc]
  simp only [← hS.verify _ _ hc]
  exact vb.script

theorem sim_segments (hS : Simulation (Seal := Seal) S) {c₁ : C₁} {c₂ : C₂} (h : S c₁ c₂)
    {blocks : List (OperationSeals Seal)} {segs} (hs : Segments c₁ blocks segs) : Segments c₂ blocks segs := by
  refine ⟨hs.1, ?_⟩
  intro k b l hb hl
  obtain ⟨seals, h1, h2⟩ := hs.2 k b l hb hl
  have hc := sim_contractAt hS h (ContractApi.contractId Seal c₁) blocks k
  refine ⟨seals, by rw [← hS.contractId _ _ h]; exact h1, ?_⟩
  rw [h2, sim_queries hS hc, sim_callbacks hS hc, hS.contractId _ _ h]

theorem sim_rejection (hS : Simulation (Seal := Seal) S) {c₁ : C₁} {c₂ : C₂} (h : S c₁ c₂)
    {blocks : List (OperationSeals Seal)} {b : OperationSeals Seal} {e : VerificationError Seal E} {l}
    (hr : Rejection c₁ blocks b e l) : Rejection c₂ blocks b e l := by
  have hc := sim_contractAt hS h (ContractApi.contractId Seal c₁) blocks blocks.length
  have hid := hS.contractId _ _ h
  have hcx : ∀ {b : OperationSeals Seal}, CommitsToCodex c₁ blocks b → CommitsToCodex c₂ blocks b := by
    intro b h1; unfold CommitsToCodex; rw [← hS.codexId _ _ h]; exact h1
  have hin : ∀ {b : OperationSeals Seal} {s}, InputsSealed c₁ blocks b s → InputsSealed c₂ blocks b s := by
    intro b s h1; unfold InputsSealed; rw [← hid]; exact h1
  have hsp : ScriptPasses c₁ blocks b → ScriptPasses c₂ blocks b := by
    intro h1; unfold ScriptPasses nextId at h1 ⊢
    simp only [← hid]
    simpa only [← hS.isKnown _ _ hc, ← hS.verify _ _ hc] using h1
  have hnx : nextId c₁ blocks b = nextId c₂ blocks b := by unfold nextId; rw [hid]
  have hqs : queries (ContractApi.contractId Seal c₁) (contractAt (ContractApi.contractId Seal c₁) c₁ blocks blocks.length)
      blocks.length b = queries (ContractApi.contractId Seal c₂)
        (contractAt (ContractApi.contractId Seal c₂) c₂ blocks blocks.length) blocks.length b := by
    rw [sim_queries hS hc, hid]
  cases hr with
  | codex h1 h2 => exact .codex h1 (by rw [← hS.codexId _ _ h]; exact h2)
  | mismatch h1 h2 h3 h4 h5 =>
    rw [hnx]
    exact .mismatch (hcx h1) h2 h3 h4 h5
  | unknown h1 h2 h3 h4 h5 h6 =>
    exact .unknown (hcx h1) h2 h3 h4 (by rw [← hid]; exact h5) (by rw [← hid]; exact h6)
  | script h1 h2 h3 h4 h5 =>
    rw [hqs]
    refine .script (hcx h1) h2 (hin h3) ?_ ?_
    · rw [← hid, ← hS.isKnown _ _ hc, ← hnx]; exact h4
    · rw [← hid, ← hS.verify _ _ hc]; exact h5
  | notClosed h1 h2 h3 h4 h5 h6 =>
    rw [hqs, hnx]
    exact .notClosed (hcx h1) h2 (hin h3) (hsp h4) h5 (by rw [← hnx]; exact h6)
  | noWitness h1 h2 h3 h4 h5 h6 =>
    rw [hqs, hnx]
    exact .noWitness (hcx h1) h2 (hin h3) (hsp h4) h5 h6

theorem sim_run (hS : Simulation (Seal := Seal) S) {c₁ : C₁} {c₂ : C₂} (h : S c₁ c₂) {r : R} {o₁}
    (h₁ : evaluate (Seal := Seal) c₁ r = some o₁) :
    ∃ o₂, evaluate (Seal := Seal) c₂ r = some o₂ ∧ o₁.result = o₂.result ∧ o₁.world.calls = o₂.world.calls ∧
      o₁.reader = o₂.reader ∧ S o₁.world.contract o₂.world.contract := by
  obtain ⟨blocks, hs⟩ := run_shape h₁
  obtain ⟨segs, tail, k1, k2, k3⟩ := hs.stop
  have hsh : RunShape c₂ r blocks ⟨o₁.result,
      ⟨contractAt (ContractApi.contractId Seal c₂) c₂ blocks blocks.length, o₁.world.calls⟩, o₁.reader⟩ := by
    refine ⟨sim_valid hS h hs.valid, rfl, segs, tail, sim_segments hS h k1, k2, ?_⟩
    rcases k3 with k3 | k3 | ⟨b, e, k3, k4, k5⟩
    · exact .inl k3
    · exact .inr (.inl k3)
    · exact .inr (.inr ⟨b, e, k3, k4, sim_rejection hS h k5⟩)
  refine ⟨_, hsh.run, rfl, rfl, rfl, ?_⟩
  rw [hs.contract, ← hS.contractId _ _ h]
  exact sim_contractAt hS h _ _ _

theorem sim_symm (hS : Simulation (Seal := Seal) S) : Simulation (Seal := Seal) fun (c₂ : C₂) (c₁ : C₁) => S c₁ c₂ where
  contractId _ _ h := (hS.contractId _ _ h).symm
  codexId _ _ h := (hS.codexId _ _ h).symm
  isKnown _ _ h o := (hS.isKnown _ _ h o).symm
  verify _ _ h cid op := (hS.verify _ _ h cid op).symm
  operation _ _ h v := hS.operation _ _ h v
  witness _ _ h o w := hS.witness _ _ h o w
  seals _ _ h o s := hS.seals _ _ h o s

/-- Two contracts related by a simulation get the same outcome from the same reader: the same result,
the same calls in the same order, the same state of the reader, and they stay related; and one
evaluation terminates exactly if the other does. -/
theorem C42_parametricity (hS : Simulation (Seal := Seal) S) {c₁ : C₁} {c₂ : C₂} (h : S c₁ c₂) (r : R) :
    Option.Rel (fun (o₁ : Outcome Seal R C₁ (ReadOperation.Error Seal R)) (o₂ : Outcome Seal R C₂ (ReadOperation.Error Seal R)) =>
        o₁.result = o₂.result ∧ o₁.world.calls = o₂.world.calls ∧ o₁.reader = o₂.reader ∧
        S o₁.world.contract o₂.world.contract) (evaluate c₁ r) (evaluate c₂ r) := by
  cases h₁ : evaluate (Seal := Seal) c₁ r with
  | none =>
    cases h₂ : evaluate (Seal := Seal) c₂ r with
    | none => exact .none
    | some o₂ =>
      obtain ⟨o₁, k, _⟩ := sim_run (sim_symm hS) h h₂
      rw [h₁] at k
      simp at k
  | some o₁ =>
    obtain ⟨o₂, k, hk⟩ := sim_run hS h h₁
    rw [k]
    exact .some hk

end Simulations

end

namespace Demo
/-- Another implementation of the contract, keeping nothing but the known ids, with a codex that
checks no inputs. -/
structure Thin where
  known : Opid → Bool

scoped instance : ContractApi Nat Thin where
  contractId _ := ⟨9⟩
  codex _ := ⟨⟨7⟩, fun _ op _ _ => if op.callId = 13 then .error ⟨"script failure"⟩ else .ok ⟨opid op, op⟩⟩
  repo _ := ⟨fun _ => none⟩
  memory _ := ⟨fun _ => none, fun _ => none⟩
  isKnown l o := l.known o
  applyOperation l v := ⟨fun o => l.known o || o == v.opid⟩
  applySeals l _ _ := l
  applyWitness l _ _ := l

/-- A ledger with a codex that checks no inputs simulates the thin contract. -/
def thinSim (l : Ledger) (t : Thin) : Prop :=
  l.contractId = ⟨9⟩ ∧
  l.codex = ⟨⟨7⟩, fun _ op _ _ => if op.callId = 13 then .error ⟨"script failure"⟩ else .ok ⟨opid op, op⟩⟩ ∧
  ∀ o, l.known.contains o = t.known o
end Demo

open Demo in
example : Simulation (Seal := Nat) thinSim ∧
    thinSim { ledger with codex := ⟨⟨7⟩, fun _ op _ _ => if op.callId = 13 then .error ⟨"script failure"⟩ else .ok ⟨opid op, op⟩⟩ }
      ⟨fun o => o == ⟨100⟩⟩ := by
  refine ⟨⟨?_, ?_, ?_, ?_, ?_, ?_, ?_⟩, rfl, rfl, ?_⟩
  · exact fun _ _ h => h.1
  · intro c₁ c₂ h; exact congrArg Codex.codexId h.2.1
  · exact fun _ _ h => h.2.2
  · intro c₁ c₂ h cid op
    unfold codexAnswer
    change c₁.codex.verify _ _ _ _ = _
    rw [h.2.1]
    rfl
  · intro c₁ c₂ h v
    refine ⟨h.1, h.2.1, ?_⟩
    intro o
    simp only [ContractApi.applyOperation, List.contains_cons, h.2.2, Bool.or_comm]
  · exact fun _ _ h _ _ => h
  · exact fun _ _ h _ _ => h
  · intro o
    rw [Bool.eq_iff_iff]
    simp [ledger]

/-! ## C38 -/

section
variable {Seal : Type} [LinearOrder Seal] [RgbSeal Seal] [OpHash]
variable {C E : Type} [ContractApi Seal C]
variable {R : Type} [ReadOperation Seal R]

/-- The ids and blocks of a consignment. -/
def tagged (cid : ContractId) : List (OperationSeals Seal) → List (Opid × OperationSeals Seal)
  | [] => []
  | b₀ :: rest => (idAt cid 0 b₀, b₀) :: rest.map fun b => (opid b.operation, b)

theorem tagged_get {cid : ContractId} {blocks : List (OperationSeals Seal)} {i : Nat} :
    (tagged cid blocks)[i]? = blocks[i]?.map fun b => (idAt cid i b, b) := by
  cases blocks with
  | nil => simp [tagged]
  | cons b₀ rest =>
    cases i with
    | zero => simp [tagged]
    | succ i =>
      simp only [tagged, List.getElem?_cons_succ, List.getElem?_map]
      rfl

theorem filter_closing_block {c : C} {blocks : List (OperationSeals Seal)} {i : Nat} {b : OperationSeals Seal} {seals l}
    (hf : List.Forall₂ (fun (inp : Input) s => OpenAt (ContractApi.contractId Seal c) blocks i inp.addr s)
      b.operation.destructibleIn seals) (h : BlockTrace c blocks i b l) :
    l.filter IsClosing = sealQueries (idAt (ContractApi.contractId Seal c) i b) b seals := by
  obtain ⟨s', h1, rfl⟩ := h
  have e := sealed_unique hf h1
  subst e
  rw [List.filter_cons_of_neg (by simp [IsClosing]), List.filter_append, List.filter_append]
  have e1 : ∀ c' : C, (queries (ContractApi.contractId Seal c) c' i b).filter IsClosing = [] := by
    intro c'; unfold queries; split <;> rfl
  have e2 : ∀ c' : C, (callbacks (ContractApi.contractId Seal c) c' i b).filter IsClosing = [] := by
    intro c'
    rw [List.filter_eq_nil_iff]
    intro x hx
    rw [← filter_callbacks] at hx
    have := (List.mem_filter.1 hx).2
    cases x <;> simp_all [IsCallback, IsClosing]
  have e3 : (sealQueries (idAt (ContractApi.contractId Seal c) i b) b s').filter IsClosing =
      sealQueries (idAt (ContractApi.contractId Seal c) i b) b s' := by
    unfold sealQueries; split <;> rfl
  rw [e1, e2, e3]
  simp

theorem closings_of {c : C} {r : R} {blocks : List (OperationSeals Seal)} {o} (h : Accepted c r blocks o)
    {f : Opid × OperationSeals Seal → List (Call Seal)}
    (hf : ∀ i b seals, blocks[i]? = some b →
      List.Forall₂ (fun (inp : Input) s => OpenAt (ContractApi.contractId Seal c) blocks i inp.addr s)
        b.operation.destructibleIn seals →
      f (idAt (ContractApi.contractId Seal c) i b, b) = sealQueries (idAt (ContractApi.contractId Seal c) i b) b seals) :
    o.world.calls.filter IsClosing = (tagged (ContractApi.contractId Seal c) blocks).flatMap f := by
  obtain ⟨segs, h1, h2⟩ := h.trace
  have hlen : (tagged (ContractApi.contractId Seal c) blocks).length = blocks.length := by
    cases blocks <;> simp [tagged]
  have key : ∀ n ≤ blocks.length, (segs.take n).flatten.filter IsClosing =
      ((tagged (ContractApi.contractId Seal c) blocks).take n).flatMap f := by
    intro n hn
    induction n with
    | zero => rfl
    | succ n ih =>
      have hlt : n < segs.length := by rw [h1.1]; omega
      have hlt' : n < (tagged (ContractApi.contractId Seal c) blocks).length := by omega
      have hb : blocks[n]? = some blocks[n] := by simp
      have ht : (tagged (ContractApi.contractId Seal c) blocks)[n] = (idAt (ContractApi.contractId Seal c) n blocks[n], blocks[n]) := by
        have := tagged_get (cid := ContractApi.contractId Seal c) (blocks := blocks) (i := n)
        rw [hb, List.getElem?_eq_getElem hlt'] at this
        exact Option.some.inj this
      rw [← List.take_append_getElem hlt, ← List.take_append_getElem hlt', List.flatten_append, List.filter_append,
        List.flatMap_append, ih (by omega), ht]
      simp only [List.flatten_cons, List.flatten_nil, List.append_nil, List.flatMap_cons, List.flatMap_nil]
      have hbt := h1.2 n _ _ hb (by simp [hlt] : segs[n]? = some segs[n])
      obtain ⟨seals, hfs, _⟩ := id hbt
      rw [filter_closing_block hfs hbt, hf n _ seals hb hfs]
  have := key blocks.length (Nat.le_refl _)
  rw [h1.take_all, List.take_of_length_le (by omega)] at this
  rw [h2, List.filter_append, List.filter_append, this]
  simp [IsClosing]

/-- A consignment of known operations with distinct ids stays accepted when the blocks after the first
are rearranged with every creator still before its consumers, and the seal protocol is asked the same
questions: the same witnesses about the same seals and messages. -/
theorem C38_reordering {c : C} {r : R} {b₀ : OperationSeals Seal} {rest rest' : List (OperationSeals Seal)} {o}
    (h : Accepted c r (b₀ :: rest) o)
    (hm : ∀ (c : C) (x : Call Seal) o, ContractApi.isKnown Seal c o = true → ContractApi.isKnown Seal (perform c x) o = true)
    (hk : ∀ (i : Nat) b, (b₀ :: rest)[i]? = some b → ContractApi.isKnown Seal c (idAt (ContractApi.contractId Seal c) i b) = true)
    (hids : (idAt (ContractApi.contractId Seal c) 0 b₀ :: rest.map fun b => opid b.operation).Nodup)
    (hp : rest'.Perm rest)
    (htop : ∀ (i j : Nat) bi bj a, (b₀ :: rest')[i]? = some bi → (b₀ :: rest')[j]? = some bj → Consumes bi a →
      a.opid = idAt (ContractApi.contractId Seal c) j bj → j < i)
    {R' : Type} [ReadOperation Seal R'] {r' : R'} (hr : Delivers r' (b₀ :: rest')) :
    ∃ o', Accepted c r' (b₀ :: rest') o' ∧ (o'.world.calls.filter IsClosing).Perm (o.world.calls.filter IsClosing) := by
  generalize hcid : ContractApi.contractId Seal c = cid at *
  have hv := h.valid
  have hperm : (tagged cid (b₀ :: rest')).Perm (tagged cid (b₀ :: rest)) := (hp.map _).cons _
  have hnd : ((tagged cid (b₀ :: rest)).map Prod.fst).Nodup := by
    simpa [tagged, Function.comp_def] using hids
  have hnd' : ((tagged cid (b₀ :: rest')).map Prod.fst).Nodup := (hperm.map _).nodup_iff.2 hnd
  have mem_of : ∀ {l : List (OperationSeals Seal)} {i : Nat} {b}, l[i]? = some b → (idAt cid i b, b) ∈ tagged cid l := by
    intro l i b hb
    refine List.mem_of_getElem? (i := i) ?_
    rw [tagged_get, hb]; rfl
  have of_mem : ∀ {l : List (OperationSeals Seal)} {x b}, (x, b) ∈ tagged cid l → ∃ i : Nat, l[i]? = some b ∧ x = idAt cid i b := by
    intro l x b hx
    obtain ⟨i, hi⟩ := List.getElem?_of_mem hx
    rw [tagged_get] at hi
    obtain ⟨b', hb', e⟩ := Option.map_eq_some_iff.1 hi
    simp only [Prod.mk.injEq] at e
    obtain ⟨rfl, rfl⟩ := e
    exact ⟨i, hb', rfl⟩
  have inj : ∀ {l : List (OperationSeals Seal)}, ((tagged cid l).map Prod.fst).Nodup → ∀ {i j : Nat} {b b'}, l[i]? = some b →
      l[j]? = some b' → idAt cid i b = idAt cid j b' → i = j := by
    intro l hl i j b b' hb hb' e
    refine (List.getElem?_inj (l := (tagged cid l).map Prod.fst) ?_ hl).1 ?_
    · rw [List.length_map]
      have : (tagged cid l)[i]? = some (idAt cid i b, b) := by rw [tagged_get, hb]; rfl
      exact lt_length_of_getElem? this
    · rw [List.getElem?_map, List.getElem?_map, tagged_get, tagged_get, hb, hb']
      simp [e]
  have there : ∀ {i' : Nat} {b}, (b₀ :: rest')[i']? = some b →
      ∃ i : Nat, (b₀ :: rest)[i]? = some b ∧ idAt cid i' b = idAt cid i b := fun hb => of_mem (hperm.mem_iff.1 (mem_of hb))
  have back : ∀ {i : Nat} {b}, (b₀ :: rest)[i]? = some b →
      ∃ i' : Nat, (b₀ :: rest')[i']? = some b ∧ idAt cid i b = idAt cid i' b := fun hb => of_mem (hperm.mem_iff.2 (mem_of hb))
  -- a cell is consumed at most once in the original
  have once : ∀ {i j : Nat} {b b' : OperationSeals Seal} {a}, (b₀ :: rest)[i]? = some b → (b₀ :: rest)[j]? = some b' → Consumes b a →
      Consumes b' a → i = j := by
    intro i j b b' a hb hb' hca hca'
    by_contra hne
    have lt : ∀ {i j : Nat} {b b' : OperationSeals Seal}, i < j → (b₀ :: rest)[i]? = some b → (b₀ :: rest)[j]? = some b' → Consumes b a →
        Consumes b' a → False := by
      intro i j b b' hij hb hb' hca hca'
      obtain ⟨k, bk, h1, h2, h3, h4, _⟩ := C10_reannounced h hb hb' hij hca hca'
      obtain ⟨inp, hmi, rfl⟩ := hca
      obtain ⟨k', bk', d, g1, g2, g3, _⟩ := C07_causality h hb hmi
      rw [hcid] at h4 g3
      have := inj hnd h3 g2 (h4.symm.trans g3)
      omega
    rcases Nat.lt_or_gt_of_ne hne with hlt | hlt
    · exact lt hlt hb hb' hca hca'
    · exact lt hlt hb' hb hca' hca
  have hann : ∀ {i i' : Nat} {b : OperationSeals Seal} {a s}, idAt cid i b = idAt cid i' b → Announces cid i b a s → Announces cid i' b a s := by
    rintro i i' b a s e ⟨h1, h2⟩
    exact ⟨by rw [← e]; exact h1, h2⟩
  have hopen : ∀ {i i' : Nat} {b : OperationSeals Seal} {a s}, (b₀ :: rest)[i]? = some b → (b₀ :: rest')[i']? = some b →
      idAt cid i' b = idAt cid i b → Consumes b a →
      OpenAt cid (b₀ :: rest) i a s → OpenAt cid (b₀ :: rest') i' a s := by
    rintro i i' b a s hb hb' e hca ⟨j, bj, hj, hbj, han, hno⟩
    obtain ⟨j', hbj', ej⟩ := back hbj
    have han' := hann ej han
    refine ⟨j', bj, htop i' j' b bj a hb' hbj' hca han'.1, hbj', han', ?_⟩
    intro k' bk' hk1 hk2 hbk'
    refine ⟨?_, ?_⟩
    · intro hck
      obtain ⟨k, hbk, ek⟩ := there hbk'
      have hik := once hb hbk hca hck
      subst hik
      rw [hb] at hbk
      simp only [Option.some.injEq] at hbk
      subst hbk
      have := inj hnd' hb' hbk' (e.trans ek.symm)
      omega
    · rintro s' ⟨hs', _⟩
      have := inj hnd' hbj' hbk' (han'.1.symm.trans hs')
      omega
  have hseals : ∀ {i i' : Nat} {b : OperationSeals Seal} {seals}, (b₀ :: rest)[i]? = some b → (b₀ :: rest')[i']? = some b →
      idAt cid i' b = idAt cid i b →
      List.Forall₂ (fun (inp : Input) s => OpenAt cid (b₀ :: rest) i inp.addr s) b.operation.destructibleIn seals →
      List.Forall₂ (fun (inp : Input) s => OpenAt cid (b₀ :: rest') i' inp.addr s) b.operation.destructibleIn seals := by
    intro i i' b seals hb hb' e hf
    have : ∀ inp ∈ b.operation.destructibleIn, Consumes b inp.addr := fun inp hi => ⟨inp, hi, rfl⟩
    generalize b.operation.destructibleIn = l at hf this
    induction hf with
    | nil => exact .nil
    | cons ha _ ih =>
      exact .cons (hopen hb hb' e (this _ (by simp)) ha) (ih fun inp hi => this inp (by simp [hi]))
  have hknown : ∀ {l : List (OperationSeals Seal)} {n : Nat} {o}, ContractApi.isKnown Seal c o = true →
      ContractApi.isKnown Seal (contractAt cid c l n) o = true := by
    intro l n o hko
    rw [contractAt_eq_foldl]
    generalize callbacksUpTo cid c l n = cs
    clear * - hko hm
    induction cs generalizing c with
    | nil => exact hko
    | cons x cs ih => exact ih (hm c x o hko)
  have hv' : ValidConsignment c (b₀ :: rest') := by
    intro i' b hb'
    obtain ⟨i, hb, e⟩ := there hb'
    have vb := hv i b hb
    obtain ⟨seals, g1, g2, g3⟩ := vb.closed
    rw [hcid] at g1 g2
    refine ⟨?_, vb.committed, vb.distinct, ⟨seals, by rw [hcid]; exact hseals hb hb' e g1, by rw [hcid, e]; exact g2, g3⟩, ?_⟩
    · intro hi
      subst hi
      have hb0 : b₀ = b := by simpa using hb'
      subst hb0
      exact (hv 0 b₀ rfl).codex rfl
    · intro hkf
      rw [hcid, e] at hkf
      rw [hknown (hk i b hb)] at hkf
      simp at hkf
  obtain ⟨o', k1, k2, _⟩ := evaluate_of_delivers hr hv'
  refine ⟨o', ⟨k1, k2, hr⟩, ?_⟩
  classical
  let f : Opid × OperationSeals Seal → List (Call Seal) := fun x =>
    if hx : ∃ seals, ∃ i : Nat, (b₀ :: rest)[i]? = some x.2 ∧ x.1 = idAt cid i x.2 ∧
      List.Forall₂ (fun (inp : Input) s => OpenAt cid (b₀ :: rest) i inp.addr s) x.2.operation.destructibleIn seals
    then sealQueries x.1 x.2 hx.choose else []
  have hf : ∀ (i : Nat) b seals, (b₀ :: rest)[i]? = some b →
      List.Forall₂ (fun (inp : Input) s => OpenAt cid (b₀ :: rest) i inp.addr s) b.operation.destructibleIn seals →
      f (idAt cid i b, b) = sealQueries (idAt cid i b) b seals := by
    intro i b seals hb hfs
    have hx : ∃ seals, ∃ j : Nat, (b₀ :: rest)[j]? = some b ∧ idAt cid i b = idAt cid j b ∧
      List.Forall₂ (fun (inp : Input) s => OpenAt cid (b₀ :: rest) j inp.addr s) b.operation.destructibleIn seals :=
      ⟨seals, i, hb, rfl, hfs⟩
    have e : f (idAt cid i b, b) = sealQueries (idAt cid i b) b hx.choose := dif_pos hx
    rw [e]
    obtain ⟨j, hj, ej, hfj⟩ := hx.choose_spec
    have hij := inj hnd hb hj ej
    subst hij
    rw [sealed_unique hfs hfj]
  have e1 := closings_of h (f := f) (by rw [hcid]; exact hf)
  have e2 := closings_of ⟨k1, k2, hr⟩ (f := f) (by
    rw [hcid]
    intro i' b seals hb' hfs
    obtain ⟨i, hb, e⟩ := there hb'
    obtain ⟨seals₀, g1, _⟩ := (hv i b hb).closed
    rw [hcid] at g1
    rw [e, hf i b seals₀ hb g1, sealed_unique (hseals hb hb' e g1) hfs])
  rw [e1, e2, hcid]
  exact hperm.flatMap_right f

end

namespace Demo
/-- A transfer of genesis output 1 only. -/
def sendB : Block := ⟨op 103 [at_ 100 1] [.abs 8], .collect [(0, .abs 8)], some (wit 52 [5] 103)⟩

/-- A ledger which knows the operations of both orders. -/
def informed : Ledger := { ledger with known := [⟨100⟩, ⟨101⟩, ⟨103⟩] }

theorem ledger_mono (c : Ledger) (x : Call Nat) (o : Opid) (h : ContractApi.isKnown Nat c o = true) :
    ContractApi.isKnown Nat (perform c x) o = true := by
  cases x <;> first | exact h | skip
  simp only [ContractApi.isKnown, perform, ContractApi.applyOperation, List.contains_cons, Bool.or_eq_true] at *
  exact .inr h
end Demo

open Demo in
example : ∃ o o', Accepted informed (Tape.mk [genesis, transfer1, sendB] none) [genesis, transfer1, sendB] o ∧
    Accepted informed (Tape.mk [genesis, sendB, transfer1] none) [genesis, sendB, transfer1] o' ∧
    (o'.world.calls.filter IsClosing).Perm (o.world.calls.filter IsClosing) ∧
    o.world.calls.filter IsClosing ≠ [] := by
  obtain ⟨o, h⟩ := accepted_of_accepts (c := informed) (bs := [genesis, transfer1, sendB]) (by decide +kernel)
  obtain ⟨o', h', hp⟩ := C38_reordering (rest' := [sendB, transfer1]) h ledger_mono
    (by
      intro i b hb
      match i, hb with
      | 0, hb => obtain rfl : genesis = b := by simpa using hb
                 decide +kernel
      | 1, hb => obtain rfl : transfer1 = b := by simpa using hb
                 decide +kernel
      | 2, hb => obtain rfl : sendB = b := by simpa using hb
                 decide +kernel
      | n + 3, hb => simp at hb)
    (by decide +kernel) (List.Perm.swap _ _ _)
    (by
      intro i j bi bj a hi hj hc he
      match i, hi with
      | 0, hi => obtain rfl : genesis = bi := by simpa using hi
                 obtain ⟨_, hm, _⟩ := hc
                 simp [genesis, genesisOp, op] at hm
      | 1, hi => obtain rfl : sendB = bi := by simpa using hi
                 obtain ⟨inp, hm, rfl⟩ := hc
                 obtain rfl : inp = ⟨at_ 100 1, .none⟩ := by simpa [sendB, op] using hm
                 match j, hj with
                 | 0, _ => decide
                 | 1, hj => obtain rfl : sendB = bj := by simpa using hj
                            exact absurd he (by decide +kernel)
                 | 2, hj => obtain rfl : transfer1 = bj := by simpa using hj
                            exact absurd he (by decide +kernel)
                 | n + 3, hj => simp at hj
      | 2, hi => obtain rfl : transfer1 = bi := by simpa using hi
                 obtain ⟨inp, hm, rfl⟩ := hc
                 obtain rfl : inp = ⟨at_ 100 0, .none⟩ := by simpa [transfer1, op] using hm
                 match j, hj with
                 | 0, _ => decide
                 | 1, _ => decide
                 | 2, hj => obtain rfl : transfer1 = bj := by simpa using hj
                            exact absurd he (by decide +kernel)
                 | n + 3, hj => simp at hj
      | n + 3, hi => simp at hi)
    (tape_delivers [genesis, sendB, transfer1])
  refine ⟨o, o', h, h', hp, ?_⟩
  rw [calls_of h]
  have hm : Call.verifySealsClosing (wit 52 [5] 103) [5] (103 : Bytes32) ∈
      (callsOf informed [genesis, transfer1, sendB]).filter IsClosing := List.mem_of_getElem? (i := 1) rfl
  exact List.ne_nil_of_mem hm

/-! ## C39 -/

section
variable {Seal : Type} [LinearOrder Seal] [RgbSeal Seal] [OpHash]
variable {C E : Type} [ContractApi Seal C]
variable {R : Type} [ReadOperation Seal R]

theorem withheld_block {cid : ContractId} {blocks blocks' : List (OperationSeals Seal)} (h : Withheld cid blocks blocks')
    {i : Nat} {b' : OperationSeals Seal} (hb : blocks'[i]? = some b') :
    ∃ b, blocks[i]? = some b ∧
      Pruned b b' fun p => ∀ (k : Nat) bk, i < k → blocks[k]? = some bk → ¬ Consumes bk ⟨idAt cid i b, p⟩ := by
  have hlt := lt_length_of_getElem? hb
  rw [h.length] at hlt
  exact ⟨blocks[i], by simp, h.pruned i _ _ (by simp) hb⟩

theorem pruned_id {b b' : OperationSeals Seal} {P} (h : Pruned b b' P) (cid : ContractId) (i : Nat) :
    opAt cid i b' = opAt cid i b ∧ idAt cid i b' = idAt cid i b := by
  unfold idAt opAt; rw [h.operation]; exact ⟨rfl, rfl⟩

theorem withheld_open {cid : ContractId} {blocks blocks' : List (OperationSeals Seal)} (h : Withheld cid blocks blocks')
    {i : Nat} {b : OperationSeals Seal} (hb : blocks[i]? = some b) {a : CellAddr} {s : Seal} (hc : Consumes b a)
    (ho : OpenAt cid blocks i a s) : OpenAt cid blocks' i a s := by
  obtain ⟨j, bj, hj, hbj, ⟨h1, d, h2, h3⟩, h4⟩ := ho
  have hlt := lt_length_of_getElem? hbj
  have hlt' : j < blocks'.length := by rw [h.length]; exact hlt
  have hpr := h.pruned j bj blocks'[j] hbj (by simp)
  refine ⟨j, blocks'[j], hj, by simp, ⟨by rw [(pruned_id hpr _ _).2]; exact h1, d, ?_, by rw [hpr.witness]; exact h3⟩, ?_⟩
  · by_contra hno
    refine hpr.dropped _ _ h2 hno i b hj hb ?_
    rw [← h1]; exact hc
  · intro k bk' hjk hki hbk'
    obtain ⟨bk, hbk, hp⟩ := withheld_block h hbk'
    obtain ⟨h5, h6⟩ := h4 k bk hjk hki hbk
    refine ⟨?_, ?_⟩
    · rintro ⟨inp, hm, rfl⟩
      rw [hp.operation] at hm
      exact h5 ⟨inp, hm, rfl⟩
    · rintro s' ⟨g1, d', g2, g3⟩
      rw [(pruned_id hp _ _).2] at g1
      rw [hp.witness] at g3
      exact h6 s' ⟨g1, d', hp.kept _ g2, g3⟩

theorem withheld_seals {cid : ContractId} {blocks blocks' : List (OperationSeals Seal)} (h : Withheld cid blocks blocks')
    {i : Nat} {b : OperationSeals Seal} (hb : blocks[i]? = some b) {seals : List Seal}
    (hf : List.Forall₂ (fun (inp : Input) s => OpenAt cid blocks i inp.addr s) b.operation.destructibleIn seals) :
    List.Forall₂ (fun (inp : Input) s => OpenAt cid blocks' i inp.addr s) b.operation.destructibleIn seals := by
  have : ∀ inp ∈ b.operation.destructibleIn, Consumes b inp.addr := fun inp hi => ⟨inp, hi, rfl⟩
  generalize b.operation.destructibleIn = l at hf this
  induction hf with
  | nil => exact .nil
  | cons ha _ ih => exact .cons (withheld_open h hb (this _ (by simp)) ha) (ih fun inp hi => this inp (by simp [hi]))

theorem blind_seals {S : C → C → Prop} (hS : SealBlind (Seal := Seal) S) {c d : C} (h : S c d) (o o' : Opid)
    (b b' : OperationSeals Seal) : S ((sealCallbacks o b).foldl perform c) ((sealCallbacks o' b').foldl perform d) := by
  have h1 : S ((sealCallbacks o b).foldl perform c) d := by
    unfold sealCallbacks
    split
    · exact h
    · exact hS.sealsLeft _ _ h _ _
  generalize (sealCallbacks o b).foldl perform c = c' at h1 ⊢
  unfold sealCallbacks
  split
  · exact h1
  · exact hS.sealsRight _ _ h1 _ _

theorem blind_operation {S : C → C → Prop} (hS : SealBlind (Seal := Seal) S) {c d : C} (h : S c d) (cid : ContractId) (i : Nat)
    {b b' : OperationSeals Seal} {P} (hp : Pruned b b' P) : operationCallbacks cid d i b' = operationCallbacks cid c i b := by
  unfold operationCallbacks
  rw [(pruned_id hp cid i).1, (pruned_id hp cid i).2, hS.isKnown _ _ h, hS.verify _ _ h]

theorem blind_at {S : C → C → Prop} (hS : SealBlind (Seal := Seal) S) (c : C) {cid : ContractId}
    {blocks blocks' : List (OperationSeals Seal)} (h : Withheld cid blocks blocks') (n : Nat) :
    S (contractAt cid c blocks n) (contractAt cid c blocks' n) := by
  induction n with
  | zero => exact hS.refl c
  | succ n ih =>
    simp only [contractAt]
    cases hb' : blocks'[n]? with
    | none =>
      have : blocks[n]? = none := by
        rw [List.getElem?_eq_none_iff] at hb' ⊢
        rw [← h.length]; exact hb'
      rw [this]
      exact ih
    | some b' =>
      obtain ⟨b, hb, hp⟩ := withheld_block h hb'
      rw [hb]
      simp only [callbacks, List.foldl_append]
      refine blind_seals hS ?_ _ _ _ _
      rw [blind_operation hS ih cid n hp]
      have hw : witnessCallbacks (idAt cid n b') b' = witnessCallbacks (idAt cid n b) b := by
        unfold witnessCallbacks; rw [hp.witness, (pruned_id hp cid n).2]
      rw [hw]
      have h1 : S ((witnessCallbacks (idAt cid n b) b).foldl perform (contractAt cid c blocks n))
          ((witnessCallbacks (idAt cid n b) b).foldl perform (contractAt cid c blocks' n)) := by
        unfold witnessCallbacks
        split
        · exact hS.witness _ _ ih _ _
        · exact ih
      unfold operationCallbacks
      split
      · exact h1
      · split
        · exact hS.operation _ _ h1 _
        · exact h1

theorem withheld_valid {S : C → C → Prop} (hS : SealBlind (Seal := Seal) S) {c : C}
    {blocks blocks' : List (OperationSeals Seal)} (h : Withheld (ContractApi.contractId Seal c) blocks blocks')
    (hv : ValidConsignment c blocks) : ValidConsignment c blocks' := by
  intro i b' hb'
  obtain ⟨b, hb, hp⟩ := withheld_block h hb'
  have vb := hv i b hb
  have hc := blind_at hS c h i
  obtain ⟨seals, g1, g2, g3⟩ := vb.closed
  refine ⟨by rw [hp.operation]; exact vb.codex, ?_, by rw [hp.operation]; exact vb.distinct, ⟨seals, ?_, ?_, ?_⟩, ?_⟩
  · intro p d hd
    rw [hp.operation]
    exact vb.committed p d (hp.kept _ hd)
  · rw [hp.operation]; exact withheld_seals h hb g1
  · rw [hp.witness, (pruned_id hp _ _).2]; exact g2
  · rw [hp.witness]; exact g3
  · rw [(pruned_id hp _ _).1, (pruned_id hp _ _).2, ← hS.isKnown _ _ hc, ← hS.verify _ _ hc]
    exact vb.script

theorem filter_flatten_congr {α : Type} {p : α → Bool} : ∀ {xs ys : List (List α)}, xs.length = ys.length →
    (∀ (i : Nat) x y, xs[i]? = some x → ys[i]? = some y → x.filter p = y.filter p) →
    xs.flatten.filter p = ys.flatten.filter p
  | [], [], _, _ => rfl
  | x :: xs, y :: ys, hl, h => by
    rw [List.flatten_cons, List.flatten_cons, List.filter_append, List.filter_append, h 0 x y rfl rfl,
      filter_flatten_congr (by simpa using hl) fun i x y hx hy => h (i + 1) x y (by simpa using hx) (by simpa using hy)]

/-- Leaving out revealed seal definitions that no later block consumes keeps a consignment accepted.
The whole sequence of interactions is the same except for the reports of seals, and so are the answers
of the contract afterwards. -/
theorem C39_withholding {S : C → C → Prop} (hS : SealBlind (Seal := Seal) S) {c : C} {r : R}
    {blocks blocks' : List (OperationSeals Seal)} {o} (h : Accepted c r blocks o)
    (hw : Withheld (ContractApi.contractId Seal c) blocks blocks')
    {R' : Type} [ReadOperation Seal R'] {r' : R'} (hr : Delivers r' blocks') :
    ∃ o', Accepted c r' blocks' o' ∧
      (o'.world.calls.filter fun x => !IsSealReport x) = (o.world.calls.filter fun x => !IsSealReport x) ∧
      S o.world.contract o'.world.contract := by
  obtain ⟨o', k1, k2, _⟩ := evaluate_of_delivers hr (withheld_valid hS hw h.valid)
  have h' : Accepted c r' blocks' o' := ⟨k1, k2, hr⟩
  refine ⟨o', h', ?_, ?_⟩
  · obtain ⟨segs, g1, g2⟩ := h.trace
    obtain ⟨segs', g1', g2'⟩ := h'.trace
    have : segs'.flatten.filter (fun x => !IsSealReport x) = segs.flatten.filter fun x => !IsSealReport x := by
      refine filter_flatten_congr (by rw [g1.1, g1'.1, hw.length]) ?_
      intro i l' l hl' hl
      have hlt : i < blocks'.length := by rw [← g1'.1]; exact lt_length_of_getElem? hl'
      obtain ⟨b, hb, hp⟩ := withheld_block hw (i := i) (b' := blocks'[i]) (by simp)
      obtain ⟨seals, q1, rfl⟩ := g1.2 i b l hb hl
      obtain ⟨seals', q1', rfl⟩ := g1'.2 i blocks'[i] l' (by simp) hl'
      rw [hp.operation] at q1'
      have := sealed_unique (withheld_seals hw hb q1) q1'
      subst this
      have hc := blind_at hS c hw i
      have e1 : queries (ContractApi.contractId Seal c) (contractAt (ContractApi.contractId Seal c) c blocks' i) i blocks'[i] =
          queries (ContractApi.contractId Seal c) (contractAt (ContractApi.contractId Seal c) c blocks i) i b := by
        unfold queries
        rw [(pruned_id hp _ _).1, (pruned_id hp _ _).2, hS.isKnown _ _ hc]
      have e2 : sealQueries (idAt (ContractApi.contractId Seal c) i blocks'[i]) blocks'[i] seals' =
          sealQueries (idAt (ContractApi.contractId Seal c) i b) b seals' := by
        unfold sealQueries
        rw [hp.witness, (pruned_id hp _ _).2]
      have e3 : witnessCallbacks (idAt (ContractApi.contractId Seal c) i blocks'[i]) blocks'[i] =
          witnessCallbacks (idAt (ContractApi.contractId Seal c) i b) b := by
        unfold witnessCallbacks
        rw [hp.witness, (pruned_id hp _ _).2]
      have e4 : ∀ o (b : OperationSeals Seal), (sealCallbacks o b).filter (fun x => !IsSealReport x) = [] := by
        intro o b; unfold sealCallbacks; split <;> rfl
      simp only [callbacks, e1, e2, e3, blind_operation hS hc _ _ hp, List.filter_cons, List.filter_append, e4]
    rw [g2, g2', List.filter_append, List.filter_append, List.filter_append, List.filter_append, this]
  · rw [h.shape.contract, h'.shape.contract, hw.length]
    exact blind_at hS c hw _

end

namespace Demo
/-- Genesis not revealing the seal of output 2, which the story does not spend. -/
def discreetGenesis : Block := ⟨genesisOp, .collect [(0, .abs 1), (1, .abs 5)], none⟩

/-- Ledgers equal up to the record of seals. -/
def sameButSeals (l l' : Ledger) : Prop := { l with sealLog := [] } = { l' with sealLog := [] }

theorem ledger_blind : SealBlind (Seal := Nat) sameButSeals := by
  have key : ∀ l l', sameButSeals l l' → ∃ s, l' = { l with sealLog := s } := by
    intro l l' h
    cases l; cases l'
    simp only [sameButSeals, Ledger.mk.injEq] at h
    obtain ⟨rfl, rfl, rfl, rfl, _, rfl⟩ := h
    exact ⟨_, rfl⟩
  refine ⟨fun _ => rfl, ?_, ?_, ?_, ?_, ?_, ?_⟩ <;> intro c d h <;> obtain ⟨s, rfl⟩ := key _ _ h <;> intros <;> rfl

scoped instance : DecidableEq (RgbSeal.Definition Nat) := inferInstanceAs (DecidableEq Def)

theorem withheld_story : Withheld (Seal := Nat) ⟨9⟩ story [discreetGenesis, transfer1, transfer2] := by
  refine ⟨rfl, ?_⟩
  intro i b b' hb hb'
  match i, hb, hb' with
  | 0, hb, hb' =>
    obtain rfl : genesis = b := by simpa [story] using hb
    obtain rfl : discreetGenesis = b' := by simpa using hb'
    refine ⟨rfl, rfl, by decide +kernel, ?_⟩
    have hall : ∀ e ∈ genesis.definedSeals.entries, e ∉ discreetGenesis.definedSeals.entries → e.1 = 2 := by decide +kernel
    intro p d hd hno k bk hk hbk hc
    obtain rfl : p = 2 := hall _ hd hno
    obtain ⟨inp, hm, he⟩ := hc
    match k, hbk with
    | 1, hbk =>
      obtain rfl : transfer1 = bk := by simpa [story] using hbk
      obtain rfl : inp = ⟨at_ 100 0, .none⟩ := by simpa [transfer1, op] using hm
      exact absurd he (by decide +kernel)
    | 2, hbk =>
      obtain rfl : transfer2 = bk := by simpa [story] using hbk
      have hm' : inp = ⟨at_ 101 0, .none⟩ ∨ inp = ⟨at_ 100 1, .none⟩ := by simpa [transfer2, op] using hm
      rcases hm' with rfl | rfl
      · exact absurd he (by decide +kernel)
      · exact absurd he (by decide +kernel)
    | n + 3, hbk => simp [story] at hbk
  | 1, hb, hb' =>
    obtain rfl : transfer1 = b := by simpa [story] using hb
    obtain rfl : transfer1 = b' := by simpa using hb'
    exact ⟨rfl, rfl, fun _ h => h, fun _ _ h h' => absurd h h'⟩
  | 2, hb, hb' =>
    obtain rfl : transfer2 = b := by simpa [story] using hb
    obtain rfl : transfer2 = b' := by simpa using hb'
    exact ⟨rfl, rfl, fun _ h => h, fun _ _ h h' => absurd h h'⟩
  | n + 3, hb, _ => simp [story] at hb
end Demo

open Demo in
example : genesis.definedSeals.entries ≠ discreetGenesis.definedSeals.entries ∧
    ∃ o', Accepted ledger (Tape.mk [discreetGenesis, transfer1, transfer2] none) [discreetGenesis, transfer1, transfer2] o' := by
  obtain ⟨o, h⟩ := story_run
  obtain ⟨o', h', _⟩ := C39_withholding ledger_blind h withheld_story (tape_delivers _)
  refine ⟨fun e => ?_, o', h'⟩
  have : genesis.definedSeals.entries.length = discreetGenesis.definedSeals.entries.length := by rw [e]
  exact absurd this (by decide +kernel)

/-! ## C43 and C52 -/

section
variable {Seal : Type} [LinearOrder Seal] [RgbSeal Seal] [OpHash]
variable {C E : Type} [ContractApi Seal C]
variable {R : Type} [ReadOperation Seal R]

/-- Blocks of any two consignments for the contract `cid` that announce seals for the same address carry the same operation, or
exhibit two different operations with the same id.  (The operation of a first block is taken with the
contract id in place of the codex id.) -/
theorem C43_same_creator {cid : ContractId} {i j : Nat} {b b' : OperationSeals Seal} {a : CellAddr} {s s' : Seal}
    (ha : Announces cid i b a s) (ha' : Announces cid j b' a s') :
    opAt cid i b = opAt cid j b' ∨ ∃ op op', op ≠ op' ∧ opid op = opid op' := by
  by_cases he : opAt cid i b = opAt cid j b'
  · exact .inl he
  · exact .inr ⟨_, _, he, ha.1.symm.trans ha'.1⟩

/-- Whoever consumes a cell in an accepted consignment, its creator is in that consignment, and it is
the same operation as the creator in any other accepted consignment consuming the cell, unless two
operations occurring there have the same id. -/
theorem C43_consumed {C' : Type} [ContractApi Seal C'] {R' : Type} [ReadOperation Seal R'] {c : C} {c' : C'} {r : R} {r' : R'}
    {xs ys : List (OperationSeals Seal)} {o o'} (h : Accepted c r xs o) (h' : Accepted c' r' ys o')
    (hcid : ContractApi.contractId Seal c' = ContractApi.contractId Seal c)
    (hno : NoCollision (ContractApi.contractId Seal c) xs ys)
    {i j : Nat} {b b' : OperationSeals Seal} (hb : xs[i]? = some b) (hb' : ys[j]? = some b') {a : CellAddr}
    (hc : Consumes b a) (hc' : Consumes b' a) :
    ∃ k l bk bl, k < i ∧ l < j ∧ xs[k]? = some bk ∧ ys[l]? = some bl ∧
      a.opid = idAt (ContractApi.contractId Seal c) k bk ∧ a.opid = idAt (ContractApi.contractId Seal c) l bl ∧
      opAt (ContractApi.contractId Seal c) k bk = opAt (ContractApi.contractId Seal c) l bl := by
  obtain ⟨inp, hi, rfl⟩ := hc
  obtain ⟨inp', hi', e⟩ := hc'
  obtain ⟨k, bk, _, k1, k2, k3, _⟩ := C07_causality h hb hi
  obtain ⟨l, bl, _, l1, l2, l3, _⟩ := C07_causality h' hb' hi'
  rw [hcid, e] at l3
  exact ⟨k, l, bk, bl, k1, l1, k2, l2, k3, l3, hno k l bk bl k2 l2 (k3.symm.trans l3)⟩

/-- Two accepted consignments for the same contract that both contain the operation with id `x` agree
on its whole ancestry: every operation from which `x` descends in the first is in the second too, the
same operation with the same id, and `x` descends from it there too, unless two operations occurring
there have the same id. -/
theorem C52_common_ancestry {C' : Type} [ContractApi Seal C'] {R' : Type} [ReadOperation Seal R'] {c : C} {c' : C'} {r : R} {r' : R'}
    {xs ys : List (OperationSeals Seal)} {o o'} (h : Accepted c r xs o) (h' : Accepted c' r' ys o')
    (hcid : ContractApi.contractId Seal c' = ContractApi.contractId Seal c)
    (hno : NoCollision (ContractApi.contractId Seal c) xs ys) {x y : Opid}
    (hx : ∃ (j : Nat) (b : OperationSeals Seal), ys[j]? = some b ∧ x = idAt (ContractApi.contractId Seal c) j b)
    (hxy : Relation.TransGen (Spends (ContractApi.contractId Seal c) xs) x y) :
    Relation.TransGen (Spends (ContractApi.contractId Seal c) ys) x y ∧
      ∃ (i j : Nat) (b b' : OperationSeals Seal), xs[i]? = some b ∧ ys[j]? = some b' ∧
        y = idAt (ContractApi.contractId Seal c) i b ∧ y = idAt (ContractApi.contractId Seal c) j b' ∧
        opAt (ContractApi.contractId Seal c) i b = opAt (ContractApi.contractId Seal c) j b' := by
  have step : ∀ {x y : Opid}, (∃ (j : Nat) (b : OperationSeals Seal), ys[j]? = some b ∧ x = idAt (ContractApi.contractId Seal c) j b) →
      Spends (ContractApi.contractId Seal c) xs x y → Spends (ContractApi.contractId Seal c) ys x y ∧
      ∃ (i j : Nat) (b b' : OperationSeals Seal), xs[i]? = some b ∧ ys[j]? = some b' ∧
        y = idAt (ContractApi.contractId Seal c) i b ∧ y = idAt (ContractApi.contractId Seal c) j b' ∧
        opAt (ContractApi.contractId Seal c) i b = opAt (ContractApi.contractId Seal c) j b' := by
    rintro x y ⟨j, b', hb', rfl⟩ ⟨i, b, p, hb, e, hc⟩
    have hop := hno i j b b' hb hb' e.symm
    have hin : b.operation.destructibleIn = b'.operation.destructibleIn := by
      have hd := congrArg Operation.destructibleIn hop
      unfold opAt at hd
      split at hd <;> split at hd <;> exact hd
    have hc' : Consumes b' ⟨y, p⟩ := by
      obtain ⟨inp, hm, e⟩ := hc
      exact ⟨inp, hin ▸ hm, e⟩
    obtain ⟨k, l, bk, bl, _, _, h1, h2, h3, h4, h5⟩ := C43_consumed h h' hcid hno hb hb' hc hc'
    exact ⟨⟨j, b', p, hb', rfl, hc'⟩, k, l, bk, bl, h1, h2, h3, h4, h5⟩
  induction hxy with
  | single hs =>
    obtain ⟨h1, h2⟩ := step hx hs
    exact ⟨.single h1, h2⟩
  | tail _ hs ih =>
    obtain ⟨h1, i, j, b, b', g1, g2, g3, g4, g5⟩ := ih
    obtain ⟨h2, h3⟩ := step ⟨j, b', g2, g4⟩ hs
    exact ⟨h1.tail h2, h3⟩

end

open Demo in
example : ∃ o o', Accepted ledger (Tape.mk story none) story o ∧
    Accepted ledger (Tape.mk [genesis, transfer1] none) [genesis, transfer1] o' ∧
    NoCollision (Seal := Nat) ⟨9⟩ story [genesis, transfer1] ∧
    Relation.TransGen (Spends (Seal := Nat) ⟨9⟩ story) ⟨102⟩ ⟨100⟩ ∧
    Relation.TransGen (Spends (Seal := Nat) ⟨9⟩ [genesis, transfer1]) ⟨101⟩ ⟨100⟩ := by
  obtain ⟨o, h⟩ := story_run
  obtain ⟨o', h'⟩ := accepted_of_accepts (c := ledger) (bs := [genesis, transfer1]) (by decide +kernel)
  have hno : NoCollision (Seal := Nat) ⟨9⟩ story [genesis, transfer1] := by
    intro i j b b' hb hb' he
    match i, j, hb, hb' with
    | 0, 0, hb, hb' =>
      obtain rfl : genesis = b := by simpa [story] using hb
      obtain rfl : genesis = b' := by simpa using hb'
      rfl
    | 1, 1, hb, hb' =>
      obtain rfl : transfer1 = b := by simpa [story] using hb
      obtain rfl : transfer1 = b' := by simpa using hb'
      rfl
    | 0, 1, hb, hb' =>
      obtain rfl : genesis = b := by simpa [story] using hb
      obtain rfl : transfer1 = b' := by simpa using hb'
      exact absurd he (by decide +kernel)
    | 1, 0, hb, hb' =>
      obtain rfl : transfer1 = b := by simpa [story] using hb
      obtain rfl : genesis = b' := by simpa using hb'
      exact absurd he (by decide +kernel)
    | 2, 0, hb, hb' =>
      obtain rfl : transfer2 = b := by simpa [story] using hb
      obtain rfl : genesis = b' := by simpa using hb'
      exact absurd he (by decide +kernel)
    | 2, 1, hb, hb' =>
      obtain rfl : transfer2 = b := by simpa [story] using hb
      obtain rfl : transfer1 = b' := by simpa using hb'
      exact absurd he (by decide +kernel)
    | n + 3, _, hb, _ => simp [story] at hb
    | _, n + 2, _, hb' => simp at hb'
  have s2 : Spends (Seal := Nat) ⟨9⟩ story ⟨102⟩ ⟨101⟩ :=
    ⟨2, transfer2, 0, rfl, by decide +kernel, ⟨at_ 101 0, .none⟩, by simp [transfer2, op], by decide +kernel⟩
  have s1 : Spends (Seal := Nat) ⟨9⟩ story ⟨101⟩ ⟨100⟩ :=
    ⟨1, transfer1, 0, rfl, by decide +kernel, ⟨at_ 100 0, .none⟩, by simp [transfer1, op], by decide +kernel⟩
  exact ⟨o, o', h, h', hno, .tail (.single s2) s1,
    (C52_common_ancestry h h' rfl hno ⟨1, transfer1, rfl, by decide +kernel⟩ (.single s1)).1⟩

/-! ## C49 -/

/-- A reader that delivers clones of what another reader delivers. -/
structure Cloned (R : Type) where
  inner : R

instance {Seal : Type} [LinearOrder Seal] [RgbSeal Seal] {R : Type} [ReadOperation Seal R] : ReadOperation Seal (Cloned R) where
  Error := ReadOperation.Error Seal R
  readOperation r := ((ReadOperation.readOperation r.inner).1.map (·.map OperationSeals.clone),
    ⟨(ReadOperation.readOperation (Seal := Seal) r.inner).2⟩)

section
variable {Seal : Type} [LinearOrder Seal] [RgbSeal Seal] [OpHash]
variable {C E : Type} [ContractApi Seal C]
variable {R : Type} [ReadOperation Seal R]

/-- A clone is equal to the original, field by field. -/
theorem C49_clone (b : OperationSeals Seal) : b.clone.operation = b.operation ∧
    b.clone.definedSeals = b.definedSeals ∧ b.clone.witness = b.witness ∧ b.clone = b := ⟨rfl, rfl, rfl, rfl⟩

theorem cloned_readAt (r : R) (n : Nat) : readAt Seal (Cloned.mk r) n = readAt Seal r n := by
  have hid : ∀ x : Except (ReadOperation.Error Seal R) (Option (OperationSeals Seal)),
      x.map (·.map OperationSeals.clone) = x := by
    rintro (e | _ | b) <;> rfl
  induction n generalizing r with
  | zero => exact hid _
  | succ n ih => exact ih _

theorem cloned_readerAfter (r : R) (n : Nat) : readerAfter Seal (Cloned.mk r) n = ⟨readerAfter Seal r n⟩ := by
  induction n generalizing r with
  | zero => rfl
  | succ n ih => exact ih _

/-- Evaluating a stream of clones is the same as evaluating the originals: same result, same calls,
same contract, same state of the underlying reader, and one terminates exactly if the other does. -/
theorem C49_cloned_stream (c : C) (r : R) :
    Option.Rel (fun (o : Outcome Seal R C (ReadOperation.Error Seal R)) (o' : Outcome Seal (Cloned R) C (ReadOperation.Error Seal R)) =>
      o'.result = o.result ∧ o'.world = o.world ∧ o'.reader = ⟨o.reader⟩) (evaluate c r) (evaluate c (Cloned.mk r)) := by
  have hm : ∀ {α : Type} (x : Except (ReadOperation.Error Seal R) α), x.mapError id = x := by
    intro α x; cases x <;> rfl
  have hms : ∀ x : Except (VerificationError Seal (ReadOperation.Error Seal R)) Unit, x.mapError (·.mapStream id) = x := by
    rintro (e | _)
    · cases e <;> rfl
    · rfl
  cases h : evaluate (Seal := Seal) c r with
  | none =>
    cases h' : evaluate (Seal := Seal) c (Cloned.mk r) with
    | none => exact .none
    | some o' =>
      obtain ⟨o, k, _⟩ := C24_reader_extensional (r := Cloned.mk r) (r' := r) id
        (fun n => by rw [cloned_readAt]; exact (hm _).symm) h'
      rw [h] at k
      simp at k
  | some o =>
    obtain ⟨o', k1, k2, k3⟩ := C24_reader_extensional (r := r) (r' := Cloned.mk r) id
        (fun n => by rw [cloned_readAt]; exact (hm _).symm) h
    rw [k1]
    refine .some ⟨k2.trans (hms _), k3, ?_⟩
    obtain ⟨n, p1, p2, _⟩ := C24_polls h
    obtain ⟨n', q1, q2, _⟩ := C24_polls k1
    rw [k3, p1] at q1
    obtain rfl : n = n' := by omega
    rw [q2, p2, cloned_readerAfter]

end

open Demo in
example : ∃ o, Accepted ledger (Cloned.mk (Tape.mk story none)) story o := by
  have h := C49_cloned_stream (Seal := Nat) ledger (Tape.mk story none)
  obtain ⟨o, h1⟩ := story_run
  rw [h1.run] at h
  cases hc : evaluate (Seal := Nat) ledger (Cloned.mk (Tape.mk story none)) with
  | none => rw [hc] at h; cases h
  | some o' =>
    rw [hc] at h
    cases h with
    | some h =>
      refine ⟨o', hc, h.1.trans h1.ok, ?_⟩
      have := tape_reads story [] none
      refine ⟨⟨Tape.mk [] none⟩, ⟨Tape.mk [] none⟩, ?_, rfl⟩
      exact .cons rfl (.cons rfl (.cons rfl (.nil _)))

end Rgb
