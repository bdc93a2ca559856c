import Verif.Props.Owners
import Verif.Props.History

set_option linter.unusedSectionVars false

/-! # C64: conflicting operations -/

namespace Rgb
open Spec

section
variable {Seal : Type} [LinearOrder Seal] [RgbSeal Seal] [OpHash]
variable {C E : Type} [ContractApi Seal C]
variable {R : Type} [ReadOperation Seal R]

theorem opAt_inputs {cid : ContractId} {i : Nat} {b : OperationSeals Seal} :
    (opAt cid i b).destructibleIn = b.operation.destructibleIn := by
  unfold opAt; split <;> rfl

theorem opAt_outputs {cid : ContractId} {i : Nat} {b : OperationSeals Seal} :
    (opAt cid i b).destructibleOut = b.operation.destructibleOut := by
  unfold opAt; split <;> rfl

/-- The seal of an open input is among the seals closed by the witness. -/
theorem closing_witness {c : C} {xs : List (OperationSeals Seal)} {i : Nat} {b : OperationSeals Seal} (hv : ValidBlock c xs i b)
    {inp : Input} (hi : inp ∈ b.operation.destructibleIn) :
    ∃ w seals s, b.witness = some w ∧ OpenAt (ContractApi.contractId Seal c) xs i inp.addr s ∧ s ∈ seals ∧
      RgbSeal.verifySealsClosing w.published w.client seals (message Seal (idAt (ContractApi.contractId Seal c) i b)) = .ok () := by
  obtain ⟨seals, h1, h2, h3⟩ := hv.closed
  obtain ⟨k, hk, rfl⟩ := List.getElem_of_mem hi
  have hk' : k < seals.length := by rw [← h1.length_eq]; exact hk
  have ho := (List.forall₂_iff_get.1 h1).2 k hk hk'
  cases hw : b.witness with
  | none =>
    have := h3 hw
    subst this
    simp at hk'
  | some w => exact ⟨w, seals, seals[k], rfl, ho, List.getElem_mem hk', h2 w hw⟩

theorem contend_ids (hsu : SingleUse Seal) {cid : ContractId} {xs ys : List (OperationSeals Seal)} {i j : Nat}
    {b b' : OperationSeals Seal} {w w' : SealWitness Seal} (h : Contend cid xs ys i j b b' w w') :
    RgbSeal.pubId w.published = RgbSeal.pubId w'.published ∧ message Seal (idAt cid i b) = message Seal (idAt cid j b') := by
  obtain ⟨_, _, _, _, seals, seals', s, hs, hs', k, k'⟩ := h
  exact hsu w w' seals seals' _ _ s k k' hs hs'

theorem noClash (hsu : SingleUse Seal) (hinj : Function.Injective (message Seal)) {cid : ContractId}
    {xs ys : List (OperationSeals Seal)} : NoClash cid xs ys := fun _ _ _ _ _ _ h =>
  ⟨(contend_ids hsu h).1, hinj (contend_ids hsu h).2⟩

theorem same_seal {C' : Type} [ContractApi Seal C'] {c : C} {c' : C'} {cid : ContractId}
    (hc : ContractApi.contractId Seal c = cid) (hc' : ContractApi.contractId Seal c' = cid)
    {xs ys : List (OperationSeals Seal)} (hv : ValidConsignment c xs) (hv' : ValidConsignment c' ys)
    (hw : WellFormed cid xs ys) (hn : ∀ i j b b' w w', Contend cid xs ys i j b b' w w' →
      RgbSeal.pubId w.published = RgbSeal.pubId w'.published) : ∀ (i : Nat) {j : Nat} {b b' : OperationSeals Seal} {a : CellAddr} {s s' : Seal},
      xs[i]? = some b → ys[j]? = some b' → Announces cid i b a s → Announces cid j b' a s' → s = s' := by
  intro i
  induction i using Nat.strongRecOn with
  | ind i ih =>
    intro j b b' a s s' hb hb' ⟨h1, d, hd, hs⟩ ⟨h1', d', hd', hs'⟩
    have hop := hw.collision i j b b' hb hb' (h1.symm.trans h1')
    have hin : b.operation.destructibleIn = b'.operation.destructibleIn := by
      rw [← opAt_inputs (cid := cid) (i := i), hop, opAt_inputs]
    have hout : b.operation.destructibleOut = b'.operation.destructibleOut := by
      rw [← opAt_outputs (cid := cid) (i := i), hop, opAt_outputs]
    have mb := List.mem_of_getElem? hb
    have mb' := List.mem_of_getElem? hb'
    obtain ⟨cell, e1, e2⟩ := hw.positions b (.inl mb) _ _ hd
    obtain ⟨cell', e1', e2'⟩ := hw.positions b' (.inr mb') _ _ hd'
    rw [hout, e1'] at e1
    obtain rfl := Option.some.inj e1
    obtain rfl := hw.tokens b mb b' mb' _ _ _ _ hd hd' (e2.symm.trans e2')
    rcases hs with hs | ⟨hs, w, hbw, rfl⟩
    · rcases hs' with hs' | ⟨hs', _⟩
      · exact Option.some.inj (hs.symm.trans hs')
      · rw [hs'] at hs; simp at hs
    · rcases hs' with hs' | ⟨_, w', hbw', rfl⟩
      · rw [hs] at hs'; simp at hs'
      · -- the definition is relative: the witnesses close a common seal
        have hne := hw.anchored b (.inl mb) _ _ hd hs
        obtain ⟨inp, hinp⟩ := List.exists_mem_of_ne_nil _ hne
        obtain ⟨w₁, seals, t, k1, k2, k3, k4⟩ := closing_witness (hv i b hb) hinp
        obtain ⟨w₁', seals', t', k1', k2', k3', k4'⟩ := closing_witness (hv' j b' hb') (hin ▸ hinp)
        obtain rfl : w = w₁ := Option.some.inj (hbw.symm.trans k1)
        obtain rfl : w' = w₁' := Option.some.inj (hbw'.symm.trans k1')
        rw [hc] at k2 k4
        rw [hc'] at k2' k4'
        obtain ⟨k, bk, hk, hbk, hak, _⟩ := k2
        obtain ⟨l, bl, _, hbl, hal, _⟩ := k2'
        obtain rfl := ih k hk hbk hbl hak hal
        rw [hn i j b b' w w' ⟨hb, hb', k1, k1', seals, seals', t, k3, k3', k4, k4'⟩]

/-- Valid consignments for the same contract never contain two different operations consuming the same
cell. -/
theorem no_conflict {C' : Type} [ContractApi Seal C'] {c : C} {c' : C'} {cid : ContractId}
    (hc : ContractApi.contractId Seal c = cid) (hc' : ContractApi.contractId Seal c' = cid)
    {xs ys : List (OperationSeals Seal)} (hv : ValidConsignment c xs) (hv' : ValidConsignment c' ys)
    (hw : WellFormed cid xs ys) (hn : NoClash cid xs ys)
    {i j : Nat} {b b' : OperationSeals Seal} (hb : xs[i]? = some b) (hb' : ys[j]? = some b')
    {a : CellAddr} (ha : Consumes b a) (ha' : Consumes b' a) : idAt cid i b = idAt cid j b' := by
  obtain ⟨inp, hi, rfl⟩ := ha
  obtain ⟨inp', hi', e⟩ := ha'
  obtain ⟨w, seals, t, k1, k2, k3, k4⟩ := closing_witness (hv i b hb) hi
  obtain ⟨w', seals', t', k1', k2', k3', k4'⟩ := closing_witness (hv' j b' hb') hi'
  rw [hc] at k2 k4
  rw [hc', e] at k2'
  rw [hc'] at k4'
  obtain ⟨k, bk, hk, hbk, hak, _⟩ := k2
  obtain ⟨l, bl, _, hbl, hal, _⟩ := k2'
  obtain rfl := same_seal hc hc' hv hv' hw (fun i j b b' w w' h => (hn i j b b' w w' h).1) k hbk hbl hak hal
  exact (hn i j b b' w w' ⟨hb, hb', k1, k1', seals, seals', t, k3, k3', k4, k4'⟩).2

/-- Where an applied operation comes from. -/
theorem applied_source (hl : Lawful Seal C) {c : C} (hf : Faithful (ContractApi.codex Seal c)) {r : R} {o}
    (h : evaluate (Seal := Seal) c r = some o) {v : VerifiedOperation} (hv : Call.applyOperation v ∈ o.world.calls) :
    ∃ (xs : List (OperationSeals Seal)) (i : Nat) (b : OperationSeals Seal), StartsWith r xs ∧ ValidConsignment c xs ∧ xs[i]? = some b ∧
      v.opid = idAt (ContractApi.contractId Seal c) i b ∧ v.operation = b.operation := by
  obtain ⟨pre, post, heq⟩ := List.append_of_mem hv
  obtain ⟨xs, i, b, _, _, cb₁, cb₂, h1, h2, h3, _, _, _, h4, _⟩ := locate h (x := .applyOperation v) rfl heq
  refine ⟨xs, i, b, h1, h2, h3, ?_⟩
  have hm : Call.applyOperation v ∈ callbacks (ContractApi.contractId Seal c)
      (contractAt (ContractApi.contractId Seal c) c xs i) i b := by rw [h4]; simp
  have hm' : Call.applyOperation v ∈ operationCallbacks (ContractApi.contractId Seal c)
      (contractAt (ContractApi.contractId Seal c) c xs i) i b := by
    rcases List.mem_append.1 hm with hm | hm
    · rcases List.mem_append.1 hm with hm | hm
      · unfold witnessCallbacks at hm; split at hm <;> simp at hm
      · exact hm
    · unfold sealCallbacks at hm; split at hm <;> simp at hm
  unfold operationCallbacks at hm'
  split at hm'
  · simp at hm'
  rename_i hn
  split at hm'
  · rename_i v' hv'
    simp only [List.mem_singleton, Call.applyOperation.injEq] at hm'
    subst hm'
    unfold codexAnswer at hv'
    rw [hl.contractAt_codex] at hv'
    obtain ⟨e1, e2⟩ := hf _ _ _ _ _ hv'
    refine ⟨e1, ?_⟩
    rw [e2]
    unfold opAt
    rw [if_neg fun h => hn (.inl h)]
  · simp at hm'

theorem HistoryOf.any {P : OperationSeals Seal → Prop} {c c' : C} {l : List (Call Seal)} (h : HistoryOf P c l c') :
    History AnyStart c l c' := by
  induction h with
  | nil => exact .nil _
  | step _ he _ ih => exact .step (fun _ _ => trivial) he ih

theorem HistoryOf.source (hl : Lawful Seal C) {P : OperationSeals Seal → Prop} {c c' : C} {l : List (Call Seal)}
    (h : HistoryOf P c l c') (hf : Faithful (ContractApi.codex Seal c)) {v : VerifiedOperation} (hv : Call.applyOperation v ∈ l) :
    ∃ (d : C) (xs : List (OperationSeals Seal)) (i : Nat) (b : OperationSeals Seal),
      ContractApi.contractId Seal d = ContractApi.contractId Seal c ∧ (∀ b ∈ xs, P b) ∧ ValidConsignment d xs ∧
      xs[i]? = some b ∧ v.opid = idAt (ContractApi.contractId Seal c) i b ∧ v.operation = b.operation := by
  induction h with
  | nil => simp at hv
  | @step R _ c c' r o l hP he _ ih =>
    rcases List.mem_append.1 hv with hv | hv
    · obtain ⟨xs, i, b, h1, h2, h3, h4, h5⟩ := applied_source hl hf he hv
      exact ⟨c, xs, i, b, rfl, hP xs h1, h2, h3, h4, h5⟩
    · obtain ⟨blocks, hsh⟩ := run_shape he
      have hid : ContractApi.contractId Seal o.world.contract = ContractApi.contractId Seal c := by
        rw [hsh.contract]; exact hl.contractAt_id
      have hcx : ContractApi.codex Seal o.world.contract = ContractApi.codex Seal c := by
        rw [hsh.contract]; exact hl.contractAt_codex
      obtain ⟨d, xs, i, b, h1, h2⟩ := ih (hcx ▸ hf) hv
      rw [hid] at h1 h2
      exact ⟨d, xs, i, b, h1, h2⟩

/-- **C64.**  With a single-use seal protocol, two accepted consignments for the same contract, whoever
evaluated them, never contain two different operations consuming the same cell. -/
theorem C64_no_conflict (hsu : SingleUse Seal) (hinj : Function.Injective (message Seal))
    {C' : Type} [ContractApi Seal C'] {R' : Type} [ReadOperation Seal R'] {c : C} {c' : C'} {r : R} {r' : R'}
    {xs ys : List (OperationSeals Seal)} {o o'} (h : Accepted c r xs o) (h' : Accepted c' r' ys o')
    (hcid : ContractApi.contractId Seal c' = ContractApi.contractId Seal c)
    (hw : WellFormed (ContractApi.contractId Seal c) xs ys)
    {i j : Nat} {b b' : OperationSeals Seal} (hb : xs[i]? = some b) (hb' : ys[j]? = some b')
    {a : CellAddr} (ha : Consumes b a) (ha' : Consumes b' a) :
    idAt (ContractApi.contractId Seal c) i b = idAt (ContractApi.contractId Seal c) j b' :=
  no_conflict rfl hcid h.valid h'.valid hw (noClash hsu hinj) hb hb' ha ha'

/-- They agree on who owns what: a cell is announced with the same seal in both. -/
theorem C64_same_seal (hsu : SingleUse Seal)
    {C' : Type} [ContractApi Seal C'] {R' : Type} [ReadOperation Seal R'] {c : C} {c' : C'} {r : R} {r' : R'}
    {xs ys : List (OperationSeals Seal)} {o o'} (h : Accepted c r xs o) (h' : Accepted c' r' ys o')
    (hcid : ContractApi.contractId Seal c' = ContractApi.contractId Seal c)
    (hw : WellFormed (ContractApi.contractId Seal c) xs ys)
    {i j : Nat} {b b' : OperationSeals Seal} (hb : xs[i]? = some b) (hb' : ys[j]? = some b')
    {a : CellAddr} {s s' : Seal} (ha : Announces (ContractApi.contractId Seal c) i b a s)
    (ha' : Announces (ContractApi.contractId Seal c) j b' a s') : s = s' :=
  same_seal rfl hcid h.valid h'.valid hw (fun _ _ _ _ _ _ h => (contend_ids hsu h).1) i hb hb' ha ha'

/-- The same for what is applied in any two evaluations, accepted or rejected. -/
theorem C64_applied (hsu : SingleUse Seal) (hinj : Function.Injective (message Seal))
    {C' : Type} [ContractApi Seal C'] {R' : Type} [ReadOperation Seal R'] (hl : Lawful Seal C) (hl' : Lawful Seal C')
    {c : C} {c' : C'} (hf : Faithful (ContractApi.codex Seal c)) (hf' : Faithful (ContractApi.codex Seal c')) {r : R} {r' : R'} {o o'}
    (h : evaluate (Seal := Seal) c r = some o) (h' : evaluate (Seal := Seal) c' r' = some o')
    (hcid : ContractApi.contractId Seal c' = ContractApi.contractId Seal c)
    (hw : ∀ xs ys : List (OperationSeals Seal), StartsWith r xs → StartsWith r' ys →
      WellFormed (ContractApi.contractId Seal c) xs ys)
    {v v' : VerifiedOperation} (hv : Call.applyOperation v ∈ o.world.calls) (hv' : Call.applyOperation v' ∈ o'.world.calls)
    {inp inp' : Input} (hi : inp ∈ v.operation.destructibleIn) (hi' : inp' ∈ v'.operation.destructibleIn)
    (ha : inp.addr = inp'.addr) : v.opid = v'.opid := by
  obtain ⟨xs, i, b, h1, h2, h3, h4, h5⟩ := applied_source hl hf h hv
  obtain ⟨ys, j, b', h1', h2', h3', h4', h5'⟩ := applied_source hl' hf' h' hv'
  rw [h4, h4', hcid]
  rw [h5] at hi
  rw [h5'] at hi'
  exact no_conflict rfl hcid h2 h2' (hw _ _ h1 h1') (noClash hsu hinj) h3 h3' ⟨inp, hi, rfl⟩ ⟨inp', hi', ha.symm⟩

theorem history_noClash (hl : Lawful Seal C)
    {c c' : C} (hf : Faithful (ContractApi.codex Seal c)) {P : OperationSeals Seal → Prop}
    (hw : ∀ xs ys : List (OperationSeals Seal), (∀ b ∈ xs, P b) → (∀ b ∈ ys, P b) →
      WellFormed (ContractApi.contractId Seal c) xs ys)
    (hnc : ∀ xs ys : List (OperationSeals Seal), (∀ b ∈ xs, P b) → (∀ b ∈ ys, P b) →
      NoClash (ContractApi.contractId Seal c) xs ys)
    {l : List (Call Seal)} (h : HistoryOf P c l c') :
    ((l.filterMap appliedOperation).flatMap fun v => v.operation.destructibleIn.map (·.addr)).Nodup := by
  have hn := (C34_applied_once hl hf (HistoryOf.any h)).1
  have hsrc : ∀ v ∈ l.filterMap appliedOperation, ∃ (d : C) (xs : List (OperationSeals Seal)) (i : Nat) (b : OperationSeals Seal),
      ContractApi.contractId Seal d = ContractApi.contractId Seal c ∧ (∀ b ∈ xs, P b) ∧ ValidConsignment d xs ∧
      xs[i]? = some b ∧ v.opid = idAt (ContractApi.contractId Seal c) i b ∧ v.operation = b.operation := by
    intro v hv
    obtain ⟨x, hx, hv⟩ := List.mem_filterMap.1 hv
    refine HistoryOf.source hl h hf ?_
    cases x <;> simp [appliedOperation] at hv
    subst hv
    exact hx
  generalize l.filterMap appliedOperation = vs at hn hsrc
  induction vs with
  | nil => simp
  | cons v vs ih =>
    rw [List.map_cons, List.nodup_cons] at hn
    rw [List.flatMap_cons, List.nodup_append]
    obtain ⟨d, xs, i, b, k1, k2, k3, k4, k5, k6⟩ := hsrc v (by simp)
    refine ⟨by rw [k6]; exact (k3 i b k4).distinct, ih hn.2 fun v hv => hsrc v (by simp [hv]), ?_⟩
    intro a ha a' ha' e
    subst e
    obtain ⟨v', hv', ha'⟩ := List.mem_flatMap.1 ha'
    obtain ⟨inp, hi, rfl⟩ := List.mem_map.1 ha
    obtain ⟨inp', hi', e⟩ := List.mem_map.1 ha'
    obtain ⟨d', ys, j, b', k1', k2', k3', k4', k5', k6'⟩ := hsrc v' (by simp [hv'])
    refine hn.1 (List.mem_map.2 ⟨v', hv', ?_⟩)
    rw [k5, k5']
    rw [k6] at hi
    rw [k6'] at hi'
    exact (no_conflict k1 k1' k3 k3' (hw _ _ k2 k2') (hnc _ _ k2 k2') k4 k4' ⟨inp, hi, rfl⟩ ⟨inp', hi', e⟩).symm

/-- Over any history of evaluations no cell is consumed twice by applied operations, even if neither the
contract nor the codex keeps track of the cells. -/
theorem C64_history (hsu : SingleUse Seal) (hinj : Function.Injective (message Seal)) (hl : Lawful Seal C)
    {c c' : C} (hf : Faithful (ContractApi.codex Seal c)) {P : OperationSeals Seal → Prop}
    (hw : ∀ xs ys : List (OperationSeals Seal), (∀ b ∈ xs, P b) → (∀ b ∈ ys, P b) →
      WellFormed (ContractApi.contractId Seal c) xs ys)
    {l : List (Call Seal)} (h : HistoryOf P c l c') :
    ((l.filterMap appliedOperation).flatMap fun v => v.operation.destructibleIn.map (·.addr)).Nodup :=
  history_noClash hl hf hw (fun _ _ _ _ => noClash hsu hinj) h

end

section
variable {Seal : Type} [LinearOrder Seal] [RgbSeal Seal] [OpHash] {C : Type} [ContractApi Seal C]

theorem valid_of_runBlocks {c : C} {bs : List (OperationSeals Seal)}
    (h : (runBlocks (E := String) (ContractApi.contractId Seal c) (ContractApi.codex Seal c).codexId bs
      (initState c)).isOk = true) : ValidConsignment c bs := by
  cases hst : runBlocks (E := String) (ContractApi.contractId Seal c) (ContractApi.codex Seal c).codexId bs (initState c) with
  | error e => rw [hst] at h; simp [Except.isOk, Except.toBool] at h
  | ok st =>
    rw [← List.take_length (l := bs)] at hst
    intro i b hb
    exact (inv_run (Nat.le_refl _) hst).2 i b (lt_length_of_getElem? hb) hb
end

namespace Demo.Once
/-! A single-use seal protocol: each seal is closed by at most one witness, over one message. -/

/-- Which witness closes a seal, and over which message. -/
def closedBy : Int → Option (Nat × Bytes32)
  | 1 => some (50, 101)
  | 5 => some (60, 103)
  | 50003 => some (51, 102)
  | 70002 => some (71, 104)
  | 80002 => some (81, 105)
  | _ => none

scoped instance : RgbSeal Int where
  Definition := Def
  Published := Nat
  Client := Unit
  WitnessId := Nat
  Message := Bytes32
  SealError := String
  authToken
    | .abs n => ⟨Fin.ofNat _ (2 * n)⟩
    | .rel n => ⟨Fin.ofNat _ (2 * n + 1)⟩
  resolve
    | .abs n, w => 1000000 * w + n
    | .rel n, w => 1000 * w + n
  toSrc
    | .abs n => some n
    | .rel _ => none
  display
    | .abs _ => "abs"
    | .rel _ => "rel"
  messageOfBytes b := b
  pubId p := p
  verifySealsClosing pub _ seals msg := if seals.all (fun s => closedBy s == some (pub, msg)) then .ok () else .error "not closed"

scoped instance : DecidableEq (RgbSeal.Definition Int) := inferInstanceAs (DecidableEq Def)

theorem singleUse : SingleUse Int := by
  intro w w' seals seals' m m' s h h' hs hs'
  simp only [RgbSeal.verifySealsClosing] at h h'
  split at h
  · rename_i k
    split at h'
    · rename_i k'
      have e1 := List.all_eq_true.1 k s hs
      have e2 := List.all_eq_true.1 k' s hs'
      rw [beq_iff_eq] at e1 e2
      have := Option.some.inj (e1.symm.trans e2)
      exact ⟨congrArg Prod.fst this, congrArg Prod.snd this⟩
    · simp at h'
  · simp at h

theorem message_injective : Function.Injective (message Int) := by
  rintro ⟨x⟩ ⟨y⟩ h
  exact congrArg Opid.mk h

/-- A contract that remembers the known ids and nothing else, with a codex accepting everything. -/
structure Node where
  known : List Opid

scoped instance : ContractApi Int Node where
  contractId _ := ⟨9⟩
  codex _ := ⟨⟨7⟩, fun _ op _ _ => .ok ⟨opid op, op⟩⟩
  repo _ := ⟨fun _ => none⟩
  memory _ := ⟨fun _ => none, fun _ => none⟩
  isKnown l o := l.known.contains o
  applyOperation l v := ⟨v.opid :: l.known⟩
  applySeals l _ _ := l
  applyWitness l _ _ := l

theorem node_lawful : Lawful Int Node where
  contractId c x := by cases x <;> rfl
  codex c x := by cases x <;> rfl
  known_operation c v o := by simp [ContractApi.isKnown, ContractApi.applyOperation, or_comm]
  known_seals _ _ _ _ := rfl
  known_witness _ _ _ _ := rfl

theorem node_faithful (n : Node) : Faithful (ContractApi.codex Int n) := by
  intro cid op mem repo v h
  simp only [ContractApi.codex, Except.ok.injEq] at h
  subst h
  exact ⟨rfl, rfl⟩

/-- A reader over a list of blocks. -/
structure Feed where
  items : List (OperationSeals Int)

scoped instance : ReadOperation Int Feed where
  Error := String
  readOperation t := match t.items with
    | b :: rest => (.ok (some b), ⟨rest⟩)
    | [] => (.ok none, t)

theorem feed_reads (bs : List (OperationSeals Int)) : Reads (Seal := Int) (Feed.mk bs) bs (Feed.mk []) := by
  induction bs with
  | nil => exact .nil _
  | cons b bs ih => exact .cons rfl ih

theorem feed_delivers (bs : List (OperationSeals Int)) : Delivers (Seal := Int) (Feed.mk bs) bs :=
  ⟨_, Feed.mk [], feed_reads bs, rfl⟩

theorem feed_starts {bs xs : List (OperationSeals Int)} (h : StartsWith (Seal := Int) (Feed.mk bs) xs) : ∀ b ∈ xs, b ∈ bs := by
  obtain ⟨r₁, h⟩ := h
  generalize hr : Feed.mk bs = r at h
  induction h generalizing bs with
  | nil => simp
  | cons h1 _ ih =>
    subst hr
    cases bs with
    | nil => simp [ReadOperation.readOperation] at h1
    | cons x bs =>
      simp only [ReadOperation.readOperation, Prod.mk.injEq, Except.ok.injEq, Option.some.injEq] at h1
      obtain ⟨rfl, h1⟩ := h1
      intro b hb
      rcases List.mem_cons.1 hb with rfl | hb
      · simp
      · exact List.mem_cons_of_mem _ (ih h1 b hb)

def node : Node := ⟨[⟨100⟩]⟩

def tx (id : Nat) : SealWitness Int := ⟨(id : Nat), ()⟩

/-- Genesis with outputs sealed by 1 and 5 and relative to a witness. -/
def origin : OperationSeals Int := ⟨genesisOp, .collect [(0, .abs 1), (1, .abs 5)], none⟩

def move1 : OperationSeals Int := ⟨op 101 [at_ 100 0] [.rel 3], .collect [(0, .rel 3)], some (tx 50)⟩

def move2 : OperationSeals Int := ⟨op 102 [at_ 101 0] [.abs 8], .collect [(0, .abs 8)], some (tx 51)⟩

def other : OperationSeals Int := ⟨op 103 [at_ 100 1] [.abs 9], .collect [(0, .abs 9)], some (tx 60)⟩

theorem accepted_of {n : Node} {bs : List (OperationSeals Int)}
    (h : (runBlocks (E := String) (ContractApi.contractId Int n) (ContractApi.codex Int n).codexId bs
      (initState n)).isOk = true) : ∃ o, Accepted n (Feed.mk bs) bs o := by
  obtain ⟨o, h1, h2, _⟩ := evaluate_of_delivers (feed_delivers bs) (valid_of_runBlocks h)
  exact ⟨o, h1, h2, feed_delivers bs⟩

/-- The blocks of the example. -/
def pool : List (OperationSeals Int) := [origin, move1, move2, other]

theorem pool_wellFormed (xs ys : List (OperationSeals Int)) (hx : ∀ b ∈ xs, b ∈ pool) (hy : ∀ b ∈ ys, b ∈ pool) :
    WellFormed ⟨9⟩ xs ys := by
  have hb : ∀ b, b ∈ xs ∨ b ∈ ys → b ∈ pool := fun b h => h.elim (hx b) (hy b)
  have pos : ∀ b ∈ pool, ∀ e ∈ b.definedSeals.entries,
      (b.operation.destructibleOut[(e.1 : Nat)]?).map (·.auth) = some (RgbSeal.authToken (Seal := Int) e.2) := by
    decide +kernel
  have tok : ∀ b ∈ pool, ∀ b' ∈ pool, ∀ e ∈ b.definedSeals.entries, ∀ e' ∈ b'.definedSeals.entries,
      RgbSeal.authToken (Seal := Int) e.2 = RgbSeal.authToken (Seal := Int) e'.2 → e.2 = e'.2 := by
    decide +kernel
  have anc : ∀ b ∈ pool, ∀ e ∈ b.definedSeals.entries, RgbSeal.toSrc (Seal := Int) e.2 = none → b.operation.destructibleIn ≠ [] := by
    decide +kernel
  have col : ∀ b ∈ pool, ∀ b' ∈ pool, ∀ i ∈ [0, 1], ∀ j ∈ [0, 1],
      idAt ⟨9⟩ i b = idAt ⟨9⟩ j b' → opAt ⟨9⟩ i b = opAt ⟨9⟩ j b' := by decide +kernel
  have hsmall : ∀ i : Nat, ∃ k ∈ [0, 1], ∀ b : OperationSeals Int, opAt ⟨9⟩ i b = opAt ⟨9⟩ k b := by
    intro i
    rcases Nat.eq_zero_or_pos i with rfl | h
    · exact ⟨0, by simp, fun _ => rfl⟩
    · exact ⟨1, by simp, fun b => by simp [opAt, Nat.pos_iff_ne_zero.1 h]⟩
  refine ⟨?_, ?_, ?_, ?_⟩
  · intro i j b b' h1 h2 h
    obtain ⟨k, hk, ek⟩ := hsmall i
    obtain ⟨l, hl, el⟩ := hsmall j
    rw [idAt, idAt, ek, el] at h
    rw [ek, el]
    exact col b (hx b (List.mem_of_getElem? h1)) b' (hy b' (List.mem_of_getElem? h2)) k hk l hl h
  · exact fun b h1 b' h2 p d p' d' h3 h4 => tok b (hx b h1) b' (hy b' h2) _ h3 _ h4
  · intro b h p d hd
    have := pos b (hb b h) (p, d) hd
    simpa [Option.map_eq_some_iff] using this
  · exact fun b h p d hd => anc b (hb b h) (p, d) hd

end Demo.Once

open Demo Demo.Once in
example : SingleUse Int ∧ Function.Injective (message Int) ∧
    (∃ o, Accepted node (Feed.mk [origin, move1, move2]) [origin, move1, move2] o) ∧
    (∃ o, Accepted node (Feed.mk [origin, other, move1]) [origin, other, move1] o) ∧
    WellFormed ⟨9⟩ [origin, move1, move2] [origin, other, move1] ∧
    [origin, move1, move2][1]? = some move1 ∧ [origin, other, move1][2]? = some move1 ∧ Consumes move1 (at_ 100 0) ∧
    Announces ⟨9⟩ 1 move1 (at_ 101 0) 50003 := by
  refine ⟨singleUse, message_injective, accepted_of (by decide +kernel), accepted_of (by decide +kernel),
    pool_wellFormed _ _ ?_ ?_, rfl, rfl, ⟨_, List.mem_of_getElem? (i := 0) rfl, rfl⟩, rfl, .rel 3, OMap.get?_eq_some.1 rfl,
    .inr ⟨rfl, _, rfl, rfl⟩⟩ <;> simp [pool]

open Demo Demo.Once in
example : Lawful Int Node ∧ Faithful (ContractApi.codex Int node) ∧
    (∀ xs ys : List (OperationSeals Int), (∀ b ∈ xs, b ∈ pool) → (∀ b ∈ ys, b ∈ pool) → WellFormed ⟨9⟩ xs ys) ∧
    ∃ l c', HistoryOf (Seal := Int) (· ∈ pool) node l c' ∧ Call.applyOperation ⟨⟨101⟩, move1.operation⟩ ∈ l := by
  obtain ⟨o, h⟩ := accepted_of (n := node) (bs := [origin, move1, move2]) (by decide +kernel)
  refine ⟨node_lawful, node_faithful _, pool_wellFormed, o.world.calls ++ [], _, .step ?_ h.run (.nil _), ?_⟩
  · intro bs hs b hb
    have := feed_starts hs b hb
    simp [pool] at this ⊢
    tauto
  · have : Call.applyOperation ⟨⟨101⟩, move1.operation⟩ ∈ o.world.calls.filter IsCallback := by
      rw [h.shape.callbacks]
      exact List.mem_of_getElem? (i := 2) rfl
    simpa using (List.mem_filter.1 this).1

/-- The claim without the condition that definitions relative to a witness come from operations with
inputs. -/
def C64_unanchored : Prop :=
  ∀ (Seal : Type) [LinearOrder Seal] [RgbSeal Seal] [OpHash] (C : Type) [ContractApi Seal C]
    (R : Type) [ReadOperation Seal R] (c : C) (r r' : R) (xs ys : List (OperationSeals Seal)) o o',
    SingleUse Seal → Function.Injective (message Seal) → Accepted c r xs o → Accepted c r' ys o' →
    NoCollision (ContractApi.contractId Seal c) xs ys → TokensBind xs ys → (∀ b, b ∈ xs ∨ b ∈ ys → PositionsRight b) →
    ∀ (i j : Nat) b b' a, xs[i]? = some b → ys[j]? = some b' → Consumes b a → Consumes b' a →
    idAt (ContractApi.contractId Seal c) i b = idAt (ContractApi.contractId Seal c) j b'

/-- The claim without the condition on the positions. -/
def C64_unordered : Prop :=
  ∀ (Seal : Type) [LinearOrder Seal] [RgbSeal Seal] [OpHash] (C : Type) [ContractApi Seal C]
    (R : Type) [ReadOperation Seal R] (c : C) (r r' : R) (xs ys : List (OperationSeals Seal)) o o',
    SingleUse Seal → Function.Injective (message Seal) → Accepted c r xs o → Accepted c r' ys o' →
    NoCollision (ContractApi.contractId Seal c) xs ys → TokensBind xs ys → (∀ b, b ∈ xs ∨ b ∈ ys → Anchored b) →
    ∀ (i j : Nat) b b' a, xs[i]? = some b → ys[j]? = some b' → Consumes b a → Consumes b' a →
    idAt (ContractApi.contractId Seal c) i b = idAt (ContractApi.contractId Seal c) j b'

namespace Demo.Once
theorem collision_of {cid : ContractId} {xs ys : List (OperationSeals Int)}
    (h : ∀ e ∈ xs.zipIdx, ∀ f ∈ ys.zipIdx, idAt cid e.2 e.1 = idAt cid f.2 f.1 → opAt cid e.2 e.1 = opAt cid f.2 f.1) :
    NoCollision cid xs ys := fun i j b b' hb hb' =>
  h (b, i) (List.mem_zipIdx_iff_getElem?.2 hb) (b', j) (List.mem_zipIdx_iff_getElem?.2 hb')

theorem tokens_of {xs ys : List (OperationSeals Int)}
    (h : ∀ b ∈ xs, ∀ b' ∈ ys, ∀ e ∈ b.definedSeals.entries, ∀ e' ∈ b'.definedSeals.entries,
      RgbSeal.authToken (Seal := Int) e.2 = RgbSeal.authToken (Seal := Int) e'.2 → e.2 = e'.2) :
    TokensBind xs ys := fun b h1 b' h2 _ _ _ _ h3 h4 => h b h1 b' h2 _ h3 _ h4

theorem positions_of {xs ys : List (OperationSeals Int)} (h : ∀ b ∈ xs ++ ys, ∀ e ∈ b.definedSeals.entries,
    (b.operation.destructibleOut[(e.1 : Nat)]?).map (·.auth) = some (RgbSeal.authToken (Seal := Int) e.2)) :
    ∀ b, b ∈ xs ∨ b ∈ ys → PositionsRight b := by
  intro b hb p d hd
  have := h b (List.mem_append.2 hb) (p, d) hd
  simpa [Option.map_eq_some_iff] using this

/-- The same genesis with an output relative to a witness, attached to different witnesses. -/
def floating (id : Nat) : OperationSeals Int := ⟨genesisOp, .collect [(2, .rel 2)], some (tx id)⟩

def left : OperationSeals Int := ⟨op 104 [at_ 100 2] [], .collect [], some (tx 71)⟩

def right : OperationSeals Int := ⟨op 105 [at_ 100 2] [], .collect [], some (tx 81)⟩

/-- Genesis revealing the definition of output 1 as that of output 0. -/
def swapped : OperationSeals Int := ⟨genesisOp, .collect [(0, .abs 5)], none⟩

def thief : OperationSeals Int := ⟨op 103 [at_ 100 0] [], .collect [], some (tx 60)⟩
end Demo.Once

open Demo Demo.Once in
/-- An operation without inputs can be attached to any witness, so its outputs relative to the witness
stand for different seals in different consignments, and can be spent once for each. -/
theorem C64_needs_anchors : ¬ C64_unanchored := by
  intro h
  obtain ⟨o, ho⟩ := accepted_of (n := node) (bs := [floating 70, left]) (by decide +kernel)
  obtain ⟨o', ho'⟩ := accepted_of (n := node) (bs := [floating 80, right]) (by decide +kernel)
  exact absurd (h Int Node Feed node _ _ _ _ o o' singleUse message_injective ho ho' (collision_of (by decide +kernel))
    (tokens_of (by decide +kernel)) (positions_of (by decide +kernel)) 1 1 left right (at_ 100 2) rfl rfl
    ⟨_, List.mem_of_getElem? (i := 0) rfl, rfl⟩ ⟨_, List.mem_of_getElem? (i := 0) rfl, rfl⟩) (by decide +kernel)

open Demo Demo.Once in
/-- The position of a revealed definition is not checked against the commitments, so a cell can be
spent once with each seal of its operation, in different consignments. -/
theorem C64_needs_positions : ¬ C64_unordered := by
  intro h
  obtain ⟨o, ho⟩ := accepted_of (n := node) (bs := [origin, move1]) (by decide +kernel)
  obtain ⟨o', ho'⟩ := accepted_of (n := node) (bs := [swapped, thief]) (by decide +kernel)
  have anc : ∀ b, b ∈ [origin, move1] ∨ b ∈ [swapped, thief] → Anchored (Seal := Int) b := by
    have : ∀ b ∈ [origin, move1] ++ [swapped, thief], ∀ e ∈ b.definedSeals.entries,
        RgbSeal.toSrc (Seal := Int) e.2 = none → b.operation.destructibleIn ≠ [] := by decide +kernel
    exact fun b hb p d hd => this b (List.mem_append.2 hb) (p, d) hd
  exact absurd (h Int Node Feed node _ _ _ _ o o' singleUse message_injective ho ho' (collision_of (by decide +kernel))
    (tokens_of (by decide +kernel)) anc 1 1 move1 thief (at_ 100 0) rfl rfl
    ⟨_, List.mem_of_getElem? (i := 0) rfl, rfl⟩ ⟨_, List.mem_of_getElem? (i := 0) rfl, rfl⟩) (by decide +kernel)

end Rgb
