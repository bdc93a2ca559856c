import Verif.Props.Auditors
import Verif.Props.Phantom
import Verif.Props.Seals

set_option linter.unusedSectionVars false

/-! # C81: readers that check more -/

namespace Rgb
open Spec

section
variable {Seal : Type} [LinearOrder Seal] [RgbSeal Seal]

/-- A reader that hands on the blocks of another one as long as they pass a check, which is given the
blocks read before. -/
structure Guard (Seal : Type) [LinearOrder Seal] [RgbSeal Seal] (R : Type) where
  check : List (OperationSeals Seal) → OperationSeals Seal → Bool
  seen : List (OperationSeals Seal)
  inner : R

variable {R : Type} [ReadOperation Seal R]

/-- Its error is that of the inner reader, or `none` for a block that does not pass. -/
instance guardReader : ReadOperation Seal (Guard Seal R) where
  Error := Option (ReadOperation.Error Seal R)
  readOperation g := match ReadOperation.readOperation (Seal := Seal) g.inner with
    | (.ok (some b), r) =>
      if g.check g.seen b then (.ok (some b), ⟨g.check, g.seen ++ [b], r⟩) else (.error none, ⟨g.check, g.seen, r⟩)
    | (.ok none, r) => (.ok none, ⟨g.check, g.seen, r⟩)
    | (.error e, r) => (.error (some e), ⟨g.check, g.seen, r⟩)

/-- The reader `r`, guarded by `check`. -/
def guarded (check : List (OperationSeals Seal) → OperationSeals Seal → Bool) (r : R) : Guard Seal R := ⟨check, [], r⟩

/-- All blocks pass the check. -/
def Passes (check : List (OperationSeals Seal) → OperationSeals Seal → Bool) (xs : List (OperationSeals Seal)) : Prop :=
  ∀ (i : Nat) b, xs[i]? = some b → check (xs.take i) b = true

variable {check : List (OperationSeals Seal) → OperationSeals Seal → Bool}

theorem guard_ok {g g' : Guard Seal R} {b : OperationSeals Seal}
    (h : ReadOperation.readOperation (Seal := Seal) g = (.ok (some b), g')) :
    ReadOperation.readOperation (Seal := Seal) g.inner = (.ok (some b), g'.inner) ∧ g.check g.seen b = true ∧
      g' = ⟨g.check, g.seen ++ [b], g'.inner⟩ := by
  simp only [ReadOperation.readOperation] at h
  rcases hr : ReadOperation.readOperation (Seal := Seal) g.inner with ⟨e | _ | b', r⟩
  · rw [hr] at h; simp at h
  · rw [hr] at h; simp at h
  · rw [hr] at h
    by_cases hc : g.check g.seen b' = true
    · simp only [hc, if_true, Prod.mk.injEq, Except.ok.injEq, Option.some.injEq] at h
      obtain ⟨rfl, rfl⟩ := h
      exact ⟨rfl, hc, rfl⟩
    · simp [hc] at h

theorem guard_eof {g g' : Guard Seal R} (h : ReadOperation.readOperation (Seal := Seal) g = (.ok none, g')) :
    ReadOperation.readOperation (Seal := Seal) g.inner = (.ok none, g'.inner) := by
  simp only [ReadOperation.readOperation] at h
  rcases hr : ReadOperation.readOperation (Seal := Seal) g.inner with ⟨e | _ | b', r⟩
  · rw [hr] at h; simp at h
  · rw [hr] at h
    simp only [Prod.mk.injEq, true_and] at h
    rw [← h]
  · rw [hr] at h
    by_cases hc : g.check g.seen b' = true <;> simp [hc] at h

theorem guard_reads {xs : List (OperationSeals Seal)} {g g' : Guard Seal R} (h : Reads g xs g') :
    Reads g.inner xs g'.inner ∧ g' = ⟨g.check, g.seen ++ xs, g'.inner⟩ ∧
      ∀ (i : Nat) b, xs[i]? = some b → g.check (g.seen ++ xs.take i) b = true := by
  induction h with
  | nil r => exact ⟨.nil _, by simp, by simp⟩
  | @cons g g₁ g₂ b bs hr _ ih =>
    obtain ⟨h1, h2, h3⟩ := guard_ok hr
    obtain ⟨k1, k2, k3⟩ := ih
    refine ⟨.cons h1 k1, ?_, ?_⟩
    · rw [k2, h3]
      simp
    · intro i b' hb
      rcases i with _ | i
      · obtain rfl := Option.some.inj hb
        simpa using h2
      · have := k3 i b' hb
        rw [h3] at this
        simpa using this

theorem reads_guard {xs : List (OperationSeals Seal)} {r r' : R} (h : Reads r xs r') : ∀ {seen : List (OperationSeals Seal)},
    (∀ (i : Nat) b, xs[i]? = some b → check (seen ++ xs.take i) b = true) →
    Reads (Guard.mk check seen r) xs (Guard.mk check (seen ++ xs) r') := by
  induction h with
  | nil r => intro seen _; simpa using Reads.nil _
  | @cons r r₁ r₂ b bs hr _ ih =>
    intro seen hp
    have h0 := hp 0 b rfl
    simp only [List.take_zero, List.append_nil] at h0
    refine .cons (r₁ := ⟨check, seen ++ [b], r₁⟩) ?_ ?_
    · simp only [ReadOperation.readOperation, hr, h0, if_true]
    · have := ih (seen := seen ++ [b]) (by
        intro i b' hb
        have := hp (i + 1) b' hb
        simpa using this)
      simpa using this

theorem guarded_reads {xs : List (OperationSeals Seal)} {r r' : R} (h : Reads r xs r') (hp : Passes check xs) :
    Reads (guarded check r) xs (Guard.mk check xs r') := by
  have := reads_guard (check := check) (seen := []) h (by simpa [Passes] using hp)
  rwa [List.nil_append] at this

theorem reads_guarded {xs : List (OperationSeals Seal)} {r : R} {g : Guard Seal R} (h : Reads (guarded check r) xs g) :
    Reads r xs g.inner ∧ g = ⟨check, xs, g.inner⟩ ∧ Passes check xs := by
  obtain ⟨h1, h2, h3⟩ := guard_reads h
  refine ⟨h1, by simpa [guarded] using h2, ?_⟩
  simpa [Passes, guarded] using h3

/-- A guarded reader delivers what the reader delivers, if it passes. -/
theorem guarded_delivers {xs : List (OperationSeals Seal)} {r : R} :
    Delivers (guarded check r) xs ↔ Delivers r xs ∧ Passes check xs := by
  constructor
  · rintro ⟨g₁, g₂, h1, h2⟩
    obtain ⟨k1, k2, k3⟩ := reads_guarded h1
    exact ⟨⟨_, _, k1, guard_eof h2⟩, k3⟩
  · rintro ⟨⟨r₁, r₂, h1, h2⟩, h3⟩
    refine ⟨_, ⟨check, xs, r₂⟩, guarded_reads h1 h3, ?_⟩
    simp only [ReadOperation.readOperation, h2]

theorem guarded_startsWith {xs : List (OperationSeals Seal)} {r : R} :
    StartsWith (guarded check r) xs ↔ StartsWith r xs ∧ Passes check xs := by
  constructor
  · rintro ⟨g₁, h1⟩
    obtain ⟨k1, _, k3⟩ := reads_guarded h1
    exact ⟨⟨_, k1⟩, k3⟩
  · rintro ⟨⟨r₁, h1⟩, h3⟩
    exact ⟨_, guarded_reads h1 h3⟩

theorem Passes.last {xs : List (OperationSeals Seal)} {b : OperationSeals Seal} (h : Passes check (xs ++ [b])) : check xs b = true := by
  have := h xs.length b (by simp)
  simpa using this

variable [OpHash] {C : Type} [ContractApi Seal C]

/-- The guard adds its check to validity and changes nothing else. -/
theorem C81_guard {c : C} {r : R} {xs : List (OperationSeals Seal)} :
    (∃ o, Accepted c (guarded check r) xs o) ↔ (∃ o, Accepted c r xs o) ∧ Passes check xs := by
  constructor
  · rintro ⟨o, h⟩
    obtain ⟨h1, h2⟩ := guarded_delivers.1 h.delivers
    obtain ⟨o', k1, k2, _⟩ := evaluate_of_delivers h1 h.valid
    exact ⟨⟨o', k1, k2, h1⟩, h2⟩
  · rintro ⟨⟨o, h⟩, hp⟩
    have h1 := guarded_delivers.2 ⟨h.delivers, hp⟩
    obtain ⟨o', k1, k2, _⟩ := evaluate_of_delivers h1 h.valid
    exact ⟨o', k1, k2, h1⟩

/-- A block that does not pass, after an acceptable consignment that passes, ends the evaluation with an
error of the stream; the contract is as after the consignment before it. -/
theorem C81_refused {R' : Type} [ReadOperation Seal R'] {c : C} {r : R} {r' : R'} {xs : List (OperationSeals Seal)}
    {b : OperationSeals Seal} {o'} (hs : StartsWith r (xs ++ [b])) (hp : Passes check xs) (hc : check xs b = false)
    (h : Accepted c r' xs o') :
    ∃ o, evaluate (Seal := Seal) c (guarded check r) = some o ∧ o.result = .error (.stream none) ∧ o.world = o'.world := by
  obtain ⟨r₂, hr⟩ := hs
  obtain ⟨r₁, h1, h2⟩ := hr.split
  cases h2 with
  | @cons _ r₃ _ _ _ h2 _ =>
    have hf : FailsAfter (guarded check r) xs none := by
      refine ⟨_, ⟨check, xs, r₃⟩, guarded_reads h1 hp, ?_⟩
      simp only [ReadOperation.readOperation, h2, hc, Bool.false_eq_true, if_false]
    exact C23_reader_failure hf h

/-- In every other case the evaluation with the guarded reader is the evaluation with the reader itself. -/
theorem C81_outcome {c : C} {r : R} {g} (h : evaluate (Seal := Seal) c (guarded check r) = some g) :
    (∃ o, evaluate (Seal := Seal) c r = some o ∧ g.result = o.result.mapError (·.mapStream some) ∧ g.world = o.world) ∨
    (g.result = .error (.stream none) ∧ ∃ xs b, StartsWith r (xs ++ [b]) ∧ Passes check xs ∧ check xs b = false ∧
      ∀ (R' : Type) [ReadOperation Seal R'] (r' : R'), Delivers r' xs → ∃ o', Accepted c r' xs o' ∧ o'.world = g.world) := by
  obtain ⟨xs, hs⟩ := run_shape h
  have hs' := hs
  obtain ⟨segs, tail, t1, t2, h3⟩ := hs.stop
  rcases h3 with ⟨h0, h0', g₁, h4, h5⟩ | ⟨e, h0, h0', g₁, h4, h5⟩ | ⟨b, e, h0, h4, hrej⟩
  · obtain ⟨k1, _, _⟩ := reads_guarded h4
    obtain ⟨o, a1, a2, a3⟩ := evaluate_of_delivers ⟨_, _, k1, guard_eof h5⟩ hs.valid
    exact .inl ⟨o, a1, by rw [h0, a2]; rfl, hs.calls_eq a3 (.inl h0) (.inl a2)⟩
  · obtain ⟨k1, k2, k3⟩ := reads_guarded h4
    rw [k2] at h5
    simp only [ReadOperation.readOperation] at h5
    rcases hr : ReadOperation.readOperation (Seal := Seal) g₁.inner with ⟨e' | _ | b, r₂⟩
    · rw [hr] at h5
      simp only [Prod.mk.injEq, Except.error.injEq] at h5
      obtain ⟨rfl, _⟩ := h5
      obtain ⟨o, a1, a2, a3⟩ := evaluate_of_fails ⟨_, _, k1, hr⟩ hs.valid
      exact .inl ⟨o, a1, by rw [h0, a2]; rfl, hs.calls_eq a3 (.inr ⟨_, h0⟩) (.inr ⟨_, a2⟩)⟩
    · rw [hr] at h5; simp at h5
    · rw [hr] at h5
      by_cases hc : check xs b = true
      · simp [hc] at h5
      · simp only [hc, Bool.false_eq_true, if_false, Prod.mk.injEq, Except.error.injEq] at h5
        obtain ⟨rfl, _⟩ := h5
        refine .inr ⟨h0, xs, b, ⟨_, k1.append (.cons hr (.nil _))⟩, k3, by simpa using hc, ?_⟩
        intro R' _ r' hd
        obtain ⟨o, a1, a2, a3⟩ := evaluate_of_delivers hd hs.valid
        exact ⟨o, ⟨a1, a2, hd⟩, a3.calls_eq hs (.inl a2) (.inr ⟨_, h0⟩)⟩
  · obtain ⟨e', hrej', rfl⟩ : ∃ e', Rejection c xs b e' tail ∧ e = e'.mapStream some := by
      cases hrej with
      | codex h1 h2 => exact ⟨_, .codex h1 h2, rfl⟩
      | mismatch h1 h2 h3 h4 h5 => exact ⟨_, .mismatch h1 h2 h3 h4 h5, rfl⟩
      | unknown h1 h2 h3 h4 h5 h6 => exact ⟨_, .unknown h1 h2 h3 h4 h5 h6, rfl⟩
      | script h1 h2 h3 h4 h5 => exact ⟨_, .script h1 h2 h3 h4 h5, rfl⟩
      | notClosed h1 h2 h3 h4 h5 h6 => exact ⟨_, .notClosed h1 h2 h3 h4 h5 h6, rfl⟩
      | noWitness h1 h2 h3 h4 h5 h6 => exact ⟨_, .noWitness h1 h2 h3 h4 h5 h6, rfl⟩
    obtain ⟨k1, _, _⟩ := reads_guarded h4
    obtain ⟨o, a1, a2, a3, a4⟩ := evaluate_of_rejection ⟨_, k1⟩ hs.valid hrej'
    exact .inl ⟨o, a1, by rw [h0, a2]; rfl, hs.calls_eq_reject a4 h0 a2 h4 a3 hrej hrej'⟩

/-- The guard does not make evaluations endless. -/
theorem C81_terminates {c : C} {r : R} {o} (h : evaluate (Seal := Seal) c r = some o) :
    ∃ g, evaluate (Seal := Seal) c (guarded check r) = some g := by
  cases hg : evaluate (Seal := Seal) c (guarded check r) with
  | some g => exact ⟨g, rfl⟩
  | none =>
    have : evaluate (Seal := Seal) c r = none := by
      refine C59_divergence.2 fun n => ?_
      obtain ⟨blocks, h1, h2, h3⟩ := C59_divergence.1 hg n
      exact ⟨blocks, h1, (guarded_startsWith.1 h2).1, h3⟩
    rw [h] at this
    cases this

/-! What the theorems about `evaluate` alone cannot say, because it does not check it. -/

/-- C06 for a reader comparing the positions. -/
theorem C81_committed (hk : ∀ seen b, check seen b = true → PositionsRight b) {c : C} {r : R} {xs : List (OperationSeals Seal)} {o}
    (h : Accepted c (guarded check r) xs o) {i : Nat} {b : OperationSeals Seal} (hb : xs[i]? = some b) {p : U16}
    {d : RgbSeal.Definition Seal} (hd : (p, d) ∈ b.definedSeals.entries) :
    ∃ cell : StateCell, b.operation.destructibleOut[(p : Nat)]? = some cell ∧ cell.auth = RgbSeal.authToken d :=
  hk _ _ ((guarded_delivers.1 h.delivers).2 i b hb) p d hd

/-- C54 for a reader comparing the positions. -/
theorem C81_owner (hk : ∀ seen b, check seen b = true → PositionsRight b) {c : C} {r : R} {xs : List (OperationSeals Seal)} {o}
    (h : Accepted c (guarded check r) xs o) {i : Nat} {b : OperationSeals Seal} {w : SealWitness Seal} (hb : xs[i]? = some b)
    (hw : b.witness = some w) :
    ∃ seals : List Seal,
      Call.verifySealsClosing w seals (message Seal (idAt (ContractApi.contractId Seal c) i b)) ∈ o.world.calls ∧
      List.Forall₂ (fun (inp : Input) (s : Seal) =>
        ∃ (j : Nat) (bj : OperationSeals Seal) (d : RgbSeal.Definition Seal) (cell : StateCell),
          j < i ∧ xs[j]? = some bj ∧ inp.addr.opid = idAt (ContractApi.contractId Seal c) j bj ∧
          bj.operation.destructibleOut[(inp.addr.pos : Nat)]? = some cell ∧ cell.auth = RgbSeal.authToken d ∧
          StandsFor bj d s) b.operation.destructibleIn seals := by
  obtain ⟨seals, h1, _, h3⟩ := C54_partial h hb hw
  refine ⟨seals, h1, h3.imp ?_⟩
  rintro inp s ⟨j, bj, d, k1, k2, k3, _, k5, _, k7⟩
  obtain ⟨cell, k8, k9⟩ := k7 (hk _ _ ((guarded_delivers.1 h.delivers).2 j bj k2))
  exact ⟨j, bj, d, cell, k1, k2, k3, k8, k9, k5⟩

/-- C65 for a reader comparing the positions. -/
theorem C81_existing (hk : ∀ seen b, check seen b = true → PositionsRight b) {c : C} {r : R} {xs : List (OperationSeals Seal)} {o}
    (h : Accepted c (guarded check r) xs o) {i : Nat} {b : OperationSeals Seal} (hb : xs[i]? = some b)
    {inp : Input} (hi : inp ∈ b.operation.destructibleIn) :
    ∃ (j : Nat) (bj : OperationSeals Seal), j < i ∧ xs[j]? = some bj ∧
      inp.addr.opid = idAt (ContractApi.contractId Seal c) j bj ∧
      (inp.addr.pos : Nat) < bj.operation.destructibleOut.length := by
  refine C65_consignment_partial h ?_ hb hi
  intro b hb
  obtain ⟨j, hj⟩ := List.getElem?_of_mem hb
  exact hk _ _ ((guarded_delivers.1 h.delivers).2 j b hj)

/-- C10 for a reader refusing repeated operations: no cell is consumed twice in the consignment. -/
theorem C81_once {c : C} (hk : ∀ seen b, check seen b = true → ∀ (i : Nat) b', seen[i]? = some b' →
      idAt (ContractApi.contractId Seal c) i b' ≠ idAt (ContractApi.contractId Seal c) seen.length b)
    {r : R} {xs : List (OperationSeals Seal)} {o} (h : Accepted c (guarded check r) xs o) :
    (xs.flatMap fun b => b.operation.destructibleIn.map (·.addr)).Nodup := by
  have hp := (guarded_delivers.1 h.delivers).2
  have key : ∀ (i j : Nat) b b', i < j → xs[i]? = some b → xs[j]? = some b' →
      idAt (ContractApi.contractId Seal c) i b ≠ idAt (ContractApi.contractId Seal c) j b' := by
    intro i j b b' hij hb hb'
    have hlt := lt_length_of_getElem? hb'
    have := hk _ _ (hp j b' hb') i b (by rw [List.getElem?_take, if_pos hij, hb])
    rwa [List.length_take, Nat.min_eq_left hlt.le] at this
  refine C09_no_double_closing h ?_
  intro i j b b' hb hb' e
  rcases Nat.lt_trichotomy i j with hij | hij | hij
  · exact absurd e (key i j b b' hij hb hb')
  · exact hij
  · exact absurd e.symm (key j i b' b hij hb' hb)

/-- C37 for a reader expecting the genesis of the contract. -/
theorem C81_genesis {c : C} {genesis : Opid} (hg : ContractApi.isKnown Seal c genesis = true)
    (hk : ∀ b, check [] b = true → opid { b.operation with contractId := ContractApi.contractId Seal c } = genesis)
    {r : R} {b : OperationSeals Seal} {rest : List (OperationSeals Seal)} {o} (h : Accepted c (guarded check r) (b :: rest) o) :
    ContractApi.isKnown Seal c (opid { b.operation with contractId := ContractApi.contractId Seal c }) = true := by
  rw [hk b ((guarded_delivers.1 h.delivers).2 0 b rfl)]
  exact hg

/-- C41 for a reader refusing witnesses attached to the first operation or to operations destroying
nothing. -/
theorem C81_witness (hk : ∀ seen b, check seen b = true → seen = [] ∨ b.operation.destructibleIn = [] → b.witness = none)
    {c : C} {r : R} {o} (h : evaluate (Seal := Seal) c (guarded check r) = some o)
    {pre post : List (Call Seal)} {id : Opid} {w : SealWitness Seal}
    (hc : o.world.calls = pre ++ .applyWitness id w :: post) :
    ∃ (blocks : List (OperationSeals Seal)) (b : OperationSeals Seal), StartsWith r (blocks ++ [b]) ∧
      polls pre = blocks.length + 1 ∧ blocks ≠ [] ∧ b.operation.destructibleIn ≠ [] ∧ b.witness = some w ∧
      id = opid b.operation := by
  obtain ⟨blocks, b, h1, h2⟩ := C41_partial h (fun blocks b hs => hk blocks b (guarded_startsWith.1 hs).2.last) hc
  exact ⟨blocks, b, (guarded_startsWith.1 h1).1, h2⟩

/-- C64 and C71 for readers comparing the positions and refusing relative seals without inputs: without a
collision of ids or tokens and with witnesses of a class within which no seal is closed twice, there is no
conflict, whatever the consignments. -/
theorem C81_no_conflict {W : SealWitness Seal → Prop} (hsu : SingleUseAmong W) (hinj : Function.Injective (message Seal))
    (hk : ∀ seen b, check seen b = true → PositionsRight b ∧ Anchored b ∧ ∀ w, b.witness = some w → W w)
    {C' : Type} [ContractApi Seal C'] {R' : Type} [ReadOperation Seal R'] {c : C} {c' : C'} {r : R} {r' : R'}
    {xs ys : List (OperationSeals Seal)} {o o'} (h : Accepted c (guarded check r) xs o) (h' : Accepted c' (guarded check r') ys o')
    (hcid : ContractApi.contractId Seal c' = ContractApi.contractId Seal c)
    (hno : NoCollision (ContractApi.contractId Seal c) xs ys) (ht : TokensBind xs ys)
    {i j : Nat} {b b' : OperationSeals Seal} (hb : xs[i]? = some b) (hb' : ys[j]? = some b')
    {a : CellAddr} (ha : Consumes b a) (ha' : Consumes b' a) :
    idAt (ContractApi.contractId Seal c) i b = idAt (ContractApi.contractId Seal c) j b' := by
  have hx : ∀ b ∈ xs, PositionsRight b ∧ Anchored b ∧ ∀ w, b.witness = some w → W w := by
    intro b hb
    obtain ⟨j, hj⟩ := List.getElem?_of_mem hb
    exact hk _ _ ((guarded_delivers.1 h.delivers).2 j b hj)
  have hy : ∀ b ∈ ys, PositionsRight b ∧ Anchored b ∧ ∀ w, b.witness = some w → W w := by
    intro b hb
    obtain ⟨j, hj⟩ := List.getElem?_of_mem hb
    exact hk _ _ ((guarded_delivers.1 h'.delivers).2 j b hj)
  exact C71_published hsu hinj h h' hcid
    ⟨hno, ht, fun b hb => hb.elim (fun k => (hx b k).1) fun k => (hy b k).1,
      fun b hb => hb.elim (fun k => (hx b k).2.1) fun k => (hy b k).2.1⟩
    (fun b k => (hx b k).2.2) (fun b k => (hy b k).2.2) hb hb' ha ha'

/-- A check that meets all these demands. -/
def careful (cid : ContractId) (genesis : Opid) (seen : List (OperationSeals Seal)) (b : OperationSeals Seal) : Bool :=
  (b.definedSeals.entries.all fun e => (b.operation.destructibleOut[(e.1 : Nat)]?).any fun cell =>
    decide (cell.auth = RgbSeal.authToken e.2)) &&
  (b.definedSeals.entries.all fun e => (RgbSeal.toSrc e.2).isSome || !b.operation.destructibleIn.isEmpty) &&
  ((seen.mapIdx fun i b' => idAt cid i b').all fun o => decide (o ≠ idAt cid seen.length b)) &&
  (!seen.isEmpty || decide (idAt cid 0 b = genesis)) &&
  (b.witness.isNone || (!seen.isEmpty && !b.operation.destructibleIn.isEmpty))

theorem C81_careful {cid : ContractId} {genesis : Opid} {seen : List (OperationSeals Seal)} {b : OperationSeals Seal} :
    careful cid genesis seen b = true ↔
      PositionsRight b ∧ Anchored b ∧ (∀ (i : Nat) b', seen[i]? = some b' → idAt cid i b' ≠ idAt cid seen.length b) ∧
      (seen = [] → opid { b.operation with contractId := cid } = genesis) ∧
      (seen = [] ∨ b.operation.destructibleIn = [] → b.witness = none) := by
  have h1 : (b.definedSeals.entries.all fun e => (b.operation.destructibleOut[(e.1 : Nat)]?).any fun cell =>
      decide (cell.auth = RgbSeal.authToken e.2)) = true ↔ PositionsRight b := by
    simp only [List.all_eq_true, Option.any_eq_true, decide_eq_true_eq, PositionsRight, Prod.forall]
  have h2 : (b.definedSeals.entries.all fun e => (RgbSeal.toSrc e.2).isSome || !b.operation.destructibleIn.isEmpty) = true ↔ Anchored b := by
    simp only [List.all_eq_true, Bool.or_eq_true, Bool.not_eq_true', List.isEmpty_eq_false_iff, Anchored, Prod.forall, Option.isSome_iff_ne_none]
    refine forall₃_congr fun p d _ => ?_
    tauto
  have h3 : ((seen.mapIdx fun i b' => idAt cid i b').all fun o => decide (o ≠ idAt cid seen.length b)) = true ↔
      ∀ (i : Nat) b', seen[i]? = some b' → idAt cid i b' ≠ idAt cid seen.length b := by
    simp only [List.all_eq_true, decide_eq_true_eq, List.mem_mapIdx]
    constructor
    · intro h i b' hb
      obtain ⟨hlt, rfl⟩ := List.getElem?_eq_some_iff.1 hb
      exact h _ ⟨i, hlt, rfl⟩
    · rintro h _ ⟨i, hlt, rfl⟩
      exact h i _ (by simp)
  have h4 : (!seen.isEmpty || decide (idAt cid 0 b = genesis)) = true ↔ (seen = [] → opid { b.operation with contractId := cid } = genesis) := by
    simp only [Bool.or_eq_true, Bool.not_eq_true', List.isEmpty_eq_false_iff, decide_eq_true_eq, idAt, opAt, if_true]
    tauto
  have h5 : (b.witness.isNone || (!seen.isEmpty && !b.operation.destructibleIn.isEmpty)) = true ↔
      (seen = [] ∨ b.operation.destructibleIn = [] → b.witness = none) := by
    simp only [Bool.or_eq_true, Bool.and_eq_true, Bool.not_eq_true', List.isEmpty_eq_false_iff, Option.isNone_iff_eq_none]
    tauto
  unfold careful
  rw [Bool.and_eq_true, Bool.and_eq_true, Bool.and_eq_true, Bool.and_eq_true, h1, h2, h3, h4, h5]
  tauto

end

namespace Demo.Once
/-- The careful check for the contract of the examples. -/
abbrev vigilant : List (OperationSeals Int) → OperationSeals Int → Bool := careful ⟨9⟩ ⟨100⟩

theorem vigilant_passes {xs : List (OperationSeals Int)} (h : ∀ e ∈ xs.zipIdx, vigilant (xs.take e.2) e.1 = true) : Passes vigilant xs :=
  fun i b hb => h (b, i) (List.mem_zipIdx_iff_getElem?.2 hb)
end Demo.Once

open Demo Demo.Once in
/-- A consignment accepted from a careful reader; the careful check meets all the demands made above, and
the genesis is known. -/
example : (∃ o, Accepted node (guarded vigilant (Feed.mk [origin, move1, move2])) [origin, move1, move2] o) ∧
    (∃ o, Accepted node (guarded vigilant (Feed.mk [origin, other, move1])) [origin, other, move1] o) ∧
    ContractApi.isKnown Int node ⟨100⟩ = true ∧
    NoCollision (Seal := Int) ⟨9⟩ [origin, move1, move2] [origin, other, move1] ∧
    TokensBind [origin, move1, move2] [origin, other, move1] ∧
    Consumes move1 (at_ 100 0) ∧ SingleUseAmong (Seal := Int) (fun _ => True) := by
  refine ⟨?_, ?_, rfl, collision_of (by decide +kernel), tokens_of (by decide +kernel), ⟨_, List.mem_of_getElem? (i := 0) rfl, rfl⟩,
    fun w w' _ _ => singleUse w w'⟩
  · exact C81_guard.2 ⟨accepted_of (n := node) (by decide +kernel), vigilant_passes (by decide +kernel)⟩
  · exact C81_guard.2 ⟨accepted_of (n := node) (by decide +kernel), vigilant_passes (by decide +kernel)⟩

open Demo Demo.Once in
/-- A careful reader refuses what makes the statements about `evaluate` alone false: definitions at wrong
positions, a witness attached to the first operation, and repeated operations. -/
example : vigilant [] swapped = false ∧ vigilant [] (floating 70) = false ∧ vigilant [origin, move1] move1 = false ∧
    (∃ o, Accepted node (Feed.mk [swapped, thief]) [swapped, thief] o) ∧
    ∃ o, evaluate (Seal := Int) node (guarded vigilant (Feed.mk [swapped, thief])) = some o ∧ o.result = .error (.stream none) := by
  refine ⟨by decide +kernel, by decide +kernel, by decide +kernel, accepted_of (n := node) (by decide +kernel), ?_⟩
  obtain ⟨o', h'⟩ := accepted_of (n := node) (bs := []) (by decide +kernel)
  obtain ⟨o, h1, h2, _⟩ := C81_refused (check := vigilant) (r := Feed.mk [swapped, thief]) (xs := []) (b := swapped)
    ⟨_, .cons rfl (.nil _)⟩ (by simp [Passes]) (by decide +kernel) h'
  exact ⟨o, h1, h2⟩

end Rgb
