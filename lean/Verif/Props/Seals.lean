import Verif.Demo

set_option linter.unusedSectionVars false

/-! # C26, C27, C37, C40, C41, C50: announcements, genesis, witnesses without closings -/

namespace Rgb
open Spec

/-! ## C26 -/

section
variable {Seal : Type} [LinearOrder Seal] [RgbSeal Seal] [OpHash]
variable {C E : Type} [ContractApi Seal C]
variable {R : Type} [ReadOperation Seal R]

/-- Whenever any run asks the seal protocol whether a witness closes seals, it is for a block with that
witness, and the seals are, input by input, those given by the latest earlier block that announces a
seal for the input, no block since then having consumed it. -/
theorem C26_latest_announcement {c : C} {r : R} {o} (h : evaluate (Seal := Seal) c r = some o)
    {pre post : List (Call Seal)} {w : SealWitness Seal} {seals : List Seal} {m : RgbSeal.Message Seal}
    (hc : o.world.calls = pre ++ .verifySealsClosing w seals m :: post) :
    ∃ (blocks : List (OperationSeals Seal)) (b : OperationSeals Seal), StartsWith r (blocks ++ [b]) ∧
      polls pre = blocks.length + 1 ∧ b.witness = some w ∧
      List.Forall₂ (fun (inp : Input) s => ∃ j bj d, j < blocks.length ∧ blocks[j]? = some bj ∧
          inp.addr.opid = idAt (ContractApi.contractId Seal c) j bj ∧ (inp.addr.pos, d) ∈ bj.definedSeals.entries ∧
          (RgbSeal.toSrc d = some s ∨ RgbSeal.toSrc d = none ∧
            ∃ wj, bj.witness = some wj ∧ s = RgbSeal.resolve d (RgbSeal.pubId wj.published)) ∧
          ∀ k bk, j < k → blocks[k]? = some bk → ¬ Consumes bk inp.addr ∧
            ∀ s', ¬ Announces (ContractApi.contractId Seal c) k bk inp.addr s')
        b.operation.destructibleIn seals := by
  obtain ⟨blocks, b, h1, h2, _⟩ := in_round h (by simp) (by simp) (by simp) hc
  obtain ⟨h3, _, h4⟩ := asked_of_round h1 h hc h2
  refine ⟨blocks, b, h1, h2, h3, h4.imp ?_⟩
  rintro inp s ⟨j, bj, k1, k2, ⟨k3, d, k4, k5⟩, k6⟩
  exact ⟨j, bj, d, k1, k2, k3, k4, k5, fun k bk hj hbk => k6 k bk hj (lt_length_of_getElem? hbk) hbk⟩

end

open Demo in
example : ∃ o pre post, evaluate (Seal := Nat) ledger (Tape.mk story none) = some o ∧
    o.world.calls = pre ++ .verifySealsClosing (wit 51 [50003, 5] 102) [50003, 5] (102 : Bytes32) :: post := by
  obtain ⟨o, h⟩ := story_run
  obtain ⟨pre, post, hp⟩ := List.append_of_mem (show Call.verifySealsClosing (wit 51 [50003, 5] 102) [50003, 5] (102 : Bytes32) ∈
    callsOf ledger story from List.mem_of_getElem? (i := 21) rfl)
  exact ⟨o, pre, post, h.run, by rw [calls_of h, hp]⟩

/-! ## C27 -/

section
variable {Seal : Type} [LinearOrder Seal] [RgbSeal Seal] [OpHash]
variable {C E : Type} [ContractApi Seal C]
variable {R : Type} [ReadOperation Seal R]

/-- A witness-relative definition counts as resolved with the witness of its own block: that is the
seal asked about when the cell is consumed, with no other announcement or consumption in between. -/
theorem C27_resolved {c : C} {r : R} {blocks : List (OperationSeals Seal)} {b : OperationSeals Seal}
    (hr : StartsWith r (blocks ++ [b])) {o} (h : evaluate (Seal := Seal) c r = some o)
    {pre post : List (Call Seal)} {w : SealWitness Seal} {seals : List Seal} {m : RgbSeal.Message Seal}
    (hc : o.world.calls = pre ++ .verifySealsClosing w seals m :: post) (hp : polls pre = blocks.length + 1)
    {k : Nat} {inp : Input} (hk : b.operation.destructibleIn[k]? = some inp)
    {j : Nat} {bj : OperationSeals Seal} {d : RgbSeal.Definition Seal} {wj : SealWitness Seal}
    (hj : blocks[j]? = some bj) (hid : inp.addr.opid = idAt (ContractApi.contractId Seal c) j bj)
    (hd : (inp.addr.pos, d) ∈ bj.definedSeals.entries) (hs : RgbSeal.toSrc d = none) (hw : bj.witness = some wj)
    (hno : ∀ i bi, j < i → blocks[i]? = some bi → ¬ Consumes bi inp.addr ∧
      ∀ s', ¬ Announces (ContractApi.contractId Seal c) i bi inp.addr s') :
    seals[k]? = some (RgbSeal.resolve d (RgbSeal.pubId wj.published)) := by
  obtain ⟨_, _, hf⟩ := asked_of_round hr h hc hp
  have hopen : OpenAt (ContractApi.contractId Seal c) blocks blocks.length inp.addr
      (RgbSeal.resolve d (RgbSeal.pubId wj.published)) :=
    ⟨j, bj, lt_length_of_getElem? hj, hj, ⟨hid, d, hd, .inr ⟨hs, wj, hw, rfl⟩⟩, fun i bi h1 _ h2 => hno i bi h1 h2⟩
  generalize b.operation.destructibleIn = l at hf hk
  clear hc
  induction hf generalizing k with
  | nil => simp at hk
  | cons ha _ ih =>
    cases k with
    | zero =>
      simp only [List.getElem?_cons_zero, Option.some.injEq] at hk ⊢
      subst hk
      exact (ha.functional hopen).symm
    | succ k => simpa using ih (by simpa using hk)

end

open Demo in
example : ∃ o pre post, evaluate (Seal := Nat) ledger (Tape.mk story none) = some o ∧
    StartsWith (Seal := Nat) (Tape.mk story none) ([genesis, transfer1] ++ [transfer2]) ∧
    o.world.calls = pre ++ .verifySealsClosing (wit 51 [50003, 5] 102) [50003, 5] (102 : Bytes32) :: post ∧
    polls pre = [genesis, transfer1].length + 1 ∧
    transfer2.operation.destructibleIn[0]? = some ⟨at_ 101 0, .none⟩ ∧
    (at_ 101 0).opid = idAt (ContractApi.contractId Nat ledger) 1 transfer1 ∧
    ((at_ 101 0).pos, (Def.rel 3 : RgbSeal.Definition Nat)) ∈ transfer1.definedSeals.entries ∧
    RgbSeal.toSrc (Seal := Nat) (Def.rel 3 : RgbSeal.Definition Nat) = none ∧ transfer1.witness = some (wit 50 [1] 101) ∧
    ∀ (i : Nat) (bi : Block), 1 < i → [genesis, transfer1][i]? = some bi → False := by
  obtain ⟨o, h⟩ := story_run
  refine ⟨o, (callsOf ledger story).take 21, (callsOf ledger story).drop 22, h.run,
    tape_startsWith story [] none, by rw [calls_of h]; rfl, rfl, rfl, by decide +kernel,
    OMap.get?_eq_some.1 rfl, rfl, rfl, ?_⟩
  intro i bi hi hb
  have := lt_length_of_getElem? hb
  simp at this
  omega

section
variable {Seal : Type} [LinearOrder Seal] [RgbSeal Seal] [OpHash]
variable {C E : Type} [ContractApi Seal C]
variable {R : Type} [ReadOperation Seal R]

/-- If every earlier block announcing the cell reveals only a witness-relative definition for it and
has no witness, consuming the cell fails with `SealUnknown`. -/
theorem C27_unspendable {c : C} {r : R} {blocks : List (OperationSeals Seal)} {b : OperationSeals Seal}
    (hr : StartsWith r (blocks ++ [b])) (hv : ValidConsignment c blocks) (h1 : CommitsToCodex c blocks b)
    (h2 : SealsCommitted b) {pre post : List Input} {inp : Input} (h3 : b.operation.destructibleIn = pre ++ inp :: post)
    (h4 : (pre.map (·.addr)).Nodup)
    (h5 : ∀ i ∈ pre, ∃ s, OpenAt (ContractApi.contractId Seal c) blocks blocks.length i.addr s)
    (h6 : ∀ j bj d, blocks[j]? = some bj → inp.addr.opid = idAt (ContractApi.contractId Seal c) j bj →
      (inp.addr.pos, d) ∈ bj.definedSeals.entries → RgbSeal.toSrc d = none ∧ bj.witness = none) :
    ∃ o, evaluate (Seal := Seal) c r = some o ∧ o.result = .error (.sealUnknown inp.addr) := by
  have rej : Rejection (E := ReadOperation.Error Seal R) c blocks b (.sealUnknown inp.addr) [] := by
    refine .unknown h1 h2 h3 h4 h5 (.inl ?_)
    rintro s ⟨j, bj, _, k2, ⟨k3, d, k4, k5⟩, _⟩
    obtain ⟨e1, e2⟩ := h6 j bj d k2 k3 k4
    rcases k5 with k5 | ⟨_, w, hw, _⟩
    · rw [e1] at k5; simp at k5
    · rw [e2] at hw; simp at hw
  obtain ⟨o, k1, k2, _⟩ := evaluate_of_rejection hr hv rej
  exact ⟨o, k1, k2⟩

end

namespace Demo
/-- A transfer of genesis output 2, whose seal is relative to a witness genesis does not have. -/
def spendRelative : Block := ⟨op 111 [at_ 100 2] [], .empty, some (wit 60 [2] 111)⟩
end Demo

open Demo in
example : StartsWith (Seal := Nat) (Tape.mk ([genesis] ++ [spendRelative]) none) ([genesis] ++ [spendRelative]) ∧
    ValidConsignment ledger [genesis] ∧ CommitsToCodex ledger [genesis] spendRelative ∧ SealsCommitted spendRelative ∧
    spendRelative.operation.destructibleIn = [] ++ ⟨at_ 100 2, .none⟩ :: [] ∧
    ∀ (j : Nat) bj (d : Def), [genesis][j]? = some bj → (at_ 100 2).opid = idAt (ContractApi.contractId Nat ledger) j bj →
      ((at_ 100 2).pos, d) ∈ bj.definedSeals.entries → RgbSeal.toSrc (Seal := Nat) d = none ∧ bj.witness = none := by
  refine ⟨by simpa using tape_startsWith ([genesis] ++ [spendRelative]) [] none, valid_of_accepts (by decide +kernel),
    by simp [CommitsToCodex], ?_, rfl, ?_⟩
  · intro p d hd; exact absurd hd (by simp [spendRelative, OMap.empty])
  · intro j bj d hj _ hd
    cases j with
    | zero =>
      simp only [List.getElem?_cons_zero, Option.some.injEq] at hj
      subst hj
      have h1 : genesis.definedSeals.get? 2 = some (Def.rel 2) := rfl
      have h2 := OMap.get?_eq_some.2 hd
      have : (Def.rel 2 : Def) = d := Option.some.inj (h1.symm.trans h2)
      subst this
      exact ⟨rfl, rfl⟩
    | succ j => simp at hj

/-! ## C37 -/

section
variable {Seal : Type} [LinearOrder Seal] [RgbSeal Seal] [OpHash]
variable {C E : Type} [ContractApi Seal C]
variable {R : Type} [ReadOperation Seal R]

/-- The property as stated: the first operation of an accepted consignment is known. -/
def C37_statement : Prop :=
  ∀ (Seal : Type) [LinearOrder Seal] [RgbSeal Seal] [OpHash] (C : Type) [ContractApi Seal C]
    (R : Type) [ReadOperation Seal R] (c : C) (r : R) (b : OperationSeals Seal) rest o,
    Accepted c r (b :: rest) o →
    ContractApi.isKnown Seal c (opid { b.operation with contractId := ContractApi.contractId Seal c }) = true

end

namespace Demo
/-- Another genesis for the same codex. -/
def foreignGenesis : Block := ⟨{ op 200 [] [.abs 1] with contractId := ⟨7⟩ }, .collect [(0, .abs 1)], none⟩
end Demo

open Demo in
/-- It is false: any genesis for the same codex which passes the codex is accepted. -/
theorem C37_refuted : ¬ C37_statement := by
  intro h
  obtain ⟨o, ho⟩ := Demo.accepted_of_accepts (c := Demo.ledger) (bs := [Demo.foreignGenesis]) (by decide +kernel)
  have := h Nat Ledger Tape _ _ _ _ o ho
  exact absurd this (by decide +kernel)

section
variable {Seal : Type} [LinearOrder Seal] [RgbSeal Seal] [OpHash]
variable {C E : Type} [ContractApi Seal C]
variable {R : Type} [ReadOperation Seal R]

/-- What holds instead (missing: that the operation is known).  The first operation is known, or else
the codex accepts it, and then no `apply_operation` call is ever made while it is handled. -/
theorem C37_partial {c : C} {r : R} {b : OperationSeals Seal} {rest} {o} (h : Accepted c r (b :: rest) o) :
    (ContractApi.isKnown Seal c (opid { b.operation with contractId := ContractApi.contractId Seal c }) = true ∨
      ∃ v, codexAnswer Seal c (ContractApi.contractId Seal c)
        { b.operation with contractId := ContractApi.contractId Seal c } = .ok v) ∧
    ∀ pre post v, o.world.calls = pre ++ .applyOperation v :: post → 2 ≤ polls pre := by
  constructor
  · cases hk : ContractApi.isKnown Seal c (opid { b.operation with contractId := ContractApi.contractId Seal c }) with
    | true => exact .inl rfl
    | false => exact .inr ((h.valid 0 b rfl).script hk)
  · intro pre post v hc
    obtain ⟨blocks, b', h1, h2, _⟩ := in_round h.run (by simp) (by simp) (by simp) hc
    by_contra hlt
    have h0 : blocks = [] := List.length_eq_zero_iff.1 (by omega)
    subst h0
    rcases round h1 h.run (by simp) hc h2 with ⟨seals, p, q, _, _, hl⟩ | ⟨e, l, p, q, hrej, hl⟩
    · have hm : Call.applyOperation v ∈ p ++ Call.applyOperation v :: q := by simp
      rw [← hl] at hm
      simp only [List.mem_append, callbacks, operationCallbacks, List.length_nil, true_or, if_true, List.not_mem_nil,
        or_false] at hm
      rcases hm with (hm | hm) | hm | hm
      · unfold queries at hm; split at hm <;> simp at hm
      · unfold sealQueries at hm; split at hm <;> simp at hm
      · unfold witnessCallbacks at hm; split at hm <;> simp at hm
      · unfold sealCallbacks at hm; split at hm <;> simp at hm
    · have hm : Call.applyOperation v ∈ l.filter IsCallback := List.mem_filter.2 ⟨by rw [hl]; simp, rfl⟩
      rw [hrej.filter_callbacks] at hm
      simp at hm

end

open Demo in
example : ∃ o, Accepted ledger (Tape.mk [foreignGenesis] none) [foreignGenesis] o :=
  accepted_of_accepts (by decide +kernel)

/-! ## C40 -/

section
variable {Seal : Type} [LinearOrder Seal] [RgbSeal Seal] [OpHash]
variable {C E : Type} [ContractApi Seal C]
variable {R : Type} [ReadOperation Seal R]

/-- A block consuming an output of an operation which is not among the earlier blocks of the same
stream is rejected, whatever the contract knows. -/
theorem C40_self_contained {c : C} {r : R} {blocks : List (OperationSeals Seal)} {b : OperationSeals Seal}
    (hr : StartsWith r (blocks ++ [b])) (hv : ValidConsignment c blocks) (h1 : CommitsToCodex c blocks b)
    (h2 : SealsCommitted b) {pre post : List Input} {inp : Input} (h3 : b.operation.destructibleIn = pre ++ inp :: post)
    (h4 : (pre.map (·.addr)).Nodup)
    (h5 : ∀ i ∈ pre, ∃ s, OpenAt (ContractApi.contractId Seal c) blocks blocks.length i.addr s)
    (h6 : ∀ j bj, blocks[j]? = some bj → inp.addr.opid ≠ idAt (ContractApi.contractId Seal c) j bj) :
    ∃ o, evaluate (Seal := Seal) c r = some o ∧ o.result = .error (.sealUnknown inp.addr) :=
  C27_unspendable hr hv h1 h2 h3 h4 h5 fun j bj _ hj hid => absurd hid (h6 j bj hj)

/-- And no stream containing such a block is ever accepted, whatever its other blocks. -/
theorem C40_never_accepted {c : C} {r : R} {blocks : List (OperationSeals Seal)} {i : Nat} {b : OperationSeals Seal}
    {inp : Input} (hr : Delivers r blocks) (hb : blocks[i]? = some b) (hi : inp ∈ b.operation.destructibleIn)
    (h6 : ∀ j bj, j < i → blocks[j]? = some bj → inp.addr.opid ≠ idAt (ContractApi.contractId Seal c) j bj) :
    ∃ o e, evaluate (Seal := Seal) c r = some o ∧ o.result = .error e := by
  have hnv : ¬ ValidConsignment c blocks := by
    intro hv
    obtain ⟨seals, hf, hcl⟩ := (hv i b hb).closed
    clear hcl
    have : ∃ s, OpenAt (ContractApi.contractId Seal c) blocks i inp.addr s := by
      generalize b.operation.destructibleIn = l at hf hi
      induction hf with
      | nil => simp at hi
      | cons ho _ ih =>
        rcases List.mem_cons.1 hi with rfl | hi
        · exact ⟨_, ho⟩
        · exact ih hi
    obtain ⟨s, j, bj, hj, hbj, ⟨ha, _⟩, _⟩ := this
    exact h6 j bj hj hbj ha
  obtain ⟨xs, b', ys, rfl, k1, k2⟩ := first_invalid hnv
  rcases valid_or_rejected (E := ReadOperation.Error Seal R) k1 b' with k3 | ⟨e, l, hrej⟩
  · exact absurd k3 k2
  · obtain ⟨r₁, _, hst, _⟩ := hr
    rw [List.append_cons] at hst
    obtain ⟨r₂, k, _⟩ := hst.split
    obtain ⟨o, e1, e2, _⟩ := evaluate_of_rejection ⟨r₂, k⟩ k1 hrej
    exact ⟨o, e, e1, e2⟩

end

open Demo in
example : StartsWith (Seal := Nat) (Tape.mk ([genesis] ++ [transfer2]) none) ([genesis] ++ [transfer2]) ∧
    ValidConsignment late [genesis] ∧ CommitsToCodex late [genesis] transfer2 ∧ SealsCommitted transfer2 ∧
    transfer2.operation.destructibleIn = [] ++ ⟨at_ 101 0, .none⟩ :: [⟨at_ 100 1, .none⟩] ∧
    (∀ (j : Nat) (bj : Block), [genesis][j]? = some bj → (at_ 101 0).opid ≠ idAt (ContractApi.contractId Nat late) j bj) ∧
    ContractApi.isKnown Nat late (at_ 101 0).opid = true := by
  refine ⟨by simpa using tape_startsWith ([genesis] ++ [transfer2]) [] none, valid_of_accepts (by decide +kernel),
    by simp [CommitsToCodex], isSubset_iff_committed.1 (by decide +kernel), rfl, ?_, by decide +kernel⟩
  intro j bj hj
  cases j with
  | zero =>
    simp only [List.getElem?_cons_zero, Option.some.injEq] at hj
    subst hj
    decide +kernel
  | succ j => simp at hj

/-! ## C41 -/

section
variable {Seal : Type} [LinearOrder Seal] [RgbSeal Seal] [OpHash]
variable {C E : Type} [ContractApi Seal C]
variable {R : Type} [ReadOperation Seal R]

/-- The property as stated in the documentation of `apply_witness`: it is called only for operations
other than the first one that destroy some state. -/
def C41_statement : Prop :=
  ∀ (Seal : Type) [LinearOrder Seal] [RgbSeal Seal] [OpHash] (C : Type) [ContractApi Seal C]
    (R : Type) [ReadOperation Seal R] (c : C) (r : R) o, evaluate (Seal := Seal) c r = some o →
    ∀ pre post id w, o.world.calls = pre ++ .applyWitness id w :: post →
      ∃ (blocks : List (OperationSeals Seal)) (b : OperationSeals Seal), StartsWith r (blocks ++ [b]) ∧
        polls pre = blocks.length + 1 ∧ blocks ≠ [] ∧ b.operation.destructibleIn ≠ []

end

namespace Demo
/-- Genesis with a witness closing nothing. -/
def witnessedGenesis : Block := { genesis with witness := some (wit 50 [] 100) }
end Demo

open Demo in
/-- It is false: a witness attached to the first operation is reported, if the seal protocol accepts
it. -/
theorem C41_refuted : ¬ C41_statement := by
  intro h
  obtain ⟨o, ho⟩ := Demo.accepted_of_accepts (c := Demo.ledger) (bs := [Demo.witnessedGenesis]) (by decide +kernel)
  obtain ⟨pre, post, hp⟩ := mem_calls ho (l₁ := []) (x := .applyWitness ⟨100⟩ (wit 50 [] 100)) (l₂ := _) rfl
  obtain ⟨blocks, b, h1, h2, h3, h4⟩ := h Nat Ledger Tape _ _ o ho.run _ _ _ _ hp
  have hlen : blocks.length + 1 ≤ 1 := by
    obtain ⟨_, h1'⟩ := h1
    obtain ⟨r₁, _, k1, k2⟩ := ho.delivers
    rcases h1'.det k1 with ⟨zs, e, _⟩ | ⟨zs, e, hz⟩
    · have := congrArg List.length e
      simp only [List.length_append, List.length_cons, List.length_nil] at this; omega
    · cases hz with
      | nil =>
        have := congrArg List.length e
        simp only [List.length_append, List.length_cons, List.length_nil] at this; omega
      | cons hz _ => rw [k2] at hz; simp at hz
  exact h3 (List.length_eq_zero_iff.1 (by omega))

section
variable {Seal : Type} [LinearOrder Seal] [RgbSeal Seal] [OpHash]
variable {C E : Type} [ContractApi Seal C]
variable {R : Type} [ReadOperation Seal R]

/-- What holds instead (missing: consignments attaching a witness to the first or to input-less
operations).  If the stream attaches none there, the documented restriction is met. -/
theorem C41_partial {c : C} {r : R} {o} (h : evaluate (Seal := Seal) c r = some o)
    (hr : ∀ (blocks : List (OperationSeals Seal)) b, StartsWith r (blocks ++ [b]) →
      blocks = [] ∨ b.operation.destructibleIn = [] → b.witness = none)
    {pre post : List (Call Seal)} {id : Opid} {w : SealWitness Seal}
    (hc : o.world.calls = pre ++ .applyWitness id w :: post) :
    ∃ (blocks : List (OperationSeals Seal)) (b : OperationSeals Seal), StartsWith r (blocks ++ [b]) ∧
      polls pre = blocks.length + 1 ∧ blocks ≠ [] ∧ b.operation.destructibleIn ≠ [] ∧ b.witness = some w ∧
      id = opid b.operation := by
  obtain ⟨blocks, b, h1, h2, _⟩ := in_round h (by simp) (by simp) (by simp) hc
  have hw : b.witness = some w ∧ id = nextId c blocks b := by
    rcases round h1 h (by simp) hc h2 with ⟨seals, p, q, _, _, hl⟩ | ⟨e, l, p, q, hrej, hl⟩
    · have hm : Call.applyWitness id w ∈ p ++ Call.applyWitness id w :: q := by simp
      rw [← hl] at hm
      simp only [List.mem_append, callbacks] at hm
      rcases hm with (hm | hm) | (hm | hm) | hm
      · unfold queries at hm; split at hm <;> simp at hm
      · unfold sealQueries at hm; split at hm <;> simp at hm
      · unfold witnessCallbacks at hm
        split at hm
        · rename_i w' hw'
          simp only [List.mem_singleton, Call.applyWitness.injEq] at hm
          obtain ⟨rfl, rfl⟩ := hm
          exact ⟨hw', rfl⟩
        · simp at hm
      · unfold operationCallbacks at hm
        split at hm
        · simp at hm
        · split at hm <;> simp at hm
      · unfold sealCallbacks at hm; split at hm <;> simp at hm
    · have hm : Call.applyWitness id w ∈ l.filter IsCallback := List.mem_filter.2 ⟨by rw [hl]; simp, rfl⟩
      rw [hrej.filter_callbacks] at hm
      simp at hm
  have hne : blocks ≠ [] := by
    intro e
    have := hr blocks b h1 (.inl e)
    rw [hw.1] at this; simp at this
  refine ⟨blocks, b, h1, h2, hne, ?_, hw.1, ?_⟩
  · intro e
    have := hr blocks b h1 (.inr e)
    rw [hw.1] at this; simp at this
  · rw [hw.2, nextId, idAt, opAt, if_neg (by simpa using hne)]

end

open Demo in
example : ∀ (blocks : List Block) b, StartsWith (Tape.mk story none) (blocks ++ [b]) →
      blocks = [] ∨ b.operation.destructibleIn = [] → b.witness = none := by
  rintro blocks b ⟨r₁, hr⟩ hor
  obtain ⟨r₂, _, k1, k2⟩ := tape_delivers story
  have : ∃ zs, story = blocks ++ [b] ++ zs := by
    rcases hr.det k1 with ⟨zs, e, _⟩ | ⟨zs, e, hz⟩
    · exact ⟨zs, e⟩
    · cases hz with
      | nil => exact ⟨[], by rw [List.append_nil] at e; simp [e]⟩
      | cons hz _ => rw [k2] at hz; simp at hz
  obtain ⟨zs, e⟩ := this
  have hb : story[blocks.length]? = some b := by rw [e]; simp
  have key : ∀ i < 3, ∀ b ∈ story[i]?, i = 0 ∨ b.operation.destructibleIn = [] → b.witness.isNone = true := by decide +kernel
  have := key blocks.length (lt_length_of_getElem? hb) b hb (hor.imp (by rintro rfl; rfl) id)
  simpa using this

/-! ## C50 -/

section
variable {Seal : Type} [LinearOrder Seal] [RgbSeal Seal] [OpHash]
variable {C E : Type} [ContractApi Seal C]
variable {R : Type} [ReadOperation Seal R]

/-- The claim of the change log: accepted operations other than the first have at least one input. -/
def C50_claim : Prop :=
  ∀ (Seal : Type) [LinearOrder Seal] [RgbSeal Seal] [OpHash] (C : Type) [ContractApi Seal C]
    (R : Type) [ReadOperation Seal R] (c : C) (r : R) (blocks : List (OperationSeals Seal)) o,
    Accepted c r blocks o → ∀ (i : Nat) b, blocks[i]? = some b → i ≠ 0 →
      b.operation.destructibleIn ≠ [] ∨ b.operation.immutableIn ≠ []

end

namespace Demo
/-- An operation with no inputs at all, creating a cell. -/
def noInputs : Block := ⟨op 107 [] [.abs 4], .collect [(0, .abs 4)], none⟩
end Demo

open Demo in
/-- The claim is false of this code. -/
theorem C50_refuted : ¬ C50_claim := by
  intro h
  obtain ⟨o, ho⟩ := Demo.accepted_of_accepts (c := Demo.ledger) (bs := [Demo.genesis, Demo.noInputs]) (by decide +kernel)
  have := h Nat Ledger Tape _ _ _ o ho 1 _ rfl (by simp)
  simp [noInputs, op] at this

section
variable {Seal : Type} [LinearOrder Seal] [RgbSeal Seal] [OpHash]
variable {C E : Type} [ContractApi Seal C]
variable {R : Type} [ReadOperation Seal R]

/-- An operation without destructible inputs and without witness, after acceptable blocks, is accepted
exactly if it is known or the codex accepts it (given that it commits to the seals it reveals). -/
theorem C50_inputless {c : C} {r : R} {blocks : List (OperationSeals Seal)} {b : OperationSeals Seal}
    (hr : Delivers r (blocks ++ [b])) (hv : ValidConsignment c blocks) (hne : blocks ≠ [])
    (h1 : b.operation.destructibleIn = []) (h2 : b.witness = none) (h3 : SealsCommitted b) :
    (∃ o, evaluate (Seal := Seal) c r = some o ∧ o.result = .ok ()) ↔
      ContractApi.isKnown Seal (contractAt (ContractApi.contractId Seal c) c blocks blocks.length) (opid b.operation) = true ∨
      ∃ v, codexAnswer Seal (contractAt (ContractApi.contractId Seal c) c blocks blocks.length)
        (ContractApi.contractId Seal c) b.operation = .ok v := by
  have hlen : blocks.length ≠ 0 := by simpa using hne
  have hop : opAt (ContractApi.contractId Seal c) blocks.length b = b.operation := by rw [opAt, if_neg hlen]
  have hid : idAt (ContractApi.contractId Seal c) blocks.length b = opid b.operation := by rw [idAt, hop]
  constructor
  · rintro ⟨o, k1, k2⟩
    have hvb := (validConsignment_snoc.1 (Accepted.mk k1 k2 hr).valid).2
    have hs := hvb.script
    rw [hid, hop] at hs
    cases hk : ContractApi.isKnown Seal (contractAt (ContractApi.contractId Seal c) c blocks blocks.length)
      (opid b.operation) with
    | true => exact .inl rfl
    | false => exact .inr (hs hk)
  · intro hor
    have hvb : ValidBlock c blocks blocks.length b := by
      refine ⟨fun e => absurd e hlen, h3, by simp [h1], ⟨[], by simp [h1], by simp [h2], by simp⟩, ?_⟩
      rw [hid, hop]
      intro hk
      rcases hor with hor | hor
      · rw [hk] at hor; simp at hor
      · exact hor
    obtain ⟨o, k1, k2, _⟩ := evaluate_of_delivers hr (validConsignment_snoc.2 ⟨hv, hvb⟩)
    exact ⟨o, k1, k2⟩

end

open Demo in
example : Delivers (Seal := Nat) (Tape.mk ([genesis] ++ [noInputs]) none) ([genesis] ++ [noInputs]) ∧
    ValidConsignment ledger [genesis] ∧ noInputs.operation.destructibleIn = [] ∧ noInputs.witness = none ∧
    SealsCommitted noInputs :=
  ⟨tape_delivers _, valid_of_accepts (by decide +kernel), rfl, rfl, isSubset_iff_committed.1 (by decide +kernel)⟩

end Rgb
