import Verif.Props.Streams

set_option linter.unusedSectionVars false

/-! # C54: who can spend a cell -/

namespace Rgb
open Spec

section
variable {Seal : Type} [LinearOrder Seal] [RgbSeal Seal] [OpHash]
variable {C E : Type} [ContractApi Seal C]
variable {R : Type} [ReadOperation Seal R]

/-- `s` is the seal which definition `d` stands for in block `b`: its own, or the one relative to the
witness of the block. -/
def StandsFor (b : OperationSeals Seal) (d : RgbSeal.Definition Seal) (s : Seal) : Prop :=
  RgbSeal.toSrc d = some s ∨
    RgbSeal.toSrc d = none ∧ ∃ w, b.witness = some w ∧ s = RgbSeal.resolve d (RgbSeal.pubId w.published)

end

/-- The seals named in a request to the seal protocol. -/
def requestedSeals {Seal : Type} [LinearOrder Seal] [RgbSeal Seal] : Call Seal → Option (List Seal)
  | .verifySealsClosing _ seals _ => some seals
  | _ => none

/-- Whoever spends an output closes the seal to which that very output was assigned: the closing check
for the witness of a block is made over seals, one for each input, each standing for a definition to
which the consumed cell commits. -/
def C54_statement : Prop :=
  ∀ (Seal : Type) [LinearOrder Seal] [RgbSeal Seal] [OpHash] (C : Type) [ContractApi Seal C]
    (R : Type) [ReadOperation Seal R] (c : C) (r : R) (blocks : List (OperationSeals Seal)) o,
    Accepted c r blocks o →
    ∀ (i : Nat) b w, blocks[i]? = some b → b.witness = some w →
    ∃ seals : List Seal,
      Call.verifySealsClosing w seals (message Seal (idAt (ContractApi.contractId Seal c) i b)) ∈ o.world.calls ∧
      List.Forall₂ (fun (inp : Input) (s : Seal) =>
        ∃ (j : Nat) (bj : OperationSeals Seal) (d : RgbSeal.Definition Seal) (cell : StateCell),
          j < i ∧ blocks[j]? = some bj ∧ inp.addr.opid = idAt (ContractApi.contractId Seal c) j bj ∧
          bj.operation.destructibleOut[(inp.addr.pos : Nat)]? = some cell ∧ cell.auth = RgbSeal.authToken d ∧
          StandsFor bj d s) b.operation.destructibleIn seals

open Demo in
/-- The owner of output 1 of genesis can spend output 0. -/
theorem C54_refuted : ¬ C54_statement := by
  intro h
  obtain ⟨o, ho⟩ := accepted_of_accepts (c := ledger) (bs := [swappedGenesis, wrongSpend]) (by decide +kernel)
  obtain ⟨seals, hcall, hall⟩ := h Nat Ledger Tape _ _ _ o ho 1 wrongSpend (wit 60 [5] 103) rfl rfl
  rw [calls_of ho] at hcall
  have hseals : seals ∈ (callsOf ledger [swappedGenesis, wrongSpend]).filterMap requestedSeals :=
    List.mem_filterMap.2 ⟨_, hcall, rfl⟩
  have hlist : (callsOf ledger [swappedGenesis, wrongSpend]).filterMap requestedSeals = [[5]] := by decide +kernel
  rw [hlist, List.mem_singleton] at hseals
  subst hseals
  obtain ⟨j, bj, d, cell, hj, hbj, _, hcell, hauth, hst⟩ := (List.forall₂_cons.1 hall).1
  obtain rfl : j = 0 := by omega
  obtain rfl : swappedGenesis = bj := by simpa using hbj
  have hc : swappedGenesis.operation.destructibleOut[((at_ 100 0).pos : Nat)]? = some (Demo.cell (.abs 1)) := rfl
  obtain rfl : Demo.cell (.abs 1) = cell := Option.some.inj (hc.symm.trans hcell)
  rcases hst with hst | ⟨_, w, hw, _⟩
  · cases d with
    | abs n =>
      obtain rfl : n = 5 := Option.some.inj hst
      exact absurd hauth (by decide +kernel)
    | rel n => simp [RgbSeal.toSrc] at hst
  · simp [swappedGenesis] at hw

section
variable {Seal : Type} [LinearOrder Seal] [RgbSeal Seal] [OpHash]
variable {C E : Type} [ContractApi Seal C]
variable {R : Type} [ReadOperation Seal R]

/-- What holds (missing: the positions).  The closing check for the witness of a block is made over
seals, one for each input, each standing for a definition revealed for the consumed address; some cell
of the creating operation commits to it, and if the revealing block has its positions right, the
consumed cell does. -/
theorem C54_partial {c : C} {r : R} {blocks : List (OperationSeals Seal)} {o} (h : Accepted c r blocks o)
    {i : Nat} {b : OperationSeals Seal} {w : SealWitness Seal} (hb : blocks[i]? = some b) (hw : b.witness = some w) :
    ∃ seals : List Seal,
      Call.verifySealsClosing w seals (message Seal (idAt (ContractApi.contractId Seal c) i b)) ∈ o.world.calls ∧
      RgbSeal.verifySealsClosing w.published w.client seals (message Seal (idAt (ContractApi.contractId Seal c) i b)) = .ok () ∧
      List.Forall₂ (fun (inp : Input) (s : Seal) =>
        ∃ (j : Nat) (bj : OperationSeals Seal) (d : RgbSeal.Definition Seal),
          j < i ∧ blocks[j]? = some bj ∧ inp.addr.opid = idAt (ContractApi.contractId Seal c) j bj ∧
          (inp.addr.pos, d) ∈ bj.definedSeals.entries ∧ StandsFor bj d s ∧
          (∃ cell ∈ bj.operation.destructibleOut, cell.auth = RgbSeal.authToken d) ∧
          (PositionsRight bj → ∃ cell : StateCell,
            bj.operation.destructibleOut[(inp.addr.pos : Nat)]? = some cell ∧ cell.auth = RgbSeal.authToken d))
        b.operation.destructibleIn seals := by
  obtain ⟨segs, hsegs, hcalls⟩ := h.trace
  have hi := lt_length_of_getElem? hb
  obtain ⟨l, hl⟩ : ∃ l, segs[i]? = some l := ⟨_, List.getElem?_eq_getElem (hsegs.1 ▸ hi)⟩
  obtain ⟨seals, hopen, rfl⟩ := hsegs.2 i b l hb hl
  obtain ⟨seals', hopen', hok, _⟩ := (h.valid i b hb).closed
  obtain rfl : seals' = seals := sealed_unique hopen hopen'
  refine ⟨seals', ?_, hok w hw, hopen.imp ?_⟩
  · rw [hcalls]
    refine List.mem_append_left _ (List.mem_append_right _ (List.mem_flatten.2 ⟨_, List.mem_of_getElem? hl, ?_⟩))
    simp [sealQueries, hw]
  · rintro inp s ⟨j, bj, hj, hbj, ⟨ha, d, hd, hst⟩, _⟩
    exact ⟨j, bj, d, hj, hbj, ha, hd, hst, (h.valid j bj hbj).committed _ _ hd, fun hp => hp _ _ hd⟩

/-- If all positions are right, then any two consignments of the same contract that close the same
address close it for the same token, and with tokens distinguishing the definitions and a self-contained
definition the very same seal, unless two operations occurring there have the same id. -/
theorem C54_same_owner {C' : Type} [ContractApi Seal C'] {R' : Type} [ReadOperation Seal R'] {c : C} {c' : C'} {r : R} {r' : R'}
    {xs ys : List (OperationSeals Seal)} {o o'} (h : Accepted c r xs o) (h' : Accepted c' r' ys o')
    (hcid : ContractApi.contractId Seal c' = ContractApi.contractId Seal c)
    (hno : NoCollision (ContractApi.contractId Seal c) xs ys)
    (hr : ∀ b ∈ xs, PositionsRight b) (hr' : ∀ b ∈ ys, PositionsRight b)
    {i j : Nat} {b b' : OperationSeals Seal} (hb : xs[i]? = some b) (hb' : ys[j]? = some b') {a : CellAddr}
    (hc : Consumes b a) (hc' : Consumes b' a) :
    ∃ (s s' : Seal) (k l : Nat) (bk bl : OperationSeals Seal) (d d' : RgbSeal.Definition Seal),
      OpenAt (ContractApi.contractId Seal c) xs i a s ∧ OpenAt (ContractApi.contractId Seal c') ys j a s' ∧
      xs[k]? = some bk ∧ ys[l]? = some bl ∧
      (a.pos, d) ∈ bk.definedSeals.entries ∧ (a.pos, d') ∈ bl.definedSeals.entries ∧ StandsFor bk d s ∧ StandsFor bl d' s' ∧
      RgbSeal.authToken d = RgbSeal.authToken d' ∧
      ((RgbSeal.authToken d = RgbSeal.authToken d' → d = d') → (RgbSeal.toSrc d).isSome → s = s') := by
  obtain ⟨inp, hi, rfl⟩ := hc
  obtain ⟨inp', hi', e⟩ := hc'
  obtain ⟨s, hs⟩ := closed_open (h.valid i b hb) hi
  obtain ⟨s', hs'⟩ := closed_open (h'.valid j b' hb') hi'
  rw [e] at hs'
  obtain ⟨k, bk, _, hbk, ⟨ha, d, hd, hst⟩, _⟩ := id hs
  obtain ⟨l, bl, _, hbl, ⟨ha', d', hd', hst'⟩, _⟩ := id hs'
  rw [hcid] at ha'
  have hop := hno k l bk bl hbk hbl (ha.symm.trans ha')
  have hout : bk.operation.destructibleOut = bl.operation.destructibleOut := by
    have := congrArg Operation.destructibleOut hop
    unfold opAt at this
    split at this <;> split at this <;> exact this
  obtain ⟨cell, h1, h2⟩ := hr bk (List.mem_of_getElem? hbk) _ _ hd
  obtain ⟨cell', h1', h2'⟩ := hr' bl (List.mem_of_getElem? hbl) _ _ hd'
  rw [hout, h1'] at h1
  have hcell : cell' = cell := Option.some.inj h1
  have htok : RgbSeal.authToken d = RgbSeal.authToken d' := by rw [← h2, ← h2', hcell]
  refine ⟨s, s', k, l, bk, bl, d, d', hs, hs', hbk, hbl, hd, hd', hst, hst', htok, fun hinj hsrc => ?_⟩
  obtain rfl := hinj htok
  rcases hst with hst | ⟨hst, _⟩
  · rcases hst' with hst' | ⟨hst', _⟩
    · exact Option.some.inj (hst.symm.trans hst')
    · rw [hst'] at hst; simp at hst
  · rw [hst] at hsrc; simp at hsrc

end

namespace Demo
theorem noCollision_of {cid : ContractId} {xs ys : List Block}
    (h : ∀ e ∈ xs.zipIdx, ∀ f ∈ ys.zipIdx, idAt cid e.2 e.1 = idAt cid f.2 f.1 → opAt cid e.2 e.1 = opAt cid f.2 f.1) :
    NoCollision cid xs ys := fun i j b b' hb hb' =>
  h (b, i) (List.mem_zipIdx_iff_getElem?.2 hb) (b', j) (List.mem_zipIdx_iff_getElem?.2 hb')
end Demo

open Demo in
example : (∃ o, Accepted ledger (Tape.mk story none) story o) ∧ story[1]? = some transfer1 ∧
    (∃ o, Accepted ledger (Tape.mk [genesis, doubleSpend] none) [genesis, doubleSpend] o) ∧
    [genesis, doubleSpend][1]? = some doubleSpend ∧
    Consumes transfer1 (at_ 100 0) ∧ Consumes doubleSpend (at_ 100 0) ∧
    (∀ b ∈ story, PositionsRight (Seal := Nat) b) ∧ (∀ b ∈ [genesis, doubleSpend], PositionsRight (Seal := Nat) b) ∧
    NoCollision (Seal := Nat) ⟨9⟩ story [genesis, doubleSpend] ∧ ¬ PositionsRight swappedGenesis := by
  have key : ∀ b ∈ story ++ [doubleSpend], PositionsRight (Seal := Nat) b := by
    have : ∀ b ∈ story ++ [doubleSpend], ∀ e ∈ b.definedSeals.entries,
        (b.operation.destructibleOut[(e.1 : Nat)]?).map (·.auth) = some (RgbSeal.authToken (Seal := Nat) e.2) := by
      decide +kernel
    intro b hb p d hd
    have := this b hb (p, d) hd
    simpa [Option.map_eq_some_iff] using this
  refine ⟨story_run, rfl, accepted_of_accepts (by decide +kernel), rfl,
    ⟨_, List.mem_of_getElem? (i := 0) rfl, rfl⟩, ⟨_, List.mem_of_getElem? (i := 0) rfl, rfl⟩,
    fun b hb => key b (by simp [hb]), fun b hb => key b (by simp [story] at hb ⊢; tauto), noCollision_of (by decide +kernel), fun hp => ?_⟩
  obtain ⟨cell, h1, h2⟩ := hp 0 (.abs 5) (OMap.get?_eq_some.1 rfl)
  have hc : swappedGenesis.operation.destructibleOut[((0 : U16) : Nat)]? = some (Demo.cell (.abs 1)) := rfl
  obtain rfl : Demo.cell (.abs 1) = cell := Option.some.inj (hc.symm.trans h1)
  exact absurd h2 (by decide +kernel)

end Rgb
