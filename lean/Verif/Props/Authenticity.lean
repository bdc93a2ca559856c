import Verif.Props.Reanchoring
import Verif.Props.Conflicts
import Verif.Props.Streams

set_option linter.unusedSectionVars false

/-! # C85: what the id of an operation authenticates -/

namespace Rgb
open Spec

section
variable {Seal : Type} [LinearOrder Seal] [RgbSeal Seal] [OpHash]
variable {C E : Type} [ContractApi Seal C]
variable {R : Type} [ReadOperation Seal R]
variable {xs ys : List (OperationSeals Seal)}

/-- **C85.**  With a single-use seal protocol, blocks with the same operation id in two accepted
consignments for the same contract, whoever evaluated them, agree in everything that matters. -/
theorem C85_same (hsu : SingleUse Seal) {C' : Type} [ContractApi Seal C'] {R' : Type} [ReadOperation Seal R']
    {c : C} {c' : C'} {r : R} {r' : R'} {o o'} (h : Accepted c r xs o) (h' : Accepted c' r' ys o')
    (hcid : ContractApi.contractId Seal c' = ContractApi.contractId Seal c)
    (hw : WellFormed (ContractApi.contractId Seal c) xs ys)
    {i j : Nat} {b b' : OperationSeals Seal} (hb : xs[i]? = some b) (hb' : ys[j]? = some b')
    (he : idAt (ContractApi.contractId Seal c) i b = idAt (ContractApi.contractId Seal c) j b') :
    Concordant (ContractApi.contractId Seal c) xs ys i j b b' := by
  have hop := hw.collision i j b b' hb hb' he
  have hin : b.operation.destructibleIn = b'.operation.destructibleIn := by
    rw [← opAt_inputs (cid := ContractApi.contractId Seal c) (i := i), hop, opAt_inputs]
  have hout : b.operation.destructibleOut = b'.operation.destructibleOut := by
    rw [← opAt_outputs (cid := ContractApi.contractId Seal c) (i := i), hop, opAt_outputs]
  have mb := List.mem_of_getElem? hb
  have mb' := List.mem_of_getElem? hb'
  have hseal : ∀ a s s', OpenAt (ContractApi.contractId Seal c) xs i a s → OpenAt (ContractApi.contractId Seal c) ys j a s' → s = s' := by
    rintro a s s' ⟨k, bk, _, hbk, ha, _⟩ ⟨l, bl, _, hbl, hal, _⟩
    exact C64_same_seal hsu h h' hcid hw hbk hbl ha hal
  refine ⟨hop, ?_, fun a s s' _ => hseal a s s', ?_⟩
  · intro p d d' hd hd'
    obtain ⟨cell, e1, e2⟩ := hw.positions b (.inl mb) _ _ hd
    obtain ⟨cell', e1', e2'⟩ := hw.positions b' (.inr mb') _ _ hd'
    rw [hout, e1'] at e1
    obtain rfl := Option.some.inj e1
    exact hw.tokens b mb b' mb' _ _ _ _ hd hd' (e2.symm.trans e2')
  · intro hne
    obtain ⟨inp, hinp⟩ := List.exists_mem_of_ne_nil _ hne
    obtain ⟨w, seals, t, k1, k2, k3, k4⟩ := closing_witness (h.valid i b hb) hinp
    obtain ⟨w', seals', t', k1', k2', k3', k4'⟩ := closing_witness (h'.valid j b' hb') (hin ▸ hinp)
    rw [hcid] at k2' k4'
    obtain rfl := hseal _ _ _ k2 k2'
    exact ⟨w, w', k1, k1', (hsu w w' seals seals' _ _ t k4 k4' k3 k3').1⟩

/-- In particular an operation id stands for the whole history of the operation: two accepted
consignments that both contain it agree about it and about everything it descends from. -/
theorem C85_ancestry (hsu : SingleUse Seal) {C' : Type} [ContractApi Seal C'] {R' : Type} [ReadOperation Seal R']
    {c : C} {c' : C'} {r : R} {r' : R'} {o o'} (h : Accepted c r xs o) (h' : Accepted c' r' ys o')
    (hcid : ContractApi.contractId Seal c' = ContractApi.contractId Seal c)
    (hw : WellFormed (ContractApi.contractId Seal c) xs ys) {x y : Opid}
    (hx : ∃ (i : Nat) (b : OperationSeals Seal), xs[i]? = some b ∧ x = idAt (ContractApi.contractId Seal c) i b)
    (hx' : ∃ (j : Nat) (b : OperationSeals Seal), ys[j]? = some b ∧ x = idAt (ContractApi.contractId Seal c) j b)
    (hxy : Relation.ReflTransGen (Spends (ContractApi.contractId Seal c) xs) x y) :
    (∃ (i j : Nat) (b b' : OperationSeals Seal), xs[i]? = some b ∧ ys[j]? = some b' ∧
      y = idAt (ContractApi.contractId Seal c) i b ∧ y = idAt (ContractApi.contractId Seal c) j b') ∧
    ∀ (i j : Nat) (b b' : OperationSeals Seal), xs[i]? = some b → ys[j]? = some b' →
      y = idAt (ContractApi.contractId Seal c) i b → y = idAt (ContractApi.contractId Seal c) j b' →
      Concordant (ContractApi.contractId Seal c) xs ys i j b b' := by
  refine ⟨?_, fun i j b b' hb hb' e e' => C85_same hsu h h' hcid hw hb hb' (e.symm.trans e')⟩
  rcases Relation.reflTransGen_iff_eq_or_transGen.1 hxy with rfl | hxy
  · obtain ⟨i, b, h1, h2⟩ := hx
    obtain ⟨j, b', h3, h4⟩ := hx'
    exact ⟨i, j, b, b', h1, h3, h2, h4⟩
  · obtain ⟨_, i, j, b, b', g1, g2, g3, g4, _⟩ := C52_common_ancestry h h' hcid hw.collision hx' hxy
    exact ⟨i, j, b, b', g1, g2, g3, g4⟩

/-- Whoever passes on an accepted consignment cannot change its operations without changing their ids or
having it rejected: if the version passed on is accepted and has the same ids, its operations are the
same in every field. -/
theorem C85_operations {C' : Type} [ContractApi Seal C'] {R' : Type} [ReadOperation Seal R']
    {c : C} {c' : C'} {r : R} {r' : R'} {o o'} (h : Accepted c r xs o) (h' : Accepted c' r' ys o')
    (hxid : (ContractApi.codex Seal c').codexId = (ContractApi.codex Seal c).codexId)
    (hno : NoCollision (ContractApi.contractId Seal c) xs ys) (hs : SameIds (ContractApi.contractId Seal c) xs ys) :
    xs.map (·.operation) = ys.map (·.operation) := by
  refine List.ext_getElem (by simp [hs.length]) fun i h1 h2 => ?_
  rw [List.length_map] at h1 h2
  have hb : xs[i]? = some xs[i] := by simp
  have hb' : ys[i]? = some ys[i] := by simp
  have hop := hno i i _ _ hb hb' (hs.ids i _ _ hb hb')
  simp only [List.getElem_map]
  unfold opAt at hop
  split at hop
  · rename_i hi
    have e : xs[i].operation.contractId = ys[i].operation.contractId := by
      have k1 := (h.valid i _ hb).codex hi
      have k2 := (h'.valid i _ hb').codex hi
      rw [hxid] at k2
      exact congrArg ContractId.mk (k1.trans k2.symm)
    cases hx : xs[i].operation
    cases hy : ys[i].operation
    rw [hx, hy] at hop e
    simp_all
  · exact hop

theorem same_ops {S : C → C → Prop} (hS : ReportBlind (Seal := Seal) S) {c d : C} (h : S c d) (cid : ContractId) (i : Nat)
    {b b' : OperationSeals Seal} (e : opAt cid i b' = opAt cid i b) : operationCallbacks cid d i b' = operationCallbacks cid c i b := by
  have e' : idAt cid i b' = idAt cid i b := by unfold idAt; rw [e]
  unfold operationCallbacks
  rw [e, e', hS.isKnown _ _ h, hS.verify _ _ h]

theorem same_ops_at {S : C → C → Prop} (hS : ReportBlind (Seal := Seal) S) (c : C) {cid : ContractId} (hl : ys.length = xs.length)
    (h : ∀ (i : Nat) b b', xs[i]? = some b → ys[i]? = some b' → opAt cid i b' = opAt cid i b) (n : Nat) :
    S (contractAt cid c xs n) (contractAt cid c ys n) := by
  induction n with
  | zero => exact hS.refl c
  | succ n ih =>
    simp only [contractAt]
    cases hb' : ys[n]? with
    | none =>
      have : xs[n]? = none := by
        rw [List.getElem?_eq_none_iff] at hb' ⊢
        rw [← hl]; exact hb'
      rw [this]
      exact ih
    | some b' =>
      have hlt := lt_length_of_getElem? hb'
      rw [hl] at hlt
      have hb : xs[n]? = some xs[n] := by simp
      rw [hb]
      simp only [callbacks, List.foldl_append]
      rw [same_ops hS ih cid n (h n _ _ hb hb')]
      refine hS.foldl (sealCallbacks_applied _ _) (hS.foldlRight (sealCallbacks_applied _ _) ?_)
      have h1 : S ((witnessCallbacks (idAt cid n xs[n]) xs[n]).foldl perform (contractAt cid c xs n))
          ((witnessCallbacks (idAt cid n b') b').foldl perform (contractAt cid c ys n)) :=
        hS.foldl (witnessCallbacks_applied _ _) (hS.foldlRight (witnessCallbacks_applied _ _) ih)
      unfold operationCallbacks
      split
      · exact h1
      · split
        · exact hS.operation _ _ h1 _
        · exact h1

/-- Nor does it make a difference to the recipient's contract which version arrives: the interactions
are the same except for those concerning witnesses and the seals reported, and the contracts reached
give the same answers. -/
theorem C85_effects {S : C → C → Prop} (hS : ReportBlind (Seal := Seal) S) {c : C} {r : R} {o}
    (h : Accepted c r xs o) {R' : Type} [ReadOperation Seal R'] {r' : R'} {o'} (h' : Accepted c r' ys o')
    (hno : NoCollision (ContractApi.contractId Seal c) xs ys) (hs : SameIds (ContractApi.contractId Seal c) xs ys) :
    (o'.world.calls.filter fun x => !(ConcernsWitness x || IsSealReport x)) =
      (o.world.calls.filter fun x => !(ConcernsWitness x || IsSealReport x)) ∧
      S o.world.contract o'.world.contract := by
  have hops : ∀ (i : Nat) b b', xs[i]? = some b → ys[i]? = some b' →
      opAt (ContractApi.contractId Seal c) i b' = opAt (ContractApi.contractId Seal c) i b :=
    fun i b b' hb hb' => (hno i i b b' hb hb' (hs.ids i b b' hb hb')).symm
  refine ⟨?_, ?_⟩
  · obtain ⟨segs, g1, g2⟩ := h.trace
    obtain ⟨segs', g1', g2'⟩ := h'.trace
    have : segs'.flatten.filter (fun x => !(ConcernsWitness x || IsSealReport x)) =
        segs.flatten.filter fun x => !(ConcernsWitness x || IsSealReport x) := by
      refine filter_flatten_congr (by rw [g1.1, g1'.1, hs.length]) ?_
      intro i l' l hl' hl
      have hlt' : i < ys.length := by rw [← g1'.1]; exact lt_length_of_getElem? hl'
      have hlt : i < xs.length := by rw [← hs.length]; exact hlt'
      have hb' : ys[i]? = some ys[i] := by simp
      have hb : xs[i]? = some xs[i] := by simp
      obtain ⟨seals, q1, rfl⟩ := g1.2 i xs[i] l hb hl
      obtain ⟨seals', q1', rfl⟩ := g1'.2 i ys[i] l' hb' hl'
      have hc := same_ops_at hS c hs.length hops i
      have e1 := hops i _ _ hb hb'
      have e2 := hs.ids i _ _ hb hb'
      have f1 : queries (ContractApi.contractId Seal c) (contractAt (ContractApi.contractId Seal c) c ys i) i ys[i] =
          queries (ContractApi.contractId Seal c) (contractAt (ContractApi.contractId Seal c) c xs i) i xs[i] := by
        unfold queries
        rw [e1, e2, hS.isKnown _ _ hc]
      have f2 : ∀ o (b : OperationSeals Seal) s, (sealQueries o b s).filter (fun x => !(ConcernsWitness x || IsSealReport x)) = [] := by
        intro o b s; unfold sealQueries; split <;> rfl
      have f3 : ∀ o (b : OperationSeals Seal), (witnessCallbacks o b).filter (fun x => !(ConcernsWitness x || IsSealReport x)) = [] := by
        intro o b; unfold witnessCallbacks; split <;> rfl
      have f4 : ∀ o (b : OperationSeals Seal), (sealCallbacks o b).filter (fun x => !(ConcernsWitness x || IsSealReport x)) = [] := by
        intro o b; unfold sealCallbacks; split <;> rfl
      simp only [callbacks, f1, same_ops hS hc _ _ e1, List.filter_cons, List.filter_append, f2, f3, f4]
    rw [g2, g2', List.filter_append, List.filter_append, List.filter_append, List.filter_append, this]
  · rw [h.shape.contract, h'.shape.contract, hs.length]
    exact same_ops_at hS c hs.length hops _

end

namespace Demo.Once
/-- Genesis revealing only one of its seals. -/
def terse : OperationSeals Int := ⟨genesisOp, .collect [(0, .abs 1)], none⟩

/-- The second move without the seal of its output. -/
def quiet2 : OperationSeals Int := { move2 with definedSeals := .collect [] }

theorem wellFormed_of {xs ys : List (OperationSeals Int)}
    (h1 : ∀ e ∈ xs.zipIdx, ∀ f ∈ ys.zipIdx, idAt ⟨9⟩ e.2 e.1 = idAt ⟨9⟩ f.2 f.1 → opAt ⟨9⟩ e.2 e.1 = opAt ⟨9⟩ f.2 f.1)
    (h2 : ∀ b ∈ xs, ∀ b' ∈ ys, ∀ e ∈ b.definedSeals.entries, ∀ e' ∈ b'.definedSeals.entries,
      RgbSeal.authToken (Seal := Int) e.2 = RgbSeal.authToken (Seal := Int) e'.2 → e.2 = e'.2)
    (h3 : ∀ b ∈ xs ++ ys, ∀ e ∈ b.definedSeals.entries,
      (b.operation.destructibleOut[(e.1 : Nat)]?).map (·.auth) = some (RgbSeal.authToken (Seal := Int) e.2))
    (h4 : ∀ b ∈ xs ++ ys, ∀ e ∈ b.definedSeals.entries,
      RgbSeal.toSrc (Seal := Int) e.2 = none → b.operation.destructibleIn ≠ []) : WellFormed ⟨9⟩ xs ys :=
  ⟨collision_of h1, tokens_of h2, positions_of h3, fun b hb p d hd => h4 b (List.mem_append.2 hb) (p, d) hd⟩

theorem sameIds_of {xs ys : List (OperationSeals Int)} (hl : ys.length = xs.length)
    (h : ∀ e ∈ (xs.zip ys).zipIdx, idAt ⟨9⟩ e.2 e.1.1 = idAt ⟨9⟩ e.2 e.1.2) : SameIds ⟨9⟩ xs ys :=
  ⟨hl, fun i b b' hb hb' => h ((b, b'), i) (List.mem_zipIdx_iff_getElem?.2 (by
    rw [List.getElem?_zip_eq_some]; exact ⟨hb, hb'⟩))⟩

theorem node_blind : ReportBlind (Seal := Int) (Eq (α := Node)) where
  refl _ := rfl
  contractId := by rintro c _ rfl; rfl
  codexId := by rintro c _ rfl; rfl
  isKnown := by rintro c _ rfl _; rfl
  verify := by rintro c _ rfl _ _; rfl
  operation := by rintro c _ rfl _; rfl
  sealsLeft := by rintro c _ rfl _ _; rfl
  sealsRight := by rintro c _ rfl _ _; rfl
  witnessLeft := by rintro c _ rfl _ _; rfl
  witnessRight := by rintro c _ rfl _ _; rfl
end Demo.Once

open Demo Demo.Once in
/-- Two versions of a consignment revealing different seals. -/
example : SingleUse Int ∧ ReportBlind (Seal := Int) (Eq (α := Node)) ∧
    (∃ o, Accepted node (Feed.mk [origin, move1, quiet2]) [origin, move1, quiet2] o) ∧
    (∃ o, Accepted node (Feed.mk [terse, move1, move2]) [terse, move1, move2] o) ∧
    WellFormed ⟨9⟩ [origin, move1, quiet2] [terse, move1, move2] ∧
    SameIds (Seal := Int) ⟨9⟩ [origin, move1, quiet2] [terse, move1, move2] ∧
    idAt (Seal := Int) ⟨9⟩ 2 quiet2 = ⟨102⟩ ∧
    Relation.ReflTransGen (Spends (Seal := Int) ⟨9⟩ [origin, move1, quiet2]) ⟨102⟩ ⟨100⟩ := by
  refine ⟨singleUse, node_blind, accepted_of (by decide +kernel), accepted_of (by decide +kernel),
    wellFormed_of (by decide +kernel) (by decide +kernel) (by decide +kernel) (by decide +kernel),
    sameIds_of rfl (by decide +kernel), by decide +kernel, .tail (b := ⟨101⟩) (.tail .refl ?_) ?_⟩
  · exact ⟨2, quiet2, 0, rfl, by decide +kernel, ⟨at_ 101 0, .none⟩, List.mem_of_getElem? (i := 0) rfl, rfl⟩
  · exact ⟨1, move1, 0, rfl, by decide +kernel, ⟨at_ 100 0, .none⟩, List.mem_of_getElem? (i := 0) rfl, rfl⟩

namespace Demo
/-- Genesis without the output relative to a witness. -/
def plainGenesis : Block := ⟨genesisOp, .collect [(0, .abs 1), (1, .abs 5)], none⟩

theorem plain_wellFormed : WellFormed (Seal := Nat) ⟨9⟩ [plainGenesis, transfer1, transfer2] [plainGenesis, moved1, moved2] := by
  have h1 : ∀ e ∈ [plainGenesis, transfer1, transfer2].zipIdx, ∀ f ∈ [plainGenesis, moved1, moved2].zipIdx,
      idAt (Seal := Nat) ⟨9⟩ e.2 e.1 = idAt (Seal := Nat) ⟨9⟩ f.2 f.1 →
      opAt (Seal := Nat) ⟨9⟩ e.2 e.1 = opAt (Seal := Nat) ⟨9⟩ f.2 f.1 := by decide +kernel
  have h2 : ∀ b ∈ [plainGenesis, transfer1, transfer2], ∀ b' ∈ [plainGenesis, moved1, moved2],
      ∀ e ∈ b.definedSeals.entries, ∀ e' ∈ b'.definedSeals.entries,
      RgbSeal.authToken (Seal := Nat) e.2 = RgbSeal.authToken (Seal := Nat) e'.2 → e.2 = e'.2 := by decide +kernel
  have h3 : ∀ b ∈ [plainGenesis, transfer1, transfer2] ++ [plainGenesis, moved1, moved2], ∀ e ∈ b.definedSeals.entries,
      (b.operation.destructibleOut[(e.1 : Nat)]?).map (·.auth) = some (RgbSeal.authToken (Seal := Nat) e.2) := by decide +kernel
  have h4 : ∀ b ∈ [plainGenesis, transfer1, transfer2] ++ [plainGenesis, moved1, moved2], ∀ e ∈ b.definedSeals.entries,
      RgbSeal.toSrc (Seal := Nat) e.2 = none → b.operation.destructibleIn ≠ [] := by decide +kernel
  refine ⟨fun i j b b' hb hb' => h1 (b, i) (List.mem_zipIdx_iff_getElem?.2 hb) (b', j) (List.mem_zipIdx_iff_getElem?.2 hb'),
    fun b h b' h' _ _ _ _ k k' => h2 b h b' h' _ k _ k', ?_, fun b hb p d hd => h4 b (List.mem_append.2 hb) (p, d) hd⟩
  intro b hb p d hd
  have := h3 b (List.mem_append.2 hb) (p, d) hd
  simpa [Option.map_eq_some_iff] using this
end Demo

open Demo in
/-- That seals are closed only once is needed for agreement about witnesses: otherwise a version with
witnesses with other ids may be accepted as well. -/
theorem C85_needs_single_use : ∃ (xs ys : List Block) (o o' : Outcome Nat Tape Ledger String) (b b' : Block),
    Accepted ledger (Tape.mk xs none) xs o ∧ Accepted ledger (Tape.mk ys none) ys o' ∧
    WellFormed (Seal := Nat) (ContractApi.contractId Nat ledger) xs ys ∧ xs[1]? = some b ∧ ys[1]? = some b' ∧
    idAt (ContractApi.contractId Nat ledger) 1 b = idAt (ContractApi.contractId Nat ledger) 1 b' ∧
    ¬ Concordant (ContractApi.contractId Nat ledger) xs ys 1 1 b b' := by
  obtain ⟨o, h⟩ := accepted_of_accepts (c := ledger) (bs := [plainGenesis, transfer1, transfer2]) (by decide +kernel)
  obtain ⟨o', h'⟩ := accepted_of_accepts (c := ledger) (bs := [plainGenesis, moved1, moved2]) (by decide +kernel)
  refine ⟨_, _, o, o', transfer1, moved1, h, h', plain_wellFormed, rfl, rfl, rfl, fun hc => ?_⟩
  obtain ⟨w, w', h1, h2, h3⟩ := hc.witness (by decide +kernel)
  obtain rfl := Option.some.inj h1
  obtain rfl := Option.some.inj h2
  exact absurd (show (50 : Nat) = 70 from h3) (by decide)

end Rgb
