import Mathlib.Data.List.Nodup
import Mathlib.Data.Nat.Find
import Mathlib.Data.List.Induction
import Verif.Props.Conflicts

set_option linter.unusedSectionVars false

/-! # C07, C68, C69: consignments as sets of operations, and their merging -/

namespace Rgb
open Spec

section
variable {Seal : Type} [LinearOrder Seal] [RgbSeal Seal] [OpHash]
variable {C E : Type} [ContractApi Seal C]
variable {R : Type} [ReadOperation Seal R]

/-! ## C07 -/

/-- Consumption is acyclic, even if operations are repeated: the operations of an accepted consignment
have ranks such that all operations consume only outputs of operations of lower rank, unless two
different operations in it have the same id. -/
theorem C07_acyclic {c : C} {r : R} {blocks : List (OperationSeals Seal)} {o} (h : Accepted c r blocks o)
    (hno : NoCollision (ContractApi.contractId Seal c) blocks blocks) :
    ∃ rank : Opid → Nat, ∀ x y, Spends (ContractApi.contractId Seal c) blocks x y → rank y < rank x := by
  classical
  let P : Opid → Nat → Prop := fun o i => ∃ b, blocks[i]? = some b ∧ o = idAt (ContractApi.contractId Seal c) i b
  refine ⟨fun o => if ho : ∃ i, P o i then Nat.find ho else 0, ?_⟩
  rintro x y ⟨i, b, p, hb, rfl, hc⟩
  have hx : ∃ i', P (idAt (ContractApi.contractId Seal c) i b) i' := ⟨i, b, hb, rfl⟩
  obtain ⟨b', hb', e⟩ := Nat.find_spec hx
  have hop := hno i _ b b' hb hb' e
  have hin : b.operation.destructibleIn = b'.operation.destructibleIn := by
    rw [← opAt_inputs (cid := ContractApi.contractId Seal c) (i := i), hop, opAt_inputs]
  obtain ⟨inp, hi, ha⟩ := hc
  rw [hin] at hi
  obtain ⟨j, bj, _, hj, hbj, hid, _⟩ := C07_causality h hb' hi
  rw [ha] at hid
  have hy : ∃ j, P y j := ⟨j, bj, hbj, hid⟩
  simp only [dif_pos hx, dif_pos hy]
  exact Nat.lt_of_le_of_lt (Nat.find_min' hy ⟨bj, hbj, hid⟩) hj

/-- In particular no operation consumes its own outputs. -/
theorem C07_not_self {c : C} {r : R} {blocks : List (OperationSeals Seal)} {o} (h : Accepted c r blocks o)
    (hno : NoCollision (ContractApi.contractId Seal c) blocks blocks) {i : Nat} {b : OperationSeals Seal}
    (hb : blocks[i]? = some b) {inp : Input} (hi : inp ∈ b.operation.destructibleIn) :
    inp.addr.opid ≠ idAt (ContractApi.contractId Seal c) i b := by
  intro e
  obtain ⟨rank, hr⟩ := C07_acyclic h hno
  exact absurd (hr _ _ ⟨i, b, inp.addr.pos, hb, rfl, inp, hi, by rw [← e]⟩) (Nat.lt_irrefl _)

/-! ## C68 -/

theorem nodup_once {blocks : List (OperationSeals Seal)}
    (hn : (blocks.flatMap fun b => b.operation.destructibleIn.map (·.addr)).Nodup) {i j : Nat} {b b' : OperationSeals Seal}
    {a : CellAddr} (hb : blocks[i]? = some b) (hb' : blocks[j]? = some b') (ha : Consumes b a) (ha' : Consumes b' a) : i = j := by
  by_contra hne
  have hp := (List.nodup_flatMap.1 hn).2
  have key : ∀ {i j : Nat} {b b' : OperationSeals Seal}, i < j → blocks[i]? = some b → blocks[j]? = some b' → Consumes b a →
      Consumes b' a → False := by
    rintro i j b b' hlt hb hb' ⟨x, hx, rfl⟩ ⟨y, hy, e⟩
    obtain ⟨hi, rfl⟩ := List.getElem?_eq_some_iff.1 hb
    obtain ⟨hj, rfl⟩ := List.getElem?_eq_some_iff.1 hb'
    exact List.pairwise_iff_getElem.1 hp i j hi hj hlt (List.mem_map_of_mem hx) (e ▸ List.mem_map_of_mem hy)
  rcases Nat.lt_or_gt_of_ne hne with hlt | hlt
  · exact key hlt hb hb' ha ha'
  · exact key hlt hb' hb ha' ha

/-- What makes a consignment without repeated operations valid, apart from the codex: no reference to
what is open when. -/
structure LedgerValid (c : C) (blocks : List (OperationSeals Seal)) : Prop where
  /-- the first operation commits to the codex -/
  codex : ∀ b, blocks[0]? = some b → b.operation.contractId.bytes = (ContractApi.codex Seal c).codexId.bytes
  /-- revealed seals are committed to -/
  committed : ∀ b ∈ blocks, ∀ p d, (p, d) ∈ b.definedSeals.entries →
    ∃ cell ∈ b.operation.destructibleOut, cell.auth = RgbSeal.authToken d
  /-- no cell is consumed twice in the whole consignment -/
  once : (blocks.flatMap fun b => b.operation.destructibleIn.map (·.addr)).Nodup
  /-- every input is announced by some earlier block, and the witness closes exactly the announced seals -/
  closed : ∀ (i : Nat) b, blocks[i]? = some b → ∃ seals : List Seal,
    List.Forall₂ (fun (inp : Input) s => ∃ (j : Nat) (bj : OperationSeals Seal), j < i ∧ blocks[j]? = some bj ∧
      Announces (ContractApi.contractId Seal c) j bj inp.addr s) b.operation.destructibleIn seals ∧
    (∀ w, b.witness = some w → RgbSeal.verifySealsClosing w.published w.client seals
      (message Seal (idAt (ContractApi.contractId Seal c) i b)) = .ok ()) ∧
    (b.witness = none → b.operation.destructibleIn = [])

theorem forall₂_imp_mem {α β : Type} {P Q : α → β → Prop} {l : List α} {m : List β} (h : List.Forall₂ P l m)
    (hi : ∀ a ∈ l, ∀ b, P a b → Q a b) : List.Forall₂ Q l m := by
  induction h with
  | nil => exact .nil
  | cons h _ ih => exact .cons (hi _ (by simp) _ h) (ih fun a ha => hi a (by simp [ha]))

theorem ledgerValid_iff {c : C} {blocks : List (OperationSeals Seal)}
    (hids : ∀ (i j : Nat) b b', blocks[i]? = some b → blocks[j]? = some b' →
      idAt (ContractApi.contractId Seal c) i b = idAt (ContractApi.contractId Seal c) j b' → i = j) :
    ValidConsignment c blocks ↔ LedgerValid c blocks ∧ ∀ (i : Nat) b, blocks[i]? = some b →
      ContractApi.isKnown Seal (contractAt (ContractApi.contractId Seal c) c blocks i)
        (idAt (ContractApi.contractId Seal c) i b) = true ∨
      ∃ v, codexAnswer Seal (contractAt (ContractApi.contractId Seal c) c blocks i)
        (ContractApi.contractId Seal c) (opAt (ContractApi.contractId Seal c) i b) = .ok v := by
  constructor
  · intro hv
    have hopen : ∀ {i : Nat} {b : OperationSeals Seal} {a}, blocks[i]? = some b → Consumes b a →
        ∃ (j : Nat) (bj : OperationSeals Seal), j < i ∧ blocks[j]? = some bj ∧ a.opid = idAt (ContractApi.contractId Seal c) j bj ∧
          ∀ k bk, j < k → k < i → blocks[k]? = some bk → ¬ Consumes bk a := by
      rintro i b a hb ⟨inp, hi, rfl⟩
      obtain ⟨_, _, s, _, ⟨j, bj, h1, h2, h3, h4⟩, _⟩ := closing_witness (hv i b hb) hi
      exact ⟨j, bj, h1, h2, h3.1, fun k bk g1 g2 g3 => (h4 k bk g1 g2 g3).1⟩
    refine ⟨⟨fun b hb => (hv 0 b hb).codex rfl, ?_, ?_, ?_⟩, ?_⟩
    · intro b hb
      obtain ⟨i, hi⟩ := List.getElem?_of_mem hb
      exact (hv i b hi).committed
    · rw [List.nodup_flatMap]
      refine ⟨?_, List.pairwise_iff_getElem.2 ?_⟩
      · intro b hb
        obtain ⟨i, hi⟩ := List.getElem?_of_mem hb
        exact (hv i b hi).distinct
      · intro i j hi hj hlt a ha ha'
        have hb : blocks[i]? = some blocks[i] := by simp
        have hb' : blocks[j]? = some blocks[j] := by simp
        have ca : Consumes blocks[i] a := by obtain ⟨x, hx, e⟩ := List.mem_map.1 ha; exact ⟨x, hx, e⟩
        have ca' : Consumes blocks[j] a := by obtain ⟨x, hx, e⟩ := List.mem_map.1 ha'; exact ⟨x, hx, e⟩
        obtain ⟨k, bk, h1, h2, h3, _⟩ := hopen hb ca
        obtain ⟨k', bk', h1', h2', h3', h4'⟩ := hopen hb' ca'
        have := hids k k' bk bk' h2 h2' (h3.symm.trans h3')
        subst this
        exact h4' i _ h1 hlt hb ca
    · intro i b hb
      obtain ⟨seals, h1, h2, h3⟩ := (hv i b hb).closed
      refine ⟨seals, ?_, h2, ?_⟩
      · refine h1.imp ?_
        rintro inp s ⟨j, bj, g1, g2, g3, _⟩
        exact ⟨j, bj, g1, g2, g3⟩
      · intro hw
        have := h3 hw
        subst this
        cases hl : b.operation.destructibleIn with
        | nil => rfl
        | cons x l => rw [hl] at h1; cases h1
    · intro i b hb
      cases hk : ContractApi.isKnown Seal (contractAt (ContractApi.contractId Seal c) c blocks i)
          (idAt (ContractApi.contractId Seal c) i b) with
      | true => exact .inl rfl
      | false => exact .inr ((hv i b hb).script hk)
  · rintro ⟨hl, hs⟩ i b hb
    obtain ⟨seals, h1, h2, h3⟩ := hl.closed i b hb
    refine ⟨?_, hl.committed b (List.mem_of_getElem? hb), (List.nodup_flatMap.1 hl.once).1 b (List.mem_of_getElem? hb),
      ⟨seals, ?_, h2, ?_⟩, ?_⟩
    · intro hi
      subst hi
      exact hl.codex b hb
    · refine forall₂_imp_mem h1 ?_
      rintro inp hi s ⟨j, bj, g1, g2, g3⟩
      refine ⟨j, bj, g1, g2, g3, ?_⟩
      intro k bk k1 k2 hbk
      refine ⟨?_, ?_⟩
      · intro hc
        have := nodup_once hl.once hbk hb hc ⟨inp, hi, rfl⟩
        omega
      · intro s' hs'
        have := hids j k bj bk g2 hbk (g3.1.symm.trans hs'.1)
        omega
    · intro hw
      have := h3 hw
      rw [this] at h1
      cases h1
      rfl
    · intro hk
      rcases hs i b hb with h | h
      · rw [h] at hk; simp at hk
      · exact h

/-- A consignment without repeated operations is accepted exactly if the first operation commits to the
codex, revealed seals are committed to, no cell is consumed twice anywhere in it, every consumed cell is
announced by an earlier block, the witness of each block closes exactly the announced seals of its
inputs over its id, and unknown operations pass the codex.  Nothing need be said about what is open
when. -/
theorem C68_without_repeats {c : C} {r : R} {blocks : List (OperationSeals Seal)} (hr : Delivers r blocks)
    (hids : ∀ (i j : Nat) b b', blocks[i]? = some b → blocks[j]? = some b' →
      idAt (ContractApi.contractId Seal c) i b = idAt (ContractApi.contractId Seal c) j b' → i = j) :
    (∃ o, evaluate (Seal := Seal) c r = some o ∧ o.result = .ok ()) ↔
      (∀ b, blocks[0]? = some b → b.operation.contractId.bytes = (ContractApi.codex Seal c).codexId.bytes) ∧
      (∀ b ∈ blocks, ∀ p d, (p, d) ∈ b.definedSeals.entries →
        ∃ cell ∈ b.operation.destructibleOut, cell.auth = RgbSeal.authToken d) ∧
      (blocks.flatMap fun b => b.operation.destructibleIn.map (·.addr)).Nodup ∧
      (∀ (i : Nat) b, blocks[i]? = some b → ∃ seals : List Seal,
        List.Forall₂ (fun (inp : Input) s => ∃ (j : Nat) (bj : OperationSeals Seal), j < i ∧ blocks[j]? = some bj ∧
          Announces (ContractApi.contractId Seal c) j bj inp.addr s) b.operation.destructibleIn seals ∧
        (∀ w, b.witness = some w → RgbSeal.verifySealsClosing w.published w.client seals
          (message Seal (idAt (ContractApi.contractId Seal c) i b)) = .ok ()) ∧
        (b.witness = none → b.operation.destructibleIn = [])) ∧
      ∀ (i : Nat) b, blocks[i]? = some b →
        ContractApi.isKnown Seal (contractAt (ContractApi.contractId Seal c) c blocks i)
          (idAt (ContractApi.contractId Seal c) i b) = true ∨
        ∃ v, codexAnswer Seal (contractAt (ContractApi.contractId Seal c) c blocks i)
          (ContractApi.contractId Seal c) (opAt (ContractApi.contractId Seal c) i b) = .ok v := by
  constructor
  · rintro ⟨o, h1, h2⟩
    obtain ⟨hl, hs⟩ := (ledgerValid_iff hids).1 (Accepted.valid ⟨h1, h2, hr⟩)
    exact ⟨hl.codex, hl.committed, hl.once, hl.closed, hs⟩
  · rintro ⟨h1, h2, h3, h4, h5⟩
    obtain ⟨o, k1, k2, _⟩ := evaluate_of_delivers hr ((ledgerValid_iff hids).2 ⟨⟨h1, h2, h3, h4⟩, h5⟩)
    exact ⟨o, k1, k2⟩

/-! ## C69 -/

/-- `zs` is a merge of the consignments satisfying `P`, for the contract `cid`: it has exactly their
operations, each once and with the witness of some consignment, reveals exactly what they reveal, and
presents creators before consumers. -/
structure Merges (cid : ContractId) (P : List (OperationSeals Seal) → Prop) (zs : List (OperationSeals Seal)) : Prop where
  distinct : ∀ (i j : Nat) b b', zs[i]? = some b → zs[j]? = some b' → idAt cid i b = idAt cid j b' → i = j
  source : ∀ (k : Nat) z, zs[k]? = some z → ∃ (xs : List (OperationSeals Seal)) (i : Nat) (x : OperationSeals Seal),
    P xs ∧ xs[i]? = some x ∧ opAt cid i x = opAt cid k z ∧ x.witness = z.witness
  present : ∀ (xs : List (OperationSeals Seal)) (i : Nat) x, P xs → xs[i]? = some x →
    ∃ (k : Nat) (z : OperationSeals Seal), zs[k]? = some z ∧ idAt cid k z = idAt cid i x
  revealed : ∀ (k : Nat) z p d, zs[k]? = some z → (p, d) ∈ z.definedSeals.entries →
    ∃ (xs : List (OperationSeals Seal)) (i : Nat) (x : OperationSeals Seal),
      P xs ∧ xs[i]? = some x ∧ idAt cid i x = idAt cid k z ∧ (p, d) ∈ x.definedSeals.entries
  kept : ∀ (xs : List (OperationSeals Seal)) (i : Nat) x (k : Nat) z p d, P xs → xs[i]? = some x → zs[k]? = some z →
    idAt cid k z = idAt cid i x → (p, d) ∈ x.definedSeals.entries → (p, d) ∈ z.definedSeals.entries
  creatorsFirst : ∀ (i j : Nat) b b' a, zs[i]? = some b → zs[j]? = some b' → Consumes b a → a.opid = idAt cid j b' → j < i

/-- Two valid consignments containing the same operation with inputs have witnesses with the same id
for it. -/
theorem same_witness {C' : Type} [ContractApi Seal C'] {c : C} {c' : C'} {cid : ContractId}
    (hc : ContractApi.contractId Seal c = cid) (hc' : ContractApi.contractId Seal c' = cid)
    {xs ys : List (OperationSeals Seal)} (hv : ValidConsignment c xs) (hv' : ValidConsignment c' ys)
    (hw : WellFormed cid xs ys) (hn : NoClash cid xs ys) {i j : Nat} {b b' : OperationSeals Seal} (hb : xs[i]? = some b)
    (hb' : ys[j]? = some b') (hin : b.operation.destructibleIn = b'.operation.destructibleIn) (hne : b.operation.destructibleIn ≠ []) :
    ∃ w w', b.witness = some w ∧ b'.witness = some w' ∧ RgbSeal.pubId w.published = RgbSeal.pubId w'.published := by
  obtain ⟨inp, hinp⟩ := List.exists_mem_of_ne_nil _ hne
  obtain ⟨w, seals, t, k1, k2, k3, k4⟩ := closing_witness (hv i b hb) hinp
  obtain ⟨w', seals', t', k1', k2', k3', k4'⟩ := closing_witness (hv' j b' hb') (hin ▸ hinp)
  rw [hc] at k2 k4
  rw [hc'] at k2' k4'
  obtain ⟨k, bk, hk, hbk, hak, _⟩ := k2
  obtain ⟨l, bl, _, hbl, hal, _⟩ := k2'
  obtain rfl := same_seal hc hc' hv hv' hw (fun i j b b' w w' h => (hn i j b b' w w' h).1) k hbk hbl hak hal
  exact ⟨w, w', k1, k1', (hn i j b b' w w' ⟨hb, hb', k1, k1', seals, seals', t, k3, k3', k4, k4'⟩).1⟩

theorem merges_ledgerValid {c : C}
    {P : List (OperationSeals Seal) → Prop}
    (hP : ∀ xs, P xs → ∃ (C' : Type) (_ : ContractApi Seal C') (c' : C') (R' : Type) (_ : ReadOperation Seal R') (r' : R') (o' : _),
      ContractApi.contractId Seal c' = ContractApi.contractId Seal c ∧ Accepted c' r' xs o')
    (hw : ∀ xs ys, P xs → P ys → WellFormed (ContractApi.contractId Seal c) xs ys)
    (hn : ∀ xs ys, P xs → P ys → NoClash (ContractApi.contractId Seal c) xs ys)
    {zs : List (OperationSeals Seal)} (hz : Merges (ContractApi.contractId Seal c) P zs)
    (h0 : ∀ z, zs[0]? = some z → z.operation.contractId.bytes = (ContractApi.codex Seal c).codexId.bytes) :
    LedgerValid c zs := by
  generalize hcid : ContractApi.contractId Seal c = cid at *
  have hP' : ∀ xs, P xs → ∃ (C' : Type) (_ : ContractApi Seal C') (c' : C'),
      ContractApi.contractId Seal c' = cid ∧ ValidConsignment c' xs := by
    intro xs hx
    obtain ⟨C', i, c', R', _, r', o', h1, h2⟩ := hP xs hx
    exact ⟨C', i, c', h1, h2.valid⟩
  have hidz : ∀ {k i : Nat} {z x : OperationSeals Seal}, opAt cid i x = opAt cid k z → idAt cid i x = idAt cid k z := by
    intro k i z x h; unfold idAt; rw [h]
  have ins : ∀ {k i : Nat} {z x : OperationSeals Seal}, opAt cid i x = opAt cid k z →
      x.operation.destructibleIn = z.operation.destructibleIn := by
    intro k i z x h; rw [← opAt_inputs (cid := cid) (i := i), h, opAt_inputs]
  have outs : ∀ {k i : Nat} {z x : OperationSeals Seal}, opAt cid i x = opAt cid k z →
      x.operation.destructibleOut = z.operation.destructibleOut := by
    intro k i z x h; rw [← opAt_outputs (cid := cid) (i := i), h, opAt_outputs]
  -- blocks of the merge have the operation of every source with the same id
  have same : ∀ {xs : List (OperationSeals Seal)} {i k : Nat} {x z : OperationSeals Seal}, P xs → xs[i]? = some x →
      zs[k]? = some z → idAt cid i x = idAt cid k z → opAt cid i x = opAt cid k z := by
    intro xs i k x z hx hb hbz e
    obtain ⟨ys, j, y, hy, hby, e1, _⟩ := hz.source k z hbz
    rw [← e1]
    exact (hw xs ys hx hy).collision i j x y hb hby (e.trans (hidz e1).symm)
  refine ⟨h0, ?_, ?_, ?_⟩
  · intro z hbz p d hd
    obtain ⟨k, hbz⟩ := List.getElem?_of_mem hbz
    obtain ⟨xs, i, x, hx, hb, e, hd'⟩ := hz.revealed k z p d hbz hd
    obtain ⟨cell, h1, h2⟩ := (hw xs xs hx hx).positions x (.inl (List.mem_of_getElem? hb)) p d hd'
    rw [outs (same hx hb hbz e)] at h1
    exact ⟨cell, List.mem_of_getElem? h1, h2⟩
  · rw [List.nodup_flatMap]
    refine ⟨?_, List.pairwise_iff_getElem.2 ?_⟩
    · intro z hbz
      obtain ⟨k, hbz⟩ := List.getElem?_of_mem hbz
      obtain ⟨xs, i, x, hx, hb, e, _⟩ := hz.source k z hbz
      obtain ⟨C', _, c', _, hv⟩ := hP' xs hx
      rw [← ins e]
      exact (hv i x hb).distinct
    · intro k l hk' hl hlt a ha ha'
      have hbz : zs[k]? = some zs[k] := by simp
      have hbz' : zs[l]? = some zs[l] := by simp
      obtain ⟨xs, i, x, hx, hb, e, _⟩ := hz.source k _ hbz
      obtain ⟨ys, j, y, hy, hb', e', _⟩ := hz.source l _ hbz'
      obtain ⟨C', _, c', hc', hv⟩ := hP' xs hx
      obtain ⟨C'', _, c'', hc'', hv'⟩ := hP' ys hy
      have ca : Consumes x a := by
        obtain ⟨q, hq, eq⟩ := List.mem_map.1 ha
        exact ⟨q, by rw [ins e]; exact hq, eq⟩
      have ca' : Consumes y a := by
        obtain ⟨q, hq, eq⟩ := List.mem_map.1 ha'
        exact ⟨q, by rw [ins e']; exact hq, eq⟩
      have := no_conflict hc' hc'' hv hv' (hw xs ys hx hy) (hn xs ys hx hy) hb hb' ca ca'
      rw [hidz e, hidz e'] at this
      have := hz.distinct k l _ _ hbz hbz' this
      omega
  · intro k z hbz
    obtain ⟨xs, i, x, hx, hb, e, ew⟩ := hz.source k z hbz
    obtain ⟨C', _, c', hc', hv⟩ := hP' xs hx
    obtain ⟨seals, g1, g2, g3⟩ := (hv i x hb).closed
    rw [hc'] at g1 g2
    rw [ins e] at g1
    rw [ew] at g2 g3
    rw [hidz e] at g2
    refine ⟨seals, ?_, by rw [hcid]; exact g2, ?_⟩
    · refine forall₂_imp_mem g1 ?_
      rintro inp hi s ⟨j, xj, hj, hbj, ⟨ha, d, hd, hs⟩, _⟩
      obtain ⟨l, z', hbz', el⟩ := hz.present xs j xj hx hbj
      have hd' := hz.kept xs j xj l z' _ d hx hbj hbz' el hd
      refine ⟨l, z', hz.creatorsFirst k l z z' inp.addr hbz hbz' ⟨inp, hi, rfl⟩ (ha.trans el.symm), hbz', ?_⟩
      rw [hcid]
      refine ⟨ha.trans el.symm, d, hd', ?_⟩
      rcases hs with hs | ⟨hs, w, hwx, rfl⟩
      · exact .inl hs
      · -- the definition is relative
        obtain ⟨ys, m, y, hy, hby, ey, ewy⟩ := hz.source l z' hbz'
        obtain ⟨C'', _, c'', hc'', hv'⟩ := hP' ys hy
        have hne := (hw xs xs hx hx).anchored xj (.inl (List.mem_of_getElem? hbj)) _ _ hd hs
        have hin : xj.operation.destructibleIn = y.operation.destructibleIn := by
          rw [ins (same hx hbj hbz' el.symm), ins ey]
        obtain ⟨w₁, w₂, q1, q2, q3⟩ := same_witness hc' hc'' hv hv' (hw xs ys hx hy) (hn xs ys hx hy) hbj hby hin hne
        obtain rfl : w = w₁ := Option.some.inj (hwx.symm.trans q1)
        exact .inr ⟨hs, w₂, by rw [← ewy]; exact q2, by rw [q3]⟩
    · intro hwn
      have := g3 hwn
      subst this
      cases hl : z.operation.destructibleIn with
      | nil => rfl
      | cons q l => rw [hl] at g1; cases g1

/-- Accepted consignments can be merged: every merge of consignments that are accepted for some contracts
with the same id, the first operation of which commits to the codex, is accepted exactly if its
operations that are unknown when they are reached pass the codex.  (Under the conditions of C64, but
instead of a single-use seal protocol it is enough that no two of the witnesses present close a seal
differently.) -/
theorem C69_merge {c : C}
    {P : List (OperationSeals Seal) → Prop}
    (hP : ∀ xs, P xs → ∃ (C' : Type) (_ : ContractApi Seal C') (c' : C') (R' : Type) (_ : ReadOperation Seal R') (r' : R') (o' : _),
      ContractApi.contractId Seal c' = ContractApi.contractId Seal c ∧ Accepted c' r' xs o')
    (hw : ∀ xs ys, P xs → P ys → WellFormed (ContractApi.contractId Seal c) xs ys)
    (hn : ∀ xs ys, P xs → P ys → NoClash (ContractApi.contractId Seal c) xs ys)
    {zs : List (OperationSeals Seal)} (hz : Merges (ContractApi.contractId Seal c) P zs)
    (h0 : ∀ z, zs[0]? = some z → z.operation.contractId.bytes = (ContractApi.codex Seal c).codexId.bytes)
    {r : R} (hr : Delivers r zs) :
    (∃ o, evaluate (Seal := Seal) c r = some o ∧ o.result = .ok ()) ↔
      ∀ (k : Nat) z, zs[k]? = some z →
        ContractApi.isKnown Seal (contractAt (ContractApi.contractId Seal c) c zs k)
          (idAt (ContractApi.contractId Seal c) k z) = true ∨
        ∃ v, codexAnswer Seal (contractAt (ContractApi.contractId Seal c) c zs k)
          (ContractApi.contractId Seal c) (opAt (ContractApi.contractId Seal c) k z) = .ok v := by
  have hlv := merges_ledgerValid hP hw hn hz h0
  constructor
  · rintro ⟨o, h1, h2⟩
    exact ((ledgerValid_iff hz.distinct).1 (Accepted.valid ⟨h1, h2, hr⟩)).2
  · intro hs
    obtain ⟨o, k1, k2, _⟩ := evaluate_of_delivers hr ((ledgerValid_iff hz.distinct).2 ⟨hlv, hs⟩)
    exact ⟨o, k1, k2⟩

/-- In particular merges are accepted by everyone who knows the operations. -/
theorem C69_known {c : C}
    {P : List (OperationSeals Seal) → Prop}
    (hP : ∀ xs, P xs → ∃ (C' : Type) (_ : ContractApi Seal C') (c' : C') (R' : Type) (_ : ReadOperation Seal R') (r' : R') (o' : _),
      ContractApi.contractId Seal c' = ContractApi.contractId Seal c ∧ Accepted c' r' xs o')
    (hw : ∀ xs ys, P xs → P ys → WellFormed (ContractApi.contractId Seal c) xs ys)
    (hn : ∀ xs ys, P xs → P ys → NoClash (ContractApi.contractId Seal c) xs ys)
    (hm : ∀ (c : C) (x : Call Seal) o, ContractApi.isKnown Seal c o = true → ContractApi.isKnown Seal (perform c x) o = true)
    (hk : ∀ xs (i : Nat) x, P xs → xs[i]? = some x →
      ContractApi.isKnown Seal c (idAt (ContractApi.contractId Seal c) i x) = true)
    {zs : List (OperationSeals Seal)} (hz : Merges (ContractApi.contractId Seal c) P zs)
    (h0 : ∀ z, zs[0]? = some z → z.operation.contractId.bytes = (ContractApi.codex Seal c).codexId.bytes)
    {r : R} (hr : Delivers r zs) : ∃ o, Accepted c r zs o := by
  have hknown : ∀ {n : Nat} {o}, ContractApi.isKnown Seal c o = true →
      ContractApi.isKnown Seal (contractAt (ContractApi.contractId Seal c) c zs n) o = true := by
    intro n o hko
    rw [contractAt_eq_foldl]
    generalize callbacksUpTo (ContractApi.contractId Seal c) c zs n = cs
    clear * - hko hm
    induction cs generalizing c with
    | nil => exact hko
    | cons x cs ih => exact ih (hm c x o hko)
  obtain ⟨o, h1, h2⟩ := (C69_merge hP hw hn hz h0 hr).2 (by
    intro k z hbz
    obtain ⟨xs, i, x, hx, hb, e, _⟩ := hz.source k z hbz
    have := hk xs i x hx hb
    rw [idAt, e] at this
    exact .inl (hknown this))
  exact ⟨o, h1, h2, hr⟩

/-- Every element is preceded by elements with the keys it uses. -/
def Before {α K : Type} (key : α → K) (uses : α → K → Prop) (l : List α) : Prop :=
  ∀ (t : Nat) x k, l[t]? = some x → uses x k → ∃ (u : Nat) (y : α), u < t ∧ l[u]? = some y ∧ key y = k

theorem Before.append {α K : Type} {key : α → K} {uses : α → K → Prop} {l m : List α} (hl : Before key uses l)
    (hm : Before key uses m) : Before key uses (l ++ m) := by
  intro t x k hx hu
  by_cases ht : t < l.length
  · rw [List.getElem?_append_left ht] at hx
    obtain ⟨u, y, h1, h2, h3⟩ := hl t x k hx hu
    exact ⟨u, y, h1, by rw [List.getElem?_append_left (by omega)]; exact h2, h3⟩
  · rw [List.getElem?_append_right (by omega)] at hx
    obtain ⟨u, y, h1, h2, h3⟩ := hm _ x k hx hu
    exact ⟨l.length + u, y, by omega, by rw [List.getElem?_append_right (by omega)]; simpa using h2, h3⟩

theorem Before.left {α K : Type} {key : α → K} {uses : α → K → Prop} {l m : List α} (h : Before key uses (l ++ m)) :
    Before key uses l := by
  intro t x k hx hu
  have ht := lt_length_of_getElem? hx
  obtain ⟨u, y, h1, h2, h3⟩ := h t x k (by rw [List.getElem?_append_left ht]; exact hx) hu
  exact ⟨u, y, h1, by rwa [List.getElem?_append_left (by omega)] at h2, h3⟩

/-- Repetitions of keys can be left out. -/
theorem exists_nub {α K : Type} (key : α → K) (uses : α → K → Prop) (l : List α) (h : Before key uses l) :
    ∃ m : List α, (∀ x ∈ m, x ∈ l) ∧ (m.map key).Nodup ∧ (∀ x ∈ l, ∃ y ∈ m, key y = key x) ∧ Before key uses m ∧
      m.head? = l.head? := by
  classical
  induction l using List.reverseRecOn with
  | nil => exact ⟨[], by simp, by simp, by simp, h, rfl⟩
  | append_singleton l x ih =>
    obtain ⟨m, h1, h2, h3, h4, h5⟩ := ih h.left
    by_cases hx : key x ∈ m.map key
    · refine ⟨m, fun y hy => by simp [h1 y hy], h2, ?_, h4, ?_⟩
      · intro y hy
        rcases List.mem_append.1 hy with hy | hy
        · exact h3 y hy
        · obtain ⟨z, hz, e⟩ := List.mem_map.1 hx
          rw [List.mem_singleton.1 hy]
          exact ⟨z, hz, e⟩
      · cases l with
        | nil =>
          obtain ⟨z, hz, e⟩ := List.mem_map.1 hx
          exact absurd (h1 z hz) (by simp)
        | cons y l => simpa using h5
    · refine ⟨m ++ [x], ?_, ?_, ?_, ?_, ?_⟩
      · intro y hy
        rcases List.mem_append.1 hy with hy | hy
        · simp [h1 y hy]
        · simp [List.mem_singleton.1 hy]
      · rw [List.map_append, List.nodup_append]
        refine ⟨h2, by simp, ?_⟩
        intro a ha b hb e
        rw [List.map_singleton, List.mem_singleton] at hb
        rw [e, hb] at ha
        exact hx ha
      · intro y hy
        rcases List.mem_append.1 hy with hy | hy
        · obtain ⟨z, hz, e⟩ := h3 y hy
          exact ⟨z, by simp [hz], e⟩
        · exact ⟨x, by simp, by rw [List.mem_singleton.1 hy]⟩
      · intro t y k hy hu
        by_cases ht : t < m.length
        · rw [List.getElem?_append_left ht] at hy
          obtain ⟨u, z, g1, g2, g3⟩ := h4 t y k hy hu
          exact ⟨u, z, g1, by rw [List.getElem?_append_left (by omega)]; exact g2, g3⟩
        · have : t = m.length := by
            have := lt_length_of_getElem? hy
            simp at this
            omega
          subst this
          simp at hy
          subst hy
          obtain ⟨u, z, g1, g2, g3⟩ := h l.length x k (by simp) hu
          rw [List.getElem?_append_left g1] at g2
          obtain ⟨z', g4, g5⟩ := h3 z (List.mem_of_getElem? g2)
          obtain ⟨v, g6⟩ := List.getElem?_of_mem g4
          have hv := lt_length_of_getElem? g6
          exact ⟨v, z', hv, by rw [List.getElem?_append_left hv]; exact g6, g5.trans g3⟩
      · cases l with
        | nil =>
          have : m = [] := List.eq_nil_iff_forall_not_mem.2 fun z hz => by simpa using h1 z hz
          simp [this]
        | cons y l =>
          cases m with
          | nil => simp at h5
          | cons z m => simpa using h5

/-- Consignments with the same genesis have a merge, in which operations still come after those they depend on,
if they do in the consignments. -/
theorem merge_exists {cid : ContractId} {L : List (List (OperationSeals Seal))}
    (hL : ∀ xs ∈ L, ∃ (C' : Type) (_ : ContractApi Seal C') (c' : C') (R' : Type) (_ : ReadOperation Seal R') (r' : R') (o' : _),
      ContractApi.contractId Seal c' = cid ∧ Accepted c' r' xs o')
    (hw : ∀ xs ∈ L, ∀ ys ∈ L, WellFormed cid xs ys)
    (h0 : ∀ xs ∈ L, ∀ ys ∈ L, ∀ x y, xs[0]? = some x → ys[0]? = some y → idAt cid 0 x = idAt cid 0 y)
    {E : Operation → Opid → Prop} (hE : Before (fun x : OperationSeals Seal × Nat => idAt cid x.2 x.1)
      (fun x => E (opAt cid x.2 x.1)) (L.flatMap List.zipIdx)) :
    ∃ zs, Merges cid (· ∈ L) zs ∧
      (∀ z, zs[0]? = some z → ∃ xs ∈ L, ∃ x, xs[0]? = some x ∧ z.operation = x.operation) ∧
      ∀ (k : Nat) z o, zs[k]? = some z → E (opAt cid k z) o → ∃ k' z', k' < k ∧ zs[k']? = some z' ∧ idAt cid k' z' = o := by
  classical
  let key : OperationSeals Seal × Nat → Opid := fun x => idAt cid x.2 x.1
  let uses : OperationSeals Seal × Nat → Opid → Prop := fun x k => (∃ p, Consumes x.1 ⟨k, p⟩) ∨ E (opAt cid x.2 x.1) k
  let T := L.flatMap List.zipIdx
  have memT : ∀ {x i}, (x, i) ∈ T ↔ ∃ xs ∈ L, xs[i]? = some x := by
    intro x i
    simp [T, List.mem_flatMap, List.mem_zipIdx_iff_getElem?]
  have hU : Before key (fun x k => ∃ p, Consumes x.1 ⟨k, p⟩) T := by
    show Before key _ (L.flatMap List.zipIdx)
    clear memT h0 hw hE T
    induction L with
    | nil => intro t x k hx; simp at hx
    | cons xs L ih =>
      rw [List.flatMap_cons]
      refine Before.append ?_ (ih fun ys hy => hL ys (by simp [hy]))
      rintro t ⟨x, i⟩ k hx ⟨p, inp, hi, ha⟩
      obtain ⟨C', _, c', R', _, r', o', hc', hacc⟩ := hL xs (by simp)
      simp only [List.getElem?_zipIdx, Nat.zero_add, Option.map_eq_some_iff, Prod.mk.injEq] at hx
      obtain ⟨x', hx, rfl, rfl⟩ := hx
      obtain ⟨j, bj, _, hj, hbj, hid, _⟩ := C07_causality hacc hx hi
      rw [hc', ha] at hid
      exact ⟨j, (bj, j), hj, by simp [List.getElem?_zipIdx, hbj], hid.symm⟩
  have hT : Before key uses T := fun t x k hx hu => hu.elim (hU t x k hx) (hE t x k hx)
  obtain ⟨Z, z1, z2, z3, z4, z5⟩ := exists_nub key uses T hT
  have headZero : ∀ {x i}, T.head? = some (x, i) → i = 0 := by
    intro x i hx
    have : ∀ M : List (List (OperationSeals Seal)), (M.flatMap List.zipIdx).head? = some (x, i) → i = 0 := by
      intro M
      induction M with
      | nil => simp
      | cons xs M ih =>
        cases xs with
        | nil => simpa using ih
        | cons a xs => simp; intro _ h; exact h.symm
    exact this L hx
  have zero : ∀ {x y i}, T.head? = some (x, i) → (y, 0) ∈ T → key (x, i) = key (y, 0) := by
    intro x y i hx hy
    obtain rfl := headZero hx
    obtain ⟨xs, h1, h2⟩ := memT.1 (List.mem_of_head? hx)
    obtain ⟨ys, h3, h4⟩ := memT.1 hy
    exact h0 xs h1 ys h3 x y h2 h4
  -- the index is 0 in the source exactly if it is 0 in the merge
  have index : ∀ {k : Nat} {x : OperationSeals Seal} {i : Nat}, Z[k]? = some (x, i) → (i = 0 ↔ k = 0) := by
    intro k x i hk
    constructor
    · rintro rfl
      cases hz : Z with
      | nil => rw [hz] at hk; simp at hk
      | cons y Z' =>
        obtain ⟨y, j⟩ := y
        have hh : T.head? = some (y, j) := by rw [← z5, hz]; rfl
        have := zero hh (z1 _ (List.mem_of_getElem? hk))
        have e0 : (Z.map key)[0]? = some (key (y, j)) := by rw [hz]; rfl
        have ek : (Z.map key)[k]? = some (key (x, 0)) := by simp [hk]
        rw [← this, ← e0] at ek
        exact ((List.getElem?_inj (lt_length_of_getElem? e0) z2).1 ek.symm).symm
    · rintro rfl
      rw [← List.head?_eq_getElem?, z5] at hk
      exact headZero hk
  let union : Opid → OMap U16 (RgbSeal.Definition Seal) := fun o =>
    OMap.collect ((T.filter fun x => key x = o).flatMap fun x => x.1.definedSeals.entries)
  have memItems : ∀ {o p d}, (p, d) ∈ ((T.filter fun x => key x = o).flatMap fun x => x.1.definedSeals.entries) ↔
      ∃ xs ∈ L, ∃ (i : Nat) (x : OperationSeals Seal), xs[i]? = some x ∧ idAt cid i x = o ∧ (p, d) ∈ x.definedSeals.entries := by
    intro o p d
    rw [List.mem_flatMap]
    constructor
    · rintro ⟨⟨x, i⟩, h, hd⟩
      obtain ⟨h1, h2⟩ := List.mem_filter.1 h
      obtain ⟨xs, h3, h4⟩ := memT.1 h1
      exact ⟨xs, h3, i, x, h4, by simpa [key] using h2, hd⟩
    · rintro ⟨xs, h3, i, x, h4, h2, hd⟩
      exact ⟨(x, i), List.mem_filter.2 ⟨memT.2 ⟨xs, h3, h4⟩, by simpa [key] using h2⟩, hd⟩
  have func : ∀ {o p d d'}, (p, d) ∈ ((T.filter fun x => key x = o).flatMap fun x => x.1.definedSeals.entries) →
      (p, d') ∈ ((T.filter fun x => key x = o).flatMap fun x => x.1.definedSeals.entries) → d' = d := by
    intro o p d d' h h'
    obtain ⟨xs, hx, i, x, hb, e, hd⟩ := memItems.1 h
    obtain ⟨ys, hy, j, y, hb', e', hd'⟩ := memItems.1 h'
    have W := hw xs hx ys hy
    have hop := W.collision i j x y hb hb' (e.trans e'.symm)
    obtain ⟨cell, c1, c2⟩ := W.positions x (.inl (List.mem_of_getElem? hb)) p d hd
    obtain ⟨cell', c1', c2'⟩ := W.positions y (.inr (List.mem_of_getElem? hb')) p d' hd'
    have : x.operation.destructibleOut = y.operation.destructibleOut := by
      rw [← opAt_outputs (cid := cid) (i := i), hop, opAt_outputs]
    rw [this, c1'] at c1
    obtain rfl := Option.some.inj c1
    exact (W.tokens x (List.mem_of_getElem? hb) y (List.mem_of_getElem? hb') p d p d' hd hd' (c2.symm.trans c2')).symm
  have memUnion : ∀ {o p d}, (p, d) ∈ (union o).entries ↔
      ∃ xs ∈ L, ∃ (i : Nat) (x : OperationSeals Seal), xs[i]? = some x ∧ idAt cid i x = o ∧ (p, d) ∈ x.definedSeals.entries := by
    intro o p d
    rw [← memItems, ← OMap.get?_eq_some]
    constructor
    · intro h
      by_contra hno
      by_cases hp : ∃ v, (p, v) ∈ ((T.filter fun x => key x = o).flatMap fun x => x.1.definedSeals.entries)
      · obtain ⟨v, hv⟩ := hp
        have := OMap.get?_extend_of_mem (m := OMap.empty) hv (fun v' h' => func hv h')
        have hvd : v = d := Option.some.inj (this.symm.trans h)
        exact hno (hvd ▸ hv)
      · have := OMap.get?_extend_of_not_mem (m := OMap.empty) (fun v hv => hp ⟨v, hv⟩)
        rw [show (union o).get? p = none from this] at h
        simp at h
    · intro h
      exact OMap.get?_extend_of_mem h fun v' h' => func h h'
  let zs : List (OperationSeals Seal) := Z.map fun x => ⟨x.1.operation, union (key x), x.1.witness⟩
  have getZ : ∀ {k : Nat} {z}, zs[k]? = some z → ∃ x i, Z[k]? = some (x, i) ∧ z = (⟨x.operation, union (key (x, i)), x.witness⟩ : OperationSeals Seal) := by
    intro k z h
    simp only [zs, List.getElem?_map, Option.map_eq_some_iff] at h
    obtain ⟨⟨x, i⟩, h1, h2⟩ := h
    exact ⟨x, i, h1, h2.symm⟩
  have putZ : ∀ {k : Nat} {x : OperationSeals Seal} {i : Nat}, Z[k]? = some (x, i) →
      zs[k]? = some ⟨x.operation, union (key (x, i)), x.witness⟩ := by
    intro k x i h
    simp [zs, h]
  have opZ : ∀ {k : Nat} {x : OperationSeals Seal} {i : Nat}, Z[k]? = some (x, i) →
      opAt cid k (⟨x.operation, union (key (x, i)), x.witness⟩ : OperationSeals Seal) = opAt cid i x := by
    intro k x i h
    have := index h
    by_cases hk : k = 0
    · simp [opAt, hk, this.2 hk]
    · have hi : ¬ i = 0 := fun hi => hk (this.1 hi)
      rw [opAt, opAt, if_neg hk, if_neg hi]
  have idZ : ∀ {k : Nat} {x : OperationSeals Seal} {i : Nat}, Z[k]? = some (x, i) →
      idAt cid k (⟨x.operation, union (key (x, i)), x.witness⟩ : OperationSeals Seal) = key (x, i) := by
    intro k x i h
    show opid _ = opid _
    rw [opZ h]
  have dist : ∀ {k l : Nat} {x i y j}, Z[k]? = some (x, i) → Z[l]? = some (y, j) → key (x, i) = key (y, j) → k = l := by
    intro k l x i y j h h' e
    have e1 : (Z.map key)[k]? = some (key (x, i)) := by simp [h]
    have e2 : (Z.map key)[l]? = some (key (y, j)) := by simp [h']
    exact (List.getElem?_inj (lt_length_of_getElem? e1) z2).1 (by rw [e1, e2, e])
  refine ⟨zs, ⟨?_, ?_, ?_, ?_, ?_, ?_⟩, ?_, ?_⟩
  · intro k l b b' hb hb' e
    obtain ⟨x, i, h, rfl⟩ := getZ hb
    obtain ⟨y, j, h', rfl⟩ := getZ hb'
    rw [idZ h, idZ h'] at e
    exact dist h h' e
  · intro k z hz
    obtain ⟨x, i, h, rfl⟩ := getZ hz
    obtain ⟨xs, h1, h2⟩ := memT.1 (z1 _ (List.mem_of_getElem? h))
    exact ⟨xs, i, x, h1, h2, (opZ h).symm, rfl⟩
  · intro xs i x hx hb
    obtain ⟨⟨y, j⟩, h1, h2⟩ := z3 (x, i) (memT.2 ⟨xs, hx, hb⟩)
    obtain ⟨k, h3⟩ := List.getElem?_of_mem h1
    exact ⟨k, _, putZ h3, (idZ h3).trans h2⟩
  · intro k z p d hz hd
    obtain ⟨x, i, h, rfl⟩ := getZ hz
    obtain ⟨xs, h1, j, y, h2, h3, h4⟩ := memUnion.1 hd
    exact ⟨xs, j, y, h1, h2, h3.trans (idZ h).symm, h4⟩
  · intro xs i x k z p d hx hb hz e hd
    obtain ⟨y, j, h, rfl⟩ := getZ hz
    rw [idZ h] at e
    exact memUnion.2 ⟨xs, hx, i, x, hb, e.symm, hd⟩
  · intro k l b b' a hb hb' hc e
    obtain ⟨x, i, h, rfl⟩ := getZ hb
    obtain ⟨y, j, h', rfl⟩ := getZ hb'
    rw [idZ h'] at e
    obtain ⟨u, ⟨v, m⟩, g1, g2, g3⟩ := z4 k (x, i) a.opid h (.inl ⟨a.pos, hc⟩)
    obtain rfl := dist g2 h' (g3.trans e)
    exact g1
  · intro z hz
    obtain ⟨x, i, h, rfl⟩ := getZ hz
    obtain rfl := (index h).2 rfl
    obtain ⟨xs, h1, h2⟩ := memT.1 (z1 _ (List.mem_of_getElem? h))
    exact ⟨xs, h1, x, h2, rfl⟩
  · intro k z o hz he
    obtain ⟨x, i, h, rfl⟩ := getZ hz
    rw [opZ h] at he
    obtain ⟨u, ⟨v, m⟩, g1, g2, g3⟩ := z4 k (x, i) o h (.inr he)
    exact ⟨u, _, g1, putZ g2, (idZ g2).trans g3⟩

/-- Consignments with the same genesis have a merge. -/
theorem C69_exists {cid : ContractId} {L : List (List (OperationSeals Seal))}
    (hL : ∀ xs ∈ L, ∃ (C' : Type) (_ : ContractApi Seal C') (c' : C') (R' : Type) (_ : ReadOperation Seal R') (r' : R') (o' : _),
      ContractApi.contractId Seal c' = cid ∧ Accepted c' r' xs o')
    (hw : ∀ xs ∈ L, ∀ ys ∈ L, WellFormed cid xs ys)
    (h0 : ∀ xs ∈ L, ∀ ys ∈ L, ∀ x y, xs[0]? = some x → ys[0]? = some y → idAt cid 0 x = idAt cid 0 y) :
    ∃ zs, Merges cid (· ∈ L) zs ∧
      ∀ z, zs[0]? = some z → ∃ xs ∈ L, ∃ x, xs[0]? = some x ∧ z.operation = x.operation := by
  obtain ⟨zs, h1, h2, _⟩ := merge_exists hL hw h0 (E := fun _ _ => False) fun _ _ _ _ h => h.elim
  exact ⟨zs, h1, h2⟩

/-- Any number of accepted consignments of one contract, with the same genesis, have a merge which is
accepted by everyone who knows the operations. -/
theorem C69_merged {c : C}
    {L : List (List (OperationSeals Seal))}
    (hL : ∀ xs ∈ L, ∃ (C' : Type) (_ : ContractApi Seal C') (c' : C') (R' : Type) (_ : ReadOperation Seal R') (r' : R') (o' : _),
      ContractApi.contractId Seal c' = ContractApi.contractId Seal c ∧
      (ContractApi.codex Seal c').codexId = (ContractApi.codex Seal c).codexId ∧ Accepted c' r' xs o')
    (hw : ∀ xs ∈ L, ∀ ys ∈ L, WellFormed (ContractApi.contractId Seal c) xs ys)
    (hn : ∀ xs ∈ L, ∀ ys ∈ L, NoClash (ContractApi.contractId Seal c) xs ys)
    (h0 : ∀ xs ∈ L, ∀ ys ∈ L, ∀ x y, xs[0]? = some x → ys[0]? = some y →
      idAt (ContractApi.contractId Seal c) 0 x = idAt (ContractApi.contractId Seal c) 0 y)
    (hm : ∀ (c : C) (x : Call Seal) o, ContractApi.isKnown Seal c o = true → ContractApi.isKnown Seal (perform c x) o = true)
    (hk : ∀ xs ∈ L, ∀ (i : Nat) x, xs[i]? = some x →
      ContractApi.isKnown Seal c (idAt (ContractApi.contractId Seal c) i x) = true) :
    ∃ zs, Merges (ContractApi.contractId Seal c) (· ∈ L) zs ∧ ∀ r : R, Delivers r zs → ∃ o, Accepted c r zs o := by
  have hL' : ∀ xs ∈ L, ∃ (C' : Type) (_ : ContractApi Seal C') (c' : C') (R' : Type) (_ : ReadOperation Seal R') (r' : R') (o' : _),
      ContractApi.contractId Seal c' = ContractApi.contractId Seal c ∧ Accepted c' r' xs o' := by
    intro xs hx
    obtain ⟨C', i1, c', R', i2, r', o', h1, _, h2⟩ := hL xs hx
    exact ⟨C', i1, c', R', i2, r', o', h1, h2⟩
  obtain ⟨zs, h1, h2⟩ := C69_exists hL' hw h0
  refine ⟨zs, h1, fun r hr => C69_known hL' (fun xs ys hx hy => hw xs hx ys hy) (fun xs ys hx hy => hn xs hx ys hy) hm
    (fun xs i x hx => hk xs hx i x) h1 ?_ hr⟩
  intro z hz
  obtain ⟨xs, hx, x, hb, e⟩ := h2 z hz
  obtain ⟨C', _, c', R', _, r', o', g1, g2, g3⟩ := hL xs hx
  rw [e, (g3.valid 0 x hb).codex rfl, g2]

end

open Demo Demo.Once in
/-- C07: an accepted consignment whose ids do not collide and in which consuming occurs. -/
example : (∃ o, Accepted node (Feed.mk [origin, move1, move2]) [origin, move1, move2] o) ∧
    NoCollision ⟨9⟩ [origin, move1, move2] [origin, move1, move2] ∧ Spends ⟨9⟩ [origin, move1, move2] ⟨102⟩ ⟨101⟩ ∧
    [origin, move1, move2][2]? = some move2 ∧ ∃ inp, inp ∈ move2.operation.destructibleIn := by
  refine ⟨accepted_of (by decide +kernel), (pool_wellFormed _ _ ?_ ?_).collision,
    ⟨2, move2, 0, rfl, rfl, _, List.mem_of_getElem? (i := 0) rfl, rfl⟩, rfl, _, List.mem_of_getElem? (i := 0) rfl⟩ <;> simp [pool]

namespace Demo.Once
theorem distinct_of {cid : ContractId} {xs : List (OperationSeals Int)} (h : (xs.zipIdx.map fun e => idAt cid e.2 e.1).Nodup)
    (i j : Nat) (b b' : OperationSeals Int) (hb : xs[i]? = some b) (hb' : xs[j]? = some b') (e : idAt cid i b = idAt cid j b') :
    i = j := by
  have e1 : (xs.zipIdx.map fun e => idAt cid e.2 e.1)[i]? = some (idAt cid i b) := by simp [List.getElem?_zipIdx, hb]
  have e2 : (xs.zipIdx.map fun e => idAt cid e.2 e.1)[j]? = some (idAt cid j b') := by simp [List.getElem?_zipIdx, hb']
  exact (List.getElem?_inj (lt_length_of_getElem? e1) h).1 (by rw [e1, e2, e])

/-- The node knowing all operations of the example. -/
def full : Node := ⟨[⟨100⟩, ⟨101⟩, ⟨102⟩, ⟨103⟩]⟩

theorem known_mono (n : Node) (x : Call Int) (o : Opid) (h : ContractApi.isKnown Int n o = true) :
    ContractApi.isKnown Int (perform n x) o = true := by
  cases x with
  | applyOperation v => simp only [perform]; rw [node_lawful.known_operation]; simp [h]
  | _ => exact h
end Demo.Once

open Demo Demo.Once in
/-- C68: a consignment without repeated operations, delivered by a reader, which is accepted. -/
example : Delivers (Seal := Int) (Feed.mk [origin, other, move1, move2]) [origin, other, move1, move2] ∧
    (∀ (i j : Nat) b b', [origin, other, move1, move2][i]? = some b → [origin, other, move1, move2][j]? = some b' →
      idAt (ContractApi.contractId Int node) i b = idAt (ContractApi.contractId Int node) j b' → i = j) ∧
    ∃ o, evaluate (Seal := Int) node (Feed.mk [origin, other, move1, move2]) = some o ∧ o.result = .ok () := by
  obtain ⟨o, h⟩ := accepted_of (n := node) (bs := [origin, other, move1, move2]) (by decide +kernel)
  exact ⟨feed_delivers _, distinct_of (by decide +kernel), o, h.run, h.ok⟩

open Demo Demo.Once in
/-- C69: two different consignments of the same contract and a merge of them. -/
example : (∀ xs ys : List (OperationSeals Int), NoClash ⟨9⟩ xs ys) ∧
    (∃ o, Accepted node (Feed.mk [origin, move1, move2]) [origin, move1, move2] o) ∧
    (∃ o, Accepted node (Feed.mk [origin, other]) [origin, other] o) ∧
    (∀ xs ys, xs = [origin, move1, move2] ∨ xs = [origin, other] → ys = [origin, move1, move2] ∨ ys = [origin, other] →
      WellFormed ⟨9⟩ xs ys) ∧
    (∀ (n : Node) (x : Call Int) o, ContractApi.isKnown Int n o = true → ContractApi.isKnown Int (perform n x) o = true) ∧
    (∀ xs (i : Nat) x, xs = [origin, move1, move2] ∨ xs = [origin, other] → xs[i]? = some x →
      ContractApi.isKnown Int full (idAt ⟨9⟩ i x) = true) ∧
    (∀ xs ys x y, xs = [origin, move1, move2] ∨ xs = [origin, other] → ys = [origin, move1, move2] ∨ ys = [origin, other] →
      xs[0]? = some x → ys[0]? = some y → idAt ⟨9⟩ 0 x = idAt ⟨9⟩ 0 y) ∧
    origin.operation.contractId.bytes = (ContractApi.codex Int full).codexId.bytes ∧
    Merges ⟨9⟩ (fun xs => xs = [origin, move1, move2] ∨ xs = [origin, other]) [origin, move1, other, move2] := by
  refine ⟨fun _ _ => noClash singleUse message_injective, accepted_of (by decide +kernel), accepted_of (by decide +kernel), ?_, known_mono, ?_, ?_,
    rfl, distinct_of (by decide +kernel), ?_, ?_, ?_, ?_, ?_⟩
  · rintro xs ys (rfl | rfl) (rfl | rfl) <;> exact pool_wellFormed _ _ (by simp [pool]) (by simp [pool])
  · have h1 : ∀ e ∈ [origin, move1, move2].zipIdx, ContractApi.isKnown Int full (idAt ⟨9⟩ e.2 e.1) = true := by decide +kernel
    have h2 : ∀ e ∈ [origin, other].zipIdx, ContractApi.isKnown Int full (idAt ⟨9⟩ e.2 e.1) = true := by decide +kernel
    rintro xs i x (rfl | rfl) hx
    · exact h1 (x, i) (List.mem_zipIdx_iff_getElem?.2 hx)
    · exact h2 (x, i) (List.mem_zipIdx_iff_getElem?.2 hx)
  · rintro xs ys x y (rfl | rfl) (rfl | rfl) hx hy <;> simp at hx hy <;> rw [← hx, ← hy]
  · intro k z hz
    match k, hz with
    | 0, hz => simp at hz; subst hz; exact ⟨_, 0, origin, .inl rfl, rfl, rfl, rfl⟩
    | 1, hz => simp at hz; subst hz; exact ⟨_, 1, move1, .inl rfl, rfl, rfl, rfl⟩
    | 2, hz => simp at hz; subst hz; exact ⟨_, 1, other, .inr rfl, rfl, rfl, rfl⟩
    | 3, hz => simp at hz; subst hz; exact ⟨_, 2, move2, .inl rfl, rfl, rfl, rfl⟩
    | k + 4, hz => simp at hz
  · intro xs i x hx hb
    rcases hx with rfl | rfl
    · match i, hb with
      | 0, hb => simp at hb; subst hb; exact ⟨0, origin, rfl, rfl⟩
      | 1, hb => simp at hb; subst hb; exact ⟨1, move1, rfl, rfl⟩
      | 2, hb => simp at hb; subst hb; exact ⟨3, move2, rfl, rfl⟩
      | k + 3, hb => simp at hb
    · match i, hb with
      | 0, hb => simp at hb; subst hb; exact ⟨0, origin, rfl, rfl⟩
      | 1, hb => simp at hb; subst hb; exact ⟨2, other, rfl, rfl⟩
      | k + 2, hb => simp at hb
  · intro k z p d hz hd
    match k, hz with
    | 0, hz => simp at hz; subst hz; exact ⟨_, 0, origin, .inl rfl, rfl, rfl, hd⟩
    | 1, hz => simp at hz; subst hz; exact ⟨_, 1, move1, .inl rfl, rfl, rfl, hd⟩
    | 2, hz => simp at hz; subst hz; exact ⟨_, 1, other, .inr rfl, rfl, rfl, hd⟩
    | 3, hz => simp at hz; subst hz; exact ⟨_, 2, move2, .inl rfl, rfl, rfl, hd⟩
    | k + 4, hz => simp at hz
  · intro xs i x k z p d hx hb hz e hd
    have h1 : ∀ f ∈ [origin, move1, move2].zipIdx, ∀ g ∈ [origin, move1, other, move2].zipIdx,
        idAt ⟨9⟩ g.2 g.1 = idAt ⟨9⟩ f.2 f.1 → g.1.definedSeals.entries = f.1.definedSeals.entries := by decide +kernel
    have h2 : ∀ f ∈ [origin, other].zipIdx, ∀ g ∈ [origin, move1, other, move2].zipIdx,
        idAt ⟨9⟩ g.2 g.1 = idAt ⟨9⟩ f.2 f.1 → g.1.definedSeals.entries = f.1.definedSeals.entries := by decide +kernel
    rcases hx with rfl | rfl
    · rw [h1 (x, i) (List.mem_zipIdx_iff_getElem?.2 hb) (z, k) (List.mem_zipIdx_iff_getElem?.2 hz) e]; exact hd
    · rw [h2 (x, i) (List.mem_zipIdx_iff_getElem?.2 hb) (z, k) (List.mem_zipIdx_iff_getElem?.2 hz) e]; exact hd
  · rintro i j b b' a hb hb' ⟨inp, hi, rfl⟩ e
    have h : ∀ f ∈ [origin, move1, other, move2].zipIdx, ∀ g ∈ [origin, move1, other, move2].zipIdx,
        ∀ x ∈ f.1.operation.destructibleIn, x.addr.opid = idAt ⟨9⟩ g.2 g.1 → g.2 < f.2 := by decide +kernel
    exact h (b, i) (List.mem_zipIdx_iff_getElem?.2 hb) (b', j) (List.mem_zipIdx_iff_getElem?.2 hb') inp hi e

end Rgb
