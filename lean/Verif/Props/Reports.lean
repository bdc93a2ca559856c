import Verif.Props.Evidence
import Verif.Props.TestContract
import Verif.Props.Convergence

set_option linter.unusedSectionVars false

/-! # C95: reports about an operation never contradict each other -/

namespace Rgb
open Spec

/-- According to the calls `l`, the cell at `a` is sealed with `s`: a definition was reported for it which
stands for `s`, by itself or with the id of a witness reported for the operation, in the same delivery or
in another. -/
def Spec.Reported {Seal : Type} [LinearOrder Seal] [RgbSeal Seal] (l : List (Call Seal)) (a : CellAddr) (s : Seal) : Prop :=
  ∃ m d, Call.applySeals a.opid m ∈ l ∧ (a.pos, d) ∈ m.entries ∧
    (RgbSeal.toSrc d = some s ∨
      RgbSeal.toSrc d = none ∧ ∃ w, Call.applyWitness a.opid w ∈ l ∧ s = RgbSeal.resolve d (RgbSeal.pubId w.published))

section
variable {Seal : Type} [LinearOrder Seal] [RgbSeal Seal] [OpHash]
variable {C E : Type} [ContractApi Seal C] {C' : Type} [ContractApi Seal C']
variable {R : Type} [ReadOperation Seal R]

/-- Where a callback comes from. -/
theorem callback_source {c : C} {r : R} {o} (h : evaluate (Seal := Seal) c r = some o) {x : Call Seal} (hx : IsCallback x = true)
    (hm : x ∈ o.world.calls) :
    ∃ (xs : List (OperationSeals Seal)) (i : Nat) (b : OperationSeals Seal) (now : C) (seals : List Seal), StartsWith r xs ∧
      ValidConsignment c xs ∧ xs[i]? = some b ∧ x ∈ callbacks (ContractApi.contractId Seal c) now i b ∧
      List.Forall₂ (fun (inp : Input) s => OpenAt (ContractApi.contractId Seal c) xs i inp.addr s) b.operation.destructibleIn seals ∧
      ∀ y ∈ sealQueries (idAt (ContractApi.contractId Seal c) i b) b seals, y ∈ o.world.calls := by
  obtain ⟨pre, post, heq⟩ := List.append_of_mem hm
  obtain ⟨xs, i, b, seals, pre₀, cb₁, cb₂, h1, h2, h3, _, _, h4, h5, h6⟩ := locate h hx heq
  refine ⟨xs, i, b, _, seals, h1, h2, h3, by rw [h5]; simp, h4, fun y hy => ?_⟩
  rw [heq, h6]
  simp [hy]

theorem callback_witness {cid : ContractId} {now : C} {i : Nat} {b : OperationSeals Seal} {x : Opid} {w : SealWitness Seal}
    (h : Call.applyWitness x w ∈ callbacks cid now i b) : x = idAt cid i b ∧ b.witness = some w := by
  rcases List.mem_append.1 h with h | h
  · rcases List.mem_append.1 h with h | h
    · unfold witnessCallbacks at h
      split at h
      · rename_i w' e
        simp only [List.mem_singleton, Call.applyWitness.injEq] at h
        exact ⟨h.1, by rw [e, h.2]⟩
      · simp at h
    · unfold operationCallbacks at h
      split at h
      · simp at h
      · split at h <;> simp at h
  · unfold sealCallbacks at h
    split at h <;> simp at h

theorem callback_seals {cid : ContractId} {now : C} {i : Nat} {b : OperationSeals Seal} {x : Opid} {m}
    (h : Call.applySeals x m ∈ callbacks cid now i b) : x = idAt cid i b ∧ b.definedSeals = m := by
  rcases List.mem_append.1 h with h | h
  · rcases List.mem_append.1 h with h | h
    · unfold witnessCallbacks at h
      split at h <;> simp at h
    · unfold operationCallbacks at h
      split at h
      · simp at h
      · split at h <;> simp at h
  · unfold sealCallbacks at h
    split at h
    · simp at h
    · simp only [List.mem_singleton, Call.applySeals.injEq] at h
      exact ⟨h.1, h.2.symm⟩

/-- A callback of a history comes from a block of a valid consignment. -/
theorem Spec.HistoryOf.callback (hl : Lawful Seal C) {P : OperationSeals Seal → Prop} {c c' : C} {l : List (Call Seal)}
    (h : HistoryOf P c l c') {x : Call Seal} (hx : IsCallback x = true) (hm : x ∈ l) :
    ∃ (d now : C) (xs : List (OperationSeals Seal)) (i : Nat) (b : OperationSeals Seal) (seals : List Seal),
      ContractApi.contractId Seal d = ContractApi.contractId Seal c ∧ (∀ b ∈ xs, P b) ∧ ValidConsignment d xs ∧
      xs[i]? = some b ∧ x ∈ callbacks (ContractApi.contractId Seal c) now i b ∧
      List.Forall₂ (fun (inp : Input) s => OpenAt (ContractApi.contractId Seal c) xs i inp.addr s) b.operation.destructibleIn seals ∧
      ∀ y ∈ sealQueries (idAt (ContractApi.contractId Seal c) i b) b seals, y ∈ l := by
  induction h with
  | nil => simp at hm
  | @step R _ c c' r o l hP he _ ih =>
    rcases List.mem_append.1 hm with hm | hm
    · obtain ⟨xs, i, b, now, seals, h1, h2, h3, h4, h5, h6⟩ := callback_source he hx hm
      exact ⟨c, now, xs, i, b, seals, rfl, hP xs h1, h2, h3, h4, h5, fun y hy => List.mem_append_left _ (h6 y hy)⟩
    · obtain ⟨blocks, hsh⟩ := run_shape he
      have hid : ContractApi.contractId Seal o.world.contract = ContractApi.contractId Seal c := by
        rw [hsh.contract]; exact hl.contractAt_id
      obtain ⟨d, now, xs, i, b, seals, h1, h2, h3, h4, h5, h6, h7⟩ := ih hm
      rw [hid] at h1 h5 h6 h7
      exact ⟨d, now, xs, i, b, seals, h1, h2, h3, h4, h5, h6, fun y hy => List.mem_append_right _ (h7 y hy)⟩

theorem same_inputs {cid : ContractId} {xs ys : List (OperationSeals Seal)} (hw : WellFormed cid xs ys) {i j : Nat}
    {b b' : OperationSeals Seal} (hb : xs[i]? = some b) (hb' : ys[j]? = some b') (he : idAt cid i b = idAt cid j b') :
    b.operation.destructibleIn = b'.operation.destructibleIn ∧ b.operation.destructibleOut = b'.operation.destructibleOut := by
  have hop := hw.collision i j b b' hb hb' he
  exact ⟨by rw [← opAt_inputs (cid := cid) (i := i), hop, opAt_inputs], by rw [← opAt_outputs (cid := cid) (i := i), hop, opAt_outputs]⟩

theorem same_definition {cid : ContractId} {xs ys : List (OperationSeals Seal)} (hw : WellFormed cid xs ys) {i j : Nat}
    {b b' : OperationSeals Seal} (hb : xs[i]? = some b) (hb' : ys[j]? = some b') (he : idAt cid i b = idAt cid j b') {p : U16}
    {d d' : RgbSeal.Definition Seal} (hd : (p, d) ∈ b.definedSeals.entries) (hd' : (p, d') ∈ b'.definedSeals.entries) : d = d' := by
  have mb := List.mem_of_getElem? hb
  have mb' := List.mem_of_getElem? hb'
  obtain ⟨cell, e1, e2⟩ := hw.positions b (.inl mb) _ _ hd
  obtain ⟨cell', e1', e2'⟩ := hw.positions b' (.inr mb') _ _ hd'
  rw [(same_inputs hw hb hb' he).2, e1'] at e1
  obtain rfl := Option.some.inj e1
  exact hw.tokens b mb b' mb' _ _ _ _ hd hd' (e2.symm.trans e2')

/-- Two witnesses of an operation with an input have the same id. -/
theorem one_witness {W : SealWitness Seal → Prop} (hsu : SingleUseAmong W) {c : C} {c' : C'} {cid : ContractId}
    (hc : ContractApi.contractId Seal c = cid) (hc' : ContractApi.contractId Seal c' = cid)
    {xs ys : List (OperationSeals Seal)} (hv : ValidConsignment c xs) (hv' : ValidConsignment c' ys) (hw : WellFormed cid xs ys)
    (hx : ∀ b ∈ xs, ∀ w, b.witness = some w → W w) (hy : ∀ b ∈ ys, ∀ w, b.witness = some w → W w)
    {i j : Nat} {b b' : OperationSeals Seal} (hb : xs[i]? = some b) (hb' : ys[j]? = some b') (he : idAt cid i b = idAt cid j b')
    (hne : b.operation.destructibleIn ≠ []) {w w' : SealWitness Seal} (hbw : b.witness = some w) (hbw' : b'.witness = some w') :
    RgbSeal.pubId w.published = RgbSeal.pubId w'.published := by
  have hcon : ∀ i j b b' w w', Contend cid xs ys i j b b' w w' → RgbSeal.pubId w.published = RgbSeal.pubId w'.published := by
    rintro i j b b' w w' ⟨h1, h2, h3, h4, seals, seals', s, hs, hs', k, k'⟩
    exact (hsu w w' (hx b (List.mem_of_getElem? h1) w h3) (hy b' (List.mem_of_getElem? h2) w' h4) seals seals' _ _ s k k' hs hs').1
  obtain ⟨inp, hinp⟩ := List.exists_mem_of_ne_nil _ hne
  obtain ⟨w₁, seals, t, k1, k2, k3, k4⟩ := closing_witness (hv i b hb) hinp
  obtain ⟨w₁', seals', t', k1', k2', k3', k4'⟩ := closing_witness (hv' j b' hb') ((same_inputs hw hb hb' he).1 ▸ hinp)
  obtain rfl : w = w₁ := Option.some.inj (hbw.symm.trans k1)
  obtain rfl : w' = w₁' := Option.some.inj (hbw'.symm.trans k1')
  rw [hc] at k2 k4
  rw [hc'] at k2' k4'
  obtain ⟨k, bk, hk, hbk, hak, _⟩ := k2
  obtain ⟨l, bl, _, hbl, hal, _⟩ := k2'
  obtain rfl := same_seal hc hc' hv hv' hw hcon k hbk hbl hak hal
  exact hcon i j b b' w w' ⟨hb, hb', k1, k1', seals, seals', t, k3, k3', k4, k4'⟩

variable {P : OperationSeals Seal → Prop} {W : SealWitness Seal → Prop}

/-- **C95.**  Over all evaluations, accepted or rejected, of any two contracts with the same id, the definitions
reported for an output of an operation are the same. -/
theorem C95_seals (hl : Lawful Seal C) (hl' : Lawful Seal C') {c c₁ : C} {c' c₁' : C'}
    (hcid : ContractApi.contractId Seal c' = ContractApi.contractId Seal c)
    (hw : ∀ xs ys : List (OperationSeals Seal), (∀ b ∈ xs, P b) → (∀ b ∈ ys, P b) → WellFormed (ContractApi.contractId Seal c) xs ys)
    {l l' : List (Call Seal)} (h : HistoryOf P c l c₁) (h' : HistoryOf P c' l' c₁') {x : Opid} {m m'} {p : U16} {d d'}
    (hm : Call.applySeals x m ∈ l) (hm' : Call.applySeals x m' ∈ l') (hd : (p, d) ∈ m.entries) (hd' : (p, d') ∈ m'.entries) :
    d = d' := by
  obtain ⟨e, now, xs, i, b, _, h1, h2, h3, h4, h5, _⟩ := h.callback hl rfl hm
  obtain ⟨e', now', ys, j, b', _, h1', h2', h3', h4', h5', _⟩ := h'.callback hl' rfl hm'
  obtain ⟨rfl, rfl⟩ := callback_seals h5
  obtain ⟨hid, rfl⟩ := callback_seals h5'
  rw [hcid] at hid
  exact same_definition (hw xs ys h2 h2') h4 h4' hid hd hd'

/-- A reported definition is the one committed to by the output of the operation as applied by anyone. -/
theorem C95_cells (hl : Lawful Seal C) (hl' : Lawful Seal C') {c c₁ : C} {c' c₁' : C'}
    (hf' : Faithful (ContractApi.codex Seal c')) (hcid : ContractApi.contractId Seal c' = ContractApi.contractId Seal c)
    (hw : ∀ xs ys : List (OperationSeals Seal), (∀ b ∈ xs, P b) → (∀ b ∈ ys, P b) → WellFormed (ContractApi.contractId Seal c) xs ys)
    {l l' : List (Call Seal)} (h : HistoryOf P c l c₁) (h' : HistoryOf P c' l' c₁') {m} {v : VerifiedOperation} {p : U16} {d}
    (hm : Call.applySeals v.opid m ∈ l) (hv : Call.applyOperation v ∈ l') (hd : (p, d) ∈ m.entries) :
    ∃ cell : StateCell, v.operation.destructibleOut[(p : Nat)]? = some cell ∧ cell.auth = RgbSeal.authToken d := by
  obtain ⟨e, now, xs, i, b, _, h1, h2, h3, h4, h5, _⟩ := h.callback hl rfl hm
  obtain ⟨e', ys, j, b', h1', h2', h3', h4', h5', h6'⟩ := HistoryOf.source hl' h' hf' hv
  obtain ⟨hid, rfl⟩ := callback_seals h5
  rw [h5', hcid] at hid
  rw [h6', (same_inputs (hw ys xs h2' h2) h4' h4 hid).2]
  exact (hw xs ys h2 h2').positions b (.inl (List.mem_of_getElem? h4)) p d hd

/-- The witnesses reported for an operation have the same id, unless the operation has no inputs: then there
was nothing for them to close. -/
theorem C95_witness (hsu : SingleUseAmong W) (hl : Lawful Seal C) (hl' : Lawful Seal C') {c c₁ : C} {c' c₁' : C'}
    (hcid : ContractApi.contractId Seal c' = ContractApi.contractId Seal c)
    (hw : ∀ xs ys : List (OperationSeals Seal), (∀ b ∈ xs, P b) → (∀ b ∈ ys, P b) → WellFormed (ContractApi.contractId Seal c) xs ys)
    {l l' : List (Call Seal)} (h : HistoryOf (fun b => P b ∧ ∀ w, b.witness = some w → W w) c l c₁)
    (h' : HistoryOf (fun b => P b ∧ ∀ w, b.witness = some w → W w) c' l' c₁') {x : Opid} {w w' : SealWitness Seal}
    (hm : Call.applyWitness x w ∈ l) (hm' : Call.applyWitness x w' ∈ l') :
    RgbSeal.pubId w.published = RgbSeal.pubId w'.published ∨
      Call.verifySealsClosing w [] (message Seal x) ∈ l ∧ Call.verifySealsClosing w' [] (message Seal x) ∈ l' := by
  obtain ⟨e, now, xs, i, b, seals, h1, h2, h3, h4, h5, h6, h7⟩ := h.callback hl rfl hm
  obtain ⟨e', now', ys, j, b', seals', h1', h2', h3', h4', h5', h6', h7'⟩ := h'.callback hl' rfl hm'
  obtain ⟨hid, hbw⟩ := callback_witness h5
  obtain ⟨hid', hbw'⟩ := callback_witness h5'
  have hwf := hw xs ys (fun b hb => (h2 b hb).1) fun b hb => (h2' b hb).1
  rw [hcid] at hid' h1'
  have he := hid.symm.trans hid'
  by_cases hne : b.operation.destructibleIn = []
  · right
    have hne' := (same_inputs hwf h4 h4' he).1 ▸ hne
    rw [hne] at h6
    rw [hne'] at h6'
    cases h6
    cases h6'
    refine ⟨h7 _ ?_, h7' _ ?_⟩
    · simp [sealQueries, hbw, hid]
    · rw [hcid]; simp [sealQueries, hbw', hid']
  · exact .inl (one_witness hsu h1 h1' h3 h3' hwf (fun b hb => (h2 b hb).2) (fun b hb => (h2' b hb).2) h4 h4' he hne hbw hbw')

/-- A seal told by the reports is the one announced in any valid consignment. -/
theorem reported_announced (hsu : SingleUseAmong W) (hl : Lawful Seal C) {c c₁ : C} {e : C'}
    (hcid : ContractApi.contractId Seal e = ContractApi.contractId Seal c)
    (hw : ∀ xs ys : List (OperationSeals Seal), (∀ b ∈ xs, P b) → (∀ b ∈ ys, P b) → WellFormed (ContractApi.contractId Seal c) xs ys)
    {l : List (Call Seal)} (h : HistoryOf (fun b => P b ∧ ∀ w, b.witness = some w → W w) c l c₁) {a : CellAddr} {s s' : Seal}
    (hr : Reported l a s) {ys : List (OperationSeals Seal)} (hy : ∀ b ∈ ys, P b ∧ ∀ w, b.witness = some w → W w)
    (hv : ValidConsignment e ys) {j : Nat} {b' : OperationSeals Seal} (hb' : ys[j]? = some b')
    (ha : Announces (ContractApi.contractId Seal c) j b' a s') : s = s' := by
  obtain ⟨m, d, hm, hd, hs⟩ := hr
  obtain ⟨hid', d', hd', hs'⟩ := ha
  obtain ⟨_, _, xs, i, b, _, h1, h2, h3, h4, h5, _⟩ := h.callback hl rfl hm
  obtain ⟨hid, rfl⟩ := callback_seals h5
  have hyP := fun b hb => (hy b hb).1
  have hwf := hw xs ys (fun b hb => (h2 b hb).1) hyP
  obtain rfl := same_definition hwf h4 hb' (hid.symm.trans hid') hd hd'
  rcases hs with hs | ⟨hs, w, hwm, rfl⟩
  · rcases hs' with hs' | ⟨hs', _⟩
    · exact Option.some.inj (hs.symm.trans hs')
    · rw [hs'] at hs; simp at hs
  · rcases hs' with hs' | ⟨_, w', hbw', rfl⟩
    · rw [hs] at hs'; simp at hs'
    · have hne := hwf.anchored b' (.inr (List.mem_of_getElem? hb')) _ _ hd' hs
      obtain ⟨_, _, zs, k, bk, _, k1, k2, k3, k4, k5, _⟩ := h.callback hl rfl hwm
      obtain ⟨hidk, hbk⟩ := callback_witness k5
      rw [one_witness hsu k1 hcid k3 hv (hw zs ys (fun b hb => (k2 b hb).1) hyP) (fun b hb => (k2 b hb).2) (fun b hb => (hy b hb).2)
        k4 hb' (hidk.symm.trans hid') ?_ hbk hbw']
      rwa [(same_inputs (hw zs ys (fun b hb => (k2 b hb).1) hyP) k4 hb' (hidk.symm.trans hid')).1]

/-- The reports tell at most one seal for a cell, whoever received them. -/
theorem C95_unique (hsu : SingleUseAmong W) (hl : Lawful Seal C) (hl' : Lawful Seal C') {c c₁ : C} {c' c₁' : C'}
    (hcid : ContractApi.contractId Seal c' = ContractApi.contractId Seal c)
    (hw : ∀ xs ys : List (OperationSeals Seal), (∀ b ∈ xs, P b) → (∀ b ∈ ys, P b) → WellFormed (ContractApi.contractId Seal c) xs ys)
    {l l' : List (Call Seal)} (h : HistoryOf (fun b => P b ∧ ∀ w, b.witness = some w → W w) c l c₁)
    (h' : HistoryOf (fun b => P b ∧ ∀ w, b.witness = some w → W w) c' l' c₁') {a : CellAddr} {s s' : Seal}
    (hr : Reported l a s) (hr' : Reported l' a s') : s = s' := by
  obtain ⟨m, d, hm, hd, hs⟩ := hr'
  obtain ⟨e, _, ys, j, b, seals, h1, h2, h3, h4, h5, h6, _⟩ := h'.callback hl' rfl hm
  obtain ⟨hid, rfl⟩ := callback_seals h5
  have h1' := h1.trans hcid
  rw [hcid] at hid
  rcases hs with hs | ⟨hs, w, hwm, rfl⟩
  · exact reported_announced hsu hl h1' hw h hr h2 h3 h4 ⟨hid, d, hd, .inl hs⟩
  · have hne := (hw ys ys (fun b hb => (h2 b hb).1) fun b hb => (h2 b hb).1).anchored b (.inl (List.mem_of_getElem? h4)) _ _ hd hs
    obtain ⟨inp, hinp⟩ := List.exists_mem_of_ne_nil _ hne
    obtain ⟨w₀, _, _, k1, _⟩ := closing_witness (h3 j b h4) hinp
    rw [reported_announced hsu hl h1' hw h hr h2 h3 h4 ⟨hid, d, hd, .inr ⟨hs, w₀, k1, rfl⟩⟩]
    obtain ⟨_, _, zs, k, bk, _, i1, i2, i3, i4, i5, _⟩ := h'.callback hl' rfl hwm
    obtain ⟨hidk, hbk⟩ := callback_witness i5
    rw [hcid] at hidk
    rw [one_witness hsu h1' (i1.trans hcid) h3 i3 (hw ys zs (fun b hb => (h2 b hb).1) fun b hb => (i2 b hb).1)
      (fun b hb => (h2 b hb).2) (fun b hb => (i2 b hb).2) h4 i4 (hid.symm.trans hidk) hne k1 hbk]

/-- The reports can be checked again: every witness reported for an applied operation closes the seals which
the reports, received by anyone, tell for its inputs. -/
theorem C95_audit (hsu : SingleUseAmong W) (hl : Lawful Seal C) (hl' : Lawful Seal C') {c c₁ : C} {c' c₁' : C'}
    (hf' : Faithful (ContractApi.codex Seal c')) (hcid : ContractApi.contractId Seal c' = ContractApi.contractId Seal c)
    (hw : ∀ xs ys : List (OperationSeals Seal), (∀ b ∈ xs, P b) → (∀ b ∈ ys, P b) → WellFormed (ContractApi.contractId Seal c) xs ys)
    {l l' : List (Call Seal)} (h : HistoryOf (fun b => P b ∧ ∀ w, b.witness = some w → W w) c l c₁)
    (h' : HistoryOf (fun b => P b ∧ ∀ w, b.witness = some w → W w) c' l' c₁') {v : VerifiedOperation} {w : SealWitness Seal}
    (hm : Call.applyWitness v.opid w ∈ l) (hv : Call.applyOperation v ∈ l') {seals : List Seal}
    (hs : List.Forall₂ (fun (inp : Input) s => Reported l' inp.addr s) v.operation.destructibleIn seals) :
    RgbSeal.verifySealsClosing w.published w.client seals (message Seal v.opid) = .ok () := by
  obtain ⟨e, _, xs, i, b, _, h1, h2, h3, h4, h5, _⟩ := h.callback hl rfl hm
  obtain ⟨hid, hbw⟩ := callback_witness h5
  obtain ⟨e', ys, j, b', h1', h2', h3', h4', h5', h6'⟩ := HistoryOf.source hl' h' hf' hv
  have hwf := hw xs ys (fun b hb => (h2 b hb).1) fun b hb => (h2' b hb).1
  rw [hcid] at h5'
  rw [h6', ← (same_inputs hwf h4 h4' (hid.symm.trans h5')).1] at hs
  obtain ⟨seals', k1, k2, _⟩ := (h3 i b h4).closed
  rw [h1] at k1 k2
  have : seals = seals' := by
    refine List.ext_get (hs.length_eq.symm.trans k1.length_eq) fun n g g' => ?_
    have gi : n < b.operation.destructibleIn.length := by rw [hs.length_eq]; exact g
    obtain ⟨q, bq, _, e1, e2, _⟩ := (List.forall₂_iff_get.1 k1).2 n gi g'
    rw [← hcid] at e2
    exact reported_announced hsu hl' (h1.trans hcid.symm) (by rwa [hcid]) h' ((List.forall₂_iff_get.1 hs).2 n gi g) h2 h3 e1 e2
  rw [this, hid]
  exact k2 w hbw

end

/-! ### the books of the reference contract -/

section
variable {Seal : Type} [LinearOrder Seal] [RgbSeal Seal] [OpHash]

/-- The definition which a call reports for an output of an operation. -/
def definitionFor (x : Opid) (p : U16) : Call Seal → Option (RgbSeal.Definition Seal)
  | .applySeals o m => if o = x then m.get? p else none
  | _ => none

theorem books_fold (x : Opid) (p : U16) (l : List (Call Seal)) (c : TestContract Seal) :
    ((l.foldl perform c).sealDefinitions.get? x).bind (·.get? p) =
      (l.filterMap (definitionFor x p)).getLast?.or ((c.sealDefinitions.get? x).bind (·.get? p)) := by
  induction l using List.reverseRecOn with
  | nil => rfl
  | append_singleton l y ih =>
    rw [List.foldl_append, List.filterMap_append, List.foldl_cons, List.foldl_nil]
    cases y with
    | applySeals o m =>
      simp only [perform, ContractApi.applySeals, OMap.get?_insert]
      by_cases ho : x = o
      · subst ho
        simp only [if_pos, Option.bind_some, OMap.get?_extend_entries]
        cases hm : m.get? p with
        | some d => simp [definitionFor, hm]
        | none =>
          simp only [Option.none_or, definitionFor, if_pos, hm, List.filterMap_cons_none, List.filterMap_nil, List.append_nil]
          rw [← ih]
          cases (List.foldl perform c l).sealDefinitions.get? x <;> rfl
      · rw [if_neg ho, ih]
        simp [definitionFor, Ne.symm ho]
    | _ => simpa [perform, definitionFor, ContractApi.applyOperation, ContractApi.applyWitness] using ih

theorem definitionFor_mem {x : Opid} {p : U16} {l : List (Call Seal)} {d} :
    d ∈ l.filterMap (definitionFor x p) ↔ ∃ m, Call.applySeals x m ∈ l ∧ (p, d) ∈ m.entries := by
  rw [List.mem_filterMap]
  constructor
  · rintro ⟨y, hy, h⟩
    cases y with
    | applySeals o m =>
      simp only [definitionFor] at h
      split at h
      · rename_i ho
        subst ho
        exact ⟨m, hy, OMap.get?_eq_some.1 h⟩
      · simp at h
    | _ => simp [definitionFor] at h
  · rintro ⟨m, hm, h⟩
    exact ⟨_, hm, by simp [definitionFor, OMap.get?_eq_some.2 h]⟩

/-- The reference contract keeps one definition per output, the last one reported, and loses nothing by it: its
books, empty at first, contain exactly what was ever reported. -/
theorem C95_books {P : OperationSeals Seal → Prop} {c c₁ : TestContract Seal}
    (hw : ∀ xs ys : List (OperationSeals Seal), (∀ b ∈ xs, P b) → (∀ b ∈ ys, P b) → WellFormed c.contractId xs ys)
    (he : ∀ (x : Opid) (p : U16), (c.sealDefinitions.get? x).bind (·.get? p) = none)
    {l : List (Call Seal)} (h : HistoryOf P c l c₁) (x : Opid) (p : U16) (d : RgbSeal.Definition Seal) :
    (c₁.sealDefinitions.get? x).bind (·.get? p) = some d ↔ ∃ m, Call.applySeals x m ∈ l ∧ (p, d) ∈ m.entries := by
  have hfold : c₁ = l.foldl perform c := history_fold (HistoryOf.any h)
  rw [hfold, books_fold, he, Option.or_none, ← definitionFor_mem]
  constructor
  · exact List.mem_of_getLast?
  · intro hd
    obtain ⟨m, hm, hp⟩ := definitionFor_mem.1 hd
    cases hg : (l.filterMap (definitionFor x p)).getLast? with
    | none => rw [List.getLast?_eq_none_iff] at hg; rw [hg] at hd; simp at hd
    | some d' =>
      obtain ⟨m', hm', hp'⟩ := definitionFor_mem.1 (List.mem_of_getLast? hg)
      rw [C95_seals testContract_lawful testContract_lawful rfl hw h h hm hm' hp hp']

/-- So the books of any two such contracts agree on what they both contain. -/
theorem C95_two_books {P : OperationSeals Seal → Prop} {c c₁ c' c₁' : TestContract Seal} (hcid : c'.contractId = c.contractId)
    (hw : ∀ xs ys : List (OperationSeals Seal), (∀ b ∈ xs, P b) → (∀ b ∈ ys, P b) → WellFormed c.contractId xs ys)
    (he : ∀ (x : Opid) (p : U16), (c.sealDefinitions.get? x).bind (·.get? p) = none)
    (he' : ∀ (x : Opid) (p : U16), (c'.sealDefinitions.get? x).bind (·.get? p) = none)
    {l l' : List (Call Seal)} (h : HistoryOf P c l c₁) (h' : HistoryOf P c' l' c₁') {x : Opid} {p : U16} {d d'}
    (hd : (c₁.sealDefinitions.get? x).bind (·.get? p) = some d) (hd' : (c₁'.sealDefinitions.get? x).bind (·.get? p) = some d') :
    d = d' := by
  obtain ⟨m, hm, hp⟩ := (C95_books hw he h x p d).1 hd
  obtain ⟨m', hm', hp'⟩ := (C95_books (by rwa [hcid]) he' h' x p d').1 hd'
  exact C95_seals testContract_lawful testContract_lawful hcid hw h h' hm hm' hp hp'

end

namespace Demo.Chain
theorem chain_history {bs : List Blk} (h : ∃ o, Accepted contract (TestReader.mk bs) bs o) {P : Blk → Prop} (hp : ∀ b ∈ bs, P b) : ∃ l c', HistoryOf P contract l c' ∧
      l.filter IsCallback = callbacksUpTo ⟨9⟩ contract bs bs.length := by
  obtain ⟨o, ho⟩ := h
  refine ⟨o.world.calls ++ [], o.world.contract, .step ?_ ho.run (.nil _), ?_⟩
  · exact fun xs hs b hb => hp b (reader_starts hs b hb)
  · rw [List.append_nil]
    exact ho.shape.callbacks

theorem mem_of_callbacks {l l' : List (Call (TxoSeal Bool))} (h : l.filter IsCallback = l') {x} (n : Nat) (hn : l'[n]? = some x) :
    x ∈ l := by
  have : x ∈ l.filter IsCallback := by rw [h]; exact List.mem_of_getElem? hn
  exact (List.mem_filter.1 this).1

/-- The witness of `pay1` replaced by another one. -/
def tx4 : Tx := ⟨⟨44⟩, [⟨⟨40⟩, 0⟩], 101⟩
def pay1' : Blk := { pay1 with witness := some ⟨tx4, ()⟩ }
/-- A payment with two outputs, and the same with the definition of one revealed as that of the other. -/
def pair : Blk := ⟨txOp 101 [at_ 100 0] [wout 1, wout 2], .collect [(0, wout 1)], some ⟨tx1, ()⟩⟩
def pair' : Blk := { pair with definedSeals := .collect [(0, wout 2)] }
end Demo.Chain

open Demo Demo.Chain in
/-- Two histories, in which the same operation is reported; its output is used in one of them, and the reports tell the
seal of its input and of its output. -/
example : ∃ l l' c₁ c₁', HistoryOf (Seal := TxoSeal Bool)
      (fun b => b ∈ blocks ∧ ∀ w, b.witness = some w → (w.published : Tx) ∈ [tx1, tx2]) contract l c₁ ∧
    HistoryOf (Seal := TxoSeal Bool) (fun b => b ∈ blocks ∧ ∀ w, b.witness = some w → (w.published : Tx) ∈ [tx1, tx2]) contract l' c₁' ∧
    SingleUseAmong (Seal := TxoSeal Bool) (fun w => (w.published : Tx) ∈ [tx1, tx2]) ∧
    Lawful (TxoSeal Bool) (TestContract (TxoSeal Bool)) ∧ Faithful contract.codex ∧
    (∀ xs ys : List Blk, (∀ b ∈ xs, b ∈ blocks) → (∀ b ∈ ys, b ∈ blocks) → WellFormed ⟨9⟩ xs ys) ∧
    (∀ (x : Opid) (p : U16), (contract.sealDefinitions.get? x).bind (·.get? p) = none) ∧
    Call.applySeals ⟨101⟩ pay1.definedSeals ∈ l ∧ Call.applySeals ⟨101⟩ pay1.definedSeals ∈ l' ∧
    (0, Chain.wout 1) ∈ pay1.definedSeals.entries ∧
    Call.applyWitness ⟨101⟩ ⟨tx1, ()⟩ ∈ l ∧ Call.applyWitness ⟨101⟩ ⟨tx1, ()⟩ ∈ l' ∧
    Call.applyWitness ⟨102⟩ ⟨tx2, ()⟩ ∈ l ∧ Call.applyOperation ⟨⟨102⟩, pay2.operation⟩ ∈ l ∧
    (∃ s, Reported l (at_ 101 0) s ∧ Reported l' (at_ 101 0) s) ∧
    ∃ seals, List.Forall₂ (fun (inp : Input) s => Reported l inp.addr s) pay2.operation.destructibleIn seals := by
  have hp : ∀ bs : List Blk, (∀ b ∈ bs, b ∈ [start, pay1, pay2]) →
      ∀ b ∈ bs, b ∈ blocks ∧ ∀ w, b.witness = some w → (w.published : Tx) ∈ [tx1, tx2] := by
    intro bs hbs b hb
    refine ⟨?_, published hbs b hb⟩
    have := hbs b hb
    simp only [List.mem_cons, List.not_mem_nil, or_false, blocks] at this ⊢
    tauto
  obtain ⟨l, c₁, h1, h2⟩ := chain_history (bs := [start, pay1, pay2]) (accepted_by_test (by decide +kernel)) (hp _ (by simp))
  obtain ⟨l', c₁', h1', h2'⟩ := chain_history (bs := [start, pay1]) (accepted_by_test (by decide +kernel)) (hp _ (by simp))
  have m1 : Call.applySeals ⟨101⟩ pay1.definedSeals ∈ l := mem_of_callbacks h2 3 rfl
  have m2 : Call.applyWitness ⟨101⟩ ⟨tx1, ()⟩ ∈ l := mem_of_callbacks h2 1 rfl
  have m3 : Call.applySeals ⟨101⟩ pay1.definedSeals ∈ l' := mem_of_callbacks h2' 3 rfl
  have m4 : Call.applyWitness ⟨101⟩ ⟨tx1, ()⟩ ∈ l' := mem_of_callbacks h2' 1 rfl
  have d1 : (0, Chain.wout 1) ∈ pay1.definedSeals.entries := List.mem_of_getElem? (i := 0) rfl
  have r1 : Reported l (at_ 101 0) (RgbSeal.resolve (Seal := TxoSeal Bool) (Chain.wout 1) ⟨41⟩) :=
    ⟨_, _, m1, d1, .inr ⟨rfl, _, m2, rfl⟩⟩
  refine ⟨l, l', c₁, c₁', h1, h1', rules.singleUse, testContract_lawful, codex_faithful, wellFormed, ?_, m1, m3, d1, m2, m4,
    mem_of_callbacks h2 4 rfl, mem_of_callbacks h2 5 rfl, ⟨_, r1, _, _, m3, d1, .inr ⟨rfl, _, m4, rfl⟩⟩, [_], .cons r1 .nil⟩
  intro x p
  by_cases hx : x = ⟨100⟩
  · subst hx; rfl
  · have : contract.sealDefinitions.get? x = none := OMap.get?_eq_none.2 fun v hv => by
      have hv : (x, v) ∈ [((⟨100⟩ : Opid), (OMap.empty : OMap U16 (RgbSeal.Definition (TxoSeal Bool))))] := hv
      simp only [List.mem_singleton, Prod.mk.injEq] at hv
      exact hx hv.1
    rw [this]
    rfl

open Demo Demo.Chain in
/-- If a seal can be closed by two witnesses, even over the same operation, then the reports about the operation may
contradict each other: its output is sealed here with one seal and there with another. -/
theorem C95_needs_single_use : ∃ (c c₁ c₁' : TestContract (TxoSeal Bool)) (l l' : List (Call (TxoSeal Bool))) (a : CellAddr)
    (s s' : TxoSeal Bool), HistoryOf (· ∈ [start, pay1, pay1']) c l c₁ ∧ HistoryOf (· ∈ [start, pay1, pay1']) c l' c₁' ∧
    Reported l a s ∧ Reported l' a s' ∧ s ≠ s' := by
  obtain ⟨l, c₁, h1, h2⟩ := chain_history (bs := [start, pay1]) (accepted_by_test (by decide +kernel)) (P := (· ∈ [start, pay1, pay1']))
    (fun b hb => by simp only [List.mem_cons, List.not_mem_nil, or_false] at hb ⊢; tauto)
  obtain ⟨l', c₁', h1', h2'⟩ := chain_history (bs := [start, pay1']) (accepted_by_test (by decide +kernel)) (P := (· ∈ [start, pay1, pay1']))
    (fun b hb => by simp only [List.mem_cons, List.not_mem_nil, or_false] at hb ⊢; tauto)
  have d1 : (0, Chain.wout 1) ∈ pay1.definedSeals.entries := List.mem_of_getElem? (i := 0) rfl
  exact ⟨contract, c₁, c₁', l, l', at_ 101 0, RgbSeal.resolve (Seal := TxoSeal Bool) (Chain.wout 1) ⟨41⟩,
    RgbSeal.resolve (Seal := TxoSeal Bool) (Chain.wout 1) ⟨44⟩, h1, h1',
    ⟨_, _, mem_of_callbacks h2 3 rfl, d1, .inr ⟨rfl, _, mem_of_callbacks h2 1 rfl, rfl⟩⟩,
    ⟨_, _, mem_of_callbacks h2' 3 rfl, d1, .inr ⟨rfl, _, mem_of_callbacks h2' 1 rfl, rfl⟩⟩, by decide +kernel⟩

open Demo Demo.Chain in
/-- The code does not check the positions of the definitions.  If a definition is revealed at the position of another
output, the reports contradict each other although the operation and its witness are the same. -/
theorem C95_needs_positions : ∃ (c c₁ c₁' : TestContract (TxoSeal Bool)) (l l' : List (Call (TxoSeal Bool))) (x : Opid)
    (w : SealWitness (TxoSeal Bool)) (m m' : OMap U16 (WTxoSeal Bool)) (p : U16) (d d' : WTxoSeal Bool),
    HistoryOf (· ∈ [start, pair, pair']) c l c₁ ∧ HistoryOf (· ∈ [start, pair, pair']) c l' c₁' ∧
    pair.operation = pair'.operation ∧ Call.applyWitness x w ∈ l ∧ Call.applyWitness x w ∈ l' ∧
    Call.applySeals x m ∈ l ∧ Call.applySeals x m' ∈ l' ∧ (p, d) ∈ m.entries ∧ (p, d') ∈ m'.entries ∧ d ≠ d' := by
  obtain ⟨l, c₁, h1, h2⟩ := chain_history (bs := [start, pair]) (accepted_by_test (by decide +kernel)) (P := (· ∈ [start, pair, pair']))
    (fun b hb => by simp only [List.mem_cons, List.not_mem_nil, or_false] at hb ⊢; tauto)
  obtain ⟨l', c₁', h1', h2'⟩ := chain_history (bs := [start, pair']) (accepted_by_test (by decide +kernel)) (P := (· ∈ [start, pair, pair']))
    (fun b hb => by simp only [List.mem_cons, List.not_mem_nil, or_false] at hb ⊢; tauto)
  exact ⟨contract, c₁, c₁', l, l', ⟨101⟩, ⟨tx1, ()⟩, pair.definedSeals, pair'.definedSeals, 0, Chain.wout 1, Chain.wout 2, h1, h1', rfl,
    mem_of_callbacks h2 1 rfl, mem_of_callbacks h2' 1 rfl, mem_of_callbacks h2 3 rfl, mem_of_callbacks h2' 3 rfl,
    List.mem_of_getElem? (i := 0) rfl, List.mem_of_getElem? (i := 0) rfl, by decide +kernel⟩

end Rgb
