import Verif.Props.Owners
import Verif.Props.Receipt

set_option linter.unusedSectionVars false

/-! # C87: what the positions of revealed seals are good for -/

namespace Rgb
open Spec

section
variable {Seal : Type} [LinearOrder Seal] [RgbSeal Seal] [OpHash]
variable {C : Type} [ContractApi Seal C]
variable {R : Type} [ReadOperation Seal R]
variable {xs ys : List (OperationSeals Seal)} {cid : ContractId}

theorem Spec.Relabelled.back (h : Relabelled cid xs ys) {i : Nat} {b' : OperationSeals Seal} (hb : ys[i]? = some b') :
    ∃ b, xs[i]? = some b := by
  have hlt := lt_length_of_getElem? hb
  rw [h.length] at hlt
  exact ⟨xs[i], by simp⟩

theorem Spec.Relabelled.forth (h : Relabelled cid xs ys) {i : Nat} {b : OperationSeals Seal} (hb : xs[i]? = some b) :
    ∃ b', ys[i]? = some b' := by
  have hlt := lt_length_of_getElem? hb
  rw [← h.length] at hlt
  exact ⟨ys[i], by simp⟩

theorem Spec.Relabelled.opAt (h : Relabelled cid xs ys) {i : Nat} {b b' : OperationSeals Seal} (hb : xs[i]? = some b)
    (hb' : ys[i]? = some b') (cid' : ContractId) : opAt cid' i b' = opAt cid' i b := by
  unfold Spec.opAt; rw [h.operation i b b' hb hb']

theorem Spec.Relabelled.idAt (h : Relabelled cid xs ys) {i : Nat} {b b' : OperationSeals Seal} (hb : xs[i]? = some b)
    (hb' : ys[i]? = some b') (cid' : ContractId) : idAt cid' i b' = idAt cid' i b := by
  unfold Spec.idAt; rw [h.opAt hb hb']

theorem Spec.Relabelled.consumes (h : Relabelled cid xs ys) {i : Nat} {b b' : OperationSeals Seal} (hb : xs[i]? = some b)
    (hb' : ys[i]? = some b') {a : CellAddr} : Consumes b' a ↔ Consumes b a := by
  unfold Consumes; rw [h.operation i b b' hb hb']

theorem Spec.Relabelled.symm (h : Relabelled cid xs ys) : Relabelled cid ys xs := by
  refine ⟨h.length.symm, fun i b b' hb hb' => (h.operation i b' b hb' hb).symm, fun i b b' hb hb' => (h.witness i b' b hb' hb).symm, ?_⟩
  intro i b b' hb hb' k bk p hk hbk hc d
  obtain ⟨bk', hbk'⟩ := h.back hbk
  rw [h.idAt hb' hb] at hc
  exact (h.spent i b' b hb' hb k bk' p hk hbk' ((h.consumes hbk' hbk).1 hc) d).symm

/-- Both versions announce the same seals for a cell consumed later. -/
theorem relabelled_announces (h : Relabelled cid xs ys) {i k : Nat} {b b' bk : OperationSeals Seal} (hb : xs[i]? = some b)
    (hb' : ys[i]? = some b') (hk : i < k) (hbk : xs[k]? = some bk) {a : CellAddr} (hc : Consumes bk a) {s : Seal} :
    Announces cid i b' a s ↔ Announces cid i b a s := by
  unfold Announces
  rw [h.idAt hb hb', h.witness i b b' hb hb']
  refine and_congr_right fun ha => exists_congr fun d => and_congr_left fun _ => ?_
  refine h.spent i b b' hb hb' k bk a.pos hk hbk ?_ d
  rw [← ha]
  exact hc

theorem relabelled_open (h : Relabelled cid xs ys) {k : Nat} {bk : OperationSeals Seal} (hbk : xs[k]? = some bk)
    {a : CellAddr} (hc : Consumes bk a) {s : Seal} (ho : OpenAt cid xs k a s) : OpenAt cid ys k a s := by
  obtain ⟨j, bj, hj, hbj, h1, h2⟩ := ho
  obtain ⟨bj', hbj'⟩ := h.forth hbj
  refine ⟨j, bj', hj, hbj', (relabelled_announces h hbj hbj' hj hbk hc).2 h1, ?_⟩
  intro m bm' hjm hmk hbm'
  obtain ⟨bm, hbm⟩ := h.back hbm'
  obtain ⟨h3, h4⟩ := h2 m bm hjm hmk hbm
  exact ⟨fun h5 => h3 ((h.consumes hbm hbm').1 h5), fun s' h5 => h4 s' ((relabelled_announces h hbm hbm' hmk hbk hc).1 h5)⟩

theorem relabelled_seals (h : Relabelled cid xs ys) {k : Nat} {b : OperationSeals Seal} (hb : xs[k]? = some b) {seals : List Seal}
    (hf : List.Forall₂ (fun (inp : Input) s => OpenAt cid xs k inp.addr s) b.operation.destructibleIn seals) :
    List.Forall₂ (fun (inp : Input) s => OpenAt cid ys k inp.addr s) b.operation.destructibleIn seals := by
  have : ∀ inp ∈ b.operation.destructibleIn, Consumes b inp.addr := fun inp hi => ⟨inp, hi, rfl⟩
  generalize b.operation.destructibleIn = l at hf this
  induction hf with
  | nil => exact .nil
  | cons ha _ ih => exact .cons (relabelled_open h hb (this _ (by simp)) ha) (ih fun inp hi => this inp (by simp [hi]))

theorem relabelled_operation {S : C → C → Prop} (hS : SealBlind (Seal := Seal) S) (h : Relabelled cid xs ys) {c d : C} (hc : S c d)
    {i : Nat} {b b' : OperationSeals Seal} (hb : xs[i]? = some b) (hb' : ys[i]? = some b') :
    operationCallbacks cid d i b' = operationCallbacks cid c i b := by
  unfold operationCallbacks
  rw [h.idAt hb hb', h.opAt hb hb', hS.isKnown _ _ hc, hS.verify _ _ hc]

theorem relabelled_at {S : C → C → Prop} (hS : SealBlind (Seal := Seal) S) (c : C) (h : Relabelled cid xs ys) (n : Nat) :
    S (contractAt cid c xs n) (contractAt cid c ys n) := by
  induction n with
  | zero => exact hS.refl c
  | succ n ih =>
    simp only [contractAt]
    cases hb' : ys[n]? with
    | none =>
      have : xs[n]? = none := by
        rw [List.getElem?_eq_none_iff] at hb' ⊢
        rw [← h.length]; exact hb'
      rw [this]
      exact ih
    | some b' =>
      obtain ⟨b, hb⟩ := h.back hb'
      rw [hb]
      simp only [callbacks, List.foldl_append]
      refine blind_seals hS ?_ _ _ _ _
      rw [relabelled_operation hS h ih hb hb']
      have hw : witnessCallbacks (idAt cid n b') b' = witnessCallbacks (idAt cid n b) b := by
        unfold witnessCallbacks; rw [h.witness n b b' hb hb', h.idAt hb hb']
      rw [hw]
      have h1 : S ((witnessCallbacks (idAt cid n b) b).foldl perform (contractAt cid c xs n))
          ((witnessCallbacks (idAt cid n b) b).foldl perform (contractAt cid c ys n)) := by
        unfold witnessCallbacks
        split
        · exact hS.witness _ _ ih _ _
        · exact ih
      unfold operationCallbacks
      split
      · exact h1
      · split
        · exact hS.operation _ _ h1 _
        · exact h1

theorem relabelled_valid {S : C → C → Prop} (hS : SealBlind (Seal := Seal) S) {c : C}
    (h : Relabelled (ContractApi.contractId Seal c) xs ys) (hv : ValidConsignment c xs) (hc : ∀ b ∈ ys, SealsCommitted b) :
    ValidConsignment c ys := by
  intro i b' hb'
  obtain ⟨b, hb⟩ := h.back hb'
  have vb := hv i b hb
  have hp := h.operation i b b' hb hb'
  have hw := h.witness i b b' hb hb'
  have hS' := relabelled_at hS c h i
  obtain ⟨seals, g1, g2, g3⟩ := vb.closed
  refine ⟨by rw [hp]; exact vb.codex, hc b' (List.mem_of_getElem? hb'), by rw [hp]; exact vb.distinct, ⟨seals, ?_, ?_, ?_⟩, ?_⟩
  · rw [hp]; exact relabelled_seals h hb g1
  · rw [hw, h.idAt hb hb']; exact g2
  · rw [hw]; exact g3
  · rw [h.opAt hb hb', h.idAt hb hb', ← hS.isKnown _ _ hS', ← hS.verify _ _ hS']
    exact vb.script

/-- Inserting a definition at a position no later block consumes. -/
theorem relabelled_insert {j : Nat} {b : OperationSeals Seal} (hb : xs[j]? = some b) (p : U16) (d : RgbSeal.Definition Seal)
    (hp : ∀ (k : Nat) bk, j < k → xs[k]? = some bk → ¬ Consumes bk ⟨idAt cid j b, p⟩) :
    Relabelled cid xs (xs.set j { b with definedSeals := b.definedSeals.insert p d }) := by
  have hlt := lt_length_of_getElem? hb
  have hcase : ∀ (i : Nat) x y, xs[i]? = some x → (xs.set j { b with definedSeals := b.definedSeals.insert p d })[i]? = some y →
      (i = j ∧ x = b ∧ y = { b with definedSeals := b.definedSeals.insert p d }) ∨ (y = x) := by
    intro i x y hx hy
    rw [List.getElem?_set] at hy
    split at hy
    · rename_i e
      subst e
      exact .inl ⟨rfl, by rw [hx] at hb; exact Option.some.inj hb, (Option.some.inj hy).symm⟩
    · rw [hx] at hy
      exact .inr (Option.some.inj hy).symm
  refine ⟨by simp, ?_, ?_, ?_⟩
  · intro i x y hx hy
    rcases hcase i x y hx hy with ⟨_, rfl, rfl⟩ | rfl <;> rfl
  · intro i x y hx hy
    rcases hcase i x y hx hy with ⟨_, rfl, rfl⟩ | rfl <;> rfl
  · intro i x y hx hy k bk q hk hbk hc e
    rcases hcase i x y hx hy with ⟨rfl, rfl, rfl⟩ | rfl
    · have hne : q ≠ p := by
        rintro rfl
        exact hp k bk hk hbk hc
      simp only [← OMap.get?_eq_some, OMap.get?_insert, if_neg hne]
    · exact Iff.rfl

theorem set_committed {j : Nat} {b : OperationSeals Seal} (hb : xs[j]? = some b) (hx : ∀ x ∈ xs, SealsCommitted x) {p q : U16}
    {d : RgbSeal.Definition Seal} (hd : (q, d) ∈ b.definedSeals.entries) :
    ∀ x ∈ xs.set j { b with definedSeals := b.definedSeals.insert p d }, SealsCommitted x := by
  intro x hm
  rcases List.mem_or_eq_of_mem_set hm with hm | rfl
  · exact hx x hm
  · intro p' d' h'
    rcases OMap.mem_insertL h' with e | h'
    · obtain ⟨rfl, rfl⟩ := Prod.mk.inj e
      exact hx b (List.mem_of_getElem? hb) q d' hd
    · exact hx b (List.mem_of_getElem? hb) p' d' h'

end

section
variable {Seal : Type} [LinearOrder Seal] [RgbSeal Seal] [OpHash]
variable {C : Type} [ContractApi Seal C]
variable {R : Type} [ReadOperation Seal R]
variable {xs ys : List (OperationSeals Seal)}

/-- Of an accepted consignment, a version revealing other definitions or the same ones at other positions,
but the same for the cells consumed, is accepted exactly if it reveals only definitions committed to. -/
theorem C87_iff {S : C → C → Prop} (hS : SealBlind (Seal := Seal) S) {c : C} {r : R} {o} (h : Accepted c r xs o)
    (hl : Relabelled (ContractApi.contractId Seal c) xs ys) {R' : Type} [ReadOperation Seal R'] {r' : R'} (hr : Delivers r' ys) :
    (∃ o', Accepted c r' ys o') ↔ ∀ b ∈ ys, ∀ p d, (p, d) ∈ b.definedSeals.entries →
      ∃ cell ∈ b.operation.destructibleOut, cell.auth = RgbSeal.authToken d := by
  constructor
  · rintro ⟨o', h'⟩ b hb
    obtain ⟨i, hi⟩ := List.getElem?_of_mem hb
    exact (h'.valid i b hi).committed
  · intro hc
    obtain ⟨o', k1, k2, _⟩ := evaluate_of_delivers hr (relabelled_valid hS hl h.valid hc)
    exact ⟨o', k1, k2, hr⟩

/-- Both evaluations then interact alike, except for the reports of seals, and leave contracts that answer
alike. -/
theorem C87_same_run {S : C → C → Prop} (hS : SealBlind (Seal := Seal) S) {c : C} {r : R} {o} (h : Accepted c r xs o)
    (hl : Relabelled (ContractApi.contractId Seal c) xs ys) {R' : Type} [ReadOperation Seal R'] {r' : R'} {o'} (h' : Accepted c r' ys o') :
    (o'.world.calls.filter fun x => !IsSealReport x) = (o.world.calls.filter fun x => !IsSealReport x) ∧
      S o.world.contract o'.world.contract := by
  constructor
  · obtain ⟨segs, g1, g2⟩ := h.trace
    obtain ⟨segs', g1', g2'⟩ := h'.trace
    have : segs'.flatten.filter (fun x => !IsSealReport x) = segs.flatten.filter fun x => !IsSealReport x := by
      refine filter_flatten_congr (by rw [g1.1, g1'.1, hl.length]) ?_
      intro i l' l hl' hl₀
      have hlt : i < ys.length := by rw [← g1'.1]; exact lt_length_of_getElem? hl'
      have hb' : ys[i]? = some ys[i] := by simp
      obtain ⟨b, hb⟩ := hl.back hb'
      obtain ⟨seals, q1, rfl⟩ := g1.2 i b l hb hl₀
      obtain ⟨seals', q1', rfl⟩ := g1'.2 i ys[i] l' hb' hl'
      rw [hl.operation i b _ hb hb'] at q1'
      have := sealed_unique (relabelled_seals hl hb q1) q1'
      subst this
      have hc := relabelled_at hS c hl i
      have e1 : queries (ContractApi.contractId Seal c) (contractAt (ContractApi.contractId Seal c) c ys i) i ys[i] =
          queries (ContractApi.contractId Seal c) (contractAt (ContractApi.contractId Seal c) c xs i) i b := by
        unfold queries
        rw [hl.opAt hb hb', hl.idAt hb hb', hS.isKnown _ _ hc]
      have e2 : sealQueries (idAt (ContractApi.contractId Seal c) i ys[i]) ys[i] seals' =
          sealQueries (idAt (ContractApi.contractId Seal c) i b) b seals' := by
        unfold sealQueries
        rw [hl.witness i b _ hb hb', hl.idAt hb hb']
      have e3 : witnessCallbacks (idAt (ContractApi.contractId Seal c) i ys[i]) ys[i] =
          witnessCallbacks (idAt (ContractApi.contractId Seal c) i b) b := by
        unfold witnessCallbacks
        rw [hl.witness i b _ hb hb', hl.idAt hb hb']
      have e4 : ∀ o (b : OperationSeals Seal), (sealCallbacks o b).filter (fun x => !IsSealReport x) = [] := by
        intro o b; unfold sealCallbacks; split <;> rfl
      simp only [callbacks, e1, e2, e3, relabelled_operation hS hl hc hb hb', List.filter_cons, List.filter_append, e4]
    rw [g2, g2', List.filter_append, List.filter_append, List.filter_append, List.filter_append, this]
  · rw [h.shape.contract, h'.shape.contract, hl.length]
    exact relabelled_at hS c hl _

/-- What protects the outputs of an operation whatever positions are revealed: to consume any address of
the operation, in any accepted consignment, a witness has to close a seal of some definition to which some
output of the operation commits. -/
theorem C87_some_owner {c : C} {r : R} {o} (h : Accepted c r xs o) {op : Operation}
    (hno : ∀ (j : Nat) b, xs[j]? = some b → idAt (ContractApi.contractId Seal c) j b = opid op → opAt (ContractApi.contractId Seal c) j b = op)
    {i : Nat} {b : OperationSeals Seal} (hb : xs[i]? = some b) {a : CellAddr} (hc : Consumes b a) (ha : a.opid = opid op) :
    ∃ (w : SealWitness Seal) (seals : List Seal) (s : Seal) (d : RgbSeal.Definition Seal), b.witness = some w ∧
      RgbSeal.verifySealsClosing w.published w.client seals (message Seal (idAt (ContractApi.contractId Seal c) i b)) = .ok () ∧
      s ∈ seals ∧ (∃ cell ∈ op.destructibleOut, cell.auth = RgbSeal.authToken d) ∧
      (RgbSeal.toSrc d = some s ∨ RgbSeal.toSrc d = none ∧ ∃ (j : Nat) (bj : OperationSeals Seal) (w' : SealWitness Seal),
        j < i ∧ xs[j]? = some bj ∧ bj.witness = some w' ∧ s = RgbSeal.resolve d (RgbSeal.pubId w'.published)) := by
  obtain ⟨inp, hi, rfl⟩ := hc
  obtain ⟨w, seals, h1, h2, h3, _⟩ := C11_spending_witnessed h hb (List.ne_nil_of_mem hi)
  obtain ⟨n, hn⟩ := List.getElem?_of_mem hi
  have hlt : n < seals.length := h2.length_eq ▸ lt_length_of_getElem? hn
  have h4 : OpenAt (ContractApi.contractId Seal c) xs i inp.addr seals[n] := by
    have h4 := (List.forall₂_iff_get.1 h2).2 n (lt_length_of_getElem? hn) hlt
    rw [List.getElem?_eq_some_iff] at hn
    simpa [hn.2] using h4
  obtain ⟨j, bj, hj, hbj, ⟨h5, d, h6, h7⟩, _⟩ := h4
  have hop := hno j bj hbj (by rw [← h5, ha])
  refine ⟨w, seals, seals[n], d, h1, h3, by simp, ?_, ?_⟩
  · obtain ⟨cell, k1, k2⟩ := (h.valid j bj hbj).committed _ _ h6
    refine ⟨cell, ?_, k2⟩
    rw [← hop]
    unfold opAt
    split <;> exact k1
  · rcases h7 with h7 | ⟨h7, w', h8, h9⟩
    · exact .inl h7
    · exact .inr ⟨h7, j, bj, w', hj, hbj, h8, h9⟩

/-- Whoever controls the seal of one output of an operation can spend any other output of it, existing or
not.  Take any accepted consignment, a definition `d` it reveals for the operation of some block, and any
position `p` of this operation which is not consumed (nor the operation repeated) later in the
consignment.  Then the consignment with `d` revealed at `p` too is accepted, and so is its extension by any
block which consumes the output `p`, passes the codex and comes with a witness closing the seal of `d`. -/
theorem C87_takeover {S : C → C → Prop} (hS : SealBlind (Seal := Seal) S) {c : C} {r : R} {o} (h : Accepted c r xs o)
    {j : Nat} {bj : OperationSeals Seal} (hb : xs[j]? = some bj) {q : U16} {d : RgbSeal.Definition Seal}
    (hd : (q, d) ∈ bj.definedSeals.entries) {s : Seal} (hs : StandsFor bj d s) {p : U16}
    (hp : ∀ (k : Nat) bk, j < k → xs[k]? = some bk → ¬ Consumes bk ⟨idAt (ContractApi.contractId Seal c) j bj, p⟩ ∧
      idAt (ContractApi.contractId Seal c) k bk ≠ idAt (ContractApi.contractId Seal c) j bj)
    {b : OperationSeals Seal} (hin : b.operation.destructibleIn.map (·.addr) = [⟨idAt (ContractApi.contractId Seal c) j bj, p⟩])
    (hsc : SealsCommitted b) (hsp : ScriptPasses c xs b) {w : SealWitness Seal} (hw : b.witness = some w)
    (hcl : RgbSeal.verifySealsClosing w.published w.client [s] (message Seal (nextId c xs b)) = .ok ())
    {R' : Type} [ReadOperation Seal R'] {r' : R'}
    (hr : Delivers r' (xs.set j { bj with definedSeals := bj.definedSeals.insert p d } ++ [b])) :
    ∃ o', Accepted c r' (xs.set j { bj with definedSeals := bj.definedSeals.insert p d } ++ [b]) o' := by
  have hlt := lt_length_of_getElem? hb
  have hl : Relabelled (ContractApi.contractId Seal c) xs (xs.set j { bj with definedSeals := bj.definedSeals.insert p d }) :=
    relabelled_insert hb p d fun k bk hk hbk => (hp k bk hk hbk).1
  have hv := relabelled_valid hS hl h.valid (set_committed hb (fun x hx => by
    obtain ⟨i, hi⟩ := List.getElem?_of_mem hx
    exact (h.valid i x hi).committed) hd)
  have hlen : (xs.set j { bj with definedSeals := bj.definedSeals.insert p d }).length = xs.length := hl.length
  generalize hys : xs.set j { bj with definedSeals := bj.definedSeals.insert p d } = ys at *
  have hbj' : ys[j]? = some { bj with definedSeals := bj.definedSeals.insert p d } := by
    rw [← hys, List.getElem?_set]; simp [hlt]
  have hS' := relabelled_at hS c hl ys.length
  have hid : nextId c ys b = nextId c xs b := by unfold nextId; rw [hlen]
  obtain ⟨inp, hins, haddr⟩ : ∃ inp, b.operation.destructibleIn = [inp] ∧ inp.addr = ⟨idAt (ContractApi.contractId Seal c) j bj, p⟩ := by
    obtain ⟨inp, l, e1, e2, e3⟩ := List.map_eq_cons_iff.1 hin
    obtain rfl := List.map_eq_nil_iff.1 e3
    exact ⟨inp, e1, e2⟩
  have hopen : OpenAt (ContractApi.contractId Seal c) ys ys.length inp.addr s := by
    refine ⟨j, _, by rw [hlen]; exact hlt, hbj', ⟨?_, d, ?_, hs⟩, ?_⟩
    · rw [haddr]
      exact (hl.idAt hb hbj' _).symm
    · rw [← OMap.get?_eq_some, haddr]
      simp
    · intro k bk' hk _ hbk'
      obtain ⟨bk, hbk⟩ := hl.back hbk'
      obtain ⟨h1, h2⟩ := hp k bk hk hbk
      refine ⟨fun h3 => h1 (by rw [← haddr]; exact (hl.consumes hbk hbk').1 h3), ?_⟩
      rintro s' ⟨h3, _⟩
      rw [hl.idAt hbk hbk', haddr] at h3
      exact h2 h3.symm
  have hvb : ValidBlock c ys ys.length b := by
    refine ⟨fun e => absurd (hlen ▸ e) (by omega), hsc, by rw [hin]; simp, ⟨[s], ?_, ?_, by simp [hw]⟩, ?_⟩
    · rw [hins]
      exact .cons hopen .nil
    · intro w' hw'
      rw [hw, Option.some.injEq] at hw'
      subst hw'
      change RgbSeal.verifySealsClosing _ _ _ (message Seal (nextId c ys b)) = _
      rw [hid]
      exact hcl
    · intro hk
      rw [← hS.isKnown _ _ hS'] at hk
      rw [← hS.verify _ _ hS']
      rw [hlen] at hk ⊢
      rcases hsp with h4 | h4
      · change ContractApi.isKnown Seal _ (nextId c xs b) = false at hk
        rw [hk] at h4; simp at h4
      · exact h4
  obtain ⟨o', k1, k2, _⟩ := evaluate_of_delivers hr (validConsignment_snoc.2 ⟨hv, hvb⟩)
  exact ⟨o', k1, k2, hr⟩

end

namespace Demo
/-- Genesis revealing the definition of output 1 at the positions 2 and 7 as well, and none of output 2. -/
def movedGenesis : Block := ⟨genesisOp, .collect [(0, .abs 1), (1, .abs 5), (2, .abs 5), (7, .abs 5)], none⟩

theorem relabelled_story : Relabelled (Seal := Nat) ⟨9⟩ story [movedGenesis, transfer1, transfer2] := by
  have hcase : ∀ (i : Nat) (b b' : Block), story[i]? = some b → [movedGenesis, transfer1, transfer2][i]? = some b' →
      (i = 0 ∧ b = genesis ∧ b' = movedGenesis) ∨ b' = b := by
    intro i b b' hb hb'
    match i, hb, hb' with
    | 0, hb, hb' => exact .inl ⟨rfl, by simpa [story] using hb.symm, by simpa using hb'.symm⟩
    | 1, hb, hb' => exact .inr (by simp [story] at hb hb'; rw [← hb, ← hb'])
    | 2, hb, hb' => exact .inr (by simp [story] at hb hb'; rw [← hb, ← hb'])
    | n + 3, hb, _ => simp [story] at hb
  refine ⟨rfl, ?_, ?_, ?_⟩
  · intro i b b' hb hb'
    rcases hcase i b b' hb hb' with ⟨_, rfl, rfl⟩ | rfl <;> rfl
  · intro i b b' hb hb'
    rcases hcase i b b' hb hb' with ⟨_, rfl, rfl⟩ | rfl <;> rfl
  · intro i b b' hb hb' k bk p hk hbk hc d
    rcases hcase i b b' hb hb' with ⟨rfl, rfl, rfl⟩ | rfl
    · have hp : p = 0 ∨ p = 1 := by
        obtain ⟨inp, hm, he⟩ := hc
        have hall : ∀ x ∈ story, ∀ y ∈ x.operation.destructibleIn, y.addr.opid = ⟨100⟩ → y.addr.pos = 0 ∨ y.addr.pos = 1 := by
          decide +kernel
        have := hall bk (List.mem_of_getElem? hbk) inp hm (by rw [he]; rfl)
        rwa [he] at this
      rw [← OMap.get?_eq_some, ← OMap.get?_eq_some]
      rcases hp with rfl | rfl <;> exact Iff.rfl
    · exact Iff.rfl

/-- Output 2 of genesis, sealed with `rel 2`, spent by closing the seal of output 1. -/
def takeover : Block := ⟨op 143 [at_ 100 2] [.abs 11], .collect [(0, .abs 11)], some (wit 61 [5] 143)⟩
end Demo

open Demo in
/-- The story with the seal of output 1 revealed at other positions too. -/
example : SealBlind (Seal := Nat) sameButSeals ∧ (∃ o, Accepted ledger (Tape.mk story none) story o) ∧
    Relabelled (Seal := Nat) ⟨9⟩ story [movedGenesis, transfer1, transfer2] ∧
    (∃ o', Accepted ledger (Tape.mk [movedGenesis, transfer1, transfer2] none) [movedGenesis, transfer1, transfer2] o') ∧
    genesis.definedSeals.get? 2 ≠ movedGenesis.definedSeals.get? 2 :=
  ⟨ledger_blind, story_run, relabelled_story, accepted_of_accepts (by decide +kernel), by decide +kernel⟩

open Demo in
/-- The owner of output 1 of genesis takes output 2. -/
example : ∃ o', Accepted ledger (Tape.mk ([genesis, transfer1].set 0 { genesis with definedSeals := genesis.definedSeals.insert 2 (.abs 5) } ++ [takeover]) none)
    ([genesis, transfer1].set 0 { genesis with definedSeals := genesis.definedSeals.insert 2 (.abs 5) } ++ [takeover]) o' := by
  obtain ⟨o, h⟩ := accepted_of_accepts (c := ledger) (bs := [genesis, transfer1]) (by decide +kernel)
  refine C87_takeover ledger_blind h (j := 0) rfl (q := 1) (d := .abs 5) (OMap.get?_eq_some.1 rfl) (s := 5) (.inl rfl) (p := 2) ?_
    (b := takeover) rfl ?_ (.inr ⟨⟨⟨143⟩, takeover.operation⟩, rfl⟩) (w := wit 61 [5] 143) rfl rfl (tape_delivers _)
  · intro k bk hk hbk
    match k, hk, hbk with
    | 1, _, hbk =>
      obtain rfl : transfer1 = bk := by simpa using hbk
      refine ⟨?_, by decide +kernel⟩
      rintro ⟨inp, hm, he⟩
      obtain rfl : inp = ⟨at_ 100 0, .none⟩ := by simpa [transfer1, op] using hm
      exact absurd he (by decide +kernel)
    | n + 2, _, hbk => simp at hbk
  · have : ∀ e ∈ takeover.definedSeals.entries, ∃ x ∈ takeover.operation.destructibleOut, x.auth = RgbSeal.authToken (Seal := Nat) e.2 := by
      decide +kernel
    exact fun p d hd => this (p, d) hd

open Demo in
/-- The first transfer consumes a cell of genesis. -/
example : (∃ o, Accepted ledger (Tape.mk story none) story o) ∧
    (∀ (j : Nat) b, story[j]? = some b → idAt ⟨9⟩ j b = opid { genesisOp with contractId := ⟨9⟩ } → opAt ⟨9⟩ j b = { genesisOp with contractId := ⟨9⟩ }) ∧
    Consumes transfer1 (at_ 100 0) ∧ (at_ 100 0).opid = opid { genesisOp with contractId := ⟨9⟩ } := by
  refine ⟨story_run, ?_, ⟨_, List.mem_of_getElem? (i := 0) rfl, rfl⟩, rfl⟩
  intro j b hb e
  match j, hb, e with
  | 0, hb, _ =>
    obtain rfl : genesis = b := by simpa [story] using hb
    rfl
  | 1, hb, e =>
    obtain rfl : transfer1 = b := by simpa [story] using hb
    exact absurd e (by decide +kernel)
  | 2, hb, e =>
    obtain rfl : transfer2 = b := by simpa [story] using hb
    exact absurd e (by decide +kernel)
  | n + 3, hb, _ => simp [story] at hb

end Rgb
