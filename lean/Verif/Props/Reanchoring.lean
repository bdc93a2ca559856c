import Verif.Props.Convergence

set_option linter.unusedSectionVars false

/-! # C78: consignments with other witnesses -/

namespace Rgb
open Spec

section
variable {Seal : Type} [LinearOrder Seal] [RgbSeal Seal] [OpHash]
variable {C E : Type} [ContractApi Seal C]
variable {R : Type} [ReadOperation Seal R]
variable {xs ys : List (OperationSeals Seal)}

theorem Spec.Rewitnessed.back (h : Rewitnessed xs ys) {i : Nat} {b' : OperationSeals Seal} (hb : ys[i]? = some b') :
    ∃ b, xs[i]? = some b ∧ b'.operation = b.operation ∧ b'.definedSeals = b.definedSeals ∧ (b'.witness = none ↔ b.witness = none) := by
  have hlt := lt_length_of_getElem? hb
  rw [h.length] at hlt
  have hx : xs[i]? = some xs[i] := by simp
  exact ⟨_, hx, h.operation i _ _ hx hb, h.definedSeals i _ _ hx hb, h.witness i _ _ hx hb⟩

theorem Spec.Rewitnessed.symm (h : Rewitnessed xs ys) : Rewitnessed ys xs where
  length := h.length.symm
  operation i b b' hb hb' := (h.operation i b' b hb' hb).symm
  definedSeals i b b' hb hb' := (h.definedSeals i b' b hb' hb).symm
  witness i b b' hb hb' := (h.witness i b' b hb' hb).symm

theorem Spec.Rewitnessed.take (h : Rewitnessed xs ys) (n : Nat) : Rewitnessed (xs.take n) (ys.take n) := by
  have key : ∀ {l : List (OperationSeals Seal)} {i : Nat} {b}, (l.take n)[i]? = some b → l[i]? = some b := by
    intro l i b hb
    rw [List.getElem?_take] at hb
    split at hb
    · exact hb
    · simp at hb
  exact ⟨by simp [h.length], fun i b b' hb hb' => h.operation i b b' (key hb) (key hb'),
    fun i b b' hb hb' => h.definedSeals i b b' (key hb) (key hb'), fun i b b' hb hb' => h.witness i b b' (key hb) (key hb')⟩

theorem same_ids {b b' : OperationSeals Seal} (h : b'.operation = b.operation) (cid : ContractId) (i : Nat) :
    opAt cid i b' = opAt cid i b ∧ idAt cid i b' = idAt cid i b := by
  unfold idAt opAt; rw [h]; exact ⟨rfl, rfl⟩

/-- Whether a block announces a seal does not depend on its witness. -/
theorem announces_some {b b' : OperationSeals Seal} (h1 : b'.operation = b.operation) (h2 : b'.definedSeals = b.definedSeals)
    (h3 : b'.witness = none ↔ b.witness = none) {cid : ContractId} {i : Nat} {a : CellAddr} {s : Seal}
    (h : Announces cid i b a s) : ∃ s', Announces cid i b' a s' := by
  obtain ⟨k1, d, k2, k3⟩ := h
  rw [← (same_ids h1 cid i).2] at k1
  rw [← h2] at k2
  rcases k3 with k3 | ⟨k3, w, hw, _⟩
  · exact ⟨s, k1, d, k2, .inl k3⟩
  · cases hw' : b'.witness with
    | none => rw [h3.1 hw'] at hw; simp at hw
    | some w' => exact ⟨_, k1, d, k2, .inr ⟨k3, w', hw', rfl⟩⟩

theorem Spec.Rewitnessed.openAt (h : Rewitnessed xs ys) {cid : ContractId} {i : Nat} {a : CellAddr} {s : Seal}
    (ho : OpenAt cid xs i a s) : ∃ s', OpenAt cid ys i a s' := by
  obtain ⟨j, b, hj, hb, ha, hno⟩ := ho
  obtain ⟨b', hb', e1, e2, e3⟩ := h.symm.back hb
  obtain ⟨s', ha'⟩ := announces_some e1.symm e2.symm e3.symm ha
  refine ⟨s', j, b', hj, hb', ha', ?_⟩
  intro k bk hjk hki hbk
  obtain ⟨bk', hbk', f1, f2, f3⟩ := h.back hbk
  obtain ⟨g1, g2⟩ := hno k bk' hjk hki hbk'
  refine ⟨?_, ?_⟩
  · rintro ⟨inp, hm, e⟩
    rw [f1] at hm
    exact g1 ⟨inp, hm, e⟩
  · intro s'' hs
    obtain ⟨t, ht⟩ := announces_some f1.symm f2.symm f3.symm hs
    exact g2 t ht

theorem Spec.Rewitnessed.seals (h : Rewitnessed xs ys) {cid : ContractId} {i : Nat} {l : List Input} {seals : List Seal}
    (ho : List.Forall₂ (fun (inp : Input) s => OpenAt cid xs i inp.addr s) l seals) :
    ∃ seals', List.Forall₂ (fun (inp : Input) s => OpenAt cid ys i inp.addr s) l seals' := by
  induction ho with
  | nil => exact ⟨[], .nil⟩
  | cons ha _ ih =>
    obtain ⟨s, hs⟩ := h.openAt ha
    obtain ⟨ss, hss⟩ := ih
    exact ⟨s :: ss, .cons hs hss⟩

theorem rewitnessed_operation {S : C → C → Prop} (hS : ReportBlind (Seal := Seal) S) {c d : C} (h : S c d) (cid : ContractId) (i : Nat)
    {b b' : OperationSeals Seal} (e : b'.operation = b.operation) : operationCallbacks cid d i b' = operationCallbacks cid c i b := by
  unfold operationCallbacks
  rw [(same_ids e cid i).1, (same_ids e cid i).2, hS.isKnown _ _ h, hS.verify _ _ h]

theorem rewitnessed_at {S : C → C → Prop} (hS : ReportBlind (Seal := Seal) S) (c : C) {cid : ContractId}
    (h : Rewitnessed xs ys) (n : Nat) : S (contractAt cid c xs n) (contractAt cid c ys n) := by
  induction n with
  | zero => exact hS.refl c
  | succ n ih =>
    simp only [contractAt]
    cases hb' : ys[n]? with
    | none =>
      have : xs[n]? = none := by
        rw [List.getElem?_eq_none_iff] at hb' ⊢
        rw [← h.length]; exact hb'
      rw [this]
      exact ih
    | some b' =>
      obtain ⟨b, hb, e1, _⟩ := h.back hb'
      rw [hb]
      simp only [callbacks, List.foldl_append]
      rw [rewitnessed_operation hS ih cid n e1]
      refine hS.foldl (sealCallbacks_applied _ _) (hS.foldlRight (sealCallbacks_applied _ _) ?_)
      have h1 : S ((witnessCallbacks (idAt cid n b) b).foldl perform (contractAt cid c xs n))
          ((witnessCallbacks (idAt cid n b') b').foldl perform (contractAt cid c ys n)) :=
        hS.foldl (witnessCallbacks_applied _ _) (hS.foldlRight (witnessCallbacks_applied _ _) ih)
      unfold operationCallbacks
      split
      · exact h1
      · split
        · exact hS.operation _ _ h1 _
        · exact h1

theorem rewitnessed_valid {S : C → C → Prop} (hS : ReportBlind (Seal := Seal) S) {c : C} (h : Rewitnessed xs ys)
    (hv : ValidConsignment c xs)
    (hc : ∀ (i : Nat) b w seals, ys[i]? = some b → b.witness = some w →
      List.Forall₂ (fun (inp : Input) s => OpenAt (ContractApi.contractId Seal c) ys i inp.addr s) b.operation.destructibleIn seals →
      RgbSeal.verifySealsClosing w.published w.client seals (message Seal (idAt (ContractApi.contractId Seal c) i b)) = .ok ()) :
    ValidConsignment c ys := by
  intro i b' hb'
  obtain ⟨b, hb, e1, e2, e3⟩ := h.back hb'
  have vb := hv i b hb
  have hS' := rewitnessed_at hS c (cid := ContractApi.contractId Seal c) h i
  obtain ⟨seals, g1, g2, g3⟩ := vb.closed
  obtain ⟨seals', g1'⟩ := h.seals g1
  rw [← e1] at g1'
  refine ⟨by rw [e1]; exact vb.codex, ?_, by rw [e1]; exact vb.distinct, ⟨seals', g1', ?_, ?_⟩, ?_⟩
  · rw [e1, e2]; exact vb.committed
  · exact fun w hw => hc i b' w seals' hb' hw g1'
  · intro hn
    have := g3 (e3.1 hn)
    subst this
    rw [e1] at g1'
    generalize b.operation.destructibleIn = l at g1 g1'
    cases g1
    cases g1'
    rfl
  · rw [(same_ids e1 _ _).1, (same_ids e1 _ _).2, ← hS.isKnown _ _ hS', ← hS.verify _ _ hS']
    exact vb.script

/-- An accepted consignment with other witnesses is accepted if and only if each new witness closes the
seals which are open for the inputs of its operation in the new consignment. -/
theorem C78_reanchoring {S : C → C → Prop} (hS : ReportBlind (Seal := Seal) S) {c : C} {r : R} {o}
    (h : Accepted c r xs o) (hw : Rewitnessed xs ys) {R' : Type} [ReadOperation Seal R'] {r' : R'} (hr : Delivers r' ys) :
    (∃ o', Accepted c r' ys o') ↔
      ∀ (i : Nat) b w seals, ys[i]? = some b → b.witness = some w →
        List.Forall₂ (fun (inp : Input) s => OpenAt (ContractApi.contractId Seal c) ys i inp.addr s) b.operation.destructibleIn seals →
        RgbSeal.verifySealsClosing w.published w.client seals
          (message Seal (idAt (ContractApi.contractId Seal c) i b)) = .ok () := by
  constructor
  · rintro ⟨o', h'⟩ i b w seals hb hbw hf
    obtain ⟨seals', g1, g2, _⟩ := (h'.valid i b hb).closed
    rw [sealed_unique g1 hf]
    exact g2 w hbw
  · intro hc
    obtain ⟨o', k1, k2, _⟩ := evaluate_of_delivers hr (rewitnessed_valid hS hw h.valid hc)
    exact ⟨o', k1, k2, hr⟩

/-- If it is not accepted, then because some new witness does not close the seals of its operation; the first
one which does not is reported. -/
theorem C78_rejected {S : C → C → Prop} (hS : ReportBlind (Seal := Seal) S) {c : C} {r : R} {o}
    (h : Accepted c r xs o) (hw : Rewitnessed xs ys) {R' : Type} [ReadOperation Seal R'] {r' : R'} (hr : Delivers r' ys) :
    ∃ o', evaluate (Seal := Seal) c r' = some o' ∧ (o'.result = .ok () ∨
      ∃ (i : Nat) (b : OperationSeals Seal) (w : SealWitness Seal) (seals : List Seal) (e : RgbSeal.SealError Seal),
        ys[i]? = some b ∧ b.witness = some w ∧
        List.Forall₂ (fun (inp : Input) s => OpenAt (ContractApi.contractId Seal c) ys i inp.addr s) b.operation.destructibleIn seals ∧
        RgbSeal.verifySealsClosing w.published w.client seals
          (message Seal (idAt (ContractApi.contractId Seal c) i b)) = .error e ∧
        (∀ (j : Nat) bj wj seals, j < i → ys[j]? = some bj → bj.witness = some wj →
          List.Forall₂ (fun (inp : Input) s => OpenAt (ContractApi.contractId Seal c) ys j inp.addr s) bj.operation.destructibleIn seals →
          RgbSeal.verifySealsClosing wj.published wj.client seals
            (message Seal (idAt (ContractApi.contractId Seal c) j bj)) = .ok ()) ∧
        o'.result = .error (.sealsNotClosed (RgbSeal.pubId w.published) (idAt (ContractApi.contractId Seal c) i b) e)) := by
  by_cases hc : ∀ (i : Nat) b w seals, ys[i]? = some b → b.witness = some w →
        List.Forall₂ (fun (inp : Input) s => OpenAt (ContractApi.contractId Seal c) ys i inp.addr s) b.operation.destructibleIn seals →
        RgbSeal.verifySealsClosing w.published w.client seals
          (message Seal (idAt (ContractApi.contractId Seal c) i b)) = .ok ()
  · obtain ⟨o', h'⟩ := (C78_reanchoring hS h hw hr).2 hc
    exact ⟨o', h'.run, .inl h'.ok⟩
  · -- the first block whose witness fails
    obtain ⟨i, hi, hmin⟩ : ∃ i : Nat, (∃ b w seals, ys[i]? = some b ∧ b.witness = some w ∧
        List.Forall₂ (fun (inp : Input) s => OpenAt (ContractApi.contractId Seal c) ys i inp.addr s) b.operation.destructibleIn seals ∧
        RgbSeal.verifySealsClosing w.published w.client seals
          (message Seal (idAt (ContractApi.contractId Seal c) i b)) ≠ .ok ()) ∧
        ∀ j < i, ¬ ∃ b w seals, ys[j]? = some b ∧ b.witness = some w ∧
          List.Forall₂ (fun (inp : Input) s => OpenAt (ContractApi.contractId Seal c) ys j inp.addr s) b.operation.destructibleIn seals ∧
          RgbSeal.verifySealsClosing w.published w.client seals
            (message Seal (idAt (ContractApi.contractId Seal c) j b)) ≠ .ok () := by
      classical
      have hex : ∃ i : Nat, ∃ b w seals, ys[i]? = some b ∧ b.witness = some w ∧
          List.Forall₂ (fun (inp : Input) s => OpenAt (ContractApi.contractId Seal c) ys i inp.addr s) b.operation.destructibleIn seals ∧
          RgbSeal.verifySealsClosing w.published w.client seals
            (message Seal (idAt (ContractApi.contractId Seal c) i b)) ≠ .ok () := by
        push Not at hc
        obtain ⟨i, b, w, seals, h1, h2, h3, h4⟩ := hc
        exact ⟨i, b, w, seals, h1, h2, h3, h4⟩
      exact ⟨Nat.find hex, Nat.find_spec hex, fun j hj => Nat.find_min hex hj⟩
    obtain ⟨b, w, seals, hb, hbw, hf, hne⟩ := hi
    have hlt := lt_length_of_getElem? hb
    have hlen : (ys.take i).length = i := by rw [List.length_take]; omega
    have hcg : ∀ k < i, (ys.take i)[k]? = ys[k]? := fun k hk => List.getElem?_take_of_lt hk
    have hcg' : ∀ j, j ≤ i → ∀ k < j, (ys.take i)[k]? = ys[k]? := fun j hj k hk => hcg k (by omega)
    have hpre : ValidConsignment c (xs.take i) := by
      have := h.valid
      rw [← List.take_append_drop i xs] at this
      exact this.prefix
    have hv : ValidConsignment c (ys.take i) := by
      refine rewitnessed_valid hS (hw.take i) hpre ?_
      intro j bj wj sj hbj hwj hfj
      have hji : j < i := by rw [← hlen]; exact lt_length_of_getElem? hbj
      rw [hcg j hji] at hbj
      by_contra hno
      exact hmin j hji ⟨bj, wj, sj, hbj, hwj, hfj.imp fun _ _ k => (openAt_congr (hcg' j (by omega))).1 k, hno⟩
    cases he : RgbSeal.verifySealsClosing w.published w.client seals (message Seal (idAt (ContractApi.contractId Seal c) i b)) with
    | ok _ => exact absurd he hne
    | error e =>
      have hst : StartsWith r' (ys.take i ++ [b]) := by
        obtain ⟨r₁, _, hrd, _⟩ := hr
        have : ys = (ys.take i ++ [b]) ++ ys.drop (i + 1) := by
          have e : ys[i] = b := (List.getElem?_eq_some_iff.1 hb).2
          rw [List.append_assoc, List.singleton_append, ← e, List.getElem_cons_drop, List.take_append_drop]
        rw [this] at hrd
        obtain ⟨r₂, h1, _⟩ := hrd.split
        exact ⟨r₂, h1⟩
      obtain ⟨bx, hbx, e1, e2, e3⟩ := hw.back hb
      have vb := h.valid i bx hbx
      have hS' := rewitnessed_at hS c (cid := ContractApi.contractId Seal c) hw i
      have hid : nextId c (ys.take i) b = idAt (ContractApi.contractId Seal c) i b := by unfold nextId; rw [hlen]
      have hrej : ∃ l, Rejection c (ys.take i) b (E := ReadOperation.Error Seal R')
          (.sealsNotClosed (RgbSeal.pubId w.published) (nextId c (ys.take i) b) e) l := by
        refine ⟨_, .notClosed (seals := seals) ?_ ?_ ?_ ?_ hbw (by rw [hid]; exact he)⟩
        · intro hnil
          have : i = 0 := by rw [← hlen, hnil]; rfl
          rw [e1]
          exact vb.codex this
        · unfold SealsCommitted; rw [e1, e2]; exact vb.committed
        · refine ⟨by rw [e1]; exact vb.distinct, ?_⟩
          rw [hlen]
          exact hf.imp fun _ _ k => (openAt_congr hcg).2 k
        · unfold ScriptPasses
          simp only
          rw [hid, hlen, contractAt_congr hcg, ← hS.isKnown _ _ hS', ← hS.verify _ _ hS', (same_ids e1 _ _).1, (same_ids e1 _ _).2]
          cases hk : ContractApi.isKnown Seal (contractAt (ContractApi.contractId Seal c) c xs i) (idAt (ContractApi.contractId Seal c) i bx) with
          | true => exact .inl rfl
          | false => exact .inr (vb.script hk)
      obtain ⟨o', k1, k2, _⟩ := evaluate_of_rejection hst hv hrej.choose_spec
      refine ⟨o', k1, .inr ⟨i, b, w, seals, e, hb, hbw, hf, he, ?_, by rw [k2, hid]⟩⟩
      intro j bj wj sj hji hbj hwj hfj
      by_contra hno
      exact hmin j hji ⟨bj, wj, sj, hbj, hwj, hfj, hno⟩

/-- If both are accepted, the interactions are the same except for those concerning witnesses, and the
contracts reached give the same answers. -/
theorem C78_effects {S : C → C → Prop} (hS : ReportBlind (Seal := Seal) S) {c : C} {r : R} {o}
    (h : Accepted c r xs o) (hw : Rewitnessed xs ys) {R' : Type} [ReadOperation Seal R'] {r' : R'} {o'} (h' : Accepted c r' ys o') :
    (o'.world.calls.filter fun x => !ConcernsWitness x) = (o.world.calls.filter fun x => !ConcernsWitness x) ∧
      S o.world.contract o'.world.contract := by
  refine ⟨?_, ?_⟩
  · obtain ⟨segs, g1, g2⟩ := h.trace
    obtain ⟨segs', g1', g2'⟩ := h'.trace
    have : segs'.flatten.filter (fun x => !ConcernsWitness x) = segs.flatten.filter fun x => !ConcernsWitness x := by
      refine filter_flatten_congr (by rw [g1.1, g1'.1, hw.length]) ?_
      intro i l' l hl' hl
      have hlt : i < ys.length := by rw [← g1'.1]; exact lt_length_of_getElem? hl'
      have hb' : ys[i]? = some ys[i] := by simp
      obtain ⟨b, hb, e1, e2, e3⟩ := hw.back hb'
      obtain ⟨seals, q1, rfl⟩ := g1.2 i b l hb hl
      obtain ⟨seals', q1', rfl⟩ := g1'.2 i ys[i] l' hb' hl'
      have hc := rewitnessed_at hS c (cid := ContractApi.contractId Seal c) hw i
      have f1 : queries (ContractApi.contractId Seal c) (contractAt (ContractApi.contractId Seal c) c ys i) i ys[i] =
          queries (ContractApi.contractId Seal c) (contractAt (ContractApi.contractId Seal c) c xs i) i b := by
        unfold queries
        rw [(same_ids e1 _ _).1, (same_ids e1 _ _).2, hS.isKnown _ _ hc]
      have f2 : ∀ o (b : OperationSeals Seal) s, (sealQueries o b s).filter (fun x => !ConcernsWitness x) = [] := by
        intro o b s; unfold sealQueries; split <;> rfl
      have f3 : ∀ o (b : OperationSeals Seal), (witnessCallbacks o b).filter (fun x => !ConcernsWitness x) = [] := by
        intro o b; unfold witnessCallbacks; split <;> rfl
      have f4 : sealCallbacks (idAt (ContractApi.contractId Seal c) i ys[i]) ys[i] =
          sealCallbacks (idAt (ContractApi.contractId Seal c) i b) b := by
        unfold sealCallbacks
        rw [e2, (same_ids e1 _ _).2]
      simp only [callbacks, f1, f4, rewitnessed_operation hS hc _ _ e1, List.filter_cons, List.filter_append, f2, f3]
    rw [g2, g2', List.filter_append, List.filter_append, List.filter_append, List.filter_append, this]
  · rw [h.shape.contract, h'.shape.contract, hw.length]
    exact rewitnessed_at hS c hw _

/-- The new consignment is accepted if the new witnesses close the old seals and stand for the same seals
wherever a definition relative to the witness belongs to a cell that is spent later. -/
theorem C78_unmoved {S : C → C → Prop} (hS : ReportBlind (Seal := Seal) S) {c : C} {r : R} {o}
    (h : Accepted c r xs o) (hw : Rewitnessed xs ys) {R' : Type} [ReadOperation Seal R'] {r' : R'} (hr : Delivers r' ys)
    (hcl : ∀ (i : Nat) b b' w seals, xs[i]? = some b → ys[i]? = some b' → b'.witness = some w →
      List.Forall₂ (fun (inp : Input) s => OpenAt (ContractApi.contractId Seal c) xs i inp.addr s) b.operation.destructibleIn seals →
      RgbSeal.verifySealsClosing w.published w.client seals (message Seal (idAt (ContractApi.contractId Seal c) i b)) = .ok ())
    (hmv : ∀ (i j : Nat) b b' bj w w' p d, xs[i]? = some b → ys[i]? = some b' → b.witness = some w → b'.witness = some w' →
      (p, d) ∈ b.definedSeals.entries → RgbSeal.toSrc d = none → i < j → xs[j]? = some bj →
      Consumes bj ⟨idAt (ContractApi.contractId Seal c) i b, p⟩ →
      RgbSeal.resolve d (RgbSeal.pubId w'.published) = RgbSeal.resolve d (RgbSeal.pubId w.published)) :
    ∃ o', Accepted c r' ys o' := by
  refine (C78_reanchoring hS h hw hr).2 ?_
  intro i b' w' seals hb' hw' hf
  obtain ⟨b, hb, e1, e2, e3⟩ := hw.back hb'
  obtain ⟨s₀, hf₀⟩ := hw.symm.seals hf
  rw [e1] at hf hf₀
  have ha : ∀ inp ∈ b.operation.destructibleIn, ∀ s, OpenAt (ContractApi.contractId Seal c) xs i inp.addr s →
      OpenAt (ContractApi.contractId Seal c) ys i inp.addr s := by
    rintro inp hinp s ⟨j, bj, hj, hbj, ⟨k1, d, k2, k3⟩, hno⟩
    obtain ⟨bj', hbj', f1, f2, f3⟩ := hw.symm.back hbj
    refine ⟨j, bj', hj, hbj', ⟨by rw [k1, (same_ids f1 _ _).2], d, by rw [← f2]; exact k2, ?_⟩, ?_⟩
    · rcases k3 with k3 | ⟨k3, w, hbw, rfl⟩
      · exact .inl k3
      · cases hbw' : bj'.witness with
        | none => rw [f3.2 hbw'] at hbw; simp at hbw
        | some w'' =>
          refine .inr ⟨k3, w'', rfl, ?_⟩
          exact (hmv j i bj bj' b w w'' _ d hbj hbj' hbw hbw' k2 k3 hj hb ⟨inp, hinp, by rw [← k1]⟩).symm
    · intro k bk' hjk hki hbk'
      obtain ⟨bk, hbk, g1, g2, g3⟩ := hw.back hbk'
      obtain ⟨n1, n2⟩ := hno k bk hjk hki hbk
      refine ⟨?_, ?_⟩
      · rintro ⟨inp', hm, e⟩
        rw [g1] at hm
        exact n1 ⟨inp', hm, e⟩
      · intro s'' hs
        obtain ⟨t, ht⟩ := announces_some g1.symm g2.symm g3.symm hs
        exact n2 t ht
  have hs : List.Forall₂ (fun (inp : Input) s => OpenAt (ContractApi.contractId Seal c) ys i inp.addr s) b.operation.destructibleIn s₀ := by
    generalize b.operation.destructibleIn = l at hf₀ ha
    clear hf
    induction hf₀ with
    | nil => exact .nil
    | cons k _ ih => exact .cons (ha _ (by simp) _ k) (ih fun inp hi => ha inp (by simp [hi]))
  rw [sealed_unique hs hf, (same_ids e1 _ _).2]
  exact hcl i b b' w' s₀ hb hb' hw' hf₀

/-- In particular the witness of the last operation may be replaced by any other one closing the seals of
its inputs. -/
theorem C78_last {c : C} {r : R} {b : OperationSeals Seal} {o}
    (h : Accepted c r (xs ++ [b]) o) {w' : SealWitness Seal}
    (hcl : ∀ seals, List.Forall₂ (fun (inp : Input) s => OpenAt (ContractApi.contractId Seal c) xs xs.length inp.addr s)
        b.operation.destructibleIn seals →
      RgbSeal.verifySealsClosing w'.published w'.client seals
        (message Seal (idAt (ContractApi.contractId Seal c) xs.length b)) = .ok ())
    {R' : Type} [ReadOperation Seal R'] {r' : R'} (hr : Delivers r' (xs ++ [{ b with witness := some w' }])) :
    ∃ o', Accepted c r' (xs ++ [{ b with witness := some w' }]) o' := by
  obtain ⟨h1, h2⟩ := validConsignment_snoc.1 h.valid
  obtain ⟨seals, g1, _, _⟩ := h2.closed
  have hv : ValidConsignment c (xs ++ [{ b with witness := some w' }]) := by
    refine validConsignment_snoc.2 ⟨h1, h2.codex, h2.committed, h2.distinct, ⟨seals, g1, ?_, ?_⟩, h2.script⟩
    · intro w hw
      cases hw
      exact hcl seals g1
    · intro hn
      cases hn
  obtain ⟨o', k1, k2, _⟩ := evaluate_of_delivers hr hv
  exact ⟨o', k1, k2, hr⟩

end

namespace Demo
/-- The first transfer with another witness, with another id. -/
def moved1 : Block := { transfer1 with witness := some (wit 70 [1] 101) }

/-- The second transfer with a witness closing the seals as they are then. -/
def moved2 : Block := { transfer2 with witness := some (wit 51 [70003, 5] 102) }

theorem rewitnessed_of {xs ys : List Block} (hl : ys.length = xs.length)
    (h : ∀ p ∈ xs.zip ys, p.2.operation = p.1.operation ∧ p.2.definedSeals = p.1.definedSeals ∧ (p.2.witness = none ↔ p.1.witness = none)) :
    Rewitnessed (Seal := Nat) xs ys := by
  have key : ∀ {i : Nat} {b b' : Block}, xs[i]? = some b → ys[i]? = some b' → (b, b') ∈ xs.zip ys := by
    intro i b b' hb hb'
    exact List.mem_of_getElem? (i := i) (by rw [List.getElem?_zip_eq_some]; exact ⟨hb, hb'⟩)
  exact ⟨hl, fun i b b' hb hb' => (h _ (key hb hb')).1, fun i b b' hb hb' => (h _ (key hb hb')).2.1,
    fun i b b' hb hb' => (h _ (key hb hb')).2.2⟩

theorem moved_story : Rewitnessed (Seal := Nat) story [genesis, moved1, moved2] := by
  refine rewitnessed_of rfl ?_
  simp [story, moved1, moved2, transfer1, transfer2]

theorem moved_first : Rewitnessed (Seal := Nat) story [genesis, moved1, transfer2] := by
  refine rewitnessed_of rfl ?_
  simp [story, moved1, transfer1]
end Demo

open Demo in
/-- The story with other witnesses, one of them with another id. -/
example : ∃ o o', ReportBlind (Seal := Nat) sameBooks ∧ Accepted ledger (Tape.mk story none) story o ∧
    Rewitnessed (Seal := Nat) story [genesis, moved1, moved2] ∧
    Accepted ledger (Tape.mk [genesis, moved1, moved2] none) [genesis, moved1, moved2] o' ∧
    RgbSeal.pubId (Seal := Nat) (wit 70 [1] 101).published ≠ RgbSeal.pubId (Seal := Nat) (wit 50 [1] 101).published := by
  obtain ⟨o, h⟩ := story_run
  obtain ⟨o', h'⟩ := accepted_of_accepts (c := ledger) (bs := [genesis, moved1, moved2]) (by decide +kernel)
  exact ⟨o, o', sameBooks_blind, h, moved_story, h', show (70 : Nat) ≠ 50 by decide⟩

open Demo in
/-- The last operation with another witness. -/
example : ∃ o, Accepted ledger (Tape.mk [genesis, transfer1] none) ([genesis] ++ [transfer1]) o ∧
    (∀ seals, List.Forall₂ (fun (inp : Input) s => OpenAt (Seal := Nat) ledger.contractId [genesis] 1 inp.addr s)
        transfer1.operation.destructibleIn seals →
      RgbSeal.verifySealsClosing (Seal := Nat) (wit 70 [1] 101).published (wit 70 [1] 101).client seals
        (message Nat (idAt ledger.contractId 1 transfer1)) = .ok ()) := by
  obtain ⟨o, h⟩ := accepted_of_accepts (c := ledger) (bs := [genesis, transfer1]) (by decide +kernel)
  refine ⟨o, h, ?_⟩
  intro seals hf
  obtain ⟨s₀, g1, g2, _⟩ := (validConsignment_snoc (xs := [genesis]) (b := transfer1).1 h.valid).2.closed
  rw [sealed_unique g1 hf]
  exact g2 (wit 50 [1] 101) rfl

open Demo in
/-- That the seals of spent cells stay the same is needed: if the first transfer moves to a witness with
another id, the witness of the second one, which closes the old seal, is refused. -/
theorem C78_needs_same : ∃ (c : Ledger) (xs ys : List Block) (r r' : Tape) (o o' : Outcome Nat Tape Ledger String),
    ReportBlind (Seal := Nat) sameBooks ∧ Accepted c r xs o ∧ Rewitnessed (Seal := Nat) xs ys ∧ Delivers r' ys ∧
    (∀ (i : Nat) b b' w seals, xs[i]? = some b → ys[i]? = some b' → b'.witness = some w →
      List.Forall₂ (fun (inp : Input) s => OpenAt (ContractApi.contractId Nat c) xs i inp.addr s) b.operation.destructibleIn seals →
      RgbSeal.verifySealsClosing w.published w.client seals (message Nat (idAt (ContractApi.contractId Nat c) i b)) = .ok ()) ∧
    evaluate (Seal := Nat) c r' = some o' ∧ o'.result = .error (.sealsNotClosed (51 : Nat) ⟨102⟩ "not closed") := by
  obtain ⟨o, h⟩ := story_run
  obtain ⟨o', h1, h2⟩ := rejected_of (c := ledger) (bs := [genesis, moved1]) (b := transfer2)
    (e := .sealsNotClosed (51 : Nat) ⟨102⟩ "not closed") rfl [] none
  refine ⟨ledger, story, [genesis, moved1, transfer2], _, Tape.mk [genesis, moved1, transfer2] none, o, o', sameBooks_blind, h, moved_first, tape_delivers _, ?_, h1, h2⟩
  intro i b b' w seals hb hb' hw hf
  obtain ⟨s₀, g1, g2, _⟩ := (h.valid i b hb).closed
  rw [sealed_unique g1 hf]
  match i, hb, hb' with
  | 0, hb, hb' =>
    obtain rfl : genesis = b' := by simpa using hb'
    simp [genesis] at hw
  | 1, hb, hb' =>
    obtain rfl : transfer1 = b := by simpa [story] using hb
    obtain rfl : moved1 = b' := by simpa using hb'
    have := g2 (wit 50 [1] 101) rfl
    obtain rfl : wit 70 [1] 101 = w := by simpa [moved1] using hw
    exact this
  | 2, hb, hb' =>
    obtain rfl : transfer2 = b := by simpa [story] using hb
    obtain rfl : transfer2 = b' := by simpa using hb'
    exact g2 w hw
  | n + 3, hb, _ => simp [story] at hb

end Rgb
