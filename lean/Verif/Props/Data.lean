import Verif.Props.Conflicts

set_option linter.unusedSectionVars false

/-! # C66: what of an operation matters -/

namespace Rgb
open Spec

section
variable {Seal : Type} [LinearOrder Seal] [RgbSeal Seal] [OpHash]
variable {R : Type} [ReadOperation Seal R]
variable {C₁ C₂ : Type} [ContractApi Seal C₁] [ContractApi Seal C₂]
variable {A : Operation → Operation → Prop} {V : VerifiedOperation → VerifiedOperation → Prop} {S : C₁ → C₂ → Prop}

/-- Blocks related position by position. -/
def AlikeBlocks (A : Operation → Operation → Prop) (cid : ContractId) (xs ys : List (OperationSeals Seal)) : Prop :=
  xs.length = ys.length ∧ ∀ (i : Nat) b b', xs[i]? = some b → ys[i]? = some b' → Alike A cid i b b'

theorem Spec.Alike.symm {cid : ContractId} {i : Nat} {b₁ b₂ : OperationSeals Seal} (h : Alike A cid i b₁ b₂) :
    Alike (fun x y => A y x) cid i b₂ b₁ :=
  ⟨h.operation, h.id.symm, fun e => (h.codex e).symm, h.inputs.symm, fun t => (h.tokens t).symm, h.seals.symm, h.witness.symm⟩

theorem AlikeBlocks.symm {cid : ContractId} {xs ys : List (OperationSeals Seal)} (h : AlikeBlocks A cid xs ys) :
    AlikeBlocks (fun x y => A y x) cid ys xs :=
  ⟨h.1.symm, fun i b b' hb hb' => (h.2 i b' b hb' hb).symm⟩

theorem Spec.DataBlind.symm (hS : DataBlind (Seal := Seal) A V S) :
    DataBlind (Seal := Seal) (fun x y => A y x) (fun x y => V y x) fun (c₂ : C₂) (c₁ : C₁) => S c₁ c₂ where
  contractId _ _ h := (hS.contractId _ _ h).symm
  codexId _ _ h := (hS.codexId _ _ h).symm
  isKnown _ _ h o := (hS.isKnown _ _ h o).symm
  verify _ _ h cid op₁ op₂ ha := by
    rcases hS.verify _ _ h cid op₂ op₁ ha with ⟨e, h1, h2⟩ | ⟨v₁, v₂, h1, h2, h3⟩
    · exact .inl ⟨e, h2, h1⟩
    · exact .inr ⟨v₂, v₁, h2, h1, h3⟩
  operation _ _ h v₁ v₂ hv := hS.operation _ _ h v₂ v₁ hv
  witness _ _ h o w := hS.witness _ _ h o w
  seals _ _ h o s := hS.seals _ _ h o s

theorem alike_announces {cid : ContractId} {i : Nat} {b₁ b₂ : OperationSeals Seal} (h : Alike A cid i b₁ b₂) {a : CellAddr} {s : Seal} :
    Announces cid i b₁ a s ↔ Announces cid i b₂ a s := by
  unfold Announces
  rw [h.id, h.seals, h.witness]

theorem alike_consumes {cid : ContractId} {i : Nat} {b₁ b₂ : OperationSeals Seal} (h : Alike A cid i b₁ b₂) {a : CellAddr} :
    Consumes b₁ a ↔ Consumes b₂ a := by
  have key : ∀ b : OperationSeals Seal, Consumes b a ↔ a ∈ b.operation.destructibleIn.map (·.addr) := by
    intro b; simp [Consumes]
  rw [key, key, h.inputs]

theorem AlikeBlocks.get {cid : ContractId} {xs ys : List (OperationSeals Seal)} (h : AlikeBlocks A cid xs ys) {i : Nat}
    {b : OperationSeals Seal} (hb : xs[i]? = some b) : ∃ b', ys[i]? = some b' ∧ Alike A cid i b b' := by
  have hi : i < ys.length := h.1 ▸ lt_length_of_getElem? hb
  exact ⟨ys[i], by simp, h.2 i b _ hb (by simp)⟩

theorem alike_openAt_mp {cid : ContractId} {xs ys : List (OperationSeals Seal)} (h : AlikeBlocks A cid xs ys) {i : Nat} {a : CellAddr}
    {s : Seal} (ho : OpenAt cid xs i a s) : OpenAt cid ys i a s := by
  obtain ⟨j, b, hj, hb, ha, hn⟩ := ho
  obtain ⟨b', hb', hab⟩ := h.get hb
  refine ⟨j, b', hj, hb', (alike_announces hab).1 ha, ?_⟩
  intro k bk h1 h2 hbk
  obtain ⟨bk', hbk', habk⟩ := h.symm.get hbk
  obtain ⟨n1, n2⟩ := hn k bk' h1 h2 hbk'
  exact ⟨fun hc => n1 ((alike_consumes habk).1 hc), fun s' hs => n2 s' ((alike_announces habk).1 hs)⟩

theorem alike_openAt {cid : ContractId} {xs ys : List (OperationSeals Seal)} (h : AlikeBlocks A cid xs ys) {i : Nat} {a : CellAddr}
    {s : Seal} : OpenAt cid xs i a s ↔ OpenAt cid ys i a s :=
  ⟨alike_openAt_mp h, alike_openAt_mp h.symm⟩

theorem alike_inputs {cid : ContractId} {xs ys : List (OperationSeals Seal)} (h : AlikeBlocks A cid xs ys) {i k : Nat}
    {b₁ b₂ : OperationSeals Seal} (hb : Alike A cid i b₁ b₂) {seals : List Seal} :
    List.Forall₂ (fun (inp : Input) s => OpenAt cid xs k inp.addr s) b₁.operation.destructibleIn seals ↔
    List.Forall₂ (fun (inp : Input) s => OpenAt cid ys k inp.addr s) b₂.operation.destructibleIn seals := by
  have key : ∀ (zs : List (OperationSeals Seal)) (l : List Input), List.Forall₂ (fun (inp : Input) s => OpenAt cid zs k inp.addr s) l seals ↔
      List.Forall₂ (fun a s => OpenAt cid zs k a s) (l.map (·.addr)) seals := by
    intro zs l
    rw [List.forall₂_map_left_iff]
  rw [key, key, hb.inputs]
  simp only [alike_openAt h]

theorem alike_callbacks (hS : DataBlind (Seal := Seal) A V S) {c₁ : C₁} {c₂ : C₂} (h : S c₁ c₂) {cid : ContractId} {i : Nat}
    {b₁ b₂ : OperationSeals Seal} (hb : Alike A cid i b₁ b₂) :
    List.Forall₂ (CallAlike A V) (callbacks cid c₁ i b₁) (callbacks cid c₂ i b₂) := by
  have same : ∀ l : List (Call Seal), (∀ x ∈ l, appliedOperation x = none) → List.Forall₂ (CallAlike A V) l l := by
    intro l hl
    exact List.forall₂_same.2 fun x hx => .same x (hl x hx)
  unfold callbacks
  refine List.rel_append (List.rel_append ?_ ?_) ?_
  · unfold witnessCallbacks
    rw [hb.id, hb.witness]
    refine same _ ?_
    intro x hx
    split at hx <;> simp at hx
    subst hx; rfl
  · unfold operationCallbacks
    rw [hS.isKnown _ _ h, hb.id]
    split
    · exact .nil
    · rcases hS.verify _ _ h cid _ _ hb.operation with ⟨e, h1, h2⟩ | ⟨v₁, v₂, h1, h2, h3⟩
      · rw [h1, h2]; exact .nil
      · rw [h1, h2]; exact .cons (.applyOperation h3) .nil
  · unfold sealCallbacks
    rw [hb.id, hb.seals]
    refine same _ ?_
    intro x hx
    split at hx <;> simp at hx
    subst hx; rfl

theorem alike_queries (hS : DataBlind (Seal := Seal) A V S) {c₁ : C₁} {c₂ : C₂} (h : S c₁ c₂) {cid : ContractId} {i : Nat}
    {b₁ b₂ : OperationSeals Seal} (hb : Alike A cid i b₁ b₂) :
    List.Forall₂ (CallAlike A V) (queries cid c₁ i b₁) (queries cid c₂ i b₂) := by
  unfold queries
  rw [hS.isKnown _ _ h, hb.id]
  split
  · exact .cons (.same _ rfl) .nil
  · exact .cons (.same _ rfl) (.cons (.same _ rfl) (.cons (.same _ rfl) (.cons (.same _ rfl) (.cons (.codexVerify hb.operation) .nil))))

theorem alike_perform (hS : DataBlind (Seal := Seal) A V S) {c₁ : C₁} {c₂ : C₂} (h : S c₁ c₂) {l₁ l₂ : List (Call Seal)}
    (hl : List.Forall₂ (CallAlike A V) l₁ l₂) : S (l₁.foldl perform c₁) (l₂.foldl perform c₂) := by
  induction hl generalizing c₁ c₂ with
  | nil => exact h
  | @cons x y _ _ hx _ ih =>
    refine ih ?_
    cases hx with
    | same _ hx =>
      cases x <;> first | exact h | skip
      · exact hS.witness _ _ h _ _
      · simp [appliedOperation] at hx
      · exact hS.seals _ _ h _ _
    | applyOperation hv => exact hS.operation _ _ h _ _ hv
    | codexVerify _ => exact h

theorem alike_contractAt (hS : DataBlind (Seal := Seal) A V S) {c₁ : C₁} {c₂ : C₂} (h : S c₁ c₂) {cid : ContractId}
    {xs ys : List (OperationSeals Seal)} (hx : AlikeBlocks A cid xs ys) (n : Nat) :
    S (contractAt cid c₁ xs n) (contractAt cid c₂ ys n) := by
  induction n with
  | zero => exact h
  | succ n ih =>
    simp only [contractAt]
    cases hb : xs[n]? with
    | none =>
      have : ys[n]? = none := by rw [List.getElem?_eq_none_iff] at hb ⊢; rw [← hx.1]; exact hb
      rw [this]
      exact ih
    | some b =>
      obtain ⟨b', hb', hab⟩ := hx.get hb
      rw [hb']
      exact alike_perform hS ih (alike_callbacks hS ih hab)

theorem alike_committed {cid : ContractId} {i : Nat} {b₁ b₂ : OperationSeals Seal} (hb : Alike A cid i b₁ b₂)
    (h : SealsCommitted b₁) : SealsCommitted b₂ := by
  intro p d hd
  rw [← hb.seals] at hd
  exact (hb.tokens _).1 (h p d hd)

theorem alike_validBlock (hS : DataBlind (Seal := Seal) A V S) {c₁ : C₁} {c₂ : C₂} (h : S c₁ c₂)
    {xs ys : List (OperationSeals Seal)} (hx : AlikeBlocks A (ContractApi.contractId Seal c₁) xs ys) {i : Nat}
    {b b' : OperationSeals Seal} (hb : Alike A (ContractApi.contractId Seal c₁) i b b') (vb : ValidBlock c₁ xs i b) :
    ValidBlock c₂ ys i b' := by
  have hc := alike_contractAt hS h hx i
  have hid := hS.contractId _ _ h
  refine ⟨?_, alike_committed hb vb.committed, by rw [← hb.inputs]; exact vb.distinct, ?_, ?_⟩
  · intro h0
    rw [← hb.codex h0, ← hS.codexId _ _ h]
    exact vb.codex h0
  · obtain ⟨seals, h1, h2, h3⟩ := vb.closed
    refine ⟨seals, ?_, ?_, ?_⟩
    · rw [← hid]; exact (alike_inputs hx hb).1 h1
    · rw [← hid, ← hb.id, ← hb.witness]; exact h2
    · rw [← hb.witness]; exact h3
  · rw [← hid, ← hb.id, ← hS.isKnown _ _ hc]
    intro hk
    obtain ⟨v, hv⟩ := vb.script hk
    rcases hS.verify _ _ hc (ContractApi.contractId Seal c₁) _ _ hb.operation with ⟨e, h1, _⟩ | ⟨_, v₂, _, h2, _⟩
    · rw [h1] at hv; simp at hv
    · exact ⟨v₂, h2⟩

theorem alike_valid (hS : DataBlind (Seal := Seal) A V S) {c₁ : C₁} {c₂ : C₂} (h : S c₁ c₂)
    {xs ys : List (OperationSeals Seal)} (hx : AlikeBlocks A (ContractApi.contractId Seal c₁) xs ys)
    (hv : ValidConsignment c₁ xs) : ValidConsignment c₂ ys := by
  intro i b' hb'
  obtain ⟨b, hb, hab⟩ := hx.symm.get hb'
  exact alike_validBlock hS h hx (hx.2 i b b' hb hb') (hv i b hb)

theorem alike_segments (hS : DataBlind (Seal := Seal) A V S) {c₁ : C₁} {c₂ : C₂} (h : S c₁ c₂)
    {xs ys : List (OperationSeals Seal)} (hx : AlikeBlocks A (ContractApi.contractId Seal c₁) xs ys) {s₁ s₂}
    (h₁ : Segments c₁ xs s₁) (h₂ : Segments c₂ ys s₂) : List.Forall₂ (CallAlike A V) s₁.flatten s₂.flatten := by
  refine List.rel_flatten ?_
  rw [List.forall₂_iff_get]
  refine ⟨by rw [h₁.1, h₂.1, hx.1], ?_⟩
  intro i hi hi'
  have hi1 : i < xs.length := h₁.1 ▸ hi
  have hi2 : i < ys.length := h₂.1 ▸ hi'
  have hab := hx.2 i xs[i] ys[i] (by simp) (by simp)
  have hc := alike_contractAt hS h hx i
  have hid := hS.contractId _ _ h
  obtain ⟨q₁, k1, k2⟩ := h₁.2 i xs[i] s₁[i] (by simp) (by simp)
  obtain ⟨q₂, k3, k4⟩ := h₂.2 i ys[i] s₂[i] (by simp) (by simp)
  rw [← hid] at k3 k4
  obtain rfl : q₂ = q₁ := sealed_unique ((alike_inputs hx hab).1 k1) k3
  simp only [List.get_eq_getElem]
  rw [k2, k4]
  refine .cons (.same _ rfl) (List.rel_append (List.rel_append (alike_queries hS hc hab) ?_) (alike_callbacks hS hc hab))
  unfold sealQueries
  rw [hab.witness, hab.id]
  split
  · exact .cons (.same _ rfl) .nil
  · exact .nil

theorem alike_rejection (hS : DataBlind (Seal := Seal) A V S) {c₁ : C₁} {c₂ : C₂} (h : S c₁ c₂)
    {xs ys : List (OperationSeals Seal)} (hx : AlikeBlocks A (ContractApi.contractId Seal c₁) xs ys)
    {b b' : OperationSeals Seal} (hb : Alike A (ContractApi.contractId Seal c₁) xs.length b b') {E : Type}
    {e : VerificationError Seal E} {l} (hr : Rejection c₁ xs b e l) :
    ∃ l', Rejection c₂ ys b' e l' ∧ List.Forall₂ (CallAlike A V) l l' := by
  have hc := alike_contractAt hS h hx xs.length
  have hid := hS.contractId _ _ h
  have hnil : ys = [] → xs = [] := fun hy => List.eq_nil_of_length_eq_zero (by rw [hx.1, hy]; rfl)
  have hnil' : xs = [] → ys = [] := fun hy => List.eq_nil_of_length_eq_zero (by rw [← hx.1, hy]; rfl)
  have hcx : CommitsToCodex c₁ xs b → CommitsToCodex c₂ ys b' := by
    intro h1 hy
    have := h1 (hnil hy)
    rw [← hS.codexId _ _ h, ← hb.codex (by rw [hnil hy]; rfl)]
    exact this
  have hin : ∀ {s}, InputsSealed c₁ xs b s → InputsSealed c₂ ys b' s := by
    intro s h1
    refine ⟨by rw [← hb.inputs]; exact h1.1, ?_⟩
    rw [← hid, ← hx.1]
    exact (alike_inputs hx hb).1 h1.2
  have hsp : ScriptPasses c₁ xs b → ScriptPasses c₂ ys b' := by
    intro h1
    unfold ScriptPasses nextId at h1 ⊢
    simp only [← hid, ← hx.1, ← hb.id]
    rcases h1 with h1 | ⟨v, h1⟩
    · left; rw [← hS.isKnown _ _ hc]; exact h1
    · right
      rcases hS.verify _ _ hc (ContractApi.contractId Seal c₁) _ _ hb.operation with ⟨e, h2, _⟩ | ⟨_, v₂, _, h2, _⟩
      · rw [h2] at h1; simp at h1
      · exact ⟨v₂, h2⟩
  have hnx : nextId c₁ xs b = nextId c₂ ys b' := by unfold nextId; rw [← hid, ← hx.1, hb.id]
  have hqs : List.Forall₂ (CallAlike A V)
      (queries (ContractApi.contractId Seal c₁) (contractAt (ContractApi.contractId Seal c₁) c₁ xs xs.length) xs.length b)
      (queries (ContractApi.contractId Seal c₂) (contractAt (ContractApi.contractId Seal c₂) c₂ ys ys.length) ys.length b') := by
    rw [← hid, ← hx.1]
    exact alike_queries hS hc hb
  cases hr with
  | codex h1 h2 =>
    exact ⟨[], .codex (hnil' h1) (by rw [← hS.codexId _ _ h, ← hb.codex (by rw [h1]; rfl)]; exact h2), .nil⟩
  | mismatch h1 h2 h3 h4 h5 =>
    rw [hnx]
    refine ⟨[], .mismatch (hcx h1) ?_ ?_ ?_ ?_, .nil⟩
    · obtain ⟨p, d, hd, hn⟩ := h2
      refine ⟨p, d, hb.seals ▸ hd, fun cell hm he => ?_⟩
      obtain ⟨x, hx, e⟩ := (hb.tokens _).2 ⟨cell, hm, he⟩
      exact hn x hx e
    · rw [← hb.seals]; exact h3
    · intro t
      rw [h4]
      have := hb.tokens t
      simpa only [eq_comm] using this
    · rw [← hb.seals]; exact h5
  | @unknown pre post inp h1 h2 h3 h4 h5 h6 =>
    have hm := hb.inputs
    rw [h3, List.map_append, List.map_cons] at hm
    obtain ⟨pre', rest, e1, e2, e3⟩ := List.map_eq_append_iff.1 hm.symm
    obtain ⟨inp', post', rfl, e4, e5⟩ := List.map_eq_cons_iff.1 e3
    rw [← e4]
    refine ⟨[], .unknown (hcx h1) (alike_committed hb h2) e1 (e2 ▸ h4) ?_ ?_, .nil⟩
    · intro i' hi'
      have : i'.addr ∈ pre.map (·.addr) := by rw [← e2]; exact List.mem_map.2 ⟨i', hi', rfl⟩
      obtain ⟨i, hi, e⟩ := List.mem_map.1 this
      obtain ⟨s, hs⟩ := h5 i hi
      rw [← hid, ← hx.1, ← e]
      exact ⟨s, (alike_openAt hx).1 hs⟩
    · rw [e4, e2, ← hid, ← hx.1]
      exact h6.imp (fun h6 s hs => h6 s ((alike_openAt hx).2 hs)) fun h => h
  | script h1 h2 h3 h4 h5 =>
    refine ⟨_, .script (hcx h1) (alike_committed hb h2) (hin h3) ?_ ?_, hqs⟩
    · rw [← hid, ← hx.1, ← hS.isKnown _ _ hc, ← hnx]; exact h4
    · rw [← hid, ← hx.1]
      rcases hS.verify _ _ hc (ContractApi.contractId Seal c₁) _ _ hb.operation with ⟨e, k1, k2⟩ | ⟨v₁, _, k1, _⟩
      · rw [k2, ← h5, k1]
      · rw [h5] at k1; simp at k1
  | notClosed h1 h2 h3 h4 h5 h6 =>
    rw [hnx]
    refine ⟨_, .notClosed (hcx h1) (alike_committed hb h2) (hin h3) (hsp h4) (hb.witness ▸ h5) (by rw [← hnx]; exact h6),
      List.rel_append hqs (.cons (.same _ rfl) .nil)⟩
  | noWitness h1 h2 h3 h4 h5 h6 =>
    rw [hnx]
    refine ⟨_, .noWitness (hcx h1) (alike_committed hb h2) (hin h3) (hsp h4) (hb.witness ▸ h5) ?_, hqs⟩
    intro hn
    have := hb.inputs
    rw [hn] at this
    exact h6 (List.map_eq_nil_iff.1 this)

theorem alike_reads {cid : ContractId} {r₁ r₂ : R} (h : ∀ n, ReadAlike A cid n (readAt Seal r₁ n) (readAt Seal r₂ n))
    {xs : List (OperationSeals Seal)} {r₁' : R} (hr : Reads r₁ xs r₁') :
    ∃ ys r₂', Reads r₂ ys r₂' ∧ AlikeBlocks A cid xs ys := by
  induction hxs : xs.length generalizing xs r₁' with
  | zero =>
    obtain rfl := List.eq_nil_of_length_eq_zero hxs
    exact ⟨[], r₂, .nil _, rfl, by simp⟩
  | succ n ih =>
    obtain ⟨xs, b, rfl⟩ : ∃ ys b, xs = ys ++ [b] := by
      rcases List.eq_nil_or_concat xs with rfl | ⟨ys, b, rfl⟩
      · simp at hxs
      · exact ⟨ys, b, by simp⟩
    have hn : xs.length = n := by simpa using hxs
    obtain ⟨r₁'', k1, k2⟩ := hr.split
    obtain ⟨ys, r₂', k3, k4, k5⟩ := ih k1 hn
    have e1 : readAt Seal r₁ n = .ok (some b) := hr.readAt.1 n b (by simp [hn])
    have e2 := h n
    rw [e1] at e2
    have e3 : readAt Seal r₂ n = readAt Seal r₂' 0 := by
      have := k3.readAt.2.2 0
      rw [← k4, hn] at this
      exact this
    rw [e3] at e2
    generalize hq : ReadOperation.readOperation (Seal := Seal) r₂' = q at e2
    simp only [readAt, hq] at e2
    obtain ⟨q1, q2⟩ := q
    generalize hz : Except.ok (ε := ReadOperation.Error Seal R) (some b) = z at e2
    cases e2 with
    | eof => simp at hz
    | error => simp at hz
    | @block b₁ b₂ hb =>
      simp only [Except.ok.injEq, Option.some.injEq] at hz
      subst hz
      refine ⟨ys ++ [b₂], q2, k3.append (.cons hq (.nil _)), by simp [k4], ?_⟩
      intro i x x' hx hx'
      by_cases hi : i < n
      · rw [List.getElem?_append_left (by omega)] at hx
        rw [List.getElem?_append_left (by omega)] at hx'
        exact k5 i x x' hx hx'
      · have hl := lt_length_of_getElem? hx
        simp only [List.length_append, List.length_cons, List.length_nil] at hl
        obtain rfl : i = n := by omega
        rw [List.getElem?_append_right (by omega)] at hx hx'
        simp only [hn, ← k4, Nat.sub_self, List.getElem?_cons_zero, Option.some.injEq] at hx hx'
        subst hx hx'
        exact hb

theorem alike_run (hS : DataBlind (Seal := Seal) A V S) {c₁ : C₁} {c₂ : C₂} (h : S c₁ c₂) {r₁ r₂ : R}
    (hr : ∀ n, ReadAlike A (ContractApi.contractId Seal c₁) n (readAt Seal r₁ n) (readAt Seal r₂ n)) {o₁}
    (h₁ : evaluate (Seal := Seal) c₁ r₁ = some o₁) :
    ∃ o₂, evaluate (Seal := Seal) c₂ r₂ = some o₂ ∧ o₁.result = o₂.result ∧ S o₁.world.contract o₂.world.contract ∧
      List.Forall₂ (CallAlike A V) o₁.world.calls o₂.world.calls := by
  obtain ⟨xs, hs⟩ := run_shape h₁
  obtain ⟨segs, tail, k1, k2, k3⟩ := hs.stop
  -- what the second reader does after as many reads
  have next : ∀ {r₁' : R}, Reads r₁ xs r₁' → ∃ ys r₂', Reads r₂ ys r₂' ∧ AlikeBlocks A (ContractApi.contractId Seal c₁) xs ys ∧
      ReadAlike A (ContractApi.contractId Seal c₁) xs.length (ReadOperation.readOperation (Seal := Seal) r₁').1
        (ReadOperation.readOperation (Seal := Seal) r₂').1 := by
    intro r₁' hrd
    obtain ⟨ys, r₂', e1, e2⟩ := alike_reads hr hrd
    refine ⟨ys, r₂', e1, e2, ?_⟩
    have := hr xs.length
    rw [show xs.length = xs.length + 0 from rfl, hrd.readAt.2.2 0] at this
    rw [show xs.length + 0 = ys.length + 0 by rw [e2.1], e1.readAt.2.2 0] at this
    rw [e2.1]
    exact this
  have fin : ∀ {ys : List (OperationSeals Seal)} {o₂} {tail'}, AlikeBlocks A (ContractApi.contractId Seal c₁) xs ys →
      RunShape c₂ r₂ ys o₂ → (∃ segs', Segments c₂ ys segs' ∧
        o₂.world.calls = [.contractId, .codex] ++ segs'.flatten ++ .read :: tail') →
      List.Forall₂ (CallAlike A V) tail tail' →
      S o₁.world.contract o₂.world.contract ∧ List.Forall₂ (CallAlike A V) o₁.world.calls o₂.world.calls := by
    intro ys o₂ tail' hx hsh ⟨segs', m1, m2⟩ ht
    refine ⟨?_, ?_⟩
    · rw [hs.contract, hsh.contract, ← hS.contractId _ _ h, ← hx.1]
      exact alike_contractAt hS h hx _
    · rw [k2, m2]
      exact List.rel_append (List.rel_append (.cons (.same _ rfl) (.cons (.same _ rfl) .nil)) (alike_segments hS h hx k1 m1))
        (.cons (.same _ rfl) ht)
  rcases k3 with ⟨k3, rfl, r₁', k4, k5⟩ | ⟨e, k3, rfl, r₁', k4, k5⟩ | ⟨b, e, k3, k4, k5⟩
  · obtain ⟨ys, r₂', e1, e2, e3⟩ := next k4
    rw [k5] at e3
    generalize hq : ReadOperation.readOperation (Seal := Seal) r₂' = q at e3
    obtain ⟨q1, q2⟩ := q
    cases e3 with
    | eof =>
      obtain ⟨o₂, m1, m2, m3⟩ := evaluate_of_delivers (c := c₂) ⟨r₂', q2, e1, hq⟩ (alike_valid hS h e2 hs.valid)
      have hA : Accepted c₂ r₂ ys o₂ := ⟨m1, m2, r₂', q2, e1, hq⟩
      refine ⟨o₂, m1, k3.trans m2.symm, fin e2 m3 ?_ .nil⟩
      obtain ⟨segs', t1, t2⟩ := hA.trace
      exact ⟨segs', t1, t2⟩
  · obtain ⟨ys, r₂', e1, e2, e3⟩ := next k4
    rw [k5] at e3
    generalize hq : ReadOperation.readOperation (Seal := Seal) r₂' = q at e3
    obtain ⟨q1, q2⟩ := q
    cases e3 with
    | error =>
      obtain ⟨o₂, m1, m2, m3⟩ := evaluate_of_fails (c := c₂) ⟨r₂', q2, e1, hq⟩ (alike_valid hS h e2 hs.valid)
      refine ⟨o₂, m1, k3.trans m2.symm, fin e2 m3 ?_ .nil⟩
      obtain ⟨segs', tail', t1, t2, t3⟩ := m3.stop
      rcases t3 with ⟨t3, _⟩ | ⟨_, _, rfl, _⟩ | ⟨b, e', t3, _, t4⟩
      · rw [t3] at m2; simp at m2
      · exact ⟨segs', t1, t2⟩
      · rw [t3] at m2
        simp only [Except.error.injEq] at m2
        subst m2
        cases t4
  · obtain ⟨r₁', k6, k7⟩ := k4.split
    obtain ⟨ys, r₂', e1, e2, e3⟩ := next k6
    cases k7 with
    | cons k7 _ =>
    rw [k7] at e3
    generalize hq : ReadOperation.readOperation (Seal := Seal) r₂' = q at e3
    obtain ⟨q1, q2⟩ := q
    cases e3 with
    | @block _ b' hb =>
      obtain ⟨l', n1, n2⟩ := alike_rejection hS h e2 hb k5
      have hrd : Reads r₂ (ys ++ [b']) q2 := e1.append (.cons hq (.nil _))
      obtain ⟨o₂, m1, m2, m3, m4⟩ := evaluate_of_rejection (c := c₂) ⟨q2, hrd⟩ (alike_valid hS h e2 hs.valid) n1
      refine ⟨o₂, m1, k3.trans m2.symm, fin e2 m4 ?_ n2⟩
      obtain ⟨segs', tail', t1, t2, t3⟩ := m4.stop
      rcases t3 with ⟨t3, _⟩ | ⟨e', t3, _⟩ | ⟨b'', e'', t3, t4, t5⟩
      · rw [t3] at m2; simp at m2
      · rw [t3] at m2
        simp only [Except.error.injEq] at m2
        subst m2
        cases n1
      · have hl := t4.det m3
        have : ys ++ [b''] = ys ++ [b'] := by
          rcases hl with ⟨zs, hz, _⟩ | ⟨zs, hz, _⟩
          · have := congrArg List.length hz
            simp at this
            simp [this] at hz
            simp [hz]
          · have := congrArg List.length hz
            simp at this
            simp [this] at hz
            simp [hz]
        obtain rfl : b'' = b' := by simpa using this
        obtain ⟨_, rfl⟩ := t5.unique (alike_valid hS h e2 hs.valid) n1
        exact ⟨segs', t1, t2⟩

/-- **C66.**  `evaluate` looks at nothing of an operation but its id, for the first one its codex
commitment, the addresses of its inputs, the tokens of its outputs and the answer of the codex: two
readers and contracts that agree in these get the same result and the same calls, in the same order, up
to the operations named in them, and the contracts stay related; and one evaluation terminates exactly
if the other does. -/
theorem C66_data_independence (hS : DataBlind (Seal := Seal) A V S) {c₁ : C₁} {c₂ : C₂} (h : S c₁ c₂) {r₁ r₂ : R}
    (hr : ∀ n, ReadAlike A (ContractApi.contractId Seal c₁) n (readAt Seal r₁ n) (readAt Seal r₂ n)) :
    Option.Rel (fun (o₁ : Outcome Seal R C₁ (ReadOperation.Error Seal R)) (o₂ : Outcome Seal R C₂ (ReadOperation.Error Seal R)) =>
      o₁.result = o₂.result ∧ S o₁.world.contract o₂.world.contract ∧
      List.Forall₂ (CallAlike A V) o₁.world.calls o₂.world.calls) (evaluate c₁ r₁) (evaluate c₂ r₂) := by
  cases h₁ : evaluate (Seal := Seal) c₁ r₁ with
  | none =>
    cases h₂ : evaluate (Seal := Seal) c₂ r₂ with
    | none => exact .none
    | some o₂ =>
      have hr' : ∀ n, ReadAlike (fun x y => A y x) (ContractApi.contractId Seal c₂) n (readAt Seal r₂ n) (readAt Seal r₁ n) := by
        intro n
        rw [← hS.contractId _ _ h]
        have := hr n
        revert this
        generalize readAt Seal r₁ n = x
        generalize readAt Seal r₂ n = y
        intro h
        cases h with
        | eof => exact .eof
        | error => exact .error _
        | block hb => exact .block hb.symm
      obtain ⟨o₁, k, _⟩ := alike_run hS.symm h hr' h₂
      rw [h₁] at k
      simp at k
  | some o₁ =>
    obtain ⟨o₂, k, hk⟩ := alike_run hS h hr h₁
    rw [k]
    exact .some hk

end

namespace Demo
/-- The same operation with other data in it and its outputs in another order. -/
def dressed (b : Block) : Block := { b with operation := { b.operation with
  version := 5
  witness := ⟨[1, 2]⟩
  immutableOut := [⟨⟨[3]⟩, none⟩]
  immutableIn := [at_ 1 1]
  destructibleOut := b.operation.destructibleOut.reverse } }

/-- Operations with the same id, call and inputs. -/
def sameCall (x y : Operation) : Prop := opid x = opid y ∧ x.callId = y.callId

def sameVerified (x y : VerifiedOperation) : Prop := x.opid = y.opid

theorem thin_blind : DataBlind (Seal := Nat) sameCall sameVerified (fun s t : Thin => s = t) where
  contractId _ _ _ := rfl
  codexId _ _ _ := rfl
  isKnown := by rintro c _ rfl _; rfl
  verify := by
    rintro c _ rfl cid x y ⟨h1, h2⟩
    simp only [codexAnswer, ContractApi.codex, h2]
    split
    · exact .inl ⟨_, rfl, rfl⟩
    · exact .inr ⟨_, _, rfl, rfl, h1⟩
  operation := by
    rintro c _ rfl v₁ v₂ h
    have h : v₁.opid = v₂.opid := h
    simp [ContractApi.applyOperation, h]
  witness := by rintro c _ rfl _ _; rfl
  seals := by rintro c _ rfl _ _; rfl

theorem dressed_alike (i : Nat) (b : Block) : Alike (Seal := Nat) sameCall ⟨9⟩ i b (dressed b) := by
  have hid : idAt ⟨9⟩ i b = idAt ⟨9⟩ i (dressed b) := by
    unfold idAt opAt
    split <;> rfl
  refine ⟨⟨hid, ?_⟩, hid, fun _ => rfl, rfl, ?_, rfl, rfl⟩
  · unfold opAt; split <;> rfl
  · intro t; simp [dressed]
end Demo

open Demo in
example : DataBlind (Seal := Nat) sameCall sameVerified (fun s t : Thin => s = t) ∧
    (∀ n, ReadAlike (Seal := Nat) sameCall ⟨9⟩ n (readAt Nat (Tape.mk story none) n)
      (readAt Nat (Tape.mk (story.map dressed) none) n)) ∧
    (∃ o, evaluate (Seal := Nat) (Thin.mk fun o => o == ⟨100⟩) (Tape.mk story none) = some o) ∧
    story.map dressed ≠ story := by
  refine ⟨thin_blind, ?_, ?_, ?_⟩
  · intro n
    rw [tape_readAt, tape_readAt, List.getElem?_map]
    cases story[n]? with
    | none => exact .eof
    | some b => exact .block (dressed_alike n b)
  · have hv : ValidConsignment (Thin.mk fun o => o == ⟨100⟩) story := valid_of_runBlocks (by decide +kernel)
    obtain ⟨o, h1, _⟩ := evaluate_of_delivers (tape_delivers story) hv
    exact ⟨o, h1⟩
  · intro h
    have := congrArg (List.map fun b : Block => b.operation.version) h
    exact absurd this (by decide +kernel)

end Rgb
