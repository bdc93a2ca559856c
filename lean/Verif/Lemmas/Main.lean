import Verif.Lemmas.Loop

set_option linter.unusedSectionVars false

/-! The results about `evaluate` from which the property theorems follow. -/

namespace Rgb
open Spec

variable {Seal : Type} [LinearOrder Seal] [RgbSeal Seal] [OpHash]
variable {C E : Type} [ContractApi Seal C]
variable {R : Type} [ReadOperation Seal R]

/-! ### dependence on the prefix only -/

theorem openAt_congr {cid : ContractId} {blocks blocks' : List (OperationSeals Seal)} {i : Nat}
    (h : ∀ k < i, blocks[k]? = blocks'[k]?) {a : CellAddr} {s : Seal} :
    OpenAt cid blocks i a s ↔ OpenAt cid blocks' i a s := by
  constructor
  · rintro ⟨j, b, hj, hb, han, hno⟩
    exact ⟨j, b, hj, h j hj ▸ hb, han, fun k b' h1 h2 h3 => hno k b' h1 h2 (h k h2 ▸ h3)⟩
  · rintro ⟨j, b, hj, hb, han, hno⟩
    exact ⟨j, b, hj, h j hj ▸ hb, han, fun k b' h1 h2 h3 => hno k b' h1 h2 (h k h2 ▸ h3)⟩

theorem contractAt_congr {cid : ContractId} {c : C} {blocks blocks' : List (OperationSeals Seal)} {i : Nat}
    (h : ∀ k < i, blocks[k]? = blocks'[k]?) : contractAt cid c blocks i = contractAt cid c blocks' i := by
  induction i with
  | zero => rfl
  | succ i ih =>
    simp only [contractAt]
    rw [h i (by omega), ih (fun k hk => h k (by omega))]

theorem callbacksUpTo_congr {cid : ContractId} {c : C} {blocks blocks' : List (OperationSeals Seal)} {i : Nat}
    (h : ∀ k < i, blocks[k]? = blocks'[k]?) : callbacksUpTo cid c blocks i = callbacksUpTo cid c blocks' i := by
  induction i with
  | zero => rfl
  | succ i ih =>
    simp only [callbacksUpTo]
    rw [h i (by omega), ih (fun k hk => h k (by omega)), contractAt_congr (fun k hk => h k (by omega))]

theorem validBlock_congr {c : C} {blocks blocks' : List (OperationSeals Seal)} {i : Nat} {b : OperationSeals Seal}
    (h : ∀ k < i, blocks[k]? = blocks'[k]?) (hv : ValidBlock c blocks i b) : ValidBlock c blocks' i b := by
  refine ⟨hv.codex, hv.committed, hv.distinct, ?_, ?_⟩
  · obtain ⟨seals, h1, h2⟩ := hv.closed
    exact ⟨seals, h1.imp fun _ _ ho => (openAt_congr h).1 ho, h2⟩
  · have := hv.script
    rw [contractAt_congr h] at this
    exact this

theorem getElem?_append_lt {α : Type} {xs ys : List α} {n : Nat} (hn : n ≤ xs.length) :
    ∀ k < n, xs[k]? = (xs ++ ys)[k]? := by
  intro k hk
  rw [List.getElem?_append_left (by omega)]

theorem contractAt_append {cid : ContractId} {c : C} {xs ys : List (OperationSeals Seal)} :
    contractAt cid c (xs ++ ys) xs.length = contractAt cid c xs xs.length :=
  contractAt_congr fun k hk => (getElem?_append_lt (Nat.le_refl _) k hk).symm

theorem lt_length_of_getElem? {α : Type} {xs : List α} {i : Nat} {x : α} (h : xs[i]? = some x) : i < xs.length := by
  by_contra hc
  rw [List.getElem?_eq_none (by omega)] at h
  simp at h

theorem Spec.ValidConsignment.prefix {c : C} {xs ys : List (OperationSeals Seal)} (h : ValidConsignment c (xs ++ ys)) :
    ValidConsignment c xs := by
  intro i b hb
  have hi := lt_length_of_getElem? hb
  refine validBlock_congr (fun k hk => (getElem?_append_lt (Nat.le_of_lt hi) k hk).symm) (h i b ?_)
  rw [List.getElem?_append_left hi]; exact hb

theorem validConsignment_snoc {c : C} {xs : List (OperationSeals Seal)} {b : OperationSeals Seal} :
    ValidConsignment c (xs ++ [b]) ↔ ValidConsignment c xs ∧ ValidBlock c xs xs.length b := by
  constructor
  · intro h
    refine ⟨h.prefix, ?_⟩
    refine validBlock_congr (fun k hk => (getElem?_append_lt (Nat.le_refl _) k hk).symm) (h xs.length b ?_)
    simp
  · rintro ⟨h1, h2⟩ i b' hb'
    by_cases hi : i < xs.length
    · rw [List.getElem?_append_left hi] at hb'
      exact validBlock_congr (fun k hk => getElem?_append_lt (Nat.le_of_lt hi) k hk) (h1 i b' hb')
    · have hl := lt_length_of_getElem? hb'
      simp only [List.length_append, List.length_cons, List.length_nil, Nat.zero_add] at hl
      have e : i = xs.length := by omega
      subst e
      simp only [List.getElem?_concat_length, Option.some.injEq] at hb'
      subst hb'
      exact validBlock_congr (fun k hk => getElem?_append_lt (Nat.le_refl _) k hk) h2

theorem validConsignment_nil {c : C} : ValidConsignment (Seal := Seal) c [] := by
  intro i b hb; simp at hb

/-! ### rejected blocks -/

theorem closeAll_error_of {seals : OMap CellAddr Seal} {pre post : List Input} {inp : Input}
    (h1 : (pre.map (·.addr)).Nodup) (h2 : ∀ i ∈ pre, ∃ s, seals.get? i.addr = some s)
    (h3 : seals.get? inp.addr = none ∨ inp.addr ∈ pre.map (·.addr)) :
    closeAll seals (pre ++ inp :: post) = .error inp.addr := by
  induction pre generalizing seals with
  | nil =>
    simp only [List.map_nil, List.not_mem_nil, or_false] at h3
    simp [closeAll, h3]
  | cons x t ih =>
    simp only [List.map_cons, List.nodup_cons] at h1
    obtain ⟨s, hs⟩ := h2 x (by simp)
    have := ih (seals := (seals.remove x.addr).2) h1.2 (by
      intro i hi
      obtain ⟨s', hs'⟩ := h2 i (by simp [hi])
      refine ⟨s', ?_⟩
      rw [OMap.get?_remove, if_neg]
      · exact hs'
      · intro he; exact h1.1 (List.mem_map.2 ⟨i, hi, he⟩)) (by
      rw [OMap.get?_remove]
      rcases h3 with h3 | h3
      · left; split
        · rfl
        · exact h3
      · simp only [List.map_cons, List.mem_cons] at h3
        rcases h3 with h3 | h3
        · left; rw [if_pos h3]
        · right; exact h3)
    simp [closeAll, hs, this]

theorem OSet.ext_mem {K : Type} [LinearOrder K] {s t : OSet K} (h : ∀ x, x ∈ s.elems ↔ x ∈ t.elems) : s = t := by
  apply OSet.ext
  have hs := s.sorted
  have ht := t.sorted
  generalize s.elems = l at *
  generalize t.elems = m at *
  induction l generalizing m with
  | nil =>
    cases m with
    | nil => rfl
    | cons y m => have := (h y).2 (by simp); simp at this
  | cons x l ih =>
    cases m with
    | nil => have := (h x).1 (by simp); simp at this
    | cons y m =>
      rw [List.pairwise_cons] at hs ht
      have hxy : x = y := by
        have h1 := (h x).1 (by simp)
        have h2 := (h y).2 (by simp)
        rcases List.mem_cons.1 h1 with e | h1
        · exact e
        rcases List.mem_cons.1 h2 with e | h2
        · exact e.symm
        exact absurd (lt_trans (hs.1 y h2) (ht.1 x h1)) (lt_irrefl _)
      subst hxy
      congr 1
      refine ih hs.2 _ ht.2 ?_
      intro z
      constructor
      · intro hz
        rcases List.mem_cons.1 ((h z).1 (by simp [hz])) with e | h'
        · subst e; exact absurd (hs.1 z hz) (lt_irrefl _)
        · exact h'
      · intro hz
        rcases List.mem_cons.1 ((h z).2 (by simp [hz])) with e | h'
        · subst e; exact absurd (ht.1 z hz) (lt_irrefl _)
        · exact h'

theorem mem_reportedSet {b : OperationSeals Seal} {t : AuthToken} :
    t ∈ (reportedSet b).elems ↔ ∃ p d, (p, d) ∈ b.definedSeals.entries ∧ t = RgbSeal.authToken d := by
  simp only [reportedSet, OSet.mem_collect, OMap.values, List.map_map, List.mem_map, Function.comp_apply, Prod.exists]
  constructor
  · rintro ⟨p, d, h, e⟩; exact ⟨p, d, h, e.symm⟩
  · rintro ⟨p, d, h, e⟩; exact ⟨p, d, h, e.symm⟩

theorem mem_definedSet {b : OperationSeals Seal} {t : AuthToken} :
    t ∈ (definedSet b).elems ↔ ∃ cell ∈ b.operation.destructibleOut, t = cell.auth := by
  simp only [definedSet, OSet.mem_collect, List.mem_map]
  constructor
  · rintro ⟨p, h, e⟩; exact ⟨p, h, e.symm⟩
  · rintro ⟨p, h, e⟩; exact ⟨p, h, e.symm⟩

theorem mem_sourcesMap {b : OperationSeals Seal} {p : U16} {s : String} :
    (p, s) ∈ (sourcesMap b).entries ↔ ∃ d, (p, d) ∈ b.definedSeals.entries ∧ s = RgbSeal.display d := by
  rw [← OMap.get?_eq_some, sourcesMap, OMap.collect]
  constructor
  · intro h
    by_cases hm : ∃ d, (p, d) ∈ b.definedSeals.entries
    · obtain ⟨d, hd⟩ := hm
      rw [OMap.get?_extend_of_mem (v := RgbSeal.display d)] at h
      · exact ⟨d, hd, (Option.some.inj h).symm⟩
      · exact List.mem_map.2 ⟨(p, d), hd, rfl⟩
      · intro v' hv'
        obtain ⟨⟨p', d'⟩, hm', e⟩ := List.mem_map.1 hv'
        simp only [Prod.mk.injEq] at e
        obtain ⟨rfl, rfl⟩ := e
        rw [OMap.key_unique hm' hd]
    · rw [OMap.get?_extend_of_not_mem] at h
      · simp at h
      · intro s' hm'
        obtain ⟨⟨p'', d'⟩, hm'', e'⟩ := List.mem_map.1 hm'
        simp only [Prod.mk.injEq] at e'
        obtain ⟨rfl, rfl⟩ := e'
        exact hm ⟨_, hm''⟩
  · rintro ⟨d, hd, rfl⟩
    rw [OMap.get?_extend_of_mem]
    · exact List.mem_map.2 ⟨(p, d), hd, rfl⟩
    · intro v' hv'
      obtain ⟨⟨p', d'⟩, hm', e⟩ := List.mem_map.1 hv'
      simp only [Prod.mk.injEq] at e
      obtain ⟨rfl, rfl⟩ := e
      rw [OMap.key_unique hm' hd]

theorem OMap.ext_mem {K V : Type} [LinearOrder K] {m m' : OMap K V}
    (h : ∀ k v, (k, v) ∈ m.entries ↔ (k, v) ∈ m'.entries) : m = m' := by
  apply OMap.ext_get?
  intro k
  apply Option.ext
  intro v
  rw [OMap.get?_eq_some, OMap.get?_eq_some]
  exact h k v

theorem Inv.effOp_id {c : C} {blocks : List (OperationSeals Seal)} {st : LoopState Seal C}
    (h : Inv c blocks blocks.length st) (b : OperationSeals Seal) :
    opid (Rgb.effOp (ContractApi.contractId Seal c) st.g b) = nextId c blocks b := by
  rw [h.effOp]; rfl

theorem opCalls_eq_queries {cid : ContractId} {c : C} {i : Nat} {b : OperationSeals Seal} :
    opCalls c cid (opAt cid i b) = queries cid c i b := rfl

theorem inputsSealed_iff {c : C} {blocks : List (OperationSeals Seal)} {st : LoopState Seal C}
    (h : Inv c blocks blocks.length st) {b : OperationSeals Seal} {closed : List Seal} :
    (∃ sl, closeAll st.seals b.operation.destructibleIn = .ok (closed, sl)) ↔ InputsSealed c blocks b closed := by
  constructor
  · rintro ⟨sl, hc⟩
    obtain ⟨h1, h2, _⟩ := closeAll_ok hc
    exact ⟨h1, h2.imp fun _ _ hs => (h.seals _ _).1 hs⟩
  · rintro ⟨h1, h2⟩
    exact closeAll_of h1 (h2.imp fun _ _ hs => (h.seals _ _).2 hs)

theorem forall₂_length_nil {α β : Type} {P : α → β → Prop} {l : List α} {m : List β} (h : List.Forall₂ P l m) :
    l = [] ↔ m = [] := by
  cases h <;> simp

theorem Inv.reject {c : C} {blocks : List (OperationSeals Seal)} {st : LoopState Seal C}
    (h : Inv c blocks blocks.length st) {b : OperationSeals Seal} {e : VerificationError Seal E}
    (he : (pureStep (E := E) (ContractApi.contractId Seal c) (ContractApi.codex Seal c).codexId st.g st.seals b
      st.contract).res = .error e) :
    Rejection c blocks b e (pureStep (E := E) (ContractApi.contractId Seal c) (ContractApi.codex Seal c).codexId
      st.g st.seals b st.contract).calls := by
  have hg : st.g = true ↔ blocks = [] := by rw [h.g]; simp
  have hop := Inv.effOp h (ContractApi.contractId Seal c) b
  unfold pureStep at he ⊢
  split
  · rename_i h1
    rw [if_pos h1] at he
    simp only [Except.error.injEq] at he
    subst he
    exact .codex (hg.1 h1.1) h1.2
  rename_i h1
  rw [if_neg h1] at he
  have k1 : CommitsToCodex c blocks b := by
    intro hb
    by_contra hne
    exact h1 ⟨hg.2 hb, hne⟩
  split
  · rename_i h2
    rw [if_pos h2] at he
    simp only [Except.error.injEq] at he
    subst he
    rw [h.effOp_id]
    refine .mismatch k1 ?_ (fun t => mem_reportedSet) (fun t => mem_definedSet) (fun p s => mem_sourcesMap)
    by_contra hno
    have : (reportedSet b).isSubset (definedSet b) = true := by
      rw [isSubset_iff_committed]
      intro p d hm
      by_contra hno'
      exact hno ⟨p, d, hm, fun cell hc he => hno' ⟨cell, hc, he⟩⟩
    rw [this] at h2
    exact absurd h2 (by simp)
  rename_i h2
  rw [if_neg h2] at he
  have k2 : SealsCommitted b := isSubset_iff_committed.1 (by simpa using h2)
  split
  · rename_i a hc
    rw [hc] at he
    simp only [Except.error.injEq] at he
    subst he
    obtain ⟨pre, inp, post, e1, rfl, e3, e4, e5⟩ := closeAll_error hc
    refine .unknown k1 k2 e1 e3 ?_ ?_
    · intro i hi
      obtain ⟨s, hs⟩ := e4 i hi
      exact ⟨s, (h.seals _ _).1 hs⟩
    · refine e5.imp_left ?_
      intro hn s hs
      rw [(h.seals _ _).2 hs] at hn
      simp at hn
  rename_i closed seals' hc
  have k3 : InputsSealed c blocks b closed := (inputsSealed_iff h).1 ⟨_, hc⟩
  rw [hc] at he
  simp only at he ⊢
  rw [h.effOp_id] at he ⊢
  rw [hop, h.contract] at he ⊢
  rw [opCalls_eq_queries]
  have hq : opCheck Seal (contractAt (ContractApi.contractId Seal c) c blocks blocks.length) (ContractApi.contractId Seal c)
      (opAt (ContractApi.contractId Seal c) blocks.length b) =
      if ContractApi.isKnown Seal (contractAt (ContractApi.contractId Seal c) c blocks blocks.length) (nextId c blocks b)
      then .ok none else match codexAnswer Seal (contractAt (ContractApi.contractId Seal c) c blocks blocks.length)
        (ContractApi.contractId Seal c) (opAt (ContractApi.contractId Seal c) blocks.length b) with
        | .error e => .error e
        | .ok v => .ok (some v) := rfl
  split
  · rename_i ce hv
    rw [hv] at he
    simp only [Except.error.injEq] at he
    subst he
    rw [hq] at hv
    split at hv
    · simp at hv
    · rename_i hk
      split at hv
      · rename_i ce' hce
        simp only [Except.error.injEq] at hv
        subst hv
        exact .script k1 k2 k3 (by simpa using hk) hce
      · simp at hv
  rename_i ver hv
  have k4 : ScriptPasses c blocks b := by
    rw [hq] at hv
    split at hv
    · left; assumption
    · split at hv
      · simp at hv
      · rename_i v hv'
        exact .inr ⟨v, hv'⟩
  rw [hv] at he
  simp only at he ⊢
  split
  · rename_i e' hw
    rw [hw] at he
    simp only [Except.error.injEq] at he
    subst he
    unfold witnessCheck at hw
    unfold witnessCalls
    split at hw
    · rename_i w hbw
      simp only
      split at hw
      · rename_i e'' hver
        simp only [Except.error.injEq] at hw
        subst hw
        exact .notClosed k1 k2 k3 k4 hbw hver
      · simp at hw
    · rename_i hbw
      simp only
      split at hw
      · simp at hw
      · rename_i hne
        simp only [Except.error.injEq] at hw
        subst hw
        rw [List.append_nil]
        refine .noWitness k1 k2 k3 k4 hbw ?_
        intro hnil
        exact hne ((forall₂_length_nil k3.2).1 hnil)
  · rename_i hw
    rw [hw] at he
    simp at he

theorem Inv.reject_of {c : C} {blocks : List (OperationSeals Seal)} {st : LoopState Seal C}
    (h : Inv c blocks blocks.length st) {b : OperationSeals Seal} {e : VerificationError Seal E} {l : List (Call Seal)}
    (hr : Rejection c blocks b e l) :
    pureStep (E := E) (ContractApi.contractId Seal c) (ContractApi.codex Seal c).codexId st.g st.seals b st.contract =
      ⟨.error e, l⟩ := by
  have hg : st.g = true ↔ blocks = [] := by rw [h.g]; simp
  have hop := Inv.effOp h (ContractApi.contractId Seal c) b
  have kk1 : CommitsToCodex c blocks b → ¬ (st.g = true ∧ b.operation.contractId.bytes ≠ (ContractApi.codex Seal c).codexId.bytes) := by
    rintro k ⟨h1, h2⟩; exact h2 (k (hg.1 h1))
  have kk2 : SealsCommitted b → ¬ (reportedSet b).isSubset (definedSet b) = false := by
    intro k; rw [isSubset_iff_committed.2 k]; simp
  have kk4 : ScriptPasses c blocks b → ∃ v, opCheck Seal st.contract (ContractApi.contractId Seal c)
      (Rgb.effOp (ContractApi.contractId Seal c) st.g b) = .ok v := by
    intro k
    rw [hop, h.contract]
    unfold opCheck
    rcases k with k | ⟨v, hv⟩
    · exact ⟨none, if_pos k⟩
    · split
      · exact ⟨_, rfl⟩
      · refine ⟨some v, ?_⟩
        change (match codexAnswer Seal _ _ _ with | .error e => _ | .ok v => _) = _
        rw [hv]
  unfold pureStep
  cases hr with
  | codex h1 h2 => rw [if_pos ⟨hg.2 h1, h2⟩]
  | mismatch k1 h2 h3 h4 h5 =>
    rw [if_neg (kk1 k1), if_pos]
    · rw [h.effOp_id]
      congr 4
      · exact OSet.ext_mem fun t => mem_reportedSet.trans (h3 t).symm
      · exact OSet.ext_mem fun t => mem_definedSet.trans (h4 t).symm
      · exact OMap.ext_mem fun p s => mem_sourcesMap.trans (h5 p s).symm
    · by_contra hc
      obtain ⟨p, d, hm, hno⟩ := h2
      obtain ⟨cell, hcell, e⟩ := isSubset_iff_committed.1 (by simpa using hc) p d hm
      exact hno cell hcell e
  | unknown k1 k2 h3 h4 h5 h6 =>
    rw [if_neg (kk1 k1), if_neg (kk2 k2), h3, closeAll_error_of h4]
    · intro i hi
      obtain ⟨s, hs⟩ := h5 i hi
      exact ⟨s, (h.seals _ _).2 hs⟩
    · refine h6.imp_left fun hn => ?_
      apply Option.eq_none_iff_forall_not_mem.2
      intro s hs
      exact hn s ((h.seals _ _).1 hs)
  | @script seals ce k1 k2 k3 h4 h5 =>
    obtain ⟨sl, hsl⟩ := (inputsSealed_iff h).2 k3
    rw [if_neg (kk1 k1), if_neg (kk2 k2), hsl]
    have : opCheck Seal st.contract (ContractApi.contractId Seal c)
      (Rgb.effOp (ContractApi.contractId Seal c) st.g b) = .error ce := by
      rw [hop, h.contract]
      unfold opCheck
      rw [if_neg]
      · change (match codexAnswer Seal _ _ _ with | .error e => _ | .ok v => _) = _
        rw [h5]
      · change ¬ ContractApi.isKnown Seal _ (nextId c blocks b) = true
        rw [h4]; simp
    simp only [this]
    rw [hop, h.contract]; rfl
  | @notClosed seals w se k1 k2 k3 k4 h5 h6 =>
    obtain ⟨sl, hsl⟩ := (inputsSealed_iff h).2 k3
    obtain ⟨v, hv⟩ := kk4 k4
    rw [if_neg (kk1 k1), if_neg (kk2 k2), hsl]
    simp only [hv]
    rw [h.effOp_id]
    have : witnessCheck (E := E) (nextId c blocks b) b seals =
        .error (.sealsNotClosed (RgbSeal.pubId w.published) (nextId c blocks b) se) := by
      unfold witnessCheck
      simp only [h5]
      change (match RgbSeal.verifySealsClosing _ _ _ (message Seal _) with | .error e => _ | .ok () => _) = _
      rw [h6]
    simp only [this, witnessCalls, h5]
    rw [hop, h.contract]; rfl
  | @noWitness seals k1 k2 k3 k4 h5 h6 =>
    obtain ⟨sl, hsl⟩ := (inputsSealed_iff h).2 k3
    obtain ⟨v, hv⟩ := kk4 k4
    rw [if_neg (kk1 k1), if_neg (kk2 k2), hsl]
    simp only [hv]
    rw [h.effOp_id]
    have : witnessCheck (E := E) (nextId c blocks b) b seals = .error (.noWitness (nextId c blocks b)) := by
      unfold witnessCheck
      simp only [h5]
      rw [if_neg]
      intro hn
      exact h6 ((forall₂_length_nil k3.2).2 hn)
    simp only [this, witnessCalls, h5, List.append_nil]
    rw [hop, h.contract]; rfl

/-! ### complete description of runs -/

/-- The segments of a trace are those due for the blocks. -/
def Segments (c : C) (blocks : List (OperationSeals Seal)) (segs : List (List (Call Seal))) : Prop :=
  segs.length = blocks.length ∧ ∀ k b l, blocks[k]? = some b → segs[k]? = some l → BlockTrace c blocks k b l

/-- What every terminating run looks like: some blocks were accepted, and then the stream ended, or
the reader failed, or the next block was rejected. -/
structure RunShape (c : C) (r : R) (blocks : List (OperationSeals Seal))
    (o : Outcome Seal R C (ReadOperation.Error Seal R)) : Prop where
  valid : ValidConsignment c blocks
  contract : o.world.contract = contractAt (ContractApi.contractId Seal c) c blocks blocks.length
  stop : ∃ segs tail, Segments c blocks segs ∧
    o.world.calls = [.contractId, .codex] ++ segs.flatten ++ .read :: tail ∧
    ((o.result = .ok () ∧ tail = [] ∧ ∃ r₁, Reads r blocks r₁ ∧
        ReadOperation.readOperation (Seal := Seal) r₁ = (.ok none, o.reader)) ∨
     (∃ e, o.result = .error (.stream e) ∧ tail = [] ∧ ∃ r₁, Reads r blocks r₁ ∧
        ReadOperation.readOperation (Seal := Seal) r₁ = (.error e, o.reader)) ∨
     (∃ b e, o.result = .error e ∧ Reads r (blocks ++ [b]) o.reader ∧ Rejection c blocks b e tail))

theorem Inv.segments {c : C} {blocks : List (OperationSeals Seal)} {st : LoopState Seal C}
    (h : Inv c blocks blocks.length st) : ∃ segs, Segments c blocks segs ∧
      st.calls = [.contractId, .codex] ++ segs.flatten := by
  obtain ⟨segs, h1, h2, h3⟩ := h.trace
  exact ⟨segs, ⟨h1, fun k b l hb hl => h3 k b l (lt_length_of_getElem? hb) hb hl⟩, h2⟩

theorem run_shape {c : C} {r : R} {o} (h : evaluate (Seal := Seal) c r = some o) : ∃ blocks, RunShape c r blocks o := by
  obtain ⟨blocks, r₁, st, h1, h2, h3, h4, h5⟩ := evaluate_ends h
  obtain ⟨segs, hs1, hs2⟩ := h3.segments
  cases h5 with
  | eof hr =>
    refine ⟨blocks, h4, h3.contract, segs, [], hs1, by simp [hs2], .inl ⟨rfl, rfl, r₁, h1, hr⟩⟩
  | fail hr =>
    refine ⟨blocks, h4, h3.contract, segs, [], hs1, by simp [hs2], .inr (.inl ⟨_, rfl, rfl, r₁, h1, hr⟩)⟩
  | reject hr hp =>
    refine ⟨blocks, h4, h3.contract, segs, _, hs1, by simp [hs2],
      .inr (.inr ⟨_, _, rfl, h1.append (.cons hr (.nil _)), h3.reject hp⟩)⟩

theorem evaluate_of_delivers {c : C} {r : R} {blocks : List (OperationSeals Seal)} (hd : Delivers r blocks)
    (hv : ValidConsignment c blocks) :
    ∃ o, evaluate (Seal := Seal) c r = some o ∧ o.result = .ok () ∧ RunShape c r blocks o := by
  obtain ⟨st, h1, h2⟩ := run_of_validConsignment (E := ReadOperation.Error Seal R) hv
  obtain ⟨segs, hs1, hs2⟩ := h2.segments
  obtain ⟨r₁, r₂, hr1, hr2⟩ := hd
  refine ⟨⟨_, ⟨_, st.calls ++ [.read]⟩, _⟩, ?_, rfl, hv, h2.contract, segs, [], hs1, ?_, .inl ⟨rfl, rfl, r₁, hr1, hr2⟩⟩
  · rw [evaluate_eq_loop, loopFrom_reads hr1 h1, loopFrom_eof hr2]
  · simp [hs2]

theorem evaluate_of_fails {c : C} {r : R} {blocks : List (OperationSeals Seal)} {e} (hd : FailsAfter r blocks e)
    (hv : ValidConsignment c blocks) :
    ∃ o, evaluate (Seal := Seal) c r = some o ∧ o.result = .error (.stream e) ∧ RunShape c r blocks o := by
  obtain ⟨st, h1, h2⟩ := run_of_validConsignment (E := ReadOperation.Error Seal R) hv
  obtain ⟨segs, hs1, hs2⟩ := h2.segments
  obtain ⟨r₁, r₂, hr1, hr2⟩ := hd
  refine ⟨⟨_, ⟨_, st.calls ++ [.read]⟩, _⟩, ?_, rfl, hv, h2.contract, segs, [], hs1, ?_, .inr (.inl ⟨e, rfl, rfl, r₁, hr1, hr2⟩)⟩
  · rw [evaluate_eq_loop, loopFrom_reads hr1 h1, loopFrom_fail hr2]
  · simp [hs2]

theorem evaluate_of_rejection {c : C} {r : R} {blocks : List (OperationSeals Seal)} {b : OperationSeals Seal}
    {e : VerificationError Seal (ReadOperation.Error Seal R)} {l : List (Call Seal)}
    (hd : StartsWith r (blocks ++ [b])) (hv : ValidConsignment c blocks) (hr : Rejection c blocks b e l) :
    ∃ o, evaluate (Seal := Seal) c r = some o ∧ o.result = .error e ∧ Reads r (blocks ++ [b]) o.reader ∧
      RunShape c r blocks o := by
  obtain ⟨st, h1, h2⟩ := run_of_validConsignment (E := ReadOperation.Error Seal R) hv
  obtain ⟨segs, hs1, hs2⟩ := h2.segments
  obtain ⟨r₂, hrd⟩ := hd
  obtain ⟨r₁, hr1, hr2⟩ := hrd.split
  cases hr2 with
  | cons hr2 hn =>
    cases hn
    have hp := h2.reject_of hr
    refine ⟨⟨_, ⟨_, st.calls ++ [.read] ++ l⟩, _⟩, ?_, rfl, hrd, hv, h2.contract, segs, l, hs1, ?_, .inr (.inr ⟨b, e, rfl, hrd, hr⟩)⟩
    · rw [evaluate_eq_loop, loopFrom_reads hr1 h1, loopFrom_err hr2 (by rw [hp]), hp]
    · simp [hs2]

/-- A block is either valid or rejected with some error. -/
theorem valid_or_rejected {c : C} {blocks : List (OperationSeals Seal)} (hv : ValidConsignment c blocks)
    (b : OperationSeals Seal) :
    ValidBlock c blocks blocks.length b ∨ ∃ (e : VerificationError Seal E) (l : _), Rejection c blocks b e l := by
  obtain ⟨st, h1, h2⟩ := run_of_validConsignment (E := E) hv
  rcases hp : (pureStep (E := E) (ContractApi.contractId Seal c) (ContractApi.codex Seal c).codexId st.g st.seals b
    st.contract).res with e | sl
  · exact .inr ⟨e, _, h2.reject hp⟩
  · exact .inl (h2.step_valid.1 ⟨sl, hp⟩)

theorem not_valid_of_rejected {c : C} {blocks : List (OperationSeals Seal)} (hv : ValidConsignment c blocks)
    {b : OperationSeals Seal} {e : VerificationError Seal E} {l} (hr : Rejection c blocks b e l) :
    ¬ ValidBlock c blocks blocks.length b := by
  obtain ⟨st, h1, h2⟩ := run_of_validConsignment (E := E) hv
  intro hvb
  obtain ⟨sl, hsl⟩ := (h2.step_valid (E := E)).2 hvb
  rw [h2.reject_of hr] at hsl
  simp at hsl

theorem Spec.Rejection.unique {c : C} {blocks : List (OperationSeals Seal)} (hv : ValidConsignment c blocks)
    {b : OperationSeals Seal} {e e' : VerificationError Seal E} {l l'} (hr : Rejection c blocks b e l)
    (hr' : Rejection c blocks b e' l') : e = e' ∧ l = l' := by
  obtain ⟨st, h1, h2⟩ := run_of_validConsignment (E := E) hv
  have := (h2.reject_of hr).symm.trans (h2.reject_of hr')
  simpa using this

end Rgb
