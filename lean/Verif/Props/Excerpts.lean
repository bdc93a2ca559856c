import Mathlib.Data.List.Nodup
import Verif.Props.Merging
import Verif.Props.Recovery

set_option linter.unusedSectionVars false

/-! # C76: excerpts of accepted consignments -/

namespace Rgb
open Spec

section
variable {Seal : Type} [LinearOrder Seal] [RgbSeal Seal] [OpHash]
variable {C E : Type} [ContractApi Seal C]
variable {R : Type} [ReadOperation Seal R]

/-! ## observations of a contract -/

/-- An observation of the contract that changes in a way depending on the observation only, and only by
calls satisfying `p`. -/
structure Observed {X : Type} (f : C → X) (p : Call Seal → Bool) : Prop where
  congr : ∀ c d (x : Call Seal), f c = f d → f (perform c x) = f (perform d x)
  skip : ∀ c (x : Call Seal), p x = false → f (perform c x) = f c

theorem Observed.foldl_congr {X : Type} {f : C → X} {p : Call Seal → Bool} (h : Observed f p) {c d : C} (hc : f c = f d)
    (l : List (Call Seal)) : f (l.foldl perform c) = f (l.foldl perform d) := by
  induction l generalizing c d with
  | nil => exact hc
  | cons x l ih => exact ih (h.congr _ _ _ hc)

theorem Observed.foldl_filter {X : Type} {f : C → X} {p : Call Seal → Bool} (h : Observed f p) (c : C)
    (l : List (Call Seal)) : f (l.foldl perform c) = f ((l.filter p).foldl perform c) := by
  induction l generalizing c with
  | nil => rfl
  | cons x l ih =>
    cases hp : p x with
    | true => rw [List.filter_cons_of_pos hp]; exact ih _
    | false =>
      rw [List.filter_cons_of_neg (by simp [hp]), List.foldl_cons, h.foldl_congr (h.skip c x hp)]
      exact ih c

theorem Observed.same {X : Type} {f : C → X} {p : Call Seal → Bool} (h : Observed f p) {c : C} {l l' : List (Call Seal)}
    (e : l.filter p = l'.filter p) : f (l.foldl perform c) = f (l'.foldl perform c) := by
  rw [h.foldl_filter, e, ← h.foldl_filter]

/-- An applied operation with the given property. -/
def Applies (q : VerifiedOperation → Bool) (x : Call Seal) : Bool :=
  match appliedOperation x with
  | some v => q v
  | none => false

/-- An operation that has the cell as input or output. -/
def touches (a : CellAddr) (v : VerifiedOperation) : Bool :=
  decide (a.opid = v.opid) || v.operation.destructibleIn.any fun inp => decide (inp.addr = a)

/-- An operation with the given id. -/
def creates (o : Opid) (v : VerifiedOperation) : Bool := decide (o = v.opid)

theorem observed_destructible (hm : LocalMemory Seal C) (a : CellAddr) :
    Observed (fun c : C => (ContractApi.memory Seal c).destructible a) (Applies (Seal := Seal) (touches a)) where
  congr c d x h := by
    cases x <;> simp only [perform] <;> first | exact h | skip
    · rw [hm.witness, hm.witness]; exact h
    · exact hm.destructible_congr _ _ _ _ h
    · rw [hm.seals, hm.seals]; exact h
  skip c x h := by
    cases x <;> simp only [perform]
    · rw [hm.witness]
    · simp only [Applies, appliedOperation, touches, Bool.or_eq_false_iff, decide_eq_false_iff_not, List.any_eq_false,
        decide_eq_true_eq] at h
      exact hm.destructible _ _ _ h.1 h.2
    · rw [hm.seals]

theorem observed_immutable (hm : LocalMemory Seal C) (a : CellAddr) :
    Observed (fun c : C => (ContractApi.memory Seal c).immutable a) (Applies (Seal := Seal) (creates a.opid)) where
  congr c d x h := by
    cases x <;> simp only [perform] <;> first | exact h | skip
    · rw [hm.witness, hm.witness]; exact h
    · exact hm.immutable_congr _ _ _ _ h
    · rw [hm.seals, hm.seals]; exact h
  skip c x h := by
    cases x <;> simp only [perform]
    · rw [hm.witness]
    · simp only [Applies, appliedOperation, creates, decide_eq_false_iff_not] at h
      exact hm.immutable _ _ _ h
    · rw [hm.seals]

theorem observed_known (hl : Lawful Seal C) (o : Opid) :
    Observed (fun c : C => ContractApi.isKnown Seal c o) (Applies (Seal := Seal) (creates o)) where
  congr c d x h := by
    cases x <;> simp only [perform] <;> first | exact h | skip
    · rw [hl.known_witness, hl.known_witness]; exact h
    · rw [Bool.eq_iff_iff, hl.known_operation, hl.known_operation, h]
    · rw [hl.known_seals, hl.known_seals]; exact h
  skip c x h := by
    cases x <;> simp only [perform]
    · rw [hl.known_witness]
    · simp only [Applies, appliedOperation, creates, decide_eq_false_iff_not] at h
      rw [Bool.eq_iff_iff, hl.known_operation]
      simp [h]
    · rw [hl.known_seals]

/-! ## the callbacks of a consignment, by position -/

/-- Callbacks due for the block at position `k`. -/
def callbacksOf (cid : ContractId) (c : C) (blocks : List (OperationSeals Seal)) (k : Nat) : List (Call Seal) :=
  match blocks[k]? with
  | some b => callbacks cid (contractAt cid c blocks k) k b
  | none => []

theorem callbacksUpTo_range (cid : ContractId) (c : C) (blocks : List (OperationSeals Seal)) (n : Nat) :
    callbacksUpTo cid c blocks n = (List.range n).flatMap (callbacksOf cid c blocks) := by
  induction n with
  | zero => rfl
  | succ n ih =>
    rw [callbacksUpTo, ih, List.range_succ, List.flatMap_append]
    simp only [List.flatMap_cons, List.flatMap_nil, List.append_nil]
    rfl

theorem callbacksUpTo_succ (cid : ContractId) (c : C) (blocks : List (OperationSeals Seal)) (n : Nat) :
    callbacksUpTo cid c blocks (n + 1) = callbacksUpTo cid c blocks n ++ callbacksOf cid c blocks n := rfl

/-- If none of the blocks contributes. -/
theorem filter_none {cid : ContractId} {c : C} {blocks : List (OperationSeals Seal)} {n : Nat} {p : Call Seal → Bool}
    (h : ∀ k, k < n → (callbacksOf cid c blocks k).filter p = []) : (callbacksUpTo cid c blocks n).filter p = [] := by
  induction n with
  | zero => rfl
  | succ n ih =>
    rw [callbacksUpTo_succ, List.filter_append, ih fun k hk => h k (by omega)]
    exact h n (by omega)

/-- If only one of the blocks contributes. -/
theorem filter_one {cid : ContractId} {c : C} {blocks : List (OperationSeals Seal)} {n j : Nat} {p : Call Seal → Bool} (hj : j < n)
    (h : ∀ k, k < n → k ≠ j → (callbacksOf cid c blocks k).filter p = []) :
    (callbacksUpTo cid c blocks n).filter p = (callbacksOf cid c blocks j).filter p := by
  induction n with
  | zero => omega
  | succ n ih =>
    rw [callbacksUpTo_succ, List.filter_append]
    by_cases e : j = n
    · subst e
      rw [filter_none fun k hk => h k (by omega) (by omega), List.nil_append]
    · rw [ih (by omega) fun k hk => h k (by omega)]
      have := h n (by omega) (fun e' => e e'.symm)
      rw [this, List.append_nil]

/-- If only two of the blocks contribute. -/
theorem filter_two {cid : ContractId} {c : C} {blocks : List (OperationSeals Seal)} {n i j : Nat} {p : Call Seal → Bool} (hj : j < n)
    (hi : i < j) (h : ∀ k, k < n → k ≠ i → k ≠ j → (callbacksOf cid c blocks k).filter p = []) :
    (callbacksUpTo cid c blocks n).filter p =
      (callbacksOf cid c blocks i).filter p ++ (callbacksOf cid c blocks j).filter p := by
  induction n with
  | zero => omega
  | succ n ih =>
    rw [callbacksUpTo_succ, List.filter_append]
    by_cases e : j = n
    · subst e
      rw [filter_one hi fun k hk hk' => h k (by omega) hk' (by omega)]
    · rw [ih (by omega) fun k hk => h k (by omega)]
      have := h n (by omega) (by omega) (fun e' => e e'.symm)
      rw [this, List.append_nil]

/-- The operation applied for a block is that of the block. -/
theorem callbacksOf_applies (hl : Lawful Seal C) {c : C} (hf : Faithful (ContractApi.codex Seal c))
    {blocks : List (OperationSeals Seal)} {k : Nat} {q : VerifiedOperation → Bool}
    (h : ∀ b v, blocks[k]? = some b → v.opid = idAt (ContractApi.contractId Seal c) k b →
      v.operation = opAt (ContractApi.contractId Seal c) k b → q v = false) :
    (callbacksOf (ContractApi.contractId Seal c) c blocks k).filter (Applies q) = [] := by
  rw [List.filter_eq_nil_iff]
  intro x hx
  unfold callbacksOf at hx
  split at hx
  · rename_i b hb
    simp only [callbacks, List.mem_append, or_assoc] at hx
    rcases hx with hx | hx | hx
    · have := witnessCallbacks_applied _ _ x hx
      simp [Applies, this]
    · unfold operationCallbacks at hx
      split at hx
      · simp at hx
      · split at hx
        · rename_i v hv
          simp only [List.mem_singleton] at hx
          subst hx
          unfold codexAnswer at hv
          rw [hl.contractAt_codex] at hv
          obtain ⟨h1, h2⟩ := hf _ _ _ _ _ hv
          simp [Applies, appliedOperation, h b v hb h1 h2]
        · simp at hx
    · have := sealCallbacks_applied _ _ x hx
      simp [Applies, this]
  · simp at hx

/-! ## excerpts -/

/-- Different positions have different ids. -/
def DistinctIds (cid : ContractId) (xs : List (OperationSeals Seal)) : Prop :=
  ∀ (i j : Nat) b b', xs[i]? = some b → xs[j]? = some b' → idAt cid i b = idAt cid j b' → i = j

theorem idAt_same {cid : ContractId} {i k : Nat} (h : i = 0 ↔ k = 0) (b : OperationSeals Seal) : idAt cid k b = idAt cid i b := by
  by_cases hk : k = 0
  · rw [h.2 hk, hk]
  · rw [idAt_pos hk, idAt_pos (fun e => hk (h.1 e))]

theorem opAt_same {cid : ContractId} {i k : Nat} (h : i = 0 ↔ k = 0) (b : OperationSeals Seal) : opAt cid k b = opAt cid i b := by
  by_cases hk : k = 0
  · rw [h.2 hk, hk]
  · rw [opAt_pos hk, opAt_pos (fun e => hk (h.1 e))]

theorem Spec.Excerpt.place {cid : ContractId} {xs ys : List (OperationSeals Seal)} (h : Excerpt cid xs ys) {k : Nat}
    {b : OperationSeals Seal} (hb : ys[k]? = some b) : ∃ i, xs[i]? = some b ∧ (i = 0 ↔ k = 0) := by
  cases k with
  | zero => exact ⟨0, by rw [← h.head]; exact hb, by simp⟩
  | succ k =>
    have : b ∈ ys.tail := List.mem_of_getElem? (i := k) (by simpa using hb)
    obtain ⟨l, h1, h2⟩ := h.rest
    obtain ⟨i, hi⟩ := List.getElem?_of_mem (h2.subset (h1.mem_iff.2 this))
    exact ⟨i + 1, by simpa using hi, by simp⟩

theorem Spec.Excerpt.ids {cid : ContractId} {xs ys : List (OperationSeals Seal)} (h : Excerpt cid xs ys)
    (hx : DistinctIds cid xs) : DistinctIds cid ys := by
  have hn : (xs.tail.map fun b => opid b.operation).Nodup := by
    rw [List.Nodup, List.pairwise_map, List.pairwise_iff_getElem]
    intro i j hi hj hlt e
    have := hx (i + 1) (j + 1) xs.tail[i] xs.tail[j] (by rw [← List.getElem?_tail]; exact List.getElem?_eq_getElem hi)
      (by rw [← List.getElem?_tail]; exact List.getElem?_eq_getElem hj)
      (by rw [idAt_pos (by simp), idAt_pos (by simp)]; exact e)
    omega
  have hn' : (ys.tail.map fun b => opid b.operation).Nodup := by
    obtain ⟨l, h1, h2⟩ := h.rest
    exact (h1.map _).nodup_iff.1 (hn.sublist (h2.map _))
  intro k k' b b' hb hb' e
  obtain ⟨i, hi, h0⟩ := h.place hb
  obtain ⟨i', hi', h0'⟩ := h.place hb'
  have := hx i i' b b' hi hi' (by rw [← idAt_same h0, ← idAt_same h0']; exact e)
  subst this
  rcases k with _ | k
  · exact (h0'.1 (h0.2 rfl)).symm
  · rcases k' with _ | k'
    · exact h0.1 (h0'.2 rfl)
    · rw [idAt_pos (by simp), idAt_pos (by simp)] at e
      have g1 : (ys.tail.map fun b => opid b.operation)[k]? = some (opid b.operation) := by simp [hb]
      have g2 : (ys.tail.map fun b => opid b.operation)[k']? = some (opid b.operation) := by simp [hb', e]
      have := (List.nodup_iff_injective_getElem).1 hn'
      obtain ⟨k1, k2⟩ := List.getElem?_eq_some_iff.1 g1
      obtain ⟨k3, k4⟩ := List.getElem?_eq_some_iff.1 g2
      have := @this ⟨k, k1⟩ ⟨k', k3⟩ (by simp only [k2, k4])
      simpa using this

/-- The place of the block with a given id. -/
theorem Spec.Excerpt.same_place {cid : ContractId} {xs ys : List (OperationSeals Seal)} (h : Excerpt cid xs ys)
    (hx : DistinctIds cid xs) {k j : Nat} {b bj : OperationSeals Seal} (hb : ys[k]? = some b) (hj : xs[j]? = some bj)
    (e : idAt cid k b = idAt cid j bj) : b = bj ∧ (j = 0 ↔ k = 0) := by
  obtain ⟨i, hi, h0⟩ := h.place hb
  have := hx i j b bj hi hj (by rw [← idAt_same h0]; exact e)
  subst this
  rw [hi] at hj
  exact ⟨by simpa using hj, h0⟩

theorem forall₂_some {α β : Type} {P : α → β → Prop} {l : List α} {m : List β} (h : List.Forall₂ P l m) {a : α} (ha : a ∈ l) :
    ∃ b, P a b := by
  induction h with
  | nil => simp at ha
  | cons h _ ih =>
    rcases List.mem_cons.1 ha with rfl | ha
    · exact ⟨_, h⟩
    · exact ih ha

/-- The calls a block leads to are the same in an excerpt. -/
theorem excerpt_callbacks (hl : Lawful Seal C) (hm : LocalMemory Seal C) {c : C} (hf : Faithful (ContractApi.codex Seal c))
    (hc : LocalCodex (ContractApi.codex Seal c)) {xs ys : List (OperationSeals Seal)}
    (hx : DistinctIds (ContractApi.contractId Seal c) xs) (hv : LedgerValid c xs)
    (hr : ReadsEarlier (ContractApi.contractId Seal c) xs) (he : Excerpt (ContractApi.contractId Seal c) xs ys) (k : Nat) :
    ∀ i b, ys[k]? = some b → xs[i]? = some b → (i = 0 ↔ k = 0) →
      ContractApi.isKnown Seal (contractAt (ContractApi.contractId Seal c) c ys k) (idAt (ContractApi.contractId Seal c) i b) =
        ContractApi.isKnown Seal (contractAt (ContractApi.contractId Seal c) c xs i) (idAt (ContractApi.contractId Seal c) i b) ∧
      codexAnswer Seal (contractAt (ContractApi.contractId Seal c) c ys k) (ContractApi.contractId Seal c)
          (opAt (ContractApi.contractId Seal c) i b) =
        codexAnswer Seal (contractAt (ContractApi.contractId Seal c) c xs i) (ContractApi.contractId Seal c)
          (opAt (ContractApi.contractId Seal c) i b) ∧
      callbacksOf (ContractApi.contractId Seal c) c ys k = callbacksOf (ContractApi.contractId Seal c) c xs i := by
  induction k using Nat.strong_induction_on with
  | _ k ih =>
  intro i b hk hi h0
  generalize hcid : ContractApi.contractId Seal c = cid at *
  have hy := he.ids hx
  -- nothing contributes to an observation but the creator
  have only : ∀ {zs : List (OperationSeals Seal)} {n : Nat} {q : VerifiedOperation → Bool} {m : Nat}, DistinctIds cid zs →
      (∀ b' v, zs[m]? = some b' → v.opid = idAt cid m b' → v.operation = opAt cid m b' → q v = false) →
      (callbacksOf cid c zs m).filter (Applies q) = [] := by
    intro zs n q m _ h
    subst hcid
    exact callbacksOf_applies hl hf h
  have obs : ∀ {X : Type} {f : C → X} {q : VerifiedOperation → Bool} {o : Opid}, Observed f (Applies (Seal := Seal) q) →
      (∀ m b' v, m < k → ys[m]? = some b' → v.opid = idAt cid m b' → v.operation = opAt cid m b' → q v = true → o = idAt cid m b') →
      (∀ m b' v, m < i → xs[m]? = some b' → v.opid = idAt cid m b' → v.operation = opAt cid m b' → q v = true → o = idAt cid m b') →
      (∀ j bj, xs[j]? = some bj → o = idAt cid j bj → j < i ∧ ∃ k' b', k' < k ∧ ys[k']? = some b' ∧ o = idAt cid k' b') →
      f (contractAt cid c ys k) = f (contractAt cid c xs i) := by
    intro X f q o ho h1 h2 h3
    rw [contractAt_eq_foldl, contractAt_eq_foldl]
    refine ho.same ?_
    by_cases hex : ∃ j bj, xs[j]? = some bj ∧ o = idAt cid j bj
    · obtain ⟨j, bj, hj, hoj⟩ := hex
      obtain ⟨hji, k', b', hk', hb', hok⟩ := h3 j bj hj hoj
      obtain ⟨rfl, h0'⟩ := he.same_place hx hb' hj (hok.symm.trans hoj)
      rw [filter_one hk', filter_one hji, (ih k' hk' j b' hb' hj h0').2.2]
      · intro m hm' hne
        refine only (n := m) hx fun b'' v g1 g2 g3 => ?_
        by_contra hq
        have := h2 m b'' v hm' g1 g2 g3 (by simpa using hq)
        exact hne (hx m j b'' b' g1 hj (this.symm.trans hoj))
      · intro m hm' hne
        refine only (n := m) hy fun b'' v g1 g2 g3 => ?_
        by_contra hq
        have := h1 m b'' v hm' g1 g2 g3 (by simpa using hq)
        exact hne (hy m k' b'' b' g1 hb' (this.symm.trans hok))
    · rw [filter_none, filter_none]
      · intro m hm'
        refine only (n := m) hx fun b'' v g1 g2 g3 => ?_
        by_contra hq
        exact hex ⟨m, b'', g1, h2 m b'' v hm' g1 g2 g3 (by simpa using hq)⟩
      · intro m hm'
        refine only (n := m) hy fun b'' v g1 g2 g3 => ?_
        by_contra hq
        have := h1 m b'' v hm' g1 g2 g3 (by simpa using hq)
        obtain ⟨j, hj, hj0⟩ := he.place g1
        exact hex ⟨j, b'', hj, by rw [← idAt_same hj0]; exact this⟩
  have hkn : ContractApi.isKnown Seal (contractAt cid c ys k) (idAt cid i b) =
      ContractApi.isKnown Seal (contractAt cid c xs i) (idAt cid i b) := by
    rw [contractAt_eq_foldl, contractAt_eq_foldl]
    refine (observed_known hl (idAt cid i b)).same ?_
    rw [filter_none, filter_none]
    · intro m hm'
      refine only (n := m) hx fun b'' v g1 g2 g3 => ?_
      by_contra hq
      simp only [creates, Bool.not_eq_false, decide_eq_true_eq] at hq
      have := hx i m b b'' hi g1 (hq.trans g2)
      omega
    · intro m hm'
      refine only (n := m) hy fun b'' v g1 g2 g3 => ?_
      by_contra hq
      simp only [creates, Bool.not_eq_false, decide_eq_true_eq] at hq
      have := hy k m b b'' hk g1 (by rw [idAt_same h0]; exact hq.trans g2)
      omega
  have hans : codexAnswer Seal (contractAt cid c ys k) cid (opAt cid i b) = codexAnswer Seal (contractAt cid c xs i) cid (opAt cid i b) := by
    unfold codexAnswer
    rw [hl.contractAt_codex, hl.contractAt_codex]
    have hrepo : ∀ l : List (Call Seal), ∀ d : C, ContractApi.repo Seal (l.foldl perform d) = ContractApi.repo Seal d := by
      intro l
      induction l with
      | nil => intro d; rfl
      | cons x l ihl => intro d; rw [List.foldl_cons, ihl, hm.repo]
    rw [contractAt_eq_foldl cid c ys, contractAt_eq_foldl cid c xs, hrepo, hrepo, ← contractAt_eq_foldl, ← contractAt_eq_foldl]
    refine hc _ _ _ _ _ ?_ ?_
    · rw [opAt_inputs]
      intro inp hinp
      have hcon : Consumes b inp.addr := ⟨inp, hinp, rfl⟩
      refine obs (o := inp.addr.opid) (observed_destructible hm inp.addr) ?_ ?_ ?_
      · intro m b' v hmk g1 g2 g3 hq
        simp only [touches, Bool.or_eq_true, decide_eq_true_eq, List.any_eq_true] at hq
        rcases hq with hq | ⟨x, hx1, hx2⟩
        · exact hq.trans g2
        · exfalso
          rw [g3, opAt_inputs] at hx1
          obtain ⟨j, hj, hj0⟩ := he.place g1
          have hji := nodup_once hv.once hj hi ⟨x, hx1, hx2⟩ hcon
          subst hji
          rw [hi] at hj
          obtain rfl : b = b' := by simpa using hj
          have := hy m k b b g1 hk (by rw [idAt_same hj0, idAt_same h0])
          omega
      · intro m b' v hmi g1 g2 g3 hq
        simp only [touches, Bool.or_eq_true, decide_eq_true_eq, List.any_eq_true] at hq
        rcases hq with hq | ⟨x, hx1, hx2⟩
        · exact hq.trans g2
        · exfalso
          rw [g3, opAt_inputs] at hx1
          have := nodup_once hv.once g1 hi ⟨x, hx1, hx2⟩ hcon
          omega
      · intro j bj hj hoj
        refine ⟨?_, he.creators k j b bj _ hk (.inl hcon) hj hoj⟩
        obtain ⟨seals, g1, _⟩ := hv.closed i b hi
        obtain ⟨s, j', bj', g2, g3, g4⟩ := forall₂_some g1 hinp
        rw [hcid] at g4
        have := hx j j' bj bj' hj g3 (hoj.symm.trans g4.1)
        omega
    · have himm : (opAt cid i b).immutableIn = b.operation.immutableIn := by unfold opAt; split <;> rfl
      rw [himm]
      intro a ha
      refine obs (o := a.opid) (observed_immutable hm a) ?_ ?_ ?_
      · intro m b' v _ g1 g2 g3 hq
        simp only [creates, decide_eq_true_eq] at hq
        exact hq.trans g2
      · intro m b' v _ g1 g2 g3 hq
        simp only [creates, decide_eq_true_eq] at hq
        exact hq.trans g2
      · intro j bj hj hoj
        exact ⟨hr i j b bj a ha hi hj hoj, he.creators k j b bj _ hk (.inr ha) hj hoj⟩
  refine ⟨hkn, hans, ?_⟩
  unfold callbacksOf
  rw [hk, hi]
  simp only [callbacks, operationCallbacks]
  rw [idAt_same h0, opAt_same h0, hkn, hans]
  simp only [h0]

theorem sublist_flatMap {α β : Type} (g : α → List β) {l m : List α} (h : l.Sublist m) : (l.flatMap g).Sublist (m.flatMap g) := by
  induction h with
  | slnil => exact .slnil
  | cons a _ ih => rw [List.flatMap_cons]; exact ih.trans (List.sublist_append_right _ _)
  | cons_cons a _ ih => rw [List.flatMap_cons, List.flatMap_cons]; exact ih.append_left _

/-- What makes a consignment valid apart from the codex carries over to excerpts. -/
theorem excerpt_ledgerValid {c : C} {xs ys : List (OperationSeals Seal)} (hx : DistinctIds (ContractApi.contractId Seal c) xs)
    (hv : LedgerValid c xs) (he : Excerpt (ContractApi.contractId Seal c) xs ys) : LedgerValid c ys := by
  refine ⟨fun b hb => hv.codex b (by rw [← he.head]; exact hb), ?_, ?_, ?_⟩
  · intro b hb
    obtain ⟨k, hk⟩ := List.getElem?_of_mem hb
    obtain ⟨i, hi, _⟩ := he.place hk
    exact hv.committed b (List.mem_of_getElem? hi)
  · obtain ⟨l, h1, h2⟩ := he.rest
    have hh := he.head
    cases xs with
    | nil => cases ys with
      | nil => simp
      | cons y ys => simp at hh
    | cons x xs => cases ys with
      | nil => simp at hh
      | cons y ys =>
        obtain rfl : y = x := by simpa using hh
        have := hv.once.sublist (sublist_flatMap (fun b : OperationSeals Seal => b.operation.destructibleIn.map (·.addr)) (h2.cons_cons y))
        exact ((h1.cons y).flatMap_right _).nodup_iff.1 this
  · intro k b hk
    obtain ⟨i, hi, h0⟩ := he.place hk
    obtain ⟨seals, h1, h2, h3⟩ := hv.closed i b hi
    refine ⟨seals, ?_, by rw [idAt_same h0]; exact h2, h3⟩
    refine forall₂_imp_mem h1 ?_
    rintro inp hinp s ⟨j, bj, g1, g2, g3⟩
    obtain ⟨k', b', k1, k2, k3⟩ := he.creators k j b bj inp.addr hk (.inl ⟨inp, hinp, rfl⟩) g2 g3.1
    obtain ⟨rfl, h0'⟩ := he.same_place hx k2 g2 (k3.symm.trans g3.1)
    exact ⟨k', b', k1, k2, k3, g3.2⟩

/-- An input is sealed with what its creator announces. -/
theorem open_of_announced {c : C} {xs : List (OperationSeals Seal)} (hx : DistinctIds (ContractApi.contractId Seal c) xs)
    (hv : LedgerValid c xs) {i j : Nat} {b bj : OperationSeals Seal} {inp : Input} {s : Seal} (hb : xs[i]? = some b)
    (hinp : inp ∈ b.operation.destructibleIn) (hj : xs[j]? = some bj) (ha : Announces (ContractApi.contractId Seal c) j bj inp.addr s) :
    OpenAt (ContractApi.contractId Seal c) xs i inp.addr s := by
  obtain ⟨seals, h1, _⟩ := hv.closed i b hb
  obtain ⟨s', j', bj', g2, g3, g4⟩ := forall₂_some h1 hinp
  have := hx j j' bj bj' hj g3 (ha.1.symm.trans g4.1)
  subst this
  refine ⟨j, bj, g2, hj, ha, ?_⟩
  intro k bk k1 k2 hbk
  refine ⟨?_, ?_⟩
  · intro hc
    have := nodup_once hv.once hbk hb hc ⟨inp, hinp, rfl⟩
    omega
  · intro s' hs'
    have := hx j k bj bk hj hbk (ha.1.symm.trans hs'.1)
    omega

/-- The whole trace of a block is the same in an excerpt. -/
theorem excerpt_trace (hl : Lawful Seal C) (hm : LocalMemory Seal C) {c : C} (hf : Faithful (ContractApi.codex Seal c))
    (hc : LocalCodex (ContractApi.codex Seal c)) {xs ys : List (OperationSeals Seal)}
    (hx : DistinctIds (ContractApi.contractId Seal c) xs) (hv : LedgerValid c xs)
    (hr : ReadsEarlier (ContractApi.contractId Seal c) xs) (he : Excerpt (ContractApi.contractId Seal c) xs ys) {k i : Nat}
    {b : OperationSeals Seal} (hk : ys[k]? = some b) (hi : xs[i]? = some b) (h0 : i = 0 ↔ k = 0) {l : List (Call Seal)}
    (ht : BlockTrace c ys k b l) : BlockTrace c xs i b l := by
  obtain ⟨h1, h2, h3⟩ := excerpt_callbacks hl hm hf hc hx hv hr he k i b hk hi h0
  obtain ⟨seals, g1, rfl⟩ := ht
  refine ⟨seals, ?_, ?_⟩
  · refine forall₂_imp_mem g1 ?_
    rintro inp hinp s ⟨k', b', q1, q2, q3, _⟩
    obtain ⟨j, hj, hj0⟩ := he.place q2
    exact open_of_announced hx hv hi hinp hj ⟨by rw [← idAt_same hj0]; exact q3.1, q3.2⟩
  · unfold callbacksOf at h3
    rw [hk, hi] at h3
    simp only at h3
    rw [h3, idAt_same h0]
    congr 3
    unfold queries
    rw [idAt_same h0, opAt_same h0, h1]

/-- Lists of segments over consignments with the same blocks. -/
theorem excerpt_segments (hl : Lawful Seal C) (hm : LocalMemory Seal C) {c : C} (hf : Faithful (ContractApi.codex Seal c))
    (hc : LocalCodex (ContractApi.codex Seal c)) {xs ys : List (OperationSeals Seal)}
    (hx : DistinctIds (ContractApi.contractId Seal c) xs) (hv : LedgerValid c xs)
    (hr : ReadsEarlier (ContractApi.contractId Seal c) xs) (he : Excerpt (ContractApi.contractId Seal c) xs ys)
    {segs segs' : List (List (Call Seal))} (hs : Segments c xs segs) (hs' : Segments c ys segs') :
    ∃ g : OperationSeals Seal → List (Call Seal), segs'.head? = segs.head? ∧ segs.tail = xs.tail.map g ∧ segs'.tail = ys.tail.map g := by
  classical
  have hlen := hs.1
  have hlen' := hs'.1
  have hseg : ∀ {i : Nat} {b : OperationSeals Seal}, xs[i]? = some b → ∃ l, segs[i]? = some l ∧ BlockTrace c xs i b l := by
    intro i b hb
    have hlt := lt_length_of_getElem? hb
    have e : segs[i]? = some (segs[i]'(by omega)) := List.getElem?_eq_getElem (by omega)
    exact ⟨_, e, hs.2 i b _ hb e⟩
  have hseg' : ∀ {i : Nat} {b : OperationSeals Seal}, ys[i]? = some b → ∃ l, segs'[i]? = some l ∧ BlockTrace c ys i b l := by
    intro i b hb
    have hlt := lt_length_of_getElem? hb
    have e : segs'[i]? = some (segs'[i]'(by omega)) := List.getElem?_eq_getElem (by omega)
    exact ⟨_, e, hs'.2 i b _ hb e⟩
  have same : ∀ {k i : Nat} {b : OperationSeals Seal}, ys[k]? = some b → xs[i]? = some b → (i = 0 ↔ k = 0) → segs'[k]? = segs[i]? := by
    intro k i b hk hi h0
    obtain ⟨l', e', t'⟩ := hseg' hk
    obtain ⟨l, e, t⟩ := hseg hi
    rw [e, e', (excerpt_trace hl hm hf hc hx hv hr he hk hi h0 t').unique t]
  refine ⟨fun b => if h : ∃ i, xs[i + 1]? = some b then (segs[h.choose + 1]?).getD [] else [], ?_, ?_, ?_⟩
  · rw [List.head?_eq_getElem?, List.head?_eq_getElem?]
    cases h : xs[0]? with
    | none =>
      have h' := he.head
      rw [h] at h'
      rw [List.getElem?_eq_none_iff] at h h'
      rw [List.getElem?_eq_none (by omega), List.getElem?_eq_none (by omega)]
    | some b => exact same (he.head.trans h) h Iff.rfl
  · apply List.ext_getElem?
    intro i
    rw [List.getElem?_map, List.getElem?_tail, List.getElem?_tail]
    cases h : xs[i + 1]? with
    | none =>
      rw [List.getElem?_eq_none_iff] at h
      rw [List.getElem?_eq_none (by omega)]; rfl
    | some b =>
      have hex : ∃ i, xs[i + 1]? = some b := ⟨i, h⟩
      have hch := hex.choose_spec
      have hi := hx _ _ b b hch h (by rw [idAt_pos (by simp), idAt_pos (by simp)])
      obtain ⟨l, e, _⟩ := hseg h
      simp only [Option.map_some, dif_pos hex]
      rw [hi, e]
      rfl
  · apply List.ext_getElem?
    intro k
    rw [List.getElem?_map, List.getElem?_tail, List.getElem?_tail]
    cases h : ys[k + 1]? with
    | none =>
      rw [List.getElem?_eq_none_iff] at h
      rw [List.getElem?_eq_none (by omega)]; rfl
    | some b =>
      obtain ⟨i, hi, h0⟩ := he.place h
      obtain ⟨i, rfl⟩ : ∃ i', i = i' + 1 := ⟨i - 1, by omega⟩
      have hex : ∃ i, xs[i + 1]? = some b := ⟨i, hi⟩
      have hch := hex.choose_spec
      have hii := hx _ _ b b hch hi (by rw [idAt_pos (by simp), idAt_pos (by simp)])
      obtain ⟨l, e, _⟩ := hseg hi
      simp only [Option.map_some, dif_pos hex]
      rw [hii, same h hi h0, e]
      rfl

theorem flatten_head_tail {α : Type} (l : List (List α)) : l.flatten = l.head?.getD [] ++ l.tail.flatten := by
  cases l <;> simp

/-- Excerpts of accepted consignments without repeated operations are accepted: the first block together
with any of the others, in any order, as long as the operations in the excerpt are preceded by the
creators of the cells they refer to.  The blocks of the excerpt lead to exactly the calls they led to
before. -/
theorem C76_excerpt (hl : Lawful Seal C) (hm : LocalMemory Seal C) {c : C} (hf : Faithful (ContractApi.codex Seal c))
    (hc : LocalCodex (ContractApi.codex Seal c)) {r : R} {xs ys : List (OperationSeals Seal)} {o} (h : Accepted c r xs o)
    (hx : ∀ (i j : Nat) b b', xs[i]? = some b → xs[j]? = some b' →
      idAt (ContractApi.contractId Seal c) i b = idAt (ContractApi.contractId Seal c) j b' → i = j)
    (hr : ReadsEarlier (ContractApi.contractId Seal c) xs) (he : Excerpt (ContractApi.contractId Seal c) xs ys)
    {R' : Type} [ReadOperation Seal R'] {r' : R'} (hd : Delivers r' ys) :
    ∃ o', Accepted c r' ys o' ∧ o'.world.calls.Subperm o.world.calls ∧
      (ys.tail.Perm xs.tail → o'.world.calls.Perm o.world.calls) := by
  obtain ⟨hv, hs⟩ := (ledgerValid_iff hx).1 h.valid
  have hvy : ValidConsignment c ys := by
    rw [ledgerValid_iff (he.ids hx)]
    refine ⟨excerpt_ledgerValid hx hv he, ?_⟩
    intro k b hk
    obtain ⟨i, hi, h0⟩ := he.place hk
    obtain ⟨h1, h2, _⟩ := excerpt_callbacks hl hm hf hc hx hv hr he k i b hk hi h0
    rw [idAt_same h0, opAt_same h0, h1, h2]
    exact hs i b hi
  obtain ⟨o', k1, k2, _⟩ := evaluate_of_delivers hd hvy
  have ha : Accepted c r' ys o' := ⟨k1, k2, hd⟩
  obtain ⟨segs, t1, t2⟩ := h.trace
  obtain ⟨segs', t1', t2'⟩ := ha.trace
  obtain ⟨g, g1, g2, g3⟩ := excerpt_segments hl hm hf hc hx hv hr he t1 t1'
  have e : o.world.calls = [.contractId, .codex] ++ (segs.head?.getD [] ++ xs.tail.flatMap g) ++ [.read] := by
    rw [t2, flatten_head_tail segs, g2, List.flatMap_def]
  have e' : o'.world.calls = [.contractId, .codex] ++ (segs.head?.getD [] ++ ys.tail.flatMap g) ++ [.read] := by
    rw [t2', flatten_head_tail segs', g1, g3, List.flatMap_def]
  refine ⟨o', ha, ?_, ?_⟩
  · obtain ⟨l, p1, p2⟩ := he.rest
    rw [e, e']
    exact ⟨[.contractId, .codex] ++ (segs.head?.getD [] ++ l.flatMap g) ++ [.read],
      (((p1.flatMap_right g).append_left _).append_left _).append_right _,
      (((sublist_flatMap g p2).append_left _).append_left _).append_right _⟩
  · intro hp
    rw [e, e']
    exact (((hp.flatMap_right g).append_left _).append_left _).append_right _

/-- In the opposite direction. -/
theorem Spec.Excerpt.back {cid : ContractId} {xs ys : List (OperationSeals Seal)} (h : Excerpt cid xs ys)
    (hp : ys.tail.Perm xs.tail) {i : Nat} {b : OperationSeals Seal} (hb : xs[i]? = some b) :
    ∃ k, ys[k]? = some b ∧ (i = 0 ↔ k = 0) := by
  cases i with
  | zero => exact ⟨0, h.head.trans hb, by simp⟩
  | succ i =>
    have : b ∈ xs.tail := List.mem_of_getElem? (i := i) (by simpa using hb)
    obtain ⟨k, hk⟩ := List.getElem?_of_mem (hp.mem_iff.2 this)
    exact ⟨k + 1, by simpa using hk, by simp⟩

/-- The order does not matter for the result: a consignment without repeated operations and any
rearrangement of its blocks after the first, creators still before the operations that refer to their
outputs, leave contracts with the same memory and the same known operations. -/
theorem C76_confluence (hl : Lawful Seal C) (hm : LocalMemory Seal C) {c : C} (hf : Faithful (ContractApi.codex Seal c))
    (hc : LocalCodex (ContractApi.codex Seal c)) {r : R} {xs ys : List (OperationSeals Seal)} {o} (h : Accepted c r xs o)
    (hx : ∀ (i j : Nat) b b', xs[i]? = some b → xs[j]? = some b' →
      idAt (ContractApi.contractId Seal c) i b = idAt (ContractApi.contractId Seal c) j b' → i = j)
    (hr : ReadsEarlier (ContractApi.contractId Seal c) xs) (he : Excerpt (ContractApi.contractId Seal c) xs ys)
    (hp : ys.tail.Perm xs.tail) {R' : Type} [ReadOperation Seal R'] {r' : R'} {o'} (h' : Accepted c r' ys o') :
    ContractApi.memory Seal o'.world.contract = ContractApi.memory Seal o.world.contract ∧
    ContractApi.repo Seal o'.world.contract = ContractApi.repo Seal o.world.contract ∧
    (∀ i, ContractApi.isKnown Seal o'.world.contract i = ContractApi.isKnown Seal o.world.contract i) ∧
    ∀ cid op, codexAnswer Seal o'.world.contract cid op = codexAnswer Seal o.world.contract cid op := by
  obtain ⟨hv, hs⟩ := (ledgerValid_iff hx).1 h.valid
  have hcb := excerpt_callbacks hl hm hf hc hx hv hr he
  have hy : DistinctIds _ ys := he.ids hx
  have hvy := excerpt_ledgerValid hx hv he
  have hco := h.shape.contract
  have hco' := h'.shape.contract
  generalize hcid : ContractApi.contractId Seal c = cid at *
  have none_of : ∀ {zs : List (OperationSeals Seal)} {q : VerifiedOperation → Bool} {m : Nat},
      (∀ b' v, zs[m]? = some b' → v.opid = idAt cid m b' → v.operation = opAt cid m b' → q v = false) →
      (callbacksOf cid c zs m).filter (Applies q) = [] := by
    intro zs q m h
    subst hcid
    exact callbacksOf_applies hl hf h
  -- observations made of the operations with some id only
  have one : ∀ {X : Type} {f : C → X} {o : Opid}, Observed f (Applies (Seal := Seal) (creates o)) →
      f (contractAt cid c ys ys.length) = f (contractAt cid c xs xs.length) := by
    intro X f o ho
    rw [contractAt_eq_foldl, contractAt_eq_foldl]
    refine ho.same ?_
    have off : ∀ {zs : List (OperationSeals Seal)} {m : Nat}, (∀ b, zs[m]? = some b → o ≠ idAt cid m b) →
        (callbacksOf cid c zs m).filter (Applies (creates o)) = [] := by
      intro zs m hne
      refine none_of fun b v g1 g2 g3 => ?_
      simp only [creates, decide_eq_false_iff_not]
      exact fun e => hne b g1 (e.trans g2)
    by_cases hex : ∃ j bj, xs[j]? = some bj ∧ o = idAt cid j bj
    · obtain ⟨j, bj, hj, hoj⟩ := hex
      obtain ⟨k, hk, h0⟩ := he.back hp hj
      rw [filter_one (lt_length_of_getElem? hk), filter_one (lt_length_of_getElem? hj), (hcb k j bj hk hj h0).2.2]
      · exact fun m _ hne => off fun b hb e => hne (hx m j b bj hb hj (e.symm.trans hoj))
      · exact fun m _ hne => off fun b hb e => hne (hy m k b bj hb hk (by rw [idAt_same h0]; exact e.symm.trans hoj))
    · rw [filter_none, filter_none]
      · exact fun m _ => off fun b hb e => hex ⟨m, b, hb, e⟩
      · intro m _
        refine off fun b hb e => ?_
        obtain ⟨j, hj, hj0⟩ := he.place hb
        exact hex ⟨j, b, hj, by rw [← idAt_same hj0]; exact e⟩
  have two : ∀ a : CellAddr, (ContractApi.memory Seal (contractAt cid c ys ys.length)).destructible a =
      (ContractApi.memory Seal (contractAt cid c xs xs.length)).destructible a := by
    intro a
    rw [contractAt_eq_foldl, contractAt_eq_foldl]
    refine (observed_destructible hm a).same ?_
    have off : ∀ {zs : List (OperationSeals Seal)} {m : Nat}, (∀ b, zs[m]? = some b → a.opid ≠ idAt cid m b ∧ ¬ Consumes b a) →
        (callbacksOf cid c zs m).filter (Applies (touches a)) = [] := by
      intro zs m hne
      refine none_of fun b v g1 g2 g3 => ?_
      obtain ⟨n1, n2⟩ := hne b g1
      simp only [touches, Bool.or_eq_false_iff, decide_eq_false_iff_not, List.any_eq_false, decide_eq_true_eq]
      refine ⟨fun e => n1 (e.trans g2), fun inp hinp e => n2 ⟨inp, ?_, e⟩⟩
      rw [g3, opAt_inputs] at hinp
      exact hinp
    -- a consumed cell has its creator earlier
    have creator : ∀ {zs : List (OperationSeals Seal)} {i : Nat} {b}, LedgerValid c zs → zs[i]? = some b → Consumes b a →
        ∃ j bj, j < i ∧ zs[j]? = some bj ∧ a.opid = idAt cid j bj := by
      rintro zs i b hz hb ⟨inp, hinp, rfl⟩
      obtain ⟨seals, h1, _⟩ := hz.closed i b hb
      obtain ⟨s', j', bj', g2, g3, g4⟩ := forall₂_some h1 hinp
      rw [hcid] at g4
      exact ⟨j', bj', g2, g3, g4.1⟩
    by_cases hcon : ∃ (i : Nat) (b : OperationSeals Seal), xs[i]? = some b ∧ Consumes b a
    · obtain ⟨i, b, hi, hb⟩ := hcon
      obtain ⟨j, bj, hji, hj, hoj⟩ := creator hv hi hb
      obtain ⟨k, hk, h0⟩ := he.back hp hi
      obtain ⟨k', hk', h0'⟩ := he.back hp hj
      have hkk : k' < k := by
        obtain ⟨m, bm, g1, g2, g3⟩ := creator hvy hk hb
        have := hy k' m bj bm hk' g2 (by rw [idAt_same h0']; exact hoj.symm.trans g3)
        omega
      rw [filter_two (lt_length_of_getElem? hk) hkk, filter_two (lt_length_of_getElem? hi) hji,
        (hcb k i b hk hi h0).2.2, (hcb k' j bj hk' hj h0').2.2]
      · exact fun m _ n1 n2 => off fun b' hb' =>
          ⟨fun e => n1 (hx m j b' bj hb' hj (e.symm.trans hoj)), fun e => n2 (nodup_once hv.once hb' hi e hb)⟩
      · exact fun m _ n1 n2 => off fun b' hb' =>
          ⟨fun e => n1 (hy m k' b' bj hb' hk' (by rw [idAt_same h0']; exact e.symm.trans hoj)),
            fun e => n2 (nodup_once hvy.once hb' hk e hb)⟩
    · have hcony : ∀ (k : Nat) (b : OperationSeals Seal), ys[k]? = some b → ¬ Consumes b a := by
        intro k b hk hb
        obtain ⟨i, hi, _⟩ := he.place hk
        exact hcon ⟨i, b, hi, hb⟩
      by_cases hex : ∃ j bj, xs[j]? = some bj ∧ a.opid = idAt cid j bj
      · obtain ⟨j, bj, hj, hoj⟩ := hex
        obtain ⟨k, hk, h0⟩ := he.back hp hj
        rw [filter_one (lt_length_of_getElem? hk), filter_one (lt_length_of_getElem? hj), (hcb k j bj hk hj h0).2.2]
        · exact fun m _ hne => off fun b hb => ⟨fun e => hne (hx m j b bj hb hj (e.symm.trans hoj)), fun e => hcon ⟨m, b, hb, e⟩⟩
        · exact fun m _ hne => off fun b hb =>
            ⟨fun e => hne (hy m k b bj hb hk (by rw [idAt_same h0]; exact e.symm.trans hoj)), hcony m b hb⟩
      · rw [filter_none, filter_none]
        · exact fun m _ => off fun b hb => ⟨fun e => hex ⟨m, b, hb, e⟩, fun e => hcon ⟨m, b, hb, e⟩⟩
        · intro m _
          refine off fun b hb => ⟨fun e => ?_, hcony m b hb⟩
          obtain ⟨j, hj, hj0⟩ := he.place hb
          exact hex ⟨j, b, hj, by rw [← idAt_same hj0]; exact e⟩
  have hrepo : ∀ l : List (Call Seal), ∀ d : C, ContractApi.repo Seal (l.foldl perform d) = ContractApi.repo Seal d := by
    intro l
    induction l with
    | nil => intro d; rfl
    | cons x l ihl => intro d; rw [List.foldl_cons, ihl, hm.repo]
  have e1 : ContractApi.memory Seal o'.world.contract = ContractApi.memory Seal o.world.contract := by
    rw [hco, hco']
    have i1 := funext two
    have i2 : (ContractApi.memory Seal (contractAt cid c ys ys.length)).immutable =
        (ContractApi.memory Seal (contractAt cid c xs xs.length)).immutable := funext fun a => one (observed_immutable hm a)
    revert i1 i2
    generalize ContractApi.memory Seal (contractAt cid c ys ys.length) = m₁
    generalize ContractApi.memory Seal (contractAt cid c xs xs.length) = m₂
    intro i1 i2
    cases m₁; cases m₂
    simp only [Memory.mk.injEq]
    exact ⟨i1, i2⟩
  have e2 : ContractApi.repo Seal o'.world.contract = ContractApi.repo Seal o.world.contract := by
    rw [hco, hco', contractAt_eq_foldl, contractAt_eq_foldl, hrepo, hrepo]
  refine ⟨e1, e2, ?_, ?_⟩
  · rw [hco, hco']
    exact fun i => one (observed_known hl i)
  · intro cid' op
    unfold codexAnswer
    rw [e1, e2, hco, hco', hl.contractAt_codex, hl.contractAt_codex]

end

namespace Demo
theorem find_applied (c : Ledger) (v : VerifiedOperation) (a : CellAddr) :
    (ContractApi.memory Nat (ContractApi.applyOperation Nat c v)).destructible a =
      if (v.operation.destructibleIn.map (·.addr)).contains a then none
      else (c.find a).or (((outputs v.opid 0 v.operation.destructibleOut).find? (·.1 == a)).map (·.2)) := by
  change Ledger.find _ a = _
  simp only [Ledger.find, ContractApi.applyOperation, List.find?_filter]
  cases h : (v.operation.destructibleIn.map (·.addr)).contains a with
  | true =>
    rw [if_pos rfl, List.find?_eq_none.2, Option.map_none]
    intro e _ he
    simp only [beq_iff_eq, decide_eq_true_eq] at he
    rw [he.2, h] at he
    simp at he
  | false =>
    rw [if_neg (by simp), show (fun e : CellAddr × StateCell => decide ((!(v.operation.destructibleIn.map (·.addr)).contains e.1) = true ∧
      (e.1 == a) = true)) = fun e => e.1 == a from ?_, List.find?_append]
    · cases c.cells.find? (fun e => e.1 == a) <;> rfl
    · funext e
      by_cases he : e.1 = a
      · rw [he, h]; simp
      · simp [he]

theorem ledger_localMemory : LocalMemory Nat Ledger where
  destructible c v a h1 h2 := by
    rw [find_applied, if_neg, List.find?_eq_none.2, Option.map_none, Option.or_none]
    · rfl
    · intro e he hea
      exact h1 (by rw [← beq_iff_eq.1 hea]; exact outputs_opid he)
    · simp only [List.contains_eq_mem, List.mem_map, decide_eq_true_eq, not_exists, not_and]
      exact h2
  destructible_congr c d v a h := by
    rw [find_applied, find_applied]
    have : c.find a = d.find a := h
    rw [this]
  immutable _ _ _ _ := rfl
  immutable_congr _ _ _ _ h := h
  seals _ _ _ := rfl
  witness _ _ _ := rfl
  repo _ _ := rfl

theorem codex_local : LocalCodex codex := by
  intro cid op mem mem' repo h _
  simp only [codex]
  have : op.destructibleIn.any (fun i => (mem.destructible i.addr).isNone) =
      op.destructibleIn.any (fun i => (mem'.destructible i.addr).isNone) := by
    rw [Bool.eq_iff_iff, List.any_eq_true, List.any_eq_true]
    constructor
    · rintro ⟨i, hi, e⟩; exact ⟨i, hi, by rw [← h i hi]; exact e⟩
    · rintro ⟨i, hi, e⟩; exact ⟨i, hi, by rw [h i hi]; exact e⟩
  rw [this]

/-- A transfer of the output of `transfer1`. -/
def onward : Block := ⟨op 104 [at_ 101 0] [.abs 12], .collect [(0, .abs 12)], some (wit 54 [50003] 104)⟩

/-- Two transfers from genesis and one of the output of the first. -/
def branches : List Block := [genesis, transfer1, transfer3, onward]

theorem distinct_of_nodup {cid : ContractId} {xs : List Block} (h : (xs.zipIdx.map fun e => idAt cid e.2 e.1).Nodup) :
    ∀ (i j : Nat) b b', xs[i]? = some b → xs[j]? = some b' → idAt cid i b = idAt cid j b' → i = j := by
  intro i j b b' hb hb' e
  have h1 : (xs.zipIdx.map fun e => idAt cid e.2 e.1)[i]? = some (idAt cid i b) := by simp [hb]
  have h2 : (xs.zipIdx.map fun e => idAt cid e.2 e.1)[j]? = some (idAt cid i b) := by simp [hb', e]
  exact (List.getElem?_inj (lt_length_of_getElem? h1) h).1 (by rw [h1, h2])

theorem excerpt_of {cid : ContractId} {xs ys : List Block} (h0 : ys[0]? = xs[0]?) (h1 : ys.tail.Subperm xs.tail)
    (h2 : ∀ e ∈ ys.zipIdx, ∀ e' ∈ xs.zipIdx, ∀ a ∈ e.1.operation.destructibleIn.map (·.addr) ++ e.1.operation.immutableIn,
      a.opid = idAt cid e'.2 e'.1 → ∃ e'' ∈ ys.zipIdx, e''.2 < e.2 ∧ a.opid = idAt cid e''.2 e''.1) : Excerpt cid xs ys where
  head := h0
  rest := h1
  creators k j b bj a hk ha hj e := by
    obtain ⟨⟨b', k'⟩, g1, g2, g3⟩ := h2 (b, k) (List.mem_zipIdx_iff_getElem?.2 hk) (bj, j) (List.mem_zipIdx_iff_getElem?.2 hj) a (by
      rw [List.mem_append, List.mem_map]
      exact ha) e
    exact ⟨k', b', g2, List.mem_zipIdx_iff_getElem?.1 g1, g3⟩

theorem branches_reads : ReadsEarlier (Seal := Nat) ⟨9⟩ branches := by
  intro i j b bj a ha hb
  have : ∀ b ∈ branches, b.operation.immutableIn = [] := by decide +kernel
  rw [this b (List.mem_of_getElem? hb)] at ha
  simp at ha
end Demo

open Demo in
/-- The second transfer alone. -/
example : ∃ o, Lawful Nat Ledger ∧ LocalMemory Nat Ledger ∧ Faithful (ContractApi.codex Nat ledger) ∧
    LocalCodex (ContractApi.codex Nat ledger) ∧ Accepted ledger (Tape.mk branches none) branches o ∧
    (∀ (i j : Nat) b b', branches[i]? = some b → branches[j]? = some b' →
      idAt (ContractApi.contractId Nat ledger) i b = idAt (ContractApi.contractId Nat ledger) j b' → i = j) ∧
    ReadsEarlier (ContractApi.contractId Nat ledger) branches ∧
    Excerpt (ContractApi.contractId Nat ledger) branches [genesis, transfer3] ∧
    Delivers (Tape.mk [genesis, transfer3] none) [genesis, transfer3] := by
  obtain ⟨o, h⟩ := accepted_of_accepts (c := ledger) (bs := branches) (by decide +kernel)
  exact ⟨o, ledger_lawful, ledger_localMemory, codex_faithful, codex_local, h, distinct_of_nodup (cid := ⟨9⟩) (by decide +kernel), branches_reads,
    excerpt_of rfl ⟨[transfer3], .refl _, .cons _ (.cons_cons _ (.cons _ .slnil))⟩ (by decide +kernel), tape_delivers _⟩

open Demo in
/-- The transfers in another order. -/
example : ∃ o o', Accepted ledger (Tape.mk branches none) branches o ∧
    Excerpt (ContractApi.contractId Nat ledger) branches [genesis, transfer3, transfer1, onward] ∧
    [genesis, transfer3, transfer1, onward].tail.Perm branches.tail ∧
    Accepted ledger (Tape.mk [genesis, transfer3, transfer1, onward] none) [genesis, transfer3, transfer1, onward] o' := by
  obtain ⟨o, h⟩ := accepted_of_accepts (c := ledger) (bs := branches) (by decide +kernel)
  obtain ⟨o', h'⟩ := accepted_of_accepts (c := ledger) (bs := [genesis, transfer3, transfer1, onward]) (by decide +kernel)
  exact ⟨o, o', h, excerpt_of rfl ⟨branches.tail, .swap _ _ _, .refl _⟩ (by decide +kernel), .swap _ _ _, h'⟩

namespace Demo
/-- A codex like `codex` that accepts spending genesis output 1 only when the output of the first transfer
exists. -/
def nosyCodex : Codex where
  codexId := ⟨7⟩
  verify cid op mem repo :=
    if op.destructibleIn.any (·.addr == at_ 100 1) && (mem.destructible (at_ 101 0)).isNone then .error ⟨"too early"⟩
    else codex.verify cid op mem repo

/-- A ledger with this codex. -/
def nosy : Ledger := { ledger with codex := nosyCodex }
end Demo

open Demo in
/-- That the codex looks only at the cells an operation refers to is needed: otherwise an operation may
depend on one which an excerpt leaves out. -/
theorem C76_needs_local : ∃ (c : Ledger) (xs ys : List Block) (r r' : Tape) (o o' : Outcome Nat Tape Ledger String),
    Lawful Nat Ledger ∧ LocalMemory Nat Ledger ∧ Faithful (ContractApi.codex Nat c) ∧ Accepted c r xs o ∧
    (∀ (i j : Nat) b b', xs[i]? = some b → xs[j]? = some b' →
      idAt (ContractApi.contractId Nat c) i b = idAt (ContractApi.contractId Nat c) j b' → i = j) ∧
    ReadsEarlier (ContractApi.contractId Nat c) xs ∧ Excerpt (ContractApi.contractId Nat c) xs ys ∧
    Delivers r' ys ∧ evaluate (Seal := Nat) c r' = some o' ∧ o'.result = .error (.vm ⟨"too early"⟩) := by
  obtain ⟨o₁, h1⟩ := accepted_of_accepts (c := nosy) (bs := branches) (by decide +kernel)
  obtain ⟨hv, l, hr⟩ := rejection_of (c := nosy) (bs := [genesis]) (b := transfer3) (e := .vm ⟨"too early"⟩) rfl
  obtain ⟨o₂, h2, h3, _⟩ := evaluate_of_rejection (tape_startsWith ([genesis] ++ [transfer3]) [] none) hv hr
  refine ⟨nosy, branches, [genesis, transfer3], Tape.mk branches none, Tape.mk [genesis, transfer3] none, o₁, o₂, ledger_lawful,
    ledger_localMemory, ?_, h1, distinct_of_nodup (cid := ⟨9⟩) (by decide +kernel), branches_reads,
    excerpt_of rfl ⟨[transfer3], .refl _, .cons _ (.cons_cons _ (.cons _ .slnil))⟩ (by decide +kernel), tape_delivers _, h2, h3⟩
  intro cid op mem repo v h
  change (if _ then _ else _) = _ at h
  split at h
  · simp at h
  · exact codex_faithful cid op mem repo v h

end Rgb
