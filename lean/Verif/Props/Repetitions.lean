import Verif.Props.Reports
import Verif.Props.Authenticity

set_option linter.unusedSectionVars false

/-! # C96: repetitions of operations can be removed from consignments -/

namespace Rgb
open Spec

section
variable {Seal : Type} [LinearOrder Seal] [RgbSeal Seal] [OpHash]

/-- The blocks of the consignment, with their positions, that are the first to carry their operation. -/
def Spec.firsts (cid : ContractId) (xs : List (OperationSeals Seal)) : List (OperationSeals Seal × Nat) :=
  xs.zipIdx.filter fun e => (xs.take e.2).zipIdx.all fun e' => idAt cid e'.2 e'.1 != idAt cid e.2 e.1

/-- All that blocks of the consignment reveal of the outputs of the operation `x`. -/
def Spec.revealedOf (cid : ContractId) (xs : List (OperationSeals Seal)) (x : Opid) : List (U16 × RgbSeal.Definition Seal) :=
  (xs.zipIdx.filter fun e => idAt cid e.2 e.1 == x).flatMap fun e => e.1.definedSeals.entries

/-- The consignment without repetitions: of the blocks carrying the same operation only the first one is kept, and
all that the others reveal is added to it. -/
def Spec.condense (cid : ContractId) (xs : List (OperationSeals Seal)) : List (OperationSeals Seal) :=
  (firsts cid xs).map fun e => { e.1 with definedSeals := OMap.collect (revealedOf cid xs (idAt cid e.2 e.1)) }

end

section
variable {Seal : Type} [LinearOrder Seal] [RgbSeal Seal] [OpHash]
variable {C E : Type} [ContractApi Seal C]
variable {R : Type} [ReadOperation Seal R]
variable {cid : ContractId} {xs : List (OperationSeals Seal)}

theorem mem_firsts {x : OperationSeals Seal} {i : Nat} : (x, i) ∈ firsts cid xs ↔ xs[i]? = some x ∧
    ∀ (j : Nat) y, j < i → xs[j]? = some y → idAt cid j y ≠ idAt cid i x := by
  simp only [firsts, List.mem_filter, List.mem_zipIdx_iff_getElem?, List.all_eq_true, bne_iff_ne, Prod.forall,
    List.getElem?_take]
  refine and_congr_right fun _ => ⟨fun h j y hj hy => h y j (by rw [if_pos hj]; exact hy), fun h y j hy => ?_⟩
  split at hy
  · rename_i hj
    exact h j y hj hy
  · simp at hy

theorem getElem?_below {α : Type} {l : List α} {j k : Nat} {a : α} (h : l[k]? = some a) (hj : j ≤ k) : ∃ b, l[j]? = some b :=
  ⟨_, List.getElem?_eq_getElem (Nat.lt_of_le_of_lt hj (lt_length_of_getElem? h))⟩

theorem firsts_sorted : (firsts cid xs).Pairwise fun e e' => e.2 < e'.2 := by
  refine List.Pairwise.filter _ ?_
  rw [List.pairwise_iff_getElem]
  intro i j hi hj hlt
  simpa using hlt

theorem firsts_lt {k l i j : Nat} {x y : OperationSeals Seal} (h : (firsts cid xs)[k]? = some (x, i))
    (h' : (firsts cid xs)[l]? = some (y, j)) (hlt : k < l) : i < j := by
  obtain ⟨hk, e⟩ := List.getElem?_eq_some_iff.1 h
  obtain ⟨hl, e'⟩ := List.getElem?_eq_some_iff.1 h'
  have := List.pairwise_iff_getElem.1 (firsts_sorted (cid := cid) (xs := xs)) k l hk hl hlt
  rw [e, e'] at this
  exact this

/-- Every operation of the consignment has a first block. -/
theorem exists_first {i : Nat} {x : OperationSeals Seal} (hx : xs[i]? = some x) :
    ∃ (j : Nat) (y : OperationSeals Seal), j ≤ i ∧ (y, j) ∈ firsts cid xs ∧ idAt cid j y = idAt cid i x := by
  classical
  have hex : ∃ j, ∃ y, xs[j]? = some y ∧ idAt cid j y = idAt cid i x := ⟨i, x, hx, rfl⟩
  obtain ⟨y, h1, h2⟩ := Nat.find_spec hex
  refine ⟨Nat.find hex, y, Nat.find_min' hex ⟨x, hx, rfl⟩, mem_firsts.2 ⟨h1, fun j y' hj hy' e => ?_⟩, h2⟩
  exact Nat.find_min hex hj ⟨y', hy', e.trans h2⟩

theorem firsts_index {k i : Nat} {x : OperationSeals Seal} (h : (firsts cid xs)[k]? = some (x, i)) : i = 0 ↔ k = 0 := by
  constructor
  · rintro rfl
    by_contra hk
    obtain ⟨⟨y, j⟩, h0⟩ := getElem?_below h (Nat.zero_le k)
    have := firsts_lt h0 h (Nat.pos_of_ne_zero hk)
    omega
  · rintro rfl
    by_contra hi
    have hx := (mem_firsts.1 (List.mem_of_getElem? h)).1
    obtain ⟨x₀, h0⟩ := getElem?_below hx (Nat.zero_le i)
    obtain ⟨j, y, hj, hm, _⟩ := exists_first (cid := cid) h0
    obtain rfl : j = 0 := by omega
    obtain ⟨l, hl⟩ := List.getElem?_of_mem hm
    by_cases hl0 : l = 0
    · subst hl0
      rw [h] at hl
      injection hl with hl
      injection hl with _ hl
      exact hi hl
    · have := firsts_lt h hl (Nat.pos_of_ne_zero hl0)
      omega

theorem get_condense {k : Nat} {z : OperationSeals Seal} (h : (condense cid xs)[k]? = some z) :
    ∃ x i, (firsts cid xs)[k]? = some (x, i) ∧ z = { x with definedSeals := OMap.collect (revealedOf cid xs (idAt cid i x)) } := by
  simp only [condense, List.getElem?_map, Option.map_eq_some_iff] at h
  obtain ⟨⟨x, i⟩, h1, h2⟩ := h
  exact ⟨x, i, h1, h2.symm⟩

theorem put_condense {k i : Nat} {x : OperationSeals Seal} (h : (firsts cid xs)[k]? = some (x, i)) :
    (condense cid xs)[k]? = some { x with definedSeals := OMap.collect (revealedOf cid xs (idAt cid i x)) } := by
  simp [condense, h]

theorem op_condense {k i : Nat} {x : OperationSeals Seal} (h : (firsts cid xs)[k]? = some (x, i)) (m) :
    opAt cid k { x with definedSeals := m } = opAt cid i x := by
  have := firsts_index h
  by_cases hk : k = 0
  · simp [opAt, hk, this.2 hk]
  · have hi : ¬ i = 0 := fun hi => hk (this.1 hi)
    rw [opAt, opAt, if_neg hk, if_neg hi]

theorem id_condense {k i : Nat} {x : OperationSeals Seal} (h : (firsts cid xs)[k]? = some (x, i)) (m) :
    idAt cid k { x with definedSeals := m } = idAt cid i x := by
  unfold idAt
  rw [op_condense h]

theorem mem_revealedOf {o : Opid} {p : U16} {d} : (p, d) ∈ revealedOf cid xs o ↔
    ∃ (i : Nat) (x : OperationSeals Seal), xs[i]? = some x ∧ idAt cid i x = o ∧ (p, d) ∈ x.definedSeals.entries := by
  simp only [revealedOf, List.mem_flatMap, List.mem_filter, List.mem_zipIdx_iff_getElem?, beq_iff_eq, Prod.exists]
  constructor
  · rintro ⟨x, i, ⟨h1, h2⟩, h3⟩
    exact ⟨i, x, h1, h2, h3⟩
  · rintro ⟨i, x, h1, h2, h3⟩
    exact ⟨x, i, ⟨h1, h2⟩, h3⟩

theorem mem_collect_functional {K V : Type} [LinearOrder K] {items : List (K × V)}
    (hf : ∀ k v v', (k, v) ∈ items → (k, v') ∈ items → v' = v) {k : K} {v : V} :
    (k, v) ∈ (OMap.collect items).entries ↔ (k, v) ∈ items := by
  rw [← OMap.get?_eq_some]
  constructor
  · intro h
    by_cases hp : ∃ v, (k, v) ∈ items
    · obtain ⟨v₁, hv⟩ := hp
      have := OMap.get?_extend_of_mem (m := OMap.empty) hv (fun v' h' => hf _ _ _ hv h')
      exact Option.some.inj (this.symm.trans h) ▸ hv
    · have := OMap.get?_extend_of_not_mem (m := OMap.empty) (fun v hv => hp ⟨v, hv⟩)
      rw [show (OMap.collect items).get? k = none from this] at h
      simp at h
  · intro h
    exact OMap.get?_extend_of_mem h fun v' h' => hf _ _ _ h h'

theorem mem_union (hw : WellFormed cid xs xs) {o : Opid} {p : U16} {d} :
    (p, d) ∈ (OMap.collect (revealedOf cid xs o)).entries ↔
    ∃ (i : Nat) (x : OperationSeals Seal), xs[i]? = some x ∧ idAt cid i x = o ∧ (p, d) ∈ x.definedSeals.entries := by
  rw [mem_collect_functional, mem_revealedOf]
  intro p d d' h h'
  obtain ⟨i, x, h1, h2, h3⟩ := mem_revealedOf.1 h
  obtain ⟨j, y, h4, h5, h6⟩ := mem_revealedOf.1 h'
  exact same_definition hw h4 h1 (h5.trans h2.symm) h6 h3

theorem condense_distinct (k l : Nat) (b b' : OperationSeals Seal) (hb : (condense cid xs)[k]? = some b)
    (hb' : (condense cid xs)[l]? = some b') (e : idAt cid k b = idAt cid l b') : k = l := by
  obtain ⟨x, i, hx, rfl⟩ := get_condense hb
  obtain ⟨y, j, hy, rfl⟩ := get_condense hb'
  rw [id_condense hx, id_condense hy] at e
  obtain ⟨x1, x2⟩ := mem_firsts.1 (List.mem_of_getElem? hx)
  obtain ⟨y1, y2⟩ := mem_firsts.1 (List.mem_of_getElem? hy)
  rcases Nat.lt_trichotomy k l with hlt | rfl | hlt
  · exact absurd e (y2 i x (firsts_lt hx hy hlt) x1)
  · rfl
  · exact absurd e.symm (x2 j y (firsts_lt hy hx hlt) y1)

/-- The consignment without repetitions is a merge of the consignment with itself. -/
theorem condense_merges {c : C} {r : R} {o} (h : Accepted c r xs o) (hw : WellFormed (ContractApi.contractId Seal c) xs xs) :
    Merges (ContractApi.contractId Seal c) (· = xs) (condense (ContractApi.contractId Seal c) xs) where
  distinct := condense_distinct
  source := by
    intro k z hz
    obtain ⟨x, i, hx, rfl⟩ := get_condense hz
    exact ⟨xs, i, x, rfl, (mem_firsts.1 (List.mem_of_getElem? hx)).1, (op_condense hx _).symm, rfl⟩
  present := by
    rintro _ i x rfl hx
    obtain ⟨j, y, _, hm, e⟩ := exists_first (cid := ContractApi.contractId Seal c) hx
    obtain ⟨k, hk⟩ := List.getElem?_of_mem hm
    exact ⟨k, _, put_condense hk, (id_condense hk _).trans e⟩
  revealed := by
    intro k z p d hz hd
    obtain ⟨x, i, hx, rfl⟩ := get_condense hz
    obtain ⟨j, y, h1, h2, h3⟩ := (mem_union hw).1 hd
    exact ⟨xs, j, y, rfl, h1, h2.trans (id_condense hx _).symm, h3⟩
  kept := by
    rintro _ i x k z p d rfl hx hz e hd
    obtain ⟨y, j, hy, rfl⟩ := get_condense hz
    rw [id_condense hy] at e
    exact (mem_union hw).2 ⟨i, x, hx, e.symm, hd⟩
  creatorsFirst := by
    intro k l b b' a hb hb' hc e
    obtain ⟨x, i, hx, rfl⟩ := get_condense hb
    obtain ⟨y, j, hy, rfl⟩ := get_condense hb'
    rw [id_condense hy] at e
    obtain ⟨inp, hi, rfl⟩ := hc
    obtain ⟨m, bm, _, hm, hbm, hid, _⟩ := C07_causality h (mem_firsts.1 (List.mem_of_getElem? hx)).1 hi
    have hjm : j ≤ m := by
      by_contra hlt
      exact (mem_firsts.1 (List.mem_of_getElem? hy)).2 m bm (by omega) hbm (hid.symm.trans e)
    by_contra hlt
    rcases Nat.lt_or_eq_of_le (Nat.le_of_not_lt hlt) with hlt | rfl
    · have := firsts_lt hx hy hlt
      omega
    · rw [hx] at hy
      injection hy with hy
      injection hy with _ hy
      omega

/-- The number of operations met among the first `n` blocks. -/
def metBefore (cid : ContractId) (xs : List (OperationSeals Seal)) (n : Nat) : Nat :=
  ((firsts cid xs).filter fun e => decide (e.2 < n)).length

theorem filter_lt_take {α : Type} (f : α → Nat) (l : List α) (h : l.Pairwise fun a b => f a < f b) (n : Nat) :
    l.filter (fun a => decide (f a < n)) = l.take (l.filter fun a => decide (f a < n)).length := by
  induction l with
  | nil => rfl
  | cons a l ih =>
    rw [List.pairwise_cons] at h
    by_cases ha : f a < n
    · simp only [List.filter_cons, ha, decide_true, if_true, List.length_cons, List.take_succ_cons]
      rw [← ih h.2]
    · have : l.filter (fun a => decide (f a < n)) = [] := by
        rw [List.filter_eq_nil_iff]
        intro b hb
        have := h.1 b hb
        simp
        omega
      simp [ha, this]

theorem met_get {n k : Nat} {e : OperationSeals Seal × Nat} (h : (firsts cid xs)[k]? = some e) :
    k < metBefore cid xs n ↔ e.2 < n := by
  have ht := filter_lt_take (fun e : OperationSeals Seal × Nat => e.2) (firsts cid xs) firsts_sorted n
  constructor
  · intro hk
    have h1 : ((firsts cid xs).take (metBefore cid xs n))[k]? = some e := by rw [List.getElem?_take, if_pos hk]; exact h
    rw [metBefore, ← ht] at h1
    simpa using (List.mem_filter.1 (List.mem_of_getElem? h1)).2
  · intro hn
    have h1 : e ∈ (firsts cid xs).take (metBefore cid xs n) := by
      rw [metBefore, ← ht]
      exact List.mem_filter.2 ⟨List.mem_of_getElem? h, by simpa using hn⟩
    obtain ⟨l, hl⟩ := List.getElem?_of_mem h1
    have hlt := lt_length_of_getElem? hl
    rw [List.getElem?_take] at hl
    split at hl
    · rename_i hlm
      obtain ⟨x, i⟩ := e
      rcases Nat.lt_trichotomy k l with g | rfl | g
      · omega
      · exact hlm
      · have := firsts_lt hl h g
        omega
    · simp at hl

theorem met_succ_first {n : Nat} {x : OperationSeals Seal} (h : (x, n) ∈ firsts cid xs) :
    (firsts cid xs)[metBefore cid xs n]? = some (x, n) ∧ metBefore cid xs (n + 1) = metBefore cid xs n + 1 := by
  obtain ⟨k, hk⟩ := List.getElem?_of_mem h
  have h1 := (met_get (n := n) hk)
  have h2 := (met_get (n := n + 1) hk)
  have e1 : metBefore cid xs n = k := by
    by_contra hne
    have hlt : metBefore cid xs n < k := by
      by_contra hge
      have := h1.1 (by omega)
      simp at this
    obtain ⟨⟨y, j⟩, hg⟩ := getElem?_below hk (Nat.le_of_lt hlt)
    have := (met_get (n := n) hg).2 (firsts_lt hg hk hlt)
    omega
  refine ⟨by rw [e1]; exact hk, ?_⟩
  have hlt := h2.2 (by simp)
  by_contra hne
  have hgt : k + 1 < metBefore cid xs (n + 1) := by omega
  have hlen : k + 1 < (firsts cid xs).length :=
    Nat.lt_of_lt_of_le hgt (List.length_filter_le _ _)
  have hg : (firsts cid xs)[k + 1]? = some (firsts cid xs)[k + 1] := by simp
  have a1 := (met_get (n := n + 1) hg).1 hgt
  have a2 := firsts_lt (x := x) (i := n) (y := (firsts cid xs)[k + 1].1) (j := (firsts cid xs)[k + 1].2) hk hg (by omega)
  omega

theorem met_succ_repeat {n : Nat} (h : ∀ x, (x, n) ∉ firsts cid xs) : metBefore cid xs (n + 1) = metBefore cid xs n := by
  unfold metBefore
  congr 1
  refine List.filter_congr ?_
  rintro ⟨x, i⟩ hx
  have : i ≠ n := by rintro rfl; exact h x hx
  simp only [decide_eq_decide]
  omega

theorem met_all {n : Nat} (h : xs.length ≤ n) : metBefore cid xs n = (condense cid xs).length := by
  rw [condense, List.length_map, metBefore, List.filter_eq_self.2]
  rintro ⟨x, i⟩ hx
  have := lt_length_of_getElem? (mem_firsts.1 hx).1
  simp
  omega

theorem operationCallbacks_blind {S : C → C → Prop} (hS : ReportBlind (Seal := Seal) S) {c d : C} (h : S c d) {i k : Nat}
    (hik : i = 0 ↔ k = 0) {b b' : OperationSeals Seal} (e : opAt cid k b' = opAt cid i b) :
    operationCallbacks cid d k b' = operationCallbacks cid c i b := by
  have e' : idAt cid k b' = idAt cid i b := by unfold idAt; rw [e]
  unfold operationCallbacks
  rw [e, e', hS.isKnown _ _ h, hS.verify _ _ h]
  simp only [hik]

/-- After the first `n` blocks, the contract is as it is after the operations met so far, and these are applied in
the same order. -/
theorem condense_at (hl : Lawful Seal C) {S : C → C → Prop} (hS : ReportBlind (Seal := Seal) S) {c : C}
    (hf : Faithful (ContractApi.codex Seal c)) (hv : ValidConsignment c xs) (h0 : ∀ b, xs[0]? = some b → KnownStart c b) (n : Nat) :
    S (contractAt (ContractApi.contractId Seal c) c xs n)
      (contractAt (ContractApi.contractId Seal c) c (condense (ContractApi.contractId Seal c) xs)
        (metBefore (ContractApi.contractId Seal c) xs n)) ∧
    (callbacksUpTo (ContractApi.contractId Seal c) c (condense (ContractApi.contractId Seal c) xs)
        (metBefore (ContractApi.contractId Seal c) xs n)).filterMap appliedOperation =
      (callbacksUpTo (ContractApi.contractId Seal c) c xs n).filterMap appliedOperation := by
  generalize hcid : ContractApi.contractId Seal c = cid at *
  have none_of : ∀ {l : List (Call Seal)}, (∀ x ∈ l, appliedOperation x = none) → l.filterMap appliedOperation = [] :=
    fun h => List.filterMap_eq_nil_iff.2 h
  induction n with
  | zero =>
    have : metBefore cid xs 0 = 0 := by simp [metBefore]
    rw [this]
    exact ⟨hS.refl c, rfl⟩
  | succ n ih =>
    cases hb : xs[n]? with
    | none =>
      have hnot : ∀ x, (x, n) ∉ firsts cid xs := by
        intro x hx
        rw [(mem_firsts.1 hx).1] at hb
        simp at hb
      rw [met_succ_repeat hnot, contractAt, callbacksUpTo, hb]
      simpa using ih
    | some x =>
      by_cases hfirst : (x, n) ∈ firsts cid xs
      · obtain ⟨g1, g2⟩ := met_succ_first hfirst
        have hz := put_condense g1
        have hidx := firsts_index g1
        rw [g2, contractAt, contractAt, callbacksUpTo, callbacksUpTo, hb, hz]
        simp only [callbacks, List.foldl_append, List.filterMap_append, none_of (witnessCallbacks_applied _ _),
          none_of (sealCallbacks_applied _ _)]
        rw [operationCallbacks_blind hS ih.1 hidx (op_condense g1 _), ih.2]
        refine ⟨?_, rfl⟩
        refine hS.foldl (sealCallbacks_applied _ _) (hS.foldlRight (sealCallbacks_applied _ _) ?_)
        have h1 := hS.foldl (witnessCallbacks_applied (idAt cid n x) x)
          (hS.foldlRight (witnessCallbacks_applied (idAt cid (metBefore cid xs n)
            { x with definedSeals := OMap.collect (revealedOf cid xs (idAt cid n x)) })
            { x with definedSeals := OMap.collect (revealedOf cid xs (idAt cid n x)) }) ih.1)
        unfold operationCallbacks
        split
        · exact h1
        · split
          · exact hS.operation _ _ h1 _
          · exact h1
      · have hnot : ∀ x, (x, n) ∉ firsts cid xs := by
          intro y hy
          have := (mem_firsts.1 hy).1
          rw [hb] at this
          obtain rfl := Option.some.inj this
          exact hfirst hy
        obtain ⟨j, y, hj, hm, e⟩ := exists_first (cid := cid) hb
        have hlt : j < n := by
          rcases Nat.lt_or_eq_of_le hj with h | rfl
          · exact h
          · exact absurd hm (hnot y)
        have hk := known_after hl hv hf h0 (mem_firsts.1 hm).1
        rw [hcid, e] at hk
        have hk := hl.contractAt_mono hlt hk
        have hop : operationCallbacks cid (contractAt cid c xs n) n x = [] := by
          unfold operationCallbacks
          rw [if_pos (.inr hk)]
        rw [met_succ_repeat hnot, contractAt, callbacksUpTo, hb]
        simp only [callbacks, hop, List.foldl_append, List.filterMap_append, none_of (witnessCallbacks_applied _ _),
          none_of (sealCallbacks_applied _ _), List.append_nil]
        exact ⟨hS.foldl (sealCallbacks_applied _ _) (hS.foldl (witnessCallbacks_applied _ _) ih.1), ih.2⟩

/-- **C96.**  Every accepted consignment has a version without repetitions which the same contract accepts as well: it
presents the same operations, each of them once and where it first occurs, and reveals the same seals.  Exactly
the same operations are applied, in the same order, and the contracts reached answer alike. -/
theorem C96_condensed (hl : Lawful Seal C) {S : C → C → Prop} (hS : ReportBlind (Seal := Seal) S) {c : C}
    (hf : Faithful (ContractApi.codex Seal c)) {r : R} {o} (h : Accepted c r xs o) (h0 : ∀ b, xs[0]? = some b → KnownStart c b)
    (hw : WellFormed (ContractApi.contractId Seal c) xs xs) (hn : NoClash (ContractApi.contractId Seal c) xs xs)
    {R' : Type} [ReadOperation Seal R'] {r' : R'} (hr : Delivers r' (condense (ContractApi.contractId Seal c) xs)) :
    ∃ o', Accepted c r' (condense (ContractApi.contractId Seal c) xs) o' ∧
      o'.world.calls.filterMap appliedOperation = o.world.calls.filterMap appliedOperation ∧
      S o.world.contract o'.world.contract := by
  have hat := condense_at hl hS hf h.valid h0
  have hm := condense_merges h hw
  obtain ⟨o', k1, k2⟩ := (C69_merge (c := c) (P := (· = xs)) (by
      rintro _ rfl
      exact ⟨C, _, c, R, _, r, o, rfl, h⟩) (by rintro _ _ rfl rfl; exact hw) (by rintro _ _ rfl rfl; exact hn) hm (by
      intro z hz
      obtain ⟨x, i, hx, rfl⟩ := get_condense hz
      obtain rfl := (firsts_index hx).2 rfl
      exact (h.valid 0 x (mem_firsts.1 (List.mem_of_getElem? hx)).1).codex rfl) hr).2 (by
      intro k z hz
      obtain ⟨x, i, hx, rfl⟩ := get_condense hz
      have hmem := List.mem_of_getElem? hx
      have hb := (mem_firsts.1 hmem).1
      have hki : metBefore (ContractApi.contractId Seal c) xs i = k := by
        obtain ⟨g1, _⟩ := met_succ_first hmem
        have g2 := firsts_lt g1 hx
        have g3 := firsts_lt hx g1
        omega
      have hs := (hat i).1
      rw [hki] at hs
      rw [id_condense hx, op_condense hx, ← hS.isKnown _ _ hs, ← hS.verify _ _ hs]
      cases hk : ContractApi.isKnown Seal (contractAt (ContractApi.contractId Seal c) c xs i)
          (idAt (ContractApi.contractId Seal c) i x) with
      | true => exact .inl rfl
      | false => exact .inr ((h.valid i x hb).script hk))
  have h' : Accepted c r' (condense (ContractApi.contractId Seal c) xs) o' := ⟨k1, k2, hr⟩
  have hend := hat xs.length
  rw [met_all (Nat.le_refl _)] at hend
  refine ⟨o', h', ?_, ?_⟩
  · rw [applied_filter o'.world.calls, applied_filter o.world.calls, h'.shape.callbacks, h.shape.callbacks]
    exact hend.2
  · rw [h'.shape.contract, h.shape.contract]
    exact hend.1

/-- What the version without repetitions consists of: blocks with different operations, each of which is the first
block of the consignment with its operation, revealing what the blocks with this operation reveal between them, and
in the same order; and no operation is left out. -/
theorem C96_content (hw : WellFormed cid xs xs) :
    (∀ (i j : Nat) b b', (condense cid xs)[i]? = some b → (condense cid xs)[j]? = some b' → idAt cid i b = idAt cid j b' → i = j) ∧
    (∀ (k : Nat) z, (condense cid xs)[k]? = some z → ∃ (i : Nat) (x : OperationSeals Seal), k ≤ i ∧ xs[i]? = some x ∧
      z.operation = x.operation ∧ z.witness = x.witness ∧ idAt cid k z = idAt cid i x ∧
      (∀ (j : Nat) y, j < i → xs[j]? = some y → idAt cid j y ≠ idAt cid i x) ∧
      ∀ p d, (p, d) ∈ z.definedSeals.entries ↔
        ∃ (j : Nat) (y : OperationSeals Seal), xs[j]? = some y ∧ idAt cid j y = idAt cid i x ∧ (p, d) ∈ y.definedSeals.entries) ∧
    ((condense cid xs).map fun z => (z.operation, z.witness)).Sublist (xs.map fun x => (x.operation, x.witness)) ∧
    ∀ (i : Nat) x, xs[i]? = some x → ∃ (k : Nat) (z : OperationSeals Seal), k ≤ i ∧ (condense cid xs)[k]? = some z ∧
      idAt cid k z = idAt cid i x := by
  have le_of : ∀ {k i : Nat} {x : OperationSeals Seal}, (firsts cid xs)[k]? = some (x, i) → k ≤ i := by
    intro k
    induction k with
    | zero => intro i x _; exact Nat.zero_le i
    | succ k ih =>
      intro i x h
      obtain ⟨⟨y, j⟩, hk⟩ := getElem?_below h (Nat.le_succ k)
      have h1 := ih hk
      have h2 := firsts_lt hk h (Nat.lt_succ_self k)
      omega
  refine ⟨condense_distinct, ?_, ?_, ?_⟩
  · intro k z hz
    obtain ⟨x, i, hx, rfl⟩ := get_condense hz
    obtain ⟨h1, h2⟩ := mem_firsts.1 (List.mem_of_getElem? hx)
    exact ⟨i, x, le_of hx, h1, rfl, rfl, id_condense hx _, h2, fun p d => mem_union hw⟩
  · have h1 : (condense cid xs).map (fun z => (z.operation, z.witness)) =
        (firsts cid xs).map fun e => (e.1.operation, e.1.witness) := by
      simp [condense, Function.comp_def]
    have h2 : xs.map (fun x => (x.operation, x.witness)) = xs.zipIdx.map fun e => (e.1.operation, e.1.witness) := by
      rw [show (fun e : OperationSeals Seal × Nat => (e.1.operation, e.1.witness)) =
        (fun x : OperationSeals Seal => (x.operation, x.witness)) ∘ Prod.fst from rfl, ← List.map_map, List.zipIdx_map_fst]
    rw [h1, h2]
    exact List.Sublist.map _ List.filter_sublist
  · intro i x hx
    obtain ⟨j, y, hj, hm, e⟩ := exists_first (cid := cid) hx
    obtain ⟨k, hk⟩ := List.getElem?_of_mem hm
    exact ⟨k, _, Nat.le_trans (le_of hk) hj, put_condense hk, (id_condense hk _).trans e⟩

/-- A consignment without repetitions is left as it is. -/
theorem C96_fixed (hd : ∀ (i j : Nat) b b', xs[i]? = some b → xs[j]? = some b' → idAt cid i b = idAt cid j b' → i = j) :
    condense cid xs = xs := by
  have hf : firsts cid xs = xs.zipIdx := by
    rw [firsts, List.filter_eq_self]
    rintro ⟨x, i⟩ hx
    have hx := List.mem_zipIdx_iff_getElem?.1 hx
    exact (List.mem_filter.1 (mem_firsts.2 ⟨hx, fun j y hj hy e => by
      have := hd j i y x hy hx e
      omega⟩)).2
  refine List.ext_getElem? fun i => ?_
  rw [condense, hf, List.getElem?_map, List.getElem?_zipIdx]
  cases hx : xs[i]? with
  | none => rfl
  | some x =>
    simp only [Option.map_some, Nat.zero_add, Option.some.injEq]
    have hm : ∀ p d, (p, d) ∈ (OMap.collect (revealedOf cid xs (idAt cid i x))).entries ↔ (p, d) ∈ x.definedSeals.entries := by
      intro p d
      have key : ∀ {p d}, (p, d) ∈ revealedOf cid xs (idAt cid i x) ↔ (p, d) ∈ x.definedSeals.entries := by
        intro p d
        rw [mem_revealedOf]
        constructor
        · rintro ⟨j, y, hy, e, h⟩
          obtain rfl := hd j i y x hy hx e
          rw [hx] at hy
          obtain rfl := Option.some.inj hy
          exact h
        · exact fun h => ⟨i, x, hx, rfl, h⟩
      rw [mem_collect_functional, key]
      intro p d d' h h'
      have h := OMap.get?_eq_some.2 (key.1 h)
      have h' := OMap.get?_eq_some.2 (key.1 h')
      exact Option.some.inj (h'.symm.trans h)
    have : OMap.collect (revealedOf cid xs (idAt cid i x)) = x.definedSeals := by
      refine OMap.ext_get? fun p => ?_
      cases h : x.definedSeals.get? p with
      | some d => exact OMap.get?_eq_some.2 ((hm p d).2 (OMap.get?_eq_some.1 h))
      | none => exact OMap.get?_eq_none.2 fun d hd => OMap.get?_eq_none.1 h d ((hm p d).1 hd)
    rw [this]

theorem mem_callbacksUpTo {c : C} {n : Nat} {y : Call Seal} : y ∈ callbacksUpTo cid c xs n ↔
    ∃ (i : Nat) (b : OperationSeals Seal), i < n ∧ xs[i]? = some b ∧ y ∈ callbacks cid (contractAt cid c xs i) i b := by
  induction n with
  | zero => simp [callbacksUpTo]
  | succ n ih =>
    rw [callbacksUpTo, List.mem_append, ih]
    constructor
    · rintro (⟨i, b, h1, h2, h3⟩ | h)
      · exact ⟨i, b, Nat.lt_succ_of_lt h1, h2, h3⟩
      · cases hb : xs[n]? with
        | none => rw [hb] at h; simp at h
        | some b => rw [hb] at h; exact ⟨n, b, Nat.lt_succ_self n, hb, h⟩
    · rintro ⟨i, b, h1, h2, h3⟩
      rcases Nat.lt_or_eq_of_le (Nat.le_of_lt_succ h1) with h | rfl
      · exact .inl ⟨i, b, h, h2, h3⟩
      · rw [h2]; exact .inr h3

theorem mem_reports {c : C} {r : R} {o} (h : Accepted c r xs o) {x : Opid} :
    (∀ w, Call.applyWitness x w ∈ o.world.calls ↔
      ∃ (i : Nat) (b : OperationSeals Seal), xs[i]? = some b ∧ x = idAt (ContractApi.contractId Seal c) i b ∧ b.witness = some w) ∧
    ∀ m, Call.applySeals x m ∈ o.world.calls ↔
      ∃ (i : Nat) (b : OperationSeals Seal), xs[i]? = some b ∧ x = idAt (ContractApi.contractId Seal c) i b ∧
        b.definedSeals = m ∧ m.entries ≠ [] := by
  have key : ∀ {y : Call Seal}, IsCallback y = true → (y ∈ o.world.calls ↔ ∃ (i : Nat) (b : OperationSeals Seal), xs[i]? = some b ∧
      y ∈ callbacks (ContractApi.contractId Seal c) (contractAt (ContractApi.contractId Seal c) c xs i) i b) := by
    intro y hy
    have : y ∈ o.world.calls ↔ y ∈ o.world.calls.filter IsCallback := by simp [List.mem_filter, hy]
    rw [this, h.shape.callbacks, mem_callbacksUpTo]
    constructor
    · rintro ⟨i, b, _, h2, h3⟩; exact ⟨i, b, h2, h3⟩
    · rintro ⟨i, b, h2, h3⟩; exact ⟨i, b, lt_length_of_getElem? h2, h2, h3⟩
  refine ⟨fun w => ?_, fun m => ?_⟩
  · rw [key rfl]
    refine exists_congr fun i => exists_congr fun b => and_congr_right fun _ => ⟨callback_witness, ?_⟩
    rintro ⟨rfl, hw⟩
    simp [callbacks, witnessCallbacks, hw]
  · rw [key rfl]
    refine exists_congr fun i => exists_congr fun b => and_congr_right fun _ => ⟨fun hm => ?_, ?_⟩
    · obtain ⟨rfl, rfl⟩ := callback_seals hm
      refine ⟨rfl, rfl, fun he => ?_⟩
      rcases List.mem_append.1 hm with hm | hm
      · rcases List.mem_append.1 hm with hm | hm
        · unfold witnessCallbacks at hm
          split at hm <;> simp at hm
        · unfold operationCallbacks at hm
          split at hm
          · simp at hm
          · split at hm <;> simp at hm
      · simp [sealCallbacks, he] at hm
    · rintro ⟨rfl, rfl, hne⟩
      simp [callbacks, sealCallbacks, hne]

/-- The contract is told the same seals. -/
theorem C96_reports {c : C} {r : R} {o} (h : Accepted c r xs o)
    (hw : WellFormed (ContractApi.contractId Seal c) xs xs) (hn : NoClash (ContractApi.contractId Seal c) xs xs)
    {R' : Type} [ReadOperation Seal R'] {r' : R'} {o'} (h' : Accepted c r' (condense (ContractApi.contractId Seal c) xs) o')
    (a : CellAddr) (s : Seal) : Reported o'.world.calls a s ↔ Reported o.world.calls a s := by
  have g := mem_reports h (x := a.opid)
  have g' := mem_reports h' (x := a.opid)
  generalize hcid : ContractApi.contractId Seal c = cid at *
  -- the definitions
  have hdef : ∀ d, (∃ m, Call.applySeals a.opid m ∈ o.world.calls ∧ (a.pos, d) ∈ m.entries) ↔
      ∃ (i : Nat) (b : OperationSeals Seal), xs[i]? = some b ∧ a.opid = idAt cid i b ∧ (a.pos, d) ∈ b.definedSeals.entries := by
    intro d
    constructor
    · rintro ⟨m, h1, h2⟩
      obtain ⟨i, b, k1, k2, rfl, _⟩ := (g.2 m).1 h1
      exact ⟨i, b, k1, k2, h2⟩
    · rintro ⟨i, b, k1, k2, k3⟩
      exact ⟨b.definedSeals, (g.2 _).2 ⟨i, b, k1, k2, rfl, List.ne_nil_of_mem k3⟩, k3⟩
  have hdef' : ∀ d, (∃ m, Call.applySeals a.opid m ∈ o'.world.calls ∧ (a.pos, d) ∈ m.entries) ↔
      ∃ (i : Nat) (b : OperationSeals Seal), xs[i]? = some b ∧ a.opid = idAt cid i b ∧ (a.pos, d) ∈ b.definedSeals.entries := by
    intro d
    constructor
    · rintro ⟨m, h1, h2⟩
      obtain ⟨k, z, k1, k2, rfl, _⟩ := (g'.2 m).1 h1
      obtain ⟨x, i, hx, rfl⟩ := get_condense k1
      rw [id_condense hx] at k2
      obtain ⟨j, y, e1, e2, e3⟩ := (mem_union hw).1 h2
      exact ⟨j, y, e1, k2.trans e2.symm, e3⟩
    · rintro ⟨i, b, k1, k2, k3⟩
      obtain ⟨j, y, _, hm, e⟩ := exists_first (cid := cid) k1
      obtain ⟨k, hk⟩ := List.getElem?_of_mem hm
      have hd : (a.pos, d) ∈ (OMap.collect (revealedOf cid xs (idAt cid j y))).entries := (mem_union hw).2 ⟨i, b, k1, e.symm, k3⟩
      exact ⟨_, (g'.2 _).2 ⟨k, _, put_condense hk, (k2.trans e.symm).trans (id_condense hk _).symm, rfl, List.ne_nil_of_mem hd⟩, hd⟩
  -- the ids of witnesses, if the operation has inputs
  have hwit : ∀ {j : Nat} {b : OperationSeals Seal}, xs[j]? = some b → a.opid = idAt cid j b → b.operation.destructibleIn ≠ [] →
      ∀ t, (∃ w, Call.applyWitness a.opid w ∈ o'.world.calls ∧ t = RgbSeal.pubId w.published) ↔
        ∃ w, Call.applyWitness a.opid w ∈ o.world.calls ∧ t = RgbSeal.pubId w.published := by
    intro j b hb hid hne t
    have one : ∀ {i : Nat} {x : OperationSeals Seal} {w}, xs[i]? = some x → a.opid = idAt cid i x → x.witness = some w →
        ∃ w', b.witness = some w' ∧ RgbSeal.pubId w.published = RgbSeal.pubId w'.published := by
      intro i x w hx hi hxw
      have hin := (same_inputs hw hb hx (hid.symm.trans hi)).1
      obtain ⟨w₁, w₂, e1, e2, e3⟩ := same_witness hcid hcid h.valid h.valid hw hn hx hb hin.symm (by rw [← hin]; exact hne)
      obtain rfl := Option.some.inj (hxw.symm.trans e1)
      exact ⟨w₂, e2, e3⟩
    constructor
    · rintro ⟨w, h1, rfl⟩
      obtain ⟨k, z, k1, k2, k3⟩ := (g'.1 w).1 h1
      obtain ⟨x, i, hx, rfl⟩ := get_condense k1
      rw [id_condense hx] at k2
      exact ⟨w, (g.1 w).2 ⟨i, x, (mem_firsts.1 (List.mem_of_getElem? hx)).1, k2, k3⟩, rfl⟩
    · rintro ⟨w, h1, rfl⟩
      obtain ⟨i, x, k1, k2, k3⟩ := (g.1 w).1 h1
      obtain ⟨l, y, _, hm, e⟩ := exists_first (cid := cid) k1
      obtain ⟨k, hk⟩ := List.getElem?_of_mem hm
      have hy := (mem_firsts.1 hm).1
      have hin := (same_inputs hw k1 hy e.symm).1
      have hin' := (same_inputs hw hb k1 (hid.symm.trans k2)).1
      obtain ⟨w₁, w₂, e1, e2, e3⟩ := same_witness hcid hcid h.valid h.valid hw hn k1 hy hin (by rw [← hin']; exact hne)
      obtain rfl := Option.some.inj (k3.symm.trans e1)
      exact ⟨w₂, (g'.1 w₂).2 ⟨k, _, put_condense hk, (k2.trans e.symm).trans (id_condense hk _).symm, e2⟩, e3⟩
  have swap : ∀ l : List (Call Seal), Reported l a s ↔ ∃ d, (∃ m, Call.applySeals a.opid m ∈ l ∧ (a.pos, d) ∈ m.entries) ∧
      (RgbSeal.toSrc d = some s ∨ RgbSeal.toSrc d = none ∧
        ∃ t, (∃ w, Call.applyWitness a.opid w ∈ l ∧ t = RgbSeal.pubId w.published) ∧ s = RgbSeal.resolve d t) := by
    intro l
    constructor
    · rintro ⟨m, d, h1, h2, h3⟩
      refine ⟨d, ⟨m, h1, h2⟩, h3.imp_right ?_⟩
      rintro ⟨e, w, k1, k2⟩
      exact ⟨e, _, ⟨w, k1, rfl⟩, k2⟩
    · rintro ⟨d, ⟨m, h1, h2⟩, h3⟩
      refine ⟨m, d, h1, h2, h3.imp_right ?_⟩
      rintro ⟨e, _, ⟨w, k1, rfl⟩, k2⟩
      exact ⟨e, w, k1, k2⟩
  rw [swap, swap]
  refine exists_congr fun d => ?_
  rw [hdef, hdef']
  refine and_congr_right ?_
  rintro ⟨i, b, k1, k2, k3⟩
  refine or_congr Iff.rfl (and_congr_right fun hr => exists_congr fun t => and_congr_left fun _ => ?_)
  exact hwit k1 k2 (hw.anchored b (.inl (List.mem_of_getElem? k1)) _ _ k3 hr) t

end

namespace Demo.Once
/-- Genesis presented again, revealing both its seals. -/
def originAgain : OperationSeals Int := { origin with operation := { genesisOp with contractId := ⟨9⟩ } }

/-- A consignment with two operations repeated; genesis reveals more the second time. -/
def wordy : List (OperationSeals Int) := [terse, move1, originAgain, move1, other, move2]
end Demo.Once

open Demo Demo.Once in
/-- The consignment and its version without repetitions. -/
example : Lawful Int Node ∧ ReportBlind (Seal := Int) (Eq (α := Node)) ∧ Faithful (ContractApi.codex Int node) ∧
    (∃ o, Accepted node (Feed.mk wordy) wordy o) ∧ (∀ b, wordy[0]? = some b → KnownStart node b) ∧
    WellFormed ⟨9⟩ wordy wordy ∧ NoClash ⟨9⟩ wordy wordy ∧
    Delivers (Seal := Int) (Feed.mk (condense ⟨9⟩ wordy)) (condense ⟨9⟩ wordy) ∧
    condense ⟨9⟩ wordy = [origin, move1, other, move2] ∧
    ∀ (i j : Nat) b b', [origin, move1, other, move2][i]? = some b → [origin, move1, other, move2][j]? = some b' →
      idAt ⟨9⟩ i b = idAt ⟨9⟩ j b' → i = j := by
  refine ⟨node_lawful, node_blind, node_faithful _, accepted_of (by decide +kernel), ?_,
    wellFormed_of (by decide +kernel) (by decide +kernel) (by decide +kernel) (by decide +kernel),
    noClash singleUse message_injective, feed_delivers _, ?_, distinct_of (by decide +kernel)⟩
  · intro b hb
    obtain rfl := Option.some.inj hb
    rfl
  · rfl

open Demo Demo.Once in
/-- The first operation has to be known: otherwise its repetition is applied, as it is not itself. -/
theorem C96_needs_known_start : ∃ (c : Node) (xs : List (OperationSeals Int)) (o o' : _), Lawful Int Node ∧
    ReportBlind (Seal := Int) (Eq (α := Node)) ∧ Faithful (ContractApi.codex Int c) ∧ Accepted c (Feed.mk xs) xs o ∧
    WellFormed (ContractApi.contractId Int c) xs xs ∧ NoClash (ContractApi.contractId Int c) xs xs ∧
    Accepted c (Feed.mk (condense (ContractApi.contractId Int c) xs)) (condense (ContractApi.contractId Int c) xs) o' ∧
    o.world.calls.filterMap appliedOperation ≠ o'.world.calls.filterMap appliedOperation := by
  obtain ⟨o, h⟩ := accepted_of (n := ⟨[]⟩) (bs := [terse, originAgain]) (by decide +kernel)
  obtain ⟨o', h'⟩ := accepted_of (n := ⟨[]⟩) (bs := condense ⟨9⟩ [terse, originAgain]) (by decide +kernel)
  refine ⟨⟨[]⟩, [terse, originAgain], o, o', node_lawful, node_blind, node_faithful _, h,
    wellFormed_of (by decide +kernel) (by decide +kernel) (by decide +kernel) (by decide +kernel),
    noClash singleUse message_injective, h', ?_⟩
  rw [applied_filter o.world.calls, applied_filter o'.world.calls, h.shape.callbacks, h'.shape.callbacks]
  intro e
  have := congrArg List.length e
  revert this
  decide +kernel

open Demo in
/-- Seals have to be single-use: otherwise repeating an operation allows its outputs to be consumed again, by
another operation, and without the repetition this is not possible. -/
theorem C96_needs_single_use : ∃ (c : Ledger) (xs : List Block), Lawful Nat Ledger ∧ ReportBlind (Seal := Nat) sameBooks ∧
    Faithful (ContractApi.codex Nat c) ∧ (∃ o, Accepted c (Tape.mk xs none) xs o) ∧ (∀ b, xs[0]? = some b → KnownStart c b) ∧
    WellFormed (ContractApi.contractId Nat c) xs xs ∧
    ¬ ∃ o, Accepted c (Tape.mk (condense (ContractApi.contractId Nat c) xs) none) (condense (ContractApi.contractId Nat c) xs) o := by
  refine ⟨{ ledger with known := [⟨100⟩, ⟨101⟩, ⟨109⟩] }, [plainGenesis, transfer1, genesisAgain, doubleSpend], ledger_lawful,
    sameBooks_blind, codex_faithful, accepted_of_accepts (by decide +kernel), ?_, ?_, ?_⟩
  · intro b hb
    obtain rfl := Option.some.inj hb
    rfl
  · have h1 : ∀ e ∈ [plainGenesis, transfer1, genesisAgain, doubleSpend].zipIdx, ∀ f ∈ [plainGenesis, transfer1, genesisAgain, doubleSpend].zipIdx,
        idAt (Seal := Nat) ⟨9⟩ e.2 e.1 = idAt (Seal := Nat) ⟨9⟩ f.2 f.1 →
        opAt (Seal := Nat) ⟨9⟩ e.2 e.1 = opAt (Seal := Nat) ⟨9⟩ f.2 f.1 := by decide +kernel
    have h2 : ∀ b ∈ [plainGenesis, transfer1, genesisAgain, doubleSpend], ∀ b' ∈ [plainGenesis, transfer1, genesisAgain, doubleSpend],
        ∀ e ∈ b.definedSeals.entries, ∀ e' ∈ b'.definedSeals.entries,
        RgbSeal.authToken (Seal := Nat) e.2 = RgbSeal.authToken (Seal := Nat) e'.2 → e.2 = e'.2 := by decide +kernel
    have h3 : ∀ b ∈ [plainGenesis, transfer1, genesisAgain, doubleSpend], ∀ e ∈ b.definedSeals.entries,
        (b.operation.destructibleOut[(e.1 : Nat)]?).map (·.auth) = some (RgbSeal.authToken (Seal := Nat) e.2) := by decide +kernel
    have h4 : ∀ b ∈ [plainGenesis, transfer1, genesisAgain, doubleSpend], ∀ e ∈ b.definedSeals.entries,
        RgbSeal.toSrc (Seal := Nat) e.2 = none → b.operation.destructibleIn ≠ [] := by decide +kernel
    refine ⟨fun i j b b' hb hb' => h1 (b, i) (List.mem_zipIdx_iff_getElem?.2 hb) (b', j) (List.mem_zipIdx_iff_getElem?.2 hb'),
      fun b h b' h' _ _ _ _ k k' => h2 b h b' h' _ k _ k', ?_, fun b hb p d hd => h4 b (or_self_iff.1 hb) (p, d) hd⟩
    intro b hb p d hd
    have := h3 b (or_self_iff.1 hb) (p, d) hd
    simpa [Option.map_eq_some_iff] using this
  · rintro ⟨o, h⟩
    have := accepts_of_valid h.valid
    revert this
    decide +kernel

end Rgb
