import Mathlib.Data.Prod.Lex
import Mathlib.Order.Fin.Basic

/-!
# Ordered collections

Models of the Rust standard-library / `amplify` collections used by `/repo/src/verify.rs`:

* `BTreeMap<K, V>` (verify.rs:25, 156, 299) and `SmallOrdMap<u16, V>` (verify.rs:30, 59) as `OMap`;
* `BTreeSet<K>` (verify.rs:25, 178, 183, 219) as `OSet`.

A collection is its in-order sequence of entries, which is what iteration over the Rust
collection yields; the strict ordering of keys is the representation invariant of those types.
Simplification: the upper size bound (65535) of `SmallOrdMap` is not part of the type; every Rust
value is represented, and the bound appears as a hypothesis where it matters (encoding).
-/

namespace Rgb

/-- `BTreeMap<K, V>`: entries in strictly ascending key order.  Models the `BTreeMap` of
verify.rs:25,156,299 and the `SmallOrdMap` of verify.rs:30,59. -/
structure OMap (K V : Type) [LinearOrder K] where
  /-- the entries, in iteration order -/
  entries : List (K × V)
  /-- keys are strictly ascending (hence unique) -/
  sorted : entries.Pairwise (fun a b => a.1 < b.1)

namespace OMap
variable {K V : Type} [LinearOrder K]

@[ext] theorem ext {m m' : OMap K V} (h : m.entries = m'.entries) : m = m' := by
  cases m; cases m'; simp_all

instance [DecidableEq V] : DecidableEq (OMap K V) := fun m m' =>
  if h : m.entries = m'.entries then .isTrue (ext h) else .isFalse (fun e => h (e ▸ rfl))

/-- `BTreeMap::new()` (verify.rs:156). -/
def empty : OMap K V := ⟨[], .nil⟩

/-- `is_empty` (verify.rs:252). -/
def isEmpty (m : OMap K V) : Bool := m.entries.isEmpty

/-- `values()` (verify.rs:181): values in key order. -/
def values (m : OMap K V) : List V := m.entries.map (·.2)

/-- Lookup in an association list. -/
def lookupL (k : K) : List (K × V) → Option V
  | [] => none
  | (k', v) :: t => if k = k' then some v else lookupL k t

/-- `BTreeMap::get`. -/
def get? (m : OMap K V) (k : K) : Option V := lookupL k m.entries

/-- Sorted insertion, replacing the value of an equal key. -/
def insertL (k : K) (v : V) : List (K × V) → List (K × V)
  | [] => [(k, v)]
  | (k', v') :: t =>
    if k < k' then (k, v) :: (k', v') :: t
    else if k = k' then (k, v) :: t
    else (k', v') :: insertL k v t

/-- Removal of a key. -/
def eraseL (k : K) : List (K × V) → List (K × V)
  | [] => []
  | (k', v) :: t => if k = k' then t else (k', v) :: eraseL k t

theorem mem_insertL {k : K} {v : V} {l : List (K × V)} {p : K × V} (h : p ∈ insertL k v l) :
    p = (k, v) ∨ p ∈ l := by
  induction l with
  | nil => simp_all [insertL]
  | cons q t ih =>
    obtain ⟨k', v'⟩ := q
    simp only [insertL] at h
    split at h
    · simpa using h
    · split at h
      · simp only [List.mem_cons] at h ⊢; tauto
      · simp only [List.mem_cons] at h ⊢; tauto

theorem mem_of_mem_eraseL {k : K} {l : List (K × V)} {p : K × V} (h : p ∈ eraseL k l) : p ∈ l := by
  induction l with
  | nil => simp [eraseL] at h
  | cons q t ih =>
    obtain ⟨k', v'⟩ := q
    simp only [eraseL] at h
    split at h
    · simp [h]
    · simp only [List.mem_cons] at h ⊢; tauto

theorem sorted_insertL {k : K} {v : V} {l : List (K × V)}
    (h : l.Pairwise (fun a b => a.1 < b.1)) : (insertL k v l).Pairwise (fun a b => a.1 < b.1) := by
  induction l with
  | nil => simp [insertL]
  | cons q t ih =>
    obtain ⟨k', v'⟩ := q
    obtain ⟨h1, h2⟩ := List.pairwise_cons.1 h
    simp only [insertL]
    split
    · rename_i hlt
      refine List.pairwise_cons.2 ⟨?_, h⟩
      intro p hp
      rcases List.mem_cons.1 hp with rfl | hp
      · exact hlt
      · exact lt_trans hlt (h1 p hp)
    · split
      · rename_i hn he
        subst he
        exact List.pairwise_cons.2 ⟨h1, h2⟩
      · rename_i hn he
        refine List.pairwise_cons.2 ⟨?_, ih h2⟩
        intro p hp
        rcases mem_insertL hp with rfl | hp
        · exact lt_of_le_of_ne (not_lt.1 hn) (Ne.symm he)
        · exact h1 p hp

theorem sorted_eraseL {k : K} {l : List (K × V)}
    (h : l.Pairwise (fun a b => a.1 < b.1)) : (eraseL k l).Pairwise (fun a b => a.1 < b.1) := by
  induction l with
  | nil => simp [eraseL]
  | cons q t ih =>
    obtain ⟨k', v'⟩ := q
    obtain ⟨h1, h2⟩ := List.pairwise_cons.1 h
    simp only [eraseL]
    split
    · exact h2
    · exact List.pairwise_cons.2 ⟨fun p hp => h1 p (mem_of_mem_eraseL hp), ih h2⟩

/-- `BTreeMap::insert`. -/
def insert (m : OMap K V) (k : K) (v : V) : OMap K V := ⟨insertL k v m.entries, sorted_insertL m.sorted⟩

/-- `BTreeMap::remove` (verify.rs:198-199): the removed value, if any, and the remaining map. -/
def remove (m : OMap K V) (k : K) : Option V × OMap K V :=
  (m.get? k, ⟨eraseL k m.entries, sorted_eraseL m.sorted⟩)

/-- `Extend for BTreeMap` (verify.rs:245): insert the items one after the other. -/
def extend (m : OMap K V) (items : List (K × V)) : OMap K V :=
  items.foldl (fun m p => m.insert p.1 p.2) m

/-- `collect::<BTreeMap<_, _>>()` (verify.rs:191). -/
def collect (items : List (K × V)) : OMap K V := empty.extend items

/-! ### Lemmas -/

@[simp] theorem entries_empty : (empty : OMap K V).entries = [] := rfl

@[simp] theorem get?_empty (k : K) : (empty : OMap K V).get? k = none := rfl

theorem lookupL_insertL (k : K) (v : V) (l : List (K × V)) (k' : K) :
    lookupL k' (insertL k v l) = if k' = k then some v else lookupL k' l := by
  induction l with
  | nil => simp [insertL, lookupL]
  | cons q t ih =>
    obtain ⟨a, b⟩ := q
    simp only [insertL]
    split
    · simp [lookupL]
    · split
      · rename_i hn he
        subst he
        simp only [lookupL]
        split <;> rfl
      · rename_i hn he
        simp only [lookupL, ih]
        split
        · rename_i h1
          subst h1
          rw [if_neg (Ne.symm he)]
        · rfl

@[simp] theorem get?_insert (m : OMap K V) (k : K) (v : V) (k' : K) :
    (m.insert k v).get? k' = if k' = k then some v else m.get? k' := lookupL_insertL ..

theorem lookupL_eq_none {k : K} {l : List (K × V)} (h : ∀ p ∈ l, p.1 ≠ k) : lookupL k l = none := by
  induction l with
  | nil => rfl
  | cons q t ih =>
    simp only [lookupL]
    rw [if_neg (fun e => h q (by simp) e.symm)]
    exact ih (fun p hp => h p (by simp [hp]))

theorem lookupL_eraseL {k : K} {l : List (K × V)} (h : l.Pairwise (fun a b => a.1 < b.1)) (k' : K) :
    lookupL k' (eraseL k l) = if k' = k then none else lookupL k' l := by
  induction l with
  | nil => simp [eraseL, lookupL]
  | cons q t ih =>
    obtain ⟨a, b⟩ := q
    obtain ⟨h1, h2⟩ := List.pairwise_cons.1 h
    simp only [eraseL]
    split
    · rename_i he
      subst he
      split
      · rename_i h3
        subst h3
        exact lookupL_eq_none (fun p hp => ne_of_gt (h1 p hp))
      · rename_i h3
        simp [lookupL, h3]
    · rename_i he
      simp only [lookupL, ih h2]
      split
      · rename_i h3
        subst h3
        rw [if_neg (fun e => he e.symm)]
      · rfl

@[simp] theorem remove_fst (m : OMap K V) (k : K) : (m.remove k).1 = m.get? k := rfl

@[simp] theorem get?_remove (m : OMap K V) (k k' : K) :
    (m.remove k).2.get? k' = if k' = k then none else m.get? k' := lookupL_eraseL m.sorted k'

theorem lookupL_eq_some {k : K} {v : V} {l : List (K × V)} (h : l.Pairwise (fun a b => a.1 < b.1)) :
    lookupL k l = some v ↔ (k, v) ∈ l := by
  induction l with
  | nil => simp [lookupL]
  | cons q t ih =>
    obtain ⟨a, b⟩ := q
    obtain ⟨h1, h2⟩ := List.pairwise_cons.1 h
    simp only [lookupL, List.mem_cons, Prod.mk.injEq]
    split
    · rename_i he
      subst he
      constructor
      · intro e; left; simp_all
      · rintro (⟨_, rfl⟩ | hm)
        · rfl
        · exact absurd (h1 _ hm) (lt_irrefl _)
    · rename_i he
      rw [ih h2]
      simp [he]

/-- `get?` finds exactly the entries of the map. -/
theorem get?_eq_some {m : OMap K V} {k : K} {v : V} : m.get? k = some v ↔ (k, v) ∈ m.entries :=
  lookupL_eq_some m.sorted

theorem get?_eq_none {m : OMap K V} {k : K} : m.get? k = none ↔ ∀ v, (k, v) ∉ m.entries := by
  rw [← not_iff_not, ← ne_eq, Option.ne_none_iff_exists']
  simp only [get?_eq_some, not_forall, not_not]

theorem key_unique {m : OMap K V} {k : K} {v v' : V} (h : (k, v) ∈ m.entries) (h' : (k, v') ∈ m.entries) :
    v = v' := by
  rw [← get?_eq_some] at h h'
  simpa [h] using h'

/-- Maps with the same lookups are equal. -/
theorem ext_get? {m m' : OMap K V} (h : ∀ k, m.get? k = m'.get? k) : m = m' := by
  apply ext
  have hmem : ∀ p : K × V, p ∈ m.entries ↔ p ∈ m'.entries := by
    rintro ⟨k, v⟩
    rw [← get?_eq_some, ← get?_eq_some, h]
  have key : ∀ (l l' : List (K × V)), l.Pairwise (fun a b => a.1 < b.1) →
      l'.Pairwise (fun a b => a.1 < b.1) → (∀ p, p ∈ l ↔ p ∈ l') → l = l' := by
    intro l
    induction l with
    | nil =>
      intro l' _ _ hm
      cases l' with
      | nil => rfl
      | cons p t => exact absurd ((hm p).2 (by simp)) (by simp)
    | cons p t ih =>
      intro l' hs hs' hm
      cases l' with
      | nil => exact absurd ((hm p).1 (by simp)) (by simp)
      | cons p' t' =>
        obtain ⟨h1, h2⟩ := List.pairwise_cons.1 hs
        obtain ⟨h1', h2'⟩ := List.pairwise_cons.1 hs'
        have hpp : p = p' := by
          rcases List.mem_cons.1 ((hm p).1 (by simp)) with e | hp
          · exact e
          · rcases List.mem_cons.1 ((hm p').2 (by simp)) with e | hp'
            · exact e.symm
            · exact absurd (lt_trans (h1 _ hp') (h1' _ hp)) (lt_irrefl _)
        subst hpp
        congr 1
        apply ih t' h2 h2'
        intro q
        constructor
        · intro hq
          rcases List.mem_cons.1 ((hm q).1 (by simp [hq])) with e | hp
          · subst e; exact absurd (h1 _ hq) (lt_irrefl _)
          · exact hp
        · intro hq
          rcases List.mem_cons.1 ((hm q).2 (by simp [hq])) with e | hp
          · subst e; exact absurd (h1' _ hq) (lt_irrefl _)
          · exact hp
  exact key _ _ m.sorted m'.sorted hmem

theorem get?_extend_of_not_mem {items : List (K × V)} {m : OMap K V} {k : K}
    (h : ∀ v, (k, v) ∉ items) : (m.extend items).get? k = m.get? k := by
  induction items generalizing m with
  | nil => rfl
  | cons p t ih =>
    have : (m.extend (p :: t)) = (m.insert p.1 p.2).extend t := rfl
    rw [this, ih (fun v hv => h v (by simp [hv])), get?_insert, if_neg]
    rintro rfl
    exact h p.2 (by simp)

/-- If the items are functional at `k`, extending with them makes `k` point to the item's value. -/
theorem get?_extend_of_mem {items : List (K × V)} {m : OMap K V} {k : K} {v : V}
    (hm : (k, v) ∈ items) (hf : ∀ v', (k, v') ∈ items → v' = v) : (m.extend items).get? k = some v := by
  induction items generalizing m with
  | nil => simp at hm
  | cons p t ih =>
    have e : (m.extend (p :: t)) = (m.insert p.1 p.2).extend t := rfl
    rw [e]
    by_cases ht : ∃ v', (k, v') ∈ t
    · obtain ⟨v', hv'⟩ := ht
      have : v' = v := hf v' (by simp [hv'])
      subst this
      exact ih hv' (fun v'' h'' => hf v'' (by simp [h'']))
    · have ht' : ∀ v', (k, v') ∉ t := fun v' hv' => ht ⟨v', hv'⟩
      rw [get?_extend_of_not_mem ht']
      rcases List.mem_cons.1 hm with rfl | hm'
      · simp
      · exact absurd hm' (ht' v)

@[simp] theorem isEmpty_iff {m : OMap K V} : m.isEmpty = true ↔ m.entries = [] := by
  simp [isEmpty]

end OMap

/-- `BTreeSet<K>`: elements in strictly ascending order (verify.rs:25,178,183,219,297). -/
structure OSet (K : Type) [LinearOrder K] where
  /-- the elements, in iteration order -/
  elems : List K
  /-- strictly ascending -/
  sorted : elems.Pairwise (· < ·)

namespace OSet
variable {K : Type} [LinearOrder K]

@[ext] theorem ext {m m' : OSet K} (h : m.elems = m'.elems) : m = m' := by
  cases m; cases m'; simp_all

instance : DecidableEq (OSet K) := fun m m' =>
  if h : m.elems = m'.elems then .isTrue (ext h) else .isFalse (fun e => h (e ▸ rfl))

/-- Sorted insertion without duplicates. -/
def insertL (k : K) : List K → List K
  | [] => [k]
  | k' :: t => if k < k' then k :: k' :: t else if k = k' then k' :: t else k' :: insertL k t

theorem mem_insertL {k x : K} {l : List K} : x ∈ insertL k l ↔ x = k ∨ x ∈ l := by
  induction l with
  | nil => simp [insertL]
  | cons a t ih =>
    simp only [insertL]
    split
    · simp
    · split
      · rename_i h; subst h; simp
      · simp only [List.mem_cons, ih]; tauto

theorem sorted_insertL {k : K} {l : List K} (h : l.Pairwise (· < ·)) : (insertL k l).Pairwise (· < ·) := by
  induction l with
  | nil => simp [insertL]
  | cons a t ih =>
    obtain ⟨h1, h2⟩ := List.pairwise_cons.1 h
    simp only [insertL]
    split
    · rename_i hlt
      refine List.pairwise_cons.2 ⟨?_, h⟩
      intro p hp
      rcases List.mem_cons.1 hp with rfl | hp
      · exact hlt
      · exact lt_trans hlt (h1 p hp)
    · split
      · exact h
      · rename_i hn he
        refine List.pairwise_cons.2 ⟨?_, ih h2⟩
        intro p hp
        rcases mem_insertL.1 hp with rfl | hp
        · exact lt_of_le_of_ne (not_lt.1 hn) (Ne.symm he)
        · exact h1 p hp

/-- The empty set. -/
def empty : OSet K := ⟨[], .nil⟩

/-- `BTreeSet::insert`. -/
def insert (s : OSet K) (k : K) : OSet K := ⟨insertL k s.elems, sorted_insertL s.sorted⟩

/-- `Extend for BTreeSet` (verify.rs:238). -/
def extend (s : OSet K) (l : List K) : OSet K := l.foldl insert s

/-- `collect::<BTreeSet<_>>()` (verify.rs:178,183,223). -/
def collect (l : List K) : OSet K := empty.extend l

/-- `BTreeSet::is_subset` (verify.rs:186). -/
def isSubset (s t : OSet K) : Bool := s.elems.all (fun x => t.elems.contains x)

@[simp] theorem mem_extend {s : OSet K} {l : List K} {x : K} :
    x ∈ (s.extend l).elems ↔ x ∈ s.elems ∨ x ∈ l := by
  induction l generalizing s with
  | nil => simp [extend]
  | cons a t ih =>
    have : s.extend (a :: t) = (s.insert a).extend t := rfl
    rw [this, ih]
    simp only [insert, mem_insertL, List.mem_cons]
    tauto

@[simp] theorem mem_collect {l : List K} {x : K} : x ∈ (collect l).elems ↔ x ∈ l := by
  simp [collect, empty]

theorem isSubset_iff {s t : OSet K} : s.isSubset t = true ↔ ∀ x ∈ s.elems, x ∈ t.elems := by
  simp [isSubset]

end OSet
end Rgb
