import Verif.Serde
import Verif.Demo

set_option linter.unusedSectionVars false

/-! # C67: the serde representation of bundles -/

namespace Rgb
open Spec

section
variable {Seal : Type} [LinearOrder Seal] [RgbSeal Seal] {J : Type}

/-- What is given for a field. -/
def given (key : String) (l : List (String × J)) : List J := (l.filter (·.1 = key)).map (·.2)

/-- A field given at most once, into a slot that must then be empty. -/
def Fills {α : Type} (r : Repr J α) (old : Option α) (xs : List J) (new : Option α) : Prop :=
  (xs = [] ∧ new = old) ∨ (old = none ∧ ∃ x y, xs = [x] ∧ r.de x = some y ∧ new = some y)

theorem fills_cons {α : Type} {r : Repr J α} {old : Option α} {x : J} {xs : List J} {new : Option α} :
    Fills r old (x :: xs) new ↔ old = none ∧ ∃ y, r.de x = some y ∧ Fills r (some y) xs new := by
  constructor
  · rintro (⟨h, _⟩ | ⟨h, x', y, h1, h2, h3⟩)
    · simp at h
    · simp only [List.cons.injEq] at h1
      obtain ⟨rfl, rfl⟩ := h1
      exact ⟨h, y, h2, .inl ⟨rfl, h3⟩⟩
  · rintro ⟨h, y, h2, ⟨rfl, h3⟩ | ⟨h3, _⟩⟩
    · exact .inr ⟨h, x, y, rfl, h2, h3⟩
    · simp at h3

theorem given_cons {key k : String} {x : J} {l : List (String × J)} :
    given key ((k, x) :: l) = if k = key then x :: given key l else given key l := by
  unfold given
  rw [List.filter_cons]
  split <;> simp_all

theorem given_same {key : String} {x : J} {l : List (String × J)} : given key ((key, x) :: l) = x :: given key l := by
  rw [given_cons, if_pos rfl]

theorem given_other {key k : String} {x : J} {l : List (String × J)} (h : k ≠ key) : given key ((k, x) :: l) = given key l := by
  rw [given_cons, if_neg h]

theorem visit_iff (f : FieldReprs Seal J) {l : List (String × J)} {s t : Slots Seal} :
    Slots.visit f s l = some t ↔ Fills f.operation s.operation (given "operation" l) t.operation ∧
      Fills f.definedSeals s.definedSeals (given "definedSeals" l) t.definedSeals ∧
      Fills f.witness s.witness (given "witness" l) t.witness := by
  induction l generalizing s with
  | nil =>
    obtain ⟨a, b, c⟩ := s
    obtain ⟨a', b', c'⟩ := t
    simp [Slots.visit, Fills, given, eq_comm]
  | cons e l ih =>
    obtain ⟨k, x⟩ := e
    unfold Slots.visit
    split
    · rw [given_same (key := "operation"), given_other (key := "definedSeals") (k := "operation") (by decide), given_other (key := "witness") (k := "operation") (by decide), fills_cons]
      split
      · rename_i h
        constructor
        · simp
        · rintro ⟨⟨h', _⟩, _⟩
          rw [h'] at h
          simp at h
      · rename_i h
        rw [Option.not_isSome_iff_eq_none] at h
        simp only [Option.bind_eq_bind, Option.bind_eq_some_iff, ih, h, true_and]
        constructor
        · rintro ⟨y, h1, h2, h3⟩
          exact ⟨⟨y, h1, h2⟩, h3⟩
        · rintro ⟨⟨y, h1, h2⟩, h3⟩
          exact ⟨y, h1, h2, h3⟩
    · rw [given_other (key := "operation") (k := "definedSeals") (by decide), given_same (key := "definedSeals"), given_other (key := "witness") (k := "definedSeals") (by decide), fills_cons]
      split
      · rename_i h
        constructor
        · simp
        · rintro ⟨_, ⟨h', _⟩, _⟩
          rw [h'] at h
          simp at h
      · rename_i h
        rw [Option.not_isSome_iff_eq_none] at h
        simp only [Option.bind_eq_bind, Option.bind_eq_some_iff, ih, h, true_and]
        constructor
        · rintro ⟨y, h1, h2, h3, h4⟩
          exact ⟨h2, ⟨y, h1, h3⟩, h4⟩
        · rintro ⟨h2, ⟨y, h1, h3⟩, h4⟩
          exact ⟨y, h1, h2, h3, h4⟩
    · rw [given_other (key := "operation") (k := "witness") (by decide), given_other (key := "definedSeals") (k := "witness") (by decide), given_same (key := "witness"), fills_cons]
      split
      · rename_i h
        constructor
        · simp
        · rintro ⟨_, _, h', _⟩
          rw [h'] at h
          simp at h
      · rename_i h
        rw [Option.not_isSome_iff_eq_none] at h
        simp only [Option.bind_eq_bind, Option.bind_eq_some_iff, ih, h, true_and]
        constructor
        · rintro ⟨y, h1, h2, h3, h4⟩
          exact ⟨h2, h3, y, h1, h4⟩
        · rintro ⟨h2, h3, y, h1, h4⟩
          exact ⟨y, h1, h2, h3, h4⟩
    · rename_i h1 h2 h3
      rw [given_other h1, given_other h2, given_other h3]
      exact ih

/-- A map is read as bundle `b` exactly if it has one entry each for the operation and the seals and at
most one for the witness, which represent those of `b`, without entry for the witness `None`. -/
theorem C67_accepted_maps (f : FieldReprs Seal J) (l : List (String × J)) (b : OperationSeals Seal) :
    OperationSeals.deserialize f (.map l) = some b ↔
      (∃ x, given "operation" l = [x] ∧ f.operation.de x = some b.operation) ∧
      (∃ x, given "definedSeals" l = [x] ∧ f.definedSeals.de x = some b.definedSeals) ∧
      ((given "witness" l = [] ∧ b.witness = none) ∨ ∃ x, given "witness" l = [x] ∧ f.witness.de x = some b.witness) := by
  simp only [OperationSeals.deserialize, Option.bind_eq_bind, Option.bind_eq_some_iff, visit_iff, Option.pure_def,
    Option.some.injEq]
  constructor
  · rintro ⟨s, ⟨h1, h2, h3⟩, op, h4, ds, h5, rfl⟩
    refine ⟨?_, ?_, ?_⟩
    · rcases h1 with ⟨_, h⟩ | ⟨_, x, y, h, h', h''⟩
      · rw [h4] at h; simp at h
      · refine ⟨x, h, ?_⟩
        rw [h4] at h''
        rw [h', ← h'']
    · rcases h2 with ⟨_, h⟩ | ⟨_, x, y, h, h', h''⟩
      · rw [h5] at h; simp at h
      · refine ⟨x, h, ?_⟩
        rw [h5] at h''
        rw [h', ← h'']
    · rcases h3 with ⟨h, h'⟩ | ⟨_, x, y, h, h', h''⟩
      · exact .inl ⟨h, by simp [h']⟩
      · exact .inr ⟨x, h, by simp [h', h'']⟩
  · rintro ⟨⟨x, h1, h2⟩, ⟨y, h3, h4⟩, h5⟩
    rcases h5 with ⟨h5, h6⟩ | ⟨z, h5, h6⟩
    · refine ⟨⟨some b.operation, some b.definedSeals, none⟩, ⟨.inr ⟨rfl, x, _, h1, h2, rfl⟩, .inr ⟨rfl, y, _, h3, h4, rfl⟩,
        .inl ⟨h5, rfl⟩⟩, _, rfl, _, rfl, ?_⟩
      cases b
      simp at h6
      simp [h6]
    · exact ⟨⟨some b.operation, some b.definedSeals, some b.witness⟩, ⟨.inr ⟨rfl, x, _, h1, h2, rfl⟩, .inr ⟨rfl, y, _, h3, h4, rfl⟩,
        .inr ⟨rfl, z, _, h5, h6, rfl⟩⟩, _, rfl, _, rfl, rfl⟩

/-- The order of the entries, and entries with other keys, do not matter. -/
theorem C67_order (f : FieldReprs Seal J) {l l' : List (String × J)}
    (h : (l.filter fun e => e.1 ∈ ["operation", "definedSeals", "witness"]).Perm
      (l'.filter fun e => e.1 ∈ ["operation", "definedSeals", "witness"])) :
    OperationSeals.deserialize f (.map l) = OperationSeals.deserialize f (.map l') := by
  have key : ∀ k ∈ ["operation", "definedSeals", "witness"], (given k l).Perm (given k l') := by
    intro k hk
    have aux : ∀ l : List (String × J), given k l =
        given k (l.filter fun e => e.1 ∈ ["operation", "definedSeals", "witness"]) := by
      intro l
      unfold given
      rw [List.filter_filter]
      congr 1
      refine List.filter_congr fun e _ => ?_
      by_cases he : e.1 = k
      · simp only [he, hk, decide_true, Bool.and_self]
      · simp [he]
    rw [aux l, aux l']
    exact (h.filter _).map _
  have one : ∀ k ∈ ["operation", "definedSeals", "witness"], ∀ x, given k l = [x] ↔ given k l' = [x] := by
    intro k hk x
    constructor
    · intro h; have := key k hk; rw [h] at this; exact List.singleton_perm.1 this |>.symm
    · intro h; have := key k hk; rw [h] at this; exact List.perm_singleton.1 this
  have zero : ∀ k ∈ ["operation", "definedSeals", "witness"], given k l = [] ↔ given k l' = [] := by
    intro k hk
    constructor
    · intro h; have := key k hk; rw [h] at this; exact List.nil_perm.1 this
    · intro h; have := key k hk; rw [h] at this; exact List.perm_nil.1 this
  ext b
  have i1 := C67_accepted_maps f l b
  have i2 := C67_accepted_maps f l' b
  simp only [one "operation" (by simp), one "definedSeals" (by simp), one "witness" (by simp), zero "witness" (by simp)] at i1
  exact i1.trans i2.symm

/-- What is serialized is read back, also if the format drops the names of the fields. -/
theorem C67_round_trip (f : FieldReprs Seal J) (ho : ∀ x, f.operation.de (f.operation.ser x) = some x)
    (hd : ∀ x, f.definedSeals.de (f.definedSeals.ser x) = some x) (hw : ∀ x, f.witness.de (f.witness.ser x) = some x)
    (b : OperationSeals Seal) :
    OperationSeals.deserialize f (b.serialize f) = some b ∧
    ∀ entries, b.serialize f = .map entries → OperationSeals.deserialize f (.seq (entries.map (·.2))) = some b := by
  constructor
  · unfold OperationSeals.serialize
    rw [C67_accepted_maps]
    exact ⟨⟨_, rfl, ho _⟩, ⟨_, rfl, hd _⟩, .inr ⟨_, rfl, hw _⟩⟩
  · intro entries h
    unfold OperationSeals.serialize at h
    simp only [Document.map.injEq] at h
    subst h
    simp [OperationSeals.deserialize, ho, hd, hw]

/-- A sequence is read as a bundle exactly if it has three items, which represent the fields. -/
theorem C67_accepted_sequences (f : FieldReprs Seal J) (l : List J) (b : OperationSeals Seal) :
    OperationSeals.deserialize f (.seq l) = some b ↔
      ∃ x y z, l = [x, y, z] ∧ f.operation.de x = some b.operation ∧ f.definedSeals.de y = some b.definedSeals ∧
        f.witness.de z = some b.witness := by
  unfold OperationSeals.deserialize
  split
  · simp_all
  · rename_i x y z heq
    simp only [Document.seq.injEq] at heq
    subst heq
    simp only [Option.bind_eq_bind, Option.bind_eq_some_iff, Option.pure_def, Option.some.injEq]
    constructor
    · rintro ⟨op, h1, ds, h2, w, h3, rfl⟩
      exact ⟨x, y, z, rfl, h1, h2, h3⟩
    · rintro ⟨_, _, _, h, h1, h2, h3⟩
      simp only [List.cons.injEq, and_true] at h
      obtain ⟨rfl, rfl, rfl⟩ := h
      exact ⟨_, h1, _, h2, _, h3, rfl⟩
  · rename_i hn heq
    simp only [Document.seq.injEq] at heq
    subst heq
    constructor
    · simp
    · rintro ⟨x, y, z, rfl, _⟩
      exact absurd rfl (hn x y z)

end

namespace Demo
/-- A data format whose values are the fields themselves. -/
inductive Field where
  | op (x : Operation)
  | seals (x : OMap U16 Def)
  | wit (x : Option (SealWitness Nat))

def fieldReprs : FieldReprs Nat Field where
  operation := ⟨.op, fun | .op x => some x | _ => none⟩
  definedSeals := ⟨.seals, fun | .seals x => some x | _ => none⟩
  witness := ⟨.wit, fun | .wit x => some x | _ => none⟩
end Demo

open Demo in
example : (∀ x, fieldReprs.operation.de (fieldReprs.operation.ser x) = some x) ∧
    (∀ x, fieldReprs.definedSeals.de (fieldReprs.definedSeals.ser x) = some x) ∧
    (∀ x, fieldReprs.witness.de (fieldReprs.witness.ser x) = some x) ∧
    OperationSeals.deserialize fieldReprs (.map [("definedSeals", .seals genesis.definedSeals), ("comment", .wit none),
      ("operation", .op genesis.operation)]) = some genesis ∧
    OperationSeals.deserialize fieldReprs (.map [("operation", .op genesis.operation), ("operation", .op genesis.operation),
      ("definedSeals", .seals genesis.definedSeals)]) = none ∧
    OperationSeals.deserialize fieldReprs (.map [("operation", .op genesis.operation),
      ("defined_seals", .seals genesis.definedSeals)]) = none := by
  refine ⟨fun _ => rfl, fun _ => rfl, fun _ => rfl, ?_, rfl, rfl⟩
  rw [C67_accepted_maps]
  exact ⟨⟨_, rfl, rfl⟩, ⟨_, rfl, rfl⟩, .inl ⟨rfl, rfl⟩⟩

end Rgb
