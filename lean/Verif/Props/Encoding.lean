import Verif.Encoding
import Verif.Demo

/-! # C48: serialization -/

namespace Rgb
open Spec

namespace Codec
variable {α β : Type}

theorem lawful_pair {c : Codec α} {d : Codec β} (hc : c.Lawful) (hd : d.Lawful) : (pair c d).Lawful := by
  rintro ⟨a, b⟩ e h rest
  simp only [pair, Option.bind_eq_bind, Option.pure_def, Option.bind_eq_some_iff, Option.some.injEq] at h
  obtain ⟨x, hx, y, hy, rfl⟩ := h
  simp only [pair, List.append_assoc, hc a x hx, hd b y hy, Option.bind_eq_bind, Option.pure_def, Option.bind_some]

theorem canonical_pair {c : Codec α} {d : Codec β} (hc : c.Canonical) (hd : d.Canonical) : (pair c d).Canonical := by
  rintro bytes ⟨a, b⟩ rest h
  simp only [pair, Option.bind_eq_bind, Option.pure_def, Option.bind_eq_some_iff, Option.some.injEq, Prod.exists,
    Prod.mk.injEq] at h
  obtain ⟨a', r, h1, b', r', h2, ⟨rfl, rfl⟩, rfl⟩ := h
  obtain ⟨x, hx, rfl⟩ := hc _ _ _ h1
  obtain ⟨y, hy, rfl⟩ := hd _ _ _ h2
  exact ⟨x ++ y, by simp [pair, hx, hy], by simp⟩

theorem lawful_via {c : Codec α} (hc : c.Lawful) {f : β → α} {g : α → β} (hg : ∀ b, g (f b) = b) : (via c f g).Lawful := by
  intro b e h rest
  simp only [via, hc _ _ h rest, Option.map_some, hg]

theorem canonical_via {c : Codec α} (hc : c.Canonical) {f : β → α} {g : α → β} (hf : ∀ a, f (g a) = a) :
    (via c f g).Canonical := by
  intro bytes b rest h
  simp only [via, Option.map_eq_some_iff, Prod.exists, Prod.mk.injEq] at h
  obtain ⟨a, r, h1, rfl, rfl⟩ := h
  obtain ⟨e, he, rfl⟩ := hc _ _ _ h1
  exact ⟨e, by simp [via, hf, he], rfl⟩

theorem lawful_u16 : u16.Lawful := by
  intro n e h rest
  simp only [u16, Option.some.injEq] at h
  subst h
  have := n.isLt
  simp only [u16, List.cons_append, List.nil_append, Option.some.injEq, Prod.mk.injEq, and_true]
  apply Fin.ext
  simp only [Fin.ofNat, Fin.val_mk]
  omega

theorem canonical_u16 : u16.Canonical := by
  intro bytes n rest h
  match bytes, h with
  | lo :: hi :: r, h =>
    simp only [u16, Option.some.injEq, Prod.mk.injEq] at h
    obtain ⟨rfl, rfl⟩ := h
    have := lo.isLt
    have := hi.isLt
    refine ⟨_, rfl, ?_⟩
    simp only [List.cons_append, List.nil_append, List.cons.injEq, and_true]
    constructor <;> apply Fin.ext <;> simp only [Fin.ofNat, Fin.val_mk] <;> omega
  | [], h => simp [u16] at h
  | [_], h => simp [u16] at h

theorem lawful_option {c : Codec α} (hc : c.Lawful) : (option c).Lawful := by
  rintro (_ | a) e h rest
  · simp only [option, Option.some.injEq] at h
    subst h
    rfl
  · simp only [option, Option.map_eq_some_iff] at h
    obtain ⟨x, hx, rfl⟩ := h
    have := hc a x hx rest
    change (c.dec (x ++ rest)).map _ = _
    rw [this]
    rfl

theorem canonical_option {c : Codec α} (hc : c.Canonical) : (option c).Canonical := by
  intro bytes a rest h
  simp only [option] at h
  split at h
  · simp only [Option.some.injEq, Prod.mk.injEq] at h
    obtain ⟨rfl, rfl⟩ := h
    exact ⟨[0], rfl, rfl⟩
  · simp only [Option.map_eq_some_iff, Prod.exists, Prod.mk.injEq] at h
    obtain ⟨a, r, h1, rfl, rfl⟩ := h
    obtain ⟨e, he, rfl⟩ := hc _ _ _ h1
    exact ⟨[1] ++ e, by simp [option, he], rfl⟩
  · simp at h

theorem decList_encList {c : Codec α} (hc : c.Lawful) :
    ∀ (l : List α) e, encList c l = some e → ∀ rest, decList c l.length (e ++ rest) = some (l, rest)
  | [], e, h, rest => by
    simp only [encList, Option.some.injEq] at h
    subst h
    rfl
  | a :: l, e, h, rest => by
    simp only [encList, Option.bind_eq_bind, Option.pure_def, Option.bind_eq_some_iff, Option.some.injEq] at h
    obtain ⟨x, hx, y, hy, rfl⟩ := h
    simp only [List.length_cons, decList, List.append_assoc, hc a x hx, decList_encList hc l y hy, Option.bind_eq_bind,
      Option.pure_def, Option.bind_some]

theorem encList_decList {c : Codec α} (hc : c.Canonical) :
    ∀ (n : Nat) bytes l rest, decList c n bytes = some (l, rest) →
      l.length = n ∧ ∃ e, encList c l = some e ∧ bytes = e ++ rest
  | 0, bytes, l, rest, h => by
    simp only [decList, Option.some.injEq, Prod.mk.injEq] at h
    obtain ⟨rfl, rfl⟩ := h
    exact ⟨rfl, [], rfl, rfl⟩
  | n + 1, bytes, l, rest, h => by
    simp only [decList, Option.bind_eq_bind, Option.pure_def, Option.bind_eq_some_iff, Option.some.injEq, Prod.exists,
      Prod.mk.injEq] at h
    obtain ⟨a, r, h1, l', r', h2, rfl, rfl⟩ := h
    obtain ⟨x, hx, rfl⟩ := hc _ _ _ h1
    obtain ⟨h3, y, hy, rfl⟩ := encList_decList hc n _ _ _ h2
    exact ⟨by simp [h3], x ++ y, by simp [encList, hx, hy], by simp⟩

theorem collect_entries {K V : Type} [LinearOrder K] (m : OMap K V) : OMap.collect m.entries = m := by
  refine OMap.ext_get? fun k => ?_
  cases h : m.get? k with
  | some v =>
    rw [OMap.collect, OMap.get?_extend_of_mem (v := v) (OMap.get?_eq_some.1 h)]
    intro v' hv'
    have := OMap.get?_eq_some.2 hv'
    rw [h] at this
    exact (Option.some.inj this).symm
  | none =>
    rw [OMap.collect, OMap.get?_extend_of_not_mem]
    · rfl
    · intro v hv
      rw [OMap.get?_eq_some.2 hv] at h
      simp at h

theorem lawful_smallOrdMap {K V : Type} [LinearOrder K] {check : List (K × V) → Bool} {ck : Codec K} {cv : Codec V}
    (hck : ck.Lawful) (hcv : cv.Lawful) (hcheck : ∀ m : OMap K V, check m.entries = true) :
    (smallOrdMap check ck cv).Lawful := by
  intro m e h rest
  simp only [smallOrdMap] at h
  split at h
  · rename_i hlen
    simp only [Option.bind_eq_bind, Option.pure_def, Option.bind_eq_some_iff, Option.some.injEq] at h
    obtain ⟨x, hx, y, hy, rfl⟩ := h
    simp only [smallOrdMap, List.append_assoc, lawful_u16 _ _ hx, Option.bind_eq_bind, Option.pure_def, Option.bind_some,
      decList_encList (lawful_pair hck hcv) _ _ hy, hcheck, if_true, collect_entries]
  · simp at h

theorem canonical_smallOrdMap {K V : Type} [LinearOrder K] {check : List (K × V) → Bool} {ck : Codec K} {cv : Codec V}
    (hck : ck.Canonical) (hcv : cv.Canonical) (hcheck : ∀ l, check l = true → ∃ m : OMap K V, m.entries = l) :
    (smallOrdMap check ck cv).Canonical := by
  intro bytes m rest h
  simp only [smallOrdMap, Option.bind_eq_bind, Option.pure_def, Option.bind_eq_some_iff, Prod.exists,
    Option.ite_none_right_eq_some, Option.some.injEq, Prod.mk.injEq] at h
  obtain ⟨n, r, h1, l, r', h2, h3, rfl, rfl⟩ := h
  obtain ⟨m, rfl⟩ := hcheck l h3
  obtain ⟨x, hx, rfl⟩ := canonical_u16 _ _ _ h1
  obtain ⟨hn, y, hy, rfl⟩ := encList_decList (canonical_pair hck hcv) _ _ _ _ h2
  have hlt : m.entries.length < 65536 := by have := n.isLt; omega
  have e : (⟨m.entries.length, hlt⟩ : U16) = n := Fin.ext hn
  refine ⟨x ++ y, ?_, by simp⟩
  rw [collect_entries]
  simp only [smallOrdMap, dif_pos hlt, e, hx, hy]
  rfl

theorem encList_isSome {c : Codec α} : ∀ l : List α, (encList c l).isSome ↔ ∀ a ∈ l, (c.enc a).isSome
  | [] => by simp [encList]
  | a :: l => by
    have := encList_isSome (c := c) l
    cases h1 : c.enc a <;> cases h2 : encList c l <;> simp_all [encList]

end Codec

/-! ## C48 -/

section
variable {Seal : Type} [LinearOrder Seal] [RgbSeal Seal]
variable {check : List (U16 × RgbSeal.Definition Seal) → Bool} {operation : Codec Operation}
variable {definition : Codec (RgbSeal.Definition Seal)} {published : Codec (RgbSeal.Published Seal)}
variable {client : Codec (RgbSeal.Client Seal)}

/-- Decoding the encoding of a bundle followed by anything gives the bundle back and leaves what
followed, if the codecs of the components do so and ascending keys pass the check of the decoder. -/
theorem C48_round_trip (ho : operation.Lawful) (hd : definition.Lawful) (hp : published.Lawful) (hc : client.Lawful)
    (hcheck : ∀ m : OMap U16 (RgbSeal.Definition Seal), check m.entries = true) (b : OperationSeals Seal) (e : Bytes)
    (h : (OperationSeals.codec check operation definition published client).enc b = some e) (rest : Bytes) :
    (OperationSeals.codec check operation definition published client).dec (e ++ rest) = some (b, rest) := by
  refine Codec.lawful_via (Codec.lawful_pair ho (Codec.lawful_pair (Codec.lawful_smallOrdMap Codec.lawful_u16 hd hcheck)
    (Codec.lawful_option (Codec.lawful_via (Codec.lawful_pair hp hc) fun _ => rfl)))) (fun _ => rfl) b e h rest

/-- No encoding of a bundle is a prefix of the encoding of another one; in particular different
bundles have different encodings. -/
theorem C48_prefix_free (ho : operation.Lawful) (hd : definition.Lawful) (hp : published.Lawful) (hc : client.Lawful)
    (b b' : OperationSeals Seal) (e e' rest : Bytes)
    (h : (OperationSeals.codec check operation definition published client).enc b = some e)
    (h' : (OperationSeals.codec check operation definition published client).enc b' = some e')
    (hrest : e' = e ++ rest) : b = b' ∧ rest = [] := by
  have h1 := C48_round_trip (check := fun _ => true) ho hd hp hc (fun _ => rfl) b e h rest
  have h2 := C48_round_trip (check := fun _ => true) ho hd hp hc (fun _ => rfl) b' e' h' []
  rw [List.append_nil, hrest, h1] at h2
  simpa using h2

/-- A bundle can be encoded exactly if its components can and it reveals fewer than 65536 seals. -/
theorem C48_total (b : OperationSeals Seal) :
    ((OperationSeals.codec check operation definition published client).enc b).isSome ↔
      (operation.enc b.operation).isSome ∧ b.definedSeals.entries.length < 65536 ∧
      (∀ p d, (p, d) ∈ b.definedSeals.entries → (definition.enc d).isSome) ∧
      ∀ w, b.witness = some w → (published.enc w.published).isSome ∧ (client.enc w.client).isSome := by
  have hmap : ((Codec.smallOrdMap check Codec.u16 definition).enc b.definedSeals).isSome ↔
      b.definedSeals.entries.length < 65536 ∧ ∀ p d, (p, d) ∈ b.definedSeals.entries → (definition.enc d).isSome := by
    simp only [Codec.smallOrdMap]
    split
    · rename_i hlt
      have := Codec.encList_isSome (c := Codec.pair Codec.u16 definition) b.definedSeals.entries
      have e : ∀ a : U16 × RgbSeal.Definition Seal, ((Codec.pair Codec.u16 definition).enc a).isSome ↔ (definition.enc a.2).isSome := by
        intro a
        simp only [Codec.pair, Codec.u16, Option.bind_eq_bind, Option.bind_some]
        cases definition.enc a.2 <;> simp
      simp only [e, Prod.forall] at this
      have e2 : ∀ n, Codec.u16.enc n = some [Fin.ofNat _ n.val, Fin.ofNat _ (n.val / 256)] := fun _ => rfl
      simp only [hlt, true_and, ← this, e2, Option.bind_eq_bind, Option.bind_some]
      cases Codec.encList (Codec.pair Codec.u16 definition) b.definedSeals.entries <;> simp
    · rename_i hlt
      simp [hlt]
  have hwit : ((Codec.option (SealWitness.codec published client)).enc b.witness).isSome ↔
      ∀ w, b.witness = some w → (published.enc w.published).isSome ∧ (client.enc w.client).isSome := by
    cases b.witness with
    | none => simp [Codec.option]
    | some w =>
      simp only [Codec.option, SealWitness.codec, Codec.via, Codec.pair, Option.isSome_map, Option.some.injEq,
        forall_eq', Option.bind_eq_bind]
      cases published.enc w.published <;> cases client.enc w.client <;> simp
  rw [← hwit, ← and_assoc (a := _ < _), ← hmap]
  simp only [OperationSeals.codec, Codec.via, Codec.pair, Option.bind_eq_bind]
  cases operation.enc b.operation <;> cases (Codec.smallOrdMap check Codec.u16 definition).enc b.definedSeals <;>
    cases (Codec.option (SealWitness.codec published client)).enc b.witness <;> simp

/-- If the decoder accepts only ascending keys, and the codecs of the components accept only what
they encode, then every accepted input starts with the encoding of the bundle read from it. -/
theorem C48_canonical (ho : operation.Canonical) (hd : definition.Canonical) (hp : published.Canonical)
    (hc : client.Canonical)
    (hcheck : ∀ l, check l = true → ∃ m : OMap U16 (RgbSeal.Definition Seal), m.entries = l)
    (bytes rest : Bytes) (b : OperationSeals Seal)
    (h : (OperationSeals.codec check operation definition published client).dec bytes = some (b, rest)) :
    ∃ e, (OperationSeals.codec check operation definition published client).enc b = some e ∧ bytes = e ++ rest :=
  Codec.canonical_via (Codec.canonical_pair ho (Codec.canonical_pair (Codec.canonical_smallOrdMap Codec.canonical_u16 hd hcheck)
    (Codec.canonical_option (Codec.canonical_via (Codec.canonical_pair hp hc) fun _ => rfl)))) (fun _ => rfl) bytes b rest h

end

namespace Demo
/-- A codec for the values in a table: their index as a byte. -/
def table {α : Type} [DecidableEq α] (l : List α) : Codec α where
  enc a := if a ∈ l then some [Fin.ofNat _ (l.idxOf a)] else none
  dec
    | i :: rest => l[i.val]?.map fun a => (a, rest)
    | [] => none

theorem table_lawful {α : Type} [DecidableEq α] {l : List α} (h : l.length ≤ 256) : (table l).Lawful := by
  intro a e he rest
  simp only [table, Option.ite_none_right_eq_some, Option.some.injEq] at he
  obtain ⟨ha, rfl⟩ := he
  have hlt := List.idxOf_lt_length_iff.2 ha
  have hv : (Fin.ofNat 256 (l.idxOf a)).val = l.idxOf a := Nat.mod_eq_of_lt (by omega)
  simp only [table, List.cons_append, List.nil_append, hv, List.getElem?_eq_getElem hlt, List.getElem_idxOf,
    Option.map_some]

theorem table_canonical {α : Type} [DecidableEq α] {l : List α} (h : l.Nodup) : (table l).Canonical := by
  intro bytes a rest hd
  cases bytes with
  | nil => simp [table] at hd
  | cons i bytes =>
    simp only [table, Option.map_eq_some_iff, Prod.mk.injEq] at hd
    obtain ⟨a', ha, rfl, rfl⟩ := hd
    obtain ⟨hlt, rfl⟩ := List.getElem?_eq_some_iff.1 ha
    refine ⟨[i], ?_, rfl⟩
    simp only [table, List.getElem_mem, if_true, h.idxOf_getElem, Option.some.injEq, List.cons.injEq, and_true]
    apply Fin.ext
    simp only [Fin.ofNat]
    exact Nat.mod_eq_of_lt i.isLt

/-- Toy codecs. -/
def opCodec : Codec Operation := table [genesisOp, transfer1.operation]
/-- See `opCodec`. -/
def defCodec : Codec Def := table [.abs 1, .abs 5, .rel 2, .rel 3]
/-- See `opCodec`. -/
def pubCodec : Codec Nat := table [50, 51]
/-- See `opCodec`. -/
def cliCodec : Codec (List Nat × Bytes32) := table [([1], 101)]

/-- The keys ascend. -/
def ascending (l : List (U16 × Def)) : Bool := decide (l.Pairwise fun a b => a.1 < b.1)

/-- The toy codec of bundles. -/
def blockCodec : Codec Block := OperationSeals.codec (Seal := Nat) ascending opCodec defCodec pubCodec cliCodec

example : opCodec.Lawful ∧ defCodec.Lawful ∧ pubCodec.Lawful ∧ cliCodec.Lawful ∧
    opCodec.Canonical ∧ defCodec.Canonical ∧ pubCodec.Canonical ∧ cliCodec.Canonical ∧
    (∀ m : OMap U16 Def, ascending m.entries = true) ∧
    (∀ l, ascending l = true → ∃ m : OMap U16 Def, m.entries = l) ∧
    blockCodec.enc genesis = some [0, 3, 0, 0, 0, 0, 1, 0, 1, 2, 0, 2, 0] ∧
    blockCodec.enc transfer1 = some [1, 1, 0, 0, 0, 3, 1, 0, 0] ∧
    (blockCodec.enc doubleSpend).isNone ∧
    -- keys out of order, and a repeated key, are refused
    (blockCodec.dec [0, 3, 0, 1, 0, 1, 0, 0, 0, 2, 0, 2, 0]).isNone ∧
    (blockCodec.dec [1, 2, 0, 0, 0, 3, 0, 0, 3, 1, 0, 0]).isNone := by
  refine ⟨table_lawful (by decide), table_lawful (by decide), table_lawful (by decide), table_lawful (by decide),
    table_canonical (by decide +kernel), table_canonical (by decide +kernel), table_canonical (by decide +kernel),
    table_canonical (by decide +kernel), fun m => decide_eq_true m.sorted, fun l hl => ⟨⟨l, of_decide_eq_true hl⟩, rfl⟩, ?_⟩
  decide +kernel

/-- A decoder which does not check the order of the keys reads the same bundle from different inputs. -/
example : ∃ bytes bytes' : Bytes, bytes ≠ bytes' ∧
    (OperationSeals.codec (Seal := Nat) (fun _ => true) opCodec defCodec pubCodec cliCodec).dec bytes = some (genesis, []) ∧
    (OperationSeals.codec (Seal := Nat) (fun _ => true) opCodec defCodec pubCodec cliCodec).dec bytes' = some (genesis, []) :=
  ⟨[0, 3, 0, 0, 0, 0, 1, 0, 1, 2, 0, 2, 0], [0, 3, 0, 1, 0, 1, 0, 0, 0, 2, 0, 2, 0], by decide, rfl, rfl⟩
end Demo

end Rgb
