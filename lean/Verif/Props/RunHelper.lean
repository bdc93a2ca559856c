import Verif.Props.TestContract

/-!
# When the assertions of the tests' `run` helper hold

C88.  `C56_refuted` shows that acceptance does not imply the assertions of `run` (verify.rs:474-498).
Here they are characterised: the streams on which they hold are exactly those whose operations all
come after genesis in the order of ids, carry a witness and reveal a seal.
-/

namespace Rgb

open Spec

theorem collect_isSome {α V : Type} {f : α → Opid} {g : α → V} {l : List α} (x : Opid) :
    ((OMap.collect (l.map fun a => (f a, g a))).get? x).isSome ↔ ∃ a ∈ l, f a = x := by
  constructor
  · intro h
    by_contra hno
    rw [OMap.collect, OMap.get?_extend_of_not_mem] at h
    · simp [OMap.get?, OMap.empty, OMap.lookupL] at h
    · intro v hv
      obtain ⟨a, ha, e⟩ := List.mem_map.1 hv
      simp only [Prod.mk.injEq] at e
      exact hno ⟨a, ha, e.1⟩
  · rintro ⟨a, ha, rfl⟩
    have key : ∀ (l : List (Opid × V)) (m : OMap Opid V) (k : Opid), ((m.get? k).isSome ∨ ∃ v, (k, v) ∈ l) →
        ((m.extend l).get? k).isSome := by
      intro l
      induction l with
      | nil =>
        rintro m k (h | ⟨v, hv⟩)
        · exact h
        · simp at hv
      | cons e l ih =>
        intro m k hk
        refine ih (m.insert e.1 e.2) k ?_
        rw [OMap.get?_insert]
        by_cases he : k = e.1
        · left; simp [he]
        · rw [if_neg he]
          rcases hk with hk | ⟨v, hv⟩
          · exact .inl hk
          · rcases List.mem_cons.1 hv with rfl | hv
            · exact absurd rfl he
            · exact .inr ⟨v, hv⟩
    exact key _ _ _ (.inr ⟨g a, List.mem_map.2 ⟨a, ha, rfl⟩⟩)

theorem head_le {V : Type} {m : OMap Opid V} {e : Opid × V} (h : m.entries.head? = some e) {x : Opid}
    (hx : (m.get? x).isSome) : e.1 ≤ x := by
  obtain ⟨v, hv⟩ := Option.isSome_iff_exists.1 hx
  have hm := OMap.get?_eq_some.1 hv
  have hs := m.sorted
  cases hent : m.entries with
  | nil => rw [hent] at h; simp at h
  | cons e' l =>
    rw [hent] at hm hs h
    obtain rfl : e' = e := by simpa using h
    rcases List.mem_cons.1 hm with he | he
    · rw [← he]
    · exact le_of_lt ((List.pairwise_cons.1 hs).1 _ he)

theorem head_of_popped {V : Type} {m : OMap Opid V} {x : Opid} (hx : (m.get? x).isSome)
    (hp : m.popFirst.get? x = none) : ∃ v, m.entries.head? = some (x, v) := by
  obtain ⟨v, hv⟩ := Option.isSome_iff_exists.1 hx
  have hm := OMap.get?_eq_some.1 hv
  cases hent : m.entries with
  | nil => rw [hent] at hm; simp at hm
  | cons e l =>
    rw [hent] at hm
    rcases List.mem_cons.1 hm with he | he
    · exact ⟨v, by rw [List.head?_cons, he]⟩
    · have : m.popFirst.get? x = some v := OMap.get?_eq_some.2 (by
        show _ ∈ m.entries.tail
        rw [hent]; exact he)
      rw [this] at hp
      simp at hp

section
variable {Seal : Type} [LinearOrder Seal] [RgbSeal Seal] [OpHash]
variable {R : Type} [ReadOperation Seal R]

/-- On an accepted stream beginning with genesis, whose operations have distinct ids, the assertions of
`run` hold exactly if genesis, both with the codex id and with the contract id, comes before all other
operations in the order of ids, and each of those carries a witness and reveals a seal. -/
theorem C88_iff {c : TestContract Seal} {gop : Operation} (hg : SingleGenesis c (opid gop) gop) (hf : Faithful c.codex)
    {r : R} {b₀ : OperationSeals Seal} {rest : List (OperationSeals Seal)} {o} (h : Accepted c r (b₀ :: rest) o)
    (h0 : opid { b₀.operation with contractId := c.contractId } = opid gop) (hne : opid b₀.operation ≠ opid gop)
    (hn : (rest.map fun b => opid b.operation).Nodup)
    (hfresh : ∀ b ∈ rest, opid b.operation ≠ opid b₀.operation ∧ opid b.operation ≠ opid gop) :
    RunAsserts o.world.contract (b₀ :: rest) ↔
      (∀ b ∈ rest, opid b₀.operation < opid b.operation ∧ opid gop < opid b.operation) ∧
      (∀ b ∈ rest, b.witness.isSome) ∧ ∀ b ∈ rest, b.definedSeals.entries ≠ [] := by
  refine ⟨?_, fun ⟨hlt, hw, hd⟩ => C56_partial hg hf h h0 hlt hn hw hd⟩
  rintro ⟨⟨e₁, hh₁, he₁⟩, ⟨e₂, hh₂, he₂⟩, ⟨e₃, hh₃, he₃⟩⟩
  have hsingle : ∀ {V : Type} (v : V) (x : Opid), (OMap.collect [(opid gop, v)]).get? x = if x = opid gop then some v else none := by
    intro V v x
    have : OMap.collect [(opid gop, v)] = OMap.empty.insert (opid gop) v := rfl
    rw [this, OMap.get?_insert]
    by_cases hx : x = opid gop <;> simp [hx, OMap.get?, OMap.empty, OMap.lookupL]
  have hknown : ∀ x, (o.world.contract.knownOps.get? x).isSome ↔ x = opid gop ∨ ∃ b ∈ rest, opid b.operation = x := by
    intro x
    rw [C51_known_operations hf h, hg.known, hsingle]
    by_cases hx : x = opid gop <;> simp [hx]
  have hlt : ∀ b ∈ rest, opid b₀.operation < opid b.operation ∧ opid gop < opid b.operation := by
    have hno : (o.world.contract.knownOps.get? (opid b₀.operation)) = none := by
      rw [← Option.not_isSome_iff_eq_none, hknown]
      rintro (hx | ⟨b, hb, hx⟩)
      · exact hne hx
      · exact (hfresh b hb).1 hx
    rw [← he₁, OMap.get?_insert] at hno
    split at hno
    · simp at hno
    obtain ⟨v, hv⟩ := head_of_popped ((collect_isSome _).2 ⟨b₀, by simp, rfl⟩) hno
    have hlt0 : ∀ b ∈ rest, opid b₀.operation < opid b.operation := fun b hb =>
      lt_of_le_of_ne (head_le hv ((collect_isSome _).2 ⟨b, by simp [hb], rfl⟩)) (hfresh b hb).1.symm
    have hgk : (o.world.contract.knownOps.get? (opid gop)).isSome := (hknown _).2 (.inl rfl)
    rw [← he₁, OMap.get?_insert] at hgk
    have hfirst : opid gop = e₁.1 := by
      by_contra hno'
      rw [if_neg hno', List.map_cons, get?_popFirst_collect, collect_isSome] at hgk
      · obtain ⟨b, hb, hx⟩ := hgk
        exact (hfresh b hb).2 hx
      · intro e he
        obtain ⟨b, hb, rfl⟩ := List.mem_map.1 he
        exact hlt0 b hb
    refine fun b hb => ⟨hlt0 b hb, lt_of_le_of_ne ?_ (hfresh b hb).2.symm⟩
    rw [hfirst]
    exact head_le hh₁ ((hknown _).2 (.inr ⟨b, hb, rfl⟩))
  have hpop : ∀ {V : Type} (g : OperationSeals Seal → V) (e : Opid × V) (b : OperationSeals Seal), b ∈ rest →
      (((OMap.collect ((b₀ :: rest).map fun e => (opid e.operation, g e))).popFirst.insert e.1 e.2).get?
        (opid b.operation)).isSome := by
    intro V g e b hb
    rw [OMap.get?_insert]
    split
    · rfl
    · rw [List.map_cons, get?_popFirst_collect, collect_isSome]
      · exact ⟨b, hb, rfl⟩
      · intro e he
        obtain ⟨b, hb, rfl⟩ := List.mem_map.1 he
        exact (hlt b hb).1
  have hid : ∀ {i : Nat} {b b' : OperationSeals Seal}, b ∈ rest → (b₀ :: rest)[i]? = some b' →
      idAt c.contractId i b' = opid b.operation → b' = b := by
    intro i b b' hb hb' hx
    cases i with
    | zero =>
      simp only [List.getElem?_cons_zero, Option.some.injEq] at hb'
      subst hb'
      have : idAt c.contractId 0 b₀ = opid gop := h0
      exact absurd (this ▸ hx).symm (hfresh b hb).2
    | succ i =>
      exact eq_of_nodup_map hn (List.mem_of_getElem? (i := i) (by simpa using hb')) hb (by simpa [idAt, opAt] using hx)
  refine ⟨hlt, fun b hb => ?_, fun b hb => ?_⟩
  · have := hpop (fun e => e.witness.toList) e₃ b hb
    rw [he₃, C51_witnesses h, hg.witnesses, hsingle, if_neg (hfresh b hb).2] at this
    split at this
    · simp at this
    rename_i hatt
    obtain ⟨w, hw⟩ := List.exists_mem_of_ne_nil _ hatt
    obtain ⟨⟨b', i⟩, he, hx⟩ := List.mem_filterMap.1 hw
    split at hx
    · rename_i hx'
      have := hid hb (List.mem_zipIdx_iff_getElem?.1 he) hx'
      subst this
      rw [show b'.witness = some w from hx]; rfl
    · simp at hx
  · have := hpop (fun e => OMap.collect e.definedSeals.entries) e₂ b hb
    rw [he₂, C51_seal_entries h, hg.seals, hsingle, if_neg (hfresh b hb).2] at this
    rcases this with this | ⟨i, b', hb', hx, hd⟩
    · simp at this
    · rw [← hid hb hb' hx]; exact hd

/-- After an accepted stream in which some operation after genesis reveals no seal, as all those of the
tests (verify.rs:449-468), the assertions of `run` fail. -/
theorem C88_no_seals_fails {c : TestContract Seal} {gop : Operation} (hg : SingleGenesis c (opid gop) gop)
    (hf : Faithful c.codex) {r : R} {b₀ : OperationSeals Seal} {rest : List (OperationSeals Seal)} {o}
    (h : Accepted c r (b₀ :: rest) o)
    (h0 : opid { b₀.operation with contractId := c.contractId } = opid gop) (hne : opid b₀.operation ≠ opid gop)
    (hn : (rest.map fun b => opid b.operation).Nodup)
    (hfresh : ∀ b ∈ rest, opid b.operation ≠ opid b₀.operation ∧ opid b.operation ≠ opid gop)
    {b : OperationSeals Seal} (hb : b ∈ rest) (hd : b.definedSeals.entries = []) :
    ¬ RunAsserts o.world.contract (b₀ :: rest) := fun ha =>
  ((C88_iff hg hf h h0 hne hn hfresh).1 ha).2.2 b hb hd

end

namespace Demo
/-- An operation without inputs and without a witness. -/
def bareMint : Block := ⟨op 105 [] [.abs 9], .collect [(0, .abs 9)], none⟩

/-- The first transfer, with an id smaller than that of genesis. -/
def lowId : Block := ⟨op 60 [at_ 100 0] [.rel 3], .collect [(0, .rel 3)], some (wit 50 [1] 60)⟩
end Demo

open Demo in
/-- The stream of the toy world meets the condition; without the seals, the witness or the order of the
ids, accepted streams do not. -/
example : (∃ o, Accepted testContract (TestReader.mk story) story o ∧ RunAsserts o.world.contract story) ∧
    (∃ o, Accepted testContract (TestReader.mk [genesis, burn]) [genesis, burn] o ∧
      ¬ RunAsserts o.world.contract [genesis, burn]) ∧
    (∃ o, Accepted testContract (TestReader.mk [genesis, bareMint]) [genesis, bareMint] o ∧
      ¬ RunAsserts o.world.contract [genesis, bareMint]) ∧
    ∃ o, Accepted testContract (TestReader.mk [genesis, lowId]) [genesis, lowId] o ∧
      ¬ RunAsserts o.world.contract [genesis, lowId] := by
  refine ⟨?_, ?_, ?_, ?_⟩
  · obtain ⟨o, h⟩ := test_story
    exact ⟨o, h, (C88_iff (gop := knownGenesis) ⟨rfl, rfl, rfl⟩ codex_faithful h rfl (by decide +kernel)
      (by decide +kernel) (by decide +kernel)).2 ⟨by decide +kernel, by decide +kernel, by decide +kernel⟩⟩
  · obtain ⟨o, h⟩ := accepted_by_test (c := testContract) (bs := [genesis, burn]) (by decide +kernel)
    exact ⟨o, h, C88_no_seals_fails (gop := knownGenesis) ⟨rfl, rfl, rfl⟩ codex_faithful h rfl (by decide +kernel)
      (by decide +kernel) (by decide +kernel) (List.mem_singleton.2 rfl) rfl⟩
  · obtain ⟨o, h⟩ := accepted_by_test (c := testContract) (bs := [genesis, bareMint]) (by decide +kernel)
    refine ⟨o, h, fun ha => ?_⟩
    have := ((C88_iff (gop := knownGenesis) ⟨rfl, rfl, rfl⟩ codex_faithful h rfl (by decide +kernel)
      (by decide +kernel) (by decide +kernel)).1 ha).2.1
    exact absurd this (by decide +kernel)
  · obtain ⟨o, h⟩ := accepted_by_test (c := testContract) (bs := [genesis, lowId]) (by decide +kernel)
    refine ⟨o, h, fun ha => ?_⟩
    have := ((C88_iff (gop := knownGenesis) ⟨rfl, rfl, rfl⟩ codex_faithful h rfl (by decide +kernel)
      (by decide +kernel) (by decide +kernel)).1 ha).1
    exact absurd this (by decide +kernel)

end Rgb
