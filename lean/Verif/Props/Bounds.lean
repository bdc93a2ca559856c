import Verif.Demo
import Verif.Props.Blocks
import Mathlib.Data.List.Nodup
import Mathlib.Data.List.Perm.Subperm

set_option linter.unusedSectionVars false

/-! # C60: how much an evaluation can do -/

namespace Rgb
open Spec

section
variable {Seal : Type} [LinearOrder Seal] [RgbSeal Seal] [OpHash]
variable {C E : Type} [ContractApi Seal C]
variable {R : Type} [ReadOperation Seal R]

theorem length_queries (cid : ContractId) (c : C) (i : Nat) (b : OperationSeals Seal) : (queries cid c i b).length ≤ 5 := by
  unfold queries; split <;> simp

theorem length_callbacks (cid : ContractId) (c : C) (i : Nat) (b : OperationSeals Seal) : (callbacks cid c i b).length ≤ 3 := by
  have h1 : (witnessCallbacks (idAt cid i b) b).length ≤ 1 := by unfold witnessCallbacks; split <;> simp
  have h2 : (operationCallbacks cid c i b).length ≤ 1 := by
    unfold operationCallbacks; split
    · simp
    · split <;> simp
  have h3 : (sealCallbacks (idAt cid i b) b).length ≤ 1 := by unfold sealCallbacks; split <;> simp
  simp only [callbacks, List.length_append]
  omega

theorem length_sealQueries (o : Opid) (b : OperationSeals Seal) (s : List Seal) : (sealQueries o b s).length ≤ 1 := by
  unfold sealQueries; split <;> simp

theorem length_segments {c : C} {blocks : List (OperationSeals Seal)} {segs : List (List (Call Seal))}
    (h : Segments c blocks segs) : segs.flatten.length ≤ 10 * blocks.length := by
  have hall : ∀ l ∈ segs, l.length ≤ 10 := by
    intro l hl
    obtain ⟨k, hk, rfl⟩ := List.getElem_of_mem hl
    have hk' : k < blocks.length := by rw [← h.1]; exact hk
    obtain ⟨seals, _, e⟩ := h.2 k blocks[k] segs[k] (by simp) (by simp)
    rw [e]
    have := length_queries (ContractApi.contractId Seal c) (contractAt (ContractApi.contractId Seal c) c blocks k) k blocks[k]
    have := length_callbacks (ContractApi.contractId Seal c) (contractAt (ContractApi.contractId Seal c) c blocks k) k blocks[k]
    have := length_sealQueries (idAt (ContractApi.contractId Seal c) k blocks[k]) blocks[k] seals
    simp only [List.length_cons, List.length_append]
    omega
  rw [← h.1, List.length_flatten]
  clear h
  induction segs with
  | nil => simp
  | cons l segs ih =>
    have := hall l (by simp)
    have := ih fun l' hl' => hall l' (by simp [hl'])
    simp only [List.map_cons, List.sum_cons, List.length_cons]
    omega

/-- An evaluation makes at most two calls, and ten more for each poll of the reader. -/
theorem C60_calls {c : C} {r : R} {o} (h : evaluate (Seal := Seal) c r = some o) :
    o.world.calls.length ≤ 2 + 10 * polls o.world.calls := by
  obtain ⟨blocks, hs⟩ := run_shape h
  obtain ⟨segs, tail, h1, h2, h3⟩ := hs.stop
  have hl := length_segments h1
  have ht : tail.length ≤ 6 := by
    rcases h3 with ⟨_, rfl, _⟩ | ⟨_, _, rfl, _⟩ | ⟨b, e, _, _, h4⟩
    · simp
    · simp
    · have hq := length_queries (ContractApi.contractId Seal c)
        (contractAt (ContractApi.contractId Seal c) c blocks blocks.length) blocks.length b
      cases h4 <;> (try simp only [List.length_nil, List.length_append, List.length_cons]) <;> omega
  have hp := hs.polls
  rw [hp, h2]
  simp only [List.length_append, List.length_cons, List.length_nil]
  omega

/-- The number of definitions revealed by the consignment. -/
def revealedCount (blocks : List (OperationSeals Seal)) : Nat := (blocks.map fun b => b.definedSeals.entries.length).sum

/-- The number of inputs of the consignment. -/
def consumedCount (blocks : List (OperationSeals Seal)) : Nat := (blocks.map fun b => b.operation.destructibleIn.length).sum

theorem open_bound {c : C} {blocks : List (OperationSeals Seal)} (hv : ValidConsignment c blocks) {l : List CellAddr}
    (hn : l.Nodup) (ho : ∀ a ∈ l, ∃ s, OpenAt (ContractApi.contractId Seal c) blocks blocks.length a s) :
    consumedCount blocks + l.length ≤ revealedCount blocks := by
  induction blocks using List.reverseRecOn generalizing l with
  | nil =>
    cases l with
    | nil => simp [consumedCount, revealedCount]
    | cons a l =>
      obtain ⟨s, hs⟩ := ho a (by simp)
      exact absurd hs OpenAt.zero
  | append_singleton xs b ih =>
    obtain ⟨hv, vb⟩ := validConsignment_snoc.1 hv
    have hc := getElem?_append_lt (xs := xs) (ys := [b]) (Nat.le_refl _)
    classical
    let p : CellAddr → Prop := fun a => ∃ s, Announces (ContractApi.contractId Seal c) xs.length b a s
    let new := l.filter fun a => decide (p a)
    let old := l.filter fun a => !decide (p a)
    have hsplit : new.length + old.length = l.length := (l.length_eq_length_filter_add _).symm
    have hnew : new.length ≤ b.definedSeals.entries.length := by
      have hnd : (new.map (·.pos)).Nodup := by
        refine List.Nodup.map_on ?_ (hn.filter _)
        intro x hx y hy e
        obtain ⟨s, hx, _⟩ := of_decide_eq_true (List.mem_filter.1 hx).2
        obtain ⟨s', hy, _⟩ := of_decide_eq_true (List.mem_filter.1 hy).2
        cases x; cases y
        simp_all
      have hsub : ∀ q ∈ new.map (·.pos), q ∈ b.definedSeals.entries.map (·.1) := by
        intro q hq
        obtain ⟨a, ha, rfl⟩ := List.mem_map.1 hq
        obtain ⟨s, _, d, hd, _⟩ := of_decide_eq_true (List.mem_filter.1 ha).2
        exact List.mem_map.2 ⟨_, hd, rfl⟩
      simpa using (List.subperm_of_subset hnd hsub).length_le
    have hold : ∀ a ∈ old, (∃ s, OpenAt (ContractApi.contractId Seal c) xs xs.length a s) ∧ ¬ Consumes b a := by
      intro a ha
      obtain ⟨h1, h2⟩ := List.mem_filter.1 ha
      have h2 : ¬ p a := by simpa using h2
      obtain ⟨s, hs⟩ := ho a h1
      simp only [List.length_append, List.length_cons, List.length_nil, Nat.zero_add] at hs
      rcases (openAt_succ (b := b) (by simp)).1 hs with hs | ⟨hs, hc', _⟩
      · exact absurd ⟨s, hs⟩ h2
      · exact ⟨⟨s, (openAt_congr hc).2 hs⟩, hc'⟩
    have key := ih hv (l := old ++ b.operation.destructibleIn.map (·.addr)) (by
      refine List.nodup_append.2 ⟨hn.filter _, vb.distinct, ?_⟩
      rintro a ha a' ha' rfl
      obtain ⟨inp, hi, rfl⟩ := List.mem_map.1 ha'
      exact (hold _ ha).2 ⟨inp, hi, rfl⟩) (by
      intro a ha
      rcases List.mem_append.1 ha with ha | ha
      · exact (hold a ha).1
      · obtain ⟨inp, hi, rfl⟩ := List.mem_map.1 ha
        obtain ⟨seals, h1, _⟩ := vb.closed
        obtain ⟨k, hk, rfl⟩ := List.getElem_of_mem hi
        have hk' : k < seals.length := by rw [← h1.length_eq]; exact hk
        exact ⟨seals[k], (List.forall₂_iff_get.1 h1).2 k hk hk'⟩)
    simp only [consumedCount, revealedCount, List.map_append, List.map_cons, List.map_nil, List.sum_append, List.sum_cons, List.sum_nil,
      List.length_append, List.length_map] at key ⊢
    omega

/-- An accepted consignment consumes at most as many cells as it reveals seal definitions: the inputs of
all its operations together with the cells open at its end, each address counted once, are not more than
the definitions revealed in it. -/
theorem C60_conservation {c : C} {r : R} {blocks : List (OperationSeals Seal)} {o} (h : Accepted c r blocks o)
    {l : List CellAddr} (hn : l.Nodup)
    (ho : ∀ a ∈ l, ∃ s, OpenAt (ContractApi.contractId Seal c) blocks blocks.length a s) :
    (blocks.map fun b => b.operation.destructibleIn.length).sum + l.length ≤
      (blocks.map fun b => b.definedSeals.entries.length).sum :=
  open_bound h.valid hn ho

end

open Demo in
/-- The story reveals five definitions, consumes three cells and leaves one open (genesis output 2 is
relative and has no witness). -/
example : ∃ o, Accepted ledger (Tape.mk story none) story o ∧
    (∀ a ∈ [at_ 102 0], ∃ s, OpenAt ledger.contractId story story.length a s) ∧
    (story.map fun b => b.operation.destructibleIn.length).sum = 3 ∧
    (story.map fun b => b.definedSeals.entries.length).sum = 5 := by
  obtain ⟨o, h⟩ := story_run
  refine ⟨o, h, ?_, rfl, rfl⟩
  simp only [List.mem_singleton, forall_eq]
  refine ⟨8, 2, transfer2, by decide, rfl, ⟨by decide +kernel, .abs 8, .head _, .inl rfl⟩, ?_⟩
  intro k b' h1 h2
  simp [story] at h2
  omega

end Rgb
