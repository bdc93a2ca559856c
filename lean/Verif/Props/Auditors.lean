import Verif.Props.Separation
import Verif.Props.Evidence
import Verif.Props.Environment

set_option linter.unusedSectionVars false

/-! # C80: what holds without trust in the contract -/

namespace Rgb
open Spec

/-- A contract which knows nothing, accepts all operations and remembers nothing. -/
structure Auditor where
  contractId : ContractId
  codexId : CodexId

section
variable {Seal : Type} [LinearOrder Seal] [RgbSeal Seal] [OpHash]

instance auditorApi : ContractApi Seal Auditor where
  contractId a := a.contractId
  codex a := ⟨a.codexId, fun _ op _ _ => .ok ⟨opid op, op⟩⟩
  repo _ := ⟨fun _ => none⟩
  memory _ := ⟨fun _ => none, fun _ => none⟩
  isKnown _ _ := false
  applyOperation a _ := a
  applySeals a _ _ := a
  applyWitness a _ _ := a

/-- A reader over a list, without errors. -/
structure Scroll (Seal : Type) [LinearOrder Seal] [RgbSeal Seal] where
  blocks : List (OperationSeals Seal)

instance scrollReader : ReadOperation Seal (Scroll Seal) where
  Error := Empty
  readOperation t := match t.blocks with
    | b :: rest => (.ok (some b), ⟨rest⟩)
    | [] => (.ok none, t)

theorem scroll_reads (xs : List (OperationSeals Seal)) : Reads (Scroll.mk xs) xs (Scroll.mk []) := by
  induction xs with
  | nil => exact .nil _
  | cons b xs ih => exact .cons rfl ih

theorem scroll_delivers (xs : List (OperationSeals Seal)) : Delivers (Scroll.mk xs) xs :=
  ⟨_, _, scroll_reads xs, rfl⟩

variable {R : Type} [ReadOperation Seal R] {E σ : Type}
variable {xs ys : List (OperationSeals Seal)}

/-- The contract-free part of validity is what an auditor checks. -/
theorem C80_auditor (a : Auditor) {r : R} (hr : Delivers r xs) :
    (∃ o, Accepted a r xs o) ↔ SealsInOrder a.contractId a.codexId xs := by
  rw [C79_separation hr]
  refine ⟨fun h => h.1, fun h => ⟨h, ?_⟩⟩
  intro i b _
  exact .inr ⟨_, rfl⟩

/-- The witnesses said to close seals do so. -/
def Attests (l : List (Event Seal E)) : Prop :=
  ∀ w seals m, Event.closing w seals m (.ok ()) ∈ l → RgbSeal.verifySealsClosing w.published w.client seals m = .ok ()

/-- The codex returns the operation it was asked about, with its id. -/
def ReturnsAsked (l : List (Event Seal E)) : Prop :=
  ∀ cid op v, Event.verify cid op (.ok v) ∈ l → v.opid = opid op ∧ v.operation = op

/-- The blocks read. -/
def blocksRead (l : List (Event Seal E)) : List (OperationSeals Seal) := l.filterMap blockOf

theorem rounds_inOrder {cid : ContractId} {xid : CodexId} {segs : List (List (Event Seal E))}
    (h : Rounds cid xid xs segs) (hc : Attests segs.flatten) : SealsInOrder cid xid xs := by
  have key : ∀ (i : Nat) b, xs[i]? = some b → ∃ l, segs[i]? = some l ∧ Round cid xid xs i b l := by
    intro i b hb
    have hlt := lt_length_of_getElem? hb
    rw [← h.length] at hlt
    have hl : segs[i]? = some segs[i] := by simp
    exact ⟨_, hl, h.round i b _ hb hl⟩
  refine ⟨?_, ?_, ?_, ?_⟩
  · intro b hb
    obtain ⟨l, _, hr⟩ := key 0 b hb
    exact hr.codex rfl
  · intro b hb
    obtain ⟨i, hi⟩ := List.mem_iff_getElem?.1 hb
    obtain ⟨l, _, hr⟩ := key i b hi
    exact hr.committed
  · intro b hb
    obtain ⟨i, hi⟩ := List.mem_iff_getElem?.1 hb
    obtain ⟨l, _, hr⟩ := key i b hi
    obtain ⟨_, _, _, _, ⟨h1, _⟩, _⟩ := hr.events
    exact h1
  · intro i b hb
    obtain ⟨l, hl, hr⟩ := key i b hb
    obtain ⟨seals, ver, l₁, l₂, ⟨_, h1⟩, _, h3, h4⟩ := hr.events
    refine ⟨seals, h1, ?_⟩
    cases h3 with
    | @witness w hw =>
      rw [hw]
      refine hc w seals _ (List.mem_flatten.2 ⟨l, List.mem_of_getElem? hl, ?_⟩)
      rw [h4]
      simp
    | nothing hw hs =>
      rw [hw]
      subst hs
      generalize b.operation.destructibleIn = m at h1
      cases h1
      rfl

/-- Whatever the contract, the codex and the reader do, if the witnesses said to close seals do so, the
blocks accepted, which are all those read except possibly the last, have their seals in order, and only
operations of these blocks, other than the first, are applied. -/
theorem C80_environment {env : Env Seal E σ} {s : σ} {result : Except (VerificationError Seal E) Unit} {scene : Scene Seal E σ}
    (h : evaluateIn env s = some (result, scene)) (hc : Attests scene.events) :
    ∃ cid xid blocks, [.contractId cid, .codexId xid] <+: scene.events ∧
      blocks <+: blocksRead scene.events ∧ (blocksRead scene.events).length ≤ blocks.length + 1 ∧
      (result = .ok () → blocks = blocksRead scene.events) ∧ SealsInOrder cid xid blocks ∧
      ∀ v, Event.applyOperation v ∈ scene.events →
        ∃ (i : Nat) (b : OperationSeals Seal), i ≠ 0 ∧ blocks[i]? = some b ∧
          Event.verify cid (opAt cid i b) (.ok v) ∈ scene.events := by
  obtain ⟨cid, xid, blocks, segs, last, h1, h2, h3, _⟩ := C73_outcome h
  have hread : blocksRead scene.events = blocks ++ last.filterMap blockOf := by
    unfold blocksRead
    rw [h2, List.filterMap_append, List.filterMap_append, h1.blocks]
    simp [blockOf]
  have hlast : ∀ {b : OperationSeals Seal} {e : VerificationError Seal E} {l}, Refused cid xid blocks b e l →
      l.filterMap blockOf = [] := by
    intro b e l hl
    have hv : ∀ {ver} {l : List (Event Seal E)}, Vetted cid blocks.length b ver l → l.filterMap blockOf = [] := by
      intro ver l hv
      cases hv <;> rfl
    cases hl with
    | notClosed _ _ _ h _ => rw [List.filterMap_append, hv h]; rfl
    | noWitness _ _ _ h _ _ => exact hv h
    | _ => rfl
  refine ⟨cid, xid, blocks, ?_, ?_, ?_, ?_, ?_, ?_⟩
  · rw [h2, List.append_assoc]
    exact List.prefix_append _ _
  · rw [hread]
    exact List.prefix_append _ _
  · rw [hread]
    cases h3 with
    | eof => simp [List.filterMap_cons, blockOf]
    | fail => simp [List.filterMap_cons, blockOf]
    | refused hl => simp [blockOf, hlast hl]
  · rintro rfl
    rw [hread]
    cases h3
    simp [List.filterMap_cons, blockOf]
  · refine rounds_inOrder h1 fun w seals m hm => hc w seals m ?_
    rw [h2]
    simp only [List.mem_append]
    exact .inl (.inr hm)
  · intro v hv
    rw [h2] at hv
    simp only [List.mem_append, List.mem_cons, reduceCtorEq, List.not_mem_nil, or_false, false_or] at hv
    rcases hv with hv | hv
    · obtain ⟨seg, hseg, hv⟩ := List.mem_flatten.1 hv
      obtain ⟨i, hi⟩ := List.getElem?_of_mem hseg
      have hlt := lt_length_of_getElem? hi
      rw [h1.length] at hlt
      have hb : blocks[i]? = some blocks[i] := by simp [hlt]
      obtain ⟨k1, k2, seals, ver, l₁, l₂, k3, k4, k5, k6⟩ := h1.round i _ _ hb hi
      rw [k6] at hv
      have hva : Event.applyOperation v ∈ appliedEvents (Seal := Seal) (E := E) i ver := by
        simp only [List.mem_cons, reduceCtorEq, List.mem_append, false_or] at hv
        rcases hv with ((hv | hv) | hv) | hv
        · exact absurd hv (mem_vetted k4)
        · exact absurd hv (mem_sealed k5)
        · exact hv
        · unfold sealEvents at hv
          split at hv <;> simp at hv
      cases k4 with
      | known => simp [appliedEvents] at hva
      | verified v' =>
        by_cases hne : i = 0
        · simp [appliedEvents, hne] at hva
        · simp only [appliedEvents, if_neg hne, List.mem_singleton, Event.applyOperation.injEq] at hva
          subst hva
          refine ⟨i, _, hne, hb, ?_⟩
          rw [h2]
          simp only [List.mem_append]
          refine .inl (.inr (List.mem_flatten.2 ⟨seg, hseg, ?_⟩))
          rw [k6]
          simp
    · exact absurd hv (mem_finish h3)

/-- So every theorem about accepted consignments that does not speak of the contract holds for them: they
are accepted by the auditor with the ids given. -/
theorem C80_transfer {env : Env Seal E σ} {s : σ} {scene : Scene Seal E σ}
    (h : evaluateIn env s = some (.ok (), scene)) (hc : Attests scene.events) :
    ∃ cid xid o, [.contractId cid, .codexId xid] <+: scene.events ∧
      Accepted (Auditor.mk cid xid) (Scroll.mk (blocksRead scene.events)) (blocksRead scene.events) o := by
  obtain ⟨cid, xid, blocks, h1, _, _, h2, h3, _⟩ := C80_environment h hc
  obtain rfl := h2 rfl
  obtain ⟨o, ho⟩ := (C80_auditor ⟨cid, xid⟩ (scroll_delivers _)).2 h3
  exact ⟨cid, xid, o, h1, ho⟩

theorem head_ids {cid cid' : ContractId} {xid : CodexId} {l : List (Event Seal E)} (h : [.contractId cid, .codexId xid] <+: l)
    (h' : l.head? = some (.contractId cid')) : cid' = cid := by
  obtain ⟨t, rfl⟩ := h
  simpa using h'.symm

/-- For example, no cell is consumed twice among the blocks read if no operation id is repeated. -/
theorem C80_no_double_closing {env : Env Seal E σ} {s : σ} {scene : Scene Seal E σ}
    (h : evaluateIn env s = some (.ok (), scene)) (hc : Attests scene.events)
    {cid : ContractId} (hid : scene.events.head? = some (.contractId cid))
    (hids : ∀ (i j : Nat) b b', (blocksRead scene.events)[i]? = some b → (blocksRead scene.events)[j]? = some b' →
      idAt cid i b = idAt cid j b' → i = j) :
    ((blocksRead scene.events).flatMap fun b => b.operation.destructibleIn.map (·.addr)).Nodup := by
  obtain ⟨cid', xid, o, h1, h2⟩ := C80_transfer h hc
  obtain rfl := head_ids h1 hid
  exact C09_no_double_closing h2 hids

theorem Spec.WellFormed.prefixes {cid : ContractId} {xs' ys' : List (OperationSeals Seal)} (h : WellFormed cid xs ys)
    (hx : xs' <+: xs) (hy : ys' <+: ys) : WellFormed cid xs' ys' := by
  have key : ∀ {l l' : List (OperationSeals Seal)}, l' <+: l → ∀ {i : Nat} {b}, l'[i]? = some b → l[i]? = some b := by
    rintro l l' ⟨t, rfl⟩ i b hb
    rw [List.getElem?_append_left (lt_length_of_getElem? hb)]
    exact hb
  refine ⟨fun i j b b' hb hb' => h.collision i j b b' (key hx hb) (key hy hb'), ?_, ?_, ?_⟩
  · exact fun b hb b' hb' => h.tokens b (hx.subset hb) b' (hy.subset hb')
  · exact fun b hb => h.positions b (hb.imp (fun k => hx.subset k) fun k => hy.subset k)
  · exact fun b hb => h.anchored b (hb.imp (fun k => hx.subset k) fun k => hy.subset k)

/-- Two evaluations for the same contract id, in any two environments in which the witnesses said to close
seals do so, for instance because they are on one chain, apply no two different operations consuming the
same cell, whatever contract and reader do and however the evaluations end, provided the codices return
what they are asked about. -/
theorem C80_no_conflict {W : SealWitness Seal → Prop} (hsu : SingleUseAmong W) (hinj : Function.Injective (message Seal))
    {E' σ' : Type} {env : Env Seal E σ} {env' : Env Seal E' σ'} {s : σ} {s' : σ'} {res res'} {scene : Scene Seal E σ} {scene' : Scene Seal E' σ'}
    (h : evaluateIn env s = some (res, scene)) (h' : evaluateIn env' s' = some (res', scene'))
    (hc : Attests scene.events) (hc' : Attests scene'.events) (hf : ReturnsAsked scene.events) (hf' : ReturnsAsked scene'.events)
    {cid : ContractId} (hid : scene.events.head? = some (.contractId cid)) (hid' : scene'.events.head? = some (.contractId cid))
    (hw : WellFormed cid (blocksRead scene.events) (blocksRead scene'.events))
    (hx : ∀ b ∈ blocksRead scene.events, ∀ w, b.witness = some w → W w)
    (hy : ∀ b ∈ blocksRead scene'.events, ∀ w, b.witness = some w → W w)
    {v v' : VerifiedOperation} (hv : Event.applyOperation v ∈ scene.events) (hv' : Event.applyOperation v' ∈ scene'.events)
    {inp inp' : Input} (hi : inp ∈ v.operation.destructibleIn) (hi' : inp' ∈ v'.operation.destructibleIn)
    (ha : inp.addr = inp'.addr) : v.opid = v'.opid := by
  obtain ⟨cid₁, xid, xs, a1, a2, _, _, a3, a4⟩ := C80_environment h hc
  obtain ⟨cid₂, xid', ys, b1, b2, _, _, b3, b4⟩ := C80_environment h' hc'
  obtain rfl := head_ids a1 hid
  obtain rfl := head_ids b1 hid'
  obtain ⟨o, ho⟩ := (C80_auditor ⟨cid, xid⟩ (scroll_delivers _)).2 a3
  obtain ⟨o', ho'⟩ := (C80_auditor ⟨cid, xid'⟩ (scroll_delivers _)).2 b3
  obtain ⟨i, b, _, hb, e⟩ := a4 v hv
  obtain ⟨j, b', _, hb', e'⟩ := b4 v' hv'
  obtain ⟨f1, f2⟩ := hf _ _ _ e
  obtain ⟨f1', f2'⟩ := hf' _ _ _ e'
  have g : ∀ (cid : ContractId) (i : Nat) (b : OperationSeals Seal), (opAt cid i b).destructibleIn = b.operation.destructibleIn := by
    intro cid i b
    unfold opAt
    split <;> rfl
  rw [f2, g] at hi
  rw [f2', g] at hi'
  have := C71_published hsu hinj ho ho' rfl (hw.prefixes a2 b2) (fun b hb => hx b (a2.subset hb)) (fun b hb => hy b (b2.subset hb))
    hb hb' (a := inp.addr) ⟨inp, hi, rfl⟩ ⟨inp', hi', ha.symm⟩
  rw [f1, f1']
  exact this

theorem happens_mem {env : Env Seal E σ} {s s' : σ} {l : List (Event Seal E)} (h : Happens env s l s') {x : Event Seal E} (hx : x ∈ l) :
    ∃ t t', Answers env t x t' := by
  induction h with
  | nil => simp at hx
  | cons ha _ ih =>
    rcases List.mem_cons.1 hx with rfl | hx
    · exact ⟨_, _, ha⟩
    · exact ih hx

/-- Witnesses are checked as they are if the environment uses the function of the seal protocol. -/
theorem attests_of {env : Env Seal E σ} {s : σ} {res} {scene : Scene Seal E σ} (h : evaluateIn env s = some (res, scene))
    (hp : ∀ w seals m t, (env.closing w seals m t).1 = RgbSeal.verifySealsClosing w.published w.client seals m) : Attests scene.events := by
  obtain ⟨_, _, _, _, _, _, _, _, h4⟩ := C73_outcome h
  intro w seals m hm
  obtain ⟨t, t', ha⟩ := happens_mem h4 hm
  rw [← hp w seals m t, show env.closing w seals m t = _ from ha]

theorem returnsAsked_of {env : Env Seal E σ} {s : σ} {res} {scene : Scene Seal E σ} (h : evaluateIn env s = some (res, scene))
    (hp : ∀ cid op t v, (env.verify cid op t).1 = .ok v → v.opid = opid op ∧ v.operation = op) : ReturnsAsked scene.events := by
  obtain ⟨_, _, _, _, _, _, _, _, h4⟩ := C73_outcome h
  intro cid op v hm
  obtain ⟨t, t', ha⟩ := happens_mem h4 hm
  refine hp cid op t v ?_
  rw [show env.verify cid op t = _ from ha]

end

namespace Demo.Once
/-- A contract which claims to know every other operation it is asked about and forgets what it is told;
its witnesses are checked by `check`. -/
def fickle (check : SealWitness Int → List Int → Bytes32 → Except String Unit) : Env Int String (List (OperationSeals Int) × Nat) where
  read := fun
    | (b :: rest, n) => (.ok (some b), rest, n)
    | ([], n) => (.ok none, [], n)
  contractId s := (⟨9⟩, s)
  codexId s := (⟨7⟩, s)
  isKnown _ s := (s.2 % 2 == 0, s.1, s.2 + 1)
  verify _ op s := (.ok ⟨opid op, op⟩, s)
  closing w seals m s := (check w seals m, s)
  applyWitness _ _ s := s
  applyOperation _ s := s
  applySeals _ _ s := s

/-- The check of the seal protocol. -/
def strict : SealWitness Int → List Int → Bytes32 → Except String Unit :=
  fun w seals m => RgbSeal.verifySealsClosing (Seal := Int) w.published w.client seals m

/-- No check. -/
def gullible : SealWitness Int → List Int → Bytes32 → Except String Unit := fun _ _ _ => .ok ()

theorem fickle_attests {s res scene} (h : evaluateIn (fickle strict) s = some (res, scene)) : Attests scene.events :=
  attests_of h fun _ _ _ _ => rfl

theorem fickle_returns {check s res scene} (h : evaluateIn (fickle check) s = some (res, scene)) : ReturnsAsked scene.events := by
  refine returnsAsked_of h ?_
  intro cid op t v hv
  cases hv
  exact ⟨rfl, rfl⟩

/-- Another operation consuming the cell of `move1`, with another witness. -/
def rival : OperationSeals Int := ⟨op 104 [at_ 100 0] [.abs 9], .collect [(0, .abs 9)], some (tx 60)⟩

/-- The operations applied among the events. -/
def appliedOps (l : List (Event Int String)) : List VerifiedOperation :=
  l.filterMap fun | .applyOperation v => some v | _ => none

theorem mem_appliedOps {l : List (Event Int String)} {v : VerifiedOperation} (h : v ∈ appliedOps l) : Event.applyOperation v ∈ l := by
  obtain ⟨x, hx, hv⟩ := List.mem_filterMap.1 h
  cases x <;> simp at hv
  subst hv
  exact hx
/-- The blocks of two rival consignments. -/
def rivals : List (OperationSeals Int) := [origin, move1, rival]

theorem rivals_wellFormed (xs ys : List (OperationSeals Int)) (hx : ∀ b ∈ xs, b ∈ rivals) (hy : ∀ b ∈ ys, b ∈ rivals) :
    WellFormed ⟨9⟩ xs ys := by
  have hb : ∀ b, b ∈ xs ∨ b ∈ ys → b ∈ rivals := fun b h => h.elim (hx b) (hy b)
  have pos : ∀ b ∈ rivals, ∀ e ∈ b.definedSeals.entries,
      (b.operation.destructibleOut[(e.1 : Nat)]?).map (·.auth) = some (RgbSeal.authToken (Seal := Int) e.2) := by
    decide +kernel
  have tok : ∀ b ∈ rivals, ∀ b' ∈ rivals, ∀ e ∈ b.definedSeals.entries, ∀ e' ∈ b'.definedSeals.entries,
      RgbSeal.authToken (Seal := Int) e.2 = RgbSeal.authToken (Seal := Int) e'.2 → e.2 = e'.2 := by
    decide +kernel
  have anc : ∀ b ∈ rivals, ∀ e ∈ b.definedSeals.entries, RgbSeal.toSrc (Seal := Int) e.2 = none → b.operation.destructibleIn ≠ [] := by
    decide +kernel
  have col : ∀ b ∈ rivals, ∀ b' ∈ rivals, ∀ i ∈ [0, 1], ∀ j ∈ [0, 1],
      idAt ⟨9⟩ i b = idAt ⟨9⟩ j b' → opAt ⟨9⟩ i b = opAt ⟨9⟩ j b' := by decide +kernel
  have hsmall : ∀ i : Nat, ∃ k ∈ [0, 1], ∀ b : OperationSeals Int, opAt ⟨9⟩ i b = opAt ⟨9⟩ k b := by
    intro i
    rcases Nat.eq_zero_or_pos i with rfl | h
    · exact ⟨0, by simp, fun _ => rfl⟩
    · exact ⟨1, by simp, fun b => by simp [opAt, Nat.pos_iff_ne_zero.1 h]⟩
  refine ⟨?_, ?_, ?_, ?_⟩
  · intro i j b b' h1 h2 h
    obtain ⟨k, hk, ek⟩ := hsmall i
    obtain ⟨l, hl, el⟩ := hsmall j
    rw [idAt, idAt, ek, el] at h
    rw [ek, el]
    exact col b (hx b (List.mem_of_getElem? h1)) b' (hy b' (List.mem_of_getElem? h2)) k hk l hl h
  · exact fun b h1 b' h2 p d p' d' h3 h4 => tok b (hx b h1) b' (hy b' h2) _ h3 _ h4
  · intro b h p d hd
    have := pos b (hb b h) (p, d) hd
    simpa [Option.map_eq_some_iff] using this
  · exact fun b h p d hd => anc b (hb b h) (p, d) hd
end Demo.Once

open Demo Demo.Once in
/-- Two evaluations by a contract with hidden state which forgets everything, both applying `move1`. -/
example : ∃ scene scene', evaluateIn (fickle strict) ([origin, move1, move2], 0) = some (.ok (), scene) ∧
    evaluateIn (fickle strict) ([origin, other, move1], 1) = some (.ok (), scene') ∧
    SingleUseAmong (Seal := Int) (fun _ => True) ∧ Attests scene.events ∧ Attests scene'.events ∧
    ReturnsAsked scene.events ∧ ReturnsAsked scene'.events ∧
    scene.events.head? = some (.contractId ⟨9⟩) ∧ scene'.events.head? = some (.contractId ⟨9⟩) ∧
    WellFormed ⟨9⟩ (blocksRead scene.events) (blocksRead scene'.events) ∧
    Event.applyOperation ⟨⟨101⟩, move1.operation⟩ ∈ scene.events ∧ Event.applyOperation ⟨⟨101⟩, move1.operation⟩ ∈ scene'.events ∧
    ∃ inp ∈ move1.operation.destructibleIn, inp.addr = at_ 100 0 := by
  have h : evaluateIn (fickle strict) ([origin, move1, move2], 0) = some (.ok (), _) := loopFor_some (n := 4) (x := (.ok (), _)) rfl
  have h' : evaluateIn (fickle strict) ([origin, other, move1], 1) = some (.ok (), _) := loopFor_some (n := 4) (x := (.ok (), _)) rfl
  refine ⟨_, _, h, h', fun w w' _ _ => singleUse w w', fickle_attests h, fickle_attests h', fickle_returns h, fickle_returns h', rfl, rfl,
    pool_wellFormed _ _ ?_ ?_, ?_, ?_, _, List.mem_of_getElem? (i := 0) rfl, rfl⟩
  · show ∀ b ∈ [origin, move1, move2], b ∈ pool
    simp [pool]
  · show ∀ b ∈ [origin, other, move1], b ∈ pool
    simp [pool]
  · exact mem_appliedOps (List.mem_of_getElem? (i := 0) rfl)
  · exact mem_appliedOps (List.mem_of_getElem? (i := 0) rfl)

open Demo Demo.Once in
/-- In the first of them no id is repeated. -/
example : ∃ scene, evaluateIn (fickle strict) ([origin, move1, move2], 0) = some (.ok (), scene) ∧ Attests scene.events ∧
    scene.events.head? = some (.contractId ⟨9⟩) ∧ blocksRead scene.events = [origin, move1, move2] ∧
    ∀ (i j : Nat) b b', (blocksRead scene.events)[i]? = some b → (blocksRead scene.events)[j]? = some b' →
      idAt ⟨9⟩ i b = idAt ⟨9⟩ j b' → i = j := by
  have h : evaluateIn (fickle strict) ([origin, move1, move2], 0) = some (.ok (), _) := loopFor_some (n := 4) (x := (.ok (), _)) rfl
  refine ⟨_, h, fickle_attests h, rfl, rfl, ?_⟩
  show ∀ (i j : Nat) b b', [origin, move1, move2][i]? = some b → [origin, move1, move2][j]? = some b' →
      idAt ⟨9⟩ i b = idAt ⟨9⟩ j b' → i = j
  intro i j b b' hb hb' e
  rcases i with _ | _ | _ | i <;> rcases j with _ | _ | _ | j <;> simp at hb hb' <;> subst hb hb' <;>
    first | rfl | exact absurd e (by decide +kernel)

open Demo Demo.Once in
/-- That the witnesses do what they are said to is needed: where they are not checked, two evaluations apply
different operations consuming the same cell. -/
theorem C80_needs_witnesses : ∃ scene scene' v v' inp inp', evaluateIn (fickle gullible) ([origin, move1], 0) = some (.ok (), scene) ∧
    evaluateIn (fickle gullible) ([origin, rival], 0) = some (.ok (), scene') ∧
    SingleUse Int ∧ Function.Injective (message Int) ∧ ReturnsAsked scene.events ∧ ReturnsAsked scene'.events ∧
    scene.events.head? = some (.contractId ⟨9⟩) ∧ scene'.events.head? = some (.contractId ⟨9⟩) ∧
    WellFormed ⟨9⟩ (blocksRead scene.events) (blocksRead scene'.events) ∧
    Event.applyOperation v ∈ scene.events ∧ Event.applyOperation v' ∈ scene'.events ∧
    inp ∈ v.operation.destructibleIn ∧ inp' ∈ v'.operation.destructibleIn ∧ inp.addr = inp'.addr ∧ v.opid ≠ v'.opid := by
  have h : evaluateIn (fickle gullible) ([origin, move1], 0) = some (.ok (), _) := loopFor_some (n := 4) (x := (.ok (), _)) rfl
  have h' : evaluateIn (fickle gullible) ([origin, rival], 0) = some (.ok (), _) := loopFor_some (n := 4) (x := (.ok (), _)) rfl
  refine ⟨_, _, ⟨⟨101⟩, move1.operation⟩, ⟨⟨104⟩, rival.operation⟩, ⟨at_ 100 0, .none⟩, ⟨at_ 100 0, .none⟩, h, h', singleUse, message_injective,
    fickle_returns h, fickle_returns h', rfl, rfl, rivals_wellFormed _ _ ?_ ?_, ?_, ?_, List.mem_of_getElem? (i := 0) rfl,
    List.mem_of_getElem? (i := 0) rfl, rfl, ?_⟩
  · show ∀ b ∈ [origin, move1], b ∈ rivals
    simp [rivals]
  · show ∀ b ∈ [origin, rival], b ∈ rivals
    simp [rivals]
  · exact mem_appliedOps (List.mem_of_getElem? (i := 0) rfl)
  · exact mem_appliedOps (List.mem_of_getElem? (i := 0) rfl)
  · intro e
    exact absurd (congrArg (fun x => x.bytes.val) e) (by decide +kernel)

end Rgb
