import Verif.Props.Backup
import Verif.Props.Evidence
import Verif.Props.Auditors

/-!
# Parties handing on what they were told (C92)
-/

namespace Rgb
open Spec

namespace Spec
section
variable {Seal : Type} [LinearOrder Seal] [RgbSeal Seal] [OpHash] {C : Type} [ContractApi Seal C]

/-- What is assumed of the consignments issued by anyone for the contract with id `cid`: they are well-formed,
their witnesses belong to `W`, and they start with the same operation. -/
structure Compatible (cid : ContractId) (W : SealWitness Seal → Prop) (F : List (OperationSeals Seal) → Prop) : Prop where
  wellFormed : ∀ xs ys, F xs → F ys → WellFormed cid xs ys
  witnesses : ∀ xs, F xs → ∀ b ∈ xs, ∀ w, b.witness = some w → W w
  start : ∀ xs ys, F xs → F ys → ∀ x y, xs[0]? = some x → ys[0]? = some y → idAt cid 0 x = idAt cid 0 y

/-- The consignments going round among parties which all began as `c`: those issued by anyone, and those read off
its record by a party which received only such, starting as one of those received does. -/
inductive Circulates (F : List (OperationSeals Seal) → Prop) (old : Opid → Option Operation) (c : C) :
    List (OperationSeals Seal) → Prop where
  | issued {xs : List (OperationSeals Seal)} : F xs → Circulates F old c xs
  | handedOn {L : List (List (OperationSeals Seal))} {l : List (Call Seal)} {c' : C} {zs : List (OperationSeals Seal)} :
      Received c L l c' → (∀ xs ∈ L, Circulates F old c xs) → ReadOff (ContractApi.contractId Seal c) old l zs →
      (∀ z, zs[0]? = some z → ∃ xs ∈ L, ∃ x, xs[0]? = some x ∧
        idAt (ContractApi.contractId Seal c) 0 x = idAt (ContractApi.contractId Seal c) 0 z) →
      Circulates F old c zs

/-- What is assumed of a community of parties which all began as the contract `c`, know the operations `old` from
the beginning, and exchange consignments issued with witnesses of the class `W`. -/
structure Community (W : SealWitness Seal → Prop) (F : List (OperationSeals Seal) → Prop) (old : Opid → Option Operation)
    (c : C) : Prop where
  lawful : Lawful Seal C
  lawfulMemory : LawfulMemory Seal C
  localMemory : LocalMemory Seal C
  faithful : Faithful (ContractApi.codex Seal c)
  localCodex : LocalCodex (ContractApi.codex Seal c)
  checksInputs : ChecksInputs (ContractApi.codex Seal c)
  checksReads : ChecksReads (ContractApi.codex Seal c)
  tidy : Tidy (Seal := Seal) c
  singleUse : SingleUseAmong W
  binding : Function.Injective (message Seal)
  compatible : Compatible (ContractApi.contractId Seal c) W F
  kept : ∀ xs, F xs → ∀ (i : Nat) b, xs[i]? = some b →
    ContractApi.isKnown Seal c (idAt (ContractApi.contractId Seal c) i b) = true →
    old (idAt (ContractApi.contractId Seal c) i b) = some (opAt (ContractApi.contractId Seal c) i b)
  unknown : ∀ x, ContractApi.isKnown Seal c x = false → old x = none

/-- A party which began as `c`, has received the consignments `L`, all of them going round, keeps the record `l` and
has arrived at `c'`. -/
structure Party (F : List (OperationSeals Seal) → Prop) (old : Opid → Option Operation) (c : C)
    (L : List (List (OperationSeals Seal))) (l : List (Call Seal)) (c' : C) : Prop where
  received : Received c L l c'
  circulating : ∀ xs ∈ L, Circulates F old c xs
end
end Spec

section
variable {Seal : Type} [LinearOrder Seal] [RgbSeal Seal] [OpHash] {C : Type} [ContractApi Seal C]
variable {R : Type} [ReadOperation Seal R]

theorem Spec.Received.append {c c' c'' : C} {L L' : List (List (OperationSeals Seal))} {l l' : List (Call Seal)}
    (h : Received c L l c') (h' : Received c' L' l' c'') : Received c (L ++ L') (l ++ l') c'' := by
  induction h with
  | nil c => exact h'
  | cons ha h0 _ ih => rw [List.cons_append, List.append_assoc]; exact .cons ha h0 (ih h')

/-- All blocks of the stream are taken from issued consignments. -/
structure Derived (cid : ContractId) (F : List (OperationSeals Seal) → Prop) (zs : List (OperationSeals Seal)) : Prop where
  source : ∀ (k : Nat) z, zs[k]? = some z → ∃ (xs : List (OperationSeals Seal)) (i : Nat) (x : OperationSeals Seal),
    F xs ∧ xs[i]? = some x ∧ opAt cid i x = opAt cid k z
  witness : ∀ (k : Nat) z w, zs[k]? = some z → z.witness = some w →
    ∃ (xs : List (OperationSeals Seal)) (i : Nat) (x : OperationSeals Seal), F xs ∧ xs[i]? = some x ∧ x.witness = some w
  revealed : ∀ (k : Nat) z p d, zs[k]? = some z → (p, d) ∈ z.definedSeals.entries →
    ∃ (xs : List (OperationSeals Seal)) (i : Nat) (x : OperationSeals Seal),
      F xs ∧ xs[i]? = some x ∧ idAt cid i x = idAt cid k z ∧ (p, d) ∈ x.definedSeals.entries
  start : ∀ z, zs[0]? = some z → ∃ (xs : List (OperationSeals Seal)) (x : OperationSeals Seal),
    F xs ∧ xs[0]? = some x ∧ idAt cid 0 x = idAt cid 0 z

section
variable {cid : ContractId} {W : SealWitness Seal → Prop} {F : List (OperationSeals Seal) → Prop}

theorem Derived.wellFormed (hF : Compatible cid W F) {zs zs' : List (OperationSeals Seal)} (h : Derived cid F zs)
    (h' : Derived cid F zs') : WellFormed cid zs zs' := by
  have same : ∀ {zs : List (OperationSeals Seal)}, Derived cid F zs → ∀ {k : Nat} {z : OperationSeals Seal} {p d}, zs[k]? = some z →
      (p, d) ∈ z.definedSeals.entries → ∃ xs x, F xs ∧ x ∈ xs ∧ (p, d) ∈ x.definedSeals.entries ∧
        x.operation.destructibleOut = z.operation.destructibleOut ∧ x.operation.destructibleIn = z.operation.destructibleIn := by
    intro zs h k z p d hk hd
    obtain ⟨xs, i, x, hx, hb, e, hd'⟩ := h.revealed k z p d hk hd
    obtain ⟨ys, j, y, hy, hb', e'⟩ := h.source k z hk
    have := (hF.wellFormed xs ys hx hy).collision i j x y hb hb' (by rw [e, idAt, idAt, e'])
    rw [e'] at this
    refine ⟨xs, x, hx, List.mem_of_getElem? hb, hd', ?_, ?_⟩
    · rw [← opAt_outputs (cid := cid) (i := i) (b := x), this, opAt_outputs]
    · rw [← opAt_inputs (cid := cid) (i := i) (b := x), this, opAt_inputs]
  have one : ∀ {zs : List (OperationSeals Seal)}, Derived cid F zs → ∀ z ∈ zs, PositionsRight z ∧ Anchored z := by
    intro zs h z hz
    obtain ⟨k, hk⟩ := List.mem_iff_getElem?.1 hz
    constructor
    · intro p d hd
      obtain ⟨xs, x, hx, hm, hd', e, _⟩ := same h hk hd
      rw [← e]
      exact (hF.wellFormed xs xs hx hx).positions x (.inl hm) p d hd'
    · intro p d hd hs
      obtain ⟨xs, x, hx, hm, hd', _, e⟩ := same h hk hd
      rw [← e]
      exact (hF.wellFormed xs xs hx hx).anchored x (.inl hm) p d hd' hs
  refine ⟨?_, ?_, ?_, ?_⟩
  · intro i j b b' hb hb' e
    obtain ⟨xs, k, x, hx, hk, e1⟩ := h.source i b hb
    obtain ⟨ys, m, y, hy, hm, e2⟩ := h'.source j b' hb'
    rw [← e1, ← e2]
    refine (hF.wellFormed xs ys hx hy).collision k m x y hk hm ?_
    rw [idAt, idAt, e1, e2]
    exact e
  · intro b hb b' hb' p d p' d' hd hd' e
    obtain ⟨k, hk⟩ := List.mem_iff_getElem?.1 hb
    obtain ⟨k', hk'⟩ := List.mem_iff_getElem?.1 hb'
    obtain ⟨xs, x, hx, hm, hdx, _, _⟩ := same h hk hd
    obtain ⟨ys, y, hy, hm', hdy, _, _⟩ := same h' hk' hd'
    exact (hF.wellFormed xs ys hx hy).tokens x hm y hm' p d p' d' hdx hdy e
  · rintro b (hb | hb)
    · exact (one h b hb).1
    · exact (one h' b hb).1
  · rintro b (hb | hb)
    · exact (one h b hb).2
    · exact (one h' b hb).2

theorem Derived.noClash (hF : Compatible cid W F) (hsu : SingleUseAmong W) (hinj : Function.Injective (message Seal))
    {zs zs' : List (OperationSeals Seal)} (h : Derived cid F zs) (h' : Derived cid F zs') : NoClash cid zs zs' := by
  have one : ∀ {zs : List (OperationSeals Seal)}, Derived cid F zs → ∀ b ∈ zs, ∀ w, b.witness = some w → W w := by
    intro zs h b hb w hw
    obtain ⟨k, hk⟩ := List.mem_iff_getElem?.1 hb
    obtain ⟨xs, i, x, hx, hxi, hxw⟩ := h.witness k b w hk hw
    exact hF.witnesses xs hx x (List.mem_of_getElem? hxi) w hxw
  exact noClash_among hsu hinj (one h) (one h')
end

variable {W : SealWitness Seal → Prop} {F : List (OperationSeals Seal) → Prop} {old : Opid → Option Operation}

theorem Spec.Circulates.derived (hl : Lawful Seal C) {c : C} (hf : Faithful (ContractApi.codex Seal c))
    (hF : Compatible (ContractApi.contractId Seal c) W F)
    (hold : ∀ xs, F xs → ∀ (i : Nat) b p, xs[i]? = some b → old (idAt (ContractApi.contractId Seal c) i b) = some p →
      p = opAt (ContractApi.contractId Seal c) i b)
    {zs : List (OperationSeals Seal)} (h : Circulates F old c zs) : Derived (ContractApi.contractId Seal c) F zs := by
  induction h with
  | issued hx =>
    exact ⟨fun k z hk => ⟨_, k, z, hx, hk, rfl⟩, fun k z w hk hw => ⟨_, k, z, hx, hk, hw⟩,
      fun k z p d hk hd => ⟨_, k, z, hx, hk, rfl, hd⟩, fun z hz => ⟨_, z, hx, hz, rfl⟩⟩
  | @handedOn L l c' zs hr _ hz hs ih =>
    have hno : ∀ xs ∈ L, ∀ ys ∈ L, NoCollision (ContractApi.contractId Seal c) xs ys :=
      fun xs hx ys hy => ((ih xs hx).wellFormed hF (ih ys hy)).collision
    have hm := C91_merges hl hf hr hno (by
      intro xs hx i b p hb hp
      obtain ⟨ys, j, y, hy, hj, e⟩ := (ih xs hx).source i b hb
      rw [← e]
      exact hold ys hy j y p hj (by rw [idAt, e]; exact hp)) hz
    refine ⟨?_, ?_, ?_, ?_⟩
    · intro k z hk
      obtain ⟨xs, i, x, hx, hb, e, _⟩ := hm.source k z hk
      obtain ⟨ys, j, y, hy, hj, e'⟩ := (ih xs hx).source i x hb
      exact ⟨ys, j, y, hy, hj, e'.trans e⟩
    · intro k z w hk hw
      obtain ⟨xs, i, x, hx, hb, _, e⟩ := hm.source k z hk
      exact (ih xs hx).witness i x w hb (e.trans hw)
    · intro k z p d hk hd
      obtain ⟨xs, i, x, hx, hb, e, hd'⟩ := hm.revealed k z p d hk hd
      obtain ⟨ys, j, y, hy, hj, e', hd''⟩ := (ih xs hx).revealed i x p d hb hd'
      exact ⟨ys, j, y, hy, hj, e'.trans e, hd''⟩
    · intro z hz
      obtain ⟨xs, hx, x, hb, e⟩ := hs z hz
      obtain ⟨ys, y, hy, hj, e'⟩ := (ih xs hx).start x hb
      exact ⟨ys, y, hy, hj, e'.trans e⟩

theorem Spec.Community.derived {c : C} (h : Community W F old c) {zs : List (OperationSeals Seal)}
    (hz : Circulates F old c zs) : Derived (ContractApi.contractId Seal c) F zs := by
  refine hz.derived h.lawful h.faithful h.compatible ?_
  intro xs hx i b p hb hp
  cases hk : ContractApi.isKnown Seal c (idAt (ContractApi.contractId Seal c) i b) with
  | true => rw [h.kept xs hx i b hb hk] at hp; exact (Option.some.inj hp).symm
  | false => rw [h.unknown _ hk] at hp; simp at hp

theorem Spec.Community.wellFormed {c : C} (h : Community W F old c) {xs ys : List (OperationSeals Seal)}
    (hx : Circulates F old c xs) (hy : Circulates F old c ys) : WellFormed (ContractApi.contractId Seal c) xs ys :=
  (h.derived hx).wellFormed h.compatible (h.derived hy)

theorem Spec.Community.noClash {c : C} (h : Community W F old c) {xs ys : List (OperationSeals Seal)}
    (hx : Circulates F old c xs) (hy : Circulates F old c ys) : NoClash (ContractApi.contractId Seal c) xs ys :=
  (h.derived hx).noClash h.compatible h.singleUse h.binding (h.derived hy)

theorem Spec.Community.start {c : C} (h : Community W F old c) {xs ys : List (OperationSeals Seal)}
    (hx : Circulates F old c xs) (hy : Circulates F old c ys) (x y : OperationSeals Seal) (hbx : xs[0]? = some x)
    (hby : ys[0]? = some y) : idAt (ContractApi.contractId Seal c) 0 x = idAt (ContractApi.contractId Seal c) 0 y := by
  obtain ⟨xs', x', hx', hb', e⟩ := (h.derived hx).start x hbx
  obtain ⟨ys', y', hy', hc', e'⟩ := (h.derived hy).start y hby
  rw [← e, ← e']
  exact h.compatible.start xs' ys' hx' hy' x' y' hb' hc'

theorem Spec.Community.kept' {c : C} (h : Community W F old c) {xs : List (OperationSeals Seal)} (hx : Circulates F old c xs)
    (i : Nat) (b : OperationSeals Seal) (hb : xs[i]? = some b)
    (hk : ContractApi.isKnown Seal c (idAt (ContractApi.contractId Seal c) i b) = true) :
    old (idAt (ContractApi.contractId Seal c) i b) = some (opAt (ContractApi.contractId Seal c) i b) := by
  obtain ⟨ys, j, y, hy, hj, e⟩ := (h.derived hx).source i b hb
  have e' : idAt (ContractApi.contractId Seal c) j y = idAt (ContractApi.contractId Seal c) i b := by rw [idAt, idAt, e]
  rw [← e', ← e]
  exact h.kept ys hy j y hj (by rw [e']; exact hk)

variable {c : C}

/-- No two operations applied by parties of a community spend the same cell. -/
theorem C92_safe (hc : Community W F old c) {L₁ L₂ : List (List (OperationSeals Seal))} {l₁ l₂ : List (Call Seal)} {c₁ c₂ : C}
    (h₁ : Party F old c L₁ l₁ c₁) (h₂ : Party F old c L₂ l₂ c₂) {v v' : VerifiedOperation}
    (hv : Call.applyOperation v ∈ l₁) (hv' : Call.applyOperation v' ∈ l₂) {inp inp' : Input}
    (hi : inp ∈ v.operation.destructibleIn) (hi' : inp' ∈ v'.operation.destructibleIn) (e : inp.addr = inp'.addr) : v = v' := by
  obtain ⟨xs, hx, i, b, hb, e1, e2⟩ := received_operation hc.lawful hc.faithful h₁.received hv
  obtain ⟨ys, hy, j, b', hb', e1', e2'⟩ := received_operation hc.lawful hc.faithful h₂.received hv'
  obtain ⟨d, R, _, r, o, hd, ha⟩ := h₁.received.each hc.lawful xs hx
  obtain ⟨d', R', _, r', o', hd', ha'⟩ := h₂.received.each hc.lawful ys hy
  have hxy := hc.wellFormed (h₁.circulating xs hx) (h₂.circulating ys hy)
  have := no_conflict hd hd' ha.valid ha'.valid hxy (hc.noClash (h₁.circulating xs hx) (h₂.circulating ys hy)) hb hb'
    ⟨inp, by rw [← e2, opAt_inputs] at hi; exact hi, rfl⟩ ⟨inp', by rw [← e2', opAt_inputs] at hi'; exact hi', e.symm⟩
  have ho := hxy.collision i j b b' hb hb' this
  rw [e1, e1'] at this
  rw [e2, e2'] at ho
  cases v
  cases v'
  exact congrArg₂ VerifiedOperation.mk this ho

/-- Parties knowing the same operations are in the same state. -/
theorem C92_agree (hc : Community W F old c) {L₁ L₂ : List (List (OperationSeals Seal))} {l₁ l₂ : List (Call Seal)} {c₁ c₂ : C}
    (h₁ : Party F old c L₁ l₁ c₁) (h₂ : Party F old c L₂ l₂ c₂)
    (hk : ∀ x, ContractApi.isKnown Seal c₁ x = ContractApi.isKnown Seal c₂ x) : SameState (Seal := Seal) c₁ c₂ := by
  refine C77_known hc.lawful hc.lawfulMemory hc.localMemory hc.faithful ⟨rfl, rfl, rfl, rfl, fun _ => rfl⟩
    h₁.received.history h₂.received.history ?_ hk
  intro v hv v' hv' e
  obtain ⟨xs, hx, i, b, hb, e1, e2⟩ := received_operation hc.lawful hc.faithful h₁.received (applied_mem hv)
  obtain ⟨ys, hy, j, b', hb', e1', e2'⟩ := received_operation hc.lawful hc.faithful h₂.received (applied_mem hv')
  rw [← e2, ← e2']
  exact (hc.wellFormed (h₁.circulating xs hx) (h₂.circulating ys hy)).collision i j b b' hb hb' (by rw [e1, e1', e])

/-- Whatever a party of the community has been told it can hand on to any other one, which accepts it and then knows
what either of them knew. -/
theorem C92_handover (hc : Community W F old c) {L₁ L₂ : List (List (OperationSeals Seal))} {l₁ l₂ : List (Call Seal)} {c₁ c₂ : C}
    (h₁ : Party F old c L₁ l₁ c₁) (h₂ : Party F old c L₂ l₂ c₂) :
    ∃ zs, ReadOff (ContractApi.contractId Seal c) old l₁ zs ∧ (∀ z, zs[0]? = some z → KnownStart c₂ z) ∧
      ∀ (R : Type) (_ : ReadOperation Seal R) (r : R), Delivers r zs → ∃ o, Accepted c₂ r zs o ∧ Party F old c (L₂ ++ [zs]) (l₂ ++ o.world.calls) o.world.contract ∧
        ∀ x, ContractApi.isKnown Seal o.world.contract x = true ↔
          ContractApi.isKnown Seal c₁ x = true ∨ ContractApi.isKnown Seal c₂ x = true := by
  have hl := hc.lawful
  obtain ⟨zs, hz, hs, hacc⟩ := C91_exists hl hc.lawfulMemory hc.localMemory hc.faithful hc.localCodex hc.checksInputs
    hc.checksReads hc.tidy h₁.received (fun xs hx ys hy => hc.wellFormed (h₁.circulating xs hx) (h₁.circulating ys hy))
    (fun xs hx ys hy => hc.noClash (h₁.circulating xs hx) (h₁.circulating ys hy))
    (fun xs hx ys hy => hc.start (h₁.circulating xs hx) (h₁.circulating ys hy))
    (fun xs hx => hc.kept' (h₁.circulating xs hx)) hc.unknown
  have hcirc : Circulates F old c zs := by
    refine .handedOn h₁.received h₁.circulating hz ?_
    intro z hz
    obtain ⟨xs, hx, x, hb, e⟩ := hs z hz
    refine ⟨xs, hx, x, hb, ?_⟩
    simp only [idAt, opAt, e]
  have hmerge := C91_merges hl hc.faithful h₁.received
    (fun xs hx ys hy => (hc.wellFormed (h₁.circulating xs hx) (h₁.circulating ys hy)).collision) (by
      intro xs hx i b p hb hp
      cases hk : ContractApi.isKnown Seal c (idAt (ContractApi.contractId Seal c) i b) with
      | true => rw [hc.kept' (h₁.circulating xs hx) i b hb hk] at hp; exact (Option.some.inj hp).symm
      | false => rw [hc.unknown _ hk] at hp; simp at hp) hz
  have id2 : ContractApi.contractId Seal c₂ = ContractApi.contractId Seal c := by
    rw [history_fold h₂.received.history, hl.foldl_id]
  have cx2 : ContractApi.codex Seal c₂ = ContractApi.codex Seal c := by
    rw [history_fold h₂.received.history, hl.foldl_codex]
  have mono : ∀ {x : Opid}, ContractApi.isKnown Seal c x = true → ContractApi.isKnown Seal c₂ x = true := by
    intro x hk
    rw [history_fold h₂.received.history]
    exact hl.foldl_mono hk
  have hstarts := h₁.received.starts hl (fun xs hx ys hy => hc.start (h₁.circulating xs hx) (h₁.circulating ys hy))
  have hk0 : ∀ z, zs[0]? = some z → KnownStart c z := by
    intro z hz
    obtain ⟨xs, hx, x, hb, e⟩ := hs z hz
    have := (hstarts xs hx x hb).2
    unfold KnownStart at this ⊢
    rw [e]
    exact this
  have hk2 : ∀ z, zs[0]? = some z → KnownStart c₂ z := by
    intro z hz
    have := mono (hk0 z hz)
    unfold KnownStart
    rw [id2]
    exact this
  have hk1 := allAccepted_known hl hc.faithful h₁.received.allAccepted
  refine ⟨zs, hz, hk2, ?_⟩
  intro R _ r hr
  obtain ⟨o₀, ho₀, _⟩ := hacc R _ r hr
  let T : Operation → Prop := fun p => ∃ xs, Circulates F old c xs ∧ ∃ (i : Nat) (b : OperationSeals Seal), xs[i]? = some b ∧
    p = opAt (ContractApi.contractId Seal c) i b
  have hT : ∀ p q, T p → T q → opid p = opid q → p = q := by
    rintro p q ⟨xs, hx, i, b, hb, rfl⟩ ⟨ys, hy, j, b', hb', rfl⟩ e
    exact (hc.wellFormed hx hy).collision i j b b' hb hb' e
  obtain ⟨o, ho⟩ := (C82_stable hl hc.lawfulMemory hc.localMemory hc.faithful hc.localCodex hc.checksInputs hc.checksReads
    hc.tidy h₂.received.history ho₀ hk0 hT (by
      intro v hv
      obtain ⟨xs, hx, i, b, hb, _, e⟩ := received_operation hl hc.faithful h₂.received (applied_mem hv)
      exact ⟨xs, h₂.circulating xs hx, i, b, hb, e.symm⟩) (fun i b hb => ⟨zs, hcirc, i, b, hb, rfl⟩) hr).2 (by
    intro i b hb hk inp hinp v hv inp' hinp' e
    obtain ⟨ys, hy, j, b', hb', e1, e2⟩ := received_operation hl hc.faithful h₂.received (applied_mem hv)
    obtain ⟨d', R', _, r', o', hd', ha'⟩ := h₂.received.each hl ys hy
    have := no_conflict rfl hd' ho₀.valid ha'.valid (hc.wellFormed hcirc (h₂.circulating ys hy))
      (hc.noClash hcirc (h₂.circulating ys hy)) hb hb' ⟨inp, hinp, rfl⟩ ⟨inp', by rw [← e2, opAt_inputs] at hinp'; exact hinp', e⟩
    have hkn := ((C34_applied_once hl hc.faithful h₂.received.history).2.2 v.opid).2 (.inr (List.mem_map_of_mem hv))
    rw [← e1, ← this, hk] at hkn
    simp at hkn)
  have hone : Received c₂ [zs] (o.world.calls ++ []) o.world.contract := .cons ho hk2 (.nil _)
  refine ⟨o, ho, ⟨?_, ?_⟩, ?_⟩
  · have := h₂.received.append hone
    rwa [List.append_nil] at this
  · intro xs hx
    rcases List.mem_append.1 hx with hx | hx
    · exact h₂.circulating xs hx
    · rw [List.mem_singleton.1 hx]; exact hcirc
  · intro x
    rw [allAccepted_known hl (cx2 ▸ hc.faithful) hone.allAccepted, id2, hk1]
    constructor
    · rintro (h | ⟨ys, hy, i, b, hb, rfl⟩)
      · exact .inr h
      · rw [List.mem_singleton] at hy
        subst hy
        obtain ⟨xs, j, x, hx, hj, e, _⟩ := hmerge.source i b hb
        exact .inl (.inr ⟨xs, hx, j, x, hj, by rw [idAt, idAt, e]⟩)
    · rintro ((h | ⟨xs, hx, i, b, hb, rfl⟩) | h)
      · exact .inl (mono h)
      · obtain ⟨k, z, hk, e⟩ := hmerge.present xs i b hx hb
        exact .inr ⟨zs, by simp, k, z, hk, e.symm⟩
      · exact .inl h

/-- Two parties which hand each other what they were told are in the same state afterwards. -/
theorem C92_exchange (hc : Community W F old c) {L₁ L₂ : List (List (OperationSeals Seal))} {l₁ l₂ : List (Call Seal)} {c₁ c₂ : C}
    (h₁ : Party F old c L₁ l₁ c₁) (h₂ : Party F old c L₂ l₂ c₂) :
    ∃ zs₁ zs₂, ReadOff (ContractApi.contractId Seal c) old l₁ zs₁ ∧ ReadOff (ContractApi.contractId Seal c) old l₂ zs₂ ∧
      ∀ (R₁ R₂ : Type) (_ : ReadOperation Seal R₁) (_ : ReadOperation Seal R₂) (r₁ : R₁) (r₂ : R₂), Delivers r₁ zs₁ → Delivers r₂ zs₂ →
        ∃ o₁ o₂, Accepted c₁ r₂ zs₂ o₁ ∧ Accepted c₂ r₁ zs₁ o₂ ∧ SameState (Seal := Seal) o₁.world.contract o₂.world.contract := by
  obtain ⟨zs₁, hz₁, _, k₁⟩ := C92_handover hc h₁ h₂
  obtain ⟨zs₂, hz₂, _, k₂⟩ := C92_handover hc h₂ h₁
  refine ⟨zs₁, zs₂, hz₁, hz₂, ?_⟩
  intro R₁ R₂ _ _ r₁ r₂ hr₁ hr₂
  obtain ⟨o₂, a₂, p₂, q₂⟩ := k₁ R₁ _ r₁ hr₁
  obtain ⟨o₁, a₁, p₁, q₁⟩ := k₂ R₂ _ r₂ hr₂
  refine ⟨o₁, o₂, a₁, a₂, C92_agree hc p₁ p₂ fun x => ?_⟩
  rw [Bool.eq_iff_iff, q₁, q₂, or_comm]

/-- A party can collect what any number of others were told. -/
theorem C92_collect (hc : Community W F old c)
    (ps : List (List (List (OperationSeals Seal)) × List (Call Seal) × C)) (hp : ∀ p ∈ ps, Party F old c p.1 p.2.1 p.2.2)
    {L : List (List (OperationSeals Seal))} {l : List (Call Seal)} {d : C} (h : Party F old c L l d) :
    ∃ (Zs : List (List (OperationSeals Seal))) (l' : List (Call Seal)) (d' : C), Received d Zs l' d' ∧
      List.Forall₂ (fun zs p => ReadOff (ContractApi.contractId Seal c) old p.2.1 zs) Zs ps ∧
      Party F old c (L ++ Zs) (l ++ l') d' ∧
      ∀ x, ContractApi.isKnown Seal d' x = true ↔ ContractApi.isKnown Seal d x = true ∨
        ∃ p ∈ ps, ContractApi.isKnown Seal p.2.2 x = true := by
  induction ps generalizing L l d with
  | nil => exact ⟨[], [], d, .nil d, .nil, by simpa using h, by simp⟩
  | cons p ps ih =>
    obtain ⟨zs, hz, hst, k⟩ := C92_handover hc (hp p (by simp)) h
    obtain ⟨o, ho, hp', hk⟩ := k (Scroll Seal) _ (Scroll.mk zs) (scroll_delivers zs)
    obtain ⟨Zs, l', d', r1, r2, r3, r4⟩ := ih (fun q hq => hp q (by simp [hq])) hp'
    refine ⟨zs :: Zs, o.world.calls ++ l', d', .cons ho hst r1, .cons hz r2, ?_, ?_⟩
    · have := r3
      rwa [List.append_assoc, List.append_assoc] at this
    · intro x
      rw [r4, hk]
      simp only [List.mem_cons, exists_eq_or_imp]
      tauto

/-- Parties which collect what all of them were told are in the same state afterwards. -/
theorem C92_consensus (hc : Community W F old c)
    (ps : List (List (List (OperationSeals Seal)) × List (Call Seal) × C)) (hp : ∀ p ∈ ps, Party F old c p.1 p.2.1 p.2.2) :
    ∃ d : C, ∀ p ∈ ps, ∃ (Zs : List (List (OperationSeals Seal))) (l' : List (Call Seal)) (d' : C), Received p.2.2 Zs l' d' ∧
      List.Forall₂ (fun zs q => ReadOff (ContractApi.contractId Seal c) old q.2.1 zs) Zs ps ∧ SameState (Seal := Seal) d' d := by
  obtain ⟨Zs, l', d, r1, r2, r3, r4⟩ := C92_collect hc ps hp (L := []) (l := []) (d := c) ⟨.nil c, by simp⟩
  refine ⟨d, fun p hpp => ?_⟩
  obtain ⟨Zs', l'', d', s1, s2, s3, s4⟩ := C92_collect hc ps hp (hp p hpp)
  refine ⟨Zs', l'', d', s1, s2, C92_agree hc s3 r3 fun x => ?_⟩
  rw [Bool.eq_iff_iff, s4, r4]
  have mono : ContractApi.isKnown Seal c x = true → ContractApi.isKnown Seal p.2.2 x = true := by
    intro hk
    rw [history_fold (hp p hpp).received.history]
    exact hc.lawful.foldl_mono hk
  constructor
  · rintro (h | h)
    · exact .inr ⟨p, hpp, h⟩
    · exact .inr h
  · rintro (h | h)
    · exact .inl (mono h)
    · exact .inr h

end
namespace Demo.Once
open Demo

/-- Consignments issued for the archive; one of them reads a note published in the others. -/
def issued : List (List (OperationSeals Int)) := [[origin, publish], [origin, move1, cite, move2], [origin, other, publish]]

theorem issued_community : Community (Seal := Int) (fun _ => True) (· ∈ issued) first archive where
  lawful := archive_lawful
  lawfulMemory := archive_lawfulMemory
  localMemory := archive_localMemory
  faithful := reading_faithful
  localCodex := reading_local
  checksInputs := reading_checksInputs
  checksReads := reading_checksReads
  tidy := archive_tidy
  singleUse := fun w w' _ _ => singleUse w w'
  binding := message_injective
  compatible := by
    have hs : ∀ xs ∈ issued, ∀ b ∈ xs, b ∈ shelf := by
      intro xs hx
      rcases (by simpa [issued] using hx : xs = _ ∨ xs = _ ∨ xs = _) with rfl | rfl | rfl <;> simp [shelf]
    refine ⟨fun xs ys hx hy => shelf_wellFormed xs ys (hs xs hx) (hs ys hy), fun _ _ _ _ _ _ => trivial, ?_⟩
    intro xs ys hx hy x y e1 e2
    rcases (by simpa [issued] using hx : xs = _ ∨ xs = _ ∨ xs = _) with rfl | rfl | rfl <;>
      rcases (by simpa [issued] using hy : ys = _ ∨ ys = _ ∨ ys = _) with rfl | rfl | rfl <;> cases e1 <;> cases e2 <;> rfl
  kept := by
    have h : ∀ xs ∈ issued, ∀ e ∈ xs.zipIdx, ContractApi.isKnown Int archive (idAt ⟨9⟩ e.2 e.1) = true →
        first (idAt ⟨9⟩ e.2 e.1) = some (opAt ⟨9⟩ e.2 e.1) := by decide +kernel
    exact fun xs hx i b hb => h xs hx (b, i) (List.mem_zipIdx_iff_getElem?.2 hb)
  unknown := by
    intro x hx
    unfold first
    split
    · rename_i e; subst e; exact absurd hx (by decide +kernel)
    · rfl

theorem issued_party : ∃ l o, Party (Seal := Int) (· ∈ issued) first archive [[origin, other, publish]] l o ∧
    o = later [origin, other, publish] := by
  obtain ⟨o, h⟩ := passes_iff.2 (show passes archive [origin, other, publish] = true by decide +kernel)
  have e : o.world.contract = later [origin, other, publish] := h.shape.contract
  exact ⟨_, _, ⟨.cons h (by rintro b hb; cases hb; rfl) (.nil _), fun xs hx => .issued (by rw [List.mem_singleton.1 hx]; simp [issued])⟩, e⟩

end Demo.Once

open Demo Demo.Once in
/-- C92: a community in which two parties were told different things, neither knowing all the other does; after the
exchange each knows everything. -/
example : ∃ l₁ c₁ l₂ c₂, Community (Seal := Int) (fun _ => True) (· ∈ issued) first archive ∧
    Party (Seal := Int) (· ∈ issued) first archive received l₁ c₁ ∧
    Party (Seal := Int) (· ∈ issued) first archive [[origin, other, publish]] l₂ c₂ ∧
    ContractApi.isKnown Int c₁ ⟨103⟩ = false ∧ ContractApi.isKnown Int c₂ ⟨103⟩ = true ∧
    ContractApi.isKnown Int c₁ (idAt ⟨9⟩ 1 move2) = true ∧ ContractApi.isKnown Int c₂ (idAt ⟨9⟩ 1 move2) = false ∧
    ∃ zs o, ReadOff ⟨9⟩ first l₁ zs ∧ Accepted c₂ (Feed.mk zs) zs o ∧
      ContractApi.isKnown Int o.world.contract (idAt ⟨9⟩ 1 move2) = true ∧ ContractApi.isKnown Int o.world.contract ⟨103⟩ = true := by
  obtain ⟨l₁, c₁, h₁⟩ := received_ok
  obtain ⟨l₂, c₂, h₂, rfl⟩ := issued_party
  have p₁ : Party (Seal := Int) (· ∈ issued) first archive received l₁ c₁ :=
    ⟨h₁, fun xs hx => .issued (by revert hx; simp only [received, issued, List.mem_cons]; tauto)⟩
  have k := allAccepted_known archive_lawful reading_faithful h₁.allAccepted
  have k1 : ContractApi.isKnown Int c₁ (idAt ⟨9⟩ 1 move2) = true :=
    (k _).2 (.inr ⟨[origin, move1, cite, move2], by simp [received], 3, move2, rfl, by decide +kernel⟩)
  have k2 : ContractApi.isKnown Int (later [origin, other, publish]) ⟨103⟩ = true := by decide +kernel
  obtain ⟨zs, hz, _, q⟩ := C92_handover issued_community p₁ h₂
  obtain ⟨o, ho, _, hk⟩ := q _ _ _ (feed_delivers zs)
  refine ⟨l₁, c₁, l₂, _, issued_community, p₁, h₂, ?_, k2, k1, by decide +kernel, zs, o, hz, ho,
    (hk _).2 (.inl k1), (hk _).2 (.inr k2)⟩
  rw [Bool.eq_false_iff, Ne, k]
  rintro (h | ⟨xs, hx, i, b, hb, e⟩)
  · revert h; decide +kernel
  · have : ∀ xs ∈ received, ∀ e ∈ xs.zipIdx, idAt ⟨9⟩ e.2 e.1 ≠ (⟨103⟩ : Opid) := by decide +kernel
    exact this xs hx (b, i) (List.mem_zipIdx_iff_getElem?.2 hb) e.symm

end Rgb
