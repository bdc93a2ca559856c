import Verif.Lemmas.Environment
import Verif.Demo

set_option linter.unusedSectionVars false

/-! # C73: environments with hidden state -/

namespace Rgb
open Spec

section
variable {Seal : Type} [LinearOrder Seal] [RgbSeal Seal] [OpHash]
variable {E σ : Type}

/-! ## What a run must look like -/

/-- The event is an answer of the environment in state `s`, which leaves it in state `s'`. -/
def Answers (env : Env Seal E σ) (s : σ) : Event Seal E → σ → Prop
  | .read a, s' => env.read s = (a, s')
  | .contractId a, s' => env.contractId s = (a, s')
  | .codexId a, s' => env.codexId s = (a, s')
  | .isKnown o a, s' => env.isKnown o s = (a, s')
  | .verify cid op a, s' => env.verify cid op s = (a, s')
  | .closing w seals m a, s' => env.closing w seals m s = (a, s')
  | .applyWitness o w, s' => env.applyWitness o w s = s'
  | .applyOperation v, s' => env.applyOperation v s = s'
  | .applySeals o d, s' => env.applySeals o d s = s'

/-- The events are, one after the other, answers of the environment. -/
inductive Happens (env : Env Seal E σ) : σ → List (Event Seal E) → σ → Prop where
  | nil (s : σ) : Happens env s [] s
  | cons {s s₁ s₂ : σ} {x : Event Seal E} {l : List (Event Seal E)} :
      Answers env s x s₁ → Happens env s₁ l s₂ → Happens env s (x :: l) s₂

/-- The questions about the operation of block `b` at position `i`, and what comes out: nothing if it is
known, the verified operation if not. -/
inductive Vetted (cid : ContractId) (i : Nat) (b : OperationSeals Seal) : Option VerifiedOperation → List (Event Seal E) → Prop where
  | known : Vetted cid i b none [.isKnown (idAt cid i b) true]
  | verified (v : VerifiedOperation) :
      Vetted cid i b (some v) [.isKnown (idAt cid i b) false, .verify cid (opAt cid i b) (.ok v)]

/-- The check that `seals` are closed. -/
inductive Sealed (o : Opid) (b : OperationSeals Seal) (seals : List Seal) : List (Event Seal E) → Prop where
  | witness {w : SealWitness Seal} : b.witness = some w →
      Sealed o b seals [.closing w seals (message Seal o) (.ok ()), .applyWitness o w]
  | nothing : b.witness = none → seals = [] → Sealed o b seals []

/-- The application of the operation at position `i`. -/
def appliedEvents (i : Nat) : Option VerifiedOperation → List (Event Seal E)
  | some v => if i = 0 then [] else [.applyOperation v]
  | none => []

/-- The report of the seals. -/
def sealEvents (o : Opid) (b : OperationSeals Seal) : List (Event Seal E) :=
  if b.definedSeals.entries = [] then [] else [.applySeals o b.definedSeals]

/-- The inputs of `b` at position `i` are distinct and sealed with `seals`. -/
def SealedInputs (cid : ContractId) (blocks : List (OperationSeals Seal)) (i : Nat) (b : OperationSeals Seal) (seals : List Seal) : Prop :=
  (b.operation.destructibleIn.map (·.addr)).Nodup ∧
    List.Forall₂ (fun (inp : Input) s => OpenAt cid blocks i inp.addr s) b.operation.destructibleIn seals

/-- The events `l` of the acceptance of block `b` at position `i`, `cid` and `xid` being the ids given by the
environment at the beginning. -/
structure Round (cid : ContractId) (xid : CodexId) (blocks : List (OperationSeals Seal)) (i : Nat)
    (b : OperationSeals Seal) (l : List (Event Seal E)) : Prop where
  codex : i = 0 → b.operation.contractId.bytes = xid.bytes
  committed : SealsCommitted b
  events : ∃ seals ver l₁ l₂, SealedInputs cid blocks i b seals ∧ Vetted cid i b ver l₁ ∧
    Sealed (idAt cid i b) b seals l₂ ∧
    l = .read (.ok (some b)) :: (l₁ ++ l₂ ++ appliedEvents i ver ++ sealEvents (idAt cid i b) b)

/-- The first operation commits to the codex. -/
def CommitsTo (xid : CodexId) (blocks : List (OperationSeals Seal)) (b : OperationSeals Seal) : Prop :=
  blocks = [] → b.operation.contractId.bytes = xid.bytes

/-- The rejection of block `b` after `blocks`, with error `e` and after the events `l`; the cases in order of
precedence. -/
inductive Refused (cid : ContractId) (xid : CodexId) (blocks : List (OperationSeals Seal)) (b : OperationSeals Seal) :
    VerificationError Seal E → List (Event Seal E) → Prop where
  | codex : ¬ CommitsTo xid blocks b → Refused cid xid blocks b .noCodexCommitment []
  | mismatch {reported defined : OSet AuthToken} {sources : OMap U16 String} :
      CommitsTo xid blocks b → ¬ SealsCommitted b →
      (∀ t, t ∈ reported.elems ↔ ∃ p d, (p, d) ∈ b.definedSeals.entries ∧ t = RgbSeal.authToken d) →
      (∀ t, t ∈ defined.elems ↔ ∃ cell ∈ b.operation.destructibleOut, t = cell.auth) →
      (∀ p s, (p, s) ∈ sources.entries ↔ ∃ d, (p, d) ∈ b.definedSeals.entries ∧ s = RgbSeal.display d) →
      Refused cid xid blocks b (.sealsDefinitionMismatch (idAt cid blocks.length b) reported defined sources) []
  | unknown {pre post : List Input} {inp : Input} : CommitsTo xid blocks b → SealsCommitted b →
      b.operation.destructibleIn = pre ++ inp :: post →
      (pre.map (·.addr)).Nodup → (∀ i ∈ pre, ∃ s, OpenAt cid blocks blocks.length i.addr s) →
      ((∀ s, ¬ OpenAt cid blocks blocks.length inp.addr s) ∨ inp.addr ∈ pre.map (·.addr)) →
      Refused cid xid blocks b (.sealUnknown inp.addr) []
  | script {seals : List Seal} {e : CallError} : CommitsTo xid blocks b → SealsCommitted b →
      SealedInputs cid blocks blocks.length b seals →
      Refused cid xid blocks b (.vm e) [.isKnown (idAt cid blocks.length b) false,
        .verify cid (opAt cid blocks.length b) (.error e)]
  | notClosed {seals : List Seal} {ver : Option VerifiedOperation} {l : List (Event Seal E)} {w : SealWitness Seal}
      {e : RgbSeal.SealError Seal} : CommitsTo xid blocks b → SealsCommitted b →
      SealedInputs cid blocks blocks.length b seals → Vetted cid blocks.length b ver l → b.witness = some w →
      Refused cid xid blocks b (.sealsNotClosed (RgbSeal.pubId w.published) (idAt cid blocks.length b) e)
        (l ++ [.closing w seals (message Seal (idAt cid blocks.length b)) (.error e)])
  | noWitness {seals : List Seal} {ver : Option VerifiedOperation} {l : List (Event Seal E)} :
      CommitsTo xid blocks b → SealsCommitted b →
      SealedInputs cid blocks blocks.length b seals → Vetted cid blocks.length b ver l →
      b.witness = none → b.operation.destructibleIn ≠ [] →
      Refused cid xid blocks b (.noWitness (idAt cid blocks.length b)) l

/-- How a run ends after the accepted `blocks`. -/
inductive Finish (cid : ContractId) (xid : CodexId) (blocks : List (OperationSeals Seal)) :
    Except (VerificationError Seal E) Unit → List (Event Seal E) → Prop where
  | eof : Finish cid xid blocks (.ok ()) [.read (.ok none)]
  | fail {e : E} : Finish cid xid blocks (.error (.stream e)) [.read (.error e)]
  | refused {b : OperationSeals Seal} {e : VerificationError Seal E} {l : List (Event Seal E)} :
      Refused cid xid blocks b e l → Finish cid xid blocks (.error e) (.read (.ok (some b)) :: l)

/-! ## Honesty -/

theorem Happens.append {env : Env Seal E σ} {s s₁ s₂ : σ} {l m : List (Event Seal E)} (h : Happens env s l s₁)
    (h' : Happens env s₁ m s₂) : Happens env s (l ++ m) s₂ := by
  induction h with
  | nil => exact h'
  | cons hx _ ih => exact .cons hx (ih h')

/-- A part of the program whose events are answers of the environment. -/
def PartIn.Honest {α : Type} (env : Env Seal E σ) (s : σ) (p : PartIn Seal E σ α) : Prop := Happens env s p.events p.state

theorem checkIn_honest (env : Env Seal E σ) (cid : ContractId) (op : Operation) (s : σ) :
    (checkIn env cid op s).Honest env s := by
  unfold checkIn
  split
  · rename_i h
    exact .cons h (.nil _)
  · rename_i h
    split
    · rename_i h2
      exact .cons h (.cons h2 (.nil _))
    · rename_i h2
      exact .cons h (.cons h2 (.nil _))

theorem witnessIn_honest (env : Env Seal E σ) (o : Opid) (b : OperationSeals Seal) (closed : List Seal) (s : σ) :
    (witnessIn env o b closed s).Honest env s := by
  unfold witnessIn
  split
  · split
    · rename_i h
      exact .cons h (.nil _)
    · rename_i h
      exact .cons h (.cons rfl (.nil _))
  · split <;> exact .nil _

theorem applyIn_honest (env : Env Seal E σ) (g : Bool) (ver : Option VerifiedOperation) (s : σ) :
    (applyIn env g ver s).Honest env s := by
  unfold applyIn
  split
  · exact .nil _
  · split
    · exact .cons rfl (.nil _)
    · exact .nil _

theorem reportIn_honest (env : Env Seal E σ) (o : Opid) (b : OperationSeals Seal) (s s' : σ) :
    Happens env s (reportIn env o b s').events (reportIn env o b s).state := by
  unfold reportIn
  split
  · exact .nil _
  · exact .cons rfl (.nil _)

theorem stepIn_honest (env : Env Seal E σ) (cid : ContractId) (xid : CodexId) (g : Bool) (seals : OMap CellAddr Seal)
    (b : OperationSeals Seal) (s : σ) : (stepIn env cid xid g seals b s).Honest env s := by
  unfold stepIn
  split
  · exact .nil _
  split
  · exact .nil _
  split
  · exact .nil _
  rename_i closed _ _
  rcases hk : checkIn env cid (effOp cid g b) s with ⟨_ | ver, s1, l⟩
  all_goals
    have h1 := checkIn_honest env cid (effOp cid g b) s
    rw [hk] at h1
  · exact h1
  · simp only
    rcases hw : witnessIn env (opid (effOp cid g b)) b closed s1 with ⟨_ | _, s2, l'⟩
    all_goals
      have h2 := witnessIn_honest env (opid (effOp cid g b)) b closed s1
      rw [hw] at h2
    · exact Happens.append h1 h2
    · exact ((Happens.append h1 h2).append (applyIn_honest ..)).append (reportIn_honest ..)

/-! ## The shape of runs -/

/-- The loop variables after `blocks`. -/
structure Track (cid : ContractId) (blocks : List (OperationSeals Seal)) (g : Bool) (seals : OMap CellAddr Seal) : Prop where
  g : g = decide (blocks.length = 0)
  seals : ∀ a s, seals.get? a = some s ↔ OpenAt cid blocks blocks.length a s

theorem checkIn_vetted {env : Env Seal E σ} {cid : ContractId} {i : Nat} {b : OperationSeals Seal} {s : σ} {ver}
    (h : (checkIn env cid (opAt cid i b) s).res = .ok ver) : Vetted cid i b ver (checkIn env cid (opAt cid i b) s).events := by
  unfold checkIn at h ⊢
  split
  · rename_i h1
    rw [h1] at h
    simp only [Except.ok.injEq] at h
    subst h
    exact .known
  · rename_i h1
    rw [h1] at h
    simp only at h
    split
    · rename_i h2
      rw [h2] at h
      simp at h
    · rename_i h2
      rw [h2] at h
      simp only [Except.ok.injEq] at h
      subst h
      exact .verified _

theorem witnessIn_sealed {env : Env Seal E σ} {o : Opid} {b : OperationSeals Seal} {closed : List Seal} {s : σ}
    (h : (witnessIn env o b closed s).res = .ok ()) : Sealed o b closed (witnessIn env o b closed s).events := by
  unfold witnessIn at h ⊢
  split
  · rename_i w hw
    rw [hw] at h
    simp only at h
    split
    · rename_i h2
      rw [h2] at h
      simp at h
    · exact .witness hw
  · rename_i hw
    rw [hw] at h
    simp only at h
    split
    · rename_i hc
      exact .nothing hw hc
    · rename_i hc
      rw [if_neg hc] at h
      simp at h

theorem stepIn_ok {env : Env Seal E σ} {cid : ContractId} {xid : CodexId} {g : Bool} {seals sl : OMap CellAddr Seal}
    {blocks : List (OperationSeals Seal)} {b : OperationSeals Seal} {s : σ} (ht : Track cid blocks g seals)
    (h : (stepIn env cid xid g seals b s).res = .ok sl) :
    Round cid xid blocks blocks.length b (.read (.ok (some b)) :: (stepIn env cid xid g seals b s).events) ∧
      Track cid (blocks ++ [b]) false sl := by
  have hop : effOp cid g b = opAt cid blocks.length b := by rw [ht.g, effOp_opAt]
  unfold stepIn at h ⊢
  rw [hop] at h ⊢
  by_cases h1 : g = true ∧ b.operation.contractId.bytes ≠ xid.bytes
  · rw [if_pos h1] at h; simp at h
  rw [if_neg h1] at h ⊢
  by_cases h2 : (reportedSet b).isSubset (definedSet b) = false
  · rw [if_pos h2] at h; simp at h
  rw [if_neg h2] at h ⊢
  cases hc : closeAll seals b.operation.destructibleIn with
  | error a => rw [hc] at h; simp at h
  | ok p =>
    obtain ⟨closed, seals'⟩ := p
    rw [hc] at h
    simp only at h ⊢
    rcases hk : checkIn env cid (opAt cid blocks.length b) s with ⟨_ | ver, s1, l⟩
    · rw [hk] at h; simp at h
    have hv := checkIn_vetted (env := env) (s := s) (cid := cid) (i := blocks.length) (b := b) (ver := ver) (by rw [hk])
    rw [hk] at h hv
    simp only at h ⊢
    rcases hw : witnessIn env (opid (opAt cid blocks.length b)) b closed s1 with ⟨_ | _, s2, l'⟩
    · rw [hw] at h; simp at h
    have hse := witnessIn_sealed (env := env) (s := s1) (o := opid (opAt cid blocks.length b)) (b := b) (closed := closed) (by rw [hw])
    rw [hw] at h hse
    simp only [Except.ok.injEq] at h ⊢
    obtain ⟨c1, c2, c3⟩ := closeAll_ok hc
    refine ⟨⟨?_, isSubset_iff_committed.1 (by simpa using h2), closed, ver, l, l',
      ⟨c1, c2.imp fun inp s hs => (ht.seals _ _).1 hs⟩, hv, hse, ?_⟩, by simp, ?_⟩
    · intro hi
      by_contra hne
      exact h1 ⟨by simp [ht.g, hi], hne⟩
    · congr 2
      · congr 1
        rw [ht.g]
        unfold applyIn appliedEvents
        cases ver with
        | none => split <;> rfl
        | some v => by_cases e : blocks.length = 0 <;> simp [e]
      · unfold reportIn sealEvents OMap.isEmpty
        by_cases e : b.definedSeals.entries = [] <;> simp [e, idAt]
    · intro a x
      rw [← h, List.length_append, List.length_singleton]
      refine registry_step (blocks := blocks ++ [b]) (i := blocks.length) (by simp) (fun a s => ?_) hc a x
      rw [ht.seals]
      exact openAt_congr fun k hk => getElem?_append_lt (Nat.le_refl _) k hk

theorem stepIn_error {env : Env Seal E σ} {cid : ContractId} {xid : CodexId} {g : Bool} {seals : OMap CellAddr Seal}
    {blocks : List (OperationSeals Seal)} {b : OperationSeals Seal} {s : σ} (ht : Track cid blocks g seals) {e}
    (h : (stepIn env cid xid g seals b s).res = .error e) :
    Refused cid xid blocks b e (stepIn env cid xid g seals b s).events := by
  have hop : effOp cid g b = opAt cid blocks.length b := by rw [ht.g, effOp_opAt]
  unfold stepIn at h ⊢
  rw [hop] at h ⊢
  by_cases h1 : g = true ∧ b.operation.contractId.bytes ≠ xid.bytes
  · rw [if_pos h1] at h ⊢
    simp only [Except.error.injEq] at h
    subst h
    refine .codex fun hc => h1.2 (hc ?_)
    have := h1.1
    rw [ht.g] at this
    simpa using this
  have hcm : CommitsTo xid blocks b := by
    intro he
    by_contra hne
    exact h1 ⟨by simp [ht.g, he], hne⟩
  rw [if_neg h1] at h ⊢
  by_cases h2 : (reportedSet b).isSubset (definedSet b) = false
  · rw [if_pos h2] at h ⊢
    simp only [Except.error.injEq] at h
    subst h
    refine .mismatch hcm ?_ ?_ ?_ ?_
    · intro hs
      rw [isSubset_iff_committed.2 hs] at h2
      simp at h2
    · exact fun t => mem_reportedSet
    · exact fun t => mem_definedSet
    · exact fun p s => mem_sourcesMap
  rw [if_neg h2] at h ⊢
  have hsc : SealsCommitted b := isSubset_iff_committed.1 (by simpa using h2)
  cases hc : closeAll seals b.operation.destructibleIn with
  | error a =>
    rw [hc] at h
    simp only [Except.error.injEq] at h ⊢
    subst h
    obtain ⟨pre, inp, post, e1, rfl, e3, e4, e5⟩ := closeAll_error hc
    refine .unknown hcm hsc e1 e3 ?_ ?_
    · intro i hi
      obtain ⟨s, hs⟩ := e4 i hi
      exact ⟨s, (ht.seals _ _).1 hs⟩
    · rcases e5 with e5 | e5
      · left
        intro s hs
        rw [(ht.seals _ _).2 hs] at e5
        simp at e5
      · exact .inr e5
  | ok p =>
    obtain ⟨closed, seals'⟩ := p
    rw [hc] at h
    simp only at h ⊢
    obtain ⟨c1, c2, c3⟩ := closeAll_ok hc
    have hsi : SealedInputs cid blocks blocks.length b closed := ⟨c1, c2.imp fun inp s hs => (ht.seals _ _).1 hs⟩
    rcases hk : checkIn env cid (opAt cid blocks.length b) s with ⟨e' | ver, s1, l⟩
    · rw [hk] at h
      simp only [Except.error.injEq] at h ⊢
      subst h
      unfold checkIn at hk
      split at hk
      · simp at hk
      · split at hk
        · simp only [PartIn.mk.injEq, Except.error.injEq] at hk
          obtain ⟨rfl, _, rfl⟩ := hk
          exact .script hcm hsc hsi
        · simp at hk
    have hv := checkIn_vetted (env := env) (s := s) (cid := cid) (i := blocks.length) (b := b) (ver := ver) (by rw [hk])
    rw [hk] at h hv
    simp only at h ⊢
    rcases hw : witnessIn env (opid (opAt cid blocks.length b)) b closed s1 with ⟨e' | _, s2, l'⟩
    · rw [hw] at h
      simp only [Except.error.injEq] at h ⊢
      subst h
      unfold witnessIn at hw
      split at hw
      · rename_i w hwit
        split at hw
        · simp only [PartIn.mk.injEq, Except.error.injEq] at hw
          obtain ⟨rfl, _, rfl⟩ := hw
          exact .notClosed hcm hsc hsi hv hwit
        · simp at hw
      · rename_i hwit
        split at hw
        · simp at hw
        · rename_i hne
          simp only [PartIn.mk.injEq, Except.error.injEq] at hw
          obtain ⟨rfl, _, rfl⟩ := hw
          rw [List.append_nil]
          refine .noWitness hcm hsc hsi hv hwit ?_
          intro he
          rw [he] at c2
          cases c2
          exact hne rfl
    · rw [hw] at h
      simp at h

/-- The accepted rounds so far. -/
structure Rounds (cid : ContractId) (xid : CodexId) (blocks : List (OperationSeals Seal)) (segs : List (List (Event Seal E))) : Prop where
  length : segs.length = blocks.length
  round : ∀ i b l, blocks[i]? = some b → segs[i]? = some l → Round cid xid blocks i b l

theorem Round.congr {cid : ContractId} {xid : CodexId} {blocks blocks' : List (OperationSeals Seal)} {i : Nat}
    {b : OperationSeals Seal} {l : List (Event Seal E)} (h : ∀ k < i, blocks[k]? = blocks'[k]?) (hr : Round cid xid blocks i b l) :
    Round cid xid blocks' i b l := by
  obtain ⟨h1, h2, seals, ver, l₁, l₂, ⟨h3, h4⟩, h5, h6, h7⟩ := hr
  exact ⟨h1, h2, seals, ver, l₁, l₂, ⟨h3, h4.imp fun _ _ ho => (openAt_congr h).1 ho⟩, h5, h6, h7⟩

theorem Rounds.snoc {cid : ContractId} {xid : CodexId} {blocks : List (OperationSeals Seal)} {segs : List (List (Event Seal E))}
    (h : Rounds cid xid blocks segs) {b : OperationSeals Seal} {l : List (Event Seal E)}
    (hr : Round cid xid blocks blocks.length b l) : Rounds cid xid (blocks ++ [b]) (segs ++ [l]) := by
  refine ⟨by simp [h.length], ?_⟩
  intro i b' l' hb hl
  by_cases hi : i < blocks.length
  · rw [List.getElem?_append_left hi] at hb
    rw [List.getElem?_append_left (by rw [h.length]; exact hi)] at hl
    exact (h.round i b' l' hb hl).congr fun k hk => getElem?_append_lt (Nat.le_of_lt hi) k hk
  · have hlt := lt_length_of_getElem? hb
    simp only [List.length_append, List.length_cons, List.length_nil, Nat.zero_add] at hlt
    obtain rfl : i = blocks.length := by omega
    rw [← h.length] at hl
    simp only [List.getElem?_concat_length, Option.some.injEq] at hb hl
    subst hb
    subst hl
    exact hr.congr fun k hk => getElem?_append_lt (Nat.le_refl _) k hk

theorem loopIn_outcome {env : Env Seal E σ} {cid : ContractId} {xid : CodexId} {g : Bool} {seals : OMap CellAddr Seal}
    {w : Scene Seal E σ} {o} (h : loopIn env cid xid g seals w = some o) (s₀ : σ) (blocks : List (OperationSeals Seal))
    (segs : List (List (Event Seal E))) (first : List (Event Seal E)) (ht : Track cid blocks g seals) (hr : Rounds cid xid blocks segs)
    (hw : w.events = first ++ segs.flatten) (hh : Happens env s₀ w.events w.state) :
    ∃ blocks segs last, Rounds cid xid blocks segs ∧ o.2.events = first ++ segs.flatten ++ last ∧
      Finish cid xid blocks o.1 last ∧ Happens env s₀ o.2.events o.2.state := by
  revert s₀ blocks segs first
  refine loopIn.partial_correctness env cid xid (fun g seals w o => ∀ (s₀ : σ) (blocks : List (OperationSeals Seal))
    (segs : List (List (Event Seal E))) (first : List (Event Seal E)), Track cid blocks g seals → Rounds cid xid blocks segs →
    w.events = first ++ segs.flatten → Happens env s₀ w.events w.state →
    ∃ blocks segs last, Rounds cid xid blocks segs ∧ o.2.events = first ++ segs.flatten ++ last ∧
      Finish cid xid blocks o.1 last ∧ Happens env s₀ o.2.events o.2.state) ?_ g seals w o h
  intro loop ih g seals w o ho s₀ blocks segs first ht hr hw hh
  have ea : (ask env.read Event.read : EnvM Seal E σ _).run.run w =
    (.ok (env.read w.state).1, ⟨(env.read w.state).2, w.events ++ [.read (env.read w.state).1]⟩) := rfl
  rw [ea] at ho
  rcases hread : env.read w.state with ⟨_ | _ | b, s⟩
  all_goals
    rw [hread] at ho
    simp only at ho
  · simp only [Option.some.injEq] at ho
    subst ho
    exact ⟨blocks, segs, _, hr, by rw [hw], .fail, hh.append (.cons hread (.nil _))⟩
  · simp only [Option.some.injEq] at ho
    subst ho
    exact ⟨blocks, segs, _, hr, by rw [hw], .eof, hh.append (.cons hread (.nil _))⟩
  · rw [processIn_run] at ho
    have hh' : Happens env s₀ (w.events ++ [.read (.ok (some b))] ++ (stepIn env cid xid g seals b s).events)
        (stepIn env cid xid g seals b s).state := (hh.append (.cons (x := .read (.ok (some b))) (s₁ := s) hread (.nil _))).append (stepIn_honest ..)
    rcases hs : (stepIn env cid xid g seals b s).res with e | sl
    · rw [hs] at ho
      simp only [Except.map, Option.some.injEq] at ho
      subst ho
      exact ⟨blocks, segs, _, hr, by rw [hw]; simp only [List.append_assoc]; rfl, .refused (stepIn_error ht hs), hh'⟩
    · rw [hs] at ho
      simp only [Except.map] at ho
      obtain ⟨k1, k2⟩ := stepIn_ok (env := env) ht hs
      exact ih _ _ _ _ ho s₀ (blocks ++ [b]) (segs ++ [.read (.ok (some b)) :: (stepIn env cid xid g seals b s).events]) first
        k2 (hr.snoc k1) (by simp [hw]) hh'

/-- **C73.**  Whatever the environment does, every terminating evaluation goes through accepted rounds and
ends in one of three ways, each round and the end being as required by what the environment answered;
and the answers are those it gave. -/
theorem C73_outcome {env : Env Seal E σ} {s : σ} {result : Except (VerificationError Seal E) Unit} {scene : Scene Seal E σ}
    (h : evaluateIn env s = some (result, scene)) :
    ∃ cid xid blocks segs last, Rounds cid xid blocks segs ∧
      scene.events = [.contractId cid, .codexId xid] ++ segs.flatten ++ last ∧
      Finish cid xid blocks result last ∧ Happens env s scene.events scene.state := by
  have e : evaluateIn env s = loopIn env (env.contractId s).1 (env.codexId (env.contractId s).2).1 true OMap.empty
    ⟨(env.codexId (env.contractId s).2).2, [.contractId (env.contractId s).1, .codexId (env.codexId (env.contractId s).2).1]⟩ := rfl
  rw [e] at h
  obtain ⟨blocks, segs, last, h1, h2, h3, h4⟩ := loopIn_outcome h s [] [] _ ⟨rfl, by intro a s; simp [OpenAt.zero]⟩
    ⟨rfl, by intro i b l hb; simp at hb⟩ (by simp; rfl) (.cons rfl (.cons rfl (.nil _)))
  exact ⟨_, _, blocks, segs, last, h1, h2, h3, h4⟩

theorem mem_vetted {cid : ContractId} {i : Nat} {b : OperationSeals Seal} {ver : Option VerifiedOperation}
    {l : List (Event Seal E)} (h : Vetted cid i b ver l) {v : VerifiedOperation} : Event.applyOperation v ∉ l := by
  cases h <;> simp

theorem mem_sealed {o : Opid} {b : OperationSeals Seal} {seals : List Seal} {l : List (Event Seal E)} (h : Sealed o b seals l)
    {v : VerifiedOperation} : Event.applyOperation v ∉ l := by
  cases h <;> simp

theorem mem_finish {cid : ContractId} {xid : CodexId} {blocks : List (OperationSeals Seal)} {r} {l : List (Event Seal E)}
    (h : Finish cid xid blocks r l) {v : VerifiedOperation} : Event.applyOperation v ∉ l := by
  cases h with
  | eof => simp
  | fail => simp
  | refused h =>
    cases h with
    | notClosed _ _ _ h => simpa using mem_vetted h
    | noWitness _ _ _ h => simpa using mem_vetted h
    | _ => simp

/-- The block read, if the event is one. -/
def blockOf : Event Seal E → Option (OperationSeals Seal)
  | .read (.ok (some b)) => some b
  | _ => none

theorem blockOf_sealed {o : Opid} {b : OperationSeals Seal} {seals : List Seal} {l : List (Event Seal E)} (h : Sealed o b seals l) :
    l.filterMap blockOf = [] := by
  cases h <;> simp [blockOf]

theorem Round.block {cid : ContractId} {xid : CodexId} {blocks : List (OperationSeals Seal)} {i : Nat}
    {b : OperationSeals Seal} {l : List (Event Seal E)} (h : Round cid xid blocks i b l) : l.filterMap blockOf = [b] := by
  obtain ⟨_, _, seals, ver, l₁, l₂, _, hv, hs, rfl⟩ := h
  have h1 : l₁.filterMap blockOf = [] := by cases hv <;> simp [blockOf]
  have h2 : (appliedEvents (Seal := Seal) (E := E) i ver).filterMap blockOf = [] := by
    unfold appliedEvents
    split
    · split <;> simp [blockOf]
    · rfl
  have h3 : (sealEvents (Seal := Seal) (E := E) (idAt cid i b) b).filterMap blockOf = [] := by
    unfold sealEvents
    split <;> simp [blockOf]
  rw [List.filterMap_cons]
  simp only [List.filterMap_append, h1, h2, h3, blockOf_sealed hs, blockOf, List.append_nil]

/-- The blocks of the rounds are the ones read. -/
theorem Rounds.blocks {cid : ContractId} {xid : CodexId} {blocks : List (OperationSeals Seal)} {segs : List (List (Event Seal E))}
    (h : Rounds cid xid blocks segs) : segs.flatten.filterMap blockOf = blocks := by
  have e : segs.map (·.filterMap blockOf) = blocks.map fun b => [b] := by
    refine List.ext_getElem (by simp [h.length]) ?_
    intro i hi hi'
    simp only [List.length_map] at hi hi'
    simp only [List.getElem_map]
    exact (h.round i blocks[i] segs[i] (by simp) (by simp)).block
  rw [List.filterMap_flatten, e]
  clear e h
  induction blocks with
  | nil => rfl
  | cons b l ih => simp [ih]

/-- Whatever the environment does, an operation is applied only in the round of a block other than the first,
if the environment answered in that round that it does not know the operation and the codex returned the
applied value; and the inputs of the block are open after the blocks read before, distinct and closed by its
witness. -/
theorem C73_applied {env : Env Seal E σ} {s : σ} {result : Except (VerificationError Seal E) Unit} {scene : Scene Seal E σ}
    (h : evaluateIn env s = some (result, scene)) {v : VerifiedOperation} (hv : Event.applyOperation v ∈ scene.events) :
    ∃ (cid : ContractId) (blocks : List (OperationSeals Seal)) (i : Nat) (b : OperationSeals Seal) (seals : List Seal)
      (l : List (Event Seal E)), i ≠ 0 ∧ scene.events.head? = some (.contractId cid) ∧
      blocks <+: scene.events.filterMap blockOf ∧ blocks[i]? = some b ∧ SealedInputs cid blocks i b seals ∧ Sealed (idAt cid i b) b seals l ∧
      [.read (.ok (some b)), .isKnown (idAt cid i b) false, .verify cid (opAt cid i b) (.ok v)] ++ l ++ [.applyOperation v]
        <:+: scene.events := by
  obtain ⟨cid, xid, blocks, segs, last, h1, h2, h3, _⟩ := C73_outcome h
  have hblocks : blocks <+: scene.events.filterMap blockOf := by
    rw [h2, List.filterMap_append, List.filterMap_append, h1.blocks]
    exact ⟨last.filterMap blockOf, by simp [blockOf]⟩
  have hhead : scene.events.head? = some (.contractId cid) := by rw [h2]; simp
  rw [h2] at hv
  simp only [List.mem_append, List.mem_cons, reduceCtorEq, List.not_mem_nil, or_false, false_or] at hv
  rcases hv with hv | hv
  · obtain ⟨seg, hseg, hv⟩ := List.mem_flatten.1 hv
    obtain ⟨i, hi⟩ := List.getElem?_of_mem hseg
    have hlt := lt_length_of_getElem? hi
    rw [h1.length] at hlt
    have hb : blocks[i]? = some blocks[i] := by simp [hlt]
    obtain ⟨k1, k2, seals, ver, l₁, l₂, k3, k4, k5, k6⟩ := h1.round i _ _ hb hi
    rw [k6] at hv
    have hva : Event.applyOperation v ∈ appliedEvents (Seal := Seal) (E := E) i ver := by
      simp only [List.mem_cons, reduceCtorEq, List.mem_append, false_or] at hv
      rcases hv with ((hv | hv) | hv) | hv
      · exact absurd hv (mem_vetted k4)
      · exact absurd hv (mem_sealed k5)
      · exact hv
      · unfold sealEvents at hv
        split at hv <;> simp at hv
    cases k4 with
    | known => simp [appliedEvents] at hva
    | verified v' =>
      by_cases hne : i = 0
      · simp [appliedEvents, hne] at hva
      · simp only [appliedEvents, if_neg hne, List.mem_singleton, Event.applyOperation.injEq] at hva
        subst hva
        refine ⟨cid, blocks, i, _, seals, l₂, hne, hhead, hblocks, hb, k3, k5, ?_⟩
        rw [h2]
        refine List.IsInfix.trans ?_ (List.IsInfix.trans (List.infix_append [.contractId cid, .codexId xid] segs.flatten last) (List.infix_refl _))
        refine List.IsInfix.trans ?_ (List.infix_of_mem_flatten hseg)
        rw [k6]
        refine ⟨[], sealEvents (idAt cid i blocks[i]) blocks[i], ?_⟩
        simp [appliedEvents, hne]
  · exact absurd hv (mem_finish h3)

/-! ## Environments without hidden state -/

/-- The environment made of a contract and a reader. -/
def Env.ofPure (Seal : Type) [LinearOrder Seal] [RgbSeal Seal] (C R : Type) [ContractApi Seal C] [ReadOperation Seal R] :
    Env Seal (ReadOperation.Error Seal R) (C × R) where
  read s := ((ReadOperation.readOperation (Seal := Seal) s.2).1, s.1, (ReadOperation.readOperation (Seal := Seal) s.2).2)
  contractId s := (ContractApi.contractId Seal s.1, s)
  codexId s := ((ContractApi.codex Seal s.1).codexId, s)
  isKnown o s := (ContractApi.isKnown Seal s.1 o, s)
  verify cid op s := (codexAnswer Seal s.1 cid op, s)
  closing w seals m s := (RgbSeal.verifySealsClosing w.published w.client seals m, s)
  applyWitness o w s := (ContractApi.applyWitness s.1 o w, s.2)
  applyOperation v s := (ContractApi.applyOperation Seal s.1 v, s.2)
  applySeals o d s := (ContractApi.applySeals s.1 o d, s.2)

/-- The calls of an event. -/
def eventCalls : Event Seal E → List (Call Seal)
  | .read _ => [.read]
  | .contractId _ => [.contractId]
  | .codexId _ => [.codex]
  | .isKnown o a => [.isKnown o a]
  | .verify cid op _ => [.codex, .memory, .repo, .codexVerify cid op]
  | .closing w seals m _ => [.verifySealsClosing w seals m]
  | .applyWitness o w => [.applyWitness o w]
  | .applyOperation v => [.applyOperation v]
  | .applySeals o d => [.applySeals o d]

variable {C R : Type} [ContractApi Seal C] [ReadOperation Seal R]

theorem stepIn_pure (cid : ContractId) (xid : CodexId) (g : Bool) (seals : OMap CellAddr Seal) (b : OperationSeals Seal) (c : C) (r : R) :
    (stepIn (Env.ofPure Seal C R) cid xid g seals b (c, r)).res =
        (pureStep (E := ReadOperation.Error Seal R) cid xid g seals b c).res ∧
    (stepIn (Env.ofPure Seal C R) cid xid g seals b (c, r)).state =
        ((pureStep (E := ReadOperation.Error Seal R) cid xid g seals b c).calls.foldl applyCall c, r) ∧
    (stepIn (Env.ofPure Seal C R) cid xid g seals b (c, r)).events.flatMap eventCalls =
        (pureStep (E := ReadOperation.Error Seal R) cid xid g seals b c).calls := by
  unfold stepIn pureStep
  split
  · exact ⟨rfl, rfl, rfl⟩
  split
  · exact ⟨rfl, rfl, rfl⟩
  cases hca : closeAll seals b.operation.destructibleIn with
  | error a => exact ⟨rfl, rfl, rfl⟩
  | ok p =>
  obtain ⟨closed, seals'⟩ := p
  simp only
  generalize effOp cid g b = op
  have hk : checkIn (Env.ofPure Seal C R) cid op (c, r) =
      ⟨match opCheck Seal c cid op with | .error e => .error (.vm e) | .ok v => .ok v, (c, r),
        if ContractApi.isKnown Seal c (opid op) then [.isKnown (opid op) true]
        else [.isKnown (opid op) false, .verify cid op (verifyOf Seal c cid op)]⟩ := by
    unfold checkIn opCheck
    simp only [Env.ofPure, codexAnswer, verifyOf]
    cases ContractApi.isKnown Seal c (opid op)
    · cases h : (ContractApi.codex Seal c).verify cid op (ContractApi.memory Seal c) (ContractApi.repo Seal c) <;> simp [h]
    · rfl
  have hkc : ((if ContractApi.isKnown Seal c (opid op) then [.isKnown (opid op) true]
        else [.isKnown (opid op) false, .verify cid op (verifyOf Seal c cid op)] :
          List (Event Seal (ReadOperation.Error Seal R)))).flatMap eventCalls = opCalls c cid op := by
    unfold opCalls
    split <;> rfl
  have opc : ∀ c' : C, List.foldl applyCall c' (opCalls (Seal := Seal) c cid op) = c' := by
    intro c'; unfold opCalls; split <;> rfl
  rw [hk]
  cases hop : opCheck Seal c cid op with
  | error e => exact ⟨rfl, by simp [opc], hkc⟩
  | ok ver =>
    simp only
    have wc : ∀ c' : C, List.foldl applyCall c' (witnessCalls (opid op) b closed) = c' := by
      intro c'; unfold witnessCalls; split <;> rfl
    have hw : (witnessIn (Env.ofPure Seal C R) (opid op) b closed (c, r)).res =
          witnessCheck (E := ReadOperation.Error Seal R) (opid op) b closed ∧
        (∀ e, witnessCheck (E := ReadOperation.Error Seal R) (opid op) b closed = .error e →
          (witnessIn (Env.ofPure Seal C R) (opid op) b closed (c, r)).state = (c, r) ∧
          (witnessIn (Env.ofPure Seal C R) (opid op) b closed (c, r)).events.flatMap eventCalls = witnessCalls (opid op) b closed) ∧
        (witnessCheck (E := ReadOperation.Error Seal R) (opid op) b closed = .ok () →
          (witnessIn (Env.ofPure Seal C R) (opid op) b closed (c, r)).state =
            (((match b.witness with | some w => [.applyWitness (opid op) w] | none => [] : List (Call Seal))).foldl applyCall c, r) ∧
          (witnessIn (Env.ofPure Seal C R) (opid op) b closed (c, r)).events.flatMap eventCalls =
            witnessCalls (opid op) b closed ++ (match b.witness with | some w => [.applyWitness (opid op) w] | none => [] : List (Call Seal))) := by
      unfold witnessIn witnessCheck witnessCalls
      cases b.witness with
      | none => by_cases hc : closed = [] <;> simp [hc]
      | some w =>
        simp only [Env.ofPure]
        cases RgbSeal.verifySealsClosing w.published w.client closed (msgOf Seal (opid op)) <;>
          simp [eventCalls, applyCall]
    obtain ⟨hw1, hw2, hw3⟩ := hw
    rcases hwi : witnessIn (Env.ofPure Seal C R) (opid op) b closed (c, r) with ⟨res, s, l⟩
    rw [hwi] at hw1 hw2 hw3
    simp only at hw1 hw2 hw3
    subst hw1
    cases hwc : witnessCheck (E := ReadOperation.Error Seal R) (opid op) b closed with
    | error e =>
      obtain ⟨rfl, e2⟩ := hw2 e hwc
      refine ⟨rfl, by simp [opc, wc], ?_⟩
      rw [List.flatMap_append, hkc, e2]
    | ok u =>
      obtain ⟨rfl, e2⟩ := hw3 hwc
      refine ⟨rfl, ?_, ?_⟩
      · simp only [List.foldl_append, opc, wc, blockMuts]
        cases b.witness <;> cases g <;> cases ver <;> cases hd : b.definedSeals.isEmpty <;> simp [applyIn, reportIn, hd, Env.ofPure, applyCall]
      · simp only [List.flatMap_append, hkc, e2, blockMuts]
        cases b.witness <;> cases g <;> cases ver <;> cases hd : b.definedSeals.isEmpty <;> simp [applyIn, reportIn, hd, eventCalls]

/-- What can be compared: the result, the contract, the reader and the calls. -/
abbrev Seen (Seal : Type) [LinearOrder Seal] [RgbSeal Seal] (C R E : Type) :=
  Except (VerificationError Seal E) Unit × C × R × List (Call Seal)

/-- What is seen of a run in the environment of a contract and a reader. -/
def seenIn (x : Except (VerificationError Seal E) Unit × Scene Seal E (C × R)) : Seen Seal C R E :=
  (x.1, x.2.state.1, x.2.state.2, x.2.events.flatMap eventCalls)

/-- What is seen of a run of `evaluate`. -/
def seenOf (o : Outcome Seal R C E) : Seen Seal C R E := (o.result, o.world.contract, o.reader, o.world.calls)

theorem loopIn_seen {cid : ContractId} {xid : CodexId} {g : Bool} {seals : OMap CellAddr Seal}
    {w : Scene Seal (ReadOperation.Error Seal R) (C × R)} {x} (h : loopIn (Env.ofPure Seal C R) cid xid g seals w = some x) :
    (evalLoop cid xid w.state.2 g seals ⟨w.state.1, w.events.flatMap eventCalls⟩).map seenOf = some (seenIn x) := by
  refine loopIn.partial_correctness (Env.ofPure Seal C R) cid xid (fun g seals w x =>
    (evalLoop cid xid w.state.2 g seals ⟨w.state.1, w.events.flatMap eventCalls⟩).map seenOf = some (seenIn x)) ?_ g seals w x h
  intro loop ih g seals w x ho
  obtain ⟨⟨c, r⟩, evs⟩ := w
  rw [evalLoop]
  have ea : (ask (Env.ofPure Seal C R).read Event.read : EnvM Seal _ _ _).run.run ⟨(c, r), evs⟩ =
    (.ok (ReadOperation.readOperation (Seal := Seal) r).1, ⟨(c, (ReadOperation.readOperation (Seal := Seal) r).2),
      evs ++ [.read (ReadOperation.readOperation (Seal := Seal) r).1]⟩) := rfl
  rw [ea] at ho
  rcases hr : ReadOperation.readOperation (Seal := Seal) r with ⟨_ | _ | b, r'⟩
  all_goals
    rw [hr] at ho
    simp only at ho ⊢
  · simp only [Option.some.injEq] at ho
    subst ho
    simp [seenIn, seenOf, eventCalls]
  · simp only [Option.some.injEq] at ho
    subst ho
    simp [seenIn, seenOf, eventCalls]
  · obtain ⟨k1, k2, k3⟩ := stepIn_pure cid xid g seals b c r'
    rw [processIn_run] at ho
    simp only at ho
    rw [processBlock_run]
    simp only
    rw [k1, k2] at ho
    rcases hs : (pureStep (E := ReadOperation.Error Seal R) cid xid g seals b c).res with e | sl
    · rw [hs] at ho
      simp only [Except.map, Option.some.injEq] at ho ⊢
      subst ho
      simp [seenIn, seenOf, eventCalls, k3]
    · rw [hs] at ho
      simp only [Except.map] at ho ⊢
      have := ih _ _ _ _ ho
      rw [← this]
      simp [eventCalls, k3]

theorem evalLoop_seen {cid : ContractId} {xid : CodexId} {g : Bool} {seals : OMap CellAddr Seal}
    {r : R} {w : World Seal C} {o} (h : evalLoop cid xid r g seals w = some o)
    (evs : List (Event Seal (ReadOperation.Error Seal R))) (he : evs.flatMap eventCalls = w.calls) :
    (loopIn (Env.ofPure Seal C R) cid xid g seals ⟨(w.contract, r), evs⟩).map seenIn = some (seenOf o) := by
  revert evs
  refine evalLoop.partial_correctness (Seal := Seal) (C := C) (R := R) cid xid (fun r g seals w o =>
    ∀ evs : List (Event Seal (ReadOperation.Error Seal R)), evs.flatMap eventCalls = w.calls →
    (loopIn (Env.ofPure Seal C R) cid xid g seals ⟨(w.contract, r), evs⟩).map seenIn = some (seenOf o)) ?_ r g seals w o h
  intro loop ih r g seals w o ho evs he
  obtain ⟨c, calls⟩ := w
  simp only at he
  subst he
  rw [loopIn]
  have ea : (ask (Env.ofPure Seal C R).read Event.read : EnvM Seal _ _ _).run.run ⟨(c, r), evs⟩ =
    (.ok (ReadOperation.readOperation (Seal := Seal) r).1, ⟨(c, (ReadOperation.readOperation (Seal := Seal) r).2),
      evs ++ [.read (ReadOperation.readOperation (Seal := Seal) r).1]⟩) := rfl
  rw [ea]
  rcases hr : ReadOperation.readOperation (Seal := Seal) r with ⟨_ | _ | b, r'⟩
  all_goals
    rw [hr] at ho
    simp only at ho ⊢
  · simp only [Option.some.injEq] at ho
    subst ho
    simp [seenIn, seenOf, eventCalls]
  · simp only [Option.some.injEq] at ho
    subst ho
    simp [seenIn, seenOf, eventCalls]
  · obtain ⟨k1, k2, k3⟩ := stepIn_pure cid xid g seals b c r'
    rw [processBlock_run] at ho
    simp only at ho
    rw [processIn_run]
    simp only
    rw [k1, k2]
    rcases hs : (pureStep (E := ReadOperation.Error Seal R) cid xid g seals b c).res with e | sl
    · rw [hs] at ho
      simp only [Except.map, Option.some.injEq] at ho ⊢
      subst ho
      simp [seenIn, seenOf, eventCalls, k3]
    · rw [hs] at ho
      simp only [Except.map] at ho ⊢
      exact ih _ _ _ _ _ ho _ (by simp [eventCalls, k3])

/-- In the environment of a contract and a reader without hidden state, `evaluateIn` does the same as
`evaluate`: the same result, contract, reader and calls, or no end in both cases. -/
theorem C73_pure (c : C) (r : R) :
    (evaluateIn (Env.ofPure Seal C R) (c, r)).map seenIn = (evaluate (Seal := Seal) c r).map seenOf := by
  have e : evaluateIn (Env.ofPure Seal C R) (c, r) = loopIn (Env.ofPure Seal C R) (ContractApi.contractId Seal c)
    (ContractApi.codex Seal c).codexId true OMap.empty ⟨(c, r), [.contractId (ContractApi.contractId Seal c),
      .codexId (ContractApi.codex Seal c).codexId]⟩ := rfl
  rw [e]
  cases h : evaluate (Seal := Seal) c r with
  | some o => exact evalLoop_seen (w := ⟨c, [.contractId, .codex]⟩) h _ rfl
  | none =>
    cases h' : loopIn (Env.ofPure Seal C R) (ContractApi.contractId Seal c)
      (ContractApi.codex Seal c).codexId true OMap.empty ⟨(c, r), [.contractId (ContractApi.contractId Seal c),
        .codexId (ContractApi.codex Seal c).codexId]⟩ with
    | none => rfl
    | some x =>
      have := loopIn_seen h'
      change (evaluate (Seal := Seal) c r).map seenOf = _ at this
      rw [h] at this
      simp at this

end

section
variable {Seal : Type} [LinearOrder Seal] [RgbSeal Seal] [OpHash]
variable {C R : Type} [ContractApi Seal C] [ReadOperation Seal R]

theorem happens_known {s s' : C × R} {l : List (Event Seal (ReadOperation.Error Seal R))} (h : Happens (Env.ofPure Seal C R) s l s')
    {pre post : List (Call Seal)} {o : Opid} {a : Bool} (he : l.flatMap eventCalls = pre ++ .isKnown o a :: post) :
    a = ContractApi.isKnown Seal (pre.foldl applyCall s.1) o := by
  induction h generalizing pre with
  | nil => simp at he
  | @cons s s₁ s₂ x l hx _ ih =>
    rw [List.flatMap_cons, List.append_eq_append_iff] at he
    have hs : s₁.1 = (eventCalls x).foldl applyCall s.1 := by
      cases x <;> simp only [Answers, Env.ofPure, Prod.mk.injEq] at hx
      case applyWitness => subst hx; rfl
      case applyOperation => subst hx; rfl
      case applySeals => subst hx; rfl
      all_goals rw [← hx.2]; rfl
    rcases he with ⟨m, rfl, hm⟩ | ⟨m, hm, hm'⟩
    · rw [ih hm, List.foldl_append, hs]
    · cases m with
      | nil =>
        rw [ih (pre := []) (by simpa using hm'.symm), hs, hm]
        simp
      | cons y m =>
        simp only [List.cons_append, List.cons.injEq] at hm'
        obtain ⟨rfl, -⟩ := hm'
        have hmem : Call.isKnown o a ∈ eventCalls x := by rw [hm]; simp
        cases x <;> simp only [eventCalls, List.mem_cons, reduceCtorEq, List.not_mem_nil, or_false, Call.isKnown.injEq] at hmem
        obtain ⟨rfl, rfl⟩ := hmem
        simp only [eventCalls] at hm
        cases pre with
        | cons z pre => simp at hm
        | nil =>
          simp only [Answers, Env.ofPure, Prod.mk.injEq] at hx
          exact hx.1.symm

/-- Without hidden state, the answer to each question whether an operation is known is that of the contract as
changed by the calls before. -/
theorem C73_known {c : C} {r : R} {o} (h : evaluate (Seal := Seal) c r = some o) {pre post : List (Call Seal)} {x : Opid} {a : Bool}
    (he : o.world.calls = pre ++ .isKnown x a :: post) : a = ContractApi.isKnown Seal (pre.foldl perform c) x := by
  have hp := C73_pure (Seal := Seal) c r
  rw [h] at hp
  cases hi : evaluateIn (Env.ofPure Seal C R) (c, r) with
  | none => rw [hi] at hp; simp at hp
  | some y =>
    rw [hi] at hp
    simp only [Option.map_some, Option.some.injEq, seenIn, seenOf, Prod.mk.injEq] at hp
    obtain ⟨_, _, _, _, _, _, _, _, hh⟩ := C73_outcome (result := y.1) (scene := y.2) hi
    exact happens_known hh (hp.2.2.2.trans he)

end

/-! ## Examples -/

section
variable {Seal : Type} [LinearOrder Seal] [RgbSeal Seal] [OpHash]
variable {E σ : Type}

/-- The loop with bounded effort, for computing examples. -/
def loopFor (env : Env Seal E σ) (cid : ContractId) (xid : CodexId) :
    Nat → Bool → OMap CellAddr Seal → Scene Seal E σ → Option (Except (VerificationError Seal E) Unit × Scene Seal E σ)
  | 0, _, _, _ => none
  | n + 1, g, seals, ⟨s, evs⟩ =>
    match env.read s with
    | (.error e, s) => some (.error (.stream e), ⟨s, evs ++ [.read (.error e)]⟩)
    | (.ok none, s) => some (.ok (), ⟨s, evs ++ [.read (.ok none)]⟩)
    | (.ok (some b), s) =>
      match stepIn env cid xid g seals b s with
      | ⟨.error e, s, l⟩ => some (.error e, ⟨s, evs ++ [.read (.ok (some b))] ++ l⟩)
      | ⟨.ok seals, s, l⟩ => loopFor env cid xid n false seals ⟨s, evs ++ [.read (.ok (some b))] ++ l⟩

theorem loopFor_some {env : Env Seal E σ} {cid : ContractId} {xid : CodexId} {n : Nat} {g : Bool} {seals : OMap CellAddr Seal}
    {w : Scene Seal E σ} {x} (h : loopFor env cid xid n g seals w = some x) : loopIn env cid xid g seals w = some x := by
  induction n generalizing g seals w with
  | zero => simp [loopFor] at h
  | succ n ih =>
    obtain ⟨s, evs⟩ := w
    have ea : (ask env.read Event.read : EnvM Seal E σ _).run.run ⟨s, evs⟩ =
      (.ok (env.read s).1, ⟨(env.read s).2, evs ++ [.read (env.read s).1]⟩) := rfl
    rw [loopIn, ea]
    rw [loopFor] at h
    rcases hread : env.read s with ⟨_ | _ | b, s'⟩
    all_goals
      rw [hread] at h
      simp only at h ⊢
    · exact h
    · exact h
    · rw [processIn_run]
      rcases hs : stepIn env cid xid g seals b s' with ⟨e | sl, s'', l⟩
      all_goals
        rw [hs] at h
        simp only [Except.map] at h ⊢
      · exact h
      · exact ih h

end

open Demo in
/-- An environment with hidden state: it claims to know every other operation it is asked about, its codex
changes its id after each question, and the reader delivers `transfer2` once an operation has been applied. -/
def moody : Env Nat String (Ledger × List Block × Nat) where
  read := fun
    | (l, b :: rest, n) => (.ok (some b), l, rest, n)
    | (l, [], n) => if l.known.contains ⟨101⟩ && n < 3 then (.ok (some transfer2), l, [], n) else (.ok none, l, [], n)
  contractId s := (s.1.contractId, s)
  codexId s := (s.1.codex.codexId, { s.1 with codex := { s.1.codex with codexId := ⟨0⟩ } }, s.2)
  isKnown _ s := (s.2.2 % 2 == 0, s.1, s.2.1, s.2.2 + 1)
  verify cid op s := (codexAnswer Nat s.1 cid op, s)
  closing w seals m s := (RgbSeal.verifySealsClosing w.published w.client seals m, s)
  applyWitness o w s := (ContractApi.applyWitness s.1 o w, s.2)
  applyOperation v s := (ContractApi.applyOperation Nat s.1 v, s.2)
  applySeals o d s := (ContractApi.applySeals s.1 o d, s.2)

/-- The answers to `is_known` among the events. -/
def knownAnswers {Seal : Type} [LinearOrder Seal] [RgbSeal Seal] {E : Type} (l : List (Event Seal E)) : List (Opid × Bool) :=
  l.filterMap fun | .isKnown o a => some (o, a) | _ => none

/-- The ids of the operations applied among the events. -/
def appliedIds {Seal : Type} [LinearOrder Seal] [RgbSeal Seal] {E : Type} (l : List (Event Seal E)) : List Opid :=
  l.filterMap fun | .applyOperation v => some v.opid | _ => none

open Demo in
/-- The hypotheses can be met by an environment with hidden state. -/
example : ∃ scene, evaluateIn moody (ledger, [genesis, transfer1], 0) = some (.ok (), scene) ∧
    knownAnswers scene.events = [(⟨100⟩, true), (⟨101⟩, false), (⟨102⟩, true)] ∧ appliedIds scene.events = [⟨101⟩] := by
  refine ⟨_, loopFor_some (n := 4) (x := (.ok (), _)) rfl, ?_, ?_⟩ <;> rfl


open Demo in
/-- Genesis without seals. -/
def bare : Block := ⟨{ genesisOp with destructibleOut := [] }, .empty, none⟩

open Demo in
/-- `bare` with the contract id. -/
def bareAgain : Block := ⟨{ genesisOp with destructibleOut := [], contractId := ⟨9⟩ }, .empty, none⟩

open Demo in
/-- Hidden state matters: an environment can have `evaluate` do what it does with no contract and reader
without hidden state. -/
theorem C73_more : ∃ scene, evaluateIn moody (ledger, [bare, bareAgain], 0) = some (.ok (), scene) ∧
    ∀ (C R : Type) [ContractApi Nat C] [ReadOperation Nat R] (c : C) (r : R) (o),
      evaluate (Seal := Nat) c r = some o → o.world.calls ≠ scene.events.flatMap eventCalls := by
  refine ⟨_, loopFor_some (n := 3) (x := (.ok (), _)) rfl, ?_⟩
  intro C R _ _ c r o ho he
  have h1 := C73_known ho (pre := [.contractId, .codex, .read]) (x := ⟨100⟩) (a := true) (he.trans rfl)
  have h2 := C73_known ho (pre := [.contractId, .codex, .read, .isKnown ⟨100⟩ true, .read]) (x := ⟨100⟩) (a := false) (he.trans rfl)
  exact Bool.noConfusion (h1.trans h2.symm)

end Rgb
