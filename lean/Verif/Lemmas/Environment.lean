import Verif.Lemmas.Loop
import Verif.Environment

set_option linter.unusedSectionVars false

/-! Lemmas about `evaluateIn`. -/

namespace Rgb
open Spec

variable {Seal : Type} [LinearOrder Seal] [RgbSeal Seal] [OpHash]
variable {E σ : Type}

/-- Run a computation. -/
def execIn {α : Type} (x : EnvM Seal E σ α) (w : Scene Seal E σ) :
    Except (VerificationError Seal E) α × Scene Seal E σ := x.run.run w

theorem execIn_bind {α β : Type} (x : EnvM Seal E σ α) (f : α → EnvM Seal E σ β) (w : Scene Seal E σ) :
    execIn (x >>= f) w = match execIn x w with
      | (.ok a, w') => execIn (f a) w'
      | (.error e, w') => (.error e, w') := by
  simp only [execIn, ExceptT.run_bind, StateT.run_bind]
  rcases h : StateT.run x.run w with ⟨r, w'⟩
  simp only [bind]
  cases r <;> rfl

theorem execIn_pure {α : Type} (a : α) (w : Scene Seal E σ) : execIn (pure a : EnvM Seal E σ α) w = (.ok a, w) := rfl

theorem execIn_throw {α : Type} (e : VerificationError Seal E) (w : Scene Seal E σ) :
    execIn (throw e : EnvM Seal E σ α) w = (.error e, w) := rfl

theorem execIn_map {α β : Type} (f : α → β) (x : EnvM Seal E σ α) (w : Scene Seal E σ) :
    execIn (f <$> x) w = ((execIn x w).1.map f, (execIn x w).2) := by
  rw [map_eq_pure_bind, execIn_bind]
  rcases execIn x w with ⟨_ | _, w'⟩ <;> rfl

theorem execIn_ask {α : Type} (q : σ → α × σ) (ev : α → Event Seal E) (w : Scene Seal E σ) :
    execIn (ask q ev) w = (.ok (q w.state).1, ⟨(q w.state).2, w.events ++ [ev (q w.state).1]⟩) := rfl

theorem execIn_tell (f : σ → σ) (ev : Event Seal E) (w : Scene Seal E σ) :
    execIn (tell f ev) w = (.ok (), ⟨f w.state, w.events ++ [ev]⟩) := rfl

theorem execIn_removeAll (seals : OMap CellAddr Seal) (acc : List Seal) (ins : List Input) (w : Scene Seal E σ) :
    execIn (removeAll seals acc ins) w =
      match closeAll seals ins with
      | .error a => (.error (.sealUnknown a), w)
      | .ok (closed, seals') => (.ok (acc ++ closed, seals'), w) := by
  induction ins generalizing seals acc with
  | nil => simp [removeAll, closeAll]; rfl
  | cons inp rest ih =>
    simp only [removeAll, closeAll]
    cases h : seals.get? inp.addr with
    | none =>
      have : seals.remove inp.addr = (none, (seals.remove inp.addr).2) := by
        rw [← h]; rfl
      rw [this]; rfl
    | some s =>
      have : seals.remove inp.addr = (some s, (seals.remove inp.addr).2) := by
        rw [← h]; rfl
      rw [this]
      simp only
      rw [ih]
      cases closeAll (seals.remove inp.addr).2 rest with
      | error a => rfl
      | ok p => simp

/-- Result of a part of an iteration. -/
structure PartIn (Seal : Type) [LinearOrder Seal] [RgbSeal Seal] (E σ α : Type) where
  res : Except (VerificationError Seal E) α
  state : σ
  events : List (Event Seal E)

/-- The operation check. -/
def checkIn (env : Env Seal E σ) (cid : ContractId) (op : Operation) (s : σ) : PartIn Seal E σ (Option VerifiedOperation) :=
  match env.isKnown (opid op) s with
  | (true, s) => ⟨.ok none, s, [.isKnown (opid op) true]⟩
  | (false, s) => match env.verify cid op s with
    | (.error e, s) => ⟨.error (.vm e), s, [.isKnown (opid op) false, .verify cid op (.error e)]⟩
    | (.ok v, s) => ⟨.ok (some v), s, [.isKnown (opid op) false, .verify cid op (.ok v)]⟩

/-- The witness check. -/
def witnessIn (env : Env Seal E σ) (o : Opid) (b : OperationSeals Seal) (closed : List Seal) (s : σ) : PartIn Seal E σ Unit :=
  match b.witness with
  | some w => match env.closing w closed (msgOf Seal o) s with
    | (.error e, s) => ⟨.error (.sealsNotClosed (RgbSeal.pubId w.published) o e), s, [.closing w closed (msgOf Seal o) (.error e)]⟩
    | (.ok (), s) => ⟨.ok (), env.applyWitness o w s, [.closing w closed (msgOf Seal o) (.ok ()), .applyWitness o w]⟩
  | none => if closed = [] then ⟨.ok (), s, []⟩ else ⟨.error (.noWitness o), s, []⟩

/-- The application of the operation. -/
def applyIn (env : Env Seal E σ) (g : Bool) (ver : Option VerifiedOperation) (s : σ) : PartIn Seal E σ Unit :=
  if g then ⟨.ok (), s, []⟩ else match ver with
    | some v => ⟨.ok (), env.applyOperation v s, [.applyOperation v]⟩
    | none => ⟨.ok (), s, []⟩

/-- The report of the seals. -/
def reportIn (env : Env Seal E σ) (o : Opid) (b : OperationSeals Seal) (s : σ) : PartIn Seal E σ Unit :=
  if b.definedSeals.isEmpty then ⟨.ok (), s, []⟩ else ⟨.ok (), env.applySeals o b.definedSeals s, [.applySeals o b.definedSeals]⟩

/-- One iteration, without the monad. -/
def stepIn (env : Env Seal E σ) (cid : ContractId) (xid : CodexId) (g : Bool) (seals : OMap CellAddr Seal)
    (b : OperationSeals Seal) (s : σ) : PartIn Seal E σ (OMap CellAddr Seal) :=
  if g ∧ b.operation.contractId.bytes ≠ xid.bytes then ⟨.error .noCodexCommitment, s, []⟩
  else if (reportedSet b).isSubset (definedSet b) = false then
    ⟨.error (.sealsDefinitionMismatch (opid (effOp cid g b)) (reportedSet b) (definedSet b) (sourcesMap b)), s, []⟩
  else match closeAll seals b.operation.destructibleIn with
    | .error a => ⟨.error (.sealUnknown a), s, []⟩
    | .ok (closed, seals') =>
      match checkIn env cid (effOp cid g b) s with
      | ⟨.error e, s, l⟩ => ⟨.error e, s, l⟩
      | ⟨.ok ver, s, l⟩ =>
        match witnessIn env (opid (effOp cid g b)) b closed s with
        | ⟨.error e, s, l'⟩ => ⟨.error e, s, l ++ l'⟩
        | ⟨.ok (), s, l'⟩ =>
          ⟨.ok (seals'.extend (registered (opid (effOp cid g b)) b)),
            (reportIn env (opid (effOp cid g b)) b (applyIn env g ver s).state).state,
            l ++ l' ++ (applyIn env g ver s).events ++ (reportIn env (opid (effOp cid g b)) b s).events⟩

theorem execIn_check (env : Env Seal E σ) (cid : ContractId) (op : Operation) (w : Scene Seal E σ) :
    execIn (verifyUnknownIn env cid (opid op) op) w =
      ((checkIn env cid op w.state).res, ⟨(checkIn env cid op w.state).state, w.events ++ (checkIn env cid op w.state).events⟩) := by
  unfold verifyUnknownIn checkIn
  rw [execIn_bind, execIn_ask]
  rcases h : env.isKnown (opid op) w.state with ⟨_ | _, s⟩
  · simp only [Bool.false_eq_true, if_false]
    rw [execIn_bind, execIn_ask]
    rcases h2 : env.verify cid op s with ⟨_ | _, s2⟩ <;> simp [execIn_throw, execIn_pure]
  · simp [execIn_pure]

theorem execIn_close (env : Env Seal E σ) (o : Opid) (b : OperationSeals Seal) (closed : List Seal) (w : Scene Seal E σ) :
    (execIn (closeSealsIn env o b closed) w).1.map (fun s => s.elems.map ofLex) =
        (witnessIn env o b closed w.state).res.map (fun _ => registered o b) ∧
    (execIn (closeSealsIn env o b closed) w).2 =
      ⟨(witnessIn env o b closed w.state).state, w.events ++ (witnessIn env o b closed w.state).events⟩ := by
  unfold closeSealsIn witnessIn registered
  cases h : b.witness with
  | none =>
    cases closed with
    | nil => simp [execIn_pure, Except.map]
    | cons s t => simp [execIn_throw, Except.map]
  | some x =>
    simp only [execIn_bind, execIn_ask, msgOf]
    rcases hv : env.closing x closed (RgbSeal.messageOfBytes o.bytes) w.state with ⟨_ | _, s⟩
    · simp [execIn_throw, Except.map]
    · simp [execIn_map, execIn_tell, Except.map]

theorem processIn_run (env : Env Seal E σ) (cid : ContractId) (xid : CodexId) (g : Bool) (seals : OMap CellAddr Seal)
    (b : OperationSeals Seal) (w : Scene Seal E σ) :
    (processIn env cid xid g seals b).run.run w =
      ((stepIn env cid xid g seals b w.state).res.map (fun s => (false, s)),
       ⟨(stepIn env cid xid g seals b w.state).state, w.events ++ (stepIn env cid xid g seals b w.state).events⟩) := by
  change execIn _ w = _
  unfold processIn stepIn
  by_cases hc : g ∧ b.operation.contractId.bytes ≠ xid.bytes
  · simp [hc, execIn_throw, Except.map]
  have hc' : (g && b.operation.contractId.bytes != xid.bytes) = false := by
    rw [Bool.eq_false_iff]
    intro h
    exact hc (by simpa using h)
  simp only [hc, hc', if_false, Bool.false_eq_true]
  have e0 : (if g = true then { b.operation with contractId := cid } else b.operation) = effOp cid g b := rfl
  rw [e0]
  have e1 : OSet.collect (b.definedSeals.values.map RgbSeal.authToken) = reportedSet b := rfl
  have e2 : OSet.collect ((effOp cid g b).destructibleOut.map fun cell => cell.auth) = definedSet b := by simp [definedSet]
  have e3 : OMap.collect (b.definedSeals.entries.map fun e => (e.1, RgbSeal.display e.2)) = sourcesMap b := rfl
  rw [e1, e2, e3]
  cases h2 : (reportedSet b).isSubset (definedSet b)
  · simp [execIn_throw, Except.map]
  simp only [effOp_in, Bool.not_true, Bool.false_eq_true, if_false, reduceCtorEq]
  rw [execIn_bind, execIn_removeAll]
  cases closeAll seals b.operation.destructibleIn with
  | error a => simp [Except.map]
  | ok p =>
    obtain ⟨closed, seals'⟩ := p
    simp only [List.nil_append]
    rw [execIn_bind, execIn_check]
    rcases hk : checkIn env cid (effOp cid g b) w.state with ⟨_ | ver, s, l⟩
    · simp [Except.map]
    simp only
    rw [execIn_bind]
    generalize hop : opid (effOp cid g b) = o
    have hx := execIn_close env o b closed ⟨s, w.events ++ l⟩
    rcases hy : execIn (closeSealsIn env o b closed) ⟨s, w.events ++ l⟩ with ⟨r, w'⟩
    rw [hy] at hx
    obtain ⟨hx1, hx2⟩ := hx
    simp only at hx1 hx2
    subst hx2
    rcases hw : witnessIn env o b closed s with ⟨_ | _, s', l'⟩
    · rw [hw] at hx1
      cases r with
      | ok _ => simp [Except.map] at hx1
      | error e =>
        simp only [Except.map, Except.error.injEq] at hx1
        subst hx1
        simp [Except.map]
    · rw [hw] at hx1
      cases r with
      | error e => simp [Except.map] at hx1
      | ok q =>
        simp only [Except.map, Except.ok.injEq] at hx1
        simp only [hx1]
        cases g <;> cases ver <;> cases hd : b.definedSeals.isEmpty <;>
          simp [execIn_bind, execIn_pure, execIn_map, execIn_tell, applyIn, reportIn, hd, Except.map]

end Rgb
