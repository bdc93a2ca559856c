import Verif.Model

set_option linter.unusedSectionVars false

/-!
Pure characterisation of one iteration of the loop (`processBlock`), without the monad.
Helper lemmas only; nothing here is part of the model.
-/

namespace Rgb

variable {Seal : Type} [LinearOrder Seal] [RgbSeal Seal]
variable {C E : Type} [ContractApi Seal C]

/-- Successive removals. -/
def closeAll (seals : OMap CellAddr Seal) : List Input → Except CellAddr (List Seal × OMap CellAddr Seal)
  | [] => .ok ([], seals)
  | inp :: rest =>
    match seals.get? inp.addr with
    | none => .error inp.addr
    | some s =>
      match closeAll (seals.remove inp.addr).2 rest with
      | .error a => .error a
      | .ok (closed, seals') => .ok (s :: closed, seals')

theorem collectClosed_run (seals : OMap CellAddr Seal) (acc : List Seal) (ins : List Input) (w : World Seal C) :
    (collectClosed (C := C) (E := E) seals acc ins).run.run w =
      match closeAll seals ins with
      | .error a => (.error (.sealUnknown a), w)
      | .ok (closed, seals') => (.ok (acc ++ closed, seals'), w) := by
  induction ins generalizing seals acc with
  | nil => simp [collectClosed, closeAll]; rfl
  | cons inp rest ih =>
    simp only [collectClosed, closeAll]
    cases h : seals.get? inp.addr with
    | none =>
      have : seals.remove inp.addr = (none, (seals.remove inp.addr).2) := by
        rw [← h]; rfl
      rw [this]; rfl
    | some s =>
      have : seals.remove inp.addr = (some s, (seals.remove inp.addr).2) := by
        rw [← h]; rfl
      rw [this]
      simp only
      rw [ih]
      cases closeAll (seals.remove inp.addr).2 rest with
      | error a => rfl
      | ok p => simp

variable [OpHash]

/-- The operation of a block after the substitution made for the first block. -/
def effOp (cid : ContractId) (g : Bool) (b : OperationSeals Seal) : Operation :=
  if g then { b.operation with contractId := cid } else b.operation

@[simp] theorem effOp_in (cid : ContractId) (g : Bool) (b : OperationSeals Seal) :
    (effOp cid g b).destructibleIn = b.operation.destructibleIn := by cases g <;> rfl

@[simp] theorem effOp_out (cid : ContractId) (g : Bool) (b : OperationSeals Seal) :
    (effOp cid g b).destructibleOut = b.operation.destructibleOut := by cases g <;> rfl

/-- The set of tokens of the cells of the operation. -/
def definedSet (b : OperationSeals Seal) : OSet AuthToken :=
  OSet.collect (b.operation.destructibleOut.map fun cell => cell.auth)

/-- The set of tokens of the revealed seals. -/
def reportedSet (b : OperationSeals Seal) : OSet AuthToken :=
  OSet.collect (b.definedSeals.values.map RgbSeal.authToken)

/-- Display of the revealed seals. -/
def sourcesMap (b : OperationSeals Seal) : OMap U16 String :=
  OMap.collect (b.definedSeals.entries.map fun e => (e.1, RgbSeal.display e.2))

/-- Seals registered by a block. -/
def registered (op : Opid) (b : OperationSeals Seal) : List (CellAddr × Seal) :=
  let src := sourceSeals op b
  let src := match b.witness with
    | none => src
    | some w => src.extend (witnessSeals op (RgbSeal.pubId w.published) b)
  src.elems.map ofLex

/-- The message a witness has to close seals over. -/
def msgOf (Seal : Type) [LinearOrder Seal] [RgbSeal Seal] (op : Opid) : RgbSeal.Message Seal :=
  RgbSeal.messageOfBytes op.bytes

/-- The codex verification of a block. -/
def verifyOf (Seal : Type) [LinearOrder Seal] [RgbSeal Seal] {C : Type} [ContractApi Seal C]
    (c : C) (cid : ContractId) (op : Operation) : Except CallError VerifiedOperation :=
  (ContractApi.codex Seal c).verify cid op (ContractApi.memory Seal c) (ContractApi.repo Seal c)

/-- The operation check of a block: `none` for known operations. -/
def opCheck (Seal : Type) [LinearOrder Seal] [RgbSeal Seal] {C : Type} [ContractApi Seal C]
    (c : C) (cid : ContractId) (op : Operation) : Except CallError (Option VerifiedOperation) :=
  if ContractApi.isKnown Seal c (opid op) then .ok none
  else match verifyOf Seal c cid op with
    | .error e => .error e
    | .ok v => .ok (some v)

/-- Calls made by the operation check. -/
def opCalls (c : C) (cid : ContractId) (op : Operation) : List (Call Seal) :=
  if ContractApi.isKnown Seal c (opid op) then [.isKnown (opid op) true]
  else [.isKnown (opid op) false, .codex, .memory, .repo, .codexVerify cid op]

/-- The witness check of a block. -/
def witnessCheck (op : Opid) (b : OperationSeals Seal) (closed : List Seal) :
    Except (VerificationError Seal E) Unit :=
  match b.witness with
  | some w =>
    match RgbSeal.verifySealsClosing w.published w.client closed (msgOf Seal op) with
    | .error e => .error (.sealsNotClosed (RgbSeal.pubId w.published) op e)
    | .ok () => .ok ()
  | none => if closed = [] then .ok () else .error (.noWitness op)

/-- Calls made by the witness check. -/
def witnessCalls (op : Opid) (b : OperationSeals Seal) (closed : List Seal) : List (Call Seal) :=
  match b.witness with
  | some w => [.verifySealsClosing w closed (msgOf Seal op)]
  | none => []

/-- Mutating calls made by an accepted block. -/
def blockMuts (g : Bool) (op : Opid) (b : OperationSeals Seal) (ver : Option VerifiedOperation) :
    List (Call Seal) :=
  (match b.witness with | some w => [.applyWitness op w] | none => []) ++
  (if g then [] else match ver with | some v => [.applyOperation v] | none => []) ++
  (if b.definedSeals.isEmpty then [] else [.applySeals op b.definedSeals])

/-- Effect of one call on the contract. -/
def applyCall (c : C) : Call Seal → C
  | .applyWitness op w => ContractApi.applyWitness c op w
  | .applyOperation v => ContractApi.applyOperation Seal c v
  | .applySeals op s => ContractApi.applySeals c op s
  | _ => c

/-- Result of one iteration. -/
structure StepResult (Seal : Type) [LinearOrder Seal] [RgbSeal Seal] (E : Type) where
  res : Except (VerificationError Seal E) (OMap CellAddr Seal)
  calls : List (Call Seal)

/-- One iteration, without the monad. -/
def pureStep (cid : ContractId) (xid : CodexId) (g : Bool) (seals : OMap CellAddr Seal)
    (b : OperationSeals Seal) (c : C) : StepResult Seal E :=
  if g ∧ b.operation.contractId.bytes ≠ xid.bytes then ⟨.error .noCodexCommitment, []⟩
  else if (reportedSet b).isSubset (definedSet b) = false then
    ⟨.error (.sealsDefinitionMismatch (opid (effOp cid g b)) (reportedSet b) (definedSet b) (sourcesMap b)), []⟩
  else match closeAll seals b.operation.destructibleIn with
    | .error a => ⟨.error (.sealUnknown a), []⟩
    | .ok (closed, seals') =>
      match opCheck Seal c cid (effOp cid g b) with
      | .error e => ⟨.error (.vm e), opCalls c cid (effOp cid g b)⟩
      | .ok ver =>
        match witnessCheck (opid (effOp cid g b)) b closed with
        | .error e => ⟨.error e, opCalls c cid (effOp cid g b) ++ witnessCalls (opid (effOp cid g b)) b closed⟩
        | .ok () => ⟨.ok (seals'.extend (registered (opid (effOp cid g b)) b)),
            opCalls c cid (effOp cid g b) ++ witnessCalls (opid (effOp cid g b)) b closed ++
            blockMuts g (opid (effOp cid g b)) b ver⟩

/-- Run a computation. -/
def exec {α : Type} (x : EvalM Seal C E α) (w : World Seal C) :
    Except (VerificationError Seal E) α × World Seal C := x.run.run w

theorem exec_bind {α β : Type} (x : EvalM Seal C E α) (f : α → EvalM Seal C E β) (w : World Seal C) :
    exec (x >>= f) w = match exec x w with
      | (.ok a, w') => exec (f a) w'
      | (.error e, w') => (.error e, w') := by
  simp only [exec, ExceptT.run_bind, StateT.run_bind]
  rcases h : StateT.run x.run w with ⟨r, w'⟩
  simp only [bind]
  cases r <;> rfl

theorem exec_pure {α : Type} (a : α) (w : World Seal C) :
    exec (pure a : EvalM Seal C E α) w = (.ok a, w) := rfl

theorem exec_throw {α : Type} (e : VerificationError Seal E) (w : World Seal C) :
    exec (throw e : EvalM Seal C E α) w = (.error e, w) := rfl

theorem exec_note (c : Call Seal) (w : World Seal C) :
    exec (note c : EvalM Seal C E Unit) w = (.ok (), ⟨w.contract, w.calls ++ [c]⟩) := rfl

theorem exec_callIsKnown (o : Opid) (w : World Seal C) :
    exec (callIsKnown o : EvalM Seal C E Bool) w =
      (.ok (ContractApi.isKnown Seal w.contract o),
        ⟨w.contract, w.calls ++ [.isKnown o (ContractApi.isKnown Seal w.contract o)]⟩) := rfl

theorem exec_callCodex (w : World Seal C) :
    exec (callCodex : EvalM Seal C E Codex) w =
      (.ok (ContractApi.codex Seal w.contract), ⟨w.contract, w.calls ++ [.codex]⟩) := rfl

theorem exec_callContractId (w : World Seal C) :
    exec (callContractId : EvalM Seal C E ContractId) w =
      (.ok (ContractApi.contractId Seal w.contract), ⟨w.contract, w.calls ++ [.contractId]⟩) := rfl

theorem exec_callMemory (w : World Seal C) :
    exec (callMemory : EvalM Seal C E Memory) w =
      (.ok (ContractApi.memory Seal w.contract), ⟨w.contract, w.calls ++ [.memory]⟩) := rfl

theorem exec_callRepo (w : World Seal C) :
    exec (callRepo : EvalM Seal C E LibRepo) w =
      (.ok (ContractApi.repo Seal w.contract), ⟨w.contract, w.calls ++ [.repo]⟩) := rfl

theorem exec_callApplyWitness (o : Opid) (x : SealWitness Seal) (w : World Seal C) :
    exec (callApplyWitness o x : EvalM Seal C E Unit) w =
      (.ok (), ⟨ContractApi.applyWitness w.contract o x, w.calls ++ [.applyWitness o x]⟩) := rfl

theorem exec_callApplyOperation (v : VerifiedOperation) (w : World Seal C) :
    exec (callApplyOperation v : EvalM Seal C E Unit) w =
      (.ok (), ⟨ContractApi.applyOperation Seal w.contract v, w.calls ++ [.applyOperation v]⟩) := rfl

theorem exec_callApplySeals (o : Opid) (x) (w : World Seal C) :
    exec (callApplySeals o x : EvalM Seal C E Unit) w =
      (.ok (), ⟨ContractApi.applySeals w.contract o x, w.calls ++ [.applySeals o x]⟩) := rfl

theorem exec_collectClosed (seals : OMap CellAddr Seal) (acc : List Seal) (ins : List Input) (w : World Seal C) :
    exec (collectClosed (C := C) (E := E) seals acc ins) w =
      match closeAll seals ins with
      | .error a => (.error (.sealUnknown a), w)
      | .ok (closed, seals') => (.ok (acc ++ closed, seals'), w) := collectClosed_run ..

theorem exec_admitGenesis (cid : ContractId) (xid : CodexId) (g : Bool) (b : OperationSeals Seal)
    (w : World Seal C) :
    exec (E := E) (admitGenesis cid xid g b) w =
      if g ∧ b.operation.contractId.bytes ≠ xid.bytes then (.error .noCodexCommitment, w)
      else (.ok { b with operation := effOp cid g b }, w) := by
  cases g
  · rfl
  · by_cases h : b.operation.contractId.bytes = xid.bytes
    · simp [admitGenesis, h, effOp, exec_pure]
    · simp [admitGenesis, h, exec_throw]

theorem exec_checkDefinedSeals (op : Opid) (b : OperationSeals Seal) (w : World Seal C) :
    exec (E := E) (checkDefinedSeals op b) w =
      if (reportedSet b).isSubset (definedSet b) = false then
        (.error (.sealsDefinitionMismatch op (reportedSet b) (definedSet b) (sourcesMap b)), w)
      else (.ok (), w) := by
  unfold checkDefinedSeals
  change exec (if (!(reportedSet b).isSubset (definedSet b)) = true then _ else _) w = _
  cases (reportedSet b).isSubset (definedSet b) <;> rfl

theorem exec_verifyUnknown (cid : ContractId) (op : Operation) (w : World Seal C) :
    exec (E := E) (verifyUnknown cid (opid op) op) w =
      (match opCheck Seal w.contract cid op with
        | .error e => .error (.vm e)
        | .ok v => .ok v, ⟨w.contract, w.calls ++ opCalls w.contract cid op⟩) := by
  unfold verifyUnknown opCheck opCalls
  rw [exec_bind, exec_callIsKnown]
  cases h : ContractApi.isKnown Seal w.contract (opid op)
  · simp only [exec_bind, Bool.false_eq_true, if_false, exec_callCodex, exec_callMemory, exec_callRepo,
      exec_note, verifyOf]
    cases (ContractApi.codex Seal w.contract).verify cid op (ContractApi.memory Seal w.contract)
      (ContractApi.repo Seal w.contract) <;> simp [exec_throw, exec_pure]
  · simp [exec_pure]

theorem exec_closeSeals (op : Opid) (b : OperationSeals Seal) (closed : List Seal) (w : World Seal C) :
    (exec (E := E) (closeSeals op b closed) w).1.map (fun s => s.elems.map ofLex) =
        (witnessCheck op b closed).map (fun _ => registered op b) ∧
    (exec (E := E) (closeSeals op b closed) w).2 =
      (match witnessCheck (E := E) op b closed with
        | .error _ => ⟨w.contract, w.calls ++ witnessCalls op b closed⟩
        | .ok () => match b.witness with
          | none => w
          | some x => ⟨ContractApi.applyWitness w.contract op x,
              w.calls ++ witnessCalls op b closed ++ [.applyWitness op x]⟩) := by
  unfold closeSeals witnessCheck witnessCalls registered
  cases h : b.witness with
  | none =>
    cases closed with
    | nil => exact ⟨rfl, rfl⟩
    | cons s t => simp [exec_throw, Except.map]
  | some x =>
    simp only [exec_bind, exec_note, msgOf]
    cases hv : RgbSeal.verifySealsClosing x.published x.client closed (RgbSeal.messageOfBytes op.bytes) with
    | error e => exact ⟨rfl, rfl⟩
    | ok u => exact ⟨rfl, rfl⟩

theorem processBlock_run (cid : ContractId) (xid : CodexId) (g : Bool) (seals : OMap CellAddr Seal)
    (b : OperationSeals Seal) (w : World Seal C) :
    (processBlock (E := E) cid xid g seals b).run.run w =
      ((pureStep (E := E) cid xid g seals b w.contract).res.map (fun s => (false, s)),
       ⟨(pureStep (E := E) cid xid g seals b w.contract).calls.foldl applyCall w.contract,
        w.calls ++ (pureStep (E := E) cid xid g seals b w.contract).calls⟩) := by
  change exec _ w = _
  unfold processBlock pureStep
  rw [exec_bind, exec_admitGenesis]
  by_cases hc : g ∧ b.operation.contractId.bytes ≠ xid.bytes
  · simp [hc, Except.map]
  simp only [hc, if_false]
  rw [exec_bind, exec_checkDefinedSeals]
  have e1 : reportedSet { b with operation := effOp cid g b } = reportedSet b := rfl
  have e2 : definedSet { b with operation := effOp cid g b } = definedSet b := by simp [definedSet]
  have e3 : sourcesMap { b with operation := effOp cid g b } = sourcesMap b := rfl
  rw [e1, e2, e3]
  by_cases h2 : (reportedSet b).isSubset (definedSet b) = false
  · simp [h2, Except.map]
  rw [if_neg h2, if_neg h2]
  simp only [effOp_in]
  rw [exec_bind, exec_collectClosed]
  cases closeAll seals b.operation.destructibleIn with
  | error a => simp [Except.map]
  | ok p =>
    obtain ⟨closed, seals'⟩ := p
    simp only [List.nil_append]
    rw [exec_bind, exec_verifyUnknown]
    have opc : ∀ c : C, List.foldl applyCall c (opCalls (Seal := Seal) c cid (effOp cid g b)) = c := by
      intro c; unfold opCalls; split <;> rfl
    cases opCheck Seal w.contract cid (effOp cid g b) with
    | error e => simp [Except.map, opc]
    | ok ver =>
      simp only
      rw [exec_bind]
      generalize hop : opid (effOp cid g b) = op
      have hx := exec_closeSeals (E := E) op { b with operation := effOp cid g b } closed
        ⟨w.contract, w.calls ++ opCalls w.contract cid (effOp cid g b)⟩
      have e4 : witnessCheck (E := E) op { b with operation := effOp cid g b } closed =
        witnessCheck op b closed := rfl
      have e5 : witnessCalls op { b with operation := effOp cid g b } closed =
        witnessCalls op b closed := rfl
      have e6 : registered op { b with operation := effOp cid g b } = registered op b := rfl
      rw [e4, e5, e6] at hx
      rcases hy : exec (E := E) (closeSeals op { b with operation := effOp cid g b } closed)
        ⟨w.contract, w.calls ++ opCalls w.contract cid (effOp cid g b)⟩ with ⟨r, w'⟩
      rw [hy] at hx
      obtain ⟨hx1, hx2⟩ := hx
      have wc : ∀ c : C, List.foldl applyCall c (witnessCalls op b closed) = c := by
        intro c; unfold witnessCalls; split <;> rfl
      cases hw : witnessCheck (E := E) op b closed with
      | error e =>
        rw [hw] at hx1 hx2
        cases r with
        | ok s => simp [Except.map] at hx1
        | error e' =>
          simp only [Except.map, Except.error.injEq] at hx1
          subst hx1
          simp only at hx2
          subst hx2
          simp [Except.map, opc, wc]
      | ok u =>
        rw [hw] at hx1 hx2
        cases r with
        | error e' => simp [Except.map] at hx1
        | ok s =>
          simp only [Except.map, Except.ok.injEq] at hx1
          simp only at hx2
          subst hx2
          simp only [exec_bind, applyUnlessGenesis, reportSeals, exec_pure]
          simp only [hx1]
          cases hwit : b.witness <;> cases g <;> cases ver <;> cases hd : b.definedSeals.isEmpty <;>
            simp [exec_pure, exec_callApplyOperation, exec_callApplySeals, blockMuts, hwit, hd, Except.map, opc,
              wc, applyCall, witnessCalls]
end Rgb
