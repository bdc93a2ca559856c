import Verif.Props.Streams
import Verif.Props.Conflicts
import Verif.TestContract

set_option linter.unusedSectionVars false

/-!
# Parametricity in the seal protocol

C89.  The verifier is generic in the seal protocol (`Seal: RgbSeal`, seals.rs:66-78).  It uses seals only
through the operations of the traits: it never compares them (although `RgbSeal: Ord`, seals.rs:67, and the
registered seals pass through a `BTreeSet`, verify.rs:219), never inspects them, and does not depend on
what the protocol does with seals that do not occur.  So a translation between two protocols carries every
evaluation with the one to an evaluation with the other.
-/

namespace Rgb

/-- The map with a function applied to its values. -/
def OMap.mapValues {K V W : Type} [LinearOrder K] (f : V → W) (m : OMap K V) : OMap K W :=
  ⟨m.entries.map fun e => (e.1, f e.2), List.pairwise_map.2 m.sorted⟩

namespace Spec

/-- A translation from one seal protocol to another: functions between the associated types which respect
the operations of the traits. -/
structure Translation (S S' : Type) [LinearOrder S] [RgbSeal S] [LinearOrder S'] [RgbSeal S'] where
  /-- seals -/
  toSeal : S → S'
  definition : RgbSeal.Definition S → RgbSeal.Definition S'
  published : RgbSeal.Published S → RgbSeal.Published S'
  client : RgbSeal.Client S → RgbSeal.Client S'
  witnessId : RgbSeal.WitnessId S → RgbSeal.WitnessId S'
  message : RgbSeal.Message S → RgbSeal.Message S'
  sealError : RgbSeal.SealError S → RgbSeal.SealError S'
  authToken : ∀ d, RgbSeal.authToken (definition d) = RgbSeal.authToken d
  resolve : ∀ d w, RgbSeal.resolve (definition d) (witnessId w) = toSeal (RgbSeal.resolve d w)
  toSrc : ∀ d, RgbSeal.toSrc (definition d) = (RgbSeal.toSrc d).map toSeal
  display : ∀ d, RgbSeal.display (definition d) = RgbSeal.display d
  messageOfBytes : ∀ b, RgbSeal.messageOfBytes (Seal := S') b = message (RgbSeal.messageOfBytes b)
  pubId : ∀ p, RgbSeal.pubId (published p) = witnessId (RgbSeal.pubId p)
  verify : ∀ p c l m, RgbSeal.verifySealsClosing (published p) (client c) (l.map toSeal) (message m) =
    (RgbSeal.verifySealsClosing p c l m).mapError sealError

namespace Translation
variable {S S' : Type} [LinearOrder S] [RgbSeal S] [LinearOrder S'] [RgbSeal S'] (T : Translation S S')

/-- Translation of witnesses. -/
def witness (w : SealWitness S) : SealWitness S' := ⟨T.published w.published, T.client w.client⟩

/-- Translation of bundles: the operation stays. -/
def block (b : OperationSeals S) : OperationSeals S' :=
  ⟨b.operation, b.definedSeals.mapValues T.definition, b.witness.map T.witness⟩

/-- Translation of errors, given one for errors of readers. -/
def error {E E' : Type} (f : E → E') : VerificationError S E → VerificationError S' E'
  | .stream e => .stream (f e)
  | .noCodexCommitment => .noCodexCommitment
  | .noWitness o => .noWitness o
  | .sealsNotClosed w o e => .sealsNotClosed (T.witnessId w) o (T.sealError e)
  | .sealUnknown a => .sealUnknown a
  | .sealsDefinitionMismatch o r d s => .sealsDefinitionMismatch o r d s
  | .vm e => .vm e

/-- Translation of calls. -/
def call : Call S → Call S'
  | .read => .read
  | .contractId => .contractId
  | .codex => .codex
  | .memory => .memory
  | .repo => .repo
  | .isKnown o k => .isKnown o k
  | .codexVerify cid op => .codexVerify cid op
  | .verifySealsClosing w l m => .verifySealsClosing (T.witness w) (l.map T.toSeal) (T.message m)
  | .applyWitness o w => .applyWitness o (T.witness w)
  | .applyOperation v => .applyOperation v
  | .applySeals o s => .applySeals o (s.mapValues T.definition)

/-- `Q` relates contracts which answer alike, and stay related by callbacks with translated arguments. -/
structure Contracts {C C' : Type} [ContractApi S C] [ContractApi S' C'] (Q : C → C' → Prop) : Prop where
  contractId : ∀ c c', Q c c' → ContractApi.contractId S c = ContractApi.contractId S' c'
  codexId : ∀ c c', Q c c' → (ContractApi.codex S c).codexId = (ContractApi.codex S' c').codexId
  isKnown : ∀ c c', Q c c' → ∀ o, ContractApi.isKnown S c o = ContractApi.isKnown S' c' o
  verify : ∀ c c', Q c c' → ∀ cid op, codexAnswer S c cid op = codexAnswer S' c' cid op
  operation : ∀ c c', Q c c' → ∀ v, Q (ContractApi.applyOperation S c v) (ContractApi.applyOperation S' c' v)
  witness : ∀ c c', Q c c' → ∀ o w, Q (ContractApi.applyWitness c o w) (ContractApi.applyWitness c' o (T.witness w))
  seals : ∀ c c', Q c c' → ∀ o (s : OMap U16 (RgbSeal.Definition S)),
    Q (ContractApi.applySeals c o s) (ContractApi.applySeals c' o (s.mapValues T.definition))

/-- `P` relates readers such that one reads the translation of what the other reads, with errors
translated by `f`. -/
def Readers {R R' : Type} [ReadOperation S R] [ReadOperation S' R'] (f : ReadOperation.Error S R → ReadOperation.Error S' R')
    (P : R → R' → Prop) : Prop :=
  ∀ r r', P r r' →
    (ReadOperation.readOperation (Seal := S') r').1 =
      ((ReadOperation.readOperation (Seal := S) r).1.map fun b => b.map T.block).mapError f ∧
    P (ReadOperation.readOperation (Seal := S) r).2 (ReadOperation.readOperation (Seal := S') r').2

end Translation
end Spec

open Spec

theorem OMap.get?_mapValues {K V W : Type} [LinearOrder K] (f : V → W) (m : OMap K V) (k : K) :
    (m.mapValues f).get? k = (m.get? k).map f := by
  obtain ⟨l, hl⟩ := m
  simp only [mapValues, OMap.get?]
  clear hl
  induction l with
  | nil => rfl
  | cons e l ih =>
    simp only [List.map_cons, OMap.lookupL]
    split
    · rfl
    · exact ih

theorem OMap.remove_mapValues {K V W : Type} [LinearOrder K] (f : V → W) (m : OMap K V) (k : K) :
    ((m.mapValues f).remove k).2 = (m.remove k).2.mapValues f := by
  refine OMap.ext_get? fun x => ?_
  rw [OMap.get?_remove, OMap.get?_mapValues, OMap.get?_mapValues, OMap.get?_remove]
  split <;> rfl

section
variable {S S' : Type} [LinearOrder S] [RgbSeal S] [LinearOrder S'] [RgbSeal S'] (T : Translation S S')

theorem closeAll_translate (seals : OMap CellAddr S) (l : List Input) :
    closeAll (seals.mapValues T.toSeal) l =
      (closeAll seals l).map fun p => (p.1.map T.toSeal, p.2.mapValues T.toSeal) := by
  induction l generalizing seals with
  | nil => rfl
  | cons inp l ih =>
    simp only [closeAll, OMap.get?_mapValues]
    cases seals.get? inp.addr with
    | none => rfl
    | some s =>
      simp only [Option.map_some]
      rw [OMap.remove_mapValues, ih]
      cases closeAll (seals.remove inp.addr).2 l with
      | error a => rfl
      | ok p => rfl

variable [OpHash]

theorem registered_translate (o : Opid) (b : OperationSeals S) (a : CellAddr) (s' : S') :
    (a, s') ∈ registered o (T.block b) ↔ ∃ s, (a, s) ∈ registered o b ∧ s' = T.toSeal s := by
  simp only [mem_registered]
  constructor
  · rintro ⟨h1, d', hd', h2⟩
    obtain ⟨⟨p, d⟩, hd, e⟩ := List.mem_map.1 hd'
    simp only [Prod.mk.injEq] at e
    obtain ⟨rfl, rfl⟩ := e
    rcases h2 with h2 | ⟨h2, w', hw', rfl⟩
    · rw [T.toSrc, Option.map_eq_some_iff] at h2
      obtain ⟨s, h2, rfl⟩ := h2
      exact ⟨s, ⟨h1, d, hd, .inl h2⟩, rfl⟩
    · rw [T.toSrc, Option.map_eq_none_iff] at h2
      obtain ⟨w, hw, rfl⟩ := Option.map_eq_some_iff.1 hw'
      exact ⟨_, ⟨h1, d, hd, .inr ⟨h2, w, hw, rfl⟩⟩, by
        show RgbSeal.resolve _ (RgbSeal.pubId (T.published w.published)) = _
        rw [T.pubId, T.resolve]⟩
  · rintro ⟨s, ⟨h1, d, hd, h2⟩, rfl⟩
    refine ⟨h1, T.definition d, List.mem_map.2 ⟨_, hd, rfl⟩, ?_⟩
    rcases h2 with h2 | ⟨h2, w, hw, rfl⟩
    · exact .inl (by rw [T.toSrc, h2]; rfl)
    · refine .inr ⟨by rw [T.toSrc, h2]; rfl, T.witness w, by simp [Translation.block, hw], ?_⟩
      show _ = RgbSeal.resolve _ (RgbSeal.pubId (T.published w.published))
      rw [T.pubId, T.resolve]

theorem extend_translate (o : Opid) (b : OperationSeals S) (seals : OMap CellAddr S) :
    (seals.mapValues T.toSeal).extend (registered o (T.block b)) = (seals.extend (registered o b)).mapValues T.toSeal := by
  refine OMap.ext_get? fun a => ?_
  rw [OMap.get?_mapValues]
  by_cases h : ∃ s, (a, s) ∈ registered o b
  · obtain ⟨s, hs⟩ := h
    rw [OMap.get?_extend_of_mem hs fun v hv => registered_functional hs hv,
      OMap.get?_extend_of_mem ((registered_translate T o b a _).2 ⟨s, hs, rfl⟩)]
    · rfl
    · intro v hv
      obtain ⟨s', hs', rfl⟩ := (registered_translate T o b a _).1 hv
      rw [registered_functional hs hs']
  · rw [OMap.get?_extend_of_not_mem fun v hv => h ⟨v, hv⟩, OMap.get?_extend_of_not_mem, OMap.get?_mapValues]
    intro v hv
    obtain ⟨s', hs', _⟩ := (registered_translate T o b a _).1 hv
    exact h ⟨s', hs'⟩

variable {C C' : Type} [ContractApi S C] [ContractApi S' C'] {Q : C → C' → Prop}

theorem witnessCheck_translate {E E' : Type} (f : E → E') (o : Opid) (b : OperationSeals S) (closed : List S) :
    witnessCheck (E := E') o (T.block b) (closed.map T.toSeal) = (witnessCheck (E := E) o b closed).mapError (T.error f) := by
  unfold witnessCheck
  cases hw : b.witness with
  | none =>
    simp only [Translation.block, hw, Option.map_none, List.map_eq_nil_iff]
    split <;> rfl
  | some w =>
    simp only [Translation.block, hw, Option.map_some, Translation.witness, msgOf, T.messageOfBytes, T.verify]
    cases RgbSeal.verifySealsClosing w.published w.client closed (RgbSeal.messageOfBytes o.bytes) with
    | error e => simp only [Except.mapError, Translation.error, T.pubId]
    | ok u => rfl

theorem pureStep_translate (hQ : T.Contracts Q) {c : C} {c' : C'} (h : Q c c') {E E' : Type} (f : E → E') (cid : ContractId)
    (xid : CodexId) (g : Bool) (seals : OMap CellAddr S) (b : OperationSeals S) :
    (pureStep (E := E') cid xid g (seals.mapValues T.toSeal) (T.block b) c').res =
        ((pureStep (E := E) cid xid g seals b c).res.map (·.mapValues T.toSeal)).mapError (T.error f) ∧
      (pureStep (E := E') cid xid g (seals.mapValues T.toSeal) (T.block b) c').calls =
        (pureStep (E := E) cid xid g seals b c).calls.map T.call := by
  have e1 : effOp cid g (T.block b) = effOp cid g b := rfl
  have e2 : definedSet (T.block b) = definedSet b := rfl
  have e3 : reportedSet (T.block b) = reportedSet b := by
    simp only [reportedSet, OMap.values, Translation.block, OMap.mapValues, List.map_map, Function.comp_def, T.authToken]
  have e4 : sourcesMap (T.block b) = sourcesMap b := by
    simp only [sourcesMap, Translation.block, OMap.mapValues, List.map_map, Function.comp_def, T.display]
  have e5 : opCheck S' c' cid (effOp cid g b) = opCheck S c cid (effOp cid g b) := by
    have := hQ.verify _ _ h cid (effOp cid g b)
    unfold opCheck
    rw [hQ.isKnown _ _ h]
    change _ = if _ then _ else match codexAnswer S c cid _ with | .error e => _ | .ok v => _
    rw [this]
    rfl
  have e6 : opCalls (Seal := S') c' cid (effOp cid g b) = (opCalls (Seal := S) c cid (effOp cid g b)).map T.call := by
    unfold opCalls
    rw [hQ.isKnown _ _ h]
    split <;> rfl
  have e7 : ∀ o closed, witnessCalls o (T.block b) (closed.map T.toSeal) = (witnessCalls o b closed).map T.call := by
    intro o closed
    unfold witnessCalls
    cases hw : b.witness with
    | none => simp [Translation.block, hw]
    | some w => simp [Translation.block, hw, Translation.call, msgOf, T.messageOfBytes]
  have e8 : ∀ o v, blockMuts g o (T.block b) v = (blockMuts g o b v).map T.call := by
    intro o v
    unfold blockMuts
    have : (T.block b).definedSeals.isEmpty = b.definedSeals.isEmpty := by
      simp [OMap.isEmpty, Translation.block, OMap.mapValues]
    rw [this]
    simp only [List.map_append]
    congr 1
    · congr 1
      · cases hw : b.witness <;> simp [Translation.block, hw, Translation.call]
      · cases g <;> cases v <;> rfl
    · split <;> rfl
  have e9 : (T.block b).operation = b.operation := rfl
  unfold pureStep
  rw [e1, e2, e3, e4, e5, e6, e9, closeAll_translate]
  split
  · exact ⟨rfl, rfl⟩
  split
  · exact ⟨rfl, rfl⟩
  cases closeAll seals b.operation.destructibleIn with
  | error a => exact ⟨rfl, rfl⟩
  | ok p =>
    obtain ⟨closed, seals'⟩ := p
    simp only [Except.map]
    cases opCheck S c cid (effOp cid g b) with
    | error e => exact ⟨rfl, rfl⟩
    | ok ver =>
      simp only
      rw [witnessCheck_translate T f, e7, e8, extend_translate]
      cases witnessCheck (E := E) (opid (effOp cid g b)) b closed with
      | error e => exact ⟨rfl, by simp [Except.mapError]⟩
      | ok u => exact ⟨rfl, by simp [Except.mapError]⟩

/-- Related states of the loop. -/
structure StateTranslated (Q : C → C' → Prop) (st : LoopState S C) (st' : LoopState S' C') : Prop where
  g : st'.g = st.g
  seals : st'.seals = st.seals.mapValues T.toSeal
  contract : Q st.contract st'.contract
  calls : st'.calls = st.calls.map T.call

theorem foldl_translate (hQ : T.Contracts Q) {c : C} {c' : C'} (h : Q c c') (l : List (Call S)) :
    Q (l.foldl applyCall c) ((l.map T.call).foldl applyCall c') := by
  induction l generalizing c c' with
  | nil => exact h
  | cons x l ih =>
    refine ih ?_
    cases x <;> first | exact h | skip
    · exact hQ.witness _ _ h _ _
    · exact hQ.operation _ _ h _
    · exact hQ.seals _ _ h _ _

variable {R R' : Type} [ReadOperation S R] [ReadOperation S' R']
variable {f : ReadOperation.Error S R → ReadOperation.Error S' R'} {P : R → R' → Prop}

/-- Related outcomes. -/
structure Translated (T : Translation S S') (f : ReadOperation.Error S R → ReadOperation.Error S' R') (P : R → R' → Prop)
    (Q : C → C' → Prop) (o : Outcome S R C (ReadOperation.Error S R)) (o' : Outcome S' R' C' (ReadOperation.Error S' R')) :
    Prop where
  result : o'.result = o.result.mapError (T.error f)
  calls : o'.world.calls = o.world.calls.map T.call
  contract : Q o.world.contract o'.world.contract
  reader : P o.reader o'.reader

theorem state_next (hQ : T.Contracts Q) {st : LoopState S C} {st' : LoopState S' C'} (h : StateTranslated T Q st st')
    (cid : ContractId) (xid : CodexId) (b : OperationSeals S) (sl : OMap CellAddr S) (f : E → E') :
    StateTranslated T Q (st.next (pureStep (E := E) cid xid st.g st.seals b st.contract) sl)
      (st'.next (pureStep (E := E') cid xid st'.g st'.seals (T.block b) st'.contract) (sl.mapValues T.toSeal)) := by
  have := (pureStep_translate T hQ h.contract f cid xid st.g st.seals b).2
  rw [h.g, h.seals]
  refine ⟨rfl, rfl, ?_, ?_⟩
  · simp only [LoopState.next, this]
    exact foldl_translate T hQ h.contract _
  · simp only [LoopState.next, this, h.calls, List.map_append]
    rfl

theorem step_ends (hQ : T.Contracts Q) (hP : T.Readers f P) {cid : ContractId} {xid : CodexId} {r : R} {r' : R'}
    {st : LoopState S C} {st' : LoopState S' C'} {o} (he : Ends cid xid r st o) (h : StateTranslated T Q st st') (hr : P r r') :
    ∃ o', loopFrom cid xid r' st' = some o' ∧ Translated T f P Q o o' := by
  obtain ⟨p1, p2⟩ := hP r r' hr
  cases he with
  | eof k =>
    rw [k] at p1 p2
    refine ⟨_, loopFrom_eof (Prod.ext (by rw [p1]; rfl) rfl), rfl, ?_, h.contract, p2⟩
    simp [h.calls, Translation.call]
  | fail k =>
    rw [k] at p1 p2
    refine ⟨_, loopFrom_fail (Prod.ext (by rw [p1]; rfl) rfl), rfl, ?_, h.contract, p2⟩
    simp [h.calls, Translation.call]
  | reject k ke =>
    rename_i b e r₁
    rw [k] at p1 p2
    obtain ⟨q1, q2⟩ := pureStep_translate T hQ h.contract f cid xid st.g st.seals b
    rw [ke] at q1
    rw [← h.seals] at q1 q2
    rw [← h.g] at q1
    refine ⟨_, loopFrom_err (Prod.ext (by rw [p1]; rfl) rfl) q1, rfl, ?_, h.contract, p2⟩
    simp [h.calls, h.g, Translation.call, q2]

theorem loop_translate (hQ : T.Contracts Q) (hP : T.Readers f P) {cid : ContractId} {xid : CodexId} {r r₁ : R}
    {blocks : List (OperationSeals S)} (hreads : Reads r blocks r₁) {st st₁ : LoopState S C} {o}
    (hrun : runBlocks (E := ReadOperation.Error S R) cid xid blocks st = .ok st₁) (he : Ends cid xid r₁ st₁ o)
    {r' : R'} {st' : LoopState S' C'} (h : StateTranslated T Q st st') (hr : P r r') :
    ∃ o', loopFrom cid xid r' st' = some o' ∧ Translated T f P Q o o' := by
  induction hreads generalizing st r' st' with
  | nil r =>
    simp only [runBlocks, Except.ok.injEq] at hrun
    subst hrun
    exact step_ends T hQ hP he h hr
  | @cons r r₂ r₁ b bs k _ ih =>
    obtain ⟨p1, p2⟩ := hP r r' hr
    rw [k] at p1 p2
    simp only [runBlocks] at hrun
    split at hrun
    · simp at hrun
    rename_i sl hsl
    have q1 := (pureStep_translate T hQ h.contract f cid xid st.g st.seals b).1
    rw [hsl, ← h.g, ← h.seals] at q1
    rw [loopFrom_ok (Prod.ext (by rw [p1]; rfl) rfl) q1]
    exact ih hrun he (state_next T hQ h cid xid b sl f) p2

theorem loop_translate_back (hQ : T.Contracts Q) (hP : T.Readers f P) {cid : ContractId} {xid : CodexId} {r' r₁' : R'}
    {blocks' : List (OperationSeals S')} (hreads : Reads r' blocks' r₁') {st' st₁' : LoopState S' C'} {o'}
    (hrun : runBlocks (E := ReadOperation.Error S' R') cid xid blocks' st' = .ok st₁') (he : Ends cid xid r₁' st₁' o')
    {r : R} {st : LoopState S C} (h : StateTranslated T Q st st') (hr : P r r') : ∃ o, loopFrom cid xid r st = some o := by
  induction hreads generalizing st' r st with
  | nil r' =>
    simp only [runBlocks, Except.ok.injEq] at hrun
    subst hrun
    obtain ⟨p1, p2⟩ := hP r r' hr
    rcases k : ReadOperation.readOperation (Seal := S) r with ⟨_ | _ | b, r₂⟩
    · exact ⟨_, loopFrom_fail k⟩
    · exact ⟨_, loopFrom_eof k⟩
    · rw [k] at p1
      cases he with
      | eof k' => rw [k'] at p1; simp [Except.map, Except.mapError] at p1
      | fail k' => rw [k'] at p1; simp [Except.map, Except.mapError] at p1
      | reject k' ke =>
        rw [k'] at p1
        simp only [Except.map, Except.mapError, Option.map_some, Except.ok.injEq, Option.some.injEq] at p1
        subst p1
        have q1 := (pureStep_translate T hQ h.contract f cid xid st.g st.seals b).1
        rw [← h.g, ← h.seals, ke] at q1
        cases hs : (pureStep (E := ReadOperation.Error S R) cid xid st.g st.seals b st.contract).res with
        | error e => exact ⟨_, loopFrom_err k hs⟩
        | ok sl => rw [h.g, hs] at q1; simp [Except.map, Except.mapError] at q1
  | @cons r' r₂' r₁' b' bs' k' _ ih =>
    obtain ⟨p1, p2⟩ := hP r r' hr
    rw [k'] at p1 p2
    rcases k : ReadOperation.readOperation (Seal := S) r with ⟨_ | _ | b, r₂⟩
    · exact ⟨_, loopFrom_fail k⟩
    · exact ⟨_, loopFrom_eof k⟩
    · rw [k] at p1 p2
      simp only [Except.map, Except.mapError, Option.map_some, Except.ok.injEq, Option.some.injEq] at p1
      subst p1
      simp only [runBlocks] at hrun
      split at hrun
      · simp at hrun
      rename_i sl' hsl'
      have q1 := (pureStep_translate T hQ h.contract f cid xid st.g st.seals b).1
      rw [← h.seals] at q1
      cases hs : (pureStep (E := ReadOperation.Error S R) cid xid st.g st.seals b st.contract).res with
      | error e => exact ⟨_, loopFrom_err k hs⟩
      | ok sl =>
        rw [hs, ← h.g, hsl'] at q1
        simp only [Except.map, Except.mapError, Except.ok.injEq] at q1
        subst q1
        rw [loopFrom_ok k hs]
        exact ih hrun he (state_next T hQ h cid xid b sl f) p2

/-- Translating the protocol commutes with evaluation: from related contracts and readers, the outcome with
the second protocol is the translation of the outcome with the first, and one evaluation terminates exactly
if the other does. -/
theorem C89_parametricity (hQ : T.Contracts Q) (hP : T.Readers f P) {c : C} {c' : C'} (h : Q c c') {r : R} {r' : R'} (hr : P r r') :
    Option.Rel (Translated T f P Q) (evaluate c r) (evaluate c' r') := by
  rw [evaluate_eq_loop, evaluate_eq_loop, ← hQ.contractId _ _ h, ← hQ.codexId _ _ h]
  have h0 : StateTranslated T Q (initState c) (initState c') := ⟨rfl, rfl, h, rfl⟩
  cases k : loopFrom (Seal := S) (ContractApi.contractId S c) (ContractApi.codex S c).codexId r (initState c) with
  | some o =>
    obtain ⟨blocks, r₁, st, h1, h2, h3⟩ := loop_ends k
    obtain ⟨o', k', ho⟩ := loop_translate T hQ hP h1 h2 h3 h0 hr
    rw [k']
    exact .some ho
  | none =>
    cases k' : loopFrom (Seal := S') (ContractApi.contractId S c) (ContractApi.codex S c).codexId r' (initState c') with
    | none => exact .none
    | some o' =>
      obtain ⟨blocks', r₁', st', h1, h2, h3⟩ := loop_ends k'
      obtain ⟨o, ho⟩ := loop_translate_back T hQ hP h1 h2 h3 h0 hr
      rw [k] at ho
      simp at ho

theorem listReaders (T : Translation S S') :
    T.Readers id fun (r : TestReader S) (r' : TestReader S') => r'.items = r.items.map T.block := by
  rintro ⟨xs⟩ ⟨ys⟩ h
  change ys = xs.map T.block at h
  subst h
  cases xs with
  | nil => exact ⟨rfl, rfl⟩
  | cons b xs => exact ⟨rfl, rfl⟩

/-- A consignment is accepted exactly if its translation is. -/
theorem C89_accepted_iff (hQ : T.Contracts Q) {c : C} {c' : C'} (h : Q c c') {xs : List (OperationSeals S)} {r : R} {r' : R'}
    (hr : Delivers r xs) (hr' : Delivers r' (xs.map T.block)) :
    (∃ o, Accepted c r xs o) ↔ ∃ o', Accepted c' r' (xs.map T.block) o' := by
  have key := C89_parametricity T hQ (listReaders T) h (r := TestReader.mk xs) (r' := TestReader.mk (xs.map T.block)) rfl
  constructor
  · rintro ⟨o, ho⟩
    obtain ⟨o₁, k1, k2, _⟩ := evaluate_of_delivers (testReader_delivers xs) ho.valid
    rw [k1] at key
    cases hk : evaluate (Seal := S') c' (TestReader.mk (xs.map T.block)) with
    | none => rw [hk] at key; cases key
    | some o₁' =>
      rw [hk] at key
      cases key with
      | some kt =>
        have hok : o₁'.result = .ok () := by rw [kt.result, k2]; rfl
        have hv := (Accepted.mk hk hok (testReader_delivers _)).valid
        obtain ⟨o', k1', k2', _⟩ := evaluate_of_delivers hr' hv
        exact ⟨o', k1', k2', hr'⟩
  · rintro ⟨o', ho'⟩
    obtain ⟨o₁', k1, k2, _⟩ := evaluate_of_delivers (testReader_delivers (xs.map T.block)) ho'.valid
    rw [k1] at key
    cases hk : evaluate (Seal := S) c (TestReader.mk xs) with
    | none => rw [hk] at key; cases key
    | some o₁ =>
      rw [hk] at key
      cases key with
      | some kt =>
        have hok : o₁.result = .ok () := by
          have := kt.result
          rw [k2] at this
          cases hres : o₁.result with
          | ok u => rfl
          | error e => rw [hres] at this; simp [Except.mapError] at this
        have hv := (Accepted.mk hk hok (testReader_delivers _)).valid
        obtain ⟨o, k1', k2', _⟩ := evaluate_of_delivers hr hv
        exact ⟨o, k1', k2', hr⟩

end

/-! ### the order of the seals -/

/-- A choice of an order of `S`. -/
structure OrderOf (S : Type) where
  order : LinearOrder S

/-- The seals `S`, ordered by `l`. -/
def Reordered (S : Type) (_l : OrderOf S) : Type := S

instance (S : Type) (l : OrderOf S) : LinearOrder (Reordered S l) := l.order

section
variable {S : Type} [LinearOrder S] [RgbSeal S] (l : OrderOf S)

/-- The same protocol, with seals ordered differently. -/
instance : RgbSeal (Reordered S l) where
  Definition := RgbSeal.Definition S
  Published := RgbSeal.Published S
  Client := RgbSeal.Client S
  WitnessId := RgbSeal.WitnessId S
  Message := RgbSeal.Message S
  SealError := RgbSeal.SealError S
  authToken := RgbSeal.authToken (Seal := S)
  resolve := RgbSeal.resolve (Seal := S)
  toSrc := RgbSeal.toSrc (Seal := S)
  display := RgbSeal.display (Seal := S)
  messageOfBytes := RgbSeal.messageOfBytes (Seal := S)
  pubId := RgbSeal.pubId (Seal := S)
  verifySealsClosing := RgbSeal.verifySealsClosing (Seal := S)

/-- The translation to the other order changes nothing. -/
def Spec.Translation.reorder : Translation S (Reordered S l) where
  toSeal s := s
  definition d := d
  published p := p
  client c := c
  witnessId w := w
  message m := m
  sealError e := e
  authToken _ := rfl
  resolve _ _ := rfl
  toSrc d := (Option.map_id' (x := RgbSeal.toSrc (Seal := S) d)).symm
  display _ := rfl
  messageOfBytes _ := rfl
  pubId _ := rfl
  verify p c ls m := by
    have : ls.map (fun s : S => s) = ls := List.map_id' ls
    change RgbSeal.verifySealsClosing (Seal := S) p c (ls.map fun s : S => s) m = _
    rw [this]
    cases RgbSeal.verifySealsClosing (Seal := S) p c ls m <;> rfl

/-- The same contract, for seals ordered differently. -/
instance {C : Type} [ContractApi S C] : ContractApi (Reordered S l) C where
  contractId := ContractApi.contractId S
  codex := ContractApi.codex S
  repo := ContractApi.repo S
  memory := ContractApi.memory S
  isKnown := ContractApi.isKnown S
  applyOperation := ContractApi.applyOperation S
  applySeals c o s :=
    let s : OMap U16 (RgbSeal.Definition S) := s
    ContractApi.applySeals c o s
  applyWitness c o w :=
    let p : RgbSeal.Published S := w.published
    let cl : RgbSeal.Client S := w.client
    let w : SealWitness S := ⟨p, cl⟩
    ContractApi.applyWitness c o w

theorem reorder_contracts {C : Type} [ContractApi S C] :
    (Translation.reorder (S := S) l).Contracts (fun c c' : C => c = c') := by
  constructor
  all_goals rintro c _ rfl
  · rfl
  · rfl
  · intro o; rfl
  · intro cid op; rfl
  · intro v; rfl
  · intro o w; rfl
  · intro o s
    have : OMap.mapValues (fun d : RgbSeal.Definition S => d) s = s := OMap.ext (by simp [OMap.mapValues])
    exact (congrArg (ContractApi.applySeals (Seal := S) c o) this).symm

/-- The order of the seals does not matter: evaluation with another order gives the same calls, the same
contract and the same result, with any two readers reading the same. -/
theorem C89_order [OpHash] {C : Type} [ContractApi S C] (c : C) {R R' : Type} [ReadOperation S R] [ReadOperation (Reordered S l) R']
    {f : ReadOperation.Error S R → ReadOperation.Error (Reordered S l) R'} {P : R → R' → Prop}
    (hP : (Translation.reorder l).Readers f P) {r : R} {r' : R'} (hr : P r r') :
    Option.Rel (Translated (Translation.reorder l) f P fun c c' : C => c = c')
      (evaluate (Seal := S) c r) (evaluate (Seal := Reordered S l) c r') :=
  C89_parametricity _ (reorder_contracts l) hP rfl hr

end

namespace Demo
/-- Toy seals with a memo, of which the protocol takes no notice. -/
abbrev Memo := Nat ×ₗ Nat

scoped instance : RgbSeal Memo where
  Definition := Def × Nat
  Published := Nat
  Client := List Nat × Bytes32
  WitnessId := Nat
  Message := Bytes32
  SealError := String
  authToken d := RgbSeal.authToken (Seal := Nat) d.1
  resolve d w := toLex (RgbSeal.resolve (Seal := Nat) d.1 w, d.2)
  toSrc d := (RgbSeal.toSrc (Seal := Nat) d.1).map fun s => toLex (s, d.2)
  display d := RgbSeal.display (Seal := Nat) d.1
  messageOfBytes b := b
  pubId p := p
  verifySealsClosing p cli seals msg := RgbSeal.verifySealsClosing (Seal := Nat) p cli (seals.map fun s => (ofLex s).1) msg

/-- Forgetting the memos. -/
def forget : Translation Memo Nat where
  toSeal s := (ofLex s).1
  definition d := d.1
  published p := p
  client c := c
  witnessId w := w
  message m := m
  sealError e := e
  authToken _ := rfl
  resolve _ _ := rfl
  toSrc d := by
    change RgbSeal.toSrc (Seal := Nat) d.1 = ((RgbSeal.toSrc (Seal := Nat) d.1).map fun s => toLex (s, d.2)).map _
    cases RgbSeal.toSrc (Seal := Nat) d.1 <;> rfl
  display _ := rfl
  messageOfBytes _ := rfl
  pubId _ := rfl
  verify p c l m := by
    change RgbSeal.verifySealsClosing (Seal := Nat) p c (l.map fun s => (ofLex s).1) m = Except.mapError _
      (RgbSeal.verifySealsClosing (Seal := Nat) p c (l.map fun s => (ofLex s).1) m)
    cases RgbSeal.verifySealsClosing (Seal := Nat) p c (l.map fun s => (ofLex s).1) m <;> rfl

scoped instance : ContractApi Memo Thin where
  contractId := ContractApi.contractId Nat
  codex := ContractApi.codex Nat
  repo := ContractApi.repo Nat
  memory := ContractApi.memory Nat
  isKnown := ContractApi.isKnown Nat
  applyOperation := ContractApi.applyOperation Nat
  applySeals l _ _ := l
  applyWitness l _ _ := l

theorem forget_contracts : forget.Contracts fun t t' : Thin => t = t' := by
  constructor
  all_goals rintro c _ rfl
  all_goals intros
  all_goals rfl

/-- The story, with different memos. -/
def memoStory : List (OperationSeals Memo) := story.zipIdx.map fun e =>
  ⟨e.1.operation, e.1.definedSeals.mapValues fun d => (d, e.2), e.1.witness.map fun w =>
    let p : RgbSeal.Published Nat := w.published
    let c : RgbSeal.Client Nat := w.client
    ⟨p, c⟩⟩

/-- A thin contract knowing genesis. -/
def thin : Thin := ⟨fun o => o == ⟨100⟩⟩

theorem memoStory_forget : memoStory.map forget.block = story := rfl

theorem thin_story : ∃ o, Accepted thin (TestReader.mk story) story o := by
  have hv : ValidConsignment thin story := valid_of_runBlocks (by decide +kernel)
  obtain ⟨o, h1, h2, _⟩ := evaluate_of_delivers (testReader_delivers story) hv
  exact ⟨o, h1, h2, testReader_delivers story⟩

/-- The order of the toy seals, upside down. -/
def downwards : OrderOf Nat := ⟨inferInstanceAs (LinearOrder Natᵒᵈ)⟩
end Demo

open Demo in
/-- The story is accepted with memos too, since it is accepted without. -/
example : ∃ o, Accepted thin (TestReader.mk memoStory) memoStory o :=
  (C89_accepted_iff forget forget_contracts (c := thin) (c' := thin) rfl (testReader_delivers memoStory)
    (r' := TestReader.mk story) (by rw [memoStory_forget]; exact testReader_delivers story)).2 (by rw [memoStory_forget]; exact thin_story)

open Demo in
/-- The translation is not injective. -/
example : forget.toSeal (toLex (1, 0)) = forget.toSeal (toLex (1, 7)) ∧ (toLex (1, 0) : Memo) ≠ toLex (1, 7) :=
  ⟨rfl, by decide⟩

open Demo in
/-- The toy seals in the opposite order: the readers of the story are related, and the orders differ. -/
example : (Translation.reorder downwards).Readers id
      (fun (r : TestReader Nat) (r' : TestReader (Reordered Nat downwards)) => r'.items = r.items.map (Translation.reorder downwards).block) ∧
    (∃ o, evaluate (Seal := Nat) thin (TestReader.mk story) = some o) ∧
    (∃ s t : Nat, s < t ∧ (Translation.reorder downwards).toSeal t < (Translation.reorder downwards).toSeal s) := by
  obtain ⟨o, h⟩ := thin_story
  exact ⟨listReaders _, ⟨o, h.run⟩, 1, 5, by decide, show (1 : Nat) < 5 by decide⟩

end Rgb
