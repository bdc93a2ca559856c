import Verif.Lemmas.Outcome

/-!
# A concrete world for the examples

A toy seal protocol, a toy operation hash, a codex, a contract and a reader, used only to exhibit
concrete cases next to the theorems (that their hypotheses can be met) and as counterexamples to
properties that do not hold.  No theorem about `evaluate` depends on anything here.
-/

namespace Rgb.Demo
open Spec

/-- Toy operation hash: the nonce, or a third of it for operations of foreign contracts, so that putting
the contract id in place of the codex id matters. -/
scoped instance : OpHash where
  opid op := ⟨Fin.ofNat _ (if op.contractId = ⟨9⟩ then op.nonce else op.nonce / 3)⟩

/-- Toy seal definitions: absolute or relative to a witness. -/
inductive Def where
  | abs (n : Nat)
  | rel (n : Nat)
  deriving DecidableEq

/-- Toy seals are numbers; a witness accepts exactly the list of seals and the message it names.
Resolving an absolute definition gives a different seal than taking it as it is, so that confusing the
two matters. -/
scoped instance : RgbSeal Nat where
  Definition := Def
  Published := Nat
  Client := List Nat × Bytes32
  WitnessId := Nat
  Message := Bytes32
  SealError := String
  authToken
    | .abs n => ⟨Fin.ofNat _ (2 * n)⟩
    | .rel n => ⟨Fin.ofNat _ (2 * n + 1)⟩
  resolve
    | .abs n, w => 1000000 * w + n
    | .rel n, w => 1000 * w + n
  toSrc
    | .abs n => some n
    | .rel _ => none
  display
    | .abs _ => "abs"
    | .rel _ => "rel"
  messageOfBytes b := b
  pubId p := p
  verifySealsClosing _ cli seals msg := if cli = (seals, msg) then .ok () else .error "not closed"

/-- A bundle of the toy protocol. -/
abbrev Block := OperationSeals Nat

/-- Addresses of the outputs of an operation. -/
def outputs (id : Opid) (n : Nat) : List StateCell → List (CellAddr × StateCell)
  | [] => []
  | cell :: rest => (⟨id, Fin.ofNat _ n⟩, cell) :: outputs id (n + 1) rest

/-- A ledger keeping the known operation ids and the unspent cells. -/
structure Ledger where
  contractId : ContractId
  codex : Codex
  known : List Opid
  cells : List (CellAddr × StateCell)
  sealLog : List (Opid × OMap U16 Def)
  witnessLog : List (Opid × SealWitness Nat)

/-- Lookup of a cell. -/
def Ledger.find (l : Ledger) (a : CellAddr) : Option StateCell := (l.cells.find? (·.1 == a)).map (·.2)

scoped instance : ContractApi Nat Ledger where
  contractId l := l.contractId
  codex l := l.codex
  repo _ := ⟨fun _ => none⟩
  memory l := ⟨l.find, fun _ => none⟩
  isKnown l o := l.known.contains o
  applyOperation l v := { l with
    known := v.opid :: l.known
    cells := (l.cells ++ outputs v.opid 0 v.operation.destructibleOut).filter fun e =>
      !(v.operation.destructibleIn.map (·.addr)).contains e.1 }
  applySeals l o s := { l with sealLog := l.sealLog ++ [(o, s)] }
  applyWitness l o w := { l with witnessLog := l.witnessLog ++ [(o, w)] }

/-- A codex that rejects foreign operations and operations spending absent cells, and, as its only
script, operations with call id 13. -/
def codex : Codex where
  codexId := ⟨7⟩
  verify cid op mem _ :=
    if op.contractId ≠ cid then .error ⟨"foreign operation"⟩
    else if op.destructibleIn.any (fun i => (mem.destructible i.addr).isNone) then .error ⟨"absent input"⟩
    else if op.callId = 13 then .error ⟨"script failure"⟩
    else .ok ⟨opid op, op⟩

/-- A reader over a list of bundles, ending or failing (cf. `TestReader`, verify.rs:330-340). -/
structure Tape where
  items : List Block
  failure : Option String := none

scoped instance : ReadOperation Nat Tape where
  Error := String
  readOperation t := match t.items, t.failure with
    | b :: rest, _ => (.ok (some b), { t with items := rest })
    | [], none => (.ok none, t)
    | [], some e => (.error e, t)

theorem tape_reads (bs : List Block) (rest : List Block) (f : Option String) :
    Reads (Seal := Nat) (Tape.mk (bs ++ rest) f) bs (Tape.mk rest f) := by
  induction bs with
  | nil => exact .nil _
  | cons b bs ih => exact .cons rfl ih

theorem tape_delivers (bs : List Block) : Delivers (Seal := Nat) (Tape.mk bs none) bs :=
  ⟨Tape.mk [] none, Tape.mk [] none, by simpa using tape_reads bs [] none, rfl⟩

theorem tape_fails (bs : List Block) (e : String) : FailsAfter (Seal := Nat) (Tape.mk bs (some e)) bs e :=
  ⟨Tape.mk [] (some e), Tape.mk [] (some e), by simpa using tape_reads bs [] (some e), rfl⟩

theorem tape_startsWith (bs rest : List Block) (f : Option String) :
    StartsWith (Seal := Nat) (Tape.mk (bs ++ rest) f) bs := ⟨_, tape_reads bs rest f⟩

/-- Does the ledger accept this list of bundles? -/
def accepts (c : Ledger) (bs : List Block) : Bool :=
  match runBlocks (E := String) (ContractApi.contractId Nat c) (ContractApi.codex Nat c).codexId bs (initState c) with
  | .ok _ => true
  | .error _ => false

theorem valid_of_accepts {c : Ledger} {bs : List Block} (h : accepts c bs = true) : ValidConsignment c bs := by
  unfold accepts at h
  split at h
  · rename_i st hst
    rw [← List.take_length (l := bs)] at hst
    intro i b hb
    exact (inv_run (Nat.le_refl _) hst).2 i b (lt_length_of_getElem? hb) hb
  · simp at h

theorem accepts_of_valid {c : Ledger} {bs : List Block} (h : ValidConsignment c bs) : accepts c bs = true := by
  obtain ⟨st, h1, _⟩ := run_of_validConsignment (E := String) h
  unfold accepts
  rw [h1]

theorem evaluate_of_accepts {c : Ledger} {bs : List Block} (h : accepts c bs = true) :
    ∃ o, evaluate (Seal := Nat) c (Tape.mk bs none) = some o ∧ o.result = .ok () := by
  obtain ⟨o, h1, h2, _⟩ := evaluate_of_delivers (tape_delivers bs) (valid_of_accepts h)
  exact ⟨o, h1, h2⟩

theorem accepted_of_accepts {c : Ledger} {bs : List Block} (h : accepts c bs = true) :
    ∃ o, Accepted c (Tape.mk bs none) bs o := by
  obtain ⟨o, h1, h2⟩ := evaluate_of_accepts h
  exact ⟨o, h1, h2, tape_delivers bs⟩

/-- The error for bundle `b` after the accepted bundles `bs`, if any. -/
def rejects (c : Ledger) (bs : List Block) (b : Block) : Option (VerificationError Nat String) :=
  match runBlocks (E := String) (ContractApi.contractId Nat c) (ContractApi.codex Nat c).codexId bs (initState c) with
  | .error _ => none
  | .ok st => match (pureStep (E := String) (ContractApi.contractId Nat c) (ContractApi.codex Nat c).codexId st.g st.seals
      b st.contract).res with
    | .error e => some e
    | .ok _ => none

theorem rejection_of {c : Ledger} {bs : List Block} {b : Block} {e : VerificationError Nat String}
    (h : rejects c bs b = some e) : ValidConsignment c bs ∧ ∃ l, Rejection c bs b e l := by
  unfold rejects at h
  split at h
  · simp at h
  rename_i st hst
  rw [← List.take_length (l := bs)] at hst
  obtain ⟨hi, hv⟩ := inv_run (Nat.le_refl _) hst
  split at h
  · rename_i e' he
    simp only [Option.some.injEq] at h
    subst h
    exact ⟨fun i b hb => hv i b (lt_length_of_getElem? hb) hb, _, hi.reject he⟩
  · simp at h

theorem rejected_of {c : Ledger} {bs : List Block} {b : Block} {e : VerificationError Nat String}
    (h : rejects c bs b = some e) (rest : List Block) (f : Option String) :
    ∃ o, evaluate (Seal := Nat) c (Tape.mk (bs ++ [b] ++ rest) f) = some o ∧ o.result = .error e := by
  obtain ⟨hv, l, hr⟩ := rejection_of h
  obtain ⟨o, h1, h2, _⟩ := evaluate_of_rejection (tape_startsWith (bs ++ [b]) rest f) hv hr
  exact ⟨o, h1, h2⟩

/-! ### a small history -/

/-- An output cell committing to a seal definition. -/
def cell (d : Def) : StateCell := ⟨.none, RgbSeal.authToken (Seal := Nat) d, none⟩

/-- An operation of the demo contract. -/
def op (nonce : Nat) (ins : List CellAddr) (outs : List Def) : Operation where
  version := 0
  contractId := ⟨9⟩
  callId := 0
  nonce := nonce
  witness := .none
  destructibleIn := ins.map fun a => ⟨a, .none⟩
  immutableIn := []
  destructibleOut := outs.map cell
  immutableOut := []

/-- The address of output `n` of operation `id`. -/
def at_ (id n : Nat) : CellAddr := ⟨⟨Fin.ofNat _ id⟩, Fin.ofNat _ n⟩

/-- Genesis as it appears in a consignment: it carries the codex id. -/
def genesisOp : Operation := { op 100 [] [.abs 1, .abs 5, .rel 2] with contractId := ⟨7⟩ }

/-- Genesis revealing all its seals. -/
def genesis : Block := ⟨genesisOp, .collect [(0, .abs 1), (1, .abs 5), (2, .rel 2)], none⟩

/-- A witness with id `id` closing `seals` over the message `msg`. -/
def wit (id : Nat) (seals : List Nat) (msg : Bytes32) : SealWitness Nat :=
  ⟨(id : Nat), ((seals, msg) : List Nat × Bytes32)⟩

/-- A transfer of genesis output 0 to a witness-relative seal. -/
def transfer1 : Block := ⟨op 101 [at_ 100 0] [.rel 3], .collect [(0, .rel 3)], some (wit 50 [1] 101)⟩

/-- A transfer of the output of `transfer1`, and of genesis output 1. -/
def transfer2 : Block := ⟨op 102 [at_ 101 0, at_ 100 1] [.abs 8], .collect [(0, .abs 8)], some (wit 51 [50003, 5] 102)⟩

/-- Another transfer of genesis output 0, to someone else. -/
def doubleSpend : Block := ⟨op 109 [at_ 100 0] [.abs 9], .collect [(0, .abs 9)], some (wit 59 [1] 109)⟩

/-- The contract when only genesis is known. -/
def ledger : Ledger where
  contractId := ⟨9⟩
  codex := codex
  known := [⟨100⟩]
  cells := outputs ⟨100⟩ 0 genesisOp.destructibleOut
  sealLog := []
  witnessLog := []

/-- The consignment with both transfers. -/
def story : List Block := [genesis, transfer1, transfer2]

theorem story_accepted : accepts ledger story = true := by decide +kernel

theorem story_valid : ValidConsignment ledger story := valid_of_accepts story_accepted

/-- The calls of an accepted demo consignment contain every callback due. -/
theorem mem_calls {c : Ledger} {bs : List Block} {o} (h : Accepted c (Tape.mk bs none) bs o) {l₁ l₂ : List (Call Nat)}
    {x : Call Nat} (hx : callbacksUpTo c.contractId c bs bs.length = l₁ ++ x :: l₂) :
    ∃ pre post, o.world.calls = pre ++ x :: post := by
  have hf := h.shape.callbacks
  have : x ∈ o.world.calls.filter IsCallback := by
    rw [hf]
    change x ∈ callbacksUpTo c.contractId c bs bs.length
    rw [hx]; simp
  exact List.append_of_mem (List.mem_filter.1 this).1

/-- The demo ledger after the story: it knows all its operations. -/
def late : Ledger := { ledger with known := [⟨100⟩, ⟨101⟩, ⟨102⟩] }

/-- The calls made for a list of accepted bundles, computed. -/
def callsOf (c : Ledger) (bs : List Block) : List (Call Nat) :=
  match runBlocks (E := String) (ContractApi.contractId Nat c) (ContractApi.codex Nat c).codexId bs (initState c) with
  | .ok st => st.calls ++ [.read]
  | .error _ => []

theorem calls_of {c : Ledger} {bs : List Block} {o} (h : Accepted c (Tape.mk bs none) bs o) :
    o.world.calls = callsOf c bs := by
  have ha := accepts_of_valid h.valid
  unfold accepts at ha
  split at ha
  · rename_i st hst
    have hst' := hst
    rw [← List.take_length (l := bs)] at hst'
    obtain ⟨segs, h1, h2, h3⟩ := (inv_run (Nat.le_refl _) hst').1.trace
    obtain ⟨segs', h4, h5⟩ := h.trace
    have : segs = segs' := Segments.unique ⟨h1, fun k b l hb hl => h3 k b l (lt_length_of_getElem? hb) hb hl⟩ h4
    rw [h5, callsOf, hst, ← this]
    simp only [h2]
  · simp at ha

/-- The story is accepted. -/
theorem story_run : ∃ o, Accepted ledger (Tape.mk story none) story o := accepted_of_accepts story_accepted

end Rgb.Demo
