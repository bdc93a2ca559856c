# Formal model of rgb-core: design

## What the code is

`/repo/src` is 968 lines, about 650 of them licence text, documentation and tests. The logic is

* `verify.rs:148-259` `ContractVerify::evaluate`: one loop that reads a consignment block by block,
  keeps a registry of open single-use seals, checks each block and calls back into the contract;
* `verify.rs:43-138`: the data (`OperationSeals` with its derived strict encoding and serde
  representation) and the traits (`ReadOperation`, `ContractApi`);
* `verify.rs:263-312`: the error type, its `Display` text and its `Debug`;
* `seals.rs:82-129`: bitcoin seal definitions (`auth_token`, `resolve`, `to_src`);
* `verify.rs:330-383` and the tests after it: the contract implementation of the crate's own tests and
  the unit tests themselves.

All of it is modelled. Everything else the code touches lives in other crates and is a parameter.

## Model

| module | models |
|---|---|
| `Collections.lean` | `BTreeMap`, `BTreeSet`, `SmallOrdMap` as strictly sorted lists |
| `Types.lean` | data types of `ultrasonic` that `evaluate` reads; `Memory`, `LibRepo`, `Codex` as records of functions |
| `Model.lean` | the traits `RgbSeal`/`RgbSealDef`, `ReadOperation`, `ContractApi`; `OperationSeals`; `VerificationError`; `evaluate` statement by statement in an error/state monad that also records every call made to the outside |
| `Environment.lean` | `evaluate` once more, in an environment that is one arbitrary state machine (interior mutability, shared state) |
| `Bitcoin.lean` | the bitcoin instance of the seal traits |
| `TestContract.lean` | the contract implementation of the test module |
| `UnitTests.lean` | the fixtures and the `run` helper of the test module |
| `Encoding.lean` | the derived strict encoding of `OperationSeals` over arbitrary component codecs; files of bundles and their reader |
| `Serde.lean` | the derived serde representation of `OperationSeals` over arbitrary component representations |
| `ErrorText.lean` | `Display` and `Debug` of `VerificationError` |

Specification (no registry, no helper of the model):

| module | contents |
|---|---|
| `Spec.lean` | announcements, consumption, open seals and block validity by position in the stream; the calls a block must cause; what may be rejected and how |
| `Laws.lean` | hypotheses about environments: lawful contracts, faithful codices, histories, single-use seal protocols, collisions, simulations |
| `Demo.lean` | a toy world (hash, seals, contract, reader) in which the examples beside the theorems live |

Proofs:

| module | contents |
|---|---|
| `Lemmas/Step`, `Run`, `Loop` | one block, lists of blocks, the loop; the bridge from the monad to `runBlocks` |
| `Lemmas/Main`, `Trace`, `Outcome`, `Laws` | registry = open seals of the prefix; shape of traces; outcomes; consequences of the laws |
| `Props/Blocks`, `Effects`, `Runs`, `Seals` | C01-C32 (C07 also in `Merging`) |
| `Props/History`, `Streams`, `Owners` | C33-C43, C50, C52, C54 |
| `Props/Bitcoin`, `Encoding`, `TestContract`, `UnitTests` | C44-C49, C51, C53, C55-C58 |
| `Props/Continuation`, `Bounds` | C59-C63 |
| `Props/Conflicts`, `Phantom`, `Data`, `Serde`, `Merging`, `ErrorText` | C64-C70 |
| `Props/Evidence`, `Supply` | C71, C72 |
| `Lemmas/Environment`, `Props/Environment` | C73 |
| `Props/Isolation`, `Recovery`, `Excerpts`, `Convergence`, `Reanchoring`, `Separation`, `Auditors`, `Guards`, `Agreement`, `Files`, `Disclosure`, `Authenticity`, `Receipt`, `Relabelling`, `RunHelper`, `Protocols`, `Sharing`, `Backup`, `Gossip`, `Retrying`, `Withdrawal`, `Reports`, `Repetitions`, `Unspent`, `Demonstration`, `Payments`, `Network` | C74, C75, C76, C77, C78, C79, C80, C81, C82, C83, C84, C85, C86, C87, C88, C89, C90, C91, C92, C93, C94, C95, C96, C97, C98, C99, C100 |

`MANIFEST.json` has the exact theorem names. Beside each theorem (or group of theorems with the same
hypotheses) stands an `example` that meets the hypotheses non-trivially.

Modelling decisions

* `&mut self` becomes a returned contract. `evaluate` keeps the contract even when it returns `Err`,
  so an outcome is a triple (result, contract and call trace, reader).
* The `while let` loop may run for ever on an endless reader. It is defined with
  `partial_fixpoint` into `Option`; `none` means "does not terminate".
* Readers are arbitrary state machines `read : R → Except Error (Option Block) × R`.
* The call trace records reads, all `ContractApi` calls (queries and mutations), every
  `Codex::verify` request and every `verify_seals_closing` request, in program order.
* Panics: none of the modelled statements can panic; an evaluation ended by a panic in the reader or in a
  contract method is covered by C75 as an interruption between two calls.
* Numbers not inspected by `/repo/src` are unbounded and `SmallVec`/`SmallOrdMap` have no length limit
  in `evaluate`; this only enlarges the set of inputs. The limit does matter in the strict encoding and
  is present there.

## Trusted base

* Lean 4.33.0's kernel. Mathlib is used for order instances, list and number lemmas only.
* Axioms. No axioms of our own, no `sorry`, no `native_decide`, no `bv_decide`. Of the theorems in
  `MANIFEST.json`
  * `C43_same_creator`, `C44_relative`, `C44_self_contained`, `C46_other_witness`, `C49_clone` depend on
    `propext` only;
  * `C45_relative_iff`, `C45_resolved`, `C46_resolve_eq_iff`, `C47_bytes`, `C47_no_reduction`,
    `C47_token_eq_iff`, `C67_accepted_maps`, `C67_accepted_sequences`, `C67_round_trip` on `propext` and
    `Quot.sound`;
  * all others on `propext`, `Classical.choice` and `Quot.sound`.
* The reading of `/repo` recorded in the comments of the model (file and lines on every definition).
* Parameters (code in other crates), quantified over, not assumed to have any behaviour except by
  explicit hypothesis of the theorem that needs it:
  `Operation::opid` (hash), `Codex::codex_id`, `Codex::verify` (AluVM execution),
  `SealWitness::verify_seals_closing`, `PublishedWitness::pub_id`, `commit_id` of seal definitions,
  `Display` of ids, seal definitions and inner errors, the codecs of component types, every
  `ContractApi` and `ReadOperation` implementation.
* The derive macros are modelled as documented by their crates: field-by-field strict encoding, serde
  maps and sequences, and `display(doc_comments)` as observed in the expected messages of the tests.
* Interior mutability and state shared between reader and contract are modelled in `Environment.lean` and
  C73 only. The other theorems are about contracts whose queries (`&self`) do not change anything and
  readers whose results do not depend on the contract; C73_pure shows that both models agree on them.
* Not modelled: type-system registration (`StrictType`, `StrictDumb`), memory exhaustion, the features
  of `lib.rs` (attributes and re-exports).

## Method per property

Legend: **I** induction over the stream or history, **A** algebraic, **R** refinement, **X** refuted by a
concrete witness (plus the part that holds).

| id | modelled by | proof |
|---|---|---|
| C01 | `evaluate`, reader at end | unfold one iteration |
| C02 | `evaluate` first block | unfold one iteration; any continuation |
| C03 | trace of `evaluate` | I over blocks: characterise each block's calls |
| C04 | `evaluate` first block | empty registry at start |
| C05 | block acceptance | I; subset test of `BTreeSet` |
| C06 | | X (permuted positions), partial = C05 for the same operation |
| C07, C08, C09, C10, C26, C27 | `Spec.OpenAt` | I: registry = open seals of the prefix; acyclicity by first occurrences; X for unconditional C10 |
| C11, C12, C13 | `verify_seals_closing` parameter | I |
| C14, C15, C16, C17, C18, C19 | call trace | I: trace = concatenation of per-block traces |
| C20, C21, C22, C23 | outcome of `evaluate` | I on prefixes: `evaluate` on a prefix and continuation |
| C24, C25 | arbitrary readers, `partial_fixpoint` | I; divergence by fixpoint induction |
| C28 | `Spec.ValidConsignment` | R, both directions |
| C29, C30 | error result | decision logic of one block lifted by I |
| C31, C32 | call trace | I |
| C33, C34, C35, C36 | lawful contracts as explicit hypotheses; histories as lists of runs | I over histories |
| C37 | | X, partial: unknown first operation is verified and never applied |
| C38 | known streams, permutations | via C28 |
| C39 | pruning | via C28 |
| C40 | any prior history | C07 |
| C41 | | X, partial under "no witness attached" |
| C42 | simulation relation between two contract types | I over iterations |
| C43 | injective `opid` | via C07 |
| C44-C47 | `Bitcoin.lean` | A, case analysis; base-256 digits |
| C48 | `Encoding.lean` | A: prefix-decodable codecs compose |
| C49 | clone | A |
| C50 | | X, and the exact acceptance condition |
| C51, C55 | `TestContract.lean` | R, I over histories |
| C52, C54 | ancestry; tokens of cells | I over the order of the stream; X for C54 |
| C53 | `Bitcoin.lean` | via C11 |
| C56, C57, C58 | `UnitTests.lean` | evaluation with arbitrary hash, codex and seal protocol; X for C56 |
| C59 | `Spec.Rejection`, all outcomes | R |
| C60, C61, C62, C63 | bounds, checkpoints, concatenation, order | I, via C59 |
| C64 | several contracts and histories | I over the positions of the announcing blocks; X for dropped hypotheses |
| C65 | existing cells | X, two partial results |
| C66 | data-blindness | simulation on inputs |
| C67 | `Serde.lean` | A |
| C68 | whole-consignment validity | via C28 |
| C69 | merges of consignments | C68 and C64; existence by removing repetitions |
| C70 | `ErrorText.lean` | A: self-delimiting codes |
| C71 | witnesses as evidence, bitcoin chain | via C64; X without publication |
| C72 | worth of the memory | I over histories, via C08 |
| C73 | `Environment.lean` | fixpoint induction; R to `evaluate` |
| C74 | invariants of the codex | I over histories and positions; X without the check |
| C75 | interruptions | prefixes of traces, via C33 and C61; X without known genesis |
| C76 | excerpts and rearrangements | memory of a cell = fold over the operations touching it; via C68; X for codices that look elsewhere |
| C77 | state depends only on the operations known | a spent cell stays spent (C34, C35), any other is touched by its creator alone; future via C42; X without known start |
| C78 | replacing witnesses | openness does not depend on witness ids; the first failing closing; X if seals of spent cells move |
| C79 | contract part and seal part of validity | validity is a conjunction; first failing script; rejections other than `vm` mention the contract only by its ids; X for scripts |
| C80 | without trust in the contract | rounds of C73 give the seal part of C79, which an all-accepting contract accepts; conflicts via C71; X if witnesses are not checked |
| C81 | guarded readers | what a guarded reader delivers; the conditional theorems C09, C41, C54, C65, C71 |
| C82 | two parties with different histories | I over prefixes: the cells an operation refers to have the same content in both histories (folds of C76), so the codex answers alike; rest by C79; no conflicts by C64; X for operations read |
| C83 | bundles read from bytes | I over bundles and over the layout: decoders read from the front, at least three bytes per bundle; a cut inside a bundle cannot be decoded; C59 for termination, C62 for resuming |
| C84 | what has to be revealed | C39 for sufficiency; I on the first block needing a definition left out; X for repeated operations |
| C85 | what an operation id authenticates | C64 for the seals, C52 for the ancestry; two runs compared call by call; X without single-use seals |
| C86 | what the recipient of a cell gets | C64 for the seal, the witness of the consuming block; C80 for arbitrary environments; X for misplaced definitions |
| C87 | positions of revealed seals | openness of consumed cells is unaffected; one definition inserted at any position, then C28 |
| C88 | the assertions of the tests' helper | R, via C51; sorted maps without their first entry |
| C89 | parametricity in the seal protocol; irrelevance of the order of seals | R; simulation of the loop, step by step, in both directions |
| C90 | cells sharing a seal | the witness closing the seal of a consumed cell, compared in two runs; C86 for cells announced only; C74 for contracts; X for seals closed before |
| C91 | a contract's record of calls | the calls of an accepted run determine ids, operations, witnesses and seals; streams read off are the merges of C69 with the witnesses kept; C82 for what a fresh contract accepts, C77 for the state; existence by the merging of C69 extended to reads |
| C92 | communities of parties | induction over handing on: every block going round is, up to witness and seals, a block of an issued consignment; C91 for what is handed on, C82 for its acceptance elsewhere, C77 for agreement |
| C93 | rejected consignments tried again | a rejection by the codex is invariant under applying new operations when the creators of the cells referred to are known: cells stay as they are or are spent; C79 for the other errors, C75 for trying again at once |
| C94 | withdrawn operations | the blocks not lost, in their order, are an excerpt in the sense of C76; what is lost is excluded from any accepted consignment by induction over the dependencies (C07 for inputs, `ChecksReads` and `Tidy` for reads); C77 for the state and C82 for the return |
| C95 | agreement of reports | every callback of a history comes from a block of a valid consignment; the definition is fixed by the operation and the position (`same_definition`), the witness of an operation with inputs by a seal it closes (`one_witness`, with C64's agreement on seals); the books are a fold over the reports |
| C96 | streams with repetitions | the condensed stream is a merge (C69) of the stream with itself; after `n` blocks of the stream the contract answers as after the blocks of the condensed one met so far, as repetitions are known when they are reached; the reports agree by `same_definition` and `same_witness` |
| C97 | histories, contracts with standard memory | a spent cell stays spent (`consumed_gone`); otherwise induction over the calls, the ids of applied operations being distinct and new; implementations in the same state are in the same state at every position of every stream, which is enough for the shape of the run (`Lockstep`); the registry and the memory are compared by C63 and the source of each applied operation; that a contract knows the creators it has to know is C35 |
| C98 | rejections of consignments without repetitions | the calls of a block are the same in an excerpt (C76), so after the evidence the contract gives the answers about the rejected block which it gives after the whole; a cell is open after the one exactly if after the other, by distinctness of ids and the position of its creator; then case by case over the errors; that evidence has all that is needed is by induction over why it is needed |
| C99 | accepted consignments without repetitions, any cells, any further operations | the further operations are judged one after another: up to each of them the payment with those before it is an excerpt of the whole with those before it and is evidence in the sense of C98, so a rejection is found by both with the same error, and an accepted operation extends the excerpt; a cell of the payment that is open at the end has no spender, so nothing has to be shown of it but its creator; existence as in C98, for the ids in the history; minimality by induction over the history; what joining adds are blocks the first payment does not have, in the order of the second, so creators stay in front |
| C100 | any number of owners, any sequence of acts and payments | invariant over the sequence: the list is valid, and every holding is an excerpt of it; an act valid after a holding spends nothing the list has spent, since the creator of the cell is the same block for both, so its seal is the same, and two witnesses closing it would have to close it over the same id; so by C99 the act is judged alike after the holding and after the list; payments are excerpts of excerpts, joined by C99; contents of open cells by C99; for bitcoin by the rules of C71 |

Nothing in the list is inexpressible.

## Findings about the code

Theorems marked X are statements one might expect, or that the documentation makes, and that the code
does not satisfy. Each has a kernel-checked counterexample. C81 shows that C06, C10, C37, C41, C54, C64
and C65 can be had without changing the code, by a reader that makes the missing checks (`careful` in
`Props/Guards.lean`).

* C06, C54, C64, C65: the position at which a seal definition is revealed is not compared with the
  position of the cell committing to it (verify.rs:173-186 compares sets of tokens). So a cell can be
  spent by closing the seal of another cell of the same operation (`C54_refuted`), two consignments can
  spend one cell differently (`C64_needs_positions`), and an output which does not exist can be "spent"
  (`C65_refuted`). This is not special to the counterexamples: in every accepted consignment, the seal of one
  output of an operation opens all its unspent outputs (`C87_takeover`).
* C64: an operation without inputs can be attached to any witness, so its witness-relative outputs are
  different seals in different consignments (`C64_needs_anchors`).
* C71: `evaluate` verifies that a witness closes the seals but not that it is published, so conflicting
  consignments can both be accepted until the witnesses are checked elsewhere
  (`C71_needs_publication`).
* C74: `evaluate` does not compare the contract id of operations with that of the contract; that is left to
  the codex (`C74_needs_codex`).
* C75: the contract has to know its genesis, as verify.rs:115 demands; `evaluate` does not check it
  (`C75_needs_genesis`).
* C76: the result depends on the order of independent operations if the codex looks at cells other than
  those of the operation (`C76_needs_local`).
* C77: the order of evaluations matters for the memory if the first operation of a stream need not be
  known and the codex does not check inputs (`C77_needs_genesis`).
* C82: the creators of spent cells have to be in the consignment, the creators of cells only read do not, so
  a consignment may be accepted by one party and rejected by another which lacks them
  (`C82_needs_reads`).
* C90: a seal may be defined for several cells, and even after it has been closed (`C90_unchecked`); a cell
  left behind when its seal is closed can never be spent (`C90_stranded`).
* C91: a stream read off the record in an order which only respects consumption may be rejected by a fresh
  contract, since reads must come after what they read (`C91_needs_reads`), while the contract itself accepts it.
* C95: as positions are not compared, contradictory definitions can be reported for an output of the same
  operation with the same witness (`C95_needs_positions`), and the tests' contract keeps the last one.
* C96: if the first operation of a stream is not known, it is not applied but its repetition is
  (`C96_needs_known_start`).
* C97: seals left open and cells left unspent can differ for a contract that knows an operation without
  the ones whose outputs it spends (`C97_needs_ancestors`).  If streams start with unknown operations, a cell
  can be spent first and created afterwards, and then stays (`C97_needs_genesis`).  The contract of the
  crate's tests keeps spent cells, so it is not among the contracts C97 is about (`C97_not_reference`).
* C98: without the operation that spent a cell, the remaining evidence is accepted (`C98_needs_spender`);
  without the creators of the cells referred to, the error is another (`C98_needs_creators`).
* C99: a cell that was spent in what the recipient does not see is spent again for them (`C99_needs_open`);
  without its creator they reject what the whole allows (`C99_needs_creators`).
* C100: with seals that can be closed twice two owners spend the same cell, and the list is rejected
  (`C100_needs_single_use`).
* C10: an operation repeated in a stream re-announces its seals, so the same cell may be closed again by
  the same or another operation of the stream (`C10_refuted`).
* C37: the first operation need not be the contract's genesis; it only has to carry the codex id and to
  pass the codex or be known (`C37_refuted`). It is verified but never applied.
* C41: a witness attached to genesis is verified against no seals and reported by `apply_witness`,
  contrary to the documentation of the trait (`C41_refuted`).
* C50: nothing stops operations without inputs other than genesis (`C50_refuted`), although the change log for 0.12.0
  says that state transitions are required to have at least one input.
* C55: the tests' contract never removes spent cells. C56: the assertions of the tests' `run` helper
  are not implied by acceptance (`C56_refuted`); C88 says exactly when they hold.
* C58: `genesis_with_wout` gets its expected error whatever definition genesis reveals, since its second
  operation refers to the id of the unchanged genesis; no stream of the spending tests can be accepted
  and satisfy the `run` helper, so there is no positive spending test. The message expected by
  `missing_commitment` (verify.rs:680-686) is about a seal not included in the witness, not about a
  commitment.
* The message of `SealsDefinitionMismatch` says that seals "do match" where "do not match" is meant
  (verify.rs:286; reproduced in `ErrorText.lean`).

## Testing the theorems

`seeded/LOG.jsonl` lists the bugs planted in scratch copies of the model, one per line: the edited
definition, the edit, the claims it breaks and the theorems that failed. A statement counts as failed
either because its proof no longer goes through (first failing proofs of a rebuild) or, stronger, because
`False` was derived from the bare statement over the edited model, so that no other proof could
rescue it.

Correction: until C96 the script running the derivations of `False` took a run of Lean that was killed for
lack of memory for a success. Refutations of C94 theorems for M12, M13, M25, M47, P04 and W08, and of
`C93_final` for M13, were logged on that ground without having been checked, and the one of `C93_final` was
wrong. They were removed from the log. The script now demands that Lean exits with status 0, and all 492
refutations in the log have been derived under it. The derivations for C94 were rewritten so that they need
less memory, the one of `C93_final` for M13 was replaced by a right one, and they are back in the log.

Of the theorems in the manifest, apart from those saying that a hypothesis is needed or that a partial
statement is false in full, these have not been refuted for any edit: `C42_parametricity` and
`C24_reader_extensional`, which hold of every program using the contract or the reader through their
interfaces only; theorems about notions of the specification and about readers alone (`C25_cases`,
`C29_unique`, `C43_same_creator`, `C81_careful`, `C81_committed`, `C81_genesis`, `C81_guard`, `C96_content`,
`C96_fixed`, `C98_minimal`, `C99_minimal`, `C99_joined`, `C100_held`, `C100_open`); examples (`C73_more`, `C90_unchecked`,
`C93_transient`, `C97_not_reference`); and `C94_gone` and `C97_histories`.
