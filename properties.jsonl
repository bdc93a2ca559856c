{"id": "C01", "title": "Empty consignment is a no-op", "statement": "If the reader reports end of stream on its first read, `evaluate` returns Ok and makes no apply_operation, apply_seals or apply_witness call: the contract is left exactly as it was.", "quantifier": "every contract implementation and state, every reader whose first read is end-of-stream", "why_tests_cant": "a test fixes one contract; the claim is for every ContractApi implementation and state", "anchors": ["src/verify.rs: ContractVerify::evaluate", "src/verify.rs: ReadOperation"]}
{"id": "C02", "title": "First operation must commit to the codex", "statement": "If `evaluate` returns Ok on a non-empty consignment, the contract id field carried by its first operation has the same 32 bytes as the contract's codex id. If the bytes differ, `evaluate` returns NoCodexCommitment, whatever follows in the stream, and makes no mutating call.", "quantifier": "every contract, every reader, every first operation and every continuation of the stream", "why_tests_cant": "the accepting set is over all 32-byte values and all continuations", "anchors": ["src/verify.rs: ContractVerify::evaluate", "src/verify.rs: VerificationError::NoCodexCommitment"]}
{"id": "C03", "title": "The first (genesis) operation is never applied", "statement": "No run of `evaluate`, successful or not, calls apply_operation for the first block of the consignment; every apply_operation call belongs to a block at position 1 or later.", "quantifier": "every contract, every reader, every terminating run", "why_tests_cant": "must hold for all streams, including those whose genesis is unknown to the contract", "anchors": ["src/verify.rs: ContractVerify::evaluate", "src/verify.rs: ContractApi::apply_operation"]}
{"id": "C04", "title": "The first operation closes nothing", "statement": "A consignment whose first operation lists a destructible input is never accepted: if its other checks up to that point pass, the error is SealUnknown with the address of its first destructible input.", "quantifier": "every contract, every first block with at least one destructible input", "why_tests_cant": "for all inputs, all contracts", "anchors": ["src/verify.rs: ContractVerify::evaluate", "src/verify.rs: VerificationError::SealUnknown"]}
{"id": "C05", "title": "Revealed seals are committed by the operation", "statement": "In an accepted consignment, for every block and every revealed seal definition in it, the definition's auth token equals the auth token of some destructible output cell of the same block's operation. If some revealed seal's token is not among the operation's cell tokens the block is rejected with SealsDefinitionMismatch, carrying exactly the reported token set, the defined token set and the position-to-string map of all revealed seals.", "quantifier": "every contract, every stream, every block and every revealed seal", "why_tests_cant": "universally quantified over positions, tokens and blocks", "anchors": ["src/verify.rs: ContractVerify::evaluate", "src/verify.rs: VerificationError::SealsDefinitionMismatch", "src/seals.rs: RgbSealDef::auth_token"]}
{"id": "C06", "title": "Revealed seal at position n is the one committed by output cell n", "statement": "In an accepted consignment, every seal definition revealed for output position n of an operation carries the auth token of that operation's n-th destructible output cell. (The comment in the code asks for a strict match of seal definitions to destructible cells.) The code only compares token sets; the statement is false of it, and what does hold is C05.", "quantifier": "every accepted consignment, block and position", "why_tests_cant": "only an adversarial consignment with permuted or out-of-range positions exposes it; the honest ones in the test suite cannot", "anchors": ["src/verify.rs: ContractVerify::evaluate", "src/verify.rs: OperationSeals::defined_seals"]}
{"id": "C07", "title": "Causality: inputs refer to earlier blocks of the same consignment", "statement": "In an accepted consignment, every destructible input (opid, n) of block i was announced by an earlier block j < i of the same stream: block j's operation has id opid, reveals a seal definition at n, and that definition is either self-contained or block j has a witness to resolve it. No block of a consignment without repeated ids consumes an output of itself or of a later block. With repetitions, consumption is still acyclic: unless two different operations have the same id, operations can be ranked so that each consumes only outputs of operations of lower rank.", "quantifier": "every accepted consignment, every block and input", "why_tests_cant": "all histories and all DAG shapes", "anchors": ["src/verify.rs: ContractVerify::evaluate"]}
{"id": "C08", "title": "No duplicate inputs inside one operation", "statement": "In an accepted consignment the destructible input addresses of each operation are pairwise distinct; an operation listing an address twice is never accepted.", "quantifier": "every accepted consignment, every operation", "why_tests_cant": "all input lists", "anchors": ["src/verify.rs: ContractVerify::evaluate"]}
{"id": "C09", "title": "No double closing inside a consignment without repeated operations", "statement": "In an accepted consignment in which no two blocks carry the same operation id, every cell address is consumed as destructible input at most once over the whole stream.", "quantifier": "every accepted consignment with pairwise distinct operation ids", "why_tests_cant": "all interleavings of spends", "anchors": ["src/verify.rs: ContractVerify::evaluate"]}
{"id": "C10", "title": "Double closing needs a re-announcement", "statement": "Without the distinctness assumption, a cell address can be consumed twice within one accepted consignment only if a block at or after the first consumer and before the second carries the creating operation again and reveals a seal for that cell again; in particular the number of closings of an address never exceeds the number of its announcements. The stronger claim 'every address is closed at most once per accepted consignment' is false: repeating a known input-less operation re-opens its cells.", "quantifier": "every accepted consignment, every address, every pair of closings", "why_tests_cant": "needs all histories including replays", "anchors": ["src/verify.rs: ContractVerify::evaluate"]}
{"id": "C11", "title": "Spending requires a verified seal-closing witness", "statement": "In an accepted consignment every operation with at least one destructible input comes with a witness, and the seal protocol accepted that witness as closing, over the message equal to the operation id, exactly the list of seals registered for the inputs, in input order: no seal is omitted, substituted or added.", "quantifier": "every accepted consignment, every block with inputs, every seal protocol", "why_tests_cant": "for all seal protocols and all input lists", "anchors": ["src/verify.rs: ContractVerify::evaluate", "src/verify.rs: VerificationError::SealsNotClosed", "src/seals.rs: RgbSeal"]}
{"id": "C12", "title": "A supplied witness is always verified before it is recorded", "statement": "Every apply_witness(opid, w) call made in any run is for a block that carries w, and w was accepted by the seal protocol for the message opid and the list of seals of that block's inputs; this includes known operations, the first operation and operations without inputs.", "quantifier": "every run, every apply_witness call", "why_tests_cant": "all runs, all calls", "anchors": ["src/verify.rs: ContractVerify::evaluate", "src/verify.rs: ContractApi::apply_witness"]}
{"id": "C13", "title": "Missing witness is rejected exactly when seals are closed", "statement": "A block without witness that passes the preceding checks is rejected with NoWitness(its operation id) if it has at least one destructible input, and is not rejected if it has none.", "quantifier": "every contract, every block without a witness", "why_tests_cant": "all blocks and contract states", "anchors": ["src/verify.rs: ContractVerify::evaluate", "src/verify.rs: VerificationError::NoWitness"]}
{"id": "C14", "title": "Known operations skip script validation only", "statement": "If the contract reports the operation id as known, the codex is not asked to verify the operation, apply_operation is not called for it and no VM error can result from it; but its seal definitions, inputs and witness are checked exactly as for unknown operations and apply_witness / apply_seals are still called.", "quantifier": "every contract, every block with a known operation id", "why_tests_cant": "all contract states and blocks", "anchors": ["src/verify.rs: ContractVerify::evaluate", "src/verify.rs: ContractApi::is_known"]}
{"id": "C15", "title": "No unverified operation is ever applied", "statement": "Every apply_operation(v) call in any run, successful or not, is for a value v that the contract's codex returned as the successful result of verifying that block's operation against the contract id, memory and library repository of the contract as they were when the block was reached, and for an operation id that the contract then reported as not known.", "quantifier": "every run of every contract, every apply_operation call", "why_tests_cant": "all runs, including failing ones", "anchors": ["src/verify.rs: ContractVerify::evaluate", "src/verify.rs: ContractApi::apply_operation"]}
{"id": "C16", "title": "Every new operation is applied exactly once, in order", "statement": "In an accepted consignment, apply_operation is called for exactly those blocks after the first whose operation id the contract reported as not known when the block was reached, once each, in stream order.", "quantifier": "every accepted consignment", "why_tests_cant": "all stream lengths and contract answers", "anchors": ["src/verify.rs: ContractVerify::evaluate"]}
{"id": "C17", "title": "Callback order within and across blocks", "statement": "The mutating callbacks of an accepted consignment are the concatenation over blocks, in stream order, of: apply_witness (if the block has a witness), then apply_operation (if new and not first), then apply_seals (if any seal is revealed); all with the block's operation id. So apply_operation never precedes its own apply_witness, and no callback of a later block precedes one of an earlier block.", "quantifier": "every accepted consignment", "why_tests_cant": "all interleavings of callbacks over all streams", "anchors": ["src/verify.rs: ContractVerify::evaluate", "src/verify.rs: ContractApi"]}
{"id": "C18", "title": "apply_seals is exact", "statement": "In an accepted consignment, apply_seals is called once for each block that reveals at least one seal (known, new or first alike) with that block's operation id and exactly the revealed position-to-definition map, and never for blocks that reveal none.", "quantifier": "every accepted consignment", "why_tests_cant": "all blocks", "anchors": ["src/verify.rs: ContractVerify::evaluate", "src/verify.rs: ContractApi::apply_seals"]}
{"id": "C19", "title": "apply_witness is exact", "statement": "In an accepted consignment, apply_witness is called once for each block that has a witness, with that block's operation id and witness, and never for a block without one.", "quantifier": "every accepted consignment", "why_tests_cant": "all blocks", "anchors": ["src/verify.rs: ContractVerify::evaluate", "src/verify.rs: ContractApi::apply_witness"]}
{"id": "C20", "title": "A rejected block has no effect", "statement": "If `evaluate` rejects block k (or the reader fails after k blocks), the contract state and the sequence of mutating callbacks are the same as those of the accepted run over the first k blocks alone: nothing of the rejected block is applied and nothing earlier is rolled back.", "quantifier": "every run ending in an error, every failing position and error kind", "why_tests_cant": "all failure points, all contracts", "anchors": ["src/verify.rs: ContractVerify::evaluate"]}
{"id": "C21", "title": "Prefixes of accepted consignments are accepted", "statement": "If a consignment is accepted then so is every prefix of it, on the same contract, and the callbacks made on the prefix are a prefix of the callbacks made on the whole.", "quantifier": "every accepted consignment and every prefix length", "why_tests_cant": "all histories", "anchors": ["src/verify.rs: ContractVerify::evaluate"]}
{"id": "C22", "title": "Rejection is final", "statement": "If a block is rejected, then what the stream holds after it is irrelevant: for any two readers that agree up to and including the rejected block, `evaluate` returns the same error and leaves the same contract state.", "quantifier": "every rejecting run, every pair of continuations (finite, failing or endless)", "why_tests_cant": "all continuations, including infinite ones", "anchors": ["src/verify.rs: ContractVerify::evaluate"]}
{"id": "C23", "title": "Reader failure is reported and keeps earlier effects", "statement": "If the reader fails after blocks that are all accepted, `evaluate` returns the Stream error wrapping exactly the reader's error and the contract is as after the accepted prefix.", "quantifier": "every reader, failure position and error value", "why_tests_cant": "all failure points", "anchors": ["src/verify.rs: ContractVerify::evaluate", "src/verify.rs: VerificationError::Stream"]}
{"id": "C24", "title": "The reader is polled exactly as needed", "statement": "A run that processes n blocks without error polls the reader exactly n+1 times; a run that rejects the n-th block polls exactly n times; the reader is never polled after it has reported end of stream or an error. The outcome depends on the reader only through the sequence of results it delivers.", "quantifier": "every reader and every run", "why_tests_cant": "all readers and schedules", "anchors": ["src/verify.rs: ContractVerify::evaluate", "src/verify.rs: ReadOperation::read_operation"]}
{"id": "C25", "title": "Termination", "statement": "`evaluate` terminates on every reader that eventually reports end of stream or an error; on an endless reader it terminates if and only if some delivered block is rejected.", "quantifier": "every reader, finite or endless", "why_tests_cant": "infinite streams", "anchors": ["src/verify.rs: ContractVerify::evaluate"]}
{"id": "C26", "title": "The seal closed for an input is the latest announcement", "statement": "In an accepted consignment the seal checked for an input address is the one given by the most recent earlier block announcing a seal for that address, with no block in between consuming it: later announcements override earlier ones.", "quantifier": "every accepted consignment, every input", "why_tests_cant": "all histories with repeated announcements", "anchors": ["src/verify.rs: ContractVerify::evaluate"]}
{"id": "C27", "title": "Witness-relative seals are bound to their own block's witness", "statement": "A seal definition that is not self-contained is registered as the definition resolved with the id of the witness of the same block; if that block has no witness the cell stays unspendable: consuming it later, with no other announcement, fails with SealUnknown.", "quantifier": "every stream, every seal definition whose to_src is None", "why_tests_cant": "all streams and witnesses", "anchors": ["src/verify.rs: ContractVerify::evaluate", "src/seals.rs: RgbSealDef::resolve", "src/seals.rs: RgbSealDef::to_src"]}
{"id": "C28", "title": "Acceptance is exactly declarative validity", "statement": "`evaluate` returns Ok if and only if the stream ends cleanly and every block satisfies a declarative validity condition, stated without any mutable registry: codex commitment for the first block; tokens of revealed seals among the cells' tokens; inputs distinct and each with an open announcement; codex verification if not known; witness accepted for exactly the open seals, or no inputs.", "quantifier": "every contract, every reader delivering a finite stream", "why_tests_cant": "both directions over all streams", "anchors": ["src/verify.rs: ContractVerify::evaluate"]}
{"id": "C29", "title": "Error precedence", "statement": "The error returned is determined by the first rejected block and, within it, by the first failing check in the order: codex commitment, seal definition mismatch, unknown input seal, codex verification (unknown operations only), witness verification, missing witness. Each error carries the operation id, witness id, address or token sets of that block.", "quantifier": "every rejecting run", "why_tests_cant": "all combinations of simultaneous defects", "anchors": ["src/verify.rs: ContractVerify::evaluate", "src/verify.rs: VerificationError"]}
{"id": "C30", "title": "SealUnknown names the first unusable input", "statement": "If a block is rejected with SealUnknown(a), then a is a destructible input of it, all inputs listed before it are pairwise distinct and open, and a is either not open before the block or repeats an earlier input of the same operation.", "quantifier": "every run rejected with SealUnknown", "why_tests_cant": "all input lists", "anchors": ["src/verify.rs: ContractVerify::evaluate", "src/verify.rs: VerificationError::SealUnknown"]}
{"id": "C31", "title": "The contract changes only through the callbacks", "statement": "The contract left behind by any terminating run, accepted or rejected, is the initial contract to which the recorded apply_witness, apply_operation and apply_seals calls were applied in order, and nothing else.", "quantifier": "every terminating run of every contract implementation", "why_tests_cant": "all implementations", "anchors": ["src/verify.rs: ContractVerify::evaluate", "src/verify.rs: ContractApi"]}
{"id": "C32", "title": "Query discipline", "statement": "Each run asks for the contract id exactly once; for each block it asks is_known at most once, and asks for codex, memory and repo at most once each, only if is_known answered false. The contract id used in every codex verification is the one read at the start.", "quantifier": "every run, every block", "why_tests_cant": "all runs", "anchors": ["src/verify.rs: ContractVerify::evaluate", "src/verify.rs: ContractApi::contract_id", "src/verify.rs: ContractApi::codex", "src/verify.rs: ContractApi::repo"]}
{"id": "C33", "title": "Re-evaluating an accepted consignment is idempotent", "statement": "For a contract whose known set is what it was plus the applied operations, whose codex and id do not change, and which knows the first operation: after a consignment has been accepted, evaluating the same consignment again is accepted, makes no apply_operation call, and makes exactly the same apply_witness and apply_seals calls.", "quantifier": "every lawful contract, every accepted consignment", "why_tests_cant": "all histories; the second run takes a different code path (known operations) from the first", "anchors": ["src/verify.rs: ContractVerify::evaluate", "src/verify.rs: ContractApi::is_known"]}
{"id": "C34", "title": "Each operation is applied at most once over any history", "statement": "Over any sequence of `evaluate` calls with arbitrary (possibly failing) consignments on a lawful contract, no two apply_operation calls carry the same operation id, and none carries an id that was known at the start; the known set is the initial one plus the applied ids and never shrinks.", "quantifier": "every finite history of evaluate calls, accepted or rejected, on a lawful contract", "why_tests_cant": "all histories", "anchors": ["src/verify.rs: ContractVerify::evaluate", "src/verify.rs: ContractApi::is_known", "src/verify.rs: ContractApi::apply_operation"]}
{"id": "C35", "title": "Known operations are ancestor-closed over any history", "statement": "If every evaluated consignment starts with a known operation and the known operations of a lawful contract are initially closed under taking the creators of their destructible inputs, they remain so after any sequence of `evaluate` calls, accepted or rejected: no orphan operation ever enters the contract.", "quantifier": "every finite history of evaluate calls on a lawful contract", "why_tests_cant": "all histories, including partially applied rejected consignments", "anchors": ["src/verify.rs: ContractVerify::evaluate"]}
{"id": "C36", "title": "No cell is destroyed twice over any history", "statement": "For a lawful contract (apply_operation removes the consumed cells from memory and adds the created ones) and a codex that rejects operations whose destructible inputs are absent from memory: over any sequence of `evaluate` calls no two applied operations consume the same cell, even across consignments presenting conflicting spends.", "quantifier": "every finite history of evaluate calls on a lawful contract", "why_tests_cant": "all histories and all conflicting forks", "anchors": ["src/verify.rs: ContractVerify::evaluate", "src/verify.rs: ContractApi::memory"]}
{"id": "C37", "title": "The first operation must be the contract's own genesis", "statement": "If `evaluate` accepts a non-empty consignment then its first operation is already known to the contract (is_known MUST be true for genesis), so a foreign genesis committing to the same codex cannot be substituted. The code does not check this: false as stated. What holds: an unknown first operation must pass codex verification and is never applied.", "quantifier": "every accepted consignment", "why_tests_cant": "needs an adversarial first operation for the same codex", "anchors": ["src/verify.rs: ContractVerify::evaluate", "src/verify.rs: ContractApi::is_known"]}
{"id": "C38", "title": "Topological reordering of known history", "statement": "For a contract whose callbacks never make it forget an operation it knows, and a consignment of known operations with pairwise distinct ids, reordering the blocks after the first in any way that keeps every creator before its consumers preserves acceptance, and every input is checked against the same seal as before.", "quantifier": "every accepted consignment of known operations, every creator-respecting permutation", "why_tests_cant": "factorially many orders", "anchors": ["src/verify.rs: ContractVerify::evaluate"]}
{"id": "C39", "title": "Withholding unneeded seal definitions is harmless", "statement": "Removing from an accepted consignment any revealed seal definitions that no later block consumes keeps it accepted, with the same apply_operation and apply_witness calls.", "quantifier": "every accepted consignment and every such removal, for contracts whose queries ignore recorded seals", "why_tests_cant": "all subsets of revealed seals", "anchors": ["src/verify.rs: ContractVerify::evaluate", "src/verify.rs: OperationSeals::defined_seals"]}
{"id": "C40", "title": "A consignment must be self-contained", "statement": "Seals announced in an earlier `evaluate` call do not carry over: an operation consuming a cell whose creating operation is not in the present stream is rejected with SealUnknown if nothing before that input in the stream is wrong, even if the contract knows the creator; in any case no stream with an operation consuming a cell whose creating operation does not come earlier in it is accepted.", "quantifier": "every contract state, every history of previous evaluate calls, every stream", "why_tests_cant": "all prior histories", "anchors": ["src/verify.rs: ContractVerify::evaluate"]}
{"id": "C41", "title": "apply_witness is never called for the first operation or for operations destroying nothing", "statement": "The documentation of apply_witness excludes genesis and operations with no destroyed state. The code calls it whenever the block carries a witness the seal protocol accepts, so the claim is false for consignments that attach one; it holds for those whose first and input-less blocks carry none.", "quantifier": "every run", "why_tests_cant": "needs consignments no honest producer emits", "anchors": ["src/verify.rs: ContractVerify::evaluate", "src/verify.rs: ContractApi::apply_witness"]}
{"id": "C42", "title": "Parametricity in the contract implementation", "statement": "Two contract implementations whose query answers agree and keep agreeing under equal callbacks get the same result and the same sequence of calls from the same reader: `evaluate` depends on the contract only through its API.", "quantifier": "every pair of implementations related by such a simulation, every reader", "why_tests_cant": "all implementations", "anchors": ["src/verify.rs: ContractVerify::evaluate", "src/verify.rs: ContractApi"]}
{"id": "C43", "title": "Operation identity of inputs", "statement": "If operation ids are collision-free, the creating operation of each consumed cell is uniquely determined by the address: any two blocks of any accepted consignments for the same contract that announced a seal for the same address carry the same operation (the first block's carrying the contract id in place of the codex id).", "quantifier": "every pair of accepted consignments, every address", "why_tests_cant": "all pairs of streams", "anchors": ["src/verify.rs: ContractVerify::evaluate"]}
{"id": "C44", "title": "Self-contained seals resolve independently of the witness", "statement": "For bitcoin seals: if to_src returns Some(s) then resolve(w) = s for every witness id w; if to_src returns None then resolve(w) depends on w.", "quantifier": "every seal definition and witness id", "why_tests_cant": "2^256 witness ids", "anchors": ["src/seals.rs: bitcoin::WTxoSeal::resolve", "src/seals.rs: bitcoin::WTxoSeal::to_src"]}
{"id": "C45", "title": "Witness-relative seals resolve to outputs of the witness", "statement": "For bitcoin seals: to_src is None exactly for witness-output definitions; resolving such a definition with witness id w yields a seal whose primary outpoint is (w, the defined output index); the secondary part is always kept unchanged.", "quantifier": "every seal definition and witness id", "why_tests_cant": "all definitions", "anchors": ["src/seals.rs: bitcoin::WTxoSeal::resolve", "src/seals.rs: bitcoin::WTxoSeal::to_src"]}
{"id": "C46", "title": "Resolution loses nothing but the relative/absolute distinction", "statement": "For bitcoin seals: two definitions resolved with the same witness id w give the same seal exactly if they are equal or one is a witness-output definition and the other the external definition of the same output of w, with equal secondary parts; one witness-output definition resolved with different witness ids gives different seals.", "quantifier": "every pair of definitions and witness ids", "why_tests_cant": "all pairs", "anchors": ["src/seals.rs: bitcoin::WTxoSeal::resolve"]}
{"id": "C47", "title": "Auth tokens are the 30-byte prefix of the seal commitment", "statement": "For bitcoin seals: two definitions have the same auth token exactly if their commitment ids agree on the first 30 bytes, the token loses none of those 30 bytes, and its numeric value is below 2^240 and hence below the field order, so no modular reduction happens.", "quantifier": "every pair of definitions and every commitment function", "why_tests_cant": "2^240 token values", "anchors": ["src/seals.rs: bitcoin::WTxoSeal::auth_token"]}
{"id": "C48", "title": "Operation bundles survive serialization", "statement": "Strict-encoding an operation with its revealed seals and optional witness and decoding it again returns the same bundle and leaves exactly the bytes that followed; two different bundles never have the same encoding and no encoding is a proper prefix of another. Encoding is total on bundles within the type's size bound.", "quantifier": "every bundle, every trailing byte string, every component codec with the same property", "why_tests_cant": "all values", "anchors": ["src/verify.rs: OperationSeals (derive StrictEncode, StrictDecode)"]}
{"id": "C49", "title": "Cloning a bundle is faithful", "statement": "clone() of an operation bundle equals the original in operation, revealed seals and witness; evaluating a stream of clones is the same as evaluating the originals.", "quantifier": "every bundle and every stream of bundles", "why_tests_cant": "all values", "anchors": ["src/verify.rs: Clone for OperationSeals"]}
{"id": "C50", "title": "Input-less operations", "statement": "The change log states that state transitions must have at least one input. `evaluate` itself does not enforce it: an operation with no destructible and no immutable inputs and no witness is accepted whenever it is known or the codex accepts it. The claim 'accepted non-first operations have at least one input' is false of this code.", "quantifier": "every accepted consignment", "why_tests_cant": "needs input-less operations", "anchors": ["src/verify.rs: ContractVerify::evaluate", "CHANGELOG.md: v0.12.0"]}
{"id": "C51", "title": "Reference contract bookkeeping", "statement": "For the contract implementation used in the crate's own test-suite: after an accepted consignment whose first operation is known, its known operations are the initial ones plus the operations of the stream, its witness lists are the initial lists followed by the witnesses of the stream in order, and its seal definitions are the initial ones updated with the revealed ones. (Generalises the assertions of the tests' `run` helper to every stream.)", "quantifier": "every accepted consignment on the test contract", "why_tests_cant": "the helper checks eight literal streams", "anchors": ["src/verify.rs: test::TestContract", "src/verify.rs: test::run"]}
{"id": "C52", "title": "Common ancestry", "statement": "Two accepted consignments for the same contract that both contain the operation with id x agree on its whole ancestry: every operation from which x descends (by consumed cells) in one is in the other, as the same operation under the same id, with x descending from it there too, unless two different operations occurring in them have the same id.", "quantifier": "every pair of accepted consignments (on any contracts with the same contract id), every id, every ancestor", "why_tests_cant": "all pairs of streams and unbounded chains of ancestors", "anchors": ["src/verify.rs: ContractVerify::evaluate"]}
{"id": "C53", "title": "Bitcoin outpoints closed by a witness", "statement": "Over bitcoin seals: in an accepted consignment the transaction attached to a block passed the closing check over the block's operation id for one seal per input, in order. Each seal's outpoint is the external outpoint revealed for that input by an earlier block, or the revealed output number of the transaction attached to that earlier block; the secondary part is the revealed one.", "quantifier": "every accepted consignment over bitcoin seals, every block with a witness, every input; arbitrary closing check and commitment hash", "why_tests_cant": "all streams and all transactions", "anchors": ["src/verify.rs: ContractVerify::evaluate", "src/seals.rs: bitcoin::WTxoSeal::resolve", "src/seals.rs: bitcoin::WTxoSeal::to_src"]}
{"id": "C54", "title": "A cell is spent only with the seal it was assigned to", "statement": "In an accepted consignment, the seals closed by a block are, input by input, the seals of definitions committed to by the very cells it consumes. (False of the code, which does not compare positions: the owner of one output of an operation can spend another one. What holds: some cell of the creating operation commits to the definition, and the consumed one does if the revealing block has its positions right; then any two consignments close the address for the same token.)", "quantifier": "every accepted consignment, every input", "why_tests_cant": "only an adversarial stream with permuted positions exposes it", "anchors": ["src/verify.rs: ContractVerify::evaluate", "src/verify.rs: OperationSeals::defined_seals"]}
{"id": "C55", "title": "The reference contract keeps spent cells", "statement": "For the contract implementation of the crate's test-suite: after an accepted consignment its cells are the initial ones plus all outputs of the newly added operations; spent cells are never removed. So it is not a lawful contract in the sense of C36, and two successive consignments spending the same cell are both accepted by it, even with a codex that rejects operations spending absent cells.", "quantifier": "every accepted consignment on the test contract; the double spend is a concrete pair", "why_tests_cant": "the tests never present a conflicting spend, and all streams are covered", "anchors": ["src/verify.rs: test::TestContract::apply_operation", "src/verify.rs: ContractVerify::evaluate"]}
{"id": "C56", "title": "The assertions of the tests' `run` helper", "statement": "After every accepted stream on the contract set up by the tests, the assertions of the `run` helper (known operations, seal definitions and witnesses equal those collected from the stream, up to the first entry) hold. (False: they fail on an accepted operation revealing no seals, and depend on the genesis id being the smallest. Proved for streams satisfying explicit conditions.)", "quantifier": "every accepted stream on a contract knowing genesis only", "why_tests_cant": "the helper runs on eight literal streams", "anchors": ["src/verify.rs: test::run", "src/verify.rs: test::TestContract"]}
{"id": "C57", "title": "The crate's unit tests hold for every hash, codex and seal protocol", "statement": "The tests empty, genesis_only, invalid_genesis, invalid_seals, seal_unknown, no_witness, seals_unclosed, not_spending_utxo and missing_commitment end as they assert, not only for the fixed fixtures: for every operation hash, codex, library set, dumb genesis, contract id, foreign codex id, seal extension and every witness the seal protocol refuses.", "quantifier": "all fixtures: hash functions, codices, seal protocols, ids, witnesses", "why_tests_cant": "each test runs on one literal fixture", "anchors": ["src/verify.rs: test::empty", "src/verify.rs: test::genesis_only", "src/verify.rs: test::invalid_genesis", "src/verify.rs: test::invalid_seals", "src/verify.rs: test::seal_unknown", "src/verify.rs: test::no_witness", "src/verify.rs: test::seals_unclosed"]}
{"id": "C58", "title": "What the unit tests do not show", "statement": "Test genesis_with_wout ends with its expected error whatever definition genesis reveals, relative or external, since its second operation refers to the id of the unchanged genesis; with the reference corrected, a relative definition gives SealUnknown and an external one does not. And no stream of the spending tests, with any witness, can be accepted and also satisfy the assertions of the run helper, so the suite has no positive spending test.", "quantifier": "all seal definitions, witnesses and fixtures with distinct ids", "why_tests_cant": "it is about the tests themselves", "anchors": ["src/verify.rs: test::genesis_with_wout", "src/verify.rs: test::run"]}
{"id": "C59", "title": "Complete specification of evaluate", "statement": "evaluate returns with a given outcome (result, contract, calls, reader) if and only if a declarative description holds of that outcome: a valid consignment was read, the contract is the initial one after the callbacks due, the calls are exactly those due, and then the reader ended, or failed with the reported error, or delivered a block that has to be rejected with the reported error. It does not return exactly if the reader goes on delivering valid blocks forever.", "quantifier": "every contract, reader and outcome", "why_tests_cant": "an equivalence over all readers, contracts and outcomes, including divergence", "anchors": ["src/verify.rs: ContractVerify::evaluate"]}
{"id": "C60", "title": "Bounded work and conservation of seals", "statement": "Every evaluation makes at most two calls plus ten for each poll of the reader. In an accepted consignment the inputs of all operations together with the cells open at the end are not more than the seal definitions revealed in it: every closing uses up a reveal of its own.", "quantifier": "every terminating evaluation; every accepted consignment", "why_tests_cant": "counts over streams of every length", "anchors": ["src/verify.rs: ContractVerify::evaluate"]}
{"id": "C61", "title": "What follows depends only on the open seals and the contract", "statement": "If two valid non-empty consignments lead to the same open cells with the same seals and to contracts that answer alike, then the evaluations of any two streams that start with them and coincide afterwards return the same result, make the same calls after that point, leave the reader in the same and the contracts in related states; one terminates exactly if the other does. So an evaluation can be checkpointed: how the point was reached (order, repeated announcements, number of blocks) is irrelevant.", "quantifier": "all pairs of valid prefixes leading to the same point, all continuations, all readers", "why_tests_cant": "relates pairs of executions over all continuations", "anchors": ["src/verify.rs: ContractVerify::evaluate"]}
{"id": "C62", "title": "Incremental delivery", "statement": "For a lawful contract whose answers do not depend on reported seals and witnesses and which knows the first operation: after a consignment has been accepted, evaluating an extension of it on the resulting contract returns the same result as evaluating the extension on the initial contract, ends in a contract giving the same answers, and applies exactly the operations the first evaluation had not applied.", "quantifier": "all accepted consignments and all extensions, accepted, rejected, failing or endless", "why_tests_cant": "relates three executions over all extensions", "anchors": ["src/verify.rs: ContractVerify::evaluate", "src/verify.rs: ContractApi::is_known"]}
{"id": "C63", "title": "The known operations do not depend on the order of delivery", "statement": "After an accepted consignment starting with a known operation a lawful contract knows exactly what it knew before and the operations of the consignment. So consignments accepted one after the other leave the same operations known in whatever order they are received.", "quantifier": "all finite sequences of accepted consignments and all permutations of them", "why_tests_cant": "all permutations of all sequences of consignments", "anchors": ["src/verify.rs: ContractVerify::evaluate", "src/verify.rs: ContractApi::is_known", "src/verify.rs: ContractApi::apply_operation"]}
{"id": "C64", "title": "No two operations spend the same cell anywhere", "statement": "Assume that the seal protocol is single-use (a seal is closed by one witness id over one message), that ids, messages and tokens do not collide, that revealed definitions stand at the position of the cell committing to them, and that definitions relative to a witness are revealed only by operations with inputs. Then any two evaluations for the same contract id, by the same or different nodes and with any contract implementations, agree on the seal of every cell and never contain two different operations consuming the same cell; over any history no cell is consumed twice by applied operations, even if contract and codex keep no record of the cells. The last two assumptions are needed: without either, two accepted consignments can spend the same cell with different operations, because evaluate checks neither the position of a definition nor which witness is attached to an operation without inputs.", "quantifier": "all pairs of evaluations, all histories, all seal protocols and contracts satisfying the hypotheses", "why_tests_cant": "a statement about pairs of unbounded consignments evaluated on different nodes; the proof is by induction along the chain of witnesses", "anchors": ["src/verify.rs: ContractVerify::evaluate", "src/seals.rs: RgbSealDef::resolve"]}
{"id": "C65", "title": "Only existing cells are spent", "statement": "In an accepted consignment every consumed cell is an output of the operation of an earlier block, that is, its position is below the number of that operation's outputs.", "quantifier": "all accepted consignments; for applied operations also all histories of evaluations on a contract", "why_tests_cant": "the tests only spend outputs they created; the claim is about arbitrary revealed positions in unbounded consignments, and the code never compares a position with the number of outputs", "anchors": ["src/verify.rs: ContractVerify::evaluate", "src/verify.rs:56-61 (OperationSeals)"]}
{"id": "C66", "title": "The verifier is blind to state data", "statement": "evaluate looks at nothing of an operation but its id, for the first one its codex commitment, the addresses of its inputs, the tokens of its outputs and the answer of the codex: two readers and contracts agreeing in these get the same result and the same calls in the same order, up to the operations named in them, and one evaluation terminates exactly if the other does.", "quantifier": "all pairs of readers and contracts related by such an agreement, including infinite and failing streams", "why_tests_cant": "a relational statement about pairs of runs with arbitrary state data, witnesses of state and contract implementations", "anchors": ["src/verify.rs: ContractVerify::evaluate"]}
{"id": "C67", "title": "The serde representation of bundles is exact", "statement": "With feature serde, and provided each of the three fields serialized alone is read back unchanged, a bundle serialized is read back unchanged, by name or by position. A map is read as a bundle exactly if it has one entry each for operation and definedSeals and at most one for witness, which represent the fields, no entry for the witness meaning none; the order of the entries and entries with other names do not matter. A sequence is read exactly if it has three items representing the fields in the order of declaration.", "quantifier": "all bundles, all maps and sequences, all representations of the fields", "why_tests_cant": "no test serializes with serde; the accepted documents are an infinite set", "anchors": ["src/verify.rs:43-61 (OperationSeals)"]}
{"id": "C68", "title": "Without repeated operations, validity needs no notion of open seals", "statement": "A consignment in which no operation id occurs twice is accepted exactly if: the first operation commits to the codex; all revealed seals are committed to; no cell is consumed twice in the whole consignment; the inputs of each block are announced by earlier blocks, and its witness closes exactly the announced seals, in the order of the inputs, over its id (no witness being needed only without inputs); and each operation is known when it is reached or passes the codex. In particular nothing needs to be said about which seals are open at what time.", "quantifier": "all contracts, readers and finite consignments with pairwise different ids", "why_tests_cant": "an equivalence over all DAGs of operations", "anchors": ["src/verify.rs: ContractVerify::evaluate"]}
{"id": "C69", "title": "Accepted consignments of a contract can be merged", "statement": "Let any number of consignments be accepted by contracts with the same contract id, no two witnesses in them closing a common seal in different transactions or for different operations, without collisions of ids and tokens, revealed definitions standing at their positions and definitions relative to a witness being revealed only by operations with inputs. Call a sequence of blocks a merge of them if it contains exactly their operations, each once and with the witness of one of the consignments, reveals exactly what they reveal, and has creators before consumers. If the first operation of a merge commits to the codex, the merge is accepted exactly if the operations not known when they are reached pass the codex; in particular by everyone who knows the operations and never forgets one. Consignments with the same genesis always have a merge.", "quantifier": "all seal protocols, contracts, readers, families of consignments and merges of them", "why_tests_cant": "an infinite family of pairs of histories; the tests evaluate single consignments", "anchors": ["src/verify.rs: ContractVerify::evaluate"]}
{"id": "C70", "title": "The text of an error determines the error", "statement": "The texts printed for verification errors of different kinds other than virtual machine errors (which print the inner error) are different, whatever the formats of ids and inner errors. If these formats are injective, operation ids contain neither full stop, comma nor colon, and witness ids no space, the text determines the error with all its details, including the sets of tokens and the map of sources. The mismatch message has the layout expected by the test invalid_seals, for all tokens, positions and sources. Debug prints the same text.", "quantifier": "all errors, all formats of the components defined in other crates", "why_tests_cant": "tests compare eight texts; injectivity ranges over all pairs of errors, including unbounded sets and strings with quotes and line breaks", "anchors": ["src/verify.rs:263-312 (VerificationError, Debug)"]}
{"id": "C71", "title": "A conflict between accepted consignments exhibits conflicting witnesses", "statement": "If two consignments accepted by contracts with the same contract id contain different operations consuming the same cell, then they contain two witnesses which verifiably close a common seal and have different ids or do so for different operations (no collisions of ids and tokens, revealed definitions standing at their positions). So, whatever single-use-ness holds only within a class of witnesses, such as the published ones, consignments whose witnesses all belong to that class do not conflict, and over a history of evaluations of such streams no cell is consumed twice by applied operations. For bitcoin seals: if the transactions of the witnesses lie on one chain without double spends and commit to their messages, accepted consignments do not conflict. Evaluation itself does not check that witnesses are published, and without that conflicting consignments are accepted. That there is no conflict, as opposed to the evidence for one, requires that different operation ids have different messages; for the history the contract is lawful and its codex faithful.", "quantifier": "all seal protocols, contracts, readers, pairs of accepted consignments; all chains without double spends", "why_tests_cant": "extracts evidence from an arbitrary pair of accepted histories; the tests evaluate single consignments with witnesses that always verify", "anchors": ["src/verify.rs: ContractVerify::evaluate (witness handling)", "src/seals.rs: RgbSeal implementations for bp seals"]}
{"id": "C72", "title": "No inflation", "statement": "Let cells have a worth in an abelian group, let the codex accept an operation only if its outputs are worth as much as the consumed cells, each counted as often as it is listed, plus what it lets the operation issue, and let the contract keep its memory exactly. Over any history of evaluations of any streams, accepted or rejected half way, the total worth of the cells in memory changes exactly by what the applied operations issue. If nothing may be issued it is conserved; if operations can only burn it never grows. The contract is lawful, its codex is faithful and demands that the inputs exist, memory initially holds only cells of known operations, and no applied operation has more than 65536 destructible outputs, the number of positions there are.", "quantifier": "all codices with such a rule, lawful contracts, histories, streams and measures of worth", "why_tests_cant": "an invariant over all histories, including rejected evaluations, and all measures", "anchors": ["src/verify.rs: ContractVerify::evaluate", "src/verify.rs: ContractApi::apply_operation"]}
{"id": "C73", "title": "Evaluation in environments with hidden state", "statement": "Whatever the environment does, even if contract, reader, codex and witnesses share state and every call, including those through shared references, may change what later ones answer: each terminating evaluation asks for contract id and codex id once, then goes through accepted rounds and ends with end of stream, a reader error or a refused block. In each round the block just read commits to the codex (if first), its revealed seals are committed to, its inputs are distinct and open after the blocks read before, it was said to be known or passed the codex in this very round, its witness was found to close exactly the open seals over its id in this very round, and the callbacks follow in the fixed order; a refusal is one of six with the stated precedence and without any callback. An operation is applied only in such a round and only with the value the codex returned in it. For environments without hidden state this evaluation coincides with `evaluate`; there the answers to is_known are those of the contract as changed by the calls before, and with hidden state evaluations are possible which no such environment gives.", "quantifier": "all state machines as environments, all initial states", "why_tests_cant": "quantifies over arbitrary interactive environments, including interior mutability; tests use one pure contract and reader", "anchors": ["src/verify.rs: ContractVerify::evaluate", "src/verify.rs: ContractApi, ReadOperation"]}
{"id": "C74", "title": "What the codex guarantees holds for everything accepted; no replay across contracts", "statement": "Let the codex accept only operations with some property, and let all operations the contract initially knows have it. Then over any history of evaluations, accepted or rejected, all applied operations have it, and so has each operation of each consignment accepted afterwards, even those which are skipped by the codex because they are known, unless it has the same id as a different operation known initially, applied in the history, or earlier in the consignment. In particular, if codices reject operations of other contracts, all but the first operation of an accepted consignment carry the id of the contract, and no consignment with more than one operation is accepted by two contracts with different ids. Evaluation itself does not compare contract ids: with a codex that does not do so, operations of other contracts are accepted.", "quantifier": "all properties of operations, lawful contracts, faithful codices, histories and accepted consignments", "why_tests_cant": "an invariant over all histories and arbitrary predicates; the tests run a single consignment on one contract", "anchors": ["src/verify.rs:204-214 (is_known, codex verify)", "src/verify.rs:162-170"]}
{"id": "C75", "title": "Recovery after interrupted evaluations", "statement": "Let evaluating a stream be interrupted any number of times, after any of the calls made (a crash, a panic in the contract or the reader), the callbacks made so far being kept by the contract, and let each attempt start again from the beginning of the stream. Then the next full evaluation has the outcome an evaluation without interruptions would have had: it returns exactly if that one does, with the same result and the reader in the same state, it leaves a contract that answers alike, it applies exactly the operations not yet applied, in order, none of them twice, and it reports all witnesses and seals. The contract has to know its genesis, as its documentation demands: otherwise genesis is verified in the state reached and an accepted stream may be rejected after an interruption.", "quantifier": "all lawful contracts with a faithful codex whose answers do not depend on reported witnesses and seals, all streams (finite or not), any number of interruptions at any calls", "why_tests_cant": "every point of every run of every stream is a possible interruption, and these compose; the tests never interrupt an evaluation", "anchors": ["src/verify.rs:204-255 (callbacks interleaved with verification)", "src/verify.rs:112-118 (is_known)", "src/verify.rs:90 (order of callbacks)"]}
{"id": "C76", "title": "Excerpts of accepted consignments are accepted, and order does not matter", "statement": "Let a contract accept a consignment whose operations have distinct ids and read no immutable cells of later ones. Then it also accepts every excerpt: the same first block followed by some of the other blocks, in any order, in which every operation is preceded by the creators of the cells it refers to, so far as these are in the consignment. The calls made for an excerpt are among those made for the whole, with multiplicities. If the excerpt is a rearrangement, the same calls are made in another order, and the contract ends with the same memory, libraries, known operations and answers of the codex. This requires that applied operations change memory only at their own inputs and outputs and that the codex looks only at the cells an operation refers to: with a codex that looks at other cells, an excerpt of an accepted consignment may be rejected.", "quantifier": "all lawful contracts with local memory, local faithful codices, accepted consignments of any length, all their excerpts and rearrangements", "why_tests_cant": "quantifies over all reorderings of all subsets of all accepted consignments; the tests evaluate one order", "anchors": ["src/verify.rs:172-255 (the loop)", "src/verify.rs:197-214 (closed seals, codex verify)"]}
{"id": "C77", "title": "The state depends only on the operations known", "statement": "Take two contracts in the same state: equal ids, codex, memory, libraries and known operations. Let each go through any history of evaluations, accepted or rejected half way, each starting with a known operation. If the same set of operations was applied in both, they are in the same state again, whatever the order, grouping, repetitions, rejected rests, seals and witnesses. It is enough that they know the same operations afterwards, if no two different applied operations share an id; and then every further stream is evaluated on both with the same result and the same calls. In particular receiving the same consignments in any order and any number of times leads to the same state. The contracts have to apply operations at their own inputs and outputs only and the codex has to be faithful, but it need not check anything. The start with a known operation is needed: otherwise a cell may be spent before it is created, and then exist in one order and not in another.", "quantifier": "all lawful contracts with local memory, faithful codices, pairs of histories of any length over any streams", "why_tests_cant": "a relation between two arbitrary histories; the tests evaluate single streams on a fresh contract", "anchors": ["src/verify.rs:172-255 (the loop)", "src/verify.rs: ContractApi::apply_operation, is_known"]}
{"id": "C78", "title": "Replacing the witnesses of an accepted consignment", "statement": "Take an accepted consignment and replace its witnesses by any others, as when a transaction is replaced by one with another fee. The new consignment is accepted if and only if every new witness closes, over the id of its operation, the seals which are open for the inputs in the new consignment; if it is not, the result is that the first witness failing this does not close the seals, and no other error is possible. If both are accepted, the interactions are the same except for the requests to the seal protocol and the reports of witnesses, and the contracts reached give the same answers. It is enough that the new witnesses close the old seals and resolve the relative definitions of cells spent later to the same seals; for the last operation it is enough to close the old seals. For others it is not: if a spent cell moves with its witness, the operation spending it is refused.", "quantifier": "all contracts whose answers do not depend on reports, accepted consignments of any length, all replacements of witnesses, seal protocols", "why_tests_cant": "quantifies over all simultaneous replacements of all witnesses in all accepted consignments; the tests use fixed witnesses", "anchors": ["src/verify.rs:219-243 (witness and seals)", "src/seals.rs: RgbSealDef::resolve"]}
{"id": "C79", "title": "What the contract decides and what the seals decide", "statement": "Acceptance of a consignment is the conjunction of two conditions. The first concerns codex commitment, revealed seals, inputs and witnesses; of the contract only its id and its codex id occur in it. The second says that each operation is known or accepted by the codex when its turn comes. So once one contract has accepted a consignment, another one with the same two ids, whatever its code and state, accepts it if and only if no script fails. More generally, on the same stream two such contracts give the same verdict, with the same error, having read the same bundles, unless one of the verdicts is a script failure. Conversely, for a contract not looking at reported seals and witnesses, another consignment of the same operations, with other seals revealed and other witnesses attached, is accepted if and only if it meets the first condition, and never fails for a script. The exception for scripts is needed.", "quantifier": "all pairs of contracts of any two types with equal ids, all streams, consignments of any length, seal protocols", "why_tests_cant": "compares arbitrary implementations of the contract and arbitrary replacements of seals and witnesses; the tests use one contract implementation", "anchors": ["src/verify.rs:158-256 (the loop)", "src/verify.rs:205-213 (is_known, codex verify)", "src/verify.rs:225-243 (witness)"]}
{"id": "C80", "title": "What holds without trust in the contract", "statement": "Evaluate in any environment, with hidden state and with a contract, codex and reader answering as they like, and assume only that the witnesses it was told close seals do close them. Then the bundles accepted, which are all those read except possibly the last, have their seals in order for the two ids given at the start, which means that they are accepted by an auditor: a contract with these ids that knows nothing, accepts every operation and remembers nothing. So whatever holds for accepted consignments and does not mention the contract holds here too; for instance no cell is closed twice if no id is repeated. Only operations of these bundles other than the first are applied, with the value the codex returned. With a single-use seal protocol, or witnesses from one chain, no collisions, positions right and definitions anchored, two evaluations for one contract id in any two such environments, however they end, apply no two different operations consuming the same cell, if the codices return what they were asked about. If witnesses are not checked this fails. Different operation ids are taken to have different messages for the absence of conflicts.", "quantifier": "all environments and states, all pairs of environments, all seal protocols", "why_tests_cant": "the contract, codex and reader are adversarial state machines; the tests use one well-behaved contract", "anchors": ["src/verify.rs:158-256 (the loop)", "src/verify.rs:196-203 (closed seals)", "src/verify.rs:225-243 (witness)"]}
{"id": "C81", "title": "Readers that check more close the gaps", "statement": "Put a guard in front of the reader: a wrapper that hands on the bundles of another reader as long as they pass a check, which may depend on the bundles read before, and fails otherwise. Then a consignment is accepted from the guarded reader if and only if it is accepted from the reader itself and every bundle passes; the first bundle that does not pass ends the evaluation with a stream error, with the contract as after the bundles before it; otherwise the two evaluations are the same; and the guard makes no evaluation endless. So the statements that are false of evaluate alone hold for guarded readers: with positions compared, each revealed seal is the one committed to by the cell at its position (C06), cells are spent only with their own seals (C54) and only existing cells are spent (C65); with repeated operations refused, no cell is closed twice (C10); with the genesis id compared, the first operation is the contract's genesis (C37); with witnesses refused where nothing is closed, apply_witness is called only as documented (C41); and two guarded evaluations with published witnesses do not conflict, without any assumption on the consignments but that ids and tokens do not collide, if different operation ids have different messages (C64, C71). One computable check meets all these demands.", "quantifier": "all checks, readers, contracts, seal protocols, consignments", "why_tests_cant": "quantifies over all wrapped readers and checks; the tests use one reader", "anchors": ["src/verify.rs:79-86 (ReadOperation)", "src/verify.rs:158-161 (reading and stream errors)", "src/verify.rs:174-195 (sets of tokens)"]}
{"id": "C82", "title": "When one party accepts what another has accepted", "statement": "Two parties start from the same contract and receive whatever they receive, accepted or rejected, in any order, always starting with known operations. The contract keeps memory cell by cell, and the codex decides by the cells an operation refers to, all of which have to be there. Then a consignment accepted by the one party is accepted by the other if and only if, for each operation in it that is new to the other, the operations it reads are known to the other or come earlier in the consignment, and none of its inputs has been spent by an operation the other has applied. What was acceptable stays acceptable whatever comes in between, up to such conflicts; whether two acceptable consignments can both be accepted does not depend on which comes first; and with a single-use seal protocol conflicts do not exist, so that only missing operations read can make the difference. They can: evaluate demands that the creators of spent cells are in the consignment, but not the creators of cells read, so a consignment accepted by one party can be rejected by another. Throughout, different operations have different ids; for single-use seals the streams are also well-formed as in C64 and different ids have different messages.", "quantifier": "all contracts obeying the laws, all histories of both parties, all seal protocols, readers, consignments", "why_tests_cant": "quantifies over pairs of unbounded histories; the tests evaluate single streams on a fresh contract", "anchors": ["src/verify.rs:148-259 (evaluate)", "src/verify.rs:196-202 (inputs looked up in the registry)", "src/verify.rs:204-214 (known operations skipped, codex)", "src/verify.rs:246-250 (apply)"]}
{"id": "C83", "title": "Consignments as files", "statement": "Bundles written one after the other in the strict encoding, and read back by the obvious reader, evaluate as the bundles themselves: same result, same callbacks, same contract. Evaluating a file ends whatever bytes are in it, asking the reader at most once per three bytes and once more. If the codecs of the components accept only encodings, a file is accepted exactly if it is the encoding of a valid consignment, so there is one file for each consignment and no two files for the same one. An accepted file cut short at any byte has the effects of the bundles complete before the cut, and is accepted exactly if the cut falls between two bundles; bytes after it that are no bundle make it fail with the same effects. Evaluating the complete file on the contract left by the part succeeds, ends with the same answers as one evaluation of the complete file, and applies no operation twice. For this last point the contract is lawful with a faithful codex, knows the first operation, and its answers do not depend on reports; for cutting and termination the component decoders, when they succeed, consume an initial part of the input and their answer depends on that part alone.", "quantifier": "all seal protocols, all codecs of operations, definitions and witnesses with the stated laws, all contracts, all byte strings, all places to cut", "why_tests_cant": "quantifies over all byte strings and all cuts; the repository has no test reading bundles from bytes", "anchors": ["src/verify.rs:43-62 (OperationSeals, strict encoding)", "src/verify.rs:79-87 (ReadOperation)", "src/verify.rs:148-259 (evaluate)"]}
{"id": "C84", "title": "How much has to be revealed", "statement": "Of an accepted consignment without repeated operations, a version with some of the revealed seal definitions left out is accepted if and only if every definition left out belongs to a cell that the consignment does not spend; otherwise the evaluation ends with SealUnknown naming a cell whose definition was left out and is needed. There is a version revealing the least: it reveals exactly the definitions of the cells spent later in the consignment, it is accepted with the same calls except for the reports of seals, and every accepted version reveals what it reveals. The same holds for excerpts: a consignment for one operation consists of its ancestors, revealing only the seals of the cells they and the operation spend. With repeated operations less may be enough. For excerpts the conditions are those of C76.", "quantifier": "all seal protocols, all contracts ignoring the reports of seals, all accepted consignments, all versions revealing less", "why_tests_cant": "quantifies over all subsets of the definitions of all accepted consignments; the tests have no version of a consignment revealing less", "anchors": ["src/verify.rs:43-62 (defined_seals)", "src/verify.rs:173-202 (commitment of seals, inputs looked up in the registry)", "src/verify.rs:217-244 (seals entered into the registry)"]}
{"id": "C85", "title": "What an operation id authenticates", "statement": "With a single-use seal protocol, blocks with the same operation id in two accepted consignments for the same contract, whoever evaluated them, have the same operation, consume cells with the same seals, have witnesses with the same id if they consume anything, and reveal the same definition wherever both reveal one (provided ids and tokens do not collide, definitions stand at the positions of the cells committing to them, and definitions relative to a witness come from operations with inputs). So an operation id stands for the whole history of the operation. Whoever passes on an accepted consignment cannot alter its operations without changing their ids or having it rejected: a version with the same ids that is accepted under the same codex id has the same operations in every field, makes the same calls except for those concerning witnesses and the seals reported, and leads to a contract giving the same answers. Without single-use seals the witnesses may be exchanged.", "quantifier": "all single-use seal protocols, all contracts, all pairs of accepted consignments, all operations occurring in both", "why_tests_cant": "quantifies over all alterations of all accepted consignments; the tests evaluate each consignment in one version only", "anchors": ["src/verify.rs:162-170 (operation id, contract id substituted for the first operation)", "src/verify.rs:196-202, 225-243 (seals of the inputs, witness verified)", "src/verify.rs:240-254 (callbacks)"]}
{"id": "C86", "title": "What the recipient of a cell gets", "statement": "Take a class of witnesses within which seals are single-use, for instance those in one chain. Once an accepted consignment with such witnesses announces a seal for a cell, whatever consumes the cell in any accepted consignment for the contract with such witnesses, whoever made and evaluated it, has a witness closing that very seal over the id of the consuming operation (provided ids and tokens do not collide, definitions stand at the positions of the cells committing to them, and definitions relative to a witness come from operations with inputs). The same holds for operations applied over any history of evaluations, accepted or rejected, and in any environment whatever its contract, codex and reader do. So as long as no such witness closes the seal nobody is made to believe the cell was spent; once one closes it over the id of an operation, that operation alone can consume the cell; and over bitcoin seals the witness is a transaction of the chain spending the primary outpoint of the seal. The owner can spend: the accepted consignment with a further block, which consumes open cells, reveals only seals committed to and passes the codex, is accepted if and only if the witness closes the seals of the cells over the id of the operation. If definitions may stand at other positions than the cells committing to them, a cell can be consumed without closing its seal. For the operation alone able to consume the cell different operation ids have different messages; the histories are those of lawful contracts with faithful codices, and in environments the witnesses said to close seals do so and the codex returns what it was asked about.", "quantifier": "all seal protocols, all contracts, all accepted consignments announcing a seal, all other accepted consignments, histories and environments for the same contract", "why_tests_cant": "quantifies over everything anyone may later evaluate for the contract; the tests evaluate single consignments", "anchors": ["src/verify.rs:173-202 (commitment of seals, inputs looked up in the registry)", "src/verify.rs:217-244 (seals entered into the registry, witness verified)", "src/seals.rs:40-77 (RgbSealDef, RgbSeal)"]}
{"id": "C87", "title": "What the positions of revealed seals are good for", "statement": "The positions at which seal definitions are revealed matter only for cells consumed later. Take an accepted consignment and another stream with the same operations and witnesses which reveals any definitions at any positions, except that for cells consumed later it reveals what the consignment reveals. The stream is accepted if and only if every definition it reveals is committed to by some output of its operation; then both evaluations interact alike except for the reports of seals and leave contracts that answer alike (provided the contract's answers do not depend on seals reported). In particular a definition revealed for one output of an operation can be revealed at any other position of it which is not consumed later, whether or not there is such an output, if the operation is not repeated later, and then a further block passing the codex is accepted which consumes that position with a witness closing the seal of the definition. So whoever controls the seal of one output controls all outputs of the operation not consumed before, as far as this code is concerned. What protects the outputs whatever positions are revealed: to consume any of them in any accepted consignment, a witness has to close a seal of some definition to which some output of the operation commits. (For this last point no block has the id of the operation without being it.)", "quantifier": "all seal protocols, contracts and accepted consignments, all ways of revealing definitions, all positions", "why_tests_cant": "quantifies over all ways to rearrange the revealed definitions of arbitrary consignments; no test reveals a definition at another position than that of its cell", "anchors": ["src/verify.rs:172-193 (sets of auth tokens are compared, positions are not)", "src/verify.rs:219-245 (seals registered under the position revealed)", "src/verify.rs:56-61 (OperationSeals::defined_seals)"]}
{"id": "C88", "title": "When the assertions of the tests' `run` helper hold", "statement": "On an accepted stream beginning with genesis, whose operations have distinct ids, evaluated on the contract set up by the tests with a faithful codex, the id of genesis being a different one with the codex id put in, the assertions of `run` hold exactly if genesis, both with the codex id and with the contract id put in, comes before all other operations in the order of ids, and each of those carries a witness and reveals at least one seal. In particular they fail whenever some operation after genesis reveals no seal.", "quantifier": "every accepted stream, hash, codex and seal protocol", "why_tests_cant": "the helper runs on eight literal streams, none of which is an accepted spending", "anchors": ["src/verify.rs: test::run", "src/verify.rs: test::TestContract"]}
{"id": "C89", "title": "Evaluation is parametric in the seal protocol", "statement": "Given a translation of one seal protocol into another that commutes with the operations of the traits (auth token, source, resolution, display, message, publication id, closing check), and contracts and readers related along it, evaluation with the one protocol and evaluation with the other proceed alike: both diverge or both end, with the same result up to translation, related contracts and readers, and translated calls. A consignment is accepted exactly if its translation is. In particular the order the protocol puts on its seals, which the code requires (`RgbSeal: Ord`) and uses for a set of registered seals, never matters.", "quantifier": "every pair of seal protocols and translation between them, not necessarily injective; every related contracts and readers; every order on seals", "why_tests_cant": "quantifies over all seal protocols and relations between them; the tests instantiate one protocol", "anchors": ["src/seals.rs: RgbSeal", "src/seals.rs: RgbSealDef", "src/verify.rs: ContractVerify::evaluate"]}
{"id": "C90", "title": "Cells sharing a seal stand and fall together", "statement": "The code does not keep the seals of different cells apart. If seals are single-use, whatever consumes cells with the same seal, in whatever accepted consignments and for whatever contracts, is one and the same operation, closed by witnesses with the same id. A cell announced, before or after, with a seal which some operation closes without consuming the cell can never be spent. Cells of different contracts on the same seal cannot both be spent if the contracts reject each other's operations. Bitcoin cells on the same outpoint are spent through the same transaction. Different operation ids are taken to have different messages; for cells never to be spent the consignments are those of one contract and well-formed as in C64; for different contracts operation ids commit to contract ids.", "quantifier": "every pair of accepted consignments, contracts, readers, cells and seals; every class of witnesses within which seals are single-use", "why_tests_cant": "relates arbitrary consignments of arbitrary parties; no test spends a cell", "anchors": ["src/verify.rs: ContractVerify::evaluate", "src/seals.rs: RgbSealDef"]}
{"id": "C91", "title": "What a contract is told suffices to hand its history on", "statement": "The calls evaluation makes to a contract carry everything needed to reproduce the history. Whatever consignments a contract has accepted one after the other, any stream read off the record of those calls - the operations asked about, each once, as applied or as held before, with the seals reported for them and a witness reported for them if any was, creators before consumers - is a merge of the consignments, and the contract accepts it again. The contract as it was at the beginning accepts it exactly if the operations read by new ones are known or come earlier, and then arrives at the same state. There is always such a stream which it accepts. The contract obeys the laws of C77, its codex those of C82 where the contract as it was is concerned, the consignments are well-formed, start with the same operation and do not close a seal in two ways, and what was known at the beginning is available.", "quantifier": "every contract, every list of consignments accepted in succession by any readers, every stream read off the record", "why_tests_cant": "quantifies over all histories and all streams obtainable from the record; no test replays one", "anchors": ["src/verify.rs: ContractApi", "src/verify.rs: ContractVerify::evaluate"]}
{"id": "C92", "title": "Parties that hand on what they were told converge", "statement": "Let any number of parties begin with the same contract and receive consignments which were issued by anyone with witnesses under which no seal is closed twice, or were read off the record of calls of another such party. Then no two operations applied by any of them spend the same cell; parties knowing the same operations are in the same state; what one party was told can be read off its record as a consignment which any other accepts, whatever it was told before, and which leaves it knowing exactly what either of them knew; so after exchanging such consignments two parties, and after collecting those of all any number of parties, are in the same state. The contract and its codex obey the laws of C77 and C82, the issued consignments are well-formed and start with the same operation, and each party has the operations known at the beginning.", "quantifier": "every contract, every class of issued consignments, every set of parties and every pattern of handing on", "why_tests_cant": "quantifies over all communities and unboundedly deep chains of handing on", "anchors": ["src/verify.rs: ContractApi", "src/verify.rs: ContractVerify::evaluate"]}
{"id": "C93", "title": "When trying a rejected consignment again can help", "statement": "Trying a stream again at once gives the same result, applies nothing and leaves the contract answering as before. A rejection which is due neither to the codex nor to the stream failing is permanent: every contract with the same ids, in whatever state, ends the evaluation of any stream starting with the same blocks with that error or with the codex rejecting an operation. A rejection by the codex is final if the contract knows the creators of the cells the operation refers to, as it always does for destructible inputs: whatever is received afterwards, the operation is never applied and no consignment containing it is accepted. So a consignment rejected once is accepted later only if the rejected operation reads an output of an operation the contract did not know and has come to know in between; this does occur. Streams start with a known operation; the contract and its codex obey the laws of C82; different operations have different ids.", "quantifier": "every contract, every stream, every rejection and every history in between", "why_tests_cant": "quantifies over all histories between the attempts, of any length, and all contracts", "anchors": ["src/verify.rs: ContractVerify::evaluate", "src/verify.rs: VerificationError", "src/verify.rs: ContractApi"]}
{"id": "C94", "title": "What remains when operations are withdrawn", "statement": "ContractApi has no callback that takes an operation back, so when operations of an accepted consignment are withdrawn, e.g. because their witnesses are reorganised out of the chain, what remains has to be evaluated from the state before. Call lost the withdrawn operations and whatever consumes or reads an output of a lost operation. If the first operation is not withdrawn, the blocks that are not lost, in their order, are accepted from the state in which the whole was accepted; nothing is done for them that was not done for the whole; and the contract then knows precisely what it knew before and the operations not lost. Nothing more can be saved: no consignment accepted from that state without the withdrawn operations has a lost one. The state reached is that of any contract which started alike and came to know these operations and no others, in whatever way. In it the outputs of lost operations do not exist, and a cell spent by a lost operation and created by another one is as it was when the lost one was reached. When the original consignment is evaluated again from there, it is accepted and leads to the original state. Conditions: no two blocks have the same operation id, reads are of earlier blocks, the first operation is known to the contract, the other operations of the consignment are new to it (for the maximality), and the contract and its codex obey the laws of C82. Different operations have different ids.", "quantifier": "every contract, every accepted consignment of any length, every set of withdrawn operations", "why_tests_cant": "quantifies over all dependency graphs of operations and all sets of withdrawn ones", "anchors": ["src/verify.rs: ContractVerify::evaluate", "src/verify.rs: ContractApi"]}
{"id": "C95", "title": "Reports about an operation never contradict each other", "statement": "apply_seals and apply_witness are called again each time an operation is delivered, and rejected streams leave such reports as well. Over all evaluations, accepted or rejected, of any two contracts with the same contract id: (1) the definitions reported for an output of an operation are the same, and are committed to by that very output of the operation as applied by anyone; (2) the witnesses reported for an operation have the same id, unless both were checked against an empty list of seals, the operation having no inputs; (3) so the reports tell at most one seal for a cell, even if a definition from one delivery is combined with a witness from another; (4) the record can be checked again: each witness reported for an applied operation closes, over the id of the operation, the seals which the reports tell for its inputs. The reference TestContract, which overwrites the definition of an output when it is reported again, loses nothing: its books, empty at first, contain exactly what was ever reported, and the books of two such contracts agree. Conditions: operations with the same id are the same, definitions with the same token are the same, definitions are revealed at the position of their own output (not checked by the code; without it (1) fails) and relative ones only by operations with inputs, no seal is closed by two of the witnesses delivered except by ones with the same id over the same message ((2) to (4); without it (3) fails), contract id and codex of a contract do not change, and the codex returns the operation it was given with its id.", "quantifier": "every two contracts of any kind with the same id, all histories of evaluations of any streams, every operation, output and witness", "why_tests_cant": "quantifies over all sequences of deliveries to different parties and all combinations of reports in them", "anchors": ["src/verify.rs: ContractVerify::evaluate", "src/verify.rs: ContractApi", "src/verify.rs: TestContract"]}
{"id": "C96", "title": "Repetitions can be removed from consignments", "statement": "evaluate does not mind operations being repeated in a stream, and several properties (C68, C76, C82, C84, C94) are about streams without repetitions. These lose no generality: let condense be the stream in which, of the blocks with the same operation id, only the first is kept, revealing what all of them reveal between them. If a contract accepts a stream, it accepts the condensed one as well, from the same state; exactly the same operations are applied, in the same order; the contracts reached answer alike; and the same seals are told by the reports made to the contract. A stream without repetitions is its own condensation. Conditions: the contract does not base its answers on reported seals and witnesses and remembers what was applied, the codex returns the operation it is given with its id, the first operation is known to the contract (otherwise a repetition of it is applied although it is not itself), the witnesses of the stream close no seal twice except for the same operation and with the same id (otherwise a repetition can re-open a cell for another operation, which cannot consume it without), operations with the same id are the same, and definitions are revealed at the position of their own output and with tokens of their own, relative ones only by operations with inputs.", "quantifier": "all seal protocols, contracts, readers and streams of any length with any number of repetitions, under the stated conditions", "why_tests_cant": "relates the outcomes of two evaluations of different streams for every pattern of repetitions and every environment", "anchors": ["src/verify.rs: ContractVerify::evaluate", "src/verify.rs: ContractApi"]}
{"id": "C97", "title": "The state is what has been created and not spent, whatever the implementation", "statement": "Let a contract keep its memory as ContractApi suggests: an operation applied removes the cells it consumes and puts its outputs at their own positions if these are free, leaving all other cells, and reported seals and witnesses do not touch the memory. Then after any number of evaluations, accepted or rejected, (1) a destructible cell is in the memory with some content exactly if it was there at the beginning with this content or is that output of an operation applied, and no operation applied consumes it; (2) the immutable memory has exactly what it had and the immutable outputs of the operations applied; (3) two such contracts, of whatever types, which agree in contract id, codex, libraries, memory and known operations get the same result, calls and reader from every reader, one evaluation ending exactly if the other does, and agree again afterwards, also over histories; (4) in particular each behaves as the contract which is nothing but these five answers; (5) after an accepted consignment without repetitions, of the cells created by new operations for which the consignment reveals a seal, those are unspent whose seal the evaluation leaves open. Conditions: contract id, codex and libraries of a contract do not change and known operations are those known before or applied, the codex returns the operation it is given with its id, the memory has at first only cells of known operations; for (1), (5) and the histories of (3) streams start with a known operation; for (5) definitions are revealed at the position of their own output and the contract knows the creators of what known operations of the consignment consume, as it does if it has only been through evaluations since it knew just genesis, or any operations with their ancestors, and no two operations involved have the same id. The contract of the crate's tests is not of this kind, as it keeps spent cells.", "quantifier": "all seal protocols, all contracts with such a memory, all histories of evaluations of any streams, every cell", "why_tests_cant": "quantifies over all implementations of the contract interface, all histories and all cells", "anchors": ["src/verify.rs: ContractVerify::evaluate", "src/verify.rs: ContractApi", "src/verify.rs: TestContract"]}
{"id": "C98", "title": "A rejection can be demonstrated by an excerpt", "statement": "Let a stream be rejected at a block after accepted blocks without repeated operations. Take of the accepted blocks the first one and any others, in any order, such that operations are preceded by the creators of the cells they refer to, and such that there are among them: the creators of the cells the rejected operation refers to, an operation with the id of the rejected one, and, if the complaint is that a cell has no open seal, the operation that spent that cell, each so far as the accepted blocks have it. Then (1) these followed by the rejected block are rejected at that block with the very same error, of whatever kind; (2) such evidence exists, as a part of the stream in its order, with nothing in it except the first block and the closure of what was just listed under creators of cells referred to, and all evidence has these; (3) it is conclusive: the contract accepts no consignment without repetitions that has the evidence and the rejected block as an excerpt; (4) unless the codex was what rejected, it is transferable: every contract with the same contract and codex id rejects it, with that error or by its own codex. Conditions: contract id, codex and libraries of the contract do not change, known operations are those known before or applied, operations change the memory only at their inputs and outputs, the codex returns the operation it is given with its id and its answer depends only on the cells the operation refers to, and no accepted operation reads an immutable cell created by itself or later. The operation that spent the cell cannot be left out, nor can the creators.", "quantifier": "all seal protocols, all contracts and codexes of this kind, all streams and readers, all errors, all excerpts", "why_tests_cant": "quantifies over all rejected streams and all selections from them", "anchors": ["src/verify.rs: ContractVerify::evaluate", "src/verify.rs: VerificationError"]}
{"id": "C99", "title": "A payment needs no more than the history of what is paid", "statement": "Let a consignment without repeated operations be accepted, and let G be any set of cells. A payment of G is the first block of the consignment followed by any others of its operations, in any order in which operations are preceded by the creators of the cells they refer to, such that the creators of the cells in G which it has are among them. Then (1) the payment is accepted, the cells of G open at the end of the consignment are open at the end of the payment, defined by the same seals and holding the same data in the memory of the contract; (2) for any further operations, without repetitions, that refer, of the cells created in the consignment, only to cells in G, and that consume, of these, only such as were open at its end, the verdict on the payment with the further operations is the verdict on the whole consignment with them: both are accepted, or both are rejected at the same operation with the very same error, of whatever kind; more generally this is so if the payment has, of what the consignment has, the creators of the cells referred to and the operations that spent the cells consumed; (3) a payment exists, as a part of the consignment in its order, that has nothing but the first block and the history of G, that is, the creators of its cells, the creators of what these refer to, and so on; (4) no payment has less; (5) payments of G and of G' from the same consignment can be joined by putting those operations of the second which the first does not have after the first, which is a payment of the cells in G or G'. Conditions as in C98. A cell that was spent in what is not shown can be spent a second time as far as the recipient sees, and if the creators are not shown, the recipient rejects what the whole consignment allows.", "quantifier": "all seal protocols, all contracts and codexes of this kind, all accepted consignments and readers, all sets of cells, all excerpts, all further operations", "why_tests_cant": "quantifies over all consignments, all selections from them and everything that may follow", "anchors": ["src/verify.rs: ContractVerify::evaluate", "src/verify.rs: VerificationError"]}
{"id": "C100", "title": "Owners who each see their own part write one history", "statement": "Let any number of owners start with the same accepted consignment. From then on, any of them may (a) add operations to what they hold, if the evaluation of what they hold together with the new operations succeeds; they look at nothing else; (b) pay anybody, by handing them an excerpt from what they hold, that is, its first block and any of the others in which operations are preceded by the creators of the cells they refer to, which the recipient joins to what they hold. Write down all operations that are added in the order in which they are added. Then at any time (1) this one list is accepted, although nobody need ever have seen all of it; (2) what each owner holds is an excerpt from it, and is accepted; (3) blocks that spend the same cell are the same block, whoever holds them; (4) everything in the list is held by somebody; (5) a cell which some owner holds the creator of, and of which nobody holds a spending, is open in the list and for that owner, defined by the same seal; (6) whoever holds the creator of a cell that is open in the list has it open with the same seal, and the evaluation of what they hold puts the same data for it into the memory of the contract as the evaluation of the list. Over bitcoin seals this holds if all witness transactions are in one chain without double spends, a transaction closes only seals on outpoints it spends, and it closes a seal over one message only. In general, provided seals can be closed but once by the witnesses used, the message of a seal protocol determines the operation id, no operation is added twice, operations do not read what is created only later, and who adds an operation holds the creators of the immutable cells it reads, so far as they exist; contracts and codexes as in C98. If a seal can be closed twice, two owners spend the same cell, each finding it open, and the list is not accepted.", "quantifier": "all seal protocols with single-use seals, all contracts and codexes of this kind, all sets of owners, all sequences of acts and payments of any length, all readers", "why_tests_cant": "quantifies over all behaviours of any number of owners; the claim is about a list that no single run of the code sees", "anchors": ["src/verify.rs: ContractVerify::evaluate", "src/verify.rs: VerificationError"]}
