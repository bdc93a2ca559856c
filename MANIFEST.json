{
 "claims": [
  {
   "property": "C01",
   "status": "proved",
   "theorems": [
    "Rgb.C01_empty_noop"
   ],
   "note": ""
  },
  {
   "property": "C02",
   "status": "proved",
   "theorems": [
    "Rgb.C02_commits_to_codex",
    "Rgb.C02_rejected"
   ],
   "note": ""
  },
  {
   "property": "C03",
   "status": "proved",
   "theorems": [
    "Rgb.C03_genesis_not_applied"
   ],
   "note": ""
  },
  {
   "property": "C04",
   "status": "proved",
   "theorems": [
    "Rgb.C04_first_closes_nothing",
    "Rgb.C04_rejected"
   ],
   "note": ""
  },
  {
   "property": "C05",
   "status": "proved",
   "theorems": [
    "Rgb.C05_rejected",
    "Rgb.C05_seals_committed"
   ],
   "note": ""
  },
  {
   "property": "C06",
   "status": "partial",
   "theorems": [
    "Rgb.C06_partial",
    "Rgb.C06_refuted"
   ],
   "note": "The statement is false of the code: C06_refuted gives an accepted consignment revealing definitions at positions of other cells. C06_partial proves the weaker claim that holds: every revealed token is a token of some cell of the same operation. C81 proves the statement for readers that check what is missing."
  },
  {
   "property": "C07",
   "status": "proved",
   "theorems": [
    "Rgb.C07_acyclic",
    "Rgb.C07_causality",
    "Rgb.C07_not_later",
    "Rgb.C07_not_self"
   ],
   "note": ""
  },
  {
   "property": "C08",
   "status": "proved",
   "theorems": [
    "Rgb.C08_distinct_inputs",
    "Rgb.C08_never_accepted"
   ],
   "note": ""
  },
  {
   "property": "C09",
   "status": "proved",
   "theorems": [
    "Rgb.C09_no_double_closing"
   ],
   "note": ""
  },
  {
   "property": "C10",
   "status": "proved",
   "theorems": [
    "Rgb.C10_counted",
    "Rgb.C10_reannounced",
    "Rgb.C10_refuted"
   ],
   "note": "C10_refuted shows that the unconditional form (no cell is ever closed twice) is false; the property as stated (between two closings there is an announcement, injectively) is proved. C81 proves the statement for readers that check what is missing."
  },
  {
   "property": "C11",
   "status": "proved",
   "theorems": [
    "Rgb.C11_spending_witnessed"
   ],
   "note": ""
  },
  {
   "property": "C12",
   "status": "proved",
   "theorems": [
    "Rgb.C12_witness_verified"
   ],
   "note": ""
  },
  {
   "property": "C13",
   "status": "proved",
   "theorems": [
    "Rgb.C13_accepted",
    "Rgb.C13_no_witness"
   ],
   "note": ""
  },
  {
   "property": "C14",
   "status": "proved",
   "theorems": [
    "Rgb.C14_callbacks",
    "Rgb.C14_no_vm_error",
    "Rgb.C14_not_verified",
    "Rgb.C14_same_checks"
   ],
   "note": ""
  },
  {
   "property": "C15",
   "status": "proved",
   "theorems": [
    "Rgb.C15_applied_verified"
   ],
   "note": ""
  },
  {
   "property": "C16",
   "status": "proved",
   "theorems": [
    "Rgb.C16_applied_once"
   ],
   "note": ""
  },
  {
   "property": "C17",
   "status": "proved",
   "theorems": [
    "Rgb.C17_callback_order",
    "Rgb.C17_witness_first"
   ],
   "note": ""
  },
  {
   "property": "C18",
   "status": "proved",
   "theorems": [
    "Rgb.C18_seals_exact"
   ],
   "note": ""
  },
  {
   "property": "C19",
   "status": "proved",
   "theorems": [
    "Rgb.C19_witnesses_exact"
   ],
   "note": ""
  },
  {
   "property": "C20",
   "status": "proved",
   "theorems": [
    "Rgb.C20_rejected_no_effect"
   ],
   "note": ""
  },
  {
   "property": "C21",
   "status": "proved",
   "theorems": [
    "Rgb.C21_prefix"
   ],
   "note": ""
  },
  {
   "property": "C22",
   "status": "proved",
   "theorems": [
    "Rgb.C22_rejected_block",
    "Rgb.C22_rejection_final"
   ],
   "note": ""
  },
  {
   "property": "C23",
   "status": "proved",
   "theorems": [
    "Rgb.C23_only_reader",
    "Rgb.C23_reader_failure"
   ],
   "note": ""
  },
  {
   "property": "C24",
   "status": "proved",
   "theorems": [
    "Rgb.C24_polls",
    "Rgb.C24_reader_extensional"
   ],
   "note": ""
  },
  {
   "property": "C25",
   "status": "proved",
   "theorems": [
    "Rgb.C25_cases",
    "Rgb.C25_endless",
    "Rgb.C25_terminates"
   ],
   "note": ""
  },
  {
   "property": "C26",
   "status": "proved",
   "theorems": [
    "Rgb.C26_latest_announcement"
   ],
   "note": ""
  },
  {
   "property": "C27",
   "status": "proved",
   "theorems": [
    "Rgb.C27_resolved",
    "Rgb.C27_unspendable"
   ],
   "note": ""
  },
  {
   "property": "C28",
   "status": "proved",
   "theorems": [
    "Rgb.C28_accepted_iff_valid"
   ],
   "note": ""
  },
  {
   "property": "C29",
   "status": "proved",
   "theorems": [
    "Rgb.C29_error_iff",
    "Rgb.C29_unique"
   ],
   "note": ""
  },
  {
   "property": "C30",
   "status": "proved",
   "theorems": [
    "Rgb.C30_seal_unknown"
   ],
   "note": ""
  },
  {
   "property": "C31",
   "status": "proved",
   "theorems": [
    "Rgb.C31_only_callbacks"
   ],
   "note": ""
  },
  {
   "property": "C32",
   "status": "proved",
   "theorems": [
    "Rgb.C32_queries"
   ],
   "note": ""
  },
  {
   "property": "C33",
   "status": "proved",
   "theorems": [
    "Rgb.C33_idempotent"
   ],
   "note": ""
  },
  {
   "property": "C34",
   "status": "proved",
   "theorems": [
    "Rgb.C34_applied_once"
   ],
   "note": ""
  },
  {
   "property": "C35",
   "status": "proved",
   "theorems": [
    "Rgb.C35_ancestor_closed",
    "Rgb.C35_creators_first"
   ],
   "note": ""
  },
  {
   "property": "C36",
   "status": "proved",
   "theorems": [
    "Rgb.C36_conflicts",
    "Rgb.C36_no_double_spend"
   ],
   "note": ""
  },
  {
   "property": "C37",
   "status": "partial",
   "theorems": [
    "Rgb.C37_partial",
    "Rgb.C37_refuted"
   ],
   "note": "The statement is false of the code: C37_refuted gives an accepted consignment whose first operation is not known to the contract. C37_partial proves what holds: the first operation is known or passes the codex, and it is never applied. C81 proves the statement for readers that check what is missing."
  },
  {
   "property": "C38",
   "status": "proved",
   "theorems": [
    "Rgb.C38_reordering"
   ],
   "note": ""
  },
  {
   "property": "C39",
   "status": "proved",
   "theorems": [
    "Rgb.C39_withholding"
   ],
   "note": ""
  },
  {
   "property": "C40",
   "status": "proved",
   "theorems": [
    "Rgb.C40_never_accepted",
    "Rgb.C40_self_contained"
   ],
   "note": ""
  },
  {
   "property": "C41",
   "status": "partial",
   "theorems": [
    "Rgb.C41_partial",
    "Rgb.C41_refuted"
   ],
   "note": "The documented restriction is false of the code: C41_refuted gives an accepted consignment attaching a witness to the first operation, which is reported. C41_partial proves it for streams that attach no witness to first or input-less operations. C81 proves the statement for readers that check what is missing."
  },
  {
   "property": "C42",
   "status": "proved",
   "theorems": [
    "Rgb.C42_parametricity"
   ],
   "note": ""
  },
  {
   "property": "C43",
   "status": "proved",
   "theorems": [
    "Rgb.C43_consumed",
    "Rgb.C43_same_creator"
   ],
   "note": ""
  },
  {
   "property": "C44",
   "status": "proved",
   "theorems": [
    "Rgb.C44_relative",
    "Rgb.C44_self_contained"
   ],
   "note": ""
  },
  {
   "property": "C45",
   "status": "proved",
   "theorems": [
    "Rgb.C45_relative_iff",
    "Rgb.C45_resolved"
   ],
   "note": ""
  },
  {
   "property": "C46",
   "status": "proved",
   "theorems": [
    "Rgb.C46_other_witness",
    "Rgb.C46_resolve_eq_iff"
   ],
   "note": ""
  },
  {
   "property": "C47",
   "status": "proved",
   "theorems": [
    "Rgb.C47_bytes",
    "Rgb.C47_no_reduction",
    "Rgb.C47_token_eq_iff"
   ],
   "note": ""
  },
  {
   "property": "C48",
   "status": "proved",
   "theorems": [
    "Rgb.C48_canonical",
    "Rgb.C48_prefix_free",
    "Rgb.C48_round_trip",
    "Rgb.C48_total"
   ],
   "note": ""
  },
  {
   "property": "C49",
   "status": "proved",
   "theorems": [
    "Rgb.C49_clone",
    "Rgb.C49_cloned_stream"
   ],
   "note": ""
  },
  {
   "property": "C50",
   "status": "proved",
   "theorems": [
    "Rgb.C50_inputless",
    "Rgb.C50_refuted"
   ],
   "note": "C50_refuted: the change-log claim is not enforced by this code; C50_inputless: exactly when an input-less operation is accepted."
  },
  {
   "property": "C51",
   "status": "proved",
   "theorems": [
    "Rgb.C51_known_ids",
    "Rgb.C51_known_operations",
    "Rgb.C51_seal_entries",
    "Rgb.C51_seals",
    "Rgb.C51_witnesses"
   ],
   "note": ""
  },
  {
   "property": "C52",
   "status": "proved",
   "theorems": [
    "Rgb.C52_common_ancestry"
   ],
   "note": ""
  },
  {
   "property": "C53",
   "status": "proved",
   "theorems": [
    "Rgb.C53_bitcoin_seals"
   ],
   "note": ""
  },
  {
   "property": "C54",
   "status": "partial",
   "theorems": [
    "Rgb.C54_partial",
    "Rgb.C54_refuted",
    "Rgb.C54_same_owner"
   ],
   "note": "The statement is false of the code: C54_refuted (the seal of output 1 closes output 0). C54_partial: the definition is committed to by some cell of the creator, and by the consumed one if the revealing block has its positions right; C54_same_owner: then two consignments close an address for the same token. C81 proves the statement for readers that check what is missing."
  },
  {
   "property": "C55",
   "status": "proved",
   "theorems": [
    "Rgb.C55_cells",
    "Rgb.C55_double_spend",
    "Rgb.C55_global",
    "Rgb.C55_not_lawful_memory",
    "Rgb.C55_spent_cells_stay"
   ],
   "note": ""
  },
  {
   "property": "C56",
   "status": "partial",
   "theorems": [
    "Rgb.C56_partial",
    "Rgb.C56_refuted"
   ],
   "note": "C56_refuted: the assertions fail on an accepted transfer without outputs. C56_partial: they hold when genesis has the smallest id, the other ids are distinct and every other block has a witness and reveals some seal. C88 shows that, ids being distinct, these conditions are exact."
  },
  {
   "property": "C57",
   "status": "proved",
   "theorems": [
    "Rgb.C57_empty",
    "Rgb.C57_genesis_only",
    "Rgb.C57_invalid_genesis",
    "Rgb.C57_invalid_seals",
    "Rgb.C57_no_witness",
    "Rgb.C57_not_closed",
    "Rgb.C57_seal_unknown"
   ],
   "note": ""
  },
  {
   "property": "C58",
   "status": "proved",
   "theorems": [
    "Rgb.C58_external_seal",
    "Rgb.C58_genesis_with_wout",
    "Rgb.C58_no_accepted_spending",
    "Rgb.C58_relative_seal"
   ],
   "note": ""
  },
  {
   "property": "C59",
   "status": "proved",
   "theorems": [
    "Rgb.C59_divergence",
    "Rgb.C59_specification"
   ],
   "note": ""
  },
  {
   "property": "C60",
   "status": "proved",
   "theorems": [
    "Rgb.C60_calls",
    "Rgb.C60_conservation"
   ],
   "note": ""
  },
  {
   "property": "C61",
   "status": "proved",
   "theorems": [
    "Rgb.C61_checkpoint"
   ],
   "note": ""
  },
  {
   "property": "C62",
   "status": "proved",
   "theorems": [
    "Rgb.C62_incremental"
   ],
   "note": ""
  },
  {
   "property": "C63",
   "status": "proved",
   "theorems": [
    "Rgb.C63_known_exactly",
    "Rgb.C63_order_irrelevant"
   ],
   "note": ""
  },
  {
   "property": "C64",
   "status": "proved",
   "theorems": [
    "Rgb.C64_applied",
    "Rgb.C64_history",
    "Rgb.C64_needs_anchors",
    "Rgb.C64_needs_positions",
    "Rgb.C64_no_conflict",
    "Rgb.C64_same_seal"
   ],
   "note": ""
  },
  {
   "property": "C65",
   "status": "partial",
   "theorems": [
    "Rgb.C65_consignment_partial",
    "Rgb.C65_history_partial",
    "Rgb.C65_refuted"
   ],
   "note": "The statement is false of the code: C65_refuted gives an accepted consignment in which a known operation spends output 7 of an operation without such an output, because a definition revealed at a position is not compared with the outputs. C65_consignment_partial proves it for consignments whose definitions stand at the positions of the cells committing to them; C65_history_partial proves it for applied operations given a codex that checks inputs. C81 proves the statement for readers that check what is missing."
  },
  {
   "property": "C66",
   "status": "proved",
   "theorems": [
    "Rgb.C66_data_independence"
   ],
   "note": ""
  },
  {
   "property": "C67",
   "status": "proved",
   "theorems": [
    "Rgb.C67_accepted_maps",
    "Rgb.C67_accepted_sequences",
    "Rgb.C67_order",
    "Rgb.C67_round_trip"
   ],
   "note": ""
  },
  {
   "property": "C68",
   "status": "proved",
   "theorems": [
    "Rgb.C68_without_repeats"
   ],
   "note": ""
  },
  {
   "property": "C69",
   "status": "proved",
   "theorems": [
    "Rgb.C69_exists",
    "Rgb.C69_known",
    "Rgb.C69_merge",
    "Rgb.C69_merged"
   ],
   "note": ""
  },
  {
   "property": "C70",
   "status": "proved",
   "theorems": [
    "Rgb.C70_debug",
    "Rgb.C70_injective",
    "Rgb.C70_kind",
    "Rgb.C70_layout"
   ],
   "note": ""
  },
  {
   "property": "C71",
   "status": "proved",
   "theorems": [
    "Rgb.C71_bitcoin",
    "Rgb.C71_evidence",
    "Rgb.C71_history",
    "Rgb.C71_needs_publication",
    "Rgb.C71_published"
   ],
   "note": ""
  },
  {
   "property": "C72",
   "status": "proved",
   "theorems": [
    "Rgb.C72_conserved",
    "Rgb.C72_no_inflation",
    "Rgb.C72_supply"
   ],
   "note": ""
  },
  {
   "property": "C73",
   "status": "proved",
   "theorems": [
    "Rgb.C73_applied",
    "Rgb.C73_known",
    "Rgb.C73_more",
    "Rgb.C73_outcome",
    "Rgb.C73_pure"
   ],
   "note": ""
  },
  {
   "property": "C74",
   "status": "proved",
   "theorems": [
    "Rgb.C74_all",
    "Rgb.C74_applied",
    "Rgb.C74_guaranteed",
    "Rgb.C74_isolated",
    "Rgb.C74_needs_codex",
    "Rgb.C74_no_replay"
   ],
   "note": ""
  },
  {
   "property": "C75",
   "status": "proved",
   "theorems": [
    "Rgb.C75_covers",
    "Rgb.C75_needs_genesis",
    "Rgb.C75_recovery"
   ],
   "note": ""
  },
  {
   "property": "C76",
   "status": "proved",
   "theorems": [
    "Rgb.C76_confluence",
    "Rgb.C76_excerpt",
    "Rgb.C76_needs_local"
   ],
   "note": ""
  },
  {
   "property": "C77",
   "status": "proved",
   "theorems": [
    "Rgb.C77_convergence",
    "Rgb.C77_deliveries",
    "Rgb.C77_future",
    "Rgb.C77_known",
    "Rgb.C77_needs_genesis"
   ],
   "note": ""
  },
  {
   "property": "C78",
   "status": "proved",
   "theorems": [
    "Rgb.C78_effects",
    "Rgb.C78_last",
    "Rgb.C78_needs_same",
    "Rgb.C78_reanchoring",
    "Rgb.C78_rejected",
    "Rgb.C78_unmoved"
   ],
   "note": ""
  },
  {
   "property": "C79",
   "status": "proved",
   "theorems": [
    "Rgb.C79_contracts",
    "Rgb.C79_needs_script",
    "Rgb.C79_no_script",
    "Rgb.C79_operations",
    "Rgb.C79_separation",
    "Rgb.C79_verdicts"
   ],
   "note": ""
  },
  {
   "property": "C80",
   "status": "proved",
   "theorems": [
    "Rgb.C80_auditor",
    "Rgb.C80_environment",
    "Rgb.C80_needs_witnesses",
    "Rgb.C80_no_conflict",
    "Rgb.C80_no_double_closing",
    "Rgb.C80_transfer"
   ],
   "note": ""
  },
  {
   "property": "C81",
   "status": "proved",
   "theorems": [
    "Rgb.C81_careful",
    "Rgb.C81_committed",
    "Rgb.C81_existing",
    "Rgb.C81_genesis",
    "Rgb.C81_guard",
    "Rgb.C81_no_conflict",
    "Rgb.C81_once",
    "Rgb.C81_outcome",
    "Rgb.C81_owner",
    "Rgb.C81_refused",
    "Rgb.C81_terminates",
    "Rgb.C81_witness"
   ],
   "note": ""
  },
  {
   "property": "C82",
   "status": "proved",
   "theorems": [
    "Rgb.C82_agreement",
    "Rgb.C82_needs_reads",
    "Rgb.C82_order",
    "Rgb.C82_single_use",
    "Rgb.C82_stable"
   ],
   "note": ""
  },
  {
   "property": "C83",
   "status": "proved",
   "theorems": [
    "Rgb.C83_accepted_iff",
    "Rgb.C83_resumed",
    "Rgb.C83_saved",
    "Rgb.C83_terminates",
    "Rgb.C83_trailing",
    "Rgb.C83_truncated"
   ],
   "note": ""
  },
  {
   "property": "C84",
   "status": "proved",
   "theorems": [
    "Rgb.C84_excerpt",
    "Rgb.C84_iff",
    "Rgb.C84_least",
    "Rgb.C84_needs_distinct",
    "Rgb.C84_rejected"
   ],
   "note": ""
  },
  {
   "property": "C85",
   "status": "proved",
   "theorems": [
    "Rgb.C85_ancestry",
    "Rgb.C85_effects",
    "Rgb.C85_needs_single_use",
    "Rgb.C85_operations",
    "Rgb.C85_same"
   ],
   "note": ""
  },
  {
   "property": "C86",
   "status": "proved",
   "theorems": [
    "Rgb.C86_anywhere",
    "Rgb.C86_bitcoin",
    "Rgb.C86_control",
    "Rgb.C86_history",
    "Rgb.C86_intended",
    "Rgb.C86_needs_positions",
    "Rgb.C86_safe",
    "Rgb.C86_spend"
   ],
   "note": ""
  },
  {
   "property": "C87",
   "status": "proved",
   "theorems": [
    "Rgb.C87_iff",
    "Rgb.C87_same_run",
    "Rgb.C87_some_owner",
    "Rgb.C87_takeover"
   ],
   "note": ""
  },
  {
   "property": "C88",
   "status": "proved",
   "theorems": [
    "Rgb.C88_iff",
    "Rgb.C88_no_seals_fails"
   ],
   "note": ""
  },
  {
   "property": "C89",
   "status": "proved",
   "theorems": [
    "Rgb.C89_accepted_iff",
    "Rgb.C89_order",
    "Rgb.C89_parametricity"
   ],
   "note": ""
  },
  {
   "property": "C90",
   "status": "proved",
   "theorems": [
    "Rgb.C90_bitcoin",
    "Rgb.C90_contracts",
    "Rgb.C90_stranded",
    "Rgb.C90_together",
    "Rgb.C90_unchecked"
   ],
   "note": ""
  },
  {
   "property": "C91",
   "status": "proved",
   "theorems": [
    "Rgb.C91_exists",
    "Rgb.C91_merges",
    "Rgb.C91_needs_reads",
    "Rgb.C91_readOff",
    "Rgb.C91_restart",
    "Rgb.C91_self",
    "Rgb.C91_state"
   ],
   "note": ""
  },
  {
   "property": "C92",
   "status": "proved",
   "theorems": [
    "Rgb.C92_agree",
    "Rgb.C92_collect",
    "Rgb.C92_consensus",
    "Rgb.C92_exchange",
    "Rgb.C92_handover",
    "Rgb.C92_safe"
   ],
   "note": ""
  },
  {
   "property": "C93",
   "status": "proved",
   "theorems": [
    "Rgb.C93_again",
    "Rgb.C93_final",
    "Rgb.C93_permanent",
    "Rgb.C93_retry",
    "Rgb.C93_script",
    "Rgb.C93_transient"
   ],
   "note": ""
  },
  {
   "property": "C94",
   "status": "proved",
   "theorems": [
    "Rgb.C94_accepted",
    "Rgb.C94_gone",
    "Rgb.C94_maximal",
    "Rgb.C94_reinstated",
    "Rgb.C94_remainder",
    "Rgb.C94_returned",
    "Rgb.C94_state"
   ],
   "note": ""
  },
  {
   "property": "C95",
   "status": "proved",
   "theorems": [
    "Rgb.C95_audit",
    "Rgb.C95_books",
    "Rgb.C95_cells",
    "Rgb.C95_needs_positions",
    "Rgb.C95_needs_single_use",
    "Rgb.C95_seals",
    "Rgb.C95_two_books",
    "Rgb.C95_unique",
    "Rgb.C95_witness"
   ],
   "note": ""
  },
  {
   "property": "C96",
   "status": "proved",
   "theorems": [
    "Rgb.C96_condensed",
    "Rgb.C96_content",
    "Rgb.C96_fixed",
    "Rgb.C96_needs_known_start",
    "Rgb.C96_needs_single_use",
    "Rgb.C96_reports"
   ],
   "note": ""
  },
  {
   "property": "C97",
   "status": "proved",
   "theorems": [
    "Rgb.C97_book",
    "Rgb.C97_histories",
    "Rgb.C97_implementations",
    "Rgb.C97_needs_ancestors",
    "Rgb.C97_needs_genesis",
    "Rgb.C97_not_reference",
    "Rgb.C97_open",
    "Rgb.C97_open_later",
    "Rgb.C97_published",
    "Rgb.C97_unspent"
   ],
   "note": ""
  },
  {
   "property": "C98",
   "status": "proved",
   "theorems": [
    "Rgb.C98_conclusive",
    "Rgb.C98_evidence",
    "Rgb.C98_exists",
    "Rgb.C98_minimal",
    "Rgb.C98_needs_creators",
    "Rgb.C98_needs_spender",
    "Rgb.C98_transferable"
   ],
   "note": ""
  },
  {
   "property": "C99",
   "status": "proved",
   "theorems": [
    "Rgb.C99_accepted",
    "Rgb.C99_continuation",
    "Rgb.C99_exists",
    "Rgb.C99_joined",
    "Rgb.C99_minimal",
    "Rgb.C99_needs_creators",
    "Rgb.C99_needs_open",
    "Rgb.C99_recipient"
   ],
   "note": ""
  },
  {
   "property": "C100",
   "status": "proved",
   "theorems": [
    "Rgb.C100_bitcoin",
    "Rgb.C100_content",
    "Rgb.C100_held",
    "Rgb.C100_history",
    "Rgb.C100_holdings",
    "Rgb.C100_needs_single_use",
    "Rgb.C100_open",
    "Rgb.C100_spent_once"
   ],
   "note": ""
  }
 ]
}