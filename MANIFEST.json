{"claims": [
  {"property": "C01", "status": "proved", "theorems": ["Verif.Micropayment.C01_escrow_total"], "note": "Induction over every op history from empty storage, including arbitrary external balance/block/offline changes between calls."},
  {"property": "C02", "status": "proved", "theorems": ["Verif.Micropayment.C02_no_creation", "Verif.Micropayment.C02_conservation", "Verif.Micropayment.C02_loss_without_account"], "note": "Never increases over any history; exact per call under account existence; the loss without an existing account is exhibited."},
  {"property": "C03", "status": "proved", "theorems": ["Verif.Micropayment.C03_sessions_consecutive", "Verif.Micropayment.C03_replay_needs_wraparound", "Verif.Micropayment.C03_voucher_paid_once"], "note": "The session id is a u32 that wraps in release builds: the once-only claim is for channel incarnations with at most 2^32 paid claims; replays need a full wrap-around."},
  {"property": "C04", "status": "proved", "theorems": ["Verif.Micropayment.C04_escrow_protected"], "note": "All histories of calls not signed by the server, from any reachable state."},
  {"property": "C05", "status": "proved", "theorems": ["Verif.Micropayment.C05_claim_pays_signed_amount", "Verif.Micropayment.C05_claim_credits_server"], "note": "Decision theorem on the payment event; money part under existence of server and treasury accounts."},
  {"property": "C06", "status": "partial", "theorems": ["Verif.Micropayment.C06_overclaim_has_no_effect", "Verif.Micropayment.C06_overclaim_body_pays_rest_partial"], "note": "False of the code: the error returned after paying the rest rolls everything back (proved for all inputs). The partial theorem covers the call body before roll-back."},
  {"property": "C07", "status": "proved", "theorems": ["Verif.Micropayment.C07_voucher_bytes_injective"], "note": "Byte-level injectivity for all 32-byte accounts, u64 nonces, u32 sessions, u128 amounts."},
  {"property": "C08", "status": "proved", "theorems": ["Verif.CreditAccumulation.C08_nonces_consecutive"], "note": "All histories of reports, key changes and credit operations; hash and signature scheme arbitrary."},
  {"property": "C09", "status": "proved", "theorems": ["Verif.Credit.C09_increases_apart", "Verif.Credit.C09_report_effect"], "note": "From any state, all operation sequences."},
  {"property": "C10", "status": "proved", "theorems": ["Verif.UserPrivileges.C10_privileges_refine_table", "Verif.UserPrivileges.C10_only_force_origin_grants", "Verif.UserPrivileges.C10_accepted"], "note": "Refinement to an abstract table for all histories and all force-origin predicates."},
  {"property": "C100", "status": "proved", "theorems": ["Verif.CreditAccumulation.C100_report", "Verif.CreditAccumulation.C100_signatures", "Verif.CreditAccumulation.C100_keys"], "note": "As long as root has set no key in a slot, the zero account counts as that key (see C60). Nonces as 64-bit numbers."},
  {"property": "C101", "status": "proved", "theorems": ["Verif.StakingCredit.C101_stake", "Verif.StakingCredit.C101_usdt", "Verif.StakingCredit.C101_prices", "Verif.StakingCredit.C101_records", "Verif.StakingCredit.C101_history"], "note": "Price lists with at most nine entries, rising for the USDT calls (see C48, C69); credit needed for delegating at most that of level one (genesis value 100)."},
  {"property": "C102", "status": "proved", "theorems": ["Verif.Operation.C102_accepted", "Verif.Operation.C102_effects"], "note": "The result of taking back staking credit is a parameter (see C82 for the credit pallet). Locks enter as their maximum."},
  {"property": "C103", "status": "proved", "theorems": ["Verif.Pause.C103_essential", "Verif.Pause.C103_filter", "Verif.Pause.C103_control", "Verif.Pause.C103_transfers_pausable"], "note": "pallet-tx-pause, pallet-utility and pallet-sudo by their contracts."},
  {"property": "C104", "status": "proved", "theorems": ["Verif.World.C104_reserved", "Verif.World.C104_registry", "Verif.World.C104_tips", "Verif.World.C104_unregister"], "note": "The other pallets with deposits are summarised as a keeper that releases at most what it took; the hash of tips has no collisions."},
  {"property": "C105", "status": "proved", "theorems": ["Verif.World.C105_books", "Verif.World.C105_supply"], "note": "Upper bound: money may be destroyed (slashes, dust, fees)."},
  {"property": "C106", "status": "proved", "theorems": ["Verif.Delegation.C106_records", "Verif.Delegation.C106_bonus", "Verif.Delegation.C106_compensate"], "note": ""},
  {"property": "C107", "status": "proved", "theorems": ["Verif.Credit.C107_upgrade", "Verif.Credit.C107_half_year", "Verif.Credit.C107_once", "Verif.Credit.C107_rules_disagree"], "note": "The half-years since the reference era are counted modulo 256, as in the code. Finding: from the sixth half-year on the upgrade and the half-yearly rule give different rates (C107_rules_disagree)."},
  {"property": "C108", "status": "proved", "theorems": ["Verif.World.C108_backed", "Verif.World.C108_deposit_counts", "Verif.World.C108_root_unlocks"], "note": "Covered up to the losses, which are specified call by call (`lossBy`) and are zero for everything but penalties, dust and rewards of an account that is gone. Findings: a reserved deposit counts towards the stake and can be forfeited afterwards (C108_deposit_counts); the root can remove the locks of stakes and votes which still count (C108_root_unlocks)."},
  {"property": "C109", "status": "proved", "theorems": ["Verif.Chain.C109_supply", "Verif.Chain.C109_books", "Verif.Chain.C109_reserved", "Verif.Chain.C109_refines", "Verif.Chain.C109_overshoot"], "note": "Rewards computed by the credit pallet, exposures and the dates of eras are arbitrary arguments, hence covered for all values. Finding: the half unit is real (C109_overshoot, as C46)."},
  {"property": "C11", "status": "proved", "theorems": ["Verif.UserPrivileges.C11_decode_encode", "Verif.UserPrivileges.C11_decode_succeeds_iff", "Verif.UserPrivileges.C11_sets_survive"], "note": "Byte-level round trip."},
  {"property": "C110", "status": "proved", "theorems": ["Verif.Payout.C110_amounts", "Verif.Payout.C110_once", "Verif.Payout.C110_block"], "note": "Who gets the money and how much of it comes from the pool is C46, C47 and C109, which apply by C110_block."},
  {"property": "C111", "status": "proved", "theorems": ["Verif.Payout.C111_income"], "note": "The condition on the number of delegations per era is sufficient, not necessary; C92 is the same on the model of the staking pallet alone, for a single era."},
  {"property": "C112", "status": "proved", "theorems": ["Verif.Payout.C112_join", "Verif.Payout.C112_restart"], "note": "C112_restart is a finding: joining again after having left replaces the history, so the bounded reward period of a credit record starts anew and is paid again."},
  {"property": "C113", "status": "proved", "theorems": ["Verif.Genesis.C113_bonded", "Verif.Genesis.C113_starts", "Verif.Genesis.C113_history", "Verif.Genesis.C113_skipped"], "note": "Findings: a delegation in the specification always stops the node, since credit is built after staking (C113_starts); entries that cannot be bonded are skipped in silence (C113_skipped). Forcing, invulnerables and the slash reward fraction are not in the model."},
  {"property": "C114", "status": "partial", "theorems": ["Verif.Payout.C114_leave_partial", "Verif.Payout.C114_last", "Verif.Payout.C114_gone", "Verif.Payout.C114_lost"], "note": "Missing: the case that the first unpaid era (counted in blocks) has the same number as the staking era. There the code removes the record at once and the unpaid eras are lost: C114_lost is the witness. C114_last holds for every way a delegation can end with the record kept."},
  {"property": "C115", "status": "proved", "theorems": ["Verif.Chain.C115_step", "Verif.Chain.C115_history", "Verif.Chain.C115_solid", "Verif.Chain.C115_bridge"], "note": "The payers are listed in the definitions pays, worldPays and ledgerPays, in terms of the call and the state before it. C115_bridge shows that the exception for bridge admins is real: bridge_deeper_to_other moves money of any account without its consent."},
  {"property": "C116", "status": "proved", "theorems": ["Verif.Inspect.C116_as_typed", "Verif.Inspect.C116_block_by_number", "Verif.Inspect.C116_block_by_hash", "Verif.Inspect.C116_block_bytes", "Verif.Inspect.C116_extrinsic_by_number", "Verif.Inspect.C116_extrinsic_by_hash", "Verif.Inspect.C116_extrinsic_bytes", "Verif.Inspect.C116_blank", "Verif.Inspect.C116_large_number", "Verif.Inspect.C116_rest_ignored", "Verif.Inspect.C116_refused", "Verif.Inspect.C116_plus"], "note": "Exceptions carried as hypotheses: numerals of exactly 64 digits and encoded blocks of exactly 32 bytes read as hashes. Database and decoders are parameters; the formatting of the output is not modelled; the readers of std, impl-serde, fixed-hash and rustc-hex are written down from their sources and trusted."},
  {"property": "C117", "status": "proved", "theorems": ["Verif.Payout.C117_kept", "Verif.Payout.C117_steady_income"], "note": "The account must have a balance before: a first deposit below the existential deposit is dropped (part of C91). The lower bound is attained in the example. That the credit is steady is stated about the recorded credit and reward period at each payout."},
  {"property": "C118", "status": "proved", "theorems": ["Verif.NodeUpgrade.C118_kept", "Verif.NodeUpgrade.C118_new_untouched", "Verif.NodeUpgrade.C118_once", "Verif.NodeUpgrade.C118_read_back", "Verif.NodeUpgrade.C118_needed", "Verif.NodeUpgrade.C118_removed", "Verif.NodeUpgrade.C118_bytes", "Verif.NodeUpgrade.C118_decoded"], "note": "The SCALE encoding (compact lengths in all four modes) is modelled byte by byte; StorageMap::translate is library code and trusted to visit every entry once."},
  {"property": "C119", "status": "proved", "theorems": ["Verif.Chain.C119_registry", "Verif.Chain.C119_tips", "Verif.Chain.C119_operation", "Verif.Chain.C119_channels", "Verif.Chain.C119_council", "Verif.Chain.C119_credit", "Verif.Chain.C119_adsc", "Verif.Chain.C119_ledger", "Verif.Chain.C119_delegations", "Verif.Chain.C119_escrow", "Verif.Chain.C119_graph", "Verif.Chain.C119_spans", "Verif.Chain.C119_unlock"], "note": "For the delegations, the block numbers seen by credit and delegations agree when somebody stakes for credit (there is one block number on the chain). The operations of the credit pallet and of the delegations used by staking for credit are part of the histories, but not counted as calls."},
  {"property": "C12", "status": "partial", "theorems": ["Verif.UserPrivileges.C12_migration_loses_privileges", "Verif.UserPrivileges.C12_migration_keeps_others_partial", "Verif.UserPrivileges.C12_migration"], "note": "False of the code: the migration overwrites existing privileges (witness proved). Partial: accounts not named by the legacy items keep everything."},
  {"property": "C120", "status": "proved", "theorems": ["Verif.FeeMultiplier.C120_bounds", "Verif.FeeMultiplier.C120_direction", "Verif.FeeMultiplier.C120_moves", "Verif.FeeMultiplier.C120_mono_prev", "Verif.FeeMultiplier.C120_mono_load", "Verif.FeeMultiplier.C120_slow", "Verif.FeeMultiplier.C120_day", "Verif.FeeMultiplier.C120_time_to_minimum", "Verif.FeeMultiplier.C120_congested", "Verif.FeeMultiplier.C120_congested_day", "Verif.FeeMultiplier.C120_idle", "Verif.FeeMultiplier.C120_fee_mono", "Verif.FeeMultiplier.C120_fee_floor", "Verif.FeeMultiplier.C120_charge"], "note": "The update rule and the fee formula are library code, written out with their roundings; the parameters are those of the runtime. Monotonicity in the load is for blocks judged by computing time (the proof size is practically unlimited, and in its unit the roundings of the two terms of the rule can differ)."},
  {"property": "C121", "status": "proved", "theorems": ["Verif.Payout.C121_forced", "Verif.Payout.C121_refused", "Verif.Payout.C121_without_credit", "Verif.Payout.C121_out"], "note": "An account that is unstaked by force also loses the reward of eras it has completed but not been paid for (example next to the theorem). The verdict of the signature in staking_delegate is an input."},
  {"property": "C122", "status": "proved", "theorems": ["Verif.ChainSpec.C122_balances", "Verif.ChainSpec.C122_starts", "Verif.ChainSpec.C122_staked", "Verif.ChainSpec.C122_node", "Verif.ChainSpec.C122_endowed_stash"], "note": "Finding C122_endowed_stash: an authority whose stash is also an endowed account with an endowment below the stake stops the node. Session keys, EVM accounts, device settings and the sudo key of the specification are not modelled; the genesis of balances and technical committee is a library contract."},
  {"property": "C123", "status": "partial", "theorems": ["Verif.Penalty.C123_era_start", "Verif.Penalty.C123_report", "Verif.Penalty.C123_no_halt_partial", "Verif.Penalty.C123_halts"], "note": "The code violates the last part (C123_halts): a delegator whose credit is deleted between report and slash (forced unstaking, penalty of u64::MAX) stops the chain at the start of an era. Proved for all histories without such deletions."},
  {"property": "C124", "status": "proved", "theorems": ["Verif.Penalty.C124_forced", "Verif.Penalty.C124_single"], "note": "The case without effect is a panic of the extrinsic (unwrap in update_credit_history)."},
  {"property": "C125", "status": "proved", "theorems": ["Verif.Epoch.C125_era", "Verif.Epoch.C125_identified", "Verif.Epoch.C125_charged", "Verif.Epoch.C125_fixed", "Verif.Epoch.C125_recorded"], "note": "Reports of the current session are identified by the storage of the active era, others by the root. This discharges the assumption of C39 to C42 and C97 that the exposure of an era is a fixed function."},
  {"property": "C126", "status": "partial", "theorems": ["Verif.Epoch.C126_no_halt_partial", "Verif.Epoch.C126_halts"], "note": "The code violates the statement (C126_halts): forced unstaking of a delegator between report and slash stops the chain at a session change. Proved for all histories without calls that delete a credit record. Other than in C123, exposures are not an assumption: they come from the roots of sessions."},
  {"property": "C127", "status": "partial", "theorems": ["Verif.Epoch.C127_same_partial", "Verif.Epoch.C127_unaccountable"], "note": "The code violates the statement (C127_unaccountable): when an election fails the validators stay, but no exposure is recorded for the new era. A report in the session itself is charged to nothing, the same report one session later to the stake of the last election. Proved for validators that were elected."},
  {"property": "C128", "status": "proved", "theorems": ["Verif.ChainGenesis.C128_first", "Verif.ChainGenesis.C128_supply", "Verif.ChainGenesis.C128_own", "Verif.ChainGenesis.C128_reserved", "Verif.ChainGenesis.C128_payouts", "Verif.ChainGenesis.C128_node", "Verif.ChainGenesis.C128_evm_paired", "Verif.ChainGenesis.C128_evm_fresh"], "note": "Which account an EVM address belongs to at genesis is decided by the EVM pallet, outside of the repository. C128_evm_fresh (finding): if it is an account of its own, each of the four gets 2^128-1, the issuance stops at 2^128-1 and is not the sum of the balances."},
  {"property": "C129", "status": "partial", "theorems": ["Verif.Transaction.C129_exact", "Verif.Transaction.C129_authorised", "Verif.Transaction.C129_once_partial", "Verif.Transaction.C129_lifetime", "Verif.Transaction.C129_node", "Verif.Transaction.C129_era_bytes", "Verif.Transaction.C129_executed_twice", "Verif.Transaction.C129_current"], "note": "Fails as stated: the nonce is stored with the account, and an account emptied below the existential deposit is removed. An immortal transaction of it can then be executed again by anyone once the account gets money (C129_executed_twice; also a mortal one, within its lifetime). C129_once_partial: this is the only way, apart from using 2^32 nonces. Signatures are a parameter; assumed where said that a signature belongs to one account and one payload, and that block hashes differ."},
  {"property": "C13", "status": "proved", "theorems": ["Verif.Credit.C13_level_bands", "Verif.Credit.C13_level_monotone", "Verif.Credit.C13_level_numbers"], "note": ""},
  {"property": "C130", "status": "partial", "theorems": ["Verif.Origins.C130_delegated_partial", "Verif.Origins.C130_narrow", "Verif.Origins.C130_taken_over", "Verif.Origins.C130_works"], "note": "Proved for governance and staking proxies (C130_narrow) without exception. For non-transfer proxies the claim is false: the filter lets the recovery pallet through, so that a proxy can name its own friends for the recovery of the account, recover it and then transfer its money without filter (C130_taken_over). C130_delegated_partial: this is the only way. Assumed: the account is no derivative account and no multisignature; root does not dispatch in its name."},
  {"property": "C131", "status": "proved", "theorems": ["Verif.Governance.C131_close", "Verif.Governance.C131_sources", "Verif.Governance.C131_once", "Verif.Governance.C131_accepted", "Verif.Governance.C131_prime_alone", "Verif.Governance.C131_settled"], "note": "pallet_collective is a library and modelled from its documented behaviour (trusted base). C131_prime_alone: one vote of the prime passes a motion as unanimous if the others stay silent."},
  {"property": "C132", "status": "partial", "theorems": ["Verif.Governance.C132_share_partial", "Verif.Governance.C132_minority", "Verif.Governance.C132_separate", "Verif.Governance.C132_thirteen", "Verif.Governance.C132_half_is_enough", "Verif.Governance.C132_override", "Verif.Governance.C132_votes"], "note": "False once root has overwritten the collective's list: the elections report only those who leave their own list, so votes of accounts set by root stay in open motions after these accounts are gone, and a motion passes as unanimous without a vote of any member (C132_override). Proved for all other histories. Exactly half is enough where the comments say straight majority (C132_half_is_enough)."},
  {"property": "C133", "status": "proved", "theorems": ["Verif.Origins.C133_authorised", "Verif.Origins.C133_claim", "Verif.Origins.C133_own", "Verif.Origins.C133_accepts", "Verif.Origins.C133_works", "Verif.Origins.C133_rescuer", "Verif.Origins.C133_announced", "Verif.Origins.C133_made", "Verif.Origins.C133_unnamed"], "note": "The pallets proxy, recovery, utility and multisig are libraries, modelled from their behaviour (trusted base); the proxy types and filters are the runtime's own. Deposits are assumed to be paid, announcements and approvals of multisignatures are inputs."},
  {"property": "C134", "status": "proved", "theorems": ["Verif.Chain.C134_amounts", "Verif.Chain.C134_first", "Verif.Chain.C134_node"], "note": "Amounts kept by staking for credit and prices set by administrators are not covered; numbers of blocks and eras are not either."},
  {"property": "C135", "status": "proved", "theorems": ["Verif.BaseFee.C135_exact", "Verif.BaseFee.C135_step", "Verif.BaseFee.C135_direction", "Verif.BaseFee.C135_recovers", "Verif.BaseFee.C135_root", "Verif.BaseFee.C135_stuck"], "note": "The rule itself is that of the library pallet-base-fee and part of the trusted base; the repository sets its parameters. C135_stuck: above the bound empty blocks do not lower the price any more."},
  {"property": "C136", "status": "proved", "theorems": ["Verif.EthTx.C136_block", "Verif.EthTx.C136_no_other_way", "Verif.EthTx.C136_convert", "Verif.EthTx.C136_pending", "Verif.EthTx.C136_once", "Verif.EthTx.C136_executed_twice"], "note": "How pallet-ethereum and the self-contained extrinsics of Frontier work is part of the trusted base. C136_executed_twice: after the account was removed the nonce starts again and an old transaction is valid again."},
  {"property": "C137", "status": "partial", "theorems": ["Verif.TipsCouncil.C137_tippers", "Verif.TipsCouncil.C137_declare", "Verif.TipsCouncil.C137_decided_by_elected", "Verif.TipsCouncil.C137_half_partial", "Verif.TipsCouncil.C137_one_decides", "Verif.TipsCouncil.C137_panics"], "note": "The last sentence fails when members change between the moment half was reached and the closing: C137_one_decides (one member of three decides alone), C137_panics (closing hits an index out of bounds). C137_half_partial proves it for an unchanged council, for declarations of one kind (C34)."},
  {"property": "C138", "status": "proved", "theorems": ["Verif.Ledger.C138_leave", "Verif.Ledger.C138_leave_full", "Verif.Ledger.C138_reward_keeps", "Verif.Slashing.C138_spans", "Verif.Chain.C138_chain", "Verif.Chain.C138_chain_full"], "note": "C138_leave and C138_leave_full withdraw with a sufficient number of slashing spans; C138_spans says which numbers are. C138_reward_keeps is the witness for the last sentence."},
  {"property": "C139", "status": "proved", "theorems": ["Verif.Exit.C139_council", "Verif.Exit.C139_tips", "Verif.Exit.C139_device", "Verif.ExitChain.C139_chain"], "note": ""},
  {"property": "C14", "status": "proved", "theorems": ["Verif.Credit.C14_reward_per_era", "Verif.Credit.C14_no_era_twice"], "note": "Reward equals the sum of daily rewards over the paid eras; chained queries pay strictly increasing eras."},
  {"property": "C140", "status": "proved", "theorems": ["Verif.BlockRoom.C140_limits", "Verif.BlockRoom.C140_pool", "Verif.BlockRoom.C140_operational", "Verif.BlockRoom.C140_mandatory", "Verif.BlockRoom.C140_gas", "Verif.BlockRoom.C140_gas_single", "Verif.BlockRoom.C140_gas_gap"], "note": "The weight of an empty extrinsic is a measured constant of the library; a parameter, assumed to be at most a tenth of a second. The library CheckWeight is part of the trusted base. C140_gas_gap is the finding: gas limits between 65 and 75 million are within the declared limit of a block but never get in."},
  {"property": "C141", "status": "proved", "theorems": ["Verif.Delegation.C141_delegators", "Verif.Adsc.C141_stakers", "Verif.Adsc.C141_offline_passed", "Verif.Adsc.C141_stakers_unbounded", "Verif.Operation.C141_releases", "Verif.Operation.C141_idle_passed", "Verif.Operation.C141_releases_unbounded"], "note": "C141_offline_passed and C141_idle_passed show that one block goes through all records that count nothing; C141_stakers_unbounded and C141_releases_unbounded construct, for every n, a history after which at least n records are read in one block. Weights themselves are not modelled here."},
  {"property": "C142", "status": "proved", "theorems": ["Verif.ExitAll.C142_leave", "Verif.ExitAll.C142_stake", "Verif.ExitAll.C142_channels", "Verif.ExitAll.C142_stake_channels"], "note": "Puts C138 and C139 together with the vote locks and with the transfer of the balances pallet. Examples: 1000 of 1000 leave with 223 reserved and 200 locked before; a slashed validator with deposits leaves with all that is left; two examples that the conditions are needed."},
  {"property": "C143", "status": "partial", "theorems": ["Verif.BlockAuthor.C143_same_partial", "Verif.BlockAuthor.C143_rotation", "Verif.BlockAuthor.C143_rotation_differs", "Verif.BlockAuthor.C143_address", "Verif.BlockAuthor.C143_shared"], "note": "Missing: blocks in which the session changes, where the statement is false (C143_rotation, C143_rotation_differs). The index in the digest (BABE) and the table of paired addresses (EVM fork, injective by assumption) are parameters."},
  {"property": "C144", "status": "proved", "theorems": ["Verif.Vouchers.C144_paid", "Verif.Vouchers.C144_locks_needed", "Verif.Vouchers.C144_heartbeat"], "note": "Time and offline eras read by the pallet are parameters; C144_heartbeat assumes that they are those of the device registry whenever the pallet is called."},
  {"property": "C145", "status": "proved", "theorems": ["Verif.CreditAccumulation.C145_raised", "Verif.CreditAccumulation.C145_total", "Verif.CreditAccumulation.C145_era_needed"], "note": "Time, onboarding and offline eras are parameters changed at will by the operations of others."},
  {"property": "C146", "status": "proved", "theorems": ["Verif.Micropayment.C146_balance", "Verif.Micropayment.C146_signed", "Verif.Micropayment.C146_refund", "Verif.Micropayment.C146_home"], "note": "That nobody but the client can make signatures is the hypothesis SignedOnly. By C119 the histories of the whole chain are among those of the pallet."},
  {"property": "C147", "status": "partial", "theorems": ["Verif.Tips.C147_majority_decides_partial", "Verif.Tips.C147_taken_by_one", "Verif.Tips.C147_credit_decided_partial"], "note": "Proved as long as the tip is not closed in credit. The full statement is false of the code: one member who declares a credit for the tip can have it closed as a tip in credit, so that the money is not paid (C147_taken_by_one)."},
  {"property": "C148", "status": "proved", "theorems": ["Verif.Governance.C148_enacted", "Verif.Governance.C148_blocked"], "note": "The collective is the library's, modelled as configured in the runtime (as for C131)."},
  {"property": "C149", "status": "partial", "theorems": ["Verif.Operation.C149_books", "Verif.Operation.C149_fund_partial", "Verif.Operation.C149_booked_not_moved"], "note": "The sums are proved in full. That the books match the money is proved for transfers which do not name the fund itself; it is false of the code otherwise: a bridge administrator who names the fund as the user has any amount booked, even more than the fund has, while nothing moves (C149_booked_not_moved)."},
  {"property": "C15", "status": "proved", "theorems": ["Verif.Credit.C15_credit_map_counts"], "note": ""},
  {"property": "C150", "status": "proved", "theorems": ["Verif.Credit.C150_counters", "Verif.Operation.C150_reported"], "note": "Balances are unbounded in the model (the code saturates at 2^128 - 1). The price is computed from the low 32 bits of the score (C19)."},
  {"property": "C151", "status": "proved", "theorems": ["Verif.Adsc.C151_supply"], "note": "The asset is that of the library (Assets.lean). Minting and burning by the owner of the asset outside the pallet is excluded by the hypothesis on what happens between the calls."},
  {"property": "C152", "status": "proved", "theorems": ["Verif.Adsc.C152_pool", "Verif.Adsc.C152_total"], "note": "The bank is the model of pallet-balances (Bank.lean). It is an inequality since dust left in the pool account by a swap is removed."},
  {"property": "C153", "status": "proved", "theorems": ["Verif.Adsc.C153_split"], "note": "The lower bound is for amounts whose product with the rate is below 2^128; beyond that the code caps the product."},
  {"property": "C154", "status": "proved", "theorems": ["Verif.Adsc.C154_keep"], "note": "The asset is that of the library (Assets.lean). The source of a transfer over the bridge is named by the credit administrator, without the consent of the account."},
  {"property": "C16", "status": "proved", "theorems": ["Verif.Credit.C16_history_chronological", "Verif.Credit.C16_history_kept", "Verif.Credit.C16_future_entry_breaks_order"], "note": "The condition on root is necessary (last theorem)."},
  {"property": "C17", "status": "partial", "theorems": ["Verif.Credit.C17_penalty_kept_partial", "Verif.Credit.C17_switch_undoes_penalty"], "note": "Code violates the claim when the reward query switches the campaign: the switch writes back the record read before the penalty (witness). Proved when no switch takes place."},
  {"property": "C18", "status": "partial", "theorems": ["Verif.Credit.C18_panics_only_on_empty_slash_partial", "Verif.Credit.C18_slash_without_credit_panics"], "note": "Code violates the claim: slashing an account without credit record unwraps None (witness). Proved: this is the only way to panic."},
  {"property": "C19", "status": "proved", "theorems": ["Verif.Credit.C19_burn_for_credit", "Verif.Credit.C19_price_wraps"], "note": "The bound 2^32 is necessary: the price uses the low 32 bits of the score (second theorem)."},
  {"property": "C20", "status": "proved", "theorems": ["Verif.Credit.C20_nft_cap", "Verif.Credit.C20_burn_adds_class_credit", "Verif.Credit.C20_counter_wraps"], "note": "The bound on class credits is necessary (last theorem)."},
  {"property": "C21", "status": "proved", "theorems": ["Verif.Credit.C21_price_is_mean", "Verif.Credit.C21_accepted_prices_checked", "Verif.Credit.C21_worker_counts_twice"], "note": "Last theorem: a worker reporting several times in a block counts several times."},
  {"property": "C22", "status": "proved", "theorems": ["Verif.DeeperNode.C22_server_directory", "Verif.DeeperNode.C22_two_regions", "Verif.DeeperNode.C22_expired_server_still_listed"], "note": "Invariant over all histories from genesis. Binary search is modelled as membership plus insertion position, which is what it computes on the sorted lists (sortedness is part of the theorem). Witness: expired servers stay listed."},
  {"property": "C23", "status": "proved", "theorems": ["Verif.DeeperNode.C23_onboarded_once", "Verif.DeeperNode.C23_onboard_time_fixed"], "note": "Characterisation of list and times by the history."},
  {"property": "C24", "status": "proved", "theorems": ["Verif.DeeperNode.C24_lock_while_registered", "Verif.DeeperNode.C24_refund_exact"], "note": "External balance changes are arbitrary except that they leave the lock reserved."},
  {"property": "C25", "status": "partial", "theorems": ["Verif.DeeperNode.C25_reward_mapping_partial", "Verif.DeeperNode.C25_one_to_one_without_rebinding_partial", "Verif.DeeperNode.C25_rebinding_leaves_two_addresses"], "note": "False as stated: a second mapping of the same account leaves the first EVM address mapped to it (witness). Proved: complete description of both tables; one-to-one if no account maps twice."},
  {"property": "C26", "status": "partial", "theorems": ["Verif.Operation.C26_released_amount_partial", "Verif.Operation.C26_no_release_after_end", "Verif.Operation.C26_no_release_without_schedule", "Verif.Operation.C26_release_credits", "Verif.Operation.C26_overpaid", "Verif.Operation.C26_remainder_lost"], "note": "False as stated, both ways, by concrete executions: delayed blocks or a start day in the past pay more than the total; the remainder of total/days is never paid. Proved: exact amount released as function of the days passed, end of schedule, credit per release."},
  {"property": "C27", "status": "partial", "theorems": ["Verif.Operation.C27_daily_limit_partial", "Verif.Operation.C27_block_limit", "Verif.Operation.C27_daily_limit_exceeded"], "note": "False as stated by a concrete execution (the last release of the day may pass the maximum). Proved: excess is at most one single release; per block at most twice the single maximum; the recorded daily sum is exact."},
  {"property": "C28", "status": "proved", "theorems": ["Verif.Operation.C28_bridge_out", "Verif.Operation.C28_bridge_in", "Verif.Operation.C28_failed_call_changes_nothing", "Verif.Operation.C28_fund_pool", "Verif.Operation.C28_admin_moves_foreign_balance"], "note": "Also a finding: bridge-out is called by the administrator and needs no consent of the account debited."},
  {"property": "C29", "status": "proved", "theorems": ["Verif.Operation.C29_burn_for_ezc", "Verif.Operation.C29_minimum"], "note": "The burnt amount goes to the treasury (BurnedTo); the sum of all balances is unchanged when the treasury can be credited."},
  {"property": "C30", "status": "proved", "theorems": ["Verif.Adsc.C30_at_most_once_a_day", "Verif.Adsc.C30_total_number", "Verif.Adsc.C30_not_registered", "Verif.Adsc.C30_amount", "Verif.Adsc.C30_block_credits", "Verif.Adsc.C30_failed_mint_uses_a_day"], "note": "Finding: a reward that cannot be minted still uses up a day (witness)."},
  {"property": "C31", "status": "proved", "theorems": ["Verif.Adsc.C31_swap_exact", "Verif.Adsc.C31_swap_failed", "Verif.Adsc.C31_zero_rate_panics"], "note": "Finding: exchange rate zero makes a swap panic (witness)."},
  {"property": "C32", "status": "proved", "theorems": ["Verif.Tips.C32_median", "Verif.Tips.C32_balances", "Verif.Tips.C32_announced_but_not_paid"], "note": "Assumes the council list is sorted (C54), different (reason, beneficiary) have different hashes, the finder account survives. Finding: the event announces the payout even if the transfer failed, and the tip is gone."},
  {"property": "C33", "status": "proved", "theorems": ["Verif.Tips.C33_deposits_reserved", "Verif.Tips.C33_report", "Verif.Tips.C33_retract", "Verif.Tips.C33_slash", "Verif.Tips.C32_balances", "Verif.Tips.C67_credit_tip"], "note": "Assumes collision-free hashes and that other pallets do not take reserved money on deposit here (there are no named reserves in the code)."},
  {"property": "C34", "status": "partial", "theorems": ["Verif.Tips.C34_majority_and_countdown_partial", "Verif.Tips.C34_can_be_closed", "Verif.Tips.C34_paid_without_majority", "Verif.Tips.C34_close_panics"], "note": "False as stated: credit declarations start the countdown for money tips too, after which one declaration is enough (witness); exactly half of the council is enough. Proved: half of the council declared in one kind, the countdown counts from the first such block and is never restarted."},
  {"property": "C35", "status": "partial", "theorems": ["Verif.Ledger.C35_ledger_balances_partial", "Verif.Ledger.C35_stale_lock"], "note": "Proved for all histories except the lock of a ledger whose total is zero: with set_lock(0) being a no-op the old lock stays (witness C35_stale_lock)."},
  {"property": "C36", "status": "proved", "theorems": ["Verif.Ledger.C36_waits_bonding_duration", "Verif.Ledger.C36_withdraw", "Verif.Ledger.C36_rebond", "Verif.Ledger.C36_unbond", "Verif.Ledger.C36_reap_at_once"], "note": "All histories from an empty chain; the finding shows the one other exit, reap_stash at a balance of exactly the existential deposit."},
  {"property": "C37", "status": "proved", "theorems": ["Verif.Ledger.C37_slash", "Verif.Ledger.C37_slash_step", "Verif.Ledger.C37_no_dust", "Verif.Ledger.C37_cut_exceeds_taken"], "note": "Pure ledger function and the effect of slashing at any point of any history; the finding shows that the ledger can lose more than the account."},
  {"property": "C38", "status": "proved", "theorems": ["Verif.Ledger.C38_pairing"], "note": "All histories from an empty chain."},
  {"property": "C39", "status": "proved", "theorems": ["Verif.Slashing.C39_spans_partition", "Verif.Slashing.C39_prune"], "note": "Spans of every reachable state; pruning for every window start."},
  {"property": "C40", "status": "proved", "theorems": ["Verif.Slashing.C40_worst_counts", "Verif.Slashing.C40_order", "Verif.Slashing.C40_since_removal", "Verif.Slashing.C40_removed_pays_again"], "note": "C40_worst_counts and C40_order: all accepted reports, as long as the stash is not removed. C40_since_removal: every history, for the slashes entered since the last removal. Finding C40_removed_pays_again: a stash removed and bonded again pays the whole of a later report for the same era."},
  {"property": "C41", "status": "proved", "theorems": ["Verif.Slashing.C41_reporters", "Verif.Slashing.C41_apply"], "note": "The credit slash of delegators done beside it is not part of the model of slashes."},
  {"property": "C42", "status": "proved", "theorems": ["Verif.Slashing.C42_waiting", "Verif.Slashing.C42_applied"], "note": "The queue is specified as a fold over the history of reports, cancellations and era starts."},
  {"property": "C43", "status": "proved", "theorems": ["Verif.Delegation.C43_graph", "Verif.Delegation.C43_delegate", "Verif.Delegation.C43_undelegate"], "note": "for every history of delegation, bonding, payout and era calls; u32 counters unbounded"},
  {"property": "C44", "status": "proved", "theorems": ["Verif.Delegation.C44_once", "Verif.Delegation.C44_marker", "Verif.Delegation.C44_contiguous"], "note": "rewards of the credit pallet arbitrary per block, storage order arbitrary"},
  {"property": "C45", "status": "proved", "theorems": ["Verif.Delegation.C45_counts", "Verif.Delegation.C45_calls"], "note": ""},
  {"property": "C46", "status": "partial", "theorems": ["Verif.Delegation.C46_step_partial", "Verif.Delegation.C46_lifetime_partial", "Verif.Delegation.C46_exact_partial", "Verif.Delegation.C46_overshoot"], "note": "The full statement is false: each validator's share is rounded to the nearest unit and the subtraction from the pool saturates, so the payout that empties the pool may mint up to half a unit per validator too much (C46_overshoot). Proved with exactly this slack, and exactly as long as no validator payout empties the pool."},
  {"property": "C47", "status": "proved", "theorems": ["Verif.Delegation.C47_election", "Verif.Delegation.C47_exposure"], "note": "every storage iteration order; u32 counters unbounded"},
  {"property": "C48", "status": "partial", "theorems": ["Verif.StakingCredit.C48_partial", "Verif.StakingCredit.C48_accepts", "Verif.StakingCredit.C48_level_nine"], "note": "Proved for target levels up to eight. False for price lists with more than nine entries (witness C48_level_nine: the price of a level that does not exist is charged and the score stays). A list that falls between the levels charges zero."},
  {"property": "C49", "status": "partial", "theorems": ["Verif.Delegation.C49_partial", "Verif.Delegation.C49_no_limit"], "note": "There is no daily limit in the code (NpowMintDayLimitDefault and the error NpowMintBeyoundDayLimit are unused): C49_no_limit. Proved: only privileged accounts mint, at most what the pool holds."},
  {"property": "C50", "status": "partial", "theorems": ["Verif.Runtime.C50_superset", "Verif.Runtime.C50_order", "Verif.Runtime.C50_superset_proxied", "Verif.Runtime.C50_filtered", "Verif.Runtime.C50_nontransfer_partial", "Verif.Runtime.C50_moves_funds", "Verif.Runtime.C50_runs"], "note": "The superset relation is proved sound for all calls. For the second sentence: at any nesting of batches no call of the balances pallet and no vested or index transfer runs; false in general, since staking_delegate passes the filter and transfers DPR (witness C50_moves_funds). Calls with a fresh origin (as_recovered, proxy, multisig) are followed in C130."},
  {"property": "C51", "status": "proved", "theorems": ["Verif.Runtime.C51_shares", "Verif.Runtime.C51_charge", "Verif.Runtime.C51_no_author"], "note": "Without a known author the 20 per cent are burnt; a share below the existential deposit for an author without account is burnt."},
  {"property": "C52", "status": "partial", "theorems": ["Verif.Runtime.C52_partial", "Verif.Runtime.C52_addresses", "Verif.Runtime.C52_fails"], "note": "False for the addresses 10 and 1030; proved for all others."},
  {"property": "C53", "status": "partial", "theorems": ["Verif.PrecompileCredit.C53_partial", "Verif.PrecompileCredit.C53_frame", "Verif.PrecompileCredit.C53_roundtrip", "Verif.PrecompileCredit.C53_get", "Verif.PrecompileCredit.C53_truncates", "Verif.PrecompileCredit.C53_through_contract", "Verif.PrecompileCredit.C53_delegatecall", "Verif.PrecompileCredit.C53_read_through_contract"], "note": "Amounts are cut to 64 bits (witness C53_truncates); the privileged caller is the caller of the EVM context, so a contract can act for an operator by a delegate call (witness C53_delegatecall)."},
  {"property": "C54", "status": "proved", "theorems": ["Verif.Council.C54_lists", "Verif.Council.C54_one_more"], "note": "All histories from genesis, any outcome of seq_phragmen within its contract. Also list lengths; the number of candidates can exceed MaxCandidates by one (C54_one_more)."},
  {"property": "C55", "status": "proved", "theorems": ["Verif.Council.C55_step", "Verif.Council.C55_backed", "Verif.Council.C55_exact"], "note": "Reserved balance changes exactly with the deposits; balance lost is exactly the forfeits. C55_step and C55_backed allow other pallets to change balances as long as they keep the deposits reserved."},
  {"property": "C56", "status": "proved", "theorems": ["Verif.Micropayment.C56_expired_channel_refund", "Verif.Micropayment.C56_all_expired"], "note": ""},
  {"property": "C57", "status": "proved", "theorems": ["Verif.Credit.C57_genesis_rate_schedule", "Verif.Credit.C57_otherwise_unchanged"], "note": ""},
  {"property": "C58", "status": "proved", "theorems": ["Verif.Credit.C58_level_matches_score"], "note": "Genesis records consistent. Histories in which root does not rewrite a history record with an era that has not come yet (predicate timely)."},
  {"property": "C59", "status": "partial", "theorems": ["Verif.Credit.C59_campaign_switch_partial", "Verif.Credit.C59_skipped_switch"], "note": "Code violates the claim when one query spans the end of the period (witness: the account never switches). Proved for queries starting at the last era and for campaigns 0-6."},
  {"property": "C60", "status": "partial", "theorems": ["Verif.CreditAccumulation.C60_report_signed_partial", "Verif.CreditAccumulation.C60_unset_key_accepts_zero_account"], "note": "Code violates the claim while a key is unset: it counts as the zero account (witness). Proved once both keys are configured."},
  {"property": "C61", "status": "partial", "theorems": ["Verif.DeeperNode.C61_mapping_authorised_partial", "Verif.DeeperNode.C61_signature_reused"], "note": "False: nonce is not consumed and the EVM address is not signed (witness). Proved: exactly when a mapping call is accepted."},
  {"property": "C62", "status": "proved", "theorems": ["Verif.DeeperNode.C62_offline_eras"], "note": "For all histories."},
  {"property": "C63", "status": "proved", "theorems": ["Verif.Operation.C63_overdue_release_stuck"], "note": "For all future histories without a change of limits or a new schedule for the account."},
  {"property": "C64", "status": "proved", "theorems": ["Verif.Adsc.C64_everyone_paid_each_day"], "note": ""},
  {"property": "C65", "status": "proved", "theorems": ["Verif.Adsc.C65_total_rewards_bounded"], "note": ""},
  {"property": "C66", "status": "partial", "theorems": ["Verif.Adsc.C66_nft_only_for_stakers_partial", "Verif.Adsc.C66_nft_minted", "Verif.Adsc.C66_foreign_nft_burnt", "Verif.Adsc.C66_accepted"], "note": "The last sentence is false: an outdated record makes the chain burn another account's NFT (witness). The rest is proved."},
  {"property": "C67", "status": "proved", "theorems": ["Verif.Tips.C67_credit_tip"], "note": "Assumes the council list is sorted (C54)."},
  {"property": "C68", "status": "proved", "theorems": ["Verif.Slashing.C68_reported_not_candidate", "Verif.Slashing.C68_old_report_keeps", "Verif.Slashing.C68_worse_not_candidate", "Verif.Slashing.C68_removed_stays_candidate"], "note": "C68_reported_not_candidate: as long as the stash is not removed; C68_worse_not_candidate: every history. The exception is real: C68_removed_stays_candidate."},
  {"property": "C69", "status": "proved", "theorems": ["Verif.StakingCredit.C69_usdt"], "note": "Price lists increasing with at most nine entries, as in the defaults."},
  {"property": "C70", "status": "proved", "theorems": ["Verif.Council.C70_prime_is_member", "Verif.Council.C70_prime_is_best", "Verif.Council.C70_duplicates"], "note": "C70_duplicates: naming the same candidate repeatedly is accepted and multiplies the weight."},
  {"property": "C71", "status": "proved", "theorems": ["Verif.Council.C71_step", "Verif.Council.C71_council", "Verif.Council.C71_genesis_unknown"], "note": "C71_genesis_unknown: with InitializeMembers = () genesis members are unknown to the collective until the first change."},
  {"property": "C72", "status": "proved", "theorems": ["Verif.Council.C72_replacement"], "note": "Ranking is that of the last election of the history."},
  {"property": "C73", "status": "proved", "theorems": ["Verif.Council.C73_locked"], "note": "Genesis members vote without lock; they are excluded."},
  {"property": "C74", "status": "partial", "theorems": ["Verif.Session.C74_one_ahead", "Verif.Session.C74_rotation", "Verif.Session.C74_only_rotation", "Verif.Session.C74_calendar", "Verif.Session.C74_no_eras_partial", "Verif.Session.C74_offence_resumes", "Verif.Session.C74_always", "Verif.Session.C74_next"], "note": "Complete but for the last sentence: an offence which disables a validator ends the switched-off state (C74_offence_resumes)."},
  {"property": "C75", "status": "proved", "theorems": ["Verif.Session.C75_offence_era", "Verif.Session.C75_current", "Verif.Session.C75_depth_zero"], "note": "For histories which keep at least one era; with history depth 0 the claim fails (C75_depth_zero)."},
  {"property": "C76", "status": "proved", "theorems": ["Verif.Session.C76_points", "Verif.Session.C76_payment", "Verif.Session.C76_only_at_the_end", "Verif.Session.C76_once"], "note": "Payments are exact for accounts that exist with at least the existential deposit."},
  {"property": "C77", "status": "partial", "theorems": ["Verif.Session.C77_in_charge", "Verif.Session.C77_takeover", "Verif.Session.C77_failed_election"], "note": "The last sentence fails after a failed election: the old validators go on without pay (C77_failed_election)."},
  {"property": "C78", "status": "partial", "theorems": ["Verif.Session.C78_partial", "Verif.Session.C78_late_offence"], "note": "Off by at most two eras: offences of the era active when unbonding and of the one before can still be reported when the stake is withdrawn (C78_late_offence)."},
  {"property": "C79", "status": "proved", "theorems": ["Verif.Credit.C79_record_table"], "note": "One theorem: the record after each operation equals the entry of a table stated independently of the model; assumes the penalty step is not the reserved value 2^64-1."},
  {"property": "C80", "status": "proved", "theorems": ["Verif.Credit.C80_staking_credit", "Verif.Credit.C80_unstaking", "Verif.Credit.C80_round_trip"], "note": ""},
  {"property": "C81", "status": "proved", "theorems": ["Verif.Credit.C81_daily_reward", "Verif.Credit.C81_usdt_reward"], "note": "The USDT part assumes the DPR value fits in 128 bits."},
  {"property": "C82", "status": "proved", "theorems": ["Verif.Credit.C82_guards", "Verif.Credit.C82_only_privileged", "Verif.Credit.C82_effects", "Verif.Credit.C82_maintenance"], "note": ""},
  {"property": "C83", "status": "partial", "theorems": ["Verif.DeeperNode.C83_expiry_partial", "Verif.DeeperNode.C83_duration_limit", "Verif.DeeperNode.C83_bounded", "Verif.DeeperNode.C83_second_registration_ignored", "Verif.DeeperNode.C83_reregistered_server_listed"], "note": "The recorded end, its bound and the limit on durations are proved for all histories. The full statement is false: expired servers stay in the directory, a second register_server of a listed server succeeds without prolonging, and registering the device again in the same country sets the end to now while the server stays listed (witnesses)."},
  {"property": "C84", "status": "proved", "theorems": ["Verif.Operation.C84_guards", "Verif.Operation.C84_reserve", "Verif.Operation.C84_unlock", "Verif.Operation.C84_schedule", "Verif.Operation.C84_limits", "Verif.Operation.C84_total"], "note": "Balances library as in Bank.lean."},
  {"property": "C85", "status": "proved", "theorems": ["Verif.Operation.C85_released_same_day"], "note": "Assumes the key order is injective (storage keys), no change of limits, and no new schedule for or removal of the account in between."},
  {"property": "C86", "status": "proved", "theorems": ["Verif.Adsc.C86_amount_exact", "Verif.Adsc.C86_halvings"], "note": "Holds for base reward at most the target and target times (log2 base + 3) below 2^128; the chain's constants satisfy this (example at C65)."},
  {"property": "C87", "status": "proved", "theorems": ["Verif.Adsc.C87_guards", "Verif.Adsc.C87_settings", "Verif.Adsc.C87_only", "Verif.Adsc.C87_bridge_mint", "Verif.Adsc.C87_bridge_burn", "Verif.Adsc.C87_pool", "Verif.Adsc.C87_swap_accepted"], "note": "Assets and balances libraries as in Assets.lean and Bank.lean."},
  {"property": "C88", "status": "proved", "theorems": ["Verif.Tips.C88_one_tip_per_reason", "Verif.Tips.C88_accepted", "Verif.Tips.C88_failed"], "note": "Assumes the key hash of (reason hash, beneficiary) has no collisions."},
  {"property": "C89", "status": "proved", "theorems": ["Verif.Ledger.C89_own_bond_only", "Verif.Ledger.C89_candidates_bonded"], "note": "Slashing, payout and kicking are operations of the model without conditions of their own here (see C39-C48 and C70-C78 for when they happen)."},
  {"property": "C90", "status": "proved", "theorems": ["Verif.Ledger.C90_bond", "Verif.Ledger.C90_bond_extra", "Verif.Ledger.C90_controller_calls", "Verif.Ledger.C90_set_controller", "Verif.Ledger.C90_forced", "Verif.Ledger.C90_payout", "Verif.Ledger.C90_rebond_latest_first", "Verif.Ledger.C90_burn", "Verif.Ledger.C90_bond_below_minimum"], "note": "Reference counting (bond) and the number of slashing spans are inputs."},
  {"property": "C91", "status": "proved", "theorems": ["Verif.Delegation.C91_block", "Verif.Delegation.C91_balance", "Verif.Delegation.C91_record_differs"], "note": "Blocks that use up the pool are covered by C46 only. An account without balance that gets less than the existential deposit gets nothing (currency pallet)."},
  {"property": "C92", "status": "proved", "theorems": ["Verif.Delegation.C92_paid_in_every_era"], "note": "Storage order is an arbitrary injective order of keys."},
  {"property": "C93", "status": "proved", "theorems": ["Verif.Delegation.C93_accepted", "Verif.Delegation.C93_records", "Verif.Delegation.C93_paid_records", "Verif.Delegation.C93_money", "Verif.Delegation.C93_settings"], "note": "Privileges, credit threshold and the limit of the operation pallet are inputs; ends of eras see C76."},
  {"property": "C94", "status": "proved", "theorems": ["Verif.Micropayment.C94_accepted", "Verif.Micropayment.C94_channels", "Verif.Micropayment.C94_deposits", "Verif.Micropayment.C94_payments", "Verif.Micropayment.C94_close_expired"], "note": "For close_expired_channels the caller must have the existential deposit and cover its locks (otherwise the first refund may fail and everything is rolled back). Amounts of payments for existing accounts."},
  {"property": "C95", "status": "proved", "theorems": ["Verif.Credit.C95_accepted", "Verif.Credit.C95_traffic", "Verif.Credit.C95_evm", "Verif.Credit.C95_traffic_records"], "note": "Reward queries have C18. Roots calls which always succeed are included. u64 addition of NFT credits wraps (release build)."},
  {"property": "C96", "status": "proved", "theorems": ["Verif.Credit.C96_history_table"], "note": "Assumes root does not date entries into the future (forced history), and the attenuation step is not the deletion code 2^64-1 (it is 1)."},
  {"property": "C97", "status": "proved", "theorems": ["Verif.Slashing.C97_era", "Verif.Slashing.C97_entry", "Verif.Slashing.C97_amounts", "Verif.Slashing.C97_cancel", "Verif.Slashing.C97_removed", "Verif.Slashing.C97_amounts_since"], "note": "C97_amounts: all accepted reports, as long as the stash was not removed; C97_amounts_since: every history, counting the slashes entered since the last removal. Exposures with own at most total. The first session of the active era is the one with which it started."},
  {"property": "C98", "status": "proved", "theorems": ["Verif.Council.C98_accepted", "Verif.Council.C98_votes", "Verif.Council.C98_locks", "Verif.Council.C98_lists", "Verif.Council.C98_rerun"], "note": "What happens to members on renouncing or removal is C72, deposits C55. A vote whose stake would be zero leaves the lock as it was (the balances pallet ignores empty locks)."},
  {"property": "C99", "status": "proved", "theorems": ["Verif.DeeperNode.C99_accepted", "Verif.DeeperNode.C99_others", "Verif.DeeperNode.C99_effects"], "note": "Signature checks are parameters (see C60, C100). Which lists an account appears in is C22, expiry C83."}
]}
