# Formal model of deeper-chain: design

## 1. Shape of the model

The Lean 4 project in `lean/` models the pallets of deeper-chain at the level of storage and
dispatchable calls. Each pallet (or part of one) is

* a `State` record: finite maps (`FMap`, Verif/Basic.lean) for storage maps, plain values for storage
  values, the balances of all accounts (`Bank`), and what the pallet reads of others;
* one total, computable function per Rust function, with the lines of /repo cited at the definition;
* `step : State → Op → State × Out` over an inductive type of operations (calls, hooks, and an
  operation `external` for everything that happens elsewhere), and `run` for histories, which also
  returns the trace of (state before, operation, outcome).

Conventions:

* Calls are transactional (FRAME default in polkadot-v1.1.0): an error leaves the state as it was.
  Hooks (`on_initialize`, `on_finalize`) are not.
* A panic is an explicit outcome, never a default value.
* What comes from outside (signature checks, hashes, election results, storage iteration order, identity,
  time, offences) is a parameter or an argument of the operation and universally quantified.
* Integers are unbounded naturals unless a property is about width. The release profile of the workspace
  has no overflow checks, so `+` wraps in the places where the model keeps the width. For amounts of money on the
  whole chain C134 proves that unbounded naturals are exact as long as grants fit.

Files: `X.lean` is the model, `XProofs.lean` the lemmas and specification folds, `XProperties.lean` the
property theorems, each with an `example` that meets its hypotheses in a non-trivial state, and the
witnesses for claims which the code violates.

| Rust | Lean |
|---|---|
| pallets/micropayment | Micropayment, MicropaymentProofs, MicropaymentProperties |
| pallets/user-privileges | UserPrivileges* |
| pallets/credit | Credit* |
| pallets/credit-accumulation | CreditAccumulation* |
| pallets/deeper-node | DeeperNode*, RegionTable |
| pallets/operation | Operation* |
| pallets/adsc | Adsc*, Assets |
| pallets/tips | Tips* |
| pallets/staking: bonding, unbonding, payouts into a ledger | Ledger* |
| pallets/staking: slashing.rs, offences, deferred slashes | Spans*, Slashing* |
| pallets/staking: delegation, referral, election, payouts, mining pool, NPoW | Delegation*, Rewards*, PayoutLiveness, ElectionProperties |
| pallets/staking: staking for credit, USDT staking | StakingCredit* |
| pallets/staking: sessions, eras, block authors, era of an offence | Session* |
| pallets/elections-phragmen | Council* |
| pallets/precompile-credit | PrecompileCredit* |
| runtime: proxy filter, fee split, precompile table | Runtime* |
| all pallets that move, reserve or lock money on one set of accounts | World* |
| the same with the whole staking pallet, credit and ADSC | Chain*, Amounts |
| payouts to delegators on that chain, with rewards computed by the credit pallet | Payout, PayoutSpec, PayoutCredit, PayoutProperties, PayoutIncome, PayoutJoin, PayoutLeave, PayoutKept, PayoutForced |
| the same with the credit lost by delegators in slashes and forced undelegation | Penalty, PenaltyProperties |
| sessions, eras, elections and slashes on that chain, with the roots by which offenders are identified | Epoch, EpochProofs, EpochProperties, EpochHalt |
| genesis of staking and credit; chain specifications built by the node (cli/src/chain_spec.rs); the whole chain from its specification | Genesis, GenesisProperties, ChainSpec, ChainGenesis |
| inspect: the commands `inspect block` and `inspect extrinsic` | Inspect, InspectProperties |
| deeper-node: the migration of the device entries (bytes) | NodeUpgrade |
| runtime: parameters of the transaction payment pallet | FeeMultiplier |
| runtime: proxies, recovery, multisignatures, batches (who acts for whom) | Origins, Authority |
| runtime: motions of council and committee, who may decide what | Collective, Governance |
| runtime: checks of signed transactions (`SignedExtra`), `create_transaction` | Transaction, TransactionProperties |
| runtime: Ethereum transactions as extrinsics and in the Ethereum view of a block | EthTx |
| tips and elections together (`Tippers = Elections`) | TipsCouncil |
| leaving: unbonding and withdrawing from any reachable state (C138) | LedgerExit |
| taking back deposits of elections, tips and devices (C139; no new definitions) | Exit |
| the same on the whole chain (C139; no new definitions) | ExitChain |
| runtime: limits of blocks, room for extrinsics, gas as weight | BlockRoom |
| number of payments and of records read by the hooks of a block (C141; no new definitions of code) | WorkBound |
| leaving staking, on the whole chain (C138; no new definitions) | ExitStake |
| leaving the chain with everything (C142; no new definitions) | ExitAll, MicropaymentExit |
| vouchers of a server against everybody else, on the whole chain (C144; no new definitions) | Vouchers |
| reports of traffic against everybody else (C145; no new definitions) | TrafficIncome |
| what a client can lose in a channel (C146; no new definitions) | ClientRisk |
| tips against an adversarial minority (C147; no new definitions) | TipsMajority |
| motions of council and committee against the other members (C148; no new definitions) | MotionMajority |
| books of the bridge over histories (C149; no new definitions) | BridgeBooks |
| counters of burnt DPR over histories (C150; no new definitions) | BurnBooks |
| supply of ADSC and of its pool over histories (C151, C152; no new definitions) | AdscSupply |
| sums of ADSC swaps (C153; no new definitions) | AdscSplit |
| ADSC of an account over histories (C154; no new definitions) | AdscKeep |
| author of a block for era points and for the Ethereum view (C143): FindAuthorEvm, authorship, order of hooks | BlockAuthor |
| runtime: parameters of the base fee of gas | BaseFee |

## 2. Trusted base

* The kernel of Lean 4.33.0. Axioms: every theorem of the manifest depends on at most `propext`,
  `Classical.choice` and `Quot.sound` (list in section 6). No axiom of our own, no `sorry`, no
  `native_decide`, no `bv_decide`.
* The reading of the Rust sources, which is cited definition by definition.
* Libraries which are not in /repo, modelled by their contract at polkadot-v1.1.0:
  * pallet-balances (`Verif/Bank.lean`): `Currency`, `ReservableCurrency`, `LockableCurrency`; dust is
    burnt; reference counts are summarised in `pinned`; one lock value per account (the maximum);
    `set_lock` with amount zero does nothing;
  * pallet-assets and pallet-uniques (`Verif/Assets.lean`), as far as the ADSC pallet calls them;
  * `Perbill`, `Percent`, `Imbalance::ration`, `saturating_*`;
  * pallet-proxy, pallet-utility: only that the filter is applied to the outer call and to the calls of a
    batch (`Verif/Runtime.lean`); proxy, recovery, utility and multisig with their
    tables in `Verif/Origins.lean`, deposits apart;
  * pallet-collective: `change_members_sorted`, `set_prime`, `get_prime` (`Verif/Council.lean`); motions, votes,
    closing, origins in `Verif/Collective.lean`, weights and lengths apart; `sp_npos_elections::seq_phragmen`:
    distinct winners among the candidates, at most as many as asked for;
  * pallet-tx-pause, pallet-sudo: `ensure_can_pause`, the call filter, root without filter (`Verif/Pause.lean`);
  * upstream pallets that take deposits (multisig, proxy, identity, assets, treasury, democracy): each releases
    at most what it has reserved of an account (`hold`/`release` in `Verif/World.lean`);
  * pallet-session: sessions 0 and 1 are planned and 0 is started at genesis; a rotation ends a session, starts the
    next with the queued validators and plans the one after (`Verif/Session.lean`); its historical module notes a root
    for each planned session, and check_proof uses it for every session but the current one (`Verif/Epoch.lean`);
  * std, impl-serde, fixed-hash, rustc-hex: the readers of numbers, hashes and hexadecimal strings
    (`Verif/Inspect.lean`); the database of the node and the SCALE decoders are parameters there;
  * parity-scale-codec: accounts, byte vectors, 32-bit numbers; `StorageMap::translate` (`Verif/NodeUpgrade.lean`);
  * pallet-transaction-payment: `TargetedFeeAdjustment::convert`, `compute_fee_raw`, refund of the difference
    (`Verif/FeeMultiplier.lean`);
  * sp-runtime `Era`, frame-system `CheckGenesis`, `CheckEra`, `CheckNonce`, the table of block hashes, pallet-indices
    `lookup` (`Verif/Transaction.lean`);
  * genesis of pallet-balances and pallet-collective: no account twice, amounts at least the existential deposit
    (`Verif/ChainSpec.lean`);
  * the EVM: caller, address, static flag and input bytes of a precompile call;
  * pallet-babe: the index of the author in the digest; pallet-authorship notes it once, in its first hook; the EVM fork's
    table of paired addresses; hooks run in the order of `construct_runtime!` (`Verif/BlockAuthor.lean`);
  * pallet-base-fee: `on_finalize` (`Verif/BaseFee.lean`); fp-self-contained: check and application of an extrinsic;
    pallet-ethereum: `transact` needs its own origin, the next nonce, and is listed in the Ethereum block (`Verif/EthTx.lean`).
  * frame-system: the builder of block limits and `CheckWeight`; pallet-evm: conversion of gas to weight; fp-evm: weight per gas
    (`Verif/BlockRoom.lean`; the weight of an empty extrinsic is a parameter).
    The forks of Frontier used by the runtime are not in /repo; their upstream versions are assumed.
* Cryptography is a parameter: a signature check is an arbitrary predicate, a hash an arbitrary function
  (injectivity is a named hypothesis where needed: tips).
* `binary_search` on a sorted list is modelled by its contract; that the lists are sorted is part of the
  theorems (C22, C54).
* Where a theorem speaks about reserved money of one pallet, changes elsewhere (`external`) must keep it
  reserved: there are no named reserves in the code, so this is a hypothesis about the other pallets.

Not modelled: weights of calls, and their fees (except the split of fees and C120), events except where a property names
them, benchmarks, RPC, node, CLI (except the inspector and the chain specification of C122), storage migrations except those named in C12,
consensus, the pallets taken from Substrate other than by the contracts above, the
EVM and of the Ethereum layer all but C135, C136 and C143. The runtime links the upstream `pallet-elections-phragmen`
(runtime/Cargo.toml:69), not the fork in pallets/elections-phragmen which is modelled; the fork adds an
identity check for candidates and fixes the limit of votes at 16.

## 3. Properties

Statements are in `properties.jsonl`, exact theorem names in `MANIFEST.json`. A theorem with the suffix
`_partial` proves part of the statement (or the statement under a stated condition) where the full
statement fails; the witness of the failure stands beside it.

* **C01 Micropayment escrow total equals the open channels** — `Micropayment`. State machine over block number, channels, nonces, sessions, escrow totals and balances; invariant by induction over all operations, including arbitrary changes elsewhere. *proved*: `C01_escrow_total`.
* **C02 Micropayment money conservation** — `Micropayment, Bank`. Conservation law of every step, summed over histories. *proved*: `C02_no_creation`, `C02_conservation`, `C02_loss_without_account`.
* **C03 A micropayment voucher is paid at most once** — `Micropayment`. History invariant: paid vouchers of one incarnation of a channel have consecutive session numbers (mod 2^32); signature check is an arbitrary predicate. *proved*: `C03_sessions_consecutive`, `C03_replay_needs_wraparound`, `C03_voucher_paid_once`.
* **C04 A client cannot withdraw escrow early** — `Micropayment`. Frame theorem for all operations not signed by the server, by induction. *proved*: `C04_escrow_protected`.
* **C05 A claim pays only what the client signed** — `Micropayment`. Decision theorem on successful claims. *proved*: `C05_claim_pays_signed_amount`, `C05_claim_credits_server`.
* **C06 An over-claim pays out what is left in the channel** — `Micropayment`. Negation for all inputs (the call fails, hence rolls back); `_partial` speaks about the body before roll-back. *partial*: `C06_overclaim_has_no_effect`, `C06_overclaim_body_pays_rest_partial`.
* **C07 Signed micropayment messages are unambiguous** — `Bytes, Micropayment`. Injectivity of the byte encoding. *proved*: `C07_voucher_bytes_injective`.
* **C08 Traffic reports cannot be replayed** — `CreditAccumulation`. History invariant on nonces, signature check and hash arbitrary. *proved*: `C08_nonces_consecutive`.
* **C09 Traffic credit grows at most one point per era** — `Credit`. Trace theorem: two increases by traffic lie at least one interval apart. *proved*: `C09_increases_apart`, `C09_report_effect`.
* **C10 Privilege table behaves as a set of (account, privilege) pairs** — `UserPrivileges`. Refinement to an abstract table. *proved*: `C10_privileges_refine_table`, `C10_only_force_origin_grants`, `C10_accepted`.
* **C11 Privilege sets survive encoding** — `UserPrivileges`. Byte-level round trip. *proved*: `C11_decode_encode`, `C11_decode_succeeds_iff`, `C11_sets_survive`.
* **C12 Privilege migration only adds privileges** — `UserPrivileges`. Witness; partial theorem for accounts not named by the old storage. *partial*: `C12_migration_loses_privileges`, `C12_migration_keeps_others_partial`, `C12_migration`.
* **C13 Credit level is a monotone 100-point banding** — `Credit`. Arithmetic. *proved*: `C13_level_bands`, `C13_level_monotone`, `C13_level_numbers`.
* **C14 No era is rewarded twice by the credit module** — `Credit`. Sum specification of the reward query, chained over queries. *proved*: `C14_reward_per_era`, `C14_no_era_twice`.
* **C15 Credit history accounts for each era exactly once** — `Credit`. The run-length list equals a per-era specification. *proved*: `C15_credit_map_counts`.
* **C16 Credit history is chronological** — `Credit`. Invariant by induction; condition shown necessary. *proved*: `C16_history_chronological`, `C16_history_kept`, `C16_future_entry_breaks_order`.
* **C17 An offline penalty is not undone by the reward computation** — `Credit`. Witness; partial theorem. *partial*: `C17_penalty_kept_partial`, `C17_switch_undoes_penalty`.
* **C18 Credit operations never panic** — `Credit`. Panic is an explicit outcome; witness and exact characterisation. *partial*: `C18_panics_only_on_empty_slash_partial`, `C18_slash_without_credit_panics`.
* **C19 Burning DPR buys bounded credit** — `Credit`. Decision theorem including the 32-bit truncation. *proved*: `C19_burn_for_credit`, `C19_price_wraps`.
* **C20 NFT credit is capped per address** — `Credit`. History invariant. *proved*: `C20_nft_cap`, `C20_burn_adds_class_credit`, `C20_counter_wraps`.
* **C21 DPR price is the mean of the block's reports** — `Credit`. The stored price is the mean of a fold over the reports of the block. *proved*: `C21_price_is_mean`, `C21_accepted_prices_checked`, `C21_worker_counts_twice`.
* **C22 Server directory is consistent** — `DeeperNode, RegionTable`. Cross-list invariant by induction; region table transcribed from the genesis code. *proved*: `C22_server_directory`, `C22_two_regions`, `C22_expired_server_still_listed`.
* **C23 Device onboarding is recorded once** — `DeeperNode`. History fold determines list and times. *proved*: `C23_onboarded_once`, `C23_onboard_time_fixed`.
* **C24 Device lock is exactly refunded** — `DeeperNode`. Money invariant. *proved*: `C24_lock_while_registered`, `C24_refund_exact`.
* **C25 EVM reward mapping is one-to-one** — `DeeperNode`. Tables as functions of the history; witness; partial theorem. *partial*: `C25_reward_mapping_partial`, `C25_one_to_one_without_rebinding_partial`, `C25_rebinding_leaves_two_addresses`.
* **C26 Staking release never pays more than agreed** — `Operation`. Closed form of the amount released; witnesses. *partial*: `C26_released_amount_partial`, `C26_no_release_after_end`, `C26_no_release_without_schedule`, `C26_release_credits`, `C26_overpaid`, `C26_remainder_lost`.
* **C27 The daily release limit holds** — `Operation`. Bound with the exact excess; witness. *partial*: `C27_daily_limit_partial`, `C27_block_limit`, `C27_daily_limit_exceeded`.
* **C28 Bridge transfers conserve value** — `Operation`. Decision theorems with exact balances. *proved*: `C28_bridge_out`, `C28_bridge_in`, `C28_failed_call_changes_nothing`, `C28_fund_pool`, `C28_admin_moves_foreign_balance`.
* **C29 Burning for EZC takes exactly the requested amount** — `Operation`. Decision theorem with exact balances. *proved*: `C29_burn_for_ezc`, `C29_minimum`.
* **C30 Each ADSC staker is paid at most once per reward period** — `Adsc`. History invariant over blocks and days; exact amounts. *proved*: `C30_at_most_once_a_day`, `C30_total_number`, `C30_not_registered`, `C30_amount`, `C30_block_credits`, `C30_failed_mint_uses_a_day`.
* **C31 ADSC swap gives the quoted amount** — `Adsc, Assets`. Decision theorem with exact balances. *proved*: `C31_swap_exact`, `C31_swap_failed`, `C31_zero_rate_panics`.
* **C32 A tip pays the median** — `Tips`. Median of the declarations of current council members; exact balances. *proved*: `C32_median`, `C32_balances`, `C32_announced_but_not_paid`.
* **C33 Tip deposits are always accounted for** — `Tips`. Money invariant over histories. *proved*: `C33_deposits_reserved`, `C33_report`, `C33_retract`, `C33_slash`, `C32_balances`, `C67_credit_tip`.
* **C34 A tip needs a majority and a countdown** — `Tips`. History invariant; witness. *partial*: `C34_majority_and_countdown_partial`, `C34_can_be_closed`, `C34_paid_without_majority`, `C34_close_panics`.
* **C35 Bonded ledger always balances** — `Ledger`. Invariant by induction; witness. *partial*: `C35_ledger_balances_partial`, `C35_stale_lock`.
* **C36 Unbonded funds wait out the bonding duration** — `Ledger`. History fold of what may be withdrawn; functional correctness of consolidate, rebond, unbond. *proved*: `C36_waits_bonding_duration`, `C36_withdraw`, `C36_rebond`, `C36_unbond`, `C36_reap_at_once`.
* **C37 A slash takes no more than asked plus dust and never desynchronises the ledger** — `Ledger`. Bounds by induction over the unlocking chunks. *proved*: `C37_slash`, `C37_slash_step`, `C37_no_dust`, `C37_cut_exceeds_taken`.
* **C38 Stash and controller pairing is one-to-one** — `Ledger`. Cross-map invariant. *proved*: `C38_pairing`.
* **C39 Slashing spans partition time** — `Spans, Slashing`. List invariant. *proved*: `C39_spans_partition`, `C39_prune`.
* **C40 Within a span only the worst offence counts** — `Slashing`. Total taken in a span is the maximum of the reports, in any order. *proved*: `C40_worst_counts`, `C40_order`, `C40_since_removal`, `C40_removed_pays_again` (`SlashingRemoval`: every history, counted since the last removal of the stash), `C40_removed_pays_again`.
* **C41 Reporters never receive more than was slashed** — `Slashing`. Arithmetic of the halving payouts. *proved*: `C41_reporters`, `C41_apply`.
* **C42 Deferred slashes are applied exactly once** — `Slashing`. The queue equals a fold over the history. *proved*: `C42_waiting`, `C42_applied`.
* **C43 Delegation graph is symmetric** — `Delegation`. Cross-map invariant over all histories. *proved*: `C43_graph`, `C43_delegate`, `C43_undelegate`.
* **C44 Each delegator is rewarded at most once per era** — `Delegation`. Marker of the paid era, contiguity of payouts. *proved*: `C44_once`, `C44_marker`, `C44_contiguous`.
* **C45 Referral counts match referrals** — `Delegation`. Counts equal to a count over the delegators. *proved*: `C45_counts`, `C45_calls`.
* **C46 Mining rewards never exceed the mining pool** — `Delegation`. Bound of every step and over the life of the pool; witness. *partial*: `C46_step_partial`, `C46_lifetime_partial`, `C46_exact_partial`, `C46_overshoot`.
* **C47 Validator election respects count, whitelist and rotation** — `Delegation`. Sorting specification for every iteration order. *proved*: `C47_election`, `C47_exposure`.
* **C48 Staking for credit charges exactly the level price** — `StakingCredit`. Decision theorem; witness. *partial*: `C48_partial`, `C48_accepts`, `C48_level_nine`.
* **C49 NPoW minting obeys the daily cap** — `Delegation`. Decision theorem; witness. *partial*: `C49_partial`, `C49_no_limit`.
* **C50 Proxy types are sound** — `Runtime`. Case analysis over the enumeration of calls, recursion through batches. *partial*: `C50_superset`, `C50_order`, `C50_superset_proxied`, `C50_filtered`, `C50_nontransfer_partial`, `C50_moves_funds`, `C50_runs`.
* **C51 Fees are split without loss** — `Runtime`. Arithmetic and exact balances. *proved*: `C51_shares`, `C51_charge`, `C51_no_author`.
* **C52 Declared precompiles are exactly the executed ones** — `Runtime`. Table against dispatch, all 2^160 addresses. *partial*: `C52_partial`, `C52_addresses`, `C52_fails`.
* **C53 Credit precompile is authorised and decodes faithfully** — `PrecompileCredit`. Decision theorems over byte lists. *partial*: `C53_partial`, `C53_frame`, `C53_roundtrip`, `C53_get`, `C53_truncates`, `C53_through_contract`, `C53_delegatecall`, `C53_read_through_contract` (what the four kinds of EVM call show the precompile).
* **C54 Council seats, runners-up and candidates are disjoint and sorted** — `Council`. Invariant over all histories; `seq_phragmen` only by its contract. *proved*: `C54_lists`, `C54_one_more`.
* **C55 Council deposits are always backed and returned or forfeited once** — `Council`. Effect of every step on reserved and total balance, summed over histories. *proved*: `C55_step`, `C55_backed`, `C55_exact`.
* **C56 An expired channel can be closed by its client for the full refund** — `Micropayment`. Decision theorem with exact balances. *proved*: `C56_expired_channel_refund`, `C56_all_expired`.
* **C57 Genesis users lose one percent of yearly rate every half-year** — `Credit`. Case theorem over the era of a block. *proved*: `C57_genesis_rate_schedule`, `C57_otherwise_unchanged`.
* **C58 Stored credit level always matches the stored score** — `Credit`. Invariant by induction. *proved*: `C58_level_matches_score`.
* **C59 An account moves on when its reward period ends** — `Credit`. Decision theorem; witness. *partial*: `C59_campaign_switch_partial`, `C59_skipped_switch`.
* **C60 Traffic reports need a signature of a configured key** — `CreditAccumulation`. Decision theorem; witness. *partial*: `C60_report_signed_partial`, `C60_unset_key_accepts_zero_account`.
* **C61 Reward-mapping authorisations are single use** — `DeeperNode`. Decision theorem; witness. *partial*: `C61_mapping_authorised_partial`, `C61_signature_reused`.
* **C62 Offline time counts from the last heartbeat** — `DeeperNode`. History fold. *proved*: `C62_offline_eras`.
* **C63 An overdue release is stuck** — `Operation`. Persistence over all futures. *proved*: `C63_overdue_release_stuck`.
* **C64 Every ADSC staker is served every day** — `Adsc`. Progress of the cursor over the blocks of a day. *proved*: `C64_everyone_paid_each_day`.
* **C65 ADSC rewards are bounded for ever** — `Adsc`. Sum bound over histories. *proved*: `C65_total_rewards_bounded`.
* **C66 NFTs of ADSC stakers** — `Adsc, Assets`. Invariant; witness. *partial*: `C66_nft_only_for_stakers_partial`, `C66_nft_minted`, `C66_foreign_nft_burnt`, `C66_accepted`.
* **C67 A credit tip gives the median, at most 15** — `Tips`. Decision theorem. *proved*: `C67_credit_tip`.
* **C68 A reported validator is no candidate any more** — `Slashing`. Trace theorem on reports and the candidate list. *proved*: `C68_reported_not_candidate`, `C68_old_report_keeps`, `C68_worse_not_candidate`, `C68_removed_stays_candidate` (every history), `C68_removed_stays_candidate` (witness of the exception).
* **C69 USDT staking reaches exactly the level it pays for** — `StakingCredit`. Functional correctness of the loop over levels. *proved*: `C69_usdt`.
* **C70 The prime of the council is its best-voted member** — `Council`. Arg-max specification; invariant. *proved*: `C70_prime_is_member`, `C70_prime_is_best`, `C70_duplicates`.
* **C71 The collective always knows the actual council** — `Council`. Refinement between two copies of the list. *proved*: `C71_step`, `C71_council`, `C71_genesis_unknown`.
* **C72 A leaving council member is replaced by the best runner-up** — `Council`. Order of runners-up against the ranking of the last election in the history. *proved*: `C72_replacement`.
* **C73 Voting stake is locked while the vote counts** — `Council`. Invariant relating votes, locks and frozen balances. *proved*: `C73_locked`.
* **C74 Eras follow the sessions** — `Session`. Invariant relating active era, planned era and its first session; calendar by induction. *partial*: `C74_one_ahead`, `C74_rotation`, `C74_only_rotation`, `C74_calendar`, `C74_no_eras_partial`, `C74_offence_resumes`, `C74_always`, `C74_next`; witness `C74_offence_resumes`.
* **C75 An offence is attributed to the era in which it happened** — `Session`. Invariant: the list of bonded eras is the window of the true era starts of the history. *proved*: `C75_offence_era`, `C75_current`, `C75_depth_zero`; `C75_depth_zero` shows why one era of history must be kept.
* **C76 Validators are paid for the blocks of the era, once** — `Session`, `Delegation`, `Ledger`. Era points equal 20 times the blocks counted in the trace; exact balances after the rotation. *proved*: `C76_points`, `C76_payment`, `C76_only_at_the_end`, `C76_once`.
* **C77 Only elected validators are in charge** — `Session`. Invariant over the three lists. *partial*: `C77_in_charge`, `C77_takeover`, `C77_failed_election`; witness `C77_failed_election`.
* **C78 Unbonded stake stays until offences can no longer be reported** — `Session`. Comparison of the two windows. *partial*: `C78_partial`, `C78_late_offence`; witness `C78_late_offence`.
* **C79 Credit records change only for the listed reasons** — `Credit`, `CreditLaw`. Case analysis over all operations against a table of expected records. *proved*: `C79_record_table`.
* **C80 Unstaking takes back exactly the staking credit** — `Credit`, `CreditLaw`. Fold over the trace; exact effect; round trip. *proved*: `C80_staking_credit`, `C80_unstaking`, `C80_round_trip`.
* **C81 The daily reward is a 365th of the yearly rate** — `Credit`, `CreditDaily`. Invariant: the reward table equals the settings; error bounds of the roundings. *proved*: `C81_daily_reward`, `C81_usdt_reward`.
* **C82 Credit parameters are in the hands of privileged accounts** — `Credit`, `CreditParams`. Case analysis over all operations; fold over the trace for maintenance. *proved*: `C82_guards`, `C82_only_privileged`, `C82_effects`, `C82_maintenance`.
* **C83 A server is offered for the time asked for** — `DeeperNode`, `DeeperNodeExpiry`. Fold over the trace for the end of the registration, on top of the invariant of C22; witnesses against the full statement. *partial*: `C83_expiry_partial`, `C83_duration_limit`, `C83_bounded`, `C83_second_registration_ignored`, `C83_reregistered_server_listed`.
* **C84 Privileged operations move exactly what they name** — `Operation`, `OperationLaw`. Case analysis per call; exact effect on balances; sum over the trace for the total. *proved*: `C84_guards`, `C84_reserve`, `C84_unlock`, `C84_schedule`, `C84_limits`, `C84_total`.
* **C85 What is due is released on the same day** — `Operation`, `OperationLiveness`. Each block either reaches the account or moves the scan forward; measure: schedules still ahead plus schedules added. *proved*: `C85_released_same_day`.
* **C86 The ADSC rewards follow the halving schedule exactly** — `Adsc`, `AdscLaw`. Invariant: number of halvings = minted / target; induction over the loop within a block and over the trace. *proved*: `C86_amount_exact`, `C86_halvings`.
* **C87 Administration of ADSC** — `Adsc`, `AdscLaw`. Case analysis; acceptance conditions as equivalences. *proved*: `C87_guards`, `C87_settings`, `C87_only`, `C87_bridge_mint`, `C87_bridge_burn`, `C87_pool`, `C87_swap_accepted`.
* **C88 One open tip per reason, and who may do what** — `Tips`, `TipsLaw`. Fold over the trace for the tip open for a reason; invariant with the key invariant of C33; equivalences for acceptance. *proved*: `C88_one_tip_per_reason`, `C88_accepted`, `C88_failed`.
* **C89 Only stash and controller dispose of a bond** — `Ledger`, `LedgerLaw`. Pairing invariant of C38: ledgers of different stashes have different controllers, so an update of one leaves the other; second invariant for destinations and candidacies. *proved*: `C89_own_bond_only`, `C89_candidates_bonded`.
* **C90 When the staking calls succeed and what they do** — `Ledger`, `LedgerLaw`. Case analysis; each acceptance condition is an equivalence. *proved*: `C90_bond`, `C90_bond_extra`, `C90_controller_calls`, `C90_set_controller`, `C90_forced`, `C90_payout`, `C90_rebond_latest_first`, `C90_burn`, `C90_bond_below_minimum`.
* **C91 Payouts of a block arrive exactly** — `Delegation`, `RewardsLaw`. Invariant of the payout loop: the bank is the initial one with the credits of the payments so far; minima do not bind while the pool is not empty. *proved*: `C91_block`, `C91_balance`, `C91_record_differs`.
* **C92 Every delegator is paid in every era** — `Delegation`, `PayoutLiveness`. Measure: records between cursor and delegator; each block reduces it by the payouts per block or reaches the delegator; each call adds at most one. *proved*: `C92_paid_in_every_era`.
* **C93 When delegation calls succeed and what they change** — `Delegation`, `DelegationLaw`. Case analysis; induction over lists of accounts and over the payout loop. *proved*: `C93_accepted`, `C93_records`, `C93_paid_records`, `C93_money`, `C93_settings`.
* **C94 When micropayment calls succeed and what they change** — `Micropayment`, `MicropaymentLaw`. Case analysis; induction over the iteration order. *proved*: `C94_accepted`, `C94_channels`, `C94_deposits`, `C94_payments`, `C94_close_expired`.
* **C95 When the credit calls succeed** — `Credit`, `CreditHistory`. Case analysis on reachable states (history invariant of C19). *proved*: `C95_accepted`, `C95_traffic`, `C95_evm`, `C95_traffic_records`.
* **C96 Recorded history of a credit record** — `Credit`, `CreditHistory`. Invariant (entries in order, last not in the future), case analysis per operation. *proved*: `C96_history_table`.
* **C97 What a reported offence leads to** — `Slashing`, `SlashingLaw`. Invariants: the eras on record are those started within the bonding duration, the largest fraction per era, records only for existing spans; C40's invariant extended by the rewards. *proved*: `C97_era`, `C97_entry`, `C97_amounts`, `C97_cancel`, `C97_removed`, `C97_amounts_since` (every history).
* **C98 Council elections: when calls succeed and what they change** — `Council`, `CouncilLaw`. Case analysis of each call; uniqueness of the accounts in the lists (C54) for the deposits taken over by an election and for the removal from lists; the clean-up by induction over the defunct voters. *proved*: `C98_accepted`, `C98_votes`, `C98_locks`, `C98_lists`, `C98_rerun`.
* **C99 Device registry: when calls succeed, and only own records change** — `DeeperNode`, `DeeperNodeLaw`. Case analysis of the calls; countries by the invariant of C22. *proved*: `C99_accepted`, `C99_others`, `C99_effects`.
* **C100 Traffic reports: which are accepted, and who may rotate the keys** — `CreditAccumulation`, `CreditAccumulationProperties`. Induction over the history for keys and nonces. *proved*: `C100_report`, `C100_signatures`, `C100_keys`.
* **C101 Staking for credit: when the calls succeed, which prices apply, what is recorded** — `StakingCreditLaw`: acceptance by following each call through payment, credit and delegation; prices against a table of campaigns. *proved*: `C101_stake`, `C101_usdt`, `C101_prices`, `C101_records`, `C101_history`.
* **C102 Operation pallet: when each call succeeds, and what the administrative calls change** — `OperationAccept`: table of conditions, proved equivalent to the outcome of each call. *proved*: `C102_accepted`, `C102_effects`.
* **C103 Paused calls are refused, and pausing can always be undone** — `Pause`: dispatch tree with the filter of the runtime; invariant over histories by mutual induction over nested calls. *proved*: `C103_essential`, `C103_filter`, `C103_control`, `C103_transfers_pausable`.
* **C104 Reserved money is exactly the sum of the deposits, on the chain as a whole** — `World`: the models of the single pallets run on one bank with one table of locks (`settle`: the largest lock counts); the exact change of reserved balances of each pallet (C24, C33, C70) is summed up by induction; the assumptions of C24, C32 and C33 about their environment are proved to hold for the sub-histories. *proved*: `C104_reserved`, `C104_registry`, `C104_tips`, `C104_unregister`.
* **C105 Money is created only where rewards are paid** — `WorldSupply`: every primitive balance operation has a bound on what it creates; bounds compose through the calls of each pallet (for micropayments C02). *proved*: `C105_books`, `C105_supply`.
* **C106 The record of rewards of an account sums up its history** — RewardRecords: `settled`, `latest` and `compensated` fold over the trace (payments of blocks, successful compensations); the payout loop is followed payment by payment with the relation `Records`; every other call leaves the records alone. The record counts what was earned, also if the pool was short or the account blacklisted (C91_record_differs). *proved*: `C106_records`, `C106_bonus`, `C106_compensate`.
* **C107 The upgrade of the credit settings** — CreditUpgrade: tables of stakes, rates and referees by level written down separately (`levelStake`, `levelRate`, `levelReferees`); the settings after the call are compared with them key by key; `apart` is the state without settings, daily rewards and version. Daily rewards of the settings are C81. *proved*: `C107_upgrade`, `C107_half_year`, `C107_once`, `C107_rules_disagree`.
* **C108 Staked money is really there, on the chain as a whole** — World: the pallets on one set of accounts; the largest lock counts, a stash is kept alive (`settle`). Invariant: ledger = lock, frozen ≥ bond; every balance operation preserves `min total frozen` (`Safe`, closed under composition, shown for each pallet); staking calls by cases (`ledger_covered`); induction over the history with the sum of losses. *proved*: `C108_backed`, `C108_deposit_counts`, `C108_root_unlocks`.
* **C109 The supply is capped: all rewards come out of the mining pool** — Chain: the whole staking pallet, credit and ADSC on top of World, on one set of accounts. Refinement: each step is a series of ledger steps and payments of World (`Follows`, closed under composition, shown function by function; for slashing for any relation that every part respects, `Carries`), so C104 and C105 carry over; the pool by `pool_step` (C46), slashes by C41; induction over the history. *proved*: `C109_supply`, `C109_books`, `C109_reserved`, `C109_refines`, `C109_overshoot`.
* **C110 A delegator earns for each era what the credit recorded for that era is worth, once** — Payout: the payout loop calls get_reward of the credit model on the credit storage; delegating asks the credit pallet for the threshold and starts the history. Refinement: the loop equals the one of Delegation with the rewards of the records at the start of the block (a reward depends on the records of its account only, each account is visited once per block); getReward_due shows that the reward is the specified sum; invariants of the credit history, of the settings and of the marks of unpaid eras along all histories. *proved*: `C110_amounts`, `C110_once`, `C110_block`.
* **C111 A delegator has an income: one payout in every era, for the era before** — Payout: the progress argument of C92 (the distance of the cursor to the account shrinks by the number of payouts per block) for all operations of the chain (`Frame`: cursor, era, marks and new records of each operation), exactly one payout per era by the marks of unpaid eras, induction over the eras; the amounts by C110. *proved*: `C111_income`.
* **C112 Only accounts with enough credit become delegators, and joining starts their reward period** — Payout: no payout and no other operation of the chain adds a record of a delegator (frame lemmas of C92/C111 with an account the operation does not touch); for the three calls the path through `do_delegate` with the threshold asked from the credit pallet and the history it initialises. *proved*: `C112_join`, `C112_restart`.
* **C113 The first block says what the chain specification says about staking** — Genesis: the loop over the stakers with the functions of the ledger model; invariant `Book` for the stakers so far; refinement to a history of Delegation. *proved*: `C113_bonded`, `C113_starts`, `C113_history`, `C113_skipped`.
* **C114 A delegator who leaves is still paid for the eras it has delegated, once, and nothing after that** — Payout: an idle record is kept unchanged by every call (through C93 and the frame of the other pallets); a block either leaves it or pays it once and removes it; without a record there is no payout and no call of others creates one (C112); that the payout comes within the next full era is the pass argument of C111. *partial*: `C114_leave_partial`, `C114_last`, `C114_gone`, `C114_lost`.
* **C115 Nobody else's call takes your money** — Chain: a relation 'accounts stay solid and only P may have less' is proved for every balance primitive, composed through every call of every pallet (elections: only seats not kept are slashed; channels: fee at most the payout; slashes: only the validators of due queue entries), and lifted to histories by induction. *proved*: `C115_step`, `C115_history`, `C115_solid`, `C115_bridge`.
* **C116 The inspector shows the block and the extrinsic asked for** — Inspect: the parsers are recursive functions over character lists; theorems by induction over the spelled bytes or digits, against an independent spelling relation and positional value. *proved*: `C116_as_typed`, `C116_block_by_number`, `C116_block_by_hash`, `C116_block_bytes`, `C116_extrinsic_by_number`, `C116_extrinsic_by_hash`, `C116_extrinsic_bytes`, `C116_blank`, `C116_large_number`, `C116_rest_ignored`, `C116_refused`, `C116_plus`.
* **C117 What a delegator earns arrives on its account and stays there** — Payout: C91 for each block on the bank of the chain, C115 for each call, summed over the history; with C111 the periods of the payouts telescope to all eras from the first unpaid one. *proved*: `C117_kept`, `C117_steady_income`.
* **C118 The runtime upgrade keeps every registered device** — NodeUpgrade: round trips of the encodings, a length argument why a new entry never decodes as an old one, and induction over later histories for the version. *proved*: `C118_kept`, `C118_new_untouched`, `C118_once`, `C118_read_back`, `C118_needed`, `C118_removed`, `C118_bytes`, `C118_decoded`.
* **C119 On the whole chain every pallet goes through one of its own histories** — ChainViews: for each part the operation of the chain is translated into its call and changes of the environment (balances, locks); payouts and slashes inside of the staking pallet into steps of the ledger, via the relations of ChainProperties; then induction over the history. *proved*: `C119_registry`, `C119_tips`, `C119_operation`, `C119_channels`, `C119_council`, `C119_credit`, `C119_adsc`, `C119_ledger`, `C119_delegations`, `C119_escrow`, `C119_graph`, `C119_spans`, `C119_unlock`.
* **C120 Fees follow the load of the chain slowly, in the right direction and within bounds** — FeeMultiplier: the rule with fixed-point numbers as naturals; rates bounded by the distance from the target, geometric bounds over histories by induction. *proved*: `C120_bounds`, `C120_direction`, `C120_moves`, `C120_mono_prev`, `C120_mono_load`, `C120_slow`, `C120_day`, `C120_time_to_minimum`, `C120_congested`, `C120_congested_day`, `C120_idle`, `C120_fee_mono`, `C120_fee_floor`, `C120_charge`.
* **C121 An account unstaked by force loses its credit and earns nothing until it is given credit again** — Payout: invariant 'no credit record' through every operation (record table C79 for the credit pallet, frame lemmas for the others, getReward of an account without record leaves the storage), with 'does not delegate' through the record law C93; payments have the amount that is due by C110, and nothing is owed without a record. *proved*: `C121_forced`, `C121_refused`, `C121_without_credit`, `C121_out`.
* **C122 The first block of the node's chain specifications is the one intended** — ChainSpec: the list of balances is related to the first role of an account by an invariant of the two loops; with C113 for the staking genesis and the genesis of the council. *proved*: `C122_balances`, `C122_starts`, `C122_staked`, `C122_node`, `C122_endowed_stash`.
* **C123 Delegators of a slashed validator lose credit once per slash, and the chain goes on** — Penalty: `Payout` with the credit part of slashes. Invariant: whoever delegates, is recorded behind a validator or is named by a waiting slash has a credit record; records are kept by all calls but the deleting ones. *partial*: `C123_era_start`, `C123_report`, `C123_no_halt_partial`, `C123_halts`.
* **C124 Delegations ended by force: the listed accounts and nothing else** — Penalty: induction over the list, with the fate of one record as a fold over its own entries. *proved*: `C124_forced`, `C124_single`.
* **C125 An offence is charged to the stake with which the validator was elected for the era of the offence** — Epoch: `Session` and `Penalty` in one machine, with the roots of sessions. Invariant over all histories: the start of each era, the list of bonded eras, the exposures of planned and active era, and the root of each session not yet pruned, against what was seen in the session itself. *proved*: `C125_era`, `C125_identified`, `C125_charged`, `C125_fixed`, `C125_recorded`.
* **C126 Sessions go on: no report and no change of sessions stops the chain** — Epoch: invariant of C123 plus: everybody named in a root of a session has a credit record. *partial*: `C126_no_halt_partial`, `C126_halts`.
* **C127 Whoever validates answers for it: a report has the same effect in the session itself and later** — Epoch: from C125 for the positive part; a history with a failed election for the witness. *partial*: `C127_same_partial`, `C127_unaccountable`.
* **C128 A chain started from the node's specification falls under the guarantees for the whole chain from its first block on** — ChainGenesis: the first block of C122 is reached by `configure`, `bond` and `validate` on the chain of C109; a relation between the ledger of the specification and that of the chain, which differ only in what other pallets have locked, is kept by each call. The rest follows from C109, C110 and C115 at this start. *proved*: `C128_first`, `C128_supply`, `C128_own`, `C128_reserved`, `C128_payouts`, `C128_node`, `C128_evm_paired`, `C128_evm_fresh`.
* **C129 A signed transaction is executed at most once, in the name of who signed it, and only during its lifetime** — Transaction: the checks of the runtime in their order over a table of block hashes, nonces and indices; invariant of the table of hashes along any history; arithmetic of eras; counting of nonces modulo 2^32. *partial*: `C129_exact`, `C129_authorised`, `C129_once_partial`, `C129_lifetime`, `C129_node`, `C129_era_bytes`, `C129_executed_twice`, `C129_current`.
* **C130 The proxies of an account never exceed the type they were given, however calls are nested** — Origins: dispatch as a recursive function on trees of calls with the tables of proxies and recoveries as state, failed calls rolled back; mutual induction over calls and batches with the invariant that all proxies are bounded and nobody has recovered the account. *partial*: `C130_delegated_partial`, `C130_narrow`, `C130_taken_over`, `C130_works`.
* **C131 Motions of the council and the committee are decided by the present members' last votes, once** — Collective: invariant relating the stored tally to the vote of each member computed from the history alone; exactness of closing follows by counting. *proved*: `C131_close`, `C131_sources`, `C131_once`, `C131_accepted`, `C131_prime_alone`, `C131_settled`.
* **C132 Decisions of the council have the support of at least half of the elected members** — Governance: table of origins; joint histories of elections (Council) and motions (Collective) with the invariant that the collective's list is empty or the elected one, so that every report removes the votes of exactly those who leave. *partial*: `C132_share_partial`, `C132_minority`, `C132_separate`, `C132_thirteen`, `C132_half_is_enough`, `C132_override`, `C132_votes`.
* **C133 Whoever acts for an account has its standing permission** — Authority: permissions are folds over what was run; a mutual induction over the nesting of calls shows that every run is a sequence of elementary steps, and an invariant that the stored tables equal the folds. *proved*: `C133_authorised`, `C133_claim`, `C133_own`, `C133_accepts`, `C133_works`, `C133_rescuer`, `C133_announced`, `C133_made`, `C133_unnamed`.
* **C134 No amount on the chain overflows** — Amounts: an invariant bounds twice the money and twice every stake, each together with the pool, by a number which grows only with grants and the rounding of the last payout; each call of the ledger keeps it, and what a payout adds to a stake leaves the pool. *proved*: `C134_amounts`, `C134_first`, `C134_node`.
* **C135 The price of gas follows the load of the chain in bounded steps and never falls under half a gwei** — BaseFee: the library's shares are exact for the block size of the runtime; an invariant over the history; induction for the return to the least price. *proved*: `C135_exact`, `C135_step`, `C135_direction`, `C135_recovers`, `C135_root`, `C135_stuck`.
* **C136 Ethereum transactions are executed once, in the name of their signer, and the Ethereum view of a block lists exactly them** — EthTx: mutual induction over nested calls, then over the extrinsics of a block and over the history. *proved*: `C136_block`, `C136_no_other_way`, `C136_convert`, `C136_pending`, `C136_once`, `C136_executed_twice`.
* **C137 Tips are decided by the members elected to the council, and by at least half of them** — TipsCouncil: the joint run projects to a run of the tip pallet whose member lists are sorted (C54), so C32, C34 and C67 apply; an invariant for the half. *partial*: `C137_tippers`, `C137_declare`, `C137_decided_by_elected`, `C137_half_partial`, `C137_one_decides`, `C137_panics`.
* **C138 Nobody is locked in: every stake can be taken out** — LedgerExit: an invariant that every unlocking amount is due within a bonding duration; a bound on stake, chunks and due eras kept by every step of others (C89 for those that do not concern the stash); unbonding and withdrawing computed. ExitStake keeps the same bound through every step of the whole chain, using the relations by which payouts, slashes and eras reach the ledger. *proved*: `C138_leave`, `C138_leave_full`, `C138_reward_keeps`, `C138_spans`, `C138_chain`, `C138_chain_full`.
* **C139 Deposits can be taken back at any time** — Exit: for the council the roles are disjoint (invariant of C54), so one resignation ends them, and C55's effect of a step gives the amounts; for tips induction on the amount on deposit; for devices C24. ExitChain does this in the common books: C104 and C109 (what is reserved is what is owed) give the amounts, C115 (who takes no risk loses nothing) that all of it becomes free. *proved*: `C139_council`, `C139_tips`, `C139_device`, `C139_chain`.
* **C140 Blocks keep within their limits, and there is room for what the pool accepts and for emergencies** — BlockRoom: an invariant over the construction of the block relating the recorded weights to the extrinsics that got in; room by computing each check; gas from the time of normal transactions. *proved*: `C140_limits`, `C140_pool`, `C140_operational`, `C140_mandatory`, `C140_gas`, `C140_gas_single`, `C140_gas_gap`.
* **C141 How many payments the hooks of one block make, and how many records they read** — WorkBound: the quota as a fold over the history, an invariant tying it to the stored number; the length of the list of visited records by induction over the sorted records; the unbounded cases by construction and induction over n. *proved*: `C141_delegators`, `C141_stakers`, `C141_offline_passed`, `C141_stakers_unbounded`, `C141_releases`, `C141_idle_passed`, `C141_releases_unbounded`.
* **C142 Who wants to leave the chain leaves with everything it owns** — ExitAll: invariant that who has no vote has no vote lock, on the whole chain through C109; the calls of C139; then the account has no reserve, no lock and no reference, so that the transfer passes all checks of the balances pallet. *proved*: `C142_leave`, `C142_stake`, `C142_channels`, `C142_stake_channels`.
* **C143 The beneficiary of a block in the Ethereum view is the validator which is credited with it** — BlockAuthor: the hooks in the order of the runtime over the sessions of Session; the cut of bytes as division and remainder. *partial*: `C143_same_partial`, `C143_rotation`, `C143_rotation_differs`, `C143_address`, `C143_shared`.
* **C144 A server is paid every voucher it holds, whatever everybody else does meanwhile** — Vouchers: the channel and its next session as an invariant of all steps of others (micropayment calls by cases, other pallets do not touch it), then the claim by decision, induction over the vouchers. *proved*: `C144_paid`, `C144_locks_needed`, `C144_heartbeat`.
* **C145 A device which reports its traffic once per era gains a point with every report, whatever others do** — TrafficIncome: the number of the next report and the time of the last raise are kept by every step of others; a report with both in order raises (C95, C09); induction over the reports. *proved*: `C145_raised`, `C145_total`, `C145_era_needed`.
* **C146 A client never loses more in a channel than it has signed for** — ClientRisk: balance of a channel against the events by induction over the history (number of a channel never falls, so the same number is the same channel); sessions paid are distinct (C03), so the paid vouchers are among the signed ones, each once; the refund by cases over all calls, in the loop of expired channels by induction. *proved*: `C146_balance`, `C146_signed`, `C146_refund`, `C146_home`.
* **C147 Council members who are a majority and agree decide what a tip pays** — TipsMajority: declarations of the majority and the start of the countdown are kept by every step of others (over the history of the tip, C32/C34); the upper median of values more than half of which are equal is that value (counting); witness by computation. *partial*: `C147_majority_decides_partial`, `C147_taken_by_one`, `C147_credit_decided_partial`.
* **C148 Members who reach the threshold get their motion, and members who can deny it can stop it** — MotionMajority: votes of those who stand by them are kept by every event (over the history, as in C131); the outcome of a closing is that of C131, with at least as many in favour (against) as the group has members, by counting; a number is never given to a second motion. *proved*: `C148_enacted`, `C148_blocked`.
* **C149 The books of the bridge add up and match the money in the fund** — BridgeBooks: the books change by bridge transfers only (case analysis), induction over the history; balances of the fund from C28 by induction; witness by computation. *partial*: `C149_books`, `C149_fund_partial`, `C149_booked_not_moved`.
* **C150 The counters of burnt DPR add up** — BurnBooks: every operation either burns something and books it or leaves the counters (case analysis over all operations of the pallet); induction over the history; sum over a finite map. *proved*: `C150_counters`, `C150_reported`.
* **C151 ADSC come into being by daily rewards and over the bridge only** — AdscSupply: sum over the accounts for mint, burn with dust and transfer with dust; the daily scan creates what it lists as paid (induction); induction over the history. *proved*: `C151_supply`.
* **C152 The ADSC pool pays out no more DPR than was put in** — AdscSupply: each step of the pallet (swap: exact move of Bank.transfer; addPool: Bank.depositCreating; the daily scan leaves the bank); induction over the history. *proved*: `C152_pool`, `C152_total`.
* **C153 Splitting an ADSC swap gains nothing and costs only the rounding** — AdscSplit: no other call changes the rate (case by case); quotient and remainder of each swap; induction over the history. *proved*: `C153_split`.
* **C154 Nobody else's call of the ADSC pallet takes your ADSC, except the bridge** — AdscKeep: balances of an account under mint, burn and transfer of the asset, the daily scan by induction, case by case over the calls, induction over the history. *proved*: `C154_keep`.

No property was found inexpressible; those with status *partial* are violated by the code in the way
the witness shows (section 4), except C35, C46, C48 and C50, where the partial theorem is exact up to the
named slack.

## 4. Findings

Behaviour of the code which contradicts what its documentation, names or users suggest. Each one marked
with a theorem is machine-checked.

Micropayment
* An over-claim pays nothing: the error returned after paying the rest rolls the payment back (C06).
* A payout below the existential deposit to a missing account is lost (C02).
* The session id wraps after 2^32 claims on one channel (C03).

Credit
* The campaign switch inside the reward query writes back the record read before an offline penalty and
  so undoes it (C17_switch_undoes_penalty).
* Slashing an account without credit panics (C18_slash_without_credit_panics); slashing of offenders
  reaches this code for delegators without credit. Slashes are applied at the start of an era, 168 eras after the
  report: if the credit of a delegator recorded behind the offender is deleted in between (forced unstaking, a
  penalty of `u64::MAX`), the chain stops there (C123_halts). Without such deletions it does not
  (C123_no_halt_partial). The same panic makes `force_undelegate` fail for accounts without credit (C124).
* The price of burning for credit uses the score modulo 2^32 (C19_price_wraps); the NFT counter wraps at
  2^64 (C20_counter_wraps); a price worker who reports several times counts several times
  (C21_worker_counts_twice).
* A reward query that spans the end of a campaign period never switches the campaign (C59_skipped_switch).
* Root can enter a future era into the history; later entries are then out of order (C16).
* The runtime upgrade for campaign 7 lowers the rate without the lower limit which `on_initialize` keeps.

Credit accumulation
* An unset key reads as the zero account, for which sr25519 accepts forged signatures (C60).

Deeper node
* Expired servers stay in the directory until somebody touches them (C22_expired_server_still_listed).
* A second `register_server` is accepted but its duration ignored (C83_second_registration_ignored); naming the
  same country again ends the registration at once but leaves the server listed
  (C83_reregistered_server_listed).
* Mapping a second EVM address leaves the first mapped (C25); the signature of a mapping does not cover
  the EVM address and can be used again (C61).

Operation
* A release schedule pays too much if blocks are delayed or the start day lies in the past, and never pays
  the remainder of total/days (C26); the daily limit can be passed by one release (C27); an overdue
  release beyond the limits blocks forever (C63).
* The bridge administrator can move any account's balance (C28, C115). A transfer which names the fund itself is
  booked at any amount although nothing moves (C149). Burning for EZC pays the treasury (C29).

ADSC
* A reward which cannot be minted uses up a day (C30). A zero exchange rate makes swaps panic (C31). At the
  end of the period an NFT which now belongs to somebody else is burnt (C66). The bridge call lets the
  credit admin burn anybody's ADSC.

Tips
* Declarations of credit start the countdown for money tips, so that one money declaration is enough
  (C34_paid_without_majority); half of the council suffices instead of a majority; closing a credit tip as
  money tip panics (C34_close_panics); the event announces a payout that failed (C32); an unset payment
  account is the zero account.
* Half of the council is counted once, with the council of that moment. When members change afterwards, the new council's declarations decide without any half having declared: one member of three can have any sum paid (C137_one_decides), and if none of the new members has declared, closing panics (C137_panics).
* A single council member can take a tip in money away from everybody else: it declares a credit for it, and when the countdown is over the tip can be closed as a tip in credit by anybody (`close_credit_tip` does not look at the kind of tip nor at how many have declared credit). The beneficiary gets that credit instead of the money (C147_taken_by_one).

Staking ledger
* The lock of an emptied ledger stays (C35_stale_lock); a stash at exactly the existential deposit can be
  reaped at once (C36_reap_at_once); the ledger can lose more than was taken from the account
  (C37_cut_exceeds_taken); a payout to a dead account with destination `Staked` raises the ledger.
* Rewards directed to the stake are added also for somebody who has unbonded everything; they stay bonded with that
  reward (C138_reward_keeps).

Slashing
* `kill_stash` clears the slashing spans but not the slash of an era. A stash removed and bonded again pays the whole of a
  later, larger report for an era it was already slashed for (`C40_removed_pays_again`), and stays a candidate after a
  report which is not larger (`C68_removed_stays_candidate`). The credit of all delegators is slashed for each accepted
  report, also when the own slash of the validator does not grow.

Delegation, rewards, election
* A sole delegator who re-delegates erases the candidate and resets its elected era.
* The last partial batch of a payout is walked again in each block until the era ends; the recorded
  referral reward is then overwritten with zero.
* Blacklisted delegators get a reward recorded; the record shows the full reward though the pool is short; the
  last bonus of a referrer is overwritten with zero by later blocks of the era (C91).
* `_undelegate` compares with the era of staking, the marker uses the era by blocks.
* `delegate_any` lets validators delegate.
* The payout that empties the pool may mint half a unit per validator too much (C46_overshoot); there is no
  daily limit for NPoW minting (C49_no_limit); a validator count of zero elects an empty set.

Sessions and eras
* Switching eras off is undone by any offence which disables a validator (C74_offence_resumes).
* A history depth of zero makes the chain forget the start, points and validators of the active era: offences go to
  the wrong era (C75_depth_zero) and its validators are not paid.
* After a failed election the old validators go on but nobody is paid for the era (C77_failed_election).
* Unbonded stake can be withdrawn while offences from before the unbonding can still be reported
  (C78_late_offence): unbonding counts planned eras, reports count active eras.
* A new bond can be below the minimum bond: the minimum is compared with the amount asked for, before it is
  cut to the free balance (C90_bond_below_minimum).
* A reserved deposit (of a tip, a name, a vote) counts towards the stake of an account; if the deposit is
  forfeited the stake is larger than the balance (C108_deposit_counts).
* The root can remove the locks of stakes and votes; the stakes and votes go on counting after the money has
  been paid away (C108_root_unlocks).
* C109: the overshoot of C46 reaches the supply of the whole chain: an era payout that empties the mining pool can create
  up to half a unit per validator which nobody granted (C109_overshoot).

Staking for credit
* The half-yearly reduction of the genesis campaign stops once the addition has fallen to 5 %, whereas the
  upgrade of the storage keeps subtracting one per half-year, and counts half-years modulo 256
  (C107_rules_disagree).
* A level above eight is charged without credit (C48_level_nine); a falling price list makes upgrades free;
  staked DPR goes to an account of the pallet and there is no call which returns it.
* The reward period of a credit record (`reward_eras`) is counted from the start of the credit history, and
  `do_delegate` of an account which is no delegator starts a new history. Leaving and delegating again is paid
  for the whole period anew, any number of times (C112_restart).
* Ending a delegation compares the first unpaid era, which is a block number divided by `BlocksPerEra`, with the staking
  pallet's `CurrentEra`, which counts elections (`_undelegate`, lib.rs:3111-3118). If the staking eras lag behind (era forcing
  turned off, sessions prolonged) and the numbers coincide, a delegator with unpaid full eras is removed at once and never
  paid for them (C114_lost). If the staking eras are ahead, the record is always kept and the era of leaving is paid as well.
* A chain specification with a delegation does not start: the genesis of staking comes before that of credit, so no
  account passes the threshold and the result is unwrapped (C113_starts). Stakers that cannot be bonded are
  skipped without notice (C113_skipped).
* **C122** Endowed accounts come first in the chain specification: an authority whose stash is also endowed, with
  less than the stake, has no money to stake and the node does not start (C122_endowed_stash).

* The hooks of adsc and operation bound the payments of a block but not the records they read. Offline ADSC stakers
  (pallets/adsc/src/lib.rs:505-509) and schedules of which nothing is due (pallets/operation/src/lib.rs:560-564) are all walked
  through in one block, however many, without weight being counted (C141_stakers_unbounded, C141_releases_unbounded).

Runtime
* **C143** In a block in which the session changes, the era points go by the validators in charge before (authorship runs before
  session, runtime/src/lib.rs:1564-1568) and the beneficiary of the Ethereum view by those in charge after (C143_rotation_differs).
  Validators without a paired address are shown under bytes 4 to 24 of their account, which they share with other accounts
  (C143_shared); nothing says that money sent to that address reaches them.
* **C144** A server with deposits which votes with all its free money and then spends as much as the deposits are has locks above
  its free balance; its claims are refused until it gives up the vote, because the fee is withdrawn from it after the deposit
  (pallets/micropayment/src/lib.rs:535-549) and withdrawing counts only free money (C144_locks_needed). The client can close after expiry meanwhile.
* Gas limits between 65 and 75 million are within the limit of a block which the runtime declares, but such a transaction is
  refused by the pool and gets into no block, since a single extrinsic may not use the tenth kept for hooks (C140_gas_gap).
* **C129** The nonce of an account disappears with the account. After an account was emptied and has got money
  again, its old immortal transactions can be executed again by anyone (C129_executed_twice). This is the only way
  to a second execution but for 2^32 transactions of the account (C129_once_partial).
* **C130** A `NonTransfer` proxy can take the account over: the filter lets `create_recovery` through, the proxy names
  itself as friend, recovers the account and acts for it without filter (C130_taken_over).
* Root's `set_members` of the council leaves votes behind: when the elections next report, only accounts leaving
  the elections' own list lose their votes, so votes of accounts that root had put in still count in open motions
  (C132_override, runtime/src/lib.rs:744, pallets/elections-phragmen/src/lib.rs:855, 1109-1118).
* "A straight majority of the council" (runtime/src/lib.rs:672-676) is `AtLeast 1/2`: exactly half is enough
  (C132_half_is_enough). One vote of the prime and silence of all others is unanimity (C131_prime_alone).
* A `NonTransfer` proxy can move funds by staking, EVM, micropayment and asset calls (C50_moves_funds).
* Without a known author the author's share of fees is burnt (C51_no_author).
* Address 10 is reported as precompile but not executed, 1030 is executed but not reported (C52_fails).
* The comment on the pause whitelist names `Balances::transfer_keep_alive`; it can be paused
  (C103_transfers_pausable).
* The credit precompile cuts amounts to 64 bits, ignores the upper bytes of addresses, ignores the result of
  the update, and accepts a delegate call (C53).

Council
* `MaxCandidates` can be exceeded by one (C54_one_more); a name repeated in the votes multiplies its weight
  for the prime (C70_duplicates); genesis members are not known to the collective (C71_genesis_unknown).

Inspector
* A blank between block and index, at which the parser splits, never addresses an extrinsic of a block: the string is
  taken as raw bytes (C116_blank; the test `0 0` in the code shows it). A block number of 2^32 or more is taken as raw
  bytes (C116_large_number). `5:0:7` is read as `5:0` (C116_rest_ignored).
* **A failed election leaves the validators unaccountable for reports in time** (C127). If an election fails, the old
  validators stay for the new era, but `ErasStakers` has no entry for it. A report during the session is identified with an
  empty exposure and charges nothing (pallets/staking/src/lib.rs:3322-3334); a report one session later is identified by
  the root, which was copied from the session before, and charges the stake of the last election. Witness:
  `C127_unaccountable`.

* **The specification gives four EVM addresses 2^128 - 1 each** (C128). If the EVM pallet books these amounts on the paired
  accounts, which have ten million DPR, each sum is too large and nothing happens (`C128_evm_paired`). If it books them on
  accounts of their own, the issuance stops at 2^128 - 1 while the balances sum up to four times as much
  (`C128_evm_fresh`): the books of the development chain are then wrong from the first block on. Which of the two happens
  is decided in the fork of the EVM pallet, outside of the repository.
* **A base fee above 2^256/125000 does not come down by itself** (`C135_stuck`): the product overflows and the price stays.
* **An Ethereum transaction of a removed account can be executed again** (`C136_executed_twice`), as with signed ones (C129).

## 5. Tests of the theorems

`seeded/LOG.jsonl` lists wrong edits of model definitions (in a copy outside /verif) with the claim each one
breaks and the theorems which fail to prove afterwards. Where a theorem survived although its claim became
false, it was tightened; the entry names it.

How to read the log: `theorems_failed` are the theorems and lemmas whose own proof no longer goes through;
`property_theorems_no_longer_proved` are theorems of the manifest whose proof uses one of these. Neither shows by itself that
a statement has become false: a proof can break although the statement still holds. In about half of the entries no theorem of
the manifest fails itself, only lemmas it uses. Such an entry says that the edit was noticed, not which property it violates.
Those among them whose claim might have been stated by no theorem were tried again after the later theorems on what is
accepted (C82, C84, C88, C93, C95, C97, C98, C102); these repetitions are marked as well.

44 entries were corrected afterwards (see their `note`). The list of theorems "no longer proved" was compared with the
manifest at the end of a test, so theorems committed while the test ran were listed as lost although the tested copy did
not contain them. In three entries nothing else was listed: these edits had not been detected (the era of an offence,
`Slashing.eraOf`, twice, and `Session.ensureNewEra`). These three, and the other edits for which no theorem of a property
had failed, were tried again with the present theorems; the repetitions are marked in the log. The test now uses one
commit throughout.

## 6. Axioms

Output of `#print axioms` for the theorems of the manifest:

* no axioms: `NodeUpgrade.C118_once`, `NodeUpgrade.C118_removed`, `BaseFee.C135_root`, `BaseFee.C135_stuck`, `Runtime.C52_fails`
* `propext`: `Governance.C132_thirteen`, `Governance.C132_half_is_enough`, `Runtime.C50_superset`, `Runtime.C50_order`, `Runtime.C50_superset_proxied`, `Runtime.C50_filtered`, `Runtime.C50_nontransfer_partial`
* `propext`, `Quot.sound`: `Micropayment.C01_escrow_total`, `Micropayment.C04_escrow_protected`, `Micropayment.C05_claim_pays_signed_amount`, `Micropayment.C06_overclaim_body_pays_rest_partial`, `Micropayment.C07_voucher_bytes_injective`, `Credit.C09_report_effect`, `UserPrivileges.C10_accepted`, `CreditAccumulation.C100_signatures`, `CreditAccumulation.C100_keys`, `StakingCredit.C101_prices`, `StakingCredit.C101_records`, `Operation.C102_effects`, `Pause.C103_filter`, `Delegation.C106_compensate`, `Credit.C107_upgrade`, `Credit.C107_once`, `Credit.C107_rules_disagree`, `World.C108_deposit_counts`, `World.C108_root_unlocks`, `Chain.C109_refines`, `Chain.C109_overshoot`, `Payout.C112_restart`, `Genesis.C113_bonded`, `Genesis.C113_starts`, `Genesis.C113_history`, `Genesis.C113_skipped`, `Payout.C114_lost`, `Chain.C115_bridge`, `Inspect.C116_block_by_number`, `Inspect.C116_extrinsic_by_number`, `Inspect.C116_blank`, `Inspect.C116_large_number`, `Inspect.C116_rest_ignored`, `Inspect.C116_plus`, `NodeUpgrade.C118_kept`, `NodeUpgrade.C118_new_untouched`, `NodeUpgrade.C118_read_back`, `NodeUpgrade.C118_needed`, `NodeUpgrade.C118_bytes`, `NodeUpgrade.C118_decoded`, `Chain.C119_registry`, `Chain.C119_tips`, `Chain.C119_operation`, `Chain.C119_channels`, `Chain.C119_council`, `Chain.C119_credit`, `Chain.C119_adsc`, `Chain.C119_ledger`, `Chain.C119_delegations`, `Chain.C119_escrow`, `Chain.C119_unlock`, `UserPrivileges.C12_migration_loses_privileges`, `UserPrivileges.C12_migration_keeps_others_partial`, `UserPrivileges.C12_migration`, `FeeMultiplier.C120_fee_mono`, `FeeMultiplier.C120_fee_floor`, `FeeMultiplier.C120_charge`, `Payout.C121_refused`, `Penalty.C123_report`, `Penalty.C123_halts`, `Epoch.C126_halts`, `Epoch.C127_unaccountable`, `ChainGenesis.C128_first`, `ChainGenesis.C128_evm_paired`, `ChainGenesis.C128_evm_fresh`, `Transaction.C129_exact`, `Transaction.C129_executed_twice`, `Transaction.C129_current`, `Credit.C13_level_numbers`, `Origins.C130_delegated_partial`, `Origins.C130_narrow`, `Origins.C130_taken_over`, `Origins.C130_works`, `Governance.C131_prime_alone`, `Governance.C132_minority`, `Governance.C132_separate`, `Governance.C132_override`, `Origins.C133_made`, `BaseFee.C135_exact`, `BaseFee.C135_step`, `EthTx.C136_block`, `EthTx.C136_no_other_way`, `EthTx.C136_convert`, `EthTx.C136_pending`, `EthTx.C136_executed_twice`, `TipsCouncil.C137_one_decides`, `TipsCouncil.C137_panics`, `Ledger.C138_reward_keeps`, `Slashing.C138_spans`, `BlockRoom.C140_mandatory`, `Operation.C141_releases`, `Operation.C141_idle_passed`, `Operation.C141_releases_unbounded`, `BlockAuthor.C143_rotation_differs`, `Vouchers.C144_locks_needed`, `CreditAccumulation.C145_era_needed`, `Micropayment.C146_balance`, `Tips.C147_taken_by_one`, `Operation.C149_booked_not_moved`, `Credit.C150_counters`, `Adsc.C152_total`, `Adsc.C153_split`, `Adsc.C154_keep`, `Credit.C16_history_chronological`, `Credit.C16_history_kept`, `Credit.C16_future_entry_breaks_order`, `Credit.C17_switch_undoes_penalty`, `Credit.C18_slash_without_credit_panics`, `Credit.C19_price_wraps`, `Credit.C20_nft_cap`, `Credit.C20_burn_adds_class_credit`, `Credit.C20_counter_wraps`, `Credit.C21_price_is_mean`, `Credit.C21_worker_counts_twice`, `DeeperNode.C22_server_directory`, `DeeperNode.C22_two_regions`, `DeeperNode.C22_expired_server_still_listed`, `DeeperNode.C25_rebinding_leaves_two_addresses`, `Operation.C26_overpaid`, `Operation.C26_remainder_lost`, `Operation.C27_daily_limit_exceeded`, `Operation.C28_failed_call_changes_nothing`, `Operation.C28_admin_moves_foreign_balance`, `Operation.C29_minimum`, `Adsc.C30_failed_mint_uses_a_day`, `Adsc.C31_swap_failed`, `Adsc.C31_zero_rate_panics`, `Tips.C32_announced_but_not_paid`, `Tips.C34_paid_without_majority`, `Tips.C34_close_panics`, `Ledger.C35_stale_lock`, `Ledger.C36_unbond`, `Ledger.C36_reap_at_once`, `Ledger.C37_no_dust`, `Ledger.C37_cut_exceeds_taken`, `Slashing.C40_removed_pays_again`, `Delegation.C45_counts`, `Delegation.C45_calls`, `Delegation.C46_overshoot`, `StakingCredit.C48_level_nine`, `Delegation.C49_partial`, `Delegation.C49_no_limit`, `Runtime.C50_moves_funds`, `Runtime.C50_runs`, `Runtime.C51_shares`, `Runtime.C52_addresses`, `PrecompileCredit.C53_partial`, `PrecompileCredit.C53_frame`, `PrecompileCredit.C53_roundtrip`, `PrecompileCredit.C53_get`, `PrecompileCredit.C53_truncates`, `PrecompileCredit.C53_through_contract`, `PrecompileCredit.C53_delegatecall`, `PrecompileCredit.C53_read_through_contract`, `Council.C54_one_more`, `Credit.C57_otherwise_unchanged`, `Credit.C59_skipped_switch`, `CreditAccumulation.C60_report_signed_partial`, `CreditAccumulation.C60_unset_key_accepts_zero_account`, `DeeperNode.C61_signature_reused`, `Adsc.C66_nft_minted`, `Adsc.C66_foreign_nft_burnt`, `Adsc.C66_accepted`, `Slashing.C68_removed_stays_candidate`, `Council.C70_duplicates`, `Council.C71_genesis_unknown`, `Council.C73_locked`, `Session.C75_depth_zero`, `Session.C77_failed_election`, `Session.C78_late_offence`, `Credit.C80_staking_credit`, `Credit.C80_unstaking`, `Credit.C80_round_trip`, `Credit.C82_guards`, `Credit.C82_only_privileged`, `Credit.C82_effects`, `DeeperNode.C83_expiry_partial`, `DeeperNode.C83_duration_limit`, `DeeperNode.C83_second_registration_ignored`, `DeeperNode.C83_reregistered_server_listed`, `Operation.C84_guards`, `Operation.C84_schedule`, `Operation.C84_limits`, `Adsc.C87_guards`, `Adsc.C87_settings`, `Adsc.C87_bridge_burn`, `Ledger.C90_forced`, `Ledger.C90_rebond_latest_first`, `Ledger.C90_bond_below_minimum`, `Delegation.C91_record_differs`, `Delegation.C93_settings`, `Credit.C95_evm`, `Slashing.C97_cancel`, `Council.C98_votes`, `Council.C98_locks`, `Council.C98_rerun`, `DeeperNode.C99_others`
* `propext`, `Classical.choice`, `Quot.sound`: `Micropayment.C02_no_creation`, `Micropayment.C02_conservation`, `Micropayment.C02_loss_without_account`, `Micropayment.C03_sessions_consecutive`, `Micropayment.C03_replay_needs_wraparound`, `Micropayment.C03_voucher_paid_once`, `Micropayment.C05_claim_credits_server`, `Micropayment.C06_overclaim_has_no_effect`, `CreditAccumulation.C08_nonces_consecutive`, `Credit.C09_increases_apart`, `UserPrivileges.C10_privileges_refine_table`, `UserPrivileges.C10_only_force_origin_grants`, `CreditAccumulation.C100_report`, `StakingCredit.C101_stake`, `StakingCredit.C101_usdt`, `StakingCredit.C101_history`, `Operation.C102_accepted`, `Pause.C103_essential`, `Pause.C103_control`, `Pause.C103_transfers_pausable`, `World.C104_reserved`, `World.C104_registry`, `World.C104_tips`, `World.C104_unregister`, `World.C105_books`, `World.C105_supply`, `Delegation.C106_records`, `Delegation.C106_bonus`, `Credit.C107_half_year`, `World.C108_backed`, `Chain.C109_supply`, `Chain.C109_books`, `Chain.C109_reserved`, `UserPrivileges.C11_decode_encode`, `UserPrivileges.C11_decode_succeeds_iff`, `UserPrivileges.C11_sets_survive`, `Payout.C110_amounts`, `Payout.C110_once`, `Payout.C110_block`, `Payout.C111_income`, `Payout.C112_join`, `Payout.C114_leave_partial`, `Payout.C114_last`, `Payout.C114_gone`, `Chain.C115_step`, `Chain.C115_history`, `Chain.C115_solid`, `Inspect.C116_as_typed`, `Inspect.C116_block_by_hash`, `Inspect.C116_block_bytes`, `Inspect.C116_extrinsic_by_hash`, `Inspect.C116_extrinsic_bytes`, `Inspect.C116_refused`, `Payout.C117_kept`, `Payout.C117_steady_income`, `Chain.C119_graph`, `Chain.C119_spans`, `FeeMultiplier.C120_bounds`, `FeeMultiplier.C120_direction`, `FeeMultiplier.C120_moves`, `FeeMultiplier.C120_mono_prev`, `FeeMultiplier.C120_mono_load`, `FeeMultiplier.C120_slow`, `FeeMultiplier.C120_day`, `FeeMultiplier.C120_time_to_minimum`, `FeeMultiplier.C120_congested`, `FeeMultiplier.C120_congested_day`, `FeeMultiplier.C120_idle`, `Payout.C121_forced`, `Payout.C121_without_credit`, `Payout.C121_out`, `ChainSpec.C122_balances`, `ChainSpec.C122_starts`, `ChainSpec.C122_staked`, `ChainSpec.C122_node`, `ChainSpec.C122_endowed_stash`, `Penalty.C123_era_start`, `Penalty.C123_no_halt_partial`, `Penalty.C124_forced`, `Penalty.C124_single`, `Epoch.C125_era`, `Epoch.C125_identified`, `Epoch.C125_charged`, `Epoch.C125_fixed`, `Epoch.C125_recorded`, `Epoch.C126_no_halt_partial`, `Epoch.C127_same_partial`, `ChainGenesis.C128_supply`, `ChainGenesis.C128_own`, `ChainGenesis.C128_reserved`, `ChainGenesis.C128_payouts`, `ChainGenesis.C128_node`, `Transaction.C129_authorised`, `Transaction.C129_once_partial`, `Transaction.C129_lifetime`, `Transaction.C129_node`, `Transaction.C129_era_bytes`, `Credit.C13_level_bands`, `Credit.C13_level_monotone`, `Governance.C131_close`, `Governance.C131_sources`, `Governance.C131_once`, `Governance.C131_accepted`, `Governance.C131_settled`, `Governance.C132_share_partial`, `Governance.C132_votes`, `Origins.C133_authorised`, `Origins.C133_claim`, `Origins.C133_own`, `Origins.C133_accepts`, `Origins.C133_works`, `Origins.C133_rescuer`, `Origins.C133_announced`, `Origins.C133_unnamed`, `Chain.C134_amounts`, `Chain.C134_first`, `Chain.C134_node`, `BaseFee.C135_direction`, `BaseFee.C135_recovers`, `EthTx.C136_once`, `TipsCouncil.C137_tippers`, `TipsCouncil.C137_declare`, `TipsCouncil.C137_decided_by_elected`, `TipsCouncil.C137_half_partial`, `Ledger.C138_leave`, `Ledger.C138_leave_full`, `Chain.C138_chain`, `Chain.C138_chain_full`, `Exit.C139_council`, `Exit.C139_tips`, `Exit.C139_device`, `ExitChain.C139_chain`, `Credit.C14_reward_per_era`, `Credit.C14_no_era_twice`, `BlockRoom.C140_limits`, `BlockRoom.C140_pool`, `BlockRoom.C140_operational`, `BlockRoom.C140_gas`, `BlockRoom.C140_gas_single`, `BlockRoom.C140_gas_gap`, `Delegation.C141_delegators`, `Adsc.C141_stakers`, `Adsc.C141_offline_passed`, `Adsc.C141_stakers_unbounded`, `ExitAll.C142_leave`, `ExitAll.C142_stake`, `ExitAll.C142_channels`, `ExitAll.C142_stake_channels`, `BlockAuthor.C143_same_partial`, `BlockAuthor.C143_rotation`, `BlockAuthor.C143_address`, `BlockAuthor.C143_shared`, `Vouchers.C144_paid`, `Vouchers.C144_heartbeat`, `CreditAccumulation.C145_raised`, `CreditAccumulation.C145_total`, `Micropayment.C146_signed`, `Micropayment.C146_refund`, `Micropayment.C146_home`, `Tips.C147_majority_decides_partial`, `Tips.C147_credit_decided_partial`, `Governance.C148_enacted`, `Governance.C148_blocked`, `Operation.C149_books`, `Operation.C149_fund_partial`, `Credit.C15_credit_map_counts`, `Operation.C150_reported`, `Adsc.C151_supply`, `Adsc.C152_pool`, `Credit.C17_penalty_kept_partial`, `Credit.C18_panics_only_on_empty_slash_partial`, `Credit.C19_burn_for_credit`, `Credit.C21_accepted_prices_checked`, `DeeperNode.C23_onboarded_once`, `DeeperNode.C23_onboard_time_fixed`, `DeeperNode.C24_lock_while_registered`, `DeeperNode.C24_refund_exact`, `DeeperNode.C25_reward_mapping_partial`, `DeeperNode.C25_one_to_one_without_rebinding_partial`, `Operation.C26_released_amount_partial`, `Operation.C26_no_release_after_end`, `Operation.C26_no_release_without_schedule`, `Operation.C26_release_credits`, `Operation.C27_daily_limit_partial`, `Operation.C27_block_limit`, `Operation.C28_bridge_out`, `Operation.C28_bridge_in`, `Operation.C28_fund_pool`, `Operation.C29_burn_for_ezc`, `Adsc.C30_at_most_once_a_day`, `Adsc.C30_total_number`, `Adsc.C30_not_registered`, `Adsc.C30_amount`, `Adsc.C30_block_credits`, `Adsc.C31_swap_exact`, `Tips.C32_median`, `Tips.C32_balances`, `Tips.C33_deposits_reserved`, `Tips.C33_report`, `Tips.C33_retract`, `Tips.C33_slash`, `Tips.C67_credit_tip`, `Tips.C34_majority_and_countdown_partial`, `Tips.C34_can_be_closed`, `Ledger.C35_ledger_balances_partial`, `Ledger.C36_waits_bonding_duration`, `Ledger.C36_withdraw`, `Ledger.C36_rebond`, `Ledger.C37_slash`, `Ledger.C37_slash_step`, `Ledger.C38_pairing`, `Slashing.C39_spans_partition`, `Slashing.C39_prune`, `Slashing.C40_worst_counts`, `Slashing.C40_order`, `Slashing.C40_since_removal`, `Slashing.C41_reporters`, `Slashing.C41_apply`, `Slashing.C42_waiting`, `Slashing.C42_applied`, `Delegation.C43_graph`, `Delegation.C43_delegate`, `Delegation.C43_undelegate`, `Delegation.C44_once`, `Delegation.C44_marker`, `Delegation.C44_contiguous`, `Delegation.C46_step_partial`, `Delegation.C46_lifetime_partial`, `Delegation.C46_exact_partial`, `Delegation.C47_election`, `Delegation.C47_exposure`, `StakingCredit.C48_partial`, `StakingCredit.C48_accepts`, `Runtime.C51_charge`, `Runtime.C51_no_author`, `Runtime.C52_partial`, `Council.C54_lists`, `Council.C55_step`, `Council.C55_backed`, `Council.C55_exact`, `Micropayment.C56_expired_channel_refund`, `Micropayment.C56_all_expired`, `Credit.C57_genesis_rate_schedule`, `Credit.C58_level_matches_score`, `Credit.C59_campaign_switch_partial`, `DeeperNode.C61_mapping_authorised_partial`, `DeeperNode.C62_offline_eras`, `Operation.C63_overdue_release_stuck`, `Adsc.C64_everyone_paid_each_day`, `Adsc.C65_total_rewards_bounded`, `Adsc.C66_nft_only_for_stakers_partial`, `Slashing.C68_reported_not_candidate`, `Slashing.C68_old_report_keeps`, `Slashing.C68_worse_not_candidate`, `StakingCredit.C69_usdt`, `Council.C70_prime_is_member`, `Council.C70_prime_is_best`, `Council.C71_step`, `Council.C71_council`, `Council.C72_replacement`, `Session.C74_one_ahead`, `Session.C74_rotation`, `Session.C74_only_rotation`, `Session.C74_calendar`, `Session.C74_no_eras_partial`, `Session.C74_offence_resumes`, `Session.C74_always`, `Session.C74_next`, `Session.C75_offence_era`, `Session.C75_current`, `Session.C76_points`, `Session.C76_payment`, `Session.C76_only_at_the_end`, `Session.C76_once`, `Session.C77_in_charge`, `Session.C77_takeover`, `Session.C78_partial`, `Credit.C79_record_table`, `Credit.C81_daily_reward`, `Credit.C81_usdt_reward`, `Credit.C82_maintenance`, `DeeperNode.C83_bounded`, `Operation.C84_reserve`, `Operation.C84_unlock`, `Operation.C84_total`, `Operation.C85_released_same_day`, `Adsc.C86_amount_exact`, `Adsc.C86_halvings`, `Adsc.C87_only`, `Adsc.C87_bridge_mint`, `Adsc.C87_pool`, `Adsc.C87_swap_accepted`, `Tips.C88_one_tip_per_reason`, `Tips.C88_accepted`, `Tips.C88_failed`, `Ledger.C89_own_bond_only`, `Ledger.C89_candidates_bonded`, `Ledger.C90_bond`, `Ledger.C90_bond_extra`, `Ledger.C90_controller_calls`, `Ledger.C90_set_controller`, `Ledger.C90_payout`, `Ledger.C90_burn`, `Delegation.C91_block`, `Delegation.C91_balance`, `Delegation.C92_paid_in_every_era`, `Delegation.C93_accepted`, `Delegation.C93_records`, `Delegation.C93_paid_records`, `Delegation.C93_money`, `Micropayment.C94_accepted`, `Micropayment.C94_channels`, `Micropayment.C94_deposits`, `Micropayment.C94_payments`, `Micropayment.C94_close_expired`, `Credit.C95_accepted`, `Credit.C95_traffic`, `Credit.C95_traffic_records`, `Credit.C96_history_table`, `Slashing.C97_era`, `Slashing.C97_entry`, `Slashing.C97_amounts`, `Slashing.C97_removed`, `Slashing.C97_amounts_since`, `Council.C98_accepted`, `Council.C98_lists`, `DeeperNode.C99_accepted`, `DeeperNode.C99_effects`
