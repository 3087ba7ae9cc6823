{"id": "C01", "title": "Micropayment escrow total equals the open channels", "statement": "At every point of every history of channel opens, top-ups, claims, single closes and bulk closes, the escrow total the chain reports for an account (absent counts as zero) equals the sum of the balances of the channels that account currently has open as client.", "quantifier": "all finite sequences of micropayment calls by any accounts with any arguments, starting from the empty pallet state", "why_tests_cant": "The total is maintained incrementally by six different call paths; a test fixes one path order, while the drift (if any) only shows after particular interleavings of opens, claims and closes by several clients and servers.", "anchors": ["pallets/micropayment/src/lib.rs::open_channel", "pallets/micropayment/src/lib.rs::close_channel", "pallets/micropayment/src/lib.rs::close_expired_channels", "pallets/micropayment/src/lib.rs::add_balance", "pallets/micropayment/src/lib.rs::claim_payment", "pallets/micropayment/src/lib.rs::TotalMicropaymentChannelBalance"]}
{"id": "C02", "title": "Micropayment money conservation", "statement": "No sequence of micropayment calls creates money: the sum of all account balances plus all channel balances never grows. A call conserves that sum exactly whenever the accounts of the treasury and of the ends of the open channels exist (a payout below the existential deposit to an account that does not exist is the only way to lose money).", "quantifier": "all micropayment calls in all reachable states, all balances, all fee percentages", "why_tests_cant": "Deposits, the 10% burn on payout, rounding of the percentage and failed payouts interact; conservation has to hold for every amount, including those where rounding or the existential deposit bites.", "anchors": ["pallets/micropayment/src/lib.rs::take_from_account", "pallets/micropayment/src/lib.rs::deposit_into_account", "pallets/micropayment/src/lib.rs::claim_payment", "pallets/micropayment/src/lib.rs::close_channel"]}
{"id": "C03", "title": "A micropayment voucher is paid at most once", "statement": "A voucher signed by the client for (server, channel nonce, session id, amount) can lead to a successful payment at most once in the whole history of the chain (as long as fewer than 2^32 payments, the range of the session counter, were made on that channel; a second payment needs a full round of the counter), even when the channel is closed and reopened between the same two parties, and even if the signature check accepts everything.", "quantifier": "all finite histories of micropayment calls, all vouchers, arbitrary behaviour of the signature check", "why_tests_cant": "Replay needs a history: close, reopen, replay, reorder. Tests enumerate a handful of replays; the claim is about every schedule.", "anchors": ["pallets/micropayment/src/lib.rs::claim_payment", "pallets/micropayment/src/lib.rs::_close_channel", "pallets/micropayment/src/lib.rs::Nonce", "pallets/micropayment/src/lib.rs::SessionId"]}
{"id": "C04", "title": "A client cannot withdraw escrow early", "statement": "As long as a channel is unexpired and its server has not been offline for a full era, nothing the client (or a third party) does can close the channel or lower its balance: only the server's own close or claim can.", "quantifier": "all reachable states, all calls by accounts other than the server", "why_tests_cant": "Every call by every other account has to be excluded, in every state, including calls on other channels of the same client.", "anchors": ["pallets/micropayment/src/lib.rs::close_channel", "pallets/micropayment/src/lib.rs::close_expired_channels", "pallets/micropayment/src/lib.rs::add_balance", "pallets/micropayment/src/lib.rs::claim_payment"]}
{"id": "C05", "title": "A claim pays only what the client signed", "statement": "A successful claim on an unexpired channel moves exactly the signed amount out of the channel; it succeeds only if the client's key signed exactly that server, nonce, session id and amount, the session id is the successor of the last one claimed on this channel, and the channel balance covers the amount.", "quantifier": "all states, all claim arguments, all signature-check behaviours", "why_tests_cant": "Decision logic over five inputs plus storage; tests sample a few combinations.", "anchors": ["pallets/micropayment/src/lib.rs::claim_payment", "pallets/micropayment/src/lib.rs::verify_signature", "pallets/micropayment/src/lib.rs::construct_byte_array_and_hash"]}
{"id": "C06", "title": "An over-claim pays out what is left in the channel", "statement": "When a correctly signed claim exceeds the channel balance, the server receives whatever the channel still holds and the channel is closed.", "quantifier": "all states with an open unexpired channel and a valid claim larger than its balance", "why_tests_cant": "The code path pays, closes and then returns an error; whether the effects survive depends on transactional dispatch, which unit tests calling the pallet function directly may not see for all inputs.", "anchors": ["pallets/micropayment/src/lib.rs::claim_payment"]}
{"id": "C07", "title": "Signed micropayment messages are unambiguous", "statement": "Two different vouchers (server, nonce, session id, amount) never have the same signed byte string.", "quantifier": "all pairs of vouchers with 32-byte account ids, 64-bit nonces, 32-bit session ids and 128-bit amounts", "why_tests_cant": "Injectivity over an astronomically large domain.", "anchors": ["pallets/micropayment/src/lib.rs::construct_byte_array_and_hash"]}
{"id": "C08", "title": "Traffic reports cannot be replayed", "statement": "For each account the accepted traffic reports carry nonces 0,1,2,... in order with no gaps and no repetition (for histories of at most 2^64 calls, the range of the counter); a report with a given nonce is accepted at most once, whatever the signature check does.", "quantifier": "all histories of traffic reports and key changes by all accounts", "why_tests_cant": "Replay protection is a statement over histories with rejected calls interleaved.", "anchors": ["pallets/credit-accumulation/src/lib.rs::add_credit_by_traffic", "pallets/credit-accumulation/src/lib.rs::verify_atomos_signature"]}
{"id": "C09", "title": "Traffic credit grows at most one point per era", "statement": "By reporting traffic an account can raise its credit by at most one point per elapsed credit era: two successful increases are at least one full update interval apart, and a report in the same interval fails or leaves the credit unchanged.", "quantifier": "all reachable credit states, all block heights, all sequences of reports", "why_tests_cant": "A rate limit is a property of sequences at arbitrary heights and boundary blocks.", "anchors": ["pallets/credit/src/lib.rs::update_credit_by_traffic", "pallets/credit/src/lib.rs::check_update_credit_interval"]}
{"id": "C10", "title": "Privilege table behaves as a set of (account, privilege) pairs", "statement": "After any history of grant, revoke and clear calls, an account holds a privilege exactly if the last successful call touching that account and privilege granted it; only the force origin changes account privileges, only accounts holding the EVM-address-setter privilege change EVM-address privileges, and rejected calls change nothing.", "quantifier": "all histories of privilege calls by all origins over all accounts, EVM addresses and privileges", "why_tests_cant": "Refinement over unbounded histories; bit operations on one flag must not disturb the other eleven.", "anchors": ["pallets/user-privileges/src/lib.rs::set_user_privilege", "pallets/user-privileges/src/lib.rs::unset_user_privilege", "pallets/user-privileges/src/lib.rs::clear_user_privilege", "pallets/user-privileges/src/lib.rs::set_evm_privilege", "pallets/user-privileges/src/lib.rs::has_privilege", "pallets/user-privileges/src/lib.rs::has_evm_privilege"]}
{"id": "C11", "title": "Privilege sets survive encoding", "statement": "Decoding the encoding of any privilege set gives the same set back; decoding succeeds exactly on words using only the twelve defined bits.", "quantifier": "all 2^12 privilege sets and all 2^64 encoded words", "why_tests_cant": "2^64 inputs.", "anchors": ["primitives/src/user_privileges.rs::Privileges"]}
{"id": "C12", "title": "Privilege migration only adds privileges", "statement": "Running the storage migration never takes away a privilege that an account already held.", "quantifier": "all pre-migration storage contents", "why_tests_cant": "Depends on overlaps between the migrated role holders and existing holders, which fixtures do not contain.", "anchors": ["pallets/user-privileges/src/lib.rs::on_runtime_upgrade"]}
{"id": "C13", "title": "Credit level is a monotone 100-point banding", "statement": "Every credit score has exactly one level; the level is score/100 capped at 8; a higher score never has a lower level; converting a level to its number and back is the identity, and numbers above 8 fall back to level zero.", "quantifier": "all 64-bit scores and all 8-bit level numbers", "why_tests_cant": "Whole-range monotonicity; tests check some boundaries.", "anchors": ["primitives/src/credit.rs::get_credit_level", "primitives/src/credit.rs::CreditLevel"]}
{"id": "C14", "title": "No era is rewarded twice by the credit module", "statement": "For one account the eras for which delegation rewards are computed, over any sequence of reward queries that each start where the previous one ended, are disjoint, never include the current unfinished era, and never go past the expiry of the campaign.", "quantifier": "all sequences of reward queries at non-decreasing heights for any credit history", "why_tests_cant": "Interval arithmetic over unbounded histories and boundary blocks.", "anchors": ["pallets/credit/src/lib.rs::get_reward"]}
{"id": "C15", "title": "Credit history accounts for each era exactly once", "statement": "The reward computation over an era range splits the range by credit level using the recorded history so that every era of the range is counted exactly once, with the credit that was recorded for it.", "quantifier": "all credit histories sorted by era and all era ranges", "why_tests_cant": "Loop with carry-over between history entries; off-by-one errors only appear for particular alignments of range and history.", "anchors": ["pallets/credit/src/lib.rs::get_credit_map"]}
{"id": "C16", "title": "Credit history is chronological", "statement": "The recorded credit history of every account is strictly increasing in era, never dated after the current era, its last entry equals the current credit data of the account, and once started it is never lost unless the credit of the account is removed; provided root, when it rewrites a history, does not use an era that has not come yet.", "quantifier": "all histories of credit-changing calls", "why_tests_cant": "An invariant over all interleavings of nine credit-changing entry points.", "anchors": ["pallets/credit/src/lib.rs::update_credit_history", "pallets/credit/src/lib.rs::init_credit_history", "pallets/credit/src/lib.rs::_update_credit", "pallets/credit/src/lib.rs::slash_credit"]}
{"id": "C17", "title": "An offline penalty is not undone by the reward computation", "statement": "When a device has been offline long enough to lose credit, the credit stored after the reward computation is not larger than the credit after the penalty.", "quantifier": "all credit states, offline durations and campaign settings", "why_tests_cant": "Requires a state in which slash and campaign switch coincide; an ordering bug is invisible unless both happen in one call.", "anchors": ["pallets/credit/src/lib.rs::get_reward", "pallets/credit/src/lib.rs::slash_offline_device_credit", "pallets/credit/src/lib.rs::do_switch_campaign"]}
{"id": "C18", "title": "Credit operations never panic", "statement": "No credit update or slash aborts execution, whatever the state of the target account.", "quantifier": "all credit states and all accounts, including accounts without credit", "why_tests_cant": "Panics hide in unwraps on absent storage.", "anchors": ["pallets/credit/src/lib.rs::update_credit_history", "pallets/credit/src/lib.rs::slash_credit", "pallets/credit/src/lib.rs::evm_update_credit"]}
{"id": "C19", "title": "Burning DPR buys bounded credit", "statement": "Burning tokens for credit (for scores below 2^32) raises the credit by exactly the requested score, charges exactly the price per point times the score and moves it to the treasury, changes nobody else's credit, and never lifts the credit above the larger of the delegation minimum and the account's historic maximum.", "quantifier": "all accounts, scores, prices and histories", "why_tests_cant": "Universally quantified amounts including integer truncation.", "anchors": ["pallets/credit/src/lib.rs::burn_for_add_credit"]}
{"id": "C20", "title": "NFT credit is capped per address", "statement": "Over the whole history from genesis, the credit an address obtains by burning NFTs never exceeds the cap, and each burn adds exactly the class's credit to the burner only; provided class credits are configured below 2^63 and the admin does not rewrite the address's counter.", "quantifier": "all histories of NFT burns and class-credit updates", "why_tests_cant": "A cap on an accumulated quantity over unbounded histories.", "anchors": ["pallets/credit/src/lib.rs::burn_nft", "pallets/credit/src/lib.rs::update_credit_by_burn_nft"]}
{"id": "C21", "title": "DPR price is the mean of the block's reports", "statement": "After each block the on-chain price is the integer mean of the prices accepted in that block, or unchanged if there were none; a price is accepted only if it is non-zero, reported by an oracle worker and within the configured deviation of the current price.", "quantifier": "all sequences of price reports over all blocks", "why_tests_cant": "Per-block accumulate-and-clear over unbounded histories.", "anchors": ["pallets/credit/src/lib.rs::set_dpr_price", "pallets/credit/src/lib.rs::set_price"]}
{"id": "C22", "title": "Server directory is consistent", "statement": "At every point the server list of a country is strictly increasing (so without duplicates) and holds exactly the accounts that are registered in that country and have since registered as server without leaving, moving or unregistering; each such account appears in exactly the two regional lists of its country, which are sorted too; after unregistering an account is in no list. (Expiry does not remove a server: it stays listed until its next call.)", "quantifier": "all histories of register, update and unregister calls", "why_tests_cant": "Three linked lists must stay synchronised through all interleavings.", "anchors": ["pallets/deeper-node/src/lib.rs::try_add_server", "pallets/deeper-node/src/lib.rs::try_remove_server", "pallets/deeper-node/src/lib.rs::register_server", "pallets/deeper-node/src/lib.rs::update_server", "pallets/deeper-node/src/lib.rs::unregister_server"]}
{"id": "C23", "title": "Device onboarding is recorded once", "statement": "An account enters the onboarded-device list at most once, exactly when it sends its first heartbeat, and the recorded onboard time is the block of that heartbeat and never changes afterwards; registering does not onboard.", "quantifier": "all histories of heartbeats, registrations and unregistrations", "why_tests_cant": "History property over all schedules.", "anchors": ["pallets/deeper-node/src/lib.rs::im_online", "pallets/deeper-node/src/lib.rs::register_device_deprecated"]}
{"id": "C24", "title": "Device lock is exactly refunded", "statement": "For every account the registry's own contribution to its reserved balance is the lock amount while a device is registered and zero otherwise, provided nothing outside the registry takes reserved balance below the lock; unregistering moves exactly the lock amount from reserved to free and touches no other account.", "quantifier": "all histories of device registration calls", "why_tests_cant": "Money invariant over histories.", "anchors": ["pallets/deeper-node/src/lib.rs::register_device_deprecated", "pallets/deeper-node/src/lib.rs::unregister_device"]}
{"id": "C25", "title": "EVM reward mapping is one-to-one", "statement": "At any time at most one EVM address maps to a given native account and the two direction tables are inverse to each other.", "quantifier": "all histories of mapping calls", "why_tests_cant": "Stale entries only appear after rebinding sequences.", "anchors": ["pallets/deeper-node/src/lib.rs::reward_mapping"]}
{"id": "C26", "title": "Staking release never pays more than agreed", "statement": "For each release schedule, the total amount released to the account never exceeds the agreed total, and after the agreed number of days exactly the agreed total has been released.", "quantifier": "all schedules, all sequences of blocks (including skipped days) and limits", "why_tests_cant": "Involves day arithmetic, per-day limits and iteration order over an unbounded history.", "anchors": ["pallets/operation/src/lib.rs::unstaking_release", "pallets/operation/src/lib.rs::release_staking_balance"]}
{"id": "C27", "title": "The daily release limit holds", "statement": "On any day the sum of amounts released does not exceed the configured daily maximum.", "quantifier": "all sets of schedules and iteration orders", "why_tests_cant": "The order of iteration over storage is hash order; a test sees one.", "anchors": ["pallets/operation/src/lib.rs::release_staking_balance", "pallets/operation/src/lib.rs::is_single_max_limit"]}
{"id": "C28", "title": "Bridge transfers conserve value", "statement": "A bridge-out moves exactly the requested amount from the named user account to the bridge fund and a bridge-in moves exactly the requested amount from the fund to the named user; both are accepted only from a bridge administrator while a fund is set; no other account and not the total issuance changes; the per-chain record grows by the amount; failed calls change nothing; the fund address changes only by a bridge administrator.", "quantifier": "all balances, amounts, callers and fund addresses", "why_tests_cant": "Quantifies over all callers and amounts including aliasing of user and fund.", "anchors": ["pallets/operation/src/lib.rs::bridge_deeper_to_other", "pallets/operation/src/lib.rs::bridge_other_to_deeper", "pallets/operation/src/lib.rs::set_fund_pool_address"]}
{"id": "C29", "title": "Burning for EZC takes exactly the requested amount", "statement": "Burning for EZC removes exactly the given amount from the caller and credits it to the account that receives burnt balance (the treasury, provided it exists or the amount is at least the existential deposit), refuses amounts below the minimum, and never touches another account.", "quantifier": "all balances and amounts", "why_tests_cant": "All amounts and states including locked and reserved funds.", "anchors": ["pallets/operation/src/lib.rs::burn_for_ezc"]}
{"id": "C30", "title": "Each ADSC staker is paid at most once per reward period", "statement": "An account registered for ADSC staking receives at most one reward on any calendar day; since its latest registration it receives at most as many rewards as days were granted, each of the amount base reward times remaining days over reward period; an account never registered receives none; and each block credits exactly these amounts, whatever the order in which accounts are processed.", "quantifier": "all sets of stakers, all block sequences and processing orders", "why_tests_cant": "The payout loop is batched across blocks with hash-ordered iteration.", "anchors": ["pallets/adsc/src/lib.rs::on_initialize", "pallets/adsc/src/lib.rs::pay_reward", "pallets/adsc/src/lib.rs::adsc_reward"]}
{"id": "C31", "title": "ADSC swap gives the quoted amount", "statement": "Swapping ADSC for DPR moves exactly the offered ADSC from the caller to the pool account (plus the rest if it falls below the minimum balance) and pays the caller the amount given by the exchange rate rounded down, out of the pool account; or the swap fails with no effect.", "quantifier": "all amounts, exchange rates and balances", "why_tests_cant": "Rounding and failure atomicity for all amounts.", "anchors": ["pallets/adsc/src/lib.rs::swap_adsc_to_dpr"]}
{"id": "C32", "title": "A tip pays the median", "statement": "When a tip closes, the announced amount is a median of the amounts declared by those who are still tippers at closing time, less the finder's fee of 20 % for reported tips; fee and rest are each paid in full from the payment account or (if it cannot afford it) not at all, both in full if it can; the deposit goes back to the finder and no other balance changes.", "quantifier": "all sets of declared tips, member changes and pot balances", "why_tests_cant": "Quantifies over all tip multisets and member changes.", "anchors": ["pallets/tips/src/lib.rs::payout_tip", "pallets/tips/src/lib.rs::retain_active_tips", "pallets/tips/src/lib.rs::insert_tip_and_check_closing"]}
{"id": "C33", "title": "Tip deposits are always accounted for", "statement": "The amount reserved for the finder of each open tip equals the deposit recorded with the tip; closing or retracting returns it in full, slashing removes it in full, and no tip's deposit is returned twice.", "quantifier": "all histories of tip calls", "why_tests_cant": "Money invariant over all interleavings.", "anchors": ["pallets/tips/src/lib.rs::report_awesome", "pallets/tips/src/lib.rs::retract_tip", "pallets/tips/src/lib.rs::close_tip", "pallets/tips/src/lib.rs::slash_tip"]}
{"id": "C34", "title": "A tip needs a majority and a countdown", "statement": "A tip can be paid only after more than half of the tippers declared a value and the countdown has elapsed since; once the countdown has started it is never restarted or cancelled by further tips.", "quantifier": "all histories of tip calls and member changes", "why_tests_cant": "History property.", "anchors": ["pallets/tips/src/lib.rs::insert_tip_and_check_closing", "pallets/tips/src/lib.rs::close_tip"]}
{"id": "C35", "title": "Bonded ledger always balances", "statement": "At all times the recorded total of every bonded stash equals its active stake plus all its unlocking amounts, and the staking lock on the stash equals that total; accounts that are not bonded carry no staking lock. (False for a stash slashed down to zero: it keeps its old lock.)", "quantifier": "all histories of bond, bond_extra, unbond, rebond, withdraw and slash operations", "why_tests_cant": "Invariant over unbounded operation sequences with arbitrary amounts and eras.", "anchors": ["pallets/staking/src/lib.rs::bond", "pallets/staking/src/lib.rs::bond_extra", "pallets/staking/src/lib.rs::unbond", "pallets/staking/src/lib.rs::rebond", "pallets/staking/src/lib.rs::withdraw_unbonded", "pallets/staking/src/lib.rs::StakingLedger"]}
{"id": "C36", "title": "Unbonded funds wait out the bonding duration", "statement": "At any time the total a stash has withdrawn is at most what it unbonded at least the bonding duration earlier; a withdrawal removes exactly the matured chunks and no active stake (or the whole ledger when nothing but at most the existential deposit is left); re-bonding moves funds back without changing the total; unbonding only moves active stake into a new chunk.", "quantifier": "all ledgers, eras and amounts", "why_tests_cant": "Quantifies over all chunk schedules.", "anchors": ["pallets/staking/src/lib.rs::unbond", "pallets/staking/src/lib.rs::withdraw_unbonded", "pallets/staking/src/lib.rs::consolidate_unlocked", "pallets/staking/src/lib.rs::rebond"]}
{"id": "C37", "title": "A slash takes no more than asked plus dust and never desynchronises the ledger", "statement": "Slashing a stash takes at least the smaller of the value asked and its total, at most the value plus the existential deposit, takes from the active stake before unlocking chunks and from the earliest chunks first, leaves no active stake or touched chunk between nothing and the existential deposit, keeps the ledger balanced, and touches no other ledger or account.", "quantifier": "all ledgers, slash values and existential deposits", "why_tests_cant": "Loop over an arbitrary number of chunks with dust handling.", "anchors": ["pallets/staking/src/lib.rs::StakingLedger::slash"]}
{"id": "C38", "title": "Stash and controller pairing is one-to-one", "statement": "At all times every bonded stash has exactly one controller whose ledger names that stash, and no two stashes share a controller.", "quantifier": "all histories of bond, set_controller, withdraw, force-unstake and reap calls", "why_tests_cant": "Cross-map invariant over histories.", "anchors": ["pallets/staking/src/lib.rs::bond", "pallets/staking/src/lib.rs::set_controller", "pallets/staking/src/lib.rs::withdraw_unbonded", "pallets/staking/src/lib.rs::kill_stash"]}
{"id": "C39", "title": "Slashing spans partition time", "statement": "For each stash the slashing spans are contiguous, non-overlapping and cover every era up to now; pruning keeps exactly the spans that can still matter.", "quantifier": "all span histories and window starts", "why_tests_cant": "Data-structure invariant over unbounded histories.", "anchors": ["pallets/staking/src/slashing.rs::SlashingSpans", "pallets/staking/src/slashing.rs::SlashingSpans::end_span", "pallets/staking/src/slashing.rs::SlashingSpans::prune"]}
{"id": "C40", "title": "Within a span only the worst offence counts", "statement": "The total slashed from a validator within one slashing span equals the largest single slash recorded in it, independent of the order in which offences are reported; in one era only the highest slash counts. Removing a stash removes its spans, so that the count starts anew when it is bonded again.", "quantifier": "all sequences of offence reports", "why_tests_cant": "Order-independence over all report schedules.", "anchors": ["pallets/staking/src/slashing.rs::compute_slash", "pallets/staking/src/slashing.rs::compare_and_update_span_slash"]}
{"id": "C41", "title": "Reporters never receive more than was slashed", "statement": "Whatever the number of reporters, the rewards paid plus the remainder given to the treasury equal the amount actually slashed (provided the accounts of the treasury and the reporters exist; what is due to an account that does not exist and is below the existential deposit is burnt), and the reporter payout never exceeds the slashed amount.", "quantifier": "all slash amounts, payouts and reporter lists", "why_tests_cant": "All amounts and list lengths, with rounding division.", "anchors": ["pallets/staking/src/slashing.rs::pay_reporters", "pallets/staking/src/slashing.rs::apply_slash"]}
{"id": "C42", "title": "Deferred slashes are applied exactly once", "statement": "Each slash queued for deferral is applied exactly once, at the start of the era that lies the deferral duration after its own, unless it was cancelled before; cancelling removes exactly the chosen entries and keeps the order of the others.", "quantifier": "all histories of offences, cancellations and era changes", "why_tests_cant": "History property including the catch-up loop.", "anchors": ["pallets/staking/src/lib.rs::apply_unapplied_slashes", "pallets/staking/src/lib.rs::cancel_deferred_slash", "pallets/staking/src/lib.rs::on_offence"]}
{"id": "C43", "title": "Delegation graph is symmetric", "statement": "At all times a delegator appears in a validator's delegator set exactly if the delegator's own record is active and names the validator, the counts reported for delegators match the records.", "quantifier": "all histories of delegate, undelegate, validate, chill and force calls", "why_tests_cant": "Cross-map invariant over histories.", "anchors": ["pallets/staking/src/lib.rs::do_delegate", "pallets/staking/src/lib.rs::_undelegate", "pallets/staking/src/lib.rs::delegate_any", "pallets/staking/src/lib.rs::chill_stash"]}
{"id": "C44", "title": "Each delegator is rewarded at most once per era", "statement": "No era is paid twice to the same delegator, whatever the order and batching of the payout loop, and the marker of the first unpaid era never moves backwards.", "quantifier": "all delegator sets, batch sizes and block sequences", "why_tests_cant": "Batching over blocks with resumable cursor.", "anchors": ["pallets/staking/src/lib.rs::pay_delegators", "pallets/staking/src/lib.rs::pay_delegator"]}
{"id": "C45", "title": "Referral counts match referrals", "statement": "The referee count of every account equals the number of accounts that currently name it as referrer; nobody refers themselves.", "quantifier": "all histories of referral calls", "why_tests_cant": "Counting invariant over histories.", "anchors": ["pallets/staking/src/lib.rs::set_user_referer", "pallets/staking/src/lib.rs::unset_user_referer"]}
{"id": "C46", "title": "Mining rewards never exceed the mining pool", "statement": "The total minted to validators and delegators out of the mining pool never exceeds the amount taken out of the pool, so the lifetime total never exceeds the pool's size.", "quantifier": "all payouts, reward-point distributions and pool sizes", "why_tests_cant": "Rounding: depends on exact amounts.", "anchors": ["pallets/staking/src/lib.rs::pay_validators", "pallets/staking/src/lib.rs::make_validator_payout", "pallets/staking/src/lib.rs::pay_delegators", "pallets/staking/src/lib.rs::RemainderMiningReward"]}
{"id": "C47", "title": "Validator election respects count, whitelist and rotation", "statement": "An election returns no more than the configured number of validators, all of them current candidates without duplicates, whitelisted candidates as specified; no candidate left out was elected longer ago, or equally long ago with more delegators, than an elected one, and if fewer candidates than the minimum exist no election happens.", "quantifier": "all candidate sets and configurations, all storage iteration orders", "why_tests_cant": "Sorting and truncation over unbounded sets in hash order.", "anchors": ["pallets/staking/src/lib.rs::elect", "pallets/staking/src/lib.rs::compare"]}
{"id": "C48", "title": "Staking for credit charges exactly the level price", "statement": "Raising one's credit by staking delegation charges exactly the difference between the configured prices of target and current level and leaves the account at the target level, or fails without effect.", "quantifier": "all credit states and level settings", "why_tests_cant": "Quantifies over all current scores and settings.", "anchors": ["pallets/staking/src/lib.rs::do_staking_delegate", "pallets/staking/src/lib.rs::staking_delegate"]}
{"id": "C49", "title": "NPoW minting obeys the daily cap", "statement": "The total minted through the NPoW mint call in one day never exceeds the daily limit, only privileged accounts can mint.", "quantifier": "all histories of mint calls over all blocks", "why_tests_cant": "Cap over histories with a daily reset boundary.", "anchors": ["pallets/staking/src/lib.rs::npow_mint"]}
{"id": "C50", "title": "Proxy types are sound", "statement": "If one proxy type is declared a superset of another then every call allowed to the second is allowed to the first; a non-transfer proxy can never move funds directly.", "quantifier": "all proxy types and all runtime calls", "why_tests_cant": "Universal statement over the whole call type.", "anchors": ["runtime/src/lib.rs::ProxyType", "runtime/src/lib.rs::is_superset"]}
{"id": "C51", "title": "Fees are split without loss", "statement": "Transaction fees and tips are split 80/20 between treasury and block author so that both parts add up to the fee paid for every amount.", "quantifier": "all fee and tip amounts", "why_tests_cant": "Rounding for all amounts.", "anchors": ["runtime/src/lib.rs::DealWithFees"]}
{"id": "C52", "title": "Declared precompiles are exactly the executed ones", "statement": "An address is reported as a precompile exactly if calling it runs a precompile.", "quantifier": "all 160-bit addresses", "why_tests_cant": "2^160 inputs.", "anchors": ["runtime/src/precompiles.rs::FrontierPrecompiles"]}
{"id": "C53", "title": "Credit precompile is authorised and decodes faithfully", "statement": "Credit changes through the EVM happen only for privileged callers, in non-static non-payable context, with the account and amount encoded in the call data. Any contract can read scores by a static call, or by a call without money.", "quantifier": "all call data, callers and call contexts", "why_tests_cant": "All byte strings.", "anchors": ["pallets/precompile-credit/src/lib.rs::execute", "pallets/precompile-credit/src/lib.rs::do_update_credit", "pallets/credit/src/lib.rs::evm_update_credit"]}
{"id": "C54", "title": "Council seats, runners-up and candidates are disjoint and sorted", "statement": "At all times the member list and the candidate list are strictly sorted by account, and no account is in two of the three lists members, runners-up and candidates.", "quantifier": "all histories of candidacies, renunciations, removals and elections with any election outcome drawn from the candidates", "why_tests_cant": "Invariant over histories with an external election algorithm.", "anchors": ["pallets/elections-phragmen/src/lib.rs::submit_candidacy", "pallets/elections-phragmen/src/lib.rs::renounce_candidacy", "pallets/elections-phragmen/src/lib.rs::remove_and_replace_member", "pallets/elections-phragmen/src/lib.rs::do_phragmen"]}
{"id": "C55", "title": "Council deposits are always backed and returned or forfeited once", "statement": "The reserved balance of each account covers exactly its candidacy or seat deposit plus its voting deposit; each deposit is returned or slashed exactly once.", "quantifier": "all histories of election calls and elections", "why_tests_cant": "Money invariant over histories.", "anchors": ["pallets/elections-phragmen/src/lib.rs::vote", "pallets/elections-phragmen/src/lib.rs::remove_voter", "pallets/elections-phragmen/src/lib.rs::submit_candidacy", "pallets/elections-phragmen/src/lib.rs::do_phragmen"]}
{"id": "C56", "title": "An expired channel can be closed by its client for the full refund", "statement": "Once a channel has expired, a close by its client succeeds and pays the client the whole remaining channel balance minus the configured percentage fee, which goes to the treasury; the channel is gone afterwards (client account alive, its locks covered, treasury account existing, and no channel in the reverse direction, which the same call would close first). The call that closes all expired channels of its caller at once, in whatever order it goes through them, closes them all and pays back what they held, less the fee of each, whether or not there are channels in the reverse direction.", "quantifier": "all states with an expired channel, all balances and fee percentages up to 100", "why_tests_cant": "The close deposits and then withdraws the fee; whether the withdrawal can fail depends on the existential deposit, locks and rounding for every balance, and a failure would strand the escrow.", "anchors": ["pallets/micropayment/src/lib.rs::close_channel", "pallets/micropayment/src/lib.rs::deposit_into_account"]}
{"id": "C57", "title": "Genesis users lose one percent of yearly rate every half-year", "statement": "At the first block of the era that lies k half-years (k = 1..5, 180 eras each) after the recorded reference era, the yearly rate of genesis users at every credit level from one to eight becomes the initial rate (15,18,19,20,22,23,24,25 percent) minus k percent; at every other block the rates are left alone.", "quantifier": "all states, all eras and block numbers", "why_tests_cant": "The schedule spans two and a half years of blocks and nine settings per step; a test checks one or two block numbers.", "anchors": ["pallets/credit/src/lib.rs::on_initialize", "primitives/src/credit.rs"]}
{"id": "C58", "title": "Stored credit level always matches the stored score", "statement": "If the genesis records are consistent, then after every history the level stored with each credit record, current or historic, is the level of the score stored with it.", "quantifier": "all histories of all credit-changing calls, hooks and calls from other modules", "why_tests_cant": "Score and level are stored redundantly and updated at more than ten places; a test covers a few of them in one order.", "anchors": ["pallets/credit/src/lib.rs::UserCredit", "pallets/credit/src/lib.rs::UserCreditHistory", "primitives/src/credit.rs::CreditData::update"]}
{"id": "C59", "title": "An account moves on when its reward period ends", "statement": "An account whose campaign has a successor and which is not exempted is in the successor campaign after the reward for the last era of its reward period has been computed, with its credit unchanged and a new reward period.", "quantifier": "all credit states, all reward queries", "why_tests_cant": "Whether the switch happens depends on how reward queries are aligned with the end of the period; tests use queries of a single era.", "anchors": ["pallets/credit/src/lib.rs::get_reward", "pallets/credit/src/lib.rs::do_switch_campaign"]}
{"id": "C60", "title": "Traffic reports need a signature of a configured key", "statement": "A traffic report is accepted only with a signature, by a key that root has configured, over exactly this account and this nonce; the signed bytes for any other account, nonce or key are different.", "quantifier": "all states, all hash functions and signature schemes, all reports", "why_tests_cant": "Needs injectivity of the byte layout over all inputs and all configurations of the two keys, including unset ones.", "anchors": ["pallets/credit-accumulation/src/lib.rs::verify_atomos_signature", "pallets/credit-accumulation/src/lib.rs::do_verify"]}
{"id": "C61", "title": "Reward-mapping authorisations are single use", "statement": "A signature issued to an account for mapping an EVM reward address can be used for one mapping only.", "quantifier": "all histories of mapping calls and all signature schemes", "why_tests_cant": "It is about every later call in every history; tests show one accepted call only, and the flaw needs a second call with the same signature.", "anchors": ["pallets/deeper-node/src/lib.rs:406-443", "pallets/credit-accumulation/src/lib.rs"]}
{"id": "C62", "title": "Offline time counts from the last heartbeat", "statement": "The number of eras for which a device counts as offline (which lets its clients close channels early and lowers credit) is the number of whole eras since the block of its last heartbeat, or since block 0 if it never sent one, whatever other calls were made in between.", "quantifier": "all histories and accounts", "why_tests_cant": "Tests check single heartbeats; the claim concerns any interleaving of heartbeats with registrations and other calls.", "anchors": ["pallets/deeper-node/src/lib.rs:357-367", "pallets/deeper-node/src/lib.rs:929-934"]}
{"id": "C63", "title": "An overdue release is stuck", "statement": "If the amount due to an account under its release schedule has grown beyond the single release limit (blocks or days were missed), then nothing is released to the account in any later block, however much time passes, until the limits are changed or a new schedule is agreed.", "quantifier": "all states with such a schedule and all later sequences of calls and blocks", "why_tests_cant": "It is a statement about all later histories; a test only sees finitely many blocks.", "anchors": ["pallets/operation/src/lib.rs:release_staking_balance", "pallets/operation/src/lib.rs:is_single_max_limit"]}
{"id": "C64", "title": "Every ADSC staker is served every day", "statement": "On a day with at least 17001 blocks on which nobody is registered and no device goes on- or offline, every online ADSC staker with days left receives a reward on that day, and every online staker without days left is removed.", "quantifier": "all sets of stakers, all interleavings of other calls with the blocks of the day", "why_tests_cant": "The number of accounts treated per block depends on the number of stakers; a test fixes both.", "anchors": ["pallets/adsc/src/lib.rs:on_initialize", "pallets/adsc/src/lib.rs:adsc_reward"]}
{"id": "C65", "title": "ADSC rewards are bounded for ever", "statement": "While the administrators change neither the base reward nor the halving target, the total of all ADSC ever minted as rewards stays below the initial target times (2 + binary logarithm of the base reward).", "quantifier": "all histories", "why_tests_cant": "It is a bound over unbounded histories; the halving happens only after billions of tokens.", "anchors": ["pallets/adsc/src/lib.rs:pay_reward"]}
{"id": "C66", "title": "NFTs of ADSC stakers", "statement": "Only registered stakers have an NFT on record; registering with an NFT mints an item nobody owned to the account and burns the account former NFT; no other item changes. At the end of the days the recorded NFT is burnt only if it still belongs to that staker.", "quantifier": "all histories", "why_tests_cant": "The record can become outdated through calls to another pallet; tests do not combine them.", "anchors": ["pallets/adsc/src/lib.rs:add_adsc_staking_account_with_nft", "pallets/adsc/src/lib.rs:remove_nft"]}
{"id": "C67", "title": "A credit tip gives the median, at most 15", "statement": "Closing a credit tip gives the beneficiary a median of the credit amounts declared by those who are still tippers, but never more than 15, returns the deposit and moves no other money.", "quantifier": "all histories of tip calls and member changes", "why_tests_cant": "Which declarations count depends on the history of votes and council changes.", "anchors": ["pallets/tips/src/lib.rs:close_credit_tip", "pallets/tips/src/lib.rs:payout_credit_tip"]}
{"id": "C68", "title": "A reported validator is no candidate any more", "statement": "As soon as an offence of a validator in its current slashing span has been reported and accepted, the validator is no longer on the list of candidates, however small the slash is (except if the stash was removed and bonded again after a report of the same era with at least that fraction); a report of an offence in an older span does not remove it.", "quantifier": "all histories of bonding, validating, eras and reports", "why_tests_cant": "The current span depends on the whole history of reports; tests cover single reports.", "anchors": ["pallets/staking/src/slashing.rs:208-307", "pallets/staking/src/lib.rs:3353-3476"]}
{"id": "C69", "title": "USDT staking reaches exactly the level it pays for", "statement": "When an admin records a USDT stake for an account, the account ends at the highest credit level whose price, less the price of its present level, the amount covers; both amounts are added to the stake recorded for the account, no balance is touched, and no other account changes; otherwise the call fails without effect.", "quantifier": "all states, increasing price lists without levels above eight, accounts with or without credit, all amounts", "why_tests_cant": "The loop over the levels depends on the whole price list, the present level and the amount; tests try single amounts on one list.", "anchors": ["pallets/staking/src/lib.rs:1073-1084", "pallets/staking/src/lib.rs:3183-3231", "pallets/credit/src/lib.rs:1667-1681"]}
{"id": "C70", "title": "The prime of the council is its best-voted member", "statement": "The prime, if there is one, is always a member. After an election the prime is the member with the greatest weight of votes (stake times sixteen for a first place, fifteen for a second and so on), the greater account in case of a tie; there is none only if nobody was elected.", "quantifier": "all histories, all election outcomes, all votes", "why_tests_cant": "Membership of the prime must survive any sequence of removals, replacements and elections; tests check single removals.", "anchors": ["pallets/elections-phragmen/src/lib.rs:808-886", "pallets/elections-phragmen/src/lib.rs:1070-1123"]}
{"id": "C71", "title": "The collective always knows the actual council", "statement": "Every call either changes neither the elected members nor the list of members known to the collective, or leaves both equal; so after the first election (or with an empty genesis list) they never differ.", "quantifier": "all histories of election calls, elections and changes elsewhere", "why_tests_cant": "Two pallets keep two copies of the list; equality must hold after every sequence of calls.", "anchors": ["pallets/elections-phragmen/src/lib.rs:853-883", "pallets/elections-phragmen/src/lib.rs:1105-1122", "runtime/src/lib.rs:765-786"]}
{"id": "C72", "title": "A leaving council member is replaced by the best runner-up", "statement": "When a member renounces or is removed without a new election, exactly that member leaves and the remaining runner-up who was elected first in the last election takes the seat and leaves the list of runners-up; without runners-up the seat stays empty. A call for somebody who is no member fails without effect.", "quantifier": "all histories, all election outcomes, all members", "why_tests_cant": "The order of the runners-up has to survive all earlier replacements, renunciations and elections.", "anchors": ["pallets/elections-phragmen/src/lib.rs:480-564", "pallets/elections-phragmen/src/lib.rs:808-886", "pallets/elections-phragmen/src/lib.rs:1055-1069"]}
{"id": "C73", "title": "Voting stake is locked while the vote counts", "statement": "As long as the votes of an account count, at least the stake they count with is frozen in the account, so that no withdrawal can bring the free balance below it; once the votes are removed the pallet freezes nothing.", "quantifier": "all histories, all voters except genesis members, all withdrawals", "why_tests_cant": "Locks and votes are separate records changed by votes, removals and cleaning, in any order and with changing locks of other pallets.", "anchors": ["pallets/elections-phragmen/src/lib.rs:320-406", "pallets/elections-phragmen/src/lib.rs:943-953"]}
{"id": "C74", "title": "Eras follow the sessions", "statement": "The planned era is the active era or the next one. Each new session makes the planned era active and plans at most one more: always when forced, never when eras are switched off, otherwise exactly when the planned era has had its number of sessions. Without forcing, the active era is the session index divided by the sessions per era. Forcing an era with every session lasts until root asks for something else, whatever offences there are; after root asks for one new era, or an offender is disabled, the next session plans one unless root switches eras off before. Switching eras off lasts until it is switched on again.", "quantifier": "all histories from genesis of sessions, blocks, staking calls, forcing calls, offences and changes of the history depth", "why_tests_cant": "The calendar is the result of three storage items updated by different hooks of two pallets; tests run a few eras with fixed lengths, not arbitrary interleavings with forcing and pruning.", "anchors": ["pallets/staking/src/lib.rs:2494-2607", "pallets/staking/src/lib.rs:2868-2888", "pallets/staking/src/lib.rs:1577-1607", "pallets/staking/src/lib.rs:3069-3074"]}
{"id": "C75", "title": "An offence is attributed to the era in which it happened", "statement": "An offence reported for a past session is attributed to the era that was active in that session, if this era is at most the bonding duration older than the active one; otherwise it is dropped.", "quantifier": "all histories from genesis that keep at least one era of history, all sessions seen, all later times", "why_tests_cant": "The attribution searches a pruned list of era starts; a boundary error shows only for particular combinations of session, era length and pruning.", "anchors": ["pallets/staking/src/lib.rs:3371-3408", "pallets/staking/src/lib.rs:2570-2607"]}
{"id": "C76", "title": "Validators are paid for the blocks of the era, once", "statement": "When an era ends each of its validators is paid out of the era reward, or the rest of the pool if less, in proportion to the blocks authored while the era was active; the pool falls by exactly what is paid; every era is ended exactly once and in order, and no other session change moves money.", "quantifier": "all histories from genesis that keep at least one era of history, all validators and reward destinations, all accounts", "why_tests_cant": "It relates the count of blocks over a whole era to balances after its end, through points, era changes and payout destinations.", "anchors": ["pallets/staking/src/lib.rs:2555-2565", "pallets/staking/src/lib.rs:2610-2673", "pallets/staking/src/lib.rs:2860-2865", "pallets/staking/src/lib.rs:3056-3066", "pallets/staking/src/lib.rs:3305-3307"]}
{"id": "C77", "title": "Only elected validators are in charge", "statement": "The validators in charge in an era were elected for this era, and what is elected takes over with the first session of the era. Whoever authors blocks in an era takes part in its payout.", "quantifier": "all histories from genesis that keep at least one era of history", "why_tests_cant": "Elections run one session ahead, so the list in charge, the queued list and the stored list of the era are three copies which have to agree over time.", "anchors": ["pallets/staking/src/lib.rs:2494-2532", "pallets/staking/src/lib.rs:2868-2888", "pallets/staking/src/lib.rs:2610-2648"]}
{"id": "C78", "title": "Unbonded stake stays until offences can no longer be reported", "statement": "Stake can only be withdrawn when no offence committed up to the time of unbonding can be attributed any more.", "quantifier": "all histories from genesis, all unbondings and withdrawals, all offences", "why_tests_cant": "Unbonding counts planned eras while offences count active eras; whether the windows cover each other depends on all possible positions of sessions within eras.", "anchors": ["pallets/staking/src/lib.rs:1286-1347", "pallets/staking/src/lib.rs:2570-2607", "pallets/staking/src/lib.rs:3371-3408"]}
{"id": "C79", "title": "Credit records change only for the listed reasons", "statement": "A credit record changes only through: one point for traffic, a tip, burning DPR or an NFT, staking, an EVM operator's update, a slash, unstaking, the data set by root or an administrator, and the offline penalty or campaign change of a reward query. It changes by exactly the amount of the reason, only for the account concerned, and apart from unstaking, campaign change and setting only score and level change. In particular the offline penalty applies only to devices offline for a positive multiple of three eras and not under maintenance.", "quantifier": "every state, every operation with every argument, every account", "why_tests_cant": "A test shows that a call has its effect on one account; that no operation changes any other record or any other field is a statement about all operations and all states.", "anchors": ["pallets/credit/src/lib.rs:955-1005", "pallets/credit/src/lib.rs:1152-1203", "pallets/credit/src/lib.rs:1345-1367", "pallets/credit/src/lib.rs:1391-1601", "pallets/credit/src/lib.rs:1631-1661"]}
{"id": "C80", "title": "Unstaking takes back exactly the staking credit", "statement": "The staking credit of an account is the sum of the points obtained by staking since the last unstaking (or since an administrator set it). Unstaking succeeds exactly if there is such a record and the account has credit; it lowers the score by exactly the staking credit, not below zero, and clears the record. Staking and unstaking restores the score.", "quantifier": "all histories, all accounts and amounts", "why_tests_cant": "The amount taken back depends on the whole history of staking calls, other gains and losses in between.", "anchors": ["pallets/credit/src/lib.rs:1345-1367", "pallets/credit/src/lib.rs:1631-1661", "pallets/credit/src/lib.rs:742-775"]}
{"id": "C81", "title": "The daily reward is a 365th of the yearly rate", "statement": "In every reachable state the reward of one day for a credit record is one 365th of the level's yearly rate on the level's stake, less the part set aside for referees, up to rounding below one base unit and one part in five million; members whose rank earns a bonus get in addition the difference the bonus makes in their initial level. In the USDT campaign it is one 365th of the level's rate on the DPR value of the USDT stake (25 USDT if there is none), nothing without a price.", "quantifier": "all histories from genesis with rates of at most 100 percent, all records, all accounts", "why_tests_cant": "The reward is computed by nested fixed-point roundings from a table that has to be kept in step with the settings by every call that changes them.", "anchors": ["pallets/credit/src/lib.rs:1091-1121", "pallets/credit/src/lib.rs:1205-1299", "pallets/credit/src/lib.rs:1493-1499"]}
{"id": "C82", "title": "Credit parameters are in the hands of privileged accounts", "statement": "Calls reserved to credit administrators, device administrators, oracles and EVM operators fail without effect for everyone else. No other operation changes a parameter of the pallet. With the privilege each call sets exactly the parameter it names. A device is exempted from offline penalties exactly if the last successful call of a device administrator about it registered it.", "quantifier": "every state, every operation, every caller; all histories for the exemption", "why_tests_cant": "That no unprivileged operation can change a parameter is a statement about all operations in all states.", "anchors": ["pallets/credit/src/lib.rs:483-491", "pallets/credit/src/lib.rs:604-632", "pallets/credit/src/lib.rs:669-886", "pallets/credit/src/lib.rs:918-953"]}
{"id": "C83", "title": "A server is offered for the time asked for", "statement": "A device that registers or updates its server registration for n eras is offered as server until n eras after the block of that call, and no longer. Durations above the maximum and unregistered devices are refused.", "quantifier": "all histories from genesis, all devices, all durations", "why_tests_cant": "The end of a registration depends on the last effective call in an arbitrary history of registrations, updates, removals and moves.", "anchors": ["pallets/deeper-node/src/lib.rs:253-353", "pallets/deeper-node/src/lib.rs:461-526"]}
{"id": "C84", "title": "Privileged operations move exactly what they name", "statement": "The calls reserved to lockers, release setters, bridge administrators and root fail without effect for everyone else. A locker's reservation moves exactly the amount from free to reserved balance of the account named. Root's release of locked assets moves exactly the amount from source to destination. A release schedule is accepted exactly if its days, total and daily amount are admissible, and replaces the schedule of that account only. The limits set by root are those the limit query uses. The recorded total equals everything ever released.", "quantifier": "every state and caller; all histories for the recorded total", "why_tests_cant": "Tests check some callers and amounts; exactness for all amounts, and that nothing else moves, needs a proof.", "anchors": ["pallets/operation/src/lib.rs:266-382", "pallets/operation/src/lib.rs:506-634"]}
{"id": "C85", "title": "What is due is released on the same day", "statement": "If an account's release schedule has something due today, within the limit for a single release, then it is paid exactly the days due times its daily amount within a number of blocks of the same day bounded by the number of schedules, unless the limit for the day has been used up by releases.", "quantifier": "all states at a change of day, all histories of the following blocks on that day", "why_tests_cant": "A liveness statement over arbitrary interleavings of blocks with other calls.", "anchors": ["pallets/operation/src/lib.rs:247-259", "pallets/operation/src/lib.rs:540-615"]}
{"id": "C86", "title": "The ADSC rewards follow the halving schedule exactly", "statement": "While nobody changes base reward and target, every daily ADSC reward is the initial base reward, halved once for every full target of rewards minted before it, times the share of the staker's remaining days in the reward period; the stored base reward and next target are those of the total minted.", "quantifier": "all histories from genesis without changes of base reward or target, every reward in every block", "why_tests_cant": "The amount depends on the sum of all rewards before, also within the same block.", "anchors": ["pallets/adsc/src/lib.rs:208-231", "pallets/adsc/src/lib.rs:470-552"]}
{"id": "C87", "title": "Administration of ADSC", "statement": "Only credit administrators can register stakers, change period, target, base reward and exchange rate, and mint or burn over the bridge; only root can fund the pool. Each of these calls does exactly what its arguments say and nothing else. A bridge mint or burn is accepted exactly if the asset allows it, and creates or removes exactly the amount for the account named, and the supply changes by it. A swap is accepted exactly if the rate is not zero, the caller can send the ADSC and the pool can pay.", "quantifier": "every state, caller and argument", "why_tests_cant": "Access control and absence of side effects concern all callers and states.", "anchors": ["pallets/adsc/src/lib.rs:264-460", "pallets/adsc/src/lib.rs:591-623"]}
{"id": "C88", "title": "One open tip per reason, and who may do what", "statement": "At any time there is at most one open tip for a reason; a reason is refused exactly as long as its tip is open. Reporting succeeds exactly if the reason is short enough, not in use, and the deposit can be put down; opening and declaring need a council member; only the finder retracts; only the designated origin slashes; only root sets the payment address. Failing calls change nothing.", "quantifier": "all histories from genesis, all callers and arguments (different tips having different keys)", "why_tests_cant": "The state of a reason depends on the whole history of openings, retractions, slashes and payments.", "anchors": ["pallets/tips/src/lib.rs:253-331", "pallets/tips/src/lib.rs:353-427", "pallets/tips/src/lib.rs:445-565"]}
{"id": "C89", "title": "Only stash and controller dispose of a bond", "statement": "The controller, bonded amounts, reward destination, candidacy and lock of a stash change only through calls signed by the stash or its controller, forced unstaking by root, and slashing, payout or kicking of that stash; the only call open to others is reaping a stash that holds exactly the existential deposit. Only bonded accounts are candidates, and exactly the bonded accounts have a reward destination.", "quantifier": "all histories of calls from genesis, every call, every stash", "why_tests_cant": "A statement about all other accounts' calls in all reachable states.", "anchors": ["pallets/staking/src/lib.rs:1111-1500", "pallets/staking/src/lib.rs:1659-1673", "pallets/staking/src/lib.rs:1763-1857", "pallets/staking/src/lib.rs:2101-2113", "pallets/staking/src/lib.rs:2651-2673"]}
{"id": "C90", "title": "When the staking calls succeed and what they do", "statement": "bond succeeds exactly for an unbonded stash, an unused controller and an amount of at least the minimum, and bonds the smaller of amount and free balance; bond_extra, unbond, withdraw_unbonded, rebond, validate and chill succeed exactly as stated (outside of the election window, for a controller, with chunks to spare, and so on); set_payee and set_controller change exactly destination and controller; only root forces unstaking and sets the minimum bond. A payout arrives in full at the destination chosen; rebond uses the latest unbonded amounts first; burning destroys the bond asked for. A new bond can be below the minimum, because the minimum is checked before the amount is cut to the free balance.", "quantifier": "every state and every argument (set_controller and burn: every reachable state)", "why_tests_cant": "Equivalences over all states; tests show single cases of success or failure.", "anchors": ["pallets/staking/src/lib.rs:1111-1500", "pallets/staking/src/lib.rs:1659-1673", "pallets/staking/src/lib.rs:1763-1857", "pallets/staking/src/lib.rs:2101-2113", "pallets/staking/src/lib.rs:2651-2673"]}
{"id": "C91", "title": "Payouts of a block arrive exactly", "statement": "In a block after which the mining pool is not empty, each payment credits the delegator with what the credit pallet computed for its eras, or with nothing up to the era it is blacklisted for, and credits its referrer with 5, 6, 7.5, 9 or 12 percent of that (1-20, 21-50, 51-100, 101-200, more referees), to the nearest unit. Nobody else's balance changes and the pool shrinks by exactly the sum. The record of rewards grows by what was earned and by the bonuses; it shows rewards a blacklisted delegator did not get, and the last bonus is overwritten with zero later in the era.", "quantifier": "every state and every reward function", "why_tests_cant": "The payout loop visits any number of delegators with any rewards, referrers and existing balances; tests look at single payouts.", "anchors": ["pallets/staking/src/lib.rs:2150-2181", "pallets/staking/src/lib.rs:2369-2379", "pallets/staking/src/lib.rs:2676-2857"]}
{"id": "C92", "title": "Every delegator is paid in every era", "statement": "In the course of an era every delegator with a record is paid for all its unpaid eras, provided that the pool is not empty, its delegation is not ended during the era, and fewer delegations are made in the era than it has blocks.", "quantifier": "all histories from genesis, all eras, all orders of storage keys", "why_tests_cant": "Liveness: the number of payouts per block is computed once at the start of the era, while records are added and removed.", "anchors": ["pallets/staking/src/lib.rs:2150-2181", "pallets/staking/src/lib.rs:2676-2738", "pallets/staking/src/lib.rs:3129-3136"]}
{"id": "C93", "title": "When delegation calls succeed and what they change", "statement": "delegate succeeds exactly outside of the election window, for an account that is no validator, with a nonempty list of at most the maximal number of different validators, all of them validators, and enough credit; undelegate exactly with a record; forced undelegation and increases of the pool only by root; referrers, black list, minting and compensation only with the privilege (and within pool or limit). The record of a delegator is changed exactly as stated by its own calls, by forced undelegation and by payouts to it, and by nothing else; pool, balances and black list change exactly as stated.", "quantifier": "every state and call (payout records: every reachable state)", "why_tests_cant": "Equivalences and frame conditions over all states, calls and other accounts.", "anchors": ["pallets/staking/src/lib.rs:1692-1703", "pallets/staking/src/lib.rs:1861-1952", "pallets/staking/src/lib.rs:1954-2097", "pallets/staking/src/lib.rs:2116-2130", "pallets/staking/src/lib.rs:2385-2462", "pallets/staking/src/lib.rs:3095-3127"]}
{"id": "C94", "title": "When micropayment calls succeed and what they change", "statement": "A channel is opened exactly if there is none between the two accounts in this direction, they differ and the client can spend the amount; balance is added exactly to an open channel with spendable money; the server closes at any time, the client only after expiry or while the server is offline; a claim on a live channel succeeds exactly with the next session, a valid signature and enough balance, on an expired channel it closes it. Each call emits exactly its event and changes exactly its own channel; a closing ends the session counter and raises the nonce; deposits take exactly the amount, closings pay the whole rest to the client, claims the amount to the server, minus the fee for the treasury. close_expired_channels closes exactly the caller's expired channels. Refused calls change nothing.", "quantifier": "every reachable state, call, balance and iteration order", "why_tests_cant": "Equivalences and frame conditions over all states, other channels and accounts.", "anchors": ["pallets/micropayment/src/lib.rs:212-258", "pallets/micropayment/src/lib.rs:263-320", "pallets/micropayment/src/lib.rs:326-347", "pallets/micropayment/src/lib.rs:352-376", "pallets/micropayment/src/lib.rs:381-462", "pallets/micropayment/src/lib.rs:467-474", "pallets/micropayment/src/lib.rs:523-549"]}
{"id": "C95", "title": "When the credit calls succeed", "statement": "Burning tokens for credit succeeds exactly if the account has a record, the target does not exceed the minimum credit or some credit in its history, and it can spend the price; burning an NFT exactly for a class with a credit, below the maximal total; an oracle price exactly if non-zero, from an oracle worker, within the permitted difference; writing a record exactly if its level matches the score and its referees are permitted; slashing exactly for an account with a record or to be deleted; unstaking exactly with a record and staking credit; rewriting a history exactly if an entry is not later than the new beginning; administrative calls exactly for the committee or the administrators. Refused calls change nothing. Traffic raises credit exactly for an onboard device with a record after a full era since the last raise, and then the time of the report is what counts next, no longer the era recorded in the old way; the EVM call reports success exactly for a privileged caller and a mapped user with a record (or to be deleted).", "quantifier": "every reachable state, every operation and argument", "why_tests_cant": "Equivalences over unbounded states and arguments, which fail for every mutation of a guard.", "anchors": ["pallets/credit/src/lib.rs:495-534", "pallets/credit/src/lib.rs:553-600", "pallets/credit/src/lib.rs:637-665", "pallets/credit/src/lib.rs:798-829", "pallets/credit/src/lib.rs:918-953", "pallets/credit/src/lib.rs:1178-1203", "pallets/credit/src/lib.rs:1391-1427", "pallets/credit/src/lib.rs:1631-1661"]}
{"id": "C96", "title": "Recorded history of a credit record", "statement": "A history entry of an account is written exactly as follows: every operation that changes its record (traffic, tips, burning, NFTs, slashing, unstaking, the administrators, the EVM call) notes the new record for the current era, replacing an entry of the same era, if the account has a history; deleting the record deletes the history; a reward query starts the history and notes the record if it changes it (offline penalty, end of campaign); starting a delegation resets it to the present record; root can make it begin at an era with the record valid then. Nothing else changes any history.", "quantifier": "every reachable state, every operation, every account", "why_tests_cant": "Table over all histories; a dropped or doubled entry shows only in later rewards.", "anchors": ["pallets/credit/src/lib.rs:986-1014", "pallets/credit/src/lib.rs:1433-1505", "pallets/credit/src/lib.rs:1508-1615", "pallets/credit/src/lib.rs:575-600"]}
{"id": "C97", "title": "What a reported offence leads to", "statement": "A report of an offence is considered exactly if no election is under way, the validator is not invulnerable and the era of the session is not older than the bonding duration, and is attributed to the last era that started by that session. It leads to a slash exactly if the fraction of the total stake is not negligible and larger than that of every earlier slash of the validator for this era; the own stake is then slashed by what exceeds the worst earlier slash of the slashing span, and the reporters are to get half of the reward fraction of the whole slash less what was already given in the span, unless an earlier one was worse. Deferred slashes are cancelled exactly by the right origin with a non-empty, strictly ascending list of existing positions. Removing a stash removes all its slashing records, and only if the caller named enough spans.", "quantifier": "every history of eras, reports, cancellations and staking calls; every report", "why_tests_cant": "Depends on the whole history of eras and reports; boundary errors shift the era or the amounts.", "anchors": ["pallets/staking/src/lib.rs:1718-1745", "pallets/staking/src/lib.rs:2570-2607", "pallets/staking/src/lib.rs:3353-3476", "pallets/staking/src/slashing.rs:208-280", "pallets/staking/src/slashing.rs:382-443", "pallets/staking/src/slashing.rs:452-476"]}
{"id": "C98", "title": "Council elections: when calls succeed and what they change", "statement": "A vote succeeds exactly if it names one to sixteen accounts, not more than there are candidates, members and runners-up, locks more than the existential deposit, and the increase of the deposit can be reserved; it then replaces the votes of the account, with the smaller of the offered value and the free balance as stake, which is locked. Votes can be withdrawn exactly by voters. A candidacy succeeds exactly if the announced number covers the candidates, they are not too many, the account has an identity, does not stand already and can reserve the bond. Renouncing succeeds exactly for those in the named list, removal by root exactly for members. Defunct voters, those none of whose votes stands any more, are exactly those removed by the clean-up. Elections take place exactly at the ends of terms (and when root asks for it with a removal), if anybody stands, the voters are not too many and the computation succeeds: of the winners with backing the first become members and the others runners-up, the worst first, each with the deposit given before; candidates are cleared and the round counted. Nothing else changes votes, locks of the elections, or the three lists.", "quantifier": "every state (lists: every history from genesis); every call; every result of the election computation within its contract", "why_tests_cant": "Interplay of three lists, deposits, locks and votes over arbitrary histories; limits are met at exact boundaries only.", "anchors": ["pallets/elections-phragmen/src/lib.rs:279-286", "pallets/elections-phragmen/src/lib.rs:320-406", "pallets/elections-phragmen/src/lib.rs:425-454", "pallets/elections-phragmen/src/lib.rs:480-520", "pallets/elections-phragmen/src/lib.rs:546-589", "pallets/elections-phragmen/src/lib.rs:936-1193"]}
{"id": "C99", "title": "Device registry: when calls succeed, and only own records change", "statement": "Registering a device succeeds exactly for a known country code and an account that has a device already or can reserve the deposit. Everything else about devices and servers needs exactly a registered device and, where a duration is given, one not above the maximum. A credit proof is accepted exactly with a valid signature, a reward mapping exactly with a valid signature for an address not mapped yet, the reward query exactly for mapped accounts. A failing call changes nothing. No call changes a record (device, country, expiry, heartbeat, onboarding, proof, reward address, balance) of another account than the caller. The country on record is that of the last registration, the proof that of the last accepted report.", "quantifier": "all states; effects: all histories from genesis", "why_tests_cant": "A guard that is too strict or too loose shows only for particular states; frame conditions concern all other accounts.", "anchors": ["pallets/deeper-node/src/lib.rs:253-299", "pallets/deeper-node/src/lib.rs:303-353", "pallets/deeper-node/src/lib.rs:357-457"]}
{"id": "C100", "title": "Traffic reports: which are accepted, and who may rotate the keys", "statement": "A traffic report is accepted exactly if it carries the number of reports accepted from the account so far and is signed, over the public key, that number and the account, by the key which root last set in the main or in the temporary slot. An accepted report is counted and passed on to the credit pallet; a refused one changes nothing. Only root can set the two keys; setting one changes nothing else. Reward mappings (C99) need the main key, credit proofs either.", "quantifier": "all histories, accounts, nonces, signatures and signature schemes", "why_tests_cant": "Key rotation and nonces interact over histories; accepting old keys or skipping nonces shows only after particular sequences.", "anchors": ["pallets/credit-accumulation/src/lib.rs:115-155", "pallets/credit-accumulation/src/lib.rs:159-207"]}
{"id": "C101", "title": "Staking for credit: when the calls succeed, which prices apply, what is recorded", "statement": "staking_delegate succeeds exactly if the report is signed, the level is offered to the account and above its present one, the account has credit, can pay the difference of the prices and stay alive, and there is a validator; otherwise nothing changes. usdt_staking_delegate succeeds exactly if a credit admin calls it, USDT levels are offered to the account, a newcomer's amount covers the first price, and there is a validator or the account stays at level zero. DPR prices are those of the account's campaign (of the default campaign for newcomers), and none for accounts of the USDT campaign; USDT prices are offered to newcomers and accounts of the USDT campaign only. The campaign of an account stays, newcomers get the default; credit of others stays. A new delegator starts a credit history with the present era and the new credit. Only credit admins can delete the record of DPR paid in, which changes nothing else.", "quantifier": "all states, accounts, amounts, levels, price lists up to level eight and validator orders", "why_tests_cant": "Tests fix one price list, one campaign and one account; lists, campaigns, balances, locks and scores interact.", "anchors": ["pallets/staking/src/lib.rs:1055-1084", "pallets/staking/src/lib.rs:2133-2145", "pallets/staking/src/lib.rs:3142-3231", "pallets/credit/src/lib.rs:1277-1343"]}
{"id": "C102", "title": "Operation pallet: when each call succeeds, and what the administrative calls change", "statement": "Each call succeeds exactly under its conditions and otherwise changes nothing: removing locks, setting limits and releasing locked assets need root; reserving needs the locker privilege and an account that keeps locks and existential deposit; schedules need the setter privilege, positive days and total, a daily amount within the limit and staking credit to take back; burning needs the minimum amount and an account that keeps locks and existential deposit; bridge transfers need the bridge privilege, a fund pool and a payer that stays alive; root's release may empty an account unless something is reserved, locked or pinned. Removing schedules removes exactly those named and pays nothing; setting the fund pool, limits or removing a lock changes nothing else.", "quantifier": "all states, callers, amounts and accounts", "why_tests_cant": "Tests try few balances; acceptance depends on locks, reserves, the existential deposit and privileges together.", "anchors": ["pallets/operation/src/lib.rs:266-524"]}
{"id": "C103", "title": "Paused calls are refused, and pausing can always be undone", "statement": "Whatever was called before, calls of Sudo, System and TxPause are never paused. A signed account other than the sudo key cannot change what is paused, and nothing it calls, also inside batches, runs while paused; calls which are not paused run. Root, and the sudo key, can at any time pause every other call and lift every pause, and this changes nothing else. (The comment on the whitelist says that Balances::transfer_keep_alive cannot be paused; it can.)", "quantifier": "all histories of calls, nested to any depth, and all accounts and names", "why_tests_cant": "Nesting depth and histories are unbounded; a whitelist that loses an entry locks everybody out only after a particular history.", "anchors": ["runtime/src/lib.rs:276", "runtime/src/lib.rs:1489-1509"]}
{"id": "C104", "title": "Reserved money is exactly the sum of the deposits, on the chain as a whole", "statement": "With the device registry, tips, council elections, operation pallet, micropayments and staking ledger running on the same accounts, in any order of calls: the reserved balance of every account is what it was at genesis, plus its device lock, tip deposits, election deposits and deposits of other pallets, plus what locker members have had reserved (which nothing gives back). So no pallet ever spends or releases the deposit of another, and leaving the registry returns the whole lock, without assumptions about other pallets.", "quantifier": "all histories of calls of all these pallets interleaved with arbitrary balance operations, all accounts", "why_tests_cant": "A clash needs deposits of two pallets on the same account and a particular order of calls; tests exercise one pallet at a time.", "anchors": ["runtime/src/lib.rs:1551-1624", "pallets/deeper-node/src/lib.rs:236-300", "pallets/tips/src/lib.rs:253-340", "pallets/elections-phragmen/src/lib.rs:320-520", "pallets/operation/src/lib.rs:280-294"]}
{"id": "C105", "title": "Money is created only where rewards are paid", "statement": "In any history of the same pallets and arbitrary balance operations, the total issuance is always the sum of the balances of all accounts, no account is left below the existential deposit with nothing reserved, and all balances plus the money in payment channels grow by no more than the staking rewards paid, the scheduled releases announced, and explicit minting.", "quantifier": "all histories from correct books", "why_tests_cant": "Conservation of money is a statement about all orders of calls of all pallets; a leak shows only in particular interleavings.", "anchors": ["runtime/src/lib.rs:1551-1624", "pallets/micropayment/src/lib.rs:212-462", "pallets/operation/src/lib.rs:540-615", "pallets/staking/src/lib.rs:2651-2673"]}
{"id": "C106", "title": "The record of rewards of an account sums up its history", "statement": "After any history, the reward record an account can query agrees with what has happened: the total of rewards for its own credit is the sum of the amounts of all its payments and compensations, the last reward is the last of these, and the referral bonuses recorded as received are those recorded as earned plus its compensations. Recorded bonuses never shrink and grow only in a block in which a delegator referred by the account is paid. Compensations change the record of one account only.", "quantifier": "all configurations, reward tables, genesis balances and finite histories; all accounts", "why_tests_cant": "Tests check one payment; the sum over payments in many blocks, compensations, renewed delegations, blacklisting and empty pools is a statement about all histories.", "anchors": ["pallets/staking/src/lib.rs:2757-2857", "pallets/staking/src/lib.rs:1657-1690"]}
{"id": "C107", "title": "The upgrade of the credit settings", "statement": "The runtime upgrade of a chain with the previous storage version gives all nine levels of campaign 8 the new stakes, rates and numbers of referees, and campaign 7 (genesis users) the same with the additional percents that are left after the half-years since the reference era; no other campaign, no credit and no balance changes. The half-yearly reduction likewise sets all settings of campaign 7 and nothing else. Once upgraded, whatever happens, a further upgrade changes nothing.", "quantifier": "all configurations, states and finite histories between two upgrades", "why_tests_cant": "Tests of migrations check single values in one state; that everything else is untouched and that it happens once concern all states and histories.", "anchors": ["pallets/credit/src/lib.rs:416-472", "pallets/credit/src/credit_setting.rs:13-21", "pallets/credit/src/credit_setting.rs:128-257"]}
{"id": "C108", "title": "Staked money is really there, on the chain as a whole", "statement": "Whatever users, pallets and privileged accounts do, the bond recorded for a stash is covered by the balance of that account: no payment, fee, deposit, channel, tip, bridge transfer or vote spends staked money, although the pallets lock and reserve independently of each other. The only ways to fall below are penalties outside of staking (a forfeited deposit, a slash), dust below the existential deposit, a reward for an account which no longer exists, and the removal of the lock by the root.", "quantifier": "all configurations and all finite histories of the chain from a state without stakes, over all pallets that move, reserve or lock money", "why_tests_cant": "The locks and deposits of different pallets meet in one account only on the whole chain; unit tests run one pallet with a mock of the others.", "anchors": ["pallets/staking/src/lib.rs:1115-1144", "pallets/staking/src/lib.rs:2476-2487", "pallets/staking/src/lib.rs:2651-2673", "pallets/staking/src/slashing.rs:481-513", "pallets/operation/src/lib.rs:266-276", "pallets/operation/src/lib.rs:506-523", "pallets/elections-phragmen/src/lib.rs:360-412", "runtime/src/lib.rs:1551-1624"]}
{"id": "C109", "title": "The supply is capped: all rewards come out of the mining pool", "statement": "On the chain as a whole, with payouts, elections, slashes, staking and burning for credit, ADSC, tips, council elections, channels and bonds on the same accounts, all balances, all payment channels and the rest of the mining pool together never exceed what they were at the start plus explicit grants (the root enlarging the mining pool or the pool of ADSC, announced releases of the operation pallet), up to half a unit for each validator paid at an era which empties the pool. The total issuance is always the sum of the balances, and reserved money is always the sum of the deposits.", "quantifier": "all configurations, all amounts, all finite histories of calls, blocks, eras and offences from a state with correct books", "why_tests_cant": "Rewards, slashes, swaps and burning live in different pallets and meet in one set of accounts; a cap on the supply is a statement about all histories.", "anchors": ["pallets/staking/src/lib.rs:1990-2003", "pallets/staking/src/lib.rs:2060-2100", "pallets/staking/src/lib.rs:2651-2673", "pallets/staking/src/lib.rs:2757-2860", "pallets/staking/src/lib.rs:3165-3173", "pallets/staking/src/slashing.rs:481-575", "pallets/credit/src/lib.rs:553-600", "pallets/adsc/src/lib.rs:410-460", "pallets/operation/src/lib.rs:540-600", "runtime/src/lib.rs:1551-1624"]}
{"id": "C110", "title": "A delegator earns for each era what the credit recorded for that era is worth, once", "statement": "On the chain as a whole, a payout to a delegator covers the eras from the first unpaid one up to the last era, and its amount is the sum, over those of these eras that lie in the reward period and in which the recorded credit reached the minimum, of the daily reward of the credit recorded for that era (nothing if there is no such era). Over its whole life no account is paid for an era twice. The payouts at the start of a block never panic, whatever happened before, and they change the credit and its history of paid delegators only.", "quantifier": "all configurations in which both pallets count the same eras, all finite histories of calls, blocks and eras from a genesis with sensible settings in which the root does not write credit records dated in the future", "why_tests_cant": "Payouts are spread over the blocks of an era and meet two pallets: who is paid for which eras is decided by one, the worth of the eras by the other, which changes its records while it computes. A panic in this hook stops the chain.", "anchors": ["pallets/staking/src/lib.rs:2150-2181", "pallets/staking/src/lib.rs:2395-2460", "pallets/staking/src/lib.rs:2676-2807", "pallets/staking/src/lib.rs:2117-2130", "pallets/credit/src/lib.rs:1391-1505", "pallets/credit/src/lib.rs:986-1060"]}
{"id": "C111", "title": "A delegator has an income: one payout in every era, for the era before", "statement": "On the chain as a whole, an account that delegates gets exactly one payout in each era: the first covers all eras not yet paid, every later one exactly the era before, and each amounts to the sum of the daily rewards recorded for the eras it covers. This holds over any number of eras, whatever else happens on the chain, as long as the mining pool is not empty, the delegation is not ended and in no era more delegations are made than it has blocks.", "quantifier": "all configurations in which both pallets count the same eras, all orders of storage keys, all finite histories from genesis, any number of eras", "why_tests_cant": "The payout loop spreads the delegators over the blocks of an era with a cursor into a hash-ordered map that changes meanwhile; that nobody is skipped in any era and nothing is paid twice is a statement about all schedules.", "anchors": ["pallets/staking/src/lib.rs:2150-2181", "pallets/staking/src/lib.rs:2395-2460", "pallets/staking/src/lib.rs:2676-2807", "pallets/credit/src/lib.rs:1433-1505"]}
{"id": "C112", "title": "Only accounts with enough credit become delegators, and joining starts their reward period", "statement": "On the chain as a whole, an account becomes a delegator only by its own call of `delegate` or by a call that raises its credit (staking for credit, or the admin's conversion of USDT). At that moment it has a credit record with at least the minimal score, its credit history consists of exactly that record for the current era, and the current era is the first one it will be paid for.", "quantifier": "all configurations in which both pallets count the same eras, all finite histories from genesis, every operation, every account", "why_tests_cant": "The threshold and the history live in another pallet than the list of delegators, and there are three ways into the list; a test covers one way at a time and cannot show that no other operation adds a delegator.", "anchors": ["pallets/staking/src/lib.rs:2395-2460", "pallets/staking/src/lib.rs:2462-2478", "pallets/credit/src/lib.rs:1007-1014", "pallets/credit/src/lib.rs:1603-1622"]}
{"id": "C113", "title": "The first block says what the chain specification says about staking", "statement": "A chain specification with distinct stashes and controllers, each stash owning its stake of at least the existential deposit, and without delegations starts; in its first block exactly the listed stashes are bonded to their controllers with their stakes, all of it active and locked, exactly those marked as validators are candidates, and no money has moved. A chain starts if and only if every staker owns its stake and there are no delegations. The first block is what ordinary calls lead to from the empty storage.", "quantifier": "all chain specifications (any number of stakers, delegations, credit settings and users), all balances", "why_tests_cant": "Genesis is built once per network; the specifications in the repository are three examples of an unbounded set, and the results of the calls made by it are dropped.", "anchors": ["pallets/staking/src/lib.rs:976-1050", "pallets/credit/src/lib.rs:330-349", "runtime/src/lib.rs:1551-1624"]}
{"id": "C114", "title": "A delegator who leaves is still paid for the eras it has delegated, once, and nothing after that", "statement": "On the chain as a whole, an account that ends its delegation while eras are still unpaid gets exactly one more payout. It covers all eras from the first unpaid one up to the era before the payout, amounts to the rewards its credit history gives for them, and is made at the latest in the first full era after the call. Then the account is no delegator any more, and as long as it does not delegate again and nobody raises its credit through staking, it is paid nothing more.", "quantifier": "all configurations in which both pallets count the same eras, all finite histories from genesis before and after the call, every account", "why_tests_cant": "The last payout happens blocks or an era after the call that ends the delegation, and is triggered by the block hook in an order set by the storage keys; a test fixes one history, and 'paid once and never again' speaks about all continuations.", "anchors": ["pallets/staking/src/lib.rs:1894-1905", "pallets/staking/src/lib.rs:3095-3127", "pallets/staking/src/lib.rs:2480-2600", "pallets/credit/src/lib.rs:1016-1100"]}
{"id": "C115", "title": "Nobody else's call takes your money", "statement": "On the chain as a whole, the total balance (free and reserved) of an account never falls unless the account pays itself (by its own transfer, fee, burn, channel, stake for credit), is punished in a way it was exposed to (a validator slash that is due and from which it is not exempt, the deposit of a council seat or candidacy lost in an election or by a slashing removal, the deposit of a tip the council slashes), is a pot of a pallet paying out (treasury pot, bridge fund, ADSC pool), has its stake burned by its own controller, or is named by one of the privileged calls: a bridge admin moving money into the fund, or root moving assets. In particular bonding, delegating, payouts, credit updates, reporting tips, channels of others, forced unstaking and era changes by anybody never cost a third party anything. And no account ever falls below the existential deposit: it keeps at least the deposit free, or it is removed with nothing left.", "quantifier": "all configurations with a channel fee of at most 100 percent, all states in which every account holds the existential deposit, all accounts and finite histories of all pallets", "why_tests_cant": "It is a statement about every call of every pallet with arbitrary arguments and about accounts that do not take part; tests check the accounts they mention.", "anchors": ["pallets/operation/src/lib.rs:230-560", "pallets/staking/src/lib.rs:1094-2113", "pallets/tips/src/lib.rs:230-560", "pallets/elections-phragmen/src/lib.rs:300-1100", "pallets/micropayment/src/lib.rs:240-560", "pallets/adsc/src/lib.rs:180-420", "pallets/credit/src/lib.rs:380-700"]}
{"id": "C116", "title": "The inspector shows the block and the extrinsic asked for", "statement": "`inspect block N` shows exactly the block whose hash the database gives for the number N, for every decimal numeral below 2^32, also with a plus sign in front; `inspect block HASH` exactly the block stored under that hash, in either letter case and with or without 0x; `inspect block 0xBYTES` the block these bytes decode to. `inspect extrinsic BLOCK:INDEX` shows exactly the extrinsic of that index of that block (numbers, leading zeros allowed, and hashes; a full stop may stand for the colon), and fails if there is none; `inspect extrinsic BYTES` shows the extrinsic these bytes decode to. What the database does not hold is never shown; a text with a character that is no hexadecimal digit, x, plus sign or blank names no block. Beyond the documented forms: a blank between block and index, which the parser also splits at, always yields raw bytes instead; a number of 2^32 or more is taken as raw bytes rather than refused; and what follows after the index is ignored.", "quantifier": "all databases, decoders, numerals, hashes, byte strings and indices", "why_tests_cant": "The three readings of a string are tried one after the other, and a string may satisfy several; the tests contain nine strings.", "anchors": ["inspect/src/lib.rs:142-172", "inspect/src/lib.rs:174-200", "inspect/src/lib.rs:214-236", "inspect/src/lib.rs:247-272", "inspect/src/command.rs:42-53", "inspect/src/cli.rs:42-65"]}
{"id": "C117", "title": "What a delegator earns arrives on its account and stays there", "statement": "On the chain as a whole, an account with a balance that neither pays anything nor is punished (see C115) has, after any history of calls and blocks, at least what it had before plus all its delegation payouts and all its referral bonuses of that time. In particular a delegator whose recorded credit is worth r a day in every era, and who is not on the black list, has after m eras at least r more for every era from its first unpaid one on, whatever everybody else does, as long as the mining pool is not used up, its delegation is not ended and in no era more delegations are made than it has blocks.", "quantifier": "all configurations in which both pallets count the same eras and channel fees are at most 100 percent, all orders of storage keys, all finite histories from genesis, any number of eras", "why_tests_cant": "It takes the payout loop, the credit history, the referral bonuses and every call of every other pallet together, over unboundedly many eras.", "anchors": ["pallets/staking/src/lib.rs:2150-2181", "pallets/staking/src/lib.rs:2676-2857", "pallets/credit/src/lib.rs:1433-1505"]}
{"id": "C118", "title": "The runtime upgrade keeps every registered device", "statement": "When the chain is upgraded from the runtime whose device entries contained an IP address, every device is afterwards read with the account, the country and the expiry it had before; accounts without an entry still have none, and entries which already have the new layout are not spoilt. Exactly the entries which begin with the encoding of an old device are rewritten. Without the upgrade the IP address would be read as the country. Devices written later are read back as written, from bytes, and devices removed are read no more. The upgrade takes place once: whatever is registered or removed afterwards, further upgrades change nothing.", "quantifier": "all registries, all accounts, all lengths of the country and the address below 2^32, all expiries, all later histories", "why_tests_cant": "It is about how the bytes of one layout are read in another one, for entries of any content and length; the repository has no test of the migration.", "anchors": ["pallets/deeper-node/src/migration.rs:1-57", "pallets/deeper-node/src/lib.rs:42-48", "pallets/deeper-node/src/lib.rs:95-118", "runtime/src/lib.rs:1694-1703"]}
{"id": "C119", "title": "On the whole chain every pallet goes through one of its own histories", "statement": "Take any history of the chain, in which the calls and hooks of all pallets come in any order and work on the same accounts. The storage of each of these parts: device registry, tips, council elections, operation, payment channels, credit, ADSC, the staking ledger with its offences and slashes, and the delegations with elections and payouts, is afterwards the one after a history of that part alone, in which exactly its own calls of the chain occur, in the same order, and everything else is a change of its environment. So no call is lost or performed twice, and what is guaranteed for a part by itself (for example C01 for channels, C39 for slashing spans, C43 and C45 for delegations and referrals) holds on the chain. Only removing locks by the root is outside of this, and it takes away exactly one lock of one account.", "quantifier": "all configurations, all start states with the locks of the pallets in place, all finite histories of the chain (without force_remove_lock of the lock concerned for the council and the staking ledger), all accounts", "why_tests_cant": "Tests run each pallet in a mock runtime of its own; that the composition of all of them adds no behaviour is a statement about every interleaving.", "anchors": ["runtime/src/lib.rs:1551-1624", "pallets/staking/src/lib.rs:2116-2181", "pallets/operation/src/lib.rs:266-276"]}
{"id": "C120", "title": "Fees follow the load of the chain slowly, in the right direction and within bounds", "statement": "The factor applied to the weight part of every fee is within its configured bounds after every block. Blocks fuller than a quarter never lower it, emptier ones never raise it, and it never gets stuck: a difference of a five-thousandth of the limit moves it, also at the minimum. A fuller block and a higher factor before never lead to a lower factor after the block. Whatever the blocks contain, the factor rises by at most 15 and falls by at most 5 percent per day; from the start of the chain the minimum is not reached within 23 days. A chain whose blocks are full becomes more expensive by at least 12 percent per day, and an idle chain returns to the minimum. Fees grow with factor, weight, length and tip; an extrinsic always costs at least its base fee and a millicent per byte; and the signer is never charged more than the fee quoted for the declared weight.", "quantifier": "all sequences of block loads (in computing time and proof size), all start values within the bounds, all extrinsics", "why_tests_cant": "The tests of the runtime run the update for a dozen loads and start values; bounds on the change over all sequences of blocks and the absence of a value at which the factor is stuck need every load and every value.", "anchors": ["runtime/src/lib.rs:528-550", "runtime/src/lib.rs:233-271", "runtime/src/impls.rs:40-385"]}
{"id": "C121", "title": "An account unstaked by force loses its credit and earns nothing until it is given credit again", "statement": "When a credit administrator unstakes an account by force, the account has no credit and no credit history afterwards and does not delegate; credit and delegation of every other account and all balances stay as they were. Nobody but a credit administrator can do this. From then on, whatever anybody does - delegating, staking for credit, device reports, payouts, burning - the account is paid nothing, not even for eras it had already delegated in, and cannot delegate again, until root or a credit administrator gives it credit. More generally an account without credit record is never paid anything.", "quantifier": "All configurations with a finite attenuation step, all reachable states of the chain, all accounts, all sequences of operations of all modelled pallets and blocks after the call that do not give credit to the account.", "why_tests_cant": "A test unstakes one account and looks at storage in the same block. That no other way back to a reward exists - reports, campaign switches, staking with too little credit, histories left behind - is a statement about all later sequences of calls of three pallets together.", "anchors": ["pallets/staking/src/lib.rs:2116-2131", "pallets/credit/src/lib.rs:1391-1427", "pallets/credit/src/lib.rs:1433-1505", "pallets/staking/src/lib.rs:2395-2396"]}
{"id": "C122", "title": "The first block of the node's chain specifications is the one intended", "statement": "For every list of authorities and endowed accounts: when a chain is started from the specification built by the node, every account has exactly the amount of its first role (endowed account, stash or controller of an authority), no account is endowed twice however often it is named, and the supply is the sum of these amounts. Every authority is bonded with exactly the stake asked for and stands for election, nobody else has any stake, the council consists of the first half of the authorities, the technical committee of the first half of the endowed accounts, and the reward of the eras is 57534 DPR. The node starts exactly under listed conditions; the development chain and the local test network meet them for all keys, with 120 million DPR (apart from the balances of EVM addresses, see C128).", "quantifier": "All lists of authorities and endowed accounts (with repetitions and overlaps between the roles), all amounts, all limits, all assignments of keys to names.", "why_tests_cant": "The two tests build the two specifications shipped with the node. Whether an overlap of roles endows an account twice or stops the node depends on the lists; no finite set of specifications shows it.", "anchors": ["cli/src/chain_spec.rs:121-204", "cli/src/chain_spec.rs:466-512", "cli/src/chain_spec.rs:530-590", "pallets/staking/src/lib.rs:1009-1050", "pallets/elections-phragmen/src/lib.rs:727-781"]}
{"id": "C123", "title": "Delegators of a slashed validator lose credit once per slash, and the chain goes on", "statement": "When a validator is slashed, every delegator recorded behind it loses exactly one step of credit for each slash when the slash is applied, not when it is reported; a delegator left below the threshold no longer delegates; nobody else loses credit or a delegation, and the money moved is that of the slash alone. The start of an era never stops the chain: it does so exactly if a slash then applied is for a delegator without a credit record.", "quantifier": "All histories of staking, credit, delegation, elections, payouts, offences (any exposure recorded before), era starts and forced calls; all states for the law of a single era start.", "why_tests_cant": "A slash is applied a week or more after the report, to delegators recorded at an election before; whether all of them still have credit depends on everything that happened in between. The tests of the pallet use a mock of the credit pallet.", "anchors": ["pallets/staking/src/slashing.rs:515-540", "pallets/staking/src/lib.rs:2570-2607", "pallets/staking/src/lib.rs:3027-3042", "pallets/staking/src/lib.rs:3353-3476", "pallets/credit/src/lib.rs:986-995", "pallets/credit/src/lib.rs:1391-1427"]}
{"id": "C124", "title": "Delegations ended by force: the listed accounts and nothing else", "statement": "Only root ends delegations by force. After the call each listed account has lost the points listed for it, in order, or all its credit for u64::MAX, and delegates no longer; no other account loses credit or its delegation, no money moves and no waiting slash is touched. The call has no effect at all exactly if it penalises an account which has no credit record at that point by another number than u64::MAX.", "quantifier": "All states, all lists of accounts and numbers, with repetitions.", "why_tests_cant": "The list is arbitrary: repetitions, deleted accounts and accounts without credit interact in the order of the list.", "anchors": ["pallets/staking/src/lib.rs:1908-1919", "pallets/staking/src/lib.rs:3095-3127", "pallets/credit/src/lib.rs:1391-1427"]}
{"id": "C125", "title": "An offence is charged to the stake with which the validator was elected for the era of the offence", "statement": "Let a validator elected for an era be in charge in one of its sessions. A report of an offence in that session, made at any later time while the era is bonded, belongs to that era and is charged to the stake recorded for the validator in that era, whatever happened to bonds, elections, slashes and the length of the history since: the slash on record for that era and validator becomes the reported fraction of that stake if the fraction is larger than the one on record and the slash is not nothing, and no other record changes. After the bonding duration the report is refused. The stake recorded is the active bond at the election, all of it the validator's own, and is not changed until the era is over.", "quantifier": "All histories from genesis of sessions, elections, bonds, delegations, credit, payouts, offences and era starts; all session lengths, bonding durations, changes of the history depth (at least one era), forced eras, and all validators with keys.", "why_tests_cant": "The stake used for a report is found through the session, the root noted when the session was planned two sessions before, the era active when it is reported and the list of bonded eras; each is pruned at another time. A test sees one such constellation; the pallet's tests use a mock which identifies every offender with the exposure of the present era.", "anchors": ["pallets/staking/src/lib.rs:2495-2532", "pallets/staking/src/lib.rs:2535-2607", "pallets/staking/src/lib.rs:2868-2888", "pallets/staking/src/lib.rs:3268-3286", "pallets/staking/src/lib.rs:3322-3334", "pallets/staking/src/lib.rs:3353-3476", "pallets/staking/src/slashing.rs:208-280", "runtime/src/lib.rs:591-603"]}
{"id": "C126", "title": "Sessions go on: no report and no change of sessions stops the chain", "statement": "Starting from any setup of accounts, the chain never stops when a session ends and the next one starts, when slashes become due, or when an offence is reported.", "quantifier": "All histories from genesis of sessions, elections, bonds, delegations, credit, payouts, offences of any validator in any session, era starts and forced calls.", "why_tests_cant": "A slash names the delegators recorded at an election weeks before, found through the root of a session; each of them must still have a credit record when the slash is applied, after everything that happened in between.", "anchors": ["pallets/staking/src/lib.rs:2535-2607", "pallets/staking/src/lib.rs:3027-3042", "pallets/staking/src/lib.rs:3268-3286", "pallets/staking/src/lib.rs:3322-3334", "pallets/staking/src/lib.rs:3353-3476", "pallets/staking/src/slashing.rs:515-540", "pallets/credit/src/lib.rs:1391-1427"]}
{"id": "C127", "title": "Whoever validates answers for it: a report has the same effect in the session itself and later", "statement": "A report of an offence in a session against a validator in charge then leads to the same charge whenever it is made while the era is bonded: in the session itself or in any later one.", "quantifier": "All histories from genesis as in C125; all pairs of moments, the second after the first.", "why_tests_cant": "The code identifies the offender in two different ways, depending on whether the session is still the current one; the difference shows only if an election failed before.", "anchors": ["pallets/staking/src/lib.rs:2868-2888", "pallets/staking/src/lib.rs:2890-2920", "pallets/staking/src/lib.rs:3268-3286", "pallets/staking/src/lib.rs:3322-3334", "pallets/staking/src/lib.rs:3353-3476"]}
{"id": "C128", "title": "A chain started from the node's specification falls under the guarantees for the whole chain from its first block on", "statement": "Whenever the node starts from a specification it builds, the first block is the result of ordinary calls on a storage that holds only balances, credit records and council members. From then on, in every history of all modelled pallets together: the money on the chain and in the mining pool never exceeds the amounts of the specification, each account counted once, plus the mining reward of the runtime and explicit grants (but for half a unit per validator paid when the pool runs out); whoever never pays and is never punished keeps the amount of the specification; reserved money is exactly the sum of deposits; and delegators are paid exactly what the credit settings of the specification say, no era twice. The development chain and the local test network have 120 million DPR in this sense. The balances the specification gives to four EVM addresses change nothing if the addresses belong to accounts with money.", "quantifier": "All authorities, endowed accounts, amounts, credit settings (percentages up to 100) and credit records; all parameters of the other pallets; all later histories of all modelled pallets.", "why_tests_cant": "Genesis and calls are different code: tests of a pallet start from a mock storage, and no test follows the chain from the specification through all pallets. The bound on the supply is about unboundedly long histories.", "anchors": ["cli/src/chain_spec.rs:121-360", "cli/src/chain_spec.rs:466-512", "cli/src/chain_spec.rs:530-590", "pallets/staking/src/lib.rs:1011-1049", "pallets/elections-phragmen/src/lib.rs:727-781", "runtime/src/lib.rs:1551-1624", "runtime/src/constants.rs:30-37"]}
{"id": "C129", "title": "A signed transaction is executed at most once, in the name of who signed it, and only during its lifetime", "statement": "A signed transaction is executed only in the name of the account whose signature it carries, for exactly the call, nonce and tip signed, on this chain and with the version of the runtime signed for, that of the last upgrade; if it names its signer by an index, the account that was given this index last; it must have the next nonce of the account and uses it up, so that it is never executed a second time. A transaction with a limited lifetime is executed only in the blocks after the block it was signed for, fewer than its period. A transaction made by the node itself in block n can be executed up to block n + 2046 and is then void.", "quantifier": "All histories of blocks, transactions, other uses of nonces, removals of accounts, changes of indices and runtime upgrades; all transactions; all periods and blocks.", "why_tests_cant": "Replay is about unboundedly long histories and every interleaving with other transactions; the end of a lifetime lies thousands of blocks ahead; the byte forms of eras are 65536 many.", "anchors": ["runtime/src/lib.rs:247-291", "runtime/src/lib.rs:478-484", "runtime/src/lib.rs:970-1016", "runtime/src/lib.rs:1651-1682", "primitives/src/lib.rs:38-52"]}
{"id": "C130", "title": "The proxies of an account never exceed the type they were given, however calls are nested", "statement": "As long as an account signs nothing itself, every call that runs in its name passes the filter of the widest type among its proxies, and no proxy ever obtains a wider type for itself or others. This holds for any nesting of batches, proxies of proxies, announced calls, multisignatures, derivative and recovered accounts, and for ever. Whom an account makes its proxy, without delay, can act for it at once: exactly the calls that pass the filter of the type run in its name, and none after the account has taken the proxy back. In particular, the proxies for governance can only govern and those for staking only call the staking pallet.", "quantifier": "All histories of signed calls of all accounts, all nestings of calls, all tables of proxies and recoveries.", "why_tests_cant": "Nested calls form trees of any depth, each of which may change who acts for whom; a loophole may need several calls of several accounts, spread over blocks.", "anchors": ["runtime/src/lib.rs:304-336", "runtime/src/lib.rs:352-410", "runtime/src/lib.rs:1098-1115", "runtime/src/lib.rs:1551-1624"]}
{"id": "C131", "title": "Motions of the council and the committee are decided by the present members' last votes, once", "statement": "Closing a motion has exactly the outcome that follows from who is a member now and how each of them voted last: it is enacted when the members in favour reach the threshold, rejected when they no longer can, and otherwise, after the voting period, members who have not voted count like the prime if the prime is in favour. Votes of members who left, changed votes and repeated votes count for nothing. The enacted call is the one proposed by a member. What has been decided is never decided again. Once the voting period of an open motion is over anybody can close it, and then it is gone. A vote is accepted exactly from a member, on an open motion, unless it repeats their standing vote. Nothing else runs in the name of the collective, except a call of a single member in their own name or counted as one vote.", "quantifier": "All histories of proposals, votes, changes of votes, changes of members and prime, closings and time, provided changes of members are reported from the actual list.", "why_tests_cant": "The tally kept by the chain is updated incrementally by every vote and every change of members; whether it equals the votes of the present members depends on the whole history.", "anchors": ["runtime/src/lib.rs:728-746", "runtime/src/lib.rs:788-806", "pallets/elections-phragmen/src/lib.rs:851-883", "pallets/elections-phragmen/src/lib.rs:1105-1119"]}
{"id": "C132", "title": "Decisions of the council have the support of at least half of the elected members", "statement": "No decision of the chain belongs to a plain account, to less than half of a collective or to a single council member; a single committee member has only the veto. What the council may decide the committee may not, and the reverse. For a collective of any size the number of votes from which on it may decide is the least that makes up the share fixed for the decision. With thirteen seats filled the council needs seven votes to call a referendum, to schedule, to change the committee or to reject spending, eight to approve spending, nine to cancel a referendum, ten to cancel a slash. Whatever is decided in the name of the council is supported by at least half of the members elected at that time, each by their own last vote or by silence when the elected prime is in favour and the voting period is over.", "quantifier": "All decisions with an origin of their own in the runtime, all counts of votes and seats; all histories of elections, removals, motions and votes from genesis.", "why_tests_cant": "The share is computed from numbers that depend on elections, replacements and votes spread over weeks, and on 31 separately configured origins.", "anchors": ["runtime/src/lib.rs:425-428", "runtime/src/lib.rs:637-640", "runtime/src/lib.rs:673-714", "runtime/src/lib.rs:744", "runtime/src/lib.rs:804-818", "runtime/src/lib.rs:853-869", "runtime/src/lib.rs:1093-1094", "runtime/src/lib.rs:1133-1134", "runtime/src/lib.rs:769-772", "pallets/elections-phragmen/src/lib.rs:851-883", "pallets/elections-phragmen/src/lib.rs:1105-1119"]}
{"id": "C133", "title": "Whoever acts for an account has its standing permission", "statement": "Whatever is run in a signed extrinsic is run for its signer, or for an account that an event before it in the same extrinsic was entitled to act for: as a proxy that the account itself has named, without delay or after announcing, and has not removed since; as the account that recovered it; as its parent account; or with the other signatures. An account is handed over in recovery only to someone vouched for by at least as many different friends as the account had asked for, all named by the account, not before the delay it had chosen. An account of one key that has never named a proxy or friends acts only in extrinsics it has signed itself. Calls to name and remove proxies, to prepare, begin, vouch for, claim, close and give back recoveries are accepted exactly when what was run before calls for it; a proxy that names its type, or whose announcement is due, gets a call run exactly when it is permitted and the type lets the call pass; one that does not name it acts under the first of its types and is refused if that one has a delay.", "quantifier": "All histories of signed extrinsics with calls nested in any way (batches, proxies, recoveries, derivative accounts, multisignatures) and blocks, from empty tables.", "why_tests_cant": "Permissions are given and withdrawn in separate extrinsics, possibly by another account acting for the owner; whether one stands depends on everything run before, in any nesting.", "anchors": ["runtime/src/lib.rs:304-336", "runtime/src/lib.rs:339-395", "runtime/src/lib.rs:396-410", "runtime/src/lib.rs:1098-1115"]}
{"id": "C134", "title": "No amount on the chain overflows", "statement": "If all money at the start, the mining pool and everything that is granted explicitly afterwards (by the root to the pools, by releases, by minting outside of the model) can be counted in 128 bits, then after every history every amount can: the total issuance, every account with what it has reserved, every two accounts together, the mining pool, every payment channel, and every stake with rewards added and slashes taken off, which still is the sum of its active part and of what is being unbonded. From the node's own specifications this means that nothing gets too large before 340 times 10 to the power 18 DPR have been granted.", "quantifier": "All histories of the whole chain (accounts, deposits, staking, payouts, slashes, credit, payment channels, ADSC), from every start with correct books.", "why_tests_cant": "The release build adds without overflow checks; whether an addition can wrap depends on everything that was minted, bonded and paid out before, and test amounts are small.", "anchors": ["primitives/src/lib.rs:49", "Cargo.toml:14-33", "pallets/staking/src/lib.rs:1198-1226", "pallets/staking/src/lib.rs:2610-2673", "pallets/micropayment/src/lib.rs:213-246", "pallets/staking/src/lib.rs:2476-2487"]}
{"id": "C135", "title": "The price of gas follows the load of the chain in bounded steps and never falls under half a gwei", "statement": "As long as root does not set it, the base fee that Ethereum transactions pay per unit of gas is at least half a gwei and changes from block to block by at most an eighth, whatever the blocks contain. It rises exactly after blocks more than half full, falls exactly after blocks less than half full unless it is already at half a gwei, by the share stated in the theorem; a block whose gas is used up raises it by at least a sixteenth. From any price below 2^256/125000 it is back at half a gwei after enough blocks that are at most a quarter full, and the number of blocks grows only with the logarithm of the price. Only root can set the price or the elasticity.", "quantifier": "All histories of blocks of any weight and of calls by others than root, from genesis; all weights.", "why_tests_cant": "The price is a product over all earlier blocks, each rounded; tests look at one step at one price.", "anchors": ["runtime/src/lib.rs:240-268", "runtime/src/lib.rs:1354-1363", "runtime/src/lib.rs:1385", "runtime/src/lib.rs:1424-1451", "cli/src/chain_spec.rs:357"]}
{"id": "C136", "title": "Ethereum transactions are executed once, in the name of their signer, and the Ethereum view of a block lists exactly them", "statement": "The Ethereum block of a block of the chain consists of exactly the Ethereum transactions that are extrinsics of the block, in their order; each is executed in the name of the address that signed it, with its next nonce, which it uses up. An Ethereum transaction cannot be executed in any other way: as a signed extrinsic it is refused, and inside batches, proxies, multisignatures, sudo or contracts it has no effect. A transaction handed in at the Ethereum interface is found again in the extrinsic made from it, and is valid exactly when it is signed, has the next nonce and fits. While the account of an address is not removed, no transaction is executed twice. The pending block shows transactions of the given extrinsics, and exactly the block when they make a valid one.", "quantifier": "All blocks and lists of extrinsics, all nestings of calls; all histories of blocks, other uses of nonces and removals of accounts.", "why_tests_cant": "Which origin reaches a nested call depends on all pallets that make calls; tests check single transactions at fresh accounts.", "anchors": ["runtime/src/lib.rs:1626-1650", "runtime/src/lib.rs:1745-1800", "runtime/src/lib.rs:2294-2302", "runtime/src/lib.rs:2308-2331", "runtime/src/precompiles.rs:35-66"]}
{"id": "C137", "title": "Tips are decided by the members elected to the council, and by at least half of them", "statement": "Whatever elections, resignations and removals take place: those who may declare an amount for a tip are exactly the members the election pallet lists at that time, never more than there are seats. What a tip pays when it is closed is a median of the declarations of those who are elected then; declarations of people who have lost their seat do not count. At least half of those who are elected when the tip is closed have declared an amount.", "quantifier": "All joint histories of blocks, elections, calls of both pallets and changes of balances from genesis; all results of elections.", "why_tests_cant": "It depends on how elections and declarations interleave; the tests of the tip pallet use a fixed list of members.", "anchors": ["runtime/src/lib.rs:903", "pallets/elections-phragmen/src/lib.rs:1204-1217", "pallets/elections-phragmen/src/lib.rs:902-917", "pallets/tips/src/lib.rs:590-628", "pallets/tips/src/lib.rs:666-703"]}
{"id": "C138", "title": "Nobody is locked in: every stake can be taken out", "statement": "In every reachable state, who has fewer than the maximal number of amounts unlocking leaves with two calls: unbond everything and, when the bonding duration has passed, withdraw. Who has the maximal number waits one bonding duration, withdraws, and then leaves in the same way, so nobody needs more than two. Afterwards the stash is not bonded and nothing of it is locked for staking. Nothing others do in the meantime prevents it: calls of others, slashes, loss of candidacy, rewards paid elsewhere than to the stake, reaping, or being unstaked by root. The number of slashing spans which a withdrawal has to name is no obstacle: any number from that of the stash on will do. The calls must be made outside the election window. Only rewards which the stash itself has directed to its stake keep it bonded; directing them to the stash first is always possible. All this holds on the chain as a whole, after any history of all pallets and whatever happens in them while the stash waits; at the end the account is frozen only as far as its votes and the locks of other pallets require.", "quantifier": "All histories of calls from genesis, all stashes, controllers, ledgers and amounts, all histories of the whole chain while waiting, all bonding durations and numbers of chunks.", "why_tests_cant": "It says that a way out exists from every reachable state against everything others may do; tests follow single histories.", "anchors": ["pallets/staking/src/lib.rs:1262-1295", "pallets/staking/src/lib.rs:1331-1373", "pallets/staking/src/lib.rs:245-267", "pallets/staking/src/lib.rs:3000-3014", "pallets/staking/src/lib.rs:2651-2673", "pallets/staking/src/slashing.rs:481-513"]}
{"id": "C139", "title": "Deposits can be taken back at any time", "statement": "In every reachable state everybody can end their part in the council elections with at most two calls of their own, resigning from their role and withdrawing their vote; both succeed. Afterwards they are neither candidate, member nor runner-up, have no votes and no lock of the elections, and everything that was held of them is free again, nothing forfeited. The finder of open tips gets all deposits back by retracting the tips; each such call succeeds, also when the tip is already closing, and no other account changes. The owner of a device gets the deposit back with one call, which succeeds. On the chain as a whole, after any history of all pallets together, every account can by calls of its own leave the registry of devices, the tips and the elections at once; exactly what these held of it is no longer reserved and all of it is free again. (For one pallet taken by itself: provided other pallets do not take reserved money that is on deposit there. For the chain as a whole this is not assumed.)", "quantifier": "All histories from genesis of each pallet and of the chain as a whole, all accounts, all amounts and configurations.", "why_tests_cant": "It claims a way out of every reachable state, whatever happened before; tests try single states.", "anchors": ["pallets/elections-phragmen/src/lib.rs:480-520", "pallets/elections-phragmen/src/lib.rs:401-406", "pallets/elections-phragmen/src/lib.rs:808-886", "pallets/tips/src/lib.rs:314-331", "pallets/deeper-node/src/lib.rs:288-299"]}
{"id": "C140", "title": "Blocks keep within their limits, and there is room for what the pool accepts and for emergencies", "statement": "In every block the normal transactions together take at most one and a half seconds of computing time and all transactions together at most two, whatever the hooks take, and the block is at most five megabytes long. A transaction that the pool accepts gets into every block of which the hooks have taken at most a tenth and which is otherwise empty; one that it refuses for its weight or length gets into no block. However full a block is with normal transactions and hooks, an operational call gets in as long as with it the operational calls take at most half a second and a quarter of the length. Inherents always get in unless the block becomes too long. The Ethereum transactions of a block together never use more gas than the 75 million declared as the limit of a block; a single one may ask for at most 65 million.", "quantifier": "All blocks: all sequences of hooks, extrinsics of all classes, weights, lengths and refunds, Ethereum transactions of all gas limits.", "why_tests_cant": "The limits have to hold for every mixture and order of extrinsics and every refund in between.", "anchors": ["runtime/src/lib.rs:233-273", "runtime/src/lib.rs:277-278", "runtime/src/lib.rs:1354-1363", "runtime/src/lib.rs:1386-1387", "runtime/src/lib.rs:1665-1674", "runtime/src/lib.rs:1762-1786"]}
{"id": "C141", "title": "How many payments the hooks of one block make, and how many records they read", "statement": "In every block at most q delegators are paid, and at most q are passed by the payment's progress mark, where q is one more than the number of delegators at the begin of the era divided by the number of blocks of an era less two, rounded up. In every block at most two plus a 17000th of the registered ADSC stakers of the last change of day are treated, not counting those who are offline. The scheduled releases paid in one block, without the last of them, together stay below the maximum of a single release; so if every due amount is at least q, fewer than the maximum over q, plus one, are paid. The number of records read, however, is unbounded for two of the three hooks: all ADSC stakers who are offline, and all schedules of which nothing is due, are walked through in a single block, however many there are.", "quantifier": "All configurations, all sequences of operations before the block, all numbers n of offline stakers and of idle schedules.", "why_tests_cant": "A bound on the work of a block has to hold after any history and for any number of accounts; that there is no bound needs a construction for every number.", "anchors": ["pallets/staking/src/lib.rs:2150-2181", "pallets/staking/src/lib.rs:2676-2738", "pallets/adsc/src/lib.rs:208-231", "pallets/adsc/src/lib.rs:490-550", "pallets/operation/src/lib.rs:247-259", "pallets/operation/src/lib.rs:540-615"]}
{"id": "C142", "title": "Who wants to leave the chain leaves with everything it owns", "statement": "After any history of the chain in which the root did not take away locks of stakes, an account which does not stake, and of which nobody else holds anything (no lock, reference or reserve of another pallet, nothing reserved by a locker member), can by calls of its own end all it takes part in (device, tips, candidacy, seat, votes); then it has at least what it owned before, all of it free, and a transfer of all of it to any other account goes through: nothing is left behind, and the receiver has exactly that much more. A staking account gets there by directing its rewards to the stash, unbonding everything, waiting one bonding duration whatever all others do meanwhile, and withdrawing. Channels of the account as a client which have expired, whether it stakes or not, are closed by one call on the way, and what they held, less their fees, comes along. What a locker member has reserved stays behind, and with it the account.", "quantifier": "All configurations with an injective tip hash and a burn share of at most 100 percent, all histories, accounts, balances, numbers of tips and votes, all receivers.", "why_tests_cant": "Several pallets hold parts of an account's money in different ways (reserves, locks, references); that no interplay of them keeps anything back after some history cannot be tested pallet by pallet.", "anchors": ["pallets/staking/src/lib.rs:1262-1295", "pallets/staking/src/lib.rs:1331-1373", "pallets/staking/src/lib.rs:1454-1463", "pallets/deeper-node/src/lib.rs:288-299", "pallets/tips/src/lib.rs:314-331", "pallets/elections-phragmen/src/lib.rs:401-406", "pallets/elections-phragmen/src/lib.rs:480-520", "pallets/operation/src/lib.rs:280-295"]}
{"id": "C143", "title": "The beneficiary of a block in the Ethereum view is the validator which is credited with it", "statement": "In every block the beneficiary of the Ethereum view is the address of the validator which gets the era points of the block: there is a beneficiary if and only if a validator gets points, exactly one validator in charge gets 20, nobody else any. The address is the one the validator has paired; two paired validators never have the same one. Validators which have not paired an address are shown under 20 bytes out of the middle of their account, so that for every such account others would be shown as the same beneficiary. In a block in which the session changes, the points go by the validators in charge before and the beneficiary by those in charge after, so that the two can differ.", "quantifier": "All states, lists of validators, tables of paired addresses, indices in the digest, changes of session.", "why_tests_cant": "Two hooks look up the author at different moments of the same block; a test with a fixed set of validators never sees a difference, and address collisions need all pairs of accounts.", "anchors": ["runtime/src/lib.rs:1365-1382", "runtime/src/lib.rs:567-570", "runtime/src/lib.rs:1551-1624", "pallets/staking/src/lib.rs:3305-3307", "pallets/staking/src/lib.rs:3056-3066"]}
{"id": "C144", "title": "A server is paid every voucher it holds, whatever everybody else does meanwhile", "statement": "After any history of the chain: a server holds vouchers which its client has signed for consecutive sessions of their channel, beginning with the next one, altogether for at most what the channel holds. Then each of its claims puts the amount, less the fee, on its account, whatever the client and everybody else do before and between the claims, on whichever pallet, as long as the channel has not expired and the server stays online; the server may do anything too but close this channel or claim something else on it. A heartbeat of the server keeps it online, whatever anybody does, until one era of blocks has passed since. Afterwards the channel is open, with at least what was not claimed, and takes the session after the last. It is needed that the account of the server exists and that its locks do not exceed its free balance when it claims: a server which has voted with all its free money and has spent as much as its deposits are (which transfers allow) is refused.", "quantifier": "All configurations with an injective tip hash and a burn share of at most 100 percent, all histories before and between the claims, all channels, numbers of vouchers, amounts, sessions (including the wrap of the counter), all behaviours of hash and signature check.", "why_tests_cant": "An adversary interleaved with any number of claims on the whole chain; tests claim once or twice on a quiet chain.", "anchors": ["pallets/micropayment/src/lib.rs:263-347", "pallets/micropayment/src/lib.rs:352-376", "pallets/micropayment/src/lib.rs:381-462", "pallets/micropayment/src/lib.rs:480-549"]}
{"id": "C145", "title": "A device which reports its traffic once per era gains a point with every report, whatever others do", "statement": "Once a report of traffic has raised the credit of an account, each later report raises it by exactly one point (up to the largest 64-bit number) which is made at least one era (in seconds) after the one before, with the next number and a signature by one of the two keys valid at the time, whatever everybody else does in between: reports of others, changes of the keys, credit administration, runtime upgrades. The account must still have a credit record and a device that has come online. After n such reports it has gained at least n points, less what others have taken from it between the reports. One second before the era is over a report is accepted, uses up its number and gains nothing.", "quantifier": "All configurations with a positive era length, all states before the first report, all numbers of reports, all lists of operations of others between them, all behaviours of hash and signature check, including the wrap of the counter.", "why_tests_cant": "Any number of reports interleaved with arbitrary behaviour of others; tests report once or twice on a quiet chain.", "anchors": ["pallets/credit-accumulation/src/lib.rs:115-135", "pallets/credit-accumulation/src/lib.rs:159-211", "pallets/credit/src/lib.rs::update_credit_by_traffic", "pallets/credit/src/lib.rs::check_update_credit_interval"]}
{"id": "C146", "title": "A client never loses more in a channel than it has signed for", "statement": "Whatever the server and everybody else do: the money in an open channel is always what was in it and what the client has added since, less the vouchers paid on it. All that is ever paid out of a channel is at most the sum of the vouchers the client has signed for this channel, as long as fewer than 2^32 vouchers are cashed on it, even if the server tries vouchers twice, in another order, with other amounts or for other channels. Whoever ends the channel and however (server, client, expiration, a claim that comes too late), at that moment the client's account gets at least what was in the channel and was added, less all signed vouchers, less the fee. Once the channel has expired the client can bring this about with one call.", "quantifier": "All reachable states, all histories of all parties, all lists of signed vouchers, all hash functions and signature checks which accept no other voucher for the channel; amounts below 2^128. For the refund: a living account of the client, for the last part with locks within its free balance.", "why_tests_cant": "An adversarial server over arbitrary histories with any number of claims; tests claim a few vouchers once.", "anchors": ["pallets/micropayment/src/lib.rs:263-347", "pallets/micropayment/src/lib.rs:352-376", "pallets/micropayment/src/lib.rs:381-462", "pallets/micropayment/src/lib.rs:467-474", "pallets/micropayment/src/lib.rs:480-549"]}
{"id": "C147", "title": "Council members who are a majority and agree decide what a tip pays", "statement": "If a majority of the council has declared the same amount for a tip, keeps its declarations and its seats, and the tip is neither retracted by its finder nor slashed, then whatever the others do (other declarations, changes of the rest of the council, attempts of strangers to end the tip): once the countdown that began when half of the council had declared is over, anybody can close the tip, and it pays exactly that amount, less the fee of the finder. The same holds for tips in credit, which give exactly the credit the majority has declared, at most the maximum.", "quantifier": "All histories from genesis before and after the agreement, all amounts, all majorities, all other declarations and changes of the rest of the council; different tips having different keys.", "why_tests_cant": "Arbitrary interleavings with an adversarial minority; tests have all members declare and close at once.", "anchors": ["pallets/tips/src/lib.rs:411-460", "pallets/tips/src/lib.rs:526-555", "pallets/tips/src/lib.rs:590-664", "pallets/tips/src/lib.rs:706-723"]}
{"id": "C148", "title": "Members who reach the threshold get their motion, and members who can deny it can stop it", "statement": "If as many members as the threshold of an open motion are in favour of it, do not change their votes and keep their seats, then whatever everybody else does (votes against, new and leaving members, proposing the same call again, closing with too low bounds, waiting) the motion is never rejected: it has been enacted, with at least as many votes as the threshold, or anybody can have it enacted now; only root can strike it. If so many members are against it that the others cannot reach the threshold, and these stand by their votes and keep their seats while the collective does not grow beyond that, no closing ever enacts it, even if the prime is in favour and the voting period is over, and as long as it is open anybody can have it rejected at once.", "quantifier": "All histories before and after the agreement, all motions, thresholds, groups of members, and all behaviour of the others, provided changes of members are reported from the actual list.", "why_tests_cant": "Arbitrary interleavings with adversarial other members over unbounded time, with members and prime changing; tests vote and close at once.", "anchors": ["runtime/src/lib.rs:734-748", "runtime/src/lib.rs:794-808"]}
{"id": "C149", "title": "The books of the bridge add up and match the money in the fund", "statement": "At any time the totals kept for a chain are the sums of all accepted transfers to it and from it, and nothing else changes them, until they reach the largest number, where they stay. What the bridge fund has is what it had before, plus everything booked as sent to other chains, minus everything booked as brought back, as long as nothing but the bridge touches the fund.", "quantifier": "All histories of the pallet, all chains, amounts and callers; for the fund all histories in which its account stays the same and other calls leave it alone.", "why_tests_cant": "A law over unbounded histories with failing calls, several chains and saturating sums; tests make one transfer.", "anchors": ["pallets/operation/src/lib.rs:405-423", "pallets/operation/src/lib.rs:425-456", "pallets/operation/src/lib.rs:458-489"]}
{"id": "C150", "title": "The counters of burnt DPR add up", "statement": "At any time the published total of burnt DPR is the sum of all burns since genesis (credit bought at the price of that time, and burns for EZC), the counter of an era is the sum of the burns in that era, the counters of the eras add up to the total, and nothing else changes them. What is reported for EZC is the amount of every accepted burn for EZC, once and in order. Attempts which fail count for nothing.", "quantifier": "All histories of the credit pallet and of the operation pallet, all eras, prices, amounts and callers.", "why_tests_cant": "A law over unbounded histories with changing prices, failing calls and eras; tests look at one burn.", "anchors": ["pallets/credit/src/lib.rs:153-158", "pallets/credit/src/lib.rs:553-600", "pallets/credit/src/lib.rs:1303-1315", "pallets/operation/src/lib.rs:385-407"]}
{"id": "C151", "title": "ADSC come into being by daily rewards and over the bridge only", "statement": "The supply of ADSC is at any time what it was before, plus all daily rewards paid since, plus all that was brought in over the bridge, minus what accounts have lost to the bridge. Swaps, registrations, settings and failed calls create nothing. The accounts together never hold more than the supply, so that every burn can be booked.", "quantifier": "All histories of the pallet, interleaved with arbitrary transfers of the asset by its holders.", "why_tests_cant": "A conservation law over unbounded histories with daily scans of many stakers, dust and failing mints; tests look at single balances.", "anchors": ["pallets/adsc/src/lib.rs:208-231", "pallets/adsc/src/lib.rs:410-442", "pallets/adsc/src/lib.rs:470-552", "pallets/adsc/src/lib.rs:591-623"]}
{"id": "C152", "title": "The ADSC pool pays out no more DPR than was put in", "statement": "Over any history, the DPR paid out by all swaps together plus what is left in the pool account is at most what the pool account held before plus what root has put in since, whatever the exchange rates in between; refused and failed swaps pay nothing. This holds as long as nobody sends DPR to the pool account by other means and the pool account itself does not swap. The total recorded for the pool is always the sum of what root has put in.", "quantifier": "All histories of the pallet with any exchange rates, interleaved with arbitrary other changes of balances that do not raise the free balance of the pool.", "why_tests_cant": "A sum over unbounded histories with changing rates, dust and failing transfers; tests swap once.", "anchors": ["pallets/adsc/src/lib.rs:410-442", "pallets/adsc/src/lib.rs:444-460"]}
{"id": "C153", "title": "Splitting an ADSC swap gains nothing and costs only the rounding", "statement": "While the exchange rate is not changed, an account gets for all its swaps of ADSC together at most what one swap of the whole amount is worth at that rate, and less only by the rounding: under one DPR unit for each of its swaps (for amounts whose product with the rate fits in 128 bits). What others do in between makes no difference.", "quantifier": "All accounts, all histories of the pallet with any calls and changes outside it in between, without an accepted change of the exchange rate; all rates.", "why_tests_cant": "Sums of rounded amounts over unbounded interleavings; tests swap once at one rate.", "anchors": ["pallets/adsc/src/lib.rs:395-442"]}
{"id": "C154", "title": "Nobody else's call of the ADSC pallet takes your ADSC, except the bridge", "statement": "As long as an account does not swap, is not named as the source of an accepted transfer over the bridge and does not lose ADSC outside the pallet, it has at the end of any history at least the ADSC it had before, whatever others call and whatever the daily rewards do. For the pool account the same holds with all the ADSC swapped in the meantime added.", "quantifier": "All accounts, all histories of the pallet with any calls of others and any changes outside it.", "why_tests_cant": "About all calls by all others in unbounded interleavings with daily scans; tests look at the balances of the caller.", "anchors": ["pallets/adsc/src/lib.rs:208-231", "pallets/adsc/src/lib.rs:410-442", "pallets/adsc/src/lib.rs:470-552", "pallets/adsc/src/lib.rs:591-623"]}
