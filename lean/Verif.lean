import Verif.Basic
import Verif.Bank
import Verif.Bytes
import Verif.Micropayment
import Verif.MicropaymentSpec
import Verif.MicropaymentProofs
import Verif.MicropaymentProperties
import Verif.MicropaymentLaw
import Verif.MicropaymentExit
import Verif.UserPrivileges
import Verif.UserPrivilegesProperties
import Verif.CreditPrim
import Verif.Credit
import Verif.CreditSpec
import Verif.CreditProofs
import Verif.CreditMapProofs
import Verif.CreditFrame
import Verif.CreditSteps
import Verif.CreditProperties
import Verif.CreditRewardProperties
import Verif.CreditLaw
import Verif.CreditDaily
import Verif.CreditUpgrade
import Verif.CreditParams
import Verif.CreditHistory
import Verif.CreditAccumulation
import Verif.CreditAccumulationProperties
import Verif.RegionTable
import Verif.DeeperNode
import Verif.DeeperNodeProofs
import Verif.DeeperNodeProperties
import Verif.DeeperNodeExpiry
import Verif.DeeperNodeLaw
import Verif.BankExact
import Verif.Operation
import Verif.Pause
import Verif.World
import Verif.WorldProperties
import Verif.WorldSupply
import Verif.WorldLocks
import Verif.OperationProofs
import Verif.OperationProperties
import Verif.OperationLaw
import Verif.OperationAccept
import Verif.OperationLiveness
import Verif.Assets
import Verif.Adsc
import Verif.AdscProofs
import Verif.AdscProperties
import Verif.AdscLaw
import Verif.Tips
import Verif.TipsProofs
import Verif.TipsProperties
import Verif.TipsLaw
import Verif.Ledger
import Verif.LedgerProofs
import Verif.LedgerProperties
import Verif.LedgerLaw
import Verif.Slashing
import Verif.SpansProofs
import Verif.SlashingProofs
import Verif.SlashingHistory
import Verif.SlashingLaw
import Verif.SlashingRemoval
import Verif.SlashingProperties
import Verif.Delegation
import Verif.DelegationProofs
import Verif.DelegationProperties
import Verif.RewardsProofs
import Verif.RewardsProperties
import Verif.RewardsLaw
import Verif.RewardRecords
import Verif.PayoutLiveness
import Verif.DelegationLaw
import Verif.DelegationSettings
import Verif.ElectionProperties
import Verif.StakingCredit
import Verif.StakingCreditProperties
import Verif.StakingCreditLaw
import Verif.PrecompileCredit
import Verif.PrecompileCreditProperties
import Verif.Runtime
import Verif.RuntimeProperties
import Verif.Council
import Verif.CouncilProofs
import Verif.CouncilProperties
import Verif.CouncilLocks
import Verif.CouncilLaw
import Verif.Session
import Verif.SessionProofs
import Verif.SessionHistory
import Verif.SessionProperties
import Verif.Chain
import Verif.ChainProperties
import Verif.ChainOwn
import Verif.Inspect
import Verif.InspectProperties
import Verif.Payout
import Verif.PayoutSpec
import Verif.PayoutCredit
import Verif.PayoutProperties
import Verif.PayoutIncome
import Verif.PayoutJoin
import Verif.PayoutLeave
import Verif.PayoutKept
import Verif.PayoutForced
import Verif.Penalty
import Verif.PenaltyProperties
import Verif.NodeUpgrade
import Verif.ChainViews
import Verif.FeeMultiplier
import Verif.ChainSpec
import Verif.Genesis
import Verif.GenesisProperties
import Verif.Epoch
import Verif.EpochProofs
import Verif.EpochProperties
import Verif.EpochHalt
import Verif.ChainGenesis
import Verif.Transaction
import Verif.TransactionProperties
import Verif.Origins
import Verif.Collective
import Verif.Governance
import Verif.Authority
import Verif.Amounts
import Verif.BaseFee
import Verif.EthTx
import Verif.TipsCouncil
import Verif.LedgerExit
import Verif.Exit
import Verif.ExitChain
import Verif.BlockRoom
import Verif.WorkBound
import Verif.ExitStake
import Verif.ExitAll
import Verif.BlockAuthor
import Verif.Vouchers
import Verif.TrafficIncome
import Verif.ClientRisk
import Verif.TipsMajority
import Verif.MotionMajority
import Verif.BridgeBooks
import Verif.BurnBooks
import Verif.AdscSupply
import Verif.AdscSplit
import Verif.AdscKeep
