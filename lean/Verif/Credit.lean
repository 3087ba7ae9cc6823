import Verif.CreditPrim
import Verif.Bank

/-
Model of the credit pallet (pallets/credit/src/lib.rs).

* The calls of other pallets and of the EVM into the credit pallet (`CreditInterface`,
  `evm_update_credit`) are operations of the model, next to the pallet's own extrinsics and hooks.
* What the pallet reads from other pallets is part of the state and changed arbitrarily by
  `Op.external`: time stamp, device onboarding block, eras offline, EVM-to-account mapping,
  privileges, account balances.  The block number only grows.
* `u64` credit arithmetic is modelled with the saturation / wrap-around the code has where a property
  could depend on it; balances (`u128`) and era counters (`u32`) are unbounded.
* Events and weights are left out.
-/

namespace Verif.Credit

/-- pallets/credit/src/lib.rs:376-408. `badOrigin` and `bank` stand for errors passed through. -/
inductive Err where
  | invalidCreditData | creditAddTooMuch | badEraOrHistory | accountNotFound
  | accountNoExistInUserCredit | miningMachineClassCreditNoConfig | campaignIdNotMatch | notAdmin
  | notOracleWorker | stakingCreditNotSet | outOfMaxBurnCreditPerAddress | priceDiffTooMuch
  | priceZero | notDeviceAdmin | bank | nft
deriving DecidableEq, Repr

/-- How a call can fail: by a Rust panic or by an error value. -/
inductive Fail where
  | panic
  | err (e : Err)
deriving DecidableEq, Repr

/-- Constants of `Config`, pallets/credit/src/lib.rs:81-110 (runtime/src/lib.rs:1276-1325). -/
structure Cfg where
  blocksPerEra : Nat
  secsPerBlock : Nat
  attenuationStep : Nat
  minCredit : Nat
  maxBurnCredit : Nat
  /-- account behind `BurnedTo` (the treasury) -/
  burnedTo : AccId

/-- The storage items `UserCredit` and `UserCreditHistory`, pallets/credit/src/lib.rs:135-149 (grouped
because almost every function touches exactly these two). -/
structure Core where
  userCredit : FMap AccId Data := ∅
  history : FMap AccId (List (Nat × Data)) := ∅

/-- Storage of the pallet, pallets/credit/src/lib.rs:135-328, and what it reads from elsewhere. -/
structure State where
  block : Nat := 0
  /-- `T::UnixTime::now().as_secs()` -/
  now : Nat := 0
  /-- `NodeInterface::get_onboard_time` -/
  onboard : AccId → Option Nat := fun _ => none
  /-- `NodeInterface::get_eras_offline` -/
  erasOffline : AccId → Nat := fun _ => 0
  /-- `NodeInterface::get_accounts_evm_deeper` -/
  evmToAccount : Nat → Option AccId := fun _ => none
  isAdmin : AccId → Bool := fun _ => false
  isDeviceAdmin : AccId → Bool := fun _ => false
  isOracle : AccId → Bool := fun _ => false
  isEvmOperator : Nat → Bool := fun _ => false
  bank : Bank
  core : Core := {}
  stakingCredit : FMap AccId Nat := ∅
  dailyBurn : FMap Nat Balance := ∅
  totalBurn : Balance := 0
  settings : FMap (Nat × Level) Setting := ∅
  dailyReward : FMap (Nat × Level) (Balance × Balance) := ∅
  lastUpdate : FMap AccId Nat := ∅
  lastUpdateTs : FMap AccId Nat := ∅
  nftClassCredit : FMap Nat Nat := ∅
  campaignSwitch : FMap Nat Nat := ∅
  notSwitch : FMap AccId Bool := ∅
  creditBalances : List Balance := [1000 * dpr, 5000 * dpr, 10000 * dpr, 20000 * dpr, 30000 * dpr,
    50000 * dpr, 60000 * dpr, 80000 * dpr, 100000 * dpr]
  usdtCreditBalances : List Balance := [50 * dpr, 75 * dpr, 125 * dpr, 200 * dpr, 300 * dpr,
    450 * dpr, 600 * dpr, 800 * dpr, 1000 * dpr]
  genesisCreditBalances : List Balance := [1000 * dpr, 20000 * dpr, 46800 * dpr, 76800 * dpr,
    138000 * dpr, 218000 * dpr, 288000 * dpr, 368000 * dpr, 468000 * dpr]
  creditFromNft : FMap AccId Nat := ∅
  defaultCampaign : Nat := 8
  defaultUsdtCampaign : Nat := 5
  dprPrice : Option Balance := none
  priceDiffRate : Option Nat := none
  stakingBalance : FMap AccId (Balance × Balance) := ∅
  currentPrices : List Balance := []
  maintain : List AccId := []
  genesisChangeEra : Nat := 0
  burnPrice : Balance := 50 * dpr
  /-- `StorageVersion == V4_0_0` -/
  atV4 : Bool := false

/-- `block_to_era` (lib.rs:1071-1075); `BlocksPerEra` is a non-zero constant. -/
def blockToEra (cfg : Cfg) (b : Nat) : Nat := b / cfg.blocksPerEra

/-- `get_current_era`, lib.rs:1369-1371. -/
def currentEra (cfg : Cfg) (s : State) : Nat := blockToEra cfg s.block

/-- `user_credit_history` (ValueQuery: absent reads as empty). -/
def historyOf (c : Core) (a : AccId) : List (Nat × Data) := (c.history.get a).getD []

/-- `get_credit_score`, lib.rs:1373-1375. -/
def creditScore (c : Core) (a : AccId) : Option Nat := (c.userCredit.get a).map Data.credit

/-- `get_evm_credit_score`, lib.rs:1377-1381. -/
def evmCreditScore (s : State) (e : Nat) : Option Nat :=
  (s.evmToAccount e).bind fun a => creditScore s.core a

/-- `_pass_threshold`, lib.rs:1067-1069. -/
def passData (cfg : Cfg) (d : Data) : Bool := decide (cfg.minCredit ≤ d.credit)

/-- `pass_threshold`, lib.rs:1384-1389. -/
def passThreshold (cfg : Cfg) (s : State) (a : AccId) : Bool :=
  match s.core.userCredit.get a with
  | some d => passData cfg d
  | none => false

/-- `_update_credit`, lib.rs:969-984; returns whether the account has credit data. -/
def updateCredit (c : Core) (a : AccId) (score : Nat) : Core × Bool :=
  match c.userCredit.get a with
  | some d => ({ c with userCredit := c.userCredit.insert a (d.update score) }, true)
  | none => (c, false)

/-- The new history of `update_credit_history`, lib.rs:993-1001 (non-empty history): replace the last
entry if it is of the same era, otherwise append. -/
def pushHistory (h : List (Nat × Data)) (era : Nat) (d : Data) : List (Nat × Data) :=
  match h.getLast? with
  | none => h
  | some last => if last.1 = era then h.dropLast ++ [(era, d)] else h ++ [(era, d)]

/-- `update_credit_history`, lib.rs:986-1005. The `unwrap` panics when the account has no credit
data. -/
def updateHistory (c : Core) (a : AccId) (era : Nat) : Except Fail Core :=
  match c.userCredit.get a with
  | none => .error .panic
  | some d =>
    if (historyOf c a).isEmpty then .ok c
    else .ok { c with history := c.history.insert a (pushHistory (historyOf c a) era d) }

/-- `init_credit_history`, lib.rs:1007-1014. -/
def initHistory (c : Core) (a : AccId) (d : Data) (era : Nat) : Core :=
  { c with history := c.history.insert a [(era, d)] }

/-- The `while` loop of `get_credit_map`, lib.rs:1032-1038: `i` moves past the entries before `era`. -/
def advance (h : List (Nat × Data)) (era i : Nat) : Nat :=
  i + ((h.drop i).takeWhile (fun e => decide (e.1 < era))).length

/-- The credit data chosen for one era, lib.rs:1039-1051, given the index `i` after the `while` loop:
`none` for eras before the first entry; an out-of-range index panics. -/
def pickData (h : List (Nat × Data)) (era i : Nat) : Except Fail (Option Data) :=
  match h[0]? with
  | none => .error .panic
  | some first =>
    if era < first.1 then .ok none
    else
      match h[i]? with
      | some e =>
        if e.1 = era then .ok (some e.2)
        else if i = 0 then .error .panic
        else match h[i - 1]? with
          | some p => .ok (some p.2)
          | none => .error .panic
      | none =>
        if i = 0 then .error .panic
        else match h[i - 1]? with
          | some p => .ok (some p.2)
          | none => .error .panic

/-- Counting one era in the `BTreeMap`, lib.rs:1052-1061. The `u16` counter is unbounded here. -/
def countData (cfg : Cfg) (m : FMap Data Nat) (d : Data) : FMap Data Nat :=
  if passData cfg d then
    match m.get d with
    | some n => m.insert d (n + 1)
    | none => m.insert d 1
  else m

/-- The `for` loop of `get_credit_map`, lib.rs:1031-1063, over a list of eras. -/
def creditMapLoop (cfg : Cfg) (h : List (Nat × Data)) :
    List Nat → Nat → FMap Data Nat → Except Fail (FMap Data Nat)
  | [], _, m => .ok m
  | era :: eras, i, m =>
    let i' := advance h era i
    match pickData h era i' with
    | .error e => .error e
    | .ok none => creditMapLoop cfg h eras i' m
    | .ok (some d) => creditMapLoop cfg h eras i' (countData cfg m d)

/-- The eras `from..to+1`. -/
def eraRange (start stop : Nat) : List Nat := List.range' start (stop + 1 - start)

/-- `get_credit_map`, lib.rs:1024-1065. -/
def creditMap (cfg : Cfg) (h : List (Nat × Data)) (start stop : Nat) : Except Fail (FMap Data Nat) :=
  creditMapLoop cfg h (eraRange start stop) 0 ∅

/-- `check_credit_data`, lib.rs:1078-1089 (settings are `ValueQuery`). -/
def checkCreditData (s : State) (d : Data) : Bool :=
  decide (Level.ofScore d.credit = d.level) &&
    decide (d.referees ≤ ((s.settings.get (d.campaign, d.initialLevel)).getD default).maxReferees)

/-- The pair of daily rewards computed by `_update_credit_setting`, lib.rs:1092-1109. -/
def dailyRewardOf (c : Setting) : Balance × Balance :=
  let referee := c.rewardPerReferee * c.maxReferees
  let base := perbillMul 1 270 (perbillMul 270 365 (percentMul c.baseApy c.stakingBalance))
  let bonus := perbillMul 1 270 (perbillMul 270 365
    (percentMul (percentSatAdd c.baseApy c.bonusApy) c.stakingBalance))
  (base - referee, bonus - referee)

/-- `_update_credit_setting`, lib.rs:1091-1121. -/
def updateSetting (s : State) (c : Setting) : State :=
  { s with
    dailyReward := s.dailyReward.insert (c.campaign, c.level) (dailyRewardOf c)
    settings := s.settings.insert (c.campaign, c.level) c }

/-- `half_campaign8_settings`, pallets/credit/src/credit_setting.rs:128-230. -/
def campaign8Settings : List Setting :=
  let mk (l : Level) (stake apy refs : Nat) : Setting :=
    { campaign := 8, level := l, stakingBalance := stake * dpr, baseApy := apy, maxReferees := refs }
  [mk .zero 0 0 0, mk .one 5000 5 1, mk .two 10000 8 2, mk .three 20000 9 3, mk .four 30000 10 7,
   mk .five 50000 12 12, mk .six 60000 13 18, mk .seven 80000 14 25, mk .eight 100000 15 34]

/-- `half_campaign7_settings`, pallets/credit/src/credit_setting.rs:246-257. `Percent + Percent`
saturates at 100% (`PerThing` addition). -/
def campaign7Settings (addition : Nat) : List Setting :=
  campaign8Settings.map fun c =>
    if c.stakingBalance ≠ 0 then { c with campaign := 7, baseApy := percentSatAdd c.baseApy addition }
    else { c with campaign := 7 }

/-- `sub_genesis_apy`, pallets/credit/src/credit_setting.rs:13-21. -/
def subGenesisApy (subed : Nat) : List Setting :=
  (campaign7Settings 10).map fun c =>
    if subed ≤ c.baseApy then { c with baseApy := c.baseApy - subed } else c

/-- `on_initialize`, lib.rs:416-444. -/
def onInitialize (cfg : Cfg) (s : State) : State :=
  if s.block % cfg.blocksPerEra = 0 then
    if s.genesisChangeEra = 0 then s
    else
      let int := currentEra cfg s - s.genesisChangeEra
      if int % 180 = 0 then
        let times := int / 180
        if 0 < times ∧ times ≤ 5 then (subGenesisApy times).foldl updateSetting s else s
      else s
  else s

/-- `on_runtime_upgrade`, lib.rs:446-472. (`times as u8` truncates.) -/
def onRuntimeUpgrade (cfg : Cfg) (s : State) : State :=
  if s.atV4 then
    let s1 := campaign8Settings.foldl updateSetting s
    let times := (currentEra cfg s1 - s1.genesisChangeEra) / 180
    let s2 := (campaign7Settings (10 - times % 256)).foldl updateSetting s1
    { s2 with atV4 := false }
  else s

/-- `set_price` = `on_finalize`, lib.rs:412-414, 902-916. -/
def setPrice (s : State) : State :=
  match s.currentPrices with
  | [] => s
  | ps => { s with currentPrices := [], dprPrice := some (ps.sum / ps.length) }

/-- `slash_credit`, lib.rs:1391-1427. -/
def slashCredit (cfg : Cfg) (era : Nat) (c : Core) (a : AccId) (score : Option Nat) :
    Except Fail Core :=
  let penalty := score.getD cfg.attenuationStep
  if penalty = u64Max then
    .ok { c with userCredit := c.userCredit.erase a, history := c.history.erase a }
  else
    match c.userCredit.get a with
    | some d =>
      updateHistory { c with userCredit := c.userCredit.insert a (d.update (d.credit - penalty)) } a era
    | none => updateHistory c a era

/-- `slash_offline_device_credit`, lib.rs:955-966; `offline` is the number of eras offline,
`maintained` whether the device is listed in `MaintainDevices`. -/
def slashOffline (cfg : Cfg) (era : Nat) (c : Core) (a : AccId) (offline : Nat)
    (maintained : Bool) : Except Fail Core :=
  if 0 < offline ∧ offline % 3 = 0 then
    if maintained then .ok c else slashCredit cfg era c a none
  else .ok c

/-- `do_add_credit`, lib.rs:1178-1190 (and its two event variants, 1192-1203). -/
def doAddCredit (era : Nat) (c : Core) (a : AccId) (d : Data) : Except Fail Core :=
  let c1 : Core := { c with userCredit := c.userCredit.insert a d }
  match c.userCredit.get a with
  | some _ => if (historyOf c1 a).isEmpty then .ok c1 else updateHistory c1 a era
  | none => .ok c1

/-- The campaign an account is switched to, lib.rs:1157-1164: none for exempted accounts and
campaigns without successor. -/
def switchTarget (s : State) (a : AccId) (campaign : Nat) : Option Nat :=
  if s.notSwitch.contains a then none else s.campaignSwitch.get campaign

/-- The changed credit data, lib.rs:1166-1171. -/
def switchData (old : Data) (new : Nat) : Data :=
  if old.campaign = new then { old with rewardEras := old.rewardEras + 180 }
  else { old with campaign := new, rewardEras := defaultRewardEras }

/-- `do_switch_campaign`, lib.rs:1152-1176; `target` is the result of `switchTarget`. -/
def switchCampaign (c : Core) (a : AccId) (old : Data) (target : Option Nat) (era : Nat) :
    Except Fail Core :=
  match target with
  | none => .ok c
  | some new =>
    updateHistory { c with userCredit := c.userCredit.insert a (switchData old new) } a era

/-- `calc_price_dpr`, lib.rs:1289-1299: panics on division by zero; `low_u128` truncates. -/
def calcPriceDpr (numerator denominator base : Nat) : Except Fail Nat :=
  if denominator = 0 then .error .panic else .ok (numerator * base / denominator % 2 ^ 128)

/-- `calc_usdt_daily_poc_reward`, lib.rs:1205-1239. -/
def usdtDaily (s : State) (a : AccId) (d : Data) : Except Fail Balance :=
  let staked := ((s.stakingBalance.get a).getD (25 * dpr, 0)).1
  match s.dprPrice with
  | none => .ok 0
  | some price =>
    match calcPriceDpr staked price dpr with
    | .error e => .error e
    | .ok amount =>
      .ok (percentMul ((s.settings.get (d.campaign, d.level)).getD default).baseApy amount / 365)

/-- `calc_normal_daily_poc_reward`, lib.rs:1241-1274. The subtraction at 1268 panics (or wraps) when
the base reward exceeds the reward with bonus. -/
def normalDaily (s : State) (d : Data) : Except Fail Balance :=
  let setting := (s.settings.get (d.campaign, d.initialLevel)).getD default
  let (base, bonus) := (s.dailyReward.get (d.campaign, d.level)).getD (0, 0)
  if d.level = d.initialLevel then
    .ok (if d.rank ≤ setting.maxRankWithBonus then bonus else base)
  else
    let (ibase, ibonus) := (s.dailyReward.get (d.campaign, d.initialLevel)).getD (0, 0)
    if d.rank ≤ setting.maxRankWithBonus then
      if ibonus < ibase then .error .panic else .ok (base + (ibonus - ibase))
    else .ok base

/-- Daily reward of one credit record, lib.rs:1493-1499. -/
def dailyOf (s : State) (a : AccId) (d : Data) : Except Fail Balance :=
  if d.campaign = 5 then usdtDaily s a d else normalDaily s d

/-- The summation loop of `get_reward`, lib.rs:1491-1503. -/
def sumRewards (s : State) (a : AccId) : List (Data × Nat) → Except Fail Balance
  | [] => .ok 0
  | (d, n) :: rest =>
    match dailyOf s a d with
    | .error e => .error e
    | .ok r =>
      match sumRewards s a rest with
      | .error e => .error e
      | .ok t => .ok (r * n + t)

/-- The part of `get_reward` after the campaign switch, lib.rs:1485-1504. -/
def rewardOf (cfg : Cfg) (s : State) (a : AccId) (h : List (Nat × Data)) (start stop : Nat) :
    Except Fail (Option Balance) :=
  match creditMap cfg h start stop with
  | .error e => .error e
  | .ok m => if m.entries.isEmpty then .ok none else (sumRewards s a m.entries).map some

/-- `get_reward`, lib.rs:1433-1505. Returns the new credit records and the reward. (The reward
computation reads no storage that the switch or the slash changes, so it is evaluated on `s`.) -/
def getReward (cfg : Cfg) (s : State) (a : AccId) (start stop : Nat) :
    Except Fail (Core × Option Balance) :=
  let cur := currentEra cfg s
  if stop < start ∨ cur ≤ stop then .ok (s.core, none)
  else match s.core.userCredit.get a with
    | none => .ok (s.core, none)
    | some d =>
      if d.rewardEras = 0 then .ok (s.core, none)
      else
        let c1 := if (historyOf s.core a).isEmpty then initHistory s.core a d cur else s.core
        match slashOffline cfg cur c1 a (s.erasOffline a) (decide (a ∈ s.maintain)) with
        | .error e => .error e
        | .ok c2 =>
          match historyOf c2 a with
          | [] => .ok (c2, none)
          | first :: rest =>
            let expiry := first.1 + d.rewardEras - 1
            if start = expiry ∨ d.campaign ≤ 6 then
              match switchCampaign c2 a d (switchTarget s a d.campaign) cur with
              | .error e => .error e
              | .ok c3 =>
                (rewardOf cfg s a (first :: rest) start (min stop expiry)).map (c3, ·)
            else if expiry < start then .ok (c2, none)
            else (rewardOf cfg s a (first :: rest) start (min stop expiry)).map (c2, ·)

/-- `check_update_credit_interval`, lib.rs:1127-1150: eras since the last update, and whether the
deprecated era record was used. -/
def updateInterval (cfg : Cfg) (s : State) (a : AccId) (onboardEra : Nat) : Nat × Bool :=
  match s.lastUpdateTs.get a with
  | some ts => ((s.now - ts) / (cfg.blocksPerEra * cfg.secsPerBlock), false)
  | none =>
    match s.lastUpdate.get a with
    | some e => (currentEra cfg s - e, true)
    | none => (currentEra cfg s - onboardEra, false)

/-- `update_credit_by_traffic`, lib.rs:1508-1551; returns whether the credit was raised. -/
def trafficCredit (cfg : Cfg) (s : State) (a : AccId) : Except Fail (State × Bool) :=
  match s.onboard a with
  | none => .ok (s, false)
  | some ob =>
    let iv := updateInterval cfg s a (blockToEra cfg ob)
    if creditCapOneEras ≤ iv.1 then
      let lastUpdate := if iv.2 then s.lastUpdate.erase a else s.lastUpdate
      let uc := updateCredit s.core a (satAdd64 ((creditScore s.core a).getD 0) 1)
      if uc.2 then
        match updateHistory uc.1 a (currentEra cfg s) with
        | .error e => .error e
        | .ok c =>
          .ok ({ s with core := c, lastUpdateTs := s.lastUpdateTs.insert a s.now,
                        lastUpdate := lastUpdate }, true)
      else .ok ({ s with lastUpdate := lastUpdate }, false)
    else .ok (s, false)

/-- `update_credit_by_tip`, lib.rs:1553-1580. -/
def tipCredit (cfg : Cfg) (s : State) (a : AccId) (add : Nat) : Except Fail Core :=
  match s.onboard a with
  | none => .ok s.core
  | some _ =>
    let uc := updateCredit s.core a (satAdd64 ((creditScore s.core a).getD 0) add)
    if uc.2 then updateHistory uc.1 a (currentEra cfg s) else .ok uc.1

/-- `update_credit_by_burn_nft`, lib.rs:1582-1601. -/
def nftCredit (era : Nat) (c : Core) (a : AccId) (add : Nat) : Except Fail Core :=
  let uc := updateCredit c a (satAdd64 ((creditScore c a).getD 0) add)
  if uc.2 then updateHistory uc.1 a era else .error (.err .accountNoExistInUserCredit)

/-- `init_delegator_history`, lib.rs:1603-1615. Its only caller (pallets/staking/src/lib.rs:2438)
passes the current era. -/
def initDelegatorHistory (era : Nat) (c : Core) (a : AccId) : Core :=
  match c.userCredit.get a with
  | none => c
  | some d => initHistory c a d era

/-- `do_unstaking_slash_credit`, lib.rs:1631-1661. -/
def unstakingSlash (cfg : Cfg) (s : State) (a : AccId) : Except Fail State :=
  match s.stakingCredit.get a with
  | none => .error (.err .stakingCreditNotSet)
  | some staking =>
    match creditScore s.core a with
    | none => .error (.err .accountNoExistInUserCredit)
    | some whole =>
      let d := Data.new s.defaultCampaign (whole - staking)
      (updateHistory { s.core with userCredit := s.core.userCredit.insert a d } a
        (currentEra cfg s)).map fun c =>
          { s with core := c, stakingCredit := s.stakingCredit.erase a }

/-- `add_or_update_credit`, lib.rs:1345-1367. -/
def addOrUpdateCredit (cfg : Cfg) (s : State) (a : AccId) (gap : Nat) (campaign : Option Nat) :
    Except Fail State :=
  let d := match s.core.userCredit.get a with
    | some d => d.update (satAdd64 d.credit gap)
    | none => Data.new (campaign.getD s.defaultCampaign) gap
  (doAddCredit (currentEra cfg s) s.core a d).map fun c =>
    { s with core := c,
             stakingCredit := s.stakingCredit.insert a ((s.stakingCredit.get a).getD 0 + gap) }

/-- `is_same_campaign_type`, lib.rs:1277-1287. -/
def sameCampaignType (l r : Nat) : Bool :=
  ([5].contains l && [5].contains r) ||
    ([0, 1, 2, 3, 4, 6, 7, 8].contains l && [0, 1, 2, 3, 4, 6, 7, 8].contains r)

/-- `get_credit_balance`, lib.rs:1317-1343. -/
def creditBalance (s : State) (a : AccId) (required : Option Nat) : List Balance :=
  let id := match (s.core.userCredit.get a).map Data.campaign, required with
    | none, none => 2 ^ 16 - 1
    | some c, some r => if sameCampaignType c r then c else 2 ^ 16 - 1
    | some c, none => c
    | none, some r => r
  if id = 0 ∨ id = 1 then s.genesisCreditBalances
  else if id = 2 ∨ id = 4 then s.creditBalances
  else if id = 5 then s.usdtCreditBalances
  else if id = 6 ∨ id = 7 ∨ id = 8 then s.creditBalances
  else []

/-- `set_staking_balance`, lib.rs:1667-1681. -/
def setStakingBalance (s : State) (a : AccId) (usdt amount : Balance) : State :=
  let new := match s.stakingBalance.get a with
    | some (u, d) => (u + usdt, d + amount)
    | none => (usdt, amount)
  { s with stakingBalance := s.stakingBalance.insert a new }

/-- `burn_record`, lib.rs:1303-1315. -/
def burnRecord (cfg : Cfg) (s : State) (v : Balance) : State :=
  let daily := (s.dailyBurn.get (currentEra cfg s)).getD 0 + v
  { s with
    totalBurn := s.totalBurn + v
    dailyBurn := s.dailyBurn.insert (currentEra cfg s) daily }

/-- `evm_update_credit`, lib.rs:918-953; returns the Boolean result. -/
def evmUpdateCredit (cfg : Cfg) (s : State) (caller user score : Nat) (add : Bool) :
    Except Fail (Core × Bool) :=
  if !s.isEvmOperator caller then .ok (s.core, false)
  else match s.evmToAccount user with
    | none => .ok (s.core, false)
    | some a =>
      if add then
        match s.core.userCredit.get a with
        | none => .ok (s.core, false)
        | some d =>
          (doAddCredit (currentEra cfg s) s.core a (d.update (satAdd64 d.credit score))).map (·, true)
      else (slashCredit cfg (currentEra cfg s) s.core a (some score)).map (·, true)

/-- Position found by the loop of `force_modify_credit_history`, lib.rs:504-508: the first `i` with
`history[i].0 ≤ era < history[i+1].0`, or the last index if `era` is not before it. -/
def modifyPos (h : List (Nat × Data)) (era : Nat) : Option Nat :=
  (List.range h.length).find? fun i =>
    match h[i]?, h[i + 1]? with
    | some x, some y => decide (x.1 ≤ era ∧ era < y.1)
    | some x, none => decide (x.1 ≤ era)
    | none, _ => false

/-- `force_modify_credit_history`, lib.rs:495-534 (root). -/
def forceModifyHistory (c : Core) (a : AccId) (era : Nat) : Except Fail Core :=
  match c.history.get a with
  | none => .error (.err .accountNotFound)
  | some h =>
    match modifyPos h era with
    | none => .error (.err .badEraOrHistory)
    | some i =>
      match h.drop i with
      | [] => .error (.err .badEraOrHistory)
      | e :: rest => .ok { c with history := c.history.insert a ((era, e.2) :: rest) }

/-- Largest credit in the history, lib.rs:566-571. -/
def maxHistoric (h : List (Nat × Data)) : Nat := (h.map (fun e => e.2.credit)).foldl max 0

/-- The ceiling of `burn_for_add_credit`, lib.rs:561-578. -/
def burnCeiling (cfg : Cfg) (h : List (Nat × Data)) : Nat :=
  if h.isEmpty then cfg.minCredit
  else if cfg.minCredit < maxHistoric h then maxHistoric h else cfg.minCredit

/-- `burn_for_add_credit`, lib.rs:553-600. -/
def burnForCredit (cfg : Cfg) (s : State) (a : AccId) (score : Nat) : Except Fail State :=
  match s.core.userCredit.get a with
  | none => .error (.err .invalidCreditData)
  | some d =>
    let target := satAdd64 d.credit score
    if burnCeiling cfg (historyOf s.core a) < target then .error (.err .creditAddTooMuch)
    else
      let amount := s.burnPrice * (score % 2 ^ 32)
      match s.bank.withdraw a amount true with
      | .error _ => .error (.err .bank)
      | .ok b =>
        (updateHistory (updateCredit s.core a target).1 a (currentEra cfg s)).map fun c =>
          burnRecord cfg { s with bank := b.depositCreating cfg.burnedTo amount, core := c } amount

/-- `burn_nft`, lib.rs:637-665. `nftOk` is the verdict of `pallet_uniques::burn`. The `u64` addition
wraps in the release build. -/
def burnNft (cfg : Cfg) (s : State) (a : AccId) (cls : Nat) (nftOk : Bool) : Except Fail State :=
  match s.nftClassCredit.get cls with
  | none => .error (.err .miningMachineClassCreditNoConfig)
  | some credit =>
    let total := ((s.creditFromNft.get a).getD 0 + credit) % 2 ^ 64
    if cfg.maxBurnCredit < total then .error (.err .outOfMaxBurnCreditPerAddress)
    else if !nftOk then .error (.err .nft)
    else (nftCredit (currentEra cfg s) s.core a credit).map fun c =>
      { s with core := c, creditFromNft := s.creditFromNft.insert a total }

/-- The deviation check of `set_dpr_price`, lib.rs:810-825. -/
def withinRate (rate old : Option Nat) (price : Balance) : Bool :=
  match rate, old with
  | some rate, some old =>
    decide ((if old < price then price - old else old - price) ≤ percentMul rate old)
  | _, _ => true

/-- `set_dpr_price`, lib.rs:798-829. -/
def setDprPrice (s : State) (who : AccId) (price : Balance) : Except Fail State :=
  if price = 0 then .error (.err .priceZero)
  else if !s.isOracle who then .error (.err .notOracleWorker)
  else if withinRate s.priceDiffRate s.dprPrice price then
    .ok { s with currentPrices := s.currentPrices ++ [price] }
  else .error (.err .priceDiffTooMuch)

/-- `is_first_campaign_end`, lib.rs:1617-1629. -/
def isFirstCampaignEnd (s : State) (a : AccId) : Option Bool :=
  (s.core.userCredit.get a).map fun d => decide (oldRewardEras < d.rewardEras)

/-- Everything that can happen to the pallet. -/
inductive Op where
  /-- blocks pass and the rest of the chain does anything -/
  | external (blocks now : Nat) (onboard : AccId → Option Nat) (erasOffline : AccId → Nat)
      (evm : Nat → Option AccId) (isAdmin isDeviceAdmin isOracle : AccId → Bool)
      (isEvmOperator : Nat → Bool) (bank : Bank)
  | initialize | finalize | runtimeUpgrade
  | updateCreditSetting (c : Setting)
  | forceModifyHistory (a : AccId) (era : Nat)
  | addOrUpdateCreditData (a : AccId) (d : Data)
  | burnForCredit (a : AccId) (score : Nat)
  | updateNftClass (admin : AccId) (cls credit : Nat)
  | updateNftSum (admin a : AccId) (credit : Nat)
  | burnNft (a : AccId) (cls : Nat) (nftOk : Bool)
  | setSwitchCampaign (admin : AccId) (olds news : List Nat)
  | setNotSwitch (admin : AccId) (l : List AccId)
  | setCreditBalances (admin : AccId) (l : List Balance)
  | setUsdtCreditBalances (admin : AccId) (l : List Balance)
  | setDefaultCampaign (admin : AccId) (id : Nat)
  | setUserStakingCredit (admin : AccId) (l : List (AccId × Nat))
  | unstakingSlashCredit (admin user : AccId)
  | externalSetCreditData (admin a : AccId) (d : Data)
  | setPriceDiffRate (admin : AccId) (rate : Nat)
  | setDprPrice (who : AccId) (price : Balance)
  | unsetStakingBalance (admin a : AccId)
  | setMaintain (admin a : AccId)
  | unsetMaintain (admin a : AccId)
  | setBurnPrice (v : Balance)
  -- calls of other pallets
  | slashCredit (a : AccId) (score : Option Nat)
  | getReward (a : AccId) (start stop : Nat)
  | traffic (a : AccId)
  | tip (a : AccId) (add : Nat)
  | initDelegatorHistory (a : AccId)
  | addOrUpdateCredit (a : AccId) (gap : Nat) (campaign : Option Nat)
  | unstakingSlash (a : AccId)
  | setStakingBalance (a : AccId) (usdt amount : Balance)
  | burnRecord (v : Balance)
  | evmUpdateCredit (caller user score : Nat) (add : Bool)

/-- What the caller sees besides the new state. -/
inductive Out where
  | done
  | failed (e : Err)
  | panicked
  | reward (r : Option Balance)
  | flag (b : Bool)
deriving DecidableEq, Repr

/-- Loop of inserts in `set_switch_campaign` (lib.rs:681-683) and `set_user_staking_credit`
(lib.rs:750-752). -/
def insertAll (m : FMap Nat Nat) (l : List (Nat × Nat)) : FMap Nat Nat :=
  l.foldl (fun m p => m.insert p.1 p.2) m

/-- Guard of the admin calls. -/
def admin (s : State) (who : AccId) (k : Except Fail State) : Except Fail State :=
  if s.isAdmin who then k else .error (.err .notAdmin)

/-- Guard of the device admin calls. -/
def deviceAdmin (s : State) (who : AccId) (k : Except Fail State) : Except Fail State :=
  if s.isDeviceAdmin who then k else .error (.err .notDeviceAdmin)

/-- Dispatch; extrinsics at the lines given with each function above, the small setters at
lib.rs:483-491, 540-549, 604-632, 669-794, 833-886. -/
def body (cfg : Cfg) (s : State) : Op → Except Fail (State × Out)
  | .external blocks now ob off evm ad dev orc evmop bank =>
    .ok ({ s with block := s.block + blocks, now := now, onboard := ob, erasOffline := off,
                  evmToAccount := evm, isAdmin := ad, isDeviceAdmin := dev, isOracle := orc,
                  isEvmOperator := evmop, bank := bank }, .done)
  | .initialize => .ok (onInitialize cfg s, .done)
  | .finalize => .ok (setPrice s, .done)
  | .runtimeUpgrade => .ok (onRuntimeUpgrade cfg s, .done)
  | .updateCreditSetting c => .ok (updateSetting s c, .done)
  | .forceModifyHistory a era => (forceModifyHistory s.core a era).map fun c => ({ s with core := c }, .done)
  | .addOrUpdateCreditData a d =>
    if checkCreditData s d then
      (doAddCredit (currentEra cfg s) s.core a d).map fun c => ({ s with core := c }, .done)
    else .error (.err .invalidCreditData)
  | .burnForCredit a score => (burnForCredit cfg s a score).map (·, .done)
  | .updateNftClass who cls credit =>
    (admin s who (.ok { s with nftClassCredit := s.nftClassCredit.insert cls credit })).map (·, .done)
  | .updateNftSum who a credit =>
    (admin s who (.ok { s with creditFromNft := s.creditFromNft.insert a credit })).map (·, .done)
  | .burnNft a cls ok => (burnNft cfg s a cls ok).map (·, .done)
  | .setSwitchCampaign who olds news =>
    (admin s who (if olds.length = news.length then
        .ok { s with campaignSwitch := insertAll s.campaignSwitch (olds.zip news) }
      else .error (.err .campaignIdNotMatch))).map (·, .done)
  | .setNotSwitch who l =>
    (admin s who (.ok { s with notSwitch := l.foldl (fun m a => m.insert a true) s.notSwitch })).map
      (·, .done)
  | .setCreditBalances who l => (admin s who (.ok { s with creditBalances := l })).map (·, .done)
  | .setUsdtCreditBalances who l =>
    (admin s who (.ok { s with usdtCreditBalances := l })).map (·, .done)
  | .setDefaultCampaign who id => (admin s who (.ok { s with defaultCampaign := id })).map (·, .done)
  | .setUserStakingCredit who l =>
    (admin s who (.ok { s with stakingCredit := insertAll s.stakingCredit l })).map (·, .done)
  | .unstakingSlashCredit who user => (admin s who (unstakingSlash cfg s user)).map (·, .done)
  | .externalSetCreditData who a d =>
    (admin s who (if checkCreditData s d then
        (doAddCredit (currentEra cfg s) s.core a d).map fun c => { s with core := c }
      else .error (.err .invalidCreditData))).map (·, .done)
  | .setPriceDiffRate who rate => (admin s who (.ok { s with priceDiffRate := some rate })).map (·, .done)
  | .setDprPrice who price => (setDprPrice s who price).map (·, .done)
  | .unsetStakingBalance who a =>
    (admin s who (.ok { s with stakingBalance := s.stakingBalance.erase a })).map (·, .done)
  | .setMaintain who a =>
    (deviceAdmin s who (.ok (if a ∈ s.maintain then s
      else { s with maintain := s.maintain ++ [a] }))).map (·, .done)
  | .unsetMaintain who a =>
    (deviceAdmin s who (.ok { s with maintain := s.maintain.erase a })).map (·, .done)
  | .setBurnPrice v => .ok ({ s with burnPrice := v }, .done)
  | .slashCredit a score => 
    (slashCredit cfg (currentEra cfg s) s.core a score).map fun c => ({ s with core := c }, .done)
  | .getReward a start stop => 
    (getReward cfg s a start stop).map fun p => ({ s with core := p.1 }, .reward p.2)
  | .traffic a => (trafficCredit cfg s a).map fun p => (p.1, .flag p.2)
  | .tip a add => (tipCredit cfg s a add).map fun c => ({ s with core := c }, .done)
  | .initDelegatorHistory a => 
    .ok ({ s with core := initDelegatorHistory (currentEra cfg s) s.core a }, .done)
  | .addOrUpdateCredit a gap c => (addOrUpdateCredit cfg s a gap c).map (·, .done)
  | .unstakingSlash a => (unstakingSlash cfg s a).map (·, .done)
  | .setStakingBalance a u d => .ok (setStakingBalance s a u d, .done)
  | .burnRecord v => .ok (burnRecord cfg s v, .done)
  | .evmUpdateCredit caller user score add =>
    (evmUpdateCredit cfg s caller user score add).map fun p => ({ s with core := p.1 }, .flag p.2)

/-- One step: errors and panics leave no trace in the storage (the enclosing extrinsic is rolled
back, respectively not included). -/
def step (cfg : Cfg) (s : State) (op : Op) : State × Out :=
  match body cfg s op with
  | .ok r => r
  | .error .panic => (s, .panicked)
  | .error (.err e) => (s, .failed e)

/-- A history; returns the final state and each operation with the state it ran in and its output. -/
def run (cfg : Cfg) (s : State) : List Op → State × List (State × Op × Out)
  | [] => (s, [])
  | op :: ops =>
    let r := step cfg s op
    let t := run cfg r.1 ops
    (t.1, (s, op, r.2) :: t.2)

/-- Storage right after genesis, lib.rs:337-348. -/
def genesis (bank : Bank) (settings : List Setting) (users : List (AccId × Data)) : State :=
  users.foldl (fun s u =>
      { s with core := { s.core with userCredit := s.core.userCredit.insert u.1 u.2 } })
    (settings.foldl updateSetting { bank := bank })

end Verif.Credit
