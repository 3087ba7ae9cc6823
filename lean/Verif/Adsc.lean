import Verif.Bank
import Verif.Assets
import Verif.UserPrivileges
import Verif.CreditPrim

/-
Model of pallets/adsc/src/lib.rs: daily ADSC rewards for registered stakers, their NFTs, the swap of
ADSC for DPR, the bridge calls.

Simplifications: the runtime upgrade that creates the asset (lib.rs:233-259), addresses on other
chains, NFT metadata contents, weights and purely informative events are left out; sums are
unbounded; day numbers of the clock are unbounded (the code converts to `u32`, exact for 2^32 days);
`Perbill::from_rational(day, period)` is modelled for periods up to 10^9 days; the deposits reserved
from collection owners for NFTs are not tracked.
-/

namespace Verif.Adsc

open Verif.UserPrivileges (Privilege)
open Verif.Credit (perbillMul)

structure Cfg where
  /-- position of an account in the order of storage keys of `AdscStakers`; `Blake2_128Concat` keys
  contain the account, so different accounts have different keys. The prefix is 0. -/
  key : AccId → Nat
  /-- the pool account, lib.rs:462-464 -/
  pool : AccId
  /-- `AdscInitTarget`, lib.rs:142-144: 10_000_000_000 DPR -/
  initTarget : Balance

/-- Days in milliseconds, lib.rs:209. -/
def msPerDay : Nat := 86400000

/-- Items of pallet-uniques (trusted base): owner of each item, items with metadata, existing
collections, and whether the owner of a collection can pay the item deposit. -/
structure Nfts where
  items : FMap (Nat × Nat) AccId := ∅
  metas : FMap (Nat × Nat) Unit := ∅
  coll : Nat → Bool := fun _ => true
  funds : Nat → Bool := fun _ => true

/-- Storage, lib.rs:108-164, and what is read from outside: clock, balances, the asset, NFTs,
privileges, and for each account whether `get_eras_offline` is different from 0. -/
structure State where
  now : Nat := 0
  bank : Bank
  asset : Asset
  nfts : Nfts := {}
  priv : AccId → Privilege → Bool := fun _ _ => false
  offline : AccId → Bool := fun _ => false
  /-- `AdscStakers`: remaining days -/
  stakers : FMap AccId Nat := ∅
  /-- `AdscNfts` -/
  nftOf : FMap AccId (Nat × Nat) := ∅
  /-- `AdscStakerLastKey`; `none` is the empty key, `some 0` the prefix of the map -/
  cursor : Option Nat := none
  base : Balance
  minted : Balance := 0
  target : Balance
  period : Nat := 365
  perBlock : Nat := 2
  savedDay : Nat := 0
  rate : Nat × Nat := (2, 1)
  poolTotal : Balance := 0

/-- Day of the clock, lib.rs:213-216. -/
def State.today (s : State) : Nat := s.now / msPerDay

/-- One daily reward: account, amount, whether it was minted. -/
structure Pay where
  acc : AccId
  amount : Balance
  ok : Bool
deriving DecidableEq, Repr

/-- Variables of the loop in `adsc_reward`. -/
structure Scan where
  asset : Asset
  minted : Balance
  base : Balance
  target : Balance
  lastKey : Option Nat
  removed : List AccId
  subbed : List AccId
  pays : List Pay

/-- `pay_reward`, lib.rs:470-488. `left` are the remaining days of the staker. -/
def payReward (cfg : Cfg) (period : Nat) (c : Scan) (a : AccId) (left : Nat) : Scan :=
  let v := perbillMul left period c.base
  match c.asset.mint a v with
  | .error _ => { c with pays := c.pays ++ [⟨a, v, false⟩] }
  | .ok x =>
    let c := { c with asset := x, minted := c.minted + v, pays := c.pays ++ [⟨a, v, true⟩] }
    if c.target ≤ c.minted then
      { c with target := min (c.target + cfg.initTarget) (2 ^ 128 - 1), base := c.base / 2 }
    else c

/-- Treatment of one staker who is online, lib.rs:513-524. -/
def visit (cfg : Cfg) (period : Nat) (c : Scan) (a : AccId) (left : Nat) : Scan :=
  let c := { c with lastKey := some (cfg.key a) }
  if left = 0 then { c with removed := c.removed ++ [a] }
  else
    let c := payReward cfg period c a left
    { c with subbed := c.subbed ++ [a] }

/-- The loop of `adsc_reward`, lib.rs:505-532; `n` is the number of stakers still to be treated in
this block. -/
def scan (cfg : Cfg) (s : State) : List (AccId × Nat) → Nat → Scan → Scan
  | [], _, c => c
  | (a, left) :: rest, n, c =>
    if s.offline a then scan cfg s rest n c
    else
      let c := visit cfg s.period c a left
      if n = 1 then c else scan cfg s rest (n - 1) c

/-- Insert into a list of stakers ordered by storage key. -/
def insertByKey (key : AccId → Nat) (e : AccId × Nat) : List (AccId × Nat) → List (AccId × Nat)
  | [] => [e]
  | x :: xs => if key e.1 < key x.1 then e :: x :: xs else x :: insertByKey key e xs

/-- The stakers in the order of their storage keys, as `iter_from` enumerates them. -/
def sortByKey (key : AccId → Nat) : List (AccId × Nat) → List (AccId × Nat)
  | [] => []
  | e :: es => insertByKey key e (sortByKey key es)

/-- `remove_nft`, lib.rs:552-567 (transactional). -/
def removeNft (n : Nfts) (i : Nat × Nat) : Option Nfts :=
  if n.items.contains i = false then none
  else if n.coll i.1 = false then none
  else if n.metas.contains i = false then none
  else some { n with items := n.items.erase i, metas := n.metas.erase i }

/-- `add_nft`, lib.rs:569-589 (transactional). -/
def addNft (n : Nfts) (i : Nat × Nat) (a : AccId) : Option Nfts :=
  if n.coll i.1 = false then none
  else if n.items.contains i = true then none
  else if n.funds i.1 = false then none
  else some { n with items := n.items.insert i a, metas := n.metas.insert i () }

/-- End of a staker, lib.rs:535-542. -/
def removeStaker (s : State) (a : AccId) : State :=
  let s1 := { s with stakers := s.stakers.erase a, nftOf := s.nftOf.erase a }
  match s.nftOf.get a with
  | none => s1
  | some i =>
    match removeNft s.nfts i with
    | none => s1
    | some n => { s1 with nfts := n }

/-- One day less, lib.rs:543-550. -/
def subDay (s : State) (a : AccId) : State :=
  match s.stakers.get a with
  | none => s
  | some p => { s with stakers := s.stakers.insert a (p - 1) }

/-- `adsc_reward`, lib.rs:490-552. -/
def reward (cfg : Cfg) (s : State) : State × List Pay :=
  match s.cursor with
  | none => (s, [])
  | some k =>
    let todo := (sortByKey cfg.key s.stakers.entries).filter fun e => decide (k < cfg.key e.1)
    let c := scan cfg s todo s.perBlock ⟨s.asset, s.minted, s.base, s.target, none, [], [], []⟩
    let s := { s with asset := c.asset, minted := c.minted, base := c.base, target := c.target,
                      cursor := c.lastKey }
    (c.subbed.foldl subDay (c.removed.foldl removeStaker s), c.pays)

/-- `on_initialize`, lib.rs:208-231. -/
def blockInit (cfg : Cfg) (s : State) : State × List Pay :=
  if s.savedDay < s.today then
    ({ s with savedDay := s.today, cursor := some 0,
              perBlock := s.stakers.entries.length / 17000 + 2 }, [])
  else reward cfg s

inductive Err where
  | notAdmin | sameNft | nft | badOrigin
  | asset (e : AssetErr)
  | bank (e : BankErr)
  /-- division by an exchange rate of zero, lib.rs:425 -/
  | panic
deriving DecidableEq, Repr

def liftBank {α : Type} : Except BankErr α → Except Err α
  | .ok a => .ok a
  | .error e => .error (.bank e)

def liftAsset {α : Type} : Except AssetErr α → Except Err α
  | .ok a => .ok a
  | .error e => .error (.asset e)

/-- `add_adsc_staking_account`, lib.rs:264-279. -/
def addStaker (s : State) (who a : AccId) : Except Err State :=
  if !s.priv who .creditAdmin then .error .notAdmin
  else .ok { s with stakers := s.stakers.insert a s.period }

/-- Replacing the NFT of an account, lib.rs:299-306. -/
def dropOldNft (s : State) (a : AccId) (i : Nat × Nat) : Except Err Nfts :=
  match s.nftOf.get a with
  | none => .ok s.nfts
  | some old =>
    if old = i then .error .sameNft
    else match removeNft s.nfts old with
      | none => .error .nft
      | some n => .ok n

/-- `add_adsc_staking_account_with_nft`, lib.rs:281-316. -/
def addStakerNft (s : State) (who a : AccId) (i : Nat × Nat) : Except Err State :=
  if !s.priv who .creditAdmin then .error .notAdmin
  else match dropOldNft s a i with
    | .error e => .error e
    | .ok n => match addNft n i a with
      | none => .error .nft
      | some n =>
        .ok { s with stakers := s.stakers.insert a s.period, nftOf := s.nftOf.insert a i, nfts := n }

/-- `set_reward_period`, lib.rs:318-328. -/
def setPeriod (s : State) (who : AccId) (p : Nat) : Except Err State :=
  if !s.priv who .creditAdmin then .error .notAdmin else .ok { s with period := p }

/-- `set_half_reward_target`, lib.rs:330-343. -/
def setTarget (s : State) (who : AccId) (t : Balance) : Except Err State :=
  if !s.priv who .creditAdmin then .error .notAdmin else .ok { s with target := t }

/-- `set_base_reward`, lib.rs:345-358. -/
def setBase (s : State) (who : AccId) (b : Balance) : Except Err State :=
  if !s.priv who .creditAdmin then .error .notAdmin else .ok { s with base := b }

/-- `set_exchange_rate`, lib.rs:395-408. -/
def setRate (s : State) (who : AccId) (r : Nat × Nat) : Except Err State :=
  if !s.priv who .creditAdmin then .error .notAdmin else .ok { s with rate := r }

/-- `do_bridge_burn_adsc`, lib.rs:591-609. -/
def bridgeBurn (s : State) (who src : AccId) (v : Balance) : Except Err State :=
  if !s.priv who .creditAdmin then .error .notAdmin
  else (liftAsset (s.asset.burn src v)).map fun x => { s with asset := x }

/-- `do_bridge_mint_adsc`, lib.rs:611-623. -/
def bridgeMint (s : State) (who dst : AccId) (v : Balance) : Except Err State :=
  if !s.priv who .creditAdmin then .error .notAdmin
  else (liftAsset (s.asset.mint dst v)).map fun x => { s with asset := x }

/-- `swap_adsc_to_dpr`, lib.rs:410-442 (transactional); returns the DPR paid. -/
def swap (cfg : Cfg) (s : State) (who : AccId) (v : Balance) : Except Err (State × Balance) :=
  match liftAsset (s.asset.transfer who cfg.pool v) with
  | .error e => .error e
  | .ok x =>
    if s.rate.1 = 0 then .error .panic
    else
      let dpr := min (v * s.rate.2) (2 ^ 128 - 1) / s.rate.1
      (liftBank (s.bank.transfer cfg.pool who dpr false)).map fun b =>
        ({ s with asset := x, bank := b }, dpr)

/-- `add_pool_dpr_adsc`, lib.rs:444-460. -/
def addPool (cfg : Cfg) (s : State) (root : Bool) (v : Balance) : Except Err State :=
  if !root then .error .badOrigin
  else .ok { s with bank := s.bank.depositCreating cfg.pool v, poolTotal := s.poolTotal + v }

inductive Op where
  | addStaker (who a : AccId)
  | addStakerNft (who a : AccId) (i : Nat × Nat)
  | setPeriod (who : AccId) (p : Nat)
  | setTarget (who : AccId) (t : Balance)
  | setBase (who : AccId) (b : Balance)
  | setRate (who : AccId) (r : Nat × Nat)
  | bridgeBurn (who src : AccId) (v : Balance)
  | bridgeMint (who dst : AccId) (v : Balance)
  | swap (who : AccId) (v : Balance)
  | addPool (root : Bool) (v : Balance)
  | init
  /-- time passes; balances, the asset, NFTs and privileges change outside the pallet -/
  | external (dt : Nat) (bank : Bank) (asset : Asset) (nfts : Nfts) (priv : AccId → Privilege → Bool)
  /-- devices go online or offline -/
  | setOffline (f : AccId → Bool)

inductive Out where
  | done
  | swapped (dpr : Balance)
  | paid (l : List Pay)
  | failed (e : Err)
deriving DecidableEq, Repr

/-- Dispatch. -/
def body (cfg : Cfg) (s : State) : Op → Except Err (State × Out)
  | .addStaker w a => (addStaker s w a).map (·, .done)
  | .addStakerNft w a i => (addStakerNft s w a i).map (·, .done)
  | .setPeriod w p => (setPeriod s w p).map (·, .done)
  | .setTarget w t => (setTarget s w t).map (·, .done)
  | .setBase w b => (setBase s w b).map (·, .done)
  | .setRate w r => (setRate s w r).map (·, .done)
  | .bridgeBurn w a v => (bridgeBurn s w a v).map (·, .done)
  | .bridgeMint w a v => (bridgeMint s w a v).map (·, .done)
  | .swap w v => (swap cfg s w v).map fun r => (r.1, .swapped r.2)
  | .addPool r v => (addPool cfg s r v).map (·, .done)
  | .init => .ok ((blockInit cfg s).1, .paid (blockInit cfg s).2)
  | .external dt b x n p =>
    .ok ({ s with now := s.now + dt, bank := b, asset := x, nfts := n, priv := p }, .done)
  | .setOffline f => .ok ({ s with offline := f }, .done)

/-- One call or block; a failing call leaves no trace. The bridge calls return `Ok` also on failure
(lib.rs:363-393) and only report it in an event; that is `failed` here. -/
def step (cfg : Cfg) (s : State) (op : Op) : State × Out :=
  match body cfg s op with
  | .ok r => r
  | .error e => (s, .failed e)

/-- A history with its trace: state before, call, outcome. -/
def run (cfg : Cfg) (s : State) : List Op → State × List (State × Op × Out)
  | [] => (s, [])
  | op :: ops =>
    let r := step cfg s op
    let t := run cfg r.1 ops
    (t.1, (s, op, r.2) :: t.2)

/-- Initial storage. -/
def genesis (cfg : Cfg) (bank : Bank) (asset : Asset) (base : Balance) : State :=
  { bank := bank, asset := asset, base := base, target := cfg.initTarget }

end Verif.Adsc
