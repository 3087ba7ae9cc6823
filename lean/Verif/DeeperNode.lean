import Verif.Bank
import Verif.RegionTable

/-
Model of pallets/deeper-node/src/lib.rs: device registry, server directory, heartbeats, reward
mapping between native accounts and EVM addresses.
-/

namespace Verif.DeeperNode

structure Cfg where
  /-- `MinLockAmt`, runtime/src/lib.rs:1259 -/
  minLock : Balance
  /-- `MaxDurationEras`, runtime/src/lib.rs:1260 -/
  maxDuration : Nat
  /-- `BlocksPerEra`, runtime/src/lib.rs:1269 -/
  blocksPerEra : Nat

/-- `Node`, lib.rs:55-59; the field `account_id` always is the storage key and is left out. -/
structure Node where
  country : Code
  expire : Nat
deriving DecidableEq, Repr

/-- Storage, lib.rs:103-160, and what the pallet reads from outside: block number, balances, and the
signature checks of the credit-accumulation pallet. -/
structure State where
  block : Nat := 0
  bank : Bank
  /-- `verify_atomos_signature nonce signature sender` -/
  verifyAny : Nat → List Nat → AccId → Bool := fun _ _ _ => false
  /-- `verify_atomos_new_signature nonce signature sender` -/
  verifyNew : Nat → List Nat → AccId → Bool := fun _ _ _ => false
  devices : FMap AccId Node := ∅
  byCountry : FMap Code (List AccId) := ∅
  byRegion : FMap Code (List AccId) := ∅
  imOnline : FMap AccId Nat := ∅
  onboard : FMap AccId Nat := ∅
  onboardList : List AccId := []
  proofs : FMap AccId (Nat × Nat × Nat) := ∅
  evmToDeeper : FMap Nat AccId := ∅
  deeperToEvm : FMap AccId Nat := ∅

/-- `RegionMap::contains_key`, lib.rs:261. The table is written at genesis only. -/
def isCode (c : Code) : Bool := (FMap.lget regionTable c).isSome

/-- `RegionMap::get`, a `ValueQuery` map whose default is the empty code; lib.rs:107-109. -/
def region (c : Code) : Code := (FMap.lget regionTable c).getD []

/-- `ServersByCountry::get` (`ValueQuery`), lib.rs:121-123. -/
def countryList (s : State) (c : Code) : List AccId := (s.byCountry.get c).getD []

/-- `ServersByRegion::get` (`ValueQuery`), lib.rs:131-133. -/
def regionList (s : State) (r : Code) : List AccId := (s.byRegion.get r).getD []

/-- `servers.binary_search(a)` succeeds, lib.rs:534, 556, 575, 597. On a sorted list the search finds
exactly the elements of the list and otherwise the position after all smaller elements; the lists of
the pallet are sorted (part of theorem C22). -/
def found (l : List AccId) (a : AccId) : Bool := l.contains a

/-- `servers.insert(index, a)` at the position found by the binary search, lib.rs:537, 578. -/
def insertAt (l : List AccId) (a : AccId) : List AccId :=
  l.takeWhile (fun x => decide (x < a)) ++ a :: l.dropWhile (fun x => decide (x < a))

/-- `servers.remove(index)` at the position found by the binary search, lib.rs:558, 599. -/
def removeAt (l : List AccId) (a : AccId) : List AccId :=
  l.takeWhile (fun x => decide (x < a)) ++ (l.dropWhile (fun x => decide (x < a))).tail

/-- `country_list_insert`, lib.rs:528-549, given the list read before. -/
def countryInsert (s : State) (l : List AccId) (a : AccId) (c : Code) : State × List AccId × Bool :=
  if found l a then (s, l, false)
  else ({ s with byCountry := s.byCountry.insert c (insertAt l a) }, insertAt l a, true)

/-- `country_list_remove`, lib.rs:551-568. -/
def countryRemove (s : State) (l : List AccId) (a : AccId) (c : Code) : State :=
  if found l a then { s with byCountry := s.byCountry.insert c (removeAt l a) } else s

/-- `region_list_insert`, lib.rs:570-591. -/
def regionInsert (s : State) (l : List AccId) (a : AccId) (r : Code) : State × List AccId × Bool :=
  if found l a then (s, l, false)
  else ({ s with byRegion := s.byRegion.insert r (insertAt l a) }, insertAt l a, true)

/-- `region_list_remove`, lib.rs:593-608 (closing brace at 608). -/
def regionRemove (s : State) (l : List AccId) (a : AccId) (r : Code) : State :=
  if found l a then { s with byRegion := s.byRegion.insert r (removeAt l a) } else s

/-- `try_remove_server`, lib.rs:461-485. -/
def tryRemove (s : State) (a : AccId) : State :=
  match s.devices.get a with
  | none => s
  | some node =>
    let first := region node.country
    let second := region first
    let s1 := countryRemove s (countryList s node.country) a node.country
    let s2 := regionRemove s1 (regionList s1 first) a first
    let s3 := regionRemove s2 (regionList s2 second) a second
    { s3 with devices := s3.devices.insert a { node with expire := s3.block } }

/-- `try_add_server`, lib.rs:488-526. Its error is ignored by the caller (lib.rs:317), so only the
storage matters. -/
def tryAdd (s : State) (a : AccId) (duration : Nat) : State :=
  let node := (s.devices.get a).getD ⟨[], 0⟩
  let first := region node.country
  let second := region first
  let r1 := countryInsert s (countryList s node.country) a node.country
  if !r1.2.2 then s
  else
    let r2 := regionInsert r1.1 (regionList r1.1 first) a first
    if !r2.2.2 then countryRemove r1.1 r1.2.1 a node.country
    else
      let r3 := regionInsert r2.1 (regionList r2.1 second) a second
      if !r3.2.2 then
        regionRemove (countryRemove r2.1 r1.2.1 a node.country) r2.2.1 a first
      else
        { r3.1 with devices := r3.1.devices.insert a { node with expire := r3.1.block + duration } }

inductive Err where
  | invalidCode | deviceNotRegister | durationOverflow | signatureVerifyFailed
  | ethAddressAlreadyMapped | npowRewardAddressNotFound
  | bank (e : BankErr)
deriving DecidableEq, Repr

/-- `register_device_deprecated`, lib.rs:253-284. `RegionMapInit` is set at genesis
(lib.rs:183, 916) and never cleared, so the first check always passes. In the second branch the
closure of `mutate` works on the node read at its start; `try_remove_server` inside the closure
writes the same entry, which is then overwritten by the closure's node. -/
def register (cfg : Cfg) (s : State) (a : AccId) (country : Code) : Except Err State :=
  if !isCode country then .error .invalidCode
  else match s.devices.get a with
    | none =>
      match s.bank.reserve a cfg.minLock with
      | .error e => .error (.bank e)
      | .ok b => .ok { s with bank := b, devices := s.devices.insert a ⟨country, s.block⟩ }
    | some node =>
      let s1 := if node.country ≠ country then tryRemove s a else s
      .ok { s1 with devices := s1.devices.insert a ⟨country, s.block⟩ }

/-- `unregister_device`, lib.rs:288-299. -/
def unregister (cfg : Cfg) (s : State) (a : AccId) : Except Err State :=
  if !s.devices.contains a then .error .deviceNotRegister
  else
    let s1 := tryRemove s a
    .ok { s1 with devices := s1.devices.erase a, bank := s1.bank.unreserve a cfg.minLock }

/-- `register_server`, lib.rs:303-319. -/
def registerServer (cfg : Cfg) (s : State) (a : AccId) (eras : Nat) : Except Err State :=
  if !s.devices.contains a then .error .deviceNotRegister
  else if cfg.maxDuration < eras then .error .durationOverflow
  else .ok (tryAdd s a (eras * cfg.blocksPerEra))

/-- `update_server`, lib.rs:323-341. -/
def updateServer (cfg : Cfg) (s : State) (a : AccId) (eras : Nat) : Except Err State :=
  match s.devices.get a with
  | none => .error .deviceNotRegister
  | some node =>
    if cfg.maxDuration < eras then .error .durationOverflow
    else .ok { s with
      devices := s.devices.insert a { node with expire := s.block + eras * cfg.blocksPerEra } }

/-- `unregister_server`, lib.rs:345-353. -/
def unregisterServer (s : State) (a : AccId) : Except Err State :=
  if !s.devices.contains a then .error .deviceNotRegister else .ok (tryRemove s a)

/-- `im_online`, lib.rs:357-367. -/
def heartbeat (s : State) (a : AccId) : State :=
  let s1 := { s with imOnline := s.imOnline.insert a s.block }
  if s.onboard.contains a then s1
  else { s1 with onboard := s.onboard.insert a s.block, onboardList := s.onboardList ++ [a] }

/-- `report_credit_proof`, lib.rs:371-400. -/
def reportProof (s : State) (a : AccId) (nonce : Nat) (sig : List Nat) (p : Nat × Nat × Nat) :
    Except Err State :=
  if !s.verifyAny nonce sig a then .error .signatureVerifyFailed
  else .ok { s with proofs := s.proofs.insert a p }

/-- `reward_mapping`, lib.rs:406-443. (The error `NotBound` cannot occur: the entry exists.) -/
def rewardMapping (s : State) (a : AccId) (nonce : Nat) (sig : List Nat) (eth : Nat) :
    Except Err State :=
  if !s.verifyNew nonce sig a then .error .signatureVerifyFailed
  else if s.evmToDeeper.contains eth then .error .ethAddressAlreadyMapped
  else match s.deeperToEvm.get a with
    | some old =>
      if eth ≠ old then
        .ok { s with evmToDeeper := s.evmToDeeper.insert eth a,
                     deeperToEvm := s.deeperToEvm.insert a eth }
      else .ok s
    | none =>
      .ok { s with evmToDeeper := s.evmToDeeper.insert eth a,
                   deeperToEvm := s.deeperToEvm.insert a eth }

/-- `get_npow_reward`, lib.rs:447-457: the address announced in the event. -/
def npowReward (s : State) (a : AccId) : Except Err Nat :=
  match s.deeperToEvm.get a with
  | some e => .ok e
  | none => .error .npowRewardAddressNotFound

/-- `get_eras_offline`, lib.rs:929-934. -/
def erasOffline (cfg : Cfg) (s : State) (a : AccId) : Nat :=
  (s.block - (s.imOnline.get a).getD 0) / cfg.blocksPerEra

inductive Op where
  | register (a : AccId) (country : Code)
  | unregister (a : AccId)
  | registerServer (a : AccId) (eras : Nat)
  | updateServer (a : AccId) (eras : Nat)
  | unregisterServer (a : AccId)
  | heartbeat (a : AccId)
  | reportProof (a : AccId) (nonce : Nat) (sig : List Nat) (p : Nat × Nat × Nat)
  | rewardMapping (a : AccId) (nonce : Nat) (sig : List Nat) (eth : Nat)
  | npowReward (a : AccId)
  /-- blocks pass, balances and signature keys change -/
  | external (blocks : Nat) (bank : Bank) (verifyAny verifyNew : Nat → List Nat → AccId → Bool)

inductive Out where
  | done
  | npow (eth : Nat)
  | failed (e : Err)
deriving DecidableEq, Repr

/-- Dispatch. -/
def body (cfg : Cfg) (s : State) : Op → Except Err (State × Out)
  | .register a c => (register cfg s a c).map (·, .done)
  | .unregister a => (unregister cfg s a).map (·, .done)
  | .registerServer a n => (registerServer cfg s a n).map (·, .done)
  | .updateServer a n => (updateServer cfg s a n).map (·, .done)
  | .unregisterServer a => (unregisterServer s a).map (·, .done)
  | .heartbeat a => .ok (heartbeat s a, .done)
  | .reportProof a n sig p => (reportProof s a n sig p).map (·, .done)
  | .rewardMapping a n sig e => (rewardMapping s a n sig e).map (·, .done)
  | .npowReward a => (npowReward s a).map fun e => (s, .npow e)
  | .external n b v w =>
    .ok ({ s with block := s.block + n, bank := b, verifyAny := v, verifyNew := w }, .done)

/-- One call; a failing call changes nothing. -/
def step (cfg : Cfg) (s : State) (op : Op) : State × Out :=
  match body cfg s op with
  | .ok r => r
  | .error e => (s, .failed e)

/-- A history: final state and every call with the state before it and its result. -/
def run (cfg : Cfg) (s : State) : List Op → State × List (State × Op × Out)
  | [] => (s, [])
  | op :: ops =>
    let r := step cfg s op
    let t := run cfg r.1 ops
    (t.1, (s, op, r.2) :: t.2)

/-- Storage after genesis, lib.rs:180-188. -/
def genesis (bank : Bank) (rewards : List (AccId × Nat)) : State :=
  rewards.foldl (fun s p =>
    { s with evmToDeeper := s.evmToDeeper.insert p.2 p.1, deeperToEvm := s.deeperToEvm.insert p.1 p.2 })
    { bank := bank }

end Verif.DeeperNode
