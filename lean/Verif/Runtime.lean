import Verif.Bank

/-
Parts of the runtime configuration, runtime/src/lib.rs and runtime/src/precompiles.rs: the split of the
transaction fees, the proxy types with the dispatch of proxied calls, and the table of precompiles.
-/

namespace Verif.Runtime

/-! ### Fees -/

/-- `u128::MAX`. -/
def u128Max : Nat := 2 ^ 128 - 1

/-- `Imbalance::ration` of frame-support (trusted): `split` at the first part of `a + b` parts; the product
saturates. -/
def ration (v a b : Nat) : Balance × Balance :=
  if a + b = 0 then (0, 0)
  else
    let first := min v (min (v * a) u128Max / (a + b))
    (first, v - first)

/-- The two parts of `DealWithFees`, runtime/src/lib.rs:219-226: fees and, if any, tips
(`ration_merge_into`). -/
def split (fee : Balance) (tip : Option Balance) : Balance × Balance :=
  let s := ration fee 80 20
  match tip with
  | none => s
  | some t => (s.1 + (ration t 80 20).1, s.2 + (ration t 80 20).2)

/-- `Author::on_unbalanced`, runtime/src/impls.rs:24-30: without an author the imbalance is dropped, i.e.
burnt. -/
def payAuthor (b : Bank) (author : Option AccId) (v : Balance) : Bank :=
  match author with
  | none => b
  | some a => b.depositCreating a v

/-- `DealWithFees::on_unbalanceds`, runtime/src/lib.rs:217-231. The treasury resolves its part by
`resolve_creating`. -/
def dealWithFees (b : Bank) (treasury : AccId) (author : Option AccId) (fee : Balance) (tip : Option Balance) :
    Bank :=
  let s := split fee tip
  payAuthor (b.depositCreating treasury s.1) author s.2

/-- Charging a transaction: `CurrencyAdapter` (runtime/src/lib.rs:539) withdraws fee and tip with
`KeepAlive` and hands both to `DealWithFees`. A later refund of weight is part of `fee`. -/
def charge (b : Bank) (payer treasury : AccId) (author : Option AccId) (fee tip : Balance) : Except BankErr Bank :=
  match b.withdraw payer (fee + tip) true with
  | .error e => .error e
  | .ok b1 => .ok (dealWithFees b1 treasury author fee (some tip))

/-- `EvmDealWithFees`, runtime/src/lib.rs:1337-1343. -/
def evmDealWithFees (b : Bank) (treasury : AccId) (fee : Balance) : Bank := b.depositCreating treasury fee

/-! ### Proxies -/

/-- The pallets of `construct_runtime!` with calls, runtime/src/lib.rs:1551-1624. -/
inductive Pallet where
  | system | scheduler | preimage | babe | timestamp | indices | balances | staking | session | grandpa
  | imOnline | democracy | council | technicalCommittee | elections | technicalMembership | treasury | credit
  | vesting | utility | identity | proxy | multisig | bounties | tips | contracts | sudo | society | recovery
  | assets | lottery | childBounties | uniques | micropayment | deeperNode | creditAccumulation | ethereum
  | evm | baseFee | dynamicFee | operation | userPrivileges | adsc | txPause
deriving DecidableEq, Repr

/-- `ProxyType`, runtime/src/lib.rs:352-357. -/
inductive ProxyType where
  | any | nonTransfer | governance | staking
deriving DecidableEq, Repr

/-- `RuntimeCall`. Calls which the filters and the dispatch of proxied calls treat specially have their own
constructors; `plain` is any other call (`n` its number) of a pallet. -/
inductive Call where
  | plain (p : Pallet) (n : Nat)
  /-- `Vesting::vested_transfer` -/
  | vestedTransfer
  /-- `Indices::transfer` -/
  | indicesTransfer
  /-- `Utility::batch`, `batch_all`, `force_batch` -/
  | batch (l : List Call)
  /-- `Utility::as_derivative` -/
  | asDerivative (i : Nat) (c : Call)
  /-- `Proxy::add_proxy` -/
  | addProxy (t : ProxyType)
  /-- `Proxy::remove_proxy` -/
  | removeProxy (t : ProxyType)
  /-- `Proxy::remove_proxies` -/
  | removeProxies
  /-- `Proxy::kill_pure` -/
  | killPure

/-- The pallet of a call. -/
def Call.pallet : Call → Pallet
  | .plain p _ => p
  | .vestedTransfer => .vesting
  | .indicesTransfer => .indices
  | .batch _ => .utility
  | .asDerivative _ _ => .utility
  | .addProxy _ => .proxy
  | .removeProxy _ => .proxy
  | .removeProxies => .proxy
  | .killPure => .proxy

/-- `ProxyType::filter`, runtime/src/lib.rs:364-385. -/
def ProxyType.filter (t : ProxyType) (c : Call) : Bool :=
  match t with
  | .any => true
  | .nonTransfer => !(match c with
    | .vestedTransfer => true
    | .indicesTransfer => true
    | c => decide (c.pallet = .balances))
  | .governance => [Pallet.democracy, .council, .society, .technicalCommittee, .elections, .treasury].contains c.pallet
  | .staking => decide (c.pallet = .staking)

/-- `ProxyType::is_superset`, runtime/src/lib.rs:386-394. -/
def ProxyType.isSuperset (t o : ProxyType) : Bool :=
  if t = o then true
  else match t, o with
    | .any, _ => true
    | _, .any => false
    | .nonTransfer, _ => true
    | _, _ => false

/-- The filter `do_proxy` of pallet-proxy (trusted) adds to the origin of the represented account; the default
type is `Any`, runtime/src/lib.rs:358-362. -/
def proxyFilter (t : ProxyType) (c : Call) : Bool :=
  match c with
  | .addProxy o => if t.isSuperset o then t.filter c else false
  | .removeProxy o => if t.isSuperset o then t.filter c else false
  | .removeProxies => if t = .any then t.filter c else false
  | .killPure => if t = .any then t.filter c else false
  | c => t.filter c

/-- A signed origin with the filters it carries. -/
structure Origin where
  who : AccId
  filters : List (Call → Bool)

/-- `filter_call`. -/
def Origin.allows (o : Origin) (c : Call) : Bool := o.filters.all fun f => f c

mutual
/-- The calls that may be run, with the account they run for, when a call is dispatched: filtered calls are
not run, the calls of pallet-utility (trusted) dispatch their arguments with the same filters, `as_derivative`
with another account. Calls that start from a fresh origin (`Proxy::proxy`, `Multisig::as_multi`,
`Recovery::as_recovered`, `Scheduler`) count as ending here. -/
def executed (derive : AccId → Nat → AccId) (o : Origin) (c : Call) : List (AccId × Call) :=
  match c with
  | .batch l => if o.allows (.batch l) then (o.who, .batch l) :: executedAll derive o l else []
  | .asDerivative i c =>
    if o.allows (.asDerivative i c) then
      (o.who, .asDerivative i c) :: executed derive { o with who := derive o.who i } c
    else []
  | c => if o.allows c then [(o.who, c)] else []

def executedAll (derive : AccId → Nat → AccId) (o : Origin) (l : List Call) : List (AccId × Call) :=
  match l with
  | [] => []
  | c :: l => executed derive o c ++ executedAll derive o l
end

/-- The origin `do_proxy` dispatches with. -/
def proxied (real : AccId) (t : ProxyType) : Origin := ⟨real, [proxyFilter t]⟩

/-! ### Precompiles -/

/-- `used_addresses`, runtime/src/precompiles.rs:27-32; `hash` is the number itself. -/
def usedAddresses : List Nat := [1, 2, 3, 4, 5, 6, 7, 8, 9, 10, 1024, 1025, 1026, 1027, 1028, 1029]

/-- `is_precompile`, runtime/src/precompiles.rs:66-71. -/
def isPrecompile (a : Nat) : Bool := usedAddresses.contains a

inductive Precompile where
  | ecRecover | sha256 | ripemd160 | identity | modexp | bn128Add | bn128Mul | bn128Pairing | blake2F
  | sha3Fips256 | ecRecoverPublicKey | dispatch | curve25519Add | curve25519ScalarMul | ed25519Verify | credit
deriving DecidableEq, Repr

/-- The arms of the `match` in `execute`, runtime/src/precompiles.rs:42-62. -/
def arms : List (Nat × Precompile) :=
  [(1, .ecRecover), (2, .sha256), (3, .ripemd160), (4, .identity), (5, .modexp), (6, .bn128Add), (7, .bn128Mul),
   (8, .bn128Pairing), (9, .blake2F), (1024, .sha3Fips256), (1025, .ecRecoverPublicKey), (1026, .dispatch),
   (1027, .curve25519Add), (1028, .curve25519ScalarMul), (1029, .ed25519Verify), (1030, .credit)]

/-- The precompile `execute` runs for a code address, runtime/src/precompiles.rs:40-64: the first arm that
fits. -/
def execute (a : Nat) : Option Precompile := (arms.find? fun x => decide (a = x.1)).map (·.2)

end Verif.Runtime
