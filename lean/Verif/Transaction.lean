import Verif.Basic

/-
Signed transactions as the runtime accepts them: the extensions of `SignedExtra`
(runtime/src/lib.rs:1664-1675), the lifetime ("era") of a transaction, the table of recent block
hashes (`BlockHashCount`, runtime/src/lib.rs:247, 289), the account nonces (primitives/src/lib.rs:52),
and the transactions which the node itself makes (`create_transaction`, runtime/src/lib.rs:970-1016).

From the libraries (sp-runtime `generic::Era`, frame-system `CheckGenesis`, `CheckEra`, `CheckNonce`,
`Pallet::initialize`, `Pallet::finalize`, pallet-indices `lookup`): these are part of the trusted base.
-/

namespace Verif.Transaction

/-- `generic::Era` (library), the type in `CheckEra`, runtime/src/lib.rs:1000 and 1670. -/
inductive Era where
  | immortal
  | mortal (period phase : Nat)
deriving DecidableEq, Repr

/-- The factor by which phases are rounded, library `Era`, used from runtime/src/lib.rs:995. -/
def quant (period : Nat) : Nat := max (period / 4096) 1

/-- `u64::checked_next_power_of_two`, runtime/src/lib.rs:986: the least power of two that is not less
than `n`, computed from the highest bit of `n - 1`. -/
def nextPow2 (n : Nat) : Nat := if n ≤ 1 then 1 else 2 ^ (Nat.log2 (n - 1) + 1)

/-- `Era::mortal(period, current)` (library), called at runtime/src/lib.rs:995. An overflow of
`checked_next_power_of_two` gives 2^16, as does the clamping of any larger power of two. -/
def Era.new (period current : Nat) : Era :=
  let p := min 65536 (max 4 (nextPow2 period))
  .mortal p (current % p / quant p * quant p)

/-- `Era::birth` (library): the block whose hash is signed, runtime/src/lib.rs:1000, 1007, 1670. -/
def Era.birth : Era → Nat → Nat
  | .immortal, _ => 0
  | .mortal period phase, current => (max current phase - phase) / period * period + phase

/-- `u64::trailing_zeros` with fuel, used by the encoding of an era (library). -/
def trailingZeros : Nat → Nat → Nat
  | 0, _ => 0
  | f + 1, n => if n % 2 = 1 then 0 else trailingZeros f (n / 2) + 1

/-- `Encode for Era` (library): one byte 0, or 16 bits, low byte first; the form in which an era is
part of the bytes of a transaction, runtime/src/lib.rs:1664-1679. The two operands of the `|` have no
bits in common, so that it is a sum. -/
def Era.encode : Era → List Nat
  | .immortal => [0]
  | .mortal period phase =>
    let e := (min 15 (max 1 (trailingZeros 64 period - 1)) + phase / quant period * 16) % 65536
    [e % 256, e / 256]

/-- `Decode for Era` (library): the era and the remaining bytes. -/
def Era.decode : List Nat → Option (Era × List Nat)
  | [] => none
  | b :: r =>
    if b = 0 then some (.immortal, r)
    else match r with
      | [] => none
      | b1 :: r' =>
        let e := b + b1 * 256
        let period := 2 * 2 ^ (e % 16)
        let phase := e / 16 * quant period
        if 4 ≤ period ∧ phase < period then some (.mortal period phase, r') else none

/-- `Address = MultiAddress<AccountId, AccountIndex>`, runtime/src/lib.rs:1651; the three other forms
are never found by the lookup. -/
inductive Address where
  | id (a : AccId)
  | index (i : Nat)
  | other
deriving DecidableEq, Repr

/-- A signed transaction: address, signature, the extensions with data (`CheckEra`, `CheckNonce`,
tip of `ChargeTransactionPayment`) and the call, runtime/src/lib.rs:1664-1679. -/
structure Tx where
  addr : Address
  sig : Nat
  era : Era
  nonce : Nat
  tip : Nat
  call : Nat
deriving DecidableEq, Repr

/-- What is signed: `SignedPayload`, runtime/src/lib.rs:1676, the call, the data of the extensions and
what they add (`additional_signed`): versions of the runtime, hash of the first block, hash of the
block in which the era begins. -/
structure Payload where
  call : Nat
  era : Era
  nonce : Nat
  tip : Nat
  spec : Nat
  txVersion : Nat
  genesis : Nat
  birthHash : Nat
deriving DecidableEq, Repr

structure Cfg where
  /-- `BlockHashCount`, runtime/src/lib.rs:247 -/
  hashCount : Nat
  /-- number of values of `Nonce`, primitives/src/lib.rs:52 -/
  nonces : Nat
  /-- `Verify for MultiSignature`, primitives/src/lib.rs:38-39: is this a signature of the account
  under the payload -/
  verify : Payload → AccId → Nat → Bool

/-- What the checks look at. -/
structure State where
  /-- `System::block_number` -/
  number : Nat := 0
  /-- `System::block_hash`, the table of recent block hashes -/
  hashes : FMap Nat Nat := ∅
  /-- `System::account_nonce` -/
  nonce : FMap AccId Nat := ∅
  /-- `Indices::accounts`, runtime/src/lib.rs:478-484 -/
  index : FMap Nat AccId := ∅
  /-- `VERSION.spec_version`, `VERSION.transaction_version`, runtime/src/lib.rs:178-194 -/
  spec : Nat := 0
  txVersion : Nat := 0

/-- `Indices::lookup` (library), `type Lookup`, runtime/src/lib.rs:287. -/
def lookup (s : State) : Address → Option AccId
  | .id a => some a
  | .index i => s.index.get i
  | .other => none

/-- Why a transaction is not accepted. -/
inductive Why where
  | lookup | ancient | badProof | badSigner | stale | future | refused
deriving DecidableEq, Repr

/-- `SignedPayload::new`, used at runtime/src/lib.rs:1007 and in the check of every signed
transaction: fails when the hash of the first block of the era is not in the table. -/
def payload (s : State) (call : Nat) (era : Era) (nonce tip : Nat) : Option Payload :=
  match s.hashes.get (era.birth s.number) with
  | none => none
  | some h => some ⟨call, era, nonce, tip, s.spec, s.txVersion, (s.hashes.get 0).getD 0, h⟩

/-- The checks of `SignedExtra` in their order, runtime/src/lib.rs:1664-1675, before them the lookup
and the signature; the state after a transaction was accepted. `ok` stands for the last two
extensions, `CheckWeight` and `ChargeTransactionPayment`: there is room in the block and the fee can be
paid. What the call does is not part of this model; it does not change the tables used here except by
the other operations of `Op`. -/
def apply (cfg : Cfg) (s : State) (t : Tx) (ok : Bool) : Except Why State :=
  match lookup s t.addr with
  | none => .error .lookup
  | some a =>
    match payload s t.call t.era t.nonce t.tip with
    | none => .error .ancient
    | some p =>
      if !cfg.verify p a t.sig then .error .badProof
      else if a = 0 then .error .badSigner
      else if t.nonce < (s.nonce.get a).getD 0 then .error .stale
      else if (s.nonce.get a).getD 0 < t.nonce then .error .future
      else if !ok then .error .refused
      else .ok { s with nonce := s.nonce.insert a (((s.nonce.get a).getD 0 + 1) % cfg.nonces) }

inductive Op where
  /-- the block ends (`System::finalize`: the oldest hash is dropped, the one of the first block never)
  and the next begins (`System::initialize` with the hash of its parent) (library) -/
  | block (parent : Nat)
  /-- a signed transaction is to be included -/
  | signed (t : Tx) (ok : Bool)
  /-- another increment of a nonce, e.g. by a transaction of the EVM -/
  | bump (a : AccId)
  /-- the account falls below the existential deposit and is removed, with its nonce -/
  | reap (a : AccId)
  /-- `Indices` calls: an index is given to an account or given back -/
  | setIndex (i : Nat) (a : Option AccId)
  /-- runtime upgrade -/
  | upgrade (spec txVersion : Nat)

inductive Out where
  | executed (a : AccId)
  | rejected (w : Why)
  | done
deriving DecidableEq, Repr

/-- One event on the chain; for the transaction the account in whose name it is executed,
runtime/src/lib.rs:1664-1682 (`CheckedExtrinsic`). -/
def step (cfg : Cfg) (s : State) : Op → State × Out
  | .block parent =>
    let r := s.number - cfg.hashCount - 1
    let hs := if r = 0 then s.hashes else s.hashes.erase r
    ({ s with number := s.number + 1, hashes := hs.insert s.number parent }, .done)
  | .signed t ok =>
    match apply cfg s t ok with
    | .ok s' => (s', .executed ((lookup s t.addr).getD 0))
    | .error w => (s, .rejected w)
  | .bump a =>
    ({ s with nonce := s.nonce.insert a (((s.nonce.get a).getD 0 + 1) % cfg.nonces) }, .done)
  | .reap a => ({ s with nonce := s.nonce.erase a }, .done)
  | .setIndex i a => ({ s with index := s.index.set i a }, .done)
  | .upgrade v w => ({ s with spec := v, txVersion := w }, .done)

/-- A piece of the chain's history. -/
def run (cfg : Cfg) (s : State) : List Op → State
  | [] => s
  | o :: os => run cfg (step cfg s o).1 os

/-- The state before the first block is built: the table of hashes holds a placeholder for block 0
(library `GenesisConfig::build` of frame-system). -/
def genesis (placeholder : Nat) : State := { hashes := (∅ : FMap Nat Nat).insert 0 placeholder }

/-- `create_transaction`, runtime/src/lib.rs:974-1015: a transaction of the node itself, without tip,
for a call and a nonce. `sign` is the keystore (`None` when it does not have the key); the address is
`Indices::unlookup`, the account itself. -/
def create (cfg : Cfg) (sign : AccId → Payload → Option Nat) (s : State) (call : Nat) (a : AccId)
    (nonce : Nat) : Option Tx :=
  let period := nextPow2 cfg.hashCount / 2
  let era := Era.new period (s.number - 1)
  match payload s call era nonce 0 with
  | none => none
  | some p =>
    match sign a p with
    | none => none
    | some sg => some ⟨.id a, sg, era, nonce, 0, call⟩

end Verif.Transaction
