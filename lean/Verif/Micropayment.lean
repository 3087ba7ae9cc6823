import Verif.Bank
import Verif.Bytes

/-
Model of pallets/micropayment/src/lib.rs (whole pallet).
-/

namespace Verif.Micropayment

/-- `Chan`, lib.rs:98-107. `nonce: u64` and block numbers are unbounded naturals. -/
structure Chan where
  client : AccId
  server : AccId
  balance : Balance
  nonce : Nat
  opened : Nat
  expiration : Nat
deriving DecidableEq, Repr

/-- Pallet constants and external services (lib.rs:53-76 `Config`; values at
runtime/src/lib.rs:1213-1215, 1243-1255). -/
structure Config where
  /-- `SecsPerBlock` -/
  secsPerBlock : Nat
  /-- `MicropaymentBurn`, in percent -/
  burnPercent : Nat
  /-- account credited by `Slash = Treasury` -/
  treasury : AccId
  /-- `blake2_256`, an arbitrary function -/
  hash : List Nat → List Nat
  /-- `sr25519_verify signature message public_key`, an arbitrary predicate -/
  sigVerify : List Nat → List Nat → List Nat → Bool

/-- Storage of the pallet (lib.rs:131-160) together with the parts of the chain state it reads:
block number, `NodeInterface::get_eras_offline` and the balances. -/
structure State where
  block : Nat
  /-- `Channel`, keyed by (client, server) -/
  chans : FMap (AccId × AccId) Chan
  /-- `Nonce` (`ValueQuery`, default 0) -/
  nonces : FMap (AccId × AccId) Nat
  /-- `SessionId`, `u32` -/
  sessions : FMap (AccId × AccId) (BitVec 32)
  /-- `TotalMicropaymentChannelBalance` -/
  totals : FMap AccId Balance
  /-- `T::NodeInterface::get_eras_offline` -/
  erasOffline : AccId → Nat
  bank : Bank

/-- lib.rs:182-197 plus the errors of the currency. -/
inductive Err where
  | notEnoughBalance
  | channelNotExist
  | channelAlreadyOpened
  | unexpiredChannelCannotBeClosedBySender
  | sameChannelEnds
  | sessionError
  | invalidSignature
  | bank (e : BankErr)
  /-- not an error of the code: the schedule argument is not an iteration order -/
  | badSchedule
deriving DecidableEq, Repr

/-- lib.rs:167-179 (the fields used by the properties). -/
inductive Event where
  | channelOpened (client server : AccId) (amount : Balance) (nonce : Nat)
  | channelClosed (client server : AccId)
  | claimPayment (client server : AccId) (nonce : Nat) (session : BitVec 32) (amount : Balance)
  | balanceAdded (client server : AccId) (amount : Balance)
deriving DecidableEq, Repr

/-- `Nonce::get`, lib.rs:147 (`ValueQuery`). -/
def nonceOf (s : State) (c srv : AccId) : Nat := (s.nonces.get (c, srv)).getD 0

/-- `_close_channel`, lib.rs:467-474. -/
def closeRaw (s : State) (c srv : AccId) : State :=
  { s with
    sessions := s.sessions.erase (c, srv)
    chans := s.chans.erase (c, srv)
    nonces := s.nonces.insert (c, srv) (nonceOf s c srv + 1) }

/-- The `TotalMicropaymentChannelBalance::mutate_exists` blocks that lower the total
(lib.rs:275-283, 298-305, 331-338, 399-406, 425-432, 449-456). -/
def lowerTotal (s : State) (c : AccId) (v : Balance) : State :=
  let t := (s.totals.get c).getD 0
  { s with totals := if t > v then s.totals.insert c (t - v) else s.totals.erase c }

/-- Raising the total (lib.rs:241-248 and 369-372; both write `old.unwrap_or_default() + v`). -/
def raiseTotal (s : State) (c : AccId) (v : Balance) : State :=
  { s with totals := s.totals.insert c ((s.totals.get c).getD 0 + v) }

/-- `take_from_account`, lib.rs:523-531. -/
def takeFromAccount (b : Bank) (a : AccId) (v : Balance) : Option Bank :=
  match b.withdraw a v true with
  | .ok b' => some b'
  | .error _ => none

/-- `MicropaymentBurn::get() * amount` (`Percent * Balance`, nearest, ties down), lib.rs:540. -/
def feeOf (cfg : Config) (v : Balance) : Balance := divNearestDown (v * cfg.burnPercent) 100

/-- `deposit_into_account`, lib.rs:535-549. `T::Slash::on_unbalanced` resolves the fee into the
treasury account (`resolve_creating`, i.e. a `deposit_creating`). -/
def depositIntoAccount (cfg : Config) (b : Bank) (a : AccId) (v : Balance) : Except BankErr Bank :=
  match (b.depositCreating a v).withdraw a (feeOf cfg v) true with
  | .error e => .error e
  | .ok b' => .ok (b'.depositCreating cfg.treasury (feeOf cfg v))

/-- Bytes signed by the client: server address, nonce, session id (big endian), amount (SCALE,
little endian); lib.rs:507-517. -/
def voucherBytes (srv : AccId) (nonce : Nat) (session : BitVec 32) (amount : Balance) : List Nat :=
  toBE 32 srv ++ toBE 8 nonce ++ toBE 4 session.toNat ++ toLE 16 amount

/-- `sr25519::Signature::from_slice(..).unwrap_or([0; 64])`, lib.rs:492-497. -/
def normSig (sig : List Nat) : List Nat := if sig.length = 64 then sig else List.replicate 64 0

/-- `verify_signature`, lib.rs:480-504. -/
def verifySignature (cfg : Config) (client srv : AccId) (nonce : Nat) (session : BitVec 32)
    (amount : Balance) (sig : List Nat) : Bool :=
  cfg.sigVerify (normSig sig) (cfg.hash (voucherBytes srv nonce session amount)) (toBE 32 client)

/-- Result of a dispatchable: the storage at the point of return, the events, and the error if it
returned `Err`.  The state is kept also on error because the code mutates storage before failing;
the dispatcher (`step`) rolls it back. -/
structure Res where
  state : State
  events : List Event
  err : Option Err

def Res.fail (s : State) (e : Err) : Res := ⟨s, [], some e⟩

/-- `open_channel`, lib.rs:212-258. -/
def openChannel (cfg : Config) (s : State) (client srv : AccId) (lock : Balance)
    (duration : Nat) : Res :=
  if s.chans.contains (client, srv) then Res.fail s .channelAlreadyOpened
  else if client = srv then Res.fail s .sameChannelEnds
  else
    let nonce := nonceOf s client srv
    let expiration := s.block + duration / cfg.secsPerBlock
    match takeFromAccount s.bank client lock with
    | none => Res.fail s .notEnoughBalance
    | some b =>
      let s1 := { s with
        bank := b
        chans := s.chans.insert (client, srv) ⟨client, srv, lock, nonce, s.block, expiration⟩ }
      ⟨raiseTotal s1 client lock, [.channelOpened client srv lock nonce], none⟩

/-- The refund-and-close sequence shared by lib.rs:275-288, 298-310, 331-343 and 399-412:
lower the total, return the remaining balance to the client, close the channel. -/
def refundAndClose (cfg : Config) (s : State) (client srv : AccId) (ch : Chan) : Res :=
  let s1 := lowerTotal s client ch.balance
  match depositIntoAccount cfg s1.bank client ch.balance with
  | .error e => Res.fail s1 (.bank e)
  | .ok b => ⟨closeRaw { s1 with bank := b } client srv, [.channelClosed client srv], none⟩

/-- `close_channel`, lib.rs:263-320. -/
def closeChannel (cfg : Config) (s : State) (signer acct : AccId) : Res :=
  match s.chans.get (acct, signer) with
  | some ch => refundAndClose cfg s acct signer ch
  | none =>
    match s.chans.get (signer, acct) with
    | some ch =>
      if ch.expiration < s.block ∨ s.erasOffline ch.server ≥ 1 then
        refundAndClose cfg s signer acct ch
      else Res.fail s .unexpiredChannelCannotBeClosedBySender
    | none => Res.fail s .channelNotExist

/-- Servers of the open channels of a client (`Channel::iter_prefix`). -/
def serversOf (s : State) (client : AccId) : List AccId :=
  (s.chans.entries.filter (fun e => decide (e.1.1 = client))).map (fun e => e.1.2)

/-- The loop of `close_expired_channels`, lib.rs:328-345, over the given iteration order. -/
def closeExpiredLoop (cfg : Config) (client : AccId) : List AccId → State → Res
  | [], s => ⟨s, [], none⟩
  | srv :: rest, s =>
    match s.chans.get (client, srv) with
    | none => closeExpiredLoop cfg client rest s
    | some ch =>
      if ch.expiration < s.block then
        let r := refundAndClose cfg s client srv ch
        match r.err with
        | some e => ⟨r.state, r.events, some e⟩
        | none =>
          let r' := closeExpiredLoop cfg client rest r.state
          ⟨r'.state, r.events ++ r'.events, r'.err⟩
      else closeExpiredLoop cfg client rest s

/-- `close_expired_channels`, lib.rs:326-347. Iteration is in hash order, which the caller of the
model chooses (`order`); it must list the client's channels exactly once. -/
def closeExpired (cfg : Config) (s : State) (client : AccId) (order : List AccId) : Res :=
  if order.isPerm (serversOf s client) then closeExpiredLoop cfg client order s
  else Res.fail s .badSchedule

/-- `add_balance`, lib.rs:352-376. -/
def addBalance (s : State) (client srv : AccId) (amount : Balance) : Res :=
  match s.chans.get (client, srv) with
  | none => Res.fail s .channelNotExist
  | some ch =>
    match takeFromAccount s.bank client amount with
    | none => Res.fail s .notEnoughBalance
    | some b =>
      let s1 := { s with
        bank := b
        chans := s.chans.insert (client, srv) { ch with balance := ch.balance + amount } }
      ⟨raiseTotal s1 client amount, [.balanceAdded client srv amount], none⟩

/-- The session check of lib.rs:415-419: the first claim on a channel may use any session id, later
ones must use the successor of the last. -/
def sessionOk (s : State) (client srv : AccId) (session : BitVec 32) : Bool :=
  match s.sessions.get (client, srv) with
  | some x => decide (session = x + 1)
  | none => true

/-- `claim_payment`, lib.rs:381-462. The session counter is a `u32` and `+ 1` wraps in the release
profile (Cargo.toml:14-17 does not enable overflow checks). -/
def claimPayment (cfg : Config) (s : State) (srv client : AccId) (session : BitVec 32)
    (amount : Balance) (sig : List Nat) : Res :=
  match s.chans.get (client, srv) with
  | none => Res.fail s .channelNotExist
  | some ch =>
    if ch.expiration < s.block then refundAndClose cfg s client srv ch
    else if ¬ sessionOk s client srv session then Res.fail s .sessionError
    else if ¬ verifySignature cfg client srv ch.nonce session amount sig then
      Res.fail s .invalidSignature
    else
      let s1 := { s with sessions := s.sessions.insert (client, srv) session }
      if ch.balance < amount then
        let s2 := lowerTotal s1 client ch.balance
        match depositIntoAccount cfg s2.bank srv ch.balance with
        | .error e => Res.fail s2 (.bank e)
        | .ok b =>
          ⟨closeRaw { s2 with bank := b } client srv, [.channelClosed client srv],
            some .notEnoughBalance⟩
      else
        let s2 := { s1 with
          chans := s1.chans.insert (client, srv) { ch with balance := ch.balance - amount } }
        let s3 := lowerTotal s2 client amount
        match depositIntoAccount cfg s3.bank srv amount with
        | .error e => Res.fail s3 (.bank e)
        | .ok b =>
          ⟨{ s3 with bank := b }, [.claimPayment client srv ch.nonce session amount], none⟩

/-- Everything that can happen to the pallet. `external` stands for the rest of the chain: time
passes, servers go on- or offline, and other pallets move balances arbitrarily. -/
inductive Op where
  | openChannel (client srv : AccId) (lock : Balance) (duration : Nat)
  | closeChannel (signer acct : AccId)
  | closeExpired (client : AccId) (order : List AccId)
  | addBalance (client srv : AccId) (amount : Balance)
  | claim (srv client : AccId) (session : BitVec 32) (amount : Balance) (sig : List Nat)
  | external (blocks : Nat) (eras : AccId → Nat) (bank : Bank)

/-- Signer of an operation. -/
def Op.signer : Op → Option AccId
  | .openChannel c _ _ _ => some c
  | .closeChannel s _ => some s
  | .closeExpired c _ => some c
  | .addBalance c _ _ => some c
  | .claim srv _ _ _ _ => some srv
  | .external _ _ _ => none

/-- The body of the call, without the transactional layer. -/
def body (cfg : Config) (s : State) : Op → Res
  | .openChannel c srv l d => openChannel cfg s c srv l d
  | .closeChannel sg a => closeChannel cfg s sg a
  | .closeExpired c o => closeExpired cfg s c o
  | .addBalance c srv a => addBalance s c srv a
  | .claim srv c ses a sig => claimPayment cfg s srv c ses a sig
  | .external n e b =>
    ⟨{ s with block := s.block + n, erasOffline := e, bank := b }, [], none⟩

/-- Dispatch: FRAME runs every extrinsic in a storage transaction which is rolled back (including
events) if the call returns `Err`. -/
def step (cfg : Config) (s : State) (op : Op) : State × List Event :=
  match (body cfg s op).err with
  | none => ((body cfg s op).state, (body cfg s op).events)
  | some _ => (s, [])

/-- Run a history; events oldest first. -/
def run (cfg : Config) : State → List Op → State × List Event
  | s, [] => (s, [])
  | s, op :: ops =>
    let (s1, e1) := step cfg s op
    let (s2, e2) := run cfg s1 ops
    (s2, e1 ++ e2)

/-- Empty pallet storage. -/
def genesis (b : Bank) (block : Nat) (eras : AccId → Nat) : State :=
  { block := block, chans := ∅, nonces := ∅, sessions := ∅, totals := ∅, erasOffline := eras,
    bank := b }

end Verif.Micropayment
