import Verif.Micropayment

/-
Vocabulary of the micropayment properties: everything the theorem statements in
`MicropaymentProperties.lean` mention besides the calls themselves.
-/

namespace Verif.Micropayment

/-- Sum of the balances of the channels `c` has open as client (the specification of the reported
total). -/
def escrow (s : State) (c : AccId) : Balance :=
  s.chans.sum (fun k ch => if k.1 = c then ch.balance else 0)

/-- Sum of all channel balances. -/
def escrowAll (s : State) : Balance := s.chans.sum (fun _ ch => ch.balance)

/-- All money: account balances plus channel balances. -/
def wealth (s : State) : Balance := s.bank.sumAll + escrowAll s

/-- Session ids of the payments made on channel (client, server) with a given nonce, oldest
first. -/
def paidSessions (evs : List Event) (c srv : AccId) (n : Nat) : List (BitVec 32) :=
  evs.filterMap (fun e => match e with
    | .claimPayment c' srv' n' ses _ => if c' = c ∧ srv' = srv ∧ n' = n then some ses else none
    | _ => none)

/-- The channel with the given ends, if open. -/
def channel (s : State) (c srv : AccId) : Option Chan := s.chans.get (c, srv)

/-- The signature that is checked: the given one if it has 64 bytes, otherwise 64 zeros. -/
def presented (sig : List Nat) : List Nat := if sig.length = 64 then sig else List.replicate 64 0

/-- What a client signs: the server (32 bytes), the nonce (8 bytes) and the session (4 bytes) with the highest byte
first, and the amount (16 bytes) with the lowest byte first. -/
def voucher (srv : AccId) (nonce : Nat) (session : BitVec 32) (amount : Balance) : List Nat :=
  toBE 32 srv ++ toBE 8 nonce ++ toBE 4 session.toNat ++ toLE 16 amount

/-- States the pallet can be in: reached from empty storage by any history. -/
def Reachable (cfg : Config) (s : State) : Prop :=
  ∃ b n e ops, s = (run cfg (genesis b n e) ops).1

/-- `P` holds in every state visited by the history, including first and last. -/
def Always (cfg : Config) (P : State → Prop) : State → List Op → Prop
  | s, [] => P s
  | s, op :: ops => P s ∧ Always cfg P (step cfg s op).1 ops

end Verif.Micropayment
