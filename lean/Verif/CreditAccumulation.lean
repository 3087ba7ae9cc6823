import Verif.Credit
import Verif.Bytes

/-
Model of pallets/credit-accumulation/src/lib.rs: traffic reports signed by the Atmos server.
The credit pallet it calls is the model of `Verif.Credit`.
-/

namespace Verif.CreditAccumulation

/-- Cryptography is external: an arbitrary hash and an arbitrary verification predicate. -/
structure Crypto where
  /-- `sp_io::hashing::blake2_256` -/
  blake : List Nat → List Nat
  /-- `sr25519_verify signature message public_key`; the signature is the byte string of the call,
  replaced by 64 zero bytes if it has the wrong length (lib.rs:193, 199-201) -/
  verify : List Nat → List Nat → List Nat → Bool

/-- Storage of the pallet (lib.rs:80-91) together with the credit pallet. -/
structure State where
  credit : Credit.State
  nonce : FMap AccId Nat := ∅
  key : Option AccId := none
  tmpKey : Option AccId := none

/-- Encoding of an account id: 32 bytes. -/
def encodeAccount (a : AccId) : List Nat := toBE 32 a

/-- The signed bytes, lib.rs:194-197. -/
def message (key : AccId) (nonce : Nat) (sender : AccId) : List Nat :=
  encodeAccount key ++ toBE 8 nonce ++ encodeAccount sender

/-- `Signature::from_slice(..).unwrap_or([0; 64])`, lib.rs:193, 201. -/
def sigBytes (sig : List Nat) : List Nat := if sig.length = 64 then sig else List.replicate 64 0

/-- `do_verify`, lib.rs:184-207. -/
def doVerify (cr : Crypto) (nonce : Nat) (sig : List Nat) (sender key : AccId) : Bool :=
  cr.verify (sigBytes sig) (cr.blake (message key nonce sender)) (encodeAccount key)

/-- `verify_atomos_signature`, lib.rs:159-172; an unset key is the zero account. -/
def verifySignature (cr : Crypto) (s : State) (nonce : Nat) (sig : List Nat) (sender : AccId) : Bool :=
  doVerify cr nonce sig sender (s.key.getD 0) || doVerify cr nonce sig sender (s.tmpKey.getD 0)

/-- `verify_atomos_new_signature`, lib.rs:174-182. -/
def verifyNewSignature (cr : Crypto) (s : State) (nonce : Nat) (sig : List Nat) (sender : AccId) : Bool :=
  doVerify cr nonce sig sender (s.key.getD 0)

inductive Op where
  /-- `add_credit_by_traffic` -/
  | report (a : AccId) (nonce : Nat) (sig : List Nat)
  /-- `set_atmos_pubkey`; `root`: the origin is root -/
  | setKey (root : Bool) (k : AccId)
  /-- `set_atmos_tmp_pubkey` -/
  | setTmpKey (root : Bool) (k : AccId)
  /-- anything else that happens to the credit pallet -/
  | credit (op : Credit.Op)

inductive Out where
  | accepted (raised : Bool)
  | invalidNonce
  | invalidSignature
  | panicked
  | badOrigin
  | done
deriving DecidableEq, Repr

/-- Result of the credit update of an accepted report, lib.rs:131 (`update_credit_by_traffic` returns
nothing; a panic aborts the block). -/
def reportOut : Credit.Out → Out
  | .flag b => .accepted b
  | _ => .panicked

/-- One call. `add_credit_by_traffic` is lib.rs:115-133; the `u64` increment at 130 wraps in the
release build. `set_atmos_pubkey` is lib.rs:137-144, `set_atmos_tmp_pubkey` lib.rs:148-155. -/
def step (cfg : Credit.Cfg) (cr : Crypto) (s : State) : Op → State × Out
  | .report a nonce sig =>
    let expected := (s.nonce.get a).getD 0
    if nonce ≠ expected then (s, .invalidNonce)
    else if !verifySignature cr s nonce sig a then (s, .invalidSignature)
    else
      let c := Credit.step cfg s.credit (.traffic a)
      ({ s with nonce := s.nonce.insert a ((expected + 1) % 2 ^ 64), credit := c.1 }, reportOut c.2)
  | .setKey root k => if !root then (s, .badOrigin) else ({ s with key := some k }, .done)
  | .setTmpKey root k => if !root then (s, .badOrigin) else ({ s with tmpKey := some k }, .done)
  | .credit op => ({ s with credit := (Credit.step cfg s.credit op).1 }, .done)

/-- A history: final state and every call with the state before it and its result. -/
def run (cfg : Credit.Cfg) (cr : Crypto) (s : State) : List Op → State × List (State × Op × Out)
  | [] => (s, [])
  | op :: ops =>
    let r := step cfg cr s op
    let t := run cfg cr r.1 ops
    (t.1, (s, op, r.2) :: t.2)

end Verif.CreditAccumulation
