import Verif.Basic
import Verif.Bytes

/-
Model of the user-privileges pallet (pallets/user-privileges/src/lib.rs) and of the privilege set
type (primitives/src/user_privileges.rs).

EVM addresses (`H160`) are modelled by natural numbers.  The origin check `T::ForceOrigin` is an
arbitrary predicate on origins.  Events are not modelled.
-/

namespace Verif.UserPrivileges

/-- primitives/src/user_privileges.rs:25-50, `enum Privilege`. -/
inductive Privilege where
  | lockerMember | releaseSetter | evmAddressSetter | evmCreditOperation | npowMint | creditAdmin
  | tipPayer | bridgeAdmin | oracleWorker | deviceAdmin | blackListAdmin | adstAdmin
deriving DecidableEq, Repr

/-- The position of the bit of each flag (`1 << i`), primitives/src/user_privileges.rs:25-50. -/
def Privilege.bit : Privilege → Nat
  | .lockerMember => 0
  | .releaseSetter => 1
  | .evmAddressSetter => 2
  | .evmCreditOperation => 3
  | .npowMint => 4
  | .creditAdmin => 5
  | .tipPayer => 6
  | .bridgeAdmin => 7
  | .oracleWorker => 8
  | .deviceAdmin => 9
  | .blackListAdmin => 10
  | .adstAdmin => 11

/-- `Privileges(BitFlags<Privilege>)`, primitives/src/user_privileges.rs:54: a `u64` of flags. -/
abbrev Flags := BitVec 64

/-- `BitFlags::from_flag` / `Privilege::into`. -/
def flag (p : Privilege) : Flags := 1#64 <<< p.bit

/-- `BitFlags::contains(p)` = all bits of `p` are in the set. -/
def containsFlag (f : Flags) (p : Privilege) : Bool := f &&& flag p == flag p

/-- `BitFlags::remove(p)`. -/
def removeFlag (f : Flags) (p : Privilege) : Flags := f &&& ~~~ flag p

/-- `BitFlags::ALL`: union of all flags of the enum. -/
def allBits : Flags := 0xFFF#64

/-- `impl Encode for Privileges`, primitives/src/user_privileges.rs:63-67: the `u64` little endian. -/
def encode (f : Flags) : List Nat := toLE 8 f.toNat

/-- `impl Decode for Privileges`, primitives/src/user_privileges.rs:71-78: reads a `u64`
(fails on short input), then `BitFlags::from_bits`, which rejects words with undefined bits.
Returns the value and the unread input. -/
def decode (input : List Nat) : Option (Flags × List Nat) :=
  if input.length < 8 then none
  else
    let w : Flags := BitVec.ofNat 64 (ofLE (input.take 8))
    if w &&& ~~~ allBits == 0#64 then some (w, input.drop 8) else none

/-- pallets/user-privileges/src/lib.rs:41-45, `enum Releases`. -/
inductive Releases where
  | v1 | v2
deriving DecidableEq, Repr

/-- Storage of the pallet, pallets/user-privileges/src/lib.rs:78-90. -/
structure State where
  users : FMap AccId Flags := ∅
  evms : FMap Nat Flags := ∅
  version : Option Releases := none

/-- The origin of a call. -/
inductive Origin where
  | root
  | signed (a : AccId)
deriving DecidableEq, Repr

/-- pallets/user-privileges/src/lib.rs:70-76. `badOrigin` is the dispatch error of a failed origin
check. -/
inductive Err where
  | badOrigin | notExistPrivilege | noPermission
deriving DecidableEq, Repr

/-- `has_privilege`, pallets/user-privileges/src/lib.rs:266-272. -/
def hasPrivilege (s : State) (a : AccId) (p : Privilege) : Bool :=
  match s.users.get a with
  | none => false
  | some f => containsFlag f p

/-- `has_evm_privilege`, pallets/user-privileges/src/lib.rs:274-280. -/
def hasEvmPrivilege (s : State) (a : Nat) (p : Privilege) : Bool :=
  match s.evms.get a with
  | none => false
  | some f => containsFlag f p

/-- New flag word of `set_*_privilege`, pallets/user-privileges/src/lib.rs:157-162 and 217-222. -/
def granted (old : Option Flags) (p : Privilege) : Flags :=
  match old with
  | some f => f ||| flag p
  | none => flag p

/-- Calls of the pallet, pallets/user-privileges/src/lib.rs:144-262. -/
inductive Op where
  | setUser (who : AccId) (p : Privilege)
  | unsetUser (who : AccId) (p : Privilege)
  | clearUser (who : AccId)
  | setEvm (who : Nat) (p : Privilege)
  | unsetEvm (who : Nat) (p : Privilege)
  | clearEvm (who : Nat)
deriving DecidableEq, Repr

/-- `ensure_signed` followed by the check of `EvmAddressSetter`,
pallets/user-privileges/src/lib.rs:212-216, 235-239, 255-259. -/
def evmCheck (s : State) : Origin → Option Err
  | .root => some .badOrigin
  | .signed a => if hasPrivilege s a .evmAddressSetter then none else some .noPermission

/-- The dispatchables, pallets/user-privileges/src/lib.rs:148-262. -/
def dispatch (force : Origin → Bool) (s : State) (o : Origin) : Op → Except Err State
  | .setUser who p =>
    if !force o then .error .badOrigin
    else .ok { s with users := s.users.insert who (granted (s.users.get who) p) }
  | .unsetUser who p =>
    if !force o then .error .badOrigin
    else match s.users.get who with
      | none => .error .notExistPrivilege
      | some f => .ok { s with users := s.users.insert who (removeFlag f p) }
  | .clearUser who =>
    if !force o then .error .badOrigin
    else .ok { s with users := s.users.erase who }
  | .setEvm who p =>
    match evmCheck s o with
    | some e => .error e
    | none => .ok { s with evms := s.evms.insert who (granted (s.evms.get who) p) }
  | .unsetEvm who p =>
    match evmCheck s o with
    | some e => .error e
    | none => match s.evms.get who with
      | none => .error .notExistPrivilege
      | some f => .ok { s with evms := s.evms.insert who (removeFlag f p) }
  | .clearEvm who =>
    match evmCheck s o with
    | some e => .error e
    | none => .ok { s with evms := s.evms.erase who }

/-- One extrinsic: an error leaves the storage as it was. -/
def step (force : Origin → Bool) (s : State) (c : Origin × Op) : State :=
  match dispatch force s c.1 c.2 with
  | .ok s' => s'
  | .error _ => s

/-- A history of extrinsics. -/
def run (force : Origin → Bool) (s : State) : List (Origin × Op) → State
  | [] => s
  | c :: cs => run force (step force s c) cs

/-- The values of other pallets' former storage items the migration reads
(pallets/user-privileges/src/lib.rs:99-103, 112-113, 124-125, 129-130). -/
structure Legacy where
  lockers : Option (List AccId)
  setter : Option AccId
  tipPayer : Option AccId
  creditAdmin : Option AccId

/-- Overwrite the privileges of an optional account by a single flag. -/
def overwrite (m : FMap AccId Flags) (a : Option AccId) (p : Privilege) : FMap AccId Flags :=
  match a with
  | none => m
  | some a => m.insert a (flag p)

/-- `on_runtime_upgrade`, pallets/user-privileges/src/lib.rs:93-141. -/
def migrate (s : State) (l : Legacy) : State :=
  match s.version with
  | none =>
    let m := (l.lockers.getD []).foldl (fun m a => m.insert a (flag .lockerMember)) s.users
    { s with users := overwrite m l.setter .releaseSetter, version := some .v1 }
  | some .v1 =>
    let m := overwrite s.users l.tipPayer .tipPayer
    { s with users := overwrite m l.creditAdmin .creditAdmin, version := some .v2 }
  | some .v2 => s

end Verif.UserPrivileges
