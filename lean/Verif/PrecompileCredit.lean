import Verif.Credit
import Verif.Bytes

/-
The precompiled contract for credit scores, pallets/precompile-credit/src/lib.rs, on top of the model of the
credit pallet.  Call data is a list of bytes, addresses are numbers below 2^160.

A failing precompile call has no effect: the EVM runs it in a storage transaction (trusted).
-/

namespace Verif.PrecompileCredit

open Verif.Credit (Cfg State Fail)

/-- What the precompile sees of the EVM: `context().caller`, `context().apparent_value`, `is_static()` and
the gas left. -/
structure Context where
  caller : Nat
  value : Nat
  isStatic : Bool
  gas : Nat
deriving DecidableEq, Repr

/-- Gas costs of the three functions, lib.rs:117, 130-131, 142-143 (weights of database accesses). -/
structure Gas where
  get : Nat
  add : Nat
  slash : Nat

inductive Outcome where
  | returned (output : List Nat)
  /-- `ExitError::Other` -/
  | error
  /-- `revert` -/
  | reverted
  | outOfGas
  | panicked
deriving DecidableEq, Repr

/-- `BASIC_LEN`, lib.rs:38. -/
def basicLen : Nat := 4 + 32

/-- Selectors, lib.rs:39-41. -/
def selectorGet : Nat := 0x87135d7d
def selectorAdd : Nat := 0x5915ad98
def selectorSlash : Nat := 0xa62184b3

/-- The word of the input at an offset (`array_ref!`, big-endian). -/
def word (input : List Nat) (offset len : Nat) : Nat := ofBE ((input.drop offset).take len)

inductive Modifier where
  | view | nonPayable | payable
deriving DecidableEq, Repr

/-- `check_function_modifier`, util.rs:306-321. -/
def checkModifier (ctx : Context) (m : Modifier) : Bool :=
  if ctx.isStatic = true ∧ m ≠ .view then false
  else if m ≠ .payable ∧ ctx.value > 0 then false
  else true

/-- `get_credit_score`, lib.rs:101-125. -/
def getScore (g : Gas) (s : State) (ctx : Context) (input : List Nat) : Outcome :=
  if input.length < basicLen then .error
  else if checkModifier ctx .view = false then .reverted
  else if ctx.gas < g.get then .outOfGas
  else .returned (toBE 32 ((Credit.evmCreditScore s (word input (basicLen - 20) 20)).getD 0))

/-- `do_update_credit`, lib.rs:152-177, and the gas of `add_credit_score` and `slash_credit_score`,
lib.rs:127-150. The result of `evm_update_credit` is ignored. -/
def update (cfg : Cfg) (cost : Nat) (s : State) (ctx : Context) (input : List Nat) (add : Bool) :
    State × Outcome :=
  if input.length < basicLen + 32 then (s, .error)
  else if checkModifier ctx .nonPayable = false then (s, .reverted)
  else
    match Credit.evmUpdateCredit cfg s ctx.caller (word input (basicLen - 20) 20)
        (word input basicLen 32 % 2 ^ 64) add with
    | .error _ => (s, .panicked)
    | .ok (c, _) => if ctx.gas < cost then (s, .outOfGas) else ({ s with core := c }, .returned [])

/-- `execute`, lib.rs:68-91. -/
def execute (cfg : Cfg) (g : Gas) (s : State) (ctx : Context) (input : List Nat) : State × Outcome :=
  if input.length < basicLen then (s, .error)
  else
    let sel := word input 0 4
    if sel = selectorGet then (s, getScore g s ctx input)
    else if sel = selectorAdd then update cfg g.add s ctx input true
    else if sel = selectorSlash then update cfg g.slash s ctx input false
    else (s, .error)

/-- How a contract reaches the precompile. -/
inductive CallKind where
  | call | staticcall | delegatecall
deriving DecidableEq, Repr

/-- The context the EVM builds for a call out of a contract `self` that itself runs in context `ctx`:
a delegate call keeps caller and value of the contract (EVM semantics, trusted). -/
def inner (ctx : Context) (self value : Nat) : CallKind → Context
  | .call => { ctx with caller := self, value := value }
  | .staticcall => { ctx with caller := self, value := 0, isStatic := true }
  | .delegatecall => ctx

end Verif.PrecompileCredit
