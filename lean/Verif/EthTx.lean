import Verif.Basic
import Mathlib.Data.List.Nodup
import Mathlib.Data.List.Induction

/-
Ethereum transactions inside the blocks of the chain: how they enter, in whose name they are executed, and what the Ethereum view of a
block shows.

Of the repository: the `SelfContainedCall` of the runtime (runtime/src/lib.rs:1745-1800), the conversion of Ethereum transactions to
extrinsics (1626-1650, 2325-2331), `extrinsic_filter` (2294-2302) and `pending_block` (2308-2322). Trusted base (libraries, forks of
Frontier and of FRAME, not part of the repository): `fp_self_contained::UncheckedExtrinsic::check`, `CheckedExtrinsic::apply`, and of
pallet-ethereum that `transact` asks for the origin of an Ethereum transaction, is checked against the nonce of its signer, raises it and
is listed in the Ethereum block.

Simplifications: the contents of a transaction are its nonce and a number; what it executes inside the EVM is left out except for the
calls it makes back into the runtime (precompile 1026, runtime/src/precompiles.rs:56); `fits` stands for the other conditions (gas, fee,
room), which may depend on the state.
-/

namespace Verif.EthTx

/-- An Ethereum transaction. -/
structure Tx where
  nonce : Nat
  data : Nat
deriving DecidableEq, Repr

/-- In whose name a call makes other calls: its own origin (`Utility::batch`), another account (`Proxy`, `Multisig`, `Recovery`), or root
(`Sudo`, the pallets of runtime/src/lib.rs:1551-1624). -/
inductive Via where
  | same
  | account (a : AccId)
  | root
deriving DecidableEq, Repr

/-- Calls of the runtime, `construct_runtime!` at runtime/src/lib.rs:1551-1624. -/
inductive Call where
  /-- `Ethereum::transact` -/
  | transact (tx : Tx)
  /-- calls that make other calls -/
  | wrap (via : Via) (calls : List Call)
  | other (n : Nat)

/-- An extrinsic as it arrives, runtime/src/lib.rs:1679-1680: signed by an account or not at all. -/
structure Xt where
  signer : Option AccId
  call : Call

/-- Origins of calls (`RuntimeOrigin`). -/
inductive Origin where
  | signed (a : AccId)
  | none
  | root
  /-- `RawOrigin::EthereumTransaction` -/
  | ethereum (a : AccId)
deriving DecidableEq, Repr

/-- What the chain keeps: the nonces of Ethereum addresses (those of their accounts) and the transactions of the block being built. -/
structure State where
  nonce : FMap AccId Nat := ∅
  pending : List (AccId × Tx) := []
  /-- whatever else there is -/
  rest : Nat := 0

structure Cfg where
  /-- the address that signed a transaction -/
  recover : Tx → Option AccId
  /-- the other conditions of a transaction in a block -/
  fits : State → Tx → Bool
  /-- the checks of a signed or unsigned extrinsic, C129 -/
  admits : State → Xt → Bool
  /-- what executing a call does to the rest -/
  effect : State → Origin → Nat → Nat
  /-- calls into the runtime made by a transaction: the account and the call -/
  inner : State → Tx → List (AccId × Call)

/-- `is_self_contained`, runtime/src/lib.rs:1748-1753: `transact` and nothing else. -/
def Call.selfContained : Call → Bool
  | .transact _ => true
  | _ => false

/-- `check_self_contained`, runtime/src/lib.rs:1755-1760. -/
def checkSelf (cfg : Cfg) : Call → Option (Option AccId)
  | .transact tx => some (cfg.recover tx)
  | _ => none

/-- `pre_dispatch_self_contained`, runtime/src/lib.rs:1774-1786. -/
def preDispatch (cfg : Cfg) (s : State) (info : AccId) : Call → Option Bool
  | .transact tx => some (decide (tx.nonce = (s.nonce.get info).getD 0) && cfg.fits s tx)
  | _ => none

/-- Execution of a transaction by pallet-ethereum: only with its own origin (library; runtime/src/lib.rs:1414-1419). -/
def transact (s : State) (o : Origin) (tx : Tx) : State :=
  match o with
  | .ethereum a =>
    { s with nonce := s.nonce.insert a ((s.nonce.get a).getD 0 + 1), pending := s.pending ++ [(a, tx)] }
  | _ => s

/-- The origin of wrapped calls: an account, nothing or root, none of the pallets that make calls at runtime/src/lib.rs:1551-1624 has the
origin of an Ethereum transaction to give. -/
def Via.origin (o : Origin) : Via → Origin
  | .same => o
  | .account a => .signed a
  | .root => .root

mutual
/-- Dispatch of a call with an origin. Whether a wrapping call is allowed to act in another name is left open here (C130). -/
def dispatch (cfg : Cfg) (s : State) (o : Origin) : Call → State
  | .transact tx => transact s o tx
  | .other n => { s with rest := cfg.effect s o n }
  | .wrap via cs => match o with
    | .ethereum _ => s
    | _ => dispatchAll cfg s (via.origin o) cs
/-- One call after the other. -/
def dispatchAll (cfg : Cfg) (s : State) (o : Origin) : List Call → State
  | [] => s
  | c :: cs => dispatchAll cfg (dispatch cfg s o c) o cs
end

/-- The calls that a transaction makes into the runtime, each in the name of an account (precompile 1026, runtime/src/precompiles.rs:56). -/
def runInner (cfg : Cfg) (s : State) : List (AccId × Call) → State
  | [] => s
  | (a, c) :: r => runInner cfg (dispatch cfg s (.signed a) c) r

/-- `apply_self_contained`, runtime/src/lib.rs:1788-1800. -/
def applySelf (cfg : Cfg) (s : State) (info : AccId) : Call → Option State
  | .transact tx =>
    let s1 := dispatch cfg s (.ethereum info) (.transact tx)
    some (runInner cfg s1 (cfg.inner s tx))
  | _ => none

/-- `UncheckedExtrinsic::check` and `CheckedExtrinsic::apply` of fp-self-contained, used at runtime/src/lib.rs:1679-1680 by
`Executive::apply_extrinsic`; `none`: the extrinsic is not valid, and a block with it is not. -/
def applyXt (cfg : Cfg) (s : State) (x : Xt) : Option State :=
  if x.call.selfContained then
    if x.signer.isSome then none
    else match checkSelf cfg x.call with
      | some (some info) =>
        match preDispatch cfg s info x.call with
        | some true => applySelf cfg s info x.call
        | _ => none
      | _ => none
  else if !cfg.admits s x then none
  else match x.signer with
    | some a => some (dispatch cfg s (.signed a) x.call)
    | none => some (dispatch cfg s .none x.call)

/-- The extrinsics of a block. -/
def applyAll (cfg : Cfg) (s : State) : List Xt → Option State
  | [] => some s
  | x :: xs => (applyXt cfg s x).bind fun s' => applyAll cfg s' xs

/-- A block; the Ethereum block is what is pending at its end (library, `on_finalize` of pallet-ethereum). -/
def block (cfg : Cfg) (s : State) (xs : List Xt) : Option (State × List (AccId × Tx)) :=
  (applyAll cfg { s with pending := [] } xs).map fun s' => (s', s'.pending)

/-- `extrinsic_filter`, runtime/src/lib.rs:2294-2302. -/
def filter (xs : List Xt) : List Tx :=
  xs.filterMap fun x => match x.call with
    | .transact tx => some tx
    | _ => none

/-- `convert_transaction`, runtime/src/lib.rs:1628-1634, 2325-2331. -/
def convert (tx : Tx) : Xt := ⟨none, .transact tx⟩

/-- `pending_block`, runtime/src/lib.rs:2308-2322: extrinsics that are not valid are passed over. -/
def pendingBlock (cfg : Cfg) (s : State) (xs : List Xt) : List (AccId × Tx) :=
  (xs.foldl (fun s x => (applyXt cfg s x).getD s) s).pending

/-! ### Nothing but an own extrinsic executes an Ethereum transaction -/

/-- Not the origin of an Ethereum transaction. -/
def Origin.plain : Origin → Prop
  | .ethereum _ => False
  | _ => True

theorem via_plain {o : Origin} (ho : o.plain) (v : Via) : (v.origin o).plain := by
  cases v
  · exact ho
  · trivial
  · trivial

mutual
theorem dispatch_keeps (cfg : Cfg) (s : State) (o : Origin) (ho : o.plain) (c : Call) :
    (dispatch cfg s o c).nonce = s.nonce ∧ (dispatch cfg s o c).pending = s.pending := by
  match c with
  | .transact tx => cases o <;> first | exact ⟨rfl, rfl⟩ | exact ho.elim
  | .other n => exact ⟨rfl, rfl⟩
  | .wrap via cs =>
    cases o with
    | ethereum a => exact ho.elim
    | signed a => exact dispatchAll_keeps cfg s _ (via_plain ho via) cs
    | none => exact dispatchAll_keeps cfg s _ (via_plain ho via) cs
    | root => exact dispatchAll_keeps cfg s _ (via_plain ho via) cs
theorem dispatchAll_keeps (cfg : Cfg) (s : State) (o : Origin) (ho : o.plain) (cs : List Call) :
    (dispatchAll cfg s o cs).nonce = s.nonce ∧ (dispatchAll cfg s o cs).pending = s.pending := by
  match cs with
  | [] => exact ⟨rfl, rfl⟩
  | c :: cs =>
    have h1 := dispatch_keeps cfg s o ho c
    have h2 := dispatchAll_keeps cfg (dispatch cfg s o c) o ho cs
    exact ⟨h2.1.trans h1.1, h2.2.trans h1.2⟩
end

theorem runInner_keeps (cfg : Cfg) (l : List (AccId × Call)) (s : State) :
    (runInner cfg s l).nonce = s.nonce ∧ (runInner cfg s l).pending = s.pending := by
  induction l generalizing s with
  | nil => exact ⟨rfl, rfl⟩
  | cons e r ih =>
    obtain ⟨a, c⟩ := e
    have h1 := dispatch_keeps cfg s (.signed a) trivial c
    have h2 := ih (dispatch cfg s (.signed a) c)
    exact ⟨h2.1.trans h1.1, h2.2.trans h1.2⟩

/-- The Ethereum transaction an extrinsic is, if it is one. -/
def txOf (x : Xt) : Option Tx :=
  match x.call with
  | .transact tx => some tx
  | _ => none

/-- An extrinsic that is no Ethereum transaction leaves the Ethereum side alone; one that is, if valid, is unsigned, signed inside by
`a`, has the next nonce of `a`, uses it up and is listed. -/
theorem applyXt_spec (cfg : Cfg) (s s' : State) (x : Xt) (h : applyXt cfg s x = some s') :
    match txOf x with
    | none => s'.nonce = s.nonce ∧ s'.pending = s.pending
    | some tx => x.signer = none ∧ ∃ a, cfg.recover tx = some a ∧ tx.nonce = (s.nonce.get a).getD 0 ∧ cfg.fits s tx = true ∧
        s'.pending = s.pending ++ [(a, tx)] ∧ s'.nonce = s.nonce.insert a (tx.nonce + 1) := by
  obtain ⟨sg, c⟩ := x
  cases c with
  | transact tx =>
    simp only [txOf]
    simp only [applyXt, Call.selfContained, if_true, checkSelf, preDispatch, applySelf] at h
    cases sg with
    | some a => simp at h
    | none =>
      simp only [Option.isSome_none, Bool.false_eq_true, if_false] at h
      cases hr : cfg.recover tx with
      | none => rw [hr] at h; cases h
      | some a =>
        rw [hr] at h
        simp only at h
        cases hp : (decide (tx.nonce = (s.nonce.get a).getD 0) && cfg.fits s tx) with
        | false => rw [hp] at h; cases h
        | true =>
          rw [hp] at h
          simp only [Option.some.injEq] at h
          simp only [Bool.and_eq_true, decide_eq_true_eq] at hp
          subst h
          have hk := runInner_keeps cfg (cfg.inner s tx) (dispatch cfg s (.ethereum a) (.transact tx))
          refine ⟨rfl, a, rfl, hp.1, hp.2, hk.2, ?_⟩
          rw [hk.1, hp.1]
          rfl
  | wrap via cs =>
    simp only [txOf]
    simp only [applyXt, Call.selfContained, Bool.false_eq_true, if_false] at h
    split at h
    · cases h
    cases sg with
    | some a => cases h; exact dispatch_keeps cfg s (.signed a) trivial _
    | none => cases h; exact dispatch_keeps cfg s .none trivial _
  | other n =>
    simp only [txOf]
    simp only [applyXt, Call.selfContained, Bool.false_eq_true, if_false] at h
    split at h
    · cases h
    cases sg with
    | some a => cases h; exact dispatch_keeps cfg s (.signed a) trivial _
    | none => cases h; exact dispatch_keeps cfg s .none trivial _

/-! ### Blocks -/

/-- The nonces of the transactions of one address, in order. -/
def noncesOf (l : List (AccId × Tx)) (a : AccId) : List Nat :=
  (l.filter fun e => decide (e.1 = a)).map fun e => e.2.nonce

theorem noncesOf_append (l m : List (AccId × Tx)) (a : AccId) : noncesOf (l ++ m) a = noncesOf l a ++ noncesOf m a := by
  simp [noncesOf]

theorem filter_cons (x : Xt) (xs : List Xt) :
    filter (x :: xs) = (match txOf x with | some tx => [tx] | none => []) ++ filter xs := by
  unfold filter txOf
  rw [List.filterMap_cons]
  cases x.call <;> rfl

theorem applyAll_spec (cfg : Cfg) (xs : List Xt) (s s' : State) (h : applyAll cfg s xs = some s') :
    ∃ new, s'.pending = s.pending ++ new ∧ new.map Prod.snd = filter xs ∧ (∀ e ∈ new, cfg.recover e.2 = some e.1) ∧
      (∀ a, noncesOf new a = List.range' ((s.nonce.get a).getD 0) (noncesOf new a).length ∧
        (s'.nonce.get a).getD 0 = (s.nonce.get a).getD 0 + (noncesOf new a).length) := by
  induction xs generalizing s with
  | nil => cases h; exact ⟨[], by simp, rfl, by simp, fun a => ⟨rfl, rfl⟩⟩
  | cons x xs ih =>
    simp only [applyAll] at h
    cases hx : applyXt cfg s x with
    | none => rw [hx] at h; cases h
    | some s1 =>
      rw [hx] at h
      obtain ⟨new, h1, h2, h3, h4⟩ := ih s1 h
      have hsp := applyXt_spec cfg s s1 x hx
      rw [filter_cons]
      cases ht : txOf x with
      | none =>
        rw [ht] at hsp
        obtain ⟨hn, hp⟩ := hsp
        refine ⟨new, by rw [h1, hp], by simpa using h2, h3, fun a => ?_⟩
        have := h4 a
        rw [hn] at this
        exact this
      | some tx =>
        rw [ht] at hsp
        obtain ⟨_, a, hr, hn, _, hp, hi⟩ := hsp
        refine ⟨(a, tx) :: new, by rw [h1, hp]; simp, by simp [h2], ?_, fun b => ?_⟩
        · intro e he
          rcases List.mem_cons.1 he with rfl | he
          · exact hr
          · exact h3 e he
        · obtain ⟨h5, h6⟩ := h4 b
          rw [hi, FMap.get_insert] at h5 h6
          by_cases hb : b = a
          · subst hb
            rw [if_pos rfl] at h5 h6
            have e : noncesOf ((b, tx) :: new) b = tx.nonce :: noncesOf new b := by simp [noncesOf]
            rw [e, List.length_cons, List.range'_succ, ← hn]
            simp only [Option.getD_some] at h5 h6
            refine ⟨by rw [← h5], by rw [h6]; omega⟩
          · rw [if_neg hb] at h5 h6
            have e : noncesOf ((a, tx) :: new) b = noncesOf new b := by
              simp [noncesOf, show ¬ a = b from fun h => hb h.symm]
            rw [e]
            exact ⟨h5, h6⟩

/-- C136 (the Ethereum view of a block): the transactions of the Ethereum block are exactly those that `extrinsic_filter` lists, in the
order of the block. Each was executed in the name of the address whose signature it carries; the transactions of an address have
consecutive nonces from its next one on, and these are used up. -/
theorem C136_block (cfg : Cfg) (s s' : State) (xs : List Xt) (eth : List (AccId × Tx)) (h : block cfg s xs = some (s', eth)) :
    eth.map Prod.snd = filter xs ∧ (∀ e ∈ eth, cfg.recover e.2 = some e.1) ∧
    (∀ a, noncesOf eth a = List.range' ((s.nonce.get a).getD 0) (noncesOf eth a).length ∧
      (s'.nonce.get a).getD 0 = (s.nonce.get a).getD 0 + (noncesOf eth a).length) := by
  simp only [block] at h
  cases ha : applyAll cfg { s with pending := [] } xs with
  | none => rw [ha] at h; cases h
  | some s1 =>
    rw [ha] at h
    simp only [Option.map_some, Option.some.injEq, Prod.mk.injEq] at h
    obtain ⟨rfl, rfl⟩ := h
    obtain ⟨new, h1, h2, h3, h4⟩ := applyAll_spec cfg xs _ s1 ha
    simp only [List.nil_append] at h1
    rw [h1]
    exact ⟨h2, h3, h4⟩

/-- C136 (no other way): an Ethereum transaction inside of a signed extrinsic makes it invalid; any other call, with whatever calls inside
(Ethereum transactions included), executes none and touches no nonce of the Ethereum side. -/
theorem C136_no_other_way (cfg : Cfg) (s s' : State) (x : Xt) :
    (∀ a tx, applyXt cfg s ⟨some a, .transact tx⟩ = none) ∧
    ((∀ tx, x.call ≠ .transact tx) → applyXt cfg s x = some s' → s'.pending = s.pending ∧ s'.nonce = s.nonce) := by
  refine ⟨fun a tx => rfl, fun hx h => ?_⟩
  have hsp := applyXt_spec cfg s s' x h
  have ht : txOf x = none := by
    unfold txOf
    cases hc : x.call with
    | transact tx => exact absurd hc (hx tx)
    | wrap via cs => rfl
    | other n => rfl
  rw [ht] at hsp
  exact ⟨hsp.2, hsp.1⟩

/-- C136 (from the Ethereum interface): an Ethereum transaction handed in becomes an extrinsic from which it is read back, and which is
valid exactly when the transaction carries a signature, has the next nonce of the signer and fits. -/
theorem C136_convert (cfg : Cfg) (s : State) (tx : Tx) (txs : List Tx) :
    filter (txs.map convert) = txs ∧
    ((applyXt cfg s (convert tx)).isSome = true ↔
      ∃ a, cfg.recover tx = some a ∧ tx.nonce = (s.nonce.get a).getD 0 ∧ cfg.fits s tx = true) := by
  constructor
  · induction txs with
    | nil => rfl
    | cons t ts ih => rw [List.map_cons, filter_cons, ih]; rfl
  · constructor
    · intro h
      obtain ⟨s', hs'⟩ := Option.isSome_iff_exists.1 h
      obtain ⟨_, a, h1, h2, h3, _⟩ := applyXt_spec cfg s s' (convert tx) hs'
      exact ⟨a, h1, h2, h3⟩
    · rintro ⟨a, h1, h2, h3⟩
      simp [applyXt, convert, Call.selfContained, checkSelf, preDispatch, applySelf, h1, h2, h3]

theorem pending_append (cfg : Cfg) (xs : List Xt) (s : State) :
    ∃ new, (xs.foldl (fun s x => (applyXt cfg s x).getD s) s).pending = s.pending ++ new ∧
      (new.map Prod.snd).Sublist (filter xs) ∧ (∀ e ∈ new, cfg.recover e.2 = some e.1) := by
  induction xs generalizing s with
  | nil => exact ⟨[], by simp, List.Sublist.refl _, by simp⟩
  | cons x xs ih =>
    simp only [List.foldl_cons]
    obtain ⟨new, h1, h2, h3⟩ := ih ((applyXt cfg s x).getD s)
    rw [filter_cons]
    cases hx : applyXt cfg s x with
    | none =>
      rw [hx] at h1
      refine ⟨new, h1, ?_, h3⟩
      exact h2.trans (List.sublist_append_right _ _)
    | some s1 =>
      rw [hx] at h1
      simp only [Option.getD_some] at h1
      have hsp := applyXt_spec cfg s s1 x hx
      cases ht : txOf x with
      | none =>
        rw [ht] at hsp
        refine ⟨new, ?_, by simpa using h2, h3⟩
        rw [← hsp.2]; exact h1
      | some tx =>
        rw [ht] at hsp
        obtain ⟨_, a, hr, _, _, hp, _⟩ := hsp
        refine ⟨(a, tx) :: new, ?_, ?_, ?_⟩
        · simp only [Option.getD_some] at h1 ⊢
          rw [h1, hp]; simp
        · simpa using h2
        · intro e he
          rcases List.mem_cons.1 he with rfl | he
          · exact hr
          · exact h3 e he

/-- C136 (the pending block): it shows Ethereum transactions of the given extrinsics in their order, each with its signer; when they make
a valid block it shows exactly that block. -/
theorem C136_pending (cfg : Cfg) (s : State) (hs : s.pending = []) (xs : List Xt) :
    ((pendingBlock cfg s xs).map Prod.snd).Sublist (filter xs) ∧ (∀ e ∈ pendingBlock cfg s xs, cfg.recover e.2 = some e.1) ∧
    (∀ s' eth, block cfg s xs = some (s', eth) → pendingBlock cfg s xs = eth) := by
  obtain ⟨new, h1, h2, h3⟩ := pending_append cfg xs s
  rw [hs, List.nil_append] at h1
  have hp : pendingBlock cfg s xs = new := h1
  rw [hp]
  refine ⟨h2, h3, fun s' eth h => ?_⟩
  have hs0 : ({ s with pending := [] } : State) = s := by cases s; simp only at hs; subst hs; rfl
  simp only [block, hs0] at h
  have key : ∀ (xs : List Xt) (s s' : State), applyAll cfg s xs = some s' →
      xs.foldl (fun s x => (applyXt cfg s x).getD s) s = s' := by
    intro xs
    induction xs with
    | nil => intro s s' h; cases h; rfl
    | cons x xs ih =>
      intro s s' h
      simp only [applyAll] at h
      cases hx : applyXt cfg s x with
      | none => rw [hx] at h; cases h
      | some s1 =>
        rw [hx] at h
        simp only [List.foldl_cons, hx, Option.getD_some]
        exact ih s1 s' h
  cases ha : applyAll cfg s xs with
  | none => rw [ha] at h; cases h
  | some s1 =>
    rw [ha] at h
    simp only [Option.map_some, Option.some.injEq, Prod.mk.injEq] at h
    rw [← h.2, ← hp]
    show (xs.foldl _ s).pending = _
    rw [key xs s s1 ha]

/-! ### The chain -/

inductive Op where
  /-- a block is imported, if it is valid -/
  | block (xs : List Xt)
  /-- another use of a nonce of the account of an address -/
  | bump (a : AccId)
  /-- the account of an address falls below the existential deposit and is removed -/
  | reap (a : AccId)

/-- A history: the state and all executed Ethereum transactions. -/
def run (cfg : Cfg) (s : State) : List Op → State × List (AccId × Tx)
  | [] => (s, [])
  | .block xs :: os =>
    match block cfg s xs with
    | some (s', eth) => ((run cfg s' os).1, eth ++ (run cfg s' os).2)
    | none => run cfg s os
  | .bump a :: os => run cfg { s with nonce := s.nonce.insert a ((s.nonce.get a).getD 0 + 1) } os
  | .reap a :: os => run cfg { s with nonce := s.nonce.erase a } os

/-- C136 (once): while the account of an address is not removed, its Ethereum transactions are executed with rising nonces, so none twice. -/
theorem C136_once (cfg : Cfg) (s : State) (ops : List Op) (a : AccId) (h : .reap a ∉ ops) :
    (noncesOf (run cfg s ops).2 a).Pairwise (· < ·) ∧ (∀ n ∈ noncesOf (run cfg s ops).2 a, (s.nonce.get a).getD 0 ≤ n) ∧
    (∀ tx, (run cfg s ops).2.count (a, tx) ≤ 1) := by
  have key : ∀ (ops : List Op) (s : State), .reap a ∉ ops →
      (noncesOf (run cfg s ops).2 a).Pairwise (· < ·) ∧ (∀ n ∈ noncesOf (run cfg s ops).2 a, (s.nonce.get a).getD 0 ≤ n) := by
    intro ops
    induction ops with
    | nil => intro s _; exact ⟨List.Pairwise.nil, by simp [run, noncesOf]⟩
    | cons o os ih =>
      intro s h
      have hos : .reap a ∉ os := fun hx => h (List.mem_cons_of_mem _ hx)
      cases o with
      | block xs =>
        simp only [run]
        cases hb : block cfg s xs with
        | none => exact ih s hos
        | some r =>
          obtain ⟨s1, eth⟩ := r
          obtain ⟨h1, h2⟩ := ih s1 hos
          obtain ⟨_, _, h3⟩ := C136_block cfg s s1 xs eth hb
          obtain ⟨h4, h5⟩ := h3 a
          dsimp only
          rw [noncesOf_append]
          rw [h5] at h2
          constructor
          · rw [List.pairwise_append]
            refine ⟨?_, h1, ?_⟩
            · rw [h4]; exact List.pairwise_lt_range'
            · intro x hx y hy
              have := h2 y hy
              rw [h4, List.mem_range'_1] at hx
              omega
          · intro n hn
            rcases List.mem_append.1 hn with hn | hn
            · rw [h4, List.mem_range'_1] at hn; omega
            · have := h2 n hn; omega
      | bump b =>
        simp only [run]
        obtain ⟨h1, h2⟩ := ih { s with nonce := s.nonce.insert b ((s.nonce.get b).getD 0 + 1) } hos
        refine ⟨h1, fun n hn => ?_⟩
        have := h2 n hn
        simp only [FMap.get_insert] at this
        split at this
        · rename_i e; subst e; simp only [Option.getD_some] at this; omega
        · exact this
      | reap b =>
        simp only [run]
        obtain ⟨h1, h2⟩ := ih { s with nonce := s.nonce.erase b } hos
        refine ⟨h1, fun n hn => ?_⟩
        have := h2 n hn
        simp only [FMap.get_erase] at this
        split at this
        · rename_i e; subst e; exact absurd (List.mem_cons_self ..) h
        · exact this
  obtain ⟨h1, h2⟩ := key ops s h
  refine ⟨h1, h2, fun tx => ?_⟩
  generalize (run cfg s ops).2 = l at h1
  clear h2 key h
  by_contra hc
  have hc' : 2 ≤ l.count (a, tx) := by omega
  have hsub : List.Sublist (List.replicate 2 (a, tx)) l := List.replicate_sublist_iff.2 hc'
  have h3 := (hsub.filter fun e => decide (e.1 = a)).map fun e => e.2.nonce
  have h4 := h1.sublist h3
  simp at h4

/-- Removed accounts start again at nonce 0: the same transaction is executed a second time. -/
theorem C136_executed_twice :
    let cfg : Cfg := ⟨fun _ => some 7, fun _ _ => true, fun _ _ => true, fun s _ _ => s.rest, fun _ _ => []⟩
    let b : Op := .block [convert ⟨0, 5⟩]
    (run cfg {} [b, b]).2 = [(7, ⟨0, 5⟩)] ∧ (run cfg {} [b, .reap 7, b]).2 = [(7, ⟨0, 5⟩), (7, ⟨0, 5⟩)] := by
  decide +kernel

/-- Example: an Ethereum transaction, a signed extrinsic that wraps another Ethereum transaction, and a second transaction of the same
address; a block with a signed `transact` is not valid. -/
example :
    let cfg : Cfg := ⟨fun t => if t.data = 0 then none else some (t.data / 10), fun _ _ => true, fun _ _ => true,
      fun s _ n => s.rest + n, fun _ _ => [(3, .wrap .root [.transact ⟨1, 71⟩])]⟩
    let xs : List Xt := [convert ⟨0, 70⟩, ⟨some 4, .wrap (.account 7) [.transact ⟨1, 71⟩, .other 5]⟩, convert ⟨1, 72⟩]
    (block cfg {} xs).map (fun r => (r.2, r.1.rest, r.1.nonce.get 7)) = some ([(7, ⟨0, 70⟩), (7, ⟨1, 72⟩)], 5, some 2) ∧
    filter xs = [⟨0, 70⟩, ⟨1, 72⟩] ∧
    (block cfg {} (xs ++ [⟨some 4, .transact ⟨2, 73⟩⟩])).isNone = true ∧
    pendingBlock cfg {} (xs ++ [⟨some 4, .transact ⟨2, 73⟩⟩, convert ⟨2, 0⟩]) = [(7, ⟨0, 70⟩), (7, ⟨1, 72⟩)] := by
  decide +kernel

end Verif.EthTx
