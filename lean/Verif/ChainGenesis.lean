import Verif.ChainSpec
import Verif.ChainProperties
import Verif.ChainOwn
import Verif.PayoutProperties
import Verif.WorldLocks

/-!
# The whole chain from its specification: C128

`Chain` has all pallets on one set of accounts, and its theorems ask for a start with correct books and empty storage;
`ChainSpec` says what the first block of the node's specifications (cli/src/chain_spec.rs:121-360) is. Here the two are put
together: the first block is the state of the whole chain after ordinary calls on a storage in which there are only
balances and council members.

## Simplifications

* The parameters in the specification of the device registry, tips, the operation pallet, micropayments and ADSC
  are arbitrary (`Others`).
* The balances which the EVM pallet gives to its accounts (cli/src/chain_spec.rs:301-349) are added by `evmBalances`; to which
  account an address belongs is decided by the EVM pallet, which is not part of the repository, hence an argument.
-/

namespace Verif.ChainGenesis

open Verif ChainSpec

/-- What the specification says about pallets without influence on the rest. -/
structure Others where
  /-- pairs of accounts of the device registry, pallets/deeper-node/src/lib.rs:150-165 -/
  rewards : List (AccId × Nat)
  tippers : List AccId
  dailyMax : Balance
  singleMax : Balance
  offline : AccId → Nat
  asset : Asset
  base : Balance

/-- The parameters of the specification which agree with those of the chain. -/
def specCfg (cfg : Chain.Cfg) (ed dpr : Balance) (limit : Nat) : ChainSpec.Cfg :=
  { ed := ed, dpr := dpr, stk := cfg.stake, council := cfg.world.council, committee := limit }

/-- The storage of the whole chain when the balances (runtime/src/lib.rs:1551-1624), the credit records and the council
members are there and nobody has staked yet. -/
def before (cfg : Chain.Cfg) (ed : Balance) (g : Args) (o : Others) : Option Chain.State :=
  match bankOf ed (balances g) with
  | none => none
  | some b =>
    match Council.genesis cfg.world.council b (fun _ => 0) (ChainSpec.council g) with
    | none => none
    | some k =>
      some {
        w := { bank := b, node := DeeperNode.genesis b o.rewards, tips := Tips.genesis b o.tippers, council := k, oper := Operation.genesis b o.dailyMax o.singleMax
               micro := Micropayment.genesis b 0 o.offline, ledger := Ledger.genesis b b.ed, others := fun _ => 0, rest := fun _ => 0, pins := fun _ => false }
        stk := { dele := Delegation.genesis b b.ed, credit := Credit.genesis b g.settings g.users, balances := ∅ }
        slash := Slashing.genesis b b.ed
        adsc := Adsc.genesis cfg.adsc b o.asset o.base }

/-- The calls for an authority, pallets/staking/src/lib.rs:1027-1037. -/
def authorityCalls (stake : Balance) (x : Authority) : List Chain.Op :=
  [.bond (.bond x.stash x.controller stake .staked true) 0, .bond (.validate x.controller (0, false)) 0]

/-- The calls which lead to the first block: parameters of staking, cli/src/chain_spec.rs:175-187, and the authorities.
A tenth of a slash is for the reporters (184). -/
def opening (dpr : Balance) (g : Args) : List Chain.Op :=
  [.dele (.configure (57534 * dpr) g.authorities.length g.authorities.length [] 84), .slash (.setRewardProp 100000000),
   .slash (.setInvulnerables (g.authorities.map Authority.stash))] ++ g.authorities.flatMap (authorityCalls g.stash)

/-- The first block of the whole chain. -/
def first (cfg : Chain.Cfg) (ed dpr : Balance) (g : Args) (o : Others) : Option Chain.State :=
  (before cfg ed g o).map fun c => Chain.run cfg c (opening dpr g)

/-! ### Balances of the EVM pallet -/

/-- The largest `u128`. -/
def u128Max : Balance := 2 ^ 128 - 1

/-- `deposit_creating` (frame/balances, impl_currency.rs) with numbers up to `top`: a sum which is too large changes nothing,
and the issuance stops at the largest number. -/
def depositTop (top : Balance) (b : Bank) (a : AccId) (v : Balance) : Bank :=
  if v = 0 then b
  else if b.accts.contains a = false ∧ v < b.ed then b
  else if top < b.free a + v then b
  else { b with issuance := min (b.issuance + v) top }.put a ⟨b.free a + v, b.reserved a⟩

/-- Genesis of the EVM pallet for the accounts of the specification: each address has the amount `top`. -/
def evmTop (top : Balance) (b : Bank) (accs : List AccId) : Bank := accs.foldl (fun b a => depositTop top b a top) b

/-- The balances of the specification, cli/src/chain_spec.rs:301-349: each of the addresses has
`0xffffffffffffffffffffffffffffffff`, the largest number of 128 bits; `accs` are the accounts of the addresses. -/
def evmBalances (b : Bank) (accs : List AccId) : Bank := evmTop u128Max b accs

/-! ### Specification -/

/-- What the theorems about the whole chain ask for at the start. -/
structure Proper (cfg : Chain.Cfg) (c : Chain.State) : Prop where
  chain : Chain.Start c
  pallets : World.Genesis cfg.world c.w
  locks : World.Start c.w
  solid : Chain.Solid c.w.bank
  payouts : Payout.Start c

/-- The storage of the whole chain is the one of the first block of the specification: the same accounts, stakes, parameters
of staking, credit records and council. -/
structure Agrees (c : Chain.State) (t : First) : Prop where
  accounts : c.w.bank.accts = t.stk.dele.led.bank.accts
  issuance : c.w.bank.issuance = t.stk.dele.led.bank.issuance
  minimum : c.w.bank.ed = t.stk.dele.led.bank.ed
  bonded : c.w.ledger.bonded = t.stk.dele.led.bonded
  ledgers : c.w.ledger.ledgers = t.stk.dele.led.ledgers
  payees : c.w.ledger.payees = t.stk.dele.led.payees
  validators : c.w.ledger.validators = t.stk.dele.led.validators
  stakeLocks : c.w.ledger.locks = t.stk.dele.led.locks
  minBond : c.w.ledger.minBond = t.stk.dele.led.minBond
  era : c.w.ledger.era = t.stk.dele.led.era
  closed : c.w.ledger.closed = t.stk.dele.led.closed
  staking : { c.stk.dele with led := t.stk.dele.led } = t.stk.dele
  credit : c.stk.credit = t.stk.credit
  forCredit : c.stk.balances = t.stk.balances
  council : { c.w.council with bank := t.council.bank } = t.council

/-! ### The bank -/

theorem sum_fold : ∀ (l : List (AccId × Balance)) (m : FMap AccId Acct), (l.map Prod.fst).Nodup → (∀ e ∈ l, m.get e.1 = none) →
    (l.foldl (fun m e => m.insert e.1 ⟨e.2, 0⟩) m).sum (fun _ x => x.free + x.reserved) = m.sum (fun _ x => x.free + x.reserved) + (l.map Prod.snd).sum := by
  intro l
  induction l with
  | nil => intro m _ _; simp
  | cons e l ih =>
    intro m hn hm
    rw [List.map_cons, List.nodup_cons] at hn
    rw [List.foldl_cons, ih _ hn.2 ?_, List.map_cons, List.sum_cons]
    · have h := FMap.sum_insert m e.1 (⟨e.2, 0⟩ : Acct) (fun _ x => x.free + x.reserved)
      have h0 : m.at? (fun _ x => x.free + x.reserved) e.1 = 0 := by
        unfold FMap.at?
        rw [hm e (by simp)]
      rw [h0] at h
      simp only at h
      omega
    · intro e' he'
      rw [FMap.get_insert_ne _ _ (fun k => hn.1 (List.mem_map.2 ⟨e', he', k⟩))]
      exact hm e' (by simp [he'])

theorem bankOf_inv {ed : Balance} {l : List (AccId × Balance)} {b : Bank} (hed : 0 < ed) (h : bankOf ed l = some b) :
    b.Inv ∧ Chain.Solid b ∧ b.frozen = (fun _ => 0) ∧ b.pinned = fun _ => false := by
  unfold bankOf at h
  split at h
  rotate_left
  · cases h
  rename_i hl
  cases h
  have key : ∀ a x, (l.foldl (fun (m : FMap AccId Acct) e => m.insert e.1 ⟨e.2, 0⟩) ∅).get a = some x → ed ≤ x.free := by
    intro a x hx
    rw [accts_get l ∅ a hl.2] at hx
    split at hx
    · rename_i e he
      cases hx
      exact hl.1 e (List.mem_of_find?_eq_some he)
    · rw [FMap.get_empty] at hx
      cases hx
  refine ⟨⟨hed, ?_, fun a x hx => ?_⟩, key, rfl, rfl⟩
  · show (l.map Prod.snd).sum = _
    have := sum_fold l ∅ hl.2 (fun e _ => FMap.get_empty _)
    rw [FMap.sum_empty, Nat.zero_add] at this
    exact this.symm
  · have := key a x hx
    show ¬ (x.free < ed ∧ x.reserved = 0)
    omega

theorem lockOf_genesis (b : Bank) (m : Balance) (a : AccId) : Ledger.lockOf (Ledger.genesis b m) a = 0 := by
  simp [Ledger.lockOf, Ledger.genesis, FMap.get_empty]

theorem council_of {cfg : Council.Cfg} {b : Bank} {o : AccId → Balance} {ms : List (AccId × Balance)} {k : Council.State}
    (h : Council.genesis cfg b o ms = some k) : k.lock = ∅ ∧ k.otherLock = o ∧ ∀ b' o', Council.genesis cfg b' o' ms = some { k with otherLock := o', bank := { b' with frozen := o' } } ∨ ¬ ∀ m ∈ ms, m.2 ≤ b'.free m.1 := by
  unfold Council.genesis at h
  split at h
  rotate_left
  · cases h
  rename_i hc
  cases h
  refine ⟨rfl, rfl, fun b' o' => ?_⟩
  by_cases hb : ∀ m ∈ ms, m.2 ≤ b'.free m.1
  · left
    unfold Council.genesis
    rw [if_pos ⟨hc.1, hb, hc.2.2⟩]
  · exact .inr hb

theorem before_proper {cfg : Chain.Cfg} {ed : Balance} {g : Args} {o : Others} {c : Chain.State} (hed : 0 < ed) (h : before cfg ed g o = some c)
    (hapy : ∀ s ∈ g.settings, s.baseApy ≤ 100) : Proper cfg c := by
  unfold before at h
  split at h
  · cases h
  rename_i b hb
  split at h
  · cases h
  rename_i k hk
  cases h
  obtain ⟨h1, h2, h3, h4⟩ := bankOf_inv hed hb
  obtain ⟨k1, k2, _⟩ := council_of hk
  have hs : World.settle
      { bank := b, node := DeeperNode.genesis b o.rewards, tips := Tips.genesis b o.tippers, council := k, oper := Operation.genesis b o.dailyMax o.singleMax
        micro := Micropayment.genesis b 0 o.offline, ledger := Ledger.genesis b b.ed, others := fun _ => 0, rest := fun _ => 0, pins := fun _ => false } =
      { bank := b, node := DeeperNode.genesis b o.rewards, tips := Tips.genesis b o.tippers, council := k, oper := Operation.genesis b o.dailyMax o.singleMax
        micro := Micropayment.genesis b 0 o.offline, ledger := Ledger.genesis b b.ed, others := fun _ => 0, rest := fun _ => 0, pins := fun _ => false } := by
    obtain ⟨e1, e2, e3, e4, e5⟩ := b
    obtain ⟨f1, f2, f3, f4, f5, f6, f7, f8, f9, f10⟩ := k
    simp only at h3 h4 k1 k2
    subst h3 h4 k1 k2
    simp [World.settle, World.voteLock, Ledger.lockOf, Ledger.genesis, FMap.get_empty, FMap.contains]
  exact ⟨⟨h1, hs, rfl, rfl⟩, ⟨⟨_, _, rfl⟩, ⟨_, _, rfl⟩, ⟨_, _, _, hk⟩, fun _ => rfl⟩, ⟨h1, hs, rfl, rfl, rfl⟩, h2,
    ⟨⟨b, g.settings, g.users, _, _, _, hapy, rfl⟩, rfl, rfl⟩⟩

/-! ### The stakers -/

/-- The same ledger on the same accounts; locks of other pallets are not compared. -/
structure Near (s s' : Ledger.State) : Prop where
  accounts : s'.bank.accts = s.bank.accts
  issuance : s'.bank.issuance = s.bank.issuance
  minimum : s'.bank.ed = s.bank.ed
  bonded : s'.bonded = s.bonded
  ledgers : s'.ledgers = s.ledgers
  payees : s'.payees = s.payees
  validators : s'.validators = s.validators
  locks : s'.locks = s.locks
  minBond : s'.minBond = s.minBond
  era : s'.era = s.era
  closed : s'.closed = s.closed

theorem Near.refl (s : Ledger.State) : Near s s := ⟨rfl, rfl, rfl, rfl, rfl, rfl, rfl, rfl, rfl, rfl, rfl⟩

theorem Near.trans {a b c : Ledger.State} (h : Near a b) (k : Near b c) : Near a c :=
  ⟨k.1.trans h.1, k.2.trans h.2, k.3.trans h.3, k.4.trans h.4, k.5.trans h.5, k.6.trans h.6, k.7.trans h.7, k.8.trans h.8, k.9.trans h.9, k.10.trans h.10, k.11.trans h.11⟩

theorem near_update {s s' : Ledger.State} (h : Near s s') (cfg : Ledger.Cfg) (c : AccId) (l : Ledger.Ledger) :
    Near (Ledger.updateLedger cfg s c l) (Ledger.updateLedger cfg s' c l) := by
  have hs : Near (Ledger.setLock cfg s l.stash l.total) (Ledger.setLock cfg s' l.stash l.total) := by
    unfold Ledger.setLock
    split
    · exact h
    · exact ⟨h.1, h.2, h.3, h.4, h.5, h.6, h.7, (by show s'.locks.insert _ _ = s.locks.insert _ _; rw [h.locks]), h.9, h.10, h.11⟩
  exact ⟨hs.1, hs.2, hs.3, hs.4, (by show (Ledger.setLock cfg s' l.stash l.total).ledgers.insert _ _ = (Ledger.setLock cfg s l.stash l.total).ledgers.insert _ _; rw [hs.ledgers]), hs.6, hs.7, hs.8, hs.9, hs.10, hs.11⟩

theorem near_bond {s s' : Ledger.State} (h : Near s s') (cfg : Ledger.Cfg) (a c : AccId) (v : Balance) :
    Near (Ledger.step cfg s (.bond a c v .staked true)).1 (Ledger.step cfg s' (.bond a c v .staked true)).1 := by
  have hf : s'.bank.free a = s.bank.free a := by simp only [Bank.free, Bank.acct, h.accounts]
  simp only [Ledger.step, Ledger.body, Ledger.bond, h.bonded, h.ledgers, h.minBond, hf]
  by_cases c1 : s.bonded.contains a = true
  · simp only [if_pos c1]; exact h
  by_cases c2 : s.ledgers.contains c = true
  · simp only [if_neg c1, if_pos c2]; exact h
  by_cases c3 : v < s.minBond
  · simp only [if_neg c1, if_neg c2, if_pos c3]; exact h
  simp only [if_neg c1, if_neg c2, if_neg c3, Bool.true_eq_false, if_false]
  refine near_update (s := { s with bonded := s.bonded.insert a c, payees := s.payees.insert a .staked }) (s' := { s' with bonded := s.bonded.insert a c, ledgers := s.ledgers, minBond := s.minBond, payees := s'.payees.insert a .staked }) ?_ cfg c _
  exact ⟨h.1, h.2, h.3, rfl, rfl, (by show s'.payees.insert _ _ = s.payees.insert _ _; rw [h.payees]), h.7, h.8, rfl, h.10, h.11⟩

theorem near_validate {s s' : Ledger.State} (h : Near s s') (cfg : Ledger.Cfg) (c : AccId) (p : Nat × Bool) :
    Near (Ledger.step cfg s (.validate c p)).1 (Ledger.step cfg s' (.validate c p)).1 := by
  obtain ⟨⟨b1, b2, b3, b4, b5⟩, s2, s3, s4, s5, s6, s7, s8, s9, s10⟩ := s
  obtain ⟨⟨b1', b2', b3', b4', b5'⟩, s2', s3', s4', s5', s6', s7', s8', s9', s10'⟩ := s'
  obtain ⟨h1, h2, h3, h4, h5, h6, h7, h8, h9, h10, h11⟩ := h
  simp only at h1 h2 h3 h4 h5 h6 h7 h8 h9 h10 h11
  subst h1 h2 h3 h4 h5 h6 h7 h8 h9 h10 h11
  simp only [Ledger.step, Ledger.body, Ledger.validate]
  by_cases c1 : s3' = false
  · simp only [if_pos c1]; exact ⟨rfl, rfl, rfl, rfl, rfl, rfl, rfl, rfl, rfl, rfl, rfl⟩
  simp only [if_neg c1]
  cases s6'.get c with
  | none => exact ⟨rfl, rfl, rfl, rfl, rfl, rfl, rfl, rfl, rfl, rfl, rfl⟩
  | some l => exact ⟨rfl, rfl, rfl, rfl, rfl, rfl, rfl, rfl, rfl, rfl, rfl⟩

/-- A call to bond or to stand for election on the whole chain: it acts on the ledger alone. -/
theorem chain_bond (cfg : Chain.Cfg) (c : Chain.State) (op : Ledger.Op) (n : Nat) (h1 : Chain.bondOwn op = true)
    (h2 : ∀ k, Slashing.withSpans k op = op) (h3 : ∀ s, Slashing.target s op = none) :
    let l := (Ledger.step cfg.world.ledger (Chain.led c) op).1
    Chain.step cfg c (.bond op n) = { c with slash := { c.slash with led := l }, w := Chain.put c.w l } := by
  intro l
  simp only [Chain.step, h1, if_true, Slashing.ledgerCall, h2, Slashing.killed, h3]
  rfl

/-- What the calls for the authorities leave alone. -/
structure Track (d c : Chain.State) : Prop where
  stk : c.stk = d.stk
  adsc : c.adsc = d.adsc
  slash : { c.slash with led := d.slash.led } = d.slash
  node : c.w.node = d.w.node
  tips : c.w.tips = d.w.tips
  oper : c.w.oper = d.w.oper
  micro : c.w.micro = d.w.micro
  others : c.w.others = d.w.others
  rest : c.w.rest = d.w.rest
  pins : c.w.pins = d.w.pins
  council : { c.w.council with otherLock := d.w.council.otherLock } = d.w.council
  settled : World.settle c.w = c.w

theorem track_call {cfg : Chain.Cfg} {d c : Chain.State} (h : Track d c) (op : Ledger.Op) (h1 : Chain.bondOwn op = true)
    (h2 : ∀ k, Slashing.withSpans k op = op) (h3 : ∀ s, Slashing.target s op = none) :
    Track d (Chain.step cfg c (.bond op 0)) ∧ Near (Ledger.step cfg.world.ledger (Chain.led c) op).1 (Chain.led (Chain.step cfg c (.bond op 0))) := by
  rw [chain_bond cfg c op 0 h1 h2 h3]
  generalize (Ledger.step cfg.world.ledger (Chain.led c) op).1 = l
  obtain ⟨t1, t2, t3, t4, t5, t6, t7, t8, t9, t10, t11, t12⟩ := h
  exact ⟨⟨t1, t2, t3, t4, t5, t6, t7, t8, t9, t10, t11, rfl⟩, ⟨rfl, rfl, rfl, rfl, rfl, rfl, rfl, rfl, rfl, rfl, rfl⟩⟩

theorem run_append (cfg : Chain.Cfg) (l l' : List Chain.Op) : ∀ c, Chain.run cfg c (l ++ l') = Chain.run cfg (Chain.run cfg c l) l' := by
  induction l with
  | nil => intro c; rfl
  | cons op l ih => intro c; exact ih _

theorem track_all (cfg : Chain.Cfg) (v : Balance) (xs : List Authority) : ∀ (d c : Chain.State) (s t : Ledger.State), Track d c → Near s (Chain.led c) →
    Genesis.addStakers cfg.world.ledger s (xs.map fun x => ⟨x.stash, x.controller, v, true⟩) = some t →
    Track d (Chain.run cfg c (xs.flatMap (authorityCalls v))) ∧ Near t (Chain.led (Chain.run cfg c (xs.flatMap (authorityCalls v)))) := by
  induction xs with
  | nil => intro d c s t h k e; cases e; exact ⟨h, k⟩
  | cons x xs ih =>
    intro d c s t h k e
    rw [List.map_cons] at e
    simp only [Genesis.addStakers] at e
    split at e
    · cases e
    rename_i u hu
    unfold Genesis.addStaker at hu
    split at hu
    rotate_left
    · cases hu
    cases hu
    simp only [if_true] at e
    rw [List.flatMap_cons, run_append]
    obtain ⟨a1, a2⟩ := track_call (cfg := cfg) h (.bond x.stash x.controller v .staked true) rfl (fun _ => rfl) (fun _ => rfl)
    have a3 := (near_bond k cfg.world.ledger x.stash x.controller v).trans a2
    obtain ⟨b1, b2⟩ := track_call (cfg := cfg) a1 (.validate x.controller (0, false)) rfl (fun _ => rfl) (fun _ => rfl)
    have b3 := (near_validate a3 cfg.world.ledger x.controller (0, false)).trans b2
    exact ih d _ _ t b1 b3 e

/-! ### The first block -/

theorem put_led {c : Chain.State} (h : World.settle c.w = c.w) : Chain.put c.w (Chain.led c) = c.w := h

/-- **C128.** Whenever the node starts, the first block is what ordinary calls make of a storage with balances, credit
records and council members only, and that storage meets the conditions of all theorems about the whole chain. -/
theorem C128_first (cfg : Chain.Cfg) (ed dpr : Balance) (limit : Nat) (hed : 0 < ed) (g : Args) (o : Others) (t : First)
    (h : ChainSpec.build (specCfg cfg ed dpr limit) g = some t) (hapy : ∀ s ∈ g.settings, s.baseApy ≤ 100) :
    ∃ c, before cfg ed g o = some c ∧ Proper cfg c ∧ Agrees (Chain.run cfg c (opening dpr g)) t ∧
      (∀ op ∈ opening dpr g, ∀ w, op ≠ .world w) ∧
      (Chain.run cfg c (opening dpr g)).slash.invulnerables = g.authorities.map Authority.stash ∧
      (Chain.run cfg c (opening dpr g)).slash.rewardProp = 100000000 := by
  unfold ChainSpec.build at h
  split at h
  · cases h
  rename_i b hb
  split at h
  · cases h
  rename_i s hs
  split at h
  · cases h
  rename_i tc htc
  split at h
  · cases h
  rename_i k hk
  cases h
  have hb' : bankOf ed (balances g) = some b := hb
  have hfree := (build_bank hs).1
  obtain ⟨k1, k2, k3⟩ := council_of hk
  have hk' := (k3 b fun _ => 0).resolve_right (fun hn => hn (by
    have hk2 := hk
    unfold Council.genesis at hk2
    split at hk2
    · rename_i hc
      intro m hm
      rw [← (hfree m.1).1]
      exact hc.2.1 m hm
    · cases hk2))
  have hbefore : ∃ c, before cfg ed g o = some c ∧ c.w.council = { k with otherLock := fun _ => 0, bank := { b with frozen := fun _ => 0 } } ∧ c.w.rest = (fun _ => 0) ∧
      c.stk = { dele := Delegation.genesis b b.ed, credit := Credit.genesis b g.settings g.users, balances := ∅ } ∧ c.w.ledger = Ledger.genesis b b.ed ∧ c.w.bank = b := by
    unfold before
    simp only [hb']
    have hk'' : Council.genesis cfg.world.council b (fun _ => 0) (ChainSpec.council g) = some { k with otherLock := fun _ => 0, bank := { b with frozen := fun _ => 0 } } := hk'
    simp only [hk'']
    exact ⟨_, rfl, rfl, rfl, rfl, rfl, rfl⟩
  obtain ⟨c, hc, c1, c2, c3, c4, c5⟩ := hbefore
  have hp := before_proper hed hc hapy
  refine ⟨c, hc, hp, ?_⟩
  -- the parameters of staking
  obtain ⟨l, hl, hd⟩ : ∃ l, Genesis.addStakers cfg.world.ledger (Ledger.genesis b b.ed) (g.authorities.map fun x => ⟨x.stash, x.controller, g.stash, true⟩) = some l ∧
      s.dele = { Delegation.genesis b b.ed with led := l, eraReward := 57534 * dpr, validatorCount := g.authorities.length, minValidators := g.authorities.length, historyDepth := 84 } := by
    unfold Genesis.build at hs
    split at hs
    · cases hs
    rename_i s' hs'
    cases hs
    unfold Genesis.buildStaking at hs'
    simp only at hs'
    split at hs'
    · cases hs'
    rename_i l hl
    cases hs'
    exact ⟨l, hl, rfl⟩
  have hcr : s.credit = Credit.genesis b g.settings g.users ∧ s.balances = ∅ := by
    unfold Genesis.build at hs
    split at hs
    · cases hs
    cases hs
    exact ⟨rfl, rfl⟩
  generalize hd3 : Chain.run cfg c [.dele (.configure (57534 * dpr) g.authorities.length g.authorities.length [] 84), .slash (.setRewardProp 100000000),
   .slash (.setInvulnerables (g.authorities.map Authority.stash))] = d
  have e1 : d.w = c.w ∧ { d.stk.dele with led := l } = s.dele ∧ d.stk.credit = s.credit ∧ d.stk.balances = s.balances ∧
      d.slash.invulnerables = g.authorities.map Authority.stash ∧ d.slash.rewardProp = 100000000 := by
    have q1 : ∀ c' : Chain.State, World.settle c'.w = c'.w → ∀ p, (Chain.step cfg c' (.slash (.setRewardProp p))).w = c'.w := fun c' h' p => h'
    have q2 : ∀ c' : Chain.State, World.settle c'.w = c'.w → ∀ p, (Chain.step cfg c' (.slash (.setInvulnerables p))).w = c'.w := fun c' h' p => h'
    have q3 : ∀ c' : Chain.State, World.settle c'.w = c'.w → ∀ x y z v u, (Chain.step cfg c' (.dele (.configure x y z v u))).w = c'.w := fun c' h' _ _ _ _ _ => h'
    have hset := hp.chain.locks
    subst hd3
    simp only [Chain.run]
    have w1 := q3 c hset (57534 * dpr) g.authorities.length g.authorities.length [] 84
    have w2 := q1 (Chain.step cfg c (.dele (.configure (57534 * dpr) g.authorities.length g.authorities.length [] 84))) (by rw [w1]; exact hset) 100000000
    refine ⟨?_, ?_, ?_, ?_, rfl, rfl⟩
    · rw [q2 _ (by rw [w2, w1]; exact hset), w2, w1]
    · rw [hd]
      show { (Delegation.step cfg.dele (Chain.stkOn c).dele _).1 with led := l } = _
      simp only [Chain.stkOn, c3]
      rfl
    · rw [hcr.1]
      show c.stk.credit = _
      rw [c3]
    · rw [hcr.2]
      show c.stk.balances = _
      rw [c3]
  obtain ⟨d1, d2, d3, d4, d5, d6⟩ := e1
  have ht : Track d d := ⟨rfl, rfl, rfl, rfl, rfl, rfl, rfl, rfl, rfl, rfl, rfl, by rw [d1]; exact hp.chain.locks⟩
  have hn : Near (Ledger.genesis b b.ed) (Chain.led d) := by
    have : Chain.led d = Ledger.genesis b b.ed := by
      unfold Chain.led
      rw [d1, c4, c5]
      rfl
    rw [this]
    exact Near.refl _
  obtain ⟨f1, f2⟩ := track_all cfg g.stash g.authorities d d _ l ht hn hl
  have hrun : Chain.run cfg c (opening dpr g) = Chain.run cfg d (g.authorities.flatMap (authorityCalls g.stash)) := by
    unfold opening
    rw [run_append, hd3]
  rw [hrun]
  generalize Chain.run cfg d (g.authorities.flatMap (authorityCalls g.stash)) = z at f1 f2
  have hll : s.dele.led = l := by rw [hd]
  refine ⟨⟨?_, ?_, ?_, ?_, ?_, ?_, ?_, ?_, ?_, ?_, ?_, ?_, ?_, ?_, ?_⟩, ?_, ?_, ?_⟩
  · show z.w.bank.accts = s.dele.led.bank.accts; rw [hll]; exact f2.accounts
  · show z.w.bank.issuance = s.dele.led.bank.issuance; rw [hll]; exact f2.issuance
  · show z.w.bank.ed = s.dele.led.bank.ed; rw [hll]; exact f2.minimum
  · show z.w.ledger.bonded = s.dele.led.bonded; rw [hll]; exact f2.bonded
  · show z.w.ledger.ledgers = s.dele.led.ledgers; rw [hll]; exact f2.ledgers
  · show z.w.ledger.payees = s.dele.led.payees; rw [hll]; exact f2.payees
  · show z.w.ledger.validators = s.dele.led.validators; rw [hll]; exact f2.validators
  · show z.w.ledger.locks = s.dele.led.locks; rw [hll]; exact f2.locks
  · show z.w.ledger.minBond = s.dele.led.minBond; rw [hll]; exact f2.minBond
  · show z.w.ledger.era = s.dele.led.era; rw [hll]; exact f2.era
  · show z.w.ledger.closed = s.dele.led.closed; rw [hll]; exact f2.closed
  · show { z.stk.dele with led := s.dele.led } = s.dele
    rw [f1.stk, hll]
    exact d2
  · show z.stk.credit = s.credit
    rw [f1.stk]
    exact d3
  · show z.stk.balances = s.balances
    rw [f1.stk]
    exact d4
  · show { z.w.council with bank := k.bank } = k
    have g1 := f1.council
    have g2 : z.w.council.otherLock = k.otherLock := by
      have := congrArg (fun w : World.State => w.council.otherLock) f1.settled
      simp only [World.settle] at this
      rw [← this, k2, hll]
      funext a
      have hr : z.w.rest = fun _ => 0 := by rw [f1.rest, d1, c2]
      rw [hr]
      have hlk : Ledger.lockOf z.w.ledger a = Ledger.lockOf l a := by
        unfold Ledger.lockOf
        have : z.w.ledger.locks = l.locks := f2.locks
        rw [this]
      rw [hlk]
      exact Nat.max_zero _
    rw [d1, c1] at g1
    generalize z.w.council = y at g1 g2
    obtain ⟨y1, y2, y3, y4, y5, y6, y7, y8, y9, y10⟩ := y
    obtain ⟨x1, x2, x3, x4, x5, x6, x7, x8, x9, x10⟩ := k
    simp only [Council.State.mk.injEq] at g1 g2 ⊢
    obtain ⟨i1, i2, i3, i4, i5, i6, i7, i8, i9, i10⟩ := g1
    exact ⟨i1, i2, i3, i4, i5, i6, i7, i8, g2, trivial⟩
  · intro op hop w
    unfold opening at hop
    simp only [List.mem_append, List.mem_cons, List.not_mem_nil, or_false, List.mem_flatMap, authorityCalls] at hop
    rcases hop with (rfl | rfl | rfl) | ⟨x, _, rfl | rfl⟩ <;> simp
  · have := congrArg Slashing.State.invulnerables f1.slash
    simp only at this
    rw [this, d5]
  · have := congrArg Slashing.State.rewardProp f1.slash
    simp only at this
    rw [this, d6]

/-! ### What follows for every later history -/

theorem addStakers_ed {cfg : Ledger.Cfg} {xs : List Genesis.Staker} : ∀ {s t : Ledger.State}, Genesis.addStakers cfg s xs = some t → t.bank.ed = s.bank.ed := by
  have hb : ∀ (s : Ledger.State) (a c : AccId) (v : Balance), (Ledger.step cfg s (.bond a c v .staked true)).1.bank.ed = s.bank.ed := by
    intro s a c v
    simp only [Ledger.step, Ledger.body, Ledger.bond, Ledger.updateLedger, Ledger.setLock, Ledger.putLock]
    (repeat' split) <;> first | rfl | (rename_i h; (repeat' split at h) <;> first | (cases h; rfl) | cases h)
  have hv : ∀ (s : Ledger.State) (c : AccId) (p : Nat × Bool), (Ledger.step cfg s (.validate c p)).1.bank.ed = s.bank.ed := by
    intro s c p
    simp only [Ledger.step, Ledger.body, Ledger.validate]
    (repeat' split) <;> first | rfl | (rename_i h; (repeat' split at h) <;> first | (cases h; rfl) | cases h)
  induction xs with
  | nil => intro s t h; cases h; rfl
  | cons x xs ih =>
    intro s t h
    simp only [Genesis.addStakers] at h
    split at h
    · cases h
    rename_i u hu
    rw [ih h]
    unfold Genesis.addStaker at hu
    split at hu
    · cases hu
      split
      · rw [hv, hb]
      · rw [hb]
    · cases hu

/-- The first block of the whole chain has the books, accounts and empty storage which the theorems ask for. -/
theorem first_start {cfg : Chain.Cfg} {ed dpr : Balance} {limit : Nat} (hed : 0 < ed) {g : Args} {o : Others} {t : First}
    (h : ChainSpec.build (specCfg cfg ed dpr limit) g = some t) (hapy : ∀ s ∈ g.settings, s.baseApy ≤ 100) :
    ∃ z, first cfg ed dpr g o = some z ∧ Agrees z t ∧ Chain.Start z ∧ Chain.Solid z.w.bank ∧ Payout.Start z ∧
      Chain.pool cfg z = cfg.stk.dele.totalMining ∧ Micropayment.escrowAll z.w.micro = 0 := by
  obtain ⟨c, h1, h2, h3, hop, _⟩ := C128_first cfg ed dpr limit hed g o t h hapy
  have hb : bankOf ed (balances g) = some c.w.bank ∧ c.w.micro.chans = ∅ := by
    unfold before at h1
    split at h1
    · cases h1
    rename_i b hb
    split at h1
    · cases h1
    cases h1
    exact ⟨hb, rfl⟩
  have hinv : ∀ (ops : List Chain.Op) (c : Chain.State), c.w.bank.Inv → World.settle c.w = c.w →
      (Chain.run cfg c ops).w.bank.Inv ∧ World.settle (Chain.run cfg c ops).w = (Chain.run cfg c ops).w := by
    intro ops
    induction ops with
    | nil => intro c a b; exact ⟨a, b⟩
    | cons op ops ih => intro c a b; exact ih _ (Chain.books_step cfg op b a) (Chain.settled_step cfg op b)
  obtain ⟨i1, i2⟩ := hinv (opening dpr g) c h2.chain.books h2.chain.locks
  have hm : ∀ (ops : List Chain.Op) (c : Chain.State), (∀ op ∈ ops, ∀ w, op ≠ .world w) → (Chain.run cfg c ops).w.micro = c.w.micro := by
    intro ops
    induction ops with
    | nil => intro c _; rfl
    | cons op ops ih =>
      intro c ho
      show (Chain.run cfg (Chain.step cfg c op) ops).w.micro = _
      rw [ih _ fun x hx => ho x (by simp [hx])]
      have := ho op (by simp)
      cases op with
      | world w => exact absurd rfl (this w)
      | bond op n => simp only [Chain.step]; split <;> rfl
      | dele op => simp only [Chain.step]; split <;> rfl
      | stake op => rfl
      | credit op => simp only [Chain.step]; split <;> rfl
      | slash op => simp only [Chain.step]; split <;> rfl
      | adsc op => simp only [Chain.step]; split <;> rfl
  refine ⟨_, by unfold first; rw [h1]; rfl, h3, ?_⟩
  have hmicro := hm (opening dpr g) c hop
  generalize Chain.run cfg c (opening dpr g) = z at h3 i1 i2 hmicro
  have hdele : t.stk.dele.points = ∅ ∧ t.stk.dele.erasValidators = ∅ ∧ t.stk.dele.block = 0 ∧ t.stk.dele.delegators = ∅ ∧ t.stk.dele.pool = none ∧
      (∃ b, t.stk.credit = Credit.genesis b g.settings g.users) ∧ t.stk.dele.led.bank.accts = c.w.bank.accts ∧ t.stk.dele.led.bank.ed = c.w.bank.ed := by
    unfold ChainSpec.build at h
    split at h
    · cases h
    rename_i b hb2
    split at h
    · cases h
    rename_i s hs
    split at h
    · cases h
    split at h
    · cases h
    cases h
    have hbb : b = c.w.bank := by
      have hb3 : bankOf ed (balances g) = some b := hb2
      rw [hb.1] at hb3
      exact (Option.some.inj hb3).symm
    obtain ⟨a1, a2⟩ := Genesis.C113_history _ _ _ _ hs
    unfold Genesis.build at hs
    split at hs
    · cases hs
    rename_i s' hs'
    cases hs
    unfold Genesis.buildStaking at hs'
    simp only at hs'
    split at hs'
    · cases hs'
    rename_i l hl
    cases hs'
    have hl2 := (addStakers_bank _ _ _ _ hl).1
    have hed2 : l.bank.ed = b.ed := addStakers_ed hl
    exact ⟨rfl, rfl, rfl, rfl, rfl, ⟨b, a2⟩, by rw [← hbb]; exact hl2, by rw [← hbb]; exact hed2⟩
  obtain ⟨d1, d2, d3, d4, d5, ⟨b, d6⟩, d7, d8⟩ := hdele
  have hst := h3.staking
  refine ⟨⟨i1, i2, ?_, ?_⟩, ?_, ⟨⟨b, g.settings, g.users, (Credit.genesis b g.settings g.users).creditBalances, (Credit.genesis b g.settings g.users).isAdmin, (Credit.genesis b g.settings g.users).burnPrice, hapy, ?_⟩, ?_, ?_⟩, ?_, ?_⟩
  · rw [← d1, ← hst]
  · rw [← d2, ← hst]
  · intro a x hx
    rw [h3.accounts, d7] at hx
    rw [h3.minimum, d8]
    exact h2.solid a x hx
  · rw [h3.credit, d6]
  · rw [← d3, ← hst]
  · rw [← d4, ← hst]
  · unfold Chain.pool
    have : z.stk.dele.pool = none := by rw [← d5, ← hst]
    rw [this]
    rfl
  · unfold Micropayment.escrowAll
    rw [hmicro, hb.2]
    rfl

theorem share_total {cfg : ChainSpec.Cfg} {g : Args} {t : First} (h : ChainSpec.build cfg g = some t) (a : AccId) :
    t.stk.dele.led.bank.total a = (share g a).getD 0 := by
  obtain ⟨h1, _⟩ := C122_balances cfg g t h
  unfold Bank.total
  rw [(h1 a).1, (h1 a).2, Nat.add_zero]

/-- **C128.** The supply of the chain, counted from the specification: at every later time all money and what is left in the
mining pool are at most the amounts in the specification, each account counted once, the mining reward of the runtime and
what was granted explicitly; but for half a unit for each validator paid when the pool runs out. -/
theorem C128_supply (cfg : Chain.Cfg) (ed dpr : Balance) (limit : Nat) (hed : 0 < ed) (g : Args) (o : Others) (t : First)
    (h : ChainSpec.build (specCfg cfg ed dpr limit) g = some t) (hapy : ∀ s ∈ g.settings, s.baseApy ≤ 100)
    (as : List AccId) (hn : as.Nodup) (hm : ∀ a, a ∈ as ↔ Named g a) :
    ∃ c, first cfg ed dpr g o = some c ∧ ∀ ops : List Chain.Op, (∀ op ∈ ops, Chain.Iterates op) →
      2 * (Chain.supply (Chain.run cfg c ops) + Chain.pool cfg (Chain.run cfg c ops)) ≤
        2 * ((as.map fun a => (share g a).getD 0).sum + cfg.stk.dele.totalMining + Chain.total (Chain.granted cfg) cfg c ops) +
          Chain.total (Chain.lastPaid cfg) cfg c ops := by
  obtain ⟨z, h1, h2, h3, _, _, h6, h7⟩ := first_start (o := o) hed h hapy
  refine ⟨z, h1, fun ops hi => ?_⟩
  have := Chain.C109_supply cfg h3 ops hi
  have hs : Chain.supply z = (as.map fun a => (share g a).getD 0).sum := by
    unfold Chain.supply
    rw [h7, Nat.add_zero, ← h3.books.issuance, h2.issuance]
    exact (C122_balances _ g t h).2 as hn hm
  rw [hs, h6] at this
  exact this

/-- **C128.** What an account has at the start is its own: whoever never pays and is never punished after the first block
has at least the amount in the specification for ever. -/
theorem C128_own (cfg : Chain.Cfg) (hp : cfg.world.micro.burnPercent ≤ 100) (ed dpr : Balance) (limit : Nat) (hed : 0 < ed) (g : Args) (o : Others)
    (t : First) (h : ChainSpec.build (specCfg cfg ed dpr limit) g = some t) (hapy : ∀ s ∈ g.settings, s.baseApy ≤ 100) :
    ∃ c, first cfg ed dpr g o = some c ∧ ∀ (ops : List Chain.Op) (a : AccId), ¬ Chain.everPays cfg a c ops →
      (share g a).getD 0 ≤ (Chain.run cfg c ops).w.bank.total a := by
  obtain ⟨z, h1, h2, _, h4, _⟩ := first_start (o := o) hed h hapy
  refine ⟨z, h1, fun ops a hn => ?_⟩
  have := Chain.C115_history hp z h4 ops a hn
  rw [← share_total h a]
  refine Nat.le_trans (Nat.le_of_eq ?_) this
  simp only [Bank.total, Bank.free, Bank.reserved, Bank.acct, h2.accounts]

theorem forced_append (cfg : Chain.Cfg) (l l' : List Chain.Op) (a : AccId) : ∀ c, Chain.forced cfg c (l ++ l') a = Chain.forced cfg c l a + Chain.forced cfg (Chain.run cfg c l) l' a := by
  induction l with
  | nil => intro c; simp [Chain.forced, Chain.run]
  | cons op l ih =>
    intro c
    show (match op with | .world o => World.forcedBy cfg.world c.w o a | _ => 0) + Chain.forced cfg (Chain.step cfg c op) (l ++ l') a =
      (match op with | .world o => World.forcedBy cfg.world c.w o a | _ => 0) + Chain.forced cfg (Chain.step cfg c op) l a + Chain.forced cfg (Chain.run cfg (Chain.step cfg c op) l) l' a
    rw [ih, Nat.add_assoc]

theorem forced_none (cfg : Chain.Cfg) (l : List Chain.Op) (a : AccId) : ∀ c, (∀ op ∈ l, ∀ w, op ≠ .world w) → Chain.forced cfg c l a = 0 := by
  induction l with
  | nil => intro c _; rfl
  | cons op l ih =>
    intro c h
    have h1 := ih (Chain.step cfg c op) fun x hx => h x (by simp [hx])
    have h2 := h op (by simp)
    simp only [Chain.forced, h1]

/-- **C128.** From the first block on, the reserved money of every account is the sum of the deposits it has made and of what
the locker members reserved. -/
theorem C128_reserved (cfg : Chain.Cfg) (hinj : ∀ a b c d, cfg.world.tips.hashOf a b = cfg.world.tips.hashOf c d → a = c ∧ b = d)
    (ed dpr : Balance) (limit : Nat) (hed : 0 < ed) (g : Args) (o : Others)
    (t : First) (h : ChainSpec.build (specCfg cfg ed dpr limit) g = some t) (hapy : ∀ s ∈ g.settings, s.baseApy ≤ 100) :
    ∃ c, first cfg ed dpr g o = some c ∧ ∀ (ops : List Chain.Op) (a : AccId),
      (Chain.run cfg c ops).w.bank.reserved a = World.owed cfg.world (Chain.run cfg c ops).w a + Chain.forced cfg c ops a := by
  obtain ⟨c, h1, h2, h3, hop, _⟩ := C128_first cfg ed dpr limit hed g o t h hapy
  refine ⟨_, by unfold first; rw [h1]; rfl, fun ops a => ?_⟩
  have hr := Chain.C109_reserved cfg hinj h2.pallets h2.chain.locks (opening dpr g ++ ops) a
  rw [run_append, forced_append, forced_none cfg _ a c hop, Nat.zero_add] at hr
  rw [hr]
  have h0 : c.w.bank.reserved a = 0 := by
    have hb : bankOf ed (balances g) = some c.w.bank := by
      unfold before at h1
      split at h1
      · cases h1
      rename_i b hb
      split at h1
      · cases h1
      cases h1
      exact hb
    exact ((bank_free (lists_balances g) hb).2.1 a).2
  rw [h0, Nat.zero_add]

/-- **C128.** From the first block on, delegators are paid exactly what the credit settings say, for eras which have passed,
and no era is paid twice. -/
theorem C128_payouts (cfg : Chain.Cfg) (hf : Payout.Fits cfg) (ed dpr : Balance) (limit : Nat) (hed : 0 < ed) (g : Args) (o : Others)
    (t : First) (h : ChainSpec.build (specCfg cfg ed dpr limit) g = some t) (hapy : ∀ s ∈ g.settings, s.baseApy ≤ 100) :
    ∃ c, first cfg ed dpr g o = some c ∧ ∀ ops : List Payout.Op, (∀ e ∈ (Payout.run cfg c ops).2, Payout.Sound cfg e.1 e.2.1) →
      (∀ e ∈ (Payout.run cfg c ops).2, e.2.2 ≠ .halted ∧ ∀ p ∈ e.2.2.payments,
        p.first ≤ p.last ∧ p.last + 1 = Credit.currentEra cfg.stk.credit (Payout.creditNext e.1) ∧
        Payout.Due cfg.stk.credit (Payout.creditNext e.1) p.who p.first p.last p.amount) ∧
      ∀ a, ((Payout.paymentsTo a (Payout.run cfg c ops).2).flatMap fun q => Payout.owed cfg.stk.credit (Payout.creditNext q.1) a q.2.first q.2.last).Pairwise (· < ·) := by
  obtain ⟨z, h1, _, _, _, h5, _⟩ := first_start (o := o) hed h hapy
  exact ⟨z, h1, fun ops hs => ⟨Payout.C110_amounts cfg hf h5 ops hs, Payout.C110_once cfg hf h5 ops hs⟩⟩

/-! ### The node's specifications -/

/-- The mining reward of the runtime, runtime/src/constants.rs:30-37. -/
def miningReward : Balance := 250000000 * 10 ^ 18 - 2158 * 2 * 10 ^ 18 - 7 * 110 * 10 ^ 18

/-- **C128.** On the development chain and the local test network there are never more than 120 million DPR, the mining
reward of the runtime and what was granted explicitly, but for the last paid validators; and each of the twelve accounts
which never pays and is never punished has its ten million DPR for ever. -/
theorem C128_node (cfg : Chain.Cfg) (hmin : cfg.stk.dele.totalMining = miningReward) (hp : cfg.world.micro.burnPercent ≤ 100) (h13 : cfg.world.council.desiredMembers = 13)
    (acc : Nat → AccId) (hacc : Function.Injective acc) (n : Nat) (hn : n = 1 ∨ n = 2) (settings : List Credit.Setting) (users : List (AccId × Credit.Data))
    (hapy : ∀ s ∈ settings, s.baseApy ≤ 100) (o : Others) :
    ∃ c, first cfg (10 ^ 18 / 5) (10 ^ 18) (nodeSpec acc n settings users) o = some c ∧ ∀ ops : List Chain.Op,
      ((∀ op ∈ ops, Chain.Iterates op) → 2 * (Chain.supply (Chain.run cfg c ops) + Chain.pool cfg (Chain.run cfg c ops)) ≤
        2 * (120000000 * 10 ^ 18 + miningReward + Chain.total (Chain.granted cfg) cfg c ops) + Chain.total (Chain.lastPaid cfg) cfg c ops) ∧
      ∀ i, i < 12 → ¬ Chain.everPays cfg (acc i) c ops → 10000000 * 10 ^ 18 ≤ (Chain.run cfg c ops).w.bank.total (acc i) := by
  have hcfg : specCfg cfg (10 ^ 18 / 5) (10 ^ 18) 100 = runtimeCfg cfg.stake cfg.world.council := by
    unfold specCfg runtimeCfg
    have : { cfg.world.council with desiredMembers := 13 } = cfg.world.council := by rw [← h13]
    rw [this]
  obtain ⟨t, h1, h2, h3, _⟩ := C122_node cfg.stake cfg.world.council acc hacc n hn settings users
  rw [← hcfg] at h1
  have he : (0 : Nat) < 10 ^ 18 / 5 := by decide
  obtain ⟨z, z1, z2, z3, z4, _, z6, z7⟩ := first_start (o := o) he h1 hapy
  refine ⟨z, z1, fun ops => ⟨fun hi => ?_, fun i hi hn => ?_⟩⟩
  · have := Chain.C109_supply cfg z3 ops hi
    have hs : Chain.supply z = 120000000 * 10 ^ 18 := by
      unfold Chain.supply
      rw [z7, Nat.add_zero, ← z3.books.issuance, z2.issuance, h2]
    rw [hs, z6, hmin] at this
    exact this
  · have := Chain.C115_history hp z z4 ops (acc i) hn
    refine Nat.le_trans (Nat.le_of_eq ?_) this
    have hb := (C122_balances _ _ _ h1).1 (acc i)
    rw [← h3 i hi]
    have : z.w.bank.total (acc i) = t.stk.dele.led.bank.total (acc i) := by
      simp only [Bank.total, Bank.free, Bank.reserved, Bank.acct, z2.accounts]
    rw [this]
    unfold Bank.total
    rw [hb.2, Nat.add_zero]

/-! ### The balances of the EVM pallet -/

theorem evm_paired (top : Balance) (b : Bank) (accs : List AccId) (h : ∀ a ∈ accs, 0 < b.free a) : evmTop top b accs = b := by
  unfold evmTop
  induction accs with
  | nil => rfl
  | cons a accs ih =>
    have h1 : depositTop top b a top = b := by
      unfold depositTop
      split
      · rfl
      split
      · rfl
      have := h a (by simp)
      rw [if_pos (by omega)]
    rw [List.foldl_cons, h1]
    exact ih fun x hx => h x (by simp [hx])

theorem deposit_fresh {top : Balance} {b : Bank} {a : AccId} (hv : 0 < top) (hed : b.ed ≤ top) (h : b.accts.get a = none) :
    let b' := depositTop top b a top
    b'.free a = top ∧ b'.ed = b.ed ∧ b'.sumAll = b.sumAll + top ∧ b'.issuance = min (b.issuance + top) top ∧ ∀ x, x ≠ a → b'.accts.get x = b.accts.get x := by
  have hf : b.free a = 0 ∧ b.reserved a = 0 := by
    simp [Bank.free, Bank.reserved, Bank.acct, h]
  have e : depositTop top b a top = { b with issuance := min (b.issuance + top) top, accts := b.accts.insert a ⟨top, 0⟩ } := by
    unfold depositTop
    rw [if_neg (by omega), if_neg (by omega), if_neg (by rw [hf.1]; omega), hf.1, hf.2, Nat.zero_add]
    unfold Bank.put
    simp only
    rw [if_neg (by intro k; omega)]
  intro b'
  have e' : b' = _ := e
  rw [e']
  refine ⟨?_, rfl, ?_, rfl, fun x hx => FMap.get_insert_ne _ _ hx⟩
  · simp [Bank.free, Bank.acct, FMap.get_insert_self]
  · have := FMap.sum_insert b.accts a (⟨top, 0⟩ : Acct) (fun _ x => x.free + x.reserved)
    have h0 : b.accts.at? (fun _ x => x.free + x.reserved) a = 0 := by
      unfold FMap.at?
      rw [h]
    rw [h0] at this
    exact this

theorem evm_fresh {top : Balance} (hu : 0 < top) : ∀ (accs : List AccId) (b : Bank), accs.Nodup → (∀ a ∈ accs, b.accts.get a = none) → b.ed ≤ top → b.issuance ≤ top →
    (∀ a ∈ accs, (evmTop top b accs).free a = top) ∧ (∀ a, a ∉ accs → (evmTop top b accs).accts.get a = b.accts.get a) ∧
    (evmTop top b accs).issuance = min (b.issuance + accs.length * top) top ∧
    (evmTop top b accs).sumAll = b.sumAll + accs.length * top := by
  intro accs
  induction accs with
  | nil => intro b _ _ _ hi; exact ⟨by simp, fun _ _ => rfl, by simp [evmTop]; omega, by simp [evmTop]⟩
  | cons a accs ih =>
    intro b hn h hed hi
    rw [List.nodup_cons] at hn
    obtain ⟨d1, d2, d3, d4, d5⟩ := deposit_fresh hu hed (h a (by simp))
    have e : evmTop top b (a :: accs) = evmTop top (depositTop top b a top) accs := rfl
    have hget : ∀ x ∈ accs, (depositTop top b a top).accts.get x = none := fun x hx => by
      rw [d5 x (fun k => hn.1 (k ▸ hx))]
      exact h x (by simp [hx])
    obtain ⟨k1, k2, k3, k4⟩ := ih (depositTop top b a top) hn.2 hget (by rw [d2]; exact hed) (by rw [d4]; omega)
    rw [e]
    refine ⟨fun x hx => ?_, fun x hx => ?_, ?_, ?_⟩
    · rcases List.mem_cons.1 hx with rfl | hx
      · have e2 : (evmTop top (depositTop top b x top) accs).free x = (depositTop top b x top).free x := by
          simp only [Bank.free, Bank.acct, k2 x hn.1]
        exact e2.trans d1
      · exact k1 x hx
    · rw [k2 x (fun k => hx (by simp [k])), d5 x (fun k => hx (by simp [k]))]
    · rw [k3, d4, List.length_cons, Nat.succ_mul]
      omega
    · rw [k4, d3, List.length_cons, Nat.succ_mul]
      omega

theorem evm_issuance {top : Balance} (hu : 0 < top) (accs : List AccId) (b : Bank) (hn : accs.Nodup) (h : ∀ a ∈ accs, b.accts.get a = none) (hed : b.ed ≤ top)
    (hi : b.issuance ≤ top) (hne : accs ≠ []) : (evmTop top b accs).issuance = top := by
  rw [(evm_fresh hu accs b hn h hed hi).2.2.1]
  have : 1 ≤ accs.length := List.length_pos_iff.2 hne
  have h2 : 1 * top ≤ accs.length * top := Nat.mul_le_mul_right _ this
  omega

/-- **C128.** If the addresses of the specification belong to accounts which have money - as the four accounts they are
paired with - their huge balances change nothing. -/
theorem C128_evm_paired (b : Bank) (accs : List AccId) (h : ∀ a ∈ accs, 0 < b.free a) : evmBalances b accs = b :=
  evm_paired u128Max b accs h

/-- C128, finding: if the addresses belong to accounts of their own, each of them has the largest amount there is; the
issuance stops at this amount and is far from the sum of all balances. -/
theorem C128_evm_fresh (b : Bank) (accs : List AccId) (hn : accs.Nodup) (h : ∀ a ∈ accs, b.accts.get a = none) (hed : b.ed ≤ u128Max)
    (hi : b.issuance ≤ u128Max) (hne : accs ≠ []) :
    (∀ a ∈ accs, (evmBalances b accs).free a = u128Max) ∧ (evmBalances b accs).issuance = u128Max ∧
    (evmBalances b accs).sumAll = b.sumAll + accs.length * u128Max := by
  have hu : 0 < u128Max := by decide
  obtain ⟨k1, _, _, k4⟩ := evm_fresh hu accs b hn h hed hi
  exact ⟨k1, evm_issuance hu accs b hn h hed hi hne, k4⟩

/-! ### Examples -/

def exOthers : Others := ⟨[(3, 77)], [1, 2], 1000, 100, fun _ => 0, Adsc.exAsset, 100⟩

theorem exBuilds : (ChainSpec.build (specCfg Chain.exCfg 5 10 100) exArgs).isSome = true := by
  refine (C122_starts _ exArgs).2 ⟨fun a v h => ?_, by decide, by decide, by decide, by decide⟩
  have := ((lists_balances exArgs).2 a v).2 h
  rw [exBalances] at this
  simp only [List.mem_cons, Prod.mk.injEq, List.not_mem_nil, or_false] at this
  show 5 ≤ v
  omega

/-- The hypotheses are met: with these parameters the node starts with 980, and the theorem is about every later history. -/
example : ∃ c, first Chain.exCfg 5 10 exArgs exOthers = some c ∧ ∀ ops : List Chain.Op, (∀ op ∈ ops, Chain.Iterates op) →
    2 * (Chain.supply (Chain.run Chain.exCfg c ops) + Chain.pool Chain.exCfg (Chain.run Chain.exCfg c ops)) ≤
      2 * (980 + 1000 + Chain.total (Chain.granted Chain.exCfg) Chain.exCfg c ops) + Chain.total (Chain.lastPaid Chain.exCfg) Chain.exCfg c ops := by
  obtain ⟨t, ht⟩ := Option.isSome_iff_exists.1 exBuilds
  refine C128_supply Chain.exCfg 5 10 100 (by decide) exArgs exOthers t ht (by intro s hs; cases hs) [5, 11, 1, 2] (by decide) fun a => ?_
  unfold Named
  simp only [exArgs, List.mem_cons, List.not_mem_nil, or_false, exists_eq_or_imp, exists_eq_left]
  constructor
  · rintro (h | h | h | h) <;> simp [h]
  · rintro ((h | h | h) | (h | h) | h | h) <;> simp [h]

/-- Both authorities have staked; then the first era begins, validator 1 earns its reward of 575340, of which the pool has
1000, and 5 transfers 20 to 9. -/
example :
    ((first Chain.exCfg 5 10 exArgs exOthers).map fun c =>
      let d := Chain.run Chain.exCfg c [.dele (.newEra [1, 2]), .slash (.startEra 0), .dele (.newEra [1, 2]), .slash (.startEra 6), .dele (.addPoints 0 1 20), .dele (.endEra 0),
        .world (.money (.transfer 5 9 20 false))]
      ([(c.w.ledger.ledgers.get 11).map fun l => (l.stash, l.active), (c.w.ledger.ledgers.get 1).map fun l => (l.stash, l.active)],
        [c.w.bank.frozen 1, Chain.supply c, Chain.supply d, Chain.pool Chain.exCfg d, d.w.bank.free 9])) =
    some ([some (1, 400), some (2, 400)], [400, 980, 1980, 0, 20]) := by
  decide +kernel

/-- The four addresses of the EVM: nothing changes if they belong to accounts with money, and the books are wrong otherwise. -/
example : (∀ b, bankOf 5 (balances exArgs) = some b → evmBalances b [5, 11, 1, 2] = b) ∧
    ((bankOf 5 (balances exArgs)).map fun b => ((evmBalances b [21, 22, 23, 24]).issuance, (evmBalances b [21, 22, 23, 24]).sumAll)) =
      some (2 ^ 128 - 1, 980 + 4 * (2 ^ 128 - 1)) := by
  refine ⟨fun b hb => C128_evm_paired b _ fun a ha => ?_, by decide +kernel⟩
  rw [((bank_free (lists_balances exArgs) hb).2.1 a).1]
  simp only [List.mem_cons, List.not_mem_nil, or_false] at ha
  rcases ha with rfl | rfl | rfl | rfl <;> decide

end Verif.ChainGenesis
