import Verif.RuntimeProperties

/-
Who acts for an account: proxies, recovery, batches, derivative accounts and multisignatures together, for any nesting and
any history. The proxy types and their filters are those of the runtime (`Verif/Runtime.lean`, runtime/src/lib.rs:352-410);
the pallets proxy, recovery, utility and multisig are libraries (configured at runtime/src/lib.rs:304-336, 396-410, 1098-1115)
and part of the trusted base.
-/

namespace Verif.Origins

open Verif.Runtime (Pallet ProxyType)

/-- `Utility::batch`, `batch_all`, `force_batch` (library). -/
inductive Batch where
  | stop | all | force
deriving DecidableEq, Repr

/-- Calls of the runtime (`RuntimeCall`, runtime/src/lib.rs:1551-1624), with everything in them that decides who acts for whom.
`plain` is any other call; `ok` says whether it succeeds. -/
inductive RCall where
  | plain (p : Pallet) (n : Nat) (ok : Bool)
  | vestedTransfer (ok : Bool)
  | indicesTransfer (ok : Bool)
  | batch (k : Batch) (l : List RCall)
  | asDerivative (i : Nat) (c : RCall)
  | addProxy (delegate : AccId) (t : ProxyType) (delay : Nat)
  | removeProxy (delegate : AccId) (t : ProxyType) (delay : Nat)
  | removeProxies
  /-- `Proxy::create_pure`; `i` stands for the numbers that make the new account distinct -/
  | createPure (t : ProxyType) (delay i : Nat)
  | killPure (ok : Bool)
  /-- `Proxy::proxy` -/
  | proxy (real : AccId) (force : Option ProxyType) (c : RCall)
  /-- `Proxy::proxy_announced`; `ready`: the call was announced by `delegate` and the delay is over -/
  | proxyAnnounced (delegate real : AccId) (force : Option ProxyType) (ready : Bool) (c : RCall)
  | createRecovery (friends : List AccId) (threshold delay : Nat)
  | initiateRecovery (lost : AccId)
  | vouchRecovery (lost rescuer : AccId)
  | claimRecovery (lost : AccId)
  | closeRecovery (rescuer : AccId)
  | removeRecovery
  | cancelRecovered (a : AccId)
  | asRecovered (a : AccId) (c : RCall)
  /-- `Multisig::as_multi_threshold_1`, or `as_multi` with a higher threshold; `last`: the other approvals are there -/
  | multi (others : List AccId) (threshold : Nat) (last : Bool) (c : RCall)

/-- What a proxy type sees of a call, runtime/src/lib.rs:364-385: its pallet, and which call it is where that matters. -/
def RCall.view : RCall → Runtime.Call
  | .plain p n _ => .plain p n
  | .vestedTransfer _ => .vestedTransfer
  | .indicesTransfer _ => .indicesTransfer
  | .batch _ _ => .batch []
  | .asDerivative i _ => .asDerivative i (.batch [])
  | .addProxy _ t _ => .addProxy t
  | .removeProxy _ t _ => .removeProxy t
  | .removeProxies => .removeProxies
  | .createPure _ _ _ => .plain .proxy 4
  | .killPure _ => .killPure
  | .proxy _ _ _ => .plain .proxy 0
  | .proxyAnnounced _ _ _ _ _ => .plain .proxy 9
  | .createRecovery _ _ _ => .plain .recovery 2
  | .initiateRecovery _ => .plain .recovery 3
  | .vouchRecovery _ _ => .plain .recovery 4
  | .claimRecovery _ => .plain .recovery 5
  | .closeRecovery _ => .plain .recovery 6
  | .removeRecovery => .plain .recovery 7
  | .cancelRecovered _ => .plain .recovery 8
  | .asRecovered _ _ => .plain .recovery 0
  | .multi _ _ _ _ => .plain .multisig 1

/-- `ProxyDefinition` of pallet-proxy (library), with `ProxyType` of runtime/src/lib.rs:400. -/
structure Def where
  delegate : AccId
  type : ProxyType
  delay : Nat
deriving DecidableEq, Repr

structure Cfg where
  /-- `derivative_account_id` of pallet-utility -/
  derive : AccId → Nat → AccId
  /-- `multi_account_id` of pallet-multisig -/
  multiOf : List AccId → Nat → AccId
  /-- `pure_account` of pallet-proxy: creator, block, type, number -/
  pureOf : AccId → Nat → ProxyType → Nat → AccId
  /-- `MaxProxies`, runtime/src/lib.rs:334 -/
  maxProxies : Nat
  /-- `MaxFriends`, runtime/src/lib.rs:1101 -/
  maxFriends : Nat

/-- The tables of pallet-proxy and pallet-recovery (libraries), runtime/src/lib.rs:396-410, 1106-1115. -/
structure State where
  now : Nat := 0
  proxies : FMap AccId (List Def) := ∅
  /-- friends, threshold, delay -/
  recoverable : FMap AccId (List AccId × Nat × Nat) := ∅
  /-- (lost, rescuer) to block of creation and friends that vouched -/
  active : FMap (AccId × AccId) (Nat × List AccId) := ∅
  /-- rescuer to recovered account -/
  recovered : FMap AccId AccId := ∅

/-- A signed origin with the proxy types whose filters it carries. -/
structure Origin where
  who : AccId
  types : List ProxyType

/-- `filter_call` (library) with the filters of `do_proxy`, runtime/src/lib.rs:363-395. -/
def Origin.allows (o : Origin) (c : RCall) : Bool := o.types.all fun t => Runtime.proxyFilter t c.view

/-- Place of a type in the order derived for `ProxyType`, runtime/src/lib.rs:339-357. -/
def place : ProxyType → Nat
  | .any => 0
  | .nonTransfer => 1
  | .governance => 2
  | .staking => 3

/-- The derived order of `ProxyDefinition` (library): delegate, type, delay. -/
def Def.before (x y : Def) : Bool :=
  decide (x.delegate < y.delegate ∨ x.delegate = y.delegate ∧
    (place x.type < place y.type ∨ place x.type = place y.type ∧ x.delay < y.delay))

/-- The proxies of an account are kept in order (`add_proxy_delegate`, library). -/
def insertDef (d : Def) : List Def → List Def
  | [] => [d]
  | x :: l => if d.before x then d :: x :: l else x :: insertDef d l

theorem mem_insertDef (d x : Def) (l : List Def) : x ∈ insertDef d l ↔ x = d ∨ x ∈ l := by
  induction l with
  | nil => simp [insertDef]
  | cons y l ih =>
    simp only [insertDef]
    split
    · simp
    · simp only [List.mem_cons, ih]
      constructor
      · rintro (h | h | h)
        · exact Or.inr (Or.inl h)
        · exact Or.inl h
        · exact Or.inr (Or.inr h)
      · rintro (h | h | h)
        · exact Or.inr (Or.inl h)
        · exact Or.inl h
        · exact Or.inr (Or.inr h)

/-- `find_proxy` of pallet-proxy (library): the first that fits. -/
def findProxy (s : State) (real delegate : AccId) (force : Option ProxyType) : Option Def :=
  ((s.proxies.get real).getD []).find? fun d => d.delegate = delegate && (match force with | none => true | some t => decide (d.type = t))

/-- What was run: account and call. -/
abbrev Log := List (AccId × RCall)

mutual
/-- Dispatch of a call: `none` if it fails (then nothing it did remains); otherwise the new state and the calls run, with the account
each ran for. All libraries; deposits are assumed to be paid. `proxy`, `as_multi` succeed even when the call in them fails. -/
def exec (cfg : Cfg) (s : State) (o : Origin) (c : RCall) : Option (State × Log) :=
  if !o.allows c then none else
  match c with
  | .plain p n ok => if ok then some (s, [(o.who, .plain p n ok)]) else none
  | .vestedTransfer ok => if ok then some (s, [(o.who, .vestedTransfer ok)]) else none
  | .indicesTransfer ok => if ok then some (s, [(o.who, .indicesTransfer ok)]) else none
  | .killPure ok => if ok then some ({ s with proxies := s.proxies.erase o.who }, [(o.who, .killPure ok)]) else none
  | .createPure t delay i =>
    let a := cfg.pureOf o.who s.now t i
    if (s.proxies.get a).getD [] ≠ [] then none
    else some ({ s with proxies := s.proxies.insert a [⟨o.who, t, delay⟩] }, [(o.who, .createPure t delay i)])
  | .batch k l =>
    match execAll cfg s o k l with
    | none => none
    | some (s', lg) => some (s', (o.who, .batch k l) :: lg)
  | .asDerivative i c =>
    match exec cfg s { o with who := cfg.derive o.who i } c with
    | none => none
    | some (s', lg) => some (s', (o.who, .asDerivative i c) :: lg)
  | .addProxy d t delay =>
    let l := (s.proxies.get o.who).getD []
    if d = o.who ∨ (⟨d, t, delay⟩ : Def) ∈ l ∨ cfg.maxProxies ≤ l.length then none
    else some ({ s with proxies := s.proxies.insert o.who (insertDef ⟨d, t, delay⟩ l) }, [(o.who, .addProxy d t delay)])
  | .removeProxy d t delay =>
    let l := (s.proxies.get o.who).getD []
    if (⟨d, t, delay⟩ : Def) ∈ l then
      some ({ s with proxies := s.proxies.insert o.who (l.filter fun x => decide (x ≠ ⟨d, t, delay⟩)) }, [(o.who, .removeProxy d t delay)])
    else none
  | .removeProxies => some ({ s with proxies := s.proxies.erase o.who }, [(o.who, .removeProxies)])
  | .proxy real force c =>
    match findProxy s real o.who force with
    | none => none
    | some d =>
      if d.delay ≠ 0 then none
      else match exec cfg s ⟨real, [d.type]⟩ c with
        | none => some (s, [(o.who, .proxy real force c)])
        | some (s', lg) => some (s', (o.who, .proxy real force c) :: lg)
  | .proxyAnnounced delegate real force ready c =>
    match findProxy s real delegate force with
    | none => none
    | some d =>
      if !ready then none
      else match exec cfg s ⟨real, [d.type]⟩ c with
        | none => some (s, [(o.who, .proxyAnnounced delegate real force ready c)])
        | some (s', lg) => some (s', (o.who, .proxyAnnounced delegate real force ready c) :: lg)
  | .createRecovery friends threshold delay =>
    if s.recoverable.contains o.who ∨ threshold = 0 ∨ friends = [] ∨ friends.length < threshold ∨ cfg.maxFriends < friends.length ∨
        ¬ friends.Pairwise (· < ·) then none
    else some ({ s with recoverable := s.recoverable.insert o.who (friends, threshold, delay) }, [(o.who, .createRecovery friends threshold delay)])
  | .initiateRecovery lost =>
    if !s.recoverable.contains lost ∨ s.active.contains (lost, o.who) then none
    else some ({ s with active := s.active.insert (lost, o.who) (s.now, []) }, [(o.who, .initiateRecovery lost)])
  | .vouchRecovery lost rescuer =>
    match s.recoverable.get lost, s.active.get (lost, rescuer) with
    | some (friends, _, _), some (created, vouched) =>
      if o.who ∉ friends ∨ o.who ∈ vouched then none
      else some ({ s with active := s.active.insert (lost, rescuer) (created, o.who :: vouched) }, [(o.who, .vouchRecovery lost rescuer)])
    | _, _ => none
  | .claimRecovery lost =>
    match s.recoverable.get lost, s.active.get (lost, o.who) with
    | some (_, threshold, delay), some (created, vouched) =>
      if s.recovered.contains o.who ∨ s.now < created + delay ∨ vouched.length < threshold then none
      else some ({ s with recovered := s.recovered.insert o.who lost }, [(o.who, .claimRecovery lost)])
    | _, _ => none
  | .closeRecovery rescuer =>
    if s.active.contains (o.who, rescuer) then some ({ s with active := s.active.erase (o.who, rescuer) }, [(o.who, .closeRecovery rescuer)])
    else none
  | .removeRecovery =>
    if (s.active.entries.any fun e => decide (e.1.1 = o.who)) ∨ !s.recoverable.contains o.who then none
    else some ({ s with recoverable := s.recoverable.erase o.who }, [(o.who, .removeRecovery)])
  | .cancelRecovered a =>
    if s.recovered.get o.who = some a then some ({ s with recovered := s.recovered.erase o.who }, [(o.who, .cancelRecovered a)]) else none
  | .asRecovered a c =>
    if s.recovered.get o.who = some a then
      match exec cfg s ⟨a, []⟩ c with
      | none => none
      | some (s', lg) => some (s', (o.who, .asRecovered a c) :: lg)
    else none
  | .multi others threshold last c =>
    if threshold = 1 then
      match exec cfg s ⟨cfg.multiOf (o.who :: others) threshold, []⟩ c with
      | none => none
      | some (s', lg) => some (s', (o.who, .multi others threshold last c) :: lg)
    else if last then
      match exec cfg s ⟨cfg.multiOf (o.who :: others) threshold, []⟩ c with
      | none => some (s, [(o.who, .multi others threshold last c)])
      | some (s', lg) => some (s', (o.who, .multi others threshold last c) :: lg)
    else some (s, [(o.who, .multi others threshold last c)])

/-- The calls of a batch, one after the other (library): `batch` ends with the first that fails, `batch_all` fails as a whole,
`force_batch` goes on. -/
def execAll (cfg : Cfg) (s : State) (o : Origin) (k : Batch) (l : List RCall) : Option (State × Log) :=
  match l with
  | [] => some (s, [])
  | c :: l =>
    match exec cfg s o c with
    | none =>
      match k with
      | .stop => some (s, [])
      | .all => none
      | .force => execAll cfg s o k l
    | some (s1, lg1) =>
      match execAll cfg s1 o k l with
      | none => none
      | some (s2, lg2) => some (s2, lg1 ++ lg2)
end

inductive Op where
  /-- a signed extrinsic -/
  | signed (who : AccId) (c : RCall)
  | block

/-- One event on the chain: signed extrinsics start with an origin without filters. -/
def step (cfg : Cfg) (s : State) : Op → State × Log
  | .signed who c => (exec cfg s ⟨who, []⟩ c).getD (s, [])
  | .block => ({ s with now := s.now + 1 }, [])

/-- A history, with everything that was run in it. -/
def run (cfg : Cfg) (s : State) : List Op → State × Log
  | [] => (s, [])
  | o :: os =>
    let r := step cfg s o
    let r' := run cfg r.1 os
    (r'.1, r.2 ++ r'.2)

/-! ### Specification -/

/-- All proxies of the account are at most of type `t`, it is not prepared for recovery and nobody has recovered it. -/
structure Bounded (t : ProxyType) (real : AccId) (s : State) : Prop where
  proxies : ∀ d ∈ (s.proxies.get real).getD [], t.isSuperset d.type = true
  config : s.recoverable.get real = none
  recovered : ∀ w, s.recovered.get w ≠ some real

/-- The account is not made of others: no derivative account, no multisignature, no pure proxy. -/
structure Plain (cfg : Cfg) (real : AccId) : Prop where
  derive : ∀ w i, cfg.derive w i ≠ real
  multi : ∀ l n, cfg.multiOf l n ≠ real
  pure : ∀ w b t i, cfg.pureOf w b t i ≠ real

/-- Origins of the account carry a filter of a type below `t`. -/
def Good (t : ProxyType) (real : AccId) (o : Origin) : Prop := o.who = real → ∃ u ∈ o.types, t.isSuperset u = true

theorem filter_of_proxyFilter (u : ProxyType) (c : Runtime.Call) (h : Runtime.proxyFilter u c = true) : u.filter c = true := by
  unfold Runtime.proxyFilter at h
  split at h
  all_goals first
    | exact h
    | (split at h
       · exact h
       · cases h)

theorem allowed {t : ProxyType} {real : AccId} {o : Origin} {c : RCall} (hg : Good t real o) (hw : o.who = real) (ha : o.allows c = true) :
    ∃ u, t.isSuperset u = true ∧ Runtime.proxyFilter u c.view = true ∧ t.filter c.view = true := by
  obtain ⟨u, hu, hs⟩ := hg hw
  have h := List.all_eq_true.1 ha u hu
  exact ⟨u, hs, h, Runtime.C50_superset t u hs _ (filter_of_proxyFilter u _ h)⟩

/-- The account has not been prepared for recovery in what was run, if the type allows that at all. -/
def NoRec (t : ProxyType) (real : AccId) (lg : Log) : Prop :=
  t.filter (.plain .recovery 2) = true → ∀ f n d, (real, RCall.createRecovery f n d) ∉ lg

/-- What was run for the account passes the filter of the type. -/
def Pass (t : ProxyType) (real : AccId) (lg : Log) : Prop := ∀ x ∈ lg, x.1 = real → t.filter x.2.view = true

theorem NoRec.left {t : ProxyType} {real : AccId} {a b : Log} (h : NoRec t real (a ++ b)) : NoRec t real a :=
  fun ht f n d hm => h ht f n d (List.mem_append_left _ hm)

theorem NoRec.right {t : ProxyType} {real : AccId} {a b : Log} (h : NoRec t real (a ++ b)) : NoRec t real b :=
  fun ht f n d hm => h ht f n d (List.mem_append_right _ hm)

theorem NoRec.tail {t : ProxyType} {real : AccId} {x : AccId × RCall} {b : Log} (h : NoRec t real (x :: b)) : NoRec t real b :=
  fun ht f n d hm => h ht f n d (List.mem_cons_of_mem _ hm)

theorem Pass.append {t : ProxyType} {real : AccId} {a b : Log} (ha : Pass t real a) (hb : Pass t real b) : Pass t real (a ++ b) := by
  intro x hx
  rcases List.mem_append.1 hx with h | h
  · exact ha x h
  · exact hb x h

theorem Pass.cons {t : ProxyType} {real : AccId} {o : Origin} {c : RCall} {b : Log} (hg : Good t real o) (ha : o.allows c = true)
    (hb : Pass t real b) : Pass t real ((o.who, c) :: b) := by
  intro x hx hr
  rcases List.mem_cons.1 hx with h | h
  · subst h
    obtain ⟨_, _, _, h⟩ := allowed hg hr ha
    exact h
  · exact hb x h hr

theorem Pass.nil {t : ProxyType} {real : AccId} : Pass t real [] := fun x hx => by cases hx

/-- The tables of the account are kept when others' are written. -/
theorem Bounded.insert_proxies {t : ProxyType} {real : AccId} {s : State} (h : Bounded t real s) (a : AccId) (l : List Def)
    (hl : a = real → ∀ d ∈ l, t.isSuperset d.type = true) : Bounded t real { s with proxies := s.proxies.insert a l } := by
  refine ⟨?_, h.config, h.recovered⟩
  show ∀ d ∈ ((s.proxies.insert a l).get real).getD [], _
  rw [FMap.get_insert]
  by_cases e : real = a
  · simp only [e, if_true, Option.getD_some]; exact hl e.symm
  · simp only [e, if_false]; exact h.proxies

theorem Bounded.erase_proxies {t : ProxyType} {real : AccId} {s : State} (h : Bounded t real s) (a : AccId) :
    Bounded t real { s with proxies := s.proxies.erase a } := by
  refine ⟨?_, h.config, h.recovered⟩
  show ∀ d ∈ ((s.proxies.erase a).get real).getD [], _
  rw [FMap.get_erase]
  by_cases e : real = a
  · simp [e]
  · simp only [e, if_false]; exact h.proxies

theorem found {t : ProxyType} {real : AccId} {s : State} (h : Bounded t real s) {a d : AccId} {f : Option ProxyType} {x : Def}
    (hx : findProxy s a d f = some x) : Good t real ⟨a, [x.type]⟩ := by
  intro e
  have : a = real := e
  subst this
  exact ⟨x.type, List.mem_singleton.2 rfl, h.proxies x (List.mem_of_find?_eq_some hx)⟩

mutual
theorem exec_sound (cfg : Cfg) {t : ProxyType} {real : AccId} (hp : Plain cfg real) (s : State) (o : Origin) (c : RCall) (s' : State) (lg : Log)
    (h : exec cfg s o c = some (s', lg)) (hb : Bounded t real s) (hg : Good t real o) (hn : NoRec t real lg) :
    Bounded t real s' ∧ Pass t real lg := by
  unfold exec at h
  by_cases ha : o.allows c = true
  · simp only [ha, Bool.not_true, Bool.false_eq_true, if_false] at h
    match c with
    | .plain p n ok =>
      simp only at h
      split at h
      · cases h; exact ⟨hb, Pass.cons hg ha Pass.nil⟩
      · cases h
    | .vestedTransfer ok =>
      simp only at h
      split at h
      · cases h; exact ⟨hb, Pass.cons hg ha Pass.nil⟩
      · cases h
    | .indicesTransfer ok =>
      simp only at h
      split at h
      · cases h; exact ⟨hb, Pass.cons hg ha Pass.nil⟩
      · cases h
    | .killPure ok =>
      simp only at h
      split at h
      · cases h; exact ⟨hb.erase_proxies _, Pass.cons hg ha Pass.nil⟩
      · cases h
    | .createPure u delay i =>
      simp only at h
      split at h
      · cases h
      · cases h
        exact ⟨hb.insert_proxies _ _ (fun e => absurd e (hp.pure _ _ _ _)), Pass.cons hg ha Pass.nil⟩
    | .batch k l =>
      simp only at h
      cases hx : execAll cfg s o k l with
      | none => rw [hx] at h; cases h
      | some r =>
        obtain ⟨s1, lg1⟩ := r
        rw [hx] at h
        cases h
        obtain ⟨h1, h2⟩ := execAll_sound cfg hp s o k l s' lg1 hx hb hg hn.tail
        exact ⟨h1, Pass.cons hg ha h2⟩
    | .asDerivative i c =>
      simp only at h
      cases hx : exec cfg s { o with who := cfg.derive o.who i } c with
      | none => rw [hx] at h; cases h
      | some r =>
        obtain ⟨s1, lg1⟩ := r
        rw [hx] at h
        cases h
        obtain ⟨h1, h2⟩ := exec_sound cfg hp s _ c s' lg1 hx hb (fun e => absurd e (hp.derive _ _)) hn.tail
        exact ⟨h1, Pass.cons hg ha h2⟩
    | .addProxy d u delay =>
      simp only at h
      split at h
      · cases h
      · cases h
        refine ⟨hb.insert_proxies _ _ ?_, Pass.cons hg ha Pass.nil⟩
        intro e x hx
        obtain ⟨v, hv, hpf, _⟩ := allowed hg e ha
        rcases (mem_insertDef _ _ _).1 hx with hx | hx
        · subst hx
          simp only [RCall.view, Runtime.proxyFilter] at hpf
          split at hpf
          · rename_i hvu
            exact Runtime.C50_order.2.1 _ _ _ hv hvu
          · cases hpf
        · rw [e] at hx; exact hb.proxies x hx
    | .removeProxy d u delay =>
      simp only at h
      split at h
      · cases h
        refine ⟨hb.insert_proxies _ _ ?_, Pass.cons hg ha Pass.nil⟩
        intro e x hx
        have := (List.mem_filter.1 hx).1
        rw [e] at this
        exact hb.proxies x this
      · cases h
    | .removeProxies =>
      cases h
      exact ⟨hb.erase_proxies _, Pass.cons hg ha Pass.nil⟩
    | .proxy a f c =>
      simp only at h
      cases hf : findProxy s a o.who f with
      | none => rw [hf] at h; cases h
      | some d =>
        rw [hf] at h
        simp only at h
        split at h
        · cases h
        · cases hx : exec cfg s ⟨a, [d.type]⟩ c with
          | none => rw [hx] at h; cases h; exact ⟨hb, Pass.cons hg ha Pass.nil⟩
          | some r =>
            obtain ⟨s1, lg1⟩ := r
            rw [hx] at h
            cases h
            obtain ⟨h1, h2⟩ := exec_sound cfg hp s _ c s' lg1 hx hb (found hb hf) hn.tail
            exact ⟨h1, Pass.cons hg ha h2⟩
    | .proxyAnnounced dd a f ready c =>
      simp only at h
      cases hf : findProxy s a dd f with
      | none => rw [hf] at h; cases h
      | some d =>
        rw [hf] at h
        simp only at h
        split at h
        · cases h
        · cases hx : exec cfg s ⟨a, [d.type]⟩ c with
          | none => rw [hx] at h; cases h; exact ⟨hb, Pass.cons hg ha Pass.nil⟩
          | some r =>
            obtain ⟨s1, lg1⟩ := r
            rw [hx] at h
            cases h
            obtain ⟨h1, h2⟩ := exec_sound cfg hp s _ c s' lg1 hx hb (found hb hf) hn.tail
            exact ⟨h1, Pass.cons hg ha h2⟩
    | .createRecovery f n d =>
      simp only at h
      split at h
      · cases h
      · cases h
        refine ⟨⟨hb.proxies, ?_, hb.recovered⟩, Pass.cons hg ha Pass.nil⟩
        show (s.recoverable.insert o.who (f, n, d)).get real = none
        rw [FMap.get_insert]
        by_cases e : real = o.who
        · exfalso
          obtain ⟨_, _, _, ht⟩ := allowed hg e.symm ha
          refine hn ht f n d ?_
          rw [e]; exact List.mem_cons_self
        · simp only [e, if_false]; exact hb.config
    | .initiateRecovery lost =>
      simp only at h
      split at h
      · cases h
      · cases h
        exact ⟨⟨hb.proxies, hb.config, hb.recovered⟩, Pass.cons hg ha Pass.nil⟩
    | .vouchRecovery lost rescuer =>
      simp only at h
      split at h
      · split at h
        · cases h
        · cases h
          exact ⟨⟨hb.proxies, hb.config, hb.recovered⟩, Pass.cons hg ha Pass.nil⟩
      · cases h
    | .claimRecovery lost =>
      simp only at h
      split at h
      · rename_i hr _
        split at h
        · cases h
        · cases h
          refine ⟨⟨hb.proxies, hb.config, ?_⟩, Pass.cons hg ha Pass.nil⟩
          intro w
          show (s.recovered.insert o.who lost).get w ≠ some real
          rw [FMap.get_insert]
          by_cases e : w = o.who
          · simp only [e, if_true, ne_eq, Option.some.injEq]
            intro hl
            rw [hl, hb.config] at hr
            cases hr
          · simp only [e, if_false]; exact hb.recovered w
      · cases h
    | .closeRecovery rescuer =>
      simp only at h
      split at h
      · cases h
        exact ⟨⟨hb.proxies, hb.config, hb.recovered⟩, Pass.cons hg ha Pass.nil⟩
      · cases h
    | .removeRecovery =>
      simp only at h
      split at h
      · cases h
      · cases h
        refine ⟨⟨hb.proxies, ?_, hb.recovered⟩, Pass.cons hg ha Pass.nil⟩
        show (s.recoverable.erase o.who).get real = none
        rw [FMap.get_erase]
        split
        · rfl
        · exact hb.config
    | .cancelRecovered a =>
      simp only at h
      split at h
      · cases h
        refine ⟨⟨hb.proxies, hb.config, ?_⟩, Pass.cons hg ha Pass.nil⟩
        intro w
        show (s.recovered.erase o.who).get w ≠ some real
        rw [FMap.get_erase]
        split
        · intro e; cases e
        · exact hb.recovered w
      · cases h
    | .asRecovered a c =>
      simp only at h
      split at h
      · rename_i hr
        cases hx : exec cfg s ⟨a, []⟩ c with
        | none => rw [hx] at h; cases h
        | some r =>
          obtain ⟨s1, lg1⟩ := r
          rw [hx] at h
          cases h
          obtain ⟨h1, h2⟩ := exec_sound cfg hp s _ c s' lg1 hx hb (fun e => by
            have e' : a = real := e
            rw [e'] at hr
            exact absurd hr (hb.recovered _)) hn.tail
          exact ⟨h1, Pass.cons hg ha h2⟩
      · cases h
    | .multi others n last c =>
      simp only at h
      have hgood : Good t real ⟨cfg.multiOf (o.who :: others) n, []⟩ := fun e => absurd e (hp.multi _ _)
      split at h
      · cases hx : exec cfg s ⟨cfg.multiOf (o.who :: others) n, []⟩ c with
        | none => rw [hx] at h; cases h
        | some r =>
          obtain ⟨s1, lg1⟩ := r
          rw [hx] at h
          cases h
          obtain ⟨h1, h2⟩ := exec_sound cfg hp s _ c s' lg1 hx hb hgood hn.tail
          exact ⟨h1, Pass.cons hg ha h2⟩
      · split at h
        · cases hx : exec cfg s ⟨cfg.multiOf (o.who :: others) n, []⟩ c with
          | none => rw [hx] at h; cases h; exact ⟨hb, Pass.cons hg ha Pass.nil⟩
          | some r =>
            obtain ⟨s1, lg1⟩ := r
            rw [hx] at h
            cases h
            obtain ⟨h1, h2⟩ := exec_sound cfg hp s _ c s' lg1 hx hb hgood hn.tail
            exact ⟨h1, Pass.cons hg ha h2⟩
        · cases h; exact ⟨hb, Pass.cons hg ha Pass.nil⟩
  · have ha' : o.allows c = false := by simpa using ha
    simp [ha'] at h

theorem execAll_sound (cfg : Cfg) {t : ProxyType} {real : AccId} (hp : Plain cfg real) (s : State) (o : Origin) (k : Batch) (l : List RCall)
    (s' : State) (lg : Log) (h : execAll cfg s o k l = some (s', lg)) (hb : Bounded t real s) (hg : Good t real o) (hn : NoRec t real lg) :
    Bounded t real s' ∧ Pass t real lg := by
  match l with
  | [] => simp only [execAll] at h; cases h; exact ⟨hb, Pass.nil⟩
  | c :: l =>
    simp only [execAll] at h
    cases hx : exec cfg s o c with
    | none =>
      rw [hx] at h
      cases k with
      | stop => cases h; exact ⟨hb, Pass.nil⟩
      | all => cases h
      | force => exact execAll_sound cfg hp s o .force l s' lg h hb hg hn
    | some r =>
      obtain ⟨s1, lg1⟩ := r
      rw [hx] at h
      simp only at h
      cases hy : execAll cfg s1 o k l with
      | none => rw [hy] at h; cases h
      | some r2 =>
        obtain ⟨s2, lg2⟩ := r2
        rw [hy] at h
        cases h
        obtain ⟨h1, h2⟩ := exec_sound cfg hp s o c s1 lg1 hx hb hg hn.left
        obtain ⟨h3, h4⟩ := execAll_sound cfg hp s1 o k l s' lg2 hy h1 hg hn.right
        exact ⟨h3, h2.append h4⟩
end

/-- C130 (whatever the proxies do): let all proxies of an account be at most of type `t`, and let the account itself sign nothing.
Then in every history, with any nesting of batches, proxies, multisignatures, derivative and recovered accounts, every call that runs
for the account passes the filter of `t`, and all its proxies stay at most of type `t`. The exception, if `t` allows the recovery
pallet: that a proxy prepares the account for recovery. -/
theorem C130_delegated_partial (cfg : Cfg) (t : ProxyType) (real : AccId) (hp : Plain cfg real) (ops : List Op) :
    ∀ s, Bounded t real s → (∀ c, .signed real c ∉ ops) → NoRec t real (run cfg s ops).2 →
      Bounded t real (run cfg s ops).1 ∧ ∀ x ∈ (run cfg s ops).2, x.1 = real → t.filter x.2.view = true := by
  induction ops with
  | nil => intro s hb _ _; exact ⟨hb, Pass.nil⟩
  | cons o os ih =>
    intro s hb hs hn
    simp only [run] at hn ⊢
    have h1 : Bounded t real (step cfg s o).1 ∧ Pass t real (step cfg s o).2 := by
      cases o with
      | block => exact ⟨⟨hb.proxies, hb.config, hb.recovered⟩, Pass.nil⟩
      | signed w c =>
        have hn' := hn.left
        simp only [step] at hn' ⊢
        cases hx : exec cfg s ⟨w, []⟩ c with
        | none => exact ⟨hb, Pass.nil⟩
        | some r =>
          obtain ⟨s1, lg1⟩ := r
          rw [hx] at hn'
          refine exec_sound cfg hp s _ c s1 lg1 hx hb (fun e => ?_) hn'
          have e' : w = real := e
          exact absurd (by rw [e']; exact List.mem_cons_self) (hs c)
    obtain ⟨h2, h3⟩ := ih _ h1.1 (fun c hm => hs c (List.mem_cons_of_mem _ hm)) hn.right
    exact ⟨h2, h1.2.append h3⟩

/-- C130, the same for the two types below non-transfer: there is no exception, and what runs for the account are calls of the
pallets of that type. -/
theorem C130_narrow (cfg : Cfg) (t : ProxyType) (ht : t = .governance ∨ t = .staking) (real : AccId) (hp : Plain cfg real)
    (ops : List Op) (s : State) (hb : Bounded t real s) (hs : ∀ c, .signed real c ∉ ops) :
    ∀ x ∈ (run cfg s ops).2, x.1 = real → x.2.view.pallet ∈
      (if t = .staking then [Pallet.staking] else [.democracy, .council, .society, .technicalCommittee, .elections, .treasury]) := by
  intro x hx hr
  have hn : NoRec t real (run cfg s ops).2 := by
    intro hf
    rcases ht with rfl | rfl
    · exact absurd hf (by decide)
    · exact absurd hf (by decide)
  have h := (C130_delegated_partial cfg t real hp ops s hb hs hn).2 x hx hr
  rcases ht with rfl | rfl
  · simp only [ProxyType.filter, List.contains_iff_mem] at h
    rw [if_neg (by decide)]
    exact h
  · simp only [ProxyType.filter, decide_eq_true_eq] at h
    rw [if_pos rfl]
    exact List.mem_singleton.2 h

/-- No other entry of the delegate: the one given is found. -/
theorem find_insertDef (d : Def) (l : List Def) (hl : ∀ x ∈ l, x.delegate ≠ d.delegate) (force : Option ProxyType) :
    (insertDef d l).find? (fun x => x.delegate = d.delegate && (match force with | none => true | some t => decide (x.type = t))) =
      if force = none ∨ force = some d.type then some d else none := by
  induction l with
  | nil =>
    cases force with
    | none => simp [insertDef]
    | some t => by_cases h : d.type = t
                · simp [insertDef, h]
                · have h' : t ≠ d.type := fun e => h e.symm
                  simp [insertDef, h, h']
  | cons y l ih =>
    have hy : y.delegate ≠ d.delegate := hl y List.mem_cons_self
    have hl' : ∀ x ∈ l, x.delegate ≠ d.delegate := fun x hx => hl x (List.mem_cons_of_mem _ hx)
    simp only [insertDef]
    by_cases hb : d.before y = true
    · rw [if_pos hb]
      have hn : ∀ f : Def → Bool, List.find? (fun x => decide (x.delegate = d.delegate) && f x) (y :: l) = none := by
        intro f
        rw [List.find?_eq_none]
        intro x hx
        simp [hl x hx]
      rw [List.find?_cons]
      cases force with
      | none => simp
      | some t =>
        by_cases h : d.type = t
        · simp [h]
        · have h' : t ≠ d.type := fun e => h e.symm
          simp only [h, decide_false, Bool.and_false]
          rw [hn]
          simp [h']
    · rw [if_neg hb, List.find?_cons_of_neg (by simp [hy])]
      exact ih hl'

/-- C130, the other direction: whom an account makes its proxy, without delay, can act for it from then on, with or without naming the
type: exactly the calls that pass the filter of the type run in its name. Once the account has taken the proxy back nothing does. -/
theorem C130_works (cfg : Cfg) (s : State) (real d : AccId) (t : ProxyType) (hd : d ≠ real)
    (hn : ∀ x ∈ (s.proxies.get real).getD [], x.delegate ≠ d) (hr : ((s.proxies.get real).getD []).length < cfg.maxProxies)
    (force : Option ProxyType) (hf : force = none ∨ force = some t) (p : Pallet) (n : Nat) :
    let given := [Op.signed real (.addProxy d t 0)]
    let act := Op.signed d (.proxy real force (.plain p n true))
    ((real, .plain p n true) ∈ (step cfg (run cfg s given).1 act).2 ↔ t.filter (.plain p n) = true) ∧
    (step cfg (run cfg s (given ++ [.signed real (.removeProxy d t 0)])).1 act).2 = [] := by
  have hnot : (⟨d, t, 0⟩ : Def) ∉ (s.proxies.get real).getD [] := fun h => hn _ h rfl
  have h1 : exec cfg s ⟨real, []⟩ (.addProxy d t 0) = some ({ s with
      proxies := s.proxies.insert real (insertDef ⟨d, t, 0⟩ ((s.proxies.get real).getD [])) }, [(real, .addProxy d t 0)]) := by
    rw [exec]
    simp only [Origin.allows, List.all_nil, Bool.not_true, Bool.false_eq_true, if_false]
    rw [if_neg]
    rintro (h | h | h)
    · exact hd h
    · exact hnot h
    · omega
  generalize hl : (s.proxies.get real).getD [] = l at *
  have hg : (run cfg s [Op.signed real (.addProxy d t 0)]).1 =
      { s with proxies := s.proxies.insert real (insertDef ⟨d, t, 0⟩ l) } := by
    simp only [run, step, h1, Option.getD_some]
  have hfind := find_insertDef ⟨d, t, 0⟩ l hn force
  rw [if_pos hf] at hfind
  refine ⟨?_, ?_⟩
  · rw [hg]
    simp only [step]
    rw [exec]
    simp only [Origin.allows, List.all_nil, Bool.not_true, Bool.false_eq_true, if_false, findProxy, FMap.get_insert_self,
      Option.getD_some, hfind, ne_eq, not_true_eq_false]
    rw [exec]
    simp only [Origin.allows, List.all_cons, List.all_nil, Bool.and_true, RCall.view, Runtime.proxyFilter]
    cases ht : t.filter (.plain p n)
    · simp
    · simp
  · have h2 : (run cfg s ([Op.signed real (.addProxy d t 0)] ++ [.signed real (.removeProxy d t 0)])).1 =
        { s with
          proxies := (s.proxies.insert real (insertDef ⟨d, t, 0⟩ l)).insert real
            ((insertDef ⟨d, t, 0⟩ l).filter fun x => decide (x ≠ ⟨d, t, 0⟩)) } := by
      simp only [List.singleton_append, run, step, h1, Option.getD_some]
      rw [exec]
      simp only [Origin.allows, List.all_nil, Bool.not_true, Bool.false_eq_true, if_false, FMap.get_insert_self, Option.getD_some]
      rw [if_pos ((mem_insertDef _ _ _).2 (Or.inl rfl))]
      rfl
    rw [h2]
    simp only [step]
    rw [exec]
    have hnone : ∀ f : Def → Bool, List.find? (fun x => decide (x.delegate = d) && f x)
        ((insertDef ⟨d, t, 0⟩ l).filter fun x => decide (x ≠ ⟨d, t, 0⟩)) = none := by
      intro f
      rw [List.find?_eq_none]
      intro x hx
      rw [List.mem_filter, mem_insertDef] at hx
      obtain ⟨hx | hx, hx'⟩ := hx
      · simp [hx] at hx'
      · simp [hn x hx]
    simp only [Origin.allows, List.all_nil, Bool.not_true, Bool.false_eq_true, if_false, findProxy, FMap.get_insert_self,
      Option.getD_some, hnone, Option.getD_none]

/-- Concrete accounts for examples. -/
def exCfg : Cfg := ⟨fun a i => 1000 + 100 * a + i, fun l n => 100000 + l.sum * 100 + n,
  fun a b t i => 10000000 + a * 10000 + b * 100 + place t * 10 + i, 32, 9⟩

/-- Account 2 is a non-transfer proxy of account 1. -/
def exState : State := { proxies := (∅ : FMap AccId (List Def)).insert 1 [⟨2, .nonTransfer, 0⟩] }

/-- C130, failure: a non-transfer proxy takes the account over. It makes itself and a helper the friends who recover the account,
after which its transfers run without any filter. -/
theorem C130_taken_over :
    let ops := [Op.signed 2 (.proxy 1 none (.createRecovery [2] 1 0)), .signed 3 (.initiateRecovery 1), .signed 2 (.vouchRecovery 1 3),
      .signed 3 (.claimRecovery 1), .signed 3 (.asRecovered 1 (.plain .balances 0 true))]
    ((run exCfg exState ops).2.map fun x => (x.1, x.2.view.pallet)) =
      [(2, .proxy), (1, .recovery), (3, .recovery), (2, .recovery), (3, .recovery), (3, .recovery), (1, .balances)] := by
  decide +kernel

/-- The hypotheses of C130_delegated_partial in a history with nested proxies: 2 is a proxy of 1, and 5 an `Any` proxy of 2. The transfer is
filtered, the vote is not, a proxy of type `Any` is not granted, one of type staking is. -/
example :
    let s := (run exCfg exState [.signed 2 (.addProxy 5 .any 0)]).1
    let ops := [Op.signed 5 (.proxy 2 none (.batch .force [.proxy 1 none (.plain .balances 0 true), .proxy 1 none (.plain .democracy 3 true),
      .proxy 1 none (.addProxy 6 .any 0), .proxy 1 none (.addProxy 6 .staking 0), .plain .balances 0 true]))]
    (((run exCfg s ops).2.filter fun x => decide (x.1 = 1)).map fun x => x.2.view.pallet) = [.democracy, .proxy] ∧
    (((run exCfg s ops).1.proxies.get 1).getD []).map (fun d => (d.delegate, d.type)) = [(2, .nonTransfer), (6, .staking)] ∧
    ((run exCfg s ops).2.filter fun x => decide (x.1 = 2)).map (fun x => x.2.view.pallet) = [.utility, .proxy, .proxy, .proxy, .proxy, .balances] := by
  decide +kernel

/-- The hypotheses of C130_works beside a proxy there already is. -/
example : (5 : AccId) ≠ 1 ∧ (∀ x ∈ (exState.proxies.get 1).getD [], x.delegate ≠ 5) ∧
    ((exState.proxies.get 1).getD []).length < exCfg.maxProxies := by decide

example : Bounded .nonTransfer 1 exState := by
  refine ⟨?_, rfl, fun w e => by cases e⟩
  decide

example : Plain exCfg 1 := ⟨fun w i => by show 1000 + 100 * w + i ≠ 1; omega, fun l n => by show 100000 + l.sum * 100 + n ≠ 1; omega,
  fun w b t i => by show 10000000 + w * 10000 + b * 100 + place t * 10 + i ≠ 1; omega⟩

end Verif.Origins
