import Verif.GenesisProperties
import Verif.CouncilProperties
import Mathlib.Data.List.Nodup
import Mathlib.Data.List.Perm.Basic
import Mathlib.Data.List.Infix
import Mathlib.Algebra.BigOperators.Group.List.Basic

/-!
# The chain specifications built by the node

`testnet_genesis` (cli/src/chain_spec.rs:121-360) turns authorities, endowed accounts and amounts into the configuration of
the first block; `development_config_genesis` (466-512) and `local_testnet_genesis` (530-590) call it. What is done with the
configuration: balances, staking, technical committee, council elections and credit, in the order of `construct_runtime!`
(runtime/src/lib.rs:1551-1624).

## Simplifications

* Session keys, the authorities of the consensus, the settings of the device registry, the accounts of the EVM and the key
  of sudo are left out.
* Issuance does not overflow `u128`.
-/

namespace Verif.ChainSpec

open Verif

/-- Stash and controller of an authority, cli/src/chain_spec.rs:122-129. -/
structure Authority where
  stash : AccId
  controller : AccId
deriving DecidableEq, Repr

/-- Arguments of `testnet_genesis`, cli/src/chain_spec.rs:121-138. -/
structure Args where
  authorities : List Authority
  authorityEndowment : Balance
  stash : Balance
  endowed : List AccId
  endowment : Balance
  settings : List Credit.Setting := []
  users : List (AccId × Credit.Data) := []

/-- An account is given an amount unless it has one, cli/src/chain_spec.rs:142-145; the set `accounts` holds the accounts in
the list. -/
def push (l : List (AccId × Balance)) (a : AccId) (v : Balance) : List (AccId × Balance) :=
  if a ∈ l.map Prod.fst then l else l ++ [(a, v)]

/-- The balances of the configuration, cli/src/chain_spec.rs:139-156. -/
def balances (g : Args) : List (AccId × Balance) :=
  let l := g.endowed.foldl (fun l a => push l a g.endowment) []
  g.authorities.foldl (fun l x => push (push l x.stash g.stash) x.controller g.authorityEndowment) l

/-- The part of the configuration for staking and credit, cli/src/chain_spec.rs:175-187 and 254-257. -/
def staking (dpr : Balance) (g : Args) : Genesis.Spec :=
  { validatorCount := g.authorities.length, minValidators := g.authorities.length, eraReward := 57534 * dpr
    stakers := g.authorities.map fun x => ⟨x.stash, x.controller, g.stash, true⟩
    settings := g.settings, users := g.users }

/-- The members of the council, cli/src/chain_spec.rs:189-196. -/
def council (g : Args) : List (AccId × Balance) :=
  (g.authorities.take ((g.authorities.length + 1) / 2)).map fun x => (x.stash, g.stash)

/-- The technical committee, cli/src/chain_spec.rs:197-204. -/
def committee (g : Args) : List AccId := g.endowed.take ((g.endowed.length + 1) / 2)

/-- Genesis of the balances pallet (library, configured in runtime/src/lib.rs:494-511): no amount below the existential
deposit, no account twice (otherwise the node does not start: `none`). -/
def bankOf (ed : Balance) (l : List (AccId × Balance)) : Option Bank :=
  if (∀ e ∈ l, ed ≤ e.2) ∧ (l.map Prod.fst).Nodup then
    some { ed := ed, accts := l.foldl (fun m e => m.insert e.1 ⟨e.2, 0⟩) ∅, frozen := fun _ => 0, pinned := fun _ => false, issuance := (l.map Prod.snd).sum }
  else none

/-- The first block. -/
structure First where
  stk : StakingCredit.State
  council : Council.State
  committee : List AccId

/-- Genesis of the technical committee (library, configured in runtime/src/lib.rs:790-806): no member twice, and not too
many. -/
def committeeOf (limit : Nat) (l : List AccId) : Option (List AccId) :=
  if l.Nodup ∧ l.length ≤ limit then some l else none

/-- The parameters of the runtime. -/
structure Cfg where
  ed : Balance
  /-- one DPR -/
  dpr : Balance
  stk : StakingCredit.Cfg
  council : Council.Cfg
  /-- `TechnicalMaxMembers`, runtime/src/lib.rs:791 -/
  committee : Nat

/-- The first block of the configuration, in the order of the pallets, runtime/src/lib.rs:1551-1624; `none`: the node does
not start. The locks on accounts at the genesis of the council are those of the stakes. -/
def build (cfg : Cfg) (g : Args) : Option First :=
  match bankOf cfg.ed (balances g) with
  | none => none
  | some b =>
    match Genesis.build cfg.stk b (staking cfg.dpr g) with
    | none => none
    | some s =>
      match committeeOf cfg.committee (committee g) with
      | none => none
      | some tc =>
        match Council.genesis cfg.council s.dele.led.bank (Ledger.lockOf s.dele.led) (council g) with
        | none => none
        | some c => some ⟨s, c, tc⟩

/-! ### What the configuration says, independently -/

/-- The amount of an account in its first role among the authorities. -/
def firstRole (stash ctrl : Balance) (a : AccId) : List Authority → Option Balance
  | [] => none
  | x :: xs => if a = x.stash then some stash else if a = x.controller then some ctrl else firstRole stash ctrl a xs

/-- The amount of an account: the endowment if it is endowed, else that of its first role. -/
def share (g : Args) (a : AccId) : Option Balance :=
  if a ∈ g.endowed then some g.endowment else firstRole g.stash g.authorityEndowment a g.authorities

/-- The accounts the configuration names. -/
def Named (g : Args) (a : AccId) : Prop := a ∈ g.endowed ∨ ∃ x ∈ g.authorities, a = x.stash ∨ a = x.controller

theorem firstRole_some (s c : Balance) (a : AccId) (xs : List Authority) :
    (∃ v, firstRole s c a xs = some v) ↔ ∃ x ∈ xs, a = x.stash ∨ a = x.controller := by
  induction xs with
  | nil => simp [firstRole]
  | cons x xs ih =>
    unfold firstRole
    split
    · rename_i h; simp [h]
    · rename_i h1
      split
      · rename_i h; simp [h]
      · rename_i h2
        rw [ih]
        simp [h1, h2]

theorem share_named (g : Args) (a : AccId) : (∃ v, share g a = some v) ↔ Named g a := by
  unfold share Named
  split
  · rename_i h; simp [h]
  · rename_i h
    rw [firstRole_some]
    simp [h]

/-! ### The list of balances -/

/-- The amounts `f` are those of the list, in which no account is twice. -/
def Lists (l : List (AccId × Balance)) (f : AccId → Option Balance) : Prop :=
  (l.map Prod.fst).Nodup ∧ ∀ a v, (a, v) ∈ l ↔ f a = some v

theorem lists_push {l : List (AccId × Balance)} {f : AccId → Option Balance} (h : Lists l f) (a : AccId) (v : Balance) :
    Lists (push l a v) fun b => (f b).or (if b = a then some v else none) := by
  have mem : a ∈ l.map Prod.fst ↔ ∃ w, f a = some w := by
    constructor
    · intro hm
      obtain ⟨⟨x, w⟩, h1, h2⟩ := List.mem_map.1 hm
      cases h2
      exact ⟨w, (h.2 _ _).1 h1⟩
    · rintro ⟨w, hw⟩
      exact List.mem_map.2 ⟨(a, w), (h.2 _ _).2 hw, rfl⟩
  unfold push
  split
  · rename_i hm
    refine ⟨h.1, fun b w => ?_⟩
    rw [h.2]
    obtain ⟨u, hu⟩ := mem.1 hm
    by_cases hb : b = a
    · subst hb; simp [hu]
    · simp [hb]
  · rename_i hm
    have hn : f a = none := by
      cases hf : f a with
      | none => rfl
      | some w => exact absurd (mem.2 ⟨w, hf⟩) hm
    refine ⟨?_, fun b w => ?_⟩
    · rw [List.map_append, List.nodup_append]
      refine ⟨h.1, by simp, ?_⟩
      intro x hx y hy
      simp only [List.map_cons, List.map_nil, List.mem_singleton] at hy
      subst hy
      exact fun e => hm (e ▸ hx)
    · rw [List.mem_append, h.2]
      by_cases hb : b = a
      · subst hb
        simp [hn, eq_comm]
      · simp [hb]

theorem lists_endowed (v : Balance) : ∀ (es : List AccId) (l : List (AccId × Balance)) (f : AccId → Option Balance), Lists l f →
    Lists (es.foldl (fun l a => push l a v) l) fun b => (f b).or (if b ∈ es then some v else none) := by
  intro es
  induction es with
  | nil => intro l f h; simpa using h
  | cons e es ih =>
    intro l f h
    have := ih _ _ (lists_push h e v)
    rw [List.foldl_cons]
    refine ⟨this.1, fun a w => ?_⟩
    rw [this.2]
    by_cases h1 : a = e
    · cases hf : f a <;> simp [hf, h1]
    · cases hf : f a <;> simp [hf, h1]

theorem lists_authorities (s c : Balance) : ∀ (xs : List Authority) (l : List (AccId × Balance)) (f : AccId → Option Balance), Lists l f →
    Lists (xs.foldl (fun l x => push (push l x.stash s) x.controller c) l) fun b => (f b).or (firstRole s c b xs) := by
  intro xs
  induction xs with
  | nil => intro l f h; simpa [firstRole] using h
  | cons x xs ih =>
    intro l f h
    have := ih _ _ (lists_push (lists_push h x.stash s) x.controller c)
    rw [List.foldl_cons]
    refine ⟨this.1, fun a w => ?_⟩
    rw [this.2]
    show (((f a).or (if a = x.stash then some s else none)).or (if a = x.controller then some c else none)).or (firstRole s c a xs) = some w ↔
      (f a).or (if a = x.stash then some s else if a = x.controller then some c else firstRole s c a xs) = some w
    cases hf : f a with
    | some u => simp [hf]
    | none =>
      by_cases h1 : a = x.stash
      · rw [if_pos h1, if_pos h1]
        simp
      · by_cases h2 : a = x.controller
        · rw [if_neg h1, if_neg h1, if_pos h2, if_pos h2]
          simp
        · rw [if_neg h1, if_neg h1, if_neg h2, if_neg h2]
          simp

theorem lists_balances (g : Args) : Lists (balances g) (share g) := by
  have h0 : Lists [] fun _ => none := ⟨by simp, fun a v => by simp⟩
  have := lists_authorities g.stash g.authorityEndowment g.authorities _ _ (lists_endowed g.endowment g.endowed _ _ h0)
  refine ⟨this.1, fun a v => ?_⟩
  have h2 := this.2 a v
  unfold balances
  rw [h2]
  unfold share
  by_cases h : a ∈ g.endowed <;> simp [h]

/-! ### The bank -/

theorem accts_get : ∀ (l : List (AccId × Balance)) (m : FMap AccId Acct) (a : AccId), (l.map Prod.fst).Nodup →
    (l.foldl (fun m e => m.insert e.1 ⟨e.2, 0⟩) m).get a =
      match l.find? (fun e => decide (e.1 = a)) with | some e => some ⟨e.2, 0⟩ | none => m.get a := by
  intro l
  induction l with
  | nil => intro m a _; rfl
  | cons e l ih =>
    intro m a hn
    rw [List.map_cons, List.nodup_cons] at hn
    rw [List.foldl_cons, ih _ _ hn.2]
    by_cases h : e.1 = a
    · have hno : l.find? (fun e => decide (e.1 = a)) = none := by
        rw [List.find?_eq_none]
        intro x hx
        simp only [decide_eq_true_eq]
        intro hxa
        exact hn.1 (List.mem_map.2 ⟨x, hx, by rw [hxa, h]⟩)
      rw [hno, List.find?_cons_of_pos (by simpa using h)]
      simp only
      rw [h, FMap.get_insert_self]
    · rw [List.find?_cons_of_neg (by simpa using h)]
      cases l.find? (fun e => decide (e.1 = a)) with
      | some x => rfl
      | none => exact FMap.get_insert_ne _ _ (fun k => h k.symm)

theorem bank_free {ed : Balance} {l : List (AccId × Balance)} {b : Bank} {f : AccId → Option Balance} (hl : Lists l f)
    (h : bankOf ed l = some b) : b.ed = ed ∧ (∀ a, b.free a = (f a).getD 0 ∧ b.reserved a = 0) ∧ b.issuance = (l.map Prod.snd).sum := by
  unfold bankOf at h
  split at h
  rotate_left
  · cases h
  cases h
  refine ⟨rfl, fun a => ?_, rfl⟩
  have hg := accts_get l ∅ a hl.1
  unfold Bank.free Bank.reserved Bank.acct
  simp only [hg]
  cases hf : l.find? (fun e => decide (e.1 = a)) with
  | some e =>
    have he := List.find?_some hf
    have hm := List.mem_of_find?_eq_some hf
    simp only [decide_eq_true_eq] at he
    have : f a = some e.2 := (hl.2 a e.2).1 (by rw [← he]; exact hm)
    rw [this]
    exact ⟨rfl, rfl⟩
  | none =>
    have : f a = none := by
      cases hfa : f a with
      | none => rfl
      | some v =>
        have := List.find?_eq_none.1 hf _ ((hl.2 a v).2 hfa)
        simp at this
    rw [this, FMap.get_empty]
    exact ⟨rfl, rfl⟩

theorem sum_of_lists {l : List (AccId × Balance)} {f : AccId → Option Balance} (hl : Lists l f) (as : List AccId) (hn : as.Nodup)
    (hm : ∀ a, a ∈ as ↔ ∃ v, f a = some v) : (as.map fun a => (f a).getD 0).sum = (l.map Prod.snd).sum := by
  have hp : as.Perm (l.map Prod.fst) := by
    rw [List.perm_ext_iff_of_nodup hn hl.1]
    intro a
    rw [hm]
    constructor
    · rintro ⟨v, hv⟩
      exact List.mem_map.2 ⟨(a, v), (hl.2 a v).2 hv, rfl⟩
    · intro h
      obtain ⟨⟨x, v⟩, h1, h2⟩ := List.mem_map.1 h
      cases h2
      exact ⟨v, (hl.2 x v).1 h1⟩
  rw [(hp.map _).sum_eq, List.map_map]
  congr 1
  apply List.map_congr_left
  rintro ⟨a, v⟩ h
  show (f a).getD 0 = v
  rw [(hl.2 a v).1 h]
  rfl

/-! ### Staking moves no money -/

theorem bond_issuance (cfg : Ledger.Cfg) (s : Ledger.State) (x : Genesis.Staker) :
    (Ledger.step cfg s (.bond x.stash x.controller x.amount .staked true)).1.bank.issuance = s.bank.issuance := by
  simp only [Ledger.step, Ledger.body, Ledger.bond, Ledger.updateLedger, Ledger.setLock, Ledger.putLock]
  (repeat' split) <;> first | rfl | (rename_i h; (repeat' split at h) <;> first | (cases h; rfl) | cases h)

theorem validate_issuance (cfg : Ledger.Cfg) (s : Ledger.State) (c : AccId) (p : Nat × Bool) :
    (Ledger.step cfg s (.validate c p)).1.bank.issuance = s.bank.issuance := by
  simp only [Ledger.step, Ledger.body, Ledger.validate]
  (repeat' split) <;> first | rfl | (rename_i h; (repeat' split at h) <;> first | (cases h; rfl) | cases h)

theorem addStakers_bank (cfg : Ledger.Cfg) (xs : List Genesis.Staker) : ∀ s t : Ledger.State, Genesis.addStakers cfg s xs = some t →
    t.bank.accts = s.bank.accts ∧ t.bank.issuance = s.bank.issuance := by
  induction xs with
  | nil => intro s t h; cases h; exact ⟨rfl, rfl⟩
  | cons x xs ih =>
    intro s t h
    simp only [Genesis.addStakers] at h
    split at h
    · cases h
    · rename_i u hu
      obtain ⟨h1, h2⟩ := ih u t h
      have h3 := Genesis.addStaker_accts hu
      refine ⟨h1.trans h3, h2.trans ?_⟩
      unfold Genesis.addStaker at hu
      split at hu
      · cases hu
        split
        · rw [validate_issuance, bond_issuance]
        · rw [bond_issuance]
      · cases hu

theorem build_bank {cfg : StakingCredit.Cfg} {b : Bank} {g : Genesis.Spec} {t : StakingCredit.State} (h : Genesis.build cfg b g = some t) :
    (∀ a, t.dele.led.bank.free a = b.free a ∧ t.dele.led.bank.reserved a = b.reserved a) ∧ t.dele.led.bank.issuance = b.issuance := by
  have hd : g.delegations = [] := ((Genesis.C113_starts cfg b g).1 (by rw [h]; rfl)).1
  unfold Genesis.build at h
  split at h
  · cases h
  rename_i s hs
  cases h
  unfold Genesis.buildStaking at hs
  simp only at hs
  split at hs
  · cases hs
  rename_i l hl
  rw [hd] at hs
  cases hs
  obtain ⟨h1, h2⟩ := addStakers_bank _ _ _ _ hl
  have h1' : l.bank.accts = b.accts := h1
  refine ⟨fun a => ?_, h2⟩
  show l.bank.free a = b.free a ∧ l.bank.reserved a = b.reserved a
  simp only [Bank.free, Bank.reserved, Bank.acct, h1', and_self]

theorem seats : ∀ (ms : List (AccId × Balance)) (l : List Council.Seat) (m : Council.Seat),
    m ∈ ms.foldl (fun l m => Council.insertBy Council.Seat.who ⟨m.1, m.2, 0⟩ l) l ↔ m ∈ l ∨ ∃ e ∈ ms, m = ⟨e.1, e.2, 0⟩ := by
  intro ms
  induction ms with
  | nil => intro l m; simp
  | cons e ms ih =>
    intro l m
    rw [List.foldl_cons, ih, (Council.insertBy_perm _ _ _).mem_iff]
    simp only [List.mem_cons, exists_eq_or_imp]
    constructor
    · rintro ((h | h) | h)
      · exact .inr (.inl h)
      · exact .inl h
      · exact .inr (.inr h)
    · rintro (h | h | h)
      · exact .inl (.inr h)
      · exact .inl (.inl h)
      · exact .inr h

/-! ### C122 -/

/-- **C122.** When the node starts, every account has exactly the amount of its first role: the endowment, else the stake or
the endowment of an authority; other accounts have nothing; nothing is reserved; and the supply is the sum over the accounts
named, each counted once. -/
theorem C122_balances (cfg : Cfg) (g : Args) (t : First) (h : build cfg g = some t) :
    (∀ a, t.stk.dele.led.bank.free a = (share g a).getD 0 ∧ t.stk.dele.led.bank.reserved a = 0) ∧
    ∀ as : List AccId, as.Nodup → (∀ a, a ∈ as ↔ Named g a) → t.stk.dele.led.bank.issuance = (as.map fun a => (share g a).getD 0).sum := by
  unfold build at h
  split at h
  · cases h
  rename_i b hb
  split at h
  · cases h
  rename_i s hs
  split at h
  · cases h
  split at h
  · cases h
  cases h
  have hl := lists_balances g
  obtain ⟨_, h1, h2⟩ := bank_free hl hb
  obtain ⟨h3, h4⟩ := build_bank hs
  refine ⟨fun a => ⟨by rw [(h3 a).1, (h1 a).1], by rw [(h3 a).2, (h1 a).2]⟩, fun as hn hm => ?_⟩
  rw [h4, h2, sum_of_lists hl as hn]
  intro a
  rw [hm a, share_named]

/-- **C122.** Exactly when the node starts: every account named gets at least the existential deposit; each authority has its
stake - so no stash is endowed, or the controller of an earlier authority, with less than that; no account is twice in the
first half of the endowed accounts, no stash twice in the first half of the authorities, and these are not too many. -/
theorem C122_starts (cfg : Cfg) (g : Args) : (build cfg g).isSome = true ↔
    (∀ a v, share g a = some v → cfg.ed ≤ v) ∧ (∀ x ∈ g.authorities, g.stash ≤ (share g x.stash).getD 0) ∧
    ((g.endowed.take ((g.endowed.length + 1) / 2)).Nodup ∧ (g.endowed.length + 1) / 2 ≤ cfg.committee) ∧
    (g.authorities.length + 1) / 2 ≤ cfg.council.desiredMembers ∧
    ((g.authorities.take ((g.authorities.length + 1) / 2)).map Authority.stash).Nodup := by
  have hl := lists_balances g
  have len : ∀ n : Nat, min ((n + 1) / 2) n = (n + 1) / 2 := fun n => by omega
  have hbank : (∃ b, bankOf cfg.ed (balances g) = some b) ↔ ∀ a v, share g a = some v → cfg.ed ≤ v := by
    unfold bankOf
    constructor
    · rintro ⟨b, hb⟩ a v hv
      split at hb
      · rename_i h; exact h.1 (a, v) ((hl.2 a v).2 hv)
      · cases hb
    · intro h
      rw [if_pos ⟨fun e he => h e.1 e.2 ((hl.2 _ _).1 he), hl.1⟩]
      exact ⟨_, rfl⟩
  by_cases h1 : ∀ a v, share g a = some v → cfg.ed ≤ v
  rotate_left
  · constructor
    · intro h
      exfalso
      apply h1
      apply hbank.1
      unfold build at h
      split at h
      · cases h
      · rename_i b hb; exact ⟨b, hb⟩
    · exact fun h => absurd h.1 h1
  obtain ⟨b, hb⟩ := hbank.2 h1
  obtain ⟨_, hfree, _⟩ := bank_free hl hb
  have hstk : (Genesis.build cfg.stk b (staking cfg.dpr g)).isSome = true ↔ ∀ x ∈ g.authorities, g.stash ≤ (share g x.stash).getD 0 := by
    rw [Genesis.C113_starts]
    simp only [staking, List.mem_map, true_and]
    constructor
    · intro h x hx
      have := h _ ⟨x, hx, rfl⟩
      rw [(hfree _).1] at this
      exact this
    · rintro h _ ⟨x, hx, rfl⟩
      show g.stash ≤ b.free x.stash
      rw [(hfree _).1]
      exact h x hx
  unfold build
  simp only [hb]
  cases hs : Genesis.build cfg.stk b (staking cfg.dpr g) with
  | none =>
    rw [hs] at hstk
    simp only [Option.isSome_none, Bool.false_eq_true, false_iff] at hstk ⊢
    exact fun h => hstk h.2.1
  | some s =>
    rw [hs] at hstk
    have h2 := hstk.1 rfl
    have hcom : committeeOf cfg.committee (committee g) = if (g.endowed.take ((g.endowed.length + 1) / 2)).Nodup ∧ (g.endowed.length + 1) / 2 ≤ cfg.committee then some (committee g) else none := by
      unfold committeeOf committee
      simp only [List.length_take, len]
    simp only [hcom]
    by_cases h3 : (g.endowed.take ((g.endowed.length + 1) / 2)).Nodup ∧ (g.endowed.length + 1) / 2 ≤ cfg.committee
    rotate_left
    · rw [if_neg h3]
      simp only [Option.isSome_none, Bool.false_eq_true, false_iff]
      exact fun h => h3 h.2.2.1
    rw [if_pos h3]
    simp only
    have hmoney : ∀ m ∈ council g, m.2 ≤ s.dele.led.bank.free m.1 := by
      intro m hm
      obtain ⟨x, hx, rfl⟩ := List.mem_map.1 hm
      show g.stash ≤ s.dele.led.bank.free x.stash
      rw [((build_bank hs).1 _).1, (hfree _).1]
      exact h2 x (List.mem_of_mem_take hx)
    have hlen : (council g).length = (g.authorities.length + 1) / 2 := by
      unfold council
      rw [List.length_map, List.length_take, len]
    have hfst : (council g).map Prod.fst = (g.authorities.take ((g.authorities.length + 1) / 2)).map Authority.stash := by
      unfold council
      rw [List.map_map]
      rfl
    unfold Council.genesis
    rw [hlen, hfst]
    by_cases h4 : (g.authorities.length + 1) / 2 ≤ cfg.council.desiredMembers ∧ ((g.authorities.take ((g.authorities.length + 1) / 2)).map Authority.stash).Nodup
    · rw [if_pos ⟨h4.1, hmoney, h4.2⟩]
      exact ⟨fun _ => ⟨h1, h2, h3, h4⟩, fun _ => rfl⟩
    · rw [if_neg (fun k => h4 ⟨k.1, k.2.2⟩)]
      simp only [Option.isSome_none, Bool.false_eq_true, false_iff]
      exact fun h => h4 h.2.2.2

/-- **C122.** When the node starts and no stash and no controller is named twice, every authority is bonded with exactly the
stake and stands for election, nobody else has any stake; the council has the first half of the authorities and the
committee the first half of the endowed accounts. -/
theorem C122_staked (cfg : Cfg) (hed : 0 < cfg.ed) (g : Args) (t : First) (h : build cfg g = some t)
    (hs : (g.authorities.map Authority.stash).Nodup) (hc : (g.authorities.map Authority.controller).Nodup) (hm : cfg.ed ≤ g.stash) :
    (∀ a c, t.stk.dele.led.bonded.get a = some c ↔ ⟨a, c⟩ ∈ g.authorities) ∧
    (∀ c l, t.stk.dele.led.ledgers.get c = some l ↔ ∃ a, ⟨a, c⟩ ∈ g.authorities ∧ l = ⟨a, g.stash, g.stash, []⟩) ∧
    (∀ a p, t.stk.dele.led.validators.get a = some p ↔ (∃ c, ⟨a, c⟩ ∈ g.authorities) ∧ p = (0, false)) ∧
    t.stk.dele.validatorCount = g.authorities.length ∧ t.stk.dele.eraReward = 57534 * cfg.dpr ∧ t.stk.dele.delegators = ∅ ∧
    (∀ m, m ∈ t.council.members ↔ (∃ c, ⟨m.who, c⟩ ∈ g.authorities.take ((g.authorities.length + 1) / 2)) ∧ m.stake = g.stash ∧ m.deposit = 0) ∧
    t.committee = g.endowed.take ((g.endowed.length + 1) / 2) := by
  have hst := (C122_starts cfg g).1 (by rw [h]; rfl)
  unfold build at h
  split at h
  · cases h
  rename_i b hb
  split at h
  · cases h
  rename_i s hbs
  split at h
  · cases h
  rename_i tc htc
  split at h
  · cases h
  rename_i c hcn
  cases h
  obtain ⟨he, hfree, _⟩ := bank_free (lists_balances g) hb
  obtain ⟨t', e, bk, _, _, d1, d3, d2, _, _⟩ := Genesis.C113_bonded cfg.stk b (staking cfg.dpr g) (by rw [he]; exact hed)
    ⟨by simpa [staking, List.map_map, Function.comp_def] using hs, by simpa [staking, List.map_map, Function.comp_def] using hc,
     fun x hx => by
      obtain ⟨y, hy, rfl⟩ := List.mem_map.1 hx
      show g.stash ≤ b.free y.stash
      rw [(hfree _).1]; exact hst.2.1 y hy,
     fun x hx => by
      obtain ⟨y, hy, rfl⟩ := List.mem_map.1 hx
      rw [he]; exact hm⟩ rfl
  rw [hbs] at e
  cases e
  refine ⟨fun a c => ?_, fun c l => ?_, fun a p => ?_, d2, d3, d1, fun m => ?_, ?_⟩
  · rw [bk.bonded]
    simp only [staking, List.mem_map]
    constructor
    · rintro ⟨_, ⟨x, hx, rfl⟩, rfl, rfl⟩; exact hx
    · intro hx; exact ⟨_, ⟨_, hx, rfl⟩, rfl, rfl⟩
  · rw [bk.ledgers]
    simp only [staking, List.mem_map]
    constructor
    · rintro ⟨_, ⟨x, hx, rfl⟩, rfl, rfl⟩; exact ⟨x.stash, hx, rfl⟩
    · rintro ⟨a, hx, rfl⟩; exact ⟨_, ⟨_, hx, rfl⟩, rfl, rfl⟩
  · rw [bk.validators]
    simp only [staking, List.mem_map]
    constructor
    · rintro ⟨_, ⟨x, hx, rfl⟩, rfl, _, rfl⟩; exact ⟨⟨x.controller, hx⟩, rfl⟩
    · rintro ⟨⟨c, hx⟩, rfl⟩; exact ⟨_, ⟨_, hx, rfl⟩, rfl, rfl, rfl⟩
  · unfold Council.genesis at hcn
    split at hcn
    rotate_left
    · cases hcn
    cases hcn
    rw [seats]
    simp only [List.not_mem_nil, false_or, ChainSpec.council, List.mem_map]
    constructor
    · rintro ⟨_, ⟨x, hx, rfl⟩, rfl⟩
      exact ⟨⟨x.controller, hx⟩, rfl, rfl⟩
    · rintro ⟨⟨c, hx⟩, h1, h2⟩
      refine ⟨_, ⟨_, hx, rfl⟩, ?_⟩
      cases m
      simp only at h1 h2
      rw [h1, h2]
  · unfold committeeOf at htc
    split at htc
    · cases htc; rfl
    · cases htc

/-! ### The specifications of the node -/

/-- One DPR and the existential deposit, runtime/src/constants.rs:27 and runtime/src/lib.rs:487; at most 13 members of the
council and 100 of the committee, runtime/src/lib.rs:755, 791. -/
def runtimeCfg (stk : StakingCredit.Cfg) (council : Council.Cfg) : Cfg :=
  { ed := 10 ^ 18 / 5, dpr := 10 ^ 18, stk := stk, council := { council with desiredMembers := 13 }, committee := 100 }

/-- The endowed accounts: Alice, Bob, Charlie, Dave, Eve and Ferdie (0 to 5) and their stashes (6 to 11),
cli/src/chain_spec.rs:467-480 and 546-559; `acc` gives the accounts of the seeds. -/
def names (acc : Nat → AccId) : List AccId := (List.range 12).map acc

/-- The amounts of both specifications, with the first `n` of Alice, Bob, ... as authorities, cli/src/chain_spec.rs:501-511
(`n = 1`) and 579-589 (`n = 2`). -/
def nodeSpec (acc : Nat → AccId) (n : Nat) (settings : List Credit.Setting) (users : List (AccId × Credit.Data)) : Args :=
  { authorities := (List.range n).map fun i => ⟨acc (6 + i), acc i⟩, authorityEndowment := 10000000 * 10 ^ 18, stash := 10000 * 10 ^ 18
    endowed := names acc, endowment := 10000000 * 10 ^ 18, settings := settings, users := users }

theorem node_generic (cfg : Cfg) (h13 : cfg.council.desiredMembers = 13) (h100 : cfg.committee = 100) {E S : Balance} (he : 0 < cfg.ed) (hs : cfg.ed ≤ S) (hSE : S ≤ E)
    (acc : Nat → AccId) (hacc : Function.Injective acc) (n : Nat) (hn : n = 1 ∨ n = 2) (settings : List Credit.Setting) (users : List (AccId × Credit.Data)) :
    ∃ t, build cfg ⟨(List.range n).map fun i => ⟨acc (6 + i), acc i⟩, E, S, names acc, E, settings, users⟩ = some t ∧ t.stk.dele.led.bank.issuance = 12 * E ∧
    (∀ i, i < 12 → t.stk.dele.led.bank.free (acc i) = E) ∧
    (∀ i, i < n → t.stk.dele.led.ledgers.get (acc i) = some ⟨acc (6 + i), S, S, []⟩) ∧
    (∀ m, m ∈ t.council.members ↔ m = ⟨acc 6, S, 0⟩) ∧ t.committee = (List.range 6).map acc ∧ t.stk.dele.eraReward = 57534 * cfg.dpr := by
  generalize hg : (⟨(List.range n).map fun i => ⟨acc (6 + i), acc i⟩, E, S, names acc, E, settings, users⟩ : Args) = g
  have g1 : g.authorities = (List.range n).map fun i => ⟨acc (6 + i), acc i⟩ := by rw [← hg]
  have g2 : g.endowed = names acc := by rw [← hg]
  have g3 : g.stash = S := by rw [← hg]
  have g4 : g.endowment = E := by rw [← hg]
  have g5 : g.authorityEndowment = E := by rw [← hg]
  have mem : ∀ i, i < 12 → acc i ∈ names acc := fun i hi => List.mem_map.2 ⟨i, List.mem_range.2 hi, rfl⟩
  have hshare : ∀ i, i < 12 → share g (acc i) = some E := by
    intro i hi
    unfold share
    rw [g2, if_pos (mem i hi), g4]
  have hnamed : ∀ a, Named g a ↔ a ∈ names acc := by
    intro a
    unfold Named
    rw [g1, g2]
    constructor
    · rintro (h | ⟨x, hx, h⟩)
      · exact h
      · obtain ⟨i, hi, rfl⟩ := List.mem_map.1 hx
        have := List.mem_range.1 hi
        rcases h with rfl | rfl
        · exact mem _ (by omega)
        · exact mem _ (by omega)
    · exact .inl
  have hall : ∀ a v, share g a = some v → v = E := by
    intro a v h
    have := (hnamed a).1 ((share_named g a).1 ⟨v, h⟩)
    obtain ⟨i, hi, rfl⟩ := List.mem_map.1 this
    rw [hshare i (List.mem_range.1 hi)] at h
    exact (Option.some.inj h).symm
  have hnod : (names acc).Nodup := List.Nodup.map hacc List.nodup_range
  have hstash : (g.authorities.map Authority.stash).Nodup := by
    rw [g1, List.map_map]
    exact List.Nodup.map (fun i j h => by have := hacc h; omega) List.nodup_range
  have hctrl : (g.authorities.map Authority.controller).Nodup := by
    rw [g1, List.map_map]
    exact List.Nodup.map hacc List.nodup_range
  have hlen : g.authorities.length = n := by rw [g1, List.length_map, List.length_range]
  have hlen2 : g.endowed.length = 12 := by rw [g2]; unfold names; rw [List.length_map, List.length_range]
  have hstart := (C122_starts cfg g).2 ⟨fun a v h => by rw [hall a v h]; omega,
    fun x hx => by
      rw [g1] at hx
      obtain ⟨i, hi, rfl⟩ := List.mem_map.1 hx
      have := List.mem_range.1 hi
      rw [hshare (6 + i) (by omega), g3]
      exact hSE,
    ⟨by rw [g2]; exact hnod.sublist (List.take_sublist _ _), by rw [hlen2, h100]; decide⟩,
    by rw [hlen, h13]; omega, hstash.sublist ((List.take_sublist _ _).map _)⟩
  obtain ⟨t, ht⟩ := Option.isSome_iff_exists.1 hstart
  obtain ⟨b1, b2⟩ := C122_balances cfg g t ht
  obtain ⟨_, s2, _, _, s5, _, s6, s7⟩ := C122_staked cfg he g t ht hstash hctrl (by rw [g3]; exact hs)
  refine ⟨t, ht, ?_, ?_, ?_, ?_, ?_, s5⟩
  · rw [b2 (names acc) hnod (fun a => (hnamed a).symm)]
    have : (names acc).map (fun a => (share g a).getD 0) = List.replicate 12 E := by
      rw [List.eq_replicate_iff]
      refine ⟨by rw [List.length_map, ← g2, hlen2], ?_⟩
      intro v hv
      obtain ⟨a, ha, rfl⟩ := List.mem_map.1 hv
      obtain ⟨i, hi, rfl⟩ := List.mem_map.1 ha
      rw [hshare i (List.mem_range.1 hi)]
      rfl
    rw [this]
    simp only [List.replicate, List.sum_cons, List.sum_nil]
    omega
  · intro i hi
    rw [(b1 _).1, hshare i hi]
    rfl
  · intro i hi
    rw [s2]
    refine ⟨acc (6 + i), ?_, by rw [g3]⟩
    rw [g1]
    exact List.mem_map.2 ⟨i, List.mem_range.2 hi, rfl⟩
  · intro m
    rw [s6, hlen, g1, g3]
    have e : ((List.range n).map fun i => (⟨acc (6 + i), acc i⟩ : Authority)).take ((n + 1) / 2) = [⟨acc 6, acc 0⟩] := by
      rcases hn with rfl | rfl <;> rfl
    rw [e]
    simp only [List.mem_singleton, Authority.mk.injEq, exists_and_left, exists_eq, and_true]
    constructor
    · rintro ⟨h1, h2, h3⟩
      cases m
      simp only at h1 h2 h3
      rw [h1, h2, h3]
    · rintro rfl
      exact ⟨rfl, rfl, rfl⟩
  · rw [s7, hlen2, g2]
    rfl

/-- **C122.** The development chain and the local test network start, for all keys: 120 million DPR, ten million for each of
the twelve accounts, of which each authority has staked ten thousand; Alice's stash is the council. -/
theorem C122_node (stk : StakingCredit.Cfg) (council : Council.Cfg) (acc : Nat → AccId) (hacc : Function.Injective acc) (n : Nat) (hn : n = 1 ∨ n = 2)
    (settings : List Credit.Setting) (users : List (AccId × Credit.Data)) :
    ∃ t, build (runtimeCfg stk council) (nodeSpec acc n settings users) = some t ∧ t.stk.dele.led.bank.issuance = 120000000 * 10 ^ 18 ∧
    (∀ i, i < 12 → t.stk.dele.led.bank.free (acc i) = 10000000 * 10 ^ 18) ∧
    (∀ i, i < n → t.stk.dele.led.ledgers.get (acc i) = some ⟨acc (6 + i), 10000 * 10 ^ 18, 10000 * 10 ^ 18, []⟩) ∧
    (∀ m, m ∈ t.council.members ↔ m = ⟨acc 6, 10000 * 10 ^ 18, 0⟩) ∧ t.committee = (List.range 6).map acc ∧
    t.stk.dele.eraReward = 57534 * 10 ^ 18 := by
  obtain ⟨t, h1, h2, h3⟩ := node_generic (runtimeCfg stk council) rfl rfl (E := 10000000 * 10 ^ 18) (S := 10000 * 10 ^ 18) (show 0 < 10 ^ 18 / 5 by decide) (show 10 ^ 18 / 5 ≤ 10000 * 10 ^ 18 by decide) (by decide) acc hacc n hn settings users
  exact ⟨t, h1, h2.trans (by decide), h3⟩

/-- C122, finding: the endowed accounts come first. An authority whose stash is endowed with less than the stake has no money
to stake, and the node does not start, although without the endowment it would. -/
theorem C122_endowed_stash (cfg : Cfg) (g : Args) (x : Authority) (hx : x ∈ g.authorities) (he : x.stash ∈ g.endowed) (hlt : g.endowment < g.stash) :
    build cfg g = none := by
  rw [← Option.not_isSome_iff_eq_none, C122_starts]
  rintro ⟨_, h, _⟩
  have := h x hx
  unfold share at this
  rw [if_pos he] at this
  have : g.stash ≤ g.endowment := this
  omega

/-! ### Examples -/

/-- Two authorities (stashes 1 and 2, controllers 11 and 1); accounts 5 and 11 are endowed. -/
def exArgs : Args := { authorities := [⟨1, 11⟩, ⟨2, 1⟩], authorityEndowment := 50, stash := 400, endowed := [5, 11, 5], endowment := 90 }

def exCfg : Cfg := { ed := 5, dpr := 10, stk := StakingCredit.exCfg, council := Council.exCfg, committee := 100 }

theorem exBalances : balances exArgs = [(5, 90), (11, 90), (1, 400), (2, 400)] := by decide

/-- The hypotheses of `C122_staked` are met: account 5 is endowed once, account 11 as an endowed account and account 1 as a
stash. -/
example : (build exCfg exArgs).isSome = true ∧ (exArgs.authorities.map Authority.stash).Nodup ∧
    (exArgs.authorities.map Authority.controller).Nodup ∧ exCfg.ed ≤ exArgs.stash := by
  refine ⟨(C122_starts exCfg exArgs).2 ⟨fun a v h => ?_, by decide, by decide, by decide, by decide⟩, by decide, by decide, by decide⟩
  have := ((lists_balances exArgs).2 a v).2 h
  rw [exBalances] at this
  simp only [List.mem_cons, Prod.mk.injEq, List.not_mem_nil, or_false] at this
  show 5 ≤ v
  omega

/-- With stash 1 among the endowed accounts the node does not start. -/
example : build exCfg { exArgs with endowed := [5, 1] } = none :=
  C122_endowed_stash _ _ ⟨1, 11⟩ (by decide) (by decide) (by decide)

end Verif.ChainSpec
