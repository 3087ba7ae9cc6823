import Verif.ChainProperties

/-!
# Each pallet on the whole chain: C119

The properties of a single pallet are proved about its own histories, in which the rest of the chain is an arbitrary
`external` operation. Here it is shown that these histories include everything that happens to the pallet on the chain of
`Chain`: the storage of a pallet after any history of the chain is that after a history of the pallet alone, in which its
calls are those of the chain, in the same order, and everything else is a change of its environment. So what holds in
every history of a pallet holds on the chain.
-/

namespace Verif.Chain

open Verif

/-! ### Specification -/

/-- The registry sees the accounts of the chain (likewise for the other pallets). -/
def nodeOf (c : State) : DeeperNode.State := { c.w.node with bank := c.w.bank }
def tipsOf (c : State) : Tips.State := { c.w.tips with bank := c.w.bank }
def councilOf (c : State) : Council.State := { c.w.council with bank := c.w.bank }
def operOf (c : State) : Operation.State := { c.w.oper with bank := c.w.bank }
def microOf (c : State) : Micropayment.State := { c.w.micro with bank := c.w.bank }
def creditOf (c : State) : Credit.State := { c.stk.credit with bank := c.w.bank }
def adscOf (c : State) : Adsc.State := { c.adsc with bank := c.w.bank }
def slashOf (c : State) : Slashing.State := { c.slash with led := { c.w.ledger with bank := c.w.bank } }
def deleOf (c : State) : Delegation.State := { c.stk.dele with led := { c.w.ledger with bank := c.w.bank } }

/-- Calls and hooks of a pallet, as opposed to changes of its environment. -/
def isNodeCall : DeeperNode.Op → Bool
  | .external .. => false
  | _ => true

def isTipsCall : Tips.Op → Bool
  | .external .. => false
  | _ => true

def isCouncilCall : Council.Op → Bool
  | .external .. => false
  | _ => true

/-- The two calls which remove locks have their own names on the chain. -/
def isOperCall : Operation.Op → Bool
  | .external .. | .forceRemoveLock .. | .unlockAssets .. => false
  | _ => true

def isMicroCall : Micropayment.Op → Bool
  | .external .. => false
  | _ => true

/-- Three operations of the credit pallet are also part of staking for credit. -/
def isCreditCall : Credit.Op → Bool
  | .external .. | .addOrUpdateCredit .. | .initDelegatorHistory .. | .setStakingBalance .. => false
  | _ => true

def isAdscCall : Adsc.Op → Bool
  | .external .. => false
  | _ => true

/-- Calls of the staking ledger by users and by the root. -/
def isLedgerCall : Ledger.Op → Bool
  | .external .. | .payout .. | .slash .. | .newEra | .kick _ => false
  | _ => true

def isSlashCall : Slashing.Op → Bool
  | .ledger op _ => isLedgerCall op
  | _ => true

/-- `delegateAny` is also part of staking for credit. -/
def isDeleCall : Delegation.Op → Bool
  | .ledger _ | .delegateAny .. => false
  | _ => true

/-- The calls of a pallet in a history of the chain. -/
def nodeCalls (ops : List Op) : List DeeperNode.Op :=
  (ops.filterMap fun | .world (.node op) => some op | _ => none).filter isNodeCall
def tipsCalls (ops : List Op) : List Tips.Op :=
  (ops.filterMap fun | .world (.tips op) => some op | _ => none).filter isTipsCall
def councilCalls (ops : List Op) : List Council.Op :=
  (ops.filterMap fun | .world (.council op) => some op | _ => none).filter isCouncilCall
def operCalls (ops : List Op) : List Operation.Op :=
  (ops.filterMap fun | .world (.oper op) => some op | _ => none).filter isOperCall
def microCalls (ops : List Op) : List Micropayment.Op :=
  (ops.filterMap fun | .world (.micro op) => some op | _ => none).filter isMicroCall
def creditCalls (ops : List Op) : List Credit.Op :=
  (ops.filterMap fun | .credit op => some op | _ => none).filter isCreditCall
def adscCalls (ops : List Op) : List Adsc.Op :=
  (ops.filterMap fun | .adsc op => some op | _ => none).filter isAdscCall
def slashCalls (ops : List Op) : List Slashing.Op :=
  (ops.filterMap fun | .bond op n => some (.ledger op n) | .slash (.ledger ..) => none | .slash op => some op | _ => none).filter isSlashCall
def deleCalls (ops : List Op) : List Delegation.Op :=
  (ops.filterMap fun | .dele op => some op | _ => none).filter isDeleCall

/-- The root does not remove locks of the council elections. -/
def KeepsVotes : Op → Prop
  | .world (.unlockVote true _) => False
  | .world (.unlockMove true ..) => False
  | _ => True

/-- The root does not remove locks of the staking pallet. -/
def KeepsStakes : Op → Prop
  | .world (.unlockStake true _) => False
  | _ => True

/-- Credit and delegations are in the same block whenever somebody stakes for credit. -/
def InStep (cfg : Cfg) (c : State) (ops : List Op) : Prop :=
  ∀ pre o post, ops = pre ++ .stake o :: post → (run cfg c pre).stk.credit.block = (run cfg c pre).stk.dele.block

/-! ### Histories -/

/-- There is a history from `s` to `s'` with the given calls. -/
def Does {S O : Type} (f : S → O → S) (own : O → Bool) (calls : List O) (s s' : S) : Prop :=
  ∃ l : List O, l.foldl f s = s' ∧ l.filter own = calls

theorem Does.refl {S O : Type} {f : S → O → S} {own : O → Bool} (s : S) : Does f own [] s s := ⟨[], rfl, rfl⟩

theorem Does.trans {S O : Type} {f : S → O → S} {own : O → Bool} {k k' : List O} {a b c : S} (h : Does f own k a b)
    (h' : Does f own k' b c) : Does f own (k ++ k') a c := by
  obtain ⟨l, rfl, rfl⟩ := h
  obtain ⟨l', rfl, rfl⟩ := h'
  exact ⟨l ++ l', List.foldl_append, List.filter_append ..⟩

/-- A call. -/
theorem Does.call {S O : Type} {f : S → O → S} {own : O → Bool} (s : S) (o : O) (h : own o = true) : Does f own [o] s (f s o) :=
  ⟨[o], rfl, by simp [h]⟩

/-- Something which is not counted as a call. -/
theorem Does.other {S O : Type} {f : S → O → S} {own : O → Bool} (s : S) (o : O) (h : own o = false) : Does f own [] s (f s o) :=
  ⟨[o], rfl, by simp [h]⟩

/-- Any operation. -/
theorem Does.any {S O : Type} {f : S → O → S} {own : O → Bool} (s : S) (o : O) : Does f own ([o].filter own) s (f s o) :=
  ⟨[o], rfl, rfl⟩

/-- From steps to histories. -/
theorem Does.history {S O : Type} {f : S → O → S} {own : O → Bool} (cfg : Cfg) (view : State → S) (call : Op → Option O) (P : State → Op → Prop)
    (good : State → Prop) (hg : ∀ c op, good c → good (step cfg c op))
    (h : ∀ c op, good c → P c op → Does f own ((call op).toList.filter own) (view c) (view (step cfg c op))) (ops : List Op) :
    ∀ c, good c → (∀ pre op post, ops = pre ++ op :: post → P (run cfg c pre) op) →
      Does f own ((ops.filterMap call).filter own) (view c) (view (run cfg c ops)) := by
  induction ops with
  | nil => intro c _ _; exact Does.refl _
  | cons op ops ih =>
    intro c hc hp
    have h1 := h c op hc (hp [] op ops rfl)
    have h2 := ih (step cfg c op) (hg c op hc) fun pre o post e => hp (op :: pre) o post (by rw [e]; rfl)
    have h3 := h1.trans h2
    rw [← List.filter_append] at h3
    have e : (call op).toList ++ ops.filterMap call = (op :: ops).filterMap call := by
      rw [List.filterMap_cons]
      cases call op <;> rfl
    rw [e] at h3
    exact h3

/-! ### Pallets which only share the accounts -/

theorem node_env (cfg : Cfg) (s : DeeperNode.State) (b : Bank) :
    Does (fun s o => (DeeperNode.step cfg.world.node s o).1) isNodeCall [] s { s with bank := b } :=
  ⟨[.external 0 b s.verifyAny s.verifyNew], rfl, rfl⟩

theorem node_same (cfg : Cfg) (c c' : State) (h : c'.w.node = c.w.node) :
    Does (fun s o => (DeeperNode.step cfg.world.node s o).1) isNodeCall [] (nodeOf c) (nodeOf c') := by
  have e : nodeOf c' = { nodeOf c with bank := c'.w.bank } := by simp only [nodeOf, h]
  rw [e]
  exact node_env cfg _ _

theorem node_step (cfg : Cfg) (c : State) (op : Op) :
    Does (fun s o => (DeeperNode.step cfg.world.node s o).1) isNodeCall
      (((match (generalizing := false) op with | .world (.node o) => some o | _ => none) : Option DeeperNode.Op).toList.filter isNodeCall)
      (nodeOf c) (nodeOf (step cfg c op)) := by
  cases op with
  | world op =>
    cases op with
    | node o =>
      have h := Does.any (f := fun s o => (DeeperNode.step cfg.world.node s o).1) (own := isNodeCall) (nodeOf c) o
      have h2 := h.trans (node_env cfg ((DeeperNode.step cfg.world.node (nodeOf c) o).1) (step cfg c (.world (.node o))).w.bank)
      rw [List.append_nil] at h2
      exact h2
    | ledger o => exact node_same cfg c _ (by simp only [step]; split <;> rfl)
    | hold a v => exact node_same cfg c _ (by simp only [step, worldOwn, if_true, World.step, World.effect]; split <;> rfl)
    | release a v => exact node_same cfg c _ (by simp only [step, worldOwn, if_true, World.step, World.effect]; split <;> rfl)
    | unlockStake r a => exact node_same cfg c _ (by simp only [step, worldOwn, if_true, World.step, World.effect]; split <;> rfl)
    | unlockVote r a => exact node_same cfg c _ (by simp only [step, worldOwn, if_true, World.step, World.effect]; split <;> rfl)
    | unlockMove r x y v => exact node_same cfg c _ (by simp only [step, worldOwn, if_true, World.step, World.effect]; split <;> rfl)
    | _ => exact node_same cfg c _ rfl
  | bond o n => exact node_same cfg c _ (by simp only [step]; split <;> rfl)
  | dele o => exact node_same cfg c _ (by simp only [step]; split <;> rfl)
  | stake o => exact node_same cfg c _ rfl
  | credit o => exact node_same cfg c _ (by simp only [step]; split <;> rfl)
  | slash o => exact node_same cfg c _ (by simp only [step]; split <;> rfl)
  | adsc o => exact node_same cfg c _ (by simp only [step]; split <;> rfl)

theorem tips_env (cfg : Cfg) (s : Tips.State) (b : Bank) :
    Does (fun s o => (Tips.step cfg.world.tips s o).1) isTipsCall [] s { s with bank := b } :=
  ⟨[.external 0 b s.members], rfl, rfl⟩

theorem tips_same (cfg : Cfg) (c c' : State) (h : c'.w.tips = c.w.tips) :
    Does (fun s o => (Tips.step cfg.world.tips s o).1) isTipsCall [] (tipsOf c) (tipsOf c') := by
  have e : tipsOf c' = { tipsOf c with bank := c'.w.bank } := by simp only [tipsOf, h]
  rw [e]
  exact tips_env cfg _ _

theorem tips_step (cfg : Cfg) (c : State) (op : Op) :
    Does (fun s o => (Tips.step cfg.world.tips s o).1) isTipsCall
      (((match (generalizing := false) op with | .world (.tips o) => some o | _ => none) : Option Tips.Op).toList.filter isTipsCall)
      (tipsOf c) (tipsOf (step cfg c op)) := by
  cases op with
  | world op =>
    cases op with
    | tips o =>
      have h := Does.any (f := fun s o => (Tips.step cfg.world.tips s o).1) (own := isTipsCall) (tipsOf c) o
      have h2 := h.trans (tips_env cfg ((Tips.step cfg.world.tips (tipsOf c) o).1) (step cfg c (.world (.tips o))).w.bank)
      rw [List.append_nil] at h2
      exact h2
    | ledger o => exact tips_same cfg c _ (by simp only [step]; split <;> rfl)
    | hold a v => exact tips_same cfg c _ (by simp only [step, worldOwn, if_true, World.step, World.effect]; split <;> rfl)
    | release a v => exact tips_same cfg c _ (by simp only [step, worldOwn, if_true, World.step, World.effect]; split <;> rfl)
    | unlockStake r a => exact tips_same cfg c _ (by simp only [step, worldOwn, if_true, World.step, World.effect]; split <;> rfl)
    | unlockVote r a => exact tips_same cfg c _ (by simp only [step, worldOwn, if_true, World.step, World.effect]; split <;> rfl)
    | unlockMove r x y v => exact tips_same cfg c _ (by simp only [step, worldOwn, if_true, World.step, World.effect]; split <;> rfl)
    | _ => exact tips_same cfg c _ rfl
  | bond o n => exact tips_same cfg c _ (by simp only [step]; split <;> rfl)
  | dele o => exact tips_same cfg c _ (by simp only [step]; split <;> rfl)
  | stake o => exact tips_same cfg c _ rfl
  | credit o => exact tips_same cfg c _ (by simp only [step]; split <;> rfl)
  | slash o => exact tips_same cfg c _ (by simp only [step]; split <;> rfl)
  | adsc o => exact tips_same cfg c _ (by simp only [step]; split <;> rfl)

theorem oper_env (cfg : Cfg) (s : Operation.State) (b : Bank) :
    Does (fun s o => (Operation.step cfg.world.oper s o).1) isOperCall [] s { s with bank := b } :=
  ⟨[.external 0 b s.priv s.slashOk], rfl, rfl⟩

theorem oper_same (cfg : Cfg) (c c' : State) (h : c'.w.oper = c.w.oper) :
    Does (fun s o => (Operation.step cfg.world.oper s o).1) isOperCall [] (operOf c) (operOf c') := by
  have e : operOf c' = { operOf c with bank := c'.w.bank } := by simp only [operOf, h]
  rw [e]
  exact oper_env cfg _ _

theorem oper_step (cfg : Cfg) (c : State) (op : Op) :
    Does (fun s o => (Operation.step cfg.world.oper s o).1) isOperCall
      (((match (generalizing := false) op with | .world (.oper o) => some o | _ => none) : Option Operation.Op).toList.filter isOperCall)
      (operOf c) (operOf (step cfg c op)) := by
  cases op with
  | world op =>
    cases op with
    | oper o =>
      have h := Does.any (f := fun s o => (Operation.step cfg.world.oper s o).1) (own := isOperCall) (operOf c) o
      have h2 := h.trans (oper_env cfg ((Operation.step cfg.world.oper (operOf c) o).1) (step cfg c (.world (.oper o))).w.bank)
      rw [List.append_nil] at h2
      exact h2
    | ledger o => exact oper_same cfg c _ (by simp only [step]; split <;> rfl)
    | hold a v => exact oper_same cfg c _ (by simp only [step, worldOwn, if_true, World.step, World.effect]; split <;> rfl)
    | release a v => exact oper_same cfg c _ (by simp only [step, worldOwn, if_true, World.step, World.effect]; split <;> rfl)
    | unlockStake r a => exact oper_same cfg c _ (by simp only [step, worldOwn, if_true, World.step, World.effect]; split <;> rfl)
    | unlockVote r a => exact oper_same cfg c _ (by simp only [step, worldOwn, if_true, World.step, World.effect]; split <;> rfl)
    | unlockMove r x y v => exact oper_same cfg c _ (by simp only [step, worldOwn, if_true, World.step, World.effect]; split <;> rfl)
    | _ => exact oper_same cfg c _ rfl
  | bond o n => exact oper_same cfg c _ (by simp only [step]; split <;> rfl)
  | dele o => exact oper_same cfg c _ (by simp only [step]; split <;> rfl)
  | stake o => exact oper_same cfg c _ rfl
  | credit o => exact oper_same cfg c _ (by simp only [step]; split <;> rfl)
  | slash o => exact oper_same cfg c _ (by simp only [step]; split <;> rfl)
  | adsc o => exact oper_same cfg c _ (by simp only [step]; split <;> rfl)

theorem micro_env (cfg : Cfg) (s : Micropayment.State) (b : Bank) :
    Does (fun s o => (Micropayment.step cfg.world.micro s o).1) isMicroCall [] s { s with bank := b } :=
  ⟨[.external 0 s.erasOffline b], rfl, rfl⟩

theorem micro_same (cfg : Cfg) (c c' : State) (h : c'.w.micro = c.w.micro) :
    Does (fun s o => (Micropayment.step cfg.world.micro s o).1) isMicroCall [] (microOf c) (microOf c') := by
  have e : microOf c' = { microOf c with bank := c'.w.bank } := by simp only [microOf, h]
  rw [e]
  exact micro_env cfg _ _

theorem micro_step (cfg : Cfg) (c : State) (op : Op) :
    Does (fun s o => (Micropayment.step cfg.world.micro s o).1) isMicroCall
      (((match (generalizing := false) op with | .world (.micro o) => some o | _ => none) : Option Micropayment.Op).toList.filter isMicroCall)
      (microOf c) (microOf (step cfg c op)) := by
  cases op with
  | world op =>
    cases op with
    | micro o =>
      have h := Does.any (f := fun s o => (Micropayment.step cfg.world.micro s o).1) (own := isMicroCall) (microOf c) o
      have h2 := h.trans (micro_env cfg ((Micropayment.step cfg.world.micro (microOf c) o).1) (step cfg c (.world (.micro o))).w.bank)
      rw [List.append_nil] at h2
      exact h2
    | ledger o => exact micro_same cfg c _ (by simp only [step]; split <;> rfl)
    | hold a v => exact micro_same cfg c _ (by simp only [step, worldOwn, if_true, World.step, World.effect]; split <;> rfl)
    | release a v => exact micro_same cfg c _ (by simp only [step, worldOwn, if_true, World.step, World.effect]; split <;> rfl)
    | unlockStake r a => exact micro_same cfg c _ (by simp only [step, worldOwn, if_true, World.step, World.effect]; split <;> rfl)
    | unlockVote r a => exact micro_same cfg c _ (by simp only [step, worldOwn, if_true, World.step, World.effect]; split <;> rfl)
    | unlockMove r x y v => exact micro_same cfg c _ (by simp only [step, worldOwn, if_true, World.step, World.effect]; split <;> rfl)
    | _ => exact micro_same cfg c _ rfl
  | bond o n => exact micro_same cfg c _ (by simp only [step]; split <;> rfl)
  | dele o => exact micro_same cfg c _ (by simp only [step]; split <;> rfl)
  | stake o => exact micro_same cfg c _ rfl
  | credit o => exact micro_same cfg c _ (by simp only [step]; split <;> rfl)
  | slash o => exact micro_same cfg c _ (by simp only [step]; split <;> rfl)
  | adsc o => exact micro_same cfg c _ (by simp only [step]; split <;> rfl)

theorem council_env (cfg : Cfg) (s : Council.State) (b : Bank) (o : AccId → Balance)
    (hb : b.frozen = fun a => max ((s.lock.get a).getD 0) (o a)) :
    Does (fun s o => (Council.step cfg.world.council s o).1) isCouncilCall [] s { s with bank := b, otherLock := o } := by
  refine ⟨[.external b o], ?_, rfl⟩
  show ({ s with bank := { b with frozen := fun a => max ((s.lock.get a).getD 0) (o a) }, otherLock := o } : Council.State) = _
  rw [← hb]

theorem council_same (cfg : Cfg) (c : State) (s : Council.State) (w : World.State) (h : w.council.lock = s.lock) (h2 : { w.council with bank := s.bank, otherLock := s.otherLock } = s) :
    Does (fun s o => (Council.step cfg.world.council s o).1) isCouncilCall [] s (councilOf { c with w := World.settle w }) := by
  have e : councilOf { c with w := World.settle w } = { s with bank := (World.settle w).bank, otherLock := (World.settle w).council.otherLock } := by
    rw [← h2]; rfl
  rw [e]
  exact council_env cfg s _ _ (by rw [← h]; rfl)

theorem council_step (cfg : Cfg) (c : State) (op : Op) (hs : World.settle c.w = c.w) (hk : KeepsVotes op) :
    Does (fun s o => (Council.step cfg.world.council s o).1) isCouncilCall
      (((match (generalizing := false) op with | .world (.council o) => some o | _ => none) : Option Council.Op).toList.filter isCouncilCall)
      (councilOf c) (councilOf (step cfg c op)) := by
  have same : ∀ (c' : State) (w : World.State), c'.w = World.settle w → w.council = c.w.council →
      Does (fun s o => (Council.step cfg.world.council s o).1) isCouncilCall [] (councilOf c) (councilOf c') := by
    intro c' w hw h
    have e : councilOf c' = councilOf { c with w := World.settle w } := by simp only [councilOf, hw]
    rw [e]
    exact council_same cfg c (councilOf c) w (by rw [h]; rfl) (by rw [h]; rfl)
  have refl : ∀ c' : State, c'.w = c.w →
      Does (fun s o => (Council.step cfg.world.council s o).1) isCouncilCall [] (councilOf c) (councilOf c') := by
    intro c' e
    have : councilOf c' = councilOf c := by simp only [councilOf, e]
    rw [this]
    exact Does.refl _
  cases op with
  | world op =>
    cases op with
    | council o =>
      have h := Does.any (f := fun s o => (Council.step cfg.world.council s o).1) (own := isCouncilCall) (councilOf c) o
      have h2 := h.trans (council_same cfg c (Council.step cfg.world.council (councilOf c) o).1 (World.effect cfg.world c.w (.council o)) rfl rfl)
      rw [List.append_nil] at h2
      exact h2
    | ledger o =>
      simp only [step]
      split
      · exact same _ _ rfl rfl
      · exact refl _ rfl
    | hold a v => exact same _ _ rfl (by simp only [World.effect]; split <;> rfl)
    | release a v => exact same _ _ rfl (by simp only [World.effect]; split <;> rfl)
    | unlockStake r a => exact same _ _ rfl (by simp only [World.effect]; split <;> rfl)
    | unlockVote r a =>
      cases r with
      | true => exact absurd hk id
      | false => exact same _ _ rfl rfl
    | unlockMove r x y v =>
      cases r with
      | true => exact absurd hk id
      | false => exact same _ _ rfl rfl
    | _ => exact same _ _ rfl rfl
  | bond o n => simp only [step]; split; · exact same _ _ rfl rfl
                exact refl _ rfl
  | dele o => simp only [step]; split; · exact same _ _ rfl rfl
              exact refl _ rfl
  | stake o => exact same _ _ rfl rfl
  | credit o => simp only [step]; split; · exact same _ _ rfl rfl
                exact refl _ rfl
  | slash o => simp only [step]; split; · exact same _ _ rfl rfl
               exact refl _ rfl
  | adsc o => simp only [step]; split; · exact same _ _ rfl rfl
              exact refl _ rfl

theorem adsc_env (cfg : Cfg) (s : Adsc.State) (b : Bank) :
    Does (fun s o => (Adsc.step cfg.adsc s o).1) isAdscCall [] s { s with bank := b } :=
  ⟨[.external 0 b s.asset s.nfts s.priv], rfl, rfl⟩

theorem adsc_step (cfg : Cfg) (c : State) (op : Op) :
    Does (fun s o => (Adsc.step cfg.adsc s o).1) isAdscCall
      (((match (generalizing := false) op with | .adsc o => some o | _ => none) : Option Adsc.Op).toList.filter isAdscCall)
      (adscOf c) (adscOf (step cfg c op)) := by
  have same : ∀ c' : State, c'.adsc = c.adsc → Does (fun s o => (Adsc.step cfg.adsc s o).1) isAdscCall [] (adscOf c) (adscOf c') := by
    intro c' h
    have e : adscOf c' = { adscOf c with bank := c'.w.bank } := by simp only [adscOf, h]
    rw [e]
    exact adsc_env cfg _ _
  cases op with
  | adsc o =>
    have h := Does.any (f := fun s o => (Adsc.step cfg.adsc s o).1) (own := isAdscCall) (adscOf c) o
    have h2 := h.trans (adsc_env cfg ((Adsc.step cfg.adsc (adscOf c) o).1) (step cfg c (.adsc o)).w.bank)
    rw [List.append_nil] at h2
    exact h2
  | world o => exact same _ (by simp only [step]; split <;> rfl)
  | bond o n => exact same _ (by simp only [step]; split <;> rfl)
  | dele o => exact same _ (by simp only [step]; split <;> rfl)
  | stake o => exact same _ rfl
  | credit o => exact same _ rfl
  | slash o => exact same _ (by simp only [step]; split <;> rfl)

theorem credit_env (cfg : Cfg) (s : Credit.State) (b : Bank) :
    Does (fun s o => (Credit.step cfg.stk.credit s o).1) isCreditCall [] s { s with bank := b } :=
  ⟨[.external 0 s.now s.onboard s.erasOffline s.evmToAccount s.isAdmin s.isDeviceAdmin s.isOracle s.isEvmOperator b], rfl, rfl⟩

/-- Staking for credit uses the credit pallet and the delegations through their operations. -/
def Uses (cfg : StakingCredit.Cfg) (s s' : StakingCredit.State) : Prop :=
  Does (fun s o => (Credit.step cfg.credit s o).1) isCreditCall [] s.credit s'.credit

theorem stake_uses (cfg : StakingCredit.Cfg) (s : StakingCredit.State) (op : StakingCredit.Op) :
    Uses cfg s (StakingCredit.step cfg s op).1 := by
  have any : ∀ (u t : StakingCredit.State) (who : AccId) (order : List AccId), StakingCredit.delegateAny cfg u who order = .ok t →
      Uses cfg u t := by
    intro u t who order h
    unfold StakingCredit.delegateAny at h
    split at h
    · cases h
    · cases h
      show Does _ _ _ u.credit (if _ then _ else _)
      split
      · exact Does.refl _
      · exact Does.other (f := fun s o => (Credit.step cfg.credit s o).1) u.credit (.initDelegatorHistory who) rfl
  have above : ∀ (u t : StakingCredit.State) (who : AccId) (dst : Nat) (order : List AccId),
      StakingCredit.delegateAbove cfg u who dst order = .ok t → Uses cfg u t := by
    intro u t who dst order h
    unfold StakingCredit.delegateAbove at h
    split at h
    · exact any _ _ _ _ h
    · cases h; exact Does.refl _
  have add : ∀ (u t : StakingCredit.State) (who : AccId) (g n : Nat), StakingCredit.addCredit cfg u who g n = .ok t →
      Uses cfg u t := by
    intro u t who g n h
    unfold StakingCredit.addCredit at h
    cases hc : Credit.addOrUpdateCredit cfg.credit u.credit who g (some n) with
    | error e => rw [hc] at h; cases h
    | ok k =>
      rw [hc] at h
      cases h
      have h1 := Does.other (f := fun s o => (Credit.step cfg.credit s o).1) (own := isCreditCall) u.credit (.addOrUpdateCredit who g (some n)) rfl
      have e : (Credit.step cfg.credit u.credit (.addOrUpdateCredit who g (some n))).1 = k := by
        simp only [Credit.step, Credit.body, hc, Except.map]
      simp only [e] at h1
      exact h1
  cases op with
  | stake who signed dst order =>
    simp only [StakingCredit.step]
    split
    · exact Does.refl _
    split
    · exact Does.refl _
    rename_i s' h
    unfold StakingCredit.doStakingDelegate at h
    simp only at h
    split at h; · cases h
    split at h; · cases h
    split at h
    · cases h
    split at h; · cases h
    generalize ((Credit.creditBalance s.credit who (some s.credit.defaultCampaign)).getD dst 0 - _) = v at h
    cases hp : StakingCredit.pay cfg s who v with
    | error e => rw [hp] at h; cases h
    | ok s1 =>
      rw [hp] at h
      simp only [Except.bind] at h
      split at h
      · cases h
      rename_i s2 h2
      have e1 : s1.credit = s.credit := by
        unfold StakingCredit.pay at hp
        split at hp
        · cases hp
        · cases hp; rfl
      have h3 := (add _ _ _ _ _ h2).trans (above _ _ _ _ _ h)
      rw [e1] at h3
      exact h3
  | usdt admin who u d order =>
    simp only [StakingCredit.step]
    split
    · exact Does.refl _
    split
    · exact Does.refl _
    rename_i s' lvl h
    unfold StakingCredit.doUsdt at h
    simp only at h
    split at h; · cases h
    split at h
    · cases h
    rename_i cur rem _
    generalize StakingCredit.climb _ _ _ _ _ = dst at h
    cases h1 : StakingCredit.addCredit cfg s who (Credit.Level.gap (Credit.Level.ofU8 dst) (Credit.Level.ofU8 cur)) s.credit.defaultUsdtCampaign with
    | error e => rw [h1] at h; cases h
    | ok s1 =>
      rw [h1] at h
      simp only [Except.bind] at h
      obtain ⟨t, ht, e⟩ := World.map_ok h
      cases e
      have h2 := Does.other (f := fun s o => (Credit.step cfg.credit s o).1) (own := isCreditCall) s1.credit (.setStakingBalance who u d) rfl
      exact ((add _ _ _ _ _ h1).trans h2).trans (above _ _ _ _ _ ht)
  | unset admin who =>
    simp only [StakingCredit.step]
    split <;> exact Does.refl _

theorem credit_step (cfg : Cfg) (c : State) (op : Op) :
    Does (fun s o => (Credit.step cfg.stk.credit s o).1) isCreditCall
      (((match (generalizing := false) op with | .credit o => some o | _ => none) : Option Credit.Op).toList.filter isCreditCall)
      (creditOf c) (creditOf (step cfg c op)) := by
  have same : ∀ c' : State, c'.stk.credit = c.stk.credit → Does (fun s o => (Credit.step cfg.stk.credit s o).1) isCreditCall [] (creditOf c) (creditOf c') := by
    intro c' h
    have e : creditOf c' = { creditOf c with bank := c'.w.bank } := by simp only [creditOf, h]
    rw [e]
    exact credit_env cfg _ _
  cases op with
  | credit o =>
    have h := Does.any (f := fun s o => (Credit.step cfg.stk.credit s o).1) (own := isCreditCall) (creditOf c) o
    have h2 := h.trans (credit_env cfg ((Credit.step cfg.stk.credit (creditOf c) o).1) (step cfg c (.credit o)).w.bank)
    rw [List.append_nil] at h2
    exact h2
  | world o => exact same _ (by simp only [step]; split <;> rfl)
  | bond o n => exact same _ (by simp only [step]; split <;> rfl)
  | dele o => exact same _ (by simp only [step]; split <;> rfl)
  | stake o =>
    have h1 : Does (fun s o => (Credit.step cfg.stk.credit s o).1) isCreditCall [] (creditOf c) c.stk.credit :=
      credit_env cfg (creditOf c) c.stk.credit.bank
    have h2 : Does (fun s o => (Credit.step cfg.stk.credit s o).1) isCreditCall [] c.stk.credit (step cfg c (.stake o)).stk.credit :=
      stake_uses cfg.stake (stkOn c) o
    exact (h1.trans h2).trans (credit_env cfg _ (step cfg c (.stake o)).w.bank)
  | slash o => exact same _ (by simp only [step]; split <;> rfl)
  | adsc o => exact same _ rfl

/-! ### The parts of the staking pallet -/

theorem fits_sound {w : World.State} {s : Ledger.State} (h : Fits w s) :
    s.bank.frozen = fun x => max (Ledger.lockOf s x) (s.otherLocks x) := by
  rw [h.frozen, h.others]
  funext x
  simp only
  omega

/-- The environment of slashing changes. -/
theorem slash_env (cfg : Cfg) (s : Slashing.State) (b : Bank) (o : AccId → Balance) (cl : Bool)
    (hb : b.frozen = fun x => max (Ledger.lockOf s.led x) (o x)) :
    Does (fun s o => (Slashing.step cfg.offences s o).1) isSlashCall [] s
      { s with led := { s.led with bank := b, otherLocks := o, closed := cl } } := by
  refine ⟨[.ledger (.external b o cl) 0], ?_, rfl⟩
  show ({ s with led := { s.led with bank := { b with frozen := fun x => max (Ledger.lockOf s.led x) (o x) }, otherLocks := o, closed := cl } } : Slashing.State) = _
  rw [← hb]

theorem slash_settle (cfg : Cfg) (c : State) (s : Slashing.State) (w : World.State)
    (h : s.led = { w.ledger with bank := s.led.bank, otherLocks := s.led.otherLocks, closed := s.led.closed }) :
    Does (fun s o => (Slashing.step cfg.offences s o).1) isSlashCall [] s (slashOf { c with slash := s, w := World.settle w }) := by
  have e : slashOf { c with slash := s, w := World.settle w } =
      { s with led := { s.led with bank := (World.settle w).bank, otherLocks := (World.settle w).ledger.otherLocks, closed := w.ledger.closed } } := by
    rw [h]; rfl
  rw [e]
  refine slash_env cfg s _ _ _ ?_
  rw [h]
  funext x
  show max (World.voteLock w x) (max (Ledger.lockOf w.ledger x) (w.rest x)) = max (Ledger.lockOf w.ledger x) (max (World.voteLock w x) (w.rest x))
  omega

/-- Steps of the ledger inside of the staking pallet, as slashing sees them. -/
def SR (cfg : Cfg) (w : World.State) (sl : Slashing.State) (a b : Ledger.State) : Prop :=
  Fits w a → Fits w b ∧ Does (fun s o => (Slashing.step cfg.offences s o).1) isSlashCall [] { sl with led := a } { sl with led := b }

theorem sr_pays (cfg : Cfg) (w : World.State) (sl : Slashing.State) : Pays cfg.world.ledger (SR cfg w sl) := by
  refine ⟨⟨fun s h => ⟨h, Does.refl _⟩, fun h h' f => ?_, fun s a v h => ?_⟩, fun s a v h => ?_, fun s h => ?_⟩
  · obtain ⟨f1, d1⟩ := h f
    obtain ⟨f2, d2⟩ := h' f1
    exact ⟨f2, d1.trans d2⟩
  · have h2 := (money_follows cfg.world w s (.mint a v) rfl h).1
    exact ⟨h2, slash_env cfg { sl with led := s } (s.bank.depositCreating a v) s.otherLocks s.closed (fits_sound h2)⟩
  · refine ⟨(payout_follows cfg.world w s a v h).1, ?_⟩
    exact Does.other (f := fun s o => (Slashing.step cfg.offences s o).1) { sl with led := s } (.ledger (.payout a v) 0) rfl
  · refine ⟨(era_follows cfg.world w s h).1, ?_⟩
    exact Does.other (f := fun s o => (Slashing.step cfg.offences s o).1) { sl with led := s } (.ledger .newEra 0) rfl

theorem slash_step (cfg : Cfg) (c : State) (op : Op) (hs : World.settle c.w = c.w) (hk : KeepsStakes op) :
    Does (fun s o => (Slashing.step cfg.offences s o).1) isSlashCall
      (((match (generalizing := false) op with | .bond op n => some (.ledger op n) | .slash (.ledger ..) => none | .slash op => some op | _ => none) : Option Slashing.Op).toList.filter isSlashCall)
      (slashOf c) (slashOf (step cfg c op)) := by
  have same : ∀ (c' : State) (w : World.State), c'.slash = c.slash → c'.w = World.settle w →
      { w.ledger with bank := c.w.bank, otherLocks := c.w.ledger.otherLocks, closed := c.w.ledger.closed } = led c →
      Does (fun s o => (Slashing.step cfg.offences s o).1) isSlashCall [] (slashOf c) (slashOf c') := by
    intro c' w h1 h2 h3
    have e : slashOf c' = slashOf { c with slash := slashOf c, w := World.settle w } := by
      simp only [slashOf, h1, h2]
    rw [e]
    exact slash_settle cfg c (slashOf c) w h3.symm
  have refl : ∀ c' : State, c'.w = c.w → c'.slash = c.slash →
      Does (fun s o => (Slashing.step cfg.offences s o).1) isSlashCall [] (slashOf c) (slashOf c') := by
    intro c' e e2
    have : slashOf c' = slashOf c := by simp only [slashOf, e, e2]
    rw [this]
    exact Does.refl _
  cases op with
  | world op =>
    cases op with
    | ledger o =>
      simp only [step]
      split
      · rename_i hw
        cases o with
        | external b oo cl => exact same _ _ rfl rfl rfl
        | _ => cases hw
      · exact refl _ rfl rfl
    | unlockStake r a =>
      cases r with
      | true => exact absurd hk id
      | false => exact same _ _ rfl rfl rfl
    | hold a v => exact same _ _ rfl rfl (by simp only [World.effect]; split <;> rfl)
    | release a v => exact same _ _ rfl rfl (by simp only [World.effect]; split <;> rfl)
    | unlockVote r a => exact same _ _ rfl rfl (by simp only [World.effect]; split <;> rfl)
    | unlockMove r x y v => exact same _ _ rfl rfl (by simp only [World.effect]; split <;> rfl)
    | _ => exact same _ _ rfl rfl rfl
  | bond o n =>
    have hb : isSlashCall (.ledger o n) = bondOwn o := by cases o <;> rfl
    simp only [step]
    split
    · have h := Does.any (f := fun s o => (Slashing.step cfg.offences s o).1) (own := isSlashCall) (slashOf c) (.ledger o n)
      have h2 := h.trans (slash_settle cfg c (Slashing.step cfg.offences (slashOf c) (.ledger o n)).1
        { c.w with ledger := (Slashing.step cfg.offences (slashOf c) (.ledger o n)).1.led, bank := (Slashing.step cfg.offences (slashOf c) (.ledger o n)).1.led.bank } rfl)
      rw [List.append_nil] at h2
      exact h2
    · rename_i hn
      have : ([Slashing.Op.ledger o n].filter isSlashCall) = [] := by
        simp only [List.filter, hb]
        split
        · rename_i h; exact absurd h hn
        · rfl
      show Does _ _ ([Slashing.Op.ledger o n].filter isSlashCall) _ _
      rw [this]
      exact Does.refl _
  | slash o =>
    have key : slashOwn o = true → Does (fun s o => (Slashing.step cfg.offences s o).1) isSlashCall ([o].filter isSlashCall) (slashOf c) (slashOf (step cfg c (.slash o))) := by
      intro ho
      simp only [step, ho, if_true]
      have h := Does.any (f := fun s o => (Slashing.step cfg.offences s o).1) (own := isSlashCall) (slashOf c) o
      have h2 := h.trans (slash_settle cfg c (Slashing.step cfg.offences (slashOf c) o).1
        { c.w with ledger := (Slashing.step cfg.offences (slashOf c) o).1.led, bank := (Slashing.step cfg.offences (slashOf c) o).1.led.bank } rfl)
      rw [List.append_nil] at h2
      exact h2
    cases o with
    | ledger l n => exact Does.refl _
    | _ => exact key rfl
  | dele o =>
    simp only [step]
    split
    · rename_i ho
      have h1 := (dele_carries (sr_pays cfg c.w c.slash) (dc := cfg.dele) rfl (stkOn c).dele o ho (fits hs)).2
      exact h1.trans (slash_settle cfg c { c.slash with led := (Delegation.step cfg.dele (stkOn c).dele o).1.led }
        { c.w with ledger := (Delegation.step cfg.dele (stkOn c).dele o).1.led, bank := (Delegation.step cfg.dele (stkOn c).dele o).1.led.bank } rfl)
    · exact refl _ rfl rfl
  | stake o =>
    rcases stake_led cfg.stake (stkOn c) o with e | ⟨a, v, b, -, e⟩
    · refine same _ { c.w with ledger := led c } rfl ?_ rfl
      show put c.w (StakingCredit.step cfg.stake (stkOn c) o).1.dele.led = _
      rw [e]; rfl
    · refine same _ { c.w with ledger := { led c with bank := b }, bank := b } rfl ?_ rfl
      show put c.w (StakingCredit.step cfg.stake (stkOn c) o).1.dele.led = _
      rw [e]; rfl
  | credit o => simp only [step]; split; · exact same _ _ rfl rfl rfl
                exact refl _ rfl rfl
  | adsc o => simp only [step]; split; · exact same _ _ rfl rfl rfl
              exact refl _ rfl rfl

theorem dele_env (cfg : Cfg) (s : Delegation.State) (b : Bank) (o : AccId → Balance) (cl : Bool)
    (hb : b.frozen = fun x => max (Ledger.lockOf s.led x) (o x)) :
    Does (fun s o => (Delegation.step cfg.dele s o).1) isDeleCall [] s
      { s with led := { s.led with bank := b, otherLocks := o, closed := cl } } := by
  refine ⟨[.ledger (.external b o cl)], ?_, rfl⟩
  show ({ s with led := { s.led with bank := { b with frozen := fun x => max (Ledger.lockOf s.led x) (o x) }, otherLocks := o, closed := cl } } : Delegation.State) = _
  rw [← hb]

theorem dele_settle (cfg : Cfg) (c : State) (s : Delegation.State) (w : World.State)
    (h : s.led = { w.ledger with bank := s.led.bank, otherLocks := s.led.otherLocks, closed := s.led.closed }) :
    Does (fun s o => (Delegation.step cfg.dele s o).1) isDeleCall [] s (deleOf { c with stk := { c.stk with dele := s }, w := World.settle w }) := by
  have e : deleOf { c with stk := { c.stk with dele := s }, w := World.settle w } =
      { s with led := { s.led with bank := (World.settle w).bank, otherLocks := (World.settle w).ledger.otherLocks, closed := w.ledger.closed } } := by
    rw [h]; rfl
  rw [e]
  refine dele_env cfg s _ _ _ ?_
  rw [h]
  funext x
  show max (World.voteLock w x) (max (Ledger.lockOf w.ledger x) (w.rest x)) = max (Ledger.lockOf w.ledger x) (max (World.voteLock w x) (w.rest x))
  omega

theorem dele_ledger (cfg : Cfg) (s : Delegation.State) (op : Ledger.Op) :
    (Delegation.step cfg.dele s (.ledger op)).1 = { s with led := (Ledger.step cfg.world.ledger s.led op).1 } := rfl

/-- Steps of the ledger inside of the staking pallet, as delegations see them. -/
def DR (cfg : Cfg) (w : World.State) (d : Delegation.State) (a b : Ledger.State) : Prop :=
  Fits w a → Fits w b ∧ Does (fun s o => (Delegation.step cfg.dele s o).1) isDeleCall [] { d with led := a } { d with led := b }

theorem dr_trans {cfg : Cfg} {w : World.State} {d : Delegation.State} {a b e : Ledger.State} (h : DR cfg w d a b) (h' : DR cfg w d b e) :
    DR cfg w d a e := by
  intro f
  obtain ⟨f1, d1⟩ := h f
  obtain ⟨f2, d2⟩ := h' f1
  exact ⟨f2, d1.trans d2⟩

theorem dr_carries (cfg : Cfg) (w : World.State) (d : Delegation.State) : Carries cfg.offences (DR cfg w d) := by
  refine ⟨fun s h => ⟨h, Does.refl _⟩, dr_trans, fun s a h => ?_, fun s u => ?_⟩
  · refine ⟨(kick_follows cfg.world w s a h).1, ?_⟩
    exact Does.other (f := fun s o => (Delegation.step cfg.dele s o).1) { d with led := s } (.ledger (.kick a)) rfl
  · refine applySlash_carries (lc := cfg.world.ledger) (R := DR cfg w d) (sc := cfg.offences) ⟨fun s h => ⟨h, Does.refl _⟩, dr_trans, fun s a v h => ?_, fun s a v h => ?_⟩ rfl s u
    · have h2 := (money_follows cfg.world w s (.mint a v) rfl h).1
      exact ⟨h2, dele_env cfg { d with led := s } (s.bank.depositCreating a v) s.otherLocks s.closed (fits_sound h2)⟩
    · refine ⟨(doSlash_follows cfg.world w s a v h).1, ?_⟩
      exact Does.other (f := fun s o => (Delegation.step cfg.dele s o).1) { d with led := s } (.ledger (.slash a v)) rfl

theorem addCredit_block {cfg : StakingCredit.Cfg} {u t : StakingCredit.State} {who : AccId} {g n : Nat}
    (h : StakingCredit.addCredit cfg u who g n = .ok t) : t.credit.block = u.credit.block ∧ t.dele = u.dele := by
  unfold StakingCredit.addCredit at h
  split at h
  · cases h
  · rename_i k hk
    cases h
    unfold Credit.addOrUpdateCredit at hk
    obtain ⟨x, hx, e⟩ := World.map_ok hk
    cases e
    exact ⟨rfl, rfl⟩

/-- Staking for credit delegates through the delegations. -/
theorem stake_delegates (cfg : Cfg) (w : World.State) (s : StakingCredit.State) (hb : s.credit.block = s.dele.block) (hf : Fits w s.dele.led)
    (op : StakingCredit.Op) :
    Does (fun s o => (Delegation.step cfg.dele s o).1) isDeleCall [] s.dele (StakingCredit.step cfg.stake s op).1.dele := by
  have any : ∀ (u t : StakingCredit.State) (who : AccId) (order : List AccId), u.credit.block = u.dele.block →
      StakingCredit.delegateAny cfg.stake u who order = .ok t →
      Does (fun s o => (Delegation.step cfg.dele s o).1) isDeleCall [] u.dele t.dele := by
    intro u t who order hu h
    unfold StakingCredit.delegateAny at h
    rw [hu] at h
    split at h
    · cases h
    · rename_i d hd
      cases h
      have h1 := Does.other (f := fun s o => (Delegation.step cfg.dele s o).1) (own := isDeleCall) u.dele
        (.delegateAny who order (Credit.passThreshold cfg.stake.credit u.credit who)) rfl
      have e : (Delegation.step cfg.dele u.dele (.delegateAny who order (Credit.passThreshold cfg.stake.credit u.credit who))).1 = d := by
        have hd' : Delegation.delegateAny cfg.dele u.dele who order (Credit.passThreshold cfg.stake.credit u.credit who) = .ok d := hd
        simp only [Delegation.step, Delegation.body, hd', Except.map]
      simp only [e] at h1
      exact h1
  have above : ∀ (u t : StakingCredit.State) (who : AccId) (dst : Nat) (order : List AccId), u.credit.block = u.dele.block →
      StakingCredit.delegateAbove cfg.stake u who dst order = .ok t →
      Does (fun s o => (Delegation.step cfg.dele s o).1) isDeleCall [] u.dele t.dele := by
    intro u t who dst order hu h
    unfold StakingCredit.delegateAbove at h
    split at h
    · exact any _ _ _ _ hu h
    · cases h; exact Does.refl _
  cases op with
  | stake who signed dst order =>
    simp only [StakingCredit.step]
    split
    · exact Does.refl _
    split
    · exact Does.refl _
    rename_i s' h
    unfold StakingCredit.doStakingDelegate at h
    simp only at h
    split at h; · cases h
    split at h; · cases h
    split at h
    · cases h
    split at h; · cases h
    generalize ((Credit.creditBalance s.credit who (some s.credit.defaultCampaign)).getD dst 0 - _) = v at h
    cases hp : StakingCredit.pay cfg.stake s who v with
    | error e => rw [hp] at h; cases h
    | ok s1 =>
      rw [hp] at h
      simp only [Except.bind] at h
      split at h
      · cases h
      rename_i s2 h2
      unfold StakingCredit.pay at hp
      split at hp
      · cases hp
      rename_i b hbk
      cases hp
      obtain ⟨e1, e2⟩ := addCredit_block h2
      have e3 : s2.credit.block = s2.dele.block := by rw [e1, e2]; exact hb
      have hm := money_locks s.dele.led.bank (.transfer who cfg.stake.pallet v true)
      simp only [World.money, hbk] at hm
      have h3 := dele_env cfg s.dele b s.dele.led.otherLocks s.dele.led.closed (hm.1.trans (fits_sound hf))
      have h4 := above _ _ _ _ _ e3 h
      rw [e2] at h4
      exact h3.trans h4
  | usdt admin who u d order =>
    simp only [StakingCredit.step]
    split
    · exact Does.refl _
    split
    · exact Does.refl _
    rename_i s' lvl h
    unfold StakingCredit.doUsdt at h
    simp only at h
    split at h; · cases h
    split at h
    · cases h
    rename_i cur rem _
    generalize StakingCredit.climb _ _ _ _ _ = dst at h
    cases h1 : StakingCredit.addCredit cfg.stake s who (Credit.Level.gap (Credit.Level.ofU8 dst) (Credit.Level.ofU8 cur)) s.credit.defaultUsdtCampaign with
    | error e => rw [h1] at h; cases h
    | ok s1 =>
      rw [h1] at h
      simp only [Except.bind] at h
      obtain ⟨t, ht, e⟩ := World.map_ok h
      cases e
      obtain ⟨e1, e2⟩ := addCredit_block h1
      have h4 := above { s1 with credit := Credit.setStakingBalance s1.credit who u d } _ _ _ _ (show (Credit.setStakingBalance s1.credit who u d).block = s1.dele.block by rw [e2]; exact e1.trans hb) ht
      rw [show ({ s1 with credit := Credit.setStakingBalance s1.credit who u d } : StakingCredit.State).dele = s.dele from e2] at h4
      exact h4
  | unset admin who =>
    simp only [StakingCredit.step]
    split <;> exact Does.refl _

theorem dele_step (cfg : Cfg) (c : State) (op : Op) (hs : World.settle c.w = c.w) (hk : KeepsStakes op)
    (hb : ∀ o, op = .stake o → c.stk.credit.block = c.stk.dele.block) :
    Does (fun s o => (Delegation.step cfg.dele s o).1) isDeleCall
      (((match (generalizing := false) op with | .dele op => some op | _ => none) : Option Delegation.Op).toList.filter isDeleCall)
      (deleOf c) (deleOf (step cfg c op)) := by
  have same : ∀ (c' : State) (w : World.State), c'.stk.dele = c.stk.dele → c'.w = World.settle w →
      { w.ledger with bank := c.w.bank, otherLocks := c.w.ledger.otherLocks, closed := c.w.ledger.closed } = led c →
      Does (fun s o => (Delegation.step cfg.dele s o).1) isDeleCall [] (deleOf c) (deleOf c') := by
    intro c' w h1 h2 h3
    have e : deleOf c' = deleOf { c with stk := { c.stk with dele := deleOf c }, w := World.settle w } := by
      simp only [deleOf, h1, h2]
    rw [e]
    exact dele_settle cfg c (deleOf c) w h3.symm
  have refl : ∀ c' : State, c'.w = c.w → c'.stk.dele = c.stk.dele →
      Does (fun s o => (Delegation.step cfg.dele s o).1) isDeleCall [] (deleOf c) (deleOf c') := by
    intro c' e e2
    have : deleOf c' = deleOf c := by simp only [deleOf, e, e2]
    rw [this]
    exact Does.refl _
  cases op with
  | world op =>
    cases op with
    | ledger o =>
      simp only [step]
      split
      · rename_i hw
        cases o with
        | external b oo cl => exact same _ _ rfl rfl rfl
        | _ => cases hw
      · exact refl _ rfl rfl
    | unlockStake r a =>
      cases r with
      | true => exact absurd hk id
      | false => exact same _ _ rfl rfl rfl
    | hold a v => exact same _ _ rfl rfl (by simp only [World.effect]; split <;> rfl)
    | release a v => exact same _ _ rfl rfl (by simp only [World.effect]; split <;> rfl)
    | unlockVote r a => exact same _ _ rfl rfl (by simp only [World.effect]; split <;> rfl)
    | unlockMove r x y v => exact same _ _ rfl rfl (by simp only [World.effect]; split <;> rfl)
    | _ => exact same _ _ rfl rfl rfl
  | dele o =>
    have key : deleOwn o = true → Does (fun s o => (Delegation.step cfg.dele s o).1) isDeleCall ([o].filter isDeleCall) (deleOf c) (deleOf (step cfg c (.dele o))) := by
      intro ho
      simp only [step, ho, if_true]
      have h := Does.any (f := fun s o => (Delegation.step cfg.dele s o).1) (own := isDeleCall) (deleOf c) o
      have h2 := h.trans (dele_settle cfg c (Delegation.step cfg.dele (deleOf c) o).1
        { c.w with ledger := (Delegation.step cfg.dele (deleOf c) o).1.led, bank := (Delegation.step cfg.dele (deleOf c) o).1.led.bank } rfl)
      rw [List.append_nil] at h2
      exact h2
    cases o with
    | ledger l => exact Does.refl _
    | _ => exact key rfl
  | bond o n =>
    simp only [step]
    split
    · have e := bond_led cfg.offences { c.slash with led := led c } o n
      generalize hop : Slashing.withSpans _ o = o' at e
      have h1 := Does.other (f := fun s o => (Delegation.step cfg.dele s o).1) (own := isDeleCall) (deleOf c) (.ledger o') rfl
      have h2 := h1.trans (dele_settle cfg c (Delegation.step cfg.dele (deleOf c) (.ledger o')).1
        { c.w with ledger := (Delegation.step cfg.dele (deleOf c) (.ledger o')).1.led, bank := (Delegation.step cfg.dele (deleOf c) (.ledger o')).1.led.bank } rfl)
      have e2 : put c.w (Slashing.ledgerCall cfg.offences { c.slash with led := led c } o n).1.led =
          put c.w (Delegation.step cfg.dele (deleOf c) (.ledger o')).1.led := by rw [e]; rfl
      rw [e2]
      exact h2
    · exact refl _ rfl rfl
  | slash o =>
    simp only [step]
    split
    · rename_i ho
      have h1 := (slash_carries (dr_carries cfg c.w c.stk.dele) { c.slash with led := led c } o ho (fits hs)).2
      exact h1.trans (dele_settle cfg c { c.stk.dele with led := (Slashing.step cfg.offences { c.slash with led := led c } o).1.led }
        { c.w with ledger := (Slashing.step cfg.offences { c.slash with led := led c } o).1.led, bank := (Slashing.step cfg.offences { c.slash with led := led c } o).1.led.bank } rfl)
    · exact refl _ rfl rfl
  | stake o =>
    have h1 := stake_delegates cfg c.w (stkOn c) (hb o rfl) (fits hs) o
    exact h1.trans (dele_settle cfg c (StakingCredit.step cfg.stake (stkOn c) o).1.dele
        { c.w with ledger := (StakingCredit.step cfg.stake (stkOn c) o).1.dele.led, bank := (StakingCredit.step cfg.stake (stkOn c) o).1.dele.led.bank } rfl)
  | credit o => simp only [step]; split; · exact same _ _ rfl rfl rfl
                exact refl _ rfl rfl
  | adsc o => simp only [step]; split; · exact same _ _ rfl rfl rfl
              exact refl _ rfl rfl

/-! ### C119 -/

theorem node_fold (cfg : DeeperNode.Cfg) (l : List DeeperNode.Op) : ∀ s, (DeeperNode.run cfg s l).1 = l.foldl (fun s o => (DeeperNode.step cfg s o).1) s := by
  induction l with
  | nil => intro s; rfl
  | cons o l ih => intro s; exact ih _

/-- C119. What the device registry goes through on the chain is a history of that pallet alone, with the same calls. -/
theorem C119_registry (cfg : Cfg) (c : State) (ops : List Op) :
    ∃ l, (DeeperNode.run cfg.world.node (nodeOf c) l).1 = nodeOf (run cfg c ops) ∧ l.filter isNodeCall = nodeCalls ops := by
  obtain ⟨l, h1, h2⟩ := Does.history (f := fun s o => (DeeperNode.step cfg.world.node s o).1) (own := isNodeCall) cfg nodeOf
    (fun | .world (.node op) => some op | _ => none) (fun _ _ => True) (fun _ => True) (fun _ _ _ => trivial)
    (fun c op _ _ => node_step cfg c op) ops c trivial (fun _ _ _ _ => trivial)
  exact ⟨l, (node_fold cfg.world.node l _).trans h1, h2⟩

theorem tips_fold (cfg : Tips.Cfg) (l : List Tips.Op) : ∀ s, (Tips.run cfg s l).1 = l.foldl (fun s o => (Tips.step cfg s o).1) s := by
  induction l with
  | nil => intro s; rfl
  | cons o l ih => intro s; exact ih _

/-- C119. What the tips pallet goes through on the chain is a history of that pallet alone, with the same calls. -/
theorem C119_tips (cfg : Cfg) (c : State) (ops : List Op) :
    ∃ l, (Tips.run cfg.world.tips (tipsOf c) l).1 = tipsOf (run cfg c ops) ∧ l.filter isTipsCall = tipsCalls ops := by
  obtain ⟨l, h1, h2⟩ := Does.history (f := fun s o => (Tips.step cfg.world.tips s o).1) (own := isTipsCall) cfg tipsOf
    (fun | .world (.tips op) => some op | _ => none) (fun _ _ => True) (fun _ => True) (fun _ _ _ => trivial)
    (fun c op _ _ => tips_step cfg c op) ops c trivial (fun _ _ _ _ => trivial)
  exact ⟨l, (tips_fold cfg.world.tips l _).trans h1, h2⟩

theorem oper_fold (cfg : Operation.Cfg) (l : List Operation.Op) : ∀ s, (Operation.run cfg s l).1 = l.foldl (fun s o => (Operation.step cfg s o).1) s := by
  induction l with
  | nil => intro s; rfl
  | cons o l ih => intro s; exact ih _

/-- C119. What the operation pallet goes through on the chain is a history of that pallet alone, with the same calls. -/
theorem C119_operation (cfg : Cfg) (c : State) (ops : List Op) :
    ∃ l, (Operation.run cfg.world.oper (operOf c) l).1 = operOf (run cfg c ops) ∧ l.filter isOperCall = operCalls ops := by
  obtain ⟨l, h1, h2⟩ := Does.history (f := fun s o => (Operation.step cfg.world.oper s o).1) (own := isOperCall) cfg operOf
    (fun | .world (.oper op) => some op | _ => none) (fun _ _ => True) (fun _ => True) (fun _ _ _ => trivial)
    (fun c op _ _ => oper_step cfg c op) ops c trivial (fun _ _ _ _ => trivial)
  exact ⟨l, (oper_fold cfg.world.oper l _).trans h1, h2⟩

theorem micro_fold (cfg : Micropayment.Config) (l : List Micropayment.Op) : ∀ s, (Micropayment.run cfg s l).1 = l.foldl (fun s o => (Micropayment.step cfg s o).1) s := by
  induction l with
  | nil => intro s; rfl
  | cons o l ih => intro s; exact ih _

/-- C119. What the payment channels go through on the chain is a history of that pallet alone, with the same calls. -/
theorem C119_channels (cfg : Cfg) (c : State) (ops : List Op) :
    ∃ l, (Micropayment.run cfg.world.micro (microOf c) l).1 = microOf (run cfg c ops) ∧ l.filter isMicroCall = microCalls ops := by
  obtain ⟨l, h1, h2⟩ := Does.history (f := fun s o => (Micropayment.step cfg.world.micro s o).1) (own := isMicroCall) cfg microOf
    (fun | .world (.micro op) => some op | _ => none) (fun _ _ => True) (fun _ => True) (fun _ _ _ => trivial)
    (fun c op _ _ => micro_step cfg c op) ops c trivial (fun _ _ _ _ => trivial)
  exact ⟨l, (micro_fold cfg.world.micro l _).trans h1, h2⟩

theorem council_fold (cfg : Council.Cfg) (l : List Council.Op) : ∀ s, (Council.run cfg s l).1 = l.foldl (fun s o => (Council.step cfg s o).1) s := by
  induction l with
  | nil => intro s; rfl
  | cons o l ih => intro s; exact ih _

/-- C119. What the council elections go through on the chain is a history of that pallet alone, with the same calls. -/
theorem C119_council (cfg : Cfg) (c : State) (ops : List Op) (hs : World.settle c.w = c.w)
    (hk : ∀ op ∈ ops, KeepsVotes op) :
    ∃ l, (Council.run cfg.world.council (councilOf c) l).1 = councilOf (run cfg c ops) ∧ l.filter isCouncilCall = councilCalls ops := by
  obtain ⟨l, h1, h2⟩ := Does.history (f := fun s o => (Council.step cfg.world.council s o).1) (own := isCouncilCall) cfg councilOf
    (fun | .world (.council op) => some op | _ => none) (fun _ op => KeepsVotes op) (fun c => World.settle c.w = c.w) (fun _ op h => settled_step cfg op h)
    (fun c op h hk => council_step cfg c op h hk) ops c hs (fun pre op post e => hk op (by rw [e]; simp))
  exact ⟨l, (council_fold cfg.world.council l _).trans h1, h2⟩

theorem credit_fold (cfg : Credit.Cfg) (l : List Credit.Op) : ∀ s, (Credit.run cfg s l).1 = l.foldl (fun s o => (Credit.step cfg s o).1) s := by
  induction l with
  | nil => intro s; rfl
  | cons o l ih => intro s; exact ih _

/-- C119. What the credit pallet goes through on the chain is a history of that pallet alone, with the same calls. -/
theorem C119_credit (cfg : Cfg) (c : State) (ops : List Op) :
    ∃ l, (Credit.run cfg.stk.credit (creditOf c) l).1 = creditOf (run cfg c ops) ∧ l.filter isCreditCall = creditCalls ops := by
  obtain ⟨l, h1, h2⟩ := Does.history (f := fun s o => (Credit.step cfg.stk.credit s o).1) (own := isCreditCall) cfg creditOf
    (fun | .credit op => some op | _ => none) (fun _ _ => True) (fun _ => True) (fun _ _ _ => trivial)
    (fun c op _ _ => credit_step cfg c op) ops c trivial (fun _ _ _ _ => trivial)
  exact ⟨l, (credit_fold cfg.stk.credit l _).trans h1, h2⟩

theorem adsc_fold (cfg : Adsc.Cfg) (l : List Adsc.Op) : ∀ s, (Adsc.run cfg s l).1 = l.foldl (fun s o => (Adsc.step cfg s o).1) s := by
  induction l with
  | nil => intro s; rfl
  | cons o l ih => intro s; exact ih _

/-- C119. What the ADSC pallet goes through on the chain is a history of that pallet alone, with the same calls. -/
theorem C119_adsc (cfg : Cfg) (c : State) (ops : List Op) :
    ∃ l, (Adsc.run cfg.adsc (adscOf c) l).1 = adscOf (run cfg c ops) ∧ l.filter isAdscCall = adscCalls ops := by
  obtain ⟨l, h1, h2⟩ := Does.history (f := fun s o => (Adsc.step cfg.adsc s o).1) (own := isAdscCall) cfg adscOf
    (fun | .adsc op => some op | _ => none) (fun _ _ => True) (fun _ => True) (fun _ _ _ => trivial)
    (fun c op _ _ => adsc_step cfg c op) ops c trivial (fun _ _ _ _ => trivial)
  exact ⟨l, (adsc_fold cfg.adsc l _).trans h1, h2⟩

theorem slash_fold (cfg : Slashing.Cfg) (l : List Slashing.Op) : ∀ s, (Slashing.run cfg s l).1 = l.foldl (fun s o => (Slashing.step cfg s o).1) s := by
  induction l with
  | nil => intro s; rfl
  | cons o l ih => intro s; exact ih _

/-- C119. What the staking ledger with offences and slashes goes through on the chain is a history of that pallet alone, with the same calls. -/
theorem C119_ledger (cfg : Cfg) (c : State) (ops : List Op) (hs : World.settle c.w = c.w)
    (hk : ∀ op ∈ ops, KeepsStakes op) :
    ∃ l, (Slashing.run cfg.offences (slashOf c) l).1 = slashOf (run cfg c ops) ∧ l.filter isSlashCall = slashCalls ops := by
  obtain ⟨l, h1, h2⟩ := Does.history (f := fun s o => (Slashing.step cfg.offences s o).1) (own := isSlashCall) cfg slashOf
    (fun | .bond op n => some (.ledger op n) | .slash (.ledger ..) => none | .slash op => some op | _ => none) (fun _ op => KeepsStakes op) (fun c => World.settle c.w = c.w) (fun _ op h => settled_step cfg op h)
    (fun c op h hk => slash_step cfg c op h hk) ops c hs (fun pre op post e => hk op (by rw [e]; simp))
  exact ⟨l, (slash_fold cfg.offences l _).trans h1, h2⟩

theorem dele_fold (cfg : Delegation.Cfg) (l : List Delegation.Op) : ∀ s, (Delegation.run cfg s l).1 = l.foldl (fun s o => (Delegation.step cfg s o).1) s := by
  induction l with
  | nil => intro s; rfl
  | cons o l ih => intro s; exact ih _

/-- C119. What the delegations, elections and payouts go through on the chain is a history of that pallet alone, with the same calls. -/
theorem C119_delegations (cfg : Cfg) (c : State) (ops : List Op) (hs : World.settle c.w = c.w)
    (hk : ∀ op ∈ ops, KeepsStakes op) (hb : InStep cfg c ops) :
    ∃ l, (Delegation.run cfg.dele (deleOf c) l).1 = deleOf (run cfg c ops) ∧ l.filter isDeleCall = deleCalls ops := by
  obtain ⟨l, h1, h2⟩ := Does.history (f := fun s o => (Delegation.step cfg.dele s o).1) (own := isDeleCall) cfg deleOf
    (fun | .dele op => some op | _ => none) (fun c op => KeepsStakes op ∧ ∀ o, op = .stake o → c.stk.credit.block = c.stk.dele.block) (fun c => World.settle c.w = c.w) (fun _ op h => settled_step cfg op h)
    (fun c op h hk => dele_step cfg c op h hk.1 hk.2) ops c hs (fun pre op post e => ⟨hk op (by rw [e]; simp), fun o ho => hb pre o post (by rw [e, ho])⟩)
  exact ⟨l, (dele_fold cfg.dele l _).trans h1, h2⟩

/-! ### Guarantees of single pallets, on the chain -/

/-- C119, for C01: on the chain the reported total of an account is the sum of the balances of its open channels. -/
theorem C119_escrow (cfg : Cfg) (c : State) (ops : List Op) (n : Nat) (eras : AccId → Nat)
    (hg : microOf c = Micropayment.genesis c.w.bank n eras) (a : AccId) :
    ((run cfg c ops).w.micro.totals.get a).getD 0 = Micropayment.escrow (run cfg c ops).w.micro a := by
  obtain ⟨l, h, -⟩ := C119_channels cfg c ops
  rw [hg] at h
  have := Micropayment.C01_escrow_total cfg.world.micro c.w.bank n eras l a
  rw [h] at this
  exact this

/-- C119, for C43 and C45: on the chain an account is in the set of a validator exactly if its own record is active and
names it, and the number of referees of an account is the number of accounts which name it. -/
theorem C119_graph (cfg : Cfg) (c : State) (ops : List Op) (hs : World.settle c.w = c.w) (hk : ∀ op ∈ ops, KeepsStakes op)
    (hb : InStep cfg c ops) (m : Balance) (hg : deleOf c = Delegation.genesis c.w.bank m) :
    let s := (run cfg c ops).stk.dele
    (∀ a v, a ∈ Delegation.delegatorsOf s v ↔ ∃ d, s.delegators.get a = some d ∧ d.delegating = true ∧ v ∈ d.validators) ∧
    s.active = (s.delegators.entries.filter fun e => e.2.delegating).length ∧
    ∀ r, (s.refereeCount.get r).getD 0 = (s.referer.entries.filter fun e => decide (e.2 = r)).length := by
  obtain ⟨l, h, -⟩ := C119_delegations cfg c ops hs hk hb
  rw [hg] at h
  have h1 := Delegation.C43_graph cfg.dele c.w.bank m l
  have h2 := Delegation.C45_counts cfg.dele c.w.bank m l
  rw [h] at h1 h2
  exact ⟨h1.1, h1.2.2.2, h2.1⟩

/-- C119, for C39: on the chain every era of the bonding period lies in exactly one slashing span of a stash. -/
theorem C119_spans (cfg : Cfg) (c : State) (ops : List Op) (hs : World.settle c.w = c.w) (hk : ∀ op ∈ ops, KeepsStakes op)
    (m : Balance) (hg : slashOf c = Slashing.genesis c.w.bank m) (a : AccId) (sp : Slashing.Spans)
    (h : (run cfg c ops).slash.spans.get a = some sp) :
    ∃ n, (run cfg c ops).slash.active = some n ∧
    ∀ e, n - cfg.world.ledger.bondingDuration ≤ e → ∃ x, x ∈ sp.iter ∧ x.contains e = true ∧ ∀ y, y ∈ sp.iter → y.contains e = true → y = x := by
  obtain ⟨l, hl, -⟩ := C119_ledger cfg c ops hs hk
  rw [hg] at hl
  obtain ⟨n, h1, -, -, h2, -⟩ := Slashing.C39_spans_partition cfg.offences c.w.bank m l a sp (by rw [hl]; exact h)
  rw [hl] at h1
  exact ⟨n, h1, h2⟩

/-! ### The locks which the root removes -/

/-- C119. `force_remove_lock` by the root takes away one lock of one account and nothing else; by anybody else it has no
effect. -/
theorem C119_unlock (cfg : Cfg) (c : State) (hs : World.settle c.w = c.w) (root : Bool) (a x : AccId) :
    Ledger.lockOf (step cfg c (.world (.unlockStake root a))).w.ledger x = (if root = true ∧ x = a then 0 else Ledger.lockOf c.w.ledger x) ∧
    World.voteLock (step cfg c (.world (.unlockVote root a))).w x = (if root = true ∧ x = a then 0 else World.voteLock c.w x) ∧
    (step cfg c (.world (.unlockStake root a))).w.bank.accts = c.w.bank.accts ∧
    (step cfg c (.world (.unlockVote root a))).w.bank.accts = c.w.bank.accts := by
  cases root with
  | false => exact ⟨rfl, rfl, rfl, rfl⟩
  | true =>
    refine ⟨?_, ?_, rfl, rfl⟩
    · show ((c.w.ledger.locks.erase a).get x).getD 0 = _
      rw [FMap.get_erase]
      by_cases hx : x = a
      · simp [hx]
      · simp [hx, Ledger.lockOf]
    · show ((c.w.council.lock.erase a).get x).getD 0 = _
      rw [FMap.get_erase]
      by_cases hx : x = a
      · simp [hx]
      · simp [hx, World.voteLock]

/-! ### Example -/

theorem inStep_cons {cfg : Cfg} {c : State} {op : Op} {ops : List Op} (h : ∀ o, op = .stake o → c.stk.credit.block = c.stk.dele.block)
    (h' : InStep cfg (step cfg c op) ops) : InStep cfg c (op :: ops) := by
  intro pre o post e
  cases pre with
  | nil => cases e; exact h o rfl
  | cons p pre => cases e; exact h' pre o post rfl

/-- A bond, a delegation, an offence, staking for credit; a channel is opened and a device registered. -/
def exHistory : List Op :=
  [.bond (.bond 1 11 500 .staked true) 0, .bond (.validate 11 (0, false)) 0, .dele (.configure 100 2 1 [] 84), .dele (.newEra [1]), .slash (.startEra 0),
   .dele (.delegate 7 [1] true), .slash (.offence 0 0 1 100000000 [5]), .stake (.stake 1 true 3 [1]), .world (.micro (.openChannel 2 3 100 10)),
   .credit (.burnForCredit 3 5), .adsc (.addPool true 60), .dele (.block fun _ e f => some (10 * (f + 1 - e)))]

theorem exHistory_keeps : (∀ op ∈ exHistory, KeepsStakes op) ∧ ∀ op ∈ exHistory, KeepsVotes op := by
  constructor <;> simp [exHistory, KeepsStakes, KeepsVotes]

theorem exHistory_inStep : InStep exCfg exStart exHistory := by
  unfold exHistory
  repeat' (first | (refine inStep_cons (fun o ho => ?_) ?_) | (intro pre o post e; cases pre <;> cases e))
  all_goals first | cases ho | skip
  rfl

/-- The hypotheses of all theorems above hold here. -/
example : World.settle exStart.w = exStart.w ∧ deleOf exStart = Delegation.genesis exStart.w.bank 10 ∧
    slashOf exStart = Slashing.genesis exStart.w.bank 10 ∧ microOf exStart = Micropayment.genesis exStart.w.bank 0 (fun _ => 0) :=
  ⟨exStart_start.locks, rfl, rfl, rfl⟩

/-- What has happened: two delegators, one of them by staking for credit, a slashing span, a channel. -/
example :
    let c := run exCfg exStart exHistory
    Delegation.delegatorsOf c.stk.dele 1 = [1, 7] ∧ (c.slash.spans.get 1).isSome = true ∧ c.w.micro.totals.get 2 = some 100 ∧
    (creditCalls exHistory).length = 1 ∧ (slashCalls exHistory).length = 4 ∧ (deleCalls exHistory).length = 4 ∧ (microCalls exHistory).length = 1 ∧
    (adscCalls exHistory).length = 1 := by
  decide +kernel

example : ∃ n, (run exCfg exStart exHistory).slash.active = some n :=
  have h : ∃ sp, (run exCfg exStart exHistory).slash.spans.get 1 = some sp := by
    have : ((run exCfg exStart exHistory).slash.spans.get 1).isSome = true := by decide +kernel
    exact Option.isSome_iff_exists.1 this
  (C119_spans exCfg exStart exHistory exStart_start.locks exHistory_keeps.1 10 rfl 1 _ h.choose_spec).imp fun _ h => h.1

end Verif.Chain
