import Verif.ExitChain
import Verif.ExitStake
import Verif.CouncilLocks
import Verif.MicropaymentExit

/-
Property C142: an account can leave the chain with everything it owns. Puts together C138 (stakes) and C139 (deposits)
with the vote locks of the elections. No new definitions of the code.
-/

namespace Verif.ExitAll

open Chain ExitChain

/-- Who has no vote in the elections has no vote lock. -/
def NoVote (w : World.State) : Prop := ∀ a, w.council.voting.get a = none → w.council.lock.get a = none

theorem noVote_effect (cfg : World.Cfg) {w : World.State} (hs : World.settle w = w) (h : NoVote w) (op : World.Op) :
    NoVote (World.effect cfg w op) := by
  cases op with
  | council op =>
    have hl : Council.Locks w.council.voting.keys { w.council with bank := w.bank } := by
      refine ⟨fun a => ?_, fun a v hv hn => ?_, h⟩
      · have h1 := World.settled_frozen hs a
        have h2 : w.council.otherLock a = max (Ledger.lockOf w.ledger a) (w.rest a) :=
          (congrFun (congrArg (fun v : World.State => v.council.otherLock) hs) a).symm
        show w.bank.frozen a = max (World.voteLock w a) (w.council.otherLock a)
        rw [h2]
        exact h1
      · exact (hn ((FMap.mem_keys_iff _ _).2 ⟨v, hv⟩)).elim
    exact (Council.locks_step cfg.council op hl).none
  | hold a v =>
    simp only [World.effect]
    split <;> exact h
  | release a v =>
    simp only [World.effect]
    split <;> exact h
  | unlockStake r a =>
    simp only [World.effect]
    split <;> exact h
  | unlockVote r x =>
    simp only [World.effect]
    split
    · intro a ha
      show (w.council.lock.erase x).get a = none
      rw [FMap.get_erase]
      split
      · rfl
      · exact h a ha
    · exact h
  | unlockMove r x y v =>
    simp only [World.effect]
    split
    · intro a ha
      show (w.council.lock.erase x).get a = none
      rw [FMap.get_erase]
      split
      · rfl
      · exact h a ha
    · exact h
  | _ => exact h

theorem noVote_world (cfg : World.Cfg) (ws : List World.Op) : ∀ w : World.State, World.settle w = w → NoVote w →
    NoVote (World.run cfg w ws) := by
  induction ws with
  | nil => intro w _ h; exact h
  | cons op ws ih => intro w hs h; exact ih _ rfl (noVote_effect cfg hs h op)

theorem run_app (cfg : Cfg) (l m : List Op) : ∀ c, run cfg c (l ++ m) = run cfg (run cfg c l) m := by
  induction l with
  | nil => intro c; rfl
  | cons op l ih => intro c; exact ih _

/-- What holds after every history. -/
structure Sound (cfg : Cfg) (d : State) : Prop where
  inv : World.Inv cfg.world d.w
  settled : World.settle d.w = d.w
  solid : Solid d.w.bank
  noVote : NoVote d.w
  books : d.w.bank.Inv

theorem sound_run (cfg : Cfg) (hp : cfg.world.micro.burnPercent ≤ 100)
    (hinj : ∀ a b c d, cfg.world.tips.hashOf a b = cfg.world.tips.hashOf c d → a = c ∧ b = d)
    (ops : List Op) : ∀ d, Sound cfg d → Sound cfg (run cfg d ops) := by
  induction ops with
  | nil => intro d h; exact h
  | cons op ops ih =>
    intro d h
    refine ih _ ⟨chain_inv cfg hinj [op] d h.inv h.settled, settled_step cfg op h.settled, C115_solid hp d h.solid [op], ?_, books_step cfg op h.settled h.books⟩
    by_cases hw : ∃ o, op = .world o
    · obtain ⟨o, rfl⟩ := hw
      simp only [step]
      split
      · exact noVote_world cfg.world [o] d.w h.settled h.noVote
      · exact h.noVote
    · obtain ⟨ws, -, e⟩ := C109_refines cfg d h.settled op fun o he => hw ⟨o, he⟩
      rw [← e]
      exact noVote_world cfg.world ws d.w h.settled h.noVote

theorem sound_start {cfg : Cfg} {c : State} (g : World.Genesis cfg.world c.w) (hs : World.Start c.w) (hb : Solid c.w.bank) :
    Sound cfg c := by
  refine ⟨World.genesis_inv g, hs.locks, hb, ?_, hs.books⟩
  obtain ⟨b, o, ms, h⟩ := g.council
  exact (Council.locks_genesis h).none

/-- The calls by which an account leaves do not touch stakes and the locks of others. -/
theorem exits_keep (cfg : World.Cfg) (a : AccId) (calls : List World.Op) : ∀ w : World.State, (∀ op ∈ calls, exits a op) →
    (World.run cfg w calls).ledger.bonded = w.ledger.bonded ∧ (World.run cfg w calls).ledger.locks = w.ledger.locks ∧
    (World.run cfg w calls).rest = w.rest ∧ (World.run cfg w calls).pins = w.pins ∧ (World.run cfg w calls).micro = w.micro := by
  induction calls with
  | nil => intro w _; exact ⟨rfl, rfl, rfl, rfl, rfl⟩
  | cons op l ih =>
    intro w h
    have h0 := h op List.mem_cons_self
    have hs : (World.step cfg w op).ledger.bonded = w.ledger.bonded ∧ (World.step cfg w op).ledger.locks = w.ledger.locks ∧
        (World.step cfg w op).rest = w.rest ∧ (World.step cfg w op).pins = w.pins ∧ (World.step cfg w op).micro = w.micro := by
      unfold exits at h0
      split at h0
      · exact ⟨rfl, rfl, rfl, rfl, rfl⟩
      · exact ⟨rfl, rfl, rfl, rfl, rfl⟩
      · exact ⟨rfl, rfl, rfl, rfl, rfl⟩
      · exact ⟨rfl, rfl, rfl, rfl, rfl⟩
      · exact h0.elim
    obtain ⟨h1, h2, h3, h4, h5⟩ := ih (World.step cfg w op) fun o ho => h o (List.mem_cons_of_mem _ ho)
    exact ⟨h1.trans hs.1, h2.trans hs.2.1, h3.trans hs.2.2.1, h4.trans hs.2.2.2.1, h5.trans hs.2.2.2.2⟩

/-- Paying out a whole account which nothing holds. -/
theorem transfer_all {b : Bank} (hb : Solid b) {a y : AccId} (hay : a ≠ y) (ht : 0 < b.free a) (hr : b.reserved a = 0)
    (hf : b.frozen a = 0) (hp : b.pinned a = false) :
    ∃ b', b.transfer a y (b.free a) false = .ok b' ∧ b'.total a = 0 ∧ b'.free y = b.free y + b.free a := by
  have hfree : b.ed ≤ b.free a := by
    obtain h | ⟨x, h⟩ : b.accts.get a = none ∨ ∃ x, b.accts.get a = some x := by cases b.accts.get a <;> simp
    · have : b.free a = 0 := by simp only [Bank.free, Bank.acct, h]; rfl
      omega
    · have h1 := hb a x h
      have : b.free a = x.free := by simp only [Bank.free, Bank.acct, h]; rfl
      omega
  have hd : b.canDie a = true := by simp [Bank.canDie, hr, hf, hp]
  unfold Bank.transfer
  rw [if_neg (by rintro (h | h); · omega
                 exact hay h), if_neg (by omega), if_neg (by omega), if_neg (by simp), if_neg (by simp [hd]), if_neg (by omega)]
  refine ⟨_, rfl, ?_, ?_⟩
  · show Acct.free (Bank.acct _ a) + Acct.reserved (Bank.acct _ a) = 0
    rw [Bank.acct_put_ne _ _ hay, Bank.acct_put_self]
    split
    · rfl
    · show b.free a - b.free a + b.reserved a = 0
      omega
  · show Acct.free (Bank.acct _ y) = _
    have e : ∀ x, (b.put a x).ed = b.ed := by intro x; unfold Bank.put; split <;> rfl
    rw [Bank.acct_put_self, if_neg, Bank.free_put_ne _ _ hay.symm]
    rintro ⟨h, -⟩
    rw [e] at h
    simp only at h
    omega

/-- Nothing of the account is held by somebody else: no lock or reference of another pallet, and nothing is reserved
but its own deposits with the registry of devices, the tips and the elections (other pallets, locker members). -/
structure Unheld (cfg : Cfg) (d : State) (a : AccId) : Prop where
  rest : d.w.rest a = 0
  pins : d.w.pins a = false
  reserved : d.w.bank.reserved a = deposits cfg.world d.w a

/-- Nothing holds anything of the account any more. -/
structure Loose (d : State) (a : AccId) : Prop where
  bonded : d.w.ledger.bonded.get a = none
  lock : d.w.ledger.locks.get a = none
  vote : d.w.council.voting.get a = none
  rest : d.w.rest a = 0
  pins : d.w.pins a = false
  reserved : d.w.bank.reserved a = 0

theorem Loose.frozen {cfg : Cfg} {d : State} (hs : Sound cfg d) {a : AccId} (h : Loose d a) : d.w.bank.frozen a = 0 := by
  rw [World.settled_frozen hs.settled, World.voteLock, hs.noVote a h.vote, Ledger.lockOf, h.lock, h.rest]
  rfl

theorem Loose.pinned {cfg : Cfg} {d : State} (hs : Sound cfg d) {a : AccId} (h : Loose d a) : d.w.bank.pinned a = false := by
  rw [World.settled_pinned hs.settled, h.pins, FMap.contains, h.bonded]
  rfl

/-- A transfer of all that an account has, on the chain. -/
theorem send_all {cfg : Cfg} {d : State} (hs : Sound cfg d) {a y : AccId} (hay : a ≠ y) (h : Loose d a) (ht : 0 < d.w.bank.free a) :
    let d' := step cfg d (.world (.money (.transfer a y (d.w.bank.free a) false)))
    d'.w.bank.total a = 0 ∧ d'.w.bank.free y = d.w.bank.free y + d.w.bank.free a := by
  intro d'
  obtain ⟨b', t1, t2, t3⟩ := transfer_all hs.solid hay ht h.reserved (h.frozen hs) (h.pinned hs)
  have hb : d'.w.bank.accts = b'.accts := by
    show (World.money d.w.bank (.transfer a y (d.w.bank.free a) false)).accts = _
    simp only [World.money]
    rw [t1]
  refine ⟨?_, ?_⟩
  · rw [← t2]
    simp only [Bank.total, Bank.free, Bank.reserved, Bank.acct, hb]
  · rw [← t3]
    simp only [Bank.free, Bank.acct, hb]

theorem exits_pay (cfg : Cfg) (a x : AccId) (calls : List World.Op) : ∀ (c : State), (∀ op ∈ calls, exits a op) →
    ¬ everPays cfg x c (calls.map .world) := by
  induction calls with
  | nil => intro c _ h; exact h
  | cons op l ih =>
    intro c h
    have h0 := h op List.mem_cons_self
    have ho : ¬ pays cfg c x (.world op) := by
      unfold exits at h0
      split at h0
      · exact fun h => h
      · exact fun h => h
      · exact fun h => h
      · exact fun h => h
      · exact h0.elim
    rintro (hp | hp)
    · exact ho hp
    · exact ih _ (fun o ho => h o (List.mem_cons_of_mem _ ho)) hp

/-- Leaving registry, tips and elections, with all that follows. -/
theorem quit {cfg : Cfg} (hp : cfg.world.micro.burnPercent ≤ 100)
    (hinj : ∀ a b c d, cfg.world.tips.hashOf a b = cfg.world.tips.hashOf c d → a = c ∧ b = d)
    {d : State} (h : Sound cfg d) {a : AccId} (ho : Out d a) (hu : Unheld cfg d a) :
    ∃ calls : List World.Op, (∀ op ∈ calls, exits a op) ∧
      let d' := run cfg d (calls.map .world)
      Sound cfg d' ∧ Loose d' a ∧ d'.w.micro = d.w.micro ∧ d.w.bank.total a ≤ d'.w.bank.free a ∧ ∀ x, d.w.bank.total x ≤ d'.w.bank.total x := by
  obtain ⟨calls, h1, h2, h3⟩ := leave_world hinj h.inv a
  obtain ⟨e, -⟩ := chain_world cfg a calls d h1
  obtain ⟨k1, k2, k3, k4, k5⟩ := exits_keep cfg.world a calls d.w h1
  have hs := sound_run cfg hp hinj (calls.map .world) d h
  have hg := fun x => C115_history hp d h.solid (calls.map .world) x (exits_pay cfg a x calls d h1)
  refine ⟨calls, h1, ?_⟩
  intro d'
  have e' : d'.w = World.run cfg.world d.w calls := e
  have hg' : d.w.bank.total a ≤ d'.w.bank.total a := hg a
  rw [← e'] at h2 h3 k1 k2 k3 k4 k5
  have hr : d'.w.bank.reserved a = 0 := by have := hu.reserved; omega
  refine ⟨hs, ⟨by rw [k1]; exact ho.bonded, by rw [k2]; exact ho.lock, h2.vote, by rw [k3]; exact hu.rest, by rw [k4]; exact hu.pins, hr⟩, k5, ?_, hg⟩
  simp only [Bank.total] at hg' ⊢
  omega

theorem leave {cfg : Cfg} (hp : cfg.world.micro.burnPercent ≤ 100)
    (hinj : ∀ a b c d, cfg.world.tips.hashOf a b = cfg.world.tips.hashOf c d → a = c ∧ b = d)
    {d : State} (h : Sound cfg d) {a y : AccId} (hay : a ≠ y) (ho : Out d a) (hu : Unheld cfg d a) (ht : 0 < d.w.bank.total a) :
    ∃ calls : List World.Op, (∀ op ∈ calls, exits a op) ∧
      let d' := run cfg d (calls.map .world)
      let d'' := step cfg d' (.world (.money (.transfer a y (d'.w.bank.free a) false)))
      d.w.bank.total a ≤ d'.w.bank.free a ∧ d''.w.bank.total a = 0 ∧ d''.w.bank.free y = d'.w.bank.free y + d'.w.bank.free a := by
  obtain ⟨calls, h1, h2, h3, -, h4, -⟩ := quit hp hinj h ho hu
  have := send_all h2 hay h3 (by omega)
  exact ⟨calls, h1, h4, this⟩

/-- C142. After any history in which no call of the root took stakes' locks away, an account which does not stake and of
which nobody else holds anything can leave the chain with everything it owns: by calls of its own all its deposits come
back, and then a transfer of all it has to anybody goes through and leaves nothing behind. -/
theorem C142_leave (cfg : Cfg) (hp : cfg.world.micro.burnPercent ≤ 100)
    (hinj : ∀ a b c d, cfg.world.tips.hashOf a b = cfg.world.tips.hashOf c d → a = c ∧ b = d)
    {c : State} (g : World.Genesis cfg.world c.w) (s : World.Start c.w) (hb : Solid c.w.bank) (ops : List Op)
    (hk : ∀ op ∈ ops, KeepsStakes op) (a y : AccId) (hay : a ≠ y) :
    let d := run cfg c ops
    d.w.ledger.bonded.get a = none → Unheld cfg d a → 0 < d.w.bank.total a →
    ∃ calls : List World.Op, (∀ op ∈ calls, exits a op) ∧
      let d' := run cfg d (calls.map .world)
      let d'' := step cfg d' (.world (.money (.transfer a y (d'.w.bank.free a) false)))
      d.w.bank.total a ≤ d'.w.bank.free a ∧ d''.w.bank.total a = 0 ∧ d''.w.bank.free y = d'.w.bank.free y + d'.w.bank.free a := by
  intro d hn hu ht
  have hs : Sound cfg d := sound_run cfg hp hinj ops c (sound_start g s hb)
  exact leave hp hinj hs hay (out_of (base_run cfg ops c (base_start s) hk).1 hs.settled hn) hu ht

/-- C142 for who stakes: direct the rewards to the stash, unbond everything, wait one bonding duration, withdraw, and
leave. -/
theorem C142_stake (cfg : Cfg) (hp : cfg.world.micro.burnPercent ≤ 100)
    (hinj : ∀ a b c d, cfg.world.tips.hashOf a b = cfg.world.tips.hashOf c d → a = c ∧ b = d)
    {c0 : State} (g : World.Genesis cfg.world c0.w) (s : World.Start c0.w) (hs : Solid c0.w.bank) (ops : List Op)
    (hk : ∀ op ∈ ops, KeepsStakes op) (a c y : AccId) (hay : a ≠ y) (l : Ledger.Ledger) (v : Balance) (m1 m2 m3 : Nat) (k : Bool)
    (wait : List Op) (now : Nat) :
    let d := run cfg c0 ops
    let d1 := run cfg d [.bond (.setPayee c .stash) m1, .bond (.unbond c v) m2]
    let d2 := run cfg d1 wait
    let d3 := step cfg d2 (.bond (.withdraw c k) m3)
    d.w.ledger.bonded.get a = some c → d.w.ledger.ledgers.get c = some l → l.active ≤ v →
    l.unlocking.length < cfg.world.ledger.maxChunks → d.w.ledger.closed = true →
    WaitsAll cfg a d1 wait → d2.w.ledger.closed = true → d2.w.ledger.era = some now →
    d.w.ledger.era.getD 0 + cfg.world.ledger.bondingDuration ≤ now →
    (∀ sp, d2.slash.spans.get a = some sp → sp.prior.length + 1 ≤ m3) →
    Unheld cfg d3 a → 0 < d3.w.bank.total a →
    ∃ calls : List World.Op, (∀ op ∈ calls, exits a op) ∧
      let d' := run cfg d3 (calls.map .world)
      let d'' := step cfg d' (.world (.money (.transfer a y (d'.w.bank.free a) false)))
      d3.w.bank.total a ≤ d'.w.bank.free a ∧ d''.w.bank.total a = 0 ∧ d''.w.bank.free y = d'.w.bank.free y + d'.w.bank.free a := by
  intro d d1 d2 d3 hb hl hv hn hc hw hc2 he2 hnow hm hu ht
  have ho : Out d3 a := C138_chain cfg s ops hk a c l v m1 m2 m3 k wait now hb hl hv hn hc hw hc2 he2 hnow hm
  have h0 : Sound cfg d := sound_run cfg hp hinj ops c0 (sound_start g s hs)
  have h3 : Sound cfg d3 := sound_run cfg hp hinj [.bond (.withdraw c k) m3] d2 (sound_run cfg hp hinj wait d1 (sound_run cfg hp hinj _ d h0))
  exact leave hp hinj h3 hay ho hu ht

theorem leave_channels {cfg : Cfg} (hp : cfg.world.micro.burnPercent ≤ 100)
    (hinj : ∀ a b c d, cfg.world.tips.hashOf a b = cfg.world.tips.hashOf c d → a = c ∧ b = d)
    {d : State} (hs : Sound cfg d) {a y : AccId} (hay : a ≠ y) (hat : a ≠ cfg.world.micro.treasury) {order : List AccId}
    (ho : Out d a) (hu : Unheld cfg d a) (ht : 0 < d.w.bank.total a) (htr : 0 < d.w.bank.total cfg.world.micro.treasury)
    (hall : ∀ srv ch, d.w.micro.chans.get (a, srv) = some ch → ch.expiration < d.w.micro.block)
    (hord : order.Perm (Micropayment.serversOf d.w.micro a)) :
    ∃ calls : List World.Op, (∀ op ∈ calls, exits a op) ∧
      let d' := run cfg d (calls.map .world ++ [.world (.micro (.closeExpired a order))])
      let d'' := step cfg d' (.world (.money (.transfer a y (d'.w.bank.free a) false)))
      (∀ srv, d'.w.micro.chans.get (a, srv) = none) ∧
      d.w.bank.total a + Micropayment.escrow d.w.micro a ≤ d'.w.bank.free a + Micropayment.expiredFees cfg.world.micro d.w.micro a ∧
      d''.w.bank.total a = 0 ∧ d''.w.bank.free y = d'.w.bank.free y + d'.w.bank.free a := by
  obtain ⟨calls, h1, h2, h3, h4, h5, h6⟩ := quit hp hinj hs ho hu
  refine ⟨calls, h1, ?_⟩
  generalize hd1 : run cfg d (calls.map .world) = d1 at h2 h3 h4 h5 h6
  intro d' d''
  have e : d' = step cfg d1 (.world (.micro (.closeExpired a order))) := by
    show run cfg d _ = _
    rw [run_app, hd1]
    rfl
  have alive : ∀ x, 0 < d1.w.bank.total x → d1.w.bank.accts.contains x = true ∧ d1.w.bank.ed ≤ d1.w.bank.free x := by
    intro x hx
    obtain h | ⟨z, h⟩ : d1.w.bank.accts.get x = none ∨ ∃ z, d1.w.bank.accts.get x = some z := by cases d1.w.bank.accts.get x <;> simp
    · simp only [Bank.total, Bank.free, Bank.reserved, Bank.acct, h] at hx
      exact absurd hx (by decide)
    · have := h2.solid x z h
      refine ⟨by rw [FMap.contains, h]; rfl, ?_⟩
      simp only [Bank.free, Bank.acct, h]
      exact this
  have ha := alive a (by have := h6 a; omega)
  have hT := alive cfg.world.micro.treasury (by have := h6 cfg.world.micro.treasury; omega)
  have hf := h3.frozen h2
  have key := Micropayment.C56_all_expired cfg.world.micro { d1.w.micro with bank := d1.w.bank } a order (by rw [h4]; exact hord) h2.books hp
    ha.1 ha.2 (by rw [hf]; exact Nat.zero_le _) hat hT.1
  obtain ⟨m1, m2, -⟩ := key
  have hs' : Sound cfg d' := by rw [e]; exact sound_run cfg hp hinj [.world (.micro (.closeExpired a order))] d1 h2
  have ew : d'.w = World.step cfg.world d1.w (.micro (.closeExpired a order)) := by rw [e]; rfl
  have hacc : d'.w.bank.accts =
      (Micropayment.step cfg.world.micro { d1.w.micro with bank := d1.w.bank } (.closeExpired a order)).1.bank.accts := by rw [ew]; rfl
  have hmic : d'.w.micro = (Micropayment.step cfg.world.micro { d1.w.micro with bank := d1.w.bank } (.closeExpired a order)).1 := by rw [ew]; rfl
  have hfree : ∀ x, d'.w.bank.free x =
      (Micropayment.step cfg.world.micro { d1.w.micro with bank := d1.w.bank } (.closeExpired a order)).1.bank.free x := by
    intro x; simp only [Bank.free, Bank.acct, hacc]
  have hres : d'.w.bank.reserved a = d1.w.bank.reserved a := by
    have := World.micro_same cfg.world.micro { d1.w.micro with bank := d1.w.bank } (.closeExpired a order) rfl a
    rw [← this]
    simp only [Bank.reserved, Bank.acct, hacc]
  have hl : Loose d' a := by
    refine ⟨?_, ?_, ?_, ?_, ?_, by rw [hres]; exact h3.reserved⟩
    · rw [ew]; exact h3.bonded
    · rw [ew]; exact h3.lock
    · rw [ew]; exact h3.vote
    · rw [ew]; exact h3.rest
    · rw [ew]; exact h3.pins
  have hsum : Micropayment.expiredSum { d1.w.micro with bank := d1.w.bank } a = Micropayment.escrow d.w.micro a := by
    show (d1.w.micro.chans).sum _ = d.w.micro.chans.sum _
    rw [h4]
    refine FMap.sum_congr _ _ _ ?_
    rintro ⟨x, z⟩ ch hc
    by_cases hx : x = a
    · subst hx
      rw [if_pos ⟨rfl, hall z ch hc⟩, if_pos rfl]
    · rw [if_neg (fun h => hx h.1), if_neg (fun h => hx h)]
  have hfee : Micropayment.expiredFees cfg.world.micro { d1.w.micro with bank := d1.w.bank } a = Micropayment.expiredFees cfg.world.micro d.w.micro a := by
    show (d1.w.micro.chans).sum _ = d.w.micro.chans.sum _
    rw [h4]
  rw [hsum, hfee, ← hfree] at m2
  have m2' : d'.w.bank.free a + Micropayment.expiredFees cfg.world.micro d.w.micro a = d1.w.bank.free a + Micropayment.escrow d.w.micro a := m2
  have hfl : Micropayment.expiredFees cfg.world.micro d.w.micro a ≤ Micropayment.escrow d.w.micro a := by
    refine FMap.sum_le_sum _ _ _ ?_
    rintro ⟨x, z⟩ ch hc
    by_cases hx : x = a
    · subst hx
      rw [if_pos ⟨rfl, hall z ch hc⟩, if_pos rfl]
      exact Micropayment.feeOf_le _ hp _
    · rw [if_neg (fun h => hx h.1), if_neg (fun h => hx h)]
  refine ⟨?_, by omega, ?_⟩
  · intro srv
    refine Classical.byContradiction fun hc => ?_
    obtain ⟨ch, hch⟩ : ∃ ch, d'.w.micro.chans.get (a, srv) = some ch := Option.ne_none_iff_exists'.1 hc
    rw [hmic] at hch
    obtain ⟨n1, n2⟩ := m1 srv ch hch
    have n3 : d.w.micro.chans.get (a, srv) = some ch := by rw [← h4]; exact n2
    have := hall srv ch n3
    have n1' : d1.w.micro.block ≤ ch.expiration := n1
    rw [h4] at n1'
    omega
  · exact send_all hs' hay hl (by omega)

/-- C142, with the channels of the account as a client, if all of them have expired: it leaves, closes them by one call,
in whatever order that goes through them, and transfers all it has then: what it owned, and what the channels held, less the
fees of the channels. No channel of it is left. -/
theorem C142_channels (cfg : Cfg) (hp : cfg.world.micro.burnPercent ≤ 100)
    (hinj : ∀ a b c d, cfg.world.tips.hashOf a b = cfg.world.tips.hashOf c d → a = c ∧ b = d)
    {c : State} (g : World.Genesis cfg.world c.w) (s : World.Start c.w) (hb : Solid c.w.bank) (ops : List Op)
    (hk : ∀ op ∈ ops, KeepsStakes op) (a y : AccId) (hay : a ≠ y) (hat : a ≠ cfg.world.micro.treasury) (order : List AccId) :
    let d := run cfg c ops
    d.w.ledger.bonded.get a = none → Unheld cfg d a → 0 < d.w.bank.total a → 0 < d.w.bank.total cfg.world.micro.treasury →
    (∀ srv ch, d.w.micro.chans.get (a, srv) = some ch → ch.expiration < d.w.micro.block) →
    order.Perm (Micropayment.serversOf d.w.micro a) →
    ∃ calls : List World.Op, (∀ op ∈ calls, exits a op) ∧
      let d' := run cfg d (calls.map .world ++ [.world (.micro (.closeExpired a order))])
      let d'' := step cfg d' (.world (.money (.transfer a y (d'.w.bank.free a) false)))
      (∀ srv, d'.w.micro.chans.get (a, srv) = none) ∧
      d.w.bank.total a + Micropayment.escrow d.w.micro a ≤ d'.w.bank.free a + Micropayment.expiredFees cfg.world.micro d.w.micro a ∧
      d''.w.bank.total a = 0 ∧ d''.w.bank.free y = d'.w.bank.free y + d'.w.bank.free a := by
  intro d hn hu ht htr hall hord
  have hs : Sound cfg d := sound_run cfg hp hinj ops c (sound_start g s hb)
  exact leave_channels hp hinj hs hay hat (out_of (base_run cfg ops c (base_start s) hk).1 hs.settled hn) hu ht htr hall hord

/-- C142 for who stakes and has channels as a client: both ways out one after the other. -/
theorem C142_stake_channels (cfg : Cfg) (hp : cfg.world.micro.burnPercent ≤ 100)
    (hinj : ∀ a b c d, cfg.world.tips.hashOf a b = cfg.world.tips.hashOf c d → a = c ∧ b = d)
    {c0 : State} (g : World.Genesis cfg.world c0.w) (s : World.Start c0.w) (hs : Solid c0.w.bank) (ops : List Op)
    (hk : ∀ op ∈ ops, KeepsStakes op) (a c y : AccId) (hay : a ≠ y) (hat : a ≠ cfg.world.micro.treasury) (l : Ledger.Ledger)
    (v : Balance) (m1 m2 m3 : Nat) (k : Bool) (wait : List Op) (now : Nat) (order : List AccId) :
    let d0 := run cfg c0 ops
    let d1 := run cfg d0 [.bond (.setPayee c .stash) m1, .bond (.unbond c v) m2]
    let d2 := run cfg d1 wait
    let d := step cfg d2 (.bond (.withdraw c k) m3)
    d0.w.ledger.bonded.get a = some c → d0.w.ledger.ledgers.get c = some l → l.active ≤ v →
    l.unlocking.length < cfg.world.ledger.maxChunks → d0.w.ledger.closed = true →
    WaitsAll cfg a d1 wait → d2.w.ledger.closed = true → d2.w.ledger.era = some now →
    d0.w.ledger.era.getD 0 + cfg.world.ledger.bondingDuration ≤ now →
    (∀ sp, d2.slash.spans.get a = some sp → sp.prior.length + 1 ≤ m3) →
    Unheld cfg d a → 0 < d.w.bank.total a → 0 < d.w.bank.total cfg.world.micro.treasury →
    (∀ srv ch, d.w.micro.chans.get (a, srv) = some ch → ch.expiration < d.w.micro.block) →
    order.Perm (Micropayment.serversOf d.w.micro a) →
    ∃ calls : List World.Op, (∀ op ∈ calls, exits a op) ∧
      let d' := run cfg d (calls.map .world ++ [.world (.micro (.closeExpired a order))])
      let d'' := step cfg d' (.world (.money (.transfer a y (d'.w.bank.free a) false)))
      (∀ srv, d'.w.micro.chans.get (a, srv) = none) ∧
      d.w.bank.total a + Micropayment.escrow d.w.micro a ≤ d'.w.bank.free a + Micropayment.expiredFees cfg.world.micro d.w.micro a ∧
      d''.w.bank.total a = 0 ∧ d''.w.bank.free y = d'.w.bank.free y + d'.w.bank.free a := by
  intro d0 d1 d2 d hb hl hv hn hc hw hc2 he2 hnow hm hu ht htr hall hord
  have ho : Out d a := C138_chain cfg s ops hk a c l v m1 m2 m3 k wait now hb hl hv hn hc hw hc2 he2 hnow hm
  have h0 : Sound cfg d0 := sound_run cfg hp hinj ops c0 (sound_start g s hs)
  have h3 : Sound cfg d := sound_run cfg hp hinj [.bond (.withdraw c k) m3] d2 (sound_run cfg hp hinj wait d1 (sound_run cfg hp hinj _ d0 h0))
  exact leave_channels hp hinj h3 hay hat ho hu ht htr hall hord

/-! ### Examples -/

/-- Account 1 registers a device, reports a tip, becomes a candidate and votes. -/
def exJoin : List Op :=
  [.world (.node (.register 1 DeeperNode.us)), .world (.tips (.report 1 [7] 5)), .world (.council (.submit 1 0 true)),
   .world (.council (.vote 1 [1] 200))]

/-- Account 1 leaves these again. -/
def exQuit : List World.Op :=
  [.tips (.retract 1 (Tips.key Tips.exCfg [7] 5)), .council (.renounce 1 (.candidate 1)), .council (.removeVoter 1), .node (.unregister 1)]

theorem exJoin_keeps : ∀ op ∈ exJoin, KeepsStakes op := by
  intro op h
  simp only [exJoin, List.mem_cons, List.not_mem_nil, or_false] at h
  rcases h with rfl | rfl | rfl | rfl <;> trivial

/-- The hypotheses of `C142_leave` are met. -/
example := C142_leave exCfg (by decide) Tips.exCfg_inj (c := exStart) World.exWorld_genesis World.exWorld_start exSolid exJoin exJoin_keeps 1 5
  (by decide) (by decide +kernel) ⟨by decide +kernel, by decide +kernel, by decide +kernel⟩ (by decide +kernel)

/-- 223 are reserved and 200 locked; the account leaves, and all of its 1000 arrive at account 5. -/
example :
    let d := run exCfg exStart exJoin
    let d' := run exCfg d (exQuit.map .world)
    let d'' := step exCfg d' (.world (.money (.transfer 1 5 1000 false)))
    d.w.bank.free 1 = 777 ∧ d.w.bank.reserved 1 = 223 ∧ d.w.bank.frozen 1 = 200 ∧ d'.w.bank.free 1 = 1000 ∧
    d''.w.bank.total 1 = 0 ∧ d''.w.bank.free 5 = 2000 ∧
    (d.w.bank.transfer 1 5 777 false).toOption.isNone = true := by
  decide +kernel

/-- Account 1 moreover has two channels, and is the server of a channel of account 3; the channels expire. -/
def exPaid : List Op := exJoin ++ [.world (.micro (.openChannel 1 2 100 5)), .world (.micro (.openChannel 1 3 200 5)), .world (.micro (.openChannel 3 1 10 5)),
  .world (.money (.mint 9 50)), .world (.micro (.external 50 (fun _ => 0) Council.exBank))]

/-- The hypotheses of `C142_channels` are met. -/
example :
    ∃ calls : List World.Op, (∀ op ∈ calls, exits 1 op) ∧
      let d' := run exCfg (run exCfg exStart exPaid) (calls.map .world ++ [.world (.micro (.closeExpired 1 [2, 3]))])
      let d'' := step exCfg d' (.world (.money (.transfer 1 5 (d'.w.bank.free 1) false)))
      d''.w.bank.total 1 = 0 ∧ d''.w.bank.free 5 = d'.w.bank.free 5 + d'.w.bank.free 1 := by
  have hk : ∀ op ∈ exPaid, KeepsStakes op := by
    intro op h
    rcases List.mem_append.1 h with h | h
    · exact exJoin_keeps op h
    · simp only [List.mem_cons, List.not_mem_nil, or_false] at h
      rcases h with rfl | rfl | rfl | rfl | rfl <;> trivial
  have hexp : ∀ srv ch, (run exCfg exStart exPaid).w.micro.chans.get (1, srv) = some ch → ch.expiration < (run exCfg exStart exPaid).w.micro.block := by
    have : (run exCfg exStart exPaid).w.micro.chans.entries.all
        (fun p => decide (p.2.expiration < (run exCfg exStart exPaid).w.micro.block)) = true := by decide +kernel
    intro srv ch h
    exact of_decide_eq_true (List.all_eq_true.1 this ((1, srv), ch) ((FMap.mem_entries_iff _ _ _).2 h))
  have key := C142_channels exCfg (by decide) Tips.exCfg_inj (c := exStart) World.exWorld_genesis World.exWorld_start exSolid exPaid hk 1 5
    (by decide) (by decide) [2, 3]
  obtain ⟨calls, h1, -, -, h4, h5⟩ := key (by decide +kernel) ⟨by decide +kernel, by decide +kernel, by decide +kernel⟩ (by decide +kernel)
    (by decide +kernel) hexp (by decide +kernel)
  exact ⟨calls, h1, h4, h5⟩

/-- All of its 1000 are reserved, locked or in channels; it leaves with 970, the rest are the fees of the channels. -/
example :
    let d := run exCfg exStart exPaid
    let d' := run exCfg d (exQuit.map .world ++ [.world (.micro (.closeExpired 1 [2, 3]))])
    let d'' := step exCfg d' (.world (.money (.transfer 1 5 970 false)))
    d.w.bank.free 1 = 477 ∧ d.w.bank.reserved 1 = 223 ∧ Micropayment.escrow d.w.micro 1 = 300 ∧
    Micropayment.expiredFees exCfg.world.micro d.w.micro 1 = 30 ∧ d'.w.bank.free 1 = 970 ∧ d''.w.bank.total 1 = 0 ∧ d''.w.bank.free 5 = 1970 := by
  decide +kernel

/-- The validator of the examples of C138 which moreover has deposits and a vote: the hypotheses of `C142_stake` are met. -/
example :
    let d3 := run exShort exStart (exOps ++ exJoin ++ [.bond (.setPayee 11 .stash) 0, .bond (.unbond 11 475) 0] ++ exWait ++ [.bond (.withdraw 11 true) 3])
    let d' := run exShort d3 (exQuit.map .world)
    let d'' := step exShort d' (.world (.money (.transfer 1 5 825 false)))
    (∃ calls : List World.Op, (∀ op ∈ calls, exits 1 op) ∧
      let e' := run exShort d3 (calls.map .world)
      let e'' := step exShort e' (.world (.money (.transfer 1 5 (e'.w.bank.free 1) false)))
      d3.w.bank.total 1 ≤ e'.w.bank.free 1 ∧ e''.w.bank.total 1 = 0 ∧ e''.w.bank.free 5 = e'.w.bank.free 5 + e'.w.bank.free 1) ∧
    d3.w.bank.total 1 = 825 ∧ d''.w.bank.total 1 = 0 ∧ d''.w.bank.free 5 = d3.w.bank.free 5 + 825 := by
  have hk : ∀ op ∈ exOps ++ exJoin, KeepsStakes op := by
    intro op h
    rcases List.mem_append.1 h with h | h
    · exact exOps_keeps op h
    · exact exJoin_keeps op h
  have hs : ∀ (o : Option Slashing.Spans), o.all (fun sp => decide (sp.prior.length ≤ 2)) = true → ∀ sp, o = some sp → sp.prior.length + 1 ≤ 3 := by
    intro o h sp e
    rw [e] at h
    have := of_decide_eq_true (show decide (sp.prior.length ≤ 2) = true from h)
    omega
  have gen : World.Genesis exShort.world exStart.w :=
    ⟨World.exWorld_genesis.node, World.exWorld_genesis.tips, World.exWorld_genesis.council, World.exWorld_genesis.others⟩
  have key := C142_stake exShort (by decide) Tips.exCfg_inj (c0 := exStart) gen World.exWorld_start exSolid (exOps ++ exJoin) hk
    1 11 5 (by decide) ⟨1, 475, 475, []⟩ 475 0 0 3 true exWait 4
  have out := key (by decide +kernel) (by decide +kernel) (by decide) (by decide) (by decide +kernel) (exWait_waits (by decide +kernel)) (by decide +kernel)
    (by decide +kernel) (by decide +kernel) (hs _ (by decide +kernel)) ⟨by decide +kernel, by decide +kernel, by decide +kernel⟩ (by decide +kernel)
  have e : run exShort exStart (exOps ++ exJoin ++ [.bond (.setPayee 11 .stash) 0, .bond (.unbond 11 475) 0] ++ exWait ++ [.bond (.withdraw 11 true) 3]) =
      step exShort (run exShort (run exShort (run exShort exStart (exOps ++ exJoin)) [.bond (.setPayee 11 .stash) 0, .bond (.unbond 11 475) 0]) exWait)
        (.bond (.withdraw 11 true) 3) := by
    rw [run_app, run_app, run_app]
    rfl
  intro d3 d' d''
  refine ⟨?_, by decide +kernel, by decide +kernel, by decide +kernel⟩
  rw [← e] at out
  exact out

/-- The validator which moreover has deposits, a vote and two channels: the hypotheses of `C142_stake_channels` are met. It
leaves with what it owns and what the channels held, less 11 for their fees. -/
example :
    let paid : List Op := [.world (.micro (.openChannel 1 2 50 5)), .world (.micro (.openChannel 1 3 60 5)), .world (.money (.mint 9 50)),
      .world (.micro (.external 50 (fun _ => 0) Council.exBank))]
    let d3 := run exShort exStart (exOps ++ exJoin ++ paid ++ [.bond (.setPayee 11 .stash) 0, .bond (.unbond 11 475) 0] ++ exWait ++ [.bond (.withdraw 11 true) 3])
    let d' := run exShort d3 (exQuit.map .world ++ [.world (.micro (.closeExpired 1 [2, 3]))])
    let d'' := step exShort d' (.world (.money (.transfer 1 5 814 false)))
    (∃ calls : List World.Op, (∀ op ∈ calls, exits 1 op) ∧
      let e' := run exShort d3 (calls.map .world ++ [.world (.micro (.closeExpired 1 [2, 3]))])
      let e'' := step exShort e' (.world (.money (.transfer 1 5 (e'.w.bank.free 1) false)))
      e''.w.bank.total 1 = 0 ∧ e''.w.bank.free 5 = e'.w.bank.free 5 + e'.w.bank.free 1) ∧
    d3.w.bank.total 1 = 715 ∧ Micropayment.escrow d3.w.micro 1 = 110 ∧ d''.w.bank.total 1 = 0 ∧ d''.w.bank.free 5 = d3.w.bank.free 5 + 814 := by
  intro paid
  have hk : ∀ op ∈ exOps ++ exJoin ++ paid, KeepsStakes op := by
    intro op h
    rcases List.mem_append.1 h with h | h
    · rcases List.mem_append.1 h with h | h
      · exact exOps_keeps op h
      · exact exJoin_keeps op h
    · simp only [paid, List.mem_cons, List.not_mem_nil, or_false] at h
      rcases h with rfl | rfl | rfl | rfl <;> trivial
  have hs : ∀ (o : Option Slashing.Spans), o.all (fun sp => decide (sp.prior.length ≤ 2)) = true → ∀ sp, o = some sp → sp.prior.length + 1 ≤ 3 := by
    intro o h sp e
    rw [e] at h
    have := of_decide_eq_true (show decide (sp.prior.length ≤ 2) = true from h)
    omega
  have hx : ∀ w : World.State, w.micro.chans.entries.all (fun p => decide (p.1.1 = 1 → p.2.expiration < w.micro.block)) = true →
      ∀ srv ch, w.micro.chans.get (1, srv) = some ch → ch.expiration < w.micro.block := by
    intro w h srv ch e
    exact of_decide_eq_true (List.all_eq_true.1 h ((1, srv), ch) ((FMap.mem_entries_iff _ _ _).2 e)) rfl
  have gen : World.Genesis exShort.world exStart.w :=
    ⟨World.exWorld_genesis.node, World.exWorld_genesis.tips, World.exWorld_genesis.council, World.exWorld_genesis.others⟩
  have key := C142_stake_channels exShort (by decide) Tips.exCfg_inj (c0 := exStart) gen World.exWorld_start exSolid (exOps ++ exJoin ++ paid) hk
    1 11 5 (by decide) (by decide) ⟨1, 475, 475, []⟩ 475 0 0 3 true exWait 4 [2, 3]
  have out := key (by decide +kernel) (by decide +kernel) (by decide) (by decide) (by decide +kernel) (exWait_waits (by decide +kernel)) (by decide +kernel)
    (by decide +kernel) (by decide +kernel) (hs _ (by decide +kernel)) ⟨by decide +kernel, by decide +kernel, by decide +kernel⟩ (by decide +kernel)
    (by decide +kernel) (hx _ (by decide +kernel)) (by decide +kernel)
  have e : run exShort exStart (exOps ++ exJoin ++ paid ++ [.bond (.setPayee 11 .stash) 0, .bond (.unbond 11 475) 0] ++ exWait ++ [.bond (.withdraw 11 true) 3]) =
      step exShort (run exShort (run exShort (run exShort exStart (exOps ++ exJoin ++ paid)) [.bond (.setPayee 11 .stash) 0, .bond (.unbond 11 475) 0]) exWait)
        (.bond (.withdraw 11 true) 3) := by
    rw [run_app, run_app, run_app]
    rfl
  intro d3 d' d''
  refine ⟨?_, by decide +kernel, by decide +kernel, by decide +kernel, by decide +kernel⟩
  rw [← e] at out
  obtain ⟨calls, h1, -, -, h4⟩ := out
  exact ⟨calls, h1, h4⟩

/-- That nobody else holds anything is needed: what a locker member has reserved stays behind, and so does the account. -/
example :
    let d := run exCfg exStart (exJoin ++ [.world (.oper (.external 0 Council.exBank Operation.allPriv (fun _ => true))), .world (.oper (.forceReserve 7 1 30))])
    let d' := run exCfg d (exQuit.map .world)
    d'.w.bank.free 1 = 970 ∧ d'.w.bank.reserved 1 = 30 ∧ (d'.w.bank.transfer 1 5 970 false).toOption.isNone = true := by
  decide +kernel

/-- And so is that the account does not stake: before it has withdrawn, nothing but the rest can be moved. -/
example :
    let d := run exShort exStart exOps
    d.w.bank.free 1 = 825 ∧ d.w.bank.frozen 1 = 475 ∧ (d.w.bank.transfer 1 5 825 false).toOption.isNone = true ∧
    (d.w.bank.transfer 1 5 350 false).toOption.isSome = true := by
  decide +kernel

end Verif.ExitAll
