import Verif.ChainProperties

/-!
# Who can lose money: C115

No operation of the chain lowers the balance of an account unless the account is named below: by its own call, by a
punishment it is exposed to, as a pot of a pallet, or by one of the listed privileged calls.
-/

namespace Verif.Chain

open Verif

/-! ### Specification -/

/-- Every account holds at least the existential deposit, apart from what is reserved. -/
def Solid (b : Bank) : Prop := ∀ a x, b.accts.get a = some x → b.ed ≤ x.free

/-- Whose stake a call of the staking ledger may take. -/
def ledgerPays (s : Ledger.State) (a : AccId) : Ledger.Op → Prop
  /- the controller burns stake of its stash -/
  | .burn c _ => ∃ l, s.ledgers.get c = some l ∧ l.stash = a
  /- a slash is applied -/
  | .slash stash _ => stash = a
  | _ => False

/-- Who may have less after an operation of the pallets of `World`. -/
def worldPays (cfg : World.Cfg) (w : World.State) (a : AccId) : World.Op → Prop
  /- the deposit of the finder, if the council slashes the tip -/
  | .tips (.slash ok h) => ok = true ∧ ∃ t, w.tips.open_.get h = some t ∧ t.finder = a ∧ 0 < t.deposit
  /- the pot the tips are paid from -/
  | .tips (.close _) => { w.tips with bank := w.bank }.account = a
  /- the removed member, if slashed; and who loses the election -/
  | .council (.removeMember m sl re res) => (m = a ∧ sl = true) ∨
      (Council.involved w.council a ∧ ¬ Council.involved (World.effect cfg w (.council (.removeMember m sl re res))).council a)
  | .council (.block n res) =>
      Council.involved w.council a ∧ ¬ Council.involved (World.effect cfg w (.council (.block n res))).council a
  | .oper (.burnForEzc who _) => who = a
  /- a bridge admin moves money of any account into the fund, and out of the fund -/
  | .oper (.bridgeOut who src _ _) => src = a ∧ w.oper.priv who .bridgeAdmin = true
  | .oper (.bridgeIn who _ _ _) => w.oper.fund = some a ∧ w.oper.priv who .bridgeAdmin = true
  | .micro (.openChannel c _ _ _) => c = a
  | .micro (.addBalance c _ _) => c = a
  | .ledger op => ledgerPays w.ledger a op
  /- transfers, fees and slashes by the rest of the chain -/
  | .money (.transfer src _ _ _) => src = a
  | .money (.withdraw x _ _) => x = a
  | .money (.slash x _) => x = a
  /- root, by democracy -/
  | .unlockMove root src _ _ => root = true ∧ src = a
  | _ => False

/-- Who may have less after an operation. -/
def pays (cfg : Cfg) (c : State) (a : AccId) : Op → Prop
  | .world op => worldPays cfg.world c.w a op
  /- the controller burns stake of its stash -/
  | .bond (.burn ctrl _) _ => ∃ l, c.w.ledger.ledgers.get ctrl = some l ∧ l.stash = a
  /- staking for credit -/
  | .stake (.stake who signed _ _) => who = a ∧ signed = true
  | .credit (.burnForCredit x _) => x = a
  /- a validator reported for an offence, at once or when the deferred slashes are applied -/
  | .slash (.offence _ _ stash _ _) => stash = a ∧ a ∉ c.slash.invulnerables ∧ cfg.slash.defer = 0
  | .slash (.startEra _) => ∃ n e us u, c.slash.active = some n ∧ e + cfg.slash.defer ≤ n ∧
      c.slash.unapplied.get e = some us ∧ u ∈ us ∧ u.validator = a
  /- the pool which buys ADSC -/
  | .adsc (.swap _ _) => cfg.adsc.pool = a
  | _ => False

/-! ### Balance operations -/

/-- Accounts stay solid, and only those in `P` may have less. -/
def Keeps (P : AccId → Prop) (b b' : Bank) : Prop :=
  Solid b → Solid b' ∧ ∀ a, ¬ P a → b.total a ≤ b'.total a

theorem Keeps.refl (P : AccId → Prop) (b : Bank) : Keeps P b b := fun h => ⟨h, fun _ _ => Nat.le_refl _⟩

theorem Keeps.trans {P : AccId → Prop} {a b c : Bank} (h : Keeps P a b) (h' : Keeps P b c) : Keeps P a c := by
  intro hs
  obtain ⟨h1, h2⟩ := h hs
  obtain ⟨h3, h4⟩ := h' h1
  exact ⟨h3, fun x hx => Nat.le_trans (h2 x hx) (h4 x hx)⟩

theorem Keeps.mono {P Q : AccId → Prop} {a b : Bank} (h : Keeps P a b) (hpq : ∀ x, P x → Q x) : Keeps Q a b :=
  fun hs => ⟨(h hs).1, fun x hx => (h hs).2 x (fun hp => hx (hpq x hp))⟩

theorem keeps_locks (P : AccId → Prop) (b : Bank) (f : AccId → Balance) (p : AccId → Bool) : Keeps P b { b with frozen := f, pinned := p } :=
  fun h => ⟨h, fun _ _ => Nat.le_refl _⟩

theorem keeps_frozen (P : AccId → Prop) (b : Bank) (f : AccId → Balance) : Keeps P b { b with frozen := f } := keeps_locks P b f b.pinned

/-- An account is solid or absent. -/
theorem solid_acct {b : Bank} (h : Solid b) (a : AccId) : b.ed ≤ b.free a ∨ (b.accts.contains a = false ∧ b.free a = 0 ∧ b.reserved a = 0) := by
  cases hx : b.accts.get a with
  | none =>
    refine .inr ⟨by simp [FMap.contains, hx], ?_, ?_⟩ <;> simp [Bank.free, Bank.reserved, Bank.acct_of_none hx]
  | some x =>
    refine .inl ?_
    have := h a x hx
    simpa [Bank.free, Bank.acct_of_get hx] using this

theorem put_keeps {P : AccId → Prop} {b : Bank} (h : Solid b) (i : Nat) (a : AccId) (x : Acct) (hx : b.ed ≤ x.free ∨ x.reserved = 0)
    (hp : P a ∨ (b.ed ≤ x.free ∧ b.total a ≤ x.free + x.reserved)) :
    Solid ({ b with issuance := i }.put a x) ∧ ∀ y, ¬ P y → b.total y ≤ ({ b with issuance := i }.put a x).total y := by
  constructor
  · intro y z hz
    unfold Bank.put at hz ⊢
    split at hz
    · rename_i hc
      rw [if_pos hc]
      simp only [FMap.get_erase] at hz
      split at hz
      · cases hz
      · exact h y z hz
    · rename_i hc
      rw [if_neg hc]
      simp only [FMap.get_insert] at hz
      split at hz
      · cases hz
        rcases hx with hx | hx
        · exact hx
        · exact Nat.le_of_not_lt fun hl => hc ⟨hl, hx⟩
      · exact h y z hz
  · intro y hy
    by_cases hya : y = a
    · subst hya
      rcases hp with hp | ⟨h1, h2⟩
      · exact absurd hp hy
      · have e := Bank.acct_put_self { b with issuance := i } y x
        rw [if_neg (fun hc => absurd hc.1 (Nat.not_lt.2 h1))] at e
        unfold Bank.total Bank.free Bank.reserved at *
        rw [e]
        exact h2
    · have e := Bank.acct_put_ne { b with issuance := i } x hya
      unfold Bank.total Bank.free Bank.reserved
      rw [e]
      exact Nat.le_refl _

theorem withdraw_keeps {b b' : Bank} {a : AccId} {v : Balance} {k : Bool} (h : b.withdraw a v k = .ok b') : Keeps (· = a) b b' := by
  intro hs
  unfold Bank.withdraw at h
  split at h
  · cases h; exact Keeps.refl _ _ hs
  split at h
  · cases h
  split at h
  · cases h
  split at h
  · cases h
  split at h
  · cases h
  rename_i _ _ _ _ hd
  cases h
  refine put_keeps hs _ a _ ?_ (.inl rfl)
  show b.ed ≤ b.free a - v ∨ b.reserved a = 0
  rcases solid_acct hs a with h1 | ⟨_, _, h1⟩
  · by_cases hc : b.canDie a = true
    · right
      unfold Bank.canDie at hc
      simp only [Bool.and_eq_true, decide_eq_true_eq] at hc
      exact hc.1.2
    · left
      exact Nat.le_of_not_lt fun hl => hd ⟨hl, h1, hc⟩
  · exact .inr h1

theorem depositCreating_keeps (b : Bank) (a : AccId) (v : Balance) : Keeps (fun _ => False) b (b.depositCreating a v) := by
  intro hs
  unfold Bank.depositCreating
  split
  · exact Keeps.refl _ _ hs
  split
  · exact Keeps.refl _ _ hs
  rename_i _ hd
  have h1 : b.ed ≤ b.free a + v := by
    rcases solid_acct hs a with h1 | ⟨h1, _, _⟩
    · omega
    · have : ¬ v < b.ed := fun hl => hd ⟨h1, hl⟩
      omega
  refine put_keeps hs _ a _ (.inl h1) (.inr ⟨h1, ?_⟩)
  unfold Bank.total
  show b.free a + b.reserved a ≤ b.free a + v + b.reserved a
  omega

theorem depositExisting_keeps {b b' : Bank} {a : AccId} {v : Balance} (h : b.depositExisting a v = .ok b') : Keeps (fun _ => False) b b' := by
  intro hs
  unfold Bank.depositExisting at h
  split at h
  · cases h; exact Keeps.refl _ _ hs
  split at h
  · cases h
  rename_i _ hd
  cases h
  have h1 : b.ed ≤ b.free a + v := by
    rcases solid_acct hs a with h1 | ⟨h1, _, _⟩
    · omega
    · exact absurd h1 hd
  refine put_keeps hs _ a _ (.inl h1) (.inr ⟨h1, ?_⟩)
  unfold Bank.total
  show b.free a + b.reserved a ≤ b.free a + v + b.reserved a
  omega

theorem slash_keeps (b : Bank) (a : AccId) (v : Balance) : Keeps (· = a) b (b.slash a v).1 := by
  intro hs
  unfold Bank.slash
  split
  · exact Keeps.refl _ _ hs
  rename_i hd
  refine put_keeps hs _ a _ ?_ (.inl rfl)
  by_cases hc : b.canDie a = true
  · right
    unfold Bank.canDie at hc
    simp only [Bool.and_eq_true, decide_eq_true_eq] at hc
    exact hc.1.2
  · left
    rw [if_neg hc]
    show b.ed ≤ b.free a - min v (b.free a - b.ed)
    rcases solid_acct hs a with h1 | ⟨_, h1, h2⟩
    · omega
    · exfalso; apply hd; right; unfold Bank.total; omega

theorem reserve_keeps {b b' : Bank} {a : AccId} {v : Balance} (h : b.reserve a v = .ok b') : Keeps (fun _ => False) b b' := by
  intro hs
  unfold Bank.reserve at h
  split at h
  · cases h; exact Keeps.refl _ _ hs
  split at h
  · cases h
  split at h
  · cases h
  split at h
  · cases h
  rename_i hz hf _ hd
  cases h
  have h1 : b.ed ≤ b.free a - v := by
    rcases solid_acct hs a with h1 | ⟨_, h1, _⟩
    · exact Nat.le_of_not_lt fun hl => hd ⟨hl, h1⟩
    · omega
  refine put_keeps hs b.issuance a _ (.inl h1) (.inr ⟨h1, ?_⟩)
  unfold Bank.total
  show b.free a + b.reserved a ≤ b.free a - v + (b.reserved a + v)
  omega

theorem unreserve_keeps (b : Bank) (a : AccId) (v : Balance) : Keeps (fun _ => False) b (b.unreserve a v) := by
  intro hs
  unfold Bank.unreserve
  split
  · exact Keeps.refl _ _ hs
  rename_i hd
  have h1 : b.ed ≤ b.free a + min v (b.reserved a) := by
    rcases solid_acct hs a with h1 | ⟨_, h1, h2⟩
    · omega
    · exfalso; apply hd; right; unfold Bank.total; omega
  refine put_keeps hs b.issuance a _ (.inl h1) (.inr ⟨h1, ?_⟩)
  unfold Bank.total
  show b.free a + b.reserved a ≤ b.free a + min v (b.reserved a) + (b.reserved a - min v (b.reserved a))
  omega

theorem slashReserved_keeps (b : Bank) (a : AccId) (v : Balance) : Keeps (· = a) b (b.slashReserved a v).1 := by
  intro hs
  unfold Bank.slashReserved
  split
  · exact Keeps.refl _ _ hs
  rename_i hd
  refine put_keeps hs _ a _ (.inl ?_) (.inl rfl)
  show b.ed ≤ b.free a
  rcases solid_acct hs a with h1 | ⟨_, h1, h2⟩
  · exact h1
  · exfalso; apply hd; right; unfold Bank.total; omega

theorem transfer_keeps {b b' : Bank} {x y : AccId} {v : Balance} {k : Bool} (h : b.transfer x y v k = .ok b') : Keeps (· = x) b b' := by
  intro hs
  unfold Bank.transfer at h
  split at h
  · cases h; exact Keeps.refl _ _ hs
  split at h
  · cases h
  split at h
  · cases h
  split at h
  · cases h
  split at h
  · cases h
  split at h
  · cases h
  rename_i hxy _ _ _ hd hm
  cases h
  have hne : y ≠ x := fun e => hxy (.inr e.symm)
  have h1 := put_keeps (P := (· = x)) hs b.issuance x ⟨b.free x - v, b.reserved x⟩ (by
    show b.ed ≤ b.free x - v ∨ b.reserved x = 0
    by_cases hc : b.canDie x = true
    · right
      unfold Bank.canDie at hc
      simp only [Bool.and_eq_true, decide_eq_true_eq] at hc
      exact hc.1.2
    · left
      exact Nat.le_of_not_lt fun hl => hd ⟨hl, hc⟩) (.inl rfl)
  have hput : ({ b with issuance := b.issuance }.put x ⟨b.free x - v, b.reserved x⟩) = b.put x ⟨b.free x - v, b.reserved x⟩ := rfl
  rw [hput] at h1
  generalize hb1 : b.put x ⟨b.free x - v, b.reserved x⟩ = b1 at h1
  have e1 : b1.free y = b.free y := by rw [← hb1]; exact Bank.free_put_ne b _ hne
  have e2 : b1.reserved y = b.reserved y := by rw [← hb1]; exact Bank.reserved_put_ne b _ hne
  have e3 : b1.ed = b.ed := by rw [← hb1]; exact Bank.put_ed b _ _
  have h3 : b1.ed ≤ b1.free y + v := by rw [e1, e3]; omega
  have h2 := put_keeps (P := (· = x)) h1.1 b1.issuance y ⟨b1.free y + v, b1.reserved y⟩ (.inl h3) (.inr ⟨h3, by
    unfold Bank.total
    show b1.free y + b1.reserved y ≤ b1.free y + v + b1.reserved y
    omega⟩)
  refine ⟨?_, fun z hz => Nat.le_trans (h1.2 z hz) ?_⟩
  · exact h2.1
  · exact h2.2 z hz

theorem Keeps.all {P : AccId → Prop} {b b' : Bank} (h : Keeps (fun _ => False) b b') : Keeps P b b' := h.mono (fun _ h => h.elim)

theorem Keeps.of {P : AccId → Prop} {x : AccId} {b b' : Bank} (h : Keeps (· = x) b b') (hx : P x) : Keeps P b b' :=
  h.mono (fun _ e => e ▸ hx)

theorem money_keeps (b : Bank) (m : World.Money) :
    Keeps (fun a => match m with | .transfer x _ _ _ => x = a | .withdraw x _ _ => x = a | .slash x _ => x = a | _ => False) b (World.money b m) := by
  cases m with
  | transfer x y v k =>
    simp only [World.money]
    split
    · rename_i h; exact (transfer_keeps h).of rfl
    · exact Keeps.refl _ _
  | withdraw a v k =>
    simp only [World.money]
    split
    · rename_i h; exact (withdraw_keeps h).of rfl
    · exact Keeps.refl _ _
  | mint a v => exact depositCreating_keeps b a v
  | mintExisting a v =>
    simp only [World.money]
    split
    · rename_i h; exact depositExisting_keeps h
    · exact Keeps.refl _ _
  | slash a v => exact (slash_keeps b a v).of rfl

/-! ### The pallets -/

theorem node_keeps (cfg : DeeperNode.Cfg) (s : DeeperNode.State) (op : DeeperNode.Op) (ho : World.nodeOwn op = true) :
    Keeps (fun _ => False) s.bank (DeeperNode.step cfg s op).1.bank := by
  have hne : ∀ n b v x, op ≠ .external n b v x := by rintro n b v x rfl; cases ho
  rcases DeeperNode.step_shape cfg s op hne with ⟨h1, -⟩ | ⟨x, c, -, -, h2, -⟩ | ⟨x, -, -, h2, -⟩
  · rw [h1]; exact Keeps.refl _ _
  · exact reserve_keeps h2
  · rw [h2]; exact unreserve_keeps _ _ _

section
open Tips

theorem giveBack_keeps (b : Bank) (t : OpenTip) : Keeps (fun _ => False) b (giveBack b t) := by
  unfold giveBack
  split
  · exact Keeps.refl _ _
  · exact unreserve_keeps _ _ _

theorem attempt_keeps (b : Bank) (x y : AccId) (v : Balance) : Keeps (· = x) b (Tips.attempt b x y v) := by
  unfold Tips.attempt
  split
  · rename_i h; exact transfer_keeps h
  · exact Keeps.refl _ _

theorem tips_keeps (cfg : Tips.Cfg) (s : Tips.State) (op : Tips.Op) (ho : World.tipsOwn op = true) :
    Keeps (fun a => match op with
      | .slash ok h => ok = true ∧ ∃ t, s.open_.get h = some t ∧ t.finder = a ∧ 0 < t.deposit
      | .close _ => s.account = a
      | _ => False) s.bank (Tips.step cfg s op).1.bank := by
  rcases Tips.step_shape cfg s op with ⟨e, hst⟩ | ⟨n, b, m, rfl, hst⟩ | ⟨a, rfl, hst⟩ |
    ⟨f, r, w, b, rfl, _, _, _, hb, hst⟩ | ⟨a, r, w, v, rfl, _, _, hst⟩ | ⟨a, r, w, v, rfl, _, _, hst⟩ |
    ⟨a, h', v, t, rfl, _, _, hst⟩ | ⟨a, h', v, t, rfl, _, _, hst⟩ | ⟨h', t, b, o, hg, hst, hc⟩ <;> rw [hst]
  · exact Keeps.refl _ _
  · cases ho
  · exact Keeps.refl _ _
  · exact reserve_keeps hb
  · exact Keeps.refl _ _
  · exact Keeps.refl _ _
  · exact Keeps.refl _ _
  · exact Keeps.refl _ _
  · show Keeps _ s.bank b
    rcases hc with ⟨rfl, -, rfl⟩ | ⟨rfl, -, rfl⟩ | ⟨v, n, rfl, -, -, -, hp⟩ | ⟨v, n, rfl, -, -, -, hp⟩
    · exact giveBack_keeps _ _
    · by_cases hd : t.deposit = 0
      · rw [if_pos hd]; exact Keeps.refl _ _
      · rw [if_neg hd]
        exact (slashReserved_keeps _ _ _).mono (fun x e => ⟨rfl, t, hg, e.symm, Nat.pos_of_ne_zero hd⟩)
    · unfold payoutTip at hp
      split at hp
      · cases hp
      · cases hp
        exact ((giveBack_keeps _ _).all.trans ((attempt_keeps _ _ _ _).of rfl)).trans ((attempt_keeps _ _ _ _).of rfl)
    · unfold payoutCredit at hp
      split at hp
      · cases hp
      · cases hp
        exact giveBack_keeps _ _

end

section
open Council

theorem slashLosers_keeps (keep : List AccId) (l : List (AccId × Balance)) :
    ∀ b : Bank, Keeps (fun a => a ∈ l.map Prod.fst ∧ a ∉ keep) b (slashLosers b keep l) := by
  induction l with
  | nil => intro b; exact Keeps.refl _ _
  | cons e l ih =>
    intro b
    obtain ⟨c, d⟩ := e
    unfold slashLosers
    have ih' : ∀ b, Keeps (fun a => a ∈ ((c, d) :: l).map Prod.fst ∧ a ∉ keep) b (slashLosers b keep l) :=
      fun b => (ih b).mono (fun x hx => ⟨List.mem_cons_of_mem _ hx.1, hx.2⟩)
    split
    · exact ih' b
    · rename_i hk
      exact ((slashReserved_keeps b c d).of ⟨by simp, by simpa using hk⟩).trans (ih' _)

theorem phragmen_keeps (cfg : Council.Cfg) (s : Council.State) (res : Option (List (AccId × Nat))) :
    Keeps (fun a => involved s a ∧ ¬ involved (doPhragmen cfg s res) a) s.bank (doPhragmen cfg s res).bank := by
  rcases doPhragmen_cases cfg s res with h | ⟨w, -, h⟩
  · rw [h]; exact Keeps.refl _ _
  · rw [h]
    refine (slashLosers_keeps _ _ _).mono ?_
    rintro x ⟨h1, h2⟩
    refine ⟨(involved_iff s x).2 h1, ?_⟩
    rw [involved_iff, seats_install]
    intro hm
    apply h2
    rw [List.map_map] at hm
    obtain ⟨y, hy, e⟩ := List.mem_map.1 hm
    simp only [Function.comp_def] at e
    rw [← e, ← List.map_append]
    rw [List.map_append]; exact hy

theorem replace_keeps {s s' : Council.State} {a : AccId} {sl : Bool} (h : removeAndReplace s a sl = .ok s') :
    Keeps (fun x => a = x ∧ sl = true) s.bank s'.bank := by
  unfold removeAndReplace at h
  split at h
  · cases h
  · cases h
    cases sl
    · exact (unreserve_keeps _ _ _).all
    · exact (slashReserved_keeps _ _ _).of ⟨rfl, rfl⟩

theorem promote_mem (ms rs : List Seat) {x : AccId} (h : x ∈ (promote ms rs).map Seat.who) : x ∈ ms.map Seat.who ∨ x ∈ rs.map Seat.who := by
  unfold promote at h
  split at h
  · exact .inl h
  · rename_i r hr
    split at h
    · exact .inl h
    · rcases List.mem_cons.1 (((insertBy_perm Seat.who r ms).map Seat.who).mem_iff.1 h) with e | h
      · exact .inr (e ▸ List.mem_map.2 ⟨r, List.mem_of_getLast? hr, rfl⟩)
      · exact .inl h

theorem replace_involved {s s' : Council.State} {a : AccId} {sl : Bool} (h : removeAndReplace s a sl = .ok s') {x : AccId}
    (hx : involved s' x) : involved s x := by
  unfold removeAndReplace at h
  split at h
  · cases h
  · cases h
    rcases hx with hx | hx | hx
    · exact .inl hx
    · rcases promote_mem _ _ hx with h1 | h1
      · exact .inr (.inl (((List.eraseP_sublist.map Seat.who).subset) h1))
      · exact .inr (.inr h1)
    · exact .inr (.inr ((((List.dropLast_sublist _).map Seat.who).subset) hx))

theorem removeVoter_keeps (P : AccId → Prop) (s : Council.State) (a : AccId) : Keeps P s.bank (doRemoveVoter s a).bank :=
  (keeps_frozen P s.bank _).trans (unreserve_keeps _ a _).all

theorem attempt_council_keeps {P : AccId → Prop} {s : Council.State} {r : Except Council.Err Council.State}
    (h : ∀ s', r = .ok s' → Keeps P s.bank s'.bank) : Keeps P s.bank (Council.attempt s r).1.bank := by
  cases r with
  | ok s' => exact h s' rfl
  | error e => exact Keeps.refl _ _

theorem council_keeps (cfg : Council.Cfg) (s : Council.State) (op : Council.Op) (ho : op.own = true) :
    Keeps (fun a => match op with
      | .removeMember m sl _ _ => (m = a ∧ sl = true) ∨ (involved s a ∧ ¬ involved (Council.step cfg s op).1 a)
      | .block _ _ => involved s a ∧ ¬ involved (Council.step cfg s op).1 a
      | _ => False) s.bank (Council.step cfg s op).1.bank := by
  cases op with
  | external b o => cases ho
  | vote a v x =>
    refine attempt_council_keeps fun s' h => ?_
    unfold vote at h
    repeat' (split at h)
    all_goals first | cases h; done | skip
    rename_i b hb
    cases h
    have h1 : Keeps (fun _ => False) s.bank b := by
      unfold adjustDeposit at hb
      repeat' (split at hb)
      all_goals first | cases hb; done | skip
      · rename_i hr; cases hb; exact reserve_keeps hr
      · cases hb; exact unreserve_keeps _ _ _
      · cases hb; exact Keeps.refl _ _
    unfold recordVote setLock
    dsimp only
    split
    · exact h1
    · exact h1.trans (keeps_frozen _ b _)
  | removeVoter a =>
    refine attempt_council_keeps fun s' h => ?_
    unfold removeVoter at h
    split at h
    · cases h; exact removeVoter_keeps _ s a
    · cases h
  | submit a n i =>
    refine attempt_council_keeps fun s' h => ?_
    unfold submitCandidacy at h
    repeat' (split at h)
    all_goals first | cases h; done | skip
    rename_i hr
    cases h
    exact reserve_keeps hr
  | renounce a r =>
    refine attempt_council_keeps fun s' h => ?_
    cases r with
    | member =>
      simp only [renounce] at h
      split at h
      · cases h
      · rename_i hr; cases h; exact (replace_keeps hr).mono (fun _ h => by cases h.2)
    | runnerUp =>
      simp only [renounce, renounceRunnerUp] at h
      split at h
      · cases h
      · cases h; exact unreserve_keeps _ _ _
    | candidate n =>
      simp only [renounce, renounceCandidate] at h
      repeat' (split at h)
      · cases h
      · cases h
      · cases h; exact unreserve_keeps _ _ _
  | removeMember a sl re res =>
    simp only [Council.step]
    cases hr : removeMember cfg s a sl re res with
    | error e => exact Keeps.refl _ _
    | ok s' =>
      show Keeps _ s.bank s'.bank
      have e : (Council.attempt s (.ok s')).1 = s' := rfl
      simp only [e]
      unfold removeMember at hr
      split at hr
      · cases hr
      · rename_i m hm
        have h1 := replace_keeps hm
        split at hr
        · cases hr
          refine (h1.mono fun x hx => .inl hx).trans ((phragmen_keeps cfg m res).mono fun x hx => .inr ⟨replace_involved hm hx.1, hx.2⟩)
        · cases hr
          exact h1.mono fun x hx => .inl hx
  | cleanDefunct =>
    show Keeps _ s.bank ((defunct s).foldl doRemoveVoter s).bank
    have : ∀ (l : List AccId) (s : Council.State), Keeps (fun _ => False) s.bank (l.foldl doRemoveVoter s).bank := by
      intro l
      induction l with
      | nil => intro s; exact Keeps.refl _ _
      | cons a l ih => intro s; exact (removeVoter_keeps _ s a).trans (ih _)
    exact this _ s
  | block n res =>
    simp only [Council.step]
    unfold onInitialize
    split
    · exact phragmen_keeps cfg s res
    · exact Keeps.refl _ _

end

section
open Ledger

theorem update_keeps (P : AccId → Prop) (cfg : Ledger.Cfg) (s : Ledger.State) (c : AccId) (l : Ledger.Ledger) :
    Keeps P s.bank (updateLedger cfg s c l).bank := by
  unfold updateLedger setLock
  split
  · exact Keeps.refl _ _
  · exact keeps_frozen _ s.bank _

theorem removeKilled_keeps {P : AccId → Prop} {s s' : Ledger.State} {a : AccId} {k : Bool} (h : killStash s a k = .ok s') :
    Keeps P s.bank (removeLock s' a).bank := by
  have := keeps_frozen P s'.bank (fun x => if x = a then s'.otherLocks x else s'.bank.frozen x)
  rw [World.kill_bank h] at this
  unfold removeLock
  rw [World.kill_bank h]
  exact this

theorem depositOr_keeps (b : Bank) (a : AccId) (v : Balance) : Keeps (fun _ => False) b (depositOr b a v) := by
  unfold depositOr
  split
  · rename_i h; exact depositExisting_keeps h
  · exact Keeps.refl _ _

theorem payout_keeps (cfg : Ledger.Cfg) (s : Ledger.State) (a : AccId) (v : Balance) :
    Keeps (fun _ => False) s.bank (Ledger.payout cfg s a v).bank := by
  unfold Ledger.payout
  split
  · split
    · exact Keeps.refl _ _
    · exact depositCreating_keeps _ _ _
  · exact depositOr_keeps _ _ _
  · split
    · exact Keeps.refl _ _
    split
    · exact Keeps.refl _ _
    · exact (depositOr_keeps s.bank a v).trans (update_keeps _ cfg { s with bank := depositOr s.bank a v } _ _)
  · exact depositCreating_keeps _ _ _

theorem doSlash_keeps (cfg : Ledger.Cfg) (s : Ledger.State) (a : AccId) (v : Balance) :
    Keeps (· = a) s.bank (Ledger.doSlash cfg s a v).1.bank := by
  unfold doSlash
  split
  · exact Keeps.refl _ _
  split
  · exact Keeps.refl _ _
  simp only
  split
  · exact Keeps.refl _ _
  · rename_i l _ _
    exact (slash_keeps s.bank a _).trans
      (update_keeps _ cfg { s with bank := (s.bank.slash a (slashLedger l v s.bank.ed).2).1 } _ _)

theorem ledger_keeps (cfg : Ledger.Cfg) (s : Ledger.State) (op : Ledger.Op) (ho : World.ledgerOwn op = true) :
    Keeps (fun a => ledgerPays s a op) s.bank (Ledger.step cfg s op).1.bank := by
  unfold Ledger.step
  cases hb : Ledger.body cfg s op with
  | error e => exact Keeps.refl _ _
  | ok r =>
    show Keeps _ s.bank r.1.bank
    cases op with
    | external b o c => cases ho
    | bond a c v p k =>
      simp only [Ledger.body, bond] at hb
      repeat' (split at hb)
      all_goals first | cases hb; done | skip
      cases hb
      exact update_keeps _ cfg { s with bonded := s.bonded.insert a c, payees := s.payees.insert a p } _ _
    | setMinBond k v =>
      simp only [Ledger.body, setMinBond] at hb
      repeat' (split at hb)
      all_goals first | cases hb; done | skip
      cases hb; exact Keeps.refl _ _
    | bondExtra a v =>
      simp only [Ledger.body, bondExtra] at hb
      repeat' (split at hb)
      all_goals first | cases hb; done | skip
      · cases hb; exact Keeps.refl _ _
      · cases hb; exact update_keeps _ _ _ _ _
    | unbond c v =>
      simp only [Ledger.body, unbond] at hb
      split at hb
      · cases hb
      split at hb
      · cases hb
      split at hb
      · cases hb
      split at hb
      · cases hb; exact Keeps.refl _ _
      · cases hb; exact update_keeps _ _ _ _ _
    | withdraw c k =>
      simp only [Ledger.body, Ledger.withdraw] at hb
      split at hb
      · cases hb
      split at hb
      · cases hb
      split at hb
      · split at hb
        · cases hb
        · rename_i h; cases hb; exact removeKilled_keeps h
      · cases hb; exact update_keeps _ _ _ _ _
    | validate c p =>
      simp only [Ledger.body, validate] at hb
      repeat' (split at hb)
      all_goals first | cases hb; done | skip
      cases hb; exact Keeps.refl _ _
    | chill c =>
      simp only [Ledger.body, chill] at hb
      repeat' (split at hb)
      all_goals first | cases hb; done | skip
      cases hb; exact Keeps.refl _ _
    | setPayee c d =>
      simp only [Ledger.body, setPayee] at hb
      repeat' (split at hb)
      all_goals first | cases hb; done | skip
      cases hb; exact Keeps.refl _ _
    | setController a c =>
      simp only [Ledger.body, setController] at hb
      repeat' (split at hb)
      all_goals first | cases hb; done | skip
      all_goals (cases hb; exact Keeps.refl _ _)
    | forceUnstake k a x =>
      simp only [Ledger.body, forceUnstake] at hb
      repeat' (split at hb)
      all_goals first | cases hb; done | skip
      rename_i h
      cases hb; exact removeKilled_keeps h
    | rebond c v =>
      simp only [Ledger.body, rebond] at hb
      repeat' (split at hb)
      all_goals first | cases hb; done | skip
      cases hb; exact update_keeps _ _ _ _ _
    | reap a k =>
      simp only [Ledger.body, reap] at hb
      repeat' (split at hb)
      all_goals first | cases hb; done | skip
      rename_i h
      cases hb; exact removeKilled_keeps h
    | burn c v =>
      simp only [Ledger.body, burn] at hb
      split at hb
      · cases hb
      · rename_i l hl
        cases hb
        exact ((keeps_frozen _ s.bank _).trans ((slash_keeps (removeLock s l.stash).bank l.stash _).of ⟨l, hl, rfl⟩)).trans
          (update_keeps _ cfg { removeLock s l.stash with bank := ((removeLock s l.stash).bank.slash l.stash (slashLedger l v s.bank.ed).2).1 } c _)
    | slash a v =>
      simp only [Ledger.body] at hb
      have e := Except.ok.inj hb
      rw [← e]
      exact (doSlash_keeps cfg s a v).of rfl
    | payout a v =>
      simp only [Ledger.body] at hb
      cases hb
      exact (payout_keeps cfg s a v).all
    | kick a => simp only [Ledger.body] at hb; cases hb; exact Keeps.refl _ _
    | newEra => simp only [Ledger.body] at hb; cases hb; exact Keeps.refl _ _

end

section
open Operation

theorem scan_keeps (cfg : Operation.Cfg) (s : Operation.State) (day : Nat) (l : List (AccId × Info)) :
    ∀ c : Scan, Keeps (fun _ => False) c.bank (scan cfg s day l c).bank := by
  induction l with
  | nil => intro c; exact Keeps.refl _ _
  | cons e l ih =>
    intro c
    obtain ⟨a, i⟩ := e
    unfold scan
    split
    · exact ih c
    split
    · exact Keeps.refl _ _
    · have h : Keeps (fun _ => False) c.bank (release day c a i).bank := depositCreating_keeps c.bank a (accrued day i)
      simp only
      split
      · exact h
      split
      · exact h
      · exact h.trans (ih _)

theorem finalize_keeps (cfg : Operation.Cfg) (s : Operation.State) : Keeps (fun _ => False) s.bank (finalize cfg s).1.bank := by
  unfold finalize
  split
  · exact Keeps.refl _ _
  · unfold releaseStaking
    split
    · exact Keeps.refl _ _
    · exact scan_keeps cfg s s.today
        ((sortByKey cfg.key s.infos.entries).filter fun e => decide (s.lastKey < cfg.key e.1))
        ⟨s.bank, s.infos, s.totalRelease, (s.daily.get s.today).getD 0, 0, [], s.dayEnd, s.lastKey, []⟩

theorem priv_of_not {p : AccId → Privilege → Bool} {a : AccId} {x : Privilege} (h : ¬ (!p a x) = true) : p a x = true := by
  cases hp : p a x
  · rw [hp] at h; exact absurd rfl h
  · rfl

theorem oper_keeps (cfg : Operation.Cfg) (s : Operation.State) (op : Operation.Op) (ho : World.operOwn op = true) :
    Keeps (fun a => match op with
      | .burnForEzc who _ => who = a
      | .bridgeOut who src _ _ => src = a ∧ s.priv who .bridgeAdmin = true
      | .bridgeIn who _ _ _ => s.fund = some a ∧ s.priv who .bridgeAdmin = true
      | _ => False) s.bank (Operation.step cfg s op).1.bank := by
  unfold Operation.step
  cases hb : Operation.body cfg s op with
  | error e => exact Keeps.refl _ _
  | ok r =>
    show Keeps _ s.bank r.1.bank
    cases op with
    | external dt b p k => cases ho
    | forceRemoveLock r w f => cases ho
    | unlockAssets r x y v f => cases ho
    | finalize => simp only [Operation.body] at hb; cases hb; exact finalize_keeps cfg s
    | forceReserve x w v =>
      simp only [Operation.body] at hb
      obtain ⟨s', hs, rfl⟩ := World.map_ok hb
      simp only [forceReserve] at hs
      split at hs
      · cases hs
      · obtain ⟨b, hl, rfl⟩ := World.map_ok hs
        exact reserve_keeps (World.liftBank_ok hl)
    | burnForEzc x v =>
      simp only [Operation.body] at hb
      obtain ⟨s', hs, rfl⟩ := World.map_ok hb
      simp only [burnForEzc] at hs
      split at hs
      · cases hs
      · obtain ⟨b, hl, rfl⟩ := World.map_ok hs
        exact ((withdraw_keeps (World.liftBank_ok hl)).of rfl).trans (depositCreating_keeps _ _ _).all
    | bridgeOut w x v c =>
      simp only [Operation.body] at hb
      obtain ⟨s', hs, rfl⟩ := World.map_ok hb
      simp only [bridgeOut] at hs
      split at hs
      · cases hs
      rename_i hp
      split at hs
      · cases hs
      · obtain ⟨b, hl, rfl⟩ := World.map_ok hs
        exact (transfer_keeps (World.liftBank_ok hl)).mono fun y e => ⟨e.symm, priv_of_not hp⟩
    | bridgeIn w x v c =>
      simp only [Operation.body] at hb
      obtain ⟨s', hs, rfl⟩ := World.map_ok hb
      simp only [bridgeIn] at hs
      split at hs
      · cases hs
      rename_i hp
      split at hs
      · cases hs
      · rename_i f hf
        obtain ⟨b, hl, rfl⟩ := World.map_ok hs
        exact (transfer_keeps (World.liftBank_ok hl)).mono fun y e => ⟨e ▸ hf, priv_of_not hp⟩
    | _ =>
      simp only [Operation.body] at hb
      first
        | (obtain ⟨s', hs, rfl⟩ := World.map_ok hb
           simp only [setLimits, unstakingRelease, removeInfos, setFund] at hs
           repeat' (split at hs)
           all_goals first
             | (cases hs; done)
             | (cases hs; exact Keeps.refl _ _))
        | (cases hb; exact Keeps.refl _ _)

theorem unlock_keeps {s s' : Operation.State} {r : Bool} {x y : AccId} {v f : Balance}
    (h : unlockAssets s r x y v f = .ok s') : Keeps (fun a => r = true ∧ x = a) s.bank s'.bank := by
  unfold unlockAssets at h
  split at h
  · cases h
  · rename_i hr
    obtain ⟨b, hl, rfl⟩ := World.map_ok h
    refine (keeps_frozen _ s.bank _).trans ((transfer_keeps (World.liftBank_ok hl)).mono fun z e => ⟨?_, e.symm⟩)
    cases r
    · exact absurd rfl hr
    · rfl

end

section
open Micropayment

/-- What is paid out of a channel covers the fee. -/
theorem fee_le {cfg : Micropayment.Config} (h : cfg.burnPercent ≤ 100) (v : Balance) : feeOf cfg v ≤ v :=
  divNearestDown_le v cfg.burnPercent 100 (by decide) h

/-- A deposit followed by a smaller fee does not lower a balance. -/
theorem deposit_fee {b b' : Bank} {a : AccId} {v f : Balance} (hf : f ≤ v) (h : (b.depositCreating a v).withdraw a f true = .ok b') :
    Keeps (fun _ => False) b b' := by
  intro hs
  obtain ⟨h1, h2⟩ := depositCreating_keeps b a v hs
  obtain ⟨h3, h4⟩ := withdraw_keeps h h1
  refine ⟨h3, fun x _ => ?_⟩
  by_cases hx : x = a
  rotate_left
  · exact Nat.le_trans (h2 x (fun h => h)) (h4 x hx)
  subst hx
  unfold Bank.withdraw at h
  split at h
  · cases h; exact h2 x (fun h => h)
  rename_i hf0
  split at h
  · cases h
  rename_i hlt
  split at h
  · cases h
  rename_i hk
  split at h
  · cases h
  split at h
  · cases h
  have e := (Except.ok.inj h).symm
  have hv : v ≠ 0 := by omega
  have hc : ¬ (b.accts.contains x = false ∧ v < b.ed) := by
    rintro ⟨q1, q2⟩
    rw [Bank.depositCreating_noop q1 q2, (Bank.not_contains_zero q1).1] at hlt
    omega
  have hd : b.depositCreating x v = { b with issuance := b.issuance + v }.put x ⟨b.free x + v, b.reserved x⟩ := by
    unfold Bank.depositCreating
    rw [if_neg hv, if_neg hc]
  have hsol : b.ed ≤ b.free x + v := by
    rcases solid_acct hs x with q | ⟨q1, _, _⟩
    · omega
    · have : ¬ v < b.ed := fun hl => hc ⟨q1, hl⟩
      omega
  have ha : (b.depositCreating x v).acct x = ⟨b.free x + v, b.reserved x⟩ := by
    rw [hd]
    have := Bank.acct_put_self { b with issuance := b.issuance + v } x ⟨b.free x + v, b.reserved x⟩
    rw [if_neg (fun hcc => absurd hcc.1 (Nat.not_lt.2 hsol))] at this
    exact this
  have hfree : (b.depositCreating x v).free x = b.free x + v := congrArg Acct.free ha
  have hres : (b.depositCreating x v).reserved x = b.reserved x := (congrArg Acct.reserved ha :)
  have hed : (b.depositCreating x v).ed = b.ed := by simp
  rw [hfree, hres] at e
  rw [hfree, hed] at hk
  have hal : ¬ b.free x + v - f < b.ed := fun hl => hk ⟨rfl, hl, hsol⟩
  have hb' : b'.acct x = ⟨b.free x + v - f, b.reserved x⟩ := by
    rw [e]
    have := Bank.acct_put_self { b.depositCreating x v with issuance := (b.depositCreating x v).issuance - f } x ⟨b.free x + v - f, b.reserved x⟩
    rw [if_neg (fun hcc => hal (by simpa using hcc.1))] at this
    exact this
  unfold Bank.total
  rw [show b'.free x = b.free x + v - f from congrArg Acct.free hb', show b'.reserved x = b.reserved x from (congrArg Acct.reserved hb' :)]
  omega

theorem depositInto_keeps {cfg : Micropayment.Config} (hp : cfg.burnPercent ≤ 100) {b b' : Bank} {a : AccId} {v : Balance}
    (h : depositIntoAccount cfg b a v = .ok b') : Keeps (fun _ => False) b b' := by
  unfold depositIntoAccount at h
  split at h
  · cases h
  · rename_i b1 hw
    cases h
    exact (deposit_fee (fee_le hp v) hw).trans (depositCreating_keeps _ _ _)

theorem refund_keeps {cfg : Micropayment.Config} (hp : cfg.burnPercent ≤ 100) {s : Micropayment.State} {c srv : AccId} {ch : Chan}
    (h : (refundAndClose cfg s c srv ch).err = none) : Keeps (fun _ => False) s.bank (refundAndClose cfg s c srv ch).state.bank := by
  obtain ⟨b, h1, h2, -⟩ := refundAndClose_ok h
  rw [h2]
  exact depositInto_keeps hp h1

theorem micro_keeps {cfg : Micropayment.Config} (hp : cfg.burnPercent ≤ 100) (s : Micropayment.State) (op : Micropayment.Op)
    (ho : World.microOwn op = true) :
    Keeps (fun a => match op with | .openChannel c _ _ _ => c = a | .addBalance c _ _ => c = a | _ => False)
      s.bank (Micropayment.step cfg s op).1.bank := by
  cases hok : (Micropayment.body cfg s op).err with
  | some e =>
    have : (Micropayment.step cfg s op).1 = s := by unfold Micropayment.step; rw [hok]
    rw [this]; exact Keeps.refl _ _
  | none =>
  have : (Micropayment.step cfg s op).1 = (Micropayment.body cfg s op).state := by unfold Micropayment.step; rw [hok]
  rw [this]
  clear this
  cases op with
  | external n e b => cases ho
  | openChannel c srv l d =>
    simp only [Micropayment.body] at hok ⊢
    obtain ⟨b, -, -, hw, h3, -⟩ := openChannel_ok hok
    rw [h3]
    exact (withdraw_keeps hw).of rfl
  | closeChannel sg a =>
    simp only [Micropayment.body] at hok ⊢
    rcases closeChannel_ok hok with ⟨ch, h1, h2⟩ | ⟨ch, h1, -, h2⟩
    · rw [h2] at hok ⊢; exact refund_keeps hp hok
    · rw [h2] at hok ⊢; exact refund_keeps hp hok
  | closeExpired c o =>
    simp only [Micropayment.body] at hok ⊢
    have heq := closeExpired_ok hok
    rw [heq] at hok ⊢
    exact closeExpiredLoop_ind cfg c (fun s' => Keeps (fun _ => False) s.bank s'.bank)
      (fun s' srv ch h _ _ hr => h.trans (refund_keeps hp hr)) o s (Keeps.refl _ _) hok
  | addBalance c srv a =>
    simp only [Micropayment.body] at hok ⊢
    obtain ⟨ch, b, -, hw, h3, -⟩ := addBalance_ok hok
    rw [h3]
    exact (withdraw_keeps hw).of rfl
  | claim srv c ses a sig =>
    simp only [Micropayment.body] at hok ⊢
    obtain ⟨ch, -, ⟨-, h2⟩ | ⟨-, -, -, -, b, hd, h3, -⟩⟩ := claimPayment_ok hok
    · rw [h2] at hok ⊢; exact refund_keeps hp hok
    · rw [h3]; exact depositInto_keeps hp hd

end

/-! ### The accounts with the pallets of `World` -/

theorem effect_keeps {cfg : World.Cfg} (hp : cfg.micro.burnPercent ≤ 100) (w : World.State) (op : World.Op) :
    Keeps (fun a => worldPays cfg w a op) w.bank (World.effect cfg w op).bank := by
  cases op with
  | node op =>
    simp only [World.effect]
    cases ho : World.nodeOwn op with
    | false => exact Keeps.refl _ _
    | true => exact (node_keeps cfg.node { w.node with bank := w.bank } op ho).all
  | tips op =>
    simp only [World.effect]
    cases ho : World.tipsOwn op with
    | false => exact Keeps.refl _ _
    | true =>
      refine (tips_keeps cfg.tips { w.tips with bank := w.bank } op ho).mono fun a h => ?_
      cases op <;> exact h
  | council op =>
    cases ho : op.own with
    | false => simp only [World.effect, ho]; exact Keeps.refl _ _
    | true =>
      have := council_keeps cfg.council { w.council with bank := w.bank } op ho
      have e : (World.effect cfg w (.council op)).bank = (Council.step cfg.council { w.council with bank := w.bank } op).1.bank := by
        simp only [World.effect, ho, if_true]
      rw [e]
      refine this.mono fun a h => ?_
      cases op <;> exact h
  | oper op =>
    simp only [World.effect]
    cases ho : World.operOwn op with
    | false => exact Keeps.refl _ _
    | true =>
      refine (oper_keeps cfg.oper { w.oper with bank := w.bank } op ho).mono fun a h => ?_
      cases op <;> exact h
  | micro op =>
    simp only [World.effect]
    cases ho : World.microOwn op with
    | false => exact Keeps.refl _ _
    | true =>
      refine (micro_keeps hp { w.micro with bank := w.bank } op ho).mono fun a h => ?_
      cases op <;> exact h
  | ledger op =>
    simp only [World.effect]
    cases ho : World.ledgerOwn op with
    | false => exact Keeps.refl _ _
    | true =>
      refine (ledger_keeps cfg.ledger { w.ledger with bank := w.bank } op ho).mono fun a h => ?_
      cases op <;> exact h
  | money m =>
    refine (money_keeps w.bank m).mono fun a h => ?_
    cases m <;> exact h
  | hold a v =>
    simp only [World.effect]
    split
    · rename_i h; exact (reserve_keeps h).all
    · exact Keeps.refl _ _
  | release a v =>
    simp only [World.effect]
    split
    · exact (unreserve_keeps _ _ _).all
    · exact Keeps.refl _ _
  | locks r p => exact Keeps.refl _ _
  | unlockStake r x => cases r <;> exact Keeps.refl _ _
  | unlockVote r x => cases r <;> exact Keeps.refl _ _
  | unlockMove r x y v =>
    simp only [World.effect]
    split
    · rename_i s hs; exact unlock_keeps hs
    · exact Keeps.refl _ _

/-- Refreshing the locks moves no money. -/
theorem settle_keeps (P : AccId → Prop) (w : World.State) : Keeps P w.bank (World.settle w).bank :=
  keeps_locks P w.bank _ _

theorem settled_keeps (P : AccId → Prop) (w : World.State) (b : Bank) : Keeps P b (World.settle { w with bank := b }).bank :=
  settle_keeps P { w with bank := b }

theorem placed_keeps (P : AccId → Prop) (w : World.State) (s : Ledger.State) : Keeps P s.bank (put w s).bank :=
  settle_keeps P { w with ledger := s, bank := s.bank }

/-! ### Delegations and payouts -/

section
open Verif.Delegation

theorem payDelegator_keeps (s : Delegation.State) (d : Delegator) (era : Nat) (p : Balance)
    (reward : AccId → Nat → Nat → Option Balance) : Keeps (fun _ => False) s.led.bank (payDelegator s d era p reward).1.led.bank := by
  unfold payDelegator
  simp only
  split
  · exact Keeps.refl _ _
  · simp only [settle_led]
    split
    · exact Keeps.refl _ _
    · exact depositCreating_keeps s.led.bank _ _

theorem payReferer_keeps (s : Delegation.State) (d : AccId) (p q : Balance) :
    Keeps (fun _ => False) s.led.bank (payReferer s d p q).1.led.bank := by
  unfold payReferer
  split
  · exact Keeps.refl _ _
  · split
    · exact Keeps.refl _ _
    · exact depositCreating_keeps s.led.bank _ _

theorem payLoop_keeps (dc : Delegation.Cfg) (era : Nat)
    (reward : AccId → Nat → Nat → Option Balance) : ∀ (n : Nat) (l : Loop),
      Keeps (fun _ => False) l.s.led.bank (payLoop dc era reward n l).s.led.bank := by
  intro n
  induction n with
  | zero => intro l; exact Keeps.refl _ _
  | succ n ih =>
    intro l
    unfold payLoop
    split
    · exact Keeps.refl _ _
    · split
      · exact Keeps.refl _ _
      · rename_i a _ d _
        simp only
        have h1 := payDelegator_keeps l.s d era l.pool reward
        split
        · exact h1
        · have h2 := h1.trans (payReferer_keeps (payDelegator l.s d era l.pool reward).1 d.who
            (payDelegator l.s d era l.pool reward).2.1 (l.pool - (payDelegator l.s d era l.pool reward).2.1))
          split
          · exact h2
          · refine h2.trans ?_
            generalize hl : Loop.mk _ _ _ _ _ = l'
            have e : l'.s = (payReferer (payDelegator l.s d era l.pool reward).1 d.who (payDelegator l.s d era l.pool reward).2.1 (l.pool - (payDelegator l.s d era l.pool reward).2.1)).1 := by rw [← hl]
            rw [← e]
            exact ih l'

theorem onBlock_keeps (dc : Delegation.Cfg) (s : Delegation.State)
    (reward : AccId → Nat → Nat → Option Balance) : Keeps (fun _ => False) s.led.bank (onBlock dc s reward).1.led.bank := by
  unfold onBlock payDelegators
  simp only
  split
  · exact Keeps.refl _ _
  · split
    · exact Keeps.refl _ _
    · split
      · exact Keeps.refl _ _
      · have h := payLoop_keeps dc (creditEra dc { s with block := s.block + 1 }) reward s.perBlock
          ⟨{ s with block := s.block + 1 }, poolOf dc { s with block := s.block + 1 }, s.lastKey, true, []⟩
        exact h

theorem payEach_keeps (dc : Delegation.Cfg) (p : Points) (v : Balance)
    (l : List AccId) : ∀ (s : Delegation.State) (t : Balance), Keeps (fun _ => False) s.led.bank (payEachValidator dc p v l s t).1.led.bank := by
  induction l with
  | nil => intro s t; exact Keeps.refl _ _
  | cons x l ih =>
    intro s t
    unfold payEachValidator
    split
    · exact ih s t
    · exact (payout_keeps dc.led s.led x _).trans (ih { s with led := Ledger.payout dc.led s.led x (validatorShare p v x) } _)

/-- Nobody pays when delegating or when payouts are made. -/
theorem dele_keeps (dc : Delegation.Cfg) (s : Delegation.State)
    (op : Delegation.Op) (ho : deleOwn op = true) : Keeps (fun _ => False) s.led.bank (Delegation.step dc s op).1.led.bank := by
  have same : ∀ t : Delegation.State, t.led = s.led → Keeps (fun _ => False) s.led.bank t.led.bank := by
    intro t e; rw [e]; exact Keeps.refl _ _
  unfold Delegation.step
  split
  case h_2 => exact Keeps.refl _ _
  case h_1 r hb =>
    cases op with
    | delegate d vs p =>
      obtain ⟨t, hd, rfl⟩ := map_ok hb
      exact same t (led_doDelegate (doDelegate_pass (delegate_do hd)))
    | delegateAny d o p =>
      obtain ⟨t, hd, rfl⟩ := map_ok hb
      unfold delegateAny at hd
      split at hd
      · cases hd
      · exact same t (led_doDelegate (doDelegate_pass hd))
    | undelegate d =>
      obtain ⟨t, hd, rfl⟩ := map_ok hb
      unfold undelegate at hd
      split at hd
      · cases hd
      · cases hd; exact same _ (led_undelegateOf s d)
    | forceUndelegate r ds =>
      simp only [body] at hb
      split at hb
      · cases hb
      · cases hb; exact same _ (led_undelegates ds s)
    | forceUnstaking k d =>
      simp only [body] at hb
      split at hb
      · cases hb
      · cases hb; exact same _ (led_undelegateOf s d)
    | setReferer k a r =>
      obtain ⟨t, hd, rfl⟩ := map_ok hb
      unfold setReferer at hd
      split at hd; · cases hd
      split at hd; · cases hd
      cases hd; exact same _ rfl
    | unsetReferer k a =>
      obtain ⟨t, hd, rfl⟩ := map_ok hb
      unfold unsetReferer at hd
      split at hd; · cases hd
      cases hd; exact same _ rfl
    | blackList k a e =>
      simp only [body] at hb
      split at hb
      · cases hb
      · cases hb; exact same _ rfl
    | npowMint k t v =>
      obtain ⟨u, hd, rfl⟩ := map_ok hb
      unfold npowMint at hd
      split at hd; · cases hd
      split at hd; · cases hd
      cases hd
      exact depositCreating_keeps s.led.bank t v
    | compensate k l d r p =>
      obtain ⟨u, hd, rfl⟩ := map_ok hb
      unfold compensate at hd
      split at hd; · cases hd
      split at hd; · cases hd
      cases hd
      exact depositCreating_keeps s.led.bank d _
    | increasePool r v =>
      obtain ⟨u, hd, rfl⟩ := map_ok hb
      unfold increasePool at hd
      split at hd; · cases hd
      cases hd
      exact same _ rfl
    | configure e c m w d => cases hb; exact same _ rfl
    | block r => cases hb; exact onBlock_keeps dc s r
    | endEra e =>
      cases hb
      show Keeps _ s.led.bank (payValidators dc s e).led.bank
      unfold payValidators
      split
      · exact Keeps.refl _ _
      · exact payEach_keeps dc _ _ _ s 0
    | newEra o =>
      cases hb
      show Keeps _ s.led.bank (newEra s o).1.led.bank
      rw [led_newEra]
      exact Keeps.refl _ _
    | addPoints e v n => cases hb; exact same _ rfl
    | ledger op => cases ho

end

/-! ### Staking for credit, credit, ADSC -/

theorem stake_keeps (sc : StakingCredit.Cfg) (s : StakingCredit.State) (op : StakingCredit.Op) :
    Keeps (fun a => match op with | .stake who signed _ _ => who = a ∧ signed = true | _ => False)
      s.dele.led.bank (StakingCredit.step sc s op).1.dele.led.bank := by
  rcases stake_payer sc s op with h | ⟨a, d, o, v, b, rfl, hb, h⟩
  · rw [h]; exact Keeps.refl _ _
  · rw [h]
    exact (transfer_keeps hb).mono fun x e => ⟨e.symm, rfl⟩

theorem credit_keeps (kc : Credit.Cfg) (s : Credit.State) (op : Credit.Op) (ho : creditOwn op = true) :
    Keeps (fun a => match op with | .burnForCredit x _ => x = a | _ => False) s.bank (Credit.step kc s op).1.bank := by
  rcases credit_payer kc s op ho with h | ⟨a, n, v, b, rfl, hb, h⟩ <;> rw [h]
  · exact Keeps.refl _ _
  · exact ((withdraw_keeps hb).of rfl).trans (depositCreating_keeps _ _ _).all

theorem adsc_keeps (ac : Adsc.Cfg) (s : Adsc.State) (op : Adsc.Op) (ho : adscOwn op = true) :
    Keeps (fun a => match op with | .swap _ _ => ac.pool = a | _ => False) s.bank (Adsc.step ac s op).1.bank := by
  rcases adsc_bank ac s op ho with h | ⟨x, n, v, b, rfl, hb, h⟩ | ⟨v, rfl, h⟩ <;> rw [h]
  · exact Keeps.refl _ _
  · exact (transfer_keeps hb).of rfl
  · exact depositCreating_keeps _ _ _

/-! ### Slashing -/

section
open Verif.Slashing

theorem payEachReporter_keeps (per : Balance) (rs : List AccId) : ∀ b : Bank, Keeps (fun _ => False) b (payEach b per rs) := by
  induction rs with
  | nil => intro b; exact Keeps.refl _ _
  | cons r rs ih => intro b; exact (depositCreating_keeps b r per).trans (ih _)

theorem payReporters_keeps (t : AccId) (b : Bank) (p v : Balance) (rs : List AccId) : Keeps (fun _ => False) b (payReporters t b p v rs) := by
  unfold payReporters
  split
  · exact depositCreating_keeps b t v
  · exact (payEachReporter_keeps _ rs b).trans (depositCreating_keeps _ t _)

theorem applySlash_keeps (sc : Slashing.Cfg) (s : Slashing.State) (u : Unapplied) :
    Keeps (· = u.validator) s.led.bank (applySlash sc s u).led.bank :=
  (doSlash_keeps sc.led s.led u.validator u.own).trans (payReporters_keeps _ _ _ _ _).all

theorem applyAll_keeps (sc : Slashing.Cfg) {P : AccId → Prop} (us : List Unapplied) (h : ∀ u ∈ us, P u.validator) :
    ∀ s : Slashing.State, Keeps P s.led.bank (applyAll sc s us).led.bank ∧ (applyAll sc s us).unapplied = s.unapplied := by
  induction us with
  | nil => intro s; exact ⟨Keeps.refl _ _, rfl⟩
  | cons u us ih =>
    intro s
    obtain ⟨h1, h2⟩ := ih (fun v hv => h v (List.mem_cons_of_mem _ hv)) (applySlash sc s u)
    exact ⟨((applySlash_keeps sc s u).of (h u (by simp))).trans h1, h2⟩

theorem applyEras_keeps (sc : Slashing.Cfg) (es : List Nat) : ∀ s : Slashing.State,
    Keeps (fun a => ∃ e us u, e ∈ es ∧ s.unapplied.get e = some us ∧ u ∈ us ∧ u.validator = a) s.led.bank (applyEras sc s es).1.led.bank := by
  induction es with
  | nil => intro s; exact Keeps.refl _ _
  | cons e es ih =>
    intro s
    simp only [applyEras]
    obtain ⟨h1, h2⟩ := applyAll_keeps sc (P := fun a => ∃ e' us u, e' ∈ e :: es ∧ s.unapplied.get e' = some us ∧ u ∈ us ∧ u.validator = a)
      ((s.unapplied.get e).getD []) (by
        intro u hu
        cases hg : s.unapplied.get e with
        | none => rw [hg] at hu; cases hu
        | some us => rw [hg] at hu; exact ⟨e, us, u, by simp, hg, hu, rfl⟩) { s with unapplied := s.unapplied.erase e }
    refine h1.trans ((ih _).mono ?_)
    rintro a ⟨e', us, u, he, hg, hu, ha⟩
    rw [h2] at hg
    simp only [FMap.get_erase] at hg
    split at hg
    · cases hg
    · exact ⟨e', us, u, List.mem_cons_of_mem _ he, hg, hu, ha⟩

theorem startEra_keeps (sc : Slashing.Cfg) (s : Slashing.State) (n : Nat) :
    Keeps (fun a => ∃ k e us u, s.active = some k ∧ e + sc.defer ≤ k ∧ s.unapplied.get e = some us ∧ u ∈ us ∧ u.validator = a)
      s.led.bank (startEra sc s n).1.led.bank := by
  unfold startEra applyUnapplied
  simp only
  split
  · exact Keeps.refl _ _
  · rename_i e0 he0
    generalize hu : ({ s with active := some (match s.active with | some e => e + 1 | none => 0), bondedEras := _, eraSlash := _ } : Slashing.State) = u
    have e1 : u.led = s.led := by rw [← hu]
    have e2 : u.unapplied = s.unapplied := by rw [← hu]
    have := applyEras_keeps sc (List.range' e0 ((match s.active with | some e => e + 1 | none => 0) - sc.defer - e0)) u
    rw [e1] at this
    refine this.mono ?_
    rintro a ⟨e, us, v, he, hg, hv, ha⟩
    rw [e2] at hg
    rw [List.mem_range'_1] at he
    cases hk : s.active with
    | none => rw [hk] at he; simp only at he; omega
    | some k => rw [hk] at he; simp only at he; exact ⟨k, e, us, v, rfl, by omega, hg, hv, ha⟩

theorem finish_bank (s : Slashing.State) (a : AccId) (sp : Spans) (d : Bool) (t : Option Nat) (n m : Nat) :
    (finish s a sp d t n m).led.bank = s.led.bank := by
  unfold finish
  split
  · simp only [dropSpans_led]; rfl
  · rw [dropSpans_led]

theorem slashSpan_bank (s : Slashing.State) (a : AccId) (sp : Spans) (e n m : Nat) (v : Balance) (o : List AccId) :
    (slashSpan s a sp e n m v o).1.led.bank = s.led.bank ∧ (slashSpan s a sp e n m v o).2.validator = a := by
  unfold slashSpan
  split
  · simp only [dropSpans_led, and_self]
  · simp only [finish_bank, and_true]
    split <;> rfl

theorem computeSlash_bank (sc : Slashing.Cfg) (s : Slashing.State) (a : AccId) (f e n m : Nat) :
    (computeSlash sc s a f e n m).1.led.bank = s.led.bank ∧ ∀ u, (computeSlash sc s a f e n m).2 = some u → u.validator = a := by
  unfold computeSlash
  simp only
  split
  · refine ⟨?_, fun u h => by cases h⟩
    unfold kickOut
    simp only [finish_bank, fetchSpans_led]
  · split
    · exact ⟨rfl, fun u h => by cases h⟩
    · refine ⟨?_, fun u h => ?_⟩
      · simp only [(slashSpan_bank _ _ _ _ _ _ _ _).1, fetchSpans_led]
      · have := Option.some.inj h
        rw [← this]
        exact (slashSpan_bank _ _ _ _ _ _ _ _).2

theorem offence_keeps (sc : Slashing.Cfg) (s : Slashing.State) (i j : Nat) (a : AccId) (f : Nat) (rs : List AccId) :
    Keeps (fun x => a = x ∧ x ∉ s.invulnerables ∧ sc.defer = 0) s.led.bank (onOffence sc s i j a f rs).1.led.bank := by
  unfold onOffence
  split
  · exact Keeps.refl _ _
  split
  · exact Keeps.refl _ _
  rename_i act _
  split
  · exact Keeps.refl _ _
  rename_i era _
  simp only
  split
  · exact Keeps.refl _ _
  rename_i hi
  obtain ⟨h1, h2⟩ := computeSlash_bank sc { s with earliest := some (s.earliest.getD act) } a f era (act - sc.led.bondingDuration) act
  generalize computeSlash sc { s with earliest := some (s.earliest.getD act) } a f era (act - sc.led.bondingDuration) act = r at h1 h2 ⊢
  split
  · show Keeps _ s.led.bank r.1.led.bank
    rw [h1]; exact Keeps.refl _ _
  · rename_i u hu
    have hv := h2 u hu
    unfold enqueue
    split
    · rename_i hd
      have := applySlash_keeps sc r.1 { u with reporters := rs }
      rw [h1] at this
      refine this.mono fun x e => ?_
      have e' : x = a := e.trans hv
      exact ⟨e'.symm, e' ▸ hi, hd⟩
    · show Keeps _ s.led.bank r.1.led.bank
      rw [h1]; exact Keeps.refl _ _

theorem offences_keep (sc : Slashing.Cfg) (s : Slashing.State) (op : Slashing.Op) (ho : slashOwn op = true) :
    Keeps (fun a => match op with
      | .offence _ _ stash _ _ => stash = a ∧ a ∉ s.invulnerables ∧ sc.defer = 0
      | .startEra _ => ∃ n e us u, s.active = some n ∧ e + sc.defer ≤ n ∧ s.unapplied.get e = some us ∧ u ∈ us ∧ u.validator = a
      | _ => False) s.led.bank (Slashing.step sc s op).1.led.bank := by
  cases op with
  | ledger op n => cases ho
  | startEra n => exact startEra_keeps sc s n
  | offence i j a f r => exact offence_keeps sc s i j a f r
  | cancel k e idx =>
    simp only [Slashing.step]
    split
    · rename_i h
      unfold cancel at h
      simp only at h
      split_ifs at h
      cases h
      exact Keeps.refl _ _
    · exact Keeps.refl _ _
  | setInvulnerables l => exact Keeps.refl _ _
  | setRewardProp p => exact Keeps.refl _ _

end

/-! ### One step -/

theorem step_keeps {cfg : Cfg} (hp : cfg.world.micro.burnPercent ≤ 100) (c : State) (op : Op) :
    Keeps (fun a => pays cfg c a op) c.w.bank (step cfg c op).w.bank := by
  cases op with
  | world op =>
    simp only [step]
    split
    · exact (effect_keeps hp c.w op).trans (settle_keeps _ _)
    · exact Keeps.refl _ _
  | bond op n =>
    simp only [step]
    split
    · rename_i ho
      refine Keeps.trans ?_ (placed_keeps _ _ _)
      show Keeps _ c.w.bank (Slashing.ledgerCall cfg.offences { c.slash with led := led c } op n).1.led.bank
      rw [bond_led]
      refine (ledger_keeps cfg.world.ledger (led c) _ (by cases op <;> first | rfl | cases ho)).mono fun a h => ?_
      cases op <;> first | exact h | exact absurd ho Bool.false_ne_true
    · exact Keeps.refl _ _
  | dele op =>
    simp only [step]
    split
    · rename_i ho
      exact (dele_keeps cfg.dele (stkOn c).dele op ho).all.trans (placed_keeps _ _ _)
    · exact Keeps.refl _ _
  | stake op =>
    refine Keeps.trans ((stake_keeps cfg.stake (stkOn c) op).mono fun a h => ?_) (placed_keeps _ _ _)
    cases op <;> exact h
  | credit op =>
    simp only [step]
    cases ho : creditOwn op with
    | false => exact Keeps.refl _ _
    | true =>
      refine Keeps.trans ((credit_keeps cfg.stk.credit { c.stk.credit with bank := c.w.bank } op ho).mono fun a h => ?_) (settled_keeps _ _ _)
      cases op <;> exact h
  | slash op =>
    simp only [step]
    split
    · rename_i ho
      refine Keeps.trans ((offences_keep cfg.offences { c.slash with led := led c } op ho).mono fun a h => ?_) (placed_keeps _ _ _)
      cases op <;> exact h
    · exact Keeps.refl _ _
  | adsc op =>
    simp only [step]
    cases ho : adscOwn op with
    | false => exact Keeps.refl _ _
    | true =>
      refine Keeps.trans ((adsc_keeps cfg.adsc { c.adsc with bank := c.w.bank } op ho).mono fun a h => ?_) (settled_keeps _ _ _)
      cases op <;> exact h

/-! ### Theorems -/

/-- C115. In no history does an account fall below the existential deposit: it has the deposit free, or it is gone. -/
theorem C115_solid {cfg : Cfg} (hp : cfg.world.micro.burnPercent ≤ 100) (c : State) (h : Solid c.w.bank) (ops : List Op) :
    Solid (run cfg c ops).w.bank := by
  induction ops generalizing c with
  | nil => exact h
  | cons op ops ih => exact ih _ (step_keeps hp c op h).1

/-- C115. Nobody has less after an operation, unless it is their own payment, a punishment they are exposed to, or one
of the privileged calls named in `pays`. -/
theorem C115_step {cfg : Cfg} (hp : cfg.world.micro.burnPercent ≤ 100) (c : State) (h : Solid c.w.bank) (op : Op) (a : AccId)
    (hn : ¬ pays cfg c a op) : c.w.bank.total a ≤ (step cfg c op).w.bank.total a :=
  (step_keeps hp c op h).2 a hn

/-- Whether `a` pays at some point of a history. -/
def everPays (cfg : Cfg) (a : AccId) : State → List Op → Prop
  | _, [] => False
  | c, op :: ops => pays cfg c a op ∨ everPays cfg a (step cfg c op) ops

/-- C115. Over a whole history, whatever the others do: an account which never pays and is never punished ends with at
least what it had. -/
theorem C115_history {cfg : Cfg} (hp : cfg.world.micro.burnPercent ≤ 100) (c : State) (h : Solid c.w.bank) (ops : List Op) (a : AccId)
    (hn : ¬ everPays cfg a c ops) : c.w.bank.total a ≤ (run cfg c ops).w.bank.total a := by
  induction ops generalizing c with
  | nil => exact Nat.le_refl _
  | cons op ops ih =>
    have h1 := C115_step hp c h op a fun hc => hn (.inl hc)
    exact Nat.le_trans h1 (ih _ (step_keeps hp c op h).1 fun hc => hn (.inr hc))

/-! ### Example -/

/-- Enough for `a` not to pay in the history below. -/
def quiet (cfg : Cfg) (c : State) (a : AccId) : Op → Bool
  | .world _ => false
  | .bond (.burn ..) _ => false
  | .stake (.stake who _ _ _) => decide (who ≠ a)
  | .credit (.burnForCredit x _) => decide (x ≠ a)
  | .slash (.offence _ _ stash _ _) => decide (stash ≠ a)
  | .slash (.startEra _) => c.slash.unapplied.entries.all fun p => p.2.all fun u => decide (u.validator ≠ a)
  | .adsc (.swap _ _) => decide (cfg.adsc.pool ≠ a)
  | _ => true

theorem quiet_sound {cfg : Cfg} {c : State} {a : AccId} {op : Op} (h : quiet cfg c a op = true) : ¬ pays cfg c a op := by
  unfold pays
  split
  · cases h
  · cases h
  · intro hc; exact absurd hc.1 (of_decide_eq_true h)
  · intro hc; exact absurd hc (of_decide_eq_true h)
  · intro hc; exact absurd hc.1 (of_decide_eq_true h)
  · rintro ⟨n, e, us, u, -, -, hg, hu, hv⟩
    simp only [quiet, List.all_eq_true, decide_eq_true_eq] at h
    exact h (e, us) ((FMap.mem_entries_iff _ _ _).2 hg) u hu hv
  · intro hc; exact absurd hc (of_decide_eq_true h)
  · exact fun hc => hc

def allQuiet (cfg : Cfg) (a : AccId) : State → List Op → Bool
  | _, [] => true
  | c, op :: ops => quiet cfg c a op && allQuiet cfg a (step cfg c op) ops

theorem allQuiet_sound {cfg : Cfg} {a : AccId} (ops : List Op) : ∀ c, allQuiet cfg a c ops = true → ¬ everPays cfg a c ops := by
  induction ops with
  | nil => intro c _ h; exact h
  | cons op ops ih =>
    intro c h
    simp only [allQuiet, Bool.and_eq_true] at h
    rintro (hc | hc)
    · exact quiet_sound h.1 hc
    · exact ih _ h.2 hc

theorem exSolid : Solid exStart.w.bank := by
  have h : exStart.w.bank.accts.entries.all (fun p => decide (exStart.w.bank.ed ≤ p.2.free)) = true := by decide +kernel
  intro a x hx
  simp only [List.all_eq_true, decide_eq_true_eq] at h
  exact h (a, x) ((FMap.mem_entries_iff _ _ _).2 hx)

/-- In the history of C109 validator 2 pays nothing, and gains its reward of 75; validator 1 is slashed and stakes for
credit, account 3 burns, and both have less. -/
example : exStart.w.bank.total 2 ≤ (run exCfg exStart exOps).w.bank.total 2 :=
  C115_history (by decide) exStart exSolid exOps 2 (allQuiet_sound exOps exStart (by decide +kernel))

example :
    let c := run exCfg exStart exOps
    exStart.w.bank.total 2 = 1000 ∧ c.w.bank.total 2 = 1075 ∧ allQuiet exCfg 2 exStart exOps = true ∧
    allQuiet exCfg 1 exStart exOps = false ∧ c.w.bank.total 1 = 825 ∧
    allQuiet exCfg 3 exStart exOps = false ∧ c.w.bank.total 3 = 990 := by
  decide +kernel

/-- The privileged calls are real: a bridge admin moves money of an account which never asked for it. -/
theorem C115_bridge :
    let w : World.State := { exStart.w with oper := { exStart.w.oper with fund := some 9, priv := fun a p => decide (a = 4 ∧ p = .bridgeAdmin) } }
    let c := step exCfg { exStart with w := w } (.world (.oper (.bridgeOut 4 2 300 "bsc")))
    exStart.w.bank.total 2 = 1000 ∧ c.w.bank.total 2 = 700 := by
  decide +kernel

end Verif.Chain
