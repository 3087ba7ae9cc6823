import Verif.LedgerProperties
import Verif.BankExact

/-
C89: who can change what is bonded. C90: when the staking calls succeed, and what exactly they do.
-/

namespace Verif.Ledger

/-- What a stash has bonded. -/
def ledgerOf (s : State) (a : AccId) : Option Ledger :=
  match s.bonded.get a with
  | none => none
  | some c => s.ledgers.get c

/-- Everything stored about a stash is the same: controller, ledger, reward destination, candidacy, lock. -/
structure Untouched (s s' : State) (a : AccId) : Prop where
  bonded : s'.bonded.get a = s.bonded.get a
  ledger : ledgerOf s' a = ledgerOf s a
  payee : s'.payees.get a = s.payees.get a
  candidate : s'.validators.get a = s.validators.get a
  lock : s'.locks.get a = s.locks.get a

/-- Calls that may touch the stash `a`: calls signed by the stash or by its controller, forced unstaking
by root, reaping of a stash whose whole balance is the existential deposit, and slashing, payout and
kicking of the stash itself. -/
def concerns (s : State) (a : AccId) : Op → Prop
  | .bond x _ _ _ _ => x = a
  | .bondExtra x _ => x = a
  | .setController x _ => x = a
  | .unbond c _ => s.bonded.get a = some c
  | .withdraw c _ => s.bonded.get a = some c
  | .validate c _ => s.bonded.get a = some c
  | .chill c => s.bonded.get a = some c
  | .setPayee c _ => s.bonded.get a = some c
  | .rebond c _ => s.bonded.get a = some c
  | .burn c _ => s.bonded.get a = some c
  | .forceUnstake root x _ => root = true ∧ x = a
  | .reap x _ => x = a ∧ s.bank.total a = s.bank.ed
  | .slash x _ => x = a
  | .payout x _ => x = a
  | .kick x => x = a
  | _ => False

theorem Untouched.refl (s : State) (a : AccId) : Untouched s s a := ⟨rfl, rfl, rfl, rfl, rfl⟩

theorem Untouched.of_eq {s s' : State} {a : AccId} (h1 : s'.bonded = s.bonded) (h2 : s'.ledgers = s.ledgers)
    (h3 : s'.payees.get a = s.payees.get a) (h4 : s'.validators.get a = s.validators.get a)
    (h5 : s'.locks = s.locks) : Untouched s s' a :=
  ⟨by rw [h1], by unfold ledgerOf; rw [h1, h2], h3, h4, by rw [h5]⟩

/-- Updating the ledger of a controller leaves other stashes alone. -/
theorem untouched_update {cfg : Cfg} {s s0 : State} (h : Inv cfg s) {c : AccId} {l l' : Ledger}
    (hl : s.ledgers.get c = some l) (hst : l'.stash = l.stash) {a : AccId} (ha : s.bonded.get a ≠ some c)
    (h1 : s0.bonded = s.bonded) (h2 : s0.ledgers = s.ledgers) (h3 : s0.payees = s.payees)
    (h4 : s0.validators = s.validators) (h5 : s0.locks.get a = s.locks.get a) :
    Untouched s (updateLedger cfg s0 c l') a := by
  have hne : a ≠ l.stash := by
    rintro rfl
    exact ha (h.back c l hl)
  obtain ⟨e1, e2, e3, e4, e5, e6, e7⟩ := setLock_fields cfg s0 l'.stash l'.total
  have hb : (updateLedger cfg s0 c l').bonded = s.bonded := by
    show (setLock cfg s0 l'.stash l'.total).bonded = _
    rw [e1, h1]
  refine ⟨by rw [hb], ?_, ?_, ?_, ?_⟩
  · unfold ledgerOf
    rw [hb]
    cases hc : s.bonded.get a with
    | none => rfl
    | some c' =>
      show ((setLock cfg s0 l'.stash l'.total).ledgers.insert c l').get c' = _
      have : c' ≠ c := by rintro rfl; exact ha hc
      rw [FMap.get_insert_ne _ _ this, e2, h2]
  · show (setLock cfg s0 l'.stash l'.total).payees.get a = _
    rw [e7, h3]
  · show (setLock cfg s0 l'.stash l'.total).validators.get a = _
    rw [e6, h4]
  · show (setLock cfg s0 l'.stash l'.total).locks.get a = _
    rw [e3]
    split
    · exact h5
    · rw [FMap.get_insert_ne _ _ (by rw [hst]; exact hne)]; exact h5

theorem untouched_kill {cfg : Cfg} {s s1 : State} (h : Inv cfg s) {x : AccId} {k : Bool} {a : AccId}
    (hk : killStash s x k = .ok s1) (ha : x ≠ a) : Untouched s (removeLock s1 x) a := by
  obtain ⟨c, hc, rfl⟩ := killStash_ok hk
  have hb : (s.bonded.erase x).get a = s.bonded.get a := FMap.get_erase_ne _ (Ne.symm ha)
  refine ⟨hb, ?_, FMap.get_erase_ne _ (Ne.symm ha), FMap.get_erase_ne _ (Ne.symm ha),
    FMap.get_erase_ne _ (Ne.symm ha)⟩
  unfold ledgerOf
  show (match (s.bonded.erase x).get a with | none => none | some c' => (s.ledgers.erase c).get c') = _
  rw [hb]
  cases hg : s.bonded.get a with
  | none => rfl
  | some c' =>
    have : c' ≠ c := by
      rintro rfl
      exact ha (h.inj hc hg)
    exact FMap.get_erase_ne _ this

theorem untouched_step (cfg : Cfg) {s : State} (h : Inv cfg s) (op : Op) (a : AccId) (hc : ¬ concerns s a op) :
    Untouched s (step cfg s op).1 a := by
  rcases step_cases cfg s op with ⟨r, hb, hs⟩ | ⟨e, hb, hs⟩
  rotate_left
  · rw [hs]; exact Untouched.refl s a
  rw [hs]
  cases op with
  | bond x c v p k =>
    simp only [concerns] at hc
    simp only [body, bond] at hb
    split at hb
    · cases hb
    split at hb
    · cases hb
    rename_i hbond hled
    split at hb
    · cases hb
    split at hb
    · cases hb
    cases hb
    have hl := contains_false hled
    have hca : s.bonded.get a ≠ some c := by
      intro hh
      obtain ⟨l, h1, _⟩ := h.forward a c hh
      rw [hl] at h1; cases h1
    generalize hs0 : ({ s with bonded := s.bonded.insert x c, payees := s.payees.insert x p } : State) = s0
    obtain ⟨e1, e2, e3, e4, e5, e6, e7⟩ := setLock_fields cfg s0 x (min v (s.bank.free x))
    have hbb : (setLock cfg s0 x (min v (s.bank.free x))).bonded.get a = s.bonded.get a := by
      rw [e1, ← hs0]; exact FMap.get_insert_ne _ _ (Ne.symm hc)
    refine ⟨hbb, ?_, ?_, ?_, ?_⟩
    · unfold ledgerOf
      show (match (setLock cfg s0 x (min v (s.bank.free x))).bonded.get a with
        | none => none | some c' => ((setLock cfg s0 x (min v (s.bank.free x))).ledgers.insert c _).get c') = _
      rw [hbb]
      cases hg : s.bonded.get a with
      | none => rfl
      | some c' =>
        have : c' ≠ c := by rintro rfl; exact hca hg
        show ((setLock cfg s0 x (min v (s.bank.free x))).ledgers.insert c _).get c' = _
        rw [FMap.get_insert_ne _ _ this, e2, ← hs0]
    · show (setLock cfg s0 x (min v (s.bank.free x))).payees.get a = _
      rw [e7, ← hs0]; exact FMap.get_insert_ne _ _ (Ne.symm hc)
    · show (setLock cfg s0 x (min v (s.bank.free x))).validators.get a = _
      rw [e6, ← hs0]
    · show (setLock cfg s0 x (min v (s.bank.free x))).locks.get a = _
      rw [e3, ← hs0]
      split
      · rfl
      · exact FMap.get_insert_ne _ _ (Ne.symm hc)
  | setMinBond root v =>
    simp only [body, setMinBond] at hb
    split at hb
    · cases hb
    split at hb
    · cases hb
    cases hb
    exact Untouched.of_eq rfl rfl rfl rfl rfl
  | bondExtra x v =>
    simp only [concerns] at hc
    simp only [body, bondExtra] at hb
    split at hb
    · cases hb
    split at hb
    · cases hb
    rename_i c hcx
    split at hb
    · cases hb
    rename_i l hl
    split at hb
    · cases hb; exact Untouched.refl s a
    split at hb
    · cases hb
    cases hb
    exact untouched_update h hl (by rfl) (fun hh => hc (h.inj hcx hh)) (by rfl) (by rfl) (by rfl) (by rfl) (by rfl)
  | unbond c v =>
    simp only [concerns] at hc
    simp only [body, unbond] at hb
    split at hb
    · cases hb
    split at hb
    · cases hb
    rename_i l hl
    split at hb
    · cases hb
    by_cases h0 : min v l.active = 0
    · rw [if_pos h0] at hb; cases hb; exact Untouched.refl s a
    · rw [if_neg h0] at hb
      cases hb
      exact untouched_update h hl (by rfl) hc (by rfl) (by rfl) (by rfl) (by rfl) (by rfl)
  | withdraw c k =>
    simp only [concerns] at hc
    simp only [body, withdraw] at hb
    split at hb
    · cases hb
    split at hb
    · cases hb
    rename_i l hl
    have hst : (consolidateAt l s.era).stash = l.stash := by cases s.era <;> rfl
    split at hb
    · split at hb
      · cases hb
      · rename_i s1 hk
        cases hb
        exact untouched_kill h hk (by rintro rfl; exact hc (h.back c l hl))
    · cases hb
      exact untouched_update h hl hst hc (by rfl) (by rfl) (by rfl) (by rfl) (by rfl)
  | validate c p =>
    simp only [concerns] at hc
    simp only [body, validate] at hb
    split at hb
    · cases hb
    split at hb
    · cases hb
    rename_i l hl
    cases hb
    have hne : a ≠ l.stash := by rintro rfl; exact hc (h.back c l hl)
    exact Untouched.of_eq rfl rfl rfl (FMap.get_insert_ne _ _ hne) rfl
  | chill c =>
    simp only [concerns] at hc
    simp only [body, chill] at hb
    split at hb
    · cases hb
    split at hb
    · cases hb
    rename_i l hl
    cases hb
    have hne : a ≠ l.stash := by rintro rfl; exact hc (h.back c l hl)
    exact Untouched.of_eq rfl rfl rfl (FMap.get_erase_ne _ hne) rfl
  | setPayee c d =>
    simp only [concerns] at hc
    simp only [body, setPayee] at hb
    split at hb
    · cases hb
    rename_i l hl
    cases hb
    have hne : a ≠ l.stash := by rintro rfl; exact hc (h.back c l hl)
    exact Untouched.of_eq rfl rfl (FMap.get_insert_ne _ _ hne) rfl rfl
  | setController x c =>
    simp only [concerns] at hc
    simp only [body, setController] at hb
    split at hb
    · cases hb
    rename_i old hold
    split at hb
    · cases hb
    rename_i hcc
    have hcn := contains_false hcc
    split at hb
    · cases hb; exact Untouched.refl s a
    have hbn : (s.bonded.insert x c).get a = s.bonded.get a := FMap.get_insert_ne _ _ (Ne.symm hc)
    split at hb
    · rename_i hlo
      obtain ⟨l, h1, _⟩ := h.forward x old hold
      rw [hlo] at h1; cases h1
    · rename_i l hl
      cases hb
      refine ⟨hbn, ?_, rfl, rfl, rfl⟩
      unfold ledgerOf
      show (match (s.bonded.insert x c).get a with
        | none => none | some c' => ((s.ledgers.erase old).insert c l).get c') = _
      rw [hbn]
      cases hg : s.bonded.get a with
      | none => rfl
      | some c' =>
        have n1 : c' ≠ c := by
          rintro rfl
          obtain ⟨l', h1, _⟩ := h.forward a c' hg
          rw [hcn] at h1; cases h1
        have n2 : c' ≠ old := by rintro rfl; exact hc (h.inj hold hg)
        show ((s.ledgers.erase old).insert c l).get c' = _
        rw [FMap.get_insert_ne _ _ n1, FMap.get_erase_ne _ n2]
  | forceUnstake root x k =>
    simp only [concerns] at hc
    simp only [body, forceUnstake] at hb
    split at hb
    · cases hb
    rename_i hroot
    split at hb
    · cases hb
    · rename_i s1 hk
      cases hb
      exact untouched_kill h hk (fun e => hc ⟨by simpa using hroot, e⟩)
  | rebond c v =>
    simp only [concerns] at hc
    simp only [body, rebond] at hb
    split at hb
    · cases hb
    split at hb
    · cases hb
    rename_i l hl
    split at hb
    · cases hb
    split at hb
    · cases hb
    cases hb
    exact untouched_update h hl (by rfl) hc (by rfl) (by rfl) (by rfl) (by rfl) (by rfl)
  | reap x k =>
    simp only [concerns] at hc
    simp only [body, reap] at hb
    split at hb
    · cases hb
    rename_i htot
    split at hb
    · cases hb
    · rename_i s1 hk
      cases hb
      exact untouched_kill h hk (fun e => hc ⟨e, by rw [← e]; exact Decidable.not_not.1 htot⟩)
  | burn c v =>
    simp only [concerns] at hc
    simp only [body, burn] at hb
    split at hb
    · cases hb
    rename_i l hl
    cases hb
    have hne : a ≠ l.stash := by rintro rfl; exact hc (h.back c l hl)
    exact untouched_update h hl (by rfl) hc (by rfl) (by rfl) (by rfl) (by rfl) (by exact FMap.get_erase_ne _ hne)
  | slash x v =>
    simp only [concerns] at hc
    simp only [body, doSlash] at hb
    split at hb
    · cases hb; exact Untouched.refl s a
    rename_i c hcx
    split at hb
    · cases hb; exact Untouched.refl s a
    rename_i l hl
    split at hb
    · cases hb; exact Untouched.refl s a
    · cases hb
      exact untouched_update h hl (by rfl) (fun hh => hc (h.inj hcx hh)) (by rfl) (by rfl) (by rfl) (by rfl) (by rfl)
  | payout x v =>
    simp only [concerns] at hc
    simp only [body] at hb
    cases hb
    simp only [payout]
    split
    · split
      · exact Untouched.refl s a
      · exact Untouched.of_eq rfl rfl rfl rfl rfl
    · exact Untouched.of_eq rfl rfl rfl rfl rfl
    · split
      · exact Untouched.refl s a
      rename_i c hcx
      split
      · exact Untouched.refl s a
      rename_i l hl
      exact untouched_update h hl (by rfl) (fun hh => hc (h.inj hcx hh)) (by rfl) (by rfl) (by rfl) (by rfl) (by rfl)
    · exact Untouched.of_eq rfl rfl rfl rfl rfl
  | kick x =>
    simp only [concerns] at hc
    simp only [body] at hb
    cases hb
    exact Untouched.of_eq rfl rfl rfl (FMap.get_erase_ne _ (Ne.symm hc)) rfl
  | newEra =>
    simp only [body] at hb
    cases hb
    exact Untouched.of_eq rfl rfl rfl rfl rfl
  | external b o c =>
    simp only [body] at hb
    cases hb
    exact Untouched.of_eq rfl rfl rfl rfl rfl

/-- C89. Whatever is stored about a stash — its controller, its ledger, its reward destination, its
candidacy and its lock — is changed only by calls that concern it: signed by the stash or its controller,
forced by root, or slashing, payout and kicking of this stash; the only call open to everybody is the
reaping of a stash that holds exactly the existential deposit. -/
theorem C89_own_bond_only (cfg : Cfg) (bank : Bank) (m : Balance) (ops : List Op) (op : Op) (a : AccId)
    (hc : ¬ concerns (run cfg (genesis bank m) ops).1 a op) :
    Untouched (run cfg (genesis bank m) ops).1 (step cfg (run cfg (genesis bank m) ops).1 op).1 a :=
  untouched_step cfg (run_inv cfg ops _ (genesis_inv cfg bank m)) op a hc

/-! ### Candidates and destinations belong to bonded accounts -/

/-- Destinations exist exactly for bonded accounts, candidacies only for them. -/
structure PInv (s : State) : Prop where
  payee : ∀ a, s.payees.get a = none ↔ s.bonded.get a = none
  cand : ∀ a, s.bonded.get a = none → s.validators.get a = none

theorem PInv.same {s s' : State} (h : PInv s) (h1 : ∀ a, s'.bonded.get a = none ↔ s.bonded.get a = none)
    (h2 : s'.payees = s.payees) (h3 : s'.validators = s.validators) : PInv s' :=
  ⟨fun a => by rw [h2, h1]; exact h.payee a, fun a ha => by rw [h3]; exact h.cand a ((h1 a).1 ha)⟩

theorem PInv.update {cfg : Cfg} {s s0 : State} (h : PInv s) {c : AccId} {l' : Ledger}
    (h1 : s0.bonded = s.bonded) (h3 : s0.payees = s.payees) (h4 : s0.validators = s.validators) :
    PInv (updateLedger cfg s0 c l') := by
  obtain ⟨e1, e2, e3, e4, e5, e6, e7⟩ := setLock_fields cfg s0 l'.stash l'.total
  refine h.same ?_ ?_ ?_
  · intro a
    show (setLock cfg s0 l'.stash l'.total).bonded.get a = none ↔ _
    rw [e1, h1]
  · show (setLock cfg s0 l'.stash l'.total).payees = _
    rw [e7, h3]
  · show (setLock cfg s0 l'.stash l'.total).validators = _
    rw [e6, h4]

theorem PInv.kill {s s1 : State} (h : PInv s) {x : AccId} {k : Bool} (hk : killStash s x k = .ok s1) :
    PInv (removeLock s1 x) := by
  obtain ⟨c, hc, rfl⟩ := killStash_ok hk
  refine ⟨?_, ?_⟩
  · intro a
    show (s.payees.erase x).get a = none ↔ (s.bonded.erase x).get a = none
    rw [FMap.get_erase, FMap.get_erase]
    split
    · simp
    · exact h.payee a
  · intro a
    show (s.bonded.erase x).get a = none → (s.validators.erase x).get a = none
    rw [FMap.get_erase, FMap.get_erase]
    split
    · simp
    · exact h.cand a

theorem PInv.put {s : State} (h : PInv s) {x : AccId} (hx : s.bonded.get x ≠ none) :
    (∀ d, PInv { s with payees := s.payees.insert x d }) ∧
    (∀ p, PInv { s with validators := s.validators.insert x p }) := by
  constructor
  · intro d
    refine ⟨?_, h.cand⟩
    intro a
    show (s.payees.insert x d).get a = none ↔ s.bonded.get a = none
    rw [FMap.get_insert]
    split
    · rename_i e; rw [e]; simp [hx]
    · exact h.payee a
  · intro p
    refine ⟨h.payee, ?_⟩
    intro a ha
    show (s.validators.insert x p).get a = none
    rw [FMap.get_insert]
    split
    · rename_i e; rw [e] at ha; exact absurd ha hx
    · exact h.cand a ha

theorem PInv.drop {s : State} (h : PInv s) (x : AccId) : PInv { s with validators := s.validators.erase x } := by
  refine ⟨h.payee, ?_⟩
  intro a ha
  show (s.validators.erase x).get a = none
  rw [FMap.get_erase]
  split
  · rfl
  · exact h.cand a ha

theorem step_pinv (cfg : Cfg) {s : State} (hi : Inv cfg s) (h : PInv s) (op : Op) : PInv (step cfg s op).1 := by
  rcases step_cases cfg s op with ⟨r, hb, hs⟩ | ⟨e, hb, hs⟩
  rotate_left
  · rw [hs]; exact h
  rw [hs]
  have hled : ∀ {c l}, s.ledgers.get c = some l → s.bonded.get l.stash ≠ none := by
    intro c l hl; rw [hi.back c l hl]; simp
  cases op with
  | bond x c v p k =>
    simp only [body, bond] at hb
    split at hb
    · cases hb
    split at hb
    · cases hb
    split at hb
    · cases hb
    split at hb
    · cases hb
    cases hb
    refine PInv.update (s := { s with bonded := s.bonded.insert x c, payees := s.payees.insert x p }) ?_ rfl rfl rfl
    refine ⟨?_, ?_⟩
    · intro a
      show (s.payees.insert x p).get a = none ↔ (s.bonded.insert x c).get a = none
      rw [FMap.get_insert, FMap.get_insert]
      split
      · simp
      · exact h.payee a
    · intro a
      show (s.bonded.insert x c).get a = none → s.validators.get a = none
      rw [FMap.get_insert]
      split
      · intro hh; cases hh
      · exact h.cand a
  | setMinBond root v =>
    simp only [body, setMinBond] at hb
    split at hb
    · cases hb
    split at hb
    · cases hb
    cases hb
    exact h.same (fun _ => Iff.rfl) rfl rfl
  | bondExtra x v =>
    simp only [body, bondExtra] at hb
    split at hb
    · cases hb
    split at hb
    · cases hb
    split at hb
    · cases hb
    split at hb
    · cases hb; exact h
    split at hb
    · cases hb
    cases hb
    exact h.update rfl rfl rfl
  | unbond c v =>
    simp only [body, unbond] at hb
    split at hb
    · cases hb
    split at hb
    · cases hb
    rename_i l hl
    split at hb
    · cases hb
    by_cases h0 : min v l.active = 0
    · rw [if_pos h0] at hb; cases hb; exact h
    · rw [if_neg h0] at hb
      cases hb
      exact h.update rfl rfl rfl
  | withdraw c k =>
    simp only [body, withdraw] at hb
    split at hb
    · cases hb
    split at hb
    · cases hb
    split at hb
    · split at hb
      · cases hb
      · rename_i s1 hk
        cases hb
        exact h.kill hk
    · cases hb
      exact h.update rfl rfl rfl
  | validate c p =>
    simp only [body, validate] at hb
    split at hb
    · cases hb
    split at hb
    · cases hb
    rename_i l hl
    cases hb
    exact (h.put (hled hl)).2 p
  | chill c =>
    simp only [body, chill] at hb
    split at hb
    · cases hb
    split at hb
    · cases hb
    rename_i l hl
    cases hb
    exact h.drop l.stash
  | setPayee c d =>
    simp only [body, setPayee] at hb
    split at hb
    · cases hb
    rename_i l hl
    cases hb
    exact (h.put (hled hl)).1 d
  | setController x c =>
    simp only [body, setController] at hb
    split at hb
    · cases hb
    rename_i old hold
    have hiff : ∀ a, (s.bonded.insert x c).get a = none ↔ s.bonded.get a = none := by
      intro a
      rw [FMap.get_insert]
      split
      · rename_i e; rw [e, hold]; simp
      · exact Iff.rfl
    split at hb
    · cases hb
    split at hb
    · cases hb; exact h
    split at hb
    · cases hb; exact h.same hiff rfl rfl
    · cases hb; exact h.same hiff rfl rfl
  | forceUnstake root x k =>
    simp only [body, forceUnstake] at hb
    split at hb
    · cases hb
    split at hb
    · cases hb
    · rename_i s1 hk
      cases hb
      exact h.kill hk
  | rebond c v =>
    simp only [body, rebond] at hb
    split at hb
    · cases hb
    split at hb
    · cases hb
    split at hb
    · cases hb
    split at hb
    · cases hb
    cases hb
    exact h.update rfl rfl rfl
  | reap x k =>
    simp only [body, reap] at hb
    split at hb
    · cases hb
    split at hb
    · cases hb
    · rename_i s1 hk
      cases hb
      exact h.kill hk
  | burn c v =>
    simp only [body, burn] at hb
    split at hb
    · cases hb
    cases hb
    exact h.update rfl rfl rfl
  | slash x v =>
    simp only [body, doSlash] at hb
    split at hb
    · cases hb; exact h
    split at hb
    · cases hb; exact h
    split at hb
    · cases hb; exact h
    · cases hb
      exact h.update rfl rfl rfl
  | payout x v =>
    simp only [body] at hb
    cases hb
    simp only [payout]
    split
    · split
      · exact h
      · exact h.same (fun _ => Iff.rfl) rfl rfl
    · exact h.same (fun _ => Iff.rfl) rfl rfl
    · split
      · exact h
      split
      · exact h
      exact h.update rfl rfl rfl
    · exact h.same (fun _ => Iff.rfl) rfl rfl
  | kick x =>
    simp only [body] at hb
    cases hb
    exact h.drop x
  | newEra =>
    simp only [body] at hb
    cases hb
    exact h.same (fun _ => Iff.rfl) rfl rfl
  | external b o c =>
    simp only [body] at hb
    cases hb
    exact h.same (fun _ => Iff.rfl) rfl rfl

theorem run_pinv (cfg : Cfg) (ops : List Op) : ∀ s, Inv cfg s → PInv s → PInv (run cfg s ops).1 := by
  induction ops with
  | nil => intro s _ h; exact h
  | cons op ops ih => intro s hi h; exact ih _ (hi.change (step_change cfg s op)) (step_pinv cfg hi h op)

/-- C89. At all times only bonded accounts are candidates for validation, and exactly the bonded
accounts have a reward destination; when a bond ends, both go with it. -/
theorem C89_candidates_bonded (cfg : Cfg) (bank : Bank) (m : Balance) (ops : List Op) (a : AccId) :
    let s := (run cfg (genesis bank m) ops).1
    (s.validators.get a ≠ none → ∃ l, ledgerOf s a = some l ∧ l.stash = a) ∧
    ((∃ d, s.payees.get a = some d) ↔ ∃ l, ledgerOf s a = some l) := by
  intro s
  have hi := run_inv cfg ops _ (genesis_inv cfg bank m)
  have h := run_pinv cfg ops _ (genesis_inv cfg bank m) ⟨fun _ => by simp [genesis], fun _ _ => by simp [genesis]⟩
  have hl : s.bonded.get a ≠ none → ∃ l, ledgerOf s a = some l ∧ l.stash = a := by
    intro hn
    cases hc : s.bonded.get a with
    | none => exact absurd hc hn
    | some c =>
      obtain ⟨l, h1, h2⟩ := hi.forward a c hc
      exact ⟨l, by unfold ledgerOf; rw [hc]; exact h1, h2⟩
  refine ⟨fun hv => hl (fun hn => hv (h.cand a hn)), ?_, ?_⟩
  · rintro ⟨d, hd⟩
    obtain ⟨l, h1, _⟩ := hl (fun hn => by
      have := (h.payee a).2 hn
      rw [show s.payees.get a = some d from hd] at this
      cases this)
    exact ⟨l, h1⟩
  · rintro ⟨l, hlo⟩
    cases hp : s.payees.get a with
    | some d => exact ⟨d, rfl⟩
    | none =>
      have := (h.payee a).1 hp
      unfold ledgerOf at hlo
      rw [this] at hlo
      cases hlo

/-! ### C90: acceptance and effects -/

/-- A call succeeded. -/
def ok (o : Out) : Prop := ∀ e, o ≠ .failed e

theorem ok_iff (cfg : Cfg) (s : State) (op : Op) : ok (step cfg s op).2 ↔ ∃ r, body cfg s op = .ok r ∧ ok r.2 := by
  unfold step
  cases h : body cfg s op with
  | ok r => simp
  | error e =>
    simp only [reduceCtorEq, false_and, exists_false, iff_false]
    intro hh; exact hh e rfl

/-- C90. Bonding succeeds exactly if the stash is not bonded, the controller not in use, the amount at
least the minimum bond and the account can be referenced; it bonds the amount, or the whole free balance
if that is less. -/
theorem C90_bond (cfg : Cfg) (s : State) (a c : AccId) (v : Balance) (d : Dest) (refOk : Bool) :
    let r := step cfg s (.bond a c v d refOk)
    let x := min v (s.bank.free a)
    (ok r.2 ↔ s.bonded.get a = none ∧ s.ledgers.get c = none ∧ s.minBond ≤ v ∧ refOk = true) ∧
    (ok r.2 → r.2 = .bonded a x ∧ r.1.bonded.get a = some c ∧ r.1.ledgers.get c = some ⟨a, x, x, []⟩ ∧
      r.1.payees.get a = some d ∧ r.1.validators = s.validators ∧ r.1.bank.accts = s.bank.accts ∧
      (0 < x → r.1.locks.get a = some x ∧ r.1.bank.frozen a = max x (s.otherLocks a))) := by
  intro r x
  have hcon : ∀ {α : Type} (m : FMap AccId α) (k : AccId), m.contains k = false ↔ m.get k = none := by
    intro α m k; unfold FMap.contains; cases m.get k <;> simp
  by_cases h1 : s.bonded.contains a = true
  · have hr : r = (s, .failed .alreadyBonded) := by simp [r, step, body, bond, h1]
    rw [hr]
    refine ⟨⟨fun h => absurd rfl (h _), fun h => ?_⟩, fun h => absurd rfl (h _)⟩
    rw [(hcon _ _).2 h.1] at h1; cases h1
  by_cases h2 : s.ledgers.contains c = true
  · have hr : r = (s, .failed .alreadyPaired) := by simp [r, step, body, bond, h1, h2]
    rw [hr]
    refine ⟨⟨fun h => absurd rfl (h _), fun h => ?_⟩, fun h => absurd rfl (h _)⟩
    rw [(hcon _ _).2 h.2.1] at h2; cases h2
  by_cases h3 : v < s.minBond
  · have hr : r = (s, .failed .insufficientValue) := by simp [r, step, body, bond, h1, h2, h3]
    rw [hr]
    refine ⟨⟨fun h => absurd rfl (h _), fun h => ?_⟩, fun h => absurd rfl (h _)⟩
    omega
  cases refOk with
  | false =>
    have hr : r = (s, .failed .badState) := by simp [r, step, body, bond, h1, h2, h3]
    rw [hr]
    exact ⟨⟨fun h => absurd rfl (h _), fun h => by cases h.2.2.2⟩, fun h => absurd rfl (h _)⟩
  | true =>
    have hr : r = (updateLedger cfg { s with bonded := s.bonded.insert a c, payees := s.payees.insert a d } c ⟨a, x, x, []⟩, .bonded a x) := by
      simp [r, x, step, body, bond, h1, h2, h3]
    have hok : ok r.2 := by rw [hr]; intro e h; cases h
    refine ⟨⟨fun _ => ⟨contains_false h1, contains_false h2, by omega, rfl⟩, fun _ => hok⟩, fun _ => ?_⟩
    rw [hr]
    generalize hs0 : ({ s with bonded := s.bonded.insert a c, payees := s.payees.insert a d } : State) = s0
    obtain ⟨e1, e2, e3, e4, e5, e6, e7⟩ := setLock_fields cfg s0 a x
    refine ⟨rfl, ?_, FMap.get_insert_self _ _ _, ?_, ?_, ?_, ?_⟩
    · show (setLock cfg s0 a x).bonded.get a = _
      rw [e1, ← hs0]; exact FMap.get_insert_self _ _ _
    · show (setLock cfg s0 a x).payees.get a = _
      rw [e7, ← hs0]; exact FMap.get_insert_self _ _ _
    · show (setLock cfg s0 a x).validators = _
      rw [e6, ← hs0]
    · show (setLock cfg s0 a x).bank.accts = _
      unfold setLock
      split <;> rw [← hs0] <;> rfl
    · intro hx
      have hne : ¬ (x = 0 ∧ cfg.zeroLock = false) := fun h => by omega
      constructor
      · show (setLock cfg s0 a x).locks.get a = _
        rw [e3, if_neg hne]; exact FMap.get_insert_self _ _ _
      · show (setLock cfg s0 a x).bank.frozen a = _
        unfold setLock
        rw [if_neg hne, ← hs0]
        simp [putLock]

/-- C90. Extra bonding succeeds exactly outside of the election window for a bonded stash, if the active
stake reaches the existential deposit; it adds the amount asked for, at most what is free beyond the
bonded total. -/
theorem C90_bond_extra (cfg : Cfg) (s : State) (a c : AccId) (l : Ledger) (v : Balance)
    (hc : s.bonded.get a = some c) (hl : s.ledgers.get c = some l) :
    let r := step cfg s (.bondExtra a v)
    let x := min (s.bank.free a - l.total) v
    (ok r.2 ↔ s.closed = true ∧ (l.total ≤ s.bank.free a → s.bank.ed ≤ l.active + x)) ∧
    (ok r.2 → (s.bank.free a < l.total → r.1 = s) ∧
      (l.total ≤ s.bank.free a → r.2 = .bonded a x ∧
        r.1.ledgers.get c = some { l with total := l.total + x, active := l.active + x }) ∧
      r.1.bank.accts = s.bank.accts) := by
  intro r x
  by_cases h1 : s.closed = true
  rotate_left
  · have hr : r = (s, .failed .callNotAllowed) := by simp [r, step, body, bondExtra, h1]
    rw [hr]
    exact ⟨⟨fun h => absurd rfl (h _), fun h => absurd h.1 h1⟩, fun h => absurd rfl (h _)⟩
  by_cases h2 : s.bank.free a < l.total
  · have hr : r = (s, .done) := by simp [r, step, body, bondExtra, h1, hc, hl, h2]
    rw [hr]
    refine ⟨⟨fun _ => ⟨h1, fun h => by omega⟩, fun _ e h => by cases h⟩, fun _ => ⟨fun _ => rfl, fun h => by omega, rfl⟩⟩
  by_cases h3 : l.active + x < s.bank.ed
  · have hr : r = (s, .failed .insufficientValue) := by
      have h3' : l.active + min (s.bank.free a - l.total) v < s.bank.ed := h3
      simp [r, step, body, bondExtra, h1, hc, hl, h2, h3']
    rw [hr]
    exact ⟨⟨fun h => absurd rfl (h _), fun h => by have := h.2 (by omega); omega⟩, fun h => absurd rfl (h _)⟩
  · have hr : r = (updateLedger cfg s c { l with total := l.total + x, active := l.active + x }, .bonded a x) := by
      have h3' : ¬ l.active + min (s.bank.free a - l.total) v < s.bank.ed := h3
      simp [r, x, step, body, bondExtra, h1, hc, hl, h2, h3']
    rw [hr]
    refine ⟨⟨fun _ => ⟨h1, fun _ => by omega⟩, fun _ e h => by cases h⟩,
      fun _ => ⟨fun h => absurd h h2, fun _ => ⟨rfl, FMap.get_insert_self _ _ _⟩, ?_⟩⟩
    show (setLock cfg s _ _).bank.accts = _
    unfold setLock
    split <;> rfl

/-- C90. Unbonding, withdrawing and re-bonding by a controller succeed exactly outside of the election
window and: unbonding while fewer than the maximal number of chunks are unlocking; withdrawing always,
except that ending the bond needs the right number of slashing spans; re-bonding if something is
unlocking and the active stake reaches the existential deposit. Accounts that are no controllers fail. -/
theorem C90_controller_calls (cfg : Cfg) (s : State) (c : AccId) :
    (s.ledgers.get c = none → ∀ v k p d, ¬ ok (step cfg s (.unbond c v)).2 ∧ ¬ ok (step cfg s (.withdraw c k)).2 ∧
      ¬ ok (step cfg s (.rebond c v)).2 ∧ ¬ ok (step cfg s (.validate c p)).2 ∧ ¬ ok (step cfg s (.chill c)).2 ∧
      ¬ ok (step cfg s (.setPayee c d)).2 ∧ ¬ ok (step cfg s (.burn c v)).2) ∧
    (∀ l, s.ledgers.get c = some l →
      (∀ v, ok (step cfg s (.unbond c v)).2 ↔ s.closed = true ∧ l.unlocking.length < cfg.maxChunks) ∧
      (∀ k, s.bonded.get l.stash = some c → (ok (step cfg s (.withdraw c k)).2 ↔ s.closed = true ∧
        (k = true ∨ s.bank.ed < l.active ∨ ∃ ch ∈ l.unlocking, s.era = none ∨ ∃ e, s.era = some e ∧ e < ch.era))) ∧
      (∀ v, l.Balanced → (ok (step cfg s (.rebond c v)).2 ↔ s.closed = true ∧ l.unlocking ≠ [] ∧
        s.bank.ed ≤ l.active + min v ((l.unlocking.map Chunk.value).sum))) ∧
      (∀ p, (ok (step cfg s (.validate c p)).2 ↔ s.closed = true) ∧
        (s.closed = true → (step cfg s (.validate c p)).1 = { s with validators := s.validators.insert l.stash p })) ∧
      ((ok (step cfg s (.chill c)).2 ↔ s.closed = true) ∧
        (s.closed = true → (step cfg s (.chill c)).1 = { s with validators := s.validators.erase l.stash })) ∧
      (∀ d, ok (step cfg s (.setPayee c d)).2 ∧
        (step cfg s (.setPayee c d)).1 = { s with payees := s.payees.insert l.stash d })) := by
  refine ⟨?_, ?_⟩
  · intro hn v k p d
    have hno : ∀ op e, step cfg s op = (s, .failed e) → ¬ ok (step cfg s op).2 := by
      intro op e h hh; rw [h] at hh; exact hh e rfl
    cases hcl : s.closed with
    | false =>
      exact ⟨hno _ .callNotAllowed (by simp [step, body, unbond, hcl]),
        hno _ .callNotAllowed (by simp [step, body, withdraw, hcl]),
        hno _ .callNotAllowed (by simp [step, body, rebond, hcl]),
        hno _ .callNotAllowed (by simp [step, body, validate, hcl]),
        hno _ .callNotAllowed (by simp [step, body, chill, hcl]),
        hno _ .notController (by simp [step, body, setPayee, hn]),
        hno _ .notController (by simp [step, body, burn, hn])⟩
    | true =>
      exact ⟨hno _ .notController (by simp [step, body, unbond, hcl, hn]),
        hno _ .notController (by simp [step, body, withdraw, hcl, hn]),
        hno _ .notController (by simp [step, body, rebond, hcl, hn]),
        hno _ .notController (by simp [step, body, validate, hcl, hn]),
        hno _ .notController (by simp [step, body, chill, hcl, hn]),
        hno _ .notController (by simp [step, body, setPayee, hn]),
        hno _ .notController (by simp [step, body, burn, hn])⟩
  · intro l hl
    have hno : ∀ op e, step cfg s op = (s, .failed e) → ¬ ok (step cfg s op).2 := by
      intro op e h hh; rw [h] at hh; exact hh e rfl
    refine ⟨?_, ?_, ?_, ?_, ?_, ?_⟩
    · intro v
      cases hcl : s.closed with
      | false =>
        refine ⟨fun h => absurd h (hno _ .callNotAllowed (by simp [step, body, unbond, hcl])), fun h => by cases h.1⟩
      | true =>
        by_cases hm : cfg.maxChunks ≤ l.unlocking.length
        · refine ⟨fun h => absurd h (hno _ .noMoreChunks (by simp [step, body, unbond, hcl, hl, hm])), fun h => by omega⟩
        · refine ⟨fun _ => ⟨rfl, by omega⟩, fun _ => ?_⟩
          rw [ok_iff]
          simp only [body, unbond, hcl, hl, hm, if_false, Bool.true_eq_false]
          by_cases h0 : min v l.active = 0
          · rw [if_pos h0]; exact ⟨_, rfl, fun e h => by cases h⟩
          · rw [if_neg h0]; exact ⟨_, rfl, fun e h => by cases h⟩
    · intro k hb
      cases hcl : s.closed with
      | false =>
        refine ⟨fun h => absurd h (hno _ .callNotAllowed (by simp [step, body, withdraw, hcl])), fun h => by cases h.1⟩
      | true =>
        have hempty : (consolidateAt l s.era).unlocking.isEmpty = true ∧ (consolidateAt l s.era).active ≤ s.bank.ed ↔
            ¬ (s.bank.ed < l.active ∨ ∃ ch ∈ l.unlocking, s.era = none ∨ ∃ e, s.era = some e ∧ e < ch.era) := by
          have ha : (consolidateAt l s.era).active = l.active := by cases s.era <;> rfl
          rw [ha]
          cases he : s.era with
          | none =>
            simp only [consolidateAt, List.isEmpty_iff]
            cases hu : l.unlocking with
            | nil => simp
            | cons ch chs =>
              simp only [reduceCtorEq, false_and, false_iff, Classical.not_not]
              exact Or.inr ⟨ch, by simp, by simp⟩
          | some e =>
            simp only [consolidateAt, consolidate, List.isEmpty_iff, List.filter_eq_nil_iff, decide_eq_true_eq]
            constructor
            · rintro ⟨h1, h2⟩ (h3 | ⟨ch, hm, hh | ⟨e', he', hlt⟩⟩)
              · omega
              · cases hh
              · cases he'; exact h1 ch hm hlt
            · intro h
              refine ⟨fun ch hm hlt => h (Or.inr ⟨ch, hm, Or.inr ⟨e, rfl, hlt⟩⟩), ?_⟩
              refine Nat.le_of_not_lt (fun hgt => ?_)
              exact h (Or.inl hgt)
        rw [ok_iff]
        simp only [body, withdraw, hcl, hl, Bool.true_eq_false, if_false]
        by_cases hk : (consolidateAt l s.era).unlocking.isEmpty = true ∧ (consolidateAt l s.era).active ≤ s.bank.ed
        · rw [if_pos hk]
          have hn := hempty.1 hk
          cases k with
          | true =>
            refine ⟨fun _ => by simp, fun _ => ?_⟩
            simp only [killStash, hb, Bool.true_eq_false, if_false]
            refine ⟨_, rfl, ?_⟩
            intro e h
            split at h <;> cases h
          | false =>
            simp only [killStash, hb, if_true]
            refine ⟨fun ⟨r, h, _⟩ => (by cases h), ?_⟩
            rintro ⟨_, h | h⟩
            · cases h
            · exact absurd h hn
        · rw [if_neg hk]
          have hn : s.bank.ed < l.active ∨ ∃ ch ∈ l.unlocking, s.era = none ∨ ∃ e, s.era = some e ∧ e < ch.era := by
            exact Classical.byContradiction (fun hc' => hk (hempty.2 hc'))
          refine ⟨fun _ => ⟨by simp, Or.inr hn⟩, fun _ => ⟨_, rfl, ?_⟩⟩
          intro e h
          split at h <;> cases h
    · intro v hbal
      have hact : (rebondLedger l v).active = l.active + min v ((l.unlocking.map Chunk.value).sum) :=
        (rebond_spec hbal v).2.2.1
      cases hcl : s.closed with
      | false =>
        refine ⟨fun h => absurd h (hno _ .callNotAllowed (by simp [step, body, rebond, hcl])), fun h => by cases h.1⟩
      | true =>
        by_cases hu : l.unlocking = []
        · refine ⟨fun h => absurd h (hno _ .noUnlockChunk (by simp [step, body, rebond, hcl, hl, hu])), fun h => absurd hu h.2.1⟩
        · have hu' : l.unlocking.isEmpty = false := by simpa using hu
          by_cases hlow : (rebondLedger l v).active < s.bank.ed
          · refine ⟨fun h => absurd h (hno _ .insufficientValue (by simp [step, body, rebond, hcl, hl, hu', hlow])), fun h => ?_⟩
            rw [hact] at hlow
            omega
          · refine ⟨fun _ => ⟨rfl, hu, by rw [hact] at hlow; omega⟩, fun _ => ?_⟩
            rw [ok_iff]
            simp only [body, rebond, hcl, hl, hu', hlow, if_false, Bool.true_eq_false, Bool.false_eq_true]
            exact ⟨_, rfl, fun e h => by cases h⟩
    · intro p
      cases hcl : s.closed with
      | false =>
        exact ⟨⟨fun h => absurd h (hno _ .callNotAllowed (by simp [step, body, validate, hcl])), fun h => by cases h⟩,
          fun h => by cases h⟩
      | true =>
        have : step cfg s (.validate c p) = ({ s with validators := s.validators.insert l.stash p }, .done) := by
          simp [step, body, validate, hcl, hl]
        rw [this]
        exact ⟨⟨fun _ => rfl, fun _ e h => by cases h⟩, fun _ => by rw [← hcl]⟩
    · cases hcl : s.closed with
      | false =>
        exact ⟨⟨fun h => absurd h (hno _ .callNotAllowed (by simp [step, body, chill, hcl])), fun h => by cases h⟩,
          fun h => by cases h⟩
      | true =>
        have : step cfg s (.chill c) = ({ s with validators := s.validators.erase l.stash }, .done) := by
          simp [step, body, chill, hcl, hl]
        rw [this]
        exact ⟨⟨fun _ => rfl, fun _ e h => by cases h⟩, fun _ => by rw [← hcl]⟩
    · intro d
      have : step cfg s (.setPayee c d) = ({ s with payees := s.payees.insert l.stash d }, .done) := by
        simp [step, body, setPayee, hl]
      rw [this]
      exact ⟨fun e h => (by cases h), rfl⟩

/-- C90. A stash moves its ledger to another controller exactly if that one is not in use; nothing else
changes. -/
theorem C90_set_controller (cfg : Cfg) (bank : Bank) (m : Balance) (ops : List Op) (a c : AccId) :
    let s := (run cfg (genesis bank m) ops).1
    let r := step cfg s (.setController a c)
    (ok r.2 ↔ s.bonded.get a ≠ none ∧ s.ledgers.get c = none) ∧
    (ok r.2 → r.1.bonded.get a = some c ∧ ledgerOf r.1 a = ledgerOf s a ∧
      (∀ old, s.bonded.get a = some old → r.1.ledgers.get old = none) ∧
      r.1.payees = s.payees ∧ r.1.validators = s.validators ∧ r.1.locks = s.locks ∧ r.1.bank = s.bank) := by
  have hi := run_inv cfg ops _ (genesis_inv cfg bank m)
  intro s r
  have hi : Inv cfg s := hi
  cases hb : s.bonded.get a with
  | none =>
    have hr : r = (s, .failed .notStash) := by simp [r, step, body, setController, hb]
    rw [hr]
    exact ⟨⟨fun h => absurd rfl (h _), fun h => absurd rfl h.1⟩, fun h => absurd rfl (h _)⟩
  | some old =>
    obtain ⟨l, hl, hst⟩ := hi.forward a old hb
    cases hc : s.ledgers.get c with
    | some l' =>
      have hcc : s.ledgers.contains c = true := by simp [FMap.contains, hc]
      have hr : r = (s, .failed .alreadyPaired) := by simp [r, step, body, setController, hb, hcc]
      rw [hr]
      exact ⟨⟨fun h => absurd rfl (h _), fun h => by cases h.2⟩, fun h => absurd rfl (h _)⟩
    | none =>
      have hcc : s.ledgers.contains c = false := by simp [FMap.contains, hc]
      have hne : c ≠ old := by rintro rfl; rw [hc] at hl; cases hl
      have hr : r = ({ s with bonded := s.bonded.insert a c, ledgers := (s.ledgers.erase old).insert c l }, .done) := by
        simp [r, step, body, setController, hb, hcc, hl, hne]
      rw [hr]
      refine ⟨⟨fun _ => ⟨by simp, rfl⟩, fun _ e h => by cases h⟩, fun _ => ⟨FMap.get_insert_self _ _ _, ?_, ?_, rfl, rfl, rfl, rfl⟩⟩
      · unfold ledgerOf
        show (match (s.bonded.insert a c).get a with
          | none => none | some c' => ((s.ledgers.erase old).insert c l).get c') = _
        rw [FMap.get_insert_self, hb]
        show ((s.ledgers.erase old).insert c l).get c = s.ledgers.get old
        rw [FMap.get_insert_self, hl]
      · intro old' ho
        cases ho
        show ((s.ledgers.erase old).insert c l).get old = none
        rw [FMap.get_insert_ne _ _ (Ne.symm hne), FMap.get_erase_self]

/-- C90. Root ends a bond at once, everybody ends the bond of a stash that holds exactly the existential
deposit, each with the right number of slashing spans; nobody else can. Only root sets the minimum bond,
not below the existential deposit. -/
theorem C90_forced (cfg : Cfg) (s : State) :
    (∀ root a k, ok (step cfg s (.forceUnstake root a k)).2 ↔ root = true ∧ s.bonded.get a ≠ none ∧ k = true) ∧
    (∀ a k, ok (step cfg s (.reap a k)).2 ↔
      s.bank.total a = s.bank.ed ∧ s.bonded.get a ≠ none ∧ k = true) ∧
    (∀ a op, (∃ k, op = .forceUnstake true a k ∨ op = .reap a k) → ok (step cfg s op).2 →
      (step cfg s op).1.bonded.get a = none ∧ (step cfg s op).1.locks.get a = none ∧
      (step cfg s op).1.validators.get a = none ∧ (step cfg s op).1.bank.frozen a = s.otherLocks a ∧
      (step cfg s op).1.bank.accts = s.bank.accts) ∧
    (∀ root v, (ok (step cfg s (.setMinBond root v)).2 ↔ root = true ∧ s.bank.ed ≤ v) ∧
      (ok (step cfg s (.setMinBond root v)).2 → (step cfg s (.setMinBond root v)).1 = { s with minBond := v })) := by
  have hkill : ∀ a k, (∃ s1, killStash s a k = .ok s1) ↔ s.bonded.get a ≠ none ∧ k = true := by
    intro a k
    unfold killStash
    cases hb : s.bonded.get a <;> cases k <;> simp
  refine ⟨?_, ?_, ?_, ?_⟩
  · intro root a k
    rw [ok_iff, ← hkill]
    simp only [body, forceUnstake]
    cases root with
    | false => simp
    | true =>
      cases hk : killStash s a k with
      | error e => simp
      | ok s1 =>
        simp only [Bool.true_eq_false, if_false]
        exact ⟨fun _ => ⟨by simp, s1, rfl⟩, fun _ => ⟨_, rfl, fun e h => by cases h⟩⟩
  · intro a k
    rw [ok_iff, ← hkill]
    simp only [body, reap]
    by_cases ht : s.bank.total a = s.bank.ed
    · rw [if_neg (by simp [ht])]
      cases hk : killStash s a k with
      | error e => simp
      | ok s1 => exact ⟨fun _ => ⟨ht, s1, rfl⟩, fun _ => ⟨_, rfl, fun e h => by cases h⟩⟩
    · rw [if_pos ht]
      simp [ht]
  · rintro a op ⟨k, hop⟩ hok
    have hs1 : ∃ s1, killStash s a k = .ok s1 ∧ (step cfg s op).1 = removeLock s1 a := by
      rcases hop with rfl | rfl
      · rw [ok_iff] at hok
        obtain ⟨r, hr, _⟩ := hok
        have hst : step cfg s (.forceUnstake true a k) = r := by unfold step; rw [hr]
        rw [hst]
        simp only [body, forceUnstake, Bool.true_eq_false, if_false] at hr
        cases hk : killStash s a k with
        | error e => rw [hk] at hr; cases hr
        | ok s1 => rw [hk] at hr; cases hr; exact ⟨s1, rfl, rfl⟩
      · rw [ok_iff] at hok
        obtain ⟨r, hr, _⟩ := hok
        have hst : step cfg s (.reap a k) = r := by unfold step; rw [hr]
        rw [hst]
        simp only [body, reap] at hr
        split at hr
        · cases hr
        cases hk : killStash s a k with
        | error e => rw [hk] at hr; cases hr
        | ok s1 => rw [hk] at hr; cases hr; exact ⟨s1, rfl, rfl⟩
    obtain ⟨s1, hk, he⟩ := hs1
    obtain ⟨c, hc, rfl⟩ := killStash_ok hk
    rw [he]
    exact ⟨FMap.get_erase_self _ _, FMap.get_erase_self _ _, FMap.get_erase_self _ _, by simp [removeLock], rfl⟩
  · intro root v
    rw [ok_iff]
    simp only [step, body, setMinBond]
    cases root with
    | false => simp [ok]
    | true =>
      by_cases hv : v < s.bank.ed
      · simp [hv, ok, Nat.not_le.2 hv]
      · simp [hv, ok, Nat.not_lt.1 hv]

/-! ### Payouts -/

theorem depositOr_bal {b : Bank} (hb : b.Inv) (a : AccId) (v : Balance) (hx : b.accts.contains a = true) :
    (depositOr b a v).free a = b.free a + v ∧ (depositOr b a v).reserved a = b.reserved a ∧
    ∀ x, x ≠ a → (depositOr b a v).acct x = b.acct x := by
  have he : depositOr b a v = b.depositCreating a v := by
    unfold depositOr Bank.depositExisting Bank.depositCreating
    by_cases h0 : v = 0
    · simp [h0]
    · simp [h0, hx]
  rw [he, Bank.depositCreating_free hb, Bank.depositCreating_reserved hb]
  refine ⟨by unfold Bank.minted; rw [if_pos (Or.inl hx)], rfl, fun x hx => (Bank.depositCreating_ne _ hx).1⟩

theorem updateLedger_accts (cfg : Cfg) (s : State) (c : AccId) (l : Ledger) :
    (updateLedger cfg s c l).bank.accts = s.bank.accts := by
  show (setLock cfg s l.stash l.total).bank.accts = _
  unfold setLock
  split <;> rfl

/-- C90. A payout to a bonded stash goes to the destination chosen: to the controller, the stash, the
named account, or to the stash with the same amount added to the bond; exactly the amount, and no other
account gets anything. -/
theorem C90_payout (cfg : Cfg) (s : State) (a c : AccId) (l : Ledger) (v : Balance) (hb : s.bank.Inv)
    (hc : s.bonded.get a = some c) (hl : s.ledgers.get c = some l)
    (d : Dest) (hd : s.payees.get a = some d) :
    let s' := (step cfg s (.payout a v)).1
    let target := match d with | .staked => a | .stash => a | .controller => c | .account x => x
    (s.bank.accts.contains target = true → s'.bank.free target = s.bank.free target + v) ∧
    s'.bank.reserved target = s.bank.reserved target ∧
    (∀ x, x ≠ target → s'.bank.acct x = s.bank.acct x) ∧
    s'.ledgers.get c = some (if d = .staked then { l with active := l.active + v, total := l.total + v } else l) ∧
    (∀ c', c' ≠ c → s'.ledgers.get c' = s.ledgers.get c') ∧ s'.bonded = s.bonded := by
  intro s' target
  have hacct : ∀ {b b' : Bank}, b.accts = b'.accts → ∀ x, b.acct x = b'.acct x := by
    intro b b' h x; unfold Bank.acct; rw [h]
  have hcre : ∀ x, (s.bank.accts.contains x = true → (s.bank.depositCreating x v).free x = s.bank.free x + v) ∧
      (s.bank.depositCreating x v).reserved x = s.bank.reserved x ∧
      ∀ y, y ≠ x → (s.bank.depositCreating x v).acct y = s.bank.acct y := by
    intro x
    refine ⟨fun hx => ?_, Bank.depositCreating_reserved hb _ _, fun y hy => (Bank.depositCreating_ne _ hy).1⟩
    rw [Bank.depositCreating_free hb]
    unfold Bank.minted
    rw [if_pos (Or.inl hx)]
  have hor : (s.bank.accts.contains a = true → (depositOr s.bank a v).free a = s.bank.free a + v) ∧
      (depositOr s.bank a v).reserved a = s.bank.reserved a ∧
      ∀ y, y ≠ a → (depositOr s.bank a v).acct y = s.bank.acct y := by
    by_cases hx : s.bank.accts.contains a = true
    · obtain ⟨h1, h2, h3⟩ := depositOr_bal hb a v hx
      exact ⟨fun _ => h1, h2, h3⟩
    · have he : depositOr s.bank a v = s.bank := by
        unfold depositOr Bank.depositExisting
        by_cases h0 : v = 0
        · simp [h0]
        · simp [h0, hx]
      rw [he]
      exact ⟨fun h => absurd h hx, rfl, fun _ _ => rfl⟩
  have hst : s' = payout cfg s a v := rfl
  rw [hst]
  unfold payout
  rw [hd]
  cases d with
  | controller =>
    simp only [Option.getD_some, hc]
    exact ⟨(hcre c).1, (hcre c).2.1, (hcre c).2.2, hl, by simp, by simp⟩
  | stash =>
    simp only [Option.getD_some]
    exact ⟨hor.1, hor.2.1, hor.2.2, hl, by simp, by simp⟩
  | account x =>
    simp only [Option.getD_some]
    exact ⟨(hcre x).1, (hcre x).2.1, (hcre x).2.2, hl, by simp, by simp⟩
  | staked =>
    simp only [Option.getD_some, hc, hl]
    generalize hs0 : ({ s with bank := depositOr s.bank a v } : State) = s0
    have hba : ∀ x, (updateLedger cfg s0 c { l with active := l.active + v, total := l.total + v }).bank.acct x =
        (depositOr s.bank a v).acct x := by
      intro x
      refine hacct ?_ x
      rw [updateLedger_accts, ← hs0]
    obtain ⟨e1, e2, _⟩ := setLock_fields cfg s0 l.stash (l.total + v)
    refine ⟨?_, ?_, ?_, ?_, ?_, ?_⟩
    · intro hx
      unfold Bank.free
      rw [hba]
      exact hor.1 hx
    · unfold Bank.reserved
      rw [hba]
      exact hor.2.1
    · intro x hx
      rw [hba]
      exact hor.2.2 x hx
    · simp only [if_true]
      exact FMap.get_insert_self _ _ _
    · intro c' hc'
      show ((setLock cfg s0 l.stash (l.total + v)).ledgers.insert c _).get c' = _
      rw [FMap.get_insert_ne _ _ hc', e2, ← hs0]
    · show (setLock cfg s0 l.stash (l.total + v)).bonded = _
      rw [e1, ← hs0]

/-! ### Order of re-bonding -/

theorem rebondLoop_order (value : Balance) (cs : List Chunk) : ∀ active got,
    ∃ used keep, cs = used ++ keep ∧ ((rebondLoop value cs active got).2 = keep ∨
      ∃ ch rest x, keep = ch :: rest ∧ (rebondLoop value cs active got).2 = { ch with value := x } :: rest) := by
  induction cs with
  | nil => intro active got; exact ⟨[], [], rfl, Or.inl rfl⟩
  | cons c cs ih =>
    intro active got
    unfold rebondLoop
    split
    · split
      · exact ⟨[c], cs, rfl, Or.inl rfl⟩
      · obtain ⟨used, keep, h1, h2⟩ := ih (active + c.value) (got + c.value)
        exact ⟨c :: used, keep, by rw [h1]; rfl, h2⟩
    · exact ⟨[], c :: cs, rfl, Or.inr ⟨c, cs, _, rfl, rfl⟩⟩

/-- C90. Re-bonding uses the chunks that were unbonded last: the earlier ones keep value and era, only
the latest of those kept may lose a part of its value. -/
theorem C90_rebond_latest_first (cfg : Cfg) (s : State) (c : AccId) (v : Balance) (l : Ledger)
    (hl : s.ledgers.get c = some l) (hok : ok (step cfg s (.rebond c v)).2) :
    ∃ l' keep used, (step cfg s (.rebond c v)).1.ledgers.get c = some l' ∧ l.unlocking = keep ++ used ∧
      (l'.unlocking = keep ∨ ∃ first ch x, keep = first ++ [ch] ∧ l'.unlocking = first ++ [{ ch with value := x }]) := by
  rw [ok_iff] at hok
  obtain ⟨r, hr, _⟩ := hok
  have hst : step cfg s (.rebond c v) = r := by unfold step; rw [hr]
  rw [hst]
  simp only [body, rebond] at hr
  split at hr
  · cases hr
  rw [hl] at hr
  simp only at hr
  split at hr
  · cases hr
  split at hr
  · cases hr
  cases hr
  obtain ⟨used, keep, h1, h2⟩ := rebondLoop_order v l.unlocking.reverse l.active 0
  refine ⟨rebondLedger l v, keep.reverse, used.reverse, FMap.get_insert_self _ _ _, ?_, ?_⟩
  · rw [← List.reverse_append, ← h1, List.reverse_reverse]
  · rcases h2 with h2 | ⟨ch, rest, x, h2, h3⟩
    · left; simp only [rebondLedger]; rw [h2]
    · right
      refine ⟨rest.reverse, ch, x, by rw [h2, List.reverse_cons], ?_⟩
      simp only [rebondLedger]
      rw [h3, List.reverse_cons]

/-! ### Burning -/

theorem slash_full (b : Bank) (a : AccId) (v : Balance) (h : v + b.ed ≤ b.free a) : (b.slash a v).2 = v := by
  unfold Bank.slash
  split
  · rename_i h0
    rcases h0 with h0 | h0
    · exact h0.symm
    · have : b.free a ≤ b.total a := by unfold Bank.total; omega
      show 0 = v
      omega
  · simp only
    split <;> omega

/-- C90. A controller that burns an amount destroys at least that amount of its own bond (or all of it,
if it is less, and at most the existential deposit more), from the active stake first; the balance of the
stash falls by what is reported if the existential deposit stays, no other ledger or balance changes, and
the ledger still balances. -/
theorem C90_burn (cfg : Cfg) (bank : Bank) (m : Balance) (ops : List Op) (c : AccId) (v : Balance) (l : Ledger)
    (hl : (run cfg (genesis bank m) ops).1.ledgers.get c = some l) :
    let s := (run cfg (genesis bank m) ops).1
    let r := step cfg s (.burn c v)
    ∃ l' cut, r.2 = .burned c cut ∧ r.1.ledgers.get c = some l' ∧ l'.stash = l.stash ∧ l'.total + cut = l.total ∧
      min v l.total ≤ cut ∧ cut ≤ v + s.bank.ed ∧
      l'.total = l'.active + (l'.unlocking.map Chunk.value).sum ∧
      (v ≤ l.active → l'.unlocking = l.unlocking) ∧
      (∀ c', c' ≠ c → r.1.ledgers.get c' = s.ledgers.get c') ∧
      (cut + s.bank.ed ≤ s.bank.free l.stash → r.1.bank.free l.stash + cut = s.bank.free l.stash) ∧
      (∀ b, b ≠ l.stash → r.1.bank.free b = s.bank.free b ∧ r.1.bank.reserved b = s.bank.reserved b) := by
  intro s r
  have h := run_inv cfg ops _ (genesis_inv cfg bank m)
  have hp := run_pos cfg ops _ (fun c l h => by simp [genesis] at h : AllPos (genesis bank m)) c l hl
  obtain ⟨h1, h2, h3, h4, h5, _, h7, h8, _⟩ := C37_slash l v s.bank.ed (h.balanced c l hl) hp
  have hr : r = (updateLedger cfg { (removeLock s l.stash) with bank := ((removeLock s l.stash).bank.slash l.stash (slashLedger l v s.bank.ed).2).1 } c (slashLedger l v s.bank.ed).1, .burned c (slashLedger l v s.bank.ed).2) := by
    simp only [r, step, body, burn]
    rw [show s.ledgers.get c = some l from hl]
  rw [hr]
  generalize hs0 : ({ (removeLock s l.stash) with bank := ((removeLock s l.stash).bank.slash l.stash (slashLedger l v s.bank.ed).2).1 } : State) = s0
  obtain ⟨e1, e2, _⟩ := setLock_fields cfg s0 (slashLedger l v s.bank.ed).1.stash (slashLedger l v s.bank.ed).1.total
  refine ⟨(slashLedger l v s.bank.ed).1, (slashLedger l v s.bank.ed).2, rfl, FMap.get_insert_self _ _ _, h1, h3, h4, h5,
    h2, h7, ?_, ?_, ?_⟩
  · intro c' hc'
    show ((setLock cfg s0 _ _).ledgers.insert c _).get c' = _
    rw [FMap.get_insert_ne _ _ hc', e2, ← hs0]
    rfl
  · intro hle
    have hf := slash_full (removeLock s l.stash).bank l.stash (slashLedger l v s.bank.ed).2 hle
    have ht := (slash_taken (removeLock s l.stash).bank l.stash (slashLedger l v s.bank.ed).2).2.1
    rw [hf] at ht
    have hle' : (slashLedger l v s.bank.ed).2 + (removeLock s l.stash).bank.ed ≤ (removeLock s l.stash).bank.free l.stash := hle
    have ht := ht (Or.inl (by omega))
    have hba : (updateLedger cfg s0 c (slashLedger l v s.bank.ed).1).bank.acct l.stash =
        ((removeLock s l.stash).bank.slash l.stash (slashLedger l v s.bank.ed).2).1.acct l.stash := by
      unfold Bank.acct
      rw [updateLedger_accts, ← hs0]
    unfold Bank.free at ht ⊢
    rw [hba]
    exact ht
  · intro b hb
    have hst := (slash_taken (removeLock s l.stash).bank l.stash (slashLedger l v s.bank.ed).2).2.2 b hb
    have hba : (updateLedger cfg s0 c (slashLedger l v s.bank.ed).1).bank.acct b =
        ((removeLock s l.stash).bank.slash l.stash (slashLedger l v s.bank.ed).2).1.acct b := by
      unfold Bank.acct
      rw [updateLedger_accts, ← hs0]
    unfold Bank.free Bank.reserved
    rw [hba]
    exact hst

/-- C90, finding: a bond may be smaller than the minimum bond, even zero: the minimum is compared with
the amount asked for, before it is cut to the free balance of the stash. -/
theorem C90_bond_below_minimum :
    ∃ op : Op, let s := (step exCfg (genesis exBank 2000) op).1
      ok (step exCfg (genesis exBank 2000) op).2 ∧ s.minBond = 2000 ∧ s.ledgers.get 2 = some ⟨1, 1000, 1000, []⟩ := by
  refine ⟨.bond 1 2 2000 .staked true, ?_⟩
  refine ⟨?_, by decide +kernel⟩
  intro e h
  cases h

/-- Account 1 bonds and validates; account 3 can do nothing about it; the payout is added to the bond. -/
example :
    let r := run exCfg (genesis exBank 10) [.bond 1 2 500 .staked true, .validate 2 (7, false), .chill 3,
      .unbond 3 100, .bond 1 4 500 .stash true, .reap 1 true, .forceUnstake false 1 true, .payout 1 30]
    r.2.map (fun e => e.2.2) = [.bonded 1 500, .done, .failed .notController, .failed .notController,
      .failed .alreadyBonded, .failed .fundedTarget, .failed .badOrigin, .done] ∧
    ledgerOf r.1 1 = some ⟨1, 530, 530, []⟩ ∧ r.1.validators.get 1 = some (7, false) ∧ r.1.bank.free 1 = 1030 := by
  decide +kernel

end Verif.Ledger
