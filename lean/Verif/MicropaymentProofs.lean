import Verif.MicropaymentSpec
import Mathlib.Data.List.Chain

/-
Helper lemmas for the micropayment properties.
-/

namespace Verif.Micropayment

/-- Internal invariant. -/
structure Inv (s : State) : Prop where
  client : ∀ c srv ch, s.chans.get (c, srv) = some ch → ch.client = c
  server : ∀ c srv ch, s.chans.get (c, srv) = some ch → ch.server = srv
  nonce : ∀ c srv ch, s.chans.get (c, srv) = some ch → ch.nonce = nonceOf s c srv
  ends : ∀ c srv ch, s.chans.get (c, srv) = some ch → c ≠ srv
  total : ∀ c, (s.totals.get c).getD 0 = escrow s c

theorem genesis_inv (b : Bank) (n : Nat) (e : AccId → Nat) : Inv (genesis b n e) := by
  constructor <;> intros <;> simp_all [genesis, escrow]

/-! ### Shape of successful calls -/

theorem refundAndClose_ok {cfg : Config} {s : State} {c srv : AccId} {ch : Chan}
    (h : (refundAndClose cfg s c srv ch).err = none) :
    ∃ b, depositIntoAccount cfg s.bank c ch.balance = .ok b ∧
      (refundAndClose cfg s c srv ch).state
        = closeRaw { lowerTotal s c ch.balance with bank := b } c srv ∧
      (refundAndClose cfg s c srv ch).events = [.channelClosed c srv] := by
  unfold refundAndClose at h ⊢
  simp only at h ⊢
  have hb : (lowerTotal s c ch.balance).bank = s.bank := rfl
  rw [hb] at h ⊢
  cases hd : depositIntoAccount cfg s.bank c ch.balance with
  | error e => rw [hd] at h; simp [Res.fail] at h
  | ok b => exact ⟨b, rfl, rfl, rfl⟩

theorem openChannel_ok {cfg : Config} {s : State} {c srv : AccId} {l : Balance} {d : Nat}
    (h : (openChannel cfg s c srv l d).err = none) :
    ∃ b, s.chans.get (c, srv) = none ∧ c ≠ srv ∧ s.bank.withdraw c l true = .ok b ∧
      (openChannel cfg s c srv l d).state = raiseTotal { s with
        bank := b
        chans := s.chans.insert (c, srv)
          ⟨c, srv, l, nonceOf s c srv, s.block, s.block + d / cfg.secsPerBlock⟩ } c l ∧
      (openChannel cfg s c srv l d).events = [.channelOpened c srv l (nonceOf s c srv)] := by
  unfold openChannel at h ⊢
  by_cases h1 : s.chans.contains (c, srv)
  · simp [h1, Res.fail] at h
  rw [if_neg h1] at h ⊢
  by_cases h2 : c = srv
  · simp [h2, Res.fail] at h
  rw [if_neg h2] at h ⊢
  have h1' : s.chans.get (c, srv) = none := by simpa [FMap.contains] using h1
  cases hw : s.bank.withdraw c l true with
  | error e => simp [takeFromAccount, hw, Res.fail] at h
  | ok b =>
    refine ⟨b, h1', h2, rfl, ?_⟩
    simp [takeFromAccount, hw]

theorem addBalance_ok {s : State} {c srv : AccId} {a : Balance}
    (h : (addBalance s c srv a).err = none) :
    ∃ ch b, s.chans.get (c, srv) = some ch ∧ s.bank.withdraw c a true = .ok b ∧
      (addBalance s c srv a).state = raiseTotal { s with
        bank := b
        chans := s.chans.insert (c, srv) { ch with balance := ch.balance + a } } c a ∧
      (addBalance s c srv a).events = [.balanceAdded c srv a] := by
  unfold addBalance at h ⊢
  cases h1 : s.chans.get (c, srv) with
  | none => simp [h1, Res.fail] at h
  | some ch =>
    cases hw : s.bank.withdraw c a true with
    | error e => simp [h1, takeFromAccount, hw, Res.fail] at h
    | ok b => exact ⟨ch, b, rfl, rfl, by simp [takeFromAccount, hw]⟩

theorem closeChannel_ok {cfg : Config} {s : State} {sg a : AccId}
    (h : (closeChannel cfg s sg a).err = none) :
    (∃ ch, s.chans.get (a, sg) = some ch ∧
      closeChannel cfg s sg a = refundAndClose cfg s a sg ch) ∨
    (∃ ch, s.chans.get (sg, a) = some ch ∧
      (ch.expiration < s.block ∨ s.erasOffline ch.server ≥ 1) ∧
      closeChannel cfg s sg a = refundAndClose cfg s sg a ch) := by
  unfold closeChannel at h ⊢
  cases h1 : s.chans.get (a, sg) with
  | some ch => exact Or.inl ⟨ch, rfl, rfl⟩
  | none =>
    cases h2 : s.chans.get (sg, a) with
    | none => simp [h1, h2, Res.fail] at h
    | some ch =>
      simp only [h1, h2] at h
      by_cases hc : ch.expiration < s.block ∨ s.erasOffline ch.server ≥ 1
      · refine Or.inr ⟨ch, rfl, hc, ?_⟩
        simp only [if_pos hc]
      · simp [if_neg hc, Res.fail] at h

theorem claimPayment_ok {cfg : Config} {s : State} {srv c : AccId} {ses : BitVec 32}
    {a : Balance} {sig : List Nat} (h : (claimPayment cfg s srv c ses a sig).err = none) :
    ∃ ch, s.chans.get (c, srv) = some ch ∧
      ((ch.expiration < s.block ∧
          claimPayment cfg s srv c ses a sig = refundAndClose cfg s c srv ch) ∨
       (¬ ch.expiration < s.block ∧ sessionOk s c srv ses = true ∧
          verifySignature cfg c srv ch.nonce ses a sig = true ∧ a ≤ ch.balance ∧
          ∃ b, depositIntoAccount cfg s.bank srv a = .ok b ∧
            (claimPayment cfg s srv c ses a sig).state =
              { lowerTotal { s with
                  sessions := s.sessions.insert (c, srv) ses
                  chans := s.chans.insert (c, srv) { ch with balance := ch.balance - a } } c a with
                bank := b } ∧
            (claimPayment cfg s srv c ses a sig).events
              = [.claimPayment c srv ch.nonce ses a])) := by
  unfold claimPayment at h ⊢
  cases h1 : s.chans.get (c, srv) with
  | none => simp [h1, Res.fail] at h
  | some ch =>
    refine ⟨ch, rfl, ?_⟩
    simp only [h1] at h ⊢
    by_cases he : ch.expiration < s.block
    · exact Or.inl ⟨he, by simp [he]⟩
    right
    rw [if_neg he] at h ⊢
    by_cases hs : sessionOk s c srv ses = true
    · rw [if_neg (by simpa using hs)] at h ⊢
      by_cases hg : verifySignature cfg c srv ch.nonce ses a sig = true
      · rw [if_neg (by simpa using hg)] at h ⊢
        by_cases hb : ch.balance < a
        · rw [if_pos hb] at h
          split at h <;> simp [Res.fail] at h
        · rw [if_neg hb] at h ⊢
          have hbank : ∀ x y, (lowerTotal { s with sessions := x, chans := y } c a).bank
              = s.bank := fun _ _ => rfl
          rw [hbank] at h ⊢
          cases hd : depositIntoAccount cfg s.bank srv a with
          | error e => simp [hd, Res.fail] at h
          | ok b => exact ⟨he, hs, hg, by omega, b, rfl, rfl, rfl⟩
      · rw [if_pos (by simpa using hg)] at h; simp [Res.fail] at h
    · rw [if_pos (by simpa using hs)] at h; simp [Res.fail] at h

theorem closeExpired_ok {cfg : Config} {s : State} {c : AccId} {o : List AccId}
    (h : (closeExpired cfg s c o).err = none) :
    closeExpired cfg s c o = closeExpiredLoop cfg c o s := by
  unfold closeExpired at h ⊢
  split
  · rfl
  · rename_i hp; rw [if_neg hp] at h; simp [Res.fail] at h

theorem lowerTotal_get (s : State) (c c' : AccId) (v : Balance) :
    ((lowerTotal s c v).totals.get c').getD 0
      = if c' = c then (s.totals.get c).getD 0 - v else (s.totals.get c').getD 0 := by
  unfold lowerTotal
  simp only
  by_cases h : c' = c
  · subst h
    split
    · simp
    · simp only [FMap.get_erase_self, Option.getD_none, if_true]; omega
  · split
    · rw [FMap.get_insert_ne _ _ h]
    · rw [FMap.get_erase_ne _ h]

/-- Effect of a channel removal with refund on the invariant. -/
theorem close_inv {s : State} (hi : Inv s) {c srv : AccId} {ch : Chan} (b : Bank)
    (hc : s.chans.get (c, srv) = some ch) :
    Inv (closeRaw { lowerTotal s c ch.balance with bank := b } c srv) := by
  have key : ∀ c' srv' ch', (s.chans.erase (c, srv)).get (c', srv') = some ch' →
      (c', srv') ≠ (c, srv) ∧ s.chans.get (c', srv') = some ch' := by
    intro c' srv' ch' h
    rw [FMap.get_erase] at h
    by_cases hk : (c', srv') = (c, srv)
    · simp [hk] at h
    · simp only [hk, if_false] at h; exact ⟨hk, h⟩
  constructor
  · intro c' srv' ch' h
    exact hi.client _ _ _ (key _ _ _ h).2
  · intro c' srv' ch' h
    exact hi.server _ _ _ (key _ _ _ h).2
  · intro c' srv' ch' h
    obtain ⟨hk, h⟩ := key _ _ _ h
    rw [hi.nonce _ _ _ h]
    simp only [closeRaw, nonceOf, lowerTotal, FMap.get_insert, hk, if_false]
  · intro c' srv' ch' h
    exact hi.ends _ _ _ (key _ _ _ h).2
  · intro c'
    have ht := hi.total c'
    have hs := FMap.sum_erase s.chans (c, srv) (fun k ch => if k.1 = c' then ch.balance else 0)
    rw [FMap.at?_some hc] at hs
    have hE : escrow (closeRaw { lowerTotal s c ch.balance with bank := b } c srv) c'
        = (s.chans.erase (c, srv)).sum (fun k ch => if k.1 = c' then ch.balance else 0) := rfl
    rw [hE]
    have hT : (closeRaw { lowerTotal s c ch.balance with bank := b } c srv).totals
        = (lowerTotal s c ch.balance).totals := rfl
    rw [hT]
    unfold escrow at ht
    by_cases hcc : c' = c
    · subst hcc
      simp only [if_true] at hs
      unfold lowerTotal
      simp only
      split
      · simp only [FMap.get_insert_self, Option.getD_some]; omega
      · simp only [FMap.get_erase_self, Option.getD_none]; omega
    · simp only [Ne.symm hcc, if_false] at hs
      unfold lowerTotal
      simp only
      split
      · rw [FMap.get_insert_ne _ _ hcc]; omega
      · rw [FMap.get_erase_ne _ hcc]; omega

/-- Changing the balance of one channel and the total accordingly. -/
theorem update_inv {s : State} (hi : Inv s) {c srv : AccId} {ch : Chan} (v : Balance)
    (hc : s.chans.get (c, srv) = some ch)
    (bank : Bank) (ses : FMap (AccId × AccId) (BitVec 32)) (tot : FMap AccId Balance)
    (htot : ∀ c', (tot.get c').getD 0 + (if c' = c then ch.balance else 0)
      = (s.totals.get c').getD 0 + (if c' = c then v else 0)) :
    Inv { s with
      chans := s.chans.insert (c, srv) { ch with balance := v }
      bank := bank, sessions := ses, totals := tot } := by
  have key : ∀ c' srv' ch', (s.chans.insert (c, srv) { ch with balance := v }).get (c', srv')
      = some ch' → ((c', srv') = (c, srv) ∧ ch' = { ch with balance := v }) ∨
        s.chans.get (c', srv') = some ch' := by
    intro c' srv' ch' h
    rw [FMap.get_insert] at h
    by_cases hk : (c', srv') = (c, srv)
    · simp only [hk, if_true, Option.some.injEq] at h; exact Or.inl ⟨hk, h.symm⟩
    · simp only [hk, if_false] at h; exact Or.inr h
  constructor
  · intro c' srv' ch' h
    rcases key _ _ _ h with ⟨hk, rfl⟩ | h
    · cases hk; exact (hi.client _ _ _ hc :)
    · exact hi.client _ _ _ h
  · intro c' srv' ch' h
    rcases key _ _ _ h with ⟨hk, rfl⟩ | h
    · cases hk; exact (hi.server _ _ _ hc :)
    · exact hi.server _ _ _ h
  · intro c' srv' ch' h
    rcases key _ _ _ h with ⟨hk, rfl⟩ | h
    · cases hk; exact (hi.nonce _ _ _ hc :)
    · exact hi.nonce _ _ _ h
  · intro c' srv' ch' h
    rcases key _ _ _ h with ⟨hk, rfl⟩ | h
    · cases hk; exact (hi.ends _ _ _ hc :)
    · exact hi.ends _ _ _ h
  · intro c'
    have ht := hi.total c'
    have hh := htot c'
    have hs := FMap.sum_insert s.chans (c, srv) { ch with balance := v }
      (fun k ch => if k.1 = c' then ch.balance else 0)
    rw [FMap.at?_some hc] at hs
    simp only [escrow] at ht ⊢
    by_cases hcc : c' = c
    · subst hcc; simp only [if_true] at hs hh; omega
    · simp only [Ne.symm hcc, hcc, if_false] at hs hh; omega

theorem closeExpiredLoop_ind (cfg : Config) (client : AccId) (P : State → Prop)
    (hstep : ∀ s srv ch, P s → s.chans.get (client, srv) = some ch → ch.expiration < s.block →
      (refundAndClose cfg s client srv ch).err = none →
      P (refundAndClose cfg s client srv ch).state)
    (order : List AccId) (s : State) (hs : P s)
    (hok : (closeExpiredLoop cfg client order s).err = none) :
    P (closeExpiredLoop cfg client order s).state := by
  induction order generalizing s with
  | nil => exact hs
  | cons srv rest ih =>
    unfold closeExpiredLoop at hok ⊢
    cases hc : s.chans.get (client, srv) with
    | none => simp only [hc] at hok ⊢; exact ih s hs hok
    | some ch =>
      simp only [hc] at hok ⊢
      by_cases he : ch.expiration < s.block
      · simp only [he, if_true] at hok ⊢
        cases hr : (refundAndClose cfg s client srv ch).err with
        | some e => rw [hr] at hok; simp at hok
        | none =>
          rw [hr] at hok
          simp only at hok ⊢
          exact ih _ (hstep s srv ch hs hc he hr) hok
      · simp only [he, if_false] at hok ⊢; exact ih s hs hok

theorem open_inv {s : State} (hi : Inv s) {c srv : AccId} (hnone : s.chans.get (c, srv) = none)
    (hne : c ≠ srv) (b : Bank) (l op ex : Nat) :
    Inv (raiseTotal { s with
        bank := b
        chans := s.chans.insert (c, srv) ⟨c, srv, l, nonceOf s c srv, op, ex⟩ } c l) := by
  have key : ∀ v c' srv' ch', (s.chans.insert (c, srv) v).get (c', srv')
      = some ch' → ((c', srv') = (c, srv) ∧ ch' = v) ∨
        s.chans.get (c', srv') = some ch' := by
    intro v c' srv' ch' h
    rw [FMap.get_insert] at h
    by_cases hk : (c', srv') = (c, srv)
    · simp only [hk, if_true, Option.some.injEq] at h; exact Or.inl ⟨hk, h.symm⟩
    · simp only [hk, if_false] at h; exact Or.inr h
  constructor
  · intro c' srv' ch' h
    rcases key _ _ _ _ h with ⟨hk, rfl⟩ | h
    · cases hk; rfl
    · exact hi.client _ _ _ h
  · intro c' srv' ch' h
    rcases key _ _ _ _ h with ⟨hk, rfl⟩ | h
    · cases hk; rfl
    · exact hi.server _ _ _ h
  · intro c' srv' ch' h
    rcases key _ _ _ _ h with ⟨hk, rfl⟩ | h
    · cases hk; rfl
    · exact hi.nonce _ _ _ h
  · intro c' srv' ch' h
    rcases key _ _ _ _ h with ⟨hk, rfl⟩ | h
    · cases hk; exact hne
    · exact hi.ends _ _ _ h
  · intro c'
    have ht := hi.total c'
    have hs := FMap.sum_insert s.chans (c, srv)
      ⟨c, srv, l, nonceOf s c srv, op, ex⟩
      (fun k ch => if k.1 = c' then ch.balance else 0)
    rw [FMap.at?_none hnone] at hs
    simp only [escrow, raiseTotal] at ht ⊢
    by_cases hcc : c' = c
    · subst hcc
      simp only [if_true] at hs
      simp only [FMap.get_insert_self, Option.getD_some]; omega
    · simp only [Ne.symm hcc, if_false] at hs
      rw [FMap.get_insert_ne _ _ hcc]; omega

theorem refund_inv {cfg : Config} {s : State} (hi : Inv s) {c srv : AccId} {ch : Chan}
    (hc : s.chans.get (c, srv) = some ch) (h : (refundAndClose cfg s c srv ch).err = none) :
    Inv (refundAndClose cfg s c srv ch).state := by
  obtain ⟨b, -, hst, -⟩ := refundAndClose_ok h
  rw [hst]; exact close_inv hi b hc

theorem body_inv {cfg : Config} {s : State} (hi : Inv s) {op : Op}
    (hok : (body cfg s op).err = none) : Inv (body cfg s op).state := by
  cases op with
  | openChannel c srv l d =>
    obtain ⟨b, h1, h2, -, h3, -⟩ := openChannel_ok hok
    simp only [body]; rw [h3]
    exact open_inv hi h1 h2 b l _ _
  | closeChannel sg a =>
    simp only [body] at hok ⊢
    rcases closeChannel_ok hok with ⟨ch, h1, h2⟩ | ⟨ch, h1, -, h2⟩
    · rw [h2] at hok ⊢; exact refund_inv hi h1 hok
    · rw [h2] at hok ⊢; exact refund_inv hi h1 hok
  | closeExpired c o =>
    simp only [body] at hok ⊢
    have heq := closeExpired_ok hok
    rw [heq] at hok ⊢
    refine closeExpiredLoop_ind cfg c Inv ?_ o s hi hok
    intro s' srv ch hP hc _ hr
    exact refund_inv hP hc hr
  | addBalance c srv a =>
    simp only [body] at hok ⊢
    obtain ⟨ch, b, h1, -, h3, -⟩ := addBalance_ok hok
    rw [h3]
    refine update_inv hi (ch.balance + a) h1 b s.sessions _ ?_
    intro c'
    by_cases hcc : c' = c
    · subst hcc
      simp only [FMap.get_insert_self, Option.getD_some, if_true]; omega
    · rw [FMap.get_insert_ne _ _ hcc]; simp [hcc]
  | claim srv c ses a sig =>
    simp only [body] at hok ⊢
    obtain ⟨ch, h1, ⟨-, h2⟩ | ⟨-, -, -, hle, b, -, h3, -⟩⟩ := claimPayment_ok hok
    · rw [h2] at hok ⊢; exact refund_inv hi h1 hok
    · rw [h3]
      have hinc : ch.balance ≤ (s.totals.get c).getD 0 := by
        rw [hi.total c]
        have := FMap.at?_le_sum s.chans (c, srv) (fun k ch => if k.1 = c then ch.balance else 0)
        rw [FMap.at?_some h1] at this
        simpa [escrow] using this
      refine update_inv hi (ch.balance - a) h1 b _ (lowerTotal s c a).totals ?_
      intro c'
      rw [lowerTotal_get]
      by_cases hcc : c' = c
      · subst hcc; simp only [if_true]; omega
      · simp only [hcc, if_false]
  | external n e b =>
    exact ⟨hi.client, hi.server, hi.nonce, hi.ends, hi.total⟩

theorem step_inv {cfg : Config} {s : State} (hi : Inv s) (op : Op) : Inv (step cfg s op).1 := by
  unfold step
  cases h : (body cfg s op).err with
  | none => exact body_inv hi h
  | some e => exact hi

theorem run_inv {cfg : Config} (ops : List Op) {s : State} (hi : Inv s) :
    Inv (run cfg s ops).1 := by
  induction ops generalizing s with
  | nil => exact hi
  | cons op ops ih => exact ih (step_inv hi op)

/-! ### Money -/

theorem depositInto_effect {cfg : Config} {b b' : Bank} {a : AccId} {v : Balance} (h : b.Inv)
    (hd : depositIntoAccount cfg b a v = .ok b') :
    b'.Inv ∧ b'.sumAll ≤ b.sumAll + v ∧
      (∀ x, b.accts.contains x = true → b'.accts.contains x = true) ∧
      (b.accts.contains a = true → b.accts.contains cfg.treasury = true →
        b'.sumAll = b.sumAll + v) := by
  unfold depositIntoAccount at hd
  have h1 := Bank.depositCreating_inv h a v
  cases hw : (b.depositCreating a v).withdraw a (feeOf cfg v) true with
  | error e => simp [hw] at hd
  | ok b1 =>
    simp only [hw, Except.ok.injEq] at hd
    subst hd
    have h2 := Bank.withdraw_inv h1 hw
    obtain ⟨e1, e2, -, -, -, e3, -⟩ := Bank.withdraw_keep h1 hw
    have l1 := Bank.depositCreating_le h a v
    have l2 := Bank.depositCreating_le h2 cfg.treasury (feeOf cfg v)
    refine ⟨Bank.depositCreating_inv h2 _ _, by omega, ?_, ?_⟩
    · intro x hx
      refine Bank.depositCreating_mono h2 _ _ ?_
      rw [e3]
      exact Bank.depositCreating_mono h _ _ hx
    · intro ha ht
      have m1 := (Bank.depositCreating_credit (v := v) h (Or.inl ha)).1
      have ht' : b1.accts.contains cfg.treasury = true := by
        rw [e3]; exact Bank.depositCreating_mono h _ _ ht
      have m2 := (Bank.depositCreating_credit (v := feeOf cfg v) h2 (Or.inl ht')).1
      omega

theorem depositInto_exact {cfg : Config} {b b' : Bank} {a : AccId} {v : Balance} (h : b.Inv)
    (hd : depositIntoAccount cfg b a v = .ok b') (hne : a ≠ cfg.treasury)
    (ha : b.accts.contains a = true) (ht : b.accts.contains cfg.treasury = true) :
    b'.free a + feeOf cfg v = b.free a + v ∧
      b'.free cfg.treasury = b.free cfg.treasury + feeOf cfg v := by
  unfold depositIntoAccount at hd
  have h1 := Bank.depositCreating_inv h a v
  cases hw : (b.depositCreating a v).withdraw a (feeOf cfg v) true with
  | error e => simp [hw] at hd
  | ok b1 =>
    simp only [hw, Except.ok.injEq] at hd
    subst hd
    have h2 := Bank.withdraw_inv h1 hw
    obtain ⟨-, e2, e4, -, e5, e3, -⟩ := Bank.withdraw_keep h1 hw
    obtain ⟨-, c2, -, -⟩ := Bank.depositCreating_credit (v := v) h (Or.inl ha)
    have ht' : b1.accts.contains cfg.treasury = true := by
      rw [e3]; exact Bank.depositCreating_mono h _ _ ht
    obtain ⟨-, d2, -, -⟩ := Bank.depositCreating_credit (v := feeOf cfg v) h2 (Or.inl ht')
    have n1 := (Bank.depositCreating_ne (b := b1) (feeOf cfg v) hne).1
    have n2 := (Bank.depositCreating_ne (b := b) v (Ne.symm hne)).1
    have n3 := e5 _ (Ne.symm hne)
    constructor
    · have : (b1.depositCreating cfg.treasury (feeOf cfg v)).free a = b1.free a := by
        simp only [Bank.free, n1]
      rw [this, e4]; omega
    · rw [d2]
      have : b1.free cfg.treasury = b.free cfg.treasury := by
        simp only [Bank.free, n3, n2]
      omega

theorem feeOf_le (cfg : Config) (h : cfg.burnPercent ≤ 100) (v : Balance) : feeOf cfg v ≤ v :=
  divNearestDown_le v _ 100 (by omega) h

theorem depositInto_succeeds {cfg : Config} {b : Bank} {a : AccId} {v : Balance} (h : b.Inv)
    (hp : cfg.burnPercent ≤ 100) (ha : b.accts.contains a = true) (hed : b.ed ≤ b.free a)
    (hfr : b.frozen a ≤ b.free a) : ∃ b', depositIntoAccount cfg b a v = .ok b' := by
  have hfee := feeOf_le cfg hp v
  obtain ⟨-, c2, -, -⟩ := Bank.depositCreating_credit (v := v) h (Or.inl ha)
  unfold depositIntoAccount
  have : ∃ b1, (b.depositCreating a v).withdraw a (feeOf cfg v) true = .ok b1 := by
    unfold Bank.withdraw
    split
    · exact ⟨_, rfl⟩
    rw [c2, Bank.depositCreating_ed, Bank.depositCreating_frozen]
    rw [if_neg (by omega), if_neg (by omega), if_neg (by omega), if_neg (by omega)]
    exact ⟨_, rfl⟩
  obtain ⟨b1, hb1⟩ := this
  rw [hb1]
  exact ⟨_, rfl⟩

theorem refund_wealth {cfg : Config} {s : State} (hb : s.bank.Inv) {c srv : AccId} {ch : Chan}
    (hc : s.chans.get (c, srv) = some ch) (h : (refundAndClose cfg s c srv ch).err = none) :
    (refundAndClose cfg s c srv ch).state.bank.Inv ∧
    wealth (refundAndClose cfg s c srv ch).state ≤ wealth s ∧
    (∀ x, s.bank.accts.contains x = true →
      (refundAndClose cfg s c srv ch).state.bank.accts.contains x = true) ∧
    (s.bank.accts.contains c = true → s.bank.accts.contains cfg.treasury = true →
      wealth (refundAndClose cfg s c srv ch).state = wealth s) := by
  obtain ⟨b, hd, hst, -⟩ := refundAndClose_ok h
  obtain ⟨e1, e2, e3, e4⟩ := depositInto_effect hb hd
  have hs := FMap.sum_erase s.chans (c, srv) (fun _ ch => ch.balance)
  rw [FMap.at?_some hc] at hs
  rw [hst]
  refine ⟨e1, ?_, e3, ?_⟩
  · simp only [wealth, escrowAll, closeRaw, lowerTotal]; omega
  · intro h1 h2
    have := e4 h1 h2
    simp only [wealth, escrowAll, closeRaw, lowerTotal]; omega

theorem body_wealth {cfg : Config} {s : State} (hb : s.bank.Inv) {op : Op}
    (hext : ∀ n e b, op ≠ .external n e b) (hok : (body cfg s op).err = none) :
    (body cfg s op).state.bank.Inv ∧ wealth (body cfg s op).state ≤ wealth s ∧
    (s.bank.accts.contains cfg.treasury = true →
      (∀ c srv ch, s.chans.get (c, srv) = some ch →
        s.bank.accts.contains c = true ∧ s.bank.accts.contains srv = true) →
      wealth (body cfg s op).state = wealth s) := by
  cases op with
  | openChannel c srv l d =>
    simp only [body] at hok ⊢
    obtain ⟨b, h1, h2, hw, h3, -⟩ := openChannel_ok hok
    rw [h3]
    obtain ⟨e1, -⟩ := Bank.withdraw_keep hb hw
    have hs := FMap.sum_insert s.chans (c, srv)
      ⟨c, srv, l, nonceOf s c srv, s.block, s.block + d / cfg.secsPerBlock⟩ (fun _ ch => ch.balance)
    rw [FMap.at?_none h1] at hs
    have : wealth (raiseTotal { s with
        bank := b
        chans := s.chans.insert (c, srv)
          ⟨c, srv, l, nonceOf s c srv, s.block, s.block + d / cfg.secsPerBlock⟩ } c l) = wealth s := by
      simp only [wealth, escrowAll, raiseTotal] at hs ⊢; omega
    exact ⟨Bank.withdraw_inv hb hw, by omega, fun _ _ => this⟩
  | closeChannel sg a =>
    simp only [body] at hok ⊢
    rcases closeChannel_ok hok with ⟨ch, h1, h2⟩ | ⟨ch, h1, -, h2⟩
    · rw [h2] at hok ⊢
      obtain ⟨e1, e2, -, e4⟩ := refund_wealth hb h1 hok
      exact ⟨e1, e2, fun ht hp => e4 (hp _ _ _ h1).1 ht⟩
    · rw [h2] at hok ⊢
      obtain ⟨e1, e2, -, e4⟩ := refund_wealth hb h1 hok
      exact ⟨e1, e2, fun ht hp => e4 (hp _ _ _ h1).1 ht⟩
  | closeExpired c o =>
    simp only [body] at hok ⊢
    have heq := closeExpired_ok hok
    rw [heq] at hok ⊢
    have hp := closeExpiredLoop_ind cfg c
      (fun s' => s'.bank.Inv ∧ wealth s' ≤ wealth s ∧
        (∀ x, s.bank.accts.contains x = true → s'.bank.accts.contains x = true) ∧
        (∀ srv ch, s'.chans.get (c, srv) = some ch → s.chans.get (c, srv) = some ch) ∧
        (s.bank.accts.contains cfg.treasury = true →
          (∀ c srv ch, s.chans.get (c, srv) = some ch →
            s.bank.accts.contains c = true ∧ s.bank.accts.contains srv = true) →
          wealth s' = wealth s)) ?_ o s
      ⟨hb, Nat.le_refl _, fun _ h => h, fun _ _ h => h, fun _ _ => rfl⟩ hok
    · exact ⟨hp.1, hp.2.1, hp.2.2.2.2⟩
    · rintro s' srv ch ⟨p1, p2, p3, p4, p5⟩ hc _ hr
      obtain ⟨e1, e2, e3, e4⟩ := refund_wealth p1 hc hr
      refine ⟨e1, by omega, fun x hx => e3 x (p3 x hx), ?_, ?_⟩
      · intro srv' ch' h'
        obtain ⟨b, -, hst, -⟩ := refundAndClose_ok hr
        rw [hst] at h'
        simp only [closeRaw, lowerTotal, FMap.get_erase] at h'
        split at h'
        · simp at h'
        · exact p4 _ _ h'
      · intro ht hp
        have hcc := (hp _ _ _ (p4 _ _ hc)).1
        rw [e4 (p3 _ hcc) (p3 _ ht), p5 ht hp]
  | addBalance c srv a =>
    simp only [body] at hok ⊢
    obtain ⟨ch, b, h1, hw, h3, -⟩ := addBalance_ok hok
    rw [h3]
    obtain ⟨e1, -⟩ := Bank.withdraw_keep hb hw
    have hs := FMap.sum_insert s.chans (c, srv) { ch with balance := ch.balance + a }
      (fun _ ch => ch.balance)
    rw [FMap.at?_some h1] at hs
    have : wealth (raiseTotal { s with
        bank := b
        chans := s.chans.insert (c, srv) { ch with balance := ch.balance + a } } c a)
          = wealth s := by
      simp only [wealth, escrowAll, raiseTotal] at hs ⊢; omega
    exact ⟨Bank.withdraw_inv hb hw, by omega, fun _ _ => this⟩
  | claim srv c ses a sig =>
    simp only [body] at hok ⊢
    obtain ⟨ch, h1, ⟨-, h2⟩ | ⟨-, -, -, hle, b, hd, h3, -⟩⟩ := claimPayment_ok hok
    · rw [h2] at hok ⊢
      obtain ⟨e1, e2, -, e4⟩ := refund_wealth hb h1 hok
      exact ⟨e1, e2, fun ht hp => e4 (hp _ _ _ h1).1 ht⟩
    · rw [h3]
      obtain ⟨e1, e2, -, e4⟩ := depositInto_effect hb hd
      have hs := FMap.sum_insert s.chans (c, srv) { ch with balance := ch.balance - a }
        (fun _ ch => ch.balance)
      rw [FMap.at?_some h1] at hs
      refine ⟨e1, ?_, ?_⟩
      · simp only [wealth, escrowAll, lowerTotal] at hs ⊢; omega
      · intro ht hp
        have := e4 (hp _ _ _ h1).2 ht
        simp only [wealth, escrowAll, lowerTotal] at hs ⊢; omega
  | external n e b => exact absurd rfl (hext n e b)

/-! ### Payments and replay -/

theorem paidSessions_append (e1 e2 : List Event) (c srv : AccId) (n : Nat) :
    paidSessions (e1 ++ e2) c srv n = paidSessions e1 c srv n ++ paidSessions e2 c srv n := by
  simp [paidSessions]

/-- History invariant. -/
structure Hist (s : State) (evs : List Event) : Prop where
  future : ∀ c srv n, nonceOf s c srv < n → paidSessions evs c srv n = []
  chain : ∀ c srv n, (paidSessions evs c srv n).IsChain (fun x y => y = x + 1)
  last : ∀ c srv, (paidSessions evs c srv (nonceOf s c srv)).getLast? = s.sessions.get (c, srv)

/-- No payment event among the given events. -/
def NoPay (evs : List Event) : Prop := ∀ c srv n, paidSessions evs c srv n = []

theorem Hist.congr {s s' : State} {evs e : List Event} (h : Hist s evs) (hn : s'.nonces = s.nonces)
    (hs : s'.sessions = s.sessions) (he : NoPay e) : Hist s' (evs ++ e) := by
  have hno : ∀ c srv, nonceOf s' c srv = nonceOf s c srv := by intro c srv; simp [nonceOf, hn]
  have hp : ∀ c srv n, paidSessions (evs ++ e) c srv n = paidSessions evs c srv n := by
    intro c srv n; rw [paidSessions_append, he]; simp
  constructor
  · intro c srv n hlt; rw [hp]; exact h.future _ _ _ (by rw [← hno]; exact hlt)
  · intro c srv n; rw [hp]; exact h.chain _ _ _
  · intro c srv; rw [hp, hno, hs]; exact h.last _ _

theorem Hist.close {s : State} {evs : List Event} (h : Hist s evs) (c srv : AccId) (s' : State)
    (hn : s'.nonces = s.nonces.insert (c, srv) (nonceOf s c srv + 1))
    (hs : s'.sessions = s.sessions.erase (c, srv)) : Hist s' evs := by
  have hno : ∀ c' srv', nonceOf s' c' srv' = if (c', srv') = (c, srv) then nonceOf s c srv + 1
      else nonceOf s c' srv' := by
    intro c' srv'
    simp only [nonceOf, hn, FMap.get_insert]
    by_cases hk : (c', srv') = (c, srv) <;> simp [hk]
  constructor
  · intro c' srv' n hlt
    apply h.future
    rw [hno] at hlt
    by_cases hk : (c', srv') = (c, srv)
    · simp only [hk, if_true] at hlt; cases hk; omega
    · simpa [hk] using hlt
  · exact h.chain
  · intro c' srv'
    rw [hno, hs, FMap.get_erase]
    by_cases hk : (c', srv') = (c, srv)
    · simp only [hk, if_true]
      cases hk
      rw [h.future _ _ _ (Nat.lt_succ_self _)]; rfl
    · simp only [hk, if_false]; exact h.last _ _

theorem noPay_nil : NoPay [] := fun _ _ _ => rfl
theorem noPay_closed (c srv : AccId) : NoPay [.channelClosed c srv] := fun _ _ _ => rfl

theorem Hist.refund {cfg : Config} {s : State} {evs : List Event} (h : Hist s evs) {c srv : AccId}
    {ch : Chan} (hr : (refundAndClose cfg s c srv ch).err = none) :
    Hist (refundAndClose cfg s c srv ch).state evs := by
  obtain ⟨b, -, hst, -⟩ := refundAndClose_ok hr
  rw [hst]; exact h.close c srv _ rfl rfl

theorem loop_noPay (cfg : Config) (c : AccId) (o : List AccId) (s : State)
    (hok : (closeExpiredLoop cfg c o s).err = none) :
    NoPay (closeExpiredLoop cfg c o s).events := by
  induction o generalizing s with
  | nil => exact noPay_nil
  | cons srv rest ih =>
    unfold closeExpiredLoop at hok ⊢
    cases hc : s.chans.get (c, srv) with
    | none => simp only [hc] at hok ⊢; exact ih s hok
    | some ch =>
      simp only [hc] at hok ⊢
      by_cases he : ch.expiration < s.block
      · simp only [he, if_true] at hok ⊢
        cases hr : (refundAndClose cfg s c srv ch).err with
        | some e => rw [hr] at hok; simp at hok
        | none =>
          rw [hr] at hok
          simp only at hok ⊢
          obtain ⟨b, -, -, hev⟩ := refundAndClose_ok hr
          intro c' srv' n
          rw [paidSessions_append, ih _ hok, hev]; rfl
      · simp only [he, if_false] at hok ⊢; exact ih s hok

theorem body_hist {cfg : Config} {s : State} {evs : List Event} (hi : Inv s) (h : Hist s evs)
    {op : Op} (hok : (body cfg s op).err = none) :
    Hist (body cfg s op).state (evs ++ (body cfg s op).events) := by
  have refundCase : ∀ c srv ch, (refundAndClose cfg s c srv ch).err = none →
      Hist (refundAndClose cfg s c srv ch).state
        (evs ++ (refundAndClose cfg s c srv ch).events) := by
    intro c srv ch hr
    obtain ⟨b, -, -, hev⟩ := refundAndClose_ok hr
    rw [hev]
    exact (h.refund hr).congr rfl rfl (noPay_closed c srv)
  cases op with
  | openChannel c srv l d =>
    simp only [body] at hok ⊢
    obtain ⟨b, -, -, -, h3, h4⟩ := openChannel_ok hok
    rw [h3, h4]; exact h.congr rfl rfl (fun _ _ _ => rfl)
  | closeChannel sg a =>
    simp only [body] at hok ⊢
    rcases closeChannel_ok hok with ⟨ch, -, h2⟩ | ⟨ch, -, -, h2⟩
    · rw [h2] at hok ⊢; exact refundCase _ _ _ hok
    · rw [h2] at hok ⊢; exact refundCase _ _ _ hok
  | closeExpired c o =>
    simp only [body] at hok ⊢
    have heq := closeExpired_ok hok
    rw [heq] at hok ⊢
    have := closeExpiredLoop_ind cfg c (fun s' => Hist s' evs)
      (fun s' srv ch hP _ _ hr => hP.refund hr) o s h hok
    exact this.congr rfl rfl (loop_noPay cfg c o s hok)
  | addBalance c srv a =>
    simp only [body] at hok ⊢
    obtain ⟨ch, b, -, -, h3, h4⟩ := addBalance_ok hok
    rw [h3, h4]; exact h.congr rfl rfl (fun _ _ _ => rfl)
  | claim srv c ses a sig =>
    simp only [body] at hok ⊢
    obtain ⟨ch, h1, ⟨-, h2⟩ | ⟨-, hses, -, -, b, -, h3, h4⟩⟩ := claimPayment_ok hok
    · rw [h2] at hok ⊢; exact refundCase _ _ _ hok
    · rw [h3, h4]
      have hn := hi.nonce _ _ _ h1
      have hp : ∀ c' srv' n, paidSessions (evs ++ [.claimPayment c srv ch.nonce ses a]) c' srv' n
          = paidSessions evs c' srv' n
            ++ (if c = c' ∧ srv = srv' ∧ ch.nonce = n then [ses] else []) := by
        intro c' srv' n
        rw [paidSessions_append]
        congr 1
        by_cases hk : c = c' ∧ srv = srv' ∧ ch.nonce = n
        · simp [paidSessions, hk]
        · simp [paidSessions, hk]
      constructor
      · intro c' srv' n hlt
        rw [hp]
        have hlt' : nonceOf s c' srv' < n := hlt
        rw [h.future _ _ _ hlt', if_neg]
        · rfl
        · rintro ⟨rfl, rfl, rfl⟩; omega
      · intro c' srv' n
        rw [hp]
        by_cases hk : c = c' ∧ srv = srv' ∧ ch.nonce = n
        · rw [if_pos hk]
          obtain ⟨rfl, rfl, rfl⟩ := hk
          rw [List.isChain_append]
          refine ⟨h.chain _ _ _, by simp, ?_⟩
          intro x hx y hy
          simp only [List.head?_cons, Option.mem_def, Option.some.injEq] at hy
          subst hy
          rw [hn, h.last] at hx
          simp only [Option.mem_def] at hx
          simp only [sessionOk, hx] at hses
          simpa using hses
        · rw [if_neg hk]; simpa using h.chain _ _ _
      · intro c' srv'
        have hno : nonceOf ({ lowerTotal { s with
                  sessions := s.sessions.insert (c, srv) ses
                  chans := s.chans.insert (c, srv) { ch with balance := ch.balance - a } } c a with
                bank := b } : State) c' srv' = nonceOf s c' srv' := rfl
        rw [hno, hp]
        simp only [lowerTotal, FMap.get_insert]
        by_cases hk : c = c' ∧ srv = srv'
        · obtain ⟨rfl, rfl⟩ := hk
          simp [hn]
        · rw [if_neg (by rintro ⟨e1, e2, -⟩; exact hk ⟨e1, e2⟩)]
          rw [if_neg (by intro e; cases e; exact hk ⟨rfl, rfl⟩)]
          simpa using h.last c' srv'
  | external n e b => exact h.congr rfl rfl noPay_nil

theorem step_hist {cfg : Config} {s : State} {evs : List Event} (hi : Inv s) (h : Hist s evs)
    (op : Op) : Hist (step cfg s op).1 (evs ++ (step cfg s op).2) := by
  unfold step
  cases he : (body cfg s op).err with
  | none => exact body_hist hi h he
  | some e => simpa using h

theorem run_hist {cfg : Config} (ops : List Op) {s : State} {evs : List Event} (hi : Inv s)
    (h : Hist s evs) : Hist (run cfg s ops).1 (evs ++ (run cfg s ops).2) := by
  induction ops generalizing s evs with
  | nil => simpa [run] using h
  | cons op ops ih =>
    have := ih (step_inv (cfg := cfg) hi op) (step_hist (cfg := cfg) hi h op)
    simp only [run]
    rw [List.append_assoc] at this
    exact this

theorem genesis_hist (b : Bank) (n : Nat) (e : AccId → Nat) : Hist (genesis b n e) [] := by
  constructor
  · intros; rfl
  · intro c srv n; exact List.IsChain.nil
  · intro c srv; rfl

/-- In a chain of successors the i-th element is the first plus i. -/
theorem chain_getElem (l : List (BitVec 32)) (h : l.IsChain (fun x y => y = x + 1)) (i j : Nat)
    (hi : i < l.length) (hj : j < l.length) (hij : i ≤ j) :
    l[j] = l[i] + BitVec.ofNat 32 (j - i) := by
  induction j with
  | zero =>
    have : i = 0 := by omega
    subst this; simp
  | succ j ih =>
    by_cases he : i = j + 1
    · subst he; simp
    · have h1 := ih (by omega) (by omega)
      have h2 := List.isChain_iff_getElem.1 h j hj
      rw [h2, h1, BitVec.add_assoc]
      congr 1
      have : j + 1 - i = (j - i) + 1 := by omega
      rw [this, BitVec.ofNat_add]; rfl

end Verif.Micropayment
