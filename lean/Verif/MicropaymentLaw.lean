import Verif.MicropaymentProperties
import Verif.BankExact

/-
C94: exactly when each call of the micropayment pallet succeeds, and what it does to channels,
session counters, nonces and balances.
-/

namespace Verif.Micropayment

/-! ### Specification -/

/-- `v` can be taken from the account and leave it alive: the locks stay covered, and an account
that has the existential deposit keeps it. -/
def spendable (b : Bank) (a : AccId) (v : Balance) : Prop :=
  v = 0 ∨ (v + b.frozen a ≤ b.free a ∧ (b.free a < b.ed ∨ v + b.ed ≤ b.free a))

/-- After crediting `v` to the account the fee can be taken from it. -/
def payable (cfg : Config) (b : Bank) (a : AccId) (v : Balance) : Prop :=
  let f := b.free a + b.minted a v
  let fee := divNearestDown (v * cfg.burnPercent) 100
  fee = 0 ∨ (fee + b.frozen a ≤ f ∧ (f < b.ed ∨ fee + b.ed ≤ f))

/-- The channel a `close_channel` of `sg` naming `a` is about: the one in which `sg` is the server,
otherwise the one in which `sg` is the client. -/
def closing (s : State) (sg a : AccId) : AccId × AccId :=
  match channel s a sg with
  | none => (sg, a)
  | some _ => (a, sg)

/-- When a call succeeds. -/
def allowed (cfg : Config) (s : State) : Op → Prop
  | .openChannel c srv l _ => channel s c srv = none ∧ c ≠ srv ∧ spendable s.bank c l
  | .closeChannel sg a =>
    (∃ ch, channel s a sg = some ch ∧ payable cfg s.bank a ch.balance) ∨
    (channel s a sg = none ∧ ∃ ch, channel s sg a = some ch ∧
      (ch.expiration < s.block ∨ 1 ≤ s.erasOffline a) ∧ payable cfg s.bank sg ch.balance)
  | .addBalance c srv a => channel s c srv ≠ none ∧ spendable s.bank c a
  | .claim srv c ses a sig => ∃ ch, channel s c srv = some ch ∧
    ((ch.expiration < s.block ∧ payable cfg s.bank c ch.balance) ∨
     (s.block ≤ ch.expiration ∧ (∀ last, s.sessions.get (c, srv) = some last → ses = last + 1) ∧
      cfg.sigVerify (presented sig) (cfg.hash (voucher srv ch.nonce ses a)) (toBE 32 c) = true ∧
      a ≤ ch.balance ∧ payable cfg s.bank srv a))
  | .closeExpired _ _ => True
  | .external _ _ _ => True

/-- Calls about one channel. -/
def single : Op → Prop
  | .closeExpired _ _ => False
  | .external _ _ _ => False
  | _ => True

/-- The channel a call is about. -/
def target (s : State) : Op → AccId × AccId
  | .openChannel c srv _ _ => (c, srv)
  | .closeChannel sg a => closing s sg a
  | .addBalance c srv _ => (c, srv)
  | .claim srv c _ _ _ => (c, srv)
  | .closeExpired c _ => (c, c)
  | .external _ _ _ => (0, 0)

/-- That channel after the call, given the channel before it. -/
def chanAfter (cfg : Config) (s : State) (old : Option Chan) : Op → Option Chan
  | .openChannel c srv l d =>
    some ⟨c, srv, l, (s.nonces.get (c, srv)).getD 0, s.block, s.block + d / cfg.secsPerBlock⟩
  | .addBalance _ _ a => old.map (fun ch => { ch with balance := ch.balance + a })
  | .claim _ _ _ a _ => old.bind (fun ch =>
      if ch.expiration < s.block then none else some { ch with balance := ch.balance - a })
  | _ => none

/-- The event of the call. -/
def eventOf (s : State) : Op → List Event
  | .openChannel c srv l _ => [.channelOpened c srv l ((s.nonces.get (c, srv)).getD 0)]
  | .closeChannel sg a => [.channelClosed (closing s sg a).1 (closing s sg a).2]
  | .addBalance c srv a => [.balanceAdded c srv a]
  | .claim srv c ses a _ => match channel s c srv with
    | some ch => if ch.expiration < s.block then [.channelClosed c srv]
      else [.claimPayment c srv ch.nonce ses a]
    | none => []
  | _ => []

/-! ### Proofs -/

theorem withdraw_iff (b : Bank) (a : AccId) (v : Balance) :
    (∃ b', b.withdraw a v true = .ok b') ↔ spendable b a v := by
  unfold Bank.withdraw spendable
  by_cases h0 : v = 0
  · simp [h0]
  rw [if_neg h0]
  by_cases h1 : b.free a < v
  · rw [if_pos h1]
    constructor
    · rintro ⟨_, h⟩; cases h
    · rintro (h | ⟨h, -⟩) <;> omega
  rw [if_neg h1]
  by_cases h2 : b.free a - v < b.ed ∧ b.ed ≤ b.free a
  · rw [if_pos ⟨rfl, h2⟩]
    constructor
    · rintro ⟨_, h⟩; cases h
    · rintro (h | ⟨h, h'⟩) <;> omega
  rw [if_neg (fun h => h2 h.2)]
  by_cases h3 : b.free a - v < b.frozen a
  · rw [if_pos h3]
    constructor
    · rintro ⟨_, h⟩; cases h
    · rintro (h | ⟨h, -⟩) <;> omega
  rw [if_neg h3, if_neg (fun h => h2 ⟨h.1, h.2.1⟩)]
  exact ⟨fun _ => Or.inr (by omega), fun _ => ⟨_, rfl⟩⟩

theorem deposit_iff (cfg : Config) {b : Bank} (hb : b.Inv) (a : AccId) (v : Balance) :
    (∃ b', depositIntoAccount cfg b a v = .ok b') ↔ payable cfg b a v := by
  have h := withdraw_iff (b.depositCreating a v) a (feeOf cfg v)
  unfold spendable at h
  rw [Bank.depositCreating_free hb, Bank.depositCreating_ed, Bank.depositCreating_frozen] at h
  unfold feeOf at h
  unfold payable
  simp only
  rw [← h]
  unfold depositIntoAccount feeOf
  cases (b.depositCreating a v).withdraw a (divNearestDown (v * cfg.burnPercent) 100) true with
  | ok b' => simp
  | error e => simp

theorem refund_iff (cfg : Config) {s : State} (hb : s.bank.Inv) (c srv : AccId) (ch : Chan) :
    (refundAndClose cfg s c srv ch).err = none ↔ payable cfg s.bank c ch.balance := by
  rw [← deposit_iff cfg hb]
  unfold refundAndClose
  have : (lowerTotal s c ch.balance).bank = s.bank := rfl
  simp only [this]
  cases depositIntoAccount cfg s.bank c ch.balance with
  | ok b' => simp
  | error e => simp [Res.fail]

theorem body_iff (cfg : Config) {s : State} (hi : Inv s) (hb : s.bank.Inv) (op : Op)
    (hop : single op) : (body cfg s op).err = none ↔ allowed cfg s op := by
  cases op with
  | openChannel c srv l d =>
    simp only [body, allowed, channel]
    rw [← withdraw_iff]
    constructor
    · intro h
      obtain ⟨b, h1, h2, h3, -⟩ := openChannel_ok h
      exact ⟨h1, h2, b, h3⟩
    · rintro ⟨h1, h2, b, h3⟩
      have : s.chans.contains (c, srv) = false := by simp [FMap.contains, h1]
      simp [openChannel, this, h2, takeFromAccount, h3]
  | closeChannel sg a =>
    simp only [body, allowed, channel]
    cases h1 : s.chans.get (a, sg) with
    | some ch => simp [closeChannel, h1, refund_iff cfg hb]
    | none =>
      cases h2 : s.chans.get (sg, a) with
      | none => simp [closeChannel, h1, h2, Res.fail]
      | some ch =>
        have hsv := hi.server _ _ _ h2
        by_cases hx : ch.expiration < s.block ∨ s.erasOffline ch.server ≥ 1
        · have hx' : ch.expiration < s.block ∨ 1 ≤ s.erasOffline a := by rw [hsv] at hx; exact hx
          simp [closeChannel, h1, h2, hx, hx', refund_iff cfg hb]
        · have hx' : ¬ (ch.expiration < s.block ∨ 1 ≤ s.erasOffline a) := by rw [hsv] at hx; exact hx
          simp only [closeChannel, h1, h2, if_neg hx, Res.fail]
          constructor
          · intro h; cases h
          · rintro (⟨_, h, -⟩ | ⟨-, ch', h, h3, -⟩)
            · cases h
            · cases h; exact absurd h3 hx'
  | addBalance c srv a =>
    simp only [body, allowed, channel]
    rw [← withdraw_iff]
    constructor
    · intro h
      obtain ⟨ch, b, h1, h2, -⟩ := addBalance_ok h
      exact ⟨by simp [h1], b, h2⟩
    · rintro ⟨h1, b, h3⟩
      obtain ⟨ch, h1⟩ := Option.ne_none_iff_exists'.1 h1
      simp [addBalance, h1, takeFromAccount, h3]
  | claim srv c ses a sig =>
    simp only [body, allowed, channel]
    constructor
    · intro h
      obtain ⟨ch, h1, ⟨h2, h3⟩ | ⟨h2, h3, h4, h5, b, h6, -⟩⟩ := claimPayment_ok h
      · rw [h3, refund_iff cfg hb] at h
        exact ⟨ch, h1, Or.inl ⟨h2, h⟩⟩
      · refine ⟨ch, h1, Or.inr ⟨by omega, ?_, h4, h5, (deposit_iff cfg hb _ _).1 ⟨b, h6⟩⟩⟩
        intro last hl
        simp only [sessionOk, hl] at h3
        simpa using h3
    · rintro ⟨ch, h1, ⟨h2, h3⟩ | ⟨h2, h3, h4, h5, h6⟩⟩
      · simp only [claimPayment, h1, if_pos h2]
        exact (refund_iff cfg hb _ _ _).2 h3
      · obtain ⟨b, h6⟩ := (deposit_iff cfg hb _ _).2 h6
        have hs : sessionOk s c srv ses = true := by
          unfold sessionOk
          cases hl : s.sessions.get (c, srv) with
          | none => rfl
          | some x => simpa using h3 x hl
        have hv : verifySignature cfg c srv ch.nonce ses a sig = true := h4
        simp only [claimPayment, h1, if_neg (Nat.not_lt.2 h2), hs, hv, if_neg (Nat.not_lt.2 h5),
          not_true_eq_false, if_false]
        have hbank : ∀ x y, (lowerTotal { s with sessions := x, chans := y } c a).bank
              = s.bank := fun _ _ => rfl
        rw [hbank, h6]
  | closeExpired _ _ => exact absurd hop (by simp [single])
  | external _ _ _ => exact absurd hop (by simp [single])

/-- Shape of the storage after a removal. -/
theorem closeRaw_maps (s : State) (t : AccId → State → State) (c srv : AccId) (v : Balance) (b : Bank)
    (ht : t = fun c s => lowerTotal s c v) :
    let s' := closeRaw { t c s with bank := b } c srv
    (∀ x y, s'.chans.get (x, y) = if (x, y) = (c, srv) then none else s.chans.get (x, y)) ∧
    (∀ x y, s'.sessions.get (x, y) = if (x, y) = (c, srv) then none else s.sessions.get (x, y)) ∧
    (∀ x y, nonceOf s' x y = if (x, y) = (c, srv) then nonceOf s x y + 1 else nonceOf s x y) := by
  subst ht
  refine ⟨fun x y => ?_, fun x y => ?_, fun x y => ?_⟩
  · simp only [closeRaw, lowerTotal, FMap.get_erase]
  · simp only [closeRaw, lowerTotal, FMap.get_erase]
  · simp only [closeRaw, lowerTotal, nonceOf, FMap.get_insert]
    by_cases h : (x, y) = (c, srv)
    · obtain ⟨rfl, rfl⟩ := Prod.mk.inj h; simp
    · simp [h]

theorem refund_maps {cfg : Config} {s : State} {c srv : AccId} {ch : Chan}
    (h : (refundAndClose cfg s c srv ch).err = none) :
    let s' := (refundAndClose cfg s c srv ch).state
    (∀ x y, s'.chans.get (x, y) = if (x, y) = (c, srv) then none else s.chans.get (x, y)) ∧
    (∀ x y, s'.sessions.get (x, y) = if (x, y) = (c, srv) then none else s.sessions.get (x, y)) ∧
    (∀ x y, nonceOf s' x y = if (x, y) = (c, srv) then nonceOf s x y + 1 else nonceOf s x y) ∧
    s'.block = s.block := by
  obtain ⟨b, -, h2, -⟩ := refundAndClose_ok h
  rw [h2]
  obtain ⟨e1, e2, e3⟩ := closeRaw_maps s _ c srv ch.balance b rfl
  exact ⟨e1, e2, e3, rfl⟩

/-- **C94** (acceptance): in every reachable state a call succeeds exactly when `allowed`, with
exactly the event named, and has no effect otherwise. -/
theorem C94_accepted (cfg : Config) (s : State) (hr : Reachable cfg s) (hb : s.bank.Inv) (op : Op)
    (hop : single op) :
    (allowed cfg s op → (step cfg s op).2 = eventOf s op ∧ eventOf s op ≠ []) ∧
    (¬ allowed cfg s op → step cfg s op = (s, [])) := by
  have hi := reachable_inv hr
  have hiff := body_iff cfg hi hb op hop
  constructor
  · intro ha
    have he := hiff.2 ha
    unfold step
    rw [he]
    simp only
    cases op with
    | openChannel c srv l d =>
      obtain ⟨b, -, -, -, -, h⟩ := openChannel_ok (by simpa only [body] using he)
      simp only [body, h, eventOf, nonceOf, true_and]; simp
    | closeChannel sg a =>
      simp only [body] at he
      simp only [body, eventOf]
      unfold closing channel
      unfold closeChannel at he ⊢
      cases h1 : s.chans.get (a, sg) with
      | some ch =>
        simp only [h1] at he ⊢
        obtain ⟨b, -, -, h⟩ := refundAndClose_ok he
        rw [h]; simp
      | none =>
        simp only [h1] at he ⊢
        cases h2 : s.chans.get (sg, a) with
        | none => simp [h2, Res.fail] at he
        | some ch =>
          simp only [h2] at he ⊢
          split at he
          · rename_i hx
            rw [if_pos hx]
            obtain ⟨b, -, -, h⟩ := refundAndClose_ok he
            rw [h]; simp
          · simp [Res.fail] at he
    | addBalance c srv a =>
      obtain ⟨ch, b, -, -, -, h⟩ := addBalance_ok (by simpa only [body] using he)
      simp only [body, h, eventOf, true_and]; simp
    | claim srv c ses a sig =>
      simp only [body] at he
      obtain ⟨ch, h1, ⟨h2, h3⟩ | ⟨h2, h3, h4, h5, b, h6, h7, h8⟩⟩ := claimPayment_ok he
      · rw [h3] at he
        obtain ⟨b, -, -, h⟩ := refundAndClose_ok he
        simp only [body, h3, h, eventOf, channel, h1, if_pos h2, true_and]; simp
      · simp only [body, h8, eventOf, channel, h1, if_neg h2, true_and]; simp
    | closeExpired _ _ => exact absurd hop (by simp [single])
    | external _ _ _ => exact absurd hop (by simp [single])
  · intro ha
    unfold step
    cases he : (body cfg s op).err with
    | none => exact absurd (hiff.1 he) ha
    | some e => rfl

/-- **C94** (records): a successful call changes exactly its own channel, in the stated way; a
channel that is closed loses its session counter and its nonce grows by one, a paid claim records
its session, and nothing else about sessions and nonces changes. -/
theorem C94_channels (cfg : Config) (s : State) (hr : Reachable cfg s) (hb : s.bank.Inv) (op : Op)
    (hop : single op) (ha : allowed cfg s op) :
    let s' := (step cfg s op).1
    let k := target s op
    let new := chanAfter cfg s (channel s k.1 k.2) op
    (∀ x y, channel s' x y = if (x, y) = k then new else channel s x y) ∧
    (∀ x y, s'.sessions.get (x, y) = if (x, y) = k then
      (if new = none then none else match op with | .claim _ _ ses _ _ => some ses | _ => s.sessions.get k)
      else s.sessions.get (x, y)) ∧
    (∀ x y, nonceOf s' x y = if (x, y) = k ∧ new = none then nonceOf s x y + 1 else nonceOf s x y) ∧
    s'.block = s.block := by
  have hi := reachable_inv hr
  have he := (body_iff cfg hi hb op hop).2 ha
  unfold step
  rw [he]
  simp only
  have hclosed : ∀ (c srv : AccId) (ch : Chan) (r : Res), r = refundAndClose cfg s c srv ch → r.err = none →
      (∀ x y, channel r.state x y = if (x, y) = (c, srv) then none else channel s x y) ∧
      (∀ x y, r.state.sessions.get (x, y) = if (x, y) = (c, srv) then none else s.sessions.get (x, y)) ∧
      (∀ x y, nonceOf r.state x y = if (x, y) = (c, srv) then nonceOf s x y + 1 else nonceOf s x y) ∧
      r.state.block = s.block := by
    intro c srv ch r hr' hok
    subst hr'
    obtain ⟨e1, e2, e3, e4⟩ := refund_maps hok
    exact ⟨fun x y => e1 x y, e2, e3, e4⟩
  cases op with
  | openChannel c srv l d =>
    obtain ⟨b, -, -, -, h, -⟩ := openChannel_ok (by simpa only [body] using he)
    simp only [body, h, target, chanAfter, channel, raiseTotal, FMap.get_insert, nonceOf]
    refine ⟨by simp, fun x y => ?_, by simp, by simp⟩
    by_cases hk : (x, y) = (c, srv) <;> simp [hk]
  | closeChannel sg a =>
    simp only [body] at he
    cases h1 : s.chans.get (a, sg) with
    | some ch =>
      have hk : closing s sg a = (a, sg) := by simp [closing, channel, h1]
      simp only [target, hk, chanAfter, and_true, if_true]
      have hc : closeChannel cfg s sg a = refundAndClose cfg s a sg ch := by simp [closeChannel, h1]
      exact hclosed a sg ch _ hc he
    | none =>
      have hk : closing s sg a = (sg, a) := by simp [closing, channel, h1]
      simp only [target, hk, chanAfter, and_true, if_true]
      have hc : ∃ ch, closeChannel cfg s sg a = refundAndClose cfg s sg a ch := by
        rcases closeChannel_ok he with ⟨ch, h2, h3⟩ | ⟨ch, h2, -, h3⟩
        · rw [h1] at h2; cases h2
        · exact ⟨ch, h3⟩
      obtain ⟨ch, hc⟩ := hc
      exact hclosed sg a ch _ hc he
  | addBalance c srv a =>
    obtain ⟨ch, b, h1, -, h, -⟩ := addBalance_ok (by simpa only [body] using he)
    simp only [body, h, target, chanAfter, channel, raiseTotal, FMap.get_insert, nonceOf, h1, Option.map_some]
    refine ⟨by simp, fun x y => ?_, by simp, by simp⟩
    by_cases hk : (x, y) = (c, srv) <;> simp [hk]
  | claim srv c ses a sig =>
    simp only [body] at he
    obtain ⟨ch, h1, ⟨h2, h3⟩ | ⟨h2, h3, h4, h5, b, h6, h7, h8⟩⟩ := claimPayment_ok he
    · have := hclosed c srv ch _ h3 he
      simpa only [body, target, chanAfter, channel, h1, Option.bind_some, if_pos h2, and_true, if_true] using this
    · simp only [body, h7, target, chanAfter, channel, lowerTotal, FMap.get_insert, nonceOf, h1,
        Option.bind_some, if_neg h2]
      refine ⟨by simp, fun x y => ?_, by simp, by simp⟩
      by_cases hk : (x, y) = (c, srv) <;> simp [hk]
  | closeExpired _ _ => exact absurd hop (by simp [single])
  | external _ _ _ => exact absurd hop (by simp [single])

/-- **C94** (deposits): opening a channel or adding to it takes exactly the amount from the client
and touches no other account. -/
theorem C94_deposits (cfg : Config) (s : State) (hr : Reachable cfg s) (hb : s.bank.Inv)
    (op : Op) (c srv : AccId) (v : Balance)
    (hop : (∃ d, op = .openChannel c srv v d) ∨ op = .addBalance c srv v) (ha : allowed cfg s op) :
    let s' := (step cfg s op).1
    v ≤ s.bank.free c ∧ s'.bank.free c = s.bank.free c - v ∧ s'.bank.reserved c = s.bank.reserved c ∧
    (∀ x, x ≠ c → s'.bank.acct x = s.bank.acct x) := by
  have hi := reachable_inv hr
  have hsg : single op := by rcases hop with ⟨d, rfl⟩ | rfl <;> trivial
  have he := (body_iff cfg hi hb op hsg).2 ha
  unfold step
  rw [he]
  simp only
  rcases hop with ⟨d, rfl⟩ | rfl
  · obtain ⟨b, -, -, hw, h, -⟩ := openChannel_ok (by simpa only [body] using he)
    simp only [body, h, raiseTotal]
    obtain ⟨-, h1, h2, h3, h4, -⟩ := Bank.withdraw_keep hb hw
    exact ⟨h1, h2, h3, h4⟩
  · obtain ⟨ch, b, -, hw, h, -⟩ := addBalance_ok (by simpa only [body] using he)
    simp only [body, h, raiseTotal]
    obtain ⟨-, h1, h2, h3, h4, -⟩ := Bank.withdraw_keep hb hw
    exact ⟨h1, h2, h3, h4⟩

theorem depositInto_alive {cfg : Config} {b b' : Bank} {a : AccId} {v : Balance} (h : b.Inv)
    (hp : cfg.burnPercent ≤ 100) (ha : b.accts.contains a = true)
    (hd : depositIntoAccount cfg b a v = .ok b') :
    b'.Inv ∧ b'.accts.contains a = true ∧ b'.ed = b.ed ∧ b'.frozen = b.frozen ∧ b.free a ≤ b'.free a := by
  obtain ⟨e1, -, e3, -⟩ := depositInto_effect h hd
  refine ⟨e1, e3 _ ha, ?_⟩
  have hfee := feeOf_le cfg hp v
  unfold depositIntoAccount at hd
  cases hw : (b.depositCreating a v).withdraw a (feeOf cfg v) true with
  | error e => rw [hw] at hd; cases hd
  | ok b1 =>
    rw [hw] at hd
    cases hd
    have h1 := Bank.depositCreating_inv h a v
    obtain ⟨-, w2, w3, -, -, w6, w7, w8⟩ := Bank.withdraw_keep h1 hw
    have h2 := Bank.withdraw_inv h1 hw
    obtain ⟨-, c2, -, c4⟩ := Bank.depositCreating_credit (v := v) h (Or.inl ha)
    refine ⟨by simp [w7], by simp [w8], ?_⟩
    by_cases ht : a = cfg.treasury
    · rw [← ht, Bank.depositCreating_free h2]; omega
    · have := (Bank.depositCreating_ne (b := b1) (feeOf cfg v) ht).1
      simp only [Bank.free, this]
      simp only [Bank.free] at w3 c2 w2
      omega

theorem closeLoop_all (cfg : Config) (c : AccId) (hp : cfg.burnPercent ≤ 100) :
    ∀ (order : List AccId) (s : State), s.bank.Inv → s.bank.accts.contains c = true →
      s.bank.ed ≤ s.bank.free c → s.bank.frozen c ≤ s.bank.free c →
      (closeExpiredLoop cfg c order s).err = none ∧
      ∀ x y, channel (closeExpiredLoop cfg c order s).state x y =
        if x = c ∧ y ∈ order ∧ (∃ ch, channel s c y = some ch ∧ ch.expiration < s.block) then none
        else channel s x y := by
  intro order
  induction order with
  | nil => intro s _ _ _ _; simp [closeExpiredLoop]
  | cons srv rest ih =>
    intro s hb ha hed hfr
    unfold closeExpiredLoop
    cases hc : s.chans.get (c, srv) with
    | none =>
      simp only
      obtain ⟨i1, i2⟩ := ih s hb ha hed hfr
      refine ⟨i1, fun x y => ?_⟩
      rw [i2]
      by_cases hy : y = srv
      · subst hy
        simp [channel, hc]
      · simp [hy]
    | some ch =>
      simp only
      by_cases he : ch.expiration < s.block
      · rw [if_pos he]
        obtain ⟨b, hd⟩ := depositInto_succeeds (cfg := cfg) (v := ch.balance) hb hp ha hed hfr
        obtain ⟨k1, k2, k3, k4, k5⟩ := depositInto_alive hb hp ha hd
        have hok : (refundAndClose cfg s c srv ch).err = none := by
          have : (lowerTotal s c ch.balance).bank = s.bank := rfl
          simp [refundAndClose, this, hd]
        obtain ⟨b', hd', hst, -⟩ := refundAndClose_ok hok
        rw [hd] at hd'; cases hd'
        have hbank : (refundAndClose cfg s c srv ch).state.bank = b := by rw [hst]; rfl
        obtain ⟨m1, -, -, m4⟩ := refund_maps hok
        rw [hok]
        simp only
        obtain ⟨i1, i2⟩ := ih (refundAndClose cfg s c srv ch).state (by rw [hbank]; exact k1)
          (by rw [hbank]; exact k2) (by rw [hbank, k3]; omega) (by rw [hbank, k4]; omega)
        refine ⟨i1, fun x y => ?_⟩
        rw [i2]
        simp only [channel, m1, m4]
        by_cases hx : x = c
        · subst hx
          by_cases hy : y = srv
          · subst hy; simp [hc, he]
          · simp [hy]
        · simp [hx]
      · rw [if_neg he]
        obtain ⟨i1, i2⟩ := ih s hb ha hed hfr
        refine ⟨i1, fun x y => ?_⟩
        rw [i2]
        by_cases hy : y = srv
        · subst hy
          simp [channel, hc, he]
        · simp [hy]

/-- **C94** (closing expired channels): for a living account whose locks are covered by its free
balance, `close_expired_channels` succeeds in every iteration order and closes exactly the expired
channels of the caller. -/
theorem C94_close_expired (cfg : Config) (s : State) (c : AccId) (order : List AccId)
    (hord : order.Perm (serversOf s c)) (hb : s.bank.Inv) (hp : cfg.burnPercent ≤ 100)
    (ha : s.bank.accts.contains c = true) (hed : s.bank.ed ≤ s.bank.free c)
    (hfr : s.bank.frozen c ≤ s.bank.free c) (x y : AccId) :
    channel (step cfg s (.closeExpired c order)).1 x y =
      if x = c ∧ (∃ ch, channel s c y = some ch ∧ ch.expiration < s.block) then none
      else channel s x y := by
  obtain ⟨i1, i2⟩ := closeLoop_all cfg c hp order s hb ha hed hfr
  have hb' : body cfg s (.closeExpired c order) = closeExpiredLoop cfg c order s := by
    simp only [body, closeExpired]
    rw [if_pos (List.isPerm_iff.2 hord)]
  unfold step
  rw [hb', i1]
  simp only
  rw [i2]
  by_cases hx : x = c ∧ (∃ ch, channel s c y = some ch ∧ ch.expiration < s.block)
  · rw [if_pos hx, if_pos]
    obtain ⟨hx, ch, h1, h2⟩ := hx
    refine ⟨hx, hord.mem_iff.2 ?_, ch, h1, h2⟩
    unfold serversOf
    rw [List.mem_map]
    refine ⟨((c, y), ch), ?_, rfl⟩
    rw [List.mem_filter]
    exact ⟨(FMap.mem_entries_iff _ _ _).2 h1, by simp⟩
  · rw [if_neg hx, if_neg]
    exact fun h => hx ⟨h.1, h.2.2⟩

theorem deposit_others {cfg : Config} {b b' : Bank} {a x : AccId} {v : Balance} (h : b.Inv)
    (hd : depositIntoAccount cfg b a v = .ok b') (hx : x ≠ a) (ht : x ≠ cfg.treasury) :
    b'.acct x = b.acct x := by
  unfold depositIntoAccount at hd
  cases hw : (b.depositCreating a v).withdraw a (feeOf cfg v) true with
  | error e => rw [hw] at hd; cases hd
  | ok b1 =>
    rw [hw] at hd
    cases hd
    obtain ⟨-, -, -, -, w5, -⟩ := Bank.withdraw_keep (Bank.depositCreating_inv h a v) hw
    rw [(Bank.depositCreating_ne (b := b1) (feeOf cfg v) ht).1, w5 x hx, (Bank.depositCreating_ne v hx).1]

/-- **C94** (payments): a call that closes a channel pays its whole balance to its client and a paid
claim pays the amount to the server, each minus the fee, which goes to the treasury; all other
accounts keep their balances. -/
theorem C94_payments (cfg : Config) (s : State) (hr : Reachable cfg s) (hb : s.bank.Inv) (op : Op)
    (hop : (∃ sg a, op = .closeChannel sg a) ∨ ∃ srv c ses a sig, op = .claim srv c ses a sig)
    (hal : allowed cfg s op) :
    let s' := (step cfg s op).1
    let k := target s op
    ∃ ch, channel s k.1 k.2 = some ch ∧
      (∃ dest v, (dest, v) = (match op with
        | .claim _ _ _ a _ => if ch.expiration < s.block then (k.1, ch.balance) else (k.2, a)
        | _ => (k.1, ch.balance)) ∧
        (∀ x, x ≠ dest → x ≠ cfg.treasury → s'.bank.acct x = s.bank.acct x) ∧
        (dest ≠ cfg.treasury → s.bank.accts.contains dest = true → s.bank.accts.contains cfg.treasury = true →
          s'.bank.free dest + divNearestDown (v * cfg.burnPercent) 100 = s.bank.free dest + v ∧
          s'.bank.free cfg.treasury = s.bank.free cfg.treasury + divNearestDown (v * cfg.burnPercent) 100)) := by
  have hi := reachable_inv hr
  have hsg : single op := by rcases hop with ⟨_, _, rfl⟩ | ⟨_, _, _, _, _, rfl⟩ <;> trivial
  have he := (body_iff cfg hi hb op hsg).2 hal
  have fin : ∀ (dest : AccId) (v : Balance) (b : Bank), depositIntoAccount cfg s.bank dest v = .ok b →
      (∀ x, x ≠ dest → x ≠ cfg.treasury → b.acct x = s.bank.acct x) ∧
      (dest ≠ cfg.treasury → s.bank.accts.contains dest = true → s.bank.accts.contains cfg.treasury = true →
        b.free dest + divNearestDown (v * cfg.burnPercent) 100 = s.bank.free dest + v ∧
        b.free cfg.treasury = s.bank.free cfg.treasury + divNearestDown (v * cfg.burnPercent) 100) :=
    fun dest v b hd => ⟨fun x hx ht => deposit_others hb hd hx ht, fun h1 h2 h3 => depositInto_exact hb hd h1 h2 h3⟩
  unfold step
  rw [he]
  simp only
  rcases hop with ⟨sg, a, rfl⟩ | ⟨srv, c, ses, a, sig, rfl⟩
  · simp only [body] at he ⊢
    simp only [target]
    have key : ∃ c srv ch, closing s sg a = (c, srv) ∧ channel s c srv = some ch ∧
        closeChannel cfg s sg a = refundAndClose cfg s c srv ch := by
      cases h1 : s.chans.get (a, sg) with
      | some ch => exact ⟨a, sg, ch, by simp [closing, channel, h1], h1, by simp [closeChannel, h1]⟩
      | none =>
        rcases closeChannel_ok he with ⟨ch, h2, h3⟩ | ⟨ch, h2, -, h3⟩
        · rw [h1] at h2; cases h2
        · exact ⟨sg, a, ch, by simp [closing, channel, h1], h2, h3⟩
    obtain ⟨c, srv, ch, h1, h2, h3⟩ := key
    rw [h3] at he ⊢
    obtain ⟨b, hd, hst, -⟩ := refundAndClose_ok he
    rw [h1]
    refine ⟨ch, h2, c, ch.balance, rfl, ?_⟩
    have : (refundAndClose cfg s c srv ch).state.bank = b := by rw [hst]; rfl
    rw [this]
    exact fin _ _ _ hd
  · simp only [body] at he ⊢
    simp only [target]
    obtain ⟨ch, h1, ⟨h2, h3⟩ | ⟨h2, h3, h4, h5, b, h6, h7, h8⟩⟩ := claimPayment_ok he
    · rw [h3] at he ⊢
      obtain ⟨b, hd, hst, -⟩ := refundAndClose_ok he
      refine ⟨ch, h1, c, ch.balance, by simp [h2], ?_⟩
      have : (refundAndClose cfg s c srv ch).state.bank = b := by rw [hst]; rfl
      rw [this]
      exact fin _ _ _ hd
    · refine ⟨ch, h1, srv, a, by simp [h2], ?_⟩
      rw [h7]
      exact fin _ _ _ h6

/-- The example channel can be added to, claimed from and, after expiry, closed by its client. -/
example : let s := (run exCfg (genesis exBank 0 (fun _ => 0)) exOps).1
    (step exCfg s (.addBalance 1 2 5)).2 = [.balanceAdded 1 2 5] ∧
    (step exCfg s (.claim 2 1 8 40 [])).2 = [.claimPayment 1 2 0 8 40] ∧
    (step exCfg (step exCfg s (.external 21 (fun _ => 0) s.bank)).1 (.closeChannel 1 2)).2
      = [.channelClosed 1 2] ∧
    (step exCfg (step exCfg s (.external 21 (fun _ => 0) s.bank)).1 (.closeExpired 1 [2])).2
      = [.channelClosed 1 2] := by decide +kernel

end Verif.Micropayment
