import Verif.MicropaymentLaw

/-
What `close_expired_channels` pays back (property C56). No new definitions of the code.
-/

namespace Verif.Micropayment

/-- What the expired channels of a client hold. -/
def expiredSum (s : State) (c : AccId) : Balance :=
  s.chans.sum fun k ch => if k.1 = c ∧ ch.expiration < s.block then ch.balance else 0

/-- The fees on the expired channels of a client, each rounded on its own. -/
def expiredFees (cfg : Config) (s : State) (c : AccId) : Balance :=
  s.chans.sum fun k ch => if k.1 = c ∧ ch.expiration < s.block then divNearestDown (ch.balance * cfg.burnPercent) 100 else 0

theorem closeLoop_money (cfg : Config) (c : AccId) (hp : cfg.burnPercent ≤ 100) (hne : c ≠ cfg.treasury) :
    ∀ (order : List AccId) (s : State), s.bank.Inv → s.bank.accts.contains c = true →
      s.bank.accts.contains cfg.treasury = true →
      s.bank.ed ≤ s.bank.free c → s.bank.frozen c ≤ s.bank.free c →
      let s' := (closeExpiredLoop cfg c order s).state
      s'.bank.free c + expiredSum s' c + expiredFees cfg s c = s.bank.free c + expiredSum s c + expiredFees cfg s' c ∧
      s'.bank.free cfg.treasury + expiredFees cfg s' c = s.bank.free cfg.treasury + expiredFees cfg s c := by
  intro order
  induction order with
  | nil => intro s _ _ _ _ _; exact ⟨rfl, rfl⟩
  | cons srv rest ih =>
    intro s hb ha htr hed hfr
    unfold closeExpiredLoop
    cases hc : s.chans.get (c, srv) with
    | none => exact ih s hb ha htr hed hfr
    | some ch =>
      dsimp only
      by_cases he : ch.expiration < s.block
      · rw [if_pos he]
        obtain ⟨b, hd⟩ := depositInto_succeeds (cfg := cfg) (v := ch.balance) hb hp ha hed hfr
        obtain ⟨k1, k2, k3, k4, k5⟩ := depositInto_alive hb hp ha hd
        obtain ⟨-, -, k6, -⟩ := depositInto_effect hb hd
        obtain ⟨x1, x2⟩ := depositInto_exact hb hd hne ha htr
        have hok : (refundAndClose cfg s c srv ch).err = none := by
          have : (lowerTotal s c ch.balance).bank = s.bank := rfl
          simp [refundAndClose, this, hd]
        obtain ⟨b', hd', hst, -⟩ := refundAndClose_ok hok
        rw [hd] at hd'; cases hd'
        rw [hok, hst]
        dsimp only
        obtain ⟨i1, i2⟩ := ih (closeRaw { lowerTotal s c ch.balance with bank := b } c srv) k1 k2 (k6 _ htr)
          (by show b.ed ≤ b.free c; rw [k3]; omega) (by show b.frozen c ≤ b.free c; rw [k4]; omega)
        have e1 : expiredSum (closeRaw { lowerTotal s c ch.balance with bank := b } c srv) c + ch.balance = expiredSum s c := by
          have := FMap.sum_erase s.chans (c, srv) fun k ch => if k.1 = c ∧ ch.expiration < s.block then ch.balance else 0
          rw [FMap.at?_some hc, if_pos ⟨rfl, he⟩] at this
          exact this
        have e2 : expiredFees cfg (closeRaw { lowerTotal s c ch.balance with bank := b } c srv) c + feeOf cfg ch.balance = expiredFees cfg s c := by
          have := FMap.sum_erase s.chans (c, srv) fun k ch =>
            if k.1 = c ∧ ch.expiration < s.block then divNearestDown (ch.balance * cfg.burnPercent) 100 else 0
          rw [FMap.at?_some hc, if_pos ⟨rfl, he⟩] at this
          exact this
        have f1 : (closeRaw { lowerTotal s c ch.balance with bank := b } c srv).bank = b := rfl
        rw [f1] at i1 i2
        generalize hz : closeExpiredLoop cfg c rest (closeRaw { lowerTotal s c ch.balance with bank := b } c srv) = z at i1 i2 ⊢
        have key : z.state.bank.free c + expiredSum z.state c + expiredFees cfg s c = s.bank.free c + expiredSum s c + expiredFees cfg z.state c ∧
            z.state.bank.free cfg.treasury + expiredFees cfg z.state c = s.bank.free cfg.treasury + expiredFees cfg s c := by
          constructor <;> omega
        exact key
      · rw [if_neg he]
        exact ih s hb ha htr hed hfr

/-- **C56**, for all expired channels at once: `close_expired_channels`, in whatever order it goes through them, closes
every expired channel of the client, and what they held arrives on the client's account, less the fees, which arrive at
the treasury. The reverse channels do not matter. -/
theorem C56_all_expired (cfg : Config) (s : State) (c : AccId) (order : List AccId)
    (hord : order.Perm (serversOf s c)) (hb : s.bank.Inv) (hp : cfg.burnPercent ≤ 100)
    (ha : s.bank.accts.contains c = true) (hed : s.bank.ed ≤ s.bank.free c)
    (hfr : s.bank.frozen c ≤ s.bank.free c) (hne : c ≠ cfg.treasury) (ht : s.bank.accts.contains cfg.treasury = true) :
    let s' := (step cfg s (.closeExpired c order)).1
    (∀ srv ch, channel s' c srv = some ch → s.block ≤ ch.expiration ∧ channel s c srv = some ch) ∧
    s'.bank.free c + expiredFees cfg s c = s.bank.free c + expiredSum s c ∧
    s'.bank.free cfg.treasury = s.bank.free cfg.treasury + expiredFees cfg s c := by
  intro s'
  have hch := C94_close_expired cfg s c order hord hb hp ha hed hfr c
  obtain ⟨i1, -⟩ := closeLoop_all cfg c hp order s hb ha hed hfr
  obtain ⟨m1, m2⟩ := closeLoop_money cfg c hp hne order s hb ha ht hed hfr
  have hb' : body cfg s (.closeExpired c order) = closeExpiredLoop cfg c order s := by
    simp only [body, closeExpired]
    rw [if_pos (List.isPerm_iff.2 hord)]
  have hs : s' = (closeExpiredLoop cfg c order s).state := by
    show (step cfg s (.closeExpired c order)).1 = _
    unfold step
    rw [hb', i1]
  have hleft : ∀ srv ch, channel s' c srv = some ch → s.block ≤ ch.expiration ∧ channel s c srv = some ch := by
    intro srv ch h
    rw [show channel s' c srv = _ from hch srv] at h
    split at h
    · cases h
    · rename_i hn
      refine ⟨?_, h⟩
      refine Classical.byContradiction fun hlt => hn ⟨rfl, ch, h, by omega⟩
  have hblock : s'.block = s.block := by
    rw [hs]
    exact closeExpiredLoop_ind cfg c (fun t => t.block = s.block) (fun t srv ch h _ _ hr => (refund_maps hr).2.2.2.trans h) order s rfl i1
  rw [← hs] at m1 m2
  have z1 : expiredSum s' c = 0 := by
    apply FMap.sum_eq_zero
    rintro ⟨x, y⟩ ch hk
    split
    · rename_i h
      have hx : x = c := h.1
      subst hx
      have := (hleft y ch hk).1
      have := h.2
      omega
    · rfl
  have z2 : expiredFees cfg s' c = 0 := by
    apply FMap.sum_eq_zero
    rintro ⟨x, y⟩ ch hk
    split
    · rename_i h
      have hx : x = c := h.1
      subst hx
      have := (hleft y ch hk).1
      have := h.2
      omega
    · rfl
  rw [z1, z2] at m1
  rw [z2] at m2
  exact ⟨hleft, by omega, by omega⟩

/-- Client 1 has three channels, of which two have expired, and is the server of a reverse channel. -/
def exClose : State := (run exCfg (genesis exBank 0 (fun _ => 0))
  [.openChannel 1 2 300 5, .openChannel 1 3 205 5, .openChannel 2 1 30 5, .openChannel 1 4 100 1000, .external 50 (fun _ => 0) exBank]).1

/-- The hypotheses of `C56_all_expired` are met; 505 come back less 30 + 20 of fees. -/
example := C56_all_expired exCfg exClose 1 [2, 3, 4] (by decide +kernel) exBank_inv (by decide) (by decide) (by decide) (by decide) (by decide) (by decide)

example : expiredSum exClose 1 = 505 ∧ expiredFees exCfg exClose 1 = 50 ∧ escrow exClose 1 = 605 ∧
    (step exCfg exClose (.closeExpired 1 [2, 3, 4])).1.bank.free 1 = 1455 ∧
    (step exCfg exClose (.closeExpired 1 [3, 4, 2])).1.bank.free 1 = 1455 ∧
    escrow (step exCfg exClose (.closeExpired 1 [2, 3, 4])).1 1 = 100 := by decide +kernel

end Verif.Micropayment
