import Verif.Bank

/-
Exact effect of transfers between two accounts.
-/

namespace Verif.Bank

/-- A successful keep-alive transfer between different accounts moves exactly `v` and changes nothing
else. -/
theorem transfer_exact {b b' : Bank} {src dst : AccId} {v : Balance}
    (h : b.transfer src dst v true = .ok b') (hne : src ≠ dst) :
    b'.free src + v = b.free src ∧ b'.free dst = b.free dst + v ∧
    b'.reserved src = b.reserved src ∧ b'.reserved dst = b.reserved dst ∧
    (∀ x, x ≠ src → x ≠ dst → b'.acct x = b.acct x) ∧ b'.issuance = b.issuance ∧ b'.ed = b.ed ∧
    b'.frozen = b.frozen := by
  unfold transfer at h
  split at h
  · rename_i h0
    cases h
    have : v = 0 := h0.resolve_right hne
    subst this
    simp
  split at h
  · cases h
  split at h
  · cases h
  split at h
  · cases h
  rename_i hk
  split at h
  · cases h
  split at h
  · cases h
  rename_i hm
  cases h
  simp only [true_and, Nat.not_lt] at hk
  have hn1 : ¬ (b.free src - v < b.ed ∧ b.reserved src = 0) := by omega
  have h1 := b.acct_put_self src ⟨b.free src - v, b.reserved src⟩
  rw [if_neg hn1] at h1
  generalize hb1 : b.put src ⟨b.free src - v, b.reserved src⟩ = b1 at h1
  have hd : b1.acct dst = b.acct dst := by rw [← hb1]; exact b.acct_put_ne _ (Ne.symm hne)
  have hed : b1.ed = b.ed := by rw [← hb1]; simp
  have hfr : b1.frozen = b.frozen := by rw [← hb1]; simp
  have his : b1.issuance = b.issuance := by
    rw [← hb1]; unfold put; rw [if_neg hn1]
  have hfd : b1.free dst = b.free dst := congrArg Acct.free hd
  have hrd : b1.reserved dst = b.reserved dst := congrArg Acct.reserved hd
  have hn2 : ¬ (b1.free dst + v < b1.ed ∧ b1.reserved dst = 0) := by rw [hed, hfd]; omega
  have h2 := b1.acct_put_self dst ⟨b1.free dst + v, b1.reserved dst⟩
  rw [if_neg hn2] at h2
  have h3 : (b1.put dst ⟨b1.free dst + v, b1.reserved dst⟩).acct src = b1.acct src :=
    b1.acct_put_ne _ hne
  refine ⟨?_, ?_, ?_, ?_, ?_, ?_, ?_, ?_⟩
  · have := congrArg Acct.free (h3.trans h1)
    simp only [free] at *
    omega
  · have := congrArg Acct.free h2
    simp only [free] at *
    omega
  · have := congrArg Acct.reserved (h3.trans h1); exact this
  · exact (congrArg Acct.reserved h2).trans hrd
  · intro x hx1 hx2
    rw [acct_put_ne _ _ hx2, ← hb1, acct_put_ne _ _ hx1]
  · unfold put; rw [if_neg hn2]; exact his
  · simp [hed]
  · simp [hfr]

/-- A successful transfer between different accounts credits exactly `v`; the sender loses `v`, and
also the rest if it is below the existential deposit and nothing is reserved. -/
theorem transfer_move {b b' : Bank} {src dst : AccId} {v : Balance} {k : Bool}
    (h : b.transfer src dst v k = .ok b') (hne : src ≠ dst) :
    v ≤ b.free src ∧ b'.free dst = b.free dst + v ∧ b'.reserved dst = b.reserved dst ∧
    b'.free src ≤ b.free src - v ∧
    (b.ed ≤ b.free src - v → b'.free src + v = b.free src) ∧
    (∀ x, x ≠ src → x ≠ dst → b'.acct x = b.acct x) := by
  unfold transfer at h
  split at h
  · rename_i h0
    cases h
    have : v = 0 := h0.resolve_right hne
    subst this
    simp
  split at h
  · cases h
  split at h
  · cases h
  split at h
  · cases h
  split at h
  · cases h
  split at h
  · cases h
  rename_i hm
  cases h
  have h1 := b.acct_put_self src ⟨b.free src - v, b.reserved src⟩
  generalize hb1 : b.put src ⟨b.free src - v, b.reserved src⟩ = b1 at h1
  have hd : b1.acct dst = b.acct dst := by rw [← hb1]; exact b.acct_put_ne _ (Ne.symm hne)
  have hed : b1.ed = b.ed := by rw [← hb1]; simp
  have hfd : b1.free dst = b.free dst := congrArg Acct.free hd
  have hrd : b1.reserved dst = b.reserved dst := congrArg Acct.reserved hd
  have hn2 : ¬ (b1.free dst + v < b1.ed ∧ b1.reserved dst = 0) := by rw [hed, hfd]; omega
  have h2 := b1.acct_put_self dst ⟨b1.free dst + v, b1.reserved dst⟩
  rw [if_neg hn2] at h2
  have h3 : (b1.put dst ⟨b1.free dst + v, b1.reserved dst⟩).acct src = b1.acct src :=
    b1.acct_put_ne _ hne
  refine ⟨by omega, ?_, ?_, ?_, ?_, ?_⟩
  · have := congrArg Acct.free h2
    simp only [free] at *
    omega
  · exact (congrArg Acct.reserved h2).trans hrd
  · show ((b1.put dst _).acct src).free ≤ _
    rw [h3, h1]
    split
    · exact Nat.zero_le _
    · exact Nat.le_refl _
  · intro he
    show ((b1.put dst _).acct src).free + v = _
    rw [h3, h1, if_neg (fun h => Nat.not_lt.2 he h.1)]
    show b.free src - v + v = _
    omega
  · intro x hx1 hx2
    rw [acct_put_ne _ _ hx2, ← hb1, acct_put_ne _ _ hx1]

theorem transfer_self {b b' : Bank} {a : AccId} {v : Balance} {k : Bool}
    (h : b.transfer a a v k = .ok b') : b' = b := by
  unfold transfer at h
  rw [if_pos (Or.inr rfl)] at h
  cases h; rfl

/-- What `deposit_creating` really adds. -/
def minted (b : Bank) (a : AccId) (v : Balance) : Balance :=
  if b.accts.contains a = true ∨ b.ed ≤ v then v else 0

theorem depositCreating_free {b : Bank} (h : b.Inv) (a : AccId) (v : Balance) :
    (b.depositCreating a v).free a = b.free a + b.minted a v := by
  unfold minted
  split
  · rename_i hc; exact (depositCreating_credit h hc).2.1
  · rename_i hc
    simp only [not_or, Bool.not_eq_true, Nat.not_le] at hc
    rw [depositCreating_noop hc.1 hc.2]; rfl

theorem depositCreating_reserved {b : Bank} (h : b.Inv) (a : AccId) (v : Balance) :
    (b.depositCreating a v).reserved a = b.reserved a := by
  by_cases hc : b.accts.contains a = true ∨ b.ed ≤ v
  · exact (depositCreating_credit h hc).2.2.1
  · simp only [not_or, Bool.not_eq_true, Nat.not_le] at hc
    rw [depositCreating_noop hc.1 hc.2]

/-- Exact effect of a reservation. -/
theorem reserve_exact {b b' : Bank} {a : AccId} {v : Balance} (h : b.reserve a v = .ok b') :
    b'.reserved a = b.reserved a + v ∧ b'.free a + v = b.free a ∧
    ∀ x, x ≠ a → b'.acct x = b.acct x := by
  unfold reserve at h
  split at h
  · cases h; simp_all
  rename_i hv
  split at h
  · cases h
  split at h
  · cases h
  split at h
  · cases h
  cases h
  have := b.acct_put_self a ⟨b.free a - v, b.reserved a + v⟩
  rw [if_neg (by simp only; omega)] at this
  refine ⟨?_, ?_, fun x hx => b.acct_put_ne _ hx⟩
  · exact congrArg Acct.reserved this
  · have := congrArg Acct.free this
    simp only [free] at *
    omega

/-- Exact effect on the reserved balance. -/
theorem unreserve_reserved {b : Bank} {a : AccId} {v : Balance} (h : v ≤ b.reserved a) :
    (b.unreserve a v).reserved a + v = b.reserved a ∧
    ∀ x, x ≠ a → (b.unreserve a v).acct x = b.acct x := by
  unfold unreserve
  split
  · rename_i h0
    simp only [total] at h0
    exact ⟨by omega, fun _ _ => rfl⟩
  · refine ⟨?_, fun x hx => b.acct_put_ne _ hx⟩
    have := congrArg Acct.reserved (b.acct_put_self a ⟨b.free a + min v (b.reserved a), b.reserved a - min v (b.reserved a)⟩)
    split at this
    · rename_i hd
      simp only [reserved] at *
      omega
    · simp only [reserved] at *
      omega

theorem unreserve_free {b : Bank} {a : AccId} {v : Balance} (h : v ≤ b.reserved a)
    (hed : b.ed ≤ b.free a + v) : (b.unreserve a v).free a = b.free a + v := by
  unfold unreserve
  split
  · rename_i h0
    simp only [total] at h0
    omega
  · have := congrArg Acct.free (b.acct_put_self a ⟨b.free a + min v (b.reserved a), b.reserved a - min v (b.reserved a)⟩)
    have hm : min v (b.reserved a) = v := by omega
    rw [hm] at this ⊢
    rw [if_neg (by simp only; omega)] at this
    exact this

theorem reserved_of_acct {b b' : Bank} {a : AccId} (h : b'.acct a = b.acct a) :
    b'.reserved a = b.reserved a := congrArg Acct.reserved h

/-- Taking reserved money takes exactly `v`. -/
theorem slashReserved_exact {b : Bank} {a : AccId} {v : Balance} (h : v ≤ b.reserved a) :
    (b.slashReserved a v).1.reserved a + v = b.reserved a ∧
    (b.ed ≤ b.free a → (b.slashReserved a v).1.free a = b.free a) ∧
    (b.slashReserved a v).1.free a ≤ b.free a ∧
    ∀ x, x ≠ a → (b.slashReserved a v).1.acct x = b.acct x := by
  unfold slashReserved
  split
  · rename_i h0
    simp only [total] at h0
    exact ⟨by simp only; omega, fun _ => rfl, Nat.le_refl _, fun _ _ => rfl⟩
  · have hm : min v (b.reserved a) = v := by omega
    simp only [hm]
    have h1 := ({ b with issuance := b.issuance - v } : Bank).acct_put_self a ⟨b.free a, b.reserved a - v⟩
    simp only at h1
    refine ⟨?_, ?_, ?_, fun x hx => acct_put_ne _ _ hx⟩
    · show ((Bank.put _ a _).acct a).reserved + v = _
      rw [h1]
      split
      · rename_i hd; show 0 + v = _; omega
      · show b.reserved a - v + v = _; omega
    · intro he
      show ((Bank.put _ a _).acct a).free = _
      rw [h1, if_neg (by omega)]
    · show ((Bank.put _ a _).acct a).free ≤ _
      rw [h1]
      split
      · exact Nat.zero_le _
      · exact Nat.le_refl _

end Verif.Bank
