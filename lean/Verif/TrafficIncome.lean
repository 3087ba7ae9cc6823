import Verif.CreditAccumulationProperties
import Verif.CreditHistory
import Verif.CreditProperties
import Mathlib.Tactic.FinCases

/-
Property C145: a device which reports its traffic once per era gains one point with every report, whatever others do. No new
definitions of the code.
-/

namespace Verif.CreditAccumulation

/-- The account itself has traffic counted. -/
def reports (a : AccId) : Op → Prop
  | .report b _ _ => b = a
  | .credit (.traffic b) => b = a
  | _ => False

theorem ts_other (cfg : Credit.Cfg) (s : Credit.State) (op : Credit.Op) (hn : ∀ b, op ≠ .traffic b) :
    (Credit.step cfg s op).1.lastUpdateTs = s.lastUpdateTs := by
  rcases Credit.step_cases (cfg := cfg) s op with ⟨s', o, h1, h2⟩ | h
  · rw [h2]
    cases hsp : Credit.special op with
    | false =>
      have := Credit.body_frame h1 hsp
      simp only [Credit.frame, Prod.mk.injEq] at this
      exact this.2.2.2.1
    | true =>
      cases op <;> simp only [Credit.special, Bool.false_eq_true] at hsp <;> simp only [Credit.body] at h1
      case «initialize» =>
        cases h1
        rcases Credit.onInitialize_cases cfg s with h3 | ⟨k, h3⟩ <;> rw [h3]
        exact (Credit.foldl_updateSetting_fields _ _).2.2.1
      case finalize => cases h1; unfold Credit.setPrice; split <;> rfl
      case runtimeUpgrade =>
        cases h1
        unfold Credit.onRuntimeUpgrade
        split
        · simp only
          rw [(Credit.foldl_updateSetting_fields _ _).2.2.1, (Credit.foldl_updateSetting_fields _ _).2.2.1]
        · rfl
      case updateCreditSetting => cases h1; rfl
      case traffic b => exact absurd rfl (hn b)
      case setDprPrice =>
        obtain ⟨_, h3, h4⟩ := Credit.map_ok h1
        cases h4
        obtain ⟨_, _, _, rfl⟩ := Credit.setDprPrice_ok h3
        rfl
      case burnNft =>
        obtain ⟨_, h3, h4⟩ := Credit.map_ok h1
        cases h4
        obtain ⟨_, _, _, _, _, _, rfl⟩ := Credit.burnNft_ok h3
        rfl
      all_goals
        obtain ⟨_, h3, h4⟩ := Credit.map_ok h1
        cases h4
        have h5 := (Credit.admin_ok h3).2
        cases h5
        rfl
  · rw [h]

theorem ts_kept (cfg : Credit.Cfg) (s : Credit.State) (a : AccId) (op : Credit.Op) (hn : op ≠ .traffic a) :
    (Credit.step cfg s op).1.lastUpdateTs.get a = s.lastUpdateTs.get a := by
  by_cases h : ∃ b, op = .traffic b
  · obtain ⟨b, rfl⟩ := h
    rw [(Credit.C95_traffic_records cfg s b a).1, if_neg]
    rintro ⟨e, -⟩
    exact hn (by rw [e])
  · rw [ts_other cfg s op fun b e => h ⟨b, e⟩]

theorem kept_step (cfg : Credit.Cfg) (cr : Crypto) (s : State) (a : AccId) (op : Op) (h : ¬ reports a op) :
    (step cfg cr s op).1.credit.lastUpdateTs.get a = s.credit.lastUpdateTs.get a ∧ (step cfg cr s op).1.nonce.get a = s.nonce.get a := by
  cases op with
  | report b n sig =>
    have hb : b ≠ a := h
    simp only [step]
    split
    · exact ⟨rfl, rfl⟩
    split
    · exact ⟨rfl, rfl⟩
    · exact ⟨ts_kept cfg s.credit a _ (fun e => hb (by cases e; rfl)), FMap.get_insert_ne _ _ (Ne.symm hb)⟩
  | setKey r k => cases r <;> exact ⟨rfl, rfl⟩
  | setTmpKey r k => cases r <;> exact ⟨rfl, rfl⟩
  | credit o =>
    refine ⟨ts_kept cfg s.credit a o (fun e => h ?_), rfl⟩
    rw [e]; rfl

theorem kept_run (cfg : Credit.Cfg) (cr : Crypto) (a : AccId) (ops : List Op) : ∀ s, (∀ op ∈ ops, ¬ reports a op) →
    (run cfg cr s ops).1.credit.lastUpdateTs.get a = s.credit.lastUpdateTs.get a ∧ (run cfg cr s ops).1.nonce.get a = s.nonce.get a := by
  induction ops with
  | nil => intro s _; exact ⟨rfl, rfl⟩
  | cons op ops ih =>
    intro s h
    obtain ⟨h1, h2⟩ := ih (step cfg cr s op).1 fun o ho => h o (List.mem_cons_of_mem _ ho)
    obtain ⟨k1, k2⟩ := kept_step cfg cr s a op (h op List.mem_cons_self)
    exact ⟨h1.trans k1, h2.trans k2⟩

/-- The reports of an account: before each of them others do what they like; the account still has a record and a device
which has come online, an era in seconds has passed since the report before (at `t`), and the report carries the next
number and a signature by one of the two keys of the time. -/
def Reports (cfg : Credit.Cfg) (cr : Crypto) (a : AccId) : State → Nat → Nat → List (List Op × List Nat) → Prop
  | _, _, _, [] => True
  | s, t, k, (others, sig) :: rest =>
    let x := (run cfg cr s others).1
    (∀ op ∈ others, ¬ reports a op) ∧ x.credit.core.userCredit.get a ≠ none ∧ x.credit.onboard a ≠ none ∧
    t + cfg.blocksPerEra * cfg.secsPerBlock ≤ x.credit.now ∧
    (signedBy cr sig k a (x.key.getD 0) ∨ signedBy cr sig k a (x.tmpKey.getD 0)) ∧
    Reports cfg cr a (step cfg cr x (.report a k sig)).1 x.credit.now ((k + 1) % 2 ^ 64) rest

/-- Each of the reports is accepted and raises the score by one (up to the largest 64-bit number). -/
def Raised (cfg : Credit.Cfg) (cr : Crypto) (a : AccId) : State → Nat → List (List Op × List Nat) → Prop
  | _, _, [] => True
  | s, k, (others, sig) :: rest =>
    let x := (run cfg cr s others).1
    let r := step cfg cr x (.report a k sig)
    r.2 = .accepted true ∧
    (∃ n, Credit.creditScore x.credit.core a = some n ∧ Credit.creditScore r.1.credit.core a = some (min (n + 1) (2 ^ 64 - 1))) ∧
    Raised cfg cr a r.1 ((k + 1) % 2 ^ 64) rest

/-- An accepted and raising report. -/
theorem report_step {cfg : Credit.Cfg} {cr : Crypto} {s : State} {a k : Nat} {sig : List Nat} (hk : (s.nonce.get a).getD 0 = k)
    (hs : signedBy cr sig k a (s.key.getD 0) ∨ signedBy cr sig k a (s.tmpKey.getD 0)) :
    step cfg cr s (.report a k sig) = ({ s with nonce := s.nonce.insert a ((k + 1) % 2 ^ 64), credit := (Credit.step cfg s.credit (.traffic a)).1 },
      reportOut (Credit.step cfg s.credit (.traffic a)).2) := by
  have hv : verifySignature cr s k sig a = true := by
    unfold verifySignature
    rw [Bool.or_eq_true]
    exact hs
  simp only [step, hk, hv]
  rw [if_neg (by simp), if_neg (by simp)]

theorem raised (cfg : Credit.Cfg) (cr : Crypto) (a : AccId) (hI : 0 < cfg.blocksPerEra * cfg.secsPerBlock) (rs : List (List Op × List Nat)) :
    ∀ (s : State) (t k : Nat), s.credit.lastUpdateTs.get a = some t → (s.nonce.get a).getD 0 = k → Reports cfg cr a s t k rs →
      Raised cfg cr a s k rs := by
  induction rs with
  | nil => intro _ _ _ _ _ _; trivial
  | cons r rest ih =>
    obtain ⟨others, sig⟩ := r
    intro s t k ht hk hr
    obtain ⟨h1, h2, h3, h4, h5, h6⟩ := hr
    obtain ⟨k1, k2⟩ := kept_run cfg cr a others s h1
    show _ ∧ _ ∧ _
    generalize (run cfg cr s others).1 = x at h2 h3 h4 h5 h6 k1 k2
    have e := report_step (cfg := cfg) (s := x) (by rw [k2]; exact hk) h5
    have hraise : (Credit.step cfg x.credit (.traffic a)).2 = .flag true := by
      rw [Credit.C95_traffic]
      refine ⟨h2, ?_⟩
      obtain ⟨ob, hob⟩ := Option.ne_none_iff_exists'.1 h3
      refine ⟨ob, hob, ?_⟩
      rw [k1, ht]
      show 1 ≤ (x.credit.now - t) / _
      exact (Nat.le_div_iff_mul_le hI).2 (by omega)
    have hts := (Credit.C95_traffic_records cfg x.credit a a).1
    rw [if_pos ⟨rfl, hraise⟩] at hts
    rw [e] at h6 ⊢
    refine ⟨by rw [hraise]; rfl, ?_, ih _ _ _ hts (by simp) h6⟩
    have := Credit.C09_report_effect cfg x.credit (Credit.step cfg x.credit (.traffic a)).1 a true (by rw [← hraise])
    rw [if_pos rfl] at this
    obtain ⟨n, n1, n2, -⟩ := this
    exact ⟨n, n1, n2⟩

/-- C145. Once a report of an account has raised its credit, every later report raises it by one point which is made at
least an era (in seconds) after the one before, with the next number and a valid signature: whatever all others do in
between, as long as the account has a record and its device has come online. -/
theorem C145_raised (cfg : Credit.Cfg) (cr : Crypto) (hI : 0 < cfg.blocksPerEra * cfg.secsPerBlock) (s : State) (a k : Nat) (sig : List Nat)
    (rs : List (List Op × List Nat)) :
    let r := step cfg cr s (.report a k sig)
    r.2 = .accepted true → Reports cfg cr a r.1 s.credit.now ((k + 1) % 2 ^ 64) rs → Raised cfg cr a r.1 ((k + 1) % 2 ^ 64) rs := by
  intro r h hr
  have hk : k = (s.nonce.get a).getD 0 := by
    refine Classical.byContradiction fun hc => ?_
    have : r.2 = .invalidNonce := by simp only [r, step, if_pos hc]
    rw [this] at h; cases h
  have hv : verifySignature cr s k sig a = true := by
    cases hv : verifySignature cr s k sig a with
    | true => rfl
    | false =>
      have : r.2 = .invalidSignature := by simp only [r, step, ← hk, hv]; simp
      rw [this] at h; cases h
  have e := report_step (cfg := cfg) (s := s) (cr := cr) (sig := sig) hk.symm (by
    unfold verifySignature at hv
    rw [Bool.or_eq_true] at hv
    exact hv)
  have er : r = _ := e
  have hraise : (Credit.step cfg s.credit (.traffic a)).2 = .flag true := by
    rw [er] at h
    have h' : reportOut (Credit.step cfg s.credit (.traffic a)).2 = .accepted true := h
    revert h'
    cases (Credit.step cfg s.credit (.traffic a)).2 <;> simp [reportOut]
  have hts := (Credit.C95_traffic_records cfg s.credit a a).1
  rw [if_pos ⟨rfl, hraise⟩] at hts
  rw [er] at hr ⊢
  exact raised cfg cr a hI rs _ _ _ hts (by simp) hr

/-- What others do to the score of the account between its reports takes at most the given amounts from it. -/
def Losses (cfg : Credit.Cfg) (cr : Crypto) (a : AccId) : State → Nat → List (List Op × List Nat) → List Nat → Prop
  | _, _, [], l => l = []
  | s, k, (others, sig) :: rest, l =>
    let x := (run cfg cr s others).1
    ∃ v l', l = v :: l' ∧ (Credit.creditScore s.credit.core a).getD 0 ≤ (Credit.creditScore x.credit.core a).getD 0 + v ∧
      Losses cfg cr a (step cfg cr x (.report a k sig)).1 ((k + 1) % 2 ^ 64) rest l'

/-- The state after all reports. -/
def reported (cfg : Credit.Cfg) (cr : Crypto) (a : AccId) : State → Nat → List (List Op × List Nat) → State
  | s, _, [] => s
  | s, k, (others, sig) :: rest => reported cfg cr a (step cfg cr (run cfg cr s others).1 (.report a k sig)).1 ((k + 1) % 2 ^ 64) rest

theorem total (cfg : Credit.Cfg) (cr : Crypto) (a : AccId) (rs : List (List Op × List Nat)) : ∀ (s : State) (k : Nat) (l : List Nat),
    Raised cfg cr a s k rs → Losses cfg cr a s k rs l →
    min ((Credit.creditScore s.credit.core a).getD 0 + rs.length) (2 ^ 64 - 1) ≤
      (Credit.creditScore (reported cfg cr a s k rs).credit.core a).getD 0 + l.sum := by
  induction rs with
  | nil => intro s k l _ _; simp only [reported, List.length_nil]; omega
  | cons r rest ih =>
    obtain ⟨others, sig⟩ := r
    intro s k l hr hl
    obtain ⟨-, ⟨n, n1, n2⟩, h3⟩ := hr
    obtain ⟨v, l', rfl, h4, h5⟩ := hl
    have := ih _ _ _ h3 h5
    show _ ≤ (Credit.creditScore (reported cfg cr a (step cfg cr (run cfg cr s others).1 (.report a k sig)).1 ((k + 1) % 2 ^ 64) rest).credit.core a).getD 0 + _
    rw [n1] at h4
    rw [n2] at this
    simp only [Option.getD_some, List.length_cons, List.sum_cons] at *
    omega

/-- C145: after `n` such reports the account has gained at least `n` points, up to what others have taken from it. -/
theorem C145_total (cfg : Credit.Cfg) (cr : Crypto) (hI : 0 < cfg.blocksPerEra * cfg.secsPerBlock) (s : State) (a k : Nat) (sig : List Nat)
    (rs : List (List Op × List Nat)) (l : List Nat) :
    let r := step cfg cr s (.report a k sig)
    r.2 = .accepted true → Reports cfg cr a r.1 s.credit.now ((k + 1) % 2 ^ 64) rs → Losses cfg cr a r.1 ((k + 1) % 2 ^ 64) rs l →
    min ((Credit.creditScore r.1.credit.core a).getD 0 + rs.length) (2 ^ 64 - 1) ≤
      (Credit.creditScore (reported cfg cr a r.1 ((k + 1) % 2 ^ 64) rs).credit.core a).getD 0 + l.sum := by
  intro r h hr hl
  exact total cfg cr a rs _ _ _ (C145_raised cfg cr hI s a k sig rs h hr) hl

/-! ### Examples -/

/-- Keys set, time 1000, ready for the first report of account 1. -/
def exStart : State :=
  (run Credit.exCfg exCrypto { credit := Credit.exGenesis } [.setKey true 5, .setTmpKey true 6, .credit (Credit.exTime 20 1000 0)]).1

/-- Two further reports of account 1, an era (50 seconds) after one another; meanwhile account 2 reports, the keys change, and
governance takes points from account 1. -/
def exRounds : List (List Op × List Nat) :=
  [([.report 2 0 (exSig 6), .credit (Credit.exTime 30 1050 0)], exSig 5),
   ([.setKey true 8, .report 2 1 (exSig 8), .credit (.addOrUpdateCreditData 1 (Credit.Data.new 8 200)), .credit (Credit.exTime 40 1100 0)], exSig 8)]

/-- `C145_raised` and `C145_total` on this state: from 251 to 201, of which governance has taken 52. -/
example : (let r := step Credit.exCfg exCrypto exStart (.report 1 0 (exSig 5))
    Raised Credit.exCfg exCrypto 1 r.1 1 exRounds ∧
    253 ≤ (Credit.creditScore (reported Credit.exCfg exCrypto 1 r.1 1 exRounds).credit.core 1).getD 0 + 52) ∧
    (Credit.creditScore (reported Credit.exCfg exCrypto 1 (step Credit.exCfg exCrypto exStart (.report 1 0 (exSig 5))).1 1 exRounds).credit.core 1) = some 201 := by
  have hr : Reports Credit.exCfg exCrypto 1 (step Credit.exCfg exCrypto exStart (.report 1 0 (exSig 5))).1 exStart.credit.now ((0 + 1) % 2 ^ 64) exRounds := by
    refine ⟨?_, by decide +kernel, by decide +kernel, by decide +kernel, by unfold signedBy; decide +kernel, ?_, by decide +kernel, by decide +kernel, by decide +kernel, by unfold signedBy; decide +kernel, trivial⟩
    · intro op h; fin_cases h <;> simp [reports, Credit.exTime]
    · intro op h; fin_cases h <;> simp [reports, Credit.exTime]
  have ha : (step Credit.exCfg exCrypto exStart (.report 1 0 (exSig 5))).2 = .accepted true := by decide +kernel
  have k1 := C145_raised Credit.exCfg exCrypto (by decide) exStart 1 0 (exSig 5) exRounds ha hr
  have k2 := C145_total Credit.exCfg exCrypto (by decide) exStart 1 0 (exSig 5) exRounds [0, 52] ha hr
    ⟨0, [52], rfl, by decide +kernel, 52, [], rfl, by decide +kernel, rfl⟩
  refine ⟨⟨k1, Nat.le_trans (by decide +kernel) k2⟩, by decide +kernel⟩

/-- C145: the era is needed: one second earlier the report is accepted but gains nothing. -/
theorem C145_era_needed : let s := (step Credit.exCfg exCrypto exStart (.report 1 0 (exSig 5))).1
    let x := (run Credit.exCfg exCrypto s [.credit (Credit.exTime 30 1049 0)]).1
    (step Credit.exCfg exCrypto exStart (.report 1 0 (exSig 5))).2 = .accepted true ∧
    (step Credit.exCfg exCrypto x (.report 1 1 (exSig 5))).2 = .accepted false ∧
    Credit.creditScore (step Credit.exCfg exCrypto x (.report 1 1 (exSig 5))).1.credit.core 1 = Credit.creditScore s.credit.core 1 := by
  decide +kernel

end Verif.CreditAccumulation
