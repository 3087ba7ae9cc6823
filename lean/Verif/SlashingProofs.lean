import Verif.SpansProofs
import Verif.LedgerProofs
import Mathlib.Data.List.Nodup

/-
Lemmas on `Verif.Slashing`.
-/

namespace Verif.Slashing

open Verif

/-! ### What handling an offence leaves alone -/

/-- Everything but the slashing data of one stash and the validator list. -/
structure Frame (a : AccId) (s s' : State) : Prop where
  active : s'.active = s.active
  bondedEras : s'.bondedEras = s.bondedEras
  rewardProp : s'.rewardProp = s.rewardProp
  invulnerables : s'.invulnerables = s.invulnerables
  unapplied : s'.unapplied = s.unapplied
  earliest : s'.earliest = s.earliest
  bank : s'.led.bank = s.led.bank
  ledgers : s'.led.ledgers = s.led.ledgers
  bonded : s'.led.bonded = s.led.bonded
  locks : s'.led.locks = s.led.locks
  spans : ∀ b, b ≠ a → s'.spans.get b = s.spans.get b
  records : ∀ b i, b ≠ a → s'.records.get (b, i) = s.records.get (b, i)
  era : ∀ b e, b ≠ a → eraSlashOf s' e b = eraSlashOf s e b

theorem Frame.rfl' (a : AccId) (s : State) : Frame a s s :=
  ⟨rfl, rfl, rfl, rfl, rfl, rfl, rfl, rfl, rfl, rfl, fun _ _ => rfl, fun _ _ _ => rfl, fun _ _ _ => rfl⟩

theorem Frame.trans {a : AccId} {s t u : State} (h : Frame a s t) (k : Frame a t u) : Frame a s u :=
  ⟨k.active.trans h.active, k.bondedEras.trans h.bondedEras, k.rewardProp.trans h.rewardProp,
    k.invulnerables.trans h.invulnerables, k.unapplied.trans h.unapplied, k.earliest.trans h.earliest,
    k.bank.trans h.bank, k.ledgers.trans h.ledgers, k.bonded.trans h.bonded, k.locks.trans h.locks,
    fun b hb => (k.spans b hb).trans (h.spans b hb), fun b i hb => (k.records b i hb).trans (h.records b i hb),
    fun b e hb => (k.era b e hb).trans (h.era b e hb)⟩

theorem eraseRecords_get (a : AccId) : ∀ (is : List Nat) (m : FMap (AccId × Nat) Record) (b : AccId) (i : Nat),
    (eraseRecords a m is).get (b, i) = if b = a ∧ i ∈ is then none else m.get (b, i) := by
  intro is
  induction is with
  | nil => intro m b i; simp [eraseRecords]
  | cons j is ih =>
    intro m b i
    rw [eraseRecords, ih, FMap.get_erase]
    by_cases hb : b = a
    · subst hb
      by_cases hi : i = j
      · subst hi; simp
      · by_cases hm : i ∈ is
        · simp [hm]
        · simp [hi, hm]
    · simp [hb]

theorem fetchSpans_frame (s : State) (a : AccId) (w : Nat) : Frame a s (fetchSpans s a w).1 := by
  unfold fetchSpans
  split
  · exact Frame.rfl' a s
  · refine ⟨rfl, rfl, rfl, rfl, rfl, rfl, rfl, rfl, rfl, rfl, fun b hb => ?_, fun _ _ _ => rfl, fun _ _ _ => rfl⟩
    exact FMap.get_insert_ne _ _ hb

theorem dropSpans_frame (s : State) (a : AccId) (sp : Spans) (d : Bool) (w : Nat) : Frame a s (dropSpans s a sp d w) := by
  unfold dropSpans
  split
  · exact Frame.rfl' a s
  · refine ⟨rfl, rfl, rfl, rfl, rfl, rfl, rfl, rfl, rfl, rfl, fun b hb => ?_, fun b i hb => ?_, fun _ _ _ => rfl⟩
    · exact FMap.get_insert_ne _ _ hb
    · simp only
      split
      · rw [eraseRecords_get]; simp [hb]
      · rfl

theorem chillStash_frame (s : State) (a b : AccId) : Frame b s (chillStash s a) :=
  ⟨rfl, rfl, rfl, rfl, rfl, rfl, rfl, rfl, rfl, rfl, fun _ _ => rfl, fun _ _ _ => rfl, fun _ _ _ => rfl⟩

theorem finish_frame (s : State) (a : AccId) (sp : Spans) (d : Bool) (t : Option Nat) (w now : Nat) :
    Frame a s (finish s a sp d t w now) := by
  unfold finish
  split
  · exact (chillStash_frame s a a).trans (dropSpans_frame _ _ _ _ _)
  · exact dropSpans_frame _ _ _ _ _

theorem kickOut_frame (s : State) (a : AccId) (e w now : Nat) : Frame a s (kickOut s a e w now) :=
  (fetchSpans_frame s a w).trans (finish_frame _ _ _ _ _ _ _)

theorem slashSpan_frame (s : State) (a : AccId) (sp : Spans) (e w now : Nat) (v : Balance) (o : List AccId) :
    Frame a s (slashSpan s a sp e w now v o).1 := by
  unfold slashSpan
  split
  · exact dropSpans_frame s a sp false w
  · simp only
    refine Frame.trans ?_ (finish_frame _ _ _ _ _ _ _)
    split
    · refine ⟨rfl, rfl, rfl, rfl, rfl, rfl, rfl, rfl, rfl, rfl, fun b hb => rfl, fun b i hb => ?_, fun _ _ _ => rfl⟩
      exact FMap.get_insert_ne _ _ (fun h => hb (Prod.mk.inj h).1)
    · exact Frame.rfl' a s

theorem eraSlashOf_insert (s : State) (e e' : Nat) (a b : AccId) (v : Nat × Balance) :
    eraSlashOf { s with eraSlash := s.eraSlash.insert e (((s.eraSlash.get e).getD ∅).insert a v) } e' b =
      if e' = e ∧ b = a then some v else eraSlashOf s e' b := by
  unfold eraSlashOf
  simp only
  rw [FMap.get_insert]
  by_cases he : e' = e
  · subst he
    simp only [if_true, Option.getD_some, true_and]
    rw [FMap.get_insert]
  · simp [he]

theorem computeSlash_frame (cfg : Cfg) (s : State) (a : AccId) (f e w now : Nat) :
    Frame a s (computeSlash cfg s a f e w now).1 := by
  unfold computeSlash
  simp only
  split
  · exact kickOut_frame _ _ _ _ _
  split
  · exact Frame.rfl' a s
  · refine Frame.trans ?_ ((fetchSpans_frame _ _ _).trans (slashSpan_frame _ _ _ _ _ _ _ _))
    refine ⟨rfl, rfl, rfl, rfl, rfl, rfl, rfl, rfl, rfl, rfl, fun _ _ => rfl, fun _ _ _ => rfl, fun b e' hb => ?_⟩
    rw [eraSlashOf_insert]
    simp [hb]

/-- Only balances and ledgers change. -/
structure LedOnly (s s' : State) : Prop where
  active : s'.active = s.active
  bondedEras : s'.bondedEras = s.bondedEras
  rewardProp : s'.rewardProp = s.rewardProp
  invulnerables : s'.invulnerables = s.invulnerables
  unapplied : s'.unapplied = s.unapplied
  earliest : s'.earliest = s.earliest
  spans : s'.spans = s.spans
  records : s'.records = s.records
  eraSlash : s'.eraSlash = s.eraSlash

theorem LedOnly.rfl' (s : State) : LedOnly s s := ⟨rfl, rfl, rfl, rfl, rfl, rfl, rfl, rfl, rfl⟩

theorem LedOnly.trans {s t u : State} (h : LedOnly s t) (k : LedOnly t u) : LedOnly s u :=
  ⟨k.active.trans h.active, k.bondedEras.trans h.bondedEras, k.rewardProp.trans h.rewardProp,
    k.invulnerables.trans h.invulnerables, k.unapplied.trans h.unapplied, k.earliest.trans h.earliest,
    k.spans.trans h.spans, k.records.trans h.records, k.eraSlash.trans h.eraSlash⟩

theorem applySlash_ledOnly (cfg : Cfg) (s : State) (u : Unapplied) : LedOnly s (applySlash cfg s u) :=
  ⟨rfl, rfl, rfl, rfl, rfl, rfl, rfl, rfl, rfl⟩

theorem applyAll_ledOnly (cfg : Cfg) (us : List Unapplied) : ∀ s, LedOnly s (applyAll cfg s us) := by
  induction us with
  | nil => intro s; exact LedOnly.rfl' s
  | cons u us ih => intro s; exact (applySlash_ledOnly cfg s u).trans (ih _)

/-- Effect of the loop over eras on everything but balances. -/
theorem applyEras_spec (cfg : Cfg) : ∀ (es : List Nat) (s : State), es.Nodup →
    (applyEras cfg s es).1.active = s.active ∧ (applyEras cfg s es).1.bondedEras = s.bondedEras ∧
    (applyEras cfg s es).1.spans = s.spans ∧ (applyEras cfg s es).1.records = s.records ∧
    (applyEras cfg s es).1.eraSlash = s.eraSlash ∧ (applyEras cfg s es).1.earliest = s.earliest ∧
    (∀ e, ((applyEras cfg s es).1.unapplied.get e) = if e ∈ es then none else s.unapplied.get e) ∧
    (applyEras cfg s es).2 = es.flatMap fun e => (s.unapplied.get e).getD [] := by
  intro es
  induction es with
  | nil => intro s _; simp [applyEras]
  | cons x es ih =>
    intro s hn
    have hn' := List.nodup_cons.1 hn
    simp only [applyEras]
    have h := applyAll_ledOnly cfg ((s.unapplied.get x).getD []) { s with unapplied := s.unapplied.erase x }
    obtain ⟨i1, i2, i3, i4, i5, i6, i7, i8⟩ := ih (applyAll cfg { s with unapplied := s.unapplied.erase x } ((s.unapplied.get x).getD [])) hn'.2
    refine ⟨i1.trans h.active, i2.trans h.bondedEras, i3.trans h.spans, i4.trans h.records, i5.trans h.eraSlash,
      i6.trans h.earliest, ?_, ?_⟩
    · intro e
      rw [i7, h.unapplied]
      simp only
      rw [FMap.get_erase]
      by_cases h1 : e = x
      · subst h1; simp
      · by_cases h2 : e ∈ es <;> simp [h1, h2]
    · rw [i8, List.flatMap_cons]
      congr 1
      refine List.flatMap_congr fun e he => ?_
      rw [h.unapplied]
      simp only
      rw [FMap.get_erase_ne _ (fun hx : e = x => hn'.1 (hx ▸ he))]

/-! ### Times -/

/-- The first era of the bonding period. -/
def window (cfg : Cfg) (n : Nat) : Nat := n - cfg.led.bondingDuration

/-- Eras on record fit together. -/
structure Times (cfg : Cfg) (s : State) : Prop where
  sorted : s.bondedEras.Pairwise fun p q => p.1 < q.1
  bonded : ∀ p ∈ s.bondedEras, ∃ n, s.active = some n ∧ window cfg n ≤ p.1 ∧ p.1 ≤ n
  spans : ∀ a sp, s.spans.get a = some sp → sp.Ok ∧ ∃ n, s.active = some n ∧ sp.first ≤ window cfg n ∧ sp.lastStart ≤ n + 1
  earliest : ∀ q, s.earliest = some q → ∃ n, s.active = some n ∧ n - cfg.defer ≤ q ∧ q ≤ n
  queue : ∀ e, (s.unapplied.get e).getD [] ≠ [] → ∃ n q, s.active = some n ∧ s.earliest = some q ∧ q ≤ e ∧ e ≤ n

theorem eraOf_bounds {cfg : Cfg} {s : State} (h : Times cfg s) {n i j e : Nat} (hn : s.active = some n)
    (he : eraOf s n i j = some e) : window cfg n ≤ e ∧ e ≤ n := by
  unfold eraOf at he
  split at he
  · cases he; exact ⟨Nat.sub_le _ _, Nat.le_refl _⟩
  · rw [Option.map_eq_some_iff] at he
    obtain ⟨p, hp, rfl⟩ := he
    have hm := List.mem_of_find?_eq_some hp
    rw [List.mem_reverse] at hm
    obtain ⟨m, h1, h2, h3⟩ := h.bonded p hm
    rw [hn] at h1
    cases h1
    exact ⟨h2, h3⟩

/-- The spans of the stash after handling an offence. -/
theorem endPrune {sp : Spans} (h : sp.Ok) {w now : Nat} (hw : w ≤ now) (hf : sp.first ≤ w) (hl : sp.lastStart ≤ now + 1) :
    (((sp.endSpan now).1.prune w).1).Ok ∧ (((sp.endSpan now).1.prune w).1).first ≤ w ∧
    (((sp.endSpan now).1.prune w).1).lastStart ≤ now + 1 := by
  have h1 := sp.endSpan_ok h now
  have h2 := prune_spec h1 w
  refine ⟨h2.ok, ?_, ?_⟩
  · have := h2.first
    rw [sp.endSpan_first h] at this
    omega
  · rw [h2.lastStart]
    have : (sp.endSpan now).1.lastStart ≤ now + 1 := by
      unfold Spans.endSpan
      split
      · exact hl
      · exact Nat.le_refl _
    omega

/-- Spans of a stash in a state are in order. -/
def SpOk (s : State) (a : AccId) (w now : Nat) : Prop :=
  ∀ sp, s.spans.get a = some sp → sp.Ok ∧ sp.first ≤ w ∧ sp.lastStart ≤ now + 1

theorem dropSpans_spOk {s : State} {a : AccId} {sp : Spans} {d : Bool} {w now : Nat} (hs : SpOk s a w now)
    (h : sp.Ok ∧ sp.first ≤ w ∧ sp.lastStart ≤ now + 1) (hw : w ≤ now) : SpOk (dropSpans s a sp d w) a w now := by
  unfold dropSpans
  split
  · exact hs
  · intro sp' hsp'
    simp only [FMap.get_insert_self, Option.some.injEq] at hsp'
    subst hsp'
    have := prune_spec h.1 w
    refine ⟨this.ok, ?_, ?_⟩
    · have := this.first; omega
    · rw [this.lastStart]; omega

theorem finish_spOk {s : State} {a : AccId} {sp : Spans} {d : Bool} {t : Option Nat} {w now : Nat} (hs : SpOk s a w now)
    (h : sp.Ok ∧ sp.first ≤ w ∧ sp.lastStart ≤ now + 1) (hw : w ≤ now) : SpOk (finish s a sp d t w now) a w now := by
  unfold finish
  split
  · refine dropSpans_spOk (s := chillStash s a) hs ⟨sp.endSpan_ok h.1 now, ?_, ?_⟩ hw
    · rw [sp.endSpan_first h.1]; exact h.2.1
    · unfold Spans.endSpan
      split
      · exact h.2.2
      · exact Nat.le_refl _
  · exact dropSpans_spOk hs h hw

theorem fetchSpans_spOk {s : State} {a : AccId} {w now : Nat} (hs : SpOk s a w now) (hw : w ≤ now) :
    SpOk (fetchSpans s a w).1 a w now ∧
    ((fetchSpans s a w).2.Ok ∧ (fetchSpans s a w).2.first ≤ w ∧ (fetchSpans s a w).2.lastStart ≤ now + 1) := by
  unfold fetchSpans
  have hnew : (Spans.new w).Ok ∧ (Spans.new w).first ≤ w ∧ (Spans.new w).lastStart ≤ now + 1 :=
    ⟨Spans.new_ok w, Nat.le_refl _, Nat.le_succ_of_le hw⟩
  cases hg : s.spans.get a with
  | some sp => exact ⟨hs, hs sp hg⟩
  | none =>
    refine ⟨?_, hnew⟩
    intro sp hsp
    simp only [FMap.get_insert_self, Option.some.injEq] at hsp
    rw [← hsp]
    exact hnew

theorem computeSlash_spOk {cfg : Cfg} {s : State} {a : AccId} {f e w now : Nat} (hs : SpOk s a w now) (hw : w ≤ now) :
    SpOk (computeSlash cfg s a f e w now).1 a w now := by
  unfold computeSlash
  simp only
  split
  · obtain ⟨h1, h2⟩ := fetchSpans_spOk hs hw
    exact finish_spOk h1 h2 hw
  split
  · exact hs
  · obtain ⟨h1, h2⟩ := fetchSpans_spOk (s := { s with eraSlash := s.eraSlash.insert e (((s.eraSlash.get e).getD ∅).insert a (f, perbill f (cfg.exposure e a).own)) }) hs hw
    unfold slashSpan
    split
    · exact dropSpans_spOk h1 h2 hw
    · rename_i x hx
      refine finish_spOk ?_ ?_ hw
      · split
        · exact h1
        · exact h1
      · split
        · exact ⟨⟨h2.1.pos, h2.1.sum, h2.1.len⟩, h2.2⟩
        · exact h2

theorem enqueue_fields (cfg : Cfg) (s : State) (n : Nat) (u : Unapplied) :
    (enqueue cfg s n u).active = s.active ∧ (enqueue cfg s n u).bondedEras = s.bondedEras ∧
    (enqueue cfg s n u).spans = s.spans ∧ (enqueue cfg s n u).records = s.records ∧
    (enqueue cfg s n u).eraSlash = s.eraSlash ∧ (enqueue cfg s n u).earliest = s.earliest ∧
    (∀ e, ((enqueue cfg s n u).unapplied.get e).getD [] =
      if cfg.defer ≠ 0 ∧ e = n then (s.unapplied.get e).getD [] ++ [u] else (s.unapplied.get e).getD []) := by
  unfold enqueue
  by_cases h0 : cfg.defer = 0
  · rw [if_pos h0]
    exact ⟨rfl, rfl, rfl, rfl, rfl, rfl, fun e => by simp [h0, applySlash]⟩
  · rw [if_neg h0]
    refine ⟨rfl, rfl, rfl, rfl, rfl, rfl, fun e => ?_⟩
    simp only [FMap.get_insert]
    by_cases he : e = n
    · subst he; simp [h0]
    · simp [he]

/-- How an offence is handled. -/
inductive OffenceCase (cfg : Cfg) (s : State) (a : AccId) (f : Nat) (reporters : List AccId) : State × Out → Prop
  | ignored (s' : State) (q : Option Nat) (h : s' = { s with earliest := q })
      (hq : q = s.earliest ∨ ∃ n, s.active = some n ∧ s.earliest = none ∧ q = some n) :
      OffenceCase cfg s a f reporters (s', .ignored)
  | quiet (n e : Nat) (hn : s.active = some n) (he : ∃ i j, eraOf s n i j = some e) (hi : a ∉ s.invulnerables)
      (h : (computeSlash cfg { s with earliest := some (s.earliest.getD n) } a f e (window cfg n) n).2 = none) :
      OffenceCase cfg s a f reporters
        ((computeSlash cfg { s with earliest := some (s.earliest.getD n) } a f e (window cfg n) n).1, .reported e none)
  | slashed (n e : Nat) (u : Unapplied) (hn : s.active = some n) (he : ∃ i j, eraOf s n i j = some e)
      (hi : a ∉ s.invulnerables)
      (h : (computeSlash cfg { s with earliest := some (s.earliest.getD n) } a f e (window cfg n) n).2 = some u) :
      OffenceCase cfg s a f reporters
        (enqueue cfg (computeSlash cfg { s with earliest := some (s.earliest.getD n) } a f e (window cfg n) n).1 n { u with reporters := reporters },
          .reported e (some { u with reporters := reporters }))

theorem onOffence_cases (cfg : Cfg) (s : State) (i j : Nat) (a : AccId) (f : Nat) (r : List AccId) :
    OffenceCase cfg s a f r (onOffence cfg s i j a f r) := by
  unfold onOffence
  split
  · exact .ignored s s.earliest rfl (Or.inl rfl)
  split
  · exact .ignored s s.earliest rfl (Or.inl rfl)
  rename_i n hn
  split
  · exact .ignored s s.earliest rfl (Or.inl rfl)
  rename_i e he
  simp only
  split
  · refine .ignored _ (some (s.earliest.getD n)) rfl ?_
    cases hq : s.earliest with
    | none => exact Or.inr ⟨n, hn, rfl, rfl⟩
    | some q => exact Or.inl rfl
  rename_i hi
  split
  · rename_i h
    exact .quiet n e hn ⟨i, j, he⟩ hi h
  · rename_i u h
    exact .slashed n e u hn ⟨i, j, he⟩ hi h

theorem window_le (cfg : Cfg) (n : Nat) : window cfg n ≤ n := Nat.sub_le _ _

theorem Times.setEarliest {cfg : Cfg} {s : State} (h : Times cfg s) {n : Nat} (hn : s.active = some n) :
    Times cfg { s with earliest := some (s.earliest.getD n) } := by
  refine ⟨h.sorted, h.bonded, h.spans, ?_, ?_⟩
  · intro q hq
    simp only [Option.some.injEq] at hq
    cases hE : s.earliest with
    | none => rw [hE] at hq; simp only [Option.getD_none] at hq; exact ⟨n, hn, by omega, by omega⟩
    | some q' =>
      rw [hE] at hq
      simp only [Option.getD_some] at hq
      subst hq
      exact h.earliest _ hE
  · intro e he
    obtain ⟨m, q, h1, h2, h3, h4⟩ := h.queue e he
    exact ⟨m, q, h1, by simp [h2], h3, h4⟩

theorem Times.compute {cfg : Cfg} {s : State} (h : Times cfg s) {n : Nat} (hn : s.active = some n) (a : AccId) (f e : Nat) :
    Times cfg (computeSlash cfg s a f e (window cfg n) n).1 := by
  have hf := computeSlash_frame cfg s a f e (window cfg n) n
  have hsp : SpOk s a (window cfg n) n := by
    intro sp hsp
    obtain ⟨h1, m, h2, h3, h4⟩ := h.spans a sp hsp
    rw [hn] at h2
    cases h2
    exact ⟨h1, h3, h4⟩
  have hsp' := computeSlash_spOk (cfg := cfg) (f := f) (e := e) hsp (window_le cfg n)
  refine ⟨?_, ?_, ?_, ?_, ?_⟩
  · rw [hf.bondedEras]; exact h.sorted
  · rw [hf.bondedEras, hf.active]; exact h.bonded
  · intro b sp hb
    rw [hf.active]
    by_cases hba : b = a
    · subst hba
      obtain ⟨h1, h2, h3⟩ := hsp' sp hb
      exact ⟨h1, n, hn, h2, h3⟩
    · rw [hf.spans b hba] at hb
      exact h.spans b sp hb
  · rw [hf.earliest, hf.active]; exact h.earliest
  · rw [hf.unapplied, hf.earliest, hf.active]; exact h.queue

theorem offence_times {cfg : Cfg} {s : State} (h : Times cfg s) {a : AccId} {f : Nat} {r : List AccId} {x : State × Out}
    (hc : OffenceCase cfg s a f r x) : Times cfg x.1 := by
  cases hc with
  | ignored s' q h1 hq =>
    subst h1
    rcases hq with rfl | ⟨n, hn, hE, rfl⟩
    · exact h
    · have := h.setEarliest hn
      rw [hE] at this
      exact this
  | quiet n e hn he hi hc => exact (h.setEarliest hn).compute (s := { s with earliest := some (s.earliest.getD n) }) hn a f e
  | slashed n e u hn he hi hc =>
    have ht := (h.setEarliest hn).compute (s := { s with earliest := some (s.earliest.getD n) }) hn a f e
    have hf := computeSlash_frame cfg { s with earliest := some (s.earliest.getD n) } a f e (window cfg n) n
    obtain ⟨e1, e2, e3, e4, e5, e6, e7⟩ := enqueue_fields cfg
      (computeSlash cfg { s with earliest := some (s.earliest.getD n) } a f e (window cfg n) n).1 n { u with reporters := r }
    refine ⟨?_, ?_, ?_, ?_, ?_⟩
    · simp only; rw [e2]; exact ht.sorted
    · simp only; rw [e2, e1]; exact ht.bonded
    · simp only; rw [e3, e1]; exact ht.spans
    · simp only; rw [e6, e1]; exact ht.earliest
    · intro e' he'
      simp only at he' ⊢
      rw [e7] at he'
      rw [e1, e6]
      split at he'
      · rename_i hx
        refine ⟨n, s.earliest.getD n, by rw [hf.active]; exact hn, by rw [hf.earliest], ?_, ?_⟩
        · obtain ⟨m, g1, g2, g3⟩ := (h.setEarliest hn).earliest _ rfl
          rw [show ({ s with earliest := some (s.earliest.getD n) } : State).active = some n from hn] at g1
          cases g1
          omega
        · omega
      · exact ht.queue e' he'

theorem takeWhile_drop {α : Type} (p : α → Bool) (l : List α) : l.drop (l.takeWhile p).length = l.dropWhile p := by
  induction l with
  | nil => rfl
  | cons x l ih =>
    by_cases hx : p x = true
    · simp [hx, ih]
    · simp [hx]

theorem dropWhile_sorted (k : Nat) (l : List (Nat × Nat)) (h : l.Pairwise fun p q => p.1 < q.1) :
    ∀ p ∈ l.dropWhile (fun p => decide (p.1 < k)), k ≤ p.1 := by
  induction l with
  | nil => intro p hp; cases hp
  | cons x l ih =>
    intro p hp
    obtain ⟨h1, h2⟩ := List.pairwise_cons.1 h
    by_cases hx : x.1 < k
    · rw [List.dropWhile_cons_of_pos (by simpa using hx)] at hp
      exact ih h2 p hp
    · rw [List.dropWhile_cons_of_neg (by simpa using hx)] at hp
      rcases List.mem_cons.1 hp with rfl | hp
      · omega
      · have := h1 p hp; omega

theorem erase_eras (ps : List (Nat × Nat)) : ∀ (m : FMap Nat (FMap AccId (Nat × Balance))) (e : Nat),
    (ps.foldl (fun m p => m.erase p.1) m).get e = if e ∈ ps.map Prod.fst then none else m.get e := by
  induction ps with
  | nil => intro m e; simp
  | cons p ps ih =>
    intro m e
    rw [List.foldl_cons, ih, FMap.get_erase]
    by_cases h1 : e = p.1
    · subst h1; simp
    · by_cases h2 : e ∈ ps.map Prod.fst
      · simp [h2]
      · simp [h1, h2]

/-- The next active era. -/
def nextEra (s : State) : Nat := match s.active with | some e => e + 1 | none => 0

/-- What the start of an era does. -/
structure Started (cfg : Cfg) (s s' : State) (applied : List Unapplied) : Prop where
  active : s'.active = some (nextEra s)
  sorted : s'.bondedEras.Pairwise fun p q => p.1 < q.1
  bonded : ∀ p ∈ s'.bondedEras, window cfg (nextEra s) ≤ p.1 ∧ p.1 ≤ nextEra s
  spans : s'.spans = s.spans
  records : s'.records = s.records
  eraSlash : ∀ e, s'.eraSlash.get e = none ∨ s'.eraSlash.get e = s.eraSlash.get e
  earliest : s'.earliest = s.earliest.map fun q => max q (nextEra s - cfg.defer)
  queue : ∀ e, (s'.unapplied.get e).getD [] = if e + cfg.defer < nextEra s then [] else (s.unapplied.get e).getD []
  applied : applied = if cfg.defer < nextEra s then (s.unapplied.get (nextEra s - cfg.defer - 1)).getD [] else []

theorem nodup_range' (a n : Nat) : (List.range' a n).Nodup := List.nodup_range' (step := 1) (by omega)

theorem startEra_spec {cfg : Cfg} {s : State} (h : Times cfg s) (session : Nat) :
    ∃ applied, (startEra cfg s session).2 = .started (nextEra s) applied ∧ Started cfg s (startEra cfg s session).1 applied := by
  have hsort : (s.bondedEras ++ [(nextEra s, session)]).Pairwise fun p q => p.1 < q.1 := by
    rw [List.pairwise_append]
    refine ⟨h.sorted, List.pairwise_singleton _ _, ?_⟩
    intro p hp q hq
    rw [List.mem_singleton] at hq
    subst hq
    obtain ⟨n, h1, h2, h3⟩ := h.bonded p hp
    unfold nextEra
    rw [h1]
    simp only
    omega
  have hdrop : ∀ p ∈ (s.bondedEras ++ [(nextEra s, session)]).drop (prunedEras cfg (nextEra s) (s.bondedEras ++ [(nextEra s, session)])).length,
      window cfg (nextEra s) ≤ p.1 ∧ p.1 ≤ nextEra s := by
    intro p hp
    refine ⟨?_, ?_⟩
    · unfold prunedEras at hp
      split at hp
      · rw [takeWhile_drop] at hp
        exact dropWhile_sorted _ _ hsort p hp
      · unfold window; omega
    · have hm := List.mem_of_mem_drop hp
      rcases List.mem_append.1 hm with hm | hm
      · obtain ⟨n, h1, h2, h3⟩ := h.bonded p hm
        unfold nextEra
        rw [h1]
        simp only
        omega
      · rw [List.mem_singleton] at hm
        subst hm
        exact Nat.le_refl _
  have hbase : ∀ e, (s.unapplied.get e).getD [] ≠ [] → ∃ n q, s.active = some n ∧ s.earliest = some q ∧ q ≤ e ∧ e ≤ n := h.queue
  have hE : ∀ q, s.earliest = some q → nextEra s ≤ q + cfg.defer + 1 ∧ q < nextEra s := by
    intro q hq
    obtain ⟨n, h1, h2, h3⟩ := h.earliest q hq
    unfold nextEra
    rw [h1]
    simp only
    omega
  -- the state before slashes are applied
  obtain ⟨s1, hs1⟩ : ∃ s1, s1 = { s with active := some (nextEra s), bondedEras := (s.bondedEras ++ [(nextEra s, session)]).drop (prunedEras cfg (nextEra s) (s.bondedEras ++ [(nextEra s, session)])).length, eraSlash := (prunedEras cfg (nextEra s) (s.bondedEras ++ [(nextEra s, session)])).foldl (fun m (p : Nat × Nat) => m.erase p.1) s.eraSlash } := ⟨_, rfl⟩
  have hst : startEra cfg s session = ((applyUnapplied cfg s1 (nextEra s)).1, .started (nextEra s) (applyUnapplied cfg s1 (nextEra s)).2) := by
    rw [hs1]; rfl
  rw [hst]
  refine ⟨_, rfl, ?_⟩
  have herase : ∀ e, s1.eraSlash.get e = none ∨ s1.eraSlash.get e = s.eraSlash.get e := by
    intro e
    rw [hs1]
    simp only
    rw [erase_eras]
    split
    · exact Or.inl rfl
    · exact Or.inr rfl
  unfold applyUnapplied
  have e1 : s1.earliest = s.earliest := by rw [hs1]
  have e2 : s1.unapplied = s.unapplied := by rw [hs1]
  rw [e1]
  cases hq : s.earliest with
  | none =>
    have hemp : ∀ e, (s.unapplied.get e).getD [] = [] := by
      intro e
      by_contra hne
      obtain ⟨n, q, _, h2, _⟩ := hbase e hne
      rw [hq] at h2
      cases h2
    simp only
    refine ⟨by rw [hs1], by rw [hs1]; exact hsort.sublist (List.drop_sublist _ _), by rw [hs1]; exact hdrop, by rw [hs1],
      by rw [hs1], herase, by rw [e1, hq]; rfl, ?_, ?_⟩
    · intro e; rw [e2, hemp]; simp
    · rw [hemp]; simp
  | some q =>
    obtain ⟨hq1, hq2⟩ := hE q hq
    simp only
    obtain ⟨i1, i2, i3, i4, i5, i6, i7, i8⟩ := applyEras_spec cfg (List.range' q (nextEra s - cfg.defer - q)) s1 (nodup_range' _ _)
    refine ⟨by simp only; rw [i1, hs1], by simp only; rw [i2, hs1]; exact hsort.sublist (List.drop_sublist _ _),
      by simp only; rw [i2, hs1]; exact hdrop, by simp only; rw [i3, hs1], by simp only; rw [i4, hs1],
      by simp only; rw [i5]; exact herase, by rw [hq]; rfl, ?_, ?_⟩
    · intro e
      simp only
      rw [i7, e2]
      simp only [List.mem_range'_1]
      by_cases hlt : e + cfg.defer < nextEra s
      · rw [if_pos hlt]
        by_cases hqe : q ≤ e
        · rw [if_pos (by omega)]; rfl
        · rw [if_neg (by omega)]
          by_contra hne
          obtain ⟨n, q', _, h2, h3, _⟩ := hbase e hne
          rw [hq] at h2
          cases h2
          omega
      · rw [if_neg hlt, if_neg (by omega)]
    · rw [i8, e2]
      by_cases hd : cfg.defer < nextEra s
      · rw [if_pos hd]
        by_cases hqe : q + cfg.defer < nextEra s
        · have h1 : nextEra s - cfg.defer - q = 1 := by omega
          have h2 : nextEra s - cfg.defer - 1 = q := by omega
          rw [h1, h2]
          simp [List.range']
        · have h1 : nextEra s - cfg.defer - q = 0 := by omega
          rw [h1]
          have h3 : (s.unapplied.get (nextEra s - cfg.defer - 1)).getD [] = [] := by
            by_contra hne
            obtain ⟨n, q', _, g2, g3, _⟩ := hbase _ hne
            rw [hq] at g2
            cases g2
            omega
          rw [h3]
          rfl
      · rw [if_neg hd]
        have h1 : nextEra s - cfg.defer - q = 0 := by omega
        rw [h1]
        rfl

theorem startEra_times {cfg : Cfg} {s : State} (h : Times cfg s) (session : Nat) : Times cfg (startEra cfg s session).1 := by
  obtain ⟨applied, _, hs⟩ := startEra_spec h session
  have hnext : ∀ n, s.active = some n → nextEra s = n + 1 := by intro n hn; unfold nextEra; rw [hn]
  refine ⟨hs.sorted, ?_, ?_, ?_, ?_⟩
  · intro p hp; exact ⟨_, hs.active, hs.bonded p hp⟩
  · intro a sp hsp
    rw [hs.spans] at hsp
    obtain ⟨h1, n, h2, h3, h4⟩ := h.spans a sp hsp
    have := hnext n h2
    refine ⟨h1, _, hs.active, ?_, by omega⟩
    unfold window at *
    omega
  · intro q hq
    rw [hs.earliest, Option.map_eq_some_iff] at hq
    obtain ⟨q', h1, rfl⟩ := hq
    obtain ⟨n, g1, g2, g3⟩ := h.earliest q' h1
    have := hnext n g1
    exact ⟨_, hs.active, by omega, by omega⟩
  · intro e he
    rw [hs.queue] at he
    split at he
    · exact absurd rfl he
    · obtain ⟨n, q, h1, h2, h3, h4⟩ := h.queue e he
      have := hnext n h1
      exact ⟨_, max q (nextEra s - cfg.defer), hs.active, by rw [hs.earliest, h2]; rfl, by omega, by omega⟩

/-! ### Cancelling -/

/-- The entries of a list whose position is not listed. -/
def keepOthers {α : Type} (l : List α) (idx : List Nat) : List α :=
  (l.zipIdx.filter fun p => decide (p.2 ∉ idx)).map Prod.fst

theorem cancel_ok {s s' : State} {k : Bool} {e : Nat} {idx : List Nat} (h : cancel s k e idx = .ok s') :
    k = true ∧ idx ≠ [] ∧ sortedUnique idx = true ∧ idx.getLastD 0 < ((s.unapplied.get e).getD []).length ∧
    s' = { s with unapplied := s.unapplied.insert e (removeAll ((s.unapplied.get e).getD []) 0 idx) } := by
  unfold cancel at h
  split at h
  · cases h
  rename_i h1
  split at h
  · cases h
  rename_i h2
  split at h
  · cases h
  rename_i h3
  simp only at h
  split at h
  · cases h
  rename_i h4
  cases h
  exact ⟨by simpa using h1, h2, by simpa using h3, by omega, rfl⟩

theorem removeAll_nil : ∀ (idx : List Nat) (k : Nat), removeAll [] k idx = [] := by
  intro idx
  induction idx with
  | nil => intro k; rfl
  | cons i idx ih => intro k; simp [removeAll, ih]

theorem cancel_times {cfg : Cfg} {s s' : State} (h : Times cfg s) {k : Bool} {e : Nat} {idx : List Nat}
    (hc : cancel s k e idx = .ok s') : Times cfg s' := by
  obtain ⟨_, _, _, hl, rfl⟩ := cancel_ok hc
  refine ⟨h.sorted, h.bonded, h.spans, h.earliest, ?_⟩
  intro e' he'
  simp only at he' ⊢
  rw [FMap.get_insert] at he'
  split at he'
  · rename_i hx
    subst hx
    exact h.queue e' (fun h0 => by rw [h0] at hl; simp at hl)
  · exact h.queue e' he'

theorem clearStash_fields (s : State) (a : AccId) :
    (clearStash s a).active = s.active ∧ (clearStash s a).bondedEras = s.bondedEras ∧
    (clearStash s a).unapplied = s.unapplied ∧ (clearStash s a).earliest = s.earliest ∧
    (clearStash s a).eraSlash = s.eraSlash ∧ (clearStash s a).spans.get a = none ∧
    (∀ b, b ≠ a → (clearStash s a).spans.get b = s.spans.get b) ∧
    (∀ b i, b ≠ a → (clearStash s a).records.get (b, i) = s.records.get (b, i)) := by
  unfold clearStash
  split
  · rename_i h; exact ⟨rfl, rfl, rfl, rfl, rfl, h, fun _ _ => rfl, fun _ _ _ => rfl⟩
  · refine ⟨rfl, rfl, rfl, rfl, rfl, FMap.get_erase_self _ _, fun b hb => FMap.get_erase_ne _ hb, fun b i hb => ?_⟩
    rw [eraseRecords_get]
    simp [hb]

theorem step_times {cfg : Cfg} {s : State} (h : Times cfg s) (op : Op) : Times cfg (step cfg s op).1 := by
  cases op with
  | ledger op n =>
    simp only [step, ledgerCall]
    split
    · exact ⟨h.sorted, h.bonded, h.spans, h.earliest, h.queue⟩
    · rename_i a _
      obtain ⟨e1, e2, e3, e4, e5, e6, e7, e8⟩ := clearStash_fields { s with led := (Ledger.step cfg.led s.led (withSpans (spansOk s n (target s.led op)) op)).1 } a
      refine ⟨?_, ?_, ?_, ?_, ?_⟩
      · rw [e2]; exact h.sorted
      · rw [e2, e1]; exact h.bonded
      · intro b sp hb
        rw [e1]
        by_cases hba : b = a
        · subst hba; rw [e6] at hb; cases hb
        · rw [e7 b hba] at hb; exact h.spans b sp hb
      · rw [e4, e1]; exact h.earliest
      · rw [e3, e4, e1]; exact h.queue
  | startEra session => exact startEra_times h session
  | offence i j a f r => exact offence_times h (onOffence_cases cfg s i j a f r)
  | cancel k e idx =>
    simp only [step]
    split
    · rename_i s' hc; exact cancel_times h hc
    · exact h
  | setInvulnerables l => exact ⟨h.sorted, h.bonded, h.spans, h.earliest, h.queue⟩
  | setRewardProp p => exact ⟨h.sorted, h.bonded, h.spans, h.earliest, h.queue⟩

theorem run_times (cfg : Cfg) (ops : List Op) : ∀ s, Times cfg s → Times cfg (run cfg s ops).1 := by
  induction ops with
  | nil => intro s h; exact h
  | cons op ops ih => intro s h; exact ih _ (step_times h op)

theorem genesis_times (cfg : Cfg) (bank : Bank) (m : Balance) : Times cfg (genesis bank m) :=
  ⟨List.Pairwise.nil, (fun p h => by cases h), (fun a sp h => by simp [genesis] at h), (fun q h => by cases h),
    (fun e h => absurd (by simp [genesis]) h)⟩

theorem run_append (cfg : Cfg) (ops : List Op) : ∀ s more,
    (run cfg s (ops ++ more)).1 = (run cfg (run cfg s ops).1 more).1 ∧
    (run cfg s (ops ++ more)).2 = (run cfg s ops).2 ++ (run cfg (run cfg s ops).1 more).2 := by
  induction ops with
  | nil => intro s more; simp [run]
  | cons op ops ih =>
    intro s more
    obtain ⟨h1, h2⟩ := ih (step cfg s op).1 more
    simp only [List.cons_append, run]
    exact ⟨h1, by rw [h2]⟩

end Verif.Slashing
