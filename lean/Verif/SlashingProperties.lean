import Verif.SlashingProofs

/-
Properties C39, C41, C42: slashing spans, rewards of reporters, deferred slashes.
-/

namespace Verif.Slashing

open Verif

/-! ### C39 -/

/-- C39. At all times, for every stash with spans on record: each closed span is not empty, ends where the
next one starts and has the previous index; every era from the start of the bonding period on lies in
exactly one span, and the ongoing span starts at most one era after the active one. -/
theorem C39_spans_partition (cfg : Cfg) (bank : Bank) (m : Balance) (ops : List Op) (a : AccId) (sp : Spans)
    (h : (run cfg (genesis bank m) ops).1.spans.get a = some sp) :
    ∃ n, (run cfg (genesis bank m) ops).1.active = some n ∧
    List.IsChain (fun x y : Span => ∃ l, y.length = some l ∧ 0 < l ∧ y.start + l = x.start ∧ y.index + 1 = x.index) sp.iter ∧
    sp.iter.head? = some ⟨sp.index, sp.lastStart, none⟩ ∧
    (∀ e, n - cfg.led.bondingDuration ≤ e → ∃ x, x ∈ sp.iter ∧ x.contains e = true ∧
      ∀ y, y ∈ sp.iter → y.contains e = true → y = x) ∧
    sp.lastStart ≤ n + 1 := by
  have ht := run_times cfg ops _ (genesis_times cfg bank m)
  obtain ⟨h1, n, h2, h3, h4⟩ := ht.spans a sp h
  refine ⟨n, h2, sp.iter_chain h1, rfl, ?_, h4⟩
  intro e he
  obtain ⟨x, hx, hc⟩ := (sp.iter_cover h1 e).1 (Nat.le_trans h3 he)
  exact ⟨x, hx, hc, fun y hy hyc => sp.iter_unique h1 hy hx (Or.inl ⟨e, hyc, hc⟩)⟩

/-- C39. Pruning keeps exactly the closed spans that end after the start of the window, and the ongoing
span; every era of the window lies in a span with the same index as before; the indices reported as
removed are exactly those of the removed spans. -/
theorem C39_prune (cfg : Cfg) (bank : Bank) (m : Balance) (ops : List Op) (a : AccId) (sp : Spans) (w : Nat)
    (h : (run cfg (genesis bank m) ops).1.spans.get a = some sp) :
    (∀ (x : Span) l, x.length = some l → (x ∈ (sp.prune w).1.iter ↔ x ∈ sp.iter ∧ w < x.start + l)) ∧
    (∀ e, w ≤ e → ((sp.prune w).1.eraSpan e).map Span.index = (sp.eraSpan e).map Span.index) ∧
    (∀ x ∈ sp.iter, (∃ y ∈ (sp.prune w).1.iter, y.index = x.index) ↔
      ∀ b c, (sp.prune w).2 = some (b, c) → ¬ (b ≤ x.index ∧ x.index < c)) := by
  have ht := run_times cfg ops _ (genesis_times cfg bank m)
  obtain ⟨h1, n, h2, h3, h4⟩ := ht.spans a sp h
  have hp := prune_spec h1 w
  have hf := hp.first'
  refine ⟨fun x l hx => hp.keep x l hx, ?_, ?_⟩
  · intro e he
    by_cases hc : sp.first ≤ e
    · obtain ⟨x, hx⟩ := sp.eraSpan_cover h1 hc
      have hx' := (sp.eraSpan_some h1).1 hx
      have hxc := (Span.contains_iff x e).1 hx'.2
      rw [hx]
      rcases sp.iter_mem h1 hx'.1 with rfl | ⟨_, l, g1, g2, g3, _⟩
      · have : (sp.prune w).1.eraSpan e = some ⟨sp.index, max sp.lastStart w, none⟩ := by
          rw [Spans.eraSpan_some hp.ok]
          refine ⟨?_, ?_⟩
          · unfold Spans.iter
            rw [hp.index, hp.lastStart]
            exact List.mem_cons_self
          · rw [Span.contains_iff]
            refine ⟨?_, (fun l hl => by cases hl)⟩
            have := hxc.1
            simp only at this ⊢
            omega
        rw [this]
        rfl
      · have : (sp.prune w).1.eraSpan e = some x := by
          rw [Spans.eraSpan_some hp.ok]
          exact ⟨(hp.keep x l g1).2 ⟨hx'.1, by have := hxc.2 l g1; omega⟩, hx'.2⟩
        rw [this]
    · have e1 : sp.eraSpan e = none := by
        cases hx : sp.eraSpan e with
        | none => rfl
        | some x =>
          have := (sp.iter_cover h1 e).2 ⟨x, (sp.eraSpan_some h1).1 hx⟩
          omega
      have e2 : (sp.prune w).1.eraSpan e = none := by
        cases hx : (sp.prune w).1.eraSpan e with
        | none => rfl
        | some x =>
          have := ((sp.prune w).1.iter_cover hp.ok e).2 ⟨x, ((sp.prune w).1.eraSpan_some hp.ok).1 hx⟩
          omega
      rw [e1, e2]
  · intro x hx
    obtain ⟨k, k1, k2, k3, k4, k5, k6, k7⟩ := prune_prior sp w
    have hlen := h1.len
    have hlow : ∀ y ∈ (sp.prune w).1.iter, sp.index - k ≤ y.index := by
      intro y hy
      rcases (sp.prune w).1.iter_mem hp.ok hy with rfl | ⟨_, l, g1, g2, g3, g4, g5, g6⟩
      · show sp.index - k ≤ (sp.prune w).1.index
        rw [hp.index]; omega
      · rw [hp.index, k2, List.length_take] at g6; omega
    constructor
    · rintro ⟨y, hy, hyx⟩ b c hbc
      have := hlow y hy
      rcases k5 with ⟨k5, _⟩ | k5
      · rw [k5] at hbc; cases hbc
      · rw [k5] at hbc
        cases hbc
        omega
    · intro hno
      rcases sp.iter_mem h1 hx with rfl | ⟨hx', l, g1, g2, g3, g4, g5, g6⟩
      · refine ⟨_, List.mem_cons_self, ?_⟩
        rw [hp.index]
      · refine ⟨x, (hp.keep x l g1).2 ⟨hx, ?_⟩, rfl⟩
        obtain ⟨i, hi⟩ := List.mem_iff_getElem?.1 hx'
        obtain ⟨l', a1, a2, a3, a4⟩ := iterFrom_get _ _ _ _ _ hi h1.sum h1.len
        have hil : i < sp.prior.length := by
          have := (List.getElem?_eq_some_iff.1 hi).1
          have hitlen : ∀ (ls : List Nat) st ix, (iterFrom st ix ls).length = ls.length := by
            intro ls
            induction ls with
            | nil => intro st ix; rfl
            | cons l ls ih => intro st ix; simp [iterFrom, ih]
          rw [hitlen] at this
          exact this
        have hik : i < k := by
          rcases k5 with ⟨k5, e⟩ | k5
          · omega
          · have := hno _ _ k5
            omega
        have := k6 i x hi hik
        by_contra hc
        rw [(Span.isOld_iff g1).2 (by omega)] at this
        cases this

/-! ### C42 -/

/-- One step of the queue of slashes reported in era `e`. -/
def queueStep (cfg : Cfg) (e : Nat) (q : List Unapplied) (x : State × Op × Out) : List Unapplied :=
  match x with
  | (s, .offence _ _ _ _ _, .reported _ (some u)) => if cfg.defer ≠ 0 ∧ s.active = some e then q ++ [u] else q
  | (_, .cancel _ e' idx, .done) => if e' = e then keepOthers q idx else q
  | (_, _, .started n _) => if e + cfg.defer < n then [] else q
  | _ => q

/-- Specification of the slashes waiting that were reported while era `e` was active: every reported slash
is appended, a cancellation removes the entries at the given positions, and the start of the first era
later than `e` by more than the deferral empties the queue. -/
def queueOf (cfg : Cfg) (e : Nat) (tr : List (State × Op × Out)) : List Unapplied := tr.foldl (queueStep cfg e) []

theorem sortedUnique_pairwise : ∀ l : List Nat, sortedUnique l = true → l.Pairwise (· < ·) := by
  intro l
  induction l with
  | nil => intro _; exact List.Pairwise.nil
  | cons a l ih =>
    intro h
    cases l with
    | nil => exact List.pairwise_singleton _ _
    | cons b l =>
      simp only [sortedUnique, Bool.and_eq_true, decide_eq_true_eq] at h
      have h2 := ih h.2
      refine List.pairwise_cons.2 ⟨?_, h2⟩
      intro x hx
      rcases List.mem_cons.1 hx with rfl | hx
      · exact h.1
      · exact Nat.lt_trans h.1 ((List.pairwise_cons.1 h2).1 x hx)

theorem zipIdx_keep_all {α : Type} (idx : List Nat) : ∀ (l : List α) (k : Nat), (∀ i ∈ idx, k + l.length ≤ i) →
    ((l.zipIdx k).filter fun p => decide (p.2 ∉ idx)).map Prod.fst = l := by
  intro l
  induction l with
  | nil => intro k _; rfl
  | cons x l ih =>
    intro k h
    rw [List.zipIdx_cons, List.filter_cons_of_pos, List.map_cons, ih]
    · intro i hi; have := h i hi; simp only [List.length_cons] at this; omega
    · rw [decide_eq_true_eq]
      intro hk
      have := h k hk
      simp only [List.length_cons] at this
      omega

theorem zipIdx_drop_first {α : Type} (idx : List Nat) (i : Nat) : ∀ (l : List α) (k : Nat), i < k →
    ((l.zipIdx k).filter fun p => decide (p.2 ∉ i :: idx)) = (l.zipIdx k).filter fun p => decide (p.2 ∉ idx) := by
  intro l
  induction l with
  | nil => intro k _; rfl
  | cons x l ih =>
    intro k h
    rw [List.zipIdx_cons, List.filter_cons, List.filter_cons, ih (k + 1) (by omega)]
    have : (k ∉ i :: idx) ↔ (k ∉ idx) := by
      rw [List.mem_cons, not_or]
      exact ⟨fun h => h.2, fun hh => ⟨by omega, hh⟩⟩
    simp only [this]

theorem removeAll_spec : ∀ (idx : List Nat) (pre rest : List Unapplied) (k : Nat), idx.Pairwise (· < ·) →
    (∀ i ∈ idx, pre.length + k ≤ i ∧ i < pre.length + k + rest.length) →
    removeAll (pre ++ rest) k idx =
      pre ++ ((rest.zipIdx (pre.length + k)).filter fun p => decide (p.2 ∉ idx)).map Prod.fst := by
  intro idx
  induction idx with
  | nil =>
    intro pre rest k _ _
    rw [removeAll, zipIdx_keep_all [] rest _ (fun i h => by cases h)]
  | cons i idx ih =>
    intro pre rest k hs hb
    obtain ⟨h1, h2⟩ := hb i List.mem_cons_self
    obtain ⟨hs1, hs2⟩ := List.pairwise_cons.1 hs
    obtain ⟨j, hj⟩ : ∃ j, j = i - k - pre.length := ⟨_, rfl⟩
    have hjr : j < rest.length := by omega
    obtain ⟨x, hx⟩ : ∃ x, rest[j]? = some x := ⟨_, List.getElem?_eq_getElem hjr⟩
    have hrest : rest = rest.take j ++ x :: rest.drop (j + 1) := by
      have h3 := List.take_append_drop j rest
      rw [List.drop_eq_getElem_cons hjr] at h3
      obtain ⟨_, hx'⟩ := List.getElem?_eq_some_iff.1 hx
      rw [hx'] at h3
      exact h3.symm
    obtain ⟨b, hbdef⟩ : ∃ b, b = rest.drop (j + 1) := ⟨_, rfl⟩
    obtain ⟨a, hadef⟩ : ∃ a, a = rest.take j := ⟨_, rfl⟩
    rw [← hbdef, ← hadef] at hrest
    have ha : a.length = j := by rw [hadef, List.length_take]; omega
    subst hrest
    have hlen : (pre ++ a).length = i - k := by rw [List.length_append]; omega
    have he : (pre ++ (a ++ x :: b)).eraseIdx (i - k) = (pre ++ a) ++ b := by
      rw [← List.append_assoc, List.eraseIdx_append_of_length_le (by omega), hlen, Nat.sub_self]
      rfl
    rw [removeAll, he, ih (pre ++ a) b (k + 1) hs2]
    · rw [List.append_assoc]
      congr 1
      rw [List.zipIdx_append, List.filter_append, List.map_append]
      have e1 := zipIdx_keep_all (i :: idx) a (pre.length + k) (by
        intro i' hi'
        rcases List.mem_cons.1 hi' with rfl | hi'
        · omega
        · have := hs1 i' hi'; omega)
      rw [e1]
      congr 1
      rw [List.zipIdx_cons, List.filter_cons_of_neg]
      · have e2 : pre.length + k + a.length + 1 = (pre ++ a).length + (k + 1) := by rw [List.length_append]; omega
        rw [e2, zipIdx_drop_first idx i b _ (by omega)]
      · have : pre.length + k + a.length = i := by omega
        simp [this]
    · intro i' hi'
      have g1 := hs1 i' hi'
      have g2 := hb i' (List.mem_cons_of_mem _ hi')
      simp only [List.length_append, List.length_cons] at g2 hlen ⊢
      omega

theorem getLastD_max : ∀ (l : List Nat) (d : Nat), l.Pairwise (· < ·) → ∀ i ∈ l, i ≤ l.getLastD d := by
  intro l
  induction l with
  | nil => intro d _ i hi; cases hi
  | cons a l ih =>
    intro d h i hi
    obtain ⟨h1, h2⟩ := List.pairwise_cons.1 h
    cases l with
    | nil => rw [List.mem_singleton] at hi; subst hi; exact Nat.le_refl _
    | cons b l =>
      have e : (a :: b :: l).getLastD d = (b :: l).getLastD a := rfl
      rw [e]
      rcases List.mem_cons.1 hi with rfl | hi
      · exact Nat.le_trans (Nat.le_of_lt (h1 b List.mem_cons_self)) (ih _ h2 b List.mem_cons_self)
      · exact ih _ h2 i hi

theorem removeAll_keep {us : List Unapplied} {idx : List Nat} (hs : sortedUnique idx = true)
    (hl : idx.getLastD 0 < us.length) : removeAll us 0 idx = keepOthers us idx := by
  have hp := sortedUnique_pairwise idx hs
  have := removeAll_spec idx [] us 0 hp (by
    intro i hi
    have := getLastD_max idx 0 hp i hi
    simp only [List.length_nil]
    omega)
  simpa [keepOthers] using this

theorem queue_step {cfg : Cfg} {s : State} (h : Times cfg s) (op : Op) (e : Nat) :
    ((step cfg s op).1.unapplied.get e).getD [] = queueStep cfg e ((s.unapplied.get e).getD []) (s, op, (step cfg s op).2) := by
  cases op with
  | ledger op n =>
    have : (step cfg s (.ledger op n)).1.unapplied = s.unapplied := by
      simp only [step, ledgerCall]
      split
      · rfl
      · exact (clearStash_fields _ _).2.2.1
    rw [this]
    rfl
  | startEra session =>
    obtain ⟨applied, h1, h2⟩ := startEra_spec h session
    show ((startEra cfg s session).1.unapplied.get e).getD [] = queueStep cfg e _ (s, _, (startEra cfg s session).2)
    rw [h1, h2.queue]
    rfl
  | offence i j a f r =>
    have hc := onOffence_cases cfg s i j a f r
    show ((onOffence cfg s i j a f r).1.unapplied.get e).getD [] = queueStep cfg e _ (s, .offence i j a f r, (onOffence cfg s i j a f r).2)
    generalize onOffence cfg s i j a f r = x at hc
    cases hc with
    | ignored s' q hs' _ => subst hs'; rfl
    | quiet n e' hn he hi hq =>
      have hf := computeSlash_frame cfg { s with earliest := some (s.earliest.getD n) } a f e' (window cfg n) n
      simp only
      rw [hf.unapplied]
      rfl
    | slashed n e' u hn he hi hq =>
      have hf := computeSlash_frame cfg { s with earliest := some (s.earliest.getD n) } a f e' (window cfg n) n
      simp only
      rw [(enqueue_fields cfg _ n _).2.2.2.2.2.2 e, hf.unapplied]
      simp only [queueStep, hn, Option.some.injEq]
      by_cases h1 : e = n
      · subst h1; simp
      · have h2 : ¬ n = e := fun h => h1 h.symm
        simp [h1, h2]
  | cancel k e' idx =>
    simp only [step]
    cases hc : cancel s k e' idx with
    | error err => rfl
    | ok s' =>
      obtain ⟨_, _, h3, h4, rfl⟩ := cancel_ok hc
      simp only [queueStep, FMap.get_insert]
      by_cases h1 : e = e'
      · subst h1
        simp only [if_true, Option.getD_some]
        exact removeAll_keep h3 h4
      · have h2 : ¬ e' = e := fun h => h1 h.symm
        simp [h1, h2]
  | setInvulnerables l => rfl
  | setRewardProp p => rfl

theorem run_queue (cfg : Cfg) (e : Nat) (ops : List Op) : ∀ s, Times cfg s →
    ((run cfg s ops).1.unapplied.get e).getD [] = (run cfg s ops).2.foldl (queueStep cfg e) ((s.unapplied.get e).getD []) := by
  induction ops with
  | nil => intro s _; rfl
  | cons op ops ih =>
    intro s h
    simp only [run, List.foldl_cons]
    rw [ih _ (step_times h op), queue_step h op e]

/-- C42. At any time the slashes waiting that were reported in an era are those of the specification
`queueOf`: in particular nothing disappears from the queue except by cancellation or by being applied. -/
theorem C42_waiting (cfg : Cfg) (bank : Bank) (m : Balance) (ops : List Op) (e : Nat) :
    ((run cfg (genesis bank m) ops).1.unapplied.get e).getD [] = queueOf cfg e (run cfg (genesis bank m) ops).2 := by
  rw [run_queue cfg e ops _ (genesis_times cfg bank m)]
  rfl

theorem applyAll_led (cfg : Cfg) (us : List Unapplied) : ∀ s t : State, s.led = t.led →
    (applyAll cfg s us).led = (applyAll cfg t us).led := by
  induction us with
  | nil => intro s t h; exact h
  | cons u us ih =>
    intro s t h
    refine ih _ _ ?_
    unfold applySlash
    rw [h]

theorem applyAll_append (cfg : Cfg) (us vs : List Unapplied) : ∀ s, applyAll cfg s (us ++ vs) = applyAll cfg (applyAll cfg s us) vs := by
  induction us with
  | nil => intro s; rfl
  | cons u us ih => intro s; exact ih _

theorem applyEras_led (cfg : Cfg) (es : List Nat) : ∀ s, (applyEras cfg s es).1.led = (applyAll cfg s (applyEras cfg s es).2).led := by
  induction es with
  | nil => intro s; rfl
  | cons e es ih =>
    intro s
    simp only [applyEras]
    rw [ih, applyAll_append]
    refine applyAll_led cfg _ _ _ ?_
    exact applyAll_led cfg _ _ _ rfl

/-- C42. The start of an era applies, in order, exactly the slashes waiting that were reported in the era
which lies one more than the deferral duration before it, and no other. -/
theorem C42_applied (cfg : Cfg) (bank : Bank) (m : Balance) (ops : List Op) (session : Nat) :
    let s := (run cfg (genesis bank m) ops).1
    let n := match s.active with | some e => e + 1 | none => 0
    let due := if cfg.defer < n then queueOf cfg (n - cfg.defer - 1) (run cfg (genesis bank m) ops).2 else []
    (step cfg s (.startEra session)).2 = .started n due ∧
    (step cfg s (.startEra session)).1.led = (applyAll cfg s due).led := by
  intro s n due
  have h := run_times cfg ops _ (genesis_times cfg bank m)
  obtain ⟨applied, h1, h2⟩ := startEra_spec h session
  have e1 : (step cfg s (.startEra session)).2 = .started n applied := h1
  have e2 : applied = due := by
    rw [h2.applied]
    show _ = if cfg.defer < n then _ else _
    rw [← C42_waiting cfg bank m ops]
    rfl
  refine ⟨by rw [← e2]; exact e1, ?_⟩
  rw [← e2]
  have e3 : applied = (applyUnapplied cfg { s with active := some n, bondedEras := (s.bondedEras ++ [(n, session)]).drop (prunedEras cfg n (s.bondedEras ++ [(n, session)])).length, eraSlash := (prunedEras cfg n (s.bondedEras ++ [(n, session)])).foldl (fun m (p : Nat × Nat) => m.erase p.1) s.eraSlash } n).2 := by
    have : (startEra cfg s session).2 = .started n applied := h1
    unfold startEra at this
    simp only [Out.started.injEq] at this
    exact this.2.symm
  show (startEra cfg s session).1.led = _
  have e4 : (startEra cfg s session).1 = (applyUnapplied cfg { s with active := some n, bondedEras := (s.bondedEras ++ [(n, session)]).drop (prunedEras cfg n (s.bondedEras ++ [(n, session)])).length, eraSlash := (prunedEras cfg n (s.bondedEras ++ [(n, session)])).foldl (fun m (p : Nat × Nat) => m.erase p.1) s.eraSlash } n).1 := rfl
  rw [e4, e3]
  unfold applyUnapplied
  split
  · rfl
  · simp only
    rw [applyEras_led]
    exact applyAll_led cfg _ _ _ rfl

/-! ### C41 -/

theorem payEach_spec (per : Balance) : ∀ (rs : List AccId) (b : Bank), b.Inv → (∀ r ∈ rs, b.accts.contains r = true) →
    (payEach b per rs).Inv ∧ (payEach b per rs).sumAll = b.sumAll + per * rs.length ∧
    (∀ x, (payEach b per rs).free x = b.free x + per * rs.count x ∧ (payEach b per rs).reserved x = b.reserved x) ∧
    (∀ x, b.accts.contains x = true → (payEach b per rs).accts.contains x = true) := by
  intro rs
  induction rs with
  | nil => intro b h _; exact ⟨h, by simp [payEach], fun x => ⟨by simp [payEach], rfl⟩, fun _ h => h⟩
  | cons r rs ih =>
    intro b h hc
    obtain ⟨c1, c2, c3, c4⟩ := Bank.depositCreating_credit (v := per) h (Or.inl (hc r List.mem_cons_self))
    obtain ⟨i1, i2, i3, i4⟩ := ih (b.depositCreating r per) (Bank.depositCreating_inv h r per)
      (fun x hx => Bank.depositCreating_mono h r per (hc x (List.mem_cons_of_mem _ hx)))
    refine ⟨i1, ?_, ?_, ?_⟩
    · rw [payEach, i2, c1, List.length_cons, Nat.mul_add, Nat.mul_one]; omega
    · intro x
      rw [payEach, (i3 x).1, (i3 x).2]
      by_cases hx : x = r
      · subst hx
        rw [c2, c3, List.count_cons_self, Nat.mul_add, Nat.mul_one]
        exact ⟨by omega, rfl⟩
      · have := (Bank.depositCreating_ne (b := b) per hx).1
        rw [List.count_cons_of_ne (fun h => hx h.symm)]
        unfold Bank.free Bank.reserved
        rw [this]
        exact ⟨rfl, rfl⟩
    · intro x hx
      exact i4 x (Bank.depositCreating_mono h r per hx)

theorem payEach_le (per : Balance) : ∀ (rs : List AccId) (b : Bank), b.Inv →
    (payEach b per rs).Inv ∧ (payEach b per rs).sumAll ≤ b.sumAll + per * rs.length := by
  intro rs
  induction rs with
  | nil => intro b h; exact ⟨h, by simp [payEach]⟩
  | cons r rs ih =>
    intro b h
    obtain ⟨i1, i2⟩ := ih (b.depositCreating r per) (Bank.depositCreating_inv h r per)
    have := (Bank.depositCreating_le h r per).2
    refine ⟨i1, ?_⟩
    rw [List.length_cons, Nat.mul_add, Nat.mul_one]
    exact Nat.le_trans i2 (by omega)

/-- The share of each reporter. -/
def share (payout slashed : Balance) (reporters : List AccId) : Balance := min payout slashed / reporters.length

theorem payReporters_eq (t : AccId) (b : Bank) (payout slashed : Balance) (rs : List AccId) :
    ∃ c : Bank, (c = payEach b (share payout slashed rs) rs ∨ (c = b ∧ share payout slashed rs * rs.length = 0 ∧
      (rs = [] ∨ share payout slashed rs = 0))) ∧
      payReporters t b payout slashed rs = c.depositCreating t (slashed - share payout slashed rs * rs.length) := by
  unfold payReporters
  split
  · rename_i h
    have h0 : share payout slashed rs * rs.length = 0 ∧ (rs = [] ∨ share payout slashed rs = 0) := by
      rcases h with h | h
      · subst h; simp [share]
      · subst h; simp
    exact ⟨b, Or.inr ⟨rfl, h0⟩, by rw [h0.1]; rfl⟩
  · refine ⟨_, Or.inl rfl, ?_⟩
    simp only [share]
    congr 1
    have := Nat.div_mul_le_self (min payout slashed) rs.length
    omega

/-- C41. Of the amount taken from a stash every reporter gets the same share per report, all shares together
do not exceed the announced payout nor the amount taken, and the treasury gets the rest; nobody else's
balance changes, so nothing is created or lost. -/
theorem C41_reporters (t : AccId) (b : Bank) (payout slashed : Balance) (rs : List AccId) (h : b.Inv)
    (ht : b.accts.contains t = true) (hr : ∀ r ∈ rs, b.accts.contains r = true) :
    let b' := payReporters t b payout slashed rs
    let per := min payout slashed / rs.length
    per * rs.length ≤ payout ∧ per * rs.length ≤ slashed ∧
    (∀ x, b'.free x = b.free x + per * rs.count x + (if x = t then slashed - per * rs.length else 0) ∧
      b'.reserved x = b.reserved x) ∧
    b'.sumAll = b.sumAll + slashed := by
  intro b' per
  have hle : per * rs.length ≤ min payout slashed := Nat.div_mul_le_self _ _
  obtain ⟨c, hc, hb⟩ := payReporters_eq t b payout slashed rs
  have hcs : c.Inv ∧ c.sumAll = b.sumAll + per * rs.length ∧
      (∀ x, c.free x = b.free x + per * rs.count x ∧ c.reserved x = b.reserved x) ∧ c.accts.contains t = true := by
    rcases hc with rfl | ⟨rfl, h0, h1⟩
    · obtain ⟨i1, i2, i3, i4⟩ := payEach_spec per rs b h hr
      exact ⟨i1, i2, i3, i4 t ht⟩
    · refine ⟨h, by rw [show per * rs.length = 0 from h0]; rfl, fun x => ⟨?_, rfl⟩, ht⟩
      rcases h1 with rfl | h1
      · simp
      · rw [show per = 0 from h1]; simp
  obtain ⟨c1, c2, c3, c4⟩ := hcs
  obtain ⟨d1, d2, d3, _⟩ := Bank.depositCreating_credit (v := slashed - per * rs.length) c1 (Or.inl c4)
  refine ⟨by omega, by omega, ?_, ?_⟩
  · intro x
    show (payReporters t b payout slashed rs).free x = _ ∧ (payReporters t b payout slashed rs).reserved x = _
    rw [hb]
    by_cases hx : x = t
    · subst hx
      rw [if_pos rfl]
      exact ⟨by rw [← (c3 x).1]; exact d2, by rw [← (c3 x).2]; exact d3⟩
    · have := (Bank.depositCreating_ne (b := c) (slashed - share payout slashed rs * rs.length) hx).1
      rw [if_neg hx]
      have f1 : (c.depositCreating t (slashed - share payout slashed rs * rs.length)).free x = c.free x := by
        unfold Bank.free; rw [this]
      have f2 : (c.depositCreating t (slashed - share payout slashed rs * rs.length)).reserved x = c.reserved x := by
        unfold Bank.reserved; rw [this]
      rw [f1, f2, (c3 x).1, (c3 x).2]
      exact ⟨rfl, rfl⟩
  · show (payReporters t b payout slashed rs).sumAll = _
    rw [hb]
    have : (c.depositCreating t (slashed - per * rs.length)).sumAll = c.sumAll + (slashed - per * rs.length) := d1
    rw [show share payout slashed rs = per from rfl, this, c2]
    omega

theorem inv_frozen {b : Bank} (h : b.Inv) (f : AccId → Balance) : ({ b with frozen := f } : Bank).Inv :=
  ⟨h.edPos, h.issuance, h.noDust⟩

theorem slash_sum {b : Bank} (h : b.Inv) (a : AccId) (v : Balance) :
    (b.slash a v).1.sumAll + (b.slash a v).2 ≤ b.sumAll := by
  unfold Bank.slash
  split
  · exact Nat.le_refl _
  · simp only
    have hle : (if b.canDie a = true then min v (b.free a) else min v (b.free a - b.ed)) ≤ b.free a := by
      split <;> omega
    generalize (if b.canDie a = true then min v (b.free a) else min v (b.free a - b.ed)) = t at hle
    have hs := Bank.sumAll_put { b with issuance := b.issuance - t } a ⟨b.free a - t, b.reserved a⟩
    have e1 : Bank.total { b with issuance := b.issuance - t } a = b.free a + b.reserved a := rfl
    have e2 : Bank.sumAll { b with issuance := b.issuance - t } = b.sumAll := rfl
    rw [e1, e2] at hs
    simp only at hs
    split at hs <;> omega

/-- A slash takes its amount from the account, and at most dust beyond it. -/
theorem slash_free {b : Bank} (h : b.Inv) (a : AccId) (v : Balance) :
    (b.slash a v).1.free a + (b.slash a v).2 ≤ b.free a ∧ b.free a < (b.slash a v).1.free a + (b.slash a v).2 + b.ed := by
  have hed := h.edPos
  unfold Bank.slash
  split
  · simp only; omega
  · simp only
    have hle : (if b.canDie a = true then min v (b.free a) else min v (b.free a - b.ed)) ≤ b.free a := by
      split <;> omega
    generalize (if b.canDie a = true then min v (b.free a) else min v (b.free a - b.ed)) = t at hle
    have hs := Bank.acct_put_self { b with issuance := b.issuance - t } a ⟨b.free a - t, b.reserved a⟩
    unfold Bank.free at *
    rw [hs]
    simp only
    split
    · rename_i hd
      have := hd.1
      simp only at this ⊢
      omega
    · simp only; omega

theorem setLock_bank (cfg : Ledger.Cfg) (s : Ledger.State) (a : AccId) (v : Balance) :
    ∃ f, (Ledger.setLock cfg s a v).bank = { s.bank with frozen := f } := by
  unfold Ledger.setLock
  split
  · exact ⟨s.bank.frozen, rfl⟩
  · exact ⟨_, rfl⟩

theorem put_contains_ne (b : Bank) {a x : AccId} (v : Acct) (h : x ≠ a) :
    (b.put a v).accts.contains x = b.accts.contains x := by
  unfold Bank.put FMap.contains
  split
  · rw [FMap.get_erase_ne _ h]
  · rw [FMap.get_insert_ne _ _ h]

/-- What applying a slash does to the bank before reporters are paid. -/
theorem doSlash_bank (cfg : Ledger.Cfg) (s : Ledger.State) (a : AccId) (v : Balance) :
    ∃ f cut, (Ledger.doSlash cfg s a v).1.bank = { (s.bank.slash a cut).1 with frozen := f } ∧
      (slashAmounts (Ledger.doSlash cfg s a v).2).2 = (s.bank.slash a cut).2 ∧
      (slashAmounts (Ledger.doSlash cfg s a v).2).1 = cut := by
  unfold Ledger.doSlash
  have h0 : s.bank.slash a 0 = (s.bank, 0) := by simp [Bank.slash]
  have hno : ∃ f cut, s.bank = { (s.bank.slash a cut).1 with frozen := f } ∧ 0 = (s.bank.slash a cut).2 ∧ 0 = cut :=
    ⟨s.bank.frozen, 0, by rw [h0], by rw [h0], rfl⟩
  split
  · exact hno
  split
  · exact hno
  simp only
  split
  · exact hno
  · rename_i l hl _
    obtain ⟨f, hf⟩ := setLock_bank cfg { s with bank := (s.bank.slash a (Ledger.slashLedger l v s.bank.ed).2).1 }
      (Ledger.slashLedger l v s.bank.ed).1.stash (Ledger.slashLedger l v s.bank.ed).1.total
    exact ⟨f, (Ledger.slashLedger l v s.bank.ed).2, hf, rfl, rfl⟩

/-- C41. Applying a slash, whatever its payout and reporters: the total of all balances never grows; the
money comes out of the stash of the offender only; and if the treasury and the reporters have accounts,
the amount `taken` leaves the stash (which may in addition lose a remainder below the existential deposit),
and every other account changes exactly by its shares and the treasury's remainder of that amount, with all
shares together at most the payout. -/
theorem C41_apply (cfg : Cfg) (s : State) (u : Unapplied) (h : s.led.bank.Inv) :
    let s' := applySlash cfg s u
    s'.led.bank.Inv ∧ s'.led.bank.sumAll ≤ s.led.bank.sumAll ∧
    (cfg.treasury ≠ u.validator → s.led.bank.accts.contains cfg.treasury = true →
      (∀ r ∈ u.reporters, r ≠ u.validator ∧ s.led.bank.accts.contains r = true) →
      ∃ taken per, s'.led.bank.free u.validator + taken ≤ s.led.bank.free u.validator ∧
        s.led.bank.free u.validator < s'.led.bank.free u.validator + taken + s.led.bank.ed ∧
        per * u.reporters.length ≤ u.payout ∧ per * u.reporters.length ≤ taken ∧
        ∀ x, x ≠ u.validator → s'.led.bank.free x = s.led.bank.free x + per * u.reporters.count x +
          (if x = cfg.treasury then taken - per * u.reporters.length else 0)) := by
  intro s'
  obtain ⟨f, cut, h1, h2, h3⟩ := doSlash_bank cfg.led s.led u.validator u.own
  have hb : s'.led.bank = payReporters cfg.treasury { (s.led.bank.slash u.validator cut).1 with frozen := f }
      (u.payout - (cut - (s.led.bank.slash u.validator cut).2)) (s.led.bank.slash u.validator cut).2 u.reporters := by
    show payReporters _ _ _ _ _ = _
    rw [h1, h2, h3]
  have hi : ({ (s.led.bank.slash u.validator cut).1 with frozen := f } : Bank).Inv := inv_frozen (Bank.slash_inv h _ _) f
  have hsum : ({ (s.led.bank.slash u.validator cut).1 with frozen := f } : Bank).sumAll + (s.led.bank.slash u.validator cut).2 ≤
      s.led.bank.sumAll := slash_sum h u.validator cut
  rw [hb]
  refine ⟨?_, ?_, ?_⟩
  · obtain ⟨c, hc, he⟩ := payReporters_eq cfg.treasury { (s.led.bank.slash u.validator cut).1 with frozen := f }
      (u.payout - (cut - (s.led.bank.slash u.validator cut).2)) (s.led.bank.slash u.validator cut).2 u.reporters
    rw [he]
    apply Bank.depositCreating_inv
    rcases hc with rfl | ⟨rfl, _⟩
    · exact (payEach_le _ _ _ hi).1
    · exact hi
  · obtain ⟨c, hc, he⟩ := payReporters_eq cfg.treasury { (s.led.bank.slash u.validator cut).1 with frozen := f }
      (u.payout - (cut - (s.led.bank.slash u.validator cut).2)) (s.led.bank.slash u.validator cut).2 u.reporters
    rw [he]
    have hle : share (u.payout - (cut - (s.led.bank.slash u.validator cut).2)) (s.led.bank.slash u.validator cut).2 u.reporters *
        u.reporters.length ≤ (s.led.bank.slash u.validator cut).2 :=
      Nat.le_trans (Nat.div_mul_le_self _ _) (Nat.min_le_right _ _)
    have hcs : c.Inv ∧ c.sumAll ≤ ({ (s.led.bank.slash u.validator cut).1 with frozen := f } : Bank).sumAll +
        share (u.payout - (cut - (s.led.bank.slash u.validator cut).2)) (s.led.bank.slash u.validator cut).2 u.reporters * u.reporters.length := by
      rcases hc with rfl | ⟨rfl, _⟩
      · exact payEach_le _ _ _ hi
      · exact ⟨hi, Nat.le_add_right _ _⟩
    have := (Bank.depositCreating_le hcs.1 cfg.treasury ((s.led.bank.slash u.validator cut).2 -
      share (u.payout - (cut - (s.led.bank.slash u.validator cut).2)) (s.led.bank.slash u.validator cut).2 u.reporters * u.reporters.length)).2
    omega
  · intro hta ht hr
    have hne : ∀ x, x ≠ u.validator → (s.led.bank.slash u.validator cut).1.acct x = s.led.bank.acct x ∧
        (s.led.bank.slash u.validator cut).1.accts.contains x = s.led.bank.accts.contains x := by
      intro x hx
      unfold Bank.slash
      split
      · exact ⟨rfl, rfl⟩
      · simp only
        refine ⟨?_, ?_⟩
        · rw [Bank.acct_put_ne _ _ hx]; rfl
        · rw [put_contains_ne _ _ hx]
    obtain ⟨a1, a2, a3, _⟩ := C41_reporters cfg.treasury { (s.led.bank.slash u.validator cut).1 with frozen := f }
      (u.payout - (cut - (s.led.bank.slash u.validator cut).2)) (s.led.bank.slash u.validator cut).2 u.reporters hi
      (by rw [show FMap.contains _ cfg.treasury = _ from (hne _ hta).2]; exact ht)
      (fun r hr' => by rw [show FMap.contains _ r = _ from (hne _ (hr r hr').1).2]; exact (hr r hr').2)
    have hv : ({ (s.led.bank.slash u.validator cut).1 with frozen := f } : Bank).free u.validator =
        (s.led.bank.slash u.validator cut).1.free u.validator := rfl
    obtain ⟨v1, v2⟩ := slash_free h u.validator cut
    have hcount : u.reporters.count u.validator = 0 := List.count_eq_zero.2 fun hm => (hr _ hm).1 rfl
    refine ⟨(s.led.bank.slash u.validator cut).2, _, ?_, ?_, Nat.le_trans a1 (Nat.sub_le _ _), a2, ?_⟩
    · rw [(a3 u.validator).1, hcount, if_neg (fun e => hta e.symm), hv]; simpa using v1
    · rw [(a3 u.validator).1, hcount, if_neg (fun e => hta e.symm), hv]; simpa using v2
    intro x hx
    rw [(a3 x).1]
    have : ({ (s.led.bank.slash u.validator cut).1 with frozen := f } : Bank).free x = s.led.bank.free x := by
      show ((s.led.bank.slash u.validator cut).1.acct x).free = _
      rw [(hne x hx).1]
      rfl
    rw [this]

/-! ### Examples -/

def exCfg : Cfg := ⟨⟨3, 32, false⟩, 1, 99, fun _ a => if a = 1 then ⟨500, 500, [7]⟩ else ⟨0, 0, []⟩⟩

def exBank : Bank :=
  { ed := 1, accts := (((∅ : FMap AccId Acct).insert 1 ⟨1000, 0⟩).insert 99 ⟨10, 0⟩).insert 5 ⟨10, 0⟩, frozen := fun _ => 0, pinned := fun _ => true, issuance := 1020 }

/-- Validator 1 has bonded 500; in era 1 two offences of era 1 are reported by account 5, first with 10%,
then with 40%. -/
def exOps : List Op :=
  [.setRewardProp 100000000, .ledger (.bond 1 2 500 .staked true) 0, .startEra 0, .startEra 6,
    .offence 6 7 1 100000000 [5], .offence 6 8 1 400000000 [5]]

example :
    let s := (run exCfg (genesis exBank 10) exOps).1
    s.spans.get 1 = some ⟨1, 2, 1, [2]⟩ ∧ (Spans.iter ⟨1, 2, 1, [2]⟩) = [⟨1, 2, none⟩, ⟨0, 0, some 2⟩] ∧
    s.unapplied.get 1 = some [⟨1, 50, [7], [5], 2⟩, ⟨1, 150, [7], [5], 9⟩] ∧ s.records.get (1, 0) = some ⟨200, 11⟩ := by
  decide +kernel

/-- Two eras later both are applied; a cancellation of the first leaves the second. -/
example :
    let s := (run exCfg (genesis exBank 10) (exOps ++ [.startEra 12, .startEra 18])).1
    s.led.bank.free 1 = 800 ∧ s.led.bank.free 5 = 21 ∧ s.led.bank.free 99 = 199 ∧
    (run exCfg (genesis exBank 10) (exOps ++ [.cancel true 1 [0]])).1.unapplied.get 1 = some [⟨1, 150, [7], [5], 9⟩] := by
  decide +kernel

end Verif.Slashing
