import Verif.Evw.Proofs

/-!
# C13: event workers deliver each accepted post exactly once

Theorems about every interleaving of any number of threads posting, cancelling and flushing with the worker.
-/

namespace Verif.Evw

theorem run_append (s : St) (as bs : List Act) : run s (as ++ bs) = match run s as with
    | .ok s' => run s' bs
    | o => o := by
  induction as generalizing s with
  | nil => rfl
  | cons a as ih =>
    simp only [List.cons_append, run]
    cases h : step s a with
    | ok s' => simp only; exact ih s'
    | stuck => rfl
    | ub => rfl

theorem run_inv {as : List Act} : ∀ {s s' : St}, Inv s → run s as = .ok s' → Inv s' := by
  induction as with
  | nil => intro s s' hi h; simp only [run] at h; injection h with h; subst h; exact hi
  | cons a as ih =>
    intro s s' hi h
    simp only [run] at h
    cases hs : step s a with
    | ok t => rw [hs] at h; exact ih (step_inv hi hs) h
    | stuck => rw [hs] at h; cases h
    | ub => rw [hs] at h; cases h

theorem Reachable.inv {s : St} (h : Reachable s) : Inv s := by
  obtain ⟨as, h⟩ := h; exact run_inv inv_init h

theorem Reachable.run {s s' : St} {as : List Act} (h : Reachable s) (hr : run s as = .ok s') : Reachable s' := by
  obtain ⟨bs, hb⟩ := h
  refine ⟨bs ++ as, ?_⟩
  rw [run_append, hb]; exact hr

/-- **C13, exactly once.** At any moment, for every event: the posts that returned 0 are the calls of the actor
plus what is still queued plus what the worker has in hand; and an event is queued at most once. -/
theorem ev_exactly_once {s : St} (h : Reachable s) (e : Nat) :
    accepted e s.log = delivered e s.log + queued e s + inHand e s ∧ queued e s ≤ 1 ∧ inHand e s ≤ 1 := by
  have hi := h.inv
  refine ⟨hi.count e, ?_, ?_⟩
  · have hn := hi.nodup
    unfold busy at hn
    rw [← List.append_assoc, List.nodup_append] at hn
    have := List.nodup_iff_count.1 hn.1 e
    rw [List.count_append] at this
    exact this
  · unfold inHand; split <;> omega

/-- actions of the worker thread, and semaphore posts already owed to it -/
def Worker : Act → Prop
  | .wake _ | .popImm | .toStart _ | .popTo _ | .call | .toDone _ | .semPost => True
  | _ => False

/-- nothing is left to do at time `now` -/
def Idle (s : St) (now : Ts) : Prop := s.list = [] ∧ s.cur = none ∧ ∀ e ∈ s.tree, (s.to e).le now = false

theorem drain_imm : ∀ (n : Nat) (s : St), s.list.length = n → s.pc = .imm → s.cur = none →
    ∃ as s', (∀ a ∈ as, Worker a) ∧ run s as = .ok s' ∧ s'.pc = .imm ∧ s'.cur = none ∧ s'.list = [] := by
  intro n
  induction n with
  | zero =>
    intro s hl hp hc
    exact ⟨[], s, by simp, rfl, hp, hc, List.eq_nil_of_length_eq_zero hl⟩
  | succ n ih =>
    intro s hl hp hc
    match hls : s.list with
    | [] => rw [hls] at hl; simp at hl
    | (e, b) :: r =>
      obtain ⟨t, ht, hp2, hc2, hl2⟩ : ∃ t, run s [.popImm, .call] = .ok t ∧ t.pc = .imm ∧ t.cur = none ∧ t.list = r := by
        simp only [run, step, hp, hc, hls, and_self, if_true]
        refine ⟨_, rfl, rfl, rfl, rfl⟩
      obtain ⟨as, s', h1, h2, h3, h4, h5⟩ := ih t (by rw [hl2]; rw [hls] at hl; simpa using hl) hp2 hc2
      refine ⟨[.popImm, .call] ++ as, s', ?_, ?_, h3, h4, h5⟩
      · intro a ha
        rcases List.mem_append.1 ha with ha | ha
        · simp at ha; rcases ha with rfl | rfl <;> trivial
        · exact h1 a ha
      · rw [run_append, ht]; exact h2

theorem drain_tos (now : Ts) : ∀ (n : Nat) (s : St), s.tree.length = n → s.pc = .tos now → s.cur = none →
    ∃ as s', (∀ a ∈ as, Worker a) ∧ run s as = .ok s' ∧ s'.pc = .sleep ∧ s'.cur = none ∧ s'.list = s.list ∧
      (∀ e ∈ s'.tree, (s'.to e).le now = false) ∧ s'.flushing = false := by
  intro n
  induction n with
  | zero =>
    intro s hl hp hc
    have ht : s.tree = [] := List.eq_nil_of_length_eq_zero hl
    have hs : ∃ t, run s [.toDone ⟨0, 0⟩] = .ok t ∧ t.pc = .sleep ∧ t.cur = none ∧ t.list = s.list ∧
        t.tree = [] ∧ t.flushing = false := by
      simp only [run, step, hp]
      rw [if_pos ⟨hc, fun _ => ht, by simp [ht]⟩]
      exact ⟨_, rfl, rfl, hc, rfl, ht, rfl⟩
    obtain ⟨t, h1, h2, h3, h4, h5, h6⟩ := hs
    exact ⟨_, t, by simp [Worker], h1, h2, h3, h4, by simp [h5], h6⟩
  | succ n ih =>
    intro s hl hp hc
    obtain ⟨e, he, hm⟩ := exists_min s.to s.tree (by rintro h; rw [h] at hl; simp at hl)
    by_cases hd : s.flushing = true ∨ (s.to e).le now = true
    · have hs : ∃ t, run s [.popTo e, .call] = .ok t ∧ t.pc = .tos now ∧ t.cur = none ∧ t.list = s.list ∧
          t.tree = s.tree.erase e := by
        simp only [run, step, hp]
        rw [if_pos ⟨hc, he, hm, hd⟩]
        exact ⟨_, rfl, rfl, rfl, rfl, rfl⟩
      obtain ⟨t, h1, h2, h3, h4, h5⟩ := hs
      obtain ⟨as, s', k1, k2, k3, k4, k5, k6, k7⟩ := ih t (by rw [h5, List.length_erase_of_mem he]; omega) h2 h3
      refine ⟨[.popTo e, .call] ++ as, s', ?_, ?_, k3, k4, by rw [k5, h4], k6, k7⟩
      · intro a ha
        rcases List.mem_append.1 ha with ha | ha
        · simp at ha; rcases ha with rfl | rfl <;> trivial
        · exact k1 a ha
      · rw [run_append, h1]; exact k2
    · have hall : ∀ x ∈ s.tree, (s.to x).le now = false := by
        intro x hx
        cases hq : (s.to x).le now with
        | false => rfl
        | true => exact absurd (Or.inr (Ts.le_trans (hm x hx) hq)) hd
      have hs : ∃ t, run s [.toDone ⟨0, 0⟩] = .ok t ∧ t.pc = .sleep ∧ t.cur = none ∧ t.list = s.list ∧
          t.tree = s.tree ∧ t.to = s.to ∧ t.flushing = false := by
        simp only [run, step, hp]
        rw [if_pos ⟨hc, fun h => absurd (Or.inl h) hd, hall⟩]
        exact ⟨_, rfl, rfl, hc, rfl, rfl, rfl, rfl⟩
      obtain ⟨t, h1, h2, h3, h4, h5, h6, h7⟩ := hs
      exact ⟨_, t, by simp [Worker], h1, h2, h3, h4, by rw [h5, h6]; exact hall, h7⟩

theorem drain_from_imm (now : Ts) (s : St) (hp : s.pc = .imm) (hc : s.cur = none) :
    ∃ as s', (∀ a ∈ as, Worker a) ∧ run s as = .ok s' ∧ Idle s' now := by
  obtain ⟨as, t, h1, h2, h3, h4, h5⟩ := drain_imm _ s rfl hp hc
  have hs : ∃ u, run t [.toStart now] = .ok u ∧ u.pc = .tos now ∧ u.cur = none ∧ u.list = [] := by
    simp only [run, step, h3, h4, h5, and_self, if_true]
    exact ⟨_, rfl, rfl, rfl, rfl⟩
  obtain ⟨u, k1, k2, k3, k4⟩ := hs
  obtain ⟨bs, v, m1, m2, m3, m4, m5, m6, _⟩ := drain_tos now _ u rfl k2 k3
  refine ⟨as ++ ([.toStart now] ++ bs), v, ?_, ?_, by rw [m5, k4], m4, m6⟩
  · intro a ha
    rcases List.mem_append.1 ha with ha | ha
    · exact h1 a ha
    · rcases List.mem_append.1 ha with ha | ha
      · simp at ha; subst ha; trivial
      · exact m1 a ha
  · rw [run_append, h2]
    simp only
    rw [run_append, k1]; exact m2

theorem drain_from_sleep (now : Ts) (s : St) (hr : Reachable s) (hp : s.pc = .sleep) (hc : s.cur = none) :
    ∃ as s', (∀ a ∈ as, Worker a) ∧ run s as = .ok s' ∧ Idle s' now := by
  by_cases hidle : Idle s now
  · exact ⟨[], s, by simp, rfl, hidle⟩
  · have hw : ∃ as t, (∀ a ∈ as, Worker a) ∧ run s as = .ok t ∧ t.pc = .imm ∧ t.cur = none := by
      by_cases hsem : 0 < s.sem
      · refine ⟨[.wake now], { s with sem := s.sem - 1, pc := .imm }, by simp [Worker], ?_, rfl, hc⟩
        simp only [run, step, hp, or_true, if_true, hsem]
      · by_cases how : s.owed = 0
        · rcases hr.inv.wake hp with h | ⟨h1, _, h3⟩
          · omega
          · have : ∃ e ∈ s.tree, (s.to e).le now = true := by
              refine Classical.byContradiction fun hne => hidle ⟨h1, hc, ?_⟩
              intro e he
              cases hq : (s.to e).le now with
              | false => rfl
              | true => exact absurd ⟨e, he, hq⟩ hne
            obtain ⟨e, he, hq⟩ := this
            refine ⟨[.wake now], { s with pc := .imm }, by simp [Worker], ?_, rfl, hc⟩
            simp only [run, step, hp, or_true, if_true]
            rw [if_neg hsem, if_pos (Or.inl (Ts.le_trans (h3 e he) hq))]
        · refine ⟨[.semPost, .wake now], { s with owed := s.owed - 1, sem := s.sem + 1 - 1, pc := .imm },
            by simp [Worker], ?_, rfl, hc⟩
          simp only [run, step, how, if_false, hp, or_true, if_true, Nat.succ_pos]
    obtain ⟨as, t, h1, h2, h3, h4⟩ := hw
    obtain ⟨bs, u, k1, k2, k3⟩ := drain_from_imm now t h3 h4
    refine ⟨as ++ bs, u, ?_, by rw [run_append, h2]; exact k2, k3⟩
    intro a ha
    rcases List.mem_append.1 ha with ha | ha
    · exact h1 a ha
    · exact k1 a ha

/-- **C13, nothing is stuck.** Whatever happened so far, the running worker can always go on by itself to the
point where every queued event without a timeout and every event due at time `now` has been handed to its actor
(by `ev_exactly_once`: the posts accepted are then the calls made plus timers not yet due).  In particular a
sleeping worker that has something due is woken: no wakeup is lost. -/
theorem ev_worker_drains {s : St} (hr : Reachable s) (hst : s.pc ≠ .start) (now : Ts)
    (hn : s.pc = .nap → s.semWait.le now = true) :
    ∃ as s', (∀ a ∈ as, Worker a) ∧ run s as = .ok s' ∧ Idle s' now := by
  obtain ⟨cs, t, c1, c2, c3, c4, c5⟩ : ∃ cs t, (∀ a ∈ cs, Worker a) ∧ run s cs = .ok t ∧ t.cur = none ∧
      t.pc = s.pc ∧ t.semWait = s.semWait := by
    cases hc : s.cur with
    | none => exact ⟨[], s, by simp, rfl, hc, rfl, rfl⟩
    | some x =>
      obtain ⟨e, b⟩ := x
      exact ⟨[.call], { s with cur := none, log := .delivered e (s.status e) b :: s.log }, by simp [Worker],
        by simp only [run, step, hc], rfl, rfl, rfl⟩
  have hrt : Reachable t := hr.run c2
  have fin : (∃ as s', (∀ a ∈ as, Worker a) ∧ run t as = .ok s' ∧ Idle s' now) →
      ∃ as s', (∀ a ∈ as, Worker a) ∧ run s as = .ok s' ∧ Idle s' now := by
    rintro ⟨as, u, h1, h2, h3⟩
    refine ⟨cs ++ as, u, ?_, by rw [run_append, c2]; exact h2, h3⟩
    intro a ha
    rcases List.mem_append.1 ha with ha | ha
    · exact c1 a ha
    · exact h1 a ha
  apply fin
  rw [← c4] at hst hn
  rw [← c5] at hn
  cases hp : t.pc with
  | start => exact absurd hp hst
  | imm => exact drain_from_imm now t hp c3
  | sleep => exact drain_from_sleep now t hrt hp c3
  | nap =>
    obtain ⟨u, h1, h2, h3⟩ : ∃ u, run t [.wake now] = .ok u ∧ u.pc = .imm ∧ u.cur = none := by
      simp only [run, step, hp, true_or, if_true]
      by_cases hs : 0 < t.sem
      · rw [if_pos hs]; exact ⟨_, rfl, rfl, c3⟩
      · rw [if_neg hs, if_pos (Or.inl (hn hp))]; exact ⟨_, rfl, rfl, c3⟩
    obtain ⟨as, v, k1, k2, k3⟩ := drain_from_imm now u h2 h3
    refine ⟨[.wake now] ++ as, v, ?_, by rw [run_append, h1]; exact k2, k3⟩
    intro a ha
    rcases List.mem_append.1 ha with ha | ha
    · simp at ha; subst ha; trivial
    · exact k1 a ha
  | tos n0 =>
    obtain ⟨as, u, h1, h2, h3, h4, _, _, _⟩ := drain_tos n0 _ t rfl hp c3
    obtain ⟨bs, v, k1, k2, k3⟩ := drain_from_sleep now u (hrt.run h2) h3 h4
    refine ⟨as ++ bs, v, ?_, by rw [run_append, h2]; exact k2, k3⟩
    intro a ha
    rcases List.mem_append.1 ha with ha | ha
    · exact h1 a ha
    · exact k1 a ha

/-- **C13, no lost wakeup.** A sleeping worker either has a semaphore post waiting or on its way, or has no
event without a timeout, no flush to do, and will time out no later than its earliest timer. -/
theorem ev_no_lost_wakeup {s : St} (hr : Reachable s) (hp : s.pc = .sleep) :
    0 < s.sem + s.owed ∨ (s.list = [] ∧ s.flushing = false ∧ ∀ e ∈ s.tree, s.semWait.le (s.to e) = true) :=
  hr.inv.wake hp

/-- **C13, EBUSY.** A post is refused at once iff the event is queued or another thread is in the middle of
posting it. -/
theorem ev_post_busy_iff {s : St} (hr : Reachable s) (e : Nat) (to : Option Ts) :
    (∃ s', step s (.cas e to) = .ok s' ∧ s'.log = .refused e :: s.log) ↔
      (1 ≤ queued e s ∨ e ∈ s.claims.map (·.1)) := by
  have hi := hr.inv
  have hb : s.posted e = true ↔ (1 ≤ queued e s ∨ e ∈ s.claims.map (·.1)) := by
    rw [hi.posted]
    simp only [busy, List.mem_append, queued, ← List.count_pos_iff (l := s.list.map (·.1)),
      ← List.count_pos_iff (l := s.tree)]
    rw [← or_assoc]
    constructor
    · rintro (h | h)
      · exact Or.inl (by omega)
      · exact Or.inr h
    · rintro (h | h)
      · exact Or.inl (by omega)
      · exact Or.inr h
  rw [← hb]
  simp only [step]
  constructor
  · rintro ⟨s', h, hl⟩
    split at h
    · assumption
    · injection h with h; subst h
      exact absurd (congrArg List.length hl) (by simp)
  · intro h; simp [h]

/-- **C13, flush in progress.** Once past the compare-and-swap, a post is refused iff the worker is flushing,
and it leaves the event unposted. -/
theorem ev_post_refused_iff_flushing {s s' : St} {e : Nat} (h : step s (.enq e) = .ok s') :
    (s'.log = .refused e :: s.log ↔ s.flushing = true) ∧ (s.flushing = true → s'.posted e = false) := by
  simp only [step] at h
  split at h
  · cases h
  · split at h
    · rename_i hf
      injection h with h; subst h
      simp [hf]
    · rename_i hf
      injection h with h; subst h
      simp [hf]

/-- **C13, order.** The events posted without a timeout reach the actor in the order in which their posts
returned: what was accepted is what was delivered, then the one in hand, then the queue. -/
theorem ev_immediate_fifo {s : St} (hr : Reachable s) : ∃ rest, immAccepted s.log = immDelivered s.log ++ rest ∧
    (s.list = [] → s.cur = none → rest = []) := by
  refine ⟨_, hr.inv.fifo, ?_⟩
  intro h1 h2; simp [h1, h2]

/-- the time in nanoseconds -/
def Ts.ns (t : Ts) : Nat := t.sec * 1000000000 + t.nsec

/-- **C13, not early.** Outside a flush a timer is taken only at or after its time, provided its nanosecond
field is below 10^9 (as the clock's is). -/
theorem ev_timer_not_early_partial {s : St} (hr : Reachable s) {e : Nat} {to now : Ts}
    (h : Obs.fired e to now false ∈ s.log) (h1 : to.nsec < 1000000000) : to.ns ≤ now.ns := by
  have := hr.inv.fired e to now false h
  simp only [Bool.false_eq_true, false_or, Ts.le_iff] at this
  unfold Ts.ns
  omega

/-- `ev_sched_to` (evw.c:123-128): the caller's usual way to make a timeout -/
def schedTo (now : Ts) (secs nsecs : Nat) : Ts := ⟨now.sec + secs, now.nsec + nsecs⟩

/-- the intended time -/
theorem schedTo_ns (now : Ts) (secs nsecs : Nat) : (schedTo now secs nsecs).ns = now.ns + secs * 1000000000 + nsecs := by
  unfold schedTo Ts.ns; simp only; omega

/-- **Defect.** `ev_sched_to` does not carry nanoseconds into seconds; a timer set for 0.9 s after 100.9 s fires
at 101.0 s instead of 101.8 s. -/
theorem ev_timer_early_defect : ∃ s, Reachable s ∧ ∃ e now, now.nsec < 1000000000 ∧
    Obs.fired e (schedTo ⟨100, 900000000⟩ 0 900000000) now false ∈ s.log ∧
    now.ns + 800000000 = (schedTo ⟨100, 900000000⟩ 0 900000000).ns := by
  refine ⟨_, ⟨[.start ⟨100, 0⟩, .cas 1 (some (schedTo ⟨100, 900000000⟩ 0 900000000)), .enq 1, .wake ⟨101, 0⟩,
    .toStart ⟨101, 0⟩, .popTo 1], rfl⟩, 1, ⟨101, 0⟩, by decide, List.mem_cons_self, by decide⟩

/-- **C13, timers in order.** The timer taken is one with the smallest time among those queued. -/
theorem ev_timer_earliest {s s' : St} {e : Nat} (h : step s (.popTo e) = .ok s') :
    e ∈ s.tree ∧ ∀ x ∈ s.tree, (s.to e).sec < (s.to x).sec ∨
      ((s.to e).sec = (s.to x).sec ∧ (s.to e).nsec ≤ (s.to x).nsec) := by
  simp only [step] at h
  split at h
  · split at h
    · rename_i hg
      exact ⟨hg.2.1, fun x hx => (Ts.le_iff _ _).1 (hg.2.2.1 x hx)⟩
    · cases h
  · cases h

/-- actions that write the status of `e` -/
def touches (e : Nat) : Act → Bool
  | .cas x _ => x = e
  | .cancel x _ => x = e
  | _ => false

/-- **C13, flushed events, partial.** An event taken while the worker is flushing reaches the actor with status
FLUSH, provided nobody posts it again between the worker's taking it and its calling the actor.
Missing: re-posts in that window (`ev_repost_hides_flush_defect`). -/
theorem ev_flush_status_partial {s s' : St} {e : Nat} {a : Act} {as : List Act} {b : Bool}
    (hf : s.flushing = true) (ha : a = .popImm ∨ a = .popTo e)
    (hs : step s a = .ok s') (hc : s'.cur = some (e, b)) (hn : ∀ x ∈ as, touches e x = false)
    (hnc : Act.call ∉ as) {t : St} (hr : run s' (as ++ [.call]) = .ok t) :
    ∃ l, t.log = .delivered e .flush b :: l := by
  have h0 : s'.status e = .flush := by
    rcases ha with rfl | rfl
    · simp only [step] at hs
      split at hs
      · split at hs
        · cases hs
        · injection hs with hs; subst hs
          simp only at hc; injection hc with hc; injection hc with hc _; subst hc
          simp
      · cases hs
    · simp only [step] at hs
      split at hs
      · split at hs
        · injection hs with hs; subst hs
          simp
        · cases hs
      · cases hs
  clear hs ha hf s
  induction as generalizing s' with
  | nil =>
    simp only [List.nil_append, run, step, hc] at hr
    injection hr with hr; subst hr
    exact ⟨_, by rw [h0]⟩
  | cons a as ih =>
    simp only [List.cons_append, run] at hr
    cases hst : step s' a with
    | stuck => rw [hst] at hr; cases hr
    | ub => rw [hst] at hr; cases hr
    | ok u =>
      rw [hst] at hr
      have hta := hn a List.mem_cons_self
      have hna : a ≠ .call := fun h => hnc (by rw [h]; exact List.mem_cons_self)
      have hu : u.cur = some (e, b) ∧ u.status e = .flush := by
        cases a with
        | cas x to =>
          simp only [touches, decide_eq_false_iff_not] at hta
          simp only [step] at hst
          split at hst
          · injection hst with h; subst h; exact ⟨hc, h0⟩
          · injection hst with h; subst h
            exact ⟨hc, by simp only [upd_ne _ _ (Ne.symm hta)]; exact h0⟩
        | enq x =>
          simp only [step] at hst
          split at hst
          · cases hst
          · split at hst <;> (injection hst with h; subst h; exact ⟨hc, h0⟩)
        | cancel x now =>
          simp only [touches, decide_eq_false_iff_not] at hta
          simp only [step] at hst
          split at hst
          · cases hst
          · split at hst
            · injection hst with h; subst h; exact ⟨hc, h0⟩
            · split at hst
              · injection hst with h; subst h
                exact ⟨hc, by simp only [upd_ne _ _ (Ne.symm hta)]; exact h0⟩
              · split at hst
                · injection hst with h; subst h
                  exact ⟨hc, by simp only [upd_ne _ _ (Ne.symm hta)]; exact h0⟩
                · cases hst
        | flush => simp only [step] at hst; injection hst with h; subst h; exact ⟨hc, h0⟩
        | semPost =>
          simp only [step] at hst
          split at hst
          · cases hst
          · injection hst with h; subst h; exact ⟨hc, h0⟩
        | start now =>
          simp only [step] at hst
          split at hst
          · injection hst with h; subst h; exact ⟨hc, h0⟩
          · cases hst
        | wake now =>
          simp only [step] at hst
          split at hst
          · split at hst
            · injection hst with h; subst h; exact ⟨hc, h0⟩
            · split at hst
              · injection hst with h; subst h; exact ⟨hc, h0⟩
              · cases hst
          · cases hst
        | popImm => simp [step, hc] at hst
        | toStart now => simp [step, hc] at hst
        | popTo x => simp only [step, hc] at hst; split at hst <;> simp at hst
        | call => exact absurd rfl hna
        | toDone now => simp only [step, hc] at hst; split at hst <;> simp at hst
      exact ih hu.1 (fun x hx => hn x (List.mem_cons_of_mem _ hx))
        (fun h => hnc (List.mem_cons_of_mem _ h)) hr hu.2

/-- **Defect.** An event flushed an hour before its time is delivered with status OK when another thread tries
to post it between the worker's taking it and its calling the actor; that post is then refused. -/
theorem ev_repost_hides_flush_defect : ∃ s l, Reachable s ∧
    s.log = .refused 1 :: .delivered 1 .ok false :: .fired 1 ⟨4000, 0⟩ ⟨400, 0⟩ true :: l := by
  refine ⟨_, _, ⟨[.start ⟨400, 0⟩, .cas 1 (some ⟨4000, 0⟩), .enq 1, .flush, .semPost, .wake ⟨400, 0⟩,
    .toStart ⟨400, 0⟩, .popTo 1, .cas 1 none, .call, .enq 1], rfl⟩, rfl⟩

/-- **Defect.** A flush does not reach the events without a timeout that are queued while the worker is handling
timers: event 2 is posted, then the worker is flushed, and event 2 is delivered with status OK. -/
theorem ev_flush_misses_immediate_defect : ∃ pre post s s' l, run init pre = .ok s ∧
    queued 2 s = 1 ∧ run s (.flush :: post) = .ok s' ∧ s'.log = .delivered 2 .ok true :: l := by
  refine ⟨[.start ⟨400, 0⟩, .cas 1 (some ⟨300, 0⟩), .enq 1, .wake ⟨400, 0⟩, .toStart ⟨400, 0⟩, .popTo 1,
    .cas 2 none, .enq 2], [.call, .toDone ⟨400, 0⟩, .semPost, .wake ⟨400, 0⟩, .popImm, .call], _, _, _, rfl, rfl,
    rfl, rfl⟩

/-- **Defect.** A flush between creating a worker and its thread's first instruction is lost: the event queued
before it is delivered with status OK. -/
theorem ev_flush_before_start_lost_defect : ∃ s l, run init [.cas 1 none, .enq 1, .flush, .start ⟨400, 0⟩,
    .semPost, .wake ⟨400, 0⟩, .popImm, .call] = .ok s ∧ s.log = .delivered 1 .ok true :: l := ⟨_, _, rfl, rfl⟩

/-- **Defect.** Cancelling a far timer twice before the worker gets to it takes a node out of the timer tree
that is no longer in it. -/
theorem ev_cancel_twice_defect : run init [.start ⟨400, 0⟩, .cas 1 (some ⟨4000, 0⟩), .enq 1, .cancel 1 ⟨400, 0⟩,
    .cancel 1 ⟨400, 0⟩] = .ub := rfl

/-- **C13, defined.** Nothing but `ev_cancel` can go wrong, and cancelling a queued timer is always defined. -/
theorem ev_defined {s : St} (hr : Reachable s) (a : Act) (h : step s a = .ub) :
    ∃ e now, a = .cancel e now ∧ e ∉ s.tree := by
  cases a with
  | cancel e now =>
    refine ⟨e, now, rfl, ?_⟩
    intro hm
    have hb : e ∈ busy s := by simp only [busy, List.mem_append]; exact Or.inr (Or.inl hm)
    have hk := hr.inv.known e ((hr.inv.posted e).2 hb)
    simp only [step, hk] at h
    simp only [Bool.true_eq_false, if_false] at h
    split at h
    · cases h
    · split at h
      · cases h
      · cases h
  | cas e to => simp only [step] at h; split at h <;> cases h
  | enq e =>
    simp only [step] at h
    split at h
    · cases h
    · split at h <;> cases h
  | flush => simp only [step] at h; cases h
  | semPost => simp only [step] at h; split at h <;> cases h
  | start now => simp only [step] at h; split at h <;> cases h
  | wake now =>
    simp only [step] at h
    split at h
    · split at h
      · cases h
      · split at h <;> cases h
    · cases h
  | popImm =>
    simp only [step] at h
    split at h
    · split at h <;> cases h
    · cases h
  | toStart now => simp only [step] at h; split at h <;> cases h
  | popTo e =>
    simp only [step] at h
    split at h
    · split at h <;> cases h
    · cases h
  | call => simp only [step] at h; split at h <;> cases h
  | toDone now =>
    simp only [step] at h
    split at h
    · split at h <;> cases h
    · cases h

/-! ## A run that meets the hypotheses: two posts and a timer, one re-post refused, everything delivered -/

def demo : List Act :=
  [.start ⟨10, 0⟩, .cas 1 none, .cas 2 none, .enq 2, .enq 1, .cas 1 none, .cas 3 (some ⟨12, 0⟩), .enq 3, .semPost,
   .wake ⟨10, 5⟩, .popImm, .call, .popImm, .cas 2 none, .enq 2, .call, .popImm, .call, .toStart ⟨12, 0⟩, .popTo 3,
   .call, .toDone ⟨12, 1⟩]

/-- the state it ends in -/
def demoSt : St := match run init demo with | .ok s => s | _ => init
example : Reachable demoSt := ⟨demo, rfl⟩
example : demoSt.log.reverse = [.accepted 2 false ⟨0, 0⟩, .accepted 1 false ⟨0, 0⟩, .refused 1,
    .accepted 3 true ⟨12, 0⟩, .delivered 2 .ok true, .accepted 2 false ⟨0, 0⟩, .delivered 1 .ok true,
    .delivered 2 .ok true, .fired 3 ⟨12, 0⟩ ⟨12, 0⟩ false, .delivered 3 .ok false] := by decide
example : (accepted 2 demoSt.log, delivered 2 demoSt.log, immDelivered demoSt.log) = (2, 2, [2, 1, 2]) := by decide
example : demoSt.pc = .sleep := by decide

end Verif.Evw
