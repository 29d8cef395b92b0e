import Verif.Sched.Proofs

/-!
# Properties of the timers (C08, C09)
-/

namespace Verif.Sched

open Verif.BinHeap

/-! ### C08: the set of timers -/

/-- C08: whatever the history, the heap holds exactly the timers added and not deleted, each once, and
`evcount` is their number. -/
theorem sched_holds_exactly_the_live_timers {s : Sch} {live : List Nat} (h : Reach s live) :
    (contents s.heap).Perm live ∧ live.Nodup ∧ s.evcount = live.length ∧
    (∀ ev, s.heap.idx ev = -1 ↔ ev ∉ live) := by
  have hok := reach_ok h
  exact ⟨(List.perm_ext_iff_of_nodup (good_nodup hok.good) hok.nodup).2 hok.mem, hok.nodup, hok.cnt,
    fun _ => ok_idx_iff hok⟩

/-- C08: adding is refused with `EEXIST` exactly when the timer is already there, with `ENOMEM`
exactly when the heap is full, and a refused add leaves the timers and their times as they were. -/
theorem sched_add_result {s : Sch} {live : List Nat} (h : Reach s live) {ev : Nat} {now : Tv} {s' : Sch}
    {rc : Rc} (ha : add s ev now = some (s', rc)) :
    (rc = .eexist ↔ ev ∈ live) ∧
    (rc = .enomem ↔ ev ∉ live ∧ live.length = s.heap.cap) ∧
    (rc ≠ .ok → s'.heap = s.heap ∧ ∀ y ∈ live, s'.tv y = s.tv y) ∧
    (rc = .ok → nextWakeup now (s.param ev) = some (s'.tv ev) ∧ ∀ y, y ≠ ev → s'.tv y = s.tv y) := by
  have hok := reach_ok h
  have hlen := ok_len hok
  refine ⟨?_, ?_, fun hrc => (ok_addFail hok ha hrc).2, ?_⟩
  all_goals
    rcases add_cases hok ha with ⟨rfl, h2, h3⟩ | ⟨t, ht, hnl, ⟨rfl, h2, h3⟩ | ⟨rfl, h2, hp, h3, h4⟩⟩
  · simp [h2]
  · simp [hnl]
  · simp [hnl]
  · simp [h2]
  · simp [hnl, ← hlen, h2]
  · simp [← hlen, h2]
  · simp
  · simp
  · intro _
    subst h4
    refine ⟨?_, fun y hy => ?_⟩
    · show _ = some (upd s.tv ev t ev); rw [upd_self]; exact ht
    · show upd s.tv ev t y = _; exact upd_ne _ _ hy

/-- C08: deleting removes that timer and no other, and moves no timer's expiry. -/
theorem sched_del_result {s : Sch} {live : List Nat} (h : Reach s live) (ev : Nat) :
    (contents (del s ev).heap).Perm (live.filter (· ≠ ev)) ∧ (del s ev).tv = s.tv := by
  have hok := ok_del (reach_ok h) ev
  refine ⟨(List.perm_ext_iff_of_nodup (good_nodup hok.good) hok.nodup).2 hok.mem, ?_⟩
  unfold del; split <;> rfl

/-! ### C08: the earliest first -/

/-- C08: as long as every deletion is a `SafeDel`, the timer at the top is one of those registered and
none of them expires earlier.  Missing for the full claim: deletions that are not `SafeDel`, for which
it is false (`sched_del_breaks_order_defect`). -/
theorem sched_top_earliest_partial {s : Sch} {live : List Nat} (h : SafeReach s live) :
    (live = [] ∧ top s.heap = none) ∨
    (∃ ev, top s.heap = some ev ∧ ev ∈ live ∧ ∀ y ∈ live, (s.tv y).lt (s.tv ev) = false) := by
  have hok := reach_ok (safe_reach h)
  have hlen := ok_len hok
  by_cases h0 : s.heap.len = 0
  · left
    refine ⟨?_, by simp [top, h0]⟩
    cases live with
    | nil => rfl
    | cons a l => simp at hlen; omega
  · right
    refine ⟨s.heap.slots 0, by simp [top, h0], (hok.mem _).1 (mem_contents.2 ⟨0, by omega, rfl⟩), ?_⟩
    intro y hy
    obtain ⟨c, hc, he, _⟩ := ok_idx hok hy
    have := ordered_top halfPar_decr (evlt_sw s) (safe_ordered h) c hc
    rw [he] at this
    exact this

/-- Deleting a timer that is not later than any other is always a `SafeDel`. -/
theorem sched_del_earliest_safe {s : Sch} {live : List Nat} (h : SafeReach s live) {ev : Nat}
    (hl : ev ∈ live) (hmin : ∀ y ∈ live, (s.tv y).lt (s.tv ev) = false) : SafeDel s ev := by
  have hok := reach_ok (safe_reach h)
  obtain ⟨c, hc, he, hidx⟩ := ok_idx hok hl
  by_cases h0 : c = 0
  · left; omega
  · right; right
    rw [hidx]
    have ho := safe_ordered h c (by omega) hc
    rw [he] at ho
    have hm : s.heap.slots (s.heap.len - 1) ∈ live :=
      (hok.mem _).1 (mem_contents.2 ⟨_, by omega, rfl⟩)
    exact (evlt_sw s).ntrans _ _ _ (hmin _ hm) ho

/-- C08: dispatch fires only a registered timer that is due, and (after `SafeDel`s only) none of the
others expires earlier; it re-arms that one and moves no other. -/
theorem sched_fire_partial {s : Sch} {live : List Nat} (h : SafeReach s live) {now now2 : Tv} {ev : Nat}
    {s' : Sch} (hp : process s now now2 = some (.fire ev s')) :
    ev ∈ live ∧ now.lt (s.tv ev) = false ∧ (∀ y ∈ live, (s.tv y).lt (s.tv ev) = false) ∧
    nextWakeup now2 (s.param ev) = some (s'.tv ev) ∧ ∀ y, y ≠ ev → s'.tv y = s.tv y := by
  obtain ⟨hl, he, hdue, t, ht, hs'⟩ := process_fire hp
  rcases sched_top_earliest_partial h with ⟨_, hn⟩ | ⟨e, h1, h2, h3⟩
  · simp [top] at hn; omega
  · have : e = ev := by
      unfold top at h1
      split at h1
      · cases h1
      · simp only [Option.some.injEq] at h1; exact h1.symm.trans he
    subst this
    subst hs'
    refine ⟨h2, hdue, h3, ?_, fun y hy => ?_⟩
    · show _ = some (upd s.tv e t e); rw [upd_self]; exact ht
    · show upd s.tv e t y = _; exact upd_ne _ _ hy

/-- C08: the loop goes to sleep only when no registered timer is due. -/
theorem sched_sleeps_only_when_none_due_partial {s : Sch} {live : List Nat} (h : SafeReach s live)
    {now now2 : Tv} : (∀ ms, process s now now2 = some (.wait ms) → ∀ y ∈ live, now.lt (s.tv y) = true) ∧
      (process s now now2 = some .idle → live = []) := by
  rcases sched_top_earliest_partial h with ⟨h1, h2⟩ | ⟨ev, h1, h2, h3⟩
  · subst h1
    exact ⟨fun _ _ y hy => absurd hy (by simp), fun _ => rfl⟩
  · constructor
    · intro ms hp y hy
      unfold process at hp
      rw [h1] at hp
      simp only at hp
      split at hp
      · rename_i hlt
        have h4 := h3 y hy
        have := tvlt_sw.ntrans now (s.tv y) (s.tv ev)
        cases hny : now.lt (s.tv y) with
        | true => rfl
        | false => rw [this hny h4] at hlt; cases hlt
      · split at hp <;> cases hp
    · intro hp
      unfold process at hp
      rw [h1] at hp
      simp only at hp
      split at hp
      · cases hp
      · split at hp <;> cases hp

theorem sub_us {a b : Tv} (ha : a.Norm) (hb : b.Norm) (h : b.us < a.us) :
    (a.sub b).us + b.us = a.us ∧ (a.sub b).Norm := by
  simp only [Tv.us, Tv.Norm, Tv.sub] at *
  split <;> simp <;> omega

/-- C08: when the next timer is less than 2^31 milliseconds away, the sleep ends at or after its
expiry and less than a millisecond late. -/
theorem sched_sleep_length {s : Sch} {now now2 : Tv} {ms : Int} {ev : Nat}
    (ht : top s.heap = some ev) (hn : now.Norm) (hn' : (s.tv ev).Norm)
    (hfar : (s.tv ev).us < now.us + 2147483647 * 1000)
    (hp : process s now now2 = some (.wait ms)) :
    0 < ms ∧ ((s.tv ev).us : Int) ≤ now.us + 1000 * ms ∧ (now.us : Int) + 1000 * ms < (s.tv ev).us + 1000 := by
  unfold process at hp
  rw [ht] at hp
  simp only at hp
  split at hp
  · rename_i hlt
    rw [tvlt_us hn hn'] at hlt
    obtain ⟨h1, h2⟩ := sub_us hn' hn hlt
    simp only [Option.some.injEq, Round.wait.injEq] at hp
    generalize (s.tv ev).sub now = d at *
    subst hp
    have h3 : d.us = d.sec * 1000000 + d.usec := rfl
    have hb : d.sec * 1000 + (d.usec + 999) / 1000 < 2147483648 := by omega
    have e : toInt32 (d.sec * 1000 + (d.usec + 999) / 1000) =
        ((d.sec * 1000 + (d.usec + 999) / 1000 : Nat) : Int) := by
      generalize d.sec * 1000 + (d.usec + 999) / 1000 = x at hb
      unfold toInt32
      rw [Nat.mod_eq_of_lt (by omega)]
      simp; omega
    rw [e]
    omega
  · split at hp <;> cases hp

/-! ### C08: what goes wrong -/

/-- seven one-shot style timers, with the given delays in seconds -/
def demoParam : Nat → Param
  | 0 => .timeout ⟨1, 0⟩ | 1 => .timeout ⟨10, 0⟩ | 2 => .timeout ⟨2, 0⟩ | 3 => .timeout ⟨11, 0⟩
  | 4 => .timeout ⟨12, 0⟩ | 5 => .timeout ⟨3, 0⟩ | 6 => .timeout ⟨4, 0⟩ | _ => .periodic 1000000 0

def addAll (s : Sch) : List Nat → Sch
  | [] => s
  | e :: l => addAll ((add s e ⟨100, 0⟩).elim s (·.1)) l

def fires (s : Sch) : List (Tv × Tv) → Sch
  | [] => s
  | (a, b) :: l => match process s a b with
    | some (.fire _ s') => fires s' l
    | _ => s

/-- the seven timers, added at second 100 -/
def demo : Sch := addAll (create 16 demoParam) [0, 1, 2, 3, 4, 5, 6]
/-- after deleting timer 3 and dispatching three timers -/
def demoBad : Sch :=
  fires (del demo 3) [(⟨101, 0⟩, ⟨131, 0⟩), (⟨102, 0⟩, ⟨132, 0⟩), (⟨103, 0⟩, ⟨133, 0⟩)]

theorem get_some {α : Type} {o : Option α} (d : α) (h : o.isSome = true) : o = some (o.getD d) := by
  cases o with
  | none => cases h
  | some a => rfl

theorem add_ok_reach {s : Sch} {live : List Nat} (h : SafeReach s live) {ev : Nat} {now : Tv}
    (hr : (add s ev now).any (fun r => r.2 = .ok) = true) :
    SafeReach ((add s ev now).elim s (·.1)) (ev :: live) := by
  cases ha : add s ev now with
  | none => rw [ha] at hr; cases hr
  | some r =>
    obtain ⟨s', rc⟩ := r
    rw [ha] at hr
    simp at hr
    subst hr
    exact .addOk h ha

theorem demo_reach : SafeReach demo [6, 5, 4, 3, 2, 1, 0] := by
  have h := SafeReach.create 16 demoParam
  have h := add_ok_reach h (ev := 0) (now := ⟨100, 0⟩) (by decide +kernel)
  have h := add_ok_reach h (ev := 1) (now := ⟨100, 0⟩) (by decide +kernel)
  have h := add_ok_reach h (ev := 2) (now := ⟨100, 0⟩) (by decide +kernel)
  have h := add_ok_reach h (ev := 3) (now := ⟨100, 0⟩) (by decide +kernel)
  have h := add_ok_reach h (ev := 4) (now := ⟨100, 0⟩) (by decide +kernel)
  have h := add_ok_reach h (ev := 5) (now := ⟨100, 0⟩) (by decide +kernel)
  exact add_ok_reach h (ev := 6) (now := ⟨100, 0⟩) (by decide +kernel)

/-- Defect: `ovis_event_heap_remove` only sinks the node moved into the gap.  After deleting a timer
from the middle of the heap, the scheduler keeps a later timer at the top while an earlier one is
registered: here timer 6 expires at second 104 but the scheduler sleeps until second 110. -/
theorem sched_del_breaks_order_defect :
    ∃ s live, Reach s live ∧ 6 ∈ live ∧ 1 ∈ live ∧ top s.heap = some 1 ∧
      s.tv 6 = ⟨104, 0⟩ ∧ s.tv 1 = ⟨110, 0⟩ ∧
      (∃ ms, process s ⟨104, 0⟩ ⟨104, 0⟩ = some (.wait ms) ∧ ms = 6000) := by
  have fireStep : ∀ {s live} (now now2 : Tv), Reach s live → ∀ d,
      (match process s now now2 with | some (.fire _ _) => true | _ => false) = true →
      Reach (match process s now now2 with | some (.fire _ s') => s' | _ => d) live := by
    intro s live now now2 h d hb
    cases hr : process s now now2 with
    | none => rw [hr] at hb; cases hb
    | some r =>
      cases r with
      | fire ev s' => exact .fire h hr
      | idle => rw [hr] at hb; cases hb
      | wait ms => rw [hr] at hb; cases hb
  have h0 := safe_reach demo_reach
  have h1 := Reach.del (ev := 3) h0
  have h2 := fireStep ⟨101, 0⟩ ⟨131, 0⟩ h1 demo (by decide +kernel)
  have h3 := fireStep ⟨102, 0⟩ ⟨132, 0⟩ h2 demo (by decide +kernel)
  have h4 := fireStep ⟨103, 0⟩ ⟨133, 0⟩ h3 demo (by decide +kernel)
  refine ⟨_, _, h4, by decide, by decide, by decide +kernel, by decide +kernel, by decide +kernel, ?_⟩
  have hw : ∀ (r : Option Round), (match r with | some (.wait m) => m == 6000 | _ => false) = true →
      ∃ ms, r = some (.wait ms) ∧ ms = 6000 := by
    intro r hr
    split at hr
    · exact ⟨_, rfl, by simpa using hr⟩
    · cases hr
  exact hw _ (by decide +kernel)

/-- Defect: the sleep is a C `int` of milliseconds.  A timer 30 days away gives a negative number,
which `epoll_wait` takes as "for ever". -/
theorem sched_sleep_overflow_defect :
    ∃ s live, SafeReach s live ∧ ∃ ms, process s ⟨100, 0⟩ ⟨100, 0⟩ = some (.wait ms) ∧ ms < 0 := by
  have h := SafeReach.create 16 (fun _ => .timeout ⟨2592000, 0⟩)
  have h := add_ok_reach h (ev := 0) (now := ⟨100, 0⟩) (by decide +kernel)
  refine ⟨_, _, h, ?_⟩
  have hw : ∀ (r : Option Round), (match r with | some (.wait m) => decide (m < 0) | _ => false) = true →
      ∃ ms, r = some (.wait ms) ∧ ms < 0 := by
    intro r hr
    split at hr
    · exact ⟨_, rfl, by simpa using hr⟩
    · cases hr
  exact hw _ (by decide +kernel)

/-- the theorems above apply to a non-trivial history: seven timers, earliest is timer 0 -/
example : ∃ ev, top demo.heap = some ev ∧ ev = 0 ∧ SafeReach demo [6, 5, 4, 3, 2, 1, 0] :=
  ⟨0, by decide +kernel, rfl, demo_reach⟩
/-- a `SafeDel` in the middle of the array -/
example : SafeDel demo 5 ∧ demo.heap.idx 5 = 5 :=
  ⟨by unfold SafeDel; decide +kernel, by decide +kernel⟩

/-! ### C09 -/

/-- C09: a relative timer expires exactly its delay after `now`. -/
theorem sched_timeout_exact {now d t : Tv} (hn : now.Norm) (hd : d.Norm)
    (h : nextWakeup now (.timeout d) = some t) : t.us = now.us + d.us ∧ t.Norm := by
  simp only [nextWakeup, Option.some.injEq] at h
  subst h
  simp only [Tv.add, Tv.us, Tv.Norm] at *
  split <;> simp <;> omega

theorem ceil_facts (x p : Nat) (hp : 0 < p) :
    x ≤ (x + (p - 1)) / p * p ∧ (x + (p - 1)) / p * p < x + p := by
  have h1 := Nat.div_add_mod (x + (p - 1)) p
  have h2 := Nat.mod_lt (x + (p - 1)) hp
  rw [Nat.mul_comm] at h1
  omega

/-- C09: a periodic timer's next expiry is on the grid `n * period + phase`, is not in the past, and is
less than `period + phase` away.  (The bound hypothesis: no wrap of `uint64_t` microseconds.) -/
theorem sched_periodic_on_grid {now t : Tv} {p ph : Nat} (hb : now.us + p + ph < 2 ^ 64)
    (h : nextWakeup now (.periodic p ph) = some t) :
    (∃ n, t.us = n * p + ph) ∧ now.us ≤ t.us ∧ t.us < now.us + p + ph ∧ t.Norm := by
  have hus : now.us = now.sec * 1000000 + now.usec := rfl
  unfold nextWakeup round64 at h
  rw [← hus, Nat.mod_eq_of_lt (by omega : now.us < 2 ^ 64)] at h
  by_cases hp : p = 0
  · simp [hp] at h
  · simp only [hp, if_false, Option.some.injEq] at h
    rw [Nat.mod_eq_of_lt (by omega : now.us + (p - 1) < 2 ^ 64)] at h
    obtain ⟨h1, h2⟩ := ceil_facts now.us p (by omega)
    generalize hq : (now.us + (p - 1)) / p = q at *
    rw [Nat.mod_eq_of_lt (by omega : q * p + ph < 2 ^ 64)] at h
    have ht : t.us = q * p + ph := by
      subst h
      show (q * p + ph) / 1000000 * 1000000 + (q * p + ph) % 1000000 = _
      omega
    refine ⟨⟨q, ht⟩, by omega, by omega, ?_⟩
    subst h
    show (q * p + ph) % 1000000 < 1000000
    omega

/-- C09: the next expiry is the first grid point not before `now` exactly when `now` is not strictly
between a multiple of the period and the grid point that follows it. -/
theorem sched_periodic_first_slot_partial {now t : Tv} {p ph : Nat} (hph : ph < p)
    (hb : now.us + p + ph < 2 ^ 64) (h : nextWakeup now (.periodic p ph) = some t)
    (hr : now.us % p = 0 ∨ ph < now.us % p) :
    ∀ n, now.us ≤ n * p + ph → t.us ≤ n * p + ph := by
  have hus : now.us = now.sec * 1000000 + now.usec := rfl
  have h0 := sched_periodic_on_grid hb h
  unfold nextWakeup round64 at h
  rw [← hus, Nat.mod_eq_of_lt (by omega : now.us < 2 ^ 64)] at h
  have hp : p ≠ 0 := by omega
  simp only [hp, if_false, Option.some.injEq] at h
  rw [Nat.mod_eq_of_lt (by omega : now.us + (p - 1) < 2 ^ 64)] at h
  obtain ⟨h1, h2⟩ := ceil_facts now.us p (by omega)
  generalize hq : (now.us + (p - 1)) / p = q at *
  rw [Nat.mod_eq_of_lt (by omega : q * p + ph < 2 ^ 64)] at h
  have ht : t.us = q * p + ph := by
    subst h
    show (q * p + ph) / 1000000 * 1000000 + (q * p + ph) % 1000000 = _
    omega
  intro n hn
  rw [ht]
  have hd := Nat.div_add_mod now.us p
  have hm := Nat.mod_lt now.us (by omega : 0 < p)
  have hcomm : p * (now.us / p) = (now.us / p) * p := Nat.mul_comm _ _
  -- it is enough that q ≤ n
  have key : q ≤ n := by
    apply Classical.byContradiction
    intro hlt
    have hlt' : n + 1 ≤ q := by omega
    have h5 : (n + 1) * p ≤ q * p := Nat.mul_le_mul_right p hlt'
    rw [Nat.add_mul, Nat.one_mul] at h5
    rcases hr with hr | hr
    · -- now is a multiple of p, so q * p = now
      have h6 : q = now.us / p := by
        have e : now.us + (p - 1) = p * (now.us / p) + (p - 1) := by omega
        rw [← hq, e, Nat.mul_add_div (by omega), Nat.div_eq_of_lt (by omega : p - 1 < p)]
        omega
      rw [h6] at h5
      omega
    · have h6 : q = now.us / p + 1 := by
        have e : now.us + (p - 1) = p * (now.us / p) + (now.us % p + (p - 1)) := by omega
        have e2 : (now.us % p + (p - 1)) / p = 1 := by
          have : now.us % p + (p - 1) = p * 1 + (now.us % p - 1) := by omega
          rw [this, Nat.mul_add_div (by omega), Nat.div_eq_of_lt (by omega : now.us % p - 1 < p)]
        rw [← hq, e, Nat.mul_add_div (by omega), e2]
      have h7 : n ≤ now.us / p := by omega
      have h8 : n * p ≤ (now.us / p) * p := Nat.mul_le_mul_right p h7
      omega
  have := Nat.mul_le_mul_right p key
  omega

/-- Defect: a slot is skipped.  At 10.2 s a timer of period 1 s and phase 0.5 s is scheduled for 11.5 s;
the grid point 10.5 s is passed over. -/
theorem sched_periodic_skips_slot_defect :
    nextWakeup ⟨10, 200000⟩ (.periodic 1000000 500000) = some ⟨11, 500000⟩ ∧
    (⟨10, 200000⟩ : Tv).us ≤ 10 * 1000000 + 500000 ∧ 10 * 1000000 + 500000 < (⟨11, 500000⟩ : Tv).us := by
  decide

/-- Defect: with phase 0, a timer dispatched exactly on its grid point is re-armed for the same instant,
so it runs again at once. -/
theorem sched_periodic_refires_defect :
    nextWakeup ⟨10, 0⟩ (.periodic 1000000 0) = some ⟨10, 0⟩ := by decide

/-- In general: whenever the phase is 0 and `now` is a grid point, the next expiry is `now` itself. -/
theorem sched_periodic_refires {now t : Tv} {p : Nat} (hb : now.us + p < 2 ^ 64) (hp : 0 < p)
    (hr : now.us % p = 0) (h : nextWakeup now (.periodic p 0) = some t) : t.us = now.us := by
  have h1 := (sched_periodic_on_grid (by omega) h).2.1
  have h2 := sched_periodic_first_slot_partial hp (by omega) h (.inl hr) (now.us / p) (by
    have := Nat.div_add_mod now.us p
    rw [Nat.mul_comm] at this; omega)
  have := Nat.div_add_mod now.us p
  rw [Nat.mul_comm] at this
  omega

/-- C09: the period-to-period distance: a timer dispatched less than `period - phase` late is re-armed
for exactly the next grid point. -/
theorem sched_periodic_next_slot {now t : Tv} {p ph n : Nat} (hph : ph < p)
    (hb : now.us + p + ph < 2 ^ 64) (h : nextWakeup now (.periodic p ph) = some t)
    (h1 : n * p + ph < now.us) (h2 : now.us < (n + 1) * p) : t.us = (n + 1) * p + ph := by
  have e : now.us = p * n + (now.us - n * p) := by rw [Nat.mul_comm p n]; omega
  have hlt : now.us - n * p < p := by rw [Nat.add_mul] at h2; omega
  have hm : now.us % p = now.us - n * p := by
    rw [e, Nat.mul_add_mod, Nat.mod_eq_of_lt hlt]
    rw [Nat.mul_comm p n]; omega
  obtain ⟨⟨k, hk⟩, g2, g3, _⟩ := sched_periodic_on_grid hb h
  have h3 := sched_periodic_first_slot_partial hph hb h (.inr (by omega)) (n + 1) (by omega)
  have hkn : n < k := by
    apply Classical.byContradiction
    intro hc
    have := Nat.mul_le_mul_right p (show k ≤ n by omega)
    omega
  have := Nat.mul_le_mul_right p (show n + 1 ≤ k by omega)
  omega

example : nextWakeup ⟨10, 700000⟩ (.periodic 1000000 500000) = some ⟨11, 500000⟩ := by decide
example : nextWakeup ⟨10, 700000⟩ (.timeout ⟨1, 400000⟩) = some ⟨12, 100000⟩ := by decide

end Verif.Sched
