import Verif.Task.Model

/-!
# C49, C50: tasks of the daemon
-/

namespace Verif.Task

/-! ## the interleavings -/

/-- one step of any thread -/
inductive Step : T → T → Prop
  | start (t : T) : Step t (start t).1
  | stop (t : T) : Step t (stop t)
  | resched (t : T) : Step t (resched t)
  | fire {t : T} : t.queued = true → t.fn = none → t.fired = 0 → Step t (fire t)
  | begin {t : T} : 0 < t.fired → t.fn = none → Step t (begin t)
  | finish {t : T} {n : TState} : t.fn = some n → Step t (finish t n)

/-- the same steps, when nothing happens between the moment the scheduler picks the event and the start
of the callback -/
inductive Step' : T → T → Prop
  | start (t : T) : Step' t (start t).1
  | stop (t : T) : Step' t (stop t)
  | resched (t : T) : Step' t (resched t)
  | call {t : T} : t.queued = true → t.fn = none → t.fired = 0 → Step' t (begin (fire t))
  | finish {t : T} {n : TState} : t.fn = some n → Step' t (finish t n)

inductive Reach (S : T → T → Prop) : T → T → Prop
  | refl (t : T) : Reach S t t
  | step {a b c : T} : Reach S a b → S b c → Reach S a c

structure Inv (t : T) : Prop where
  fired : t.fired = 0
  stopped : t.st = .stopped → t.queued = false ∧ t.fn = none ∧ t.busy = 0 ∧ t.os = false
  started : t.st = .started → t.queued = true ∧ t.fn = none ∧ t.busy = 1 ∧ t.os = true
  running : t.st = .running → t.queued = true ∧ t.fn = some .started ∧ t.busy = 1 ∧ t.os = true

theorem inv_step {a b : T} (h : Inv a) (hs : Step' a b) : Inv b := by
  obtain ⟨st, sf, os, q, fd, fn, bz⟩ := a
  cases hs with
  | start =>
    rw [start]
    split
    · exact h
    · rename_i hst
      simp only [ne_eq, Decidable.not_not] at hst
      obtain ⟨h1, h2, h3, h4⟩ := h.stopped hst
      refine ⟨h.fired, (fun e => by cases e), (fun _ => ⟨rfl, h2, ?_, rfl⟩), fun e => by cases e⟩
      show bz + 1 = 1
      simp only at h3; omega
  | stop =>
    rw [stop]
    cases st with
    | stopped => exact h
    | started =>
      obtain ⟨h1, h2, h3, h4⟩ := h.started rfl
      refine ⟨h.fired, (fun _ => ⟨rfl, h2, ?_, rfl⟩), (fun e => by cases e), fun e => by cases e⟩
      show bz - 1 = 0
      simp only at h3; omega
    | running => exact ⟨h.fired, (fun e => by cases e), (fun e => by cases e), h.running⟩
  | resched =>
    rw [resched]
    split
    · exact h
    · rename_i hst
      refine ⟨h.fired, (fun e => absurd e hst), (fun e => ?_), fun e => ?_⟩
      · obtain ⟨h1, h2, h3, h4⟩ := h.started e; exact ⟨rfl, h2, h3, h4⟩
      · obtain ⟨h1, h2, h3, h4⟩ := h.running e; exact ⟨rfl, h2, h3, h4⟩
  | call hq hf hz =>
    cases st with
    | stopped => obtain ⟨h1, _⟩ := h.stopped rfl; rw [h1] at hq; cases hq
    | running => obtain ⟨_, h1, _⟩ := h.running rfl; rw [h1] at hf; cases hf
    | started =>
      obtain ⟨h1, h2, h3, h4⟩ := h.started rfl
      simp only at h4 hz
      subst h4 hz
      exact ⟨rfl, (fun e => by cases e), (fun e => by cases e), fun _ => ⟨rfl, rfl, h3, rfl⟩⟩
  | @finish n hf =>
    cases st with
    | stopped => obtain ⟨_, h1, _⟩ := h.stopped rfl; rw [h1] at hf; cases hf
    | started => obtain ⟨_, h1, _⟩ := h.started rfl; rw [h1] at hf; cases hf
    | running =>
      obtain ⟨h1, h2, h3, h4⟩ := h.running rfl
      simp only at h1 h2 h3 h4 hf
      subst h1 h2 h3 h4
      cases hf
      have hz := h.fired
      simp only at hz
      subst hz
      cases sf with
      | true => exact ⟨rfl, (fun _ => ⟨rfl, rfl, rfl, rfl⟩), (fun e => by cases e), fun e => by cases e⟩
      | false => exact ⟨rfl, (fun e => by cases e), (fun _ => ⟨rfl, rfl, rfl, rfl⟩), fun e => by cases e⟩

theorem reach_inv {t : T} (h : Reach Step' init t) : Inv t := by
  generalize ha : init = a at h
  induction h with
  | refl =>
    subst ha
    exact ⟨rfl, (fun _ => ⟨rfl, rfl, rfl, rfl⟩), (fun e => by cases e), fun e => by cases e⟩
  | step _ hs ih => exact inv_step ih hs

/-! ## C49 -/

/-- *A task that can be joined is quiet*: when `ldmsd_task_join` can return, the task's function is not
running and will not be called, and the scheduler thread is given back; otherwise the task is scheduled.
What is missing: this is proved when no thread acts between the moment the scheduler picks the event
and the start of the callback; in that window it is false (`call_after_join_defect`). -/
theorem joined_quiet_partial {t : T} (h : Reach Step' init t) :
    (joined t = true → t.fn = none ∧ t.queued = false ∧ t.fired = 0 ∧ t.busy = 0) ∧
    (joined t = false → t.queued = true ∧ t.busy = 1) := by
  have hi := reach_inv h
  constructor
  · intro hj
    obtain ⟨h1, h2, h3, _⟩ := hi.stopped (by simpa [joined] using hj)
    exact ⟨h2, h1, hi.fired, h3⟩
  · intro hj
    have hne : t.st ≠ .stopped := by simpa [joined] using hj
    cases hst : t.st with
    | stopped => exact absurd hst hne
    | started => obtain ⟨h1, _, h3, _⟩ := hi.started hst; exact ⟨h1, h3⟩
    | running => obtain ⟨h1, _, h3, _⟩ := hi.running hst; exact ⟨h1, h3⟩

/-- *A stopped task stays stopped*: from a state where it can be joined, no step but a start leads to
another state. -/
theorem stays_stopped_partial {t t' : T} (h : Reach Step' init t) (hj : joined t = true)
    (hs : Step' t t') (hns : t' ≠ (start t).1) : joined t' = true := by
  have hi := reach_inv h
  have hst : t.st = .stopped := by simpa [joined] using hj
  obtain ⟨h1, h2, _⟩ := hi.stopped hst
  cases hs with
  | start => exact absurd rfl hns
  | stop => rw [stop, hst]; exact hj
  | resched => rw [resched, if_pos hst]; exact hj
  | call hq => rw [h1] at hq; cases hq
  | finish hf => rw [h2] at hf; cases hf

/-- *A stop is carried out*: a task that is stopped while its function runs is stopped when the function
returns, unless it is rescheduled in between (`resched_cancels_stop_defect`). -/
theorem stop_takes_effect {t : T} (h : Reach Step' init t) :
    (t.fn = none → joined (stop t) = true) ∧
    (∀ n, t.fn = some n → joined (finish (stop t) n) = true) := by
  have hi := reach_inv h
  constructor
  · intro hf
    cases hst : t.st with
    | stopped => rw [stop, hst]; simp [joined, hst]
    | started => rw [stop, hst]; rfl
    | running => obtain ⟨_, h2, _⟩ := hi.running hst; rw [h2] at hf; cases hf
  · intro n hf
    cases hst : t.st with
    | stopped => obtain ⟨_, h2, _⟩ := hi.stopped hst; rw [h2] at hf; cases hf
    | started => obtain ⟨_, h2, _⟩ := hi.started hst; rw [h2] at hf; cases hf
    | running => rw [stop, hst]; simp [finish, joined]

/-- **Defect**: the scheduler picks the event and drops its lock; then the task is stopped and joined,
which an updater does before it frees the task (`ldmsd_updtr.c:1126-1130`); then the callback begins and
calls the task's function.  When it ends, the scheduler thread is given back a second time. -/
theorem call_after_join_defect :
    ∃ a b c d, Reach Step init a ∧ Step a b ∧ b = stop a ∧ joined b = true ∧
      Step b c ∧ c.fn ≠ none ∧ Step c d ∧ joined d = true ∧ d.busy = -1 := by
  refine ⟨fire (start init).1, _, begin (stop (fire (start init).1)),
    finish (begin (stop (fire (start init).1))) .stopped,
    .step (.step (.refl _) (.start _)) (.fire rfl rfl rfl), .stop _, rfl, rfl, .begin (by decide) rfl,
    by decide, .finish rfl, rfl, by decide⟩

/-- **Defect**: a reschedule while the function runs forgets a stop that was requested: the task goes on
and a thread that joins it waits. -/
theorem resched_cancels_stop_defect :
    ∃ a, Reach Step' init a ∧ a.fn = some .started ∧
      joined (finish (resched (stop a)) .started) = false ∧
      (finish (resched (stop a)) .started).queued = true :=
  ⟨begin (fire (start init).1), .step (.step (.refl _) (.start _)) (.call rfl rfl rfl), rfl, rfl, rfl⟩

/-- **Defect**: a start while a stopped task's function still runs is refused, and the task then stops:
the start is lost.  (The producer code ignores the result: see `Verif/Lifecycle`.) -/
theorem start_lost_defect :
    ∃ a, Reach Step' init a ∧ a.fn = some .started ∧ (start (stop a)).2 = EBUSY ∧
      joined (finish (start (stop a)).1 .started) = true :=
  ⟨begin (fire (start init).1), .step (.step (.refl _) (.start _)) (.call rfl rfl rfl), rfl, rfl, rfl⟩

/-! ## C50 -/

/-- *A synchronous task is called at times that are its offset after a multiple of its interval*, for an
offset that the configuration accepts (`ldmsd_updtr.c:1090`): the delay is positive, the call falls on
the grid, and no later than one interval plus a positive offset. -/
theorem delay_grid {iv off now : Int} (hi : 0 < iv) (ho : 2 * off ≤ iv) (ho' : -iv ≤ 2 * off) :
    0 < delay iv off now ∧ (now + delay iv off now) % iv = off % iv ∧
    delay iv off now ≤ iv + max off 0 := by
  have h1 := Int.emod_nonneg now (show iv ≠ 0 by omega)
  have h2 := Int.emod_lt_of_pos now hi
  have h3 : now = iv * (now / iv) + now % iv := (Int.mul_ediv_add_emod now iv).symm
  have key : ∀ k : Int, (now + (k * iv - now % iv + off)) % iv = off % iv := by
    intro k
    have e : now + (k * iv - now % iv + off) = off + iv * (now / iv + k) := by
      rw [Int.mul_add, Int.mul_comm k iv]
      omega
    rw [e, Int.add_mul_emod_self_left]
  rw [delay]
  split
  · refine ⟨by omega, ?_, by omega⟩
    have := key 2
    have e : iv - now % iv + off + iv = 2 * iv - now % iv + off := by omega
    rw [e]; exact this
  · refine ⟨by omega, ?_, by omega⟩
    have := key 1
    rw [Int.one_mul] at this
    exact this

/-- *Once it is on the grid it visits every slot*: a call that begins `d` after its slot, `d` less than
the time to the end of the interval, waits exactly until the next slot. -/
theorem delay_next_slot {iv off slot d : Int} (hi : 0 < iv) (ho : 2 * off ≤ iv) (ho' : -iv ≤ 2 * off)
    (hs : slot % iv = off % iv) (hd : 0 ≤ d) (hd' : d < iv - max off 0) :
    slot + d + delay iv off (slot + d) = slot + iv := by
  have h3 : slot = iv * (slot / iv) + slot % iv := (Int.mul_ediv_add_emod slot iv).symm
  by_cases hp : 0 ≤ off
  · by_cases he : off = iv
    · omega
    · have hoff : off % iv = off := Int.emod_eq_of_lt hp (by omega)
      have hnow : (slot + d) % iv = off + d := by
        have e : slot + d = (off + d) + iv * (slot / iv) := by omega
        rw [e, Int.add_mul_emod_self_left]
        exact Int.emod_eq_of_lt (by omega) (by omega)
      rw [delay, hnow]
      rw [if_neg (by omega)]
      omega
  · have hoff : off % iv = iv + off := by
      have e : off = (iv + off) + iv * (-1) := by omega
      rw [e, Int.add_mul_emod_self_left]
      rw [Int.emod_eq_of_lt (by omega) (by omega)]
      omega
    by_cases hc : d < -off
    · have hnow : (slot + d) % iv = iv + off + d := by
        have e : slot + d = (iv + off + d) + iv * (slot / iv) := by omega
        rw [e, Int.add_mul_emod_self_left]
        exact Int.emod_eq_of_lt (by omega) (by omega)
      rw [delay, hnow]
      rw [if_pos (by omega)]
      omega
    · have hnow : (slot + d) % iv = off + d := by
        have e : slot + d = (off + d) + iv * (slot / iv + 1) := by
          rw [Int.mul_add]; omega
        rw [e, Int.add_mul_emod_self_left]
        exact Int.emod_eq_of_lt (by omega) (by omega)
      rw [delay, hnow]
      rw [if_neg (by omega)]
      omega

/-- **Defect**: with a positive offset, a task started in the first part of an interval does not use the
slot of that interval: it waits for more than one interval. -/
theorem first_slot_skipped_defect :
    ∃ iv off now : Int, 0 < iv ∧ 2 * off ≤ iv ∧ -iv ≤ 2 * off ∧
      now < now + off ∧ (now + off) % iv = off % iv ∧ delay iv off now = iv + off :=
  ⟨1000000, 300000, 0, by decide, by decide, by decide, by decide, by decide, by decide⟩

example : delay 1000000 (-300000) 1234567 = 465433 := by decide

end Verif.Task
