/-!
# Tasks of the daemon

`ldmsd_task_*` and `task_cb_fn` of `ldms/src/ldmsd/ldmsd.c`, with the part of the event scheduler that
calls the callback (`lib/src/ovis_event/ovis_event.c:338-404`).

Every function runs under the lock of the task, so each is one step; the callback is three steps: the
scheduler takes the due event and drops its own lock (`fire`), `task_cb_fn` begins and calls the task's
function (`begin`), and `task_cb_fn` ends (`finish`).  Adding the event to the scheduler is assumed to
succeed.
-/

namespace Verif.Task

/-- `enum ldmsd_task_state` (`ldmsd.h:135-139`) -/
inductive TState where
  | stopped
  | started
  | running
  deriving DecidableEq, Repr

/-- * `stopFlag` – `LDMSD_TASK_F_STOP`
* `os` – `task->os` is not NULL
* `queued` – the event is in the heap of the scheduler
* `fired` – callbacks that the scheduler is about to make
* `fn` – the task's function is being called; the value is `next_state` of that `task_cb_fn`
* `busy` – references that the task holds on its scheduler thread (`get_ovis_scheduler`,
  `release_ovis_scheduler`) -/
structure T where
  st : TState
  stopFlag : Bool
  os : Bool
  queued : Bool
  fired : Nat
  fn : Option TState
  busy : Int
  deriving DecidableEq, Repr

/-- `ldmsd_task_init` (`ldmsd.c:875-881`) -/
def init : T := ⟨.stopped, false, false, false, 0, none, 0⟩

/-- `EBUSY` -/
def EBUSY : Nat := 16

/-- `ldmsd_task_start` (`ldmsd.c:920-948`) -/
def start (t : T) : T × Nat :=
  if t.st ≠ .stopped then (t, EBUSY)
  else ({ t with busy := t.busy + 1, os := true, stopFlag := false, queued := true, st := .started }, 0)

/-- `ldmsd_task_stop` (`ldmsd.c:883-900`) -/
def stop (t : T) : T :=
  match t.st with
  | .stopped => t
  | .started => { t with queued := false, os := false, busy := t.busy - 1, st := .stopped }
  | .running => { t with stopFlag := true }

/-- `ldmsd_task_resched` (`ldmsd.c:902-918`), with flags that do not contain `LDMSD_TASK_F_STOP` -/
def resched (t : T) : T :=
  if t.st = .stopped then t else { t with stopFlag := false, queued := true }

/-- `ldmsd_task_join` can return (`ldmsd.c:950-956`) -/
def joined (t : T) : Bool := t.st == .stopped

/-- the scheduler finds the event due and unlocks (`ovis_event.c:346-396`) -/
def fire (t : T) : T := { t with fired := t.fired + 1 }

/-- `task_cb_fn` up to the call of the task's function (`ldmsd.c:842-856`) -/
def begin (t : T) : T :=
  if t.os then { t with fired := t.fired - 1, queued := true, st := .running, fn := some .started }
  else { t with fired := t.fired - 1, st := .running, fn := some .stopped }

/-- `task_cb_fn` after the task's function (`ldmsd.c:858-873`) -/
def finish (t : T) (next : TState) : T :=
  let t1 := if t.stopFlag then { t with stopFlag := false, st := .stopped } else { t with st := next }
  let t2 := if t1.st = .stopped then { t1 with queued := if t1.os then false else t1.queued, os := false,
                                                busy := t1.busy - 1 } else t1
  { t2 with fn := none }

/-- the time to the next call in microseconds (`resched_task`, `ldmsd.c:809-830`) of a synchronous task:
`now` is the time of day -/
def delay (iv off : Int) (now : Int) : Int :=
  let d := iv - now % iv + off
  if d ≤ 0 then d + iv else d

end Verif.Task
