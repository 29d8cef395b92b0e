import Verif.BinHeap.Core

/-!
# Timers of the event scheduler (`lib/src/ovis_event/ovis_event.c`)

Only timer events (`OVIS_EVENT_TIMEOUT`, `OVIS_EVENT_PERIODIC`) are modelled; the `epoll` half of an
`OVIS_EVENT_EPOLL_TIMEOUT` event and the pipe that wakes the loop up are not.  An event is named by a
number.  Times are non-negative.
-/

namespace Verif.Sched

open Verif.BinHeap

/-- `struct timeval` -/
structure Tv where
  sec : Nat
  usec : Nat
deriving DecidableEq, Repr

/-- `timercmp(a, b, <)`, used by `ovis_event_lt` (ovis_event.c:113-117) -/
def Tv.lt (a b : Tv) : Bool := if a.sec = b.sec then a.usec < b.usec else a.sec < b.sec

/-- `timeradd(a, b, r)`: one carry -/
def Tv.add (a b : Tv) : Tv :=
  if a.usec + b.usec ≥ 1000000 then ⟨a.sec + b.sec + 1, a.usec + b.usec - 1000000⟩
  else ⟨a.sec + b.sec, a.usec + b.usec⟩

/-- `timersub(a, b, r)` for `b` not later than `a` -/
def Tv.sub (a b : Tv) : Tv :=
  if a.usec < b.usec then ⟨a.sec - b.sec - 1, a.usec + 1000000 - b.usec⟩
  else ⟨a.sec - b.sec, a.usec - b.usec⟩

/-- `ev->param` for the two kinds of timers (ovis_event.h:195-215) -/
inductive Param where
  | timeout (t : Tv)
  | periodic (period phase : Nat)

/-- `ROUND(x, p)` on `uint64_t` (ovis_event.c:62); `none` is the division by zero. -/
def round64 (x p : Nat) : Option Nat :=
  if p = 0 then none else some ((x + (p - 1)) % 2 ^ 64 / p * p)

/-- `__ovis_event_next_wakeup` (ovis_event.c:493-511) and the same computation at dispatch
(ovis_event.c:371-391) -/
def nextWakeup (now : Tv) : Param → Option Tv
  | .timeout t => some (now.add t)
  | .periodic p ph =>
    match round64 ((now.sec * 1000000 + now.usec) % 2 ^ 64) p with
    | none => none
    | some us => some ⟨(us + ph) % 2 ^ 64 / 1000000, (us + ph) % 2 ^ 64 % 1000000⟩

/-- `struct ovis_scheduler_s` with `priv.tv` of every event and the parameters given at creation. -/
structure Sch where
  heap : St Nat
  tv : Nat → Tv
  evcount : Int
  param : Nat → Param

/-- `ovis_event_lt` -/
def Sch.evlt (s : Sch) (a b : Nat) : Bool := (s.tv a).lt (s.tv b)

/-- `ovis_scheduler_new` with `ovis_event_heap_create(cap)` (ovis_event.c:95-105, 258-318), and events
as made by `ovis_event_*_new` (`priv.idx = -1`, ovis_event.c:440-491).  The slots of the malloc'ed
array are arbitrary; 0 here. -/
def create (cap : Nat) (param : Nat → Param) : Sch :=
  { heap := ⟨fun _ => 0, fun _ => -1, 0, cap⟩, tv := fun _ => ⟨0, 0⟩, evcount := 0, param := param }

inductive Rc where | ok | eexist | enomem
deriving DecidableEq, Repr

/-- `ovis_scheduler_event_add` of a timer (ovis_event.c:513-560).  `none`: division by zero. -/
def add (s : Sch) (ev : Nat) (now : Tv) : Option (Sch × Rc) :=
  if s.heap.idx ev ≠ -1 then some (s, .eexist)
  else
    match nextWakeup now (s.param ev) with
    | none => none
    | some t =>
      let s1 := { s with tv := upd s.tv ev t }
      match insert halfParC s1.evlt s1.heap ev with
      | none => some (s1, .enomem)
      | some h => some ({ s1 with heap := h, evcount := s1.evcount + 1 }, .ok)
where
  /-- `pidx = (idx - 1)/2` (ovis_event.c:126) -/
  halfParC (c : Nat) : Nat := (c - 1) / 2

/-- `ovis_scheduler_event_del` of a timer (ovis_event.c:562-604) -/
def del (s : Sch) (ev : Nat) : Sch :=
  if 0 ≤ s.heap.idx ev then
    { s with heap := removeSink s.evlt s.heap ev, evcount := s.evcount - 1 }
  else s

/-- What one round of `ovis_event_heap_process` does (ovis_event.c:341-405). -/
inductive Round where
  /-- no timer: wait without limit -/
  | idle
  /-- wait this many milliseconds; the C `int` is kept as an integer -/
  | wait (ms : Int)
  /-- run the callback of the event, which has been re-armed -/
  | fire (ev : Nat) (s : Sch)

/-- conversion of a 64-bit value to C `int` -/
def toInt32 (n : Nat) : Int :=
  if n % 2 ^ 32 < 2 ^ 31 then (n % 2 ^ 32 : Nat) else (n % 2 ^ 32 : Nat) - 2 ^ 32

/-- One round of the loop in `ovis_event_heap_process` (ovis_event.c:341-405).  `now` and `now2` are the
results of the two `gettimeofday` calls.  `none`: division by zero. -/
def process (s : Sch) (now now2 : Tv) : Option Round :=
  match top s.heap with
  | none => some .idle
  | some ev =>
    if now.lt (s.tv ev) then
      let d := (s.tv ev).sub now
      some (.wait (toInt32 (d.sec * 1000 + (d.usec + 999) / 1000)))
    else
      match nextWakeup now2 (s.param ev) with
      | none => none
      | some t =>
        let s1 := { s with tv := upd s.tv ev t }
        some (.fire ev { s1 with heap := update add.halfParC s1.evlt s1.heap (s.heap.idx ev).toNat })

end Verif.Sched
