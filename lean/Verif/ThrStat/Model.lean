/-!
# Thread statistics

`zap_thrstat_new`, `zap_thrstat_reset`, `zap_accumulate`, `zap_thrstat_wait_start`,
`zap_thrstat_wait_end` of `lib/src/zap/zap.c`, and `__thrstat_reset`, `__thrstat_wait_start`,
`__thrstat_wait_end`, `ovis_scheduler_thrstat_get` of `lib/src/ovis_event/ovis_event.c`.

Times are nanoseconds since the epoch.  Counters are 64 bits, arithmetic on them is modulo `2^64`.
-/

namespace Verif.ThrStat

/-- `zap_timespec_diff_us` (`zap.h:962-969`), a clock that does not go backwards -/
def diffUs (start now : Nat) : Nat := (now - start) / 1000

def M : Nat := 2 ^ 64

/-- a sliding window: `*_count`, `*_sum`, `*_window`, `*_tot` -/
structure Win where
  count : Nat
  sum : Nat
  window : List Nat
  tot : Nat
  deriving DecidableEq, Repr

/-- `zap_accumulate` (`zap.c:1042-1054`) and the update of the counters by its callers; the window size
is the length of the list -/
def accumulate (w : Win) (sample : Nat) : Win :=
  let i := w.count % w.window.length
  { count := w.count + 1
    sum := (w.sum + (M - w.window.getD i 0) + sample) % M
    window := w.window.set i sample
    tot := (w.tot + sample) % M }

/-- `struct zap_thrstat` (`zap_priv.h:518-537`), the fields used here -/
structure St where
  waiting : Bool
  start : Nat
  waitStart : Nat
  waitEnd : Nat
  proc : Win
  wait : Win
  deriving DecidableEq, Repr

/-- a window of `size` zeroes -/
def Win.new (size : Nat) : Win := ⟨0, 0, List.replicate size 0, 0⟩

/-- `zap_thrstat_new` (`zap.c:982-1010`) -/
def new (size now : Nat) : St := ⟨false, now, now, now, Win.new size, Win.new size⟩

/-- the part of `zap_thrstat_reset` (`zap.c:932-942`) that concerns a window: the counter and the
window are cleared, the sum and the total are not -/
def Win.reset (w : Win) : Win := { w with count := 0, window := List.replicate w.window.length 0 }

/-- `zap_thrstat_reset` -/
def reset (s : St) (now : Nat) : St :=
  { s with start := now, waitStart := now, waitEnd := now, proc := s.proc.reset, wait := s.wait.reset }

/-- `zap_thrstat_wait_start` (`zap.c:1056-1072`); `none` is the failing `assert` -/
def waitStart (s : St) (now : Nat) : Option St :=
  if s.waiting then none
  else some { s with waiting := true, waitStart := now, proc := accumulate s.proc (diffUs s.waitEnd now) }

/-- `zap_thrstat_wait_end` (`zap.c:1074-1088`) -/
def waitEnd (s : St) (now : Nat) : Option St :=
  if s.waiting then
    some { s with waiting := false, waitEnd := now, wait := accumulate s.wait (diffUs s.waitStart now) }
  else none

/-- a thread that goes to sleep at `c.1` and wakes up at `c.2`, repeatedly -/
def cycles (s : St) : List (Nat × Nat) → Option St
  | [] => some s
  | c :: cs => (waitStart s c.1).bind fun s1 => (waitEnd s1 c.2).bind fun s2 => cycles s2 cs

/-! ## the event scheduler -/

/-- `ovis_event_thrstat_t`, the fields used here; time 0 is "not set" -/
structure Ev where
  waiting : Bool
  waitStart : Nat
  waitEnd : Nat
  waitTot : Nat
  procTot : Nat
  deriving DecidableEq, Repr

/-- `__timespec_diff_us` (`ovis_event.c:636-649`): 0 for a time that is not
set, which is one in the first second of the epoch -/
def evDiff (start now : Nat) : Nat := if start / 1000000000 = 0 then 0 else (now - start) / 1000

/-- `__thrstat_reset` (`ovis_event.c:651-659`) -/
def evNew : Ev := ⟨false, 0, 0, 0, 0⟩

/-- `__thrstat_wait_start` (`ovis_event.c:661-669`) -/
def evWaitStart (e : Ev) (now : Nat) : Ev :=
  { e with waitStart := now, waitTot := e.waitTot + evDiff e.waitEnd now, waiting := true }

/-- `__thrstat_wait_end` (`ovis_event.c:671-678`) -/
def evWaitEnd (e : Ev) (now : Nat) : Ev :=
  { e with waitEnd := now, procTot := e.procTot + evDiff e.waitStart now, waiting := false }

/-- `ovis_scheduler_thrstat_get` (`ovis_event.c:816-854`): idle and active time -/
def evGet (e : Ev) (now : Nat) : Nat × Nat :=
  if e.waiting then (e.waitTot + evDiff e.waitStart now, e.procTot)
  else (e.waitTot, e.procTot + evDiff e.waitEnd now)

/-- the loop of the scheduler: it waits from `c.1` to `c.2` (`ovis_event.c:722-724`) -/
def evCycles (e : Ev) : List (Nat × Nat) → Ev
  | [] => e
  | c :: cs => evCycles (evWaitEnd (evWaitStart e c.1) c.2) cs

end Verif.ThrStat
