/-!
# Event workers (lib/src/ovis_ev/ev.c, evw.c)

One worker and any number of threads that post, cancel and flush.  A step is what a thread does while it holds
the worker's lock, or one atomic operation outside it; steps of different threads interleave freely.  Events are
numbered.  The timer tree is a list of which any entry with the smallest time may be taken (the tree itself is
modelled and proved in `Verif/Rbt`; the order of equal times is unspecified).  Dispatch tables and reference
counts of events are left out (reference counts: `Verif/Ref`).
-/

namespace Verif.Evw

/-- struct timespec: seconds, nanoseconds -/
structure Ts where
  sec : Nat
  nsec : Nat
  deriving DecidableEq, Repr

/-- `ev_time_cmp(a, b) <= 0` (evw.c:32-44) -/
def Ts.le (a b : Ts) : Bool :=
  if a.sec < b.sec then true
  else if b.sec < a.sec then false
  else decide (a.nsec ≤ b.nsec)

/-- enum ev_status_e (ev.h:30-33) -/
inductive Status where | ok | flush
  deriving DecidableEq, Repr

/-- where the worker thread is in `worker_proc` (evw.c:130-152): before line 134; in the first wait (line
136); in `process_immediate_events`; in `process_to_events` with the clock value read at line 91; in the wait at
line 149 -/
inductive Pc where | start | nap | imm | tos (now : Ts) | sleep
  deriving DecidableEq, Repr

/-- what the callers and the actor see, newest first.  `accepted e timed to`: an `ev_post` returned 0;
`refused e`: it returned EBUSY; `fired e to now fl`: the worker took `e` off the timer tree, `fl` tells whether
it was flushing; `delivered e st imm`: the actor was called with status `st` for a post without (`imm`) or with a timeout; `canceled e rc`: `ev_cancel` returned
0 (`true`) or EBUSY. -/
inductive Obs where
  | accepted (e : Nat) (timed : Bool) (to : Ts)
  | refused (e : Nat)
  | fired (e : Nat) (to now : Ts) (fl : Bool)
  | delivered (e : Nat) (st : Status) (imm : Bool)
  | canceled (e : Nat) (ok : Bool)
  deriving DecidableEq, Repr

/-- The worker (struct ev_worker_s, ev_priv.h) and the events (struct ev__s).  `known`: the event has been
posted once (before that its destination is not set).  `claims`: posts that have won the compare-and-swap but
do not hold the lock yet, with the `to != NULL` test.  The entries of `list` remember (for the specification
only) whether they were posted without a timeout; `cur` is the event whose actor is about to be called, with the
same mark (`none` for one off the tree).  `owed`: sem_post calls about to be made. -/
structure St where
  posted : Nat → Bool
  known : Nat → Bool
  status : Nat → Status
  to : Nat → Ts
  claims : List (Nat × Bool)
  list : List (Nat × Bool)
  tree : List Nat
  flushing : Bool
  pc : Pc
  cur : Option (Nat × Bool)
  semWait : Ts
  sem : Nat
  owed : Nat
  log : List Obs

/-- `ev_worker_new` (evw.c:162-212); events fresh from `ev_new` (ev.c:84-95) -/
def init : St :=
  { posted := fun _ => false, known := fun _ => false, status := fun _ => .ok, to := fun _ => ⟨0, 0⟩
    claims := [], list := [], tree := [], flushing := false, pc := .start, cur := none, semWait := ⟨0, 0⟩
    sem := 0, owed := 0, log := [] }

/-- function update -/
def upd {α : Type} (f : Nat → α) (e : Nat) (v : α) : Nat → α := fun x => if x = e then v else f x

/-- actions of the threads -/
inductive Act where
  /-- `ev_post` up to the lock; `to = none` is a NULL timeout -/
  | cas (e : Nat) (to : Option Ts)
  /-- the locked part of that `ev_post` -/
  | enq (e : Nat)
  | cancel (e : Nat) (now : Ts)
  | flush
  /-- a `sem_post` that was owed -/
  | semPost
  /-- `worker_proc` lines 134-135 -/
  | start (now : Ts)
  /-- `sem_timedwait` returns -/
  | wake (now : Ts)
  /-- `process_immediate_events` takes an event -/
  | popImm
  /-- it returns and `process_to_events` reads the clock -/
  | toStart (now : Ts)
  /-- `process_to_events` takes event `e` -/
  | popTo (e : Nat)
  /-- the actor is called (no lock held) -/
  | call
  /-- `process_to_events` returns; the rest of the loop body up to the wait; `now` is the clock read in
  `ev_sched_to` -/
  | toDone (now : Ts)
  deriving DecidableEq, Repr

/-- outcome of an action: not possible now, undefined behaviour, or a new state -/
inductive Out where
  | stuck | ub
  | ok (s : St)

/-- one action -/
def step (s : St) : Act → Out
  -- ev.c:133-147
  | .cas e to =>
    if s.posted e then .ok { s with log := .refused e :: s.log }
    else .ok { s with posted := upd s.posted e true, known := upd s.known e true
                      status := upd s.status e .ok
                      to := upd s.to e (to.getD ⟨0, 0⟩)
                      claims := (e, to.isSome) :: s.claims }
  -- ev.c:149-169
  | .enq e =>
    match s.claims.find? (fun c => c.1 = e) with
    | none => .stuck
    | some (_, timed) =>
      let cl := s.claims.filter (fun c => c.1 ≠ e)
      if s.flushing then
        .ok { s with posted := upd s.posted e false, claims := cl, log := .refused e :: s.log }
      else
        .ok { s with claims := cl
                     list := if timed then s.list else s.list ++ [(e, true)]
                     tree := if timed then e :: s.tree else s.tree
                     owed := if (s.to e).le s.semWait then s.owed + 1 else s.owed
                     log := .accepted e timed (s.to e) :: s.log }
  -- ev.c:172-206; ev_time_diff (evw.c:22-30) < 1.0 iff the seconds of the event are not above those of `now`
  | .cancel e now =>
    if s.known e = false then .ub
    else if s.posted e = false ∧ s.status e = .flush then .ok { s with log := .canceled e true :: s.log }
    else if (s.to e).sec ≤ now.sec then
      .ok { s with status := upd s.status e .flush, log := .canceled e false :: s.log }
    else if e ∈ s.tree then
      .ok { s with status := upd s.status e .flush, tree := s.tree.erase e, list := s.list ++ [(e, false)]
                   owed := s.owed + 1, log := .canceled e true :: s.log }
    else .ub
  -- evw.c:154-160
  | .flush => .ok { s with flushing := true, owed := s.owed + 1 }
  | .semPost => if s.owed = 0 then .stuck else .ok { s with owed := s.owed - 1, sem := s.sem + 1 }
  -- evw.c:134-135
  | .start now => if s.pc = .start then .ok { s with flushing := false, semWait := now, pc := .nap } else .stuck
  -- evw.c:136, 149: the semaphore was posted, the time has come, or the timeout is malformed
  | .wake now =>
    if s.pc = .nap ∨ s.pc = .sleep then
      if 0 < s.sem then .ok { s with sem := s.sem - 1, pc := .imm }
      else if s.semWait.le now ∨ 1000000000 ≤ s.semWait.nsec then .ok { s with pc := .imm }
      else .stuck
    else .stuck
  -- evw.c:56-67
  | .popImm =>
    if s.pc = .imm ∧ s.cur = none then
      match s.list with
      | [] => .stuck
      | (e, b) :: r =>
        .ok { s with list := r, posted := upd s.posted e false
                     status := if s.flushing then upd s.status e .flush else s.status
                     cur := some (e, b) }
    else .stuck
  -- evw.c:56-57, 91
  | .toStart now =>
    if s.pc = .imm ∧ s.cur = none ∧ s.list = [] then .ok { s with pc := .tos now } else .stuck
  -- evw.c:92-108
  | .popTo e =>
    match s.pc with
    | .tos now =>
      if s.cur = none ∧ e ∈ s.tree ∧ (∀ x ∈ s.tree, (s.to e).le (s.to x) = true) ∧
          (s.flushing = true ∨ (s.to e).le now = true) then
        .ok { s with tree := s.tree.erase e, posted := upd s.posted e false
                     status := if s.flushing then upd s.status e .flush else s.status
                     cur := some (e, false)
                     log := .fired e (s.to e) now s.flushing :: s.log }
      else .stuck
    | _ => .stuck
  -- evw.c:68-75, 109-116
  | .call =>
    match s.cur with
    | none => .stuck
    | some (e, b) => .ok { s with cur := none, log := .delivered e (s.status e) b :: s.log }
  -- evw.c:94-96, 102-103, 141-149
  | .toDone now' =>
    match s.pc with
    | .tos now =>
      if s.cur = none ∧ (s.flushing = true → s.tree = []) ∧ (∀ x ∈ s.tree, (s.to x).le now = false) then
        .ok { s with pc := .sleep, flushing := false
                     semWait := match s.tree.find? (fun e => s.tree.all (fun x => (s.to e).le (s.to x))) with
                       | some e => s.to e
                       | none => ⟨now'.sec + 10, now'.nsec⟩ }
      else .stuck
    | _ => .stuck

/-- run a list of actions -/
def run (s : St) : List Act → Out
  | [] => .ok s
  | a :: as =>
    match step s a with
    | .ok s' => run s' as
    | o => o

/-- a state some interleaving leads to -/
def Reachable (s : St) : Prop := ∃ as, run init as = .ok s

/-- number of posts of `e` that returned 0 -/
def accepted (e : Nat) (l : List Obs) : Nat :=
  (l.filter (fun o => match o with | .accepted x _ _ => x = e | _ => false)).length

/-- number of times the actor was called for `e` -/
def delivered (e : Nat) (l : List Obs) : Nat :=
  (l.filter (fun o => match o with | .delivered x _ _ => x = e | _ => false)).length

/-- number of times `e` is queued, or in the worker's hands on its way to the actor -/
def queued (e : Nat) (s : St) : Nat := (s.list.map (·.1)).count e + s.tree.count e
def inHand (e : Nat) (s : St) : Nat := if s.cur.map (·.1) = some e then 1 else 0

/-- the events posted without a timeout, in the order the posts returned 0 -/
def immAccepted (l : List Obs) : List Nat :=
  l.reverse.filterMap (fun o => match o with | .accepted x false _ => some x | _ => none)

/-- the events among those delivered to the actor, in the order of delivery -/
def immDelivered (l : List Obs) : List Nat :=
  l.reverse.filterMap (fun o => match o with | .delivered x _ true => some x | _ => none)

end Verif.Evw
