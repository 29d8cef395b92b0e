/-!
# Model: labelling samples with jobs

`ldms/src/sampler/slurm/slurm_sampler.c` (the set of job slots that `slurm_recv_cb` keeps) and
`ldms/src/sampler/sampler_base.c` (`init_job_data`, `base_sample_begin`: samplers read a job set and store
the job and application ids in their own set).  Arrays of the job set are functions, with explicit checks of
the bounds.  Left out: task arrays, names, sizes, warnings, the parsing of events, failure of allocation.
-/

namespace Verif.JobLabel

/-! ## The slots of `slurm_sampler.c` -/

/-- Assignment to a 32-bit metric. -/
def u32 (v : Nat) : Nat := v % 2 ^ 32

/-- `int_v = json_value_int(…)` given to `ldms_metric_array_set_u64`, slurm_sampler.c:750-751. -/
def sx32 (v : Nat) : Nat := if u32 v < 2 ^ 31 then u32 v else 2 ^ 64 - (2 ^ 32 - u32 v)

structure Slots where
  /-- `job_list_len` -/
  len : Nat
  /-- `free_slot_list` -/
  free : List Nat
  /-- `job_tree`: ids and slots -/
  jobs : List (Nat × Nat)
  /-- `next_list_idx` -/
  next : Nat
  /-- the metrics `job_slot_list_tail`, `job_slot_list`, `job_id`, `app_id`, `job_start`, `job_end` -/
  tail : Nat
  list : Nat → Int
  ids : Nat → Nat
  apps : Nat → Nat
  starts : Nat → Nat
  ends : Nat → Nat

def upd {α : Type} (f : Nat → α) (i : Nat) (v : α) : Nat → α := fun j => if j = i then v else f j

/-- `config`, slurm_sampler.c:563-600, `create_metric_set`, 430-433: slots are added, the set is new.  `term`,
958-972, leaves the slots, the tree and `next_list_idx` as they are. -/
def config (s : Slots) (len : Nat) : Slots :=
  { s with
    len := len, free := s.free ++ List.range len, tail := 0, list := fun _ => -1,
    ids := fun _ => 0, apps := fun _ => 0, starts := fun _ => 0, ends := fun _ => 0 }

/-- Before the first `config`. -/
def zero : Slots := ⟨0, [], [], 0, 0, fun _ => -1, fun _ => 0, fun _ => 0, fun _ => 0, fun _ => 0⟩

inductive JEv
  | init (id ts : Nat)
  /-- `step_id` may be missing -/
  | step (id : Nat) (app : Option Nat)
  | exit (id ts : Nat)
  /-- the other events: task_init_priv, task_exit -/
  | task (id : Nat)
  deriving DecidableEq, Repr

/-- The slot of a job, `get_job_data`, slurm_sampler.c:130-138. -/
def slotOf (s : Slots) (id : Nat) : Option Nat := (s.jobs.find? fun p => p.1 == id).map (·.2)

/-- `handle_job_init`, slurm_sampler.c:611-641; `none` is a failed assertion (bad index). -/
def jobInit (s : Slots) (id ts slot : Nat) : Option Slots :=
  if slot < s.len ∧ s.next < s.len then
    some { s with
      tail := s.next, list := upd s.list s.next slot, next := if s.next + 1 < s.len then s.next + 1 else 0,
      ids := upd s.ids slot id, starts := upd s.starts slot (u32 ts), ends := upd s.ends slot 0 }
  else none

/-- `slurm_recv_cb`, slurm_sampler.c:859-956, with `alloc_job_data`, 145-160, `release_job_data`, 162-167,
`handle_step_init`, 748-752, `handle_job_exit`, 848-857. -/
def recv (s : Slots) : JEv → Option Slots
  | .init id ts => match slotOf s id with
    | some _ => some s
    | none => match s.free with
      | [] => some s
      | slot :: free => jobInit { s with free := free, jobs := s.jobs ++ [(id, slot)] } id ts slot
  | .step id app => match slotOf s id, app with
    | some slot, some a => if slot < s.len then some { s with apps := upd s.apps slot (sx32 a) } else none
    | _, _ => some s
  | .exit id ts => match slotOf s id with
    | some slot => if slot < s.len then
        some { s with
          ends := upd s.ends slot (u32 ts), jobs := s.jobs.filter fun p => p.1 != id, free := s.free ++ [slot] }
      else none
    | none => some s
  | .task _ => some s

/-- Any number of events. -/
def recvAll : Slots → List JEv → Option Slots
  | s, [] => some s
  | s, e :: es => (recv s e).bind fun s => recvAll s es

/-! ## The samplers: `sampler_base.c` -/

/-- The test of sampler_base.c:409, 421, 431. -/
def inJob (ts start fin : Nat) : Bool := decide (start ≤ ts) && (decide (fin = 0) || decide (ts ≤ fin))

/-- `base_sample_begin` for a set with slots, sampler_base.c:413-424.  The values are read one by one: `r k` is the
job set at the `k`-th read. -/
def slotLabel (r : Nat → Slots) (ts : Nat) : Option (Nat × Nat) :=
  let tail := (r 0).tail
  if (r 1).len ≤ tail then none else
  let slot := (r 1).list tail
  if slot < 0 then some (0, 0) else
  if (r 2).len ≤ slot.toNat then none else
  if inJob ts ((r 2).starts slot.toNat) ((r 3).ends slot.toNat) then
    some ((r 4).ids slot.toNat, (r 5).apps slot.toNat)
  else some (0, 0)

/-- A record of the job list of `slurm_sampler2.c`. -/
structure Rec where
  start : Nat
  fin : Nat
  job : Nat
  app : Nat
  deriving DecidableEq, Repr

/-- A job set: one job, as `jobinfo.c`; slots; a list of records (and whether the record has the four members). -/
inductive Content
  | plain (start fin job app : Option Nat)
  | slots (s : Slots)
  | jobs (hasStart hasFin hasJob hasApp : Bool) (recs : List Rec)

structure Base where
  /-- `job_set`, as the number of the set -/
  use : Option Nat
  /-- references taken by `ldms_set_by_name` and dropped -/
  leaks : Nat
  /-- the values of `job_id` and `app_id` in the sampler's set -/
  job : Nat
  app : Nat
  deriving DecidableEq, Repr

/-- `base_config` and `__set_init`, sampler_base.c:314-331 -/
def Base.new : Base := ⟨none, 0, 0, 0⟩

/-- The sets there are, and the one that has the name `job_set_name`. -/
structure World where
  content : Nat → Content
  dir : Option Nat

/-- `init_job_data`, sampler_base.c:85-186. -/
def initJob (w : World) (x : Base) : Base :=
  match x.use with
  | some _ => x
  | none => match w.dir with
    | none => x
    | some k => match w.content k with
      | .jobs _ _ _ _ recs => if recs = [] then { x with leaks := x.leaks + 1 } else { x with use := some k }
      | .plain start fin job _ =>
        if start.isSome && fin.isSome && job.isSome then { x with use := some k } else { x with leaks := x.leaks + 1 }
      | .slots _ => { x with use := some k }

/-- `base_sample_begin`, sampler_base.c:383-437, in the second `ts`; `none`: a failed assertion or a NULL pointer.  The job
set does not change meanwhile; see `slotLabel` for the other case. -/
def begin (w : World) (x : Base) (ts : Nat) : Option Base :=
  let x := initJob w x
  match x.use with
  | none => some x
  | some k => match w.content k with
    | .plain start fin job app => match start, fin, job with
      | some start, some fin, some job =>
        if inJob ts (u32 start) (u32 fin) then app.map fun app => { x with job := job, app := app }
        else some { x with job := 0, app := 0 }
      | _, _, _ => none
    | .slots s => (slotLabel (fun _ => s) ts).map fun p => { x with job := p.1, app := p.2 }
    | .jobs hasStart hasFin hasJob hasApp recs =>
      if hasJob then match recs.getLast? with
        | none => none
        | some r => if hasStart && hasFin then
            if inJob ts (u32 r.start) (u32 r.fin) then (if hasApp then some { x with job := r.job, app := r.app } else none)
            else some { x with job := 0, app := 0 }
          else none
      else some x

end Verif.JobLabel
