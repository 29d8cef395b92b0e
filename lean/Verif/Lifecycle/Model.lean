import Verif.Task.Model

/-!
# Producers, updaters and storage policies: start, stop, delete

`ldms/src/ldmsd/ldmsd_prdcr.c`, `ldmsd_updtr.c`, `ldmsd_strgp.c`.

One object of each kind, found by its name.  The functions run under the lock of the object, so they are
single steps, except the stops of producers and updaters, which drop the lock to wait for their tasks:
these are two steps.  The producer is an active one (`LDMSD_PRDCR_TYPE_ACTIVE`).  Whether the caller has
access (`ldmsd_cfgobj_access_check`, see `Verif/Access`) is an input.  Sets of the producer, and the
tasks of the updater, are not modelled.
-/

namespace Verif.Lifecycle

open Verif.Task (T)

def ENOENT : Int := 2
def EACCES : Int := 13
def EBUSY : Int := 16
def EINVAL : Int := 22

/-! ## producers -/

/-- `enum ldmsd_prdcr_state` (`ldmsd.h`) -/
inductive PState where
  | stopped
  | disconnected
  | connecting
  | connected
  | stopping
  deriving DecidableEq, Repr

/-- * `xprt` – `prdcr->xprt`: `some b` is an endpoint, `b` tells whether its `CONNECTED` event was delivered
* `waiting` – stop requests that wait for the task
* `refs` – `obj.ref_count`
* `intrvl` – `conn_intrvl_us`
* `found` – the producer is in the tree -/
structure P where
  st : PState
  xprt : Option Bool
  task : T
  waiting : Nat
  refs : Nat
  intrvl : Int
  found : Bool
  deriving DecidableEq, Repr

/-- a producer just created (`ldmsd_prdcr.c:868-926`) -/
def P.new (iv : Int) : P := ⟨.stopped, none, Task.init, 0, 1, iv, true⟩

/-- what happens in a step: an assertion fails, or a new state and the result of a request that ends -/
inductive Out where
  | abort
  | ok (p : P) (rc : Option Int)
  deriving DecidableEq, Repr

/-- `__ldmsd_prdcr_start` (`ldmsd_prdcr.c:992-1014`) -/
def prdcrStart0 (acc : Bool) (p : P) : P × Int :=
  if !acc then (p, EACCES)
  else if p.st ≠ .stopped then (p, EBUSY)
  else ({ p with st := .disconnected, task := (Task.start p.task).1 }, 0)

/-- `ldmsd_prdcr_start` (`ldmsd_prdcr.c:1016-1035`); `iv` is the interval given in the request: absent,
not a time, or a number of microseconds -/
def prdcrStart (acc : Bool) (iv : Option (Option Int)) (p : P) : P × Int :=
  if !p.found then (p, ENOENT)
  else
    let p := { p with refs := p.refs + 1 }
    match iv with
    | some none => (p, EINVAL)
    | some (some v) =>
      if v ≤ 0 then (p, -EINVAL)
      else
        let r := prdcrStart0 acc { p with intrvl := v }
        ({ r.1 with refs := r.1.refs - 1 }, r.2)
    | none =>
      let r := prdcrStart0 acc p
      ({ r.1 with refs := r.1.refs - 1 }, r.2)

/-- `ldmsd_prdcr_stop` up to the wait for the task (`ldmsd_prdcr.c:1037-1063`, `1072-1081`); the result
is `none` if the request waits -/
def prdcrStop (acc : Bool) (p : P) : P × Option Int :=
  if !p.found then (p, some ENOENT)
  else if !acc then (p, some EACCES)
  else if p.st = .stopped then (p, some 0)
  else if p.st = .stopping then (p, some EBUSY)
  else ({ p with task := Task.stop p.task, st := .stopping, waiting := p.waiting + 1, refs := p.refs + 1 }, none)

/-- the rest of `ldmsd_prdcr_stop` (`ldmsd_prdcr.c:1064-1070`, `1079`) -/
def prdcrStopEnd (p : P) : P × Int :=
  ({ p with st := if p.xprt = none then .stopped else p.st, waiting := p.waiting - 1, refs := p.refs - 1 }, 0)

/-- `ldmsd_prdcr_del` (`ldmsd_prdcr.c:943-980`) -/
def prdcrDel (acc : Bool) (p : P) : P × Int :=
  if !p.found then (p, ENOENT)
  else if !acc then (p, EACCES)
  else if p.st ≠ .stopped then (p, EBUSY)
  else if p.refs + 1 > 2 then (p, EBUSY)
  else ({ p with found := false, refs := p.refs - 1 }, 0)

/-- `prdcr_connect` of an active producer (`ldmsd_prdcr.c:751-781`); `ok` tells whether the connection
request is accepted by the transport -/
def prdcrConnect (ok : Bool) (p : P) : Out :=
  if p.xprt ≠ none then .abort
  else if ok then .ok { p with st := .connecting, xprt := some false } none
  else .ok { p with st := .disconnected, xprt := none } none

/-- `prdcr_task_cb` (`ldmsd_prdcr.c:798-818`) -/
def prdcrTask (ok : Bool) (p : P) : Out :=
  match p.st with
  | .stopped => .ok { p with task := Task.stop p.task } none
  | .stopping => .ok { p with task := Task.stop p.task } none
  | .disconnected => prdcrConnect ok p
  | .connecting => .ok p none
  | .connected => .ok { p with task := Task.stop p.task } none

/-- `prdcr_connect_cb` for `CONNECTED` (`ldmsd_prdcr.c:607-633`, `669-708`) -/
def prdcrConnected (p : P) : P :=
  { p with st := .connected, xprt := some true, task := Task.stop p.task }

/-- `prdcr_connect_cb` for `DISCONNECTED`, `REJECTED` and `ERROR` (`ldmsd_prdcr.c:640-658`, `710-746`) -/
def prdcrDown (p : P) : Out :=
  match p.st with
  | .stopping => .ok { p with st := .stopped, xprt := none } none
  | .stopped => .abort
  | _ => .ok { p with st := .disconnected, task := (Task.start p.task).1, xprt := none } none

/-! ## updaters -/

/-- `enum ldmsd_updtr_state` -/
inductive UState where
  | stopped
  | running
  | stopping
  deriving DecidableEq, Repr

/-- `sched` – interval and offset of the default task -/
structure U where
  st : UState
  sched : Int × Int
  found : Bool
  deriving DecidableEq, Repr

/-- `__ldmsd_updtr_start` (`ldmsd_updtr.c:1002-1040`) -/
def updtrStart0 (acc : Bool) (u : U) : U × Int :=
  if !acc then (u, EACCES)
  else if u.st ≠ .stopped then (u, EBUSY)
  else ({ u with st := .running }, 0)

/-- the first half of `ldmsd_updtr_start` (`ldmsd_updtr.c:1042-1102`); `req` is the interval and offset
that the request and the present values lead to, `none` if they are not accepted -/
def updtrStart1 (acc : Bool) (req : Option (Int × Int)) (u : U) : U × Int :=
  if !u.found then (u, ENOENT)
  else if !acc then (u, EACCES)
  else if u.st ≠ .stopped then (u, EBUSY)
  else
    match req with
    | none => (u, EINVAL)
    | some s => ({ u with sched := s }, 0)

/-- `ldmsd_updtr_start` when no other request comes between its two halves -/
def updtrStart (acc : Bool) (req : Option (Int × Int)) (u : U) : U × Int :=
  let r := updtrStart1 acc req u
  if r.2 ≠ 0 then r else updtrStart0 acc r.1

/-- `ldmsd_updtr_stop` up to the wait for the tasks (`ldmsd_updtr.c:1133-1153`, `1167-1173`) -/
def updtrStop (acc : Bool) (u : U) : U × Option Int :=
  if !u.found then (u, some ENOENT)
  else if !acc then (u, some EACCES)
  else if u.st = .stopped then (u, some 0)
  else if u.st ≠ .running then (u, some EBUSY)
  else ({ u with st := .stopping }, none)

/-- the rest of `ldmsd_updtr_stop` (`ldmsd_updtr.c:1158-1165`) -/
def updtrStopEnd (u : U) : U × Int := ({ u with st := .stopped }, 0)

/-- `ldmsd_updtr_del` (`ldmsd_updtr.c:969-1000`) -/
def updtrDel (acc : Bool) (u : U) : U × Int :=
  if !u.found then (u, ENOENT)
  else if !acc then (u, EACCES)
  else if u.st ≠ .stopped then (u, EBUSY)
  else ({ u with found := false }, 0)

/-! ## storage policies -/

/-- `running` – `LDMSD_STRGP_STATE_RUNNING` (`LDMSD_STRGP_STATE_OPENED` is not used by these functions) -/
structure S where
  running : Bool
  refs : Nat
  found : Bool
  deriving DecidableEq, Repr

/-- `ldmsd_strgp_start` (`ldmsd_strgp.c:723-755`) -/
def strgpStart (acc : Bool) (s : S) : S × Int :=
  if !s.found then (s, ENOENT)
  else if !acc then (s, EACCES)
  else if s.running then (s, EBUSY)
  else ({ s with running := true }, 0)

/-- `ldmsd_strgp_stop` (`ldmsd_strgp.c:757-788`) -/
def strgpStop (acc : Bool) (s : S) : S × Int :=
  if !s.found then (s, ENOENT)
  else if !acc then (s, EACCES)
  else if !s.running then (s, EBUSY)
  else ({ s with running := false }, 0)

/-- `ldmsd_strgp_del` (`ldmsd_strgp.c:794-839`) -/
def strgpDel (acc : Bool) (s : S) : S × Int :=
  if !s.found then (s, ENOENT)
  else if !acc then (s, EACCES)
  else if s.running then (s, EBUSY)
  else if s.refs + 1 > 2 then (s, EBUSY)
  else ({ s with found := false, refs := s.refs - 1 }, 0)

end Verif.Lifecycle
