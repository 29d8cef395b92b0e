/-!
# Model of the failover service of ldmsd

`ldms/src/ldmsd/ldmsd_failover.c`.  One daemon of a pair: its failover object, the
routine its task runs, the callbacks of its connection to the peer and the
handlers of commands and of requests of the peer.  The peer, the network, the
clock and the rest of the daemon are an arbitrary environment: they decide which
event comes next and what the calls made by the service return.

Every handler holds the failover mutex from beginning to end, so a run is a
sequence of events (the two exceptions, both noted below, are the start of the own
configuration and the clearing of `OUTSTANDING_PING`, which follow the unlock).
A failed assertion ends the daemon: `none`.
-/

namespace Verif.Failover

/-- Name of a configuration object. -/
abbrev Name := List Char

/-- `failover_state_t`, ldmsd_failover.c:99-104. -/
inductive Svc | stop | start | stopping
  deriving DecidableEq, Repr

/-- `failover_conn_state_t`, ldmsd_failover.c:106-117. -/
inductive Conn
  | disconnected | connecting | pairing | pairingRetry | resetting | configuring | configured
  | unpairing | error
  deriving DecidableEq, Repr

/-- Requests sent to the peer that it answers (`ldmsd_req_cmd_new` with a callback,
ldmsd_failover.c:819, 917, 1003, 1242). -/
inductive Req | pair | peercfg | ping | reset
  deriving DecidableEq, Repr

/-- `struct str_rbn`, ldmsd_failover.c:179-184: a producer, updater or storage
policy of the peer.  `started`: its start was the last call on it that succeeded. -/
structure Obj where
  name : Name
  started : Bool
  deriving DecidableEq, Repr

/-- What is going on below `f->ax`: no connection, being connected, connected. -/
inductive Link | none | trying | up
  deriving DecidableEq, Repr

/-- `struct ldmsd_failover`, ldmsd_failover.c:141-177.
`timeout = none` stands for `tv_sec = INT64_MAX`, otherwise times are in
microseconds.  `timeout_factor` is the fraction `num / den` instead of a double.
The three trees of names are lists in the order of arrival instead of trees in
the order of names.  `task_interval`, `ping_avg`, `ping_sse` and `ping_sd` are left
out: see `Env.sd4`.
`ours`: how often `ldmsd_ourcfg_start_proc` was called.  `link` and `pend` (the
requests that were sent and not answered) describe the connection; the code has no
such fields. -/
structure F where
  svc : Svc
  conn : Conn
  cfgd : Bool
  received : Bool
  activated : Bool
  outPing : Bool
  our : Bool
  outUnpair : Bool
  auto : Bool
  interval : Nat
  num : Nat
  den : Nat
  peer : Name
  pingTs : Nat
  timeout : Option Nat
  rtt : List Nat
  idx : Nat
  prdcrs : List Obj
  updtrs : List Obj
  strgps : List Obj
  ours : Nat
  link : Link
  pend : List Req
  deriving DecidableEq, Repr

/-- What the calls made while an event is handled return.
`now`: `gettimeofday`; `sendOk`: a request could be made and sent; `connectOk`:
`ldms_xprt_new_with_auth` and `ldms_xprt_connect_by_name` succeed; `startOk`, `stopOk`
and `delOk`: starting, stopping, deleting the named object succeeds; `newOk`: so
does creating it; `foreign`: an object of that name that is not one of the peer
exists; `sd4`: four standard deviations of the round trips, a double in the code,
any natural number here. -/
structure Env where
  now : Nat
  sendOk : Bool
  connectOk : Bool
  startOk : Name → Bool
  stopOk : Name → Bool
  delOk : Name → Bool
  newOk : Name → Bool
  foreign : Name → Bool
  sd4 : Nat

/-- `__failover_init`, ldmsd_failover.c:312-329, and the constants 72-74. -/
def F.init : F :=
  { svc := .stop, conn := .disconnected, cfgd := false, received := false, activated := false,
    outPing := false, our := false, outUnpair := false, auto := true, interval := 1000000,
    num := 2, den := 1, peer := [], pingTs := 0, timeout := some 0, rtt := [], idx := 0,
    prdcrs := [], updtrs := [], strgps := [], ours := 0, link := .none, pend := [] }

/-- `EAGAIN`. -/
def EAGAIN : Nat := 11
/-- `EINVAL`. -/
def EINVAL : Nat := 22
/-- `EPERM`. -/
def EPERM : Nat := 1

/-- `__name_is_failover`, ldmsd_failover.c:344-349; the prefix is "#" (ldmsd.h:85). -/
def isFailover (n : Name) : Bool := n.head? == some '#'

/-- One tree of `__peercfg_stop`, ldmsd_failover.c:1318-1328. -/
def stopObjs (e : Env) (l : List Obj) : List Obj :=
  l.map fun o => if o.started && e.stopOk o.name then { o with started := false } else o

/-- `__peercfg_activated`, ldmsd_failover.c:1508-1524. -/
def anyStarted (f : F) : Bool := f.prdcrs.any (·.started) || f.updtrs.any (·.started)

/-- The loop of `__peercfg_stop`, ldmsd_failover.c:1316-1328.  Storage policies are
left alone. -/
def stopAll (e : Env) (f : F) : F :=
  { f with updtrs := stopObjs e f.updtrs, prdcrs := stopObjs e f.prdcrs }

/-- `__peercfg_stop`, ldmsd_failover.c:1299-1338.  A call failed exactly if an object
is still marked started. -/
def peercfgStop (e : Env) (f : F) : F × Bool :=
  if anyStarted (stopAll e f) then (stopAll e f, false)
  else ({ stopAll e f with timeout := none, activated := false }, true)

/-- One tree of `__peercfg_delete`, ldmsd_failover.c:1281-1291: up to the first
object whose deletion is refused. -/
def delObjs (e : Env) (l : List Obj) : List Obj := l.dropWhile fun o => e.delOk o.name

/-- `__peercfg_delete`, ldmsd_failover.c:1264-1296: policies, updaters, producers. -/
def peercfgDelete (e : Env) (f : F) : F :=
  let f1 := { f with strgps := delObjs e f.strgps }
  if f1.strgps.isEmpty then
    let f2 := { f1 with updtrs := delObjs e f1.updtrs }
    if f2.updtrs.isEmpty then { f2 with prdcrs := delObjs e f2.prdcrs } else f2
  else f1

/-- `__peercfg_reset`, ldmsd_failover.c:1340-1352.  What `__peercfg_delete` returns
is not looked at. -/
def peercfgReset (e : Env) (f : F) : F × Bool :=
  match peercfgStop e f with
  | (f1, false) => (f1, false)
  | (f1, true) => ({ peercfgDelete e f1 with received := false }, true)

/-- One tree of `__peercfg_start`, ldmsd_failover.c:1538-1552, 1554-1567. -/
def startObjs (e : Env) (l : List Obj) : List Obj :=
  l.map fun o => if !o.started && e.startOk o.name then { o with started := true } else o

/-- `__peercfg_start`, ldmsd_failover.c:1526-1575.  `is_activated` is 1 from the
beginning, so the flag is set in any case. -/
def peercfgStart (e : Env) (f : F) : F :=
  { f with prdcrs := startObjs e f.prdcrs, updtrs := startObjs e f.updtrs, activated := true }

/-- `__failover_request_peercfg`, ldmsd_failover.c:908-930. -/
def requestPeercfg (e : Env) (f : F) : F × Bool :=
  if e.sendOk then ({ f with pend := .peercfg :: f.pend }, true) else (f, false)

/-- `__failover_reset_and_request_peercfg`, ldmsd_failover.c:932-945, in the state
`RESETTING` both callers are in. -/
def resetAndRequest (e : Env) (f : F) : F × Bool :=
  match peercfgReset e f with
  | (f1, false) => (f1, false)
  | (f1, true) => requestPeercfg e { f1 with conn := .configuring }

/-- `__failover_pair`, ldmsd_failover.c:982-1021. -/
def pair (e : Env) (f : F) : F :=
  if !f.auto && anyStarted f then { f with conn := .pairingRetry }
  else if e.sendOk then { f with conn := .pairing, pend := .pair :: f.pend }
  else { f with conn := .error }

/-- `__failover_ping`, ldmsd_failover.c:1231-1262. -/
def ping (e : Env) (f : F) : F :=
  if f.outPing then f
  else if e.sendOk then { f with outPing := true, pingTs := e.now, pend := .ping :: f.pend }
  else { f with conn := .error }

/-- `__failover_active_connect`, ldmsd_failover.c:1075-1102.  Its assertions hold
where it is called: the state is `DISCONNECTED`; `f->ax` is `NULL` then. -/
def connect (e : Env) (f : F) : F :=
  if e.connectOk then { f with conn := .connecting, link := .trying } else f

/-- `__try_start_peercfg`, ldmsd_failover.c:1426-1445. -/
def tryStart (e : Env) (f : F) : F :=
  if !f.auto then f
  else if !f.received then f
  else match f.timeout with
    | none => f
    | some t => if e.now < t then f else peercfgStart e f

/-- `__failover_active_routine`, ldmsd_failover.c:1448-1478.  `UNPAIRING` is the
default case of the switch, an assertion that fails. -/
def activeRoutine (e : Env) (f : F) : Option F :=
  match f.conn with
  | .disconnected => some (tryStart e (connect e f))
  | .pairingRetry => some (tryStart e (pair e f))
  | .resetting => some (tryStart e (resetAndRequest e f).1)
  | .connecting | .pairing | .configuring | .error => some (tryStart e f)
  | .configured => some (tryStart e (ping e f))
  | .unpairing => none

/-- `__failover_send_reset`, ldmsd_failover.c:806-831.  The flag is set even when
the request could not be sent. -/
def sendReset (e : Env) (f : F) : F :=
  if f.outUnpair then f
  else if e.sendOk then { f with outUnpair := true, pend := .reset :: f.pend }
  else { f with outUnpair := true }

/-- `__try_stop`, ldmsd_failover.c:1354-1395. -/
def tryStop (e : Env) (f : F) : F :=
  match peercfgReset e f with
  | (f1, false) => f1
  | (f1, true) =>
    match f1.conn with
    | .error => f1
    | .unpairing => sendReset e f1
    | .connecting => { f1 with conn := .error, svc := .stop }
    | .pairing | .pairingRetry | .resetting | .configuring | .configured =>
      sendReset e { f1 with conn := .unpairing }
    | .disconnected => { f1 with svc := .stop }

/-- `__failover_task`, ldmsd_failover.c:1399-1421. -/
def task (e : Env) (f : F) : Option F :=
  match f.svc with
  | .stop => none
  | .start => activeRoutine e f
  | .stopping => some (tryStop e f)

/-- `LDMS_XPRT_EVENT_CONNECTED` in `__failover_xprt_cb`, ldmsd_failover.c:1030-1040. -/
def onConnected (e : Env) (f : F) : Option F :=
  let f := { f with link := .up }
  if f.conn = .connecting then some (pair e f) else none

/-- The other connection events, ldmsd_failover.c:1041-1059. -/
def onDisconnected (f : F) : F :=
  { f with conn := .disconnected, link := .none, pend := [], our := true,
           ours := if f.our then f.ours else f.ours + 1, outPing := false, outUnpair := false }

/-- `__on_pair_resp`, ldmsd_failover.c:947-979. -/
def onPairResp (e : Env) (err : Nat) (f : F) : Option F :=
  if f.conn = .pairing then
    if err = EAGAIN then some { f with conn := .pairingRetry }
    else if err ≠ 0 then some { f with conn := .error }
    else match resetAndRequest e { f with conn := .resetting } with
      | (f1, true) => some f1
      | (f1, false) => some { f1 with conn := .error }
  else none

/-- `__on_peercfg_resp`, ldmsd_failover.c:888-905. -/
def onPeercfgResp (err : Nat) (f : F) : F :=
  if err ≠ 0 then { f with conn := .error } else { f with received := true, conn := .configured }

/-- Round trip of a ping in `__on_ping_resp`, ldmsd_failover.c:1153-1155: signed, then
taken as 64-bit unsigned. -/
def roundTrip (sent now : Nat) : Nat :=
  if sent ≤ now then now - sent else 2 ^ 64 - (sent - now)

/-- The ring of the last eight round trips, ldmsd_failover.c:1156-1160: it grows up to
eight entries, after that the oldest is overwritten. -/
def record (f : F) (d : Nat) : F :=
  { f with rtt := if f.rtt.length < 8 then f.rtt ++ [d] else f.rtt.set f.idx d,
           idx := (f.idx + 1) % 8 }

/-- `ping_max`, ldmsd_failover.c:1161-1167. -/
def pingMax (f : F) : Nat := f.rtt.foldl max 0

/-- The duration after which the peer is given up, ldmsd_failover.c:1203-1210.  Exact
instead of in doubles. -/
def patience (e : Env) (f : F) : Nat :=
  let base := max (pingMax f) f.interval
  max (base * f.num / f.den) (base + e.sd4)

/-- `__on_ping_resp` up to the look at the state of the peer,
ldmsd_failover.c:1138-1184. -/
def heard (e : Env) (f : F) : F :=
  let g := record f (roundTrip f.pingTs e.now)
  if f.auto then (peercfgStop e g).1 else g

/-- `__on_ping_resp`, ldmsd_failover.c:1138-1228.  `d`: the flag `PEERCFG_ACTIVATED` in
the answer, `none` for an answer without that attribute. -/
def onPingResp (e : Env) (d : Option Bool) (f : F) : F :=
  match d with
  | some false =>
    { heard e f with our := true, ours := if f.our then f.ours else f.ours + 1,
                     timeout := some (e.now + patience e (heard e f)), outPing := false }
  | _ => { heard e f with outPing := false }

/-- `__on_reset_resp`, ldmsd_failover.c:785-804. -/
def onResetResp (err : Nat) (f : F) : F :=
  let f := { f with outUnpair := false }
  if err = EAGAIN then f else { f with conn := .error }

/-- `ldmsd_failover_start`, ldmsd_failover.c:2462-2485. -/
def startCmd (e : Env) (f : F) : F :=
  if f.svc ≠ .stop then f else if e.sendOk then { f with svc := .start } else f

/-- `failover_stop_handler`, ldmsd_failover.c:1890-1913. -/
def stopCmd (f : F) : F := if f.svc ≠ .start then f else { f with svc := .stopping }

/-- Arguments of `failover_config` that matter here; `ok`: the rest of them is
acceptable. -/
structure Conf where
  ok : Bool
  peer : Name
  auto : Bool
  interval : Nat
  num : Nat
  den : Nat
  deriving DecidableEq, Repr

/-- `failover_config_handler`, ldmsd_failover.c:1594-1725, from the lock on; the
arguments are all given.  0 microseconds or a factor of 0 select the default.
Any error clears `CONFIGURED`. -/
def configCmd (c : Conf) (f : F) : F :=
  if f.svc ≠ .stop then { f with cfgd := false }
  else if !c.ok then { f with cfgd := false }
  else { f with cfgd := true, peer := c.peer, auto := c.auto,
                interval := if c.interval = 0 then 1000000 else c.interval,
                num := if c.num = 0 then 2 else c.num,
                den := if c.num = 0 then 1 else c.den }

/-- `failover_reset_handler`, ldmsd_failover.c:2001-2030. -/
def resetReq (e : Env) (f : F) : F :=
  match f.svc with
  | .start => (peercfgReset e { f with svc := .stopping }).1
  | .stopping => (peercfgReset e f).1
  | .stop => f

/-- What the handlers of configuration requests do to the list of names:
`failover_cfgprdcr_handler` ldmsd_failover.c:2071-2123, `failover_cfgupdtr_handler`
2190-2229, `failover_cfgstrgp_handler` 2309-2343.  A name without the prefix is an
assertion that fails; an existing object is only changed. -/
def addObj (e : Env) (n : Name) (l : List Obj) : List Obj :=
  if l.any (·.name == n) || e.foreign n then l
  else if e.newOk n then l ++ [{ name := n, started := false }] else l

/-- Kinds of configuration objects. -/
inductive Kind | prdcr | updtr | strgp
  deriving DecidableEq, Repr

/-- The three handlers. -/
def cfgReq (e : Env) (k : Kind) (n : Name) (f : F) : Option F :=
  if isFailover n then
    match k with
    | .prdcr => some { f with prdcrs := addObj e n f.prdcrs }
    | .updtr => some { f with updtrs := addObj e n f.updtrs }
    | .strgp => some { f with strgps := addObj e n f.strgps }
  else none

/-- `failover_pair_handler` and `__verify_pair_req`, ldmsd_failover.c:1957-1999: the
error code of the answer to a pairing request of the daemon named `n`. -/
def pairAnswer (n : Name) (f : F) : Nat :=
  if !f.cfgd then EAGAIN
  else if f.peer.isEmpty then 0
  else if f.peer = n then 0 else EPERM

/-- `failover_ping_handler`, ldmsd_failover.c:2389-2441: the flag sent back, `none` for
an error. -/
def pingAnswer (n : Name) (f : F) : Option Bool :=
  if !f.peer.isEmpty && f.peer ≠ n then none else some f.activated

/-- What can happen to the daemon. -/
inductive Ev
  | task (e : Env)
  | connected (e : Env)
  | disconnected
  | pairResp (e : Env) (err : Nat)
  | peercfgResp (err : Nat)
  | pingResp (e : Env) (d : Option Bool)
  | resetResp (err : Nat)
  | startCmd (e : Env)
  | stopCmd
  | configCmd (c : Conf)
  | modCmd (auto : Bool)
  | peercfgStartCmd (e : Env)
  | peercfgStopCmd (e : Env)
  | resetReq (e : Env)
  | cfgReq (e : Env) (k : Kind) (n : Name)

/-- An answer takes a request off the list. -/
def answered (r : Req) (f : F) : F := { f with pend := f.pend.erase r }

/-- The handler of each event.  `modCmd` is `failover_mod_handler`,
ldmsd_failover.c:1727-1750; `peercfgStartCmd` and `peercfgStopCmd` are 1915-1955. -/
def step (f : F) : Ev → Option F
  | .task e => task e f
  | .connected e => onConnected e f
  | .disconnected => some (onDisconnected f)
  | .pairResp e err => onPairResp e err (answered .pair f)
  | .peercfgResp err => some (onPeercfgResp err (answered .peercfg f))
  | .pingResp e d => some (onPingResp e d (answered .ping f))
  | .resetResp err => some (onResetResp err (answered .reset f))
  | .startCmd e => some (startCmd e f)
  | .stopCmd => some (stopCmd f)
  | .configCmd c => some (configCmd c f)
  | .modCmd b => some { f with auto := b }
  | .peercfgStartCmd e => some (peercfgStart e f)
  | .peercfgStopCmd e => some (peercfgStop e f).1
  | .resetReq e => some (resetReq e f)
  | .cfgReq e k n => cfgReq e k n f

/-- What the network and the scheduler can bring about: the task runs unless the
service is stopped, an attempt to connect can succeed, a connection can end, and
what was asked over the connection can be answered.  `ldms_xprt_close` does not
prevent what is already under way, so it changes none of this until the
connection ends. -/
def enabled (f : F) : Ev → Prop
  | .task _ => f.svc ≠ .stop
  | .connected _ => f.link = .trying
  | .disconnected => f.link ≠ .none
  | .pairResp _ _ => .pair ∈ f.pend
  | .peercfgResp _ => .peercfg ∈ f.pend
  | .pingResp _ _ => .ping ∈ f.pend
  | .resetResp _ => .reset ∈ f.pend
  | _ => True

instance (f : F) (v : Ev) : Decidable (enabled f v) := by
  cases v <;> simp only [enabled] <;> infer_instance

/-- States the daemon can be in after the events `tr` (oldest first). -/
inductive Reach : List Ev → F → Prop
  | init : Reach [] F.init
  | step {tr f f'} (v : Ev) : Reach tr f → enabled f v → step f v = some f' →
      Reach (tr ++ [v]) f'

end Verif.Failover
