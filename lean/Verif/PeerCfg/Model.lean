import Verif.Dump.Model

/-!
# Model: a failover pair exchanges its configurations

`ldms/src/ldmsd/ldmsd_failover.c`.  A daemon that is asked for its configuration (`failover_peercfg_handler`) sends messages about its
producers, updaters and storage policies; the other daemon makes objects with the prefix `#` of them, starts them when the peer
fails, and stops and deletes them when it is reset.

Text is a list of bytes; the trees of objects are lists.  Left out are the connection of the pair and the failures of memory; messages
arrive in the order they were sent.
-/

namespace Verif.PeerCfg

open Verif.SetOwner (Str strtol u32 dec oct)
open Verif.NameTab (codes)
open Verif.Dump (eqi us ld toC ofC)
open Verif.Strgp (Pol Sel Who)

/-! ## The daemon -/

/-- `enum ldmsd_prdcr_type` without `local` -/
inductive Kind where
  | active | passive | bridge
  deriving DecidableEq, Repr

/-- `conn_state` of a producer: `disconnected` stands for the states without a transport, `connected` for those with one -/
inductive Conn where
  | stopped | disconnected | connected | stopping
  deriving DecidableEq, Repr

/-- `struct ldmsd_prdcr`, ldmsd.h:203-265: what is configured. -/
structure Prdcr where
  name : Str
  uid : Nat
  gid : Nat
  perm : Nat
  host : Str
  port : Nat
  xprt : Str
  kind : Kind
  reconnect : Int
  auth : Str
  rail : Int
  credits : Int
  rate : Int
  streams : List Str
  conn : Conn
  deriving DecidableEq, Repr

/-- `LDMSD_UPDT_HINT_OFFSET_NONE`, ldmsd.h:101 -/
def noOffset : Int := -(2 ^ 63)

/-- `struct ldmsd_updtr`, ldmsd.h:370-411.  `hintIvl` and `off` are those of `default_task.hint`, `ivl` and `at'` those of
`default_task.sched`; `sync` is the flag `LDMSD_TASK_F_SYNCHRONOUS` of the task; a match is for instance names (`true`) or schema
names. -/
structure Updtr where
  name : Str
  uid : Nat
  gid : Nat
  perm : Nat
  auto : Bool
  push : Nat
  hintIvl : Int
  off : Int
  ivl : Int
  at' : Int
  sync : Bool
  prdcrs : List Str
  mats : List (Bool × Str)
  running : Bool
  deriving DecidableEq, Repr

/-- The daemon; policies are those of `Verif/Strgp`.  `peerPrds`, `peerUps` and `peerPols` are the trees of names in `struct
ldmsd_failover`, ldmsd_failover.c:162-166, with the flag `started`. -/
structure Daemon where
  prds : List Prdcr
  ups : List Updtr
  st : Strgp.State
  peerPrds : List (Str × Bool)
  peerUps : List (Str × Bool)
  peerPols : List Str
  deriving DecidableEq, Repr

/-- What is outside: as in `Verif/Dump`, where `who` runs the daemon; who the peer is, by its connection; the skew of updates
(`updtr_sched_offset_skew_get`, in microseconds). -/
structure World extends Dump.World where
  peer : Who
  skew : Int

/-! ## Messages -/

/-- `LDMSD_ATTR_*` without `LDMSD_ATTR_NAME` -/
inductive Attr where
  | host | port | xprt | interval | type | uid | gid | perm | auth | stream | rail | credits | rate
  | offset | regex | match' | push | producer | auto
  | plugin | schema | container | metric
  deriving DecidableEq, Repr

/-- `LDMSD_FAILOVER_CFGPRDCR_REQ`, `LDMSD_FAILOVER_CFGUPDTR_REQ` and `LDMSD_FAILOVER_CFGSTRGP_REQ` -/
inductive What where
  | prdcr | updtr | strgp
  deriving DecidableEq, Repr

structure Msg where
  what : What
  name : Option Str
  attrs : List (Attr × Str)
  deriving DecidableEq, Repr

/-- `LDMSD_FAILOVER_NAME_PREFIX "%s"` into a buffer of 128 bytes, e.g. ldmsd_failover.c:397 -/
def peerName (n : Str) : Str := (35 :: n).take 127

/-- `__name_is_failover`, ldmsd_failover.c:344-349 -/
def isPeer (n : Str) : Bool := n.head? == some 35

/-- `%#o` -/
def octal (n : Nat) : Str := if n = 0 then [48] else 48 :: oct n

/-- `__failover_send_prdcr`, ldmsd_failover.c:374-498 -/
def sendPrdcr (p : Prdcr) : List Msg :=
  ⟨.prdcr, some (peerName p.name),
    [(.host, p.host), (.port, dec p.port), (.xprt, p.xprt), (.interval, ld p.reconnect),
     (.type, if p.kind = .active then codes "active" else codes "passive"),
     (.uid, dec p.uid), (.gid, dec p.gid), (.perm, octal p.perm),
     (.rail, dec (u32 p.rail)), (.credits, ld p.credits), (.rate, ld p.rate)]⟩ ::
  p.streams.map fun s => ⟨.prdcr, some (peerName p.name), [(.stream, s)]⟩

/-- `__failover_send_updtr`, ldmsd_failover.c:500-668.  The value of `LDMSD_ATTR_AUTO_INTERVAL`, 548-553, is what is in the buffer if
the updater is automatic. -/
def sendUpdtr (u : Updtr) : List Msg :=
  ⟨.updtr, some (peerName u.name),
    (.interval, ld u.hintIvl) ::
    ((if u.sync then [(.offset, ld u.off)] else []) ++
    (.auto, if u.auto then (if u.sync then ld u.off else ld u.hintIvl) else codes "false") ::
    ((if u.push % 2 = 1 then [(.push, if u.push / 2 % 2 = 1 then codes "onchange" else codes "onpush")] else []) ++
    [(.uid, dec u.uid), (.gid, dec u.gid), (.perm, octal u.perm)]))⟩ ::
  (u.prdcrs.map fun p => ⟨.updtr, some (peerName u.name), [(.producer, peerName p)]⟩) ++
  u.mats.map fun m => ⟨.updtr, some (peerName u.name), [(.match', if m.1 then codes "inst" else codes "schema"), (.regex, m.2)]⟩

/-- what can go wrong: `assert` fails, `strlen(NULL)` and other uses of NULL, an object that has been freed stays in a tree -/
inductive Fault where
  | abort | null | freed
  deriving DecidableEq, Repr

/-- `__failover_send_strgp`, ldmsd_failover.c:670-783; `s->schema` is NULL if the schemas are selected by a regular expression. -/
def sendPol (p : Pol) : Except Fault (List Msg) :=
  match p.sel with
  | .regex _ => .error .null
  | .schema s => .ok (
    ⟨.strgp, some (peerName p.name), [(.plugin, p.plugin), (.container, p.container), (.schema, s)]⟩ ::
    (p.prdcrs.map fun r => ⟨.strgp, some (peerName p.name), [(.regex, r)]⟩) ++
    p.metrics.map fun m => ⟨.strgp, some (peerName p.name), [(.metric, m)]⟩)

/-- the policies, ldmsd_failover.c:871-883; a crash is taken to come before the other messages are sent -/
def sendPols : List Pol → Except Fault (List Msg)
  | [] => .ok []
  | p :: ps =>
    if isPeer p.name then sendPols ps
    else match sendPol p, sendPols ps with
      | .ok a, .ok b => .ok (a ++ b)
      | .error e, _ => .error e
      | _, .error e => .error e

/-- `__failover_send_cfgobjs`, ldmsd_failover.c:834-886 -/
def send (d : Daemon) : Except Fault (List Msg) :=
  match sendPols d.st.pols with
  | .error e => .error e
  | .ok ps => .ok (
    (d.prds.filter fun p => !isPeer p.name).flatMap sendPrdcr ++
    (d.ups.filter fun u => !isPeer u.name).flatMap sendUpdtr ++ ps)

/-! ## Receiving -/

/-- `str_repl_env_vars` of a value, ldmsd_request_util.c:1067 -/
def expand (w : World) (t : Str) : Option Str := (Av.strReplEnvVars w.vars (toC t)).map ofC

/-- `__req_attr_gets`, ldmsd_failover.c:1588-1592, and `ldmsd_req_attr_str_value_get_by_id`, ldmsd_request_util.c:1062-1068 -/
def Msg.get (w : World) (m : Msg) (a : Attr) : Option Str :=
  match m.attrs.find? fun x => x.1 = a with
  | none => none
  | some x => expand w x.2

/-- the conversion to `int` -/
def i32 (v : Int) : Int := (v + 2 ^ 31) % 2 ^ 32 - 2 ^ 31

/-- `atoi` and `atol` of the C library -/
def atol (t : Str) : Int := (strtol 10 t).value
def atoi (t : Str) : Int := i32 (atol t)

/-- `strtoul(t, NULL, 0)` as a number of 32 bits, for numbers below 2^63 -/
def strtoul (t : Str) : Nat := u32 (strtol 0 t).value

/-- the owner and the permissions, e.g. ldmsd_failover.c:2076-2080; 448 is 0700 -/
def owner (w : World) (m : Msg) : Who × Nat :=
  (⟨((m.get w .uid).map strtoul).getD w.peer.uid, ((m.get w .gid).map strtoul).getD w.peer.gid⟩, ((m.get w .perm).map strtoul).getD 448)

abbrev Out := Except Fault Daemon

/-- a producer is changed -/
def Daemon.setPrdcr (d : Daemon) (n : Str) (f : Prdcr → Prdcr) : Daemon :=
  { d with prds := d.prds.map fun p => if p.name = n then f p else p }

/-- an updater is changed -/
def Daemon.setUpdtr (d : Daemon) (n : Str) (f : Updtr → Updtr) : Daemon :=
  { d with ups := d.ups.map fun u => if u.name = n then f u else u }

/-- a new producer, ldmsd_failover.c:2100-2125, `ldmsd_prdcr_new_with_auth`, ldmsd_prdcr.c:855-926.  The interval is an `int`, and the
port 16 bits. -/
def prdcrNew (w : World) (d : Daemon) (n : Str) (m : Msg) : Out :=
  match m.get w .port, m.get w .xprt, m.get w .host, m.get w .interval, m.get w .type with
  | some port, some x, some h, some i, some t =>
    let k : Kind := if eqi t "passive" then .passive else .active
    let p := (atoi port % 65536).toNat
    let a := (m.get w .auth).getD (codes "DEFAULT")
    let o := owner w m
    if k ≠ .passive ∧ p = 0 then .ok d
    else if w.host h p = false then .ok d
    else if a ∉ w.auths then .ok d
    else .ok { d with
      prds := d.prds ++ [⟨n, o.1.uid, o.1.gid, o.2, h, p, x, k, atoi i, a, ((m.get w .rail).map atoi).getD 1,
        ((m.get w .credits).map atol).getD (-1), ((m.get w .rate).map atol).getD (-1), [], .stopped⟩],
      peerPrds := d.peerPrds ++ [(n, false)] }
  | _, _, _, _, _ => .error .abort

/-- a producer that is there, ldmsd_failover.c:2089-2099, `ldmsd_prdcr_subscribe`, ldmsd_prdcr.c:1154-1189.  A stream that cannot be
subscribed at once, because of the connection, is not modelled. -/
def prdcrOld (w : World) (m : Msg) (p : Prdcr) : Prdcr :=
  let p := match m.get w .interval with
    | some i => { p with reconnect := atoi i }
    | none => p
  match m.get w .stream with
  | some s => if s ∈ p.streams then p else { p with streams := s :: p.streams }
  | none => p

/-- `failover_cfgprdcr_handler`, ldmsd_failover.c:2033-2153, for a name with the prefix -/
def prdcrMsg (w : World) (d : Daemon) (n : Str) (m : Msg) : Out :=
  if d.prds.any fun p => p.name = n then .ok (d.setPrdcr n (prdcrOld w m)) else prdcrNew w d n m

/-- `updtr_task_init`, ldmsd_updtr.c:150-168, for the default task -/
def taskInit (skew ivl off : Int) (u : Updtr) : Updtr := { u with
  sync := off != noOffset
  at' := if off = noOffset then noOffset else off + skew
  hintIvl := ivl
  ivl := ivl
  off := off }

/-- `push_flags` of a message, ldmsd_failover.c:2200-2207 -/
def pushOf (t : Option Str) : Nat := match t with
  | none => 0
  | some t => if eqi t "onchange" then 3 else 1

/-- the interval and the offset of a new updater, ldmsd_updtr.c:905, 918-935; nothing if they are refused -/
def times (w : World) (i o : Option Str) : Option (Int × Int) :=
  match i with
  | none => some (3600000000, noOffset)
  | some i => match us i with
    | none => none
    | some i =>
      if i ≤ 0 then none
      else match o with
        | none => some (i, noOffset)
        | some o => match us o with
          | none => none
          | some o => if i < o.natAbs * 2 then none else some (i, o - w.skew)

/-- a new updater, ldmsd_failover.c:2210-2224, `ldmsd_updtr_new_with_auth`, ldmsd_updtr.c:899-950: if the times are refused the
object is freed but stays in the tree. -/
def updtrNew (w : World) (d : Daemon) (n : Str) (m : Msg) : Out :=
  match times w (m.get w .interval) (m.get w .offset) with
  | none => .error .freed
  | some t =>
    let o := owner w m
    .ok { d with
      ups := d.ups ++ [taskInit w.skew t.1 t.2 ⟨n, o.1.uid, o.1.gid, o.2, (m.get w .auto).isNone, pushOf (m.get w .push), 0, 0, 0, 0, false,
        [], [], false⟩],
      peerUps := d.peerUps ++ [(n, false)] }

/-- an updater that is there, ldmsd_failover.c:2225-2237 -/
def updtrOld (w : World) (m : Msg) (u : Updtr) : Updtr :=
  let u := match m.get w .interval with
    | some i => { u with hintIvl := atoi i }
    | none => u
  let u := match m.get w .offset with
    | some o => { u with
      off := atoi o
      sync := true }
    | none => u
  { u with
    push := pushOf (m.get w .push)
    sync := if pushOf (m.get w .push) = 0 then u.sync else false }

/-- a producer for an updater, `__ldmsd_updtr_prdcr_add`, ldmsd_updtr.c:1377-1401 -/
def addPrdcr (p : Str) (u : Updtr) : Updtr :=
  if u.running = true ∨ p ∈ u.prdcrs then u else { u with prdcrs := u.prdcrs ++ [p] }

/-- `ldmsd_cfgobj_access_check(obj, 0222, ctxt)` -/
def allowed (w : World) (o : Who) (uid gid perm : Nat) : Bool := Access.check (w.se.groups o.uid) o.uid o.gid 146 uid gid perm

/-- a match for an updater, `ldmsd_updtr_match_add`, ldmsd_updtr.c:1241-1296 -/
def addMatch (w : World) (o : Who) (sel x : Str) (u : Updtr) : Updtr :=
  if allowed w o u.uid u.gid u.perm = false ∨ u.running = true then u
  else match (if eqi sel "schema" then some false else if eqi sel "inst" then some true else none) with
    | none => u
    | some b => if w.se.regexOk x then { u with mats := (b, x) :: u.mats } else u

/-- the producer and the match of a message, ldmsd_failover.c:2238-2254: without the producer the match is not looked at -/
def updtrParts (w : World) (d : Daemon) (n : Str) (m : Msg) : Daemon :=
  match m.get w .producer with
  | none => mat d
  | some p => if d.prds.any fun q => q.name = p then mat (d.setUpdtr n (addPrdcr p)) else d
where
  mat (d : Daemon) : Daemon :=
    match m.get w .match', m.get w .regex with
    | some s, some x => d.setUpdtr n (addMatch w (owner w m).1 s x)
    | _, _ => d

/-- `failover_cfgupdtr_handler`, ldmsd_failover.c:2157-2280, for a name with the prefix -/
def updtrMsg (w : World) (d : Daemon) (n : Str) (m : Msg) : Out :=
  if d.ups.any fun u => u.name = n then .ok (updtrParts w (d.setUpdtr n (updtrOld w m)) n m)
  else match updtrNew w d n m with
    | .error e => .error e
    | .ok d => .ok (updtrParts w d n m)

/-- `failover_cfgstrgp_handler`, ldmsd_failover.c:2282-2387, for a name with the prefix; see `Strgp.peer` -/
def polMsg (w : World) (d : Daemon) (n : Str) (m : Msg) : Out :=
  let o := owner w m
  let q : Strgp.Peer := ⟨n, m.get w .plugin, m.get w .schema, m.get w .container, m.get w .regex, m.get w .metric, o.1.uid, o.1.gid, o.2⟩
  match Strgp.step w.se d.st w.peer (.peer q) with
  | .crash => .error .null
  | .ok s _ => .ok { d with
    st := s,
    peerPols := if (Strgp.find d.st n).isNone ∧ (Strgp.find s n).isSome then d.peerPols ++ [n] else d.peerPols }

/-- The handlers: a message without a name or with a name without the prefix is the end of the daemon, ldmsd_failover.c:2070-2074,
2188-2192, 2309-2313; errors go nowhere. -/
def receive (w : World) (d : Daemon) (m : Msg) : Out :=
  match m.name.bind (expand w) with
  | none => .error .abort
  | some n =>
    if isPeer n then match m.what with
      | .prdcr => prdcrMsg w d n m
      | .updtr => updtrMsg w d n m
      | .strgp => polMsg w d n m
    else .error .abort

def receiveAll (w : World) (d : Daemon) : List Msg → Out
  | [] => .ok d
  | m :: ms => match receive w d m with
    | .error e => .error e
    | .ok d => receiveAll w d ms

/-! ## Starting, stopping and deleting what came from the peer -/

/-- `ldmsd_prdcr_start`, ldmsd_prdcr.c:992-1035, without an interval: by who runs the daemon; 512 is `LDMSD_PERM_DSTART` -/
def startPrdcr (w : World) (d : Daemon) (x : Str × Bool) : Daemon × (Str × Bool) :=
  if x.2 then (d, x)
  else match d.prds.find? fun p => p.name = x.1 with
    | none => (d, x)
    | some p =>
      if allowed w w.who p.uid p.gid p.perm ∧ p.conn = .stopped then
        (d.setPrdcr x.1 fun p => { p with
          conn := .disconnected
          perm := p.perm ||| 512 }, (x.1, true))
      else (d, x)

/-- `ldmsd_updtr_start`, ldmsd_updtr.c:1042-1110, `__ldmsd_updtr_start`, 1002-1040, without an interval and an offset -/
def startUpdtr (w : World) (d : Daemon) (x : Str × Bool) : Daemon × (Str × Bool) :=
  if x.2 then (d, x)
  else match d.ups.find? fun u => u.name = x.1 with
    | none => (d, x)
    | some u =>
      if allowed w w.who u.uid u.gid u.perm ∧ u.running = false then
        (d.setUpdtr x.1 fun u => { taskInit w.skew u.ivl u.off u with
          running := true
          perm := u.perm ||| 512 }, (x.1, true))
      else (d, x)

/-- one after the other -/
def each (f : Daemon → Str × Bool → Daemon × (Str × Bool)) : Daemon → List (Str × Bool) → Daemon × List (Str × Bool)
  | d, [] => (d, [])
  | d, x :: xs => let r := f d x; let t := each f r.1 xs; (t.1, r.2 :: t.2)

/-- `__peercfg_start`, ldmsd_failover.c:1526-1573: storage policies are not started -/
def start (w : World) (d : Daemon) : Daemon :=
  let a := each (startPrdcr w) d d.peerPrds
  let d := { a.1 with peerPrds := a.2 }
  let b := each (startUpdtr w) d d.peerUps
  { b.1 with peerUps := b.2 }

/-- `ldmsd_prdcr_stop`, ldmsd_prdcr.c:1036-1078: a producer with a transport is stopped when the transport is closed; the mask is
`~LDMSD_PERM_DSTART` -/
def stopPrdcr (w : World) (d : Daemon) (x : Str × Bool) : Daemon × (Str × Bool) :=
  if x.2 = false then (d, x)
  else match d.prds.find? fun p => p.name = x.1 with
    | none => (d, x)
    | some p =>
      if allowed w w.who p.uid p.gid p.perm = false ∨ p.conn = .stopping then (d, x)
      else if p.conn = .stopped then (d, (x.1, false))
      else (d.setPrdcr x.1 fun p => { p with
        conn := if p.conn = .connected then .stopping else .stopped
        perm := p.perm &&& 4294966783 }, (x.1, false))

/-- `ldmsd_updtr_stop`, ldmsd_updtr.c:1133-1176 -/
def stopUpdtr (w : World) (d : Daemon) (x : Str × Bool) : Daemon × (Str × Bool) :=
  if x.2 = false then (d, x)
  else match d.ups.find? fun u => u.name = x.1 with
    | none => (d, x)
    | some u =>
      if allowed w w.who u.uid u.gid u.perm = false then (d, x)
      else if u.running = false then (d, (x.1, false))
      else (d.setUpdtr x.1 fun u => { u with
        running := false
        perm := u.perm &&& 4294966783 }, (x.1, false))

/-- `__peercfg_stop`, ldmsd_failover.c:1299-1337: with whether all could be stopped -/
def stop (w : World) (d : Daemon) : Daemon × Bool :=
  let a := each (stopUpdtr w) d d.peerUps
  let d := { a.1 with peerUps := a.2 }
  let b := each (stopPrdcr w) d d.peerPrds
  ({ b.1 with peerPrds := b.2 }, (a.2.all fun x => !x.2) && b.2.all fun x => !x.2)

/-- `ldmsd_updtr_del`, ldmsd_updtr.c:969-1000, for the names of the tree until one cannot be deleted -/
def delUps (w : World) : List (Str × Bool) → Daemon → Daemon × Bool
  | [], d => ({ d with peerUps := [] }, true)
  | x :: xs, d => match d.ups.find? fun u => u.name = x.1 with
    | none => ({ d with peerUps := x :: xs }, false)
    | some u =>
      if allowed w w.who u.uid u.gid u.perm = true ∧ u.running = false then
        delUps w xs { d with ups := d.ups.filter fun u => u.name ≠ x.1 }
      else ({ d with peerUps := x :: xs }, false)

/-- `ldmsd_prdcr_del`, ldmsd_prdcr.c:943-980: a producer that an updater has cannot be deleted (the reference of the updater; those
of sets are left out) -/
def delPrds (w : World) : List (Str × Bool) → Daemon → Daemon
  | [], d => { d with peerPrds := [] }
  | x :: xs, d => match d.prds.find? fun p => p.name = x.1 with
    | none => { d with peerPrds := x :: xs }
    | some p =>
      if allowed w w.who p.uid p.gid p.perm = true ∧ p.conn = .stopped ∧ (d.ups.any fun u => x.1 ∈ u.prdcrs) = false then
        delPrds w xs { d with prds := d.prds.filter fun p => p.name ≠ x.1 }
      else { d with peerPrds := x :: xs }

/-- `ldmsd_strgp_del` for the names of the tree; see `Strgp.del` -/
def delPols (w : World) : List Str → Daemon → Except Fault (Daemon × Bool)
  | [], d => .ok ({ d with peerPols := [] }, true)
  | x :: xs, d => match Strgp.step w.se d.st w.who (.del (some x)) with
    | .crash => .error .null
    | .ok s rc => if rc = 0 then delPols w xs { d with st := s } else .ok ({ d with peerPols := x :: xs }, false)

/-- `__peercfg_reset`, ldmsd_failover.c:1340-1352, and `__peercfg_delete`, 1264-1297: policies first, then updaters, then producers -/
def reset (w : World) (d : Daemon) : Out :=
  let s := stop w d
  if s.2 = false then .ok s.1
  else match delPols w s.1.peerPols s.1 with
    | .error e => .error e
    | .ok (d, false) => .ok d
    | .ok (d, true) => match delUps w d.peerUps d with
      | (d, false) => .ok d
      | (d, true) => .ok (delPrds w d.peerPrds d)

/-! ## Histories -/

/-- What happens to the daemon that receives: the transport of a producer of the peer is connected or closed. -/
inductive Ev where
  | msg (m : Msg)
  | start
  | stop
  | reset
  | connects (n : Str)
  | closed (n : Str)

/-- ldmsd_prdcr.c:559-790: a producer gets its transport, or loses it -/
def step (w : World) (d : Daemon) : Ev → Out
  | .msg m => receive w d m
  | .start => .ok (start w d)
  | .stop => .ok (stop w d).1
  | .reset => reset w d
  | .connects n => .ok (if isPeer n then d.setPrdcr n fun p => if p.conn = .disconnected then { p with conn := .connected } else p else d)
  | .closed n => .ok (if isPeer n then d.setPrdcr n fun p =>
    if p.conn = .stopping then { p with conn := .stopped } else if p.conn = .connected then { p with conn := .disconnected } else p else d)

def run (w : World) (d : Daemon) : List Ev → Out
  | [] => .ok d
  | e :: es => match step w d e with
    | .error f => .error f
    | .ok d => run w d es

/-- The peer asks for the configuration and gets all messages, ldmsd_failover.c:2443-2460. -/
def transfer (w : World) (src dst : Daemon) : Out :=
  match send src with
  | .error e => .error e
  | .ok ms => receiveAll w dst ms

end Verif.PeerCfg
