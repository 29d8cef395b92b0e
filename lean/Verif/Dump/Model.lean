import Verif.Strgp.Model
import Verif.SetOwner.Spec
import Verif.CfgFile.Model
import Verif.CfgArgs.Model
import Verif.Av.Model
import Verif.MemSize.Model

/-!
# Model: writing the configuration to a file, and reading it again

`dump_cfg_handler` of `ldms/src/ldmsd/ldmsd_request.c` writes commands to a file.  A daemon that is started with the file reads
it (`Verif/CfgFile`), cuts each line into a verb and attributes (`ldmsd_parse_config_str`), and does what the handlers of the
verbs do.  Modelled are producers with their streams, plugins with their configurations, updaters and storage policies.  Left
out are the lines `option`, `auth_add` and `listen`, which are read before the others, and `start` of samplers.

Text is a list of bytes; the trees of producers, updaters and policies are lists, and are written in the order of the lists.
-/

namespace Verif.Dump

open Verif.SetOwner (Str strtol u32 dec)
open Verif.NameTab (codes attrStr2Id)
open Verif.Strgp (Pol Sel Plug Who EINVAL ENOENT EEXIST EBUSY EACCES)

/-! ## The daemon -/

/-- `enum ldmsd_prdcr_type` without `local`, which `prdcr_add` refuses -/
inductive Kind where
  | active | passive | bridge
  deriving DecidableEq, Repr

/-- `conn_state` of a producer; the states between are taken as `disconnected` -/
inductive Conn where
  | stopped | disconnected | connected
  deriving DecidableEq, Repr

/-- `struct ldmsd_prdcr`, ldmsd.h:203-265: what requests set. -/
structure Prdcr where
  name : Str
  uid : Nat
  gid : Nat
  perm : Nat
  host : Str
  port : Nat
  xprt : Str
  kind : Kind
  reconnect : Int
  auth : Str
  rail : Int
  credits : Int
  rate : Int
  streams : List Str
  conn : Conn
  deriving DecidableEq, Repr

/-- `struct ldmsd_updtr`, ldmsd.h:370-411: what requests set.  `ivl` and `off` are those of `default_task.sched`, with no `off` if the
task is not synchronous; `taskIvl` and `taskOff` are those of `default_task.task`, which `ldmsd_task_start` sets; a match is for
instance names (`true`) or schema names. -/
structure Updtr where
  name : Str
  uid : Nat
  gid : Nat
  perm : Nat
  auto : Bool
  push : Nat
  ivl : Int
  off : Option Int
  taskIvl : Int
  taskOff : Int
  prdcrs : List Str
  mats : List (Bool × Str)
  running : Bool
  deriving DecidableEq, Repr

/-- one `config` of a plugin: the attributes with their values and the keywords, `avl_q` and `kwl_q`, ldmsd.h:757-765 -/
structure Conf where
  plugin : Str
  avs : List (Str × Str)
  kws : List Str
  deriving DecidableEq, Repr

/-- The daemon: plugins and policies are those of `Verif/Strgp`. -/
structure Daemon where
  prds : List Prdcr
  conf : List Conf
  ups : List Updtr
  st : Strgp.State
  deriving DecidableEq, Repr

def fresh : Daemon := ⟨[], [], [], Strgp.init⟩

/-- What is outside: groups of users, regular expressions (`regcomp`; `regexec` of a regular expression and a name), the environment,
who runs the daemon that reads, which decompositions can be configured and plugins loaded, what plugins take as their
configuration, which hosts can be resolved, the authentication domains, and the default credits. -/
structure World where
  se : Strgp.Env
  rx : Str → Str → Bool
  vars : Av.Str → Option Av.Str
  who : Who
  decomp : Str → Bool
  plugin : Str → Bool
  takes : Conf → Bool
  host : Str → Nat → Bool
  auths : List Str
  credits : Int

/-! ## Writing -/

/-- `%ld` and `%d` -/
def ld (i : Int) : Str := if i < 0 then 45 :: dec i.natAbs else dec i.natAbs

/-- words with a blank between them -/
def line : List Str → Str
  | [] => []
  | [w] => w
  | w :: v :: ws => w ++ 32 :: line (v :: ws)

/-- `name=value` -/
def av (n : String) (v : Str) : Str := codes n ++ 61 :: v

/-- `^%s$` -/
def anchored (r : Str) : Str := 94 :: r ++ [36]

/-- `ldmsd_prdcr_type2str`, ldmsd_prdcr.c:841-853 -/
def Kind.text : Kind → Str
  | .active => codes "active"
  | .passive => codes "passive"
  | .bridge => codes "bridge"

/-- a producer, ldmsd_request.c:6323-6338 -/
def dumpPrdcr (p : Prdcr) : List Str :=
  line [codes "prdcr_add", av "name" p.name, av "host" p.host, av "port" (ld p.port), av "xprt" p.xprt, av "type" p.kind.text,
    av "interval" (ld p.reconnect), av "auth" p.auth, av "uid" (ld p.uid), av "gid" (ld p.gid)] ::
  (if p.conn = .connected then [line [codes "prdcr_start", av "name" p.name]] else []) ++
  p.streams.map fun s => line [codes "prdcr_subscribe", av "regex" (anchored p.name), av "stream" s]

/-- the words of one `config`, ldmsd_request.c:6351-6364: there is no blank between the last attribute and the first keyword -/
def confWords : List Str → List Str → List Str
  | [], kws => kws
  | [a], k :: kws => (a ++ k) :: kws
  | [a], [] => [a]
  | a :: b :: as, kws => a :: confWords (b :: as) kws

/-- one `config`, ldmsd_request.c:6350-6368 -/
def dumpConf (c : Conf) : Str :=
  line (codes "config" :: av "name" c.plugin :: confWords (c.avs.map fun a => a.1 ++ 61 :: a.2) c.kws)

/-- a plugin, ldmsd_request.c:6345-6369 -/
def dumpPlug (d : Daemon) (g : Plug) : List Str :=
  line [codes "load", av "name" g.name] :: (d.conf.filter fun c => c.plugin = g.name).map dumpConf

/-- `updtr_mode` after an updater has been looked at, ldmsd_request.c:6392-6397: it keeps what it was if the updater has none -/
def modeOf (prev : List Str) (u : Updtr) : List Str :=
  if u.auto then [av "auto_interval" (codes "true")]
  else if u.push % 2 = 1 then [av "push" (codes "true")]
  else if u.push / 2 % 2 = 1 then [av "push" (codes "onchange")]
  else prev

/-- an updater, ldmsd_request.c:6390-6427 -/
def dumpUpdtr (mode : List Str) (u : Updtr) : List Str :=
  line (codes "updtr_add" :: av "name" u.name :: mode ++ av "interval" (ld u.taskIvl) ::
    (if u.off.isSome then [av "offset" (ld u.taskOff)] else [])) ::
  (u.prdcrs.map fun p => line [codes "updtr_prdcr_add", av "name" u.name, av "regex" (anchored p)]) ++
  (u.mats.map fun m => line [codes "updtr_match_add", av "name" u.name, av "match" (if m.1 then codes "inst" else codes "schema"),
    av "regex" (anchored m.2)]) ++
  if u.running then [line [codes "updtr_start", av "name" u.name]] else []

/-- the updaters, ldmsd_request.c:6380-6428 -/
def dumpUpdtrs : List Str → List Updtr → List Str
  | _, [] => []
  | prev, u :: us => dumpUpdtr (modeOf prev u) u ++ dumpUpdtrs (modeOf prev u) us

/-- a storage policy, ldmsd_request.c:6436-6464 -/
def dumpPol (p : Pol) : List Str :=
  line ([codes "strgp_add", av "name" p.name, av "plugin" p.plugin, av "container" p.container, av "flush" (ld p.flush.sec),
    av "perm" (ld p.perm), match p.sel with | .regex r => av "regex" r | .schema s => av "schema" s] ++
    match p.decomp with | some x => [av "decomposition" x] | none => []) ::
  (p.prdcrs.map fun r => line [codes "strgp_prdcr_add", av "name" p.name, av "regex" r]) ++
  if p.running then [line [codes "strgp_start", av "name" p.name]] else []

/-- the commands of the file, ldmsd_request.c:6315-6466 -/
def dumpLines (d : Daemon) : List Str :=
  d.prds.flatMap dumpPrdcr ++ d.st.plugs.flatMap (dumpPlug d) ++ dumpUpdtrs [] d.ups ++ d.st.pols.flatMap dumpPol

/-- the characters of a text -/
def toC (s : Str) : List Char := s.map Char.ofNat
def ofC (s : List Char) : Str := s.map Char.toNat

/-- the comment at the beginning, ldmsd_request.c:6255-6257 -/
def header (path : Str) : List Char :=
  "# This configuration file assumes ldmsd will be started with\n".toList ++ "# no command line arguments.\n".toList ++
  "# e.g. ldmsd -c ".toList ++ toC path ++ "\n\n".toList

/-- the file -/
def dumpFile (path : Str) (d : Daemon) : List Char := header path ++ (dumpLines d).flatMap fun l => toC l ++ ['\n']

/-- Where the file is written, ldmsd_request.c:6247-6248: `fullpath` has `sizeof(filename)`, which is that of a pointer, and the
sizes of the other two buffers: 8 + 128 + 32 bytes, one of them for the NUL. -/
def dumpPath (dir host port : Str) : Str := (dir ++ 47 :: host ++ 45 :: port ++ codes ".conf").take 167

/-! ## Reading a line -/

/-- A request: the verb and the attributes by their numbers. -/
structure Req where
  verb : Str
  attrs : List (Nat × Option Str)

/-- `__ldmsd_parse_generic`, ldmsd_request_util.c:456-490, and `add_attr_from_attr_str`, 348-420: an attribute that is not in the table
is an error. -/
def attrsOf : List Str → Option (List (Nat × Option Str))
  | [] => some []
  | w :: ws =>
    let nv := CfgArgs.splitEq w
    match attrStr2Id nv.1, attrsOf ws with
    | some i, some as => some ((i, nv.2) :: as)
    | _, _ => none

/-- the verb, up to the first blank, and the words of the rest, ldmsd_request_util.c:896-902 -/
def cut (l : Str) : Str × List Str := (l.takeWhile (· ≠ 32), CfgArgs.words (l.dropWhile (· ≠ 32)))

/-- `ldmsd_parse_config_str`, ldmsd_request_util.c:872-1014, for all verbs but those with a parser of their own -/
def request (l : Str) : Option Req := (attrsOf (cut l).2).map fun as => ⟨(cut l).1, as⟩

/-- `ldmsd_req_attr_str_value_get_by_id`, ldmsd_request_util.c:1062-1068: the first attribute of the number, with variables of the
environment replaced.  The text of an attribute without a value would be the memory behind it; here it is empty. -/
def Req.get (w : World) (r : Req) (n : String) : Option Str :=
  match r.attrs.find? fun a => some a.1 = attrStr2Id (codes n) with
  | none => none
  | some a => (Av.strReplEnvVars w.vars (toC (a.2.getD []))).map ofC

/-! ## Doing what a line says -/

/-- the daemon that reads goes on, or the reading ends: with an error, or a crash (`none`) -/
abbrev Out := Except (Option Nat) Daemon

/-- `strcasecmp(a, b) == 0` -/
def eqi (a : Str) (b : String) : Bool := decide (a.map Strgp.lower = (codes b).map Strgp.lower)

/-- `ovis_time_str2us`; numbers that are not whole or not exact are taken as refused -/
def us (t : Str) : Option Int := match MemSize.timeStr2us t with
  | .ok v => some v
  | _ => none

/-- `ldmsd_cfgobj_access_check(obj, 0222, ctxt)` -/
def may (w : World) (uid gid perm : Nat) : Bool := Access.check (w.se.groups w.who.uid) w.who.uid w.who.gid 146 uid gid perm

/-- `ldmsd_prdcr_str2type`, ldmsd_prdcr.c:825-839, without `local` -/
def kindOf (t : Str) : Option Kind :=
  if eqi t "active" then some .active
  else if eqi t "passive" then some .passive
  else if eqi t "bridge" then some .bridge
  else none

/-- the port, ldmsd_request.c:1593-1615 -/
def portOf (k : Kind) (t : Option Str) : Option Nat :=
  match k, t with
  | .passive, _ => some 65535
  | _, none => none
  | _, some t => let n := (strtol 0 t).value; if n < 1 ∨ 65535 < n then none else some n.toNat

/-- `prdcr_add_handler`, ldmsd_request.c:1538-1751, and `ldmsd_prdcr_new_with_auth`, ldmsd_prdcr.c:855-926, without the attributes
`perm`, `rail`, `credits` and `rx_rate`, which are not written. -/
def prdcrAdd (w : World) (d : Daemon) (r : Req) : Out :=
  match r.get w "name", (r.get w "type").bind kindOf, r.get w "xprt", r.get w "host" with
  | some n, some k, some x, some h =>
    match portOf k (r.get w "port"), (r.get w "interval").bind us with
    | some p, some t =>
      if t ≤ 0 then .error (some EINVAL)
      else if d.prds.any fun q => q.name = n then .error (some EEXIST)
      else if w.host h p = false then .error (some 97)
      else
        let a := (r.get w "auth").getD (codes "DEFAULT")
        if a ∈ w.auths then .ok { d with prds := d.prds ++
          [⟨n, w.who.uid, w.who.gid, 504, h, p, x, k, t, a, 1, w.credits, -1, [], .stopped⟩] }
        else .error (some ENOENT)
    | _, _ => .error (some EINVAL)
  | _, _, _, _ => .error (some EINVAL)

/-- a producer is changed -/
def Daemon.setPrdcr (d : Daemon) (n : Str) (f : Prdcr → Prdcr) : Daemon :=
  { d with prds := d.prds.map fun p => if p.name = n then f p else p }

/-- `prdcr_start_handler`, ldmsd_request.c:1790-1847, `ldmsd_prdcr_start`, ldmsd_prdcr.c:992-1035, without an interval -/
def prdcrStart (w : World) (d : Daemon) (r : Req) : Out :=
  match r.get w "name" with
  | none => .error (some EINVAL)
  | some n =>
    match d.prds.find? fun p => p.name = n with
    | none => .error (some ENOENT)
    | some p =>
      if may w p.uid p.gid p.perm = false then .error (some EACCES)
      else if p.conn ≠ .stopped then .error (some EBUSY)
      else .ok (d.setPrdcr n fun p => { p with conn := .disconnected, perm := p.perm ||| 512 })

/-- `prdcr_subscribe_regex_handler`, ldmsd_request.c:1960-2011, `ldmsd_prdcr_subscribe`, ldmsd_prdcr.c:1154-1189, 1423-1444 -/
def subscribe (w : World) (d : Daemon) (r : Req) : Out :=
  match r.get w "regex", r.get w "stream" with
  | some x, some s =>
    if w.se.regexOk x = false then .error (some 1)
    else .ok { d with prds := d.prds.map fun p => if w.rx x p.name ∧ s ∉ p.streams then { p with streams := s :: p.streams } else p }
  | _, _ => .error (some EINVAL)

/-- `plugn_config_handler`, ldmsd_request.c:5175-5258, `__ldmsd_parse_plugin_config`, ldmsd_request_util.c:492-551 (see
`Verif/CfgArgs`), and `ldmsd_config_plugin`, ldmsd_config.c:322-368: words that begin with `name` are attributes of the request, the
others go to the plugin; if there are no others, memory before a buffer is written. -/
def config (w : World) (d : Daemon) (ws : List Str) : Out :=
  match attrsOf (ws.filter fun x => CfgArgs.pluginConfig.isAttr (CfgArgs.splitEq x).1),
      ws.filter fun x => !CfgArgs.pluginConfig.isAttr (CfgArgs.splitEq x).1 with
  | none, _ => .error (some EINVAL)
  | some _, [] => .error none
  | some as, x :: xs =>
    match Req.get w ⟨codes "config", as⟩ "name", (Av.strReplEnvVars w.vars (toC (line (x :: xs)))).map ofC with
    | some n, some t =>
      let nvs := (CfgArgs.words t).map CfgArgs.splitEq
      let c : Conf := ⟨n, nvs.filterMap fun x => x.2.map fun v => (x.1, v), nvs.filterMap fun x => if x.2.isSome then none else some x.1⟩
      if (Strgp.plugOf d.st n).isNone then .error (some ENOENT)
      else if w.takes c then .ok { d with conf := d.conf ++ [c] }
      else .error (some EINVAL)
    | _, _ => .error (some EINVAL)

/-- what `auto_interval` and `push` say, ldmsd_request.c:3420-3456: is it automatic, and `push_flags` -/
def modeArg (auto push : Option Str) : Option (Bool × Nat) :=
  match auto with
  | none => pushArg false push
  | some a =>
    if eqi a "true" then (if push.isSome then none else some (true, 0))
    else if eqi a "false" then pushArg false push
    else none
where
  pushArg (a : Bool) : Option Str → Option (Bool × Nat)
    | none => some (a, 0)
    | some p =>
      if eqi p "onchange" then some (false, 3)
      else if eqi p "true" || eqi p "yes" then some (false, 1)
      else none

/-- `updtr_add_handler`, ldmsd_request.c:3313-3495, and `ldmsd_updtr_new_with_auth`, ldmsd_updtr.c:900-950, without `perm`, which is
not written: an offset of 0 is used if none is given.  A line without an interval, which the file never has, is taken as refused. -/
def updtrAdd (w : World) (d : Daemon) (r : Req) : Out :=
  match r.get w "name", (r.get w "interval").bind us with
  | some n, some t =>
    if n.head? = some 35 then .error (some EINVAL)
    else if t ≤ 0 then .error (some EINVAL)
    else
      match us ((r.get w "offset").getD [48]), modeArg (r.get w "auto_interval") (r.get w "push") with
      | some o, some m =>
        if t < o.natAbs * 2 then .error (some EINVAL)
        else if d.ups.any fun u => u.name = n then .error (some EEXIST)
        else .ok { d with ups := d.ups ++ [⟨n, w.who.uid, w.who.gid, 504, m.1, m.2, t, some o, 0, 0, [], [], false⟩] }
      | _, _ => .error (some EINVAL)
  | _, _ => .error (some EINVAL)

/-- What the requests that change an updater do first: find it, check access, and that it is stopped (ldmsd_updtr.c:1246-1257,
1415-1432, 1047-1060). -/
def withUpdtr (w : World) (d : Daemon) (n : Str) (f : Updtr → Except (Option Nat) Updtr) : Out :=
  match d.ups.find? fun u => u.name = n with
  | none => .error (some ENOENT)
  | some u =>
    if may w u.uid u.gid u.perm = false then .error (some EACCES)
    else if u.running then .error (some EBUSY)
    else match f u with
      | .error e => .error e
      | .ok u' => .ok { d with ups := d.ups.map fun v => if v.name = n then u' else v }

/-- `updtr_prdcr_add_handler`, ldmsd_request.c:3545-3615, `ldmsd_updtr_prdcr_add`, ldmsd_updtr.c:1403-1458 -/
def updtrPrdcr (w : World) (d : Daemon) (r : Req) : Out :=
  match r.get w "name", r.get w "regex" with
  | some n, some x =>
    if n.head? = some 35 then .error (some EINVAL)
    else if w.se.regexOk x = false then .error (some EINVAL)
    else withUpdtr w d n fun u => .ok { u with
      prdcrs := u.prdcrs ++ (d.prds.map (·.name)).filter fun p => w.rx x p && !(u.prdcrs.contains p) }
  | _, _ => .error (some EINVAL)

/-- `updtr_match_add_handler`, ldmsd_request.c:3679-3754, `ldmsd_updtr_match_add`, ldmsd_updtr.c:1241-1296 -/
def updtrMatch (w : World) (d : Daemon) (r : Req) : Out :=
  match r.get w "name", r.get w "regex" with
  | some n, some x => withUpdtr w d n fun u =>
    match (match r.get w "match" with
      | none => some true
      | some m => if eqi m "schema" then some false else if eqi m "inst" then some true else none) with
    | none => .error (some EINVAL)
    | some b => if w.se.regexOk x then .ok { u with mats := (b, x) :: u.mats } else .error (some EINVAL)
  | _, _ => .error (some EINVAL)

/-- `updtr_start_handler`, ldmsd_request.c:3948-4060, `ldmsd_updtr_start`, ldmsd_updtr.c:1042-1110, with a name only; -2^63 is
`LDMSD_UPDT_HINT_OFFSET_NONE` -/
def updtrStart (w : World) (d : Daemon) (r : Req) : Out :=
  match r.get w "name" with
  | none => .error (some EINVAL)
  | some n => withUpdtr w d n fun u => .ok { u with
    running := true,
    perm := u.perm ||| 512,
    taskIvl := u.ivl,
    taskOff := u.off.getD (-(2 ^ 63)) }

/-- a request about storage policies or plugins -/
def strgp (w : World) (d : Daemon) (ev : Strgp.Ev) : Out :=
  match Strgp.step w.se d.st w.who ev with
  | .crash => .error none
  | .ok s rc => if rc = 0 then .ok { d with st := s } else .error (some rc)

/-- the attributes of `strgp_add` -/
def strgpArgs (w : World) (r : Req) : Strgp.Args :=
  ⟨r.get w "name", r.get w "plugin", r.get w "container", r.get w "schema", r.get w "regex", r.get w "decomposition", r.get w "flush",
    r.get w "perm", match r.get w "decomposition" with | none => false | some x => w.decomp x⟩

/-- A line is parsed and the handler of its verb called; `ENOSYS` is 38. -/
def exec (w : World) (d : Daemon) (l : Str) : Out :=
  if (cut l).1 = codes "config" then config w d (cut l).2
  else match request l with
  | none => .error (some EINVAL)
  | some r =>
    if r.verb = codes "prdcr_add" then prdcrAdd w d r
    else if r.verb = codes "prdcr_start" then prdcrStart w d r
    else if r.verb = codes "prdcr_subscribe" then subscribe w d r
    else if r.verb = codes "load" then
      match r.get w "name" with
      | none => .error (some EINVAL)
      | some n => strgp w d (.load n (w.plugin n))
    else if r.verb = codes "updtr_add" then updtrAdd w d r
    else if r.verb = codes "updtr_prdcr_add" then updtrPrdcr w d r
    else if r.verb = codes "updtr_match_add" then updtrMatch w d r
    else if r.verb = codes "updtr_start" then updtrStart w d r
    else if r.verb = codes "strgp_add" then strgp w d (.add (strgpArgs w r))
    else if r.verb = codes "strgp_prdcr_add" then strgp w d (.prdcrAdd (r.get w "name") (r.get w "regex"))
    else if r.verb = codes "strgp_metric_add" then strgp w d (.metricAdd (r.get w "name") (r.get w "metric"))
    else if r.verb = codes "strgp_start" then strgp w d (.start (r.get w "name"))
    else .error (some 38)

/-- the lines one after the other, up to the first error, ldmsd_config.c:697-779 -/
def runLines (w : World) : Daemon → List Str → Out
  | d, [] => .ok d
  | d, l :: ls => match exec w d l with
    | .error e => .error e
    | .ok d' => runLines w d' ls

/-- the lines of the file, up to a line that does not fit the buffer -/
def evLines (w : World) : Daemon → List CfgFile.Ev → Out
  | d, [] => .ok d
  | _, .overrun :: _ => .error none
  | d, .line _ t :: es => match exec w d (ofC t) with
    | .error e => .error e
    | .ok d' => evLines w d' es

/-- A daemon is started with the file, `process_config_file`, ldmsd_config.c:986-992. -/
def reload (w : World) (text : List Char) : Out := evLines w fresh (CfgFile.scan text)

end Verif.Dump
