import Verif.SetOwner.Model

/-!
# Model: requests about storage policies

The handlers of `ldms/src/ldmsd/ldmsd_request.c` for `strgp_add`, `strgp_prdcr_add`, `strgp_prdcr_del`,
`strgp_metric_add`, `strgp_metric_del`, `strgp_start`, `strgp_stop`, `strgp_del`, `load` and `term`, the functions of
`ldmsd_strgp.c` and `ldmsd_config.c` they call, and the policies that a failover peer sends
(`failover_cfgstrgp_handler` of `ldmsd_failover.c`).

Requests run one after the other, as the handlers hold the locks of the tree and of the policy.  The tree of policies is
a list; text is a list of bytes.  Memory does not run out.  Which sets refer to a policy, and when its store is opened
and used, is decided elsewhere (`Verif/Pipeline`) and comes as events.
-/

namespace Verif.Strgp

open Verif.SetOwner (Str strtol u32)

def ENOENT : Nat := 2
def EACCES : Nat := 13
def EBUSY : Nat := 16
def EEXIST : Nat := 17
def EINVAL : Nat := 22

/-- Which schemas a policy stores: `schema` or `regex_s`. -/
inductive Sel where
  | schema (s : Str)
  | regex (s : Str)
  deriving DecidableEq, Repr

/-- `struct timespec` -/
structure Time where
  sec : Int
  nsec : Int
  deriving DecidableEq, Repr

/-- `struct ldmsd_strgp`, ldmsd.h:443-493: what requests set.  `store` is the plugin that `strgp->store` points into, by the
number of its loading; `opened` tells that there is a `store_handle`; `users` counts the references of producer sets
(`obj.ref_count` less the one of the tree). -/
structure Pol where
  name : Str
  uid : Nat
  gid : Nat
  perm : Nat
  plugin : Str
  store : Option Nat
  container : Str
  sel : Sel
  decomp : Option Str
  flush : Time
  prdcrs : List Str
  metrics : List Str
  running : Bool
  opened : Bool
  users : Nat
  deriving DecidableEq, Repr

/-- `struct ldmsd_plugin_cfg`, ldmsd.h:784-804: a plugin that is loaded; `id` numbers the loadings. -/
structure Plug where
  id : Nat
  name : Str
  refs : Int
  deriving DecidableEq, Repr

structure State where
  pols : List Pol
  plugs : List Plug
  /-- the number of the next loading -/
  next : Nat
  deriving DecidableEq, Repr

def init : State := ⟨[], [], 0⟩

/-- What is outside: the groups of users; whether a text is a regular expression (`regcomp`); the product of `strtod` of a
text and a number, as a `long long`, where it is not exact. -/
structure Env where
  groups : Nat → Access.Groups
  regexOk : Str → Bool
  fp : Str → Nat → Int

/-- who asks -/
structure Who where
  uid : Nat
  gid : Nat
  deriving DecidableEq, Repr

/-- The daemon crashes, or a new state and the result (`errcode`). -/
inductive Res where
  | crash
  | ok (s : State) (rc : Nat)
  deriving DecidableEq, Repr

/-! ## The flush interval -/

/-- the letter in lower case, for `strcasecmp` -/
def lower (c : Nat) : Nat := if 65 ≤ c ∧ c ≤ 90 then c + 32 else c

/-- the nanoseconds of a unit, ldmsd_strgp.c:163-171; 115 is `s`, 109 `m`, 117 `u`, 110 `n` -/
def unit (u : Str) : Option Nat :=
  let u := u.map lower
  if u = [115] then some 1000000000
  else if u = [109, 115] then some 1000000
  else if u = [117, 115] then some 1000
  else if u = [110, 115] then some 1
  else none

/-- `input[pos]` is a digit or a point -/
def numChar (c : Nat) : Bool := SetOwner.isDigit c || c == 46

/-- `term * k` as a `long long`: exact for a text of digits whose product has 53 bits, else what the machine gives. -/
def product (e : Env) (s : Str) (k : Nat) : Int :=
  let v := (SetOwner.digits 10 0 s).1
  if s.all SetOwner.isDigit ∧ v * k < 2 ^ 53 then ((v * k : Nat) : Int) else e.fp s k

/-- `ldmsd_timespec_from_str`, ldmsd_strgp.c:140-179; `none`: `EINVAL`. -/
def flushOf (e : Env) (s : Str) : Option Time :=
  let num := s.takeWhile numChar
  let rest := s.dropWhile numChar
  (unit (if rest = [] then [117, 115] else rest)).map fun k =>
    let ns := product e num k
    ⟨ns.tdiv 1000000000, ns.tmod 1000000000⟩

/-- `ldmsd_timespec_add`, ldmsd_strgp.c:129-138. -/
def Time.add (a b : Time) : Time :=
  if a.nsec + b.nsec < 1000000000 then ⟨a.sec + b.sec, a.nsec + b.nsec⟩
  else ⟨a.sec + b.sec + 1, a.nsec + b.nsec - 1000000000⟩

/-- `ldmsd_timespec_cmp`, ldmsd_strgp.c:116-127. -/
def Time.cmp (a b : Time) : Int :=
  if a.sec < b.sec then -1 else if a.sec > b.sec then 1
  else if a.nsec < b.nsec then -1 else if a.nsec > b.nsec then 1 else 0

/-- The end of `strgp_update_fn`, ldmsd_strgp.c:219-231: what is done after a sample was handed to the store, with the time of
the last flush; `now` and `now2` are the two readings of the clock.  The new time of the last flush, and whether the
store is flushed. -/
def flushStep (interval last now now2 : Time) : Time × Bool :=
  if interval.sec ≠ 0 ∨ interval.nsec ≠ 0 then
    if now.cmp (last.add interval) ≥ 0 then (now2, true) else (last, false)
  else (last, false)

/-! ## Policies and plugins -/

/-- `__cfgobj_find`, ldmsd_cfgobj.c:228-237. -/
def find (s : State) (n : Str) : Option Pol := s.pols.find? fun p => p.name == n

/-- a policy is changed -/
def State.set (s : State) (p : Pol) : State := { s with pols := s.pols.map fun q => if q.name = p.name then p else q }

/-- `ldmsd_get_plugin`, ldmsd_config.c:100-108. -/
def plugOf (s : State) (n : Str) : Option Plug := s.plugs.find? fun p => p.name == n

/-- the memory of the plugin is still there -/
def loaded (s : State) (i : Nat) : Bool := s.plugs.any fun p => p.id == i

/-- `ref_count` of a plugin: one more -/
def State.hold (s : State) (i : Nat) : State :=
  { s with plugs := s.plugs.map fun p => if p.id = i then { p with refs := p.refs + 1 } else p }

/-- `ref_count` of a plugin: one less -/
def State.drop (s : State) (i : Nat) : State :=
  { s with plugs := s.plugs.map fun p => if p.id = i then { p with refs := p.refs - 1 } else p }

/-- `ldmsd_cfgobj_access_check(obj, 0222, ctxt)`, ldmsd_cfgobj.c:66-70 -/
def allowed (e : Env) (w : Who) (p : Pol) : Bool := Access.check (e.groups w.uid) w.uid w.gid 146 p.uid p.gid p.perm

/-- What the functions that change a policy do first: find it, check access, and that it is stopped
(ldmsd_strgp.c:331-343, 377-388, 431-442, 462-472). -/
def config (e : Env) (s : State) (w : Who) (n : Str) (f : Pol → Except Nat Pol) : Res :=
  match find s n with
  | none => .ok s ENOENT
  | some p =>
    if allowed e w p = false then .ok s EACCES
    else if p.running then .ok s EBUSY
    else match f p with
      | .error rc => .ok s rc
      | .ok p' => .ok (s.set p') 0

/-- `ldmsd_strgp_prdcr_add`, ldmsd_strgp.c:327-370; the code for a bad expression is that of `regcomp` (here 1). -/
def prdcrAdd (e : Env) (r : Str) (p : Pol) : Except Nat Pol :=
  if e.regexOk r then .ok { p with prdcrs := r :: p.prdcrs } else .error 1

/-- `ldmsd_strgp_prdcr_del`, ldmsd_strgp.c:372-403. -/
def prdcrDel (r : Str) (p : Pol) : Except Nat Pol :=
  if r ∈ p.prdcrs then .ok { p with prdcrs := p.prdcrs.erase r } else .error EEXIST

/-- `ldmsd_strgp_metric_add`, ldmsd_strgp.c:427-457. -/
def metricAdd (m : Str) (p : Pol) : Except Nat Pol :=
  if m ∈ p.metrics then .error EEXIST else .ok { p with metrics := p.metrics ++ [m] }

/-- `ldmsd_strgp_metric_del`, ldmsd_strgp.c:459-485. -/
def metricDel (m : Str) (p : Pol) : Except Nat Pol :=
  if m ∈ p.metrics then .ok { p with metrics := p.metrics.erase m } else .error EEXIST

/-- `ldmsd_strgp_start`, ldmsd_strgp.c:723-755; 512 is `LDMSD_PERM_DSTART`. -/
def start (e : Env) (s : State) (w : Who) (n : Str) : Res :=
  config e s w n fun p => .ok { p with
    running := true,
    perm := p.perm ||| 512 }

/-- a pointer into a plugin may be followed -/
def good (s : State) (st : Option Nat) : Bool := match st with
  | none => false
  | some i => loaded s i

/-- `ldmsd_strgp_stop`, ldmsd_strgp.c:757-788; the store is closed if it is open. -/
def stop (e : Env) (s : State) (w : Who) (n : Str) : Res :=
  match find s n with
  | none => .ok s ENOENT
  | some p =>
    if allowed e w p = false then .ok s EACCES
    else if p.running = false then .ok s EBUSY
    else if p.opened && !good s p.store then .crash
    else .ok (s.set { p with
      running := false,
      opened := false,
      perm := p.perm &&& 4294966783 }) 0

/-- `ldmsd_strgp_del`, ldmsd_strgp.c:794-839: the plugin is found through `strgp->store`. -/
def del (e : Env) (s : State) (w : Who) (n : Str) : Res :=
  match find s n with
  | none => .ok s ENOENT
  | some p =>
    if allowed e w p = false then .ok s EACCES
    else if p.running then .ok s EBUSY
    else if 0 < p.users then .ok s EBUSY
    else match p.store with
      | none => .crash
      | some i =>
        if loaded s i then .ok { s.drop i with pols := s.pols.filter fun q => !(q.name == n) } 0
        else .crash

/-- The attributes of `strgp_add`. -/
structure Args where
  name : Option Str
  plugin : Option Str
  container : Option Str
  schema : Option Str
  regex : Option Str
  decomp : Option Str
  flush : Option Str
  perm : Option Str
  /-- the decomposition can be configured (`ldmsd_decomp_config`) -/
  decompOk : Bool

/-- `send_reply` of `strgp_add_handler` with an error, ldmsd_request.c:2748-2750: the policy of that name is deleted, with the
rights of uid 0 (`sec_ctxt` is all zero, 2584).  Without a name, `strcmp` gets a null pointer if there is a policy to compare with
(`rbt_find`, rbt.c:377-393). -/
def refuse (e : Env) (s : State) (n : Option Str) (rc : Nat) : Res :=
  match n with
  | none => if s.pols = [] then .ok s rc else .crash
  | some n => match del e s ⟨0, 0⟩ n with
    | .crash => .crash
    | .ok s' _ => .ok s' rc

/-- the schemas that are meant, ldmsd_request.c:2606-2630: one of `schema` and `regex`, and `regex` only with a decomposition -/
def selOf (a : Args) : Option Sel :=
  match a.schema, a.regex with
  | some _, some _ => none
  | some x, none => some (.schema x)
  | none, some r => if a.decomp.isSome then some (.regex r) else none
  | none, none => none

/-- the interval, ldmsd_request.c:2633-2642; zero if it is not given -/
def flushArg (e : Env) (a : Args) : Option Time :=
  match a.flush with
  | none => some ⟨0, 0⟩
  | some t => flushOf e t

/-- the permissions, ldmsd_request.c:2659-2662 -/
def permArg (a : Args) : Nat :=
  match a.perm with
  | none => 504
  | some t => u32 (strtol 0 t).value

/-- the regular expression can be compiled, ldmsd_request.c:2680-2686 -/
def Sel.ok (e : Env) : Sel → Bool
  | .schema _ => true
  | .regex r => e.regexOk r

/-- `strgp_add_handler`, ldmsd_request.c:2573-2761.  A policy whose regular expression or decomposition turns out to be bad was in
the tree already. -/
def add (e : Env) (s : State) (w : Who) (a : Args) : Res :=
  match a.name, a.plugin, a.container with
  | some n, some pl, some c =>
    match selOf a with
    | none => refuse e s (some n) EINVAL
    | some sel =>
      match flushArg e a with
      | none => refuse e s (some n) ENOENT
      | some fl =>
        match plugOf s pl with
        | none => refuse e s (some n) ENOENT
        | some g =>
          if (find s n).isSome then refuse e s (some n) EEXIST
          else
            let p : Pol := ⟨n, w.uid, w.gid, permArg a, pl, some g.id, c, sel, a.decomp, fl, [], [], false, false, 0⟩
            let s := { s.hold g.id with pols := s.pols ++ [p] }
            if sel.ok e = false then refuse e s (some n) 1
            else if a.decomp.isSome && !a.decompOk then refuse e s (some n) EINVAL
            else .ok s 0
  | n, _, _ => refuse e s n EINVAL

/-- What a failover peer sends of a policy. -/
structure Peer where
  name : Str
  plugin : Option Str
  schema : Option Str
  container : Option Str
  regex : Option Str
  metric : Option Str
  uid : Nat
  gid : Nat
  perm : Nat

/-- the policy a peer describes is made, ldmsd_failover.c:2314-2338, if there is none of that name: without a store -/
def peerNew (s : State) (q : Peer) : Option State :=
  match find s q.name with
  | some _ => some s
  | none => match q.schema, q.plugin, q.container with
    | some x, some pl, some c =>
      some { s with pols := s.pols ++ [⟨q.name, q.uid, q.gid, q.perm, pl, none, c, .schema x, none, ⟨0, 0⟩, [], [], false, false, 0⟩] }
    | _, _, _ => none

/-- an optional part of what the peer sends -/
def part (e : Env) (s : State) (q : Peer) (x : Option Str) (f : Str → Pol → Except Nat Pol) : Res :=
  match x with
  | none => .ok s 0
  | some x => config e s ⟨q.uid, q.gid⟩ q.name (f x)

/-- `failover_cfgstrgp_handler`, ldmsd_failover.c:2281-2387, for a name with the prefix. -/
def peer (e : Env) (s : State) (q : Peer) : Res :=
  match peerNew s q with
  | none => .ok s EINVAL
  | some s1 =>
    match part e s1 q q.regex (prdcrAdd e) with
    | .crash => .crash
    | .ok s2 rc => if rc ≠ 0 then .ok s2 rc else part e s2 q q.metric metricAdd

/-- `ldmsd_load_plugin`, ldmsd_config.c:279-292; `ok`: the library is there and gives a plugin. -/
def load (s : State) (n : Str) (ok : Bool) : Res :=
  if (plugOf s n).isSome then .ok s EEXIST
  else if ok then .ok { s with
    plugs := ⟨s.next, n, 0⟩ :: s.plugs,
    next := s.next + 1 } 0
  else .ok s 4294967295

/-- `ldmsd_term_plugin`, ldmsd_config.c:297-318. -/
def term (s : State) (n : Str) : Res :=
  match plugOf s n with
  | none => .ok s ENOENT
  | some g => if g.refs ≠ 0 then .ok s EINVAL else .ok { s with plugs := s.plugs.filter fun p => p.id ≠ g.id } 0

/-- `strgp_open`, ldmsd_strgp.c:516-605: a running policy without a decomposition opens its store for a set with the metrics
`ms`; a policy without a list of metrics gets those of the set, also if it fails later.  A
plugin that is gone is taken as used also in the cases where the opening fails before that. -/
def opens (s : State) (n : Str) (ms : List Str) (ok : Bool) : Res :=
  match find s n with
  | none => .ok s 0
  | some p =>
    if p.running && p.decomp.isNone && !p.opened then
      match (match p.store with | some i => some i | none => (plugOf s p.plugin).map (·.id)) with
      | none => .ok s ENOENT
      | some i =>
        if !loaded s i then .crash
        else .ok (s.set { p with
          store := some i,
          opened := ok,
          metrics := if p.metrics = [] then ms else p.metrics }) 0
    else .ok s 0

/-- A sample of a set is stored, ldmsd_strgp.c:181-217: `strgp->store->store` or `commit` is called. -/
def stores (s : State) (n : Str) : Res :=
  match find s n with
  | none => .ok s 0
  | some p => if p.running && (p.opened || p.decomp.isSome) && !good s p.store then .crash else .ok s 0

/-- requests and what else happens -/
inductive Ev where
  | add (a : Args)
  | prdcrAdd (name regex : Option Str)
  | prdcrDel (name regex : Option Str)
  | metricAdd (name metric : Option Str)
  | metricDel (name metric : Option Str)
  | start (name : Option Str)
  | stop (name : Option Str)
  | del (name : Option Str)
  | load (plugin : Str) (ok : Bool)
  | term (plugin : Str)
  | peer (q : Peer)
  | users (name : Str) (k : Nat)
  | opens (name : Str) (ms : List Str) (ok : Bool)
  | stores (name : Str)

/-- The handlers other than that of `strgp_add` refuse a request without a required attribute,
ldmsd_request.c:2822-2829, 2884-2891, 2948-2955, 3014-3021, 3074-3080, 3122-3128, 2771-2778. -/
def with1 (s : State) (n : Option Str) (f : Str → Res) : Res := match n with
  | none => .ok s EINVAL
  | some n => f n

def with2 (s : State) (n m : Option Str) (f : Str → Str → Res) : Res := match n, m with
  | some n, some m => f n m
  | _, _ => .ok s EINVAL

/-- one request or event -/
def step (e : Env) (s : State) (w : Who) : Ev → Res
  | .add a => add e s w a
  | .prdcrAdd n r => with2 s n r fun n r => config e s w n (prdcrAdd e r)
  | .prdcrDel n r => with2 s n r fun n r => config e s w n (prdcrDel r)
  | .metricAdd n m => with2 s n m fun n m => config e s w n (metricAdd m)
  | .metricDel n m => with2 s n m fun n m => config e s w n (metricDel m)
  | .start n => with1 s n (start e s w)
  | .stop n => with1 s n (stop e s w)
  | .del n => with1 s n (del e s w)
  | .load n ok => load s n ok
  | .term n => term s n
  | .peer q => peer e s q
  | .users n k => match find s n with
    | none => .ok s 0
    | some p => .ok (s.set { p with users := k }) 0
  | .opens n ms ok => opens s n ms ok
  | .stores n => stores s n

/-- a history -/
def run (e : Env) (s : State) : List (Who × Ev) → Option State
  | [] => some s
  | (w, ev) :: es => match step e s w ev with
    | .crash => none
    | .ok s' _ => run e s' es

end Verif.Strgp
