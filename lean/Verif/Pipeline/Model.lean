/-!
# From producer sets to storage

What an aggregator does with a set of a producer: lookup, periodic updates and storing, in
`ldms/src/ldmsd/ldmsd_updtr.c`, `ldmsd_prdcr.c` and `ldmsd_strgp.c`.  Any number of producer sets and storage
policies; a step is what one thread does under a lock.  Sets that are pushed, the hint tree and statistics are
left out; regular expressions are parameters.
-/

namespace Verif.Pipeline

/-- a metric set that was looked up: its schema's digest and its metric names, in the order of their indexes -/
structure Content where
  digest : Nat
  names : List Nat
  deriving Repr, DecidableEq

/-- what does not change: the policies there are, whether a policy applies to a set by the names of the
producer and of the schema (ldmsd_strgp.c:707-717, 630-638, ldmsd_prdcr.c:1389-1397), whether a policy uses a
decomposition (`decomp_name`), and the metrics named in its configuration -/
structure Cfg where
  pols : List Nat
  applies : Nat → Nat → Bool
  decomp : Nat → Bool
  metrics : Nat → List Nat

/-- a storage policy (`struct ldmsd_strgp`, ldmsd.h) -/
structure Pol where
  running : Bool := false
  /-- `decomp` is configured -/
  decomp : Bool := false
  /-- `store_handle` -/
  handle : Bool := false
  digest : Option Nat := none
  /-- `metric_list` -/
  list : List Nat := []
  /-- `metric_arry` -/
  arr : List Nat := []
  /-- `prdset_cnt` -/
  cnt : Int := 0
  deriving Repr, DecidableEq

/-- `enum ldmsd_prdcr_set_state` (ldmsd.h:306-312); DELETED is never set -/
inductive SetState where
  | start
  | lookup
  | ready
  | updating
  deriving Repr, DecidableEq

/-- what an update callback is told: an error, whether more data is pending, the generation number of the data
and whether they are consistent -/
structure Upd where
  err : Bool
  more : Bool
  gn : Nat
  ok : Bool
  deriving Repr, DecidableEq

/-- who holds the lock of a producer set -/
inductive Job where
  | idle
  /-- `ldmsd_strgp_update` in the lookup callback, with the policies still to be asked -/
  | attach (todo : List Nat)
  /-- the loop over the policies in the update callback -/
  | store (todo : List Nat) (u : Upd)
  deriving Repr, DecidableEq

/-- a producer set (`struct ldmsd_prdcr_set`, ldmsd.h:290-340); every one has its own number, also if it has
the name of an earlier one -/
structure PSet where
  /-- exists and is not freed -/
  live : Bool := false
  /-- is in the producer's set tree -/
  inTree : Bool := false
  st : SetState := .start
  content : Option Content := none
  lastGn : Nat := 0
  /-- `strgp_list` -/
  att : List Nat := []
  job : Job := .idle
  refs : Nat := 0
  /-- lookups and updates that are not completed -/
  lookups : Nat := 0
  updates : Nat := 0
  oversampled : Nat := 0
  skipped : Nat := 0
  deriving Repr, DecidableEq

/-- a call of the store plugin: the policy, the set, the data's generation number, and the metrics' indexes
(none with a decomposition) -/
structure Stored where
  pol : Nat
  set : Nat
  gn : Nat
  arr : Option (List Nat)
  deriving Repr, DecidableEq

structure State where
  sets : Nat → PSet := fun _ => {}
  pols : Nat → Pol := fun _ => {}
  /-- numbers given out to sets -/
  used : List Nat := []
  /-- sets the last start or stop of a policy has still to visit -/
  todo : Nat → List Nat := fun _ => []
  log : List Stored := []

/-- a step that cannot happen now, one that ends the process, and the rest -/
inductive Out (α : Type) where
  | no
  | crash
  | ok (a : α)

def setSet (s : State) (i : Nat) (x : PSet) : State :=
  { s with sets := fun j => if j = i then x else s.sets j }

def setPol (s : State) (p : Nat) (x : Pol) : State :=
  { s with pols := fun q => if q = p then x else s.pols q }

/-- the index of a name in a set (`ldms_metric_by_name`) -/
def idxOf : List Nat → Nat → Option Nat
  | [], _ => none
  | n :: ns, m => if n = m then some 0 else (idxOf ns m).map (· + 1)

/-- the loop of ldmsd_strgp.c:577-586: `none` = a name is missing -/
def indexes (names : List Nat) : List Nat → Option (List Nat)
  | [] => some []
  | m :: ms =>
    match idxOf names m with
    | none => none
    | some k =>
      match indexes names ms with
      | none => none
      | some ks => some (k :: ks)

/-- `strgp_open` (ldmsd_strgp.c:517-605); `ok` = the plugin exists and `ldmsd_store_open` succeeds, memory is
never short.  The result tells whether it returned 0. -/
def openStore (x : Pol) (c : Content) (ok : Bool) : Pol × Bool :=
  let x := if x.list.isEmpty then { x with list := c.names } else x
  let bad := ({ x with arr := [] }, false)
  if x.digest.any (· ≠ c.digest) then bad
  else
    match indexes c.names x.list with
    | none => bad
    | some ks => if ok then ({ x with arr := ks, handle := true, digest := some c.digest }, true) else bad

/-- `ldmsd_strgp_update_prdcr_set` (ldmsd_strgp.c:625-692) for a policy that applies: the policy and the set's
list of policies afterwards -/
def sync (g : Cfg) (p : Nat) (x : Pol) (c : Content) (att : List Nat) (ok : Bool) : Pol × List Nat :=
  if x.running = false then (x, att.erase p)
  else if p ∈ att then (x, att)
  else if g.decomp p then
    if x.decomp || ok then ({ x with decomp := true, cnt := x.cnt + 1 }, p :: att) else (x, att)
  else if x.digest.any (· ≠ c.digest) then (x, att)
  else if x.handle then ({ x with cnt := x.cnt + 1 }, p :: att)
  else
    let r := openStore x c ok
    if r.2 then ({ r.1 with cnt := r.1.cnt + 1 }, p :: att) else (r.1, att)

/-- one policy and one set, both locked -/
def syncOne (g : Cfg) (s : State) (p i : Nat) (ok : Bool) : Out State :=
  let x := s.sets i
  if g.applies p i = false then .ok s
  else
    match x.content with
    | none => .crash
    | some c =>
      let r := sync g p (s.pols p) c x.att ok
      .ok (setPol (setSet s i { x with att := r.2 }) p r.1)

/-- the policies' counters when a set that refers to them is freed (`__prdcr_set_del`,
ldmsd_prdcr.c:139-146) -/
def uncount (pols : Nat → Pol) (att : List Nat) : Nat → Pol :=
  fun q => { pols q with cnt := (pols q).cnt - (att.count q : Int) }

/-- `ldmsd_prdcr_set_ref_put` (ldmsd_prdcr.c:161-166): `x` is the set before the put.  A put of a set that is
gone is a crash. -/
def put (s : State) (i : Nat) (x : PSet) : Out State :=
  if x.refs = 0 then .crash
  else if x.refs = 1 then
    .ok { setSet s i { x with refs := 0, live := false, att := [] } with pols := uncount s.pols x.att }
  else .ok (setSet s i { x with refs := x.refs - 1 })

/-- what can happen -/
inductive Ev where
  /-- the producer lists a new set (`_add_cb`, ldmsd_prdcr.c:336-390); a set whose name is in the tree is
  ignored there -/
  | add (i : Nat)
  /-- an updater comes by a set in its turn (`schedule_prdcr_updates`, ldmsd_updtr.c:572-666): `fresh` = the
  lookup was completed less than a second ago, `ok` = the request was accepted by the transport -/
  | tick (i : Nat) (fresh ok : Bool)
  /-- the lookup of a set is completed, with an error or a set -/
  | looked (i : Nat) (c : Option Content)
  | attachOne (i : Nat) (ok : Bool)
  | attachEnd (i : Nat)
  /-- `ldmsd_strgp_start`, `ldmsd_strgp_stop` (ldmsd_strgp.c:723-776) up to the first set; one that would
  change the state while an earlier one still visits sets never returns (it holds the policy's lock and waits
  for the lock of the producers' tree, held by the earlier one, which waits for the policy's lock), and here it
  does not happen.  The sets to visit are those of this moment: one that is listed later is attached, if at
  all, by its lookup. -/
  | start (p : Nat)
  | stop (p : Nat)
  /-- ... and for one set (`ldmsd_prdcr_update`, ldmsd_prdcr.c:1379-1421) -/
  | scan (p i : Nat) (ok : Bool)
  /-- the update callback is called -/
  | updated (i : Nat) (u : Upd)
  | storeOne (i : Nat)
  | storeEnd (i : Nat)
  /-- the set is deleted at the producer or the connection is lost (`prdcr_reset_set`,
  ldmsd_prdcr.c:218-225); needs the producer's lock only -/
  | reset (i : Nat)
  /-- an updater comes by a set group in state READY with one member (the first branch of
  `schedule_set_updates`, ldmsd_updtr.c:341-384, 404-416): the group's reference is kept, a member in state
  START is looked up without a reference and stays in that state -/
  | group (i m : Nat) (ok : Bool)

/-- an update is requested (`schedule_set_updates`, ldmsd_updtr.c:322-418, for a set that is no group): a
reference is taken, and given back if the transport refuses; the state stays UPDATING -/
def request (x : PSet) (ok : Bool) : PSet :=
  let x := { x with st := .updating }
  if ok then { x with refs := x.refs + 1, updates := x.updates + 1 } else x

/-- one step; ldmsd_updtr.c:508-566 for `looked`, ldmsd_updtr.c:214-287 for `updated` -/
def step (g : Cfg) (s : State) : Ev → Out State
  | .add i =>
    if i ∈ s.used then .no
    else .ok { setSet s i { live := true, inTree := true, refs := 2 } with used := i :: s.used }
  | .tick i fresh ok =>
    let x := s.sets i
    if x.inTree = false then .no
    else
      match x.st with
      | .ready => if fresh then .ok s else .ok (setSet s i (request x ok))
      | .start =>
        if x.content ≠ none then .crash
        else if ok then
          .ok (setSet s i { x with st := .lookup, refs := x.refs + 1, lookups := x.lookups + 1 })
        else .ok s
      | .lookup => .ok s
      | .updating => .ok (setSet s i { x with skipped := x.skipped + 1 })
  | .looked i c =>
    let x := s.sets i
    if x.lookups = 0 ∨ x.job ≠ .idle then .no
    else if x.live = false then .crash
    else
      match c with
      | none => put s i { x with st := .start, lookups := x.lookups - 1 }
      | some c =>
        if x.content ≠ none then .crash
        else .ok (setSet s i { x with content := some c, st := .ready, job := .attach g.pols })
  | .attachOne i ok =>
    match (s.sets i).job with
    | .attach (p :: ps) => syncOne g (setSet s i { s.sets i with job := .attach ps }) p i ok
    | _ => .no
  | .attachEnd i =>
    let x := s.sets i
    match x.job with
    | .attach [] => put s i { x with job := .idle, lookups := x.lookups - 1 }
    | _ => .no
  | .start p =>
    let x := s.pols p
    if x.running then .ok s
    else if s.todo p ≠ [] then .no
    else .ok { setPol s p { x with running := true } with
      todo := fun q => if q = p then s.used.filter (fun i => (s.sets i).inTree) else s.todo q }
  | .stop p =>
    let x := s.pols p
    if x.running = false then .ok s
    else if s.todo p ≠ [] then .no
    else .ok { setPol s p { x with running := false, handle := false } with
      todo := fun q => if q = p then s.used.filter (fun i => (s.sets i).inTree) else s.todo q }
  | .scan p i ok =>
    let x := s.sets i
    if i ∉ s.todo p then .no
    else
      let s' := { s with todo := fun q => if q = p then (s.todo p).filter (· ≠ i) else s.todo q }
      if x.inTree = false then .ok s'
      else if x.job ≠ .idle then .no
      else if x.st = .start ∨ x.st = .lookup then .ok s'
      else syncOne g s' p i ok
  | .updated i u =>
    let x := s.sets i
    if x.updates = 0 ∨ x.job ≠ .idle then .no
    else if x.live = false then .crash
    else if u.err then
      if u.more then .ok s else put s i { x with updates := x.updates - 1 }
    else if u.ok = false ∨ u.gn = x.lastGn then
      let x := if u.ok then { x with oversampled := x.oversampled + 1 } else x
      if u.more then .ok (setSet s i x) else put s i { x with st := .ready, updates := x.updates - 1 }
    else .ok (setSet s i { x with lastGn := u.gn, job := .store x.att u })
  | .storeOne i =>
    let x := s.sets i
    match x.job with
    | .store (p :: ps) u =>
      let s := setSet s i { x with job := .store ps u }
      let y := s.pols p
      if y.running = false then .ok s
      else if g.decomp p then
        if y.decomp then .ok { s with log := s.log ++ [⟨p, i, u.gn, none⟩] }
        else .ok (setPol s p { y with running := false })
      else if y.handle then .ok { s with log := s.log ++ [⟨p, i, u.gn, some y.arr⟩] }
      else .ok (setPol s p { y with running := false })
    | _ => .no
  | .storeEnd i =>
    let x := s.sets i
    match x.job with
    | .store [] u =>
      if u.more then .ok (setSet s i { x with job := .idle })
      else put s i { x with job := .idle, st := .ready, updates := x.updates - 1 }
    | _ => .no
  | .reset i =>
    let x := s.sets i
    if x.inTree = false then .no
    else
      match put s i { x with inTree := false } with
      | .ok s' =>
        if (s'.sets i).live = false then .crash
        else put s' i { s'.sets i with st := .start }
      | r => r
  | .group i m ok =>
    let x := s.sets i
    let y := s.sets m
    if x.inTree = false ∨ y.inTree = false ∨ i = m ∨ x.st ≠ .ready then .no
    else
      let good := setSet s i { x with refs := x.refs + 1 }
      let bad := setSet s i { x with st := .updating }
      match y.st with
      | .start => if ok then .ok (setSet good m { y with lookups := y.lookups + 1 }) else .ok bad
      | .ready => if ok then .ok (setSet good m (request y ok)) else .ok (setSet bad m (request y ok))
      | _ => .ok good

def run (g : Cfg) (s : State) : List Ev → Out State
  | [] => .ok s
  | e :: es => match step g s e with
    | .ok s' => run g s' es
    | .no => .no
    | .crash => .crash

/-- nothing has happened; the policies have the metrics of their configuration -/
def init (g : Cfg) : State := { pols := fun p => { list := g.metrics p } }

end Verif.Pipeline
