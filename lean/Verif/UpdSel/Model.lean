/-!
# Model: which sets an updater updates, and when

`ldms/src/ldmsd/ldmsd_updtr.c` and the parts of `ldmsd_prdcr.c` that keep the sets of producers and
their update hints.  One updater that is not for pushed sets, any number of producers and sets.
Regular expressions are a parameter.  A step is what one thread does under the lock of the updater or
of a producer.  Left out: groups of sets, statistics, failure of allocation, lookups and updates that
fail at once (see Pipeline for what follows an update).
-/

namespace Verif.UpdSel

/-- Names, as bytes. -/
abbrev Str := List Nat

/-- `LDMSD_UPDT_HINT_OFFSET_NONE`, ldmsd.h:101. -/
def offNone : Int := -9223372036854775808

/-- `struct ldmsd_updtr_schedule`, ldmsd.h:282-285. -/
structure Hint where
  intrvl : Int
  offset : Int
  deriving DecidableEq, Repr

/-- Conversion to `int`. -/
def toInt (x : Int) : Int := (x + 2147483648) % 4294967296 - 2147483648

/-- `ldmsd_updtr_schedule_cmp`, ldmsd_updtr.c:1504-1522: `diff` and the result are `int`. -/
def cmp (a b : Hint) : Int :=
  if toInt (a.intrvl - b.intrvl) ≠ 0 then toInt (a.intrvl - b.intrvl)
  else if a.offset = b.offset then 0
  else if a.offset = offNone then -1
  else if b.offset = offNone then 1
  else toInt (a.offset - b.offset)

/-- `enum ldmsd_prdcr_set_state`, ldmsd.h:306-312; a set is ready, and `old` if its lookup was
finished a second ago or more. -/
inductive SState
  | start
  | lookup
  | ready (old : Bool)
  | updating
  deriving DecidableEq, Repr

/-- `struct ldmsd_prdcr_set`, ldmsd.h:299-339. -/
structure PSet where
  inst : Str
  schema : Str
  hint : Hint
  state : SState
  deriving DecidableEq, Repr

/-- A producer: its sets (`set_tree`, and in it the lists of `hint_set_tree`) and whether
`conn_state` is CONNECTED. -/
structure Prd where
  name : Str
  conn : Bool
  sets : List PSet
  deriving DecidableEq, Repr

/-- `enum ldmsd_task_state`; a task is stopping from the stop in its own callback until
`task_cb_fn` sees LDMSD_TASK_F_STOP, ldmsd.c:841-873. -/
inductive TState
  | stopped
  | started
  | stopping
  deriving DecidableEq, Repr

/-- `struct ldmsd_updtr_task`, ldmsd.h:356-368. -/
structure Task where
  hint : Hint
  st : TState
  deriving DecidableEq, Repr

/-- An entry of the match list: `schema` or else instance name, and the number of the regular
expression. -/
structure Match where
  bySchema : Bool
  rx : Nat
  deriving DecidableEq, Repr

/-- `struct ldmsd_updtr`, ldmsd.h:370-413. -/
structure Upd where
  running : Bool
  auto : Bool
  prd : List Str
  matches_ : List Match
  deflt : Task
  tasks : List Task
  deriving DecidableEq, Repr

structure W where
  prds : List Prd
  u : Upd
  deriving DecidableEq, Repr

/-- What is asked of the transport. -/
inductive Kind
  | lookup
  | update
  deriving DecidableEq, Repr

/-- A request for a set of a producer. -/
structure Out where
  kind : Kind
  prd : Str
  inst : Str
  deriving DecidableEq, Repr

/-- `ldmsd_task_start`, ldmsd.c:920-948: EBUSY, which is not looked at, if the task is not stopped. -/
def startTask (t : Task) : Task :=
  match t.st with
  | .stopped => { t with st := .started }
  | _ => t

/-- The match of `regexec` with the instance or schema name, ldmsd_updtr.c:590-597, 866-873,
ldmsd_prdcr.c:277-285. -/
def matchOne (rx : Nat → Str → Bool) (m : Match) (x : PSet) : Bool :=
  if m.bySchema then rx m.rx x.schema else rx m.rx x.inst

/-- Some entry matches, or there is none. -/
def matchAny (rx : Nat → Str → Bool) (u : Upd) (x : PSet) : Bool :=
  u.matches_.isEmpty || u.matches_.any fun m => matchOne rx m x

/-- `ldmsd_updtr_tasks_update`, ldmsd_updtr.c:807-844; the tree of tasks is searched for a hint that
compares equal. -/
def tasksUpdate (u : Upd) (x : PSet) : Upd :=
  if u.auto = false then u
  else if x.hint.intrvl = 0 then u
  else if u.deflt.hint = x.hint then u
  else if u.tasks.any (fun t => cmp t.hint x.hint = 0) then
    { u with tasks := u.tasks.map fun t => if cmp t.hint x.hint = 0 then startTask t else t }
  else { u with tasks := u.tasks ++ [⟨x.hint, .started⟩] }

/-- `ldmsd_prd_set_updtr_task_update`, ldmsd_prdcr.c:253-298. -/
def setTaskUpdate (rx : Nat → Str → Bool) (u : Upd) (p : Str) (x : PSet) : Upd :=
  if u.running = true ∧ p ∈ u.prd ∧ matchAny rx u x = true then tasksUpdate u x else u

/-- `updtr_tasks_create`, ldmsd_updtr.c:847-890. -/
def tasksCreate (rx : Nat → Str → Bool) (prds : List Prd) (u : Upd) : Upd :=
  (prds.filter fun p => p.name ∈ u.prd).foldl
    (fun u p => p.sets.foldl (fun u x => if matchAny rx u x then tasksUpdate u x else u) u) u

/-- The task is in the default list or in the hint list, ldmsd_updtr.c:581-584, 655-658,
ldmsd_prdcr.c:1354-1376; sets without hint are in no list, 182-183. -/
def inTask (u : Upd) (h : Hint) (x : PSet) : Bool :=
  if u.auto then decide (x.hint.intrvl ≠ 0) && decide (cmp x.hint h = 0) else true

/-- What is asked for a set, ldmsd_updtr.c:603-652, and its state after that. -/
def emit (x : PSet) : Option Kind :=
  match x.state with
  | .ready true => some .update
  | .start => some .lookup
  | _ => none

def after (x : PSet) : PSet :=
  match x.state with
  | .ready true => { x with state := .updating }
  | .start => { x with state := .lookup }
  | _ => x

/-- `schedule_prdcr_updates` for all producers of the updater and one entry of the match list:
the producers after it, the requests and `set_count`, ldmsd_updtr.c:572-664. -/
def passPrds (u : Upd) (sel : PSet → Bool) (prds : List Prd) : List Prd :=
  prds.map fun p =>
    if p.name ∈ u.prd ∧ p.conn = true then { p with sets := p.sets.map fun x => if sel x then after x else x } else p

def passOut (u : Upd) (sel : PSet → Bool) (prds : List Prd) : List Out :=
  prds.flatMap fun p =>
    if p.name ∈ u.prd ∧ p.conn = true then
      p.sets.filterMap fun x => if sel x then (emit x).map fun k => ⟨k, p.name, x.inst⟩ else none
    else []

def passCount (u : Upd) (sel : PSet → Bool) (prds : List Prd) : Nat :=
  (prds.map fun p => if p.name ∈ u.prd ∧ p.conn = true then (p.sets.filter sel).length else 0).sum

/-- The loops of `schedule_updates`, ldmsd_updtr.c:698-720: one pass for each entry. -/
def passes (u : Upd) : List (PSet → Bool) → List Prd → List Prd × List Out × Nat
  | [], prds => (prds, [], 0)
  | s :: ss, prds =>
    let r := passes u ss (passPrds u s prds)
    (r.1, passOut u s prds ++ r.2.1, passCount u s prds + r.2.2)

/-- The entries, or everything if there are none, ldmsd_updtr.c:704-716, for a task with hint `h`. -/
def sels (rx : Nat → Str → Bool) (u : Upd) (h : Hint) : List (PSet → Bool) :=
  if u.matches_.isEmpty then [fun x => inTask u h x]
  else u.matches_.map fun m => fun x => inTask u h x && matchOne rx m x

/-- `__update_set_info`, ldmsd_prdcr.c:300-332: the interval and the offset of the hint, `none` if
there is no second number; an empty hint is undefined behaviour and not modelled. -/
def newHint (old : Hint) : Option (Int × Option Int) → Hint
  | none => old
  | some (i, o) =>
    if i ≤ o.getD offNone then old
    else ⟨i, if o.getD offNone ≠ offNone then o.getD offNone else old.offset⟩

def setPrd (prds : List Prd) (p : Str) (f : Prd → Prd) : List Prd := prds.map fun q => if q.name = p then f q else q

def setSet (prds : List Prd) (p i : Str) (f : PSet → PSet) : List Prd :=
  setPrd prds p fun q => { q with sets := q.sets.map fun x => if x.inst = i then f x else x }

/-- The set of a producer. -/
def find (prds : List Prd) (p i : Str) : Option PSet :=
  (prds.find? fun q => q.name = p).bind fun q => q.sets.find? fun x => x.inst = i

inductive Ev
  /-- commands -/
  | prdAdd (r : Nat)
  | prdDel (r : Nat)
  | matchAdd (m : Match)
  | matchDel (m : Match)
  | start (auto : Bool) (h : Hint)
  | stop
  /-- a new producer, its connection and its end -/
  | prdNew (p : Str)
  | connect (p : Str)
  | disconnect (p : Str)
  /-- what the producer says of its sets -/
  | dirAdd (p i s : Str) (info : Option (Int × Option Int))
  | dirUpd (p i : Str) (info : Option (Int × Option Int))
  | dirDel (p i : Str)
  /-- ends of lookups and updates, and a second gone by -/
  | lookupDone (p i : Str) (ok : Bool)
  | ripen (p i : Str)
  | updateDone (p i : Str)
  /-- a task runs: `none` for the default task; and is done -/
  | fire (h : Option Hint)
  | fireEnd (h : Hint)
  /-- `updtr_tree_task_cb` -/
  | cleanup (h : Hint)
  deriving DecidableEq, Repr

/-- The result: the state, what was asked of the transport and the code. -/
structure Res where
  w : W
  out : List Out
  rc : Nat
  deriving DecidableEq, Repr

def ok (w : W) : Res := ⟨w, [], 0⟩

def step (rx : Nat → Str → Bool) (w : W) : Ev → Res
  /- `ldmsd_updtr_prdcr_add`, ldmsd_updtr.c:1403-1458 -/
  | .prdAdd r =>
    if w.u.running then ⟨w, [], 16⟩
    else ok { w with u := { w.u with prd := w.u.prd ++
      ((w.prds.map (·.name)).filter fun p => rx r p && !(w.u.prd.contains p)) } }
  /- `ldmsd_updtr_prdcr_del`, 1460-1499 -/
  | .prdDel r =>
    if w.u.running then ⟨w, [], 16⟩
    else ok { w with u := { w.u with prd := w.u.prd.filter fun p => !rx r p } }
  /- `ldmsd_updtr_match_add`, 1241-1296 -/
  | .matchAdd m =>
    if w.u.running then ⟨w, [], 16⟩ else ok { w with u := { w.u with matches_ := m :: w.u.matches_ } }
  /- `ldmsd_updtr_match_del`, 1298-1338 -/
  | .matchDel m =>
    if w.u.running then ⟨w, [], 16⟩
    else if w.u.matches_.contains m then ok { w with u := { w.u with matches_ := w.u.matches_.erase m } }
    else ⟨w, [], 2⟩
  /- `ldmsd_updtr_start`, 1042-1110, and `__ldmsd_updtr_start`, 1002-1040; `h` is the hint made of the
  interval and the offset -/
  | .start auto h =>
    if w.u.running then ⟨w, [], 16⟩
    else ok { w with u := (tasksCreate rx w.prds { w.u with running := true, auto := auto, deflt := ⟨h, .started⟩ }) }
  /- `__ldmsd_updtr_stop` and `__updtr_tasks_stop`, 1114-1165, in one step -/
  | .stop =>
    if w.u.running then ok { w with u := { w.u with running := false, deflt := { w.u.deflt with st := .stopped }, tasks := [] } }
    else ok w
  | .prdNew p =>
    if p ∈ w.prds.map (·.name) then ⟨w, [], 17⟩ else ok { w with prds := w.prds ++ [⟨p, false, []⟩] }
  | .connect p => ok { w with prds := setPrd w.prds p fun q => { q with conn := true } }
  /- `prdcr_reset_sets`, ldmsd_prdcr.c:230-238, 710-720 -/
  | .disconnect p => ok { w with prds := setPrd w.prds p fun q => { q with conn := false, sets := [] } }
  /- `_add_cb`, ldmsd_prdcr.c:336-390 -/
  | .dirAdd p i s info =>
    if w.prds.any (fun q => decide (q.name = p) && q.conn && !(q.sets.any fun x => x.inst = i)) then
      let x : PSet := ⟨i, s, newHint ⟨0, 0⟩ info, .start⟩
      ok { prds := setPrd w.prds p fun q => { q with sets := q.sets ++ [x] }, u := setTaskUpdate rx w.u p x }
    else ok w
  /- `prdcr_dir_cb_upd`, ldmsd_prdcr.c:426-459 -/
  | .dirUpd p i info =>
    match find w.prds p i with
    | none => ok w
    | some x =>
      let x' := { x with hint := newHint x.hint info }
      ok { prds := setSet w.prds p i fun y => { y with hint := newHint y.hint info },
           u := if cmp x.hint x'.hint ≠ 0 then setTaskUpdate rx w.u p x' else w.u }
  /- `prdcr_dir_cb_del`, 411-424, and `__prdcr_remote_set_delete` -/
  | .dirDel p i => ok { w with prds := setPrd w.prds p fun q => { q with sets := q.sets.filter fun x => x.inst ≠ i } }
  /- `__ldmsd_prdset_lookup_cb`, ldmsd_updtr.c:508-567 -/
  | .lookupDone p i good =>
    match find w.prds p i with
    | none => ok w
    | some x =>
      if x.state = .lookup then
        if good then ok { prds := setSet w.prds p i fun y => { y with state := .ready false }, u := setTaskUpdate rx w.u p x }
        else ok { w with prds := setSet w.prds p i fun y => { y with state := .start } }
      else ok w
  | .ripen p i =>
    ok { w with prds := setSet w.prds p i fun y => if y.state = .ready false then { y with state := .ready true } else y }
  /- `updtr_update_cb`, 270-272 -/
  | .updateDone p i =>
    ok { w with prds := setSet w.prds p i fun y => if y.state = .updating then { y with state := .ready true } else y }
  /- `updtr_task_cb` and `schedule_updates`, 698-720, 740-753 -/
  | .fire none =>
    if w.u.running = true then
      let r := passes w.u (sels rx w.u w.u.deflt.hint) w.prds
      ⟨{ w with prds := r.1 }, r.2.1, 0⟩
    else ok w
  | .fire (some h) =>
    if w.u.running = true ∧ (⟨h, .started⟩ : Task) ∈ w.u.tasks then
      let r := passes w.u (sels rx w.u h) w.prds
      ⟨⟨r.1, if r.2.2 = 0 then
          { w.u with tasks := w.u.tasks.map fun t => if t.hint = h then { t with st := .stopping } else t }
        else w.u⟩, r.2.1, 0⟩
    else ok w
  | .fireEnd h =>
    ok { w with u := { w.u with tasks := w.u.tasks.map fun t =>
      if t.hint = h ∧ t.st = .stopping then { t with st := .stopped } else t } }
  /- `__updtr_task_tree_cleanup`, 756-773: a task whose STOP flag is set is joined and deleted; it
  is the first of the tree, and here any -/
  | .cleanup h =>
    if w.u.running then ok { w with u := { w.u with tasks := w.u.tasks.filter fun t => !(decide (t.hint = h) && decide (t.st ≠ .started)) } }
    else ok w

def run (rx : Nat → Str → Bool) (w : W) : List Ev → W
  | [] => w
  | e :: es => run rx (step rx w e).w es

/-- At first there is nothing; `updtr_add`. -/
def init : W := ⟨[], ⟨false, false, [], [], ⟨⟨0, 0⟩, .stopped⟩, []⟩⟩

/-! ## Storage policies -/

/-- A storage policy: its producers, and its schema or the regular expression for it, ldmsd.h. -/
structure Pol where
  prdcrs : List Nat
  schema : Str ⊕ Nat

/-- The loop over `prdcr_list`, ldmsd_strgp.c:710-716 and ldmsd_prdcr.c:1389-1395: `rc` of the last
`regexec`. -/
def polLoop (rx : Nat → Str → Bool) (p : Str) : Bool → List Nat → Bool
  | rc, [] => rc
  | _, m :: ms => if rx m p then true else polLoop rx p false ms

/-- `ldmsd_strgp_update` for one policy and `ldmsd_strgp_update_prdcr_set`, ldmsd_strgp.c:628-638, 701-725. -/
def polApplies (rx : Nat → Str → Bool) (g : Pol) (p s : Str) : Bool :=
  polLoop rx p true g.prdcrs && (match g.schema with
    | .inl n => decide (n = s)
    | .inr r => rx r s)

end Verif.UpdSel
