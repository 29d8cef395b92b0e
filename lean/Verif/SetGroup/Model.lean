import Verif.SetInfo.Model

/-!
# Model: set groups and their update

`ldms/src/ldmsd/ldmsd_group.c` (a group is a set whose information names its members), the requests
`setgroup_ins` and `setgroup_rm` of `ldmsd_request.c`, and the update of groups in `ldmsd_updtr.c`
(`schedule_set_updates`, `__setgrp_members_lookup`, `__ldmsd_prdset_lookup_cb`, `updtr_update_cb`).
-/

namespace Verif.SetGroup

/-! ## Members -/

/-- `GRP_KEY_PREFIX`, ldmsd_group.c:56: `"    grp_member: "` -/
def keyPrefix : SetInfo.Str := [32, 32, 32, 32, 103, 114, 112, 95, 109, 101, 109, 98, 101, 114, 58, 32]

inductive Rc
  | ok | nametoolong | inval | nomem
  deriving DecidableEq, Repr

/-- `ldmsd_group_set_add`, ldmsd_group.c:68-77; memory is available. -/
def add (s : SetInfo.St) (name : SetInfo.Str) : SetInfo.St × Rc :=
  if 512 ≤ (keyPrefix ++ name).length then (s, .nametoolong)
  else
    let r := SetInfo.set s (some (keyPrefix ++ name)) (some [45]) ⟨true, true⟩
    (r.1, match r.2 with | .ok => .ok | .einval => .inval | .enomem => .nomem)

/-- `ldmsd_group_set_rm`, ldmsd_group.c:79-88. -/
def rm (s : SetInfo.St) (name : SetInfo.Str) : SetInfo.St × Rc :=
  if 512 ≤ (keyPrefix ++ name).length then (s, .nametoolong) else (SetInfo.unset s (keyPrefix ++ name), .ok)

/-- `ldmsd_group_member_name`, ldmsd_group.c:90-95. -/
def memberName (key : SetInfo.Str) : Option SetInfo.Str :=
  if keyPrefix.isPrefixOf key then some (key.drop keyPrefix.length) else none

/-- The members that `ldmsd_group_iter`, ldmsd_group.c:115-126, visits, when the callback goes on. -/
def visit (s : SetInfo.St) : List SetInfo.Str :=
  ((SetInfo.traverse s .localInfo fun _ => 0).1 ++ (SetInfo.traverse s .remoteInfo fun _ => 0).1).filterMap fun p => memberName p.1

/-- `strtok_r` with the delimiter `,`: the non-empty pieces.  `cur` is the piece that is read. -/
def tokens (cur : SetInfo.Str) : SetInfo.Str → List SetInfo.Str
  | [] => if cur = [] then [] else [cur]
  | c :: l => if c = 44 then (if cur = [] then tokens [] l else cur :: tokens [] l) else tokens (cur ++ [c]) l

/-- The loop of the two handlers: names up to the first one that is refused. -/
def each (f : SetInfo.St → SetInfo.Str → SetInfo.St × Rc) : SetInfo.St → List SetInfo.Str → SetInfo.St × Rc
  | s, [] => (s, .ok)
  | s, x :: xs => match f s x with
    | (s, .ok) => each f s xs
    | r => r

/-- `setgroup_ins_handler`, ldmsd_request.c:4784-4846, and `setgroup_rm_handler`, 4848-4910, for a group that is there; the
attribute `instance` is given (without it, `strtok_r` gets NULL and an uninitialised pointer: `none`). -/
def ins (s : SetInfo.St) (instance' : Option SetInfo.Str) : Option (SetInfo.St × Rc) := instance'.map fun i => each add s (tokens [] i)
def del (s : SetInfo.St) (instance' : Option SetInfo.Str) : Option (SetInfo.St × Rc) := instance'.map fun i => each rm s (tokens [] i)

/-! ## Updates -/

/-- `enum ldmsd_prdcr_set_state` -/
inductive State
  | start | lookup | ready | updating | deleted
  deriving DecidableEq, Repr

/-- A set of a producer. -/
structure P where
  st : State
  /-- the members, in the order of `visit`, if the set is a group; seen only when the set was looked up -/
  mem : Option (List Nat)
  /-- `set` is not NULL -/
  found : Bool
  /-- `ref_count`: 2 for a set that is in the tree, ldmsd_prdcr.c:116, 364 -/
  refs : Nat
  /-- ghost: updates and lookups that are not yet answered -/
  upd : Nat
  look : Nat
  deriving DecidableEq, Repr

/-- A connected producer: the sets `0 … n-1`. -/
structure W where
  n : Nat
  p : Nat → P

def W.mod (w : W) (k : Nat) (f : P → P) : W := { w with p := fun j => if j = k then f (w.p j) else w.p j }

/-- What the calls of the transport return at once (0: the answer comes later). -/
structure Env where
  look : Nat → Nat
  upd : Nat → Nat

inductive Res
  | done (w : W) (rc : Nat)
  /-- an assertion fails -/
  | crash
  /-- not enough steps (the recursion of the code has no limit) -/
  | more

/-- The loop over the members, ldmsd_updtr.c:359-385; `f` is the recursive call. -/
def members (e : Env) (f : W → Nat → Res) : W → List Nat → Res
  | w, [] => .done w 0
  | w, m :: ms =>
    if m < w.n then
      if (w.p m).st = .start then
        if e.look m = 0 then members e f (w.mod m fun p => { p with look := p.look + 1 }) ms else .done w (e.look m)
      else if (w.p m).st = .ready then
        match f w m with
        | .done w 0 => members e f w ms
        | r => r
      else members e f w ms
    else members e f w ms

/-- `schedule_set_updates`, ldmsd_updtr.c:325-412, for an updater without push.  The members are listed backwards,
`__grp_iter_cb`, 306-321.  At most `fuel` calls inside each other. -/
def sched (e : Env) : Nat → W → Nat → Res
  | 0, _, _ => .more
  | fuel + 1, w, k =>
    if (w.p k).refs = 0 then .crash else
    let w1 := w.mod k fun p => { p with st := .updating, refs := p.refs + 1 }
    match (w.p k).mem with
    | some ms => match members e (sched e fuel) w1 ms.reverse with
      | .done w2 0 => .done (w2.mod k fun p => { p with st := .ready }) 0
      | .done w2 rc => .done (w2.mod k fun p => { p with refs := p.refs - 1 }) rc
      | r => r
    | none =>
      if e.upd k = 0 then .done (w1.mod k fun p => { p with upd := p.upd + 1 }) 0
      else .done (w1.mod k fun p => { p with refs := p.refs - 1 }) (e.upd k)

/-- Any number of calls inside each other that can be needed, see `group_update_ends`. -/
def update (e : Env) (w : W) (k : Nat) : Res := sched e (w.n + 1) w k

/-- One set in `schedule_prdcr_updates`, ldmsd_updtr.c:601-656, looked up more than a second ago; `none`: crash. -/
def visitSet (e : Env) (w : W) (k : Nat) : Option W :=
  match (w.p k).st with
  | .ready => match update e w k with
    | .done w _ => some w
    | _ => none
  | .start =>
    if (w.p k).found || decide ((w.p k).refs = 0) then none
    else if e.look k = 0 then some (w.mod k fun p => { p with st := .lookup, refs := p.refs + 1, look := p.look + 1 })
    else some w
  | _ => some w

/-- `ldmsd_prdcr_set_ref_put`, ldmsd_prdcr.c:161-166. -/
def put (w : W) (k : Nat) : Option W :=
  if (w.p k).refs = 0 then none else some (w.mod k fun p => { p with refs := p.refs - 1 })

/-- `__setgrp_members_lookup`, ldmsd_updtr.c:431-506: the state and the return code. -/
def memberLookups (e : Env) : W → List Nat → Option (W × Nat)
  | w, [] => some (w, 0)
  | w, m :: ms =>
    if m < w.n ∧ (w.p m).st = .start then
      if (w.p m).refs = 0 then none
      else if e.look m = 0 then
        memberLookups e (w.mod m fun p => { p with st := .lookup, refs := p.refs + 1, look := p.look + 1 }) ms
      else some (w, e.look m)
    else memberLookups e w ms

/-- `__ldmsd_prdset_lookup_cb`, ldmsd_updtr.c:508-567: the answer to a lookup. -/
def lookupCb (e : Env) (w : W) (k : Nat) (ok : Bool) : Option W :=
  let w := w.mod k fun p => { p with look := p.look - 1 }
  if ok then
    if (w.p k).found then none
    else
      let w1 := w.mod k fun p => { p with found := true }
      match (w.p k).mem with
      | some ms => match memberLookups e w1 ms.reverse with
        | some (w2, 0) => put (w2.mod k fun p => { p with st := .ready }) k
        | some (w2, _) => put w2 k
        | none => none
      | none => put (w1.mod k fun p => { p with st := .ready }) k
  else put (w.mod k fun p => { p with st := .start }) k

/-- `updtr_update_cb`, ldmsd_updtr.c:214-289: the last answer to an update, and whether it is an error. -/
def updateCb (w : W) (k : Nat) (ok : Bool) : Option W :=
  let w := w.mod k fun p => { p with upd := p.upd - 1 }
  put (if ok then w.mod k fun p => { p with st := .ready } else w) k

end Verif.SetGroup
