/-!
# Model: deletion of a set that peers have looked up

`ldms/src/core/ldms.c` (`__ldms_set_delete`, `delete_proc`, `__destroy_set`) and
`ldms/src/core/ldms_xprt.c` (`ldms_xprt_set_delete`, `process_set_delete_request`,
`process_set_delete_reply`, `__add_lookup_peer`, `__ldms_xprt_release_sets`): one set of a process, its
connections, and what the processes at the other ends see.  Each step is what one thread does under one
lock.  Simplifications: a lookup is answered at once; trees ordered by address are in the order of the list
of connections; no failure of allocation.
-/

namespace Verif.SetDel

/-- A connection: usable, lost while the event was not handled yet, or finished (`ldms_zap_cb` done). -/
inductive Net
  | up
  | down
  | gone
  deriving DecidableEq, Repr

structure C where
  /-- the process at the other end -/
  peer : Nat
  net : Net
  /-- `remote_dir_xid`: it asked for changes of the directory -/
  dir : Bool
  /-- a lookup over this connection found the set and is about to share it -/
  found : Bool
  /-- in `set->lookup_coll` -/
  look : Bool
  /-- in `set->push_coll` -/
  push : Bool
  /-- the set is in `x->set_coll`, with a reference -/
  coll : Bool
  /-- `__ldms_dir_del_set` has still to come to this connection -/
  tell : Bool
  /-- the context of the request that was sent, and its `lookup` -/
  ctx : Option Bool
  /-- `set_delete.s` of that context is not NULL: a reference -/
  ctxSet : Bool
  /-- the request or the reply is on its way -/
  req : Bool
  rep : Bool
  /-- the other process has a copy of the set from this connection -/
  copy : Bool
  /-- times the program there was told of the deletion over this connection -/
  told : Nat
  /-- history: it got access to the memory over this connection -/
  looked : Bool
  /-- history: it had to be told of the deletion, since it was connected and had asked for changes -/
  due : Bool
  /-- history: the request could not be sent -/
  failed : Bool
  /-- history: it answered -/
  answered : Bool
  /-- history: a reference to the set was dropped from the tables without being given back -/
  lost : Bool
  deriving DecidableEq, Repr

def C.new (peer : Nat) : C :=
  ⟨peer, .up, false, false, false, false, false, false, none, false, false, false, false, 0, false, false, false, false, false⟩

structure W where
  conns : List C
  /-- the time of the deletion -/
  del : Option Nat
  /-- the reference of the creation was dropped -/
  ended : Bool
  refs : Nat
  freed : Bool
  /-- references that the program holds from lookups by name -/
  users : Nat
  now : Nat
  deriving DecidableEq, Repr

def init : W := ⟨[], none, false, 1, false, 0, 0⟩

inductive Res
  | ok (w : W)
  /-- the set is used after it was given back -/
  | crash
  /-- an endless loop with the lock held -/
  | hang
  deriving DecidableEq, Repr

/-- `ref_get` -/
def W.get (w : W) : Res := if w.freed then .crash else .ok { w with refs := w.refs + 1 }

/-- `ref_put`, and `__destroy_set` at 0, ldms.c:868-873 -/
def W.put (w : W) : Res :=
  if w.freed then .crash else .ok { w with refs := w.refs - 1, freed := decide (w.refs - 1 = 0) }

def Res.bind : Res → (W → Res) → Res
  | .ok w, f => f w
  | .crash, _ => .crash
  | .hang, _ => .hang

def W.mod (w : W) (i : Nat) (f : C → C) : W := { w with conns := w.conns.modify i f }

inductive Ev
  | connect (peer : Nat)
  | dir (i : Nat) (on : Bool)
  | find (i : Nat)
  | enlist (i : Nat)
  | notify (i : Nat)
  | cancelNotify (i : Nat)
  | regPush (i : Nat)
  | cancelPush (i : Nat)
  | userGet
  | userPut
  | del
  | tell (i : Nat) (sent : Bool)
  | delEnd
  | recvReq (i : Nat)
  | peerDrop (i : Nat)
  | recvRep (i : Nat)
  | drop (i : Nat)
  | disc (i : Nat)
  | tick
  | reap
  deriving DecidableEq, Repr

/-- The set goes into `x->set_coll`, unless it is there, ldms_xprt.c:1060-1073, 1257-1281, 2784-2799. -/
def enColl (w : W) (i : Nat) (c : C) : Res :=
  if c.coll then .ok w else w.get.bind fun w => .ok (w.mod i fun c => { c with coll := true })

/-- `delete_proc`, ldms.c:3789-3943, for the set when it is old enough: peers in `lookup_coll` first; the
loop over `push_coll` does not go on to the next one (3838-3847); what is left is cleaned and the set given
back whatever its reference count. -/
def reapSet (w : W) : Res :=
  if w.conns.any fun c => c.look && decide (c.net = .up) then .ok w
  else match w.conns.find? fun c => c.push with
    | some c => if c.net = .up then .ok w else .hang
    | none => .ok { w with conns := w.conns.map fun c => if c.look then { c with look := false, ctxSet := false } else c, freed := true }

/-- One step; `to` is `LDMS_DELETE_TIMEOUT`, 3799-3802.  Steps that cannot happen do nothing. -/
def step (to : Nat) (w : W) (e : Ev) : Res :=
  match e with
  | .connect p => .ok { w with conns := w.conns ++ [C.new p] }
  /- `process_dir_request`, ldms_xprt.c:810-816, `process_dir_cancel_request`, 984-987 -/
  | .dir i on => match w.conns[i]? with
    | some c => if c.net = .up then .ok (w.mod i fun c => { c with dir := on }) else .ok w
    | none => .ok w
  /- `process_lookup_request_re`, 1444-1450: the set is found, and a reference taken -/
  | .find i => match w.conns[i]? with
    | some c => if c.net = .up ∧ c.found = false ∧ w.del = none then
        w.get.bind fun w => .ok (w.mod i fun c => { c with found := true })
      else .ok w
    | none => .ok w
  /- 1451-1452: `__send_lookup_reply`, `__add_lookup_peer` (1220-1293), `ref_put` -/
  | .enlist i => match w.conns[i]? with
    | some c => if c.found = true then
        if c.net = .up then
          (if c.look then .ok w else enColl (w.mod i fun c => { c with look := true }) i c).bind fun w =>
            (w.mod i fun c => { c with found := false, copy := true, looked := true }).put
        else (w.mod i fun c => { c with found := false }).put
      else .ok w
    | none => .ok w
  /- `process_req_notify_request`, 1024-1076 -/
  | .notify i => match w.conns[i]? with
    | some c => if c.net = .up ∧ w.del = none ∧ c.look = false then
        enColl (w.mod i fun c => { c with look := true }) i c
      else .ok w
    | none => .ok w
  /- `process_cancel_notify_request`, 1078-1100 -/
  | .cancelNotify i => match w.conns[i]? with
    | some c => if c.net = .up ∧ w.del = none then .ok (w.mod i fun c => { c with look := false }) else .ok w
    | none => .ok w
  /- `handle_rendezvous_push`, 2742-2803 -/
  | .regPush i => match w.conns[i]? with
    | some c => if c.net = .up ∧ w.del = none ∧ c.copy = true ∧ c.push = false then
        enColl (w.mod i fun c => { c with push := true }) i c
      else .ok w
    | none => .ok w
  /- `process_cancel_push_request`, 1102-1117 -/
  | .cancelPush i => match w.conns[i]? with
    | some c => if c.net = .up ∧ w.del = none then .ok (w.mod i fun c => { c with push := false }) else .ok w
    | none => .ok w
  | .userGet => if w.del = none then w.get.bind fun w => .ok { w with users := w.users + 1 } else .ok w
  | .userPut => if w.users = 0 then .ok w else ({ w with users := w.users - 1 } : W).put
  /- `__ldms_set_delete`, ldms.c:880-915: out of the trees, the time, and the list of connections -/
  | .del => if w.del = none then
      .ok { w with del := some w.now, conns := w.conns.map fun c => { c with tell := true } }
    else .ok w
  /- `__ldms_dir_del_set` for one connection, ldms_xprt.c:627-630, `ldms_xprt_set_delete`, 3843-3895 -/
  | .tell i sent => match w.conns[i]? with
    | some c => if c.tell = true then
        if c.dir = true ∧ c.net = .up then
          w.get.bind fun w =>
            if sent then .ok (w.mod i fun c =>
              { c with tell := false, due := true, ctx := some c.coll, ctxSet := true, coll := false, req := true })
            else (w.mod i fun c => { c with tell := false, due := true, failed := true, coll := false, lost := c.lost || c.coll }).put
        else .ok (w.mod i fun c => { c with tell := false })
      else .ok w
    | none => .ok w
  /- ldms.c:922-923: the reference of the creation -/
  | .delEnd => if w.del ≠ none ∧ w.ended = false ∧ (w.conns.all fun c => !c.tell) then
      ({ w with ended := true } : W).put
    else .ok w
  /- `process_set_delete_request`, ldms_xprt.c:735-775, at the other end: a copy from another connection
     makes it skip the program -/
  | .recvReq i => match w.conns[i]? with
    | some c => if c.req = true ∧ c.net = .up then
        .ok (w.mod i fun c => { c with
          req := false, rep := true, answered := true,
          told := if !c.copy && w.conns.any (fun d => decide (d.peer = c.peer) && d.copy) then c.told else c.told + 1 })
      else .ok w
    | none => .ok w
  /- the other end deletes its copy -/
  | .peerDrop i => .ok (w.mod i fun c => { c with copy := false })
  /- `process_set_delete_reply`, 777-785, `__set_delete_cb`, 598-609, `__ldms_free_ctxt`, 425-429 -/
  | .recvRep i => match w.conns[i]? with
    | some c => if c.rep = true ∧ c.net = .up ∧ c.found = false then
        (match c.ctx with
          | some true => if c.ctxSet then w.put else .crash
          | _ => .ok w).bind fun w =>
          (if c.ctxSet then w.put else .ok w).bind fun w =>
            .ok (w.mod i fun c => { c with rep := false, ctx := none, ctxSet := false })
      else .ok w
    | none => .ok w
  | .drop i => match w.conns[i]? with
    | some c => if c.net = .up then .ok (w.mod i fun c => { c with net := .down, req := false, rep := false }) else .ok w
    | none => .ok w
  /- `ldms_zap_cb` for the loss, 3045-3078, `__ldms_xprt_release_sets`, 2861-2898, `__ldms_xprt_resource_free`, 651-702 -/
  | .disc i => match w.conns[i]? with
    | some c => if c.net = .down ∧ c.found = false then
        (if c.coll then
          if w.freed then .crash else (w.mod i fun c => { c with look := false, push := false, coll := false }).put
        else .ok w).bind fun w =>
          (if c.ctxSet then w.put else .ok w).bind fun w =>
            .ok (w.mod i fun c => { c with
              net := .gone, dir := false, ctx := none, ctxSet := false,
              lost := c.lost || decide (c.ctx = some true) })
      else .ok w
    | none => .ok w
  | .tick => .ok { w with now := w.now + 1 }
  | .reap => match w.del with
    | none => .ok w
    | some t => if w.freed = true ∨ w.now - t < to then .ok w else reapSet w

/-- The transport structure is given back when the connection is finished and no set has it in its
collections (each holds a reference, `ldms_xprt_get`, ldms_xprt.c:1052, 1250, 2776). -/
def C.released (c : C) : Bool := decide (c.net = .gone) && !c.look && !c.push

end Verif.SetDel
