/-!
# Model: the table of requests in progress

`msg_tree` of ldms/src/ldmsd/ldmsd_request.c and what is done with it: records of requests
and of responses, and the end of a connection.  The bytes of a message are a parameter;
gathering them is modelled in MsgBuf, checking them in ReqAttr.  Allocation does not fail.
A record and what follows from it is one step.
-/

namespace Verif.ReqTab

/-- `REQ_CTXT_KEY_F_*`, ldmsd_request.c:160-162. -/
inductive Kind
  | file
  | rem
  | loc
  deriving DecidableEq

def Kind.num : Kind → Int
  | .file => 1
  | .rem => 2
  | .loc => 3

/-- `struct req_ctxt_key`, ldmsd_request.h:293-297. -/
structure Key where
  kind : Kind
  conn : Nat
  msg : Nat
  deriving DecidableEq

/-- Assignment to an `int`. -/
def toInt (x : Int) : Int := (x + 2 ^ 31) % 2 ^ 32 - 2 ^ 31

/-- `msg_comparator`, ldmsd_request.c:164-177. -/
def cmp (a b : Key) : Int :=
  if a.kind.num - b.kind.num ≠ 0 then a.kind.num - b.kind.num
  else if toInt ((a.conn : Int) - b.conn) ≠ 0 then toInt ((a.conn : Int) - b.conn)
  else toInt ((a.msg : Int) - b.msg)

variable {α : Type}

/-- `struct ldmsd_req_ctxt`, ldmsd_request.h:339ff; `id` is its address, `org` that of the
request for which it was sent (`rcmd->org_reqc`), `host` says that the message in its buffer
has been converted to host order. -/
structure Ctx (α : Type) where
  id : Nat
  key : Key
  buf : List α
  refs : Nat
  org : Option Nat
  host : Bool

/-- The tree, the next address and the number of the next message (`ldmsd_msg_no_get`,
ldmsd_request_util.c:1162-1166). -/
structure St (α : Type) where
  tab : List (Ctx α)
  next : Nat
  msgNo : Nat

def init : St α := ⟨[], 0, 1⟩

/-- A record: `LDMSD_REQ_SOM_F`, `LDMSD_REQ_EOM_F`, the number and what follows the header. -/
structure Rec (α : Type) where
  marker : Bool
  som : Bool
  eom : Bool
  msg : Nat
  body : List α

/-- What is to be seen. -/
inductive Out (α : Type)
  /-- the reply to a record without marker -/
  | noMarker (kind : Kind) (conn : Nat)
  /-- `ldmsd_send_error_reply` -/
  | error (k : Key) (code : Nat)
  /-- `ldmsd_handle_request` is called with this message -/
  | handled (k : Key) (text : List α)
  /-- it is called with a message that was handled before, converted twice -/
  | garbled (k : Key)
  /-- a message with number `msg` is sent on `conn` for the request `k` -/
  | forward (k : Key) (conn msg : Nat)
  /-- the response with this number is passed on to the request `k` -/
  | toOrg (conn msg : Nat) (k : Key) (text : List α)
  /-- the response to a request the daemon made itself -/
  | toSelf (conn msg : Nat) (text : List α)
  /-- memory that was freed is used -/
  | useAfterFree
  deriving DecidableEq

/-- `find_req_ctxt`, ldmsd_request.c:725-732: a key of which `cmp` says it is the same. -/
def find (s : St α) (k : Key) : Option (Ctx α) := s.tab.find? fun c => cmp c.key k = 0

/-- Change of a context. -/
def update (s : St α) (id : Nat) (f : Ctx α → Ctx α) : St α :=
  { s with tab := s.tab.map fun c => if c.id = id then f c else c }

/-- `req_ctxt_ref_put`, ldmsd_request.c:754-759, and `__free_req_ctxt`, 735-746. -/
def put (s : St α) (id : Nat) : St α :=
  { s with tab := s.tab.filterMap fun c =>
      if c.id = id then (if c.refs ≤ 1 then none else some { c with refs := c.refs - 1 }) else some c }

/-- `alloc_req_ctxt`, ldmsd_request.c:766-797. -/
def alloc (s : St α) (k : Key) (org : Option Nat) : St α :=
  { s with tab := ⟨s.next, k, [], 1, org, false⟩ :: s.tab, next := s.next + 1 }

/-- `alloc_req_cmd_ctxt`, ldmsd_request.c:816-857. -/
def ask (s : St α) (conn : Nat) (org : Option Nat) : St α :=
  let s1 := match org with
    | some o => update s o fun c => { c with refs := c.refs + 1 }
    | none => s
  { alloc s1 ⟨.loc, conn, s.msgNo⟩ org with msgNo := (s.msgNo + 1) % 2 ^ 32 }

/-- A handler that sends requests on other connections for the request `k`. -/
def forwards (k : Key) (id : Nat) : List Nat → St α → St α × List (Out α)
  | [], s => (s, [])
  | d :: ds, s =>
    let r := forwards k id ds (ask s d (some id))
    (r.1, .forward k d s.msgNo :: r.2)

/-- What happens. -/
inductive Ev (α : Type)
  /-- a record of a request; its handler sends requests on these connections -/
  | recv (kind : Kind) (conn : Nat) (r : Rec α) (fwd : List Nat)
  /-- the daemon sends a request of its own -/
  | own (conn : Nat)
  /-- a record of a response -/
  | resp (conn : Nat) (r : Rec α)
  /-- the connection ends -/
  | term (conn : Nat)

/-- `ldmsd_msg_gather` and the rest, ldmsd_request.c:1309-1351.  A message that is not valid
gets a reply with error 0 and stays. -/
def gather (valid : List α → Bool) (s : St α) (c : Ctx α) (r : Rec α) (fwd : List Nat) : St α × List (Out α) :=
  let buf := c.buf ++ r.body
  let s1 := update s c.id fun c => { c with buf := buf }
  if r.eom = false then (s1, [])
  else if valid buf = false then (s1, [.error c.key 0])
  else
    let s2 := update s1 c.id fun c => { c with host := true }
    let q := forwards c.key c.id fwd s2
    (put q.1 c.id, (if c.host then .garbled c.key else .handled c.key buf) :: q.2)

/-- `ldmsd_process_config_request`, ldmsd_request.c:1241-1363; `EADDRINUSE` is 98, `ENOENT` 2. -/
def recv (valid : List α → Bool) (s : St α) (kind : Kind) (conn : Nat) (r : Rec α) (fwd : List Nat) :
    St α × List (Out α) :=
  let k : Key := ⟨kind, conn, r.msg⟩
  if r.marker = false then (s, [.noMarker kind conn])
  else if r.som then
    match find s k with
    | some _ => (s, [.error k 98])
    | none =>
      gather valid (alloc s k none) ⟨s.next, k, [], 1, none, false⟩ r fwd
  else
    match find s k with
    | none => (s, [.error k 2])
    | some c => gather valid s c r fwd

/-- `ldmsd_process_config_response`, ldmsd_request.c:1368-1443, with `free_req_cmd_ctxt`, 875-884. -/
def resp (valid : List α → Bool) (s : St α) (conn : Nat) (r : Rec α) : St α × List (Out α) :=
  if r.marker = false then (s, [])
  else
    match find s ⟨.loc, conn, r.msg⟩ with
    | none => (s, [])
    | some c =>
      let buf := c.buf ++ r.body
      let s1 := update s c.id fun c => { c with buf := buf }
      if r.eom = false then (s1, [])
      else if valid buf = false then (s1, [])
      else
        match c.org with
        | none => (put s1 c.id, [.toSelf conn r.msg buf])
        | some o =>
          match s.tab.find? fun x => x.id = o with
          | none => (s1, [.useAfterFree])
          | some x => (put (put s1 o) c.id, [.toOrg conn r.msg x.key buf])

/-- `ldmsd_xprt_term`, ldmsd_request.c:8157-8194. -/
def term (s : St α) (conn : Nat) : St α := { s with tab := s.tab.filter fun c => c.key.conn ≠ conn }

def step (valid : List α → Bool) (s : St α) : Ev α → St α × List (Out α)
  | .recv kind conn r fwd => recv valid s kind conn r fwd
  | .own conn => (ask s conn none, [])
  | .resp conn r => resp valid s conn r
  | .term conn => (term s conn, [])

/-- A history. -/
def run (valid : List α → Bool) : St α → List (Ev α) → St α × List (Out α)
  | s, [] => (s, [])
  | s, e :: es =>
    let p := step valid s e
    let q := run valid p.1 es
    (q.1, p.2 ++ q.2)

end Verif.ReqTab
