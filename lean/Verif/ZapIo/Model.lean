/-!
# Completions of sends, reads and writes on a socket endpoint

Models the queues of `lib/src/zap/sock/zap_sock.c`: `io_q` (operations of the application), `sq` (work
requests to write), `io_cq` (finished sends), the response handlers and the teardown in `sock_event`.

The byte stream is abstracted by `Verif/ZapFrame`: a work request is either not completely written, or
its message is on the way to the peer, and messages arrive whole and in order.  The peer runs the same
code.  Every step is one section of the code under `ep.lock`.  Simplifications: allocation does not
fail; maps passed to `zap_read`/`zap_write` are valid; the endpoint starts connected; the check of the
local map in `process_sep_msg_read_resp` succeeds, as it did when the read was posted.
-/

namespace Verif.ZapIo

/-- `io->comp_type` -/
inductive Kind where
  | send
  | sendMapped
  | read
  | write
deriving DecidableEq

/-- reads and writes are completed by a response of the peer, sends by the socket -/
def Kind.rdma : Kind → Bool
  | .read => true
  | .write => true
  | _ => false

/-- `struct z_sock_io`, zap_sock.h:259-267.  `id` stands for its address, unique in the history. -/
structure Io where
  id : Nat
  kind : Kind
  ctxt : Nat
  xid : Nat
deriving DecidableEq

/-- `struct z_sock_send_wr_s`, zap_sock.h:243-252: the operation it belongs to (`none` for a message
that is not an operation of the application, such as a response), and the id in its header -/
structure Wr where
  io : Option (Nat × Kind × Nat)
  xid : Nat
deriving DecidableEq

/-- A message on the way.  `tag` is no part of the message: it names the operation, for the theorems. -/
inductive Msg where
  | req (tag : Nat) (kind : Kind) (xid ctxt : Nat)
  | resp (tag : Nat) (kind : Kind) (xid ctxt status : Nat)
  | other
deriving DecidableEq

/-- status of a completion event -/
inductive St where
  /-- the status in the response, or `ZAP_ERR_OK` for a send -/
  | done (status : Nat)
  /-- `ZAP_ERR_FLUSH` -/
  | flush
deriving DecidableEq

/-- an event delivered to the application -/
inductive Event where
  | comp (id : Nat) (kind : Kind) (ctxt : Nat) (st : St)
  | disconnected
deriving DecidableEq

/-- the endpoint states a connected endpoint goes through -/
inductive EpSt where
  | connected
  | peerClose
  | close
deriving DecidableEq

/-- where the io thread is: serving the endpoint, inside `sock_event`, or done with it -/
inductive Phase where
  | live
  | dying
  | down
deriving DecidableEq

/-- The endpoint, the two directions of its connection, and what can be seen: the operations whose
call returned `ZAP_ERR_OK`, the events delivered, the answers the peer gave, and the operations whose
message has been handed to the socket completely. -/
structure S where
  st : EpSt
  phase : Phase
  ioq : List Io
  iocq : List Io
  sq : List Wr
  out : List Msg
  inn : List Msg
  next : Nat
  accepted : List (Nat × Kind × Nat)
  log : List Event
  answers : List (Nat × Nat)
  wrote : List Nat
deriving DecidableEq

/-- a connected endpoint -/
def init : S := ⟨.connected, .live, [], [], [], [], [], 0, [], [], [], []⟩

/-- `z_sock_send2` (zap_sock.c:1807-1854), `z_sock_send_mapped` (1867-1923), `z_sock_read` (2128-2191),
`z_sock_write` (2193-2256): refused unless connected; otherwise the operation goes to the end of `io_q`
and its work request to the end of `sq`.  (The call of `sock_write` in `__wr_post` is the event
`written`.)  `io->xid` is zero until the request is written (`calloc`). -/
def post (s : S) (k : Kind) (ctxt xid : Nat) : S :=
  if s.st = .connected then
    { s with
      ioq := s.ioq ++ [⟨s.next, k, ctxt, 0⟩],
      sq := s.sq ++ [⟨some (s.next, k, ctxt), xid⟩],
      next := s.next + 1,
      accepted := s.accepted ++ [(s.next, k, ctxt)] }
  else s

/-- the message of a work request -/
def Wr.msg (w : Wr) : Msg :=
  match w.io with
  | some (id, k, ctxt) => if k.rdma then .req id k w.xid ctxt else .other
  | none => .other

/-- `sock_write`, zap_sock.c:1291-1308: the first work request has been written completely.  It leaves
`sq`; a send moves from `io_q` (`TAILQ_REMOVE`, wherever it is) to `io_cq`; a read or write notes its
id.  A dead socket writes nothing. -/
def written (s : S) : S :=
  if s.phase = .live then
    match s.sq with
    | [] => s
    | w :: q =>
      match w.io with
      | none => { s with sq := q, out := s.out ++ [w.msg] }
      | some (id, k, _) =>
        if k.rdma then
          { s with
            wrote := s.wrote ++ [id], sq := q, out := s.out ++ [w.msg],
            ioq := s.ioq.map (fun io => if io.id = id then { io with xid := w.xid } else io) }
        else
          { s with
            wrote := s.wrote ++ [id], sq := q, out := s.out ++ [w.msg],
            ioq := s.ioq.filter (fun io => io.id ≠ id),
            iocq := s.iocq ++ s.ioq.filter (fun io => io.id = id) }
  else s

/-- One round of `sock_send_complete`, zap_sock.c:1219-1235; runs on `EPOLLOUT` and in `sock_event`
(1623), in both cases in the io thread. -/
def complete (s : S) : S :=
  if s.phase = .down then s
  else
    match s.iocq with
    | [] => s
    | io :: q => { s with iocq := q, log := s.log ++ [.comp io.id io.kind io.ctxt (.done 0)] }

/-- The peer handles the next message: `process_sep_msg_read_req` (zap_sock.c:620-668) and
`process_sep_msg_write_req` (775-819).  The response carries the id and context of the request; an id
of zero is replaced by a fresh one (`z_sock_hdr_init`, 757-770). -/
def peer (s : S) (status fresh : Nat) : S :=
  match s.out with
  | [] => s
  | .req tag k xid ctxt :: q =>
    { s with
      out := q, inn := s.inn ++ [.resp tag k (if xid = 0 then fresh else xid) ctxt status],
      answers := s.answers ++ [(tag, status)] }
  | _ :: q => { s with out := q }

/-- The next message is handled: `process_sep_msg_read_resp` (zap_sock.c:703-755) and
`process_sep_msg_write_resp` (824-852) take the first operation of `io_q`; the event has the type of the
response and the context in the response.  `none`: the queue is empty (null pointer), or the
assertion on the context fails.  Outside the connected state nothing is handled (1374-1391). -/
def recv (s : S) : Option S :=
  if s.st = .connected ∧ s.phase = .live then
    match s.inn with
    | [] => some s
    | .resp _ k _ ctxt status :: q =>
      match s.ioq with
      | [] => none
      | io :: r =>
        if io.ctxt = ctxt then
          some { s with inn := q, ioq := r, log := s.log ++ [.comp io.id k ctxt (.done status)] }
        else none
    | _ :: q => some { s with inn := q }
  else some s

/-- `EPOLLHUP` or `EPOLLERR`: `sock_event` starts, zap_sock.c:1612-1621. -/
def hup (s : S) : S := if s.phase = .live then { s with phase := .dying } else s

/-- The rest of `sock_event`, one section under the lock at a time: after the finished sends
(`complete`), each operation in `io_q` is completed with `ZAP_ERR_FLUSH` (zap_sock.c:1626-1640), then
the state changes and `ZAP_EVENT_DISCONNECTED` is delivered (1655-1661, 1674-1676). -/
def teardown (s : S) : S :=
  if s.phase = .dying ∧ s.iocq = [] then
    match s.ioq with
    | io :: q => { s with ioq := q, log := s.log ++ [.comp io.id io.kind io.ctxt .flush] }
    | [] =>
      { s with
        phase := .down,
        st := if s.st = .connected then .peerClose else s.st,
        log := s.log ++ [.disconnected] }
  else s

/-- `z_sock_close`, zap_sock.c:274-307, and `process_sep_read_error`, 447-454.  In a thread of the
application it waits until `sq` is empty, so the event has no effect before that (`inCb` is false). -/
def close (s : S) (inCb : Bool) : S :=
  if inCb = false ∧ s.sq ≠ [] then s else { s with st := .close }

/-- what may happen, in any order -/
inductive Ev where
  | post (k : Kind) (ctxt xid : Nat)
  /-- a message of this endpoint that is not an operation of the application -/
  | postOther
  | written
  | complete
  | peer (status fresh : Nat)
  /-- the peer sends something of its own -/
  | peerOther
  | recv
  | hup
  | teardown
  | close (inCb : Bool)
deriving DecidableEq

/-- one event; `none` is a crash -/
def step (s : S) : Ev → Option S
  | .post k ctxt xid => some (post s k ctxt xid)
  | .postOther => some { s with sq := s.sq ++ [⟨none, 1⟩] }
  | .written => some (written s)
  | .complete => some (complete s)
  | .peer status fresh => some (peer s status fresh)
  | .peerOther => some { s with inn := s.inn ++ [.other] }
  | .recv => recv s
  | .hup => some (hup s)
  | .teardown => some (teardown s)
  | .close inCb => some (close s inCb)

/-- a history -/
def run (s : S) : List Ev → Option S
  | [] => some s
  | e :: es => (step s e).bind (fun s' => run s' es)

end Verif.ZapIo
