/-!
# Life of a socket endpoint

Models connection setup and teardown in `lib/src/zap/sock/zap_sock.c`: the states of an endpoint, the
messages that drive it and the events delivered to the application.  Messages arrive whole and in order
(`Verif/ZapFrame`).  Data transfer within a connection (`Verif/ZapIo`, `Verif/ZapRdma`) is reduced to
`data` (a message for the application) and `other` (no event of the life cycle).  Simplifications: each
step is atomic; sends of control messages do not fail except in `accept`; memory does not run out.
-/

namespace Verif.ZapEp

/-- `zap_ep_state_t`, zap.h; a listening endpoint is not modelled -/
inductive St where
  | init
  | accepting
  | connecting
  | connected
  | peerClose
  | close
  | error
deriving DecidableEq

/-- messages, by what they do to an endpoint -/
inductive Msg where
  /-- `CONNECT` with the right version and signature, or not -/
  | connect (good : Bool)
  | accepted
  | rejected
  | ack
  | data
  /-- reads, writes, responses and shares -/
  | other
  /-- an unknown type -/
  | junk
deriving DecidableEq

/-- events delivered to the application -/
inductive Event where
  | connectRequest
  | connected
  | rejected
  | recv
  | connectError
  | disconnected
deriving DecidableEq

/-- An endpoint.  `thread`: an io thread is assigned.  `reg`: its socket is in an epoll set.  `busy`: the
thread of the listener, lent for the connect message, is still handling this endpoint.  `acc`:
`app_accepted`.  `refs`: references named "accept/connect".  `ask`: a connect request has been delivered
and the application has not answered it.  `gone`: rejected and freed by the application. -/
structure Ep where
  st : St
  thread : Bool
  reg : Bool
  busy : Bool
  acc : Bool
  up : Bool
  refs : Nat
  ask : Bool
  gone : Bool
  log : List Event
deriving DecidableEq

/-- `zap_new` -/
def newActive : Ep := ⟨.init, false, false, false, false, false, 0, false, false, []⟩

/-- `__z_sock_conn_request`, zap_sock.c:1686-1731: a connection arrives at a listener.  The new endpoint
has no thread of its own; its socket is in the epoll set of the listener's thread. -/
def newPassive : Ep := ⟨.accepting, false, true, false, false, true, 1, false, false, []⟩

/-- how `z_sock_accept` may go: fine, no thread could be assigned, or the send failed -/
inductive AccRes where
  | ok
  | noThread
  | noSend
deriving DecidableEq

/-- `z_sock_connect`, zap_sock.c:380-442; `ok`: the system calls succeed.  On any error, also when the
endpoint is not new, the socket is closed, which takes it out of the epoll set (label `err1`). -/
def connect (e : Ep) (ok : Bool) : Ep :=
  if e.st = .init then
    if ok then { e with st := .connecting, thread := true, reg := true, refs := e.refs + 1 }
    else { e with st := .connecting }
  else { e with reg := false }

/-- The first `EPOLLOUT` of a connecting endpoint: `sock_ev_cb` (zap_sock.c:1158-1168) and
`sock_connect` (1200-1216) send `CONNECT`. -/
def sockUp (e : Ep) : Ep × List Msg :=
  if e.reg ∧ e.st = .connecting ∧ e.up = false then ({ e with up := true }, [.connect true])
  else (e, [])

/-- `process_sep_read_error`, zap_sock.c:447-454 -/
def readError (e : Ep) : Ep := if e.st = .connected then { e with st := .close } else e

/-- One message: `sock_read`, zap_sock.c:1343-1423, with the handlers 459-615.  The second component is
what the endpoint sends. -/
def recvMsg (e : Ep) (m : Msg) : Ep × List Msg :=
  match e.st with
  | .accepting =>
    /- without a thread: return the borrowed one (1346-1353) -/
    let e := if e.thread then e else { e with reg := false, busy := true }
    match m with
    | .connect true => ({ e with ask := true, log := e.log ++ [.connectRequest] }, [])
    | .connect false => (e, [])
    | .ack => ({ e with st := .connected, log := e.log ++ [.connected] }, [])
    | _ => (readError e, [])
  | .connecting =>
    match m with
    | .accepted => ({ e with st := .connected, log := e.log ++ [.connected] }, [.ack])
    | .rejected => ({ e with st := .error, log := e.log ++ [.rejected] }, [])
    | _ => (readError e, [])
  | .error => (readError e, [])
  | .connected =>
    match m with
    | .connect true => ({ e with ask := true, log := e.log ++ [.connectRequest] }, [])
    | .accepted => (e, [.ack])
    | .data => ({ e with log := e.log ++ [.recv] }, [])
    | .junk => (readError e, [])
    | _ => (e, [])
  | _ => (e, [])

/-- a message is handled only while the socket is in an epoll set -/
def msg (e : Ep) (m : Msg) : Ep × List Msg := if e.reg then recvMsg e m else (e, [])

/-- `sock_event`, zap_sock.c:1612-1684.  `none`: `zap_io_thread_ep_release` (zap.c:910-916) reads the
thread of an endpoint that has none, or a reference is dropped that is not held. -/
def sockEvent (e : Ep) : Option Ep :=
  if e.thread = false then none
  else
    let e := { e with reg := false }
    let put (e : Ep) : Option Ep := if e.refs = 0 then none else some { e with refs := e.refs - 1 }
    match e.st with
    | .accepting =>
      put { e with st := .error, log := if e.acc then e.log ++ [.connectError] else e.log }
    | .connecting => put { e with st := .error, log := e.log ++ [.connectError] }
    | .connected => put { e with st := .peerClose, log := e.log ++ [.disconnected] }
    | .close => put { e with log := e.log ++ [.disconnected] }
    | .error => put e
    | _ => some { e with st := .error }

/-- `EPOLLHUP` or `EPOLLERR`, zap_sock.c:1184-1192 -/
def hup (e : Ep) : Option Ep := if e.reg then sockEvent e else some e

/-- The lent thread comes back from `sock_read`, zap_sock.c:1172-1192: if the endpoint has got its own
thread it is left alone; otherwise an `EPOLLHUP` of the same event is handled.  (If the endpoint was
rejected, it is freed on leaving.) -/
def leave (e : Ep) (hup : Bool) : Option Ep :=
  if e.busy then
    if e.thread = false ∧ hup = true then sockEvent e else some { e with busy := false }
  else some e

/-- `z_sock_accept`, zap_sock.c:2020-2056, in answer to a connect request -/
def accept (e : Ep) (r : AccRes) : Ep × List Msg :=
  if e.ask then
    let e := { e with ask := false }
    if e.st ≠ .accepting then (e, [])
    else
      match r with
      | .ok => ({ e with thread := true, reg := true, acc := true }, [.accepted])
      | .noThread => ({ e with st := .error }, [])
      | .noSend => ({ e with st := .error, thread := true, reg := true }, [])
  else (e, [])

/-- `z_sock_reject`, zap_sock.c:2058-2074, in answer to a connect request: drops the reference of the
connection and that of `zap_new`, which frees the endpoint and closes its socket. -/
def reject (e : Ep) : Option (Ep × List Msg) :=
  if e.ask then
    if e.refs = 0 then none
    else
      some ({ e with ask := false, st := .error, refs := e.refs - 1, gone := true, reg := false },
        [.rejected])
  else some (e, [])

/-- `z_sock_close`, zap_sock.c:287-301 -/
def close (e : Ep) : Ep :=
  if e.gone then e
  else if e.st = .connected ∨ e.st = .peerClose then { e with st := .close } else e

/-- what may happen to an endpoint -/
inductive Inp where
  | connect (ok : Bool)
  | sockUp
  | msg (m : Msg)
  /-- the connection is found closed or broken while reading -/
  | readErr
  | hup
  | leave (hup : Bool)
  | accept (r : AccRes)
  | reject
  | close
deriving DecidableEq

/-- one input; the second component is what is sent; `none` is a crash -/
def step (e : Ep) : Inp → Option (Ep × List Msg)
  | .connect ok => some (connect e ok, [])
  | .sockUp => some (sockUp e)
  | .msg m => some (msg e m)
  | .readErr => some (if e.reg then readError e else e, [])
  | .hup => (hup e).map (fun e => (e, []))
  | .leave b => (leave e b).map (fun e => (e, []))
  | .accept r => some (accept e r)
  | .reject => reject e
  | .close => some (close e, [])

/-- a history of one endpoint, with everything it sent -/
def run (e : Ep) : List Inp → Option (Ep × List Msg)
  | [] => some (e, [])
  | i :: is => (step e i).bind (fun (e', o) => (run e' is).map (fun (e'', o') => (e'', o ++ o')))

/-! ### Two endpoints and their connection -/

/-- An active and a passive endpoint running this code, and the messages on the way. -/
structure World where
  a : Ep
  p : Ep
  toP : List Msg
  toA : List Msg
deriving DecidableEq

/-- one input at one side, or the delivery of the next message, or a send by the application, which is
refused unless connected (`z_sock_send2`, zap_sock.c:1814-1817) -/
inductive WInp where
  | atA (i : Inp)
  | atP (i : Inp)
  | deliverA
  | deliverP
  | sendA
  | sendP
deriving DecidableEq

/-- inputs of the network are produced by the world, not by `atA`/`atP` -/
def Inp.isMsg : Inp → Bool
  | .msg _ => true
  | _ => false

/-- One step of the pair.  A message is taken from the channel only when the endpoint would read it. -/
def wstep (w : World) : WInp → Option World
  | .atA i =>
    if i.isMsg then some w
    else (step w.a i).map (fun (e, o) => ⟨e, w.p, w.toP ++ o, w.toA⟩)
  | .atP i =>
    if i.isMsg then some w
    else (step w.p i).map (fun (e, o) => ⟨w.a, e, w.toP, w.toA ++ o⟩)
  | .deliverA =>
    match w.toA with
    | m :: q => if w.a.reg then
        (step w.a (.msg m)).map (fun (e, o) => ⟨e, w.p, w.toP ++ o, q⟩) else some w
    | [] => some w
  | .deliverP =>
    match w.toP with
    | m :: q => if w.p.reg then
        (step w.p (.msg m)).map (fun (e, o) => ⟨w.a, e, q, w.toA ++ o⟩) else some w
    | [] => some w
  | .sendA => some (if w.a.st = .connected then { w with toP := w.toP ++ [.data] } else w)
  | .sendP => some (if w.p.st = .connected then { w with toA := w.toA ++ [.data] } else w)

/-- a history of the pair -/
def wrun (w : World) : List WInp → Option World
  | [] => some w
  | i :: is => (wstep w i).bind (fun w' => wrun w' is)

/-- before `zap_connect`; the passive endpoint stands for the one the listener creates -/
def world : World := ⟨newActive, newPassive, [], []⟩

end Verif.ZapEp
