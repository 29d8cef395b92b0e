import Verif.Common.Bytes

/-!
# Authentication of a transport

`ldms/src/core/ldms_xprt_auth.c`, the event handlers `ldms_zap_cb` and `ldms_zap_auto_cb`, the dispatch of
received messages in `ldms/src/core/ldms_xprt.c`, and the plugins `none`, `naive`, `ovis` and `munge` of
`ldms/src/auth`.  Bytes are natural numbers.  `none` as the result of a step stands for a failed `assert` or
an access outside of an object.
-/

namespace Verif.XprtAuth

/-- `auth_flag` (ldms_xprt.h:478-484).  `LDMS_XPRT_AUTH_DISABLE` is left out: no code sets it on a transport
that can connect (`ldms_xprt_new_with_auth`, ldms_xprt.c:3377; ldms_xprt.c:2319; ldms_rail.c:716 all set
`INIT`). -/
inductive Flag where
  | failed
  | init
  | busy
  | approved
  deriving Repr, DecidableEq

/-- the authentication plugins of ldms/src/auth -/
inductive Plugin where
  | none
  | naive
  | ovis
  | munge
  deriving Repr, DecidableEq

/-- events the application is told (`enum ldms_xprt_event_type`, ldms.h) -/
inductive App where
  | connected
  | rejected
  | error
  | disconnected
  /-- `LDMS_XPRT_EVENT_RECV` with the length the message claims and the bytes it has -/
  | recv (len : Nat) (data : List Nat)
  | setDelete
  | sendComplete
  deriving Repr, DecidableEq

/-- a message (`struct ldms_request`, ldms_xprt.h): the command as a signed 32-bit number, the claimed
`msg_len` and the bytes that follow, of the commands that have them -/
structure Msg where
  cmd : Int
  len : Nat
  body : List Nat
  deriving Repr, DecidableEq

/-- what does not change over the life of a transport: which end it is, whether its callback is `__rail_cb`,
its plugin, the `uid` and `gid` it claims (`naive`), the secret word, the digest
`ovis_auth_encrypt_password` (auth.c:243-286; a parameter), the MUNGE library (parameters: the credential of
this process, and the uid and gid a credential proves) -/
structure Cfg where
  active : Bool
  rail : Bool
  plugin : Plugin
  uid : Nat
  gid : Nat
  secret : List Nat
  H : Nat → List Nat → List Nat
  mungeCred : List Nat
  munge : List Nat → Option (Nat × Nat)

/-- `(uid_t)-1` (ldms_xprt.c:3282-3283) -/
def nobody : Nat := 4294967295

/-- a request or reply that reached its handler, and the remote uid and gid at that time, on which the access
checks of the handlers rest (`ldms_access_check`, ldms_xprt_auth.c:152-159) -/
structure Handled where
  cmd : Int
  uid : Nat
  gid : Nat
  deriving Repr, DecidableEq

/-- the transport (`struct ldms_xprt`, ldms_xprt.h:440-540) as far as authentication goes.  `chal` is the
challenge this side issued (`ldms_auth_ovis::challenge`; the `hash` is its digest).  `sent`, `out`, `handled`
and `meets` record what was sent to the peer, told to the application, handled, and how many rendezvous were
handled, oldest first.  `term` is set when `__ldms_xprt_term` asked zap to close. -/
structure X where
  flag : Flag := .init
  chal : Option Nat := none
  ruid : Nat := nobody
  rgid : Nat := nobody
  term : Bool := false
  sent : List Msg := []
  out : List App := []
  handled : List Handled := []
  meets : Nat := 0
  deriving Repr, DecidableEq

/-- `LDMS_CMD_AUTH_MSG` (ldms_xprt.h:114-120) -/
def cmdAuth : Int := 6

/-- `LDMS_CMD_SEND_MSG` -/
def cmdSend : Int := 5

/-- `LDMS_CMD_SET_DELETE` -/
def cmdSetDelete : Int := 9

/-- `LDMS_CMD_REPLY` (ldms_xprt.h:131) -/
def cmdReply : Int := 256

/-- entries of `req2thrstat_op_tbl` (ldms_xprt.c:4321-4357): up to `LDMS_CMD_AUTH_REPLY` = 0x109 -/
def opTbl : Int := 266

/-- `ldms_xprt_auth_send` (ldms_xprt_auth.c:80-120): the message it builds -/
def authMsg (b : List Nat) : Msg := ⟨cmdAuth, b.length, b⟩

/-- `struct auth_ovis_msg_challenge` (ldms_auth_ovis.c:272-275): the type in host order (little-endian is
assumed) and the challenge -/
def ovisChal (c : Nat) : List Nat := [1, 0, 0, 0] ++ beBytes 8 c

/-- `struct auth_ovis_msg_reply` (ldms_auth_ovis.c:277-280) with the terminated digest -/
def ovisReply (h : List Nat) : List Nat := [2, 0, 0, 0] ++ h ++ [0]

/-- `struct naive_cred` (ldms_auth_naive.c:164-167) -/
def naiveCred (uid gid : Nat) : List Nat := beBytes 4 uid ++ beBytes 4 gid

/-- `strcmp(b, h) == 0` where `h` is a terminated string without zeros and `b` points into a buffer; `none`
when the comparison runs off the buffer -/
def strcmpEq : List Nat → List Nat → Option Bool
  | [], _ => none
  | b :: bs, h =>
    if b = 0 then some h.isEmpty
    else
      match h with
      | [] => some false
      | k :: ks => if b = k then strcmpEq bs ks else some false

/-- `ldms_xprt_auth_end` (ldms_xprt_auth.c:135-150) in state BUSY -/
def authEnd (x : X) (ok : Bool) : X :=
  if ok then { x with flag := .approved, out := x.out ++ [.connected] }
  else { x with flag := .failed, term := true }

/-- `ldms_xprt_auth_begin` (ldms_xprt_auth.c:122-133) with `auth_xprt_begin` of the plugin
(ldms_auth_none.c:111-120, ldms_auth_naive.c:170-178, ldms_auth_ovis.c:290-306, ldms_auth_munge.c:242-283).
`c` is the challenge drawn, `ok` whether `zap_send` took the message.  Failures of the digest, of
`ldms_xprt_sockaddr` and of `munge_encode` are not modelled. -/
def authBegin (g : Cfg) (x : X) (c : Nat) (ok : Bool) : X :=
  if x.flag ≠ .init then x
  else
    let x := { x with flag := .busy }
    match g.plugin with
    | .none => authEnd { x with ruid := 0, rgid := 0 } true
    | .naive =>
      if ok then { x with sent := x.sent ++ [authMsg (naiveCred g.uid g.gid)] } else { x with term := true }
    | .ovis =>
      let x := { x with chal := some c }
      if ok then { x with sent := x.sent ++ [authMsg (ovisChal c)] } else { x with term := true }
    | .munge =>
      if ok then { x with sent := x.sent ++ [authMsg (g.mungeCred ++ [0])] } else { x with term := true }

/-- the error path of `LDMS_CMD_AUTH_MSG` (ldms_xprt.c:1707-1711) -/
def authFail (x : X) : X := { x with flag := .failed, term := true }

/-- `process_auth_msg` (ldms_xprt.c:1013-1022) and its error path, with `auth_xprt_recv_cb` of the plugin
(ldms_auth_none.c:123-128, ldms_auth_naive.c:181-197, ldms_auth_ovis.c:309-366,
ldms_auth_munge.c:288-344).  `ok` tells whether `zap_send` takes an answer. -/
def recvAuth (g : Cfg) (x : X) (len : Nat) (b : List Nat) (ok : Bool) : Option X :=
  if x.flag ≠ .busy then some (authFail x)
  else
    match g.plugin with
    | .none => some x
    | .naive =>
      if len ≠ 8 then some (authFail x)
      else if b.length < 8 then none
      else some (authEnd { x with ruid := beVal (b.take 4), rgid := beVal ((b.drop 4).take 4) } true)
    | .ovis =>
      if b.length < 4 then none
      else if b.take 4 = [1, 0, 0, 0] then
        if b.length < 12 then none
        else if ok then
          some { x with sent := x.sent ++
            [authMsg (ovisReply (g.H (beVal ((b.drop 4).take 8)) g.secret))] }
        else some (authFail x)
      else if b.take 4 = [2, 0, 0, 0] then
        match b[(len + 4294967295) % 4294967296]? with
        | none => none
        | some z =>
          if z ≠ 0 then some (authFail x)
          else
            match x.chal with
            | none => none
            | some c =>
              match strcmpEq (b.drop 4) (g.H c g.secret) with
              | none => none
              | some true => some (authEnd { x with ruid := 0, rgid := 0 } true)
              | some false => some (authEnd x false)
      else some (authFail x)
    | .munge =>
      match g.munge b with
      | none => some (authEnd x false)
      | some (u, v) => some (authEnd { x with ruid := u, rgid := v } true)

/-- the commands `ldms_xprt_recv_request` has a case for, except `LDMS_CMD_AUTH_MSG`
(ldms_xprt.c:1682-1727) -/
def isRequest (cmd : Int) : Bool := [0, 1, 2, 3, 4, 5, 7, 9, 10, 11, 12, 13].contains cmd

/-- the handlers of requests and replies: that they ran, and for which peer.  `process_send_request`
(ldms_xprt.c:1001-1011) and `process_set_delete_request` (ldms_xprt.c:735-) call the application. -/
def handle (x : X) (m : Msg) : X :=
  let x := { x with handled := x.handled ++ [⟨m.cmd, x.ruid, x.rgid⟩] }
  if m.cmd = cmdSend then { x with out := x.out ++ [.recv m.len m.body] }
  else if m.cmd = cmdSetDelete then { x with out := x.out ++ [.setDelete] }
  else x

/-- `recv_cb` (ldms_xprt.c:2166-2195), `ldms_xprt_recv_request` (ldms_xprt.c:1673-1729) and
`ldms_xprt_recv_reply` (ldms_xprt.c:2124-2164): the operation table is read first, in both; an unknown
request fails an assertion, an unknown reply is logged. -/
def recv (g : Cfg) (x : X) (m : Msg) (ok : Bool) : Option X :=
  if m.cmd < 0 ∨ opTbl ≤ m.cmd then none
  else if cmdReply < m.cmd then some (handle x m)
  else if m.cmd = cmdAuth then recvAuth g x m.len m.body ok
  else if isRequest m.cmd then some (handle x m)
  else none

/-- what happens at a transport: zap events in the order they come, and calls of the application -/
inductive Ev where
  /-- `ZAP_EVENT_CONNECTED`; `verified` is the result of `__ldms_conn_msg_verify` at the active end -/
  | connected (verified : Bool) (c : Nat) (ok : Bool)
  | connectError
  | rejected
  | disconnected
  | recv (m : Msg) (ok : Bool)
  /-- `ZAP_EVENT_SEND_COMPLETE`, of a message of the application or of another one -/
  | sendComplete (app : Bool)
  | rendezvous
  /-- the application asks for an operation on the peer (send, dir, lookup, update) -/
  | ask (m : Msg)
  /-- the application closes the transport -/
  | close
  deriving Repr, DecidableEq

/-- the event `ZAP_EVENT_DISCONNECTED` is reported as (ldms_xprt.c:3029-3044) -/
def endEvent : Flag → App
  | .approved => .disconnected
  | .failed => .rejected
  | .init => .error
  | .busy => .error

/-- `ldms_zap_cb` (ldms_xprt.c:2917-3104) at the active end, `ldms_zap_auto_cb` (ldms_xprt.c:3106-3141) at
the passive one; `ask` is the guard of `__ldms_xprt_send`, `__ldms_remote_dir`, `__ldms_remote_lookup`
(ldms_xprt.c:3500, 3559, 3626, 3684) and `__ldms_remote_update` (ldms_xprt.c:1630), all of which refuse a
closed transport first; `close` is
`__ldms_xprt_close` (ldms_xprt.c:639-644).  The application's callback is assumed to be set. -/
def step (g : Cfg) (x : X) : Ev → Option X
  | .connected v c ok =>
    if g.active && !v then some { x with term := true } else some (authBegin g x c ok)
  | .connectError => some { x with out := x.out ++ [.error] }
  | .rejected => if g.active then some { x with out := x.out ++ [.rejected] } else none
  | .disconnected =>
    let e := endEvent x.flag
    if g.rail || g.active || e = .disconnected then some { x with out := x.out ++ [e], term := true }
    else some { x with term := true }
  | .recv m ok => recv g x m ok
  | .sendComplete app =>
    if app && x.flag = .approved then some { x with out := x.out ++ [.sendComplete] } else some x
  | .rendezvous => if x.flag = .approved then some { x with meets := x.meets + 1 } else some x
  | .ask m =>
    if x.flag = .approved ∧ x.term = false ∧ isRequest m.cmd = true then some { x with sent := x.sent ++ [m] }
    else some x
  | .close => some { x with term := true }

/-- a history of a transport -/
def run (g : Cfg) (x : X) : List Ev → Option X
  | [] => some x
  | e :: es => match step g x e with
    | none => none
    | some x' => run g x' es

/-! ### The first message -/

/-- `__ldms_conn_msg_verify` (ldms_xprt.c:2840-2858): `len` bytes came with the request, `ver` is the version
in them, `name` the plugin's name in them as a C string of at most 16 bytes; `true` = 0.  Bytes missing from a
message of at least 4 are read beyond it in the code; here `name` is what was found there. -/
def connMsgVerify (len : Nat) (ver own : List Nat) (name plugin : List Nat) : Bool :=
  if len < 4 then false
  else if ver ≠ own then false
  else name.take 16 = plugin.take 16

/-! ### Several transports and a network in the hands of an intruder -/

/-- transports of any number of processes; the intruder decides what happens where -/
abbrev World := Nat → X

def wstep (g : Nat → Cfg) (w : World) (i : Nat) (e : Ev) : Option World :=
  match step (g i) (w i) e with
  | none => none
  | some x => some (fun j => if j = i then x else w j)

def wrun (g : Nat → Cfg) (w : World) : List (Nat × Ev) → Option World
  | [] => some w
  | (i, e) :: es => match wstep g w i e with
    | none => none
    | some w' => wrun g w' es

/-! ### Two transports over a connection -/

/-- the two ends and how much of what the other sent each has received.  A reliable ordered connection
(proved of the socket transport in `ZapFrame`). -/
structure Pair where
  a : X := {}
  b : X := {}
  na : Nat := 0
  nb : Nat := 0

inductive PEv where
  /-- zap reports CONNECTED at an end -/
  | upA (c : Nat)
  | upB (c : Nat)
  /-- the next message is delivered -/
  | toA
  | toB
  /-- the application asks for something -/
  | askA (m : Msg)
  | askB (m : Msg)

/-- one step of a pair on a healthy connection: messages are delivered after CONNECTED (proved of the socket
transport in `ZapEp`), and every `zap_send` succeeds -/
def pstep (ga gb : Cfg) (p : Pair) : PEv → Option Pair
  | .upA c => match step ga p.a (.connected true c true) with
    | none => none
    | some x => some { p with a := x }
  | .upB c => match step gb p.b (.connected true c true) with
    | none => none
    | some x => some { p with b := x }
  | .toA =>
    if p.a.flag = .init then some p
    else
      match p.b.sent[p.na]? with
      | none => some p
      | some m => match step ga p.a (.recv m true) with
        | none => none
        | some x => some { p with a := x, na := p.na + 1 }
  | .toB =>
    if p.b.flag = .init then some p
    else
      match p.a.sent[p.nb]? with
      | none => some p
      | some m => match step gb p.b (.recv m true) with
        | none => none
        | some x => some { p with b := x, nb := p.nb + 1 }
  | .askA m => match step ga p.a (.ask m) with
    | none => none
    | some x => some { p with a := x }
  | .askB m => match step gb p.b (.ask m) with
    | none => none
    | some x => some { p with b := x }

def prun (ga gb : Cfg) (p : Pair) : List PEv → Option Pair
  | [] => some p
  | e :: es => match pstep ga gb p e with
    | none => none
    | some p' => prun ga gb p' es

end Verif.XprtAuth
