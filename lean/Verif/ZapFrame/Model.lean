import Verif.Common.Bytes

/-!
# Messages of the socket transport on a byte stream

Models `lib/src/zap/sock/zap_sock.c`: building a message, queueing it, `sock_write`,
`__recv_msg`, the reset of the receive buffer after a message, and what the message handlers read.

Simplifications: the data of a `zap_read` response, a `zap_write` or a `zap_send_mapped` are taken at
posting time (the code sends from the caller's memory); memory allocation does not fail; both peers
are little-endian for the fields the code does not swap (`xid`, `ctxt`, map keys).
-/

namespace Verif.ZapFrame

/-- bytes are natural numbers -/
abbrev Byte := Nat

/-! ## Layout of messages (zap_sock.h:135-222, `#pragma pack(4)`) -/

/-- the message types, zap_sock.h:98-111 -/
def tConnect : Nat := 1
def tSendrecv : Nat := 2
def tRendezvous : Nat := 3
def tReadReq : Nat := 4
def tReadResp : Nat := 5
def tWriteReq : Nat := 6
def tWriteResp : Nat := 7
def tAccepted : Nat := 8
def tRejected : Nat := 9
def tAckAccepted : Nat := 10

/-- `sizeof(struct sock_msg_hdr)` -/
def hdrSz : Nat := 20

/-- `SOCKBUF_SZ`, zap_sock.h:60 -/
def sockbufSz : Nat := 1024 * 1024

/-- A message as its sender or receiver understands it. -/
inductive Pkt where
  | connect (data : List Byte)
  | sendrecv (data : List Byte)
  | rendezvous (key acc addr len : Nat) (msg : List Byte)
  | readReq (key src len : Nat)
  | readResp (status : Nat) (data : List Byte)
  | writeReq (key dst : Nat) (data : List Byte)
  | writeResp (status : Nat)
  | accepted (data : List Byte)
  | rejected (data : List Byte)
  | ackAccepted
  /-- a connect message of another version or with another signature -/
  | badConnect
  /-- a type the code has no handler for -/
  | unknown (ty : Nat)
deriving DecidableEq

/-- `ZAP_VERSION_SET`, zap_priv.h:70-80 -/
def version : List Byte := [1, 3, 1, 0]

/-- `ZAP_SOCK_SIG`, zap_sock.h:150: "SOCKET" in eight bytes -/
def signature : List Byte := [83, 79, 67, 75, 69, 84, 0, 0]

/-- `zap_version_check`, zap_priv.h:82-85 and 141-144: major and minor number only -/
def versionOk (v : List Byte) : Bool := v.take 2 == version.take 2

/-- `max_msg`, zap_sock.c:2329-2336 -/
def maxMsg : Nat := sockbufSz - 40

/-- the value of little-endian bytes -/
def leVal (l : List Byte) : Nat := beVal l.reverse

/-- `z_sock_hdr_init`, zap_sock.c:757-770: type, reserved, length (`uint32_t`), xid, context. -/
def hdr (ty len xid ctxt : Nat) : List Byte :=
  beBytes 2 ty ++ [0, 0] ++ beBytes 4 len ++ leBytes 4 xid ++ leBytes 8 ctxt

/-- The fixed part after the header and the data: `__sock_send_connect` (zap_sock.c:1490-1504),
`__sock_send` (1506-1515), `z_sock_send2` (1807-1854), `z_sock_send_mapped` (1867-1923),
`z_sock_share` (2088-2126), `z_sock_read` (2128-2191), `z_sock_write` (2193-2256) and the two
responses (620-669, 775-819).  The two padding bytes after a status are zero here. -/
def body : Pkt → Nat × List Byte × List Byte
  | .connect data => (tConnect, version ++ signature ++ beBytes 4 data.length, data)
  | .sendrecv data => (tSendrecv, beBytes 4 data.length, data)
  | .rendezvous key acc addr len msg =>
    (tRendezvous, leBytes 4 key ++ beBytes 4 acc ++ beBytes 8 addr ++ beBytes 4 len, msg)
  | .readReq key src len => (tReadReq, leBytes 4 key ++ beBytes 8 src ++ beBytes 4 len, [])
  | .readResp status data =>
    (tReadResp, beBytes 2 status ++ [0, 0] ++ beBytes 8 0 ++ beBytes 4 data.length, data)
  | .writeReq key dst data => (tWriteReq, leBytes 4 key ++ beBytes 8 dst ++ beBytes 4 data.length, data)
  | .writeResp status => (tWriteResp, beBytes 2 status ++ [0, 0], [])
  | .accepted data => (tAccepted, beBytes 4 data.length, data)
  | .rejected data => (tRejected, beBytes 4 data.length, data)
  | .ackAccepted => (tAckAccepted, beBytes 4 0, [])
  | .badConnect => (tConnect, [], [])
  | .unknown ty => (ty, [], [])

/-- size of the whole message -/
def size (p : Pkt) : Nat := hdrSz + (body p).2.1.length + (body p).2.2.length

/-- the bytes of a message on the wire -/
def encode (xid ctxt : Nat) (p : Pkt) : List Byte :=
  hdr (body p).1 (size p) xid ctxt ++ (body p).2.1 ++ (body p).2.2

/-! ## Sending -/

/-- `struct z_sock_send_wr_s`, zap_sock.h:243-252: the message bytes, the separate data, what is left
of each, and the offset into the part being sent. -/
structure Wr where
  msg : List Byte
  msgLen : Nat
  data : List Byte
  dataLen : Nat
  off : Nat
deriving DecidableEq

/-- The size check of `__sock_send_msg_nolock`, zap_sock.c:1581-1585.  `z_sock_send2`,
`z_sock_send_mapped`, `z_sock_read` and `z_sock_write` post without one, and a read response is exempt. -/
def refused : Pkt → Bool
  | .connect data => decide (data.length > maxMsg)
  | .rendezvous _ _ _ _ msg => decide (msg.length > maxMsg)
  | .accepted data => decide (data.length > maxMsg)
  | .rejected data => decide (data.length > maxMsg)
  | _ => false

/-- Whether the data are sent from where they are (`READ_RESP` zap_sock.c:1571-1580, `WRITE_REQ`
2233-2236, and `zap_send_mapped` 1904-1907, for which `mapped` is set) or copied behind the message. -/
def splits (mapped : Bool) : Pkt → Bool
  | .readResp _ _ => true
  | .writeReq _ _ _ => true
  | .sendrecv _ => mapped
  | _ => false

/-- The work request of a message. -/
def mkWr (mapped : Bool) (xid ctxt : Nat) (p : Pkt) : Wr :=
  let h := hdr (body p).1 (size p) xid ctxt ++ (body p).2.1
  if splits mapped p then ⟨h, h.length, (body p).2.2, (body p).2.2.length, 0⟩
  else ⟨h ++ (body p).2.2, h.length + (body p).2.2.length, [], 0, 0⟩

/-- what one call of `send` does: takes at most so many bytes, would block, or fails -/
inductive SendRes where
  | sent (n : Nat)
  | again
  | err
deriving DecidableEq

/-- how a pass over the queue ends -/
inductive WEnd where
  /-- everything was sent -/
  | drained
  /-- the socket buffer is full -/
  | again
  /-- the connection failed and is shut down -/
  | err
deriving DecidableEq

/-- The message loop of `sock_write`, zap_sock.c:1256-1272.  Returns the bytes the kernel took, the
work request, the unused socket results and `none` when the loop ends with `msg_len = 0`. -/
def sendMsg (w : Wr) : List SendRes → List Byte × Wr × List SendRes × Option WEnd
  | [] => if w.msgLen = 0 then ([], w, [], none) else ([], w, [], some .again)
  | r :: rs =>
    if w.msgLen = 0 then ([], w, r :: rs, none)
    else
      match r with
      | .again => ([], w, rs, some .again)
      | .err => ([], w, rs, some .err)
      | .sent n =>
        let wsz := min n w.msgLen
        let left := w.msgLen - wsz
        let w' := { w with msgLen := left, off := if left = 0 then 0 else w.off + wsz }
        let (bs, w'', rs', e) := sendMsg w' rs
        ((w.msg.drop w.off).take wsz ++ bs, w'', rs', e)

/-- The data loop of `sock_write`, zap_sock.c:1276-1289. -/
def sendData (w : Wr) : List SendRes → List Byte × Wr × List SendRes × Option WEnd
  | [] => if w.dataLen = 0 then ([], w, [], none) else ([], w, [], some .again)
  | r :: rs =>
    if w.dataLen = 0 then ([], w, r :: rs, none)
    else
      match r with
      | .again => ([], w, rs, some .again)
      | .err => ([], w, rs, some .err)
      | .sent n =>
        let wsz := min n w.dataLen
        let w' := { w with dataLen := w.dataLen - wsz, off := w.off + wsz }
        let (bs, w'', rs', e) := sendData w' rs
        ((w.data.drop w.off).take wsz ++ bs, w'', rs', e)

/-- `sock_write`, zap_sock.c:1238-1317. -/
def sockWrite : List Wr → List SendRes → List Byte × List Wr × WEnd
  | [], _ => ([], [], .drained)
  | w :: q, rs =>
    match sendMsg w rs with
    | (bs, w', _, some e) => (bs, w' :: q, e)
    | (bs, w', rs', none) =>
      match sendData w' rs' with
      | (bs', w'', _, some e) => (bs ++ bs', w'' :: q, e)
      | (bs', _, rs'', none) =>
        let (bs'', q', e) := sockWrite q rs''
        (bs ++ bs' ++ bs'', q', e)

/-! ## Receiving -/

/-- `struct z_sock_buff_s`, zap_sock.h:271-276: the bytes received so far (`len` of them) and the
size of the allocation (`len + alen`). -/
structure Buff where
  data : List Byte
  cap : Nat
deriving DecidableEq

/-- `z_sock_buff_init(&sep->buff, 65536)`, zap_sock.c:1972. -/
def Buff.init : Buff := ⟨[], 65536⟩

/-- what one call of `read` does: returns at least one and at most `n + 1` of the bytes that have
arrived, would block, end of stream, or error -/
inductive ReadRes where
  | got (n : Nat)
  | again
  | eof
  | err
deriving DecidableEq

/-- result of `__recv_msg` -/
inductive Rc where
  /-- 0: a whole message is in the buffer -/
  | ok
  | again
  /-- `ENOTCONN` -/
  | closed
  /-- any other error, including `EINVAL` for an oversized message -/
  | bad
  /-- undefined behaviour: the buffer was freed by `realloc(p, 0)` and stays in use -/
  | ub
deriving DecidableEq

/-- `read(sock, buf, rq)` on a stream in which `inp` has arrived -/
def readSock (r : ReadRes) (rq : Nat) (inp : List Byte) : Rc × List Byte × List Byte :=
  match r with
  | .again => (.again, [], inp)
  | .eof => (.closed, [], inp)
  | .err => (.bad, [], inp)
  | .got n =>
    if inp = [] then (.again, [], inp)
    else (.ok, inp.take (min (n + 1) rq), inp.drop (min (n + 1) rq))

/-- `ntohs(hdr->msg_type)` -/
def msgType (m : List Byte) : Nat := beVal (m.take 2)

/-- `ntohl(hdr->msg_len)` -/
def msgLen (m : List Byte) : Nat := beVal ((m.drop 4).take 4)

/-- The second half of `__recv_msg`, zap_sock.c:933-984: size check, buffer extension (the new size
is computed in 32 bits), reading the rest. -/
def recvBody (b : Buff) (inp : List Byte) (r : ReadRes) : Rc × Buff × List Byte :=
  let mlen := msgLen b.data
  let ty := msgType b.data
  if ¬ (ty = tWriteReq ∨ ty = tReadResp) ∧ mlen > sockbufSz then (.bad, b, inp)
  else
    let newsz := (mlen - 1 ||| 0xFFFF) + 1
    if mlen > b.cap ∧ newsz % 2 ^ 32 = 0 then (.ub, b, inp)
    else
      let b := if mlen > b.cap then { b with cap := newsz % 2 ^ 32 } else b
      if b.data.length < mlen then
        let rq := mlen - b.data.length
        match readSock r rq inp with
        | (.ok, c, inp') =>
          let b := { b with data := b.data ++ c }
          if c.length < rq then (.again, b, inp') else (.ok, b, inp')
        | (rc, _, inp') => (rc, b, inp')
      else (.ok, b, inp)

/-- `__recv_msg`, zap_sock.c:896-989, with the results of its (at most two) calls of `read`. -/
def recvMsg (b : Buff) (inp : List Byte) (r1 r2 : ReadRes) : Rc × Buff × List Byte :=
  if b.data.length < hdrSz then
    let rq := hdrSz - b.data.length
    match readSock r1 rq inp with
    | (.ok, c, inp') =>
      let b := { b with data := b.data ++ c }
      if c.length < rq then (.again, b, inp') else recvBody b inp' r2
    | (rc, _, inp') => (rc, b, inp')
  else recvBody b inp r2

/-- The receiving side: its buffer, the bytes that have arrived and were not read, the messages handed
to the handlers, and how it stands. -/
structure Rx where
  buff : Buff
  inp : List Byte
  delivered : List (List Byte)
  rc : Rc
deriving DecidableEq

/-- a fresh endpoint -/
def Rx.init : Rx := ⟨Buff.init, [], [], .ok⟩

/-- the `n` bytes at offset `off`; `none` when they are not part of what was received -/
def sub (m : List Byte) (off n : Nat) : Option (List Byte) :=
  if off + n ≤ m.length then some ((m.drop off).take n) else none

/-- a connect message that `process_sep_msg_connect` (zap_sock.c:459-509) turns down -/
def badConnect (m : List Byte) : Bool :=
  msgType m == tConnect && !(versionOk ((m.drop 20).take 4) && (m.drop 24).take 8 == signature)

/-- One round of the loop of `sock_read`, zap_sock.c:1329-1424: a complete message goes to its handler
and the buffer is reset (`z_sock_buff_reset`, 258-262), except after a connect message that is turned
down, where `process_sep_msg_connect` returns before the reset; `EAGAIN` waits for more; anything else
shuts the connection down.  The endpoint state (1344-1400) is not part of this model. -/
def recvCall (x : Rx) (r1 r2 : ReadRes) : Rx :=
  match x.rc with
  | .ok =>
    match recvMsg x.buff x.inp r1 r2 with
    | (.ok, b, inp) =>
      { x with
        buff := if badConnect b.data then b else { b with data := [] },
        inp := inp, delivered := x.delivered ++ [b.data] }
    | (.again, b, inp) => { x with buff := b, inp := inp }
    | (rc, b, inp) => { x with buff := b, inp := inp, rc := rc }
  | _ => x

/-! ## What the handlers read -/

/-- The fields the handlers of zap_sock.c:459-894 read from the message in the buffer and the data
they use; `none` when that goes beyond the received bytes. -/
def decodeBody (m : List Byte) : Option Pkt :=
  let ty := msgType m
  if ty = tConnect then do
    let ver ← sub m 20 4
    let sig ← sub m 24 8
    if ¬ (versionOk ver = true ∧ sig = signature) then return .badConnect
    let dl ← sub m 32 4
    let data ← sub m 36 (beVal dl)
    return .connect data
  else if ty = tSendrecv then do
    let dl ← sub m 20 4
    let data ← sub m 24 (beVal dl)
    return .sendrecv data
  else if ty = tRendezvous then do
    let key ← sub m 20 4
    let acc ← sub m 24 4
    let addr ← sub m 28 8
    let len ← sub m 36 4
    if msgLen m < 40 then none
    let msg ← sub m 40 (msgLen m - 40)
    return .rendezvous (leVal key) (beVal acc) (beVal addr) (beVal len) msg
  else if ty = tReadReq then do
    let key ← sub m 20 4
    let src ← sub m 24 8
    let len ← sub m 32 4
    return .readReq (leVal key) (beVal src) (beVal len)
  else if ty = tReadResp then do
    let st ← sub m 20 2
    let dl ← sub m 32 4
    let data ← sub m 36 (beVal dl)
    return .readResp (beVal st) data
  else if ty = tWriteReq then do
    let key ← sub m 20 4
    let dst ← sub m 24 8
    let dl ← sub m 32 4
    let data ← sub m 36 (beVal dl)
    return .writeReq (leVal key) (beVal dst) data
  else if ty = tWriteResp then do
    let st ← sub m 20 2
    return .writeResp (beVal st)
  else if ty = tAccepted then do
    let dl ← sub m 20 4
    let data ← sub m 24 (beVal dl)
    return .accepted data
  else if ty = tRejected then do
    let dl ← sub m 20 4
    let data ← sub m 24 (beVal dl)
    return .rejected data
  else if ty = tAckAccepted then some .ackAccepted
  else some (.unknown ty)

/-- the same with the transaction id and the context of the header -/
def decode (m : List Byte) : Option (Nat × Nat × Pkt) := do
  let xid ← sub m 8 4
  let ctxt ← sub m 12 8
  let p ← decodeBody m
  return (leVal xid, leVal ctxt, p)

/-! ## Two endpoints and the connection between them -/

/-- A connection: the send queue of one side, whether its socket still works, and the other side. -/
structure Sys where
  sq : List Wr
  up : Bool
  rx : Rx
deriving DecidableEq

/-- before anything is sent -/
def Sys.init : Sys := ⟨[], true, Rx.init⟩

/-- what may happen, in any order -/
inductive Ev where
  /-- a message is posted: `__wr_post` (zap_sock.c:1548-1556) appends it and runs `sock_write` -/
  | post (mapped : Bool) (xid ctxt : Nat) (p : Pkt) (rs : List SendRes)
  /-- `EPOLLOUT`: `sock_write` runs again -/
  | writable (rs : List SendRes)
  /-- `EPOLLIN`: one round of `sock_read` on the other side -/
  | readable (r1 r2 : ReadRes)
deriving DecidableEq

/-- `sock_write` on the queue: what the kernel takes arrives on the other side -/
def flush (s : Sys) (rs : List SendRes) : Sys :=
  if s.up then
    let (bs, q, e) := sockWrite s.sq rs
    ⟨q, decide (e ≠ .err), { s.rx with inp := s.rx.inp ++ bs }⟩
  else s

/-- one event -/
def step (s : Sys) : Ev → Sys
  | .post mapped xid ctxt p rs =>
    if refused p then s else flush { s with sq := s.sq ++ [mkWr mapped xid ctxt p] } rs
  | .writable rs => flush s rs
  | .readable r1 r2 => { s with rx := recvCall s.rx r1 r2 }

/-- a history -/
def run (s : Sys) : List Ev → Sys
  | [] => s
  | e :: es => run (step s e) es

/-- The receiving side with any peer: bytes arrive, then one round of `sock_read` runs. -/
def hostile (x : Rx) : List (List Byte × ReadRes × ReadRes) → Rx
  | [] => x
  | (bs, r1, r2) :: es => hostile (recvCall { x with inp := x.inp ++ bs } r1 r2) es

end Verif.ZapFrame
