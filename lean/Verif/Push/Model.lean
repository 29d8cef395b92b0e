/-!
# Pushing sets (`ldms/src/core/ldms_xprt.c`)

The daemon that has a set, the peers that registered for it, and a peer that receives what is pushed.  Memory is a function
from positions to bytes: the metadata from 0, then the elements of the ring of data.  References and the end of a
connection (which removes the peer) are not modelled; memory is not short.
-/

namespace Verif.Push

abbrev Mem := Nat → Nat

/-- A set (`struct ldms_set`): sizes, the number of elements of the ring and the current one, the
generation number of the metadata, the memory. -/
structure Src where
  metaSz : Nat
  dataSz : Nat
  card : Nat
  curr : Nat
  gn : Nat
  mem : Mem

/-- `struct ldms_push_peer` (ldms_xprt.h:88-95); `guard` if the transport is not authenticated, `maxLen` is `zap_max_msg` of it. -/
structure Peer where
  id : Nat
  remote : Nat
  flags : Nat
  metaGn : Nat
  guard : Bool
  maxLen : Nat

/-- `struct ldms_push_reply` (ldms_xprt.h:297-303) with the flags it may have. -/
structure Msg where
  setId : Nat
  more : Bool
  last : Bool
  off : Nat
  data : List Nat

/-- The size of the headers: 20 and 20 (ldms_xprt.h:297-310, packed). -/
def hdrLen : Nat := 40

/-- `LDMS_RBD_F_PUSH`, `LDMS_RBD_F_PUSH_CHANGE`, `LDMS_RBD_F_PUSH_CANCEL` (ldms_xprt.h:83-85) -/
def fPush : Nat := 1
def fChange : Nat := 2
def fCancel : Nat := 4

/-! ## The daemon that has the set -/

/-- The bytes of the memory from `off`. -/
def bytes (m : Mem) (off len : Nat) : List Nat := (List.range len).map fun i => m (off + i)

/-- The loop over the parts (ldms_xprt.c:4070-4096): the messages and the result.  `rc k` is what the `k`th `zap_send`
gives.  The room for data is taken to be positive; the first number bounds the turns. -/
def parts (S : Src) (p : Peer) (rc : Nat → Nat) : Nat → Nat → Nat → Nat → List Msg × Nat
  | 0, _, _, _ => ([], 0)
  | n + 1, len, doff, k =>
    if len = 0 then ([], 0)
    else
      let big := len + hdrLen > p.maxLen
      let dataLen := if big then p.maxLen - hdrLen else len
      if rc k ≠ 0 then ([], rc k)
      else
        let r := parts S p rc n (len - dataLen) (doff + dataLen) (k + 1)
        (⟨p.remote, big, p.flags &&& fCancel ≠ 0, doff, bytes S.mem doff dataLen⟩ :: r.1, r.2)

/-- What is pushed to a peer (ldms_xprt.c:4037-4107): the messages, the result, and the peer after.  Only 32 bits of the
generation number are compared (ldms_xprt.c:4027). -/
def pushOne (S : Src) (pf : Nat) (rc : Nat → Nat) (p : Peer) : List Msg × Nat × Peer :=
  if p.flags &&& pf = 0 then ([], 0, p)
  else if p.guard then ([], 0, p)
  else if p.metaGn ≠ S.gn % 2 ^ 32 then
    let r := parts S p rc (S.metaSz + S.dataSz + 1) (S.metaSz + S.dataSz) 0 0
    (r.1, r.2, { p with metaGn := S.gn % 2 ^ 32 })
  else
    let r := parts S p rc (S.dataSz + 1) S.dataSz (S.metaSz + S.curr * S.dataSz) 0
    (r.1, r.2, p)

/-- `__ldms_xprt_push` (ldms_xprt.c:4023-4108): the peers after, the messages with the peer they go to, the result.  `rc` is what
`zap_send` gives to each peer. -/
def push (S : Src) (pf : Nat) (rc : Nat → Nat → Nat) : List Peer → List Peer × List (Nat × Msg) × Nat
  | [] => ([], [], 0)
  | p :: ps =>
    let r := pushOne S pf (rc p.id) p
    if r.2.1 ≠ 0 then (r.2.2 :: ps, r.1.map fun m => (p.id, m), r.2.1)
    else
      let t := push S pf rc ps
      (r.2.2 :: t.1, (r.1.map fun m => (p.id, m)) ++ t.2.1, t.2.2)

/-- `handle_rendezvous_push` (ldms_xprt.c:2742-2803): a new peer is put in the collection, here at the end. -/
def register (id remote flags : Nat) (guard : Bool) (maxLen : Nat) : List Peer → List Peer
  | [] => [⟨id, remote, flags, 0, guard, maxLen⟩]
  | p :: ps =>
    if p.id = id then { p with flags := flags, remote := remote } :: ps
    else p :: register id remote flags guard maxLen ps

/-- `process_cancel_push_request` (ldms_xprt.c:1102-1138): the peers after and the message to the peer. -/
def cancel (id : Nat) (ps : List Peer) : List Peer × List (Nat × Msg) :=
  match ps.find? fun p => p.id = id with
  | none => (ps, [])
  | some p => (ps.filter fun q => q.id ≠ id, [(id, ⟨p.remote, false, true, 0, []⟩)])

/-! ## What happens there -/

inductive Op
  /-- a byte of the data, at a position in the current element -/
  | data (i v : Nat)
  /-- a byte of the metadata, with a new generation number (`__ldms_gn_inc`, ldms.c:177-185; `ldms_set_config_auth`,
  ldms.c:1743-1755) -/
  | metaGn (i v : Nat)
  /-- a byte of the metadata alone (`ldms_set_uid_set`, `ldms_set_gid_set`, `ldms_set_perm_set`, ldms.c:1794-1820) -/
  | metaRaw (i v : Nat)
  /-- the next element of the ring (`ldms_transaction_begin`, ldms.c:3422) -/
  | next
  /-- `ldms_xprt_push` (ldms_xprt.c:4110-4113) -/
  | push
  /-- the push at the end of `ldms_transaction_end` (ldms.c:3479) -/
  | change
  | register (id remote flags : Nat) (guard : Bool) (maxLen : Nat)
  | cancel (id : Nat)

/-- A byte written. -/
def poke (m : Mem) (i v : Nat) : Mem := fun j => if j = i then v else m j

structure Daemon where
  src : Src
  peers : List Peer

/-- One operation: what the daemon is after and the messages it sends.  `rc` is what the sends of this operation give. -/
def op (rc : Nat → Nat → Nat) (d : Daemon) : Op → Daemon × List (Nat × Msg)
  | .data i v =>
    ({ d with src := { d.src with
        mem := if i < d.src.dataSz then poke d.src.mem (d.src.metaSz + d.src.curr * d.src.dataSz + i) v
               else d.src.mem } }, [])
  | .metaGn i v =>
    ({ d with src := { d.src with
        mem := if i < d.src.metaSz then poke d.src.mem i v else d.src.mem
        gn := d.src.gn + 1 } }, [])
  | .metaRaw i v =>
    ({ d with src := { d.src with mem := if i < d.src.metaSz then poke d.src.mem i v else d.src.mem } }, [])
  | .next => ({ d with src := { d.src with curr := (d.src.curr + 1) % d.src.card } }, [])
  | .push => let r := Verif.Push.push d.src fPush rc d.peers; ({ d with peers := r.1 }, r.2.1)
  | .change => let r := Verif.Push.push d.src fChange rc d.peers; ({ d with peers := r.1 }, r.2.1)
  | .register id remote flags guard maxLen =>
    ({ d with peers := Verif.Push.register id remote flags guard maxLen d.peers }, [])
  | .cancel id => let r := Verif.Push.cancel id d.peers; ({ d with peers := r.1 }, r.2)

/-- A history; the sends may fail in any way. -/
def history : Daemon → List (Op × (Nat → Nat → Nat)) → Daemon × List (Nat × Msg)
  | d, [] => (d, [])
  | d, (o, rc) :: os =>
    let r := op rc d o
    let t := history r.1 os
    (t.1, r.2 ++ t.2)

/-! ## The peer -/

/-- A call of the function given to `ldms_xprt_register_push`: whether it is said to be the last, and the memory of the set
then. -/
structure Call where
  last : Bool
  mem : Mem

/-- A set of the peer: its number, its size, its memory, whether the daemon may write it, the calls made, and whether
memory has been written outside of it. -/
structure Rcv where
  id : Nat
  size : Nat
  mem : Mem
  writable : Bool
  calls : List Call
  fault : Bool

/-- `memcpy` into the memory. -/
def store (m : Mem) (off : Nat) (data : List Nat) : Mem :=
  fun j => if off ≤ j ∧ j < off + data.length then data.getD (j - off) 0 else m j

/-- `process_push_reply` (ldms_xprt.c:2065-2091), with a function registered. -/
def receive (r : Rcv) (m : Msg) : Rcv :=
  if r.fault then r
  else if m.setId ≠ r.id then r
  else if !r.writable then r
  else if m.data ≠ [] ∧ m.off + m.data.length > r.size then { r with fault := true }
  else
    let mem := if m.data ≠ [] then store r.mem m.off m.data else r.mem
    if m.more then { r with mem := mem }
    else { r with mem := mem, calls := r.calls ++ [⟨m.last, mem⟩] }

def receiveAll (r : Rcv) (ms : List Msg) : Rcv := ms.foldl receive r

/-- The element of the ring a set shows that nothing but pushes has changed: `set->data` stays where `__record_set` put it
(ldms.c:574-578). -/
def Rcv.shown (S : Src) (m : Mem) : List Nat := bytes m (S.metaSz + (S.card - 1) * S.dataSz) S.dataSz

end Verif.Push
