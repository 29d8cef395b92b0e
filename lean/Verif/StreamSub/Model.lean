/-!
# Stream subscriptions and delivery (ldms/src/core/ldms_stream.c)

`__stream_get` (300-353), `__client_stream_bind`/`unbind` (361-414), `__stream_deliver` (429-563),
`__client_subscribe` (824-869), `ldms_stream_subscribe` (917-943) and `ldms_stream_close` (945-960).

Subscribing and closing happen under the global stream lock and are one action each.  A delivery is a loop that
gives up the stream's lock around every callback, so it is one action per list entry, and any other action
(from a callback or from another thread, including another delivery) may come in between.  Clients are numbered
in the order of subscription, streams by name.  Memory allocation does not fail; statistics are left out;
patterns are arbitrary predicates on names.
-/

namespace Verif.StreamSub

/-- what a client subscribed to: an exact stream name or a regular expression -/
inductive Match where
  | exact (name : Nat)
  | regex (p : Nat → Bool)

/-- does the subscription cover the stream? -/
def Match.covers : Match → Nat → Bool
  | .exact n, x => n = x
  | .regex p, x => p x

def Match.isRegex : Match → Bool
  | .exact _ => false
  | .regex _ => true

/-- struct ldms_stream_client_s; `isLocal` is `c->x == NULL` -/
structure Client where
  m : Match
  isLocal : Bool
  isOpen : Bool

/-- struct ldms_stream_s: the name and the client entries (`client_tq`), each with its client and whether it is
still bound (`sce->client != NULL`) -/
structure Stream where
  name : Nat
  ents : List (Nat × Bool)

/-- A running `__stream_deliver`: stream, whether the data is a malformed JSON text, the entry last handled,
whether an unbound entry was seen (`gc`).  `closed` is used by the specification only: the clients already
closed when the delivery began. -/
structure Del where
  id : Nat
  name : Nat
  bad : Bool
  cur : Option Nat
  gc : Bool
  closed : List Nat

/-- All of it.  `regexq` is `__regex_client_tq`; `log` are the callbacks made: (delivery, client). -/
structure St where
  clients : List Client
  streams : List Stream
  regexq : List Nat
  dels : List Del
  nextDel : Nat
  log : List (Nat × Nat)

def init : St := ⟨[], [], [], [], 0, []⟩

/-- does client `c` cover `name`? -/
def covers (cs : List Client) (c name : Nat) : Bool :=
  match cs[c]? with
  | some k => k.m.covers name
  | none => false

/-- is client `c` in this process? -/
def isLocal (cs : List Client) (c : Nat) : Bool :=
  match cs[c]? with
  | some k => k.isLocal
  | none => false

/-- `__stream_get` (300-353): find the stream or create it and bind the matching regex clients in order -/
def streamGet (st : St) (name : Nat) : St :=
  if st.streams.any (fun s => s.name = name) then st
  else { st with
    streams := ⟨name, (st.regexq.filter (fun c => covers st.clients c name)).map (fun c => (c, true))⟩ :: st.streams }

/-- `__client_stream_bind` (361-388): append an entry -/
def Stream.bind (s : Stream) (c : Nat) : Stream := { s with ents := s.ents ++ [(c, true)] }

/-- `__client_stream_unbind` (390-414) of all entries of `c` -/
def Stream.unbind (s : Stream) (c : Nat) : Stream :=
  { s with ents := s.ents.map (fun x => if x.1 = c then (x.1, false) else x) }

/-- removal of unbound entries at the end of a delivery that saw one (545-561) -/
def Stream.sweep (s : Stream) : Stream := { s with ents := s.ents.filter (·.2) }

/-- `ldms_stream_subscribe` (824-869, 917-943) -/
def subscribe (st : St) (m : Match) (isLocal : Bool) : St :=
  let c := st.clients.length
  let st := { st with clients := st.clients ++ [⟨m, isLocal, true⟩] }
  match m with
  | .regex p =>
    { st with regexq := st.regexq ++ [c], streams := st.streams.map (fun s => if p s.name then s.bind c else s) }
  | .exact n =>
    let st := streamGet st n
    { st with streams := st.streams.map (fun s => if s.name = n then s.bind c else s) }

/-- `ldms_stream_close` (945-960).  Using a closed handle is the caller's error: no effect here. -/
def close (st : St) (c : Nat) : St :=
  { st with
    clients := st.clients.modify c (fun k => { k with isOpen := false })
    streams := st.streams.map (fun s => s.unbind c)
    regexq := st.regexq.erase c }

/-- ids of the clients that are closed -/
def closedIds (st : St) : List Nat :=
  (List.range st.clients.length).filter (fun c => match st.clients[c]? with | some k => !k.isOpen | none => false)

/-- `__stream_deliver` up to the loop (429-490).  A delivery is identified by its number. -/
def begin (st : St) (name : Nat) (bad : Bool) : St :=
  let st := streamGet st name
  { st with dels := ⟨st.nextDel, name, bad, none, false, closedIds st⟩ :: st.dels, nextDel := st.nextDel + 1 }

/-- outcome: not possible, use of a freed list entry, or a new state -/
inductive Out where
  | stuck | ub
  | ok (st : St)

/-- the loop ends (543-561) -/
def finish (st : St) (d : Del) : St :=
  { st with
    dels := st.dels.filter (fun x => x.id ≠ d.id)
    streams := if d.gc then st.streams.map (fun s => if s.name = d.name then s.sweep else s) else st.streams }

/-- the delivery `d` in its new state `d'` -/
def setDel (st : St) (d' : Del) : St :=
  { st with dels := st.dels.map (fun x => if x.id = d'.id then d' else x) }

/-- the entries after entry `k` -/
def after (ents : List (Nat × Bool)) : Option Nat → List (Nat × Bool)
  | none => ents
  | some k => (ents.dropWhile (fun x => x.1 ≠ k)).drop 1

/-- the entry the loop stands on is no longer in the list -/
def gone (ents : List (Nat × Bool)) : Option Nat → Bool
  | none => false
  | some k => ents.all (fun x => x.1 ≠ k)

/-- One round of the loop of delivery `id` (491-541).  If the entry the loop stands on is no longer in the list,
another delivery removed it; it is freed with its client, and following its link is undefined. -/
def next (st : St) (id : Nat) : Out :=
  match st.dels.find? (fun d => d.id = id) with
  | none => .stuck
  | some d =>
    match st.streams.find? (fun s => s.name = d.name) with
    | none => .stuck
    | some s =>
      if gone s.ents d.cur then .ub
      else
        match after s.ents d.cur with
        | [] => .ok (finish st d)
        | (c, false) :: _ => .ok (setDel st { d with cur := some c, gc := true })
        | (c, true) :: _ =>
          if d.bad && isLocal st.clients c then .ok (finish st d)
          else .ok { setDel st { d with cur := some c } with log := (d.id, c) :: st.log }

/-- actions -/
inductive Act where
  | subscribe (m : Match) (isLocal : Bool)
  | close (c : Nat)
  | begin (name : Nat) (bad : Bool)
  | next (id : Nat)

def step (st : St) : Act → Out
  | .subscribe m l => .ok (subscribe st m l)
  | .close c => .ok (close st c)
  | .begin n b => .ok (begin st n b)
  | .next id => next st id

def run (st : St) : List Act → Out
  | [] => .ok st
  | a :: as =>
    match step st a with
    | .ok st' => run st' as
    | o => o

def Reachable (st : St) : Prop := ∃ as, run init as = .ok st

end Verif.StreamSub
