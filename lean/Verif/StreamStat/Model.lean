/-!
# Statistics of streams and of their clients (ldms/src/core/ldms_stream.c)

Names of streams, addresses of sources and clients are numbers; clients are numbered in the order of their subscription.  A delivery is one action:
what callbacks of other deliveries do in between is the subject of `StreamSub`; only the level of the statistics may be set while it runs.  Times are
numbers of nanoseconds: `__TIMESPEC_LT`, 92-95, compares the seconds first, and there are less than 10^9 nanoseconds.  There is always memory.
The list of streams is in the order of their creation, not of their names, and the text that is made of the statistics (1609-1740) is left out.
Line numbers are those of ldms/src/core/ldms_stream.c unless another file is named.  `log` is not in the code: it is what the specification speaks about.
-/

namespace Verif.StreamStat

/-- use of `now` before it is set, use of the client of an entry that has none -/
inductive Fault
  | uninit
  | noClient
  deriving DecidableEq, Repr

abbrev Out := Except Fault

/-- `__TIMESPEC_MAX`, 91 -/
def TMAX : Nat := 9223372036854775807 * 1000000000 + 999999999

/-- `struct ldms_stream_counters_s`, ldms.h:1224-1229 -/
structure Ctr where
  first : Nat
  last : Nat
  count : Nat
  bytes : Nat
  deriving DecidableEq, Repr

/-- `LDMS_STREAM_COUNTERS_INITIALIZER`, ldms.h:1231 -/
def zero : Ctr := ⟨TMAX, 0, 0, 0⟩

/-- `__counters_update`, 420-429 -/
def update (c : Ctr) (now bytes : Nat) : Ctr :=
  ⟨if now < c.first then now else c.first, if c.last < now then now else c.last, (c.count + 1) % 2 ^ 64, (c.bytes + bytes) % 2 ^ 64⟩

/-- an exact name or a regular expression -/
inductive Match
  | exact (name : Nat)
  | regex (p : Nat → Bool)

def Match.isRegex : Match → Bool
  | .exact _ => false
  | .regex _ => true

/-- `struct ldms_stream_client_s`, ldms_stream.h:94-125; `isLocal` is `x == NULL` -/
structure Client where
  m : Match
  isLocal : Bool
  isOpen : Bool
  tx : Ctr
  drops : Ctr

/-- `struct ldms_stream_client_entry_s`, ldms_stream.h:77-92; `bound` is `client != NULL` -/
structure Ent where
  client : Nat
  bound : Bool
  tx : Ctr
  drops : Ctr
  deriving DecidableEq, Repr

/-- `struct ldms_stream_s`, ldms_stream.h:67-75 -/
structure Stream where
  name : Nat
  rx : Ctr
  srcs : List (Nat × Ctr)
  ents : List Ent
  deriving DecidableEq, Repr

/-- what happened: a message came (with the level of the statistics), a client's function was called and succeeded or failed, statistics were reset -/
inductive Ev
  | recv (name src bytes now : Nat) (level : Int)
  | call (name client : Nat) (failed : Bool) (bytes now : Nat) (level : Int)
  | resetStream (name : Nat)
  | resetClient (client : Nat)
  | resetAll
  deriving DecidableEq, Repr

/-- `regexq` is `__regex_client_tq`; `log`: the newest first -/
structure St where
  level : Int
  clients : List Client
  streams : List Stream
  regexq : List Nat
  log : List Ev

/-- the level is 1 at the beginning, 100 -/
def init : St := ⟨1, [], [], [], []⟩

def covers (cs : List Client) (c name : Nat) : Bool :=
  match cs[c]? with
  | some k => match k.m with | .exact n => n == name | .regex p => p name
  | none => false

/-- `__client_stream_bind`, 361-388 -/
def entry (c : Nat) : Ent := ⟨c, true, zero, zero⟩

/-- `__stream_get`, 300-353 -/
def streamGet (st : St) (name : Nat) : St :=
  if st.streams.any (fun s => s.name == name) then st
  else { st with streams := st.streams ++ [⟨name, zero, [], (st.regexq.filter (covers st.clients · name)).map entry⟩] }

def bind (c : Nat) (s : Stream) : Stream := { s with ents := s.ents ++ [entry c] }

/-- `ldms_stream_subscribe`, 917-943, with `__client_subscribe`, 824-869, and `__client_alloc`, 871-909 -/
def subscribe (st : St) (m : Match) (isLocal : Bool) : St :=
  let c := st.clients.length
  match m with
  | .regex p =>
    { st with
      clients := st.clients ++ [⟨m, isLocal, true, zero, zero⟩]
      regexq := st.regexq ++ [c]
      streams := st.streams.map fun s => if p s.name then bind c s else s }
  | .exact n =>
    let st := streamGet st n
    { st with
      clients := st.clients ++ [⟨m, isLocal, true, zero, zero⟩]
      streams := st.streams.map fun s => if s.name = n then bind c s else s }

/-- `__client_stream_unbind`, 390-414 -/
def unbind (c : Nat) (s : Stream) : Stream := { s with ents := s.ents.map fun e => if e.client = c then { e with bound := false } else e }

/-- `ldms_stream_close`, 945-960 -/
def close (st : St) (c : Nat) : St :=
  { st with
    clients := st.clients.modify c fun k => { k with isOpen := false }
    streams := st.streams.map (unbind c)
    regexq := st.regexq.erase c }

/-- the statistics of a source, 479-497 -/
def bump (srcs : List (Nat × Ctr)) (src now bytes : Nat) : List (Nat × Ctr) :=
  if srcs.any (fun p => p.1 == src) then srcs.map fun p => if p.1 = src then (p.1, update p.2 now bytes) else p
  else srcs ++ [(src, update zero now bytes)]

def isLocal (cs : List Client) (c : Nat) : Bool :=
  match cs[c]? with
  | some k => k.isLocal
  | none => false

/-- the loop over the clients, 504-543.  `now` is not set if the level was 0 or less when the delivery began.  `bad`: the message is a JSON text that cannot be parsed,
which ends the loop at the first client of this process.  The last result: an entry without a client was seen (`gc`). -/
def loop (level : Int) (now : Option Nat) (name bytes : Nat) (bad : Bool) (fails : Nat → Bool) :
    List Ent → List Client → List Ev → Out (List Ent × List Client × List Ev × Bool)
  | [], cs, log => .ok ([], cs, log, false)
  | e :: es, cs, log =>
    if !e.bound then
      match loop level now name bytes bad fails es cs log with
      | .error x => .error x
      | .ok (es, cs, log, _) => .ok (e :: es, cs, log, true)
    else if bad && isLocal cs e.client then .ok (e :: es, cs, log, false)
    else if 0 < level then
      match now with
      | none => .error .uninit
      | some t =>
        let f := fails e.client
        let e' := if f then { e with drops := update e.drops t bytes } else { e with tx := update e.tx t bytes }
        let cs := cs.modify e.client fun k => if f then { k with drops := update k.drops t bytes } else { k with tx := update k.tx t bytes }
        match loop level now name bytes bad fails es cs (.call name e.client f bytes t level :: log) with
        | .error x => .error x
        | .ok (es, cs, log, gc) => .ok (e' :: es, cs, log, gc)
    else
      match loop level now name bytes bad fails es cs (.call name e.client (fails e.client) bytes 0 level :: log) with
      | .error x => .error x
      | .ok (es, cs, log, gc) => .ok (e :: es, cs, log, gc)

/-- the statistics of the stream, 473-499 -/
def received (level : Int) (src now bytes : Nat) (s : Stream) : Stream :=
  if level ≤ 0 then s
  else { s with rx := update s.rx now bytes, srcs := if 1 < level then bump s.srcs src now bytes else s.srcs }

/-- `__stream_deliver`, 433-563.  `fails`: which clients' functions fail; `relevel`: the level is set to this before the first of them is called. -/
def deliver (st : St) (name src bytes now : Nat) (bad : Bool) (fails : Nat → Bool) (relevel : Option Int) : Out St :=
  let st := streamGet st name
  match st.streams.find? (fun s => s.name == name) with
  | none => .ok st
  | some s =>
    let level := relevel.getD st.level
    match loop level (if st.level ≤ 0 then none else some now) name bytes bad fails s.ents st.clients (.recv name src bytes now st.level :: st.log) with
    | .error x => .error x
    | .ok (es, cs, log, gc) =>
      let s' := { received st.level src now bytes s with ents := if gc then es.filter (·.bound) else es }
      .ok { st with level := level, clients := cs, streams := st.streams.map (fun x => if x.name = name then s' else x), log := log }

/-- `struct ldms_stream_stats_s`, ldms.h:1260-1267 -/
structure StreamRep where
  name : Nat
  rx : Ctr
  srcs : List (Nat × Ctr)
  pairs : List (Nat × Ctr × Ctr)
  deriving DecidableEq, Repr

/-- `__stream_get_stats`, 1465-1519: what is returned.  The client of every entry is read, 1489, and an entry may have none. -/
def streamRep (s : Stream) : Out StreamRep :=
  if s.ents.all (·.bound) then .ok ⟨s.name, s.rx, s.srcs, s.ents.map fun e => (e.client, e.tx, e.drops)⟩ else .error .noClient

/-- `__stream_get_stats`: the reset, 1440, 1501, 1505 -/
def resetStream (s : Stream) : Stream :=
  { s with rx := zero, srcs := s.srcs.map (fun p => (p.1, zero)), ents := s.ents.map (fun e => { e with tx := zero }) }

def streamReps : List Stream → Out (List StreamRep)
  | [] => .ok []
  | s :: ss =>
    match streamRep s with
    | .error x => .error x
    | .ok r =>
      match streamReps ss with
      | .error x => .error x
      | .ok rs => .ok (r :: rs)

/-- `ldms_stream_stats_tq_get`, 1521-1595, for the streams that are asked for; no streams is `ENOENT`, which is written as `[]`, 1806-1812 -/
def readStreams (st : St) (sel : Nat → Bool) (reset : Bool) : Out (St × List StreamRep) :=
  match streamReps (st.streams.filter fun s => sel s.name) with
  | .error x => .error x
  | .ok rs =>
    .ok (if reset then
      { st with
        streams := st.streams.map fun s => if sel s.name then resetStream s else s
        log := ((st.streams.filter fun s => sel s.name).map fun s => Ev.resetStream s.name) ++ st.log }
      else st, rs)

/-- the clients that `ldms_stream_client_stats_tq_get`, 1888-1946, and `ldms_stream_n_client_stats_reset`, 1744-1798, come to: those of the queue, and the
others that have an entry in a stream -/
def visited (st : St) (c : Nat) : Bool :=
  match st.clients[c]? with
  | none => false
  | some k => st.regexq.contains c || (!k.m.isRegex && st.streams.any fun s => s.ents.any fun e => e.client == c && e.bound)

/-- `struct ldms_stream_client_stats_s`, ldms.h:1271-1280 -/
structure ClientRep where
  client : Nat
  tx : Ctr
  drops : Ctr
  pairs : List (Nat × Ctr × Ctr)
  deriving DecidableEq, Repr

/-- the entries of a client, `stream_tq` -/
def pairsOf (st : St) (c : Nat) : List (Nat × Ctr × Ctr) :=
  st.streams.flatMap fun s => (s.ents.filter fun e => e.client == c).map fun e => (s.name, e.tx, e.drops)

/-- `ldms_stream_client_get_stats`, 1820-1874: what is returned -/
def clientRep (st : St) (c : Nat) : List ClientRep :=
  match st.clients[c]? with
  | none => []
  | some k => [⟨c, k.tx, k.drops, pairsOf st c⟩]

/-- both counters of a client or of an entry, 1842-1843, 1859-1860 -/
def resetC (k : Client) : Client := { k with tx := zero, drops := zero }
def resetE (e : Ent) : Ent := { e with tx := zero, drops := zero }

def resetIf (p : Nat → Bool) : Nat → List Client → List Client
  | _, [] => []
  | i, k :: ks => (if p i then resetC k else k) :: resetIf p (i + 1) ks

/-- `ldms_stream_client_stats_tq_get`, 1888-1946; the order of the clients and of their streams is not that of the code -/
def readClients (st : St) (reset : Bool) : St × List ClientRep :=
  let cs := (List.range st.clients.length).filter (visited st)
  (if reset then
    { st with
      clients := resetIf (visited st) 0 st.clients
      streams := st.streams.map fun s => { s with ents := s.ents.map fun e => if visited st e.client then resetE e else e }
      log := cs.map .resetClient ++ st.log }
   else st, cs.flatMap (clientRep st))

/-- `ldms_stream_n_client_stats_reset`, 1744-1798 -/
def resetAll (st : St) : St :=
  { st with
    clients := resetIf (visited st) 0 st.clients
    streams := st.streams.map fun s =>
      { s with
        rx := zero
        srcs := s.srcs.map fun p => (p.1, zero)
        ents := s.ents.map fun e => if visited st e.client && (e.bound || st.regexq.contains e.client) then resetE e else e }
    log := .resetAll :: st.log }

inductive Act
  | subscribe (m : Match) (isLocal : Bool)
  | close (c : Nat)
  | deliver (name src bytes now : Nat) (bad : Bool) (fails : Nat → Bool) (relevel : Option Int)
  | setLevel (level : Int)
  | readStreams (sel : Nat → Bool) (reset : Bool)
  | readClients (reset : Bool)
  | resetAll

def step (st : St) : Act → Out St
  | .subscribe m l => .ok (subscribe st m l)
  | .close c => .ok (close st c)
  | .deliver n s b t j f l => deliver st n s b t j f l
  | .setLevel l => .ok { st with level := l }
  | .readStreams sel r => (readStreams st sel r).map (·.1)
  | .readClients r => .ok (readClients st r).1
  | .resetAll => .ok (resetAll st)

def run (st : St) : List Act → Out St
  | [] => .ok st
  | a :: as =>
    match step st a with
    | .error x => .error x
    | .ok st => run st as

/-- the states without a fault before -/
def Reachable (st : St) : Prop := ∃ as, run init as = .ok st

end Verif.StreamStat
