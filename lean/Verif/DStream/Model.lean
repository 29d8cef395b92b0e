/-!
# Streams of the daemon (ldms/src/ldmsd/ldmsd_stream.c)

Names and functions are numbers; a buffer of a caller is a number, and `mem` says which name is in it.  There is memory.  Each call holds the lock of its stream, so that calls
are single steps except for the time between looking a stream up and making it (see `Micro`).  Counters are natural numbers.  Line numbers are those of ldmsd_stream.c.
`calls` is not in the code: it is what the functions of the clients have seen.
-/

namespace Verif.DStream

/-- `struct ldmsd_stream_info_s`, 31-36 -/
structure Info where
  first : Nat
  last : Nat
  count : Nat
  bytes : Nat
  deriving DecidableEq, Repr

/-- `struct ldmsd_stream_client_s`, 47-53; `raw`: `c_flags` is not 0 -/
structure Client where
  handle : Nat
  fn : Nat
  ctxt : Nat
  raw : Bool
  deriving DecidableEq, Repr

/-- `struct ldmsd_stream_publisher_s`, 38-44; `key`: the buffer that the node of the tree points to, 125 -/
structure Publ where
  key : Nat
  name : Nat
  info : Info
  deriving DecidableEq, Repr

/-- `struct ldmsd_stream_s`, 60-68 -/
structure Stream where
  name : Nat
  clients : List Client
  recv : Info
  pub : Info
  publs : List Publ
  deriving DecidableEq, Repr

/-- a message: its text, its length, whether its type is JSON, whether the caller gives the parsed object too, and whether the text can be parsed -/
structure Msg where
  text : Nat
  len : Nat
  json : Bool
  given : Bool
  good : Bool
  deriving DecidableEq, Repr

/-- a call of the function of a client; `object`: with a parsed object -/
structure Call where
  handle : Nat
  msg : Msg
  object : Bool
  deriving DecidableEq, Repr

structure St where
  streams : List Stream
  next : Nat
  mem : Nat → Nat
  calls : List Call

/-- `calloc`, 89 -/
def Info.zero : Info := ⟨0, 0, 0, 0⟩

/-- `__new_stream`, 87-107 -/
def fresh (name : Nat) : Stream := ⟨name, [], Info.zero, Info.zero, []⟩

def init : St := ⟨[], 0, id, []⟩

/-- 267-271, 375-379, 506-510 -/
def tick (i : Info) (now len : Nat) : Info :=
  ⟨if i.first = 0 then now else i.first, now, i.count + 1, i.bytes + len⟩

/-- the loop of `ldmsd_stream_deliver`, 273-288; `obj`: `entity` is there, `tried`: there is a parser -/
def visit (m : Msg) : List Client → (obj tried : Bool) → List Call
  | [], _, _ => []
  | c :: cs, obj, tried =>
    if m.json && !c.raw && !obj && !tried then
      if m.good then ⟨c.handle, m, true⟩ :: visit m cs true true
      else visit m cs false true
    else ⟨c.handle, m, obj⟩ :: visit m cs obj tried

/-- `ldmsd_stream_deliver`, 290-302, with `__find_publisher`, 133-140, and `__new_publisher`, 115-130: names are compared with what is now in the buffers of the keys -/
def note (mem : Nat → Nat) (b now len : Nat) : List Publ → List Publ
  | [] => [⟨b, mem b, ⟨now, now, 1, len⟩⟩]
  | p :: ps =>
    if mem p.key = mem b then { p with info := ⟨p.info.first, now, p.info.count + 1, p.info.bytes + len⟩ } :: ps
    else p :: note mem b now len ps

/-- `ldmsd_stream_deliver`, 267-308, on its stream -/
def deliverAt (mem : Nat → Nat) (m : Msg) (now : Nat) (from_ : Option Nat) (s : Stream) : Stream × List Call :=
  ({ s with
      recv := tick s.recv now m.len
      publs := match from_ with
        | none => s.publs
        | some b => note mem b now m.len s.publs },
    visit m s.clients m.given false)

/-- `ldmsd_stream_subscribe`, 329-343, on its stream -/
def subscribeAt (h fn ctxt : Nat) (s : Stream) : Stream × Bool :=
  if s.clients.any (fun c => c.fn == fn && c.ctxt == ctxt) then (s, false)
  else ({ s with clients := ⟨h, fn, ctxt, false⟩ :: s.clients }, true)

/-- `ldmsd_stream_publish`, 506-510, on its stream -/
def publishAt (len now : Nat) (s : Stream) : Stream × Unit := ({ s with pub := tick s.pub now len }, ())

/-- `__find_stream`, 73-85, `__new_stream` if there is none, and `f` under the lock of the stream -/
def onStream {α : Type} (name : Nat) (f : Stream → Stream × α) : List Stream → List Stream × α
  | [] => ([(f (fresh name)).1], (f (fresh name)).2)
  | s :: ss =>
    if s.name = name then ((f s).1 :: ss, (f s).2)
    else (s :: (onStream name f ss).1, (onStream name f ss).2)

/-- `ldmsd_stream_new`, 201-214: no stream is changed -/
def new (st : St) (name : Nat) : St := { st with streams := (onStream name (fun s => (s, ())) st.streams).1 }

/-- `ldmsd_stream_subscribe`, 311-349; the handle is new for each call -/
def subscribe (st : St) (name fn ctxt : Nat) : St × Option Nat :=
  let r := onStream name (subscribeAt st.next fn ctxt) st.streams
  ({ st with streams := r.1, next := st.next + 1 }, if r.2 then some st.next else none)

/-- `ldmsd_stream_close`, 383-389 -/
def close (st : St) (h : Nat) : St :=
  { st with streams := st.streams.map fun s => { s with clients := s.clients.filter fun c => c.handle != h } }

/-- `ldmsd_stream_flags_set`, 351-354 -/
def setRaw (st : St) (h : Nat) (raw : Bool) : St :=
  { st with streams := st.streams.map fun s => { s with clients := s.clients.map fun c => if c.handle = h then { c with raw := raw } else c } }

/-- `ldmsd_stream_deliver`, 249-309 -/
def deliver (st : St) (name : Nat) (m : Msg) (now : Nat) (from_ : Option Nat) : St :=
  let r := onStream name (deliverAt st.mem m now from_) st.streams
  { st with streams := r.1, calls := st.calls ++ r.2 }

/-- `ldmsd_stream_publish`, 454-517, when the message was sent: an empty one is not, 467-468 -/
def publish (st : St) (name len now : Nat) : St :=
  if len = 0 then st else { st with streams := (onStream name (publishAt len now) st.streams).1 }

/-- `ldmsd_stream_stats_reset_all`, 1040-1051 -/
def reset (st : St) : St :=
  { st with streams := st.streams.map fun s => { s with recv := Info.zero, pub := Info.zero } }

/-- `ldmsd_stream_subscriber_count`, 235-247 -/
def subscriberCount (st : St) (name : Nat) : Nat :=
  match st.streams.find? fun s => s.name = name with
  | none => 0
  | some s => s.clients.length

/-- `ldmsd_stream_dir_dump`, 980-981, 984-989: the overall statistics of what was received -/
def addRecv (t i : Info) : Info :=
  ⟨if t.first = 0 then i.first else if t.first > i.first then i.first else t.first, if t.last < i.last then i.last else t.last, t.count + i.count, t.bytes + i.bytes⟩

/-- `ldmsd_stream_dir_dump`, 982-983, 990-995: of what was published -/
def addPub (t i : Info) : Info :=
  ⟨if t.first = 0 then i.first else if i.first ≠ 0 ∧ t.first > i.first then i.first else t.first, if t.last < i.last then i.last else t.last, t.count + i.count, t.bytes + i.bytes⟩

def overallRecv (ss : List Stream) : Info := (ss.map Stream.recv).foldl addRecv Info.zero
def overallPub (ss : List Stream) : Info := (ss.map Stream.pub).foldl addPub Info.zero

/-- `__stream_info_json`, 868-894: nothing is shown if the first time is 0 -/
def shown (i : Info) : Option Info := if i.first = 0 then none else some i

inductive Act
  | new (name : Nat)
  | subscribe (name fn ctxt : Nat)
  | close (h : Nat)
  | setRaw (h : Nat) (raw : Bool)
  | deliver (name : Nat) (m : Msg) (now : Nat) (from_ : Option Nat)
  | publish (name len now : Nat)
  | reset
  | write (b name : Nat)
  deriving DecidableEq

/-- a call of the interface; `write`: a caller puts another name into a buffer -/
def step (st : St) : Act → St
  | .new n => new st n
  | .subscribe n f x => (subscribe st n f x).1
  | .close h => close st h
  | .setRaw h r => setRaw st h r
  | .deliver n m t b => deliver st n m t b
  | .publish n l t => publish st n l t
  | .reset => reset st
  | .write b n => { st with mem := fun c => if c = b then n else st.mem c }

/-- a history, the newest call first -/
def run : List Act → St
  | [] => init
  | a :: as => step (run as) a

/-! ## Calls of several threads -/

/-- a call that changes one stream -/
inductive Op
  | subscribe (fn ctxt : Nat)
  | deliver (m : Msg) (now : Nat) (from_ : Option Nat)

/-- what a thread does with the stream it has locked -/
def opAt (st : St) (o : Op) (s : Stream) : Stream × List Call :=
  match o with
  | .subscribe f x => ((subscribeAt st.next f x s).1, [])
  | .deliver m now b => deliverAt st.mem m now b s

/-- threads between looking a stream up and making it (`missed`), and between making it and locking it (`made`: the place of the stream) -/
structure MSt where
  st : St
  missed : List Nat
  made : List Nat

/-- `hit`: the stream is found and locked, 73-85; `miss`: it is not found; `make`: 99-101; `late`: 265, 327 -/
inductive Micro
  | hit (name : Nat) (o : Op)
  | miss (name : Nat)
  | make (name : Nat)
  | late (place : Nat) (o : Op)

def change (ss : List Stream) (i : Nat) (f : Stream → Stream) : List Stream :=
  match ss, i with
  | [], _ => []
  | s :: ss, 0 => f s :: ss
  | s :: ss, i + 1 => s :: change ss i f

def opOn (st : St) (i : Nat) (o : Op) : St :=
  { st with
    streams := change st.streams i fun s => (opAt st o s).1
    next := st.next + 1
    calls := st.calls ++ ((st.streams[i]?).map fun s => (opAt st o s).2).getD [] }

def micro (ms : MSt) : Micro → MSt
  | .hit n o =>
    match ms.st.streams.findIdx? fun s => s.name = n with
    | none => ms
    | some i => { ms with st := opOn ms.st i o }
  | .miss n => if (ms.st.streams.find? fun s => s.name = n) = none then { ms with missed := n :: ms.missed } else ms
  | .make n =>
    if n ∈ ms.missed then
      { st := { ms.st with streams := ms.st.streams ++ [fresh n] }, missed := ms.missed.erase n, made := ms.st.streams.length :: ms.made }
    else ms
  | .late i o => if i ∈ ms.made then { ms with st := opOn ms.st i o, made := ms.made.erase i } else ms

end Verif.DStream
