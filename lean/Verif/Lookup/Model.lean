/-!
# Looking sets up (`ldms/src/core/ldms_xprt.c`, `ldms_rail.c`)

The daemon that is asked and the one that asks.  A set is its name and its schema.  The descriptions of the set
that go with a reply (see `Verif/SetInfo`, `Verif/Layout`), the references held by the two sides (see
`Verif/Ref`) and the end of the connection are not modelled.
-/

namespace Verif.Lookup

abbrev Text := List Char

structure SetR where
  name : Text
  schema : Text
deriving DecidableEq

def ENOENT : Nat := 2
def ENOMEM : Nat := 12
def EEXIST : Nat := 17
def EINVAL : Nat := 22
def EREMOTEIO : Nat := 121

/-! ## The daemon that is asked -/

/-- What is outside: `comp` is `regcomp` with `regexec`, `acc` is `ldms_access_check` for reading
(ldms_xprt.c:1417-1424), `shareRc` is what `zap_share` gives for the set, `peerRc` what `__add_lookup_peer`
(ldms_xprt.c:1220-1292) gives. -/
structure Env where
  comp : Text → Option (Text → Bool)
  acc : SetR → Bool
  shareRc : SetR → Nat
  peerRc : SetR → Nat

/-- What is sent to the peer: a set, with the flag that more come, or an error. -/
inductive Msg
  | share (s : SetR) (more : Bool)
  | err (rc : Nat)
deriving DecidableEq

/-- What the request does, in order: the lock of the tree of sets and the messages. -/
inductive Act
  | lock | unlock
  | send (m : Msg)
deriving DecidableEq

/-- `flags & LDMS_LOOKUP_BY_SCHEMA` (ldms.h:1561) -/
def fSchema (flags : Nat) : Bool := flags &&& 1 ≠ 0

/-- `flags & LDMS_LOOKUP_RE` (ldms.h:1562) -/
def fRe (flags : Nat) : Bool := flags &&& 2 ≠ 0

/-- `__send_lookup_reply` (ldms_xprt.c:1294-1387): what is sent and what is returned.  Memory is not short in it. -/
def sendReply (E : Env) (s : SetR) (more : Bool) : List Act × Nat :=
  if E.shareRc s ≠ 0 then ([], E.shareRc s)
  else ([.send (.share s more)], E.peerRc s)

/-- `__re_match` (ldms_xprt.c:1389-1405); `rx` is the compiled expression. -/
def reMatch (rx : Text → Bool) (flags : Nat) (path : Text) (s : SetR) : Bool :=
  let name := if fSchema flags then s.schema else s.name
  if fRe flags then rx name else path == name

/-- `__next_re_match` (ldms_xprt.c:1407-1415): the tree from the next set that matches. -/
def nextMatch (rx : Text → Bool) (flags : Nat) (path : Text) : List SetR → List SetR
  | [] => []
  | s :: l => if reMatch rx flags path s then s :: l else nextMatch rx flags path l

/-- How the loop ends: at an error, or at the end of the tree with whether a set was sent. -/
inductive LoopEnd
  | error (rc : Nat)
  | done (matched : Bool)
deriving DecidableEq

/-- The loop of `process_lookup_request_re` (ldms_xprt.c:1466-1483).  The number bounds the turns. -/
def loop (E : Env) (rx : Text → Bool) (flags : Nat) (path : Text) :
    Nat → List SetR → Bool → List Act × LoopEnd
  | 0, _, matched => ([], .done matched)
  | _ + 1, [], matched => ([], .done matched)
  | n + 1, s :: rest, matched =>
    let nxt := nextMatch rx flags path rest
    if !E.acc s then loop E rx flags path n nxt matched
    else
      let r := sendReply E s (!nxt.isEmpty)
      if r.2 ≠ 0 then (r.1, .error r.2)
      else
        let p := loop E rx flags path n nxt true
        (r.1 ++ p.1, p.2)

/-- `err_0` (ldms_xprt.c:1496-1509).  The send does not fail. -/
def err0 (rc : Nat) : List Act := [.send (.err rc)]

/-- `err_1` (ldms_xprt.c:1492-1495) -/
def err1 (rc : Nat) : List Act := .unlock :: err0 rc

/-- ldms_xprt.c:1458-1491 -/
def treeLookup (E : Env) (rx : Text → Bool) (flags : Nat) (path : Text) (tree : List SetR) : List Act :=
  match nextMatch rx flags path tree with
  | [] => .lock :: err1 ENOENT
  | s :: l =>
    let p := loop E rx flags path (tree.length + 1) (s :: l) false
    match p.2 with
    | .error rc => .lock :: p.1 ++ err1 rc
    | .done matched => .lock :: p.1 ++ .unlock :: (if matched then [] else err1 ENOENT)

/-- `process_lookup_request_re` (ldms_xprt.c:1426-1510); the tree is in the order of its keys, the names
(ldms.c:188-220). -/
def request (E : Env) (flags : Nat) (path : Text) (tree : List SetR) : List Act :=
  if fRe flags then
    match E.comp path with
    | none => err0 EINVAL
    | some rx => treeLookup E rx flags path tree
  else if !fSchema flags then
    match tree.find? (fun s => s.name == path) with
    | none => .lock :: err1 ENOENT
    | some s =>
      let r := sendReply E s false
      .lock :: .unlock :: r.1 ++ (if r.2 ≠ 0 then err1 r.2 else [])
  else treeLookup E (fun _ => false) flags path tree

/-! ## The daemon that asks -/

/-- A call of the application's function: its status, `more` and the set. -/
structure Call where
  rc : Nat
  more : Bool
  set : Option Text
deriving DecidableEq

inductive Fault
  | null | freed
deriving DecidableEq

/-- The state: the names of the sets there are, whether the context of the request has not been freed (`live`), nor that
of the rail (`rail`), the reads of sets under way with their `more`, the calls made, and whether the program
has done what it may not. -/
structure Client where
  held : List Text
  live : Bool
  rail : Bool
  reads : List (Text × Bool)
  calls : List Call
  fault : Option Fault
deriving DecidableEq

/-- The request has been sent (ldms_xprt.c:3672-3739, ldms_rail.c:1109-1140). -/
def asked (held : List Text) : Client := ⟨held, true, true, [], [], none⟩

/-- `__ldms_xprt_lookup` and `__ldms_remote_lookup` as far as they refuse (ldms_xprt.c:3672-3692, 3751-3757), with
whether there is a function to call; 0 if the request is sent. -/
def refuse (held : List Text) (path : Text) (flags : Nat) (cb : Bool) : Nat :=
  if flags &&& (if cb then 0 else 1) ≠ 0 ∨ path.length > 511 then EINVAL
  else if path ∈ held then EEXIST
  else 0

/-- `__rail_lookup_cb` (ldms_rail.c:1100-1107) -/
def callback (c : Client) (k : Call) : Client :=
  if !c.rail then { c with fault := some .freed }
  else { c with calls := c.calls ++ [k], rail := k.more }

/-- The label `callback` of `handle_rendezvous_lookup` (ldms_xprt.c:2712-2739), and `process_lookup_reply`
(ldms_xprt.c:1731-1757) for an error. -/
def failed (c : Client) (rc : Nat) : Client :=
  if !c.live then { c with fault := some .freed }
  else { callback c ⟨rc, false, none⟩ with live := false }

/-- `process_lookup_reply` (ldms_xprt.c:1731-1757) -/
def lookupReply (c : Client) (rc : Nat) : Client :=
  if rc = 0 then
    if !c.live then { c with fault := some .freed } else { c with live := false }
  else failed c rc

/-- What happens to a set that comes, by its name: it is not created (`createRc`, not 0), its read is not started
(`readRc`, not 0), the read is under way and will fail or not (`readOk`). -/
structure World where
  createRc : Text → Nat
  readRc : Text → Nat
  readOk : Text → Bool

/-- `handle_rendezvous_lookup` (ldms_xprt.c:2625-2740); memory for the read's context is not short. -/
def rendezvous (W : World) (c : Client) (name : Text) (more : Bool) : Client :=
  if name ∈ c.held then { c with fault := some .null }
  else if W.createRc name ≠ 0 then failed c (W.createRc name)
  else if !c.live then { c with fault := some .freed }
  else if W.readRc name ≠ 0 then failed c (W.readRc name)
  else { c with held := name :: c.held, reads := c.reads ++ [(name, more)], live := more }

/-- `__handle_lookup` (ldms_xprt.c:2464-2503), for the oldest read. -/
def readDone (W : World) (c : Client) : Client :=
  match c.reads with
  | [] => c
  | (name, more) :: rest =>
    if W.readOk name then callback { c with reads := rest } ⟨0, more, some name⟩
    else callback { c with reads := rest, held := c.held.filter (· ≠ name) } ⟨EREMOTEIO, more, none⟩

/-- What comes to the daemon that asks: the next message, or the end of the oldest read. -/
inductive Ev
  | message (m : Msg)
  | read

def step (W : World) (c : Client) (e : Ev) : Client :=
  if c.fault ≠ none then c
  else
    match e with
    | .message (.share s more) => rendezvous W c s.name more
    | .message (.err rc) => lookupReply c rc
    | .read => readDone W c

def run (W : World) (c : Client) (evs : List Ev) : Client := evs.foldl (step W) c

end Verif.Lookup
