/-!
# Connection state of an active rail (ldms/src/core/ldms_rail.c)

A rail of `n` endpoints connects them all; every endpoint reports to `__rail_cb`, which keeps counters and a
rail state and tells the application.
-/

namespace Verif.RailConn

/-- `enum ldms_rail_ep_state` values used by an active rail and its endpoints (ldms_rail.h:85-107) -/
inductive EpSt where
  | connecting
  | connected
  | rejected
  | error
  | close
  deriving Repr, DecidableEq

/-- events the application sees -/
inductive Out where
  | connected
  | rejected
  | error
  | disconnected
  deriving Repr, DecidableEq

/-- The rail (`struct ldms_rail_s`) and the truth about its endpoints: `pending` and `up` list the endpoints
whose connection attempt is undecided and those that are connected.  `out` is what the application was told,
newest first. -/
structure St where
  n : Int
  state : EpSt
  ep : Nat → EpSt
  connectedEps : Int
  connectingEps : Int
  rejectedEps : Int
  connErrorEps : Int
  pending : List Nat
  up : List Nat
  out : List Out

/-- what happens to a rail -/
inductive Ev where
  /-- endpoint `i` connected -/
  | conn (i : Nat)
  /-- the peer rejected endpoint `i` -/
  | rej (i : Nat)
  /-- connecting endpoint `i` failed -/
  | err (i : Nat)
  /-- endpoint `i` disconnected -/
  | disc (i : Nat)
  /-- the application calls ldms_xprt_close -/
  | close
  deriving Repr, DecidableEq

/-- `__rail_connect` (ldms_rail.c:789-835): `k` of the `n` endpoints started connecting; with `k < n` a
connect call failed synchronously and the rail is in state ERROR. -/
def init (n k : Nat) : St :=
  { n := n, state := if k = n then .connecting else .error, ep := fun i => if i < k then .connecting else .error,
    connectedEps := 0, connectingEps := k, rejectedEps := 0, connErrorEps := 0,
    pending := List.range k, up := [], out := [] }

/-- `__rail_cut` (ldms_rail.c:280-297): close every connected endpoint.  The close itself is asynchronous; the
endpoint goes down with a later `disc`. -/
def cut (ep : Nat → EpSt) : Nat → EpSt := fun i => if ep i = .connected then .error else ep i

/-- `__rail_ev_prep` (ldms_rail.c:299-340) for an active rail -/
def evPrep (s : St) : St :=
  match s.state with
  | .connecting =>
    if s.connectedEps = s.n then { s with state := .connected, out := .connected :: s.out } else s
  | .rejected =>
    if s.connectedEps = 0 ∧ s.connectingEps = 0 then { s with out := .rejected :: s.out } else s
  | .error =>
    if s.connectedEps = 0 ∧ s.connectingEps = 0 then
      { s with out := (if s.connErrorEps ≠ 0 then .error else if s.rejectedEps ≠ 0 then .rejected
          else .disconnected) :: s.out }
    else s
  | _ => s

/-- a point update -/
def setEp (f : Nat → EpSt) (i : Nat) (a : EpSt) : Nat → EpSt := fun j => if j = i then a else f j

/-- events the transport can produce: an undecided endpoint is decided once, a connected one goes down once -/
def legal (s : St) : Ev → Prop
  | .conn i | .rej i | .err i => i ∈ s.pending
  | .disc i => i ∈ s.up
  | .close => True

/-- One event handled by `__rail_cb` (ldms_rail.c:361-524) or `__rail_close` (890-904).  `none`: an assertion
fails and the process aborts.  Reference counts and the passive-rail tree are left out. -/
def step (s : St) : Ev → Option St
  | .conn i =>
    let s1 := { s with ep := setEp s.ep i .connected, connectedEps := s.connectedEps + 1,
                       connectingEps := s.connectingEps - 1, pending := s.pending.erase i, up := i :: s.up }
    match s.state with
    | .connecting => some (evPrep s1)
    | .error => some (evPrep { s1 with ep := setEp s1.ep i .error })
    | _ => none
  | .rej i =>
    if s.ep i = .connecting then
      let s1 := { s with connectingEps := s.connectingEps - 1, rejectedEps := s.rejectedEps + 1,
                         state := .rejected, ep := cut (setEp s.ep i .rejected),
                         pending := s.pending.erase i }
      some (evPrep s1)
    else none
  | .err i =>
    if s.ep i = .connecting then
      let s1 := { s with connectingEps := s.connectingEps - 1, connErrorEps := s.connErrorEps + 1,
                         state := .error, ep := cut (setEp s.ep i .error),
                         pending := s.pending.erase i }
      some (evPrep s1)
    else none
  | .disc i =>
    let st := if s.state = .connected then .error else s.state
    let s1 := { s with state := st, connectedEps := s.connectedEps - 1, up := s.up.erase i }
    match s.ep i with
    | .connected => some (evPrep { s1 with ep := cut (setEp s.ep i .close) })
    | .error => some (evPrep { s1 with ep := cut s.ep })
    | _ => none
  | .close => some { s with state := .error, ep := cut s.ep }

end Verif.RailConn
