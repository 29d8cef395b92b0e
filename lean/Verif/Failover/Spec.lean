import Verif.Failover.Model

/-!
# Words for the properties of failover
-/

namespace Verif.Failover

/-- The objects of the peer that the daemon has, by kind. -/
def objs (f : F) : Kind → List Obj
  | .prdcr => f.prdcrs
  | .updtr => f.updtrs
  | .strgp => f.strgps

/-- The daemon has the object of the peer. -/
def Has (f : F) (k : Kind) (n : Name) : Prop := ∃ o ∈ objs f k, o.name = n

/-- The daemon runs the object of the peer. -/
def Runs (f : F) (k : Kind) (n : Name) : Prop := ∃ o ∈ objs f k, o.name = n ∧ o.started = true

/-- An answer of the peer to a ping that says that the peer does not run our
configuration. -/
def Good (v : Ev) : Prop := ∃ e, v = .pingResp e (some false)

/-- What happens when nothing is heard of the peer and the user does nothing: the
task runs, connections are made and end. -/
def Quiet : Ev → Prop
  | .task _ | .connected _ | .disconnected => True
  | _ => False

/-- From `f` the events lead to `f'`. -/
inductive Path : F → List Ev → F → Prop
  | nil (f : F) : Path f [] f
  | cons {f f1 f' tr} (v : Ev) : enabled f v → step f v = some f1 → Path f1 tr f' →
      Path f (v :: tr) f'

/-- Nobody stops the service, here or at the peer, and the configuration requests
are about names of the peer's objects. -/
def Calm : Ev → Prop
  | .stopCmd | .resetReq _ => False
  | .cfgReq _ _ n => isFailover n = true
  | _ => True

/-- Between `f` and `g` a ping was sent. -/
def PingSent (f g : F) : Prop := f.pend.count .ping < g.pend.count .ping

instance (f g : F) : Decidable (PingSent f g) := by unfold PingSent; infer_instance

/-- The time from `sent` to `now`; a clock that was set back gives a time close to
2^64. -/
def trip (sent now : Nat) : Nat := if now < sent then 2 ^ 64 + now - sent else now - sent

/-- When the last ping was sent, if before the step from `f` to `g` it was at `sent`. -/
def sentAt (sent : Nat) (f g : F) : Ev → Nat
  | .task e => if PingSent f g then e.now else sent
  | _ => sent

/-- The round trips of the pings answered along a run from `f`: the time of each answer
less the time at which a ping was sent last, which for the beginning is `sent`. -/
def trips (sent : Nat) : F → List Ev → List Nat
  | _, [] => []
  | f, v :: tr =>
    (match v with
      | .pingResp e _ => [trip sent e.now]
      | _ => []) ++
    (match step f v with
      | some g =>
        trips (sentAt sent f g v) g tr
      | none => [])

/-- The round trips of all pings answered so far. -/
def allTrips (tr : List Ev) : List Nat := trips 0 F.init tr

/-- The last eight of a list. -/
def lastEight (l : List Nat) : List Nat := l.drop (l.length - 8)

/-- At the time `now`, after the events `tr`, the last good answer `a` is older than the
ping interval and than each of the last eight round trips, both also when
multiplied by the factor (`g.num / g.den`) and when four standard deviations are
added.  `g` is the state in which the answer came. -/
def Overdue (tr : List Ev) (now : Nat) : Prop :=
  ∃ pre a post g, tr = pre ++ .pingResp a (some false) :: post ∧ (∀ v ∈ post, ¬ Good v) ∧
    Reach pre g ∧
    ∀ b, b = g.interval ∨ b ∈ lastEight (allTrips (pre ++ [.pingResp a (some false)])) →
      a.now + b ≤ now ∧ a.now + b * g.num / g.den ≤ now ∧ a.now + (b + a.sd4) ≤ now

/-- Two daemons, named `na` and `nb`, that are each other's peer.  A ping of one is
answered with what the other would say at that moment. -/
inductive Both (na nb : Name) : F → F → Prop
  | init : Both na nb F.init F.init
  | left {a b a'} (v : Ev) : Both na nb a b → enabled a v → step a v = some a' →
      (∀ e d, v = .pingResp e d → d = pingAnswer na b) → Both na nb a' b
  | right {a b b'} (v : Ev) : Both na nb a b → enabled b v → step b v = some b' →
      (∀ e d, v = .pingResp e d → d = pingAnswer nb a) → Both na nb a b'

/-- Run a list of events; for examples. -/
def run (f : F) : List Ev → Option F
  | [] => some f
  | v :: tr => if enabled f v then
      match step f v with
      | some f1 => run f1 tr
      | none => none
    else none

end Verif.Failover
