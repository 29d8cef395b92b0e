import Verif.XprtAuth.Model

/-!
# What is said about authentication

In terms of what comes from the peer, what goes to it, and what the application is told.
-/

namespace Verif.XprtAuth

/-- the events about the connection itself -/
def isConn : App → Bool
  | .connected => true
  | .rejected => true
  | .error => true
  | .disconnected => true
  | _ => false

def conns (l : List App) : List App := l.filter isConn

/-- the state of the connection below, as seen in the zap events -/
inductive Ph where
  | idle
  | up
  | done
  deriving Repr, DecidableEq

/-- the order in which a zap transport reports (proved of the socket transport: `Verif.ZapEp`) -/
def next : Ph → Ev → Option Ph
  | .idle, .connected _ _ _ => some .up
  | .idle, .connectError => some .done
  | .idle, .rejected => some .done
  | .up, .recv _ _ => some .up
  | .up, .sendComplete _ => some .up
  | .up, .rendezvous => some .up
  | .up, .disconnected => some .done
  | p, .ask _ => some p
  | p, .close => some p
  | _, _ => none

def phase (p : Ph) : List Ev → Option Ph
  | [] => some p
  | e :: es => match next p e with
    | none => none
    | some p' => phase p' es

/-- an authentication message that carries the digest `h` as an answer to a challenge -/
def IsReply (m : Msg) (h : List Nat) : Prop := m.cmd = cmdAuth ∧ ovisReply h <+: m.body

/-- an authentication message that carries the challenge `c` -/
def IsChal (m : Msg) (c : Nat) : Prop :=
  m.cmd = cmdAuth ∧ [1, 0, 0, 0] <+: m.body ∧ 12 ≤ m.body.length ∧ beVal ((m.body.drop 4).take 8) = c

/-- The peer has shown in the history `es` what the plugin asks for, as user `u` and group `v`:
nothing for `none`; a credential of the right size for `naive`; for `ovis` the digest of the challenge
issued at CONNECTED with this side's secret; for `munge` a credential the MUNGE library vouches for. -/
def Shown (g : Cfg) (es : List Ev) (u v : Nat) : Prop :=
  match g.plugin with
  | .none => u = 0 ∧ v = 0
  | .naive => ∃ m ok, Ev.recv m ok ∈ es ∧ m.cmd = cmdAuth ∧ m.len = 8 ∧ 8 ≤ m.body.length ∧
      u = beVal (m.body.take 4) ∧ v = beVal ((m.body.drop 4).take 4)
  | .ovis => u = 0 ∧ v = 0 ∧ ∃ c w ok m ok', Ev.connected w c ok ∈ es ∧ Ev.recv m ok' ∈ es ∧
      IsReply m (g.H c g.secret)
  | .munge => ∃ m ok, Ev.recv m ok ∈ es ∧ m.cmd = cmdAuth ∧ g.munge m.body = some (u, v)

/-- no authentication message comes after the application was told CONNECTED -/
def NoLateAuth (g : Cfg) (es : List Ev) : Prop :=
  ∀ pre m ok post x, es = pre ++ .recv m ok :: post → m.cmd = cmdAuth →
    run g {} pre = some x → App.connected ∉ x.out

/-- The intruder has no other way to the digests of the secret than to hear them from those who hold it:
a message with such a digest, delivered anywhere, repeats one that was sent before. -/
def NoSecret (g : Nat → Cfg) (H : Nat → List Nat → List Nat) (s : List Nat) (tr : List (Nat × Ev)) : Prop :=
  ∀ pre i m ok post c, tr = pre ++ (i, .recv m ok) :: post → IsReply m (H c s) →
    ∃ w j m', wrun g (fun _ => {}) pre = some w ∧ m' ∈ (w j).sent ∧ IsReply m' (H c s)

end Verif.XprtAuth
