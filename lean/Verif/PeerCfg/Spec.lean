import Verif.PeerCfg.Model

/-!
# Specification: what the other daemon of a pair has

What each object of a daemon is in the daemon that is its peer, told without the messages.
-/

namespace Verif.PeerCfg

open Verif.SetOwner (Str)
open Verif.Strgp (Pol Sel Who)

/-- a name with the prefix `#` is that of an object that came from the peer; the others are the daemon's own -/
def FromPeer (n : Str) : Prop := n.head? = some 35
instance (n : Str) : Decidable (FromPeer n) := inferInstanceAs (Decidable (n.head? = some 35))

/-- text that is sent as it is: bytes, without references to variables of the environment -/
structure Text (v : Str) : Prop where
  bytes : ∀ b ∈ v, b < 256
  noVar : ∀ a b, v ≠ a ++ 36 :: 123 :: b

/-- a name that is not cut -/
structure Name (n : Str) : Prop where
  text : Text n
  short : n.length ≤ 126

/-- A producer that the peer can make. -/
structure FinePrdcr (w : World) (p : Prdcr) : Prop where
  name : Name p.name
  host : Text p.host
  xprt : Text p.xprt
  stream : ∀ s ∈ p.streams, Text s
  distinct : p.streams.Nodup
  port : 0 < p.port ∧ p.port < 65536
  reconnect : 0 < p.reconnect ∧ p.reconnect < 2 ^ 31
  ids : p.uid < 2 ^ 32 ∧ p.gid < 2 ^ 32 ∧ p.perm < 2 ^ 32
  rail : 0 < p.rail ∧ p.rail < 2 ^ 31
  limits : p.credits.natAbs < 2 ^ 63 ∧ p.rate.natAbs < 2 ^ 63
  resolved : w.host p.host p.port = true

/-- A producer at the peer: active or passive, with the default authentication, and stopped. -/
def prdcrPeer (p : Prdcr) : Prdcr := { p with
  name := 35 :: p.name
  kind := if p.kind = .active then .active else .passive
  auth := NameTab.codes "DEFAULT"
  streams := p.streams.reverse
  conn := .stopped }

/-- the user may change an object with this owner, group and permissions -/
def Changes (w : World) (a : Who) (uid gid perm : Nat) : Prop :=
  Access.check (w.se.groups a.uid) a.uid a.gid 146 uid gid perm = true

/-- An updater that the peer can make, `ps` being the names of the daemon's own producers: its hint of an offset is not more than
half of its interval; the peer may change it if it has matches. -/
structure FineUpdtr (w : World) (ps : List Str) (u : Updtr) : Prop where
  name : Name u.name
  interval : 0 < u.hintIvl ∧ u.hintIvl < 2 ^ 53
  offset : u.sync = true → u.off.natAbs * 2 ≤ u.hintIvl
  ids : u.uid < 2 ^ 32 ∧ u.gid < 2 ^ 32 ∧ u.perm < 2 ^ 32
  there : ∀ p ∈ u.prdcrs, p ∈ ps
  distinct : u.prdcrs.Nodup
  regex : ∀ m ∈ u.mats, Text m.2 ∧ w.se.regexOk m.2 = true
  change : u.mats ≠ [] → Changes w w.peer u.uid u.gid u.perm

/-- An updater at the peer: not automatic; it is for pushed updates only if it has neither producers nor matches; its hint of an
offset is less by the skew; and it is stopped. -/
def updtrPeer (w : World) (u : Updtr) : Updtr := { u with
  name := 35 :: u.name
  auto := false
  push := if u.prdcrs = [] ∧ u.mats = [] ∧ u.push % 2 = 1 then (if u.push / 2 % 2 = 1 then 3 else 1) else 0
  ivl := u.hintIvl
  off := if u.sync then u.off - w.skew else -(2 ^ 63)
  at' := if u.sync then u.off else -(2 ^ 63)
  prdcrs := u.prdcrs.map (35 :: ·)
  mats := u.mats.reverse
  running := false }

/-- A policy that the peer can make. -/
structure FinePol (w : World) (p : Pol) : Prop where
  name : Name p.name
  sel : ∃ s, p.sel = .schema s ∧ Text s
  plugin : Text p.plugin
  container : Text p.container
  regex : ∀ r ∈ p.prdcrs, Text r ∧ w.se.regexOk r = true
  metric : ∀ m ∈ p.metrics, Text m
  distinct : p.metrics.Nodup

/-- A policy at the peer: it belongs to who connected, has no decomposition and no interval of flushing, and is stopped. -/
def polPeer (w : World) (p : Pol) : Pol := { p with
  name := 35 :: p.name
  uid := w.peer.uid
  gid := w.peer.gid
  perm := 448
  store := none
  decomp := none
  flush := ⟨0, 0⟩
  prdcrs := p.prdcrs.reverse
  running := false
  opened := false
  users := 0 }

/-- the daemon's own objects -/
def ownPrds (d : Daemon) : List Prdcr := d.prds.filter fun p => ¬ FromPeer p.name
def ownUps (d : Daemon) : List Updtr := d.ups.filter fun u => ¬ FromPeer u.name
def ownPols (d : Daemon) : List Pol := d.st.pols.filter fun p => ¬ FromPeer p.name

/-- A daemon whose own objects the peer can make. -/
structure Fine (w : World) (d : Daemon) : Prop where
  auth : NameTab.codes "DEFAULT" ∈ w.auths
  skew : w.skew.natAbs < 2 ^ 31
  prdcr : ∀ p ∈ ownPrds d, FinePrdcr w p
  prdcrs : ((ownPrds d).map (·.name)).Nodup
  updtr : ∀ u ∈ ownUps d, FineUpdtr w ((ownPrds d).map (·.name)) u
  updtrs : ((ownUps d).map (·.name)).Nodup
  pol : ∀ p ∈ ownPols d, FinePol w p
  pols : ((ownPols d).map (·.name)).Nodup

/-- A daemon that has nothing from a peer. -/
structure Clean (d : Daemon) : Prop where
  prds : ∀ p ∈ d.prds, ¬ FromPeer p.name
  ups : ∀ u ∈ d.ups, ¬ FromPeer u.name
  pols : ∀ p ∈ d.st.pols, ¬ FromPeer p.name
  peerPrds : d.peerPrds = []
  peerUps : d.peerUps = []
  peerPols : d.peerPols = []

/-- What the other daemon has: its own objects, and those of its peer. -/
def withPeer (w : World) (src dst : Daemon) : Daemon := {
  prds := dst.prds ++ (ownPrds src).map prdcrPeer
  ups := dst.ups ++ (ownUps src).map (updtrPeer w)
  st := { dst.st with pols := dst.st.pols ++ (ownPols src).map (polPeer w) }
  peerPrds := (ownPrds src).map fun p => (35 :: p.name, false)
  peerUps := (ownUps src).map fun u => (35 :: u.name, false)
  peerPols := (ownPols src).map fun p => 35 :: p.name }

/-- What the other daemon has when it does the work of its peer: the producers of the peer are to be connected and its updaters run;
the storage policies stay as they were. -/
def takenOver (w : World) (src dst : Daemon) : Daemon := { withPeer w src dst with
  prds := dst.prds ++ (ownPrds src).map fun p => { prdcrPeer p with
    conn := .disconnected
    perm := p.perm ||| 512 }
  ups := dst.ups ++ (ownUps src).map fun u => { updtrPeer w u with
    running := true
    perm := u.perm ||| 512 }
  peerPrds := (ownPrds src).map fun p => (35 :: p.name, true)
  peerUps := (ownUps src).map fun u => (35 :: u.name, true) }

/-- the daemon may change what came from its peer -/
structure Master (w : World) (d : Daemon) : Prop where
  prdcr : ∀ p ∈ ownPrds d, Changes w w.who p.uid p.gid p.perm
  updtr : ∀ u ∈ ownUps d, Changes w w.who u.uid u.gid u.perm

/-- the own objects of two daemons are the same -/
structure SameOwn (a b : Daemon) : Prop where
  prds : ownPrds a = ownPrds b
  ups : ownUps a = ownUps b
  pols : ownPols a = ownPols b

end Verif.PeerCfg
