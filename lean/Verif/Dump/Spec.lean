import Verif.Dump.Model

/-!
# Specification: what a daemon has after reading the file

What each object of the daemon that wrote the file is in a daemon that reads it, told without the commands of the file.
-/

namespace Verif.Dump

open Verif.SetOwner (Str)
open Verif.Strgp (Pol Sel Who)

/-- A text that is one word: not empty, without blanks, control characters and references to variables of the environment, not
ending in a backslash. -/
structure Word (v : Str) : Prop where
  ne : v ≠ []
  bytes : ∀ b ∈ v, 32 < b ∧ b < 256
  noVar : ∀ a b, v ≠ a ++ 36 :: 123 :: b
  noCont : v.getLast? ≠ some 92

/-- `^name$` is an expression that matches this name only, of those there are -/
structure Own (w : World) (names : List Str) (n : Str) : Prop where
  ok : w.se.regexOk (94 :: n ++ [36]) = true
  only : ∀ m ∈ names, w.rx (94 :: n ++ [36]) m = true ↔ m = n

/-- A producer that can be made again. -/
structure FinePrdcr (w : World) (p : Prdcr) : Prop where
  name : Word p.name
  host : Word p.host
  xprt : Word p.xprt
  auth : Word p.auth
  stream : ∀ s ∈ p.streams, Word s
  distinct : p.streams.Nodup
  port : 0 < p.port ∧ p.port ≤ 65535
  passive : p.kind = .passive → p.port = 65535
  reconnect : 0 < p.reconnect ∧ p.reconnect < 2 ^ 53
  host' : w.host p.host p.port = true
  auth' : p.auth ∈ w.auths

/-- A producer in the daemon that has read the file: it belongs to who reads the file, has the default permissions (0770) and limits,
and is started if it was connected. -/
def prdcrAgain (w : World) (p : Prdcr) : Prdcr := { p with
  uid := w.who.uid
  gid := w.who.gid
  perm := if p.conn = .connected then 504 + 512 else 504
  rail := 1
  credits := w.credits
  rate := -1
  streams := p.streams.reverse
  conn := if p.conn = .connected then .disconnected else .stopped }

/-- An updater that can be made again: it has been started. -/
structure FineUpdtr (w : World) (ps : List Str) (u : Updtr) : Prop where
  name : Word u.name
  notPeer : u.name.head? ≠ some 35
  interval : 0 < u.taskIvl ∧ u.taskIvl < 2 ^ 53
  offset : u.off ≠ none → u.taskOff.natAbs * 2 ≤ u.taskIvl
  there : ∀ p ∈ u.prdcrs, p ∈ ps
  distinct : u.prdcrs.Nodup
  regex : ∀ m ∈ u.mats, Word m.2 ∧ w.se.regexOk (94 :: m.2 ++ [36]) = true

/-- Is an updater automatic, and the flags of `push` (1: push, 3: on change), given those of the updater before: one that has none
of its own gets them from the one before it, and `onchange` becomes `true`. -/
def modeAgain (prev : Bool × Nat) (u : Updtr) : Bool × Nat :=
  if u.auto then (true, 0) else if u.push % 2 = 1 then (false, 1) else if u.push / 2 % 2 = 1 then (false, 3) else prev

/-- An updater in the daemon that has read the file: it belongs to who reads the file, is synchronous, and matches the whole of names. -/
def updtrAgain (w : World) (mode : Bool × Nat) (u : Updtr) : Updtr := { u with
  uid := w.who.uid
  gid := w.who.gid
  perm := if u.running then 504 + 512 else 504
  auto := mode.1
  push := mode.2
  ivl := u.taskIvl
  off := some (if u.off = none then 0 else u.taskOff)
  taskIvl := if u.running then u.taskIvl else 0
  taskOff := if u.running then (if u.off = none then 0 else u.taskOff) else 0
  mats := (u.mats.map fun m => (m.1, 94 :: m.2 ++ [36])).reverse }

def updtrsAgain (w : World) : Bool × Nat → List Updtr → List Updtr
  | _, [] => []
  | prev, u :: us => updtrAgain w (modeAgain prev u) u :: updtrsAgain w (modeAgain prev u) us

/-- The text of the selection of schemas -/
def selText : Sel → Str
  | .schema s => s
  | .regex r => r

/-- A policy that can be made again. -/
structure FinePol (w : World) (plugs : List Str) (p : Pol) : Prop where
  name : Word p.name
  plugin : Word p.plugin
  there : p.plugin ∈ plugs
  container : Word p.container
  sel : Word (selText p.sel)
  regex : ∀ r, p.sel = .regex r → p.decomp ≠ none ∧ w.se.regexOk r = true
  decomp : ∀ x, p.decomp = some x → Word x ∧ w.decomp x = true
  flush : 0 ≤ p.flush.sec ∧ p.flush.sec * 1000 < 2 ^ 53
  perm : p.perm < 2 ^ 31
  prdcr : ∀ r ∈ p.prdcrs, Word r ∧ w.se.regexOk r = true
  /-- the owner may change it -/
  change : p.perm / 128 % 2 = 1

/-- A policy in the daemon that has read the file: it belongs to who reads the file, the seconds of its flush interval are taken
for microseconds, and it has no list of metrics. -/
def polAgain (w : World) (p : Pol) : Pol := { p with
  uid := w.who.uid
  gid := w.who.gid
  perm := if p.running then p.perm ||| 512 else p.perm
  store := none
  flush := ⟨p.flush.sec * 1000 / 10 ^ 9, p.flush.sec * 1000 % 10 ^ 9⟩
  prdcrs := p.prdcrs.reverse
  metrics := []
  opened := false
  users := 0 }

/-- without the pointer to the plugin -/
def noStore (p : Pol) : Pol := { p with store := none }

/-- A configuration of a plugin that can be given again: the names of attributes and keywords have no `=`, do not begin with `name` or
`#`; there are not both attributes and keywords, and not none. -/
structure FineConf (w : World) (c : Conf) : Prop where
  av : ∀ a ∈ c.avs, Word a.1 ∧ Word a.2 ∧ 61 ∉ a.1 ∧ a.1.head? ≠ some 35 ∧ ¬ [110, 97, 109, 101] <+: a.1
  kw : ∀ k ∈ c.kws, Word k ∧ 61 ∉ k ∧ k.head? ≠ some 35 ∧ ¬ [110, 97, 109, 101] <+: k
  some : c.avs ≠ [] ∨ c.kws ≠ []
  one : c.avs = [] ∨ c.kws = []
  taken : w.takes c = true

/-- A daemon that can be made again. -/
structure Fine (w : World) (d : Daemon) : Prop where
  prdcr : ∀ p ∈ d.prds, FinePrdcr w p
  prdcrs : (d.prds.map (·.name)).Nodup
  own : ∀ p ∈ d.prds, Own w (d.prds.map (·.name)) p.name
  plug : ∀ g ∈ d.st.plugs, Word g.name ∧ w.plugin g.name = true
  plugs : (d.st.plugs.map (·.name)).Nodup
  conf : ∀ c ∈ d.conf, FineConf w c
  updtr : ∀ u ∈ d.ups, FineUpdtr w (d.prds.map (·.name)) u
  updtrs : (d.ups.map (·.name)).Nodup
  pol : ∀ p ∈ d.st.pols, FinePol w (d.st.plugs.map (·.name)) p
  pols : (d.st.pols.map (·.name)).Nodup

/-- What a daemon has after reading the file. -/
structure Again (w : World) (d d' : Daemon) : Prop where
  prds : d'.prds = d.prds.map (prdcrAgain w)
  plugs : d'.st.plugs.map (·.name) = (d.st.plugs.map (·.name)).reverse
  conf : d'.conf = d.st.plugs.flatMap fun g => d.conf.filter fun c => c.plugin = g.name
  ups : d'.ups = updtrsAgain w (false, 0) d.ups
  pols : d'.st.pols.map noStore = d.st.pols.map (polAgain w)

end Verif.Dump
