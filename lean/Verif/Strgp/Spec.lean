import Verif.Strgp.Model
import Verif.SetOwner.Spec

/-! # Specification: what requests about storage policies should do -/

namespace Verif.Strgp

open Verif.SetOwner (Str dec)

/-- the policies of a name -/
def called (s : State) (n : Str) : List Pol := s.pols.filter fun p => p.name = n

/-- the policy that a request or an event is about -/
def Ev.target : Ev → Option Str
  | .add a => a.name
  | .prdcrAdd n _ => n
  | .prdcrDel n _ => n
  | .metricAdd n _ => n
  | .metricDel n _ => n
  | .start n => n
  | .stop n => n
  | .del n => n
  | .load _ _ => none
  | .term _ => none
  | .peer q => some q.name
  | .users n _ => some n
  | .opens n _ _ => some n
  | .stores n => some n

/-- it is a request of a user other than `strgp_add` -/
def Ev.plain : Ev → Bool
  | .prdcrAdd _ _ => true
  | .prdcrDel _ _ => true
  | .metricAdd _ _ => true
  | .metricDel _ _ => true
  | .start _ => true
  | .stop _ => true
  | .del _ => true
  | .load _ _ => true
  | .term _ => true
  | _ => false

/-- the user may change the policy -/
def MayWrite (e : Env) (w : Who) (p : Pol) : Prop :=
  Access.Permitted (e.groups w.uid) w.uid w.gid p.uid p.gid p.perm .write

/-- the system can tell the groups of a user who has at most 128 -/
def FewGroups (e : Env) : Prop := ∀ u gs, e.groups u = some gs → gs.length ≤ 128

/-- the schemas are said in one of the two ways, and a regular expression needs a decomposition -/
def SelAsked (a : Args) : Sel → Prop
  | .schema x => a.schema = some x ∧ a.regex = none
  | .regex r => a.schema = none ∧ a.regex = some r ∧ a.decomp ≠ none

/-- a number of seconds, milliseconds, microseconds or nanoseconds, and what it means -/
inductive Unit' where
  | s | ms | us | ns | none

def Unit'.text : Unit' → Str
  | .s => [115]
  | .ms => [109, 115]
  | .us => [117, 115]
  | .ns => [110, 115]
  | .none => []

def Unit'.nanos : Unit' → Nat
  | .s => 10 ^ 9
  | .ms => 10 ^ 6
  | .us => 10 ^ 3
  | .ns => 1
  | .none => 10 ^ 3

/-- a time in nanoseconds -/
def Time.nanos (t : Time) : Int := t.sec * 10 ^ 9 + t.nsec

/-- the nanoseconds within a second are less than a second -/
def Time.normal (t : Time) : Prop := 0 ≤ t.nsec ∧ t.nsec < 10 ^ 9

/-- A policy as `strgp_add` asks for it, by the user `w`: stopped, nothing added to it. -/
structure Asked (w : Who) (a : Args) (p : Pol) : Prop where
  name : a.name = some p.name
  plugin : a.plugin = some p.plugin
  container : a.container = some p.container
  sel : SelAsked a p.sel
  decomp : a.decomp = p.decomp
  owner : p.uid = w.uid ∧ p.gid = w.gid
  noFlush : a.flush = none → p.flush.nanos = 0
  noPerm : a.perm = none → p.perm = 7 * 64 + 7 * 8
  flush : ∀ n u, a.flush = some (dec n ++ Unit'.text u) → n * u.nanos < 2 ^ 53 → p.flush.nanos = n * u.nanos ∧ p.flush.normal
  perm : ∀ n, a.perm = some (dec n) → n < 2 ^ 32 → p.perm = n
  stopped : p.running = false ∧ p.prdcrs = [] ∧ p.metrics = [] ∧ p.users = 0

/-- the policies that use a plugin -/
def usedBy (s : State) (g : Str) : List Pol := s.pols.filter fun p => p.plugin = g

/-- no failover peer sends policies -/
def noPeer (es : List (Who × Ev)) : Prop := ∀ w q, (w, Ev.peer q) ∉ es

/-- every `strgp_add` has a name -/
def named (es : List (Who × Ev)) : Prop := ∀ w a, (w, Ev.add a) ∈ es → a.name ≠ none

/-- the metrics of a set have distinct names -/
def setsFine (es : List (Who × Ev)) : Prop := ∀ w n ms ok, (w, Ev.opens n ms ok) ∈ es → ms.Nodup

/-! ## Flushing -/

/-- A sample that is stored: the clock before the decision and, if the store is flushed, just after it. -/
abbrev Sample := Time × Time

/-- What a policy does with the samples that are stored one after the other, from a time of the last flush (or of the start): for
each sample the time counted from and whether the store is flushed. -/
def flushes (interval : Time) : Time → List Sample → List (Time × Sample × Bool)
  | _, [] => []
  | last, x :: xs =>
    let r := flushStep interval last x.1 x.2
    (last, x, r.2) :: flushes interval r.1 xs

end Verif.Strgp
