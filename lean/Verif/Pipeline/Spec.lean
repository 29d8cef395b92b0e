import Verif.Pipeline.Model

/-!
# What is said about collecting and storing

In terms of the callbacks of updates, the commands given and the calls of store plugins.
-/

namespace Verif.Pipeline

/-- `l` are the samples of set `i` so far; an update adds one if it succeeded, the data are consistent and have
another generation number than the last sample (0 if there is none) -/
def sample1 (i : Nat) (l : List Nat) : Ev → List Nat
  | .updated j u => if j = i ∧ u.err = false ∧ u.ok = true ∧ u.gn ≠ l.getLastD 0 then l ++ [u.gn] else l
  | _ => l

/-- the samples of set `i` in a history, after the samples `l` -/
def samples (i : Nat) (l : List Nat) (es : List Ev) : List Nat := es.foldl (sample1 i) l

/-- the samples of set `i` a policy's plugin was given -/
def storedOf (p i : Nat) (log : List Stored) : List Nat :=
  (log.filter (fun r => r.pol = p ∧ r.set = i)).map (·.gn)

/-- set groups are left out -/
def isGroup : Ev → Bool
  | .group _ _ _ => true
  | _ => false

/-- a history: its end, if it can happen and does not end the process -/
def Reach (g : Cfg) (es : List Ev) (s : State) : Prop := run g (init g) es = .ok s

/-- all that was asked of plugins, decompositions and the transport was granted -/
def Granted (es : List Ev) : Prop :=
  ∀ e ∈ es, match e with
    | .attachOne _ ok => ok = true
    | .scan _ _ ok => ok = true
    | _ => True

/-- the set is collected: it is in the tree and was looked up -/
def Collected (s : State) (i : Nat) : Prop :=
  (s.sets i).inTree = true ∧ ((s.sets i).st = .ready ∨ (s.sets i).st = .updating)

end Verif.Pipeline
