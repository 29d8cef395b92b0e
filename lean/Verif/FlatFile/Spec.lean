import Verif.FlatFile.Model

/-!
# What is in the flat files (Plugin_store_flatfile.man)
-/

namespace Verif.FlatFile

/-- what a storage policy has opened -/
structure Owned where
  container : Str
  schema : Str
  names : List Str
  deriving DecidableEq, Repr

/-- what a policy has opened and not closed -/
def owned (u : Nat) : List Act → Option Owned
  | [] => none
  | .open_ v c s ns :: as => if v = u then some ⟨c, s, ns⟩ else owned u as
  | .close v :: as => if v = u then none else owned u as
  | .store _ _ :: as => owned u as

/-- the file of a metric: its name is that of the metric without what follows a `#` -/
def fileOf (o : Owned) (name : Str) : Str := o.container ++ ['/'] ++ o.schema ++ ['/'] ++ name.takeWhile (· ≠ '#')

/-- the lines that a sample puts into a file -/
def linesOf (o : Owned) (x : Sample) (comp : Nat) (p : Str) : List Line :=
  (o.names.zip x.values).filterMap fun nv => if fileOf o nv.1 = p then nv.2.map fun v => ⟨x.sec, x.usec, x.prod, comp, v⟩ else none

/-- what should be in a file: the lines of all samples, in their order -/
def written (p : Str) : List Act → List Line
  | [] => []
  | .store u x :: as =>
    written p as ++ (match owned u as, x.comp with
      | some o, some comp => linesOf o x comp p
      | _, _ => [])
  | _ :: as => written p as

/-- containers and schemas of all openings -/
def labels : List Act → List Str
  | [] => []
  | .open_ _ c s _ :: as => (c ++ [':'] ++ s) :: labels as
  | _ :: as => labels as

/-- a history in which a container and a schema are opened only once, names of metrics have no `#` after 128 characters, and policies store as many values as they have metrics and
close what they have opened -/
def Tidy : List Act → Prop
  | [] => True
  | .open_ u c s ns :: as => Tidy as ∧ owned u as = none ∧ c ++ [':'] ++ s ∉ labels as ∧ ∀ n ∈ ns, '#' ∈ n → (n.takeWhile (· ≠ '#')).length < 128
  | .store u x :: as => Tidy as ∧ ∀ o, owned u as = some o → x.values.length = o.names.length
  | .close u :: as => Tidy as ∧ owned u as ≠ none

end Verif.FlatFile
