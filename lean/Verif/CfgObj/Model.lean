import Verif.NameTab.Model

/-!
# Configuration objects

`ldms/src/ldmsd/ldmsd_cfgobj.c`: one object type.  The types have separate trees and locks
(`ldmsd_cfgobj.c:72-101`), and every function below runs under the lock of its type, except get and put
whose updates are atomic.

The tree is a list in name order: the red-black tree is proved to be that in `Verif/Rbt`.  An object is
an index in the list of all objects allocated; `freed` records that its `__del` ran.  `none` is undefined
behaviour: use of a freed object, or a failed assertion.  Allocation failure, and the fields of the
object that the caller fills in, are not modelled.
-/

namespace Verif.CfgObj

open NameTab (strcmp)

abbrev Name := List Nat

/-- an object; its name is its key in the tree -/
structure Obj where
  refs : Nat
  freed : Bool
  deriving DecidableEq, Repr

structure St where
  objs : List Obj
  tree : List (Name × Nat)
  deriving DecidableEq, Repr

def init : St := ⟨[], []⟩

/-- what a call returns -/
inductive Res where
  | obj (i : Nat)
  | null
  | eexist
  | enoent
  | done
  deriving DecidableEq, Repr

/-- `rbt_find` (see `Verif/Rbt`) -/
def treeFind (t : List (Name × Nat)) (n : Name) : Option Nat :=
  (t.find? fun p => strcmp p.1 n == .eq).map (·.2)

/-- `rbt_ins` -/
def treeIns (n : Name) (i : Nat) : List (Name × Nat) → List (Name × Nat)
  | [] => [(n, i)]
  | p :: t => if strcmp p.1 n = .gt then (n, i) :: p :: t else p :: treeIns n i t

/-- `rbt_del` -/
def treeDel (t : List (Name × Nat)) (i : Nat) : List (Name × Nat) := t.filter fun p => p.2 ≠ i

/-- `ldmsd_cfgobj_get` (`ldmsd_cfgobj.c:200-209`) -/
def get (s : St) (i : Nat) : Option St :=
  match s.objs[i]? with
  | none => none
  | some o => if o.freed ∨ o.refs < 1 then none else some { s with objs := s.objs.set i { o with refs := o.refs + 1 } }

/-- `ldmsd_cfgobj_put` (`ldmsd_cfgobj.c:211-217`) -/
def put (s : St) (i : Nat) : Option St :=
  match s.objs[i]? with
  | none => none
  | some o =>
    if o.freed ∨ o.refs < 1 then none
    else some { s with objs := s.objs.set i { o with refs := o.refs - 1, freed := o.refs - 1 == 0 } }

/-- `ldmsd_cfgobj_new_with_auth` (`ldmsd_cfgobj.c:138-186`) -/
def new (s : St) (n : Name) : St × Res :=
  match treeFind s.tree n with
  | some _ => (s, .eexist)
  | none => (⟨s.objs ++ [⟨1, false⟩], treeIns n s.objs.length s.tree⟩, .obj s.objs.length)

/-- `ldmsd_cfgobj_find`, `__cfgobj_find` (`ldmsd_cfgobj.c:228-246`) -/
def find (s : St) (n : Name) : Option (St × Res) :=
  match treeFind s.tree n with
  | none => some (s, .null)
  | some i => (get s i).map fun s' => (s', .obj i)

/-- `ldmsd_cfgobj_del` (`ldmsd_cfgobj.c:248-258`) -/
def cfgobjDel (s : St) (n : Name) : Option (St × Res) :=
  match treeFind s.tree n with
  | none => some (s, .done)
  | some i =>
    (get s i).bind fun s1 => (put { s1 with tree := treeDel s1.tree i } i).map fun s2 => (s2, .done)

/-- how producers, updaters, storage policies and authentication domains are removed when nothing
forbids it: find, `rbt_del`, put of the tree's reference, put of the reference of find
(`ldmsd_prdcr.c:943-980`, `ldmsd_updtr.c:969-1000`, `ldmsd_strgp.c:794-839`, `ldmsd_auth.c:115-136`);
the access, state and reference checks of these functions are in `Verif/Lifecycle` -/
def unlink (s : St) (n : Name) : Option (St × Res) :=
  match treeFind s.tree n with
  | none => some (s, .enoent)
  | some i =>
    (get s i).bind fun s1 => (put { s1 with tree := treeDel s1.tree i } i).bind fun s2 =>
      (put s2 i).map fun s3 => (s3, .done)

/-- `ldmsd_cfgobj_first` (`ldmsd_cfgobj.c:265-272`) -/
def first (s : St) : Option (St × Res) :=
  match s.tree with
  | [] => some (s, .null)
  | p :: _ => (get s p.2).map fun s' => (s', .obj p.2)

/-- `rbn_succ` of the node of object `i` -/
def treeSucc : List (Name × Nat) → Nat → Option Nat
  | [], _ => none
  | p :: t, i => if p.2 = i then (t.head?).map (·.2) else treeSucc t i

/-- `ldmsd_cfgobj_next` (`ldmsd_cfgobj.c:279-291`) -/
def next (s : St) (i : Nat) : Option (St × Res) :=
  match treeSucc s.tree i with
  | none => (put s i).map fun s' => (s', .null)
  | some j => (get s j).bind fun s1 => (put s1 i).map fun s2 => (s2, .obj j)

inductive Op where
  | new (n : Name)
  | find (n : Name)
  | get (i : Nat)
  | put (i : Nat)
  | unlink (n : Name)
  | first
  | next (i : Nat)
  deriving DecidableEq, Repr

def step (s : St) : Op → Option (St × Res)
  | .new n => some (new s n)
  | .find n => find s n
  | .get i => (get s i).map fun s' => (s', .done)
  | .put i => (put s i).map fun s' => (s', .done)
  | .unlink n => unlink s n
  | .first => first s
  | .next i => next s i

end Verif.CfgObj
