/-!
# The directory of sets

`ldms/src/core/ldms.c`.

The trees of sets by name and by id are the sets flagged `inTree` (for the trees themselves see
`Verif/Rbt`).  A set is named by its id, which is its index in the list.  Peers, notifications and
allocation failures are not modelled.
-/

namespace Verif.SetDir

abbrev Str := List Nat

def EEXIST : Int := 17
def ENOENT : Int := 2
def EINVAL : Int := 22

/-- `struct ldms_set` (`ldms_private.h:124-160`).
* `pub` – `LDMS_SET_F_PUBLISHED`
* `refs` – the reference count
* `delTime` – `del_time`, when in the tree of deleted sets
* `addr` – where the structure is in memory
* `freed` – the structure was given back -/
structure SetS where
  name : Str
  pub : Bool
  refs : Nat
  inTree : Bool
  delTime : Option Nat
  addr : Nat
  freed : Bool
  deriving DecidableEq, Repr

/-- `pend` – creations between the two checks of the name; `now` – the time -/
structure D where
  sets : List SetS
  pend : List Str
  now : Nat
  deriving DecidableEq, Repr

def D.init : D := ⟨[], [], 0⟩

/-- `rbt_find(&__set_tree, name)` (`ldms.c:188-199`) -/
def find (d : D) (n : Str) : Option Nat := d.sets.findIdx? fun s => s.inTree && s.name == n

/-- `__record_set` up to the creation of the structure (`ldms.c:548-562`): the result if it ends -/
def create1 (d : D) (n : Str) : D × Option Int :=
  match find d n with
  | some _ => (d, some EEXIST)
  | none => ({ d with pend := n :: d.pend }, none)

/-- the rest of `__record_set` (`ldms.c:563-612`): the id of the new set, or nothing for `EEXIST`; the
set is put at `addr` -/
def create2 (d : D) (n : Str) (addr : Nat) : D × Option Nat :=
  match find d n with
  | some _ => ({ d with pend := d.pend.erase n }, none)
  | none => ({ d with sets := d.sets ++ [⟨n, false, 1, true, none, addr, false⟩], pend := d.pend.erase n },
      some d.sets.length)

/-- a set that may be used -/
def live (d : D) (i : Nat) : Option SetS := d.sets[i]?.bind fun s => if s.freed then none else some s

def upd (d : D) (i : Nat) (s : SetS) : D := { d with sets := d.sets.set i s }

/-- `ldms_set_by_name` (`ldms.c:232-239`) -/
def byName (d : D) (n : Str) : Option (D × Option Nat) :=
  match find d n with
  | none => some (d, none)
  | some i => (live d i).map fun s => (upd d i { s with refs := s.refs + 1 }, some i)

/-- `ref_put` on a set, with `__destroy_set` (`ref.h:75-78`, `ldms.c:821-873`, `932-937`) -/
def put (d : D) (i : Nat) : Option D :=
  (live d i).map fun s =>
    if s.refs = 1 then upd d i { s with refs := 0, freed := true, delTime := none }
    else upd d i { s with refs := s.refs - 1 }

/-- `ldms_set_publish` (`ldms.c:629-637`) -/
def publish (d : D) (i : Nat) : Option (D × Int) :=
  (live d i).map fun s => if s.pub then (d, EEXIST) else (upd d i { s with pub := true }, 0)

/-- `ldms_set_unpublish` (`ldms.c:657-675`) -/
def unpublish (d : D) (i : Nat) : Option (D × Int) :=
  (live d i).map fun s => if s.pub then (upd d i { s with pub := false }, 0) else (d, ENOENT)

/-- `__ldms_set_delete` (`ldms.c:875-924`); `none` is the failed assertion for a set that was deleted
already, or the use of a set that was given back -/
def delete (d : D) (i : Nat) : Option D :=
  (live d i).bind fun s =>
    if s.inTree then put (upd d i { s with inTree := false, delTime := some d.now }) i else none

/-- the names that a directory request lists (`ldms.c:324-341`, `499-536`), in the order of creation (the
code lists them by name) -/
def dir (d : D) : List Str := (d.sets.filter fun s => s.inTree && s.pub).map (·.name)

/-! ## the thread that frees deleted sets -/

def timeout : Nat := 60

/-- the better one of the sets `best` and `i` to visit next: deleted, with an address below `a`, and the
higher address -/
def pick (d : D) (a best : Option Nat) (i : Nat) : Option Nat :=
  match d.sets[i]? with
  | none => best
  | some s =>
    if s.delTime.isSome ∧ (∀ b, a = some b → s.addr < b) then
      match best with
      | none => some i
      | some j => if (d.sets[j]?.map (·.addr)).getD 0 < s.addr then some i else some j
    else best

/-- the deleted set with the highest address below `a` (`rbt_max`, `rbn_pred` of the tree of deleted sets:
its key is the address of `del_time`, `ldms.c:910-913`) -/
def highest (d : D) (a : Option Nat) : Option Nat := (List.range d.sets.length).foldl (pick d a) none

/-- one round of `delete_proc` (`ldms.c:3803-3942`), no peers: sets are visited from the highest address
down; the first one that is too young ends the round; the others are destroyed whatever their reference
count -/
def reap : Nat → D → Option Nat → D
  | 0, d, _ => d
  | n + 1, d, a =>
    match highest d a with
    | none => d
    | some i =>
      match d.sets[i]? with
      | none => d
      | some s =>
        match s.delTime with
        | none => d
        | some t =>
          if d.now - t < timeout then d
          else reap n (upd d i { s with freed := true, delTime := none }) (some s.addr)

def reapAll (d : D) : D := reap d.sets.length d none

end Verif.SetDir
