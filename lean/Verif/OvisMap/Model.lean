/-!
# Maps with strings as keys

`lib/src/coll/ovis-map.c`.  Simplified: the red-black tree (modelled in `Verif.Rbt`) is the list of its elements in their
order; the hash (`CityHash64`) is any function, so that keys may collide; values are not NULL; allocation does not fail; each
function that locks the map is one step.
-/

namespace Verif.OvisMap

/-- a string: its bytes, without the NUL -/
abbrev Str := List Nat

/-- `strcmp` -/
def strcmp : Str → Str → Ordering
  | [], [] => .eq
  | [], _ :: _ => .lt
  | _ :: _, [] => .gt
  | a :: as, b :: bs => if a < b then .lt else if b < a then .gt else strcmp as bs

/-- `element_cmp` (`ovis-map.c:85-104`) -/
def elementCmp (hash : Str → Nat) (e f : Str) : Ordering :=
  if hash e = hash f then strcmp e f else if hash e < hash f then .lt else .gt

/-- `struct ovis_map` (`ovis-map.c:73-78`) -/
structure Map (V : Type) where
  els : List (Str × V)
  size : Nat

variable {V : Type}

/-- `ovis_map_create` (`ovis-map.c:106-123`) -/
def create : Map V := ⟨[], 0⟩

/-- `rbt_find` on the elements in their order -/
def rbtFind (hash : Str → Nat) : List (Str × V) → Str → Option V
  | [], _ => none
  | e :: es, k =>
    match elementCmp hash k e.1 with
    | .eq => some e.2
    | .lt => none
    | .gt => rbtFind hash es k

/-- `rbt_ins` on the elements in their order -/
def rbtIns (hash : Str → Nat) : List (Str × V) → Str → V → List (Str × V)
  | [], k, v => [(k, v)]
  | e :: es, k, v =>
    match elementCmp hash k e.1 with
    | .lt => (k, v) :: e :: es
    | _ => e :: rbtIns hash es k v

/-- `ovis_map_find` (`ovis-map.c:235-242`) with `ovis_map_findhash` (`224-233`) -/
def find (hash : Str → Nat) (m : Map V) (k : Str) : Option V := rbtFind hash m.els k

/-- `ovis_map_insert` (`ovis-map.c:278-303`); 76 is `ENOTUNIQ` -/
def insert (hash : Str → Nat) (m : Map V) (k : Str) (v : V) : Map V × Nat :=
  match rbtFind hash m.els k with
  | some _ => (m, 76)
  | none => (⟨rbtIns hash m.els k v, m.size + 1⟩, 0)

/-- `ovis_map_insert_new` (`ovis-map.c:305-323`) -/
def insertNew (hash : Str → Nat) (m : Map V) (k : Str) (v : V) : Map V × Nat :=
  (⟨rbtIns hash m.els k v, m.size + 1⟩, 0)

/-- what a snapshot does: it asks for a longer array, or fills it; the NULL at the end is not shown -/
inductive Snap (V : Type) where
  | longer : Nat → Snap V
  | filled : List (Str × V) → Snap V

/-- `ovis_map_snapshot` with an array of length `len` (`ovis-map.c:325-356`): `snap_len - 1` wraps for 0.  `none` is a write
outside of the array. -/
def snapshot (m : Map V) (len : Nat) : Option (Snap V) :=
  if m.size > (len + 18446744073709551615) % 18446744073709551616 then some (.longer (m.size + 1))
  else if m.els.length + 1 ≤ len then some (.filled m.els)
  else none

end Verif.OvisMap
