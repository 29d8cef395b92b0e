import Verif.BinHeap.Core

/-!
# `lib/src/coll/heap.c`

A node is a number standing for its address; `key` is what the user's comparator compares:
`comp(a, b) < 0` iff `key a < key b`.
-/

namespace Verif.OvisHeap

open Verif.BinHeap

/-- `heap->comp(a, b) < 0` -/
def lt (key : Nat → Int) (a b : Nat) : Bool := key a < key b

/-- `p = c / 2` (heap.c:114) -/
def par (c : Nat) : Nat := c / 2

/-- `ovis_heap_create` (heap.c:63-72); nodes not in the heap carry index -1 -/
def create (cap : Nat) : St Nat := ⟨fun _ => 0, fun _ => -1, 0, cap⟩

/-- `ovis_heap_insert` (heap.c:84-93); `none` is `ENOMEM` -/
def heapInsert (key : Nat → Int) (s : St Nat) (x : Nat) : Option (St Nat) :=
  BinHeap.insert par (lt key) s x

/-- `ovis_heap_pop` (heap.c:95-106) -/
def heapPop (key : Nat → Int) (s : St Nat) : St Nat × Option Nat :=
  if s.len = 0 then (s, none)
  else (removeSink (lt key) s (s.slots 0), some (s.slots 0))

/-- `ovis_heap_remove` (heap.c:165-176) -/
def heapRemove (key : Nat → Int) (s : St Nat) (x : Nat) : St Nat := removeUpdate par (lt key) s x

end Verif.OvisHeap
