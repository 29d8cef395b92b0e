/-!
# The array heap shared by `lib/src/coll/heap.c` and `lib/src/ovis_event/ovis_event.c`

Both files implement a binary min-heap in an array of pointers, each node remembering its own
position (`node->idx`, `ev->priv.idx`).  They differ in the parent of a position (`c / 2` against
`(c - 1) / 2`) and in how they remove an inner node.  The loops they share are modelled here.
-/

namespace Verif.BinHeap

/-- `struct ovis_heap` (heap.c:56-61) / `struct ovis_event_heap` (ovis_event.h): the array, the
position each node remembers, the number of nodes and the capacity. -/
structure St (α : Type) where
  slots : Nat → α
  idx : α → Int
  len : Nat
  cap : Nat

variable {α : Type} [DecidableEq α]

def upd {β γ : Type} [DecidableEq β] (f : β → γ) (b : β) (c : γ) : β → γ :=
  fun x => if x = b then c else f x

/-- `heap[i] = x; x->idx = i` -/
def put (s : St α) (i : Nat) (x : α) : St α :=
  { s with slots := upd s.slots i x, idx := upd s.idx x i }

/-- The loop of `ovis_heap_float_up` (heap.c:108-125) and `ovis_event_heap_float`
(ovis_event.c:120-137): move larger parents down, then place the node.  `fuel` bounds the loop; the
position strictly decreases, so `c` rounds are enough. -/
def floatUp (par : Nat → Nat) (lt : α → α → Bool) : Nat → St α → Nat → α → St α
  | 0, s, c, x => put s c x
  | fuel + 1, s, c, x =>
    if c = 0 then put s c x
    else if lt x (s.slots (par c)) then
      floatUp par lt fuel (put s c (s.slots (par c))) (par c) x
    else put s c x

/-- The child the sink loop looks at (heap.c:137-148, ovis_event.c:146-155). -/
def pickChild (lt : α → α → Bool) (s : St α) (c : Nat) : Nat :=
  let l := c * 2 + 1
  let r := l + 1
  if r ≥ s.len then l else if lt (s.slots l) (s.slots r) then l else r

/-- The loop of `ovis_heap_sink_down` (heap.c:127-163) and `ovis_event_heap_sink`
(ovis_event.c:139-168).  The position strictly increases below `len`, so `len` rounds are enough. -/
def sinkDown (lt : α → α → Bool) : Nat → St α → Nat → α → St α
  | 0, s, c, x => put s c x
  | fuel + 1, s, c, x =>
    if c * 2 + 1 < s.len then
      let y := s.slots (pickChild lt s c)
      if lt y x then sinkDown lt fuel (put s c y) (pickChild lt s c) x
      else put s c x
    else put s c x

/-- `ovis_heap_insert` (heap.c:84-93), `ovis_event_heap_insert` (ovis_event.c:170-179).  `none` is
`ENOMEM`. -/
def insert (par : Nat → Nat) (lt : α → α → Bool) (s : St α) (x : α) : Option (St α) :=
  if s.len = s.cap then none
  else some (floatUp par lt s.len { put s s.len x with len := s.len + 1 } s.len x)

/-- `ovis_heap_update` (heap.c:178-184), `ovis_event_heap_update` (ovis_event.c:193-201) of the node at
position `c`. -/
def update (par : Nat → Nat) (lt : α → α → Bool) (s : St α) (c : Nat) : St α :=
  let x := s.slots c
  let s' := floatUp par lt c s c x
  if s'.idx x = c then sinkDown lt s.len s' c x else s'

/-- Take the node `x` out: the last node takes its place and sinks (`ovis_event_heap_remove`,
ovis_event.c:181-191; `ovis_heap_pop` of the first node, heap.c:95-106).  Nothing happens if `x` is
not in the heap (`idx < 0`). -/
def removeSink (lt : α → α → Bool) (s : St α) (x : α) : St α :=
  if 0 ≤ s.idx x then
    let c := (s.idx x).toNat
    let last := s.slots (s.len - 1)
    let s1 := { put s c last with len := s.len - 1 }
    let s2 := sinkDown lt (s.len - 1) s1 c last
    { s2 with idx := upd s2.idx x (-1) }
  else s

/-- `ovis_heap_remove` (heap.c:165-176): as above, but the node moved into the gap is updated, that is
floated with the parent `par`, then sunk.  The C code reads `node->idx` without testing it: the caller
must pass a node of the heap. -/
def removeUpdate (par : Nat → Nat) (lt : α → α → Bool) (s : St α) (x : α) : St α :=
  let c := (s.idx x).toNat
  let last := s.slots (s.len - 1)
  let s1 := { put s c last with len := s.len - 1 }
  let s2 := update par lt s1 c
  { s2 with idx := upd s2.idx x (-1) }

/-- `ovis_heap_top` (heap.c:186-191), `ovis_event_heap_top` (ovis_event.c:211-216). -/
def top (s : St α) : Option α := if s.len = 0 then none else some (s.slots 0)

/-- The nodes of the heap, in array order. -/
def contents (s : St α) : List α := (List.range s.len).map s.slots

end Verif.BinHeap
