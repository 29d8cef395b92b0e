import Verif.Rbt.Model

/-!
# The chunk allocator shared by `mmalloc.c` and `ldms_heap.c`

`lib/src/mmalloc/mmalloc.c` and `ldms/src/core/ldms_heap.c` implement the same algorithm on two
red-black trees holding the free chunks, one ordered by size (in grains), one by address.  The
part they share is modelled here once; `Verif.Mm.Model` and `Verif.LHeap.Model` add what differs.

Addresses are byte offsets from the start of the region.  Undefined behaviour (NULL or wild
pointer, write outside the region) is `none`.
-/

namespace Verif.Alloc

open Verif.Rbt

/-- A chunk: byte offset of its header and its length in grains
(`struct mm_prefix.pfx/count`, mmalloc.c:69-74; keys of `struct mm_free`, ldms_heap.c:69-74). -/
structure Chunk where
  start : Nat
  count : Nat
  deriving DecidableEq, Repr

/-- Fixed parameters of a region: `grain_bits`, the size of a free chunk's header in bytes, and the
first byte offset that does not belong to the region. -/
structure Params where
  gbits : Nat
  hdr : Nat
  limit : Nat

/-- The two trees of free chunks (mmalloc.c:82-83, ldms_heap.h:71-72). -/
structure Trees where
  size : Rbt Chunk
  addr : Rbt Chunk

/-- `count << grain_bits` bytes past the chunk's start. -/
def Chunk.fin (P : Params) (c : Chunk) : Nat := c.start + c.count * 2 ^ P.gbits

/-- `compare_addr` (mmalloc.c:91-100, ldms_heap.c:92-102). -/
def cmpAddr (a b : Nat) : Int := if a > b then 1 else if a < b then -1 else 0

/-- Remove a chunk from both trees (mmalloc.c:212-213, ldms_heap.c:269-270). -/
def remove (T : Trees) (c : Chunk) : Option Trees :=
  match Rbt.del T.size c with
  | none => none
  | some s =>
    match Rbt.del T.addr c with
    | none => none
    | some a => some ⟨s, a⟩

/-- Write a free-chunk header and insert it in both trees (mmalloc.c:236-242, ldms_heap.c:278-282).
The header must lie inside the region. -/
def insert (cmpS : Nat → Nat → Int) (P : Params) (T : Trees) (c : Chunk) : Option Trees :=
  if c.start + P.hdr > P.limit then none
  else
    match Rbt.ins cmpS Chunk.count T.size c with
    | none => none
    | some s =>
      match Rbt.ins cmpAddr Chunk.start T.addr c with
      | none => none
      | some a => some ⟨s, a⟩

/-- The body of `mm_alloc` / `ldms_heap_alloc` for a request of `count` grains
(mmalloc.c:199-261, ldms_heap.c:260-285): take the least sufficient chunk, split it, put the
remainder back.  `some none` is the NULL return.  The remainder is computed in `uint64_t`. -/
def take (cmpS : Nat → Nat → Int) (P : Params) (T : Trees) (count : Nat) :
    Option (Option (Chunk × Trees)) :=
  match findLub cmpS Chunk.count count T.size.root with
  | none => some none
  | some p =>
    match remove T p with
    | none => none
    | some T1 =>
      let remainder := (p.count + 2 ^ 64 - count % 2 ^ 64) % 2 ^ 64
      if remainder = 0 then some (some (⟨p.start, count⟩, T1))
      else
        match insert cmpS P T1 ⟨p.start + count * 2 ^ P.gbits, remainder⟩ with
        | none => none
        | some T2 => some (some (⟨p.start, count⟩, T2))

/-- Coalescing with the lesser sibling (mmalloc.c:298-313, ldms_heap.c:347-361). -/
def mergeLeft (P : Params) (T : Trees) (p : Chunk) : Option (Chunk × Trees) :=
  match findGlb cmpAddr Chunk.start p.start T.addr.root with
  | none => some (p, T)
  | some q =>
    if q.fin P = p.start then
      match remove T q with
      | none => none
      | some T' => some (⟨q.start, q.count + p.count⟩, T')
    else some (p, T)

/-- Coalescing with the greater sibling (mmalloc.c:330-345, ldms_heap.c:362-375). -/
def mergeRight (P : Params) (T : Trees) (p : Chunk) : Option (Chunk × Trees) :=
  match findLub cmpAddr Chunk.start p.start T.addr.root with
  | none => some (p, T)
  | some q =>
    if p.fin P = q.start then
      match remove T q with
      | none => none
      | some T' => some (⟨p.start, p.count + q.count⟩, T')
    else some (p, T)

/-- The body of `mm_free` / `ldms_heap_free` for the chunk `p` (mmalloc.c:298-357,
ldms_heap.c:344-382). -/
def give (cmpS : Nat → Nat → Int) (P : Params) (T : Trees) (p : Chunk) : Option Trees :=
  match mergeLeft P T p with
  | none => none
  | some (p1, T1) =>
    match mergeRight P T1 p1 with
    | none => none
    | some (p2, T2) => insert cmpS P T2 p2

/-- `rbt_init` of both trees and insertion of the single initial chunk (mmalloc.c:144-156,
ldms_heap.c:190-210). -/
def start (cmpS : Nat → Nat → Int) (P : Params) (c : Chunk) : Option Trees :=
  insert cmpS P ⟨Rbt.init, Rbt.init⟩ c

end Verif.Alloc
