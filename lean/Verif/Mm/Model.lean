import Verif.Alloc.Core

/-!
# Model of `lib/src/mmalloc/mmalloc.c`

The memory region that holds every metric set.  Addresses are byte offsets from `mmr->start`.
`none` as a result of an operation stands for undefined behaviour of the C code (wild pointer,
write outside the mapping) or for a call that never returns; `some none` for a NULL / error return.

All entry points take `mmr->lock` for their whole duration (mmalloc.c:180,289,389), so an execution
of any number of threads is a sequence of the calls below.
-/

namespace Verif.Mm

open Verif.Rbt Verif.Alloc

/-- `sizeof(struct mm_prefix)` (mmalloc.c:69-74): two `struct rbn` of 40 bytes, a count, a pointer
(LP64). -/
def prefixSize : Nat := 96

/-- `struct mm_region` (mmalloc.c:76-84) together with the headers of the blocks that are currently
allocated (`p->count` is stored in the block's own prefix, mmalloc.c:260). -/
structure Pool where
  gbits : Nat
  size : Nat
  trees : Trees
  live : List Chunk

/-- `mmr->grain` -/
def Pool.grain (m : Pool) : Nat := 2 ^ m.gbits

def Pool.params (m : Pool) : Params := ⟨m.gbits, prefixSize, m.size⟩

/-- `compare_count` (mmalloc.c:86-89): the 64-bit difference truncated to `int`. -/
def cmpCount (a b : Nat) : Int := Int.bmod ((a : Int) - b) (2 ^ 32)

/-- `MMR_ROUNDUP` (mmalloc.c:103) on `size_t`, for a power of two `r`: adding `r - 1` wraps at 64
bits; clearing the low bits is rounding down. -/
def roundUp (s r : Nat) : Nat := (s + (r - 1)) % 2 ^ 64 / r * r

/-- `get_pow2` (mmalloc.c:115-122): the loop doubles a `size_t` until it is no less than `n`.  For
`n > 2^63` it never ends: `none`.  `fuel` is 64 minus the current bit. -/
def getPow2 (n : Nat) : Nat → Nat → Option Nat
  | 0, _ => none
  | fuel + 1, bits => if 2 ^ bits < n then getPow2 n fuel (bits + 1) else some bits

/-- `mm_init` (mmalloc.c:124-166).  The outer `none` is a non-terminating call or a write outside
the mapping; `some none` an errno.  `mmap` of length 0 fails; we do not model `mmap` failing for
want of memory, which only makes the call return the errno earlier. -/
def mmInit (size grain : Nat) : Option (Option Pool) :=
  let size := roundUp size 4096
  if size = 0 then some none
  else
    match getPow2 grain 64 0 with
    | none => none
    | some bits =>
      match Alloc.start cmpCount ⟨bits, prefixSize, size⟩ ⟨0, size / 2 ^ bits⟩ with
      | none => none
      | some T => some (some ⟨bits, size, T, []⟩)

/-- The number of grains `mm_alloc` looks for (mmalloc.c:177-179), in `size_t` arithmetic. -/
def allocCount (m : Pool) (size : Nat) : Nat :=
  roundUp ((size + prefixSize) % 2 ^ 64) m.grain / m.grain

/-- `mm_alloc` (mmalloc.c:170-268).  Returns the new state and the pointer. -/
def mmAlloc (m : Pool) (size : Nat) : Option (Pool × Option Nat) :=
  match take cmpCount m.params m.trees (allocCount m size) with
  | none => none
  | some none => some (m, none)
  | some (some (c, T)) =>
    some ({ m with trees := T, live := c :: m.live }, some (c.start + prefixSize))

/-- The prefix in front of a user pointer (`p--`, mmalloc.c:282): `none` if there is no allocated
block there, in which case the C code reads garbage. -/
def header (m : Pool) (ptr : Nat) : Option Chunk :=
  m.live.find? (fun c => c.start + prefixSize == ptr)

/-- `mm_free` (mmalloc.c:270-375) of a non-NULL pointer, with `MMALLOC_DISABLE_MM_FREE` unset. -/
def mmFree (m : Pool) (ptr : Nat) : Option Pool :=
  match header m ptr with
  | none => none
  | some p =>
    match give cmpCount m.params m.trees p with
    | none => none
    | some T => some { m with trees := T, live := m.live.erase p }

/-- `mm_free` with its two early returns (mmalloc.c:272-275): `disabled` is
`mm_is_disable_mm_free`, `none` the NULL pointer. -/
def mmFreeCall (disabled : Bool) (m : Pool) : Option Nat → Option Pool
  | none => some m
  | some ptr => if disabled then some m else mmFree m ptr

/-- `struct mm_stat` (mmalloc.h) -/
structure Stat where
  size : Nat
  grain : Nat
  chunks : Nat
  bytes : Nat
  largest : Nat
  smallest : Nat
  deriving DecidableEq, Repr

/-- `heap_stat` (mmalloc.c:484-496).  `bytes` counts grains, as in the code. -/
def heapStat (s : Stat) (c : Chunk) : Stat :=
  { s with
    chunks := s.chunks + 1
    bytes := s.bytes + c.count
    smallest := if c.count < s.smallest then c.count else s.smallest
    largest := if c.count > s.largest then c.count else s.largest }

/-- `mm_stats` (mmalloc.c:498-511) after a successful `mm_init`. -/
def mmStats (m : Pool) : Stat :=
  (traverse m.trees.addr.root).foldl heapStat ⟨m.size, m.grain, 0, 0, 0, m.size + 1⟩

/-- Outcomes of `mm_realloc`. -/
inductive Realloc where
  | ub
  | hang
  | ret (m : Pool) (ptr : Nat)

/-- `mm_realloc` (mmalloc.c:377-482).  The in-place branch is modelled in full.  Otherwise line 465
calls `mm_alloc`, which locks the (non-recursive) `mmr->lock` the caller already holds since
line 389: the call never returns. -/
def mmRealloc (m : Pool) (ptr newsize : Nat) : Realloc :=
  let newcount := roundUp newsize m.grain / m.grain
  match header m ptr with
  | none => .ub
  | some p =>
    match findLub cmpAddr Chunk.start p.start m.trees.addr.root with
    | none => .hang
    | some q =>
      if p.fin m.params = q.start ∧ p.count + q.count ≥ newcount then
        match remove m.trees q with
        | none => .ub
        | some T =>
          let live' := ⟨p.start, newcount⟩ :: m.live.erase p
          if p.count + q.count - newcount = 0 then
            .ret { m with trees := T, live := live' } ptr
          else
            match insert cmpCount m.params T
                ⟨p.start + newcount * m.grain, p.count + q.count - newcount⟩ with
            | none => .ub
            | some T' => .ret { m with trees := T', live := live' } ptr
      else .hang

end Verif.Mm
