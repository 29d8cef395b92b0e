import Verif.Alloc.Core

/-!
# Model of `ldms/src/core/ldms_heap.c`

The heap at the end of a metric set's data section that holds list entries.  Addresses are byte
offsets from the heap's base, as the code itself stores them.  `none` is undefined behaviour, a
failed `assert`, or a loop that does not end.

The trees are `rrbt.c` trees; `rrbt_ins`, `rrbt_del`, `rrbt_find_lub`, `rrbt_find_glb` (rrbt.c:187-269,
425-573, 750-830) are the functions of `lib/src/coll/rbt.c` with offsets instead of pointers, so
the model of `Verif.Rbt` is used for them.  `Verif.Rrbt` models the offsets.

`ldms_heap_alloc` and `ldms_heap_free` hold `heap->lock` while they touch the heap.
-/

namespace Verif.LHeap

open Verif.Rbt Verif.Alloc

/-- `sizeof(struct mm_alloc)` (ldms_heap.c:76-78) -/
def allocHdr : Nat := 4
/-- `sizeof(struct mm_free)` (ldms_heap.c:69-74): two nodes of three words plus an 8 byte key -/
def freeHdr : Nat := 64
/-- the signature before the first chunk (`struct ldms_heap_base`, ldms_heap.h:91-96) -/
def sigSize : Nat := 8
/-- `LDMS_HEAP_MIN_SIZE` (ldms_heap.h:70) -/
def minSize : Nat := 512

/-- `struct ldms_heap` (ldms_heap.h:72-79) and the `mm_alloc` prefixes of the allocated blocks. -/
structure Heap where
  gbits : Nat
  size : Nat
  gn : Nat
  trees : Trees
  live : List Chunk

def Heap.grain (h : Heap) : Nat := 2 ^ h.gbits

/-- The chunks occupy `size / grain` grains from offset 8, so they reach up to `size + 8`.  The
model lets the code use those last 8 bytes; that they are outside the `size` bytes reserved for the
heap is the defect `lheap_overrun_defect`. -/
def Heap.params (h : Heap) : Params := ⟨h.gbits, freeHdr, h.size + sigSize⟩

/-- `compare_size` (ldms_heap.c:80-90) -/
def cmpSize (a b : Nat) : Int := if a > b then 1 else if a < b then -1 else 0

/-- `MMR_ROUNDUP` (ldms_heap.c:105) in 64 bits, `r` a power of two. -/
def roundUp (s r : Nat) : Nat := (s + (r - 1)) % 2 ^ 64 / r * r

/-- `ldms_heap_grain_size` (ldms_heap.c:166-169) -/
def grainSize (g : Nat) : Nat := if g > freeHdr then g else freeHdr

/-- The grain loop of `ldms_heap_init` (ldms_heap.c:182-184); `heap->grain` is a 24 bit field, so
there are 24 powers to try before it wraps to 0 and the loop never ends. -/
def grainBits (n : Nat) : Nat → Nat → Option Nat
  | 0, _ => none
  | fuel + 1, bits => if 2 ^ bits < n then grainBits n fuel (bits + 1) else some bits

/-- `ldms_heap_init` (ldms_heap.c:171-211).  `some none`: size 0, no heap. -/
def init (size grain : Nat) : Option (Option Heap) :=
  if size = 0 then some none
  else
    let size := roundUp size minSize
    match grainBits (grainSize grain) 24 0 with
    | none => none
    | some bits =>
      match Alloc.start cmpSize ⟨bits, freeHdr, size + sigSize⟩ ⟨sigSize, size / 2 ^ bits⟩ with
      | none => none
      | some T => some (some ⟨bits, size, 0, T, []⟩)

/-- `ldms_heap_alloc_size` (ldms_heap.c:227-235), in `size_t` arithmetic. -/
def allocSize (grain data : Nat) : Nat :=
  let d := (data + allocHdr) % 2 ^ 64
  let d := if d < freeHdr then freeHdr else d
  roundUp d (grainSize grain)

/-- `ldms_heap_alloc` (ldms_heap.c:237-306).  The prefix stores the count in 32 bits.  The `assert`
of `ldms_heap_off` on the remainder (line 278) is implied by the model's header check. -/
def alloc (h : Heap) (n : Nat) : Option (Heap × Option Nat) :=
  match take cmpSize h.params h.trees (allocSize h.grain n / h.grain) with
  | none => none
  | some none => some (h, none)
  | some (some (c, T)) =>
    some ({ h with trees := T, live := ⟨c.start, c.count % 2 ^ 32⟩ :: h.live,
                   gn := (h.gn + 1) % 2 ^ 32 }, some (c.start + allocHdr))

/-- the `mm_alloc` prefix before a user pointer; `none`: no allocated block there -/
def header (h : Heap) (ptr : Nat) : Option Chunk :=
  h.live.find? (fun c => c.start + allocHdr == ptr)

/-- `ldms_heap_free` (ldms_heap.c:308-398).  `ldms_heap_off` asserts that the block starts below
`size` (line 320). -/
def free (h : Heap) (ptr : Nat) : Option Heap :=
  match header h ptr with
  | none => none
  | some p =>
    if p.start ≥ h.size then none
    else
      match give cmpSize h.params h.trees p with
      | none => none
      | some T => some { h with trees := T, live := h.live.erase p, gn := (h.gn + 1) % 2 ^ 32 }

/-- `heap_stat` / `ldms_heap_get_info` (ldms_heap.c:107-119,139-155): number of free chunks, free
grains and largest chunk. -/
structure Info where
  size : Nat
  grain : Nat
  freeChunks : Nat
  freeBytes : Nat
  largest : Nat
  smallest : Nat
  deriving DecidableEq, Repr

def heapStat (s : Info) (c : Chunk) : Info :=
  { s with
    freeChunks := s.freeChunks + 1
    freeBytes := s.freeBytes + c.count
    smallest := if c.count < s.smallest then c.count else s.smallest
    largest := if c.count > s.largest then c.count else s.largest }

/-- `ldms_heap_get_info` (ldms_heap.c:139-155) -/
def getInfo (h : Heap) : Info :=
  (traverse h.trees.addr.root).foldl heapStat ⟨h.size, h.grain, 0, 0, 0, h.size + 1⟩

/-- `ldms_heap_size` (ldms_heap.c:400-403) -/
def heapSize (n : Nat) : Nat := roundUp n minSize

/-- `LDMS_LIST_GRAIN` (ldms_private.h:61) -/
def listGrain : Nat := 32

/-- `ldms_list_heap_size_get` (ldms.c:1722-1731) for `k` entries of `entry` bytes each (value and
`struct ldms_list_entry`), in `size_t` arithmetic. -/
def listHeapSize (k entry : Nat) : Nat := k * allocSize listGrain entry % 2 ^ 64

end Verif.LHeap
