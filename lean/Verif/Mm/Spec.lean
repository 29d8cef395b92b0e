import Verif.Mm.Model

/-! Specification vocabulary for the memory region: what a client that only sees the arguments and
results of `mm_init`, `mm_alloc`, `mm_free` can say. -/

namespace Verif.Mm

/-- A region as `mm_get_info` describes it that the theorems speak about: a grain of at least
96 bytes (the header of a free chunk fits in a grain; LDMS uses 1024), at least one grain, and fewer
than 2^31 grains. -/
def Sound (m : Pool) : Prop :=
  96 ≤ m.grain ∧ m.grain ≤ m.size ∧ m.size / m.grain < 2 ^ 31

/-- Grains needed by a request of `n` bytes: room for the bytes and a 96 byte header, rounded up. -/
def need (grain n : Nat) : Nat := (n + 96 + (grain - 1)) / grain

/-- A request that is not absurd: fewer than 2^31 grains and no 64-bit overflow. -/
def Sane (grain n : Nat) : Prop := need grain n < 2 ^ 31 ∧ n + 96 + grain ≤ 2 ^ 64

/-- A client's block: pointer and requested size. -/
abbrev Block := Nat × Nat

/-- The histories of a region.  `Reach m out`: after some sequence of calls the region is in state
`m` and the client holds exactly the blocks `out` (pointer and requested size).  The client may
free any block it holds, and make any sane request. -/
inductive Reach : Pool → List Block → Prop where
  | init {size grain : Nat} {m : Pool} :
      mmInit size grain = some (some m) → Sound m → Reach m []
  | alloc {m m' : Pool} {out : List Block} {n ptr : Nat} :
      Reach m out → Sane m.grain n → mmAlloc m n = some (m', some ptr) → Reach m' ((ptr, n) :: out)
  | fail {m m' : Pool} {out : List Block} {n : Nat} :
      Reach m out → Sane m.grain n → mmAlloc m n = some (m', none) → Reach m' out
  | free {m m' : Pool} {out : List Block} {b : Block} :
      Reach m out → b ∈ out → mmFree m b.1 = some m' → Reach m' (out.erase b)

/-- Grains consumed by the outstanding blocks. -/
def used (grain : Nat) (out : List Block) : Nat := (out.map (fun b => need grain b.2)).sum

end Verif.Mm
