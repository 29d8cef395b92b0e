import Verif.LHeap.Model

/-! What a client of the set heap can observe. -/

namespace Verif.LHeap

/-- grains a request of `n` bytes needs: the data and a 4 byte prefix, at least 64 bytes, rounded up -/
def need (grain n : Nat) : Nat := (max (n + 4) 64 + (grain - 1)) / grain

/-- a heap with at least one and fewer than 2^32 grains of at least 64 bytes -/
def Sound (h : Heap) : Prop := 64 ≤ h.grain ∧ h.grain ≤ h.size ∧ h.size / h.grain < 2 ^ 32

/-- a request of fewer than 2^32 grains that does not overflow 64 bits -/
def Sane (grain n : Nat) : Prop := need grain n < 2 ^ 32 ∧ n + 64 + grain ≤ 2 ^ 64

abbrev Block := Nat × Nat

/-- Every history of a heap, with the blocks (pointer offset, requested size) the client holds. -/
inductive Reach : Heap → List Block → Prop where
  | init {size grain : Nat} {h : Heap} :
      LHeap.init size grain = some (some h) → Sound h → Reach h []
  | alloc {h h' : Heap} {out : List Block} {n ptr : Nat} :
      Reach h out → Sane h.grain n → alloc h n = some (h', some ptr) → Reach h' ((ptr, n) :: out)
  | fail {h h' : Heap} {out : List Block} {n : Nat} :
      Reach h out → Sane h.grain n → alloc h n = some (h', none) → Reach h' out
  | free {h h' : Heap} {out : List Block} {b : Block} :
      Reach h out → b ∈ out → free h b.1 = some h' → Reach h' (out.erase b)

def used (grain : Nat) (out : List Block) : Nat := (out.map (fun b => need grain b.2)).sum

end Verif.LHeap
