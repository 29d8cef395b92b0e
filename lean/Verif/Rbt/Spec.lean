import Verif.Rbt.Model

/-!
# Specification vocabulary for the red-black tree

Nothing here mentions rotations, contexts or the rebalancing code.  A tree is specified by its
in-order listing `traverse` and by the textbook red-black conditions.
-/

namespace Verif.Rbt

open Color Tree

variable {α κ : Type}

/-- A comparator whose sign is a total preorder (what `rbt.h` asks of `rbn_comparator_t`). -/
structure LawfulCmp (cmp : κ → κ → Int) : Prop where
  /-- swapping the arguments reverses the sign -/
  anti : ∀ a b, 0 < cmp a b ↔ cmp b a < 0
  /-- `≤` is transitive -/
  trans : ∀ a b c, cmp a b ≤ 0 → cmp b c ≤ 0 → cmp a c ≤ 0

/-- The nodes listed from left to right are in non-decreasing key order. -/
def Sorted (cmp : κ → κ → Int) (key : α → κ) (l : List α) : Prop :=
  l.Pairwise (fun a b => cmp (key a) (key b) ≤ 0)

/-- Insertion into a sorted list after every element whose key is not greater. -/
def insertSorted (cmp : κ → κ → Int) (key : α → κ) (x : α) (l : List α) : List α :=
  l.filter (fun y => ¬ 0 < cmp (key y) (key x)) ++ x :: l.filter (fun y => 0 < cmp (key y) (key x))

/-- No red node has a red child. -/
def NoRedRed : Tree α → Prop
  | leaf => True
  | node c l _ r =>
    (c = red → color l = black ∧ color r = black) ∧ NoRedRed l ∧ NoRedRed r

/-- Every path from the root of `t` to a leaf, as the list of colours met. -/
def paths : Tree α → List (List Color)
  | leaf => [[]]
  | node c l _ r => (paths l ++ paths r).map (c :: ·)

/-- The red-black conditions of `rbt_verify` (rbt.c:541-622): black root, no red node with a red
child, the same number of black nodes on all paths. -/
def IsRedBlack (t : Tree α) : Prop :=
  color t = black ∧ NoRedRed t ∧
    ∀ p ∈ paths t, ∀ q ∈ paths t, p.count black = q.count black

/-- Number of nodes on the longest path: the most comparisons a lookup makes. -/
def height : Tree α → Nat
  | leaf => 0
  | node _ l _ r => max (height l) (height r) + 1

/-- An operation of a client of the tree. -/
inductive Op (α : Type) where
  | ins : α → Op α
  | del : α → Op α

/-- The reference implementation: a sorted list. -/
def specStep [DecidableEq α] (cmp : κ → κ → Int) (key : α → κ) (l : List α) : Op α → List α
  | Op.ins x => insertSorted cmp key x l
  | Op.del x => l.erase x

/-- The reference history. -/
def specRun [DecidableEq α] (cmp : κ → κ → Int) (key : α → κ) : List α → List (Op α) → List α
  | l, [] => l
  | l, op :: ops => specRun cmp key (specStep cmp key l op) ops

/-- What the client may do: insert a node that is not in the tree, delete one that is. -/
def Legal [DecidableEq α] (cmp : κ → κ → Int) (key : α → κ) : List α → List (Op α) → Prop
  | _, [] => True
  | l, Op.ins x :: ops => x ∉ l ∧ Legal cmp key (specStep cmp key l (Op.ins x)) ops
  | l, Op.del x :: ops => x ∈ l ∧ Legal cmp key (specStep cmp key l (Op.del x)) ops

/-- One client operation on the modelled tree. -/
def step [DecidableEq α] (cmp : κ → κ → Int) (key : α → κ) (t : Rbt α) : Op α → Option (Rbt α)
  | Op.ins x => ins cmp key t x
  | Op.del x => del t x

/-- A whole history on the modelled tree; `none` is a crash. -/
def run [DecidableEq α] (cmp : κ → κ → Int) (key : α → κ) : Rbt α → List (Op α) → Option (Rbt α)
  | t, [] => some t
  | t, op :: ops =>
    match step cmp key t op with
    | some t' => run cmp key t' ops
    | none => none

end Verif.Rbt
