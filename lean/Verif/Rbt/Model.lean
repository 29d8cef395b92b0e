/-!
# Model of the ovis red-black tree (`lib/src/coll/rbt.c`, `lib/src/coll/rbt.h`)

A node of the C tree is `struct rbn {left, right, parent, color, key}` embedded in a user
object.  The model keeps the shape, the colours and one value `α` per node (the user object,
which carries the key; `key : α → κ` extracts it).  The address of a node is represented by
the value itself, so `rbt_del` takes the value (its identity) instead of a pointer.

Simplifications, all of them global to this file:
* parent pointers are not stored: a position in the tree is a zipper context (`Ctx`), whose
  first frame is the parent.  Following `n->parent` is popping a frame;
* a NULL dereference or a failing `assert` is the distinct outcome `none`;
* memory is unbounded and the comparator returns an unbounded `Int` (only its sign is used).
-/

namespace Verif.Rbt

/-- Node colour: `RBN_RED = 0`, `RBN_BLACK = 1` (rbt.h:61-62). -/
inductive Color where
  | red
  | black
  deriving DecidableEq, Repr

/-- A (sub)tree; `leaf` is the NULL pointer (rbt.h:65-71). -/
inductive Tree (α : Type) where
  | leaf : Tree α
  | node : Color → Tree α → α → Tree α → Tree α
  deriving DecidableEq, Repr

/-- One step of the path from a node up to the root: the parent's colour, value and other child.
`L`: we are the left child of the parent, `R`: we are the right child. Stands for `n->parent`. -/
inductive Frame (α : Type) where
  | L : Color → α → Tree α → Frame α
  | R : Color → Tree α → α → Frame α
  deriving DecidableEq, Repr

/-- The ancestors of a node, parent first; `[]` means the node is `t->root` (parent NULL). -/
abbrev Ctx (α : Type) := List (Frame α)

/-- `struct rbt` without the comparator, which is passed to the operations (rbt.h:82-86). -/
structure Rbt (α : Type) where
  root : Tree α
  card : Int
  deriving DecidableEq, Repr

variable {α κ : Type}

open Color Tree

/-- Rebuild the whole tree from a subtree and its ancestors (the tree seen from `t->root`). -/
def plug : Tree α → Ctx α → Tree α
  | t, [] => t
  | t, Frame.L c x r :: ctx => plug (node c t x r) ctx
  | t, Frame.R c l x :: ctx => plug (node c l x t) ctx

/-- `is_red` (rbt.c:53-58) and `node_color` (rbt.c:537-539): a leaf is black. -/
def color : Tree α → Color
  | leaf => black
  | node c _ _ _ => c

/-- Assignment `n->color = c`; assigning through NULL is undefined. -/
def setColor (c : Color) : Tree α → Option (Tree α)
  | leaf => none
  | node _ l x r => some (node c l x r)

/-- `if (child) child->color = RBN_BLACK` (rbt.c:777-778), and `t->root->color = RBN_BLACK`
(rbt.c:258) on a non-empty tree. -/
def blacken : Tree α → Tree α
  | leaf => leaf
  | node _ l x r => node black l x r

/-- `rotate_left` (rbt.c:60-88) on the subtree rooted at `x`; NULL right child is undefined. -/
def rotateLeft : Tree α → Option (Tree α)
  | node c a x (node cy b y d) => some (node cy (node c a x b) y d)
  | _ => none

/-- `rotate_right` (rbt.c:90-115) on the subtree rooted at `x`; NULL left child is undefined. -/
def rotateRight : Tree α → Option (Tree α)
  | node c (node cy a y b) x d => some (node cy a y (node c b x d))
  | _ => none

/-- `rbt_init` (rbt.c:124-129). -/
def init : Rbt α := ⟨leaf, 0⟩

/-- `rbt_empty` (rbt.c:138-141). -/
def isEmpty (t : Rbt α) : Bool :=
  match t.root with
  | leaf => true
  | node .. => false

/-- The descent of `rbt_ins` to the NULL link that will be replaced (rbt.c:200-207): left when
the node's key is greater than the new key, right otherwise. -/
def descend (cmp : κ → κ → Int) (key : α → κ) (k : κ) : Tree α → Ctx α → Ctx α
  | leaf, ctx => ctx
  | node c l x r, ctx =>
    if cmp (key x) k > 0 then descend cmp key k l (Frame.L c x r :: ctx)
    else descend cmp key k r (Frame.R c l x :: ctx)

/-- The rebalancing loop of `rbt_ins` (rbt.c:220-258) with the current node `x` given as the
subtree `t`.  A red parent without a grandparent would dereference NULL: `none`. -/
def insFix (t : Tree α) (ctx : Ctx α) : Option (Tree α) :=
  match ctx with
  | [] => some (blacken t)
  | Frame.L black px ps :: rest => some (blacken (plug t (Frame.L black px ps :: rest)))
  | Frame.R black ps px :: rest => some (blacken (plug t (Frame.R black ps px :: rest)))
  | [Frame.L red _ _] => none
  | [Frame.R red _ _] => none
  -- x->parent == x->parent->parent->left (rbt.c:222-237)
  | Frame.L red px ps :: Frame.L _ gx u :: rest =>
    match color u with
    | red => insFix (node red (node black t px ps) gx (blacken u)) rest
    | black =>
      match rotateRight (node red (node black t px ps) gx u) with
      | some t' => some (blacken (plug t' rest))
      | none => none
  | Frame.R red ps px :: Frame.L _ gx u :: rest =>
    match color u with
    | red => insFix (node red (node black ps px t) gx (blacken u)) rest
    | black =>
      match rotateLeft (node red ps px t) with
      | some p =>
        match setColor black p with
        | some p' =>
          match rotateRight (node red p' gx u) with
          | some t' => some (blacken (plug t' rest))
          | none => none
        | none => none
      | none => none
  -- mirror image (rbt.c:238-256)
  | Frame.R red ps px :: Frame.R _ u gx :: rest =>
    match color u with
    | red => insFix (node red (blacken u) gx (node black ps px t)) rest
    | black =>
      match rotateLeft (node red u gx (node black ps px t)) with
      | some t' => some (blacken (plug t' rest))
      | none => none
  | Frame.L red px ps :: Frame.R _ u gx :: rest =>
    match color u with
    | red => insFix (node red (blacken u) gx (node black t px ps)) rest
    | black =>
      match rotateRight (node red t px ps) with
      | some p =>
        match setColor black p with
        | some p' =>
          match rotateLeft (node red u gx p') with
          | some t' => some (blacken (plug t' rest))
          | none => none
        | none => none
      | none => none
termination_by ctx.length

/-- `rbt_ins` (rbt.c:179-259). -/
def ins (cmp : κ → κ → Int) (key : α → κ) (t : Rbt α) (x : α) : Option (Rbt α) :=
  match t.root with
  | leaf => some ⟨node black leaf x leaf, t.card + 1⟩
  | node c l y r =>
    match insFix (node red leaf x leaf) (descend cmp key (key x) (node c l y r) []) with
    | some root => some ⟨root, t.card + 1⟩
    | none => none

/-- `rbt_find` (rbt.c:377-393). -/
def find (cmp : κ → κ → Int) (key : α → κ) (k : κ) : Tree α → Option α
  | leaf => none
  | node _ l x r =>
    if cmp (key x) k = 0 then some x
    else if cmp (key x) k > 0 then find cmp key k l
    else find cmp key k r

/-- The loop of `rbt_find_lub` (rbt.c:349-367) with the current candidate. -/
def findLubLoop (cmp : κ → κ → Int) (key : α → κ) (k : κ) : Tree α → Option α → Option α
  | leaf, lub => lub
  | node _ l x r, lub =>
    if cmp (key x) k = 0 then some x
    else if cmp (key x) k < 0 then findLubLoop cmp key k r lub
    else findLubLoop cmp key k l (some x)

/-- `rbt_find_lub` (rbt.c:349-367). -/
def findLub (cmp : κ → κ → Int) (key : α → κ) (k : κ) (t : Tree α) : Option α :=
  findLubLoop cmp key k t none

/-- The loop of `rbt_find_glb` (rbt.c:305-323) with the current candidate. -/
def findGlbLoop (cmp : κ → κ → Int) (key : α → κ) (k : κ) : Tree α → Option α → Option α
  | leaf, glb => glb
  | node _ l x r, glb =>
    if cmp (key x) k = 0 then some x
    else if cmp (key x) k > 0 then findGlbLoop cmp key k l glb
    else findGlbLoop cmp key k r (some x)

/-- `rbt_find_glb` (rbt.c:305-323). -/
def findGlb (cmp : κ → κ → Int) (key : α → κ) (k : κ) (t : Tree α) : Option α :=
  findGlbLoop cmp key k t none

/-- `rbt_min` / `__rbn_min` (rbt.c:395-399, 413-416). -/
def min? : Tree α → Option α
  | leaf => none
  | node _ leaf x _ => some x
  | node _ (node c l y r) _ _ => min? (node c l y r)

/-- `rbt_max` / `__rbn_max` (rbt.c:401-405, 424-427). -/
def max? : Tree α → Option α
  | leaf => none
  | node _ _ x leaf => some x
  | node _ _ _ (node c l y r) => max? (node c l y r)

/-- The callbacks made by `rbt_traverse` (rbt.c:429-467), in order. -/
def traverse : Tree α → List α
  | leaf => []
  | node _ l x r => traverse l ++ x :: traverse r

/-- Turn the pointer of a node into its position: the node's subtree and its ancestors.
There is no counterpart in C, where the pointer itself is the position. -/
def locate [DecidableEq α] (n : α) : Tree α → Ctx α → Option (Color × Tree α × Tree α × Ctx α)
  | leaf, _ => none
  | node c l x r, ctx =>
    if x = n then some (c, l, r, ctx)
    else
      match locate n l (Frame.L c x r :: ctx) with
      | some p => some p
      | none => locate n r (Frame.R c l x :: ctx)

/-- The upward loop of `rbn_succ` (rbt.c:481-485): climb while we are a right child; the answer
is the parent reached. -/
def climbSucc : Ctx α → Option α
  | [] => none
  | Frame.L _ x _ :: _ => some x
  | Frame.R _ _ _ :: rest => climbSucc rest

/-- The upward loop of `rbn_pred` (rbt.c:502-506). -/
def climbPred : Ctx α → Option α
  | [] => none
  | Frame.R _ _ x :: _ => some x
  | Frame.L _ _ _ :: rest => climbPred rest

/-- `rbn_succ` (rbt.c:476-488) of the node `n` of tree `t`. Outer `none`: `n` not in the tree. -/
def succ [DecidableEq α] (t : Tree α) (n : α) : Option (Option α) :=
  match locate n t [] with
  | none => none
  | some (_, _, node c l x r, _) => some (min? (node c l x r))
  | some (_, _, leaf, ctx) => some (climbSucc ctx)

/-- `rbn_pred` (rbt.c:497-509) of the node `n` of tree `t`. Outer `none`: `n` not in the tree. -/
def pred [DecidableEq α] (t : Tree α) (n : α) : Option (Option α) :=
  match locate n t [] with
  | none => none
  | some (_, node c l x r, _, _) => some (max? (node c l x r))
  | some (_, leaf, _, ctx) => some (climbPred ctx)

/-- Result of one of the delete cases: finished with the subtree at the parent's position and
its ancestors, or `delete_case1` must go on at the parent (rbt.c:903). -/
inductive Step (α : Type) where
  | done : Tree α → Step α
  | up : Tree α → Step α

/-- `delete_case6` (rbt.c:990-1006): `s` and `p` swap colours, `s`'s outer child turns black,
rotate at `p`.  Returns the subtree now at `p`'s place. `t` is the subtree of `n`. -/
def case6 (t : Tree α) : Frame α → Option (Tree α)
  | Frame.L pc px (node _ sl sx sr) =>
    if color sr = red then
      match setColor black sr with
      | some sr' => rotateLeft (node black t px (node pc sl sx sr'))
      | none => none
    else none
  | Frame.R pc (node _ sl sx sr) px =>
    if color sl = red then
      match setColor black sl with
      | some sl' => rotateRight (node black (node pc sl' sx sr) px t)
      | none => none
    else none
  | Frame.L _ _ leaf => none
  | Frame.R _ leaf _ => none

/-- `delete_case5` (rbt.c:944-965): if only the inner child of `s` is red, recolour and rotate at
`s`; then case 6. -/
def case5 (t : Tree α) : Frame α → Option (Tree α)
  | Frame.L pc px (node sc sl sx sr) =>
    if sc = black ∧ color sl = red ∧ color sr = black then
      match setColor black sl with
      | some sl' =>
        match rotateRight (node red sl' sx sr) with
        | some s' => case6 t (Frame.L pc px s')
        | none => none
      | none => none
    else case6 t (Frame.L pc px (node sc sl sx sr))
  | Frame.R pc (node sc sl sx sr) px =>
    if sc = black ∧ color sr = red ∧ color sl = black then
      match setColor black sr with
      | some sr' =>
        match rotateLeft (node red sl sx sr') with
        | some s' => case6 t (Frame.R pc s' px)
        | none => none
      | none => none
    else case6 t (Frame.R pc (node sc sl sx sr) px)
  | Frame.L _ _ leaf => none
  | Frame.R _ leaf _ => none

/-- `delete_case4` (rbt.c:915-929). -/
def case4 (t : Tree α) : Frame α → Option (Tree α)
  | Frame.L pc px (node sc sl sx sr) =>
    if pc = red ∧ sc = black ∧ color sl = black ∧ color sr = black then
      some (node black t px (node red sl sx sr))
    else case5 t (Frame.L pc px (node sc sl sx sr))
  | Frame.R pc (node sc sl sx sr) px =>
    if pc = red ∧ sc = black ∧ color sl = black ∧ color sr = black then
      some (node black (node red sl sx sr) px t)
    else case5 t (Frame.R pc (node sc sl sx sr) px)
  | Frame.L _ _ leaf => none
  | Frame.R _ leaf _ => none

/-- `delete_case3` (rbt.c:893-907); `up` is the call `delete_case1(t, p)`. -/
def case3 (t : Tree α) : Frame α → Option (Step α)
  | Frame.L pc px (node sc sl sx sr) =>
    if pc = black ∧ sc = black ∧ color sl = black ∧ color sr = black then
      some (Step.up (node pc t px (node red sl sx sr)))
    else (case4 t (Frame.L pc px (node sc sl sx sr))).map Step.done
  | Frame.R pc (node sc sl sx sr) px =>
    if pc = black ∧ sc = black ∧ color sl = black ∧ color sr = black then
      some (Step.up (node pc (node red sl sx sr) px t))
    else (case4 t (Frame.R pc (node sc sl sx sr) px)).map Step.done
  | Frame.L _ _ leaf => none
  | Frame.R _ leaf _ => none

/-- `delete_case1` / `delete_case2` (rbt.c:856-884) at the node whose subtree is `t` and whose
ancestors are `ctx`: stop at the root; if the sibling is red recolour and rotate at the parent,
which adds the sibling as a new (black) grandparent; then case 3.
Simplification: the deleted node has already been replaced by its child (`replace_node`,
rbt.c:851), which commutes with the cases because they never look below `n`. -/
def delFix (t : Tree α) (ctx : Ctx α) : Option (Tree α) :=
  match ctx with
  | [] => some t
  | Frame.L _ px (node red sl sx sr) :: rest =>
    -- p->color = RED, s->color = BLACK, rotate_left(p): now (red p) sits below (black s)
    match case3 t (Frame.L red px sl) with
    | some (Step.done t') => some (plug t' (Frame.L black sx sr :: rest))
    | some (Step.up _) => none
    | none => none
  | Frame.R _ (node red sl sx sr) px :: rest =>
    match case3 t (Frame.R red sr px) with
    | some (Step.done t') => some (plug t' (Frame.R black sl sx :: rest))
    | some (Step.up _) => none
    | none => none
  | f :: rest =>
    match case3 t f with
    | some (Step.done t') => some (plug t' rest)
    | some (Step.up t') => delFix t' rest
    | none => none

/-- `replace_node` (rbt.c:521-535): replacing the root by NULL dereferences NULL. -/
def replaceNode (child : Tree α) (ctx : Ctx α) : Option (Tree α) :=
  match ctx, child with
  | [], leaf => none
  | ctx, child => some (plug child ctx)

/-- `assert(n->left == NULL || n->right == NULL); child = n->right == NULL ? n->left : n->right`
(rbt.c:758-759). -/
def onlyChild : Tree α → Tree α → Option (Tree α)
  | l, leaf => some l
  | leaf, r => some r
  | _, _ => none

/-- The second half of `rbt_del` (rbt.c:758-853): remove a node of colour `c` with at most one
child, sitting below `ctx`. -/
def delOne (c : Color) (l r : Tree α) (ctx : Ctx α) : Option (Tree α) :=
  match onlyChild l r with
  | none => none
  | some child =>
    match c with
    | red => replaceNode child ctx
    | black =>
      match ctx with
      | [] => some (blacken child)
      | ctx => delFix child ctx

/-- `find_pred` (rbt.c:261-266): walk right from the left child, recording the ancestors passed.
Returns the predecessor's colour, left subtree, value and ancestors. -/
def findPred : Tree α → Ctx α → Option (Color × Tree α × α × Ctx α)
  | leaf, _ => none
  | node c l x leaf, ctx => some (c, l, x, ctx)
  | node c l x (node c' l' x' r'), ctx => findPred (node c' l' x' r') (Frame.R c l x :: ctx)

/-- Replace the outermost placeholder frame: the ancestors of the predecessor below `n` followed
by `n`'s own position, now holding the predecessor's value with `n`'s colour (rbt.c:664-755). -/
def delTwo (c : Color) (l r : Tree α) (ctx : Ctx α) : Option (Tree α) :=
  match findPred l [] with
  | none => none
  | some (pc, pl, px, below) => delOne pc pl leaf (below ++ Frame.L c px r :: ctx)

/-- `rbt_del` at a known position: two children or at most one (rbt.c:652-853). -/
def delNode (c : Color) (l r : Tree α) (ctx : Ctx α) : Option (Tree α) :=
  match l, r with
  | node cl ll xl rl, node cr lr xr rr => delTwo c (node cl ll xl rl) (node cr lr xr rr) ctx
  | l, r => delOne c l r ctx

/-- `rbt_del` (rbt.c:645-854): `none` if `n` is not in the tree or `card` is 0
(`assert(t->card)`). -/
def del [DecidableEq α] (t : Rbt α) (n : α) : Option (Rbt α) :=
  if t.card = 0 then none
  else
    match locate n t.root [] with
    | none => none
    | some (c, l, r, ctx) =>
      match delNode c l r ctx with
      | some root => some ⟨root, t.card - 1⟩
      | none => none

end Verif.Rbt
