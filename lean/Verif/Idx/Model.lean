/-!
# The radix index (`lib/src/coll/idx.c`)

A layer is a tree node: layers are only ever reachable through one entry of their parent, so the memory
graph is a tree and pointers need no modelling.  `malloc` is assumed not to fail.  Objects are numbers;
`none` is the null pointer.
-/

namespace Verif.Idx

abbrev Byte := Fin 256

/-- `struct idx_layer_s` (idx_priv.h:67-71) or the null pointer -/
inductive Layer where
  | nil
  | mk (objCount layerCount : Int) (obj : Byte → Option Nat) (next : Byte → Layer)

def upd {β γ : Type} [DecidableEq β] (f : β → γ) (b : β) (c : γ) : β → γ :=
  fun x => if x = b then c else f x

def Layer.isNil : Layer → Bool
  | .nil => true
  | .mk .. => false

/-- `new_idx_layer` (idx.c:75-89) -/
def newLayer : Layer := .mk 0 0 (fun _ => none) (fun _ => .nil)

/-- `idx_create` (idx.c:91-111): the top layer -/
def create : Layer := newLayer

/-- `idx_find` (idx.c:144-166); an empty key finds nothing -/
def find : Layer → List Byte → Option Nat
  | .nil, _ => none
  | .mk .., [] => none
  | .mk _ _ obj next, b :: k => if k.isEmpty then obj b else find (next b) k

/-- The loop of `idx_add` (idx.c:203-215): walk down, making missing layers, and store the object in
the last one. -/
def addAt : Layer → List Byte → Nat → Layer
  | .nil, _, _ => .nil
  | l@(.mk ..), [], _ => l
  | .mk oc lc obj next, b :: k, o =>
    if k.isEmpty then .mk (oc + 1) lc (upd obj b (some o)) next
    else if (next b).isNil then .mk oc (lc + 1) obj (upd next b (addAt newLayer k o))
    else .mk oc lc obj (upd next b (addAt (next b) k o))

inductive Rc where | ok | einval | eexist
deriving DecidableEq, Repr

/-- `idx_add` (idx.c:190-221).  `none`: an empty key makes `keylen--` wrap and the loop run off the
key. -/
def add (t : Layer) (key : List Byte) (obj : Option Nat) : Option (Layer × Rc) :=
  match obj with
  | none => some (t, .einval)
  | some o =>
    if (find t key).isSome then some (t, .eexist)
    else if key = [] then none
    else some (addAt t key o, .ok)

/-- The first part of `idx_delete` (idx.c:283-304): walk down, clear the entry, count one object less;
`none` if a layer is missing. -/
def delAt : Layer → List Byte → Option (Layer × Option Nat)
  | .nil, _ => none
  | .mk .., [] => none
  | .mk oc lc obj next, b :: k =>
    if k.isEmpty then some (.mk (oc - 1) lc (upd obj b none) next, obj b)
    else match delAt (next b) k with
      | none => none
      | some (l, o) => some (.mk oc lc obj (upd next b l), o)

/-- `purge_layer` (idx.c:227-251).  `key` is the rest of the key, `after` the byte that follows the key in
memory.  Result: the layer and whether it was freed; `none`: an assertion failed, or a null layer was
read. -/
def purgeLayer (after : Byte) : Layer → List Byte → Option (Layer × Bool)
  | l, [] => if after = 255 then none else some (l, false)
  | l, b :: k =>
    if b = 255 then none
    else match l, k with
    | l, [] => some (l, false)
    | .nil, _ :: _ => none
    | .mk oc lc obj next, [_] =>
      if oc = 0 ∧ lc = 0 then some (.nil, true) else some (.mk oc lc obj next, false)
    | .mk oc lc obj next, c :: d :: k' =>
      if (next b).isNil then none
      else match purgeLayer after (next b) (c :: d :: k') with
        | none => none
        | some (_, true) =>
          if oc = 0 ∧ lc - 1 = 0 then some (.nil, true)
          else some (.mk oc (lc - 1) obj (upd next b .nil), false)
        | some (l', false) => some (.mk oc lc obj (upd next b l'), false)

/-- `purge_layers` (idx.c:253-265) -/
def purgeLayers (after : Byte) : Layer → List Byte → Option Layer
  | .nil, _ => none
  | .mk .., [] => none
  | .mk oc lc obj next, b :: k =>
    match purgeLayer after (next b) k with
    | none => none
    | some (_, true) => some (.mk oc (lc - 1) obj (upd next b .nil))
    | some (l, false) => some (.mk oc lc obj (upd next b l))

/-- `idx_delete` (idx.c:274-306).  `none`: abort by an assertion. -/
def delete (t : Layer) (key : List Byte) (after : Byte) : Option (Layer × Option Nat) :=
  match delAt t key with
  | none => some (t, none)
  | some (t', o) => (purgeLayers after t' key).map (·, o)

/-- `traverse_layer` / `idx_traverse` (idx.c:168-188): the objects handed to the callback, in order -/
def traverse : Layer → List Nat
  | .nil => []
  | .mk _ _ obj next =>
    (List.finRange 256).flatMap fun e => (obj e).toList ++ traverse (next e)

/-- `idx_count` (idx.c:316-323) -/
def count (t : Layer) : Nat := (traverse t).length

end Verif.Idx
