import Verif.Rbt.Model

/-!
# The relocatable red-black tree

`ldms/src/core/rrbt.c`, `rrbt.h`.

Nodes live in memory at absolute addresses; the links between them are offsets from the base of the
region.  A run-time fault – following NULL, an address where there is no node, a pointer computed outside
the region, a failed assertion – is the outcome `none`.

Simplifications:
* an address and an offset are natural numbers; only the 63 bit link (`rrbn.left`) is cut off;
* the checks of `verify_tree` (`rrbt.c:346-413`), which change nothing, are left out;
* loops and recursion have a fuel, and `none` is also the outcome when it is used up.
-/

namespace Verif.Rrbt

/-- `RRBN_RED`, `RRBN_BLACK` (`rrbt.h:70-71`) -/
abbrev Color := Verif.Rbt.Color

/-- `struct rrbn` (`rrbt.h:72-83`) -/
structure Node (κ : Type) where
  color : Color
  left : Nat
  right : Nat
  parent : Nat
  key : κ
  deriving DecidableEq, Repr

/-- memory: the cell that holds the root (`struct rrbt`, `rrbt.h:106-108`) and the node at each address -/
structure Mem (κ : Type) where
  root : Nat
  node : Nat → Option (Node κ)

/-- a pointer to a node; 0 is NULL -/
structure Ptr where
  a : Nat
  deriving DecidableEq, Repr

def null : Ptr := ⟨0⟩

/-- `struct rrbt_instance` (`rrbt.h:110-114`); `size` – the size of the region -/
structure Inst where
  base : Nat
  size : Nat
  deriving DecidableEq, Repr

/-- a computation on memory -/
structure M (κ α : Type) where
  run : Mem κ → Option (α × Mem κ)

variable {κ α β : Type}

def M.pure (a : α) : M κ α := ⟨fun m => some (a, m)⟩
def M.bind (p : M κ α) (f : α → M κ β) : M κ β := ⟨fun m =>
  match p.run m with
  | none => none
  | some (a, m') => (f a).run m'⟩

instance : Monad (M κ) where
  pure := M.pure
  bind := M.bind

def fault : M κ α := ⟨fun _ => none⟩

/-- a statement executed under a condition -/
def when' (c : Bool) (p : M κ Unit) : M κ Unit := if c then p else pure ()

/-- one of two statements -/
def sel (c : Bool) (p q : M κ Unit) : M κ Unit := if c then p else q

/-- `rrbn_ptr` (`rrbt.h:116-117`); computing a pointer outside the region is a fault -/
def ptr (t : Inst) (off : Nat) : M κ Ptr :=
  if off = 0 then pure null else if off < t.size then pure ⟨t.base + off⟩ else fault

/-- `rrbt_off` (`rrbt.h:118`) -/
def off (t : Inst) (p : Ptr) : M κ Nat :=
  if p.a = 0 then pure 0
  else if t.base ≤ p.a ∧ p.a - t.base < t.size then pure (p.a - t.base) else fault

/-- reading a node -/
def rd (p : Ptr) : M κ (Node κ) := ⟨fun m =>
  match m.node p.a with
  | none => none
  | some n => some (n, m)⟩

/-- changing a node -/
def wr (p : Ptr) (f : Node κ → Node κ) : M κ Unit := ⟨fun m =>
  match m.node p.a with
  | none => none
  | some n => some ((), { m with node := fun a => if a = p.a then some (f n) else m.node a })⟩

def getRoot : M κ Nat := ⟨fun m => some (m.root, m)⟩
def setRoot (o : Nat) : M κ Unit := ⟨fun m => some ((), { m with root := o })⟩

def eqP (p q : Ptr) : M κ Bool := pure (p.a == q.a)
def isNull (p : Ptr) : M κ Bool := pure (p.a == 0)
def assert' (b : Bool) : M κ Unit := if b then pure () else fault

/-- `n->left = o`: the link has 63 bits (`rrbt.h:74`) -/
def setLeft (p : Ptr) (o : Nat) : M κ Unit := wr p fun n => { n with left := o % 2 ^ 63 }
def setRight (p : Ptr) (o : Nat) : M κ Unit := wr p fun n => { n with right := o }
def setParent (p : Ptr) (o : Nat) : M κ Unit := wr p fun n => { n with parent := o }
def setColor (p : Ptr) (c : Color) : M κ Unit := wr p fun n => { n with color := c }

def leftP (t : Inst) (p : Ptr) : M κ Ptr := do let n ← rd p; ptr t n.left
def rightP (t : Inst) (p : Ptr) : M κ Ptr := do let n ← rd p; ptr t n.right
def parentP (t : Inst) (p : Ptr) : M κ Ptr := do let n ← rd p; ptr t n.parent

/-- `node_color` (`rrbt.c:329-331`) -/
def color (p : Ptr) : M κ Color := do
  let z ← isNull p
  if z then pure .black else do
    let n ← rd p
    pure n.color

/-- `is_red` (`rrbt.c:64-69`) -/
def isRed (p : Ptr) : M κ Bool := do
  let c ← color p
  pure (c == .red)

/-- `rotate_left` (`rrbt.c:71-101`) -/
def rotateLeft (t : Inst) (x : Ptr) : M κ Unit := do
  let nx ← rd x
  let y ← ptr t nx.right
  let parent ← ptr t nx.parent
  let ny ← rd y
  setRight x ny.left
  let ox ← off t x
  let oy ← off t y
  when' (ny.left != 0) do
    let l ← ptr t ny.left
    setParent l ox
  setParent y nx.parent
  let root ← getRoot
  if root != ox then do
    assert' (nx.parent != 0)
    let np ← rd parent
    sel (np.left == ox) (setLeft parent oy) (setRight parent oy)
    setLeft y ox
    setParent x oy
  else do
    assert' (nx.parent == 0)
    setRoot oy
    setParent y 0
    setColor y .black
    setLeft y ox
    setParent x oy

/-- `rotate_right` (`rrbt.c:103-129`) -/
def rotateRight (t : Inst) (x : Ptr) : M κ Unit := do
  let nx ← rd x
  let y ← ptr t nx.left
  let parent ← ptr t nx.parent
  let ny ← rd y
  setLeft x ny.right
  let ox ← off t x
  let oy ← off t y
  when' (ny.right != 0) do
    let r ← ptr t ny.right
    setParent r ox
  let root ← getRoot
  if root != ox then do
    let op ← off t parent
    setParent y op
    let np ← rd parent
    sel (np.right == ox) (setRight parent oy) (setLeft parent oy)
    setRight y ox
    setParent x oy
  else do
    setRoot oy
    setColor y .black
    setParent y 0
    setRight y ox
    setParent x oy

/-- `x == rrbn_ptr(t, *t->root)` -/
def isRoot (t : Inst) (x : Ptr) : M κ Bool := do
  let r ← getRoot
  let p ← ptr t r
  eqP x p

/-- the descent of `rrbt_ins` (`rrbt.c:209-216`): the last node and the last comparison -/
def descend (t : Inst) (cmp : κ → κ → Int) (k : κ) : Nat → Ptr → Ptr → Int → M κ (Ptr × Int)
  | 0, _, _, _ => fault
  | f + 1, n, parent, c => do
    let z ← isNull n
    if z then pure (parent, c) else do
      let nn ← rd n
      if cmp nn.key k > 0 then do
        let l ← ptr t nn.left
        descend t cmp k f l n (cmp nn.key k)
      else do
        let r ← ptr t nn.right
        descend t cmp k f r n (cmp nn.key k)

/-- the rebalancing loop of `rrbt_ins` (`rrbt.c:229-266`) -/
def insFix (t : Inst) : Nat → Ptr → M κ Unit
  | 0, _ => fault
  | f + 1, x => do
    let e ← isRoot t x
    if e then pure () else do
      let nx ← rd x
      let p ← ptr t nx.parent
      let r ← isRed p
      if r then do
        let g ← parentP t p
        let ng ← rd g
        if nx.parent == ng.left then do
          let u ← ptr t ng.right
          let ur ← isRed u
          if ur then do
            setColor p .black
            setColor u .black
            setColor g .red
            insFix t f g
          else do
            let pr ← rightP t p
            let e ← eqP x pr
            when' e (rotateLeft t p)
            let x' ← (if e then M.pure p else M.pure x)
            let p' ← parentP t x'
            setColor p' .black
            let g' ← parentP t p'
            setColor g' .red
            rotateRight t g'
            insFix t f x'
        else do
          let u ← ptr t ng.left
          let ur ← isRed u
          if ur then do
            setColor p .black
            setColor u .black
            setColor g .red
            insFix t f g
          else do
            let pl ← leftP t p
            let e ← eqP x pl
            when' e (rotateRight t p)
            let x' ← (if e then M.pure p else M.pure x)
            let p' ← parentP t x'
            setColor p' .black
            let np ← rd p'
            when' (np.parent != 0) do
              let g' ← ptr t np.parent
              setColor g' .red
              rotateLeft t g'
            insFix t f x'
      else pure ()

/-- `rrbt_ins` (`rrbt.c:186-269`) -/
def ins (t : Inst) (cmp : κ → κ → Int) (fuel : Nat) (x : Ptr) : M κ Unit := do
  setLeft x 0
  setRight x 0
  setParent x 0
  let root ← getRoot
  let ox ← off t x
  if root == 0 then do
    setColor x .black
    setRoot ox
  else do
    setColor x .red
    let nx ← rd x
    let r ← ptr t root
    let pc ← descend t cmp nx.key fuel r null 0
    let op ← off t pc.1
    setParent x op
    sel (pc.2 > 0) (setLeft pc.1 ox) (setRight pc.1 ox)
    insFix t fuel x
    let root ← getRoot
    let r ← ptr t root
    setColor r .black

/-- `find_pred` (`rrbt.c:278-283`): from `n->left` -/
def rightmost (t : Inst) : Nat → Ptr → M κ Ptr
  | 0, _ => fault
  | f + 1, x => do
    let n ← rd x
    if n.right == 0 then pure x else do
      let r ← ptr t n.right
      rightmost t f r

/-- `sibling` (`rrbt.c:292-300`) -/
def sibling (t : Inst) (n : Ptr) : M κ Ptr := do
  let nn ← rd n
  assert' (nn.parent != 0)
  let p ← ptr t nn.parent
  let np ← rd p
  let o ← off t n
  if o == np.left then ptr t np.right else ptr t np.left

/-- `replace_node` (`rrbt.c:302-317`) -/
def replaceNode (t : Inst) (oldn newn : Ptr) : M κ Unit := do
  let o ← rd oldn
  let on ← off t newn
  if o.parent == 0 then do
    setRoot on
    setParent newn 0
    setColor newn .black
  else do
    let oo ← off t oldn
    let p ← ptr t o.parent
    let np ← rd p
    sel (oo == np.left) (setLeft p on) (setRight p on)
    let z ← isNull newn
    when' (!z) (setParent newn o.parent)

/-- `delete_case6` (`rrbt.c:713-729`) -/
def case6 (t : Inst) (n : Ptr) : M κ Unit := do
  let s ← sibling t n
  let p ← parentP t n
  let np ← rd p
  setColor s np.color
  setColor p .black
  let o ← off t n
  if o == np.left then do
    let r ← rightP t s
    let c ← color r
    assert' (c == .red)
    setColor r .black
    rotateLeft t p
  else do
    let l ← leftP t s
    let c ← color l
    assert' (c == .red)
    setColor l .black
    rotateRight t p

/-- `delete_case5` (`rrbt.c:667-689`) -/
def case5 (t : Inst) (n : Ptr) : M κ Unit := do
  let s ← sibling t n
  let p ← parentP t n
  let np ← rd p
  let o ← off t n
  let cs ← color s
  let sl ← leftP t s
  let sr ← rightP t s
  let cl ← color sl
  let cr ← color sr
  if o == np.left && cs == .black && cl == .red && cr == .black then do
    setColor s .red
    setColor sl .black
    rotateRight t s
    case6 t n
  else if o == np.right && cs == .black && cr == .red && cl == .black then do
    setColor s .red
    setColor sr .black
    rotateLeft t s
    case6 t n
  else case6 t n

/-- `delete_case4` (`rrbt.c:638-652`) -/
def case4 (t : Inst) (n : Ptr) : M κ Unit := do
  let s ← sibling t n
  let p ← parentP t n
  let cp ← color p
  let cs ← color s
  let sl ← leftP t s
  let sr ← rightP t s
  let cl ← color sl
  let cr ← color sr
  if cp == .red && cs == .black && cl == .black && cr == .black then do
    setColor s .red
    setColor p .black
  else case5 t n

/-- `delete_case2` with `delete_case1` and `delete_case3` (`rrbt.c:575-630`) -/
def case2 (t : Inst) : Nat → Ptr → M κ Unit
  | 0, _ => fault
  | f + 1, n => do
    let s ← sibling t n
    let p ← parentP t n
    let z ← isNull s
    if z then pure () else do
      let cs ← color s
      let np ← rd p
      let o ← off t n
      when' (cs == .red) do
        setColor p .red
        setColor s .black
        sel (o == np.left) (rotateLeft t p) (rotateRight t p)
      let s ← sibling t n
      let p ← parentP t n
      let cp ← color p
      let cs ← color s
      let sl ← leftP t s
      let sr ← rightP t s
      let cl ← color sl
      let cr ← color sr
      if cp == .black && cs == .black && cl == .black && cr == .black then do
        setColor s .red
        let np ← rd p
        when' (np.parent != 0) (case2 t f p)
      else case4 t n

/-- the end of `rrbt_del` (`rrbt.c:569-573`) -/
def delOut (t : Inst) : M κ Unit := do
  let root ← getRoot
  when' (root != 0) do
    let r ← ptr t root
    setColor r .black

/-- `rrbt_del` for a node that has a child missing (`rrbt.c:528-573`) -/
def delLow (t : Inst) (fuel : Nat) (n : Ptr) : M κ Unit := do
  let nn ← rd n
  let on ← off t n
  assert' (nn.left == 0 || nn.right == 0)
  let child ← (if nn.right == 0 then ptr t nn.left else ptr t nn.right : M κ Ptr)
  let root ← getRoot
  let z ← isNull child
  if z && root == on then do
    setRoot 0
    delOut t
  else if nn.color == .red then do
    replaceNode t n child
    delOut t
  else do
    let cc ← color child
    setColor n cc
    if nn.parent == 0 then do
      let oc ← off t child
      setRoot oc
      when' (!z) do
        setColor child .black
        setParent child 0
      delOut t
    else do
      case2 t fuel n
      replaceNode t n child
      delOut t

/-- the link from the parent of `n` (or the root) to `n` is made to point to `pred`
(`rrbt.c:463-472`, `507-517`) -/
def relink (t : Inst) (nn : Node κ) (on opred : Nat) (pred : Ptr) (paint : Bool) : M κ Unit :=
  if nn.parent != 0 then do
    let parent ← ptr t nn.parent
    let np ← rd parent
    sel (np.left == on) (setLeft parent opred) (setRight parent opred)
  else do
    setRoot opred
    when' paint (setColor pred .black)
    setParent pred 0

/-- `rrbt_del` (`rrbt.c:425-573`) -/
def del (t : Inst) (fuel : Nat) (n : Ptr) : M κ Unit := do
  let nn ← rd n
  if nn.left != 0 && nn.right != 0 then do
    let l ← ptr t nn.left
    let pred ← rightmost t fuel l
    let P ← rd pred
    let on ← off t n
    let opred ← off t pred
    assert' (P.parent != 0)
    if P.parent != on then do
      setLeft pred nn.left
      setRight pred nn.right
      setParent pred nn.parent
      setColor pred nn.color
      setColor n P.color
      let l ← ptr t nn.left
      setParent l opred
      let r ← ptr t nn.right
      setParent r opred
      relink t nn on opred pred false
      let pp ← ptr t P.parent
      if P.color == .red then do
        setRight pp P.left
        delOut t
      else do
        setLeft n P.left
        setRight n 0
        setParent n P.parent
        when' (P.left != 0) do
          let c ← ptr t P.left
          setParent c on
        let npp ← rd pp
        assert' (npp.right == opred)
        setRight pp on
        delLow t fuel n
    else do
      setColor pred nn.color
      setColor n P.color
      setParent pred nn.parent
      setRight pred nn.right
      let r ← ptr t nn.right
      setParent r opred
      relink t nn on opred pred true
      if P.color == .red then delOut t
      else do
        setLeft n P.left
        when' (P.left != 0) do
          let c ← ptr t P.left
          setParent c on
        setLeft pred on
        setParent n opred
        setRight n 0
        delLow t fuel n
  else delLow t fuel n

/-! ## searching -/

/-- the loop of `rrbt_find` (`rrbt.c:833-849`) -/
def findFrom (t : Inst) (cmp : κ → κ → Int) (k : κ) : Nat → Ptr → M κ Ptr
  | 0, _ => fault
  | f + 1, x => do
    let z ← isNull x
    if z then pure null else do
      let n ← rd x
      if cmp n.key k = 0 then pure x
      else if cmp n.key k > 0 then do
        let l ← ptr t n.left
        findFrom t cmp k f l
      else do
        let r ← ptr t n.right
        findFrom t cmp k f r

def find (t : Inst) (cmp : κ → κ → Int) (fuel : Nat) (k : κ) : M κ Ptr := do
  let root ← getRoot
  let r ← ptr t root
  findFrom t cmp k fuel r

/-- the loop of `rrbt_find_glb` (`rrbt.c:755-774`) -/
def glbFrom (t : Inst) (cmp : κ → κ → Int) (k : κ) : Nat → Ptr → Ptr → M κ Ptr
  | 0, _, _ => fault
  | f + 1, x, glb => do
    let z ← isNull x
    if z then pure glb else do
      let n ← rd x
      if cmp n.key k = 0 then pure x
      else if cmp n.key k > 0 then do
        let l ← ptr t n.left
        glbFrom t cmp k f l glb
      else do
        let r ← ptr t n.right
        glbFrom t cmp k f r x

def findGlb (t : Inst) (cmp : κ → κ → Int) (fuel : Nat) (k : κ) : M κ Ptr := do
  let root ← getRoot
  let r ← ptr t root
  glbFrom t cmp k fuel r null

/-- the loop of `rrbt_find_lub` (`rrbt.c:800-819`) -/
def lubFrom (t : Inst) (cmp : κ → κ → Int) (k : κ) : Nat → Ptr → Ptr → M κ Ptr
  | 0, _, _ => fault
  | f + 1, x, lub => do
    let z ← isNull x
    if z then pure lub else do
      let n ← rd x
      if cmp n.key k = 0 then pure x
      else if cmp n.key k < 0 then do
        let r ← ptr t n.right
        lubFrom t cmp k f r lub
      else do
        let l ← ptr t n.left
        lubFrom t cmp k f l x

def findLub (t : Inst) (cmp : κ → κ → Int) (fuel : Nat) (k : κ) : M κ Ptr := do
  let root ← getRoot
  let r ← ptr t root
  lubFrom t cmp k fuel r null

/-- `__rrbn_min` (`rrbt.c:851-855`) -/
def minFrom (t : Inst) : Nat → Ptr → M κ Ptr
  | 0, _ => fault
  | f + 1, n => do
    let z ← isNull n
    if z then pure n else do
      let l ← leftP t n
      let zl ← isNull l
      if zl then pure n else minFrom t f l

/-- `__rrbn_max` (`rrbt.c:857-861`) -/
def maxFrom (t : Inst) : Nat → Ptr → M κ Ptr
  | 0, _ => fault
  | f + 1, n => do
    let z ← isNull n
    if z then pure n else do
      let r ← rightP t n
      let zr ← isNull r
      if zr then pure n else maxFrom t f r

/-- `rrbt_min` (`rrbt.c:869-872`) -/
def min (t : Inst) (fuel : Nat) : M κ Ptr := do
  let root ← getRoot
  let r ← ptr t root
  minFrom t fuel r

/-- `rrbt_max` (`rrbt.c:880-883`) -/
def max (t : Inst) (fuel : Nat) : M κ Ptr := do
  let root ← getRoot
  let r ← ptr t root
  maxFrom t fuel r

/-- the loop of `rrbn_succ` (`rrbt.c:936-938`) -/
def upRight (t : Inst) : Nat → Ptr → M κ Ptr
  | 0, _ => fault
  | f + 1, n => do
    let p ← parentP t n
    let z ← isNull p
    if z then pure null else do
      let r ← rightP t p
      let e ← eqP n r
      if e then upRight t f p else pure p

/-- `rrbn_succ` (`rrbt.c:930-943`) -/
def succ (t : Inst) (fuel : Nat) (n : Ptr) : M κ Ptr := do
  let nn ← rd n
  if nn.right != 0 then do
    let r ← ptr t nn.right
    minFrom t fuel r
  else if nn.parent != 0 then upRight t fuel n
  else pure null

/-- the loop of `rrbn_pred` (`rrbt.c:958-960`) -/
def upLeft (t : Inst) : Nat → Ptr → M κ Ptr
  | 0, _ => fault
  | f + 1, n => do
    let p ← parentP t n
    let z ← isNull p
    if z then pure null else do
      let l ← leftP t p
      let e ← eqP n l
      if e then upLeft t f p else pure p

/-- `rrbn_pred` (`rrbt.c:952-965`) -/
def pred (t : Inst) (fuel : Nat) (n : Ptr) : M κ Ptr := do
  let nn ← rd n
  if nn.left != 0 then do
    let l ← ptr t nn.left
    maxFrom t fuel l
  else if nn.parent != 0 then upLeft t fuel n
  else pure null

end Verif.Rrbt
