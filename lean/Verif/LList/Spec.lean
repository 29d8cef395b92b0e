import Verif.LList.Model

/-!
# Specification of list metrics

What a list metric should do, as plain sequences of entries.
-/

namespace Verif.LList

/-- the entry is in the list or, at any depth, in a list inside an entry of it -/
inductive Below (q : Loc → List Nat) : Loc → Nat → Prop
  | here {L : Loc} {x : Nat} : x ∈ q L → Below q L x
  | deep {L : Loc} {y x : Nat} : y ∈ q L → Below q (.inner y) x → Below q L x

open Classical in
/-- delete the entries `g`, and the lists inside them -/
noncomputable def prune (q : Loc → List Nat) (g : Nat → Prop) : Loc → List Nat := fun K =>
  match K with
  | .metric i => (q (.metric i)).filter (fun x => decide (¬ g x))
  | .inner o => if g o then [] else (q (.inner o)).filter (fun x => decide (¬ g x))

/-- what removing one entry deletes -/
def goneR (q : Loc → List Nat) (off : Nat) : Nat → Prop := fun x => x = off ∨ Below q (.inner off) x

/-- the entries of every list, and the type and count of every allocated entry -/
structure Abs where
  items : Loc → List Nat
  info : Nat → Option (Nat × Nat)

/-- the place holds a list -/
def Abs.IsList (a : Abs) : Loc → Prop
  | .metric _ => True
  | .inner o => ∃ c, a.info o = some (tList, c)

/-- a new set: all list metrics empty, nothing allocated -/
def Abs.empty : Abs := ⟨fun _ => [], fun _ => none⟩

/-- put an entry at the end of a list -/
def Abs.snoc (a : Abs) (L : Loc) (off : Nat) : Abs :=
  { a with items := fun K => if K = L then a.items L ++ [off] else a.items K }

/-- allocate an entry -/
def Abs.alloc (a : Abs) (off typ cnt : Nat) : Abs :=
  { a with info := fun x => if x = off then some (typ, cnt) else a.info x }

open Classical in
/-- delete the entries `g` -/
noncomputable def Abs.delete (a : Abs) (g : Nat → Prop) : Abs :=
  ⟨prune a.items g, fun x => if g x then none else a.info x⟩

/-- calls of the API; `off` is what the heap allocator returns (0 = out of memory) or the entry
given to the call -/
inductive Op where
  | append (L : Loc) (typ : Nat) (isArray : Bool) (count off : Nat)
  | recAlloc (off : Nat)
  | appendRec (L : Loc) (off : Nat)
  | remove (L : Loc) (off : Nat)
  | purge (L : Loc)
  deriving DecidableEq

/-- what a correct call does -/
inductive Step : Abs → Op → Abs → Prop
  /-- a new entry goes to the end of the list -/
  | append {a : Abs} {L : Loc} {off : Nat} (typ : Nat) (isArray : Bool) (count : Nat) :
    a.IsList L → off ≠ 0 → a.info off = none →
    Step a (.append L typ isArray count off)
      ((a.alloc off typ ((if isArray then count else 1) % 2 ^ 24)).snoc L off)
  /-- no memory: nothing changes -/
  | nomem {a : Abs} {L : Loc} (typ : Nat) (isArray : Bool) (count : Nat) :
    Step a (.append L typ isArray count 0) a
  | recAlloc {a : Abs} {off : Nat} : off ≠ 0 → a.info off = none →
    Step a (.recAlloc off) (a.alloc off tRec 1)
  | recNomem {a : Abs} : Step a (.recAlloc 0) a
  /-- a record that is in no list goes to the end of the list -/
  | appendRec {a : Abs} {L : Loc} {off c : Nat} : a.IsList L → off ≠ 0 → a.info off = some (tRec, c) →
    (∀ K, off ∉ a.items K) → Step a (.appendRec L off) (a.snoc L off)
  /-- a record that is in a list with other entries is refused -/
  | appendBusy {a : Abs} {L K : Loc} {off c : Nat} : a.info off = some (tRec, c) → off ∈ a.items K →
    2 ≤ (a.items K).length → Step a (.appendRec L off) a
  /-- removing deletes the entry and all that is inside it, and nothing else -/
  | remove {a : Abs} {L : Loc} {off : Nat} : off ∈ a.items L →
    Step a (.remove L off) (a.delete (goneR a.items off))
  /-- purging deletes all that is in the list, and nothing else -/
  | purge {a : Abs} {L : Loc} : a.IsList L → Step a (.purge L) (a.delete (Below a.items L))

/-- a history of correct calls -/
inductive Steps : Abs → List Op → Abs → Prop
  | nil (a : Abs) : Steps a [] a
  | cons {a b c : Abs} {op : Op} {ops : List Op} : Step a op b → Steps b ops c → Steps a (op :: ops) c

end Verif.LList
