/-!
# Chained hash table (`lib/src/coll/htbl.c`, `lib/src/coll/str_map.c`)

A bucket is the list its `LIST_HEAD` leads to.  An entry is named by a number (its address) and carries
its key.  The hash function is a parameter; `cmp e k` says that the comparison function of the table
returned 0 for the entry key `e` and the searched key `k`.
-/

namespace Verif.Htbl

/-- `struct hent` (htbl.h) -/
structure Ent (κ : Type) where
  id : Nat
  key : κ
deriving DecidableEq, Repr

/-- `struct htbl` (htbl.h): `table[h]` for `h < depth`, and the number of entries -/
structure Tbl (κ : Type) where
  depth : Nat
  bucket : Nat → List (Ent κ)
  count : Int

variable {κ : Type} [DecidableEq κ]

def setBucket (t : Tbl κ) (h : Nat) (l : List (Ent κ)) : Nat → List (Ent κ) :=
  fun i => if i = h then l else t.bucket i

/-- `htbl_alloc` (htbl.c:77-89) -/
def alloc (depth : Nat) : Tbl κ := ⟨depth, fun _ => [], 0⟩

/-- `htbl_empty` (htbl.c:103-106) -/
def isEmpty (t : Tbl κ) : Bool := t.count = 0

/-- `htbl_ins` (htbl.c:131-138).  A depth of 0 would divide by zero. -/
def ins (hash : κ → Nat) (t : Tbl κ) (e : Ent κ) : Tbl κ :=
  let h := hash e.key % t.depth
  { t with bucket := setBucket t h (e :: t.bucket h), count := t.count + 1 }

/-- `htbl_del` (htbl.c:146-150).  `LIST_REMOVE` unlinks the entry from whatever list it is on; an entry on
the table is on the bucket of its key. -/
def del (hash : κ → Nat) (t : Tbl κ) (e : Ent κ) : Tbl κ :=
  let h := hash e.key % t.depth
  { t with bucket := setBucket t h ((t.bucket h).erase e), count := t.count - 1 }

/-- `htbl_find` (htbl.c:160-175) -/
def find (hash : κ → Nat) (cmp : κ → κ → Bool) (t : Tbl κ) (k : κ) : Option (Ent κ) :=
  (t.bucket (hash k % t.depth)).find? (fun e => cmp e.key k)

/-- the loop `for (; h < depth; h++)` of `htbl_first` and `htbl_next` -/
def firstFrom (t : Tbl κ) : Nat → Nat → Option (Ent κ)
  | 0, _ => none
  | n + 1, h => match t.bucket h with
    | e :: _ => some e
    | [] => firstFrom t n (h + 1)

/-- `htbl_first` (htbl.c:183-194) -/
def first (t : Tbl κ) : Option (Ent κ) := firstFrom t t.depth 0

/-- `LIST_NEXT` -/
def listNext : List (Ent κ) → Ent κ → Option (Ent κ)
  | [], _ => none
  | a :: l, e => if a = e then l.head? else listNext l e

/-- `htbl_next` (htbl.c:204-219) -/
def next (hash : κ → Nat) (t : Tbl κ) (e : Ent κ) : Option (Ent κ) :=
  let h := hash e.key % t.depth
  match listNext (t.bucket h) e with
  | some e' => some e'
  | none => firstFrom t (t.depth - (h + 1)) (h + 1)

/-! ### `str_map` -/

/-- `struct str_map` (str_map.c:71-74): buckets of key/object pairs -/
structure SMap (κ : Type) where
  size : Nat
  bucket : Nat → List (κ × Nat)

/-- `str_map_create` (str_map.c:76-85): anonymous memory is zero -/
def smCreate (size : Nat) : SMap κ := ⟨size, fun _ => []⟩

/-- `str_map_get` (str_map.c:107-120); `none` is 0 with `errno = ENOENT` -/
def smGet (hash : κ → Nat) (m : SMap κ) (k : κ) : Option Nat :=
  ((m.bucket (hash k % m.size)).find? (fun p => p.1 = k)).map (·.2)

inductive Rc where | ok | eexist | enoent
deriving DecidableEq, Repr

/-- `str_map_insert` (str_map.c:122-143) -/
def smInsert (hash : κ → Nat) (m : SMap κ) (k : κ) (v : Nat) : SMap κ × Rc :=
  let h := hash k % m.size
  if (m.bucket h).any (fun p => p.1 = k) then (m, .eexist)
  else ({ m with bucket := fun i => if i = h then (k, v) :: m.bucket h else m.bucket i }, .ok)

/-- remove the first pair with the key -/
def dropFirst (k : κ) : List (κ × Nat) → List (κ × Nat)
  | [] => []
  | p :: l => if p.1 = k then l else p :: dropFirst k l

/-- `str_map_remove` (str_map.c:145-159) -/
def smRemove (hash : κ → Nat) (m : SMap κ) (k : κ) : SMap κ × Rc :=
  let h := hash k % m.size
  if (m.bucket h).any (fun p => p.1 = k) then
    ({ m with bucket := fun i => if i = h then dropFirst k (m.bucket h) else m.bucket i }, .ok)
  else (m, .enoent)

end Verif.Htbl
