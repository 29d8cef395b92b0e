/-!
# List metrics

`__list_append`, `ldms_list_append_item`, `ldms_list_append_record`, `ldms_list_remove_item`,
`ldms_list_purge`, `ldms_list_first`, `ldms_list_next`, `ldms_list_last`, `ldms_list_len` of
`ldms/src/core/ldms.c`.

The heap of a set holds the list entries, at offsets that are never 0.  The heap itself (that an
allocation is disjoint from the live ones) is the subject of `Verif.LHeap`; here an allocation
returns an offset not in use, or 0.  Dereferencing an offset that is not allocated is `none`.
-/

namespace Verif.LList

/-- `LDMS_V_LIST` (`ldms_core.h`, `enum ldms_value_type`) -/
def tList : Nat := 23
/-- `LDMS_V_RECORD_INST` -/
def tRec : Nat := 26

/-- `struct ldms_list_entry` without its value (`ldms_core.h:216-222`) -/
structure Entry where
  prev : Nat
  next : Nat
  typ : Nat
  /-- a 24-bit field -/
  cnt : Nat
  deriving DecidableEq, Repr

/-- `struct ldms_list`, the list head (`ldms_core.h:210-214`) -/
structure Head where
  head : Nat
  tail : Nat
  count : Nat
  deriving DecidableEq, Repr

/-- where a list head is: metric `i` of the set, or the value of a list entry -/
inductive Loc where
  | metric (i : Nat)
  | inner (off : Nat)
  deriving DecidableEq, Repr

/-- the list heads and the allocated entries -/
structure St where
  heads : Loc → Head
  mem : Nat → Option Entry

/-- change one list head -/
def St.setHead (s : St) (L : Loc) (h : Head) : St :=
  { s with heads := fun K => if K = L then h else s.heads K }

/-- change (or free, with `none`) one entry -/
def St.setMem (s : St) (off : Nat) (e : Option Entry) : St :=
  { s with mem := fun o => if o = off then e else s.mem o }

/-- `__list_append` (`ldms.c:3286-3304`) -/
def listAppend (s : St) (L : Loc) (off : Nat) : Option St :=
  match s.mem off with
  | none => none
  | some e =>
    let h := s.heads L
    if h.head = 0 then
      some ((s.setMem off (some { e with prev := 0, next := 0 })).setHead L ⟨off, off, 1⟩)
    else
      match s.mem h.tail with
      | none => none
      | some p =>
        -- prev->next = le_off; le->prev = tail; ...; le->next = 0
        let s1 := s.setMem h.tail (some { p with next := off })
        match s1.mem off with
        | none => none
        | some e1 =>
          some ((s1.setMem off (some { e1 with prev := h.tail, next := 0 })).setHead L
            ⟨h.head, off, h.count + 1⟩)

/-- `ldms_list_append_item` (`ldms.c:3306-3325`): `off` is the result of `ldms_heap_alloc`; the value
is zeroed, so a nested list starts empty.  `isArray` says whether the type is an array type. -/
def appendItem (s : St) (L : Loc) (typ : Nat) (isArray : Bool) (count off : Nat) : Option (St × Nat) :=
  if off = 0 then some (s, 0)  -- ENOMEM
  else
    let cnt := if isArray then count else 1
    let s1 := (s.setMem off (some ⟨0, 0, typ, cnt % 2 ^ 24⟩)).setHead (.inner off) ⟨0, 0, 0⟩
    match listAppend s1 L off with
    | none => none
    | some s2 => some (s2, off)

/-- `ldms_record_alloc` (`ldms.c:3955-3980`): an entry that is in no list -/
def recordAlloc (s : St) (off : Nat) : St × Nat :=
  if off = 0 then (s, 0)
  else (s.setMem off (some ⟨0, 0, tRec, 1⟩), off)

/-- result of `ldms_list_append_record` -/
inductive Rc where
  | ok | ebusy
  deriving DecidableEq, Repr

/-- `ldms_list_append_record` (`ldms.c:4290-4307`) of a record instance -/
def appendRecord (s : St) (L : Loc) (off : Nat) : Option (St × Rc) :=
  match s.mem off with
  | none => none
  | some e =>
    if e.prev ≠ 0 ∨ e.next ≠ 0 then some (s, .ebusy)
    else
      match listAppend s L off with
      | none => none
      | some s' => some (s', .ok)

/-- the first part of `ldms_list_remove_item` (`ldms.c:3376-3390`): unlink the entry -/
def unlink (s : St) (L : Loc) (e : Entry) : Option St :=
  -- prev / head
  let s1? := if e.prev = 0 then
      some (s.setHead L { s.heads L with head := e.next })
    else
      match s.mem e.prev with
      | none => none
      | some p => some (s.setMem e.prev (some { p with next := e.next }))
  match s1? with
  | none => none
  | some s1 =>
    if e.next = 0 then
      some (s1.setHead L { s1.heads L with tail := e.prev })
    else
      match s1.mem e.next with
      | none => none
      | some n => some (s1.setMem e.next (some { n with prev := e.prev }))

/-- `ldms_heap_free(le); lh->count--` (`ldms.c:3394-3395`) -/
def freeEntry (s : St) (L : Loc) (off : Nat) : St :=
  let s1 := s.setMem off none
  s1.setHead L { s1.heads L with count := (s1.heads L).count - 1 }

mutual
/-- `ldms_list_remove_item` (`ldms.c:3376-3397`).  The first argument bounds the recursion depth:
`none` means that it was exceeded or that unallocated memory was used. -/
def removeItem : Nat → St → Loc → Nat → Option St
  | 0, _, _, _ => none
  | f + 1, s, L, off =>
    match s.mem off with
    | none => none
    | some e =>
      match unlink s L e with
      | none => none
      | some s1 =>
        if e.typ = tList then
          match purge f s1 (.inner off) with
          | none => none
          | some s2 => some (freeEntry s2 L off)
        else some (freeEntry s1 L off)

/-- `ldms_list_purge` (`ldms.c:3399-3406`) -/
def purge : Nat → St → Loc → Option St
  | 0, _, _ => none
  | f + 1, s, L =>
    if (s.heads L).head = 0 then some s
    else
      match removeItem f s L (s.heads L).head with
      | none => none
      | some s1 => purge f s1 L
end

/-- `ldms_list_first` (`ldms.c:3332-3345`): 0 = NULL -/
def first (s : St) (L : Loc) : Nat := (s.heads L).head

/-- `ldms_list_last` (`ldms.c:3347-3360`) -/
def last (s : St) (L : Loc) : Nat := if (s.heads L).head = 0 then 0 else (s.heads L).tail

/-- `ldms_list_next` (`ldms.c:3362-3374`): `none` = unallocated memory, 0 = NULL -/
def next (s : St) (off : Nat) : Option Nat :=
  match s.mem off with
  | none => none
  | some e => some e.next

/-- `ldms_list_len` (`ldms.c:3327-3330`) -/
def len (s : St) (L : Loc) : Nat := (s.heads L).count

/-- `for (v = ldms_list_first(...); v; v = ldms_list_next(...))`: the entries visited with their
type and count; `none` if it does not stop within `fuel` steps or uses unallocated memory -/
def visit (s : St) : Nat → Nat → Option (List (Nat × Nat × Nat))
  | 0, _ => none
  | f + 1, off =>
    if off = 0 then some []
    else
      match s.mem off with
      | none => none
      | some e =>
        match visit s f e.next with
        | none => none
        | some r => some ((off, e.typ, e.cnt) :: r)

end Verif.LList
