/-!
# The flat file store (ldms/src/store/store_flatfile/store_flatfile.c)

Storage policies are numbers.  The root directory is left out of the paths.  Directories can be made, files can be opened and written to, and there is memory.  What is printed
is in the file at once.  `none` is undefined behaviour: a freed or missing record is used, an array is left, or a lock is never released.  Line numbers are those of
store_flatfile.c.
-/

namespace Verif.FlatFile

abbrev Str := List Char

/-- a line of a file: time, producer, component and value, 318-320 -/
structure Line where
  sec : Nat
  usec : Nat
  prod : Str
  comp : Nat
  value : Str
  deriving DecidableEq, Repr

/-- `struct flatfile_store_instance`, 93-102: `files` are the paths of `ms`; `live`: not freed -/
structure Inst where
  schema : Str
  files : List Str
  live : Bool
  deriving DecidableEq, Repr

/-- `idx`: `store_idx`; `user`: the handles that the policies hold, places in `insts` -/
structure St where
  idx : List (Str × Nat)
  insts : List Inst
  user : Nat → Option Nat
  files : Str → List Line

def init : St := ⟨[], [], fun _ => none, fun _ => []⟩

/-- `idx_find`, see `Idx` -/
def find (idx : List (Str × Nat)) (k : Str) : Option Nat := (idx.find? fun p => p.1 = k).map Prod.snd

/-- 167 -/
def key (container schema : Str) : Str := container ++ ':' :: schema

/-- 212-219: the name up to the `#`, in a buffer of 128 bytes -/
def trim (name : Str) : Option Str :=
  match name.findIdx? (· = '#') with
  | none => some name
  | some k => if k < 128 then some (name.take k) else none

/-- 211-251: the files of the metrics; metrics with the same name up to the `#` have the same file -/
def paths (dir : Str) : List Str → Option (List Str)
  | [] => some []
  | n :: ns =>
    match trim n, paths dir ns with
    | some t, some ps => some ((dir ++ '/' :: t) :: ps)
    | _, _ => none

/-- `open_store`, 152-285 -/
def open_ (st : St) (u : Nat) (container schema : Str) (names : List Str) : Option St :=
  match find st.idx (key container schema) with
  | some i => some { st with user := fun v => if v = u then some i else st.user v }
  | none =>
    match paths (container ++ '/' :: schema) names with
    | none => none
    | some ps =>
      some { st with
        idx := (key container schema, st.insts.length) :: st.idx
        insts := st.insts ++ [⟨schema, ps, true⟩]
        user := fun v => if v = u then some st.insts.length else st.user v }

def add (files : Str → List Line) (p : Str) (l : Line) : Str → List Line := fun q => if q = p then files q ++ [l] else files q

/-- a sample: its time, its producer, its component if it has one, and the values of the metrics; `none`: of a type that is not printed, 379-381 -/
structure Sample where
  sec : Nat
  usec : Nat
  prod : Str
  comp : Option Nat
  values : List (Option Str)
  deriving DecidableEq, Repr

/-- the loop of `store`, 315-392 -/
def loop (x : Sample) (comp : Nat) : List Str → List (Option Str) → (Str → List Line) → Option (Str → List Line)
  | _, [], fs => some fs
  | [], _ :: _, _ => none
  | p :: ps, v :: vs, fs =>
    loop x comp ps vs (match v with
      | none => fs
      | some t => add fs p ⟨x.sec, x.usec, x.prod, comp, t⟩)

/-- `store`, 287-398, and its result -/
def store (st : St) (u : Nat) (x : Sample) : Option (St × Nat) :=
  match st.user u with
  | none => some (st, 22)
  | some i =>
    match x.comp with
    | none => some (st, 0)
    | some comp =>
      match st.insts[i]? with
      | none => none
      | some s =>
        if x.values = [] then some (st, 0)
        else if s.live then (loop x comp s.files x.values st.files).map fun fs => ({ st with files := fs }, 0)
        else none

/-- `close_store`, 425-449: what is deleted from the index has the name of the schema, 443.  The policy forgets its handle (ldmsd_strgp.c, 513). -/
def close (st : St) (u : Nat) : Option St :=
  match st.user u with
  | none => none
  | some i =>
    match st.insts[i]? with
    | none => none
    | some s =>
      if s.live then
        some { st with
          idx := st.idx.filter fun p => p.1 ≠ s.schema
          insts := st.insts.set i { s with live := false }
          user := fun v => if v = u then none else st.user v }
      else none

inductive Act
  | open_ (u : Nat) (container schema : Str) (names : List Str)
  | store (u : Nat) (x : Sample)
  | close (u : Nat)
  deriving DecidableEq

def step (st : St) : Act → Option St
  | .open_ u c s ns => open_ st u c s ns
  | .store u x => (store st u x).map Prod.fst
  | .close u => close st u

/-- a history, the newest call first -/
def run : List Act → Option St
  | [] => some init
  | a :: as => (run as).bind fun st => step st a

end Verif.FlatFile
