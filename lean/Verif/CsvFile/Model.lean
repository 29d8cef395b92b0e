/-!
# The CSV store: files

`ldms/src/store/store_csv.c`: which file the lines of a handle go to, when a header is
written, when files are rolled over and when they are flushed.  The texts of headers and
lines are in `Verif.Csv`; here a line is a row with a number and the bytes counted for it.
Opening files does not fail (if it does, the program ends in `ERR_LOG`, store_csv.c:131-134),
and files are not renamed when they are closed.
-/

namespace Verif.CsvFile

/-- A set or row that is stored: its number, and what is added to `byte_count` for it. -/
structure Row where
  id : Nat
  bytes : Nat
  deriving DecidableEq

/-- What is written to files. -/
inductive Item
  | head
  | row (r : Row)
  deriving DecidableEq

/-- The names of the files of a handle: `path`, `path.TIME`, `path.HEADER`,
`path.HEADER.TIME`. -/
inductive Name
  | data (t : Option Nat)
  | hdr (t : Option Nat)
  deriving DecidableEq

/-- The configuration: `rolltype` (0 for none), `rollover`, `rollempty`, `buffer_sz`,
`buffer_type` and `altheader`, store_csv.c:89-98 and store_csv_common.h:79-83. -/
structure Cfg where
  roll : Nat
  over : Nat
  empty : Bool
  bufSz : Nat
  bufType : Nat
  alt : Bool

/-- `printheader_t`. -/
inductive Pr
  | first | again | dont | bad
  deriving DecidableEq

/-- `struct csv_store_handle`, store_csv.c:162-179. -/
structure Hd where
  /-- `filename` -/
  name : Name
  /-- `headerfilename`, if there is a file for the header alone -/
  hname : Name
  /-- what is written to `file` and not yet given to the system -/
  buf : List Item
  /-- `headerfile` is not NULL -/
  hopen : Bool
  print : Pr
  /-- `store_count`, `byte_count`, `lastflush` -/
  stored : Int
  bytes : Int
  lastflush : Int
  /-- `ref_count` -/
  refs : Nat

/-- The clock (`time(NULL)`), the files, and the handle, if it is there. -/
structure St where
  now : Nat
  disk : Name → List Item
  h : Option Hd

/-- Nothing yet. -/
def init : St := { now := 0, disk := fun _ => [], h := none }

/-- The time in the name of a file opened at `t`, store_csv.c:1850-1855 and 293. -/
def tag (cfg : Cfg) (t : Nat) : Option Nat := if cfg.roll ≥ 1 then some t else none

/-- Append to a file. -/
def append (d : Name → List Item) (n : Name) (l : List Item) : Name → List Item :=
  fun m => if m = n then d m ++ l else d m

/-- `fopen_perm(…, "w", …)` -/
def truncate (d : Name → List Item) (n : Name) : Name → List Item :=
  fun m => if m = n then [] else d m

/-- `csv_store_handle_get`, store_csv.c:1784-1945, for the key of this handle. -/
def «open» (cfg : Cfg) (s : St) : St :=
  match s.h with
  | some h => { s with h := some { h with refs := h.refs + 1 } }
  | none =>
    { s with
      disk := if cfg.alt then truncate s.disk (.hdr (tag cfg s.now)) else s.disk
      h := some { name := .data (tag cfg s.now), hname := .hdr (tag cfg s.now), buf := []
                  hopen := true, print := .first, stored := 0, bytes := 0, lastflush := 0
                  refs := 1 } }

/-- `fflush(s_handle->file)` -/
def flush (d : Name → List Item) (h : Hd) : (Name → List Item) × Hd :=
  (append d h.name h.buf, { h with buf := [] })

/-- `csv_store_handle_put`, store_csv.c:1714-1724, and `__csv_handle_close`, 1686-1711. -/
def close (s : St) : St :=
  match s.h with
  | none => s
  | some h =>
    if h.refs ≤ 1 then { s with disk := (flush s.disk h).1, h := none }
    else { s with h := some { h with refs := h.refs - 1 } }

/-- `print_header_from_store`, store_csv.c:918-984, and `print_header_from_row`, 861-910,
with what their callers do if they fail. -/
def printHeader (cfg : Cfg) (d : Name → List Item) (h : Hd) : (Name → List Item) × Hd :=
  if !h.hopen then (d, { h with print := .bad })
  else if cfg.alt then
    (append d h.hname [.head], { h with print := .dont, hopen := false })
  else
    let r := flush d { h with buf := h.buf ++ [.head] }
    (r.1, { r.2 with print := .dont, hopen := false })

/-- The header, if it is due: store_csv.c:1553-1574 and 2225-2244. -/
def header (cfg : Cfg) (d : Name → List Item) (h : Hd) : (Name → List Item) × Hd :=
  match h.print with
  | .first | .again => printHeader cfg d h
  | .dont | .bad => (d, h)

/-- Flushing, if it is due: store_csv.c:1653-1667 and 2253-2268. -/
def flushDue (cfg : Cfg) (d : Name → List Item) (h : Hd) : (Name → List Item) × Hd :=
  if cfg.bufType = 3 ∧ h.stored - h.lastflush ≥ cfg.bufSz then
    flush d { h with lastflush := h.stored }
  else if cfg.bufType = 4 ∧ h.bytes - h.lastflush ≥ cfg.bufSz then
    flush d { h with lastflush := h.bytes }
  else if cfg.bufSz = 0 then flush d h
  else (d, h)

/-- `s_handle->store_count++` -/
def Hd.inc (h : Hd) : Hd := { h with stored := h.stored + 1 }

/-- The text of a row. -/
def Hd.write (h : Hd) (r : Row) : Hd :=
  { h with buf := h.buf ++ [.row r], bytes := h.bytes + r.bytes }

/-- `store`, store_csv.c:1542-1671. -/
def store (cfg : Cfg) (r : Row) (s : St) : St :=
  match s.h with
  | none => s
  | some h =>
    let p := header cfg s.disk h
    if p.2.print = .bad then { s with disk := p.1, h := some p.2 }
    else
      let q := flushDue cfg p.1 (p.2.write r).inc
      { s with disk := q.1, h := some q.2 }

/-- `store_row`, store_csv.c:2214-2272. -/
def storeRow (cfg : Cfg) (r : Row) (s : St) : St :=
  match s.h with
  | none => s
  | some h =>
    let p := header cfg s.disk h
    if p.2.print = .bad then { s with disk := p.1, h := some p.2 }
    else
      let q := flushDue cfg p.1 (p.2.write r)
      { s with disk := q.1, h := some q.2 }

/-- `rbn->s_handle->store_count++` in `commit_rows`, store_csv.c:2312, after the lock of
the handle is released. -/
def count (s : St) : St :=
  match s.h with
  | none => s
  | some h => { s with h := some h.inc }

/-- Whether `roll_cb` goes on, and the counters it leaves, store_csv.c:253-282.  The limits
are those the thread makes of `rollover`, store_csv.c:437-446. -/
def rollDue (cfg : Cfg) (h : Hd) : Option Hd :=
  match cfg.roll with
  | 3 => if h.stored < max cfg.over 3 then none else some { h with stored := 0, lastflush := 0 }
  | 4 => if h.bytes < max cfg.over 1024 then none else some { h with bytes := 0, lastflush := 0 }
  | _ => if h.stored = 0 ∧ cfg.empty = false then none else some h

/-- `roll_cb`, store_csv.c:236-387, called by `handleRollover`, 394-410, with `rolltype`
set. -/
def roll (cfg : Cfg) (s : St) : St :=
  match s.h with
  | none => s
  | some h =>
    match rollDue cfg h with
    | none => s
    | some h =>
      let d := (flush s.disk h).1
      { s with
        disk := if cfg.alt then truncate d (.hdr (tag cfg s.now)) else d
        h := some { h with name := .data (tag cfg s.now), hname := .hdr (tag cfg s.now)
                           buf := [], hopen := true, print := .again, stored := 0 } }

/-- What can happen. -/
inductive Op
  /-- the clock goes on -/
  | tick (d : Nat)
  | open
  | close
  | store (r : Row)
  /-- `store_row` and the count after it -/
  | row (r : Row)
  /-- `store_row`, before it is counted -/
  | rowText (r : Row)
  | rowCount
  /-- the thread wakes up -/
  | roll
  /-- `flush_store`, store_csv.c:1673-1684 -/
  | flush
  /-- the C library writes a part of what it has; here whole rows -/
  | drain (k : Nat)
  /-- the program ends without closing files -/
  | crash
  deriving DecidableEq

/-- One step. -/
def step (cfg : Cfg) (s : St) : Op → St
  | .tick d => { s with now := s.now + d }
  | .open => «open» cfg s
  | .close => close s
  | .store r => store cfg r s
  | .row r => count (storeRow cfg r s)
  | .rowText r => storeRow cfg r s
  | .rowCount => count s
  | .roll => if cfg.roll ≥ 1 then roll cfg s else s
  | .flush =>
    match s.h with
    | none => s
    | some h => { s with disk := (flush s.disk h).1, h := some (flush s.disk h).2 }
  | .drain k =>
    match s.h with
    | none => s
    | some h =>
      { s with disk := append s.disk h.name (h.buf.take k), h := some { h with buf := h.buf.drop k } }
  | .crash => { s with h := none }

/-- A history. -/
def run (cfg : Cfg) (ops : List Op) : St := ops.foldl (step cfg) init

/-! ## Times of rolling -/

/-- `tsleep` for `rolltype` 2, store_csv.c:422-435, at `s` seconds since midnight. -/
def sleep2 (over s : Int) : Int :=
  let t := 86400 - s + over
  if t < 10 then t + 86400 else t

/-- `tsleep` for `rolltype` 5, store_csv.c:447-466. -/
def sleep5 (over again s : Int) : Int :=
  let t := if s < over then over - s else ((s - over).tdiv again + 1) * again + over - s
  if t < 10 then t + again else t

/-- `config_buffer`, store_csv_common.c:440-503, of the numbers of `buffer` and
`buffertype`: `buffer_sz` and `buffer_type`, or `EINVAL`.  Without a limit to numbers. -/
def configBuffer (bs bt : Option Int) : Option (Int × Int) :=
  match bs, bt with
  | none, none => some (1, 0)
  | none, some _ => none
  | some n, bt =>
    if n < 0 then none
    else if n = 0 ∨ n = 1 then
      match bt with
      | some _ => none
      | none => some (n, 0)
    else
      match bt with
      | none => none
      | some t => if t ≠ 3 ∧ t ≠ 4 then none else if t = 4 then some (n * 1024, t) else some (n, t)

end Verif.CsvFile
