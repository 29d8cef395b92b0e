import Verif.Csv.Model

/-!
# Specification: tables in CSV files

A reader for CSV files (RFC 4180), and the table that a file should hold: for each line
the names of its columns with the values.
-/

namespace Verif.Csv

open RowJson (IKind FKind dec decInt dec6)

/-! ## Reading CSV -/

/-- Where a reader is in a line. -/
inductive Mode
  /-- at the start of a field -/
  | start
  /-- in a field without quotes -/
  | plain
  /-- in a field with quotes -/
  | quoted
  /-- after a quote in a field with quotes -/
  | closed

/-- Read lines: `cur` is what has been read of the field, `row` of the line.  Within a
quoted field two quotes stand for one. -/
def scan : Mode → List Char → List (List Char) → List Char → Option (List (List (List Char)))
  | .start, _, [], [] => some []
  | _, _, _, [] => none
  | .start, _, row, c :: s =>
    if c = '"' then scan .quoted [] row s
    else if c = ',' then scan .start [] (row ++ [[]]) s
    else if c = '\n' then (scan .start [] [] s).map ((row ++ [[]]) :: ·)
    else scan .plain [c] row s
  | .plain, cur, row, c :: s =>
    if c = '"' then none
    else if c = ',' then scan .start [] (row ++ [cur]) s
    else if c = '\n' then (scan .start [] [] s).map ((row ++ [cur]) :: ·)
    else scan .plain (cur ++ [c]) row s
  | .quoted, cur, row, c :: s =>
    if c = '"' then scan .closed cur row s
    else scan .quoted (cur ++ [c]) row s
  | .closed, cur, row, c :: s =>
    if c = '"' then scan .quoted (cur ++ ['"']) row s
    else if c = ',' then scan .start [] (row ++ [cur]) s
    else if c = '\n' then (scan .start [] [] s).map ((row ++ [cur]) :: ·)
    else none

/-- The lines of a text, each a list of fields. -/
def readLines (s : List Char) : Option (List (List (List Char))) := scan .start [] [] s

/-- Read a file: a line of names after `#`, then lines with as many fields.  Each line
is given as pairs of a name and a field. -/
def readTable : List Char → Option (List (List (List Char × List Char)))
  | '#' :: s =>
    match readLines s with
    | some (names :: rows) =>
      if rows.all (fun r => r.length == names.length) then some (rows.map (names.zip ·)) else none
    | _ => none
  | _ => none

/-! ## The table -/

/-- The column of a value, with one for the user data if that is asked for. -/
def cell (cfg : Cfg) (u : Nat) (n t : List Char) : List (List Char × List Char) :=
  if cfg.udata then [(n ++ ".userdata".toList, dec u), (n ++ ".value".toList, t)] else [(n, t)]

/-- Texts with a character between them. -/
def sepBy (c : Char) : List (List Char) → List Char
  | [] => []
  | [t] => t
  | t :: l => t ++ c :: sepBy c l

/-- An array in one field. -/
def arrayField (cfg : Cfg) (l : List (List Char)) : List Char :=
  if cfg.lq = '"' then sepBy cfg.sep l else cfg.lq :: sepBy cfg.sep l ++ [cfg.rq]

/-- The columns of an array: one for each element, numbered, or one for all. -/
def arrayCells (cfg : Cfg) (u : Nat) (n : List Char) (l : List (List Char)) :
    List (List Char × List Char) :=
  if cfg.expand then (l.zipIdx.map fun p => cell cfg u (n ++ dec p.2) p.1).flatten
  else cell cfg u n (arrayField cfg l)

/-- The columns of a value.  What a file cannot hold has empty fields. -/
def valueCells (cfg : Cfg) (u : Nat) (n : List Char) : Prim → List (List Char × List Char)
  | .int _ v => cell cfg u n (decInt v)
  | .flt _ t => cell cfg u n t
  | .chr c => cell cfg u n [c]
  | .str _ s => cell cfg u n s
  | .ints _ vs => arrayCells cfg u n (vs.map decInt)
  | .flts _ l => arrayCells cfg u n l
  | .ts _ _ | .other => (cell cfg u n []).map fun p => (p.1, [])

/-- The columns of an entry of a list. -/
def entCells (cfg : Cfg) (u : Nat) (n : List Char) : Ent → List (List Char × List Char)
  | .prim p => valueCells cfg u n p
  | .record ms => (ms.map fun m => valueCells cfg u (n ++ '_' :: m.1) m.2).flatten

/-- The columns of a metric in the `i`th line for its set. -/
def metricCells (cfg : Cfg) (i : Nat) (m : Metric) : List (List Char × List Char) :=
  match m.val with
  | .prim p => valueCells cfg m.udata m.name p
  | .recType => []
  | .list es =>
    match es[i]? with
    | some e =>
      cell cfg m.udata (m.name ++ "_entry_idx".toList) (dec i) ++ entCells cfg m.udata m.name e
    | none => []

/-- The columns of a time. -/
def timeCells (cfg : Cfg) (sec usec : Nat) : List (List Char × List Char) :=
  if cfg.msec then
    [("Time_msec".toList, dec (sec * 1000 + usec / 1000)), ("Time_usec".toList, dec (usec % 1000))]
  else [("Time".toList, dec sec ++ '.' :: dec6 usec), ("Time_usec".toList, dec usec)]

/-- The length of a list. -/
def MVal.len : MVal → Option Nat
  | .list es => some es.length
  | _ => none

/-- A set has a line for each entry of its list, or one line if it has no list. -/
def lineCount (s : Snap) : Nat := (s.metrics.findSome? fun m => m.val.len).getD 1

/-- The lines for a set. -/
def expect (cfg : Cfg) (s : Snap) : List (List (List Char × List Char)) :=
  (List.range (lineCount s)).map fun i =>
    timeCells cfg s.sec s.usec ++ ("ProducerName".toList, s.producer) ::
      (s.metrics.map (metricCells cfg i)).flatten

/-- The line for a row. -/
def expectRow (cfg : Cfg) (row : List Col) : List (List Char × List Char) :=
  (row.map fun c =>
    match c.val with
    | .ts sec usec => timeCells cfg sec usec
    | .str _ s => if c.phony.isSome then [(c.name, s)] else cell cfg c.udata c.name s
    | v => valueCells cfg c.udata c.name v).flatten

/-! ## What is asked of the data -/

/-- No comma, no end of line, no quote. -/
def Clean (t : List Char) : Prop := ∀ c ∈ t, c ≠ ',' ∧ c ≠ '\n' ∧ c ≠ '"'

/-- What may be in a name or a string: with `ietfcsv`, anything but quotes. -/
def TextOk (cfg : Cfg) (t : List Char) : Prop :=
  if cfg.ietf then ∀ c ∈ t, c ≠ '"' else Clean t

/-- The characters around and between the elements of an array. -/
def ArrayOk (cfg : Cfg) : Prop :=
  (cfg.lq = '"' ∧ cfg.rq = '"' ∧ cfg.sep ≠ '"') ∨ Clean [cfg.lq, cfg.sep, cfg.rq]

/-- Values that fields can hold. -/
def PrimOk (cfg : Cfg) : Prim → Prop
  | .flt _ t => Clean t
  | .chr c => Clean [c]
  | .str _ s => TextOk cfg s
  | .ints k vs => cfg.expand = true ∨ (ArrayOk cfg ∧ vs ≠ [] ∧ k ≠ .s64)
  | .flts _ l => (∀ t ∈ l, Clean t) ∧ (cfg.expand = true ∨ (ArrayOk cfg ∧ l ≠ []))
  | _ => True

/-- The type and size of a value. -/
structure PType where
  tag : Tag
  count : Nat

/-- The type of an entry of a list. -/
inductive EType
  | prim (t : PType)
  | record (ms : List (List Char × PType))

/-- The type of a metric. -/
inductive MType
  | prim (t : PType)
  | recType
  | list (e : EType)

/-- A schema: names and types. -/
abbrev Layout := List (List Char × MType)

/-- A value has a type. -/
def Prim.Is (p : Prim) (t : PType) : Prop := p.tag = t.tag ∧ p.count = t.count

/-- Two lists go together one by one. -/
def Match {α β : Type} (R : α → β → Prop) : List α → List β → Prop
  | [], [] => True
  | a :: l, b :: l' => R a b ∧ Match R l l'
  | _, _ => False

/-- An entry of a list has a type, and fields can hold it. -/
def EntFits (cfg : Cfg) : Ent → EType → Prop
  | .prim p, .prim t => p.Is t ∧ PrimOk cfg p ∧ p ≠ .other
  | .record ms, .record ts =>
    Match (fun m t => m.1 = t.1 ∧ m.2.Is t.2 ∧ PrimOk cfg m.2) ms ts
  | _, _ => False

/-- The names of the columns of a list are not too long, and can be written. -/
def ListNamesOk (cfg : Cfg) (n : List Char) : EType → Prop
  | .prim _ => n.length + 10 ≤ 99
  | .record ms => n.length + 10 ≤ 99 ∧ ∀ m ∈ ms, n.length + 1 + m.1.length ≤ 99 ∧ TextOk cfg m.1

/-- A metric has a name and a type, fields can hold its value, and a list is not empty. -/
def MetricFits (cfg : Cfg) (m : Metric) (t : List Char × MType) : Prop :=
  m.name = t.1 ∧ TextOk cfg m.name ∧
  match m.val, t.2 with
  | .prim p, .prim t => p.Is t ∧ PrimOk cfg p
  | .recType, .recType => True
  | .list es, .list e => es ≠ [] ∧ ListNamesOk cfg m.name e ∧ ∀ x ∈ es, EntFits cfg x e
  | _, _ => False

/-- One for a list. -/
def MType.lists : MType → Nat
  | .list _ => 1
  | _ => 0

/-- The number of lists in a schema. -/
def listsIn (l : Layout) : Nat := (l.map fun t => t.2.lists).sum

/-- A set has a schema with at most one list, and a CSV file can hold it. -/
def Fits (cfg : Cfg) (l : Layout) (s : Snap) : Prop :=
  listsIn l ≤ 1 ∧ Clean s.producer ∧ Match (MetricFits cfg) s.metrics l

/-- A column of a row schema. -/
structure CType where
  name : List Char
  phony : Option Phony
  type : PType

/-- A column fits its schema: a time is the time of the set, and the producer and the
instance are strings. -/
def ColFits (cfg : Cfg) (c : Col) (t : CType) : Prop :=
  c.name = t.name ∧ c.phony = t.phony ∧ c.val.Is t.type ∧ TextOk cfg c.name ∧ PrimOk cfg c.val ∧
  match c.phony with
  | some .time => c.val.tag = .ts
  | some _ => c.val.tag = .str
  | none => c.val.tag ≠ .ts ∧ c.val.tag ≠ .other

/-- A row fits a schema of which the first column is the time, the producer or the
instance. -/
def RowFits (cfg : Cfg) (l : List CType) (row : List Col) : Prop :=
  Match (ColFits cfg) row l ∧ ∃ c cs, row = c :: cs ∧ c.phony ≠ none

end Verif.Csv
