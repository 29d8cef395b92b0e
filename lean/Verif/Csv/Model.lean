import Verif.RowJson.Model

/-!
# The CSV store: headers and lines

`ldms/src/store/store_csv.c` and `ldms/src/store/store_csv_common.c`: what the CSV store
writes into a file, for sets stored as they are (`store`) and for the rows of a
decomposition (`store_row`).  Texts are lists of characters; a character is a byte.
Writing does not fail.  Which file the text goes to, roll-over and buffering are in
`Verif.CsvFile`.
-/

namespace Verif.Csv

open RowJson (IKind FKind dec decInt dec6)

/-- A value of a metric, of a member of a record, of an entry of a list or of a column.
A floating point number is what `printf` makes of it.  A string has the size of its
array, and what comes before its NUL. -/
inductive Prim
  | int (k : IKind) (v : Int)
  | flt (k : FKind) (text : List Char)
  | chr (c : Char)
  | str (cap : Nat) (s : List Char)
  | ints (k : IKind) (vs : List Int)
  | flts (k : FKind) (texts : List (List Char))
  | ts (sec usec : Nat)
  /-- An array of records or, in a list, a list. -/
  | other
  deriving DecidableEq

/-- `enum ldms_value_type` of a value. -/
inductive Tag
  | int (k : IKind) | flt (k : FKind) | chr | str | ints (k : IKind) | flts (k : FKind)
  | ts | other | record
  deriving DecidableEq

/-- The type of a value. -/
def Prim.tag : Prim → Tag
  | .int k _ => .int k
  | .flt k _ => .flt k
  | .chr _ => .chr
  | .str _ _ => .str
  | .ints k _ => .ints k
  | .flts k _ => .flts k
  | .ts _ _ => .ts
  | .other => .other

/-- The number of elements of a value, `vd_array_count` and `v_le.count`. -/
def Prim.count : Prim → Nat
  | .str n _ => n
  | .ints _ vs => vs.length
  | .flts _ l => l.length
  | _ => 1

/-- An entry of a list: a value, or a record with its members. -/
inductive Ent
  | prim (p : Prim)
  | record (ms : List (List Char × Prim))
  deriving DecidableEq

/-- `v_le.type`. -/
def Ent.tag : Ent → Tag
  | .prim p => p.tag
  | .record _ => .record

/-- `v_le.count`; one for a record, ldms.c:3974. -/
def Ent.count : Ent → Nat
  | .prim p => p.count
  | .record _ => 1

/-- The value of a metric of a set.  A metric is not a single record. -/
inductive MVal
  | prim (p : Prim)
  | recType
  | list (es : List Ent)
  deriving DecidableEq

/-- A metric: name, user data and value. -/
structure Metric where
  name : List Char
  udata : Nat
  val : MVal

/-- A set at a time: what `store` is given.  `metric_array` is taken to be all metrics. -/
structure Snap where
  sec : Nat
  usec : Nat
  /-- `ldms_set_producer_name_get` -/
  producer : List Char
  metrics : List Metric

/-- What a handle has of the configuration, store_csv_common.h:68-127. -/
structure Cfg where
  udata : Bool
  ietf : Bool
  expand : Bool
  sep : Char
  lq : Char
  rq : Char
  /-- `time_format == TF_MILLISEC` -/
  msec : Bool
  deriving DecidableEq

/-- `wsqt`, store_csv.c:1577-1580. -/
def wsqt (cfg : Cfg) : List Char := if cfg.ietf then ['"'] else []

/-- The elements of an array as text. -/
def Prim.elems : Prim → List (List Char)
  | .ints _ vs => vs.map decInt
  | .flts _ l => l
  | _ => []

/-! ## Sets stored as they are -/

/-- `if (sh->udata) fprintf(",%lu", udata)`. -/
def udataText (cfg : Cfg) (u : Nat) : List Char :=
  if cfg.udata then ',' :: dec u else []

/-- An array with one field for each element, store_csv.c:1053-1061 and alike. -/
def expanded (cfg : Cfg) (u : Nat) (l : List (List Char)) : List Char :=
  (l.map fun t => udataText cfg u ++ ',' :: t).flatten

/-- The elements of an array in one field, store_csv.c:1063-1080 and alike. -/
def packed (lq sep rq : Char) : List (List Char) → List Char
  | [] => [rq]
  | t :: l => (',' :: lq :: t) ++ (l.map fun u => sep :: u).flatten ++ [rq]

/-- `store_metric`, store_csv.c:1028-1456, of anything but a record.  The quotes and the
separator of arrays of 64-bit signed numbers are fixed, store_csv.c:1340-1348. -/
def primText (cfg : Cfg) (u : Nat) (p : Prim) : List Char :=
  match p with
  | .str _ s => udataText cfg u ++ ',' :: (wsqt cfg ++ s ++ wsqt cfg)
  | .chr c => udataText cfg u ++ [',', c]
  | .int _ v => udataText cfg u ++ ',' :: decInt v
  | .flt _ t => udataText cfg u ++ ',' :: t
  | .ints k vs =>
    if cfg.expand then expanded cfg u (vs.map decInt)
    else if k = .s64 then udataText cfg u ++ packed '"' ',' '"' (vs.map decInt)
    else udataText cfg u ++ packed cfg.lq cfg.sep cfg.rq (vs.map decInt)
  | .flts _ l =>
    if cfg.expand then expanded cfg u l
    else udataText cfg u ++ packed cfg.lq cfg.sep cfg.rq l
  | .ts _ _ | .other => (if cfg.udata then [','] else []) ++ [',']

/-- `store_metric`, store_csv.c:1028-1456; for a record, 1438-1444. -/
def entText (cfg : Cfg) (u : Nat) : Ent → List Char
  | .prim p => primText cfg u p
  | .record ms => (ms.map fun m => primText cfg u m.2).flatten

/-- The two fields of a time, store_csv.c:1463-1474 and 2048-2064. -/
def timeText (cfg : Cfg) (sec usec : Nat) : List Char :=
  if cfg.msec then dec (sec * 1000 + usec / 1000) ++ ',' :: dec (usec % 1000)
  else dec sec ++ '.' :: dec6 usec ++ ',' :: dec usec

/-- `store_time_job_app`, store_csv.c:1458-1482. -/
def timeJobApp (cfg : Cfg) (s : Snap) : List Char :=
  timeText cfg s.sec s.usec ++ ',' :: s.producer

/-- What one pass over the metrics does, store_csv.c:1587-1648: the text, `lents[0].idx`
(`none` for -1), and `done`. -/
structure Pass where
  text : List Char
  idx : Option Nat
  done : Nat
  deriving DecidableEq

/-- `lents[lidx].idx + 1`. -/
def nextIdx : Option Nat → Nat
  | none => 0
  | some i => i + 1

/-- The loop over the metrics, store_csv.c:1590-1647, for a handle with room for
`numLists ≤ 1` lists; `lidx` is the number of lists before.  `none`: memory that is not
there is written to. -/
def passMetrics (cfg : Cfg) (numLists lidx : Nat) : List Metric → Pass → Option Pass
  | [], p => some p
  | m :: ms, p =>
    match m.val with
    | .recType => passMetrics cfg numLists lidx ms p
    | .prim v => passMetrics cfg numLists lidx ms { p with text := p.text ++ primText cfg m.udata v }
    | .list [] => some p
    | .list (e :: es) =>
      if numLists ≤ lidx then none
      else
        let i := nextIdx p.idx
        if i = (e :: es).length then
          passMetrics cfg numLists (lidx + 1) ms
            { p with text := p.text ++ primText cfg m.udata (.int .u64 (i - 1 : Nat)) ++
                entText cfg m.udata ((e :: es).getD (i - 1) e) }
        else
          passMetrics cfg numLists (lidx + 1) ms
            { text := p.text ++ primText cfg m.udata (.int .u64 i) ++
                entText cfg m.udata ((e :: es).getD i e)
              idx := some i
              done := if i + 1 = (e :: es).length then p.done + 1 else p.done }

/-- How writing a set ends. -/
inductive Lines
  | ok (text : List Char)
  /-- It does not end. -/
  | hang
  /-- Memory is written to that is not there. -/
  | crash
  deriving DecidableEq

/-- `do … while (done < s_handle->num_lists)`, store_csv.c:1587-1649; each round takes one
of `fuel`. -/
def passes (cfg : Cfg) (numLists : Nat) (s : Snap) : Nat → List Char → Option Nat → Nat → Lines
  | 0, _, _, _ => .hang
  | fuel + 1, text, idx, done =>
    match passMetrics cfg numLists 0 s.metrics
        { text := text ++ timeJobApp cfg s, idx := idx, done := done } with
    | none => .crash
    | some p =>
      if p.done < numLists then passes cfg numLists s fuel (p.text ++ ['\n']) p.idx p.done
      else .ok (p.text ++ ['\n'])

/-- The entries of all lists of a set. -/
def entries (s : Snap) : Nat :=
  (s.metrics.map fun m => match m.val with | .list es => es.length | _ => 0).sum

/-- The lines for a set; it is shown that this many rounds are enough. -/
def setLines (cfg : Cfg) (numLists : Nat) (s : Snap) : Lines :=
  passes cfg numLists s (entries s + 1) [] none 0

/-! ## Headers -/

/-- `__primitive_metric_header`, store_csv_common.c:622-677. -/
def primHeader (cfg : Cfg) (n : List Char) (t : Tag) (len : Nat) (sep : List Char) : List Char :=
  let w := wsqt cfg
  let one :=
    if cfg.udata then
      ',' :: (w ++ n ++ ".userdata".toList ++ w) ++ ',' :: (w ++ n ++ ".value".toList ++ w)
    else ',' :: (w ++ n ++ w)
  let many :=
    ((List.range len).map fun j =>
      if cfg.udata then
        sep ++ (w ++ n ++ dec j ++ ".userdata".toList ++ w) ++
          ',' :: (w ++ n ++ dec j ++ ".value".toList ++ w)
      else sep ++ (w ++ n ++ dec j ++ w)).flatten
  match t with
  | .record => []
  | .ints _ | .flts _ => if cfg.expand then many else one
  | _ => one

/-- `snprintf(n, 100, …)`. -/
def cut100 (n : List Char) : List Char := n.take 99

/-- The entries after the first have its type and count,
store_csv_common.c:851-864. -/
def uniform : Ent → List Ent → Bool
  | _, [] => true
  | e, e' :: es => e.tag == e'.tag && e.count == e'.count && uniform e' es

/-- The header of a list, store_csv_common.c:799-864, and whether it was done. -/
def listHeader (cfg : Cfg) (n : List Char) (sep : List Char) : List Ent → List Char × Bool
  | [] => ([], false)
  | e :: es =>
    let i := primHeader cfg (cut100 (n ++ "_entry_idx".toList)) (.int .u64) 1 sep
    match e with
    | .prim .other => (i, false)
    | .prim p => (i ++ primHeader cfg n p.tag p.count sep, uniform e es)
    | .record ms =>
      (i ++ (ms.map fun m =>
          primHeader cfg (cut100 (n ++ '_' :: m.1)) m.2.tag m.2.count sep).flatten,
        uniform e es)

/-- The columns a header is made for: `metric_id` and `type` of `ldmsd_col_s`. -/
inductive HCol
  | time
  | named (n : List Char)
  | metric (n : List Char) (v : MVal)

/-- The loop of `csv_row_format_header`, store_csv_common.c:769-873, and whether it came
to the end. -/
def headerCols (cfg : Cfg) : List Char → List HCol → List Char × Bool
  | _, [] => ([], true)
  | sep, .time :: cs =>
    let w := wsqt cfg
    let t := sep ++ (w ++ (if cfg.msec then "Time_msec".toList else "Time".toList) ++ w) ++
      ',' :: (w ++ "Time_usec".toList ++ w)
    let r := headerCols cfg [','] cs
    (t ++ r.1, r.2)
  | sep, .named n :: cs =>
    let r := headerCols cfg [','] cs
    (sep ++ (wsqt cfg ++ n ++ wsqt cfg) ++ r.1, r.2)
  | _, .metric _ .recType :: cs => headerCols cfg [','] cs
  | sep, .metric n (.list es) :: cs =>
    let l := listHeader cfg n sep es
    if l.2 then
      let r := headerCols cfg [','] cs
      (l.1 ++ r.1, r.2)
    else (l.1, false)
  | sep, .metric n (.prim p) :: cs =>
    let r := headerCols cfg [','] cs
    (primHeader cfg n p.tag p.count sep ++ r.1, r.2)

/-- `csv_row_format_header`, store_csv_common.c:739-879: the text that is written. -/
def headerText (cfg : Cfg) (cs : List HCol) : List Char :=
  let r := headerCols cfg [] cs
  '#' :: r.1 ++ (if r.2 then ['\n'] else [])

/-- `csv_format_header_common`, store_csv_common.c:881-917; `print_header_from_store` does
not look at what it returns, store_csv.c:952-954. -/
def setHeader (cfg : Cfg) (s : Snap) : List Char :=
  headerText cfg (.time :: .named "ProducerName".toList ::
    s.metrics.map fun m => .metric m.name m.val)

/-! ## The handle -/

/-- `struct csv_store_handle`, store_csv.c:162-179. -/
structure Handle where
  /-- `num_lists`, `none` for -1 -/
  numLists : Option Nat
  /-- `lents` is not NULL -/
  lents : Bool
  /-- `printheader` is not `DONT_PRINT_HEADER` -/
  header : Bool
  /-- what is in the file -/
  file : List Char
  deriving DecidableEq

/-- `csv_store_handle_get`, store_csv.c:1784-1945, with a new file. -/
def fresh : Handle := { numLists := none, lents := false, header := true, file := [] }

/-- What `store` does. -/
inductive Res
  /-- 0, and lines are written -/
  | stored
  /-- `EINVAL`: more than one list -/
  | refused
  /-- 0, and nothing is written -/
  | skipped
  | hang
  | crash
  deriving DecidableEq

/-- Counting the lists, store_csv.c:1500-1524: `num_lists` and what is returned, if the
count ends before the metrics do. -/
def countLists : Nat → List Metric → Nat × Option Res
  | n, [] => (n, none)
  | n, m :: ms =>
    match m.val with
    | .list es =>
      if n + 1 > 1 then (n + 1, some .refused)
      else if es = [] then (n + 1, some .skipped)
      else countLists (n + 1) ms
    | _ => countLists n ms

/-- From the lock on, store_csv.c:1542-1671.  The header goes to the file itself. -/
def writeSet (cfg : Cfg) (n : Nat) (s : Snap) (h : Handle) : Res × Handle :=
  let f := if h.header then h.file ++ setHeader cfg s else h.file
  match setLines cfg n s with
  | .ok t => (.stored, { h with header := false, file := f ++ t })
  | .hang => (.hang, { h with header := false, file := f })
  | .crash => (.crash, { h with header := false, file := f })

/-- `store`, store_csv.c:1484-1671. -/
def store (cfg : Cfg) (s : Snap) (h : Handle) : Res × Handle :=
  match h.numLists with
  | none =>
    match countLists 0 s.metrics with
    | (n, some r) => (r, { h with numLists := some n })
    | (n, none) => writeSet cfg n s { h with numLists := some n, lents := true }
  | some n =>
    if n > 1 then (.skipped, h)
    else if n > 0 && !h.lents then (.crash, h)
    else writeSet cfg n s h

/-- Store sets one after the other. -/
def storeAll (cfg : Cfg) : List Snap → Handle → List Res × Handle
  | [], h => ([], h)
  | s :: l, h =>
    let r := store cfg s h
    let q := storeAll cfg l r.2
    (r.1 :: q.1, q.2)

/-! ## Rows of a decomposition -/

/-- `metric_id` of a column that is not a metric, ldmsd.h:560-566. -/
inductive Phony
  | time | producer | instance
  deriving DecidableEq

/-- `ldmsd_col_s`, with the user data of its metric. -/
structure Col where
  name : List Char
  phony : Option Phony
  udata : Nat
  val : Prim

/-- `ustr`, `sep` and `udata_str_arr` of `store_col`, store_csv.c:2153-2181, for the first
element and for the others. -/
def colLead (cfg : Cfg) (c : Col) (first : Bool) : List Char :=
  let sep : List Char := if first then [] else [',']
  if cfg.udata && c.phony.isNone then sep ++ dec c.udata ++ [','] else sep

/-- The elements of an array, store_csv.c:2183-2199. -/
def colElems (cfg : Cfg) (c : Col) (first : Bool) : List (List Char) → List Char
  | [] => []
  | t :: l => colLead cfg c first ++ t ++ (l.map fun u => colLead cfg c false ++ u).flatten

/-- `store_col`, store_csv.c:2149-2212, and the functions in its table, 1993-2120.
`none`: there is no function for the type. -/
def colText (cfg : Cfg) (c : Col) (first : Bool) : Option (List Char) :=
  match c.val with
  | .chr d => some (colLead cfg c first ++ [d])
  | .int _ v => some (colLead cfg c first ++ decInt v)
  | .flt _ t => some (colLead cfg c first ++ t)
  | .str _ s => some (colLead cfg c first ++ (wsqt cfg ++ s ++ wsqt cfg))
  | .ts sec usec => some (colLead cfg c first ++ timeText cfg sec usec)
  | .ints _ vs => some (colElems cfg c first (vs.map decInt))
  | .flts _ l => some (colElems cfg c first l)
  | .other => none

/-- The columns of a row, store_csv.c:2246-2251.  A column of another type ends the
program (`assert` in `ERR_LOG`, store_csv.c:131-134), here `none`. -/
def rowCols (cfg : Cfg) : Bool → List Col → Option (List Char)
  | _, [] => some []
  | first, c :: cs =>
    match colText cfg c first, rowCols cfg false cs with
    | some t, some r => some (t ++ r)
    | _, _ => none

/-- What a header is made of for a column. -/
def Col.head (c : Col) : HCol :=
  match c.phony with
  | some .time => .time
  | some _ => .named c.name
  | none => .metric c.name (.prim c.val)

/-- `store_row`, store_csv.c:2214-2272, of the file and whether a header is due. -/
def storeRow (cfg : Cfg) (row : List Col) (header : Bool) (file : List Char) : Option (List Char) :=
  let f := if header then file ++ headerText cfg (row.map Col.head) else file
  match rowCols cfg true row with
  | some t => some (f ++ t ++ ['\n'])
  | none => none

/-- Rows stored one after the other in a new file. -/
def storeRows (cfg : Cfg) : List (List Col) → Bool → List Char → Option (List Char)
  | [], _, f => some f
  | r :: l, h, f =>
    match storeRow cfg r h f with
    | some f' => storeRows cfg l false f'
    | none => none

end Verif.Csv
