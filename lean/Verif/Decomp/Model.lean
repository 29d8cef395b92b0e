/-!
# Model: making rows of a metric set

Models the decompositions a storage policy applies to a set before it hands rows to
the store: `static`, `as_is` and `flex` (ldms/src/decomp/).

* A value is its type, its array length and its content; addresses are not
  represented.  Metric sets are values: they do not change during a decomposition.
* Reading memory that is not what the code takes it for, a null pointer and a failed
  assertion are `Res.crash`.
* Memory is never short.
-/

namespace Verif.Decomp

/-- Names of metrics, record members, columns and schemas. -/
abbrev Name := List Char

/-- `enum ldms_value_type`, ldms_core.h:230-262: `LDMS_V_CHAR_ARRAY`. -/
def tCharArray : Nat := 12
/-- `LDMS_V_D64_ARRAY`, the last of the primitive types and their arrays. -/
def tLastPrim : Nat := 22
/-- `LDMS_V_LIST`. -/
def tList : Nat := 23
/-- `LDMS_V_RECORD_TYPE`. -/
def tRecType : Nat := 25
/-- `LDMS_V_RECORD_ARRAY`. -/
def tRecArray : Nat := 27
/-- `LDMS_V_TIMESTAMP`. -/
def tTimestamp : Nat := 28

/-- A value with its type and array length (1 for scalars), as
`ldms_metric_type_get`, `ldms_metric_array_get_len`, `ldms_list_first`,
`ldms_record_metric_type_get` report them. -/
structure Val where
  ty : Nat
  len : Nat
  data : List Nat
  deriving DecidableEq, Repr

/-- A record: its members in the order of the record type. -/
abbrev Rec := List (Name × Val)

/-- An element of a list. -/
inductive Elem
  | val (v : Val)
  | record (r : Rec)
  | lst
  deriving DecidableEq

/-- A metric of a set. -/
inductive Metric
  | val (v : Val)
  | list (es : List Elem)
  | arr (rs : List Rec)
  | recType
  deriving DecidableEq

/-- `ldms_metric_type_get`. -/
def Metric.ty : Metric → Nat
  | .val v => v.ty
  | .list _ => tList
  | .arr _ => tRecArray
  | .recType => tRecType

/-- A metric set.  The time stamp is that of the transaction. -/
structure MSet where
  schema : Name
  digest : List Nat
  producer : List Nat
  inst : List Nat
  ts : List Nat
  metrics : List (Name × Metric)

/-- Outcome: `fail` is an error code returned. -/
inductive Res (α : Type)
  | ok (a : α)
  | fail
  | crash
  deriving DecidableEq

/-- Apply a function to the result. -/
def Res.map {α β : Type} (f : α → β) : Res α → Res β
  | .ok a => .ok (f a)
  | .fail => .fail
  | .crash => .crash

/-- `ldms_record_metric_find`, ldms.c:4051-4077. -/
def find (r : Rec) (n : Name) : Option Nat := r.findIdx? (·.1 == n)

/-- `ldms_record_metric_get`, ldms.c:4256-4283: the position of the member is not
checked before it is used. -/
def get (r : Rec) (k : Nat) : Res Val :=
  match r[k]? with
  | some m => .ok m.2
  | none => .crash

/-! ## static -/

/-- `__decomp_static_col_cfg_s`, decomp_static.c:330-339. -/
structure Col where
  type : Nat
  arrayLen : Nat
  src : Name
  member : Option Name
  dst : Name
  fill : List Nat
  fillLen : Nat
  deriving DecidableEq

/-- `__decomp_static_row_cfg_s`, decomp_static.c:341-350, without the map of metric
IDs.  An index is its name and the positions of its columns. -/
structure RowCfg where
  schema : Name
  cols : List Col
  idxs : List (Name × List Nat)

/-- `mid` of an entry of `__decomp_static_mid_rbn_s`, decomp_static.c:358-367. -/
inductive Mid
  | ts | producer | instance | absent
  | at (i : Nat) (mtype : Nat)
  deriving DecidableEq

/-- `rec_mid` of such an entry: -1, another negative number, or a position. -/
inductive RecMid
  | unresolved | bad
  | at (k : Nat)
  deriving DecidableEq

/-- An entry of `__decomp_static_mid_rbn_s`. -/
structure ColMid where
  mid : Mid
  recMid : RecMid
  deriving DecidableEq

/-- `ldms_metric_by_name`, ldms.c:1988-1997. -/
def byName (s : MSet) (n : Name) : Option Nat := s.metrics.findIdx? (·.1 == n)

/-- What the search for a record member gives. -/
def RecMid.of : Option Nat → RecMid
  | some k => .at k
  | none => .bad

/-- The loop body of `__decomp_static_resolve_mid` for a metric of the set,
decomp_static.c:786-853. -/
def resolveMetric (c : Col) (i : Nat) : Metric → Res ColMid
  | .val v => if v.ty > tLastPrim then .ok ⟨.absent, .unresolved⟩ else .ok ⟨.at i v.ty, .bad⟩
  | .recType => .ok ⟨.absent, .unresolved⟩
  | .list [] => .ok ⟨.at i tList, .unresolved⟩
  | .list (.lst :: _) => .ok ⟨.at i tList, .bad⟩
  | .list (.val _ :: _) =>
    match c.member with
    | none => .ok ⟨.at i tList, .bad⟩
    | some _ => .crash
  | .list (.record r :: _) =>
    match c.member with
    | none => .ok ⟨.at i tList, .bad⟩
    | some n => .ok ⟨.at i tList, .of (find r n)⟩
  | .arr [] =>
    match c.member with
    | none => .ok ⟨.at i tRecArray, .bad⟩
    | some _ => .crash
  | .arr (r :: _) =>
    match c.member with
    | none => .ok ⟨.at i tRecArray, .bad⟩
    | some n => .ok ⟨.at i tRecArray, .of (find r n)⟩

/-- The names of the columns that are no metrics. -/
def nTimestamp : Name := "timestamp".toList
/-- See `nTimestamp`. -/
def nProducer : Name := "producer".toList
/-- See `nTimestamp`. -/
def nInstance : Name := "instance".toList

/-- The loop body of `__decomp_static_resolve_mid`, decomp_static.c:762-854. -/
def resolve (s : MSet) (c : Col) : Res ColMid :=
  if c.src = nTimestamp then .ok ⟨.ts, .unresolved⟩
  else if c.src = nProducer then .ok ⟨.producer, .unresolved⟩
  else if c.src = nInstance then .ok ⟨.instance, .unresolved⟩
  else match byName s c.src with
    | none => .ok ⟨.absent, .unresolved⟩
    | some i =>
      match s.metrics[i]? with
      | none => .crash
      | some m => resolveMetric c i m.2

/-- `__decomp_static_resolve_mid`, decomp_static.c:753-856. -/
def resolveAll (s : MSet) : List Col → Res (List ColMid)
  | [] => .ok []
  | c :: cs =>
    match resolve s c with
    | .ok m => (resolveAll s cs).map (m :: ·)
    | .fail => .fail
    | .crash => .crash

/-- What is left of the list or array a column walks along: nothing (`le` is null), the
elements after the present one, the records after the present one. -/
inductive Rest
  | none
  | list (es : List Elem)
  | arr (rs : List Rec)

/-- `_col_mval_s`, decomp_static.c:871-884: the value for the next row, and the rest. -/
structure MCol where
  cur : Val
  rest : Rest

/-- The value at `col_mvals_fill`, decomp_static.c:1053-1057. -/
def fill0 (c : Col) : Val := ⟨c.type, c.fillLen, c.fill⟩

/-- The value at `col_fill`, decomp_static.c:1165-1168. -/
def fillEnd (c : Col) : Val := ⟨c.type, c.arrayLen, c.fill⟩

/-- `mcol` for a list whose first element is a record, decomp_static.c:1016-1035.
Also gives the new `rec_mid`. -/
def initRec (c : Col) (r : Rec) (es : List Elem) : RecMid → RecMid × Res MCol
  | .at k => (.at k, (get r k).map fun v => ⟨v, .list es⟩)
  | .bad => (.bad, .ok ⟨fill0 c, .none⟩)
  | .unresolved =>
    match c.member with
    | none => (.unresolved, .crash)
    | some n =>
      match find r n with
      | none => (.bad, .ok ⟨fill0 c, .none⟩)
      | some k => (.at k, (get r k).map fun v => ⟨v, .list es⟩)

/-- `mcol` for a metric of the set, decomp_static.c:970-1051. -/
def initMetric (c : Col) (rm : RecMid) : Metric → RecMid × Res MCol
  | .val v => (rm, .ok ⟨if v.ty > tLastPrim then fill0 c else v, .none⟩)
  | .recType => (rm, .ok ⟨fill0 c, .none⟩)
  | .list [] => (rm, .ok ⟨fill0 c, .none⟩)
  | .list (.lst :: _) => (rm, .ok ⟨fill0 c, .none⟩)
  | .list (.val v :: es) =>
    (rm, .ok (if v.ty > tLastPrim then ⟨fill0 c, .none⟩ else ⟨v, .list es⟩))
  | .list (.record r :: es) => initRec c r es rm
  | .arr rs =>
    match rm with
    | .at k =>
      match rs with
      | [] => (rm, .crash)
      | r :: rs => (rm, (get r k).map fun v => ⟨v, .arr rs⟩)
    | _ => (rm, .ok ⟨fill0 c, .none⟩)

/-- The loop body at `make_col_mvals`, decomp_static.c:939-1058. -/
def initCol (s : MSet) (c : Col) (m : ColMid) : ColMid × Res MCol :=
  match m.mid with
  | .absent => (m, .ok ⟨fill0 c, .none⟩)
  | .ts => (m, .ok ⟨⟨tTimestamp, 1, s.ts⟩, .none⟩)
  | .producer => (m, .ok ⟨⟨tCharArray, s.producer.length + 1, s.producer⟩, .none⟩)
  | .instance => (m, .ok ⟨⟨tCharArray, s.inst.length + 1, s.inst⟩, .none⟩)
  | .at i mtype =>
    match s.metrics[i]? with
    | none => (m, .crash)
    | some x =>
      if x.2.ty ≠ mtype then (m, .fail)
      else
        let r := initMetric c m.recMid x.2
        (⟨m.mid, r.1⟩, r.2)

/-- The loop at `make_col_mvals`, decomp_static.c:939-1058, with the new metric IDs. -/
def initCols (s : MSet) : List (Col × ColMid) → List ColMid × Res (List MCol)
  | [] => ([], .ok [])
  | (c, m) :: l =>
    match initCol s c m with
    | (m', .ok x) => (m' :: (initCols s l).1, (initCols s l).2.map (x :: ·))
    | (m', .fail) => (m' :: l.map (·.2), .fail)
    | (m', .crash) => (m' :: l.map (·.2), .crash)

/-- The step to the next element, decomp_static.c:1122-1168.  The flag is
`row_more_le`. -/
def advance (k : Col × RecMid) (x : MCol) : Res (MCol × Bool) :=
  match x.rest with
  | .none => .ok (x, false)
  | .list [] => .ok (⟨fillEnd k.1, .none⟩, false)
  | .list (e :: es) =>
    match k.1.member with
    | some _ =>
      match k.2 with
      | .at i =>
        match e with
        | .record r => (get r i).map fun v => (⟨v, .list es⟩, true)
        | _ => .crash
      | _ => .ok (⟨fillEnd k.1, .list es⟩, true)
    | none =>
      match e with
      | .val v => .ok (⟨if v.ty > tLastPrim then fillEnd k.1 else v, .list es⟩, true)
      | _ => .ok (⟨fillEnd k.1, .list es⟩, true)
  | .arr [] => .ok (⟨fillEnd k.1, .none⟩, false)
  | .arr (r :: rs) =>
    match k.2 with
    | .at i => (get r i).map fun v => (⟨v, .arr rs⟩, false)
    | _ => .ok (⟨fillEnd k.1, .arr (r :: rs)⟩, false)

/-- A column of a row: `ldmsd_col_s`, ldmsd.h, without the metric IDs. -/
structure Cell where
  name : Name
  val : Val
  deriving DecidableEq, Repr

/-- `ldmsd_row_s`.  An index refers to columns of the row. -/
structure Row where
  schema : Name
  cells : List Cell
  idxs : List (Name × List Cell)
  deriving DecidableEq

/-- A column of a row of the static decomposition, decomp_static.c:1095-1120: none for
`EINVAL`. -/
def cell (k : Col × RecMid) (v : Val) : Option Cell :=
  if k.1.type ≠ v.ty then none else some ⟨k.1.dst, v⟩

/-- The loop over the columns at `make_row`, decomp_static.c:1088-1169,
decomp_as_is.c:815-874: the cells, the columns after the step, and `row_more_le`.  The
two decompositions have their own way to make a cell and to step. -/
def makeCells {κ : Type} (cell : κ → Val → Option Cell)
    (adv : κ → MCol → Res (MCol × Bool)) :
    List (κ × MCol) → Res (List Cell × List MCol × Bool)
  | [] => .ok ([], [], false)
  | (k, x) :: l =>
    match cell k x.cur with
    | none => .fail
    | some y =>
      match adv k x with
      | .ok (x', more) =>
        (makeCells cell adv l).map fun t => (y :: t.1, x' :: t.2.1, more || t.2.2)
      | .fail => .fail
      | .crash => .crash

/-- The row made of some cells, decomp_static.c:1061-1083, decomp_as_is.c:776-810.  The
positions of an index are those of columns, the configuration has seen to that. -/
def mkRow (schema : Name) (idxs : List (Name × List Nat)) (cells : List Cell) : Row :=
  ⟨schema, cells, idxs.map fun i => (i.1, i.2.filterMap (cells[·]?))⟩

/-- The rows from `make_row` on, decomp_static.c:1060-1174, decomp_as_is.c:775-879.
`fuel` bounds the number of rows; that it is not used up is proved. -/
def makeRows {κ : Type} (cell : κ → Val → Option Cell)
    (adv : κ → MCol → Res (MCol × Bool)) (mk : List Cell → Row) (ks : List κ) :
    Nat → List MCol → Res (List Row)
  | 0, _ => .crash
  | fuel + 1, xs =>
    match makeCells cell adv (ks.zip xs) with
    | .ok t =>
      if t.2.2 then (makeRows cell adv mk ks fuel t.2.1).map (mk t.1 :: ·)
      else .ok [mk t.1]
    | .fail => .fail
    | .crash => .crash

/-- How many elements are left. -/
def restLen : Rest → Nat
  | .list es => es.length
  | _ => 0

/-- A bound on the number of rows. -/
def bound (xs : List MCol) : Nat := (xs.map fun x => restLen x.rest).sum + 1

/-- A row configuration with the metric IDs known so far, `mid_rbt`. -/
structure RowSt where
  cfg : RowCfg
  mids : List (List Nat × List ColMid)

/-- Replace or add the entry for a digest. -/
def upsert (d : List Nat) (ms : List ColMid) (l : List (List Nat × List ColMid)) :
    List (List Nat × List ColMid) := (d, ms) :: l.filter (·.1 ≠ d)

/-- The rows of one row configuration with given metric IDs. -/
def rowWith (st : RowSt) (s : MSet) (ms : List ColMid) : RowSt × Res (List Row) :=
  let r := initCols s (st.cfg.cols.zip ms)
  ({ st with mids := upsert s.digest r.1 st.mids },
   match r.2 with
   | .ok xs => makeRows cell advance (mkRow st.cfg.schema st.cfg.idxs)
       (st.cfg.cols.zip (r.1.map (·.recMid))) (bound xs) xs
   | .fail => .fail
   | .crash => .crash)

/-- The loop body of `__decomp_static_decompose`, decomp_static.c:909-1177. -/
def rowStep (st : RowSt) (s : MSet) : RowSt × Res (List Row) :=
  match st.mids.find? (·.1 == s.digest) with
  | some e => rowWith st s e.2
  | none =>
    match resolveAll s st.cfg.cols with
    | .ok ms => rowWith st s ms
    | .fail => (st, .fail)
    | .crash => (st, .crash)

/-- `__decomp_static_decompose`, decomp_static.c:858-1185.  On an error the rows made so
far are released; the metric IDs stay. -/
def static : List RowSt → MSet → List RowSt × Res (List Row)
  | [], _ => ([], .ok [])
  | st :: l, s =>
    match rowStep st s with
    | (st', .ok rows) => (st' :: (static l s).1, (static l s).2.map (rows ++ ·))
    | (st', .fail) => (st' :: l, .fail)
    | (st', .crash) => (st' :: l, .crash)

/-! ## as_is -/

/-- `__decomp_as_is_col_cfg_s`, decomp_as_is.c:168-176: no metric is the time stamp, no
record member is -1.  The lengths kept there are not used for rows. -/
structure ACol where
  name : Name
  mid : Option Nat
  setTy : Nat
  recMid : Option Nat
  ty : Nat
  deriving DecidableEq

/-- `__decomp_as_is_row_cfg_s`. -/
structure ARow where
  schema : Name
  cols : List ACol
  idxs : List (Name × List Nat)

/-- What an element of a list looks like taken for a value.  The content of a record or
a list is not represented. -/
def Elem.asVal : Elem → Val
  | .val v => v
  | .record _ => ⟨26, 0, []⟩
  | .lst => ⟨tList, 0, []⟩

/-- A digit of `%hhx`. -/
def hexDigit (n : Nat) : Char := "0123456789abcdef".toList.getD n '0'

/-- The name of the rows, decomp_as_is.c:341-346: the schema and the first seven
digits of the digest. -/
def shortName (s : MSet) : Name :=
  s.schema ++ '_' ::
    ([s.digest.getD 0 0, s.digest.getD 1 0, s.digest.getD 2 0].flatMap
      fun b => [hexDigit (b / 16), hexDigit (b % 16)]) ++ [hexDigit (s.digest.getD 3 0 / 16)]

/-- The columns of a record, decomp_as_is.c:499-512, 532-545. -/
def recCols (n : Name) (i setTy : Nat) (r : Rec) : List ACol :=
  r.mapIdx fun j m => ⟨n ++ '.' :: m.1, some i, setTy, some j, m.2.ty⟩

/-- The columns of a metric, decomp_as_is.c:359-415, 453-551. -/
def metricCols (i : Nat) (n : Name) : Metric → Res (List ACol)
  | .val v => if v.ty > tLastPrim then .fail else .ok [⟨n, some i, v.ty, none, v.ty⟩]
  | .recType => .ok []
  | .list [] => .fail
  | .list (.record r :: _) => .ok (recCols n i tList r)
  | .list (e :: _) => .ok [⟨n, some i, tList, none, e.asVal.ty⟩]
  | .arr [] => .crash
  | .arr (r :: _) => .ok (recCols n i tRecArray r)

/-- The columns of metrics from position `i` on. -/
def colsFrom : Nat → List (Name × Metric) → Res (List ACol)
  | _, [] => .ok []
  | i, m :: l =>
    match metricCols i m.1 m.2 with
    | .ok cs => (colsFrom (i + 1) l).map (cs ++ ·)
    | .fail => .fail
    | .crash => .crash

/-- The positions of the columns of an index, decomp_as_is.c:564-577: the first of that
name. -/
def idxPos (cols : List ACol) : List Name → Option (List Nat)
  | [] => some []
  | n :: l =>
    match cols.findIdx? (·.name == n), idxPos cols l with
    | some k, some ks => some (k :: ks)
    | _, _ => none

/-- The indices, decomp_as_is.c:555-578. -/
def idxAll (cols : List ACol) : List (Name × List Name) → Option (List (Name × List Nat))
  | [] => some []
  | i :: l =>
    match idxPos cols i.2, idxAll cols l with
    | some ks, some t => some ((i.1, ks) :: t)
    | _, _ => none

/-- `__get_row_cfg` for a set seen first, decomp_as_is.c:353-581.  `idxs` are the
indices asked for. -/
def newCfg (idxs : List (Name × List Name)) (s : MSet) : Res ARow :=
  match colsFrom 0 s.metrics with
  | .ok cs =>
    let cols := ⟨nTimestamp, none, 0, none, tTimestamp⟩ :: cs
    match idxAll cols idxs with
    | some ix => .ok ⟨shortName s, cols, ix⟩
    | none => .fail
  | .fail => .fail
  | .crash => .crash

/-- The value at `col_mvals_fill` and `col_fill`, decomp_as_is.c:768-772, 869-873. -/
def aFill (c : ACol) : Val := ⟨c.ty, 1, [0]⟩

/-- `mcol` for a record, decomp_as_is.c:736-749, 751-766. -/
def aInitRec (c : ACol) (r : Rec) (rest : Rest) : Res MCol :=
  match c.recMid with
  | none => .crash
  | some k => (get r k).map fun v => if v.ty ≠ c.ty then ⟨aFill c, .none⟩ else ⟨v, rest⟩

/-- `mcol` for a metric, decomp_as_is.c:706-772. -/
def aInitMetric (c : ACol) : Metric → Res MCol
  | .val v => if v.ty > tLastPrim then .crash else .ok ⟨v, .none⟩
  | .recType => .crash
  | .list [] => .ok ⟨aFill c, .none⟩
  | .list (.record r :: es) => aInitRec c r (.list es)
  | .list (e :: es) =>
    .ok (if e.asVal.ty ≠ c.ty then ⟨aFill c, .none⟩ else ⟨e.asVal, .list es⟩)
  | .arr [] => .crash
  | .arr (r :: rs) => aInitRec c r (.arr rs)

/-- The loop body of `__decomp_as_is_decompose`, decomp_as_is.c:691-773. -/
def aInit (s : MSet) (c : ACol) : Res MCol :=
  match c.mid with
  | none => .ok ⟨⟨tTimestamp, 0, s.ts⟩, .none⟩
  | some i =>
    match s.metrics[i]? with
    | none => .crash
    | some m => if m.2.ty ≠ c.setTy then .crash else aInitMetric c m.2

/-- The loop, decomp_as_is.c:691-773. -/
def aInitAll (s : MSet) : List ACol → Res (List MCol)
  | [] => .ok []
  | c :: cs =>
    match aInit s c with
    | .ok x => (aInitAll s cs).map (x :: ·)
    | .fail => .fail
    | .crash => .crash

/-- The step to the next element, decomp_as_is.c:835-873. -/
def aAdvance (c : ACol) (x : MCol) : Res (MCol × Bool) :=
  match x.rest with
  | .none => .ok (x, false)
  | .list [] => .ok (⟨aFill c, .none⟩, false)
  | .list (e :: es) =>
    match c.recMid with
    | some k =>
      match e with
      | .record r => (get r k).map fun v => (⟨v, .list es⟩, true)
      | _ => .crash
    | none =>
      if c.ty > tLastPrim then .ok (⟨aFill c, .none⟩, true)
      else .ok (⟨e.asVal, .list es⟩, true)
  | .arr [] => .ok (⟨aFill c, .none⟩, false)
  | .arr (r :: rs) =>
    match c.recMid with
    | some k => (get r k).map fun v => (⟨v, .arr rs⟩, false)
    | none => .crash

/-- A column of a row, decomp_as_is.c:822-833: the type is that of the configuration. -/
def aCell (c : ACol) (v : Val) : Option Cell := some ⟨c.name, ⟨c.ty, v.len, v.data⟩⟩

/-- `__decomp_as_is_cfg_s`: the indices asked for, and the rows known so far. -/
structure ACfg where
  idxs : List (Name × List Name)
  rows : List ARow

/-- The rows for a known configuration, decomp_as_is.c:679-882. -/
def aRowsOf (s : MSet) (rc : ARow) : Res (List Row) :=
  match aInitAll s rc.cols with
  | .ok xs => makeRows aCell aAdvance (mkRow rc.schema rc.idxs) rc.cols (bound xs) xs
  | .fail => .fail
  | .crash => .crash

/-- `__decomp_as_is_decompose`, decomp_as_is.c:610-889. -/
def asIs (cfg : ACfg) (s : MSet) : ACfg × Res (List Row) :=
  match cfg.rows.find? (·.schema == shortName s) with
  | some rc => (cfg, aRowsOf s rc)
  | none =>
    match newCfg cfg.idxs s with
    | .ok rc => ({ cfg with rows := rc :: cfg.rows }, aRowsOf s rc)
    | .fail => (cfg, .fail)
    | .crash => (cfg, .crash)

/-! ## flex -/

/-- The decompositions a flex configuration can refer to. -/
inductive Decomp
  | static (rows : List RowSt)
  | asIs (cfg : ACfg)

/-- `decompose` of a decomposition, and the number of rows it reports. -/
def runDecomp : Decomp → MSet → Decomp × Res (List Row)
  | .static rows, s => (.static (static rows s).1, (static rows s).2)
  | .asIs cfg, s => (.asIs (asIs cfg s).1, (asIs cfg s).2)

/-- `__decomp_flex_cfg_s`, decomp_flex.c:153-158: the decompositions, for a digest the
positions of those to apply, and what to apply to other digests.  Decompositions are
known by position instead of name; a flex decomposition within another one is not
modelled. -/
structure Flex where
  decomps : List Decomp
  digests : List (List Nat × List Nat)
  dflt : Option (List Nat)

/-- The loop, decomp_flex.c:381-398: `rows` and `n` are the rows and their number so
far. -/
def flexLoop (s : MSet) : List Nat → List Decomp → List Row → Nat →
    List Decomp × Res (List Row × Nat)
  | [], ds, rows, n => (ds, .ok (rows, n))
  | i :: l, ds, rows, n =>
    match ds[i]? with
    | none => (ds, .crash)
    | some d =>
      match runDecomp d s with
      | (d', .ok rs) => flexLoop s l (ds.set i d') (rows ++ rs) (n + rs.length)
      | (d', .fail) => (ds.set i d', .fail)
      | (d', .crash) => (ds.set i d', .crash)

/-- `__decomp_flex_decompose`, decomp_flex.c:363-398.  `n` is what is at `row_count`
when it is called. -/
def flex (f : Flex) (s : MSet) (n : Nat) : Flex × Res (List Row × Nat) :=
  match (f.digests.find? (·.1 == s.digest)).map (·.2) <|> f.dflt with
  | none => (f, .ok ([], n))
  | some is =>
    let r := flexLoop s is f.decomps [] n
    ({ f with decomps := r.1 }, r.2)

/-- What `strgp_decompose` hands to the store, ldmsd_strgp.c:181-195, for a decomposition
other than flex: `row_count` is not initialised, `n` is what is there. -/
def commitDecomp (d : Decomp) (s : MSet) (_n : Nat) : Decomp × Res (List Row × Nat) :=
  ((runDecomp d s).1, (runDecomp d s).2.map fun rs => (rs, rs.length))

end Verif.Decomp
