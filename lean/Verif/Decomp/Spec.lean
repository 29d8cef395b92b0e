import Verif.Decomp.Model

/-!
# Specification: the rows of a metric set

What a storage policy's decomposition is documented to give
(ldms/man/ldmsd_decomposition.man): for every row schema, as many rows as the longest
list among its columns has elements, at least one; the r-th row has the r-th element of
each list, everything else is repeated, and what does not exist is the fill value.
-/

namespace Verif.Decomp

/-- The metric of a name. -/
def metricOf (s : MSet) (n : Name) : Option Metric :=
  (s.metrics.find? (·.1 = n)).map (·.2)

/-- The member of a name of a record. -/
def memberOf (n : Name) (r : Rec) : Option Val := (r.find? (·.1 = n)).map (·.2)

/-- What a column shows in the rows of a set. -/
inductive Column
  /-- The same value in all rows. -/
  | same (v : Val)
  /-- One value per element. -/
  | each (vs : List Val)
  /-- The values of the records of an array; does not make more rows. -/
  | array (vs : List Val)

/-- The value in row `r`. -/
def Column.at (after : Val) : Column → Nat → Val
  | .same v, _ => v
  | .each vs, r => vs.getD r after
  | .array vs, r => vs.getD r after

/-- How many rows the column takes. -/
def Column.rows : Column → Nat
  | .each vs => vs.length
  | _ => 1

/-- The value of an element for a column: itself, or the member asked for. -/
def elemVal (member : Option Name) : Elem → Option Val
  | .val v => if member = none then some v else none
  | .record r => member.bind fun n => memberOf n r
  | .lst => none

/-- A list of values as a column; nothing at all is the fill value. -/
def Column.ofVals (mk : List Val → Column) (missing : Val) : List Val → Column
  | [] => .same missing
  | v :: vs => mk (v :: vs)

/-- What a column shows of a metric. -/
def metricCol (member : Option Name) (missing : Val) : Metric → Column
  | .recType => .same missing
  | .val v => .same v
  | .list es => Column.ofVals .each missing (es.filterMap (elemVal member))
  | .arr rs =>
    Column.ofVals .array missing (rs.filterMap fun r => member.bind fun n => memberOf n r)

/-- What a column of a static decomposition shows. -/
def columnOf (s : MSet) (c : Col) : Column :=
  if c.src = "timestamp".toList then .same ⟨tTimestamp, 1, s.ts⟩
  else if c.src = "producer".toList then
    .same ⟨tCharArray, s.producer.length + 1, s.producer⟩
  else if c.src = "instance".toList then .same ⟨tCharArray, s.inst.length + 1, s.inst⟩
  else match metricOf s c.src with
    | none => .same ⟨c.type, c.fillLen, c.fill⟩
    | some m => metricCol c.member ⟨c.type, c.fillLen, c.fill⟩ m

/-- The number of rows: that of the longest list, at least one. -/
def rowCount (s : MSet) (cols : List Col) : Nat :=
  (cols.map fun c => (columnOf s c).rows).foldr max 1

/-- The cell of column `c` in row `r`; none if its type is not that of the column. -/
def cellOf (s : MSet) (r : Nat) (c : Col) : Option Cell :=
  let v := (columnOf s c).at ⟨c.type, c.arrayLen, c.fill⟩ r
  if v.ty = c.type then some ⟨c.dst, v⟩ else none

/-- The row made of cells: the indices name cells of the row. -/
def rowOf (rc : RowCfg) (cells : List Cell) : Row :=
  ⟨rc.schema, cells, rc.idxs.map fun i => (i.1, i.2.filterMap (cells[·]?))⟩

/-- The rows of a row schema, none if some cell has the wrong type. -/
def rowsOf (s : MSet) (rc : RowCfg) : Option (List Row) :=
  (List.range (rowCount s rc.cols)).mapM fun r =>
    (rc.cols.mapM (cellOf s r)).map (rowOf rc)

/-- The rows of all row schemas. -/
def staticRows (s : MSet) (cfg : List RowCfg) : Option (List Row) :=
  (cfg.mapM (rowsOf s)).map List.flatten

/-- An optional result as an outcome. -/
def Res.ofOption {α : Type} : Option α → Res α
  | some a => .ok a
  | none => .fail

/-- What kind of element. -/
inductive Shape
  | value
  | record (names : List Name)
  | nested
  deriving DecidableEq

/-- The kind of an element. -/
def shape : Elem → Shape
  | .val _ => .value
  | .record r => .record (r.map (·.1))
  | .lst => .nested

/-- A metric a column can be made of: a primitive value, a list whose elements are of one
kind, which is that the column asks for, or a record array that is not empty. -/
def Usable (member : Option Name) : Metric → Prop
  | .val v => v.ty ≤ tLastPrim
  | .recType => True
  | .list es =>
    (∃ sh, ∀ e ∈ es, shape e = sh) ∧ (∀ v, .val v ∈ es → v.ty ≤ tLastPrim ∧ member = none) ∧
    (∀ r, .record r ∈ es → member ≠ none)
  | .arr rs => rs ≠ [] ∧ ∃ ns, ∀ r ∈ rs, r.map (·.1) = ns

/-- The columns can be made of the set. -/
def Fits (s : MSet) (cols : List Col) : Prop :=
  ∀ c ∈ cols, ∀ m, metricOf s c.src = some m → Usable c.member m

/-- Two metrics of one kind. -/
def Metric.alike : Metric → Metric → Prop
  | .val v, .val v' => v.ty = v'.ty
  | .recType, .recType => True
  | .list es, .list es' => ∀ e ∈ es, ∀ e' ∈ es', shape e = shape e'
  | .arr rs, .arr rs' => ∀ r ∈ rs, ∀ r' ∈ rs', r.map (·.1) = r'.map (·.1)
  | _, _ => False

/-- Two sets of one kind: the same metrics, and lists and arrays of the same things. -/
def Alike (s t : MSet) : Prop :=
  s.metrics.map (·.1) = t.metrics.map (·.1) ∧
  ∀ (i : Nat) m m', s.metrics[i]? = some m → t.metrics[i]? = some m' → m.2.alike m'.2

/-- The state of a static decomposition that has not seen any set. -/
def fresh (cfg : List RowCfg) : List RowSt := cfg.map fun rc => ⟨rc, []⟩

/-- The state after some sets. -/
def after (cfg : List RowCfg) (hist : List MSet) : List RowSt :=
  hist.foldl (fun st s => (static st s).1) (fresh cfg)

/-! ## as_is -/

/-- A column of the rows of an as_is decomposition: its name, its type, the metric it
shows (none for the time stamp), and the member of its records. -/
structure AColumn where
  name : Name
  ty : Nat
  src : Option Name
  member : Option Name

/-- The columns of a metric: one, or one per member of its records. -/
def metricColumns (n : Name) : Metric → List AColumn
  | .val v => [⟨n, v.ty, some n, none⟩]
  | .recType => []
  | .list [] => []
  | .list (.record r :: _) => r.map fun m => ⟨n ++ '.' :: m.1, m.2.ty, some n, some m.1⟩
  | .list (.val v :: _) => [⟨n, v.ty, some n, none⟩]
  | .list (.lst :: _) => [⟨n, tList, some n, none⟩]
  | .arr [] => []
  | .arr (r :: _) => r.map fun m => ⟨n ++ '.' :: m.1, m.2.ty, some n, some m.1⟩

/-- The columns of a set: the time stamp, then those of its metrics. -/
def asIsColumns (s : MSet) : List AColumn :=
  ⟨"timestamp".toList, tTimestamp, none, none⟩ ::
    s.metrics.flatMap fun m => metricColumns m.1 m.2

/-- What a column shows. -/
def aColumnOf (s : MSet) (c : AColumn) : Column :=
  match c.src with
  | none => .same ⟨tTimestamp, 0, s.ts⟩
  | some n =>
    match metricOf s n with
    | none => .same ⟨c.ty, 1, [0]⟩
    | some m => metricCol c.member ⟨c.ty, 1, [0]⟩ m

/-- The number of rows. -/
def aRowCount (s : MSet) (cols : List AColumn) : Nat :=
  (cols.map fun c => (aColumnOf s c).rows).foldr max 1

/-- The cells of row `r`. -/
def aCells (s : MSet) (cols : List AColumn) (r : Nat) : List Cell :=
  cols.map fun c => ⟨c.name, (aColumnOf s c).at ⟨c.ty, 1, [0]⟩ r⟩

/-- The row made of cells: an index names cells of the row. -/
def aRowOf (schema : Name) (idxs : List (Name × List Name)) (cells : List Cell) : Row :=
  ⟨schema, cells, idxs.map fun i => (i.1, i.2.filterMap fun n => cells.find? (·.name = n))⟩

/-- The rows of set `s` with the columns of set `s0`. -/
def asIsRows (idxs : List (Name × List Name)) (s0 s : MSet) : List Row :=
  (List.range (aRowCount s (asIsColumns s0))).map fun r =>
    aRowOf (shortName s) idxs (aCells s (asIsColumns s0) r)

/-- A metric whose columns can be told. -/
def knownCols : Metric → Bool
  | .val v => v.ty ≤ tLastPrim
  | .recType => true
  | .list es => !es.isEmpty
  | .arr rs => !rs.isEmpty

/-- A set whose columns can be told: no list in it is empty, and the columns of the
indices exist. -/
def Ready (idxs : List (Name × List Name)) (s : MSet) : Bool :=
  s.metrics.all (fun m => knownCols m.2) &&
  idxs.all fun i => i.2.all fun n => (asIsColumns s).any fun c => c.name = n

/-- The rows of a set after other ones: the columns are those of the first set of the
same row schema that was ready. -/
def asIsSpec (idxs : List (Name × List Name)) (hist : List MSet) (s : MSet) :
    Res (List Row) :=
  match (hist ++ [s]).find? fun u => shortName u = shortName s && Ready idxs u with
  | some s0 => .ok (asIsRows idxs s0 s)
  | none => .fail

/-- The kind of an element, with the types. -/
def shapeT : Elem → Nat × List (Name × Nat)
  | .val v => (v.ty, [])
  | .record r => (26, r.map fun m => (m.1, m.2.ty))
  | .lst => (tList, [])

/-- Two metrics of one kind, with the types of everything in them. -/
def Metric.alikeT : Metric → Metric → Prop
  | .val v, .val v' => v.ty = v'.ty
  | .recType, .recType => True
  | .list es, .list es' => ∀ e ∈ es, ∀ e' ∈ es', shapeT e = shapeT e'
  | .arr rs, .arr rs' =>
    ∀ r ∈ rs, ∀ r' ∈ rs', (r.map fun m => (m.1, m.2.ty)) = r'.map fun m => (m.1, m.2.ty)
  | _, _ => False

/-- Two sets of one kind. -/
def AlikeT (s t : MSet) : Prop :=
  s.metrics.map (·.1) = t.metrics.map (·.1) ∧
  ∀ (i : Nat) m m', s.metrics[i]? = some m → t.metrics[i]? = some m' → m.2.alikeT m'.2

/-- A metric as they can be in a set: the elements of a list are values of primitive
types or records of one kind, an array is not empty and its records are of one type,
and the names of the members of a record differ. -/
def ProperMetric : Metric → Prop
  | .val v => v.ty ≤ tLastPrim
  | .recType => True
  | .list es =>
    (∀ e ∈ es, ∀ e' ∈ es, shapeT e = shapeT e') ∧ (∀ v, .val v ∈ es → v.ty ≤ tLastPrim) ∧
    (∀ r, .record r ∈ es → (r.map (·.1)).Nodup) ∧ .lst ∉ es
  | .arr rs =>
    rs ≠ [] ∧ (∀ r ∈ rs, (r.map (·.1)).Nodup) ∧
    ∀ r ∈ rs, ∀ r' ∈ rs, (r.map fun m => (m.1, m.2.ty)) = r'.map fun m => (m.1, m.2.ty)

/-- A set as they are: the names of the metrics differ. -/
def Proper (s : MSet) : Prop :=
  (s.metrics.map (·.1)).Nodup ∧ ∀ m ∈ s.metrics, ProperMetric m.2

/-- The state of an as_is decomposition after some sets. -/
def aAfter (idxs : List (Name × List Name)) (hist : List MSet) : ACfg :=
  hist.foldl (fun st s => (asIs st s).1) ⟨idxs, []⟩

end Verif.Decomp
