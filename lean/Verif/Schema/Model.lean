/-!
# Schemas, records and the layout of a set

`ldms/src/core/ldms.c`, `ldms_core.h`, `ldms_private.h`.

A schema is a list of metric definitions with two running sizes; a set is laid out from it.  Strings are
lists of non-zero bytes.  Allocation failures are not modelled.  Sizes are numbers without bound, except
for the fields of the set, which are 32 bits wide, and the name lengths, which are 8 bits wide.
-/

namespace Verif.Schema

abbrev Str := List Nat

def EINVAL : Int := 22
def EEXIST : Int := 17
def EBUSY : Int := 16
def ENOENT : Int := 2

/-- `roundup(_v, 8)` (`ldms_core.h:355-358`) -/
def roundup8 (n : Nat) : Nat := (n + 7) / 8 * 8

/-! ## types (`ldms_core.h:230-262`) -/

def vD64 : Nat := 11
def vCharArray : Nat := 12
def vD64Array : Nat := 22
def vList : Nat := 23
def vRecordType : Nat := 25
def vRecordArray : Nat := 27
def vLast : Nat := 28

/-- `ldms_type_is_array` (`ldms.c:2235-2238`) -/
def isArray (t : Nat) : Bool := decide (vCharArray ≤ t ∧ t ≤ vD64Array)

/-- the `switch` of `__ldms_value_size_get` (`ldms.c:1315-1383`) before rounding; `none` is the failed
assertion for an unknown type -/
def rawSize (t count : Nat) : Option Nat :=
  match t with
  | 1 | 2 | 3 => some 1
  | 12 | 13 | 14 => some count
  | 4 | 5 => some 2
  | 15 | 16 => some (2 * count)
  | 6 | 7 | 10 => some 4
  | 17 | 18 | 21 => some (4 * count)
  | 8 | 9 | 11 => some 8
  | 19 | 20 | 22 => some (8 * count)
  | 23 => some 12
  | 24 => some 12
  | 25 => some 16
  | 26 => some 16
  | 27 => some 12
  | _ => none

/-- `__ldms_value_size_get` (`ldms.c:1315-1383`) -/
def valueSize (t count : Nat) : Option Nat := (rawSize t count).map roundup8

/-- the bytes of the name and the unit in a descriptor, with their terminators (`ldms.c:1455-1482`) -/
def nameUnit (name : Str) (unit : Option Str) : Nat :=
  name.length + 1 + (match unit with | none => 0 | some u => u.length + 1)

/-- the size of a descriptor, from `__ldms_metric_size_get` (`ldms.c:1385-1400`); `sizeof(struct
ldms_value_desc)` is 28 -/
def metaSize (name : Str) (unit : Option Str) : Nat := roundup8 (28 + nameUnit name unit)

/-! ## definitions -/

/-- a member of a record (`struct ldms_mdef_s`, `ldms_private.h:70-81`) -/
structure Mem where
  name : Str
  unit : Option Str
  type : Nat
  count : Nat
  metaSz : Nat
  dataSz : Nat
  deriving DecidableEq, Repr

/-- a record definition (`struct ldms_record`, `ldms_private.h:102-110`).  The sizes that the code keeps
in `type_sz`, `inst_sz` and `mdef.data_sz` are the sums below. -/
structure Rec where
  name : Str
  members : List Mem
  metricId : Option Nat
  deriving DecidableEq, Repr

/-- `type_sz`, kept by `ldms_record_metric_add` (`ldms.c:4207-4214`) -/
def typeSz (ms : List Mem) : Nat := (ms.map fun m => m.metaSz + 4).sum

/-- `inst_sz` (`ldms.c:4150`, `4215`) -/
def instSz (ms : List Mem) : Nat := 16 + (ms.map (·.dataSz)).sum

/-- `mdef.data_sz` of a record (`ldms.c:4153-4155`, `4211`) -/
def recDataSz (ms : List Mem) : Nat := 16 + typeSz ms

/-- what a metric definition is embedded in: nothing, a record definition (the record is named by its
index), or a record array definition -/
inductive Kind where
  | plain
  | record (r : Nat)
  | recArray (instSz recType : Nat)
  deriving DecidableEq, Repr

/-- a metric of the schema; `isData` is `LDMS_MDESC_F_DATA` -/
structure Met where
  name : Str
  unit : Option Str
  type : Nat
  isData : Bool
  count : Nat
  metaSz : Nat
  dataSz : Nat
  kind : Kind
  deriving DecidableEq, Repr

/-- a schema (`struct ldms_schema_s`, `ldms_private.h:85-95`) and the record definitions of the program -/
structure W where
  metrics : List Met
  metaSz : Nat
  dataSz : Nat
  arrayCard : Nat
  recs : List Rec
  deriving DecidableEq, Repr

/-- `ldms_schema_new` (`ldms.c:1124-1150`); `sizeof(struct ldms_set_hdr)` is 144, `sizeof(struct
ldms_data_hdr)` is 96 -/
def W.new : W := ⟨[], 144, 96, 1, []⟩

/-! ## adding metrics -/

/-- `__schema_mdef_add` (`ldms.c:1999-2026`), without the digest -/
def mdefAdd (w : W) (m : Met) : W × Int :=
  ({ w with
      metrics := w.metrics ++ [m]
      metaSz := w.metaSz + (m.metaSz + 4) + (if m.isData then 0 else m.dataSz)
      dataSz := w.dataSz + (if m.isData then m.dataSz else 0) },
    (w.metrics.length : Int))

/-- the search for a duplicate name (`ldms.c:2037-2041`, `4083-4086`, `4105-4108`) -/
def hasName (w : W) (name : Str) : Bool := w.metrics.any fun m => m.name == name

/-- `__schema_metric_add` (`ldms.c:2028-2070`).  `none` is undefined behaviour: an unknown type fails an
assertion, and a metric of record type that is not a record definition is read as one
(`ldms.c:2002-2012`). -/
def schemaMetricAdd (w : W) (name : Option Str) (unit : Option Str) (isData : Bool) (t count : Nat) :
    Option (W × Int) :=
  match name with
  | none => some (w, -EINVAL)
  | some name =>
    if hasName w name then some (w, -EEXIST)
    else if !isData ∧ t = vList then some (w, -EINVAL)
    else
      match valueSize t count with
      | none => none
      | some sz =>
        if t = vRecordType then none
        else some (mdefAdd w ⟨name, unit, t, isData, count, metaSize name unit, sz, .plain⟩)

/-- `ldms_schema_metric_add_with_unit` (`ldms.c:2072-2079`) -/
def metricAdd (w : W) (name unit : Option Str) (t : Nat) : Option (W × Int) :=
  if isArray t ∨ t = vList then some (w, -EINVAL) else schemaMetricAdd w name unit true t 1

/-- `ldms_schema_meta_add_with_unit` (`ldms.c:2086-2092`) -/
def metaAdd (w : W) (name unit : Option Str) (t : Nat) : Option (W × Int) :=
  if t = vList ∨ t > vLast then some (w, -EINVAL) else schemaMetricAdd w name unit false t 1

/-- `ldms_schema_metric_array_add_with_unit` (`ldms.c:2099-2107`) -/
def metricArrayAdd (w : W) (name unit : Option Str) (t count : Nat) : Option (W × Int) :=
  if !isArray t then some (w, -EINVAL) else schemaMetricAdd w name unit true t count

/-- `ldms_schema_meta_array_add_with_unit` (`ldms.c:2115-2121`) -/
def metaArrayAdd (w : W) (name unit : Option Str) (t count : Nat) : Option (W × Int) :=
  schemaMetricAdd w name unit false t count

/-- `ldms_schema_metric_list_add` (`ldms.c:2129-2132`) -/
def metricListAdd (w : W) (name unit : Option Str) (heapSz : Nat) : Option (W × Int) :=
  schemaMetricAdd w name unit true vList heapSz

/-! ## records -/

/-- `ldms_record_create` (`ldms.c:4138-4171`): the new record is the last one -/
def recordCreate (w : W) (name : Str) : W := { w with recs := w.recs ++ [⟨name, [], none⟩] }

/-- `ldms_record_metric_add` (`ldms.c:4173-4225`) -/
def recordMetricAdd (w : W) (r : Nat) (name : Str) (unit : Option Str) (t count : Nat) : Option (W × Int) :=
  match w.recs[r]? with
  | none => none
  | some rc =>
    match valueSize t count with
    | none => none
    | some sz =>
      let m : Mem := ⟨name, unit, t, count, metaSize name unit, sz⟩
      some ({ w with
        recs := w.recs.set r { rc with members := rc.members ++ [m] }
        metaSz := w.metaSz + (if rc.metricId.isSome then m.metaSz + 4 else 0) },
        (rc.members.length : Int))

/-- `ldms_schema_record_add` (`ldms.c:4079-4094`) -/
def recordAdd (w : W) (r : Nat) : Option (W × Int) :=
  match w.recs[r]? with
  | none => none
  | some rc =>
    if hasName w rc.name then some (w, -EEXIST)
    else if rc.metricId.isSome then some (w, -EBUSY)
    else
      let x := mdefAdd w ⟨rc.name, none, vRecordType, false, 0, metaSize rc.name none, recDataSz rc.members,
        .record r⟩
      some ({ x.1 with
        recs := w.recs.set r { rc with metricId := some w.metrics.length }
        metaSz := x.1.metaSz + typeSz rc.members }, x.2)

/-- `ldms_schema_record_array_add` (`ldms.c:4096-4136`); a negative length is not modelled -/
def recordArrayAdd (w : W) (name : Str) (r len : Nat) : Option (W × Int) :=
  match w.recs[r]? with
  | none => none
  | some rc =>
    match rc.metricId with
    | none => some (w, -EINVAL)
    | some id =>
      if hasName w name then some (w, -EEXIST)
      else some (mdefAdd w ⟨name, none, vRecordArray, true, len, metaSize name none,
        roundup8 (12 + len * instSz rc.members), .recArray (instSz rc.members) id⟩)

/-- `ldms_schema_array_card_set` (`ldms.c:1307-1313`), for a number that is not negative -/
def arrayCardSet (w : W) (n : Nat) : W := { w with arrayCard := n }

/-! ## the layout of a set -/

/-- the heap size (`ldms.c:1424-1436`, `ldms_heap.c:400-403`) -/
def heapSize (w : W) (heap : Nat) : Nat :=
  let h := (w.metrics.map fun m => if m.type = vList then (if m.count = 0 then 512 else m.count) else 0).sum
  (max heap h + 511) / 512 * 512

/-- the number of data copies (`ldms.c:1438-1446`) -/
def copies (w : W) : Nat := if w.arrayCard = 0 then 1 else w.arrayCard

/-- the size of the meta data (`ldms.c:1448-1452`); names of `i` and `s` bytes -/
def metaTotal (w : W) (i s : Nat) : Nat := roundup8 (w.metaSz + (s + 2) + 32 + (i + 2))

/-- offset of the instance name (`ldms_core.h:360-364`): `dict` is at 140 -/
def instOff (w : W) : Nat := 140 + 4 * w.metrics.length

/-- offset of the schema name (`ldms_core.h:366-370`): the length of the instance name is kept in a byte
(`ldms.c:1591`) -/
def schemaOff (w : W) (i : Nat) : Nat := instOff w + 1 + (i + 1) % 256

/-- offset of the first descriptor (`ldms_core.h:372-378`, `ldms.c:1601`); the set is aligned -/
def firstDesc (w : W) (i s : Nat) : Nat := roundup8 (schemaOff w i + 1 + (s + 1 + 32 + 1) % 256)

/-- the offsets in `dict` (`ldms.c:1627-1644`) -/
def descLoop : List Met → Nat → List Nat
  | [], _ => []
  | m :: ms, vd => vd :: descLoop ms (vd + m.metaSz)

/-- the offsets of the values in the data part (`ldms.c:1476-1478`, `1625-1640`) -/
def dataLoop : List Met → Nat → List (Option Nat)
  | [], _ => []
  | m :: ms, off =>
    (if m.isData then some off else none) ::
      dataLoop ms (off + (if m.isData then (valueSize m.type m.count).getD 0 else 0)
        + (if m.type = vRecordArray then m.count * m.dataSz else 0))

/-- the present `data_sz` of a metric: that of a record changes with the record -/
def curSz (recs : List Rec) (m : Met) : Nat :=
  match m.kind with
  | .record r => (recs[r]?.map fun rc => recDataSz rc.members).getD 0
  | _ => m.dataSz

/-- the offsets of the values in the meta data (`ldms.c:1652-1696`) -/
def metaLoop (recs : List Rec) : List Met → Nat → List (Option Nat)
  | [], _ => []
  | m :: ms, off =>
    (if m.isData then none else some off) :: metaLoop recs ms (off + (if m.isData then 0 else
      if m.type = vRecordType then curSz recs m else (valueSize m.type m.count).getD 0))

/-- the offsets of the members in a record instance (`ldms.c:1671-1688`) -/
def memLoop : List Mem → Nat → List Nat
  | [], _ => []
  | m :: ms, off => off :: memLoop ms (off + (valueSize m.type m.count).getD 0)

/-- a set: the offsets in `dict`, and in the descriptors of the metrics of each kind; all of them are 32
bit fields -/
structure Layout where
  dict : List Nat
  dataVal : List (Option Nat)
  metaVal : List (Option Nat)
  metaSz : Nat
  stride : Nat
  copies : Nat
  heapSz : Nat
  deriving DecidableEq, Repr

/-- where the set ends -/
def Layout.total (l : Layout) : Nat := l.metaSz + l.copies * l.stride

def trunc (n : Nat) : Nat := n % 2 ^ 32

/-- `ldms_set_create` (`ldms.c:1532-1709`), for an instance name of `i` bytes, a schema name of `s` bytes
and a requested heap.  `none` is undefined behaviour: a metric of record array type that is not a record
array definition is read as one (`ldms.c:1499-1516`). -/
def setCreate (w : W) (i s heap : Nat) : Option Layout :=
  if w.metrics.any fun m => decide (m.type = vRecordArray ∧ m.kind = .plain) then none
  else
    let d0 := firstDesc w i s
    let v0 := roundup8 (d0 + (w.metrics.map (·.metaSz)).sum)
    some {
      dict := (descLoop w.metrics d0).map trunc
      dataVal := (dataLoop w.metrics 96).map (Option.map trunc)
      metaVal := (metaLoop w.recs w.metrics v0).map (Option.map trunc)
      metaSz := metaTotal w i s
      stride := w.dataSz + heapSize w heap
      copies := copies w
      heapSz := heapSize w heap }

/-- `ldms_metric_by_name` (`ldms.c:1988-1997`): the descriptors carry the names of the metrics -/
def metricByName (w : W) (name : Str) : Int :=
  match w.metrics.findIdx? fun m => m.name == name with
  | some i => i
  | none => -1

/-- `ldms_record_metric_find` (`ldms.c:4051-4077`) in a record of the set -/
def recordMetricFind (ms : List Mem) (name : Str) : Int :=
  match ms.findIdx? fun m => m.name == name with
  | some i => i
  | none => -ENOENT

end Verif.Schema
