/-!
# Model: setting and getting values of metrics

The functions `ldms_metric_set_*`, `ldms_metric_get_*`, `ldms_metric_array_*`, `ldms_record_*`
and the like of ldms/src/core/ldms.c, down to the bytes.  The set is kept in little endian
byte order; `be` says that the host is big endian.  A failed `assert` and undefined behaviour
are `none`.  The generation numbers are kept beside the bytes.
-/

namespace Verif.Mval

/-- Types of elements, `enum ldms_value_type`, ldms_core.h:230-262. -/
inductive Ty
  | char
  | u8
  | s8
  | u16
  | s16
  | u32
  | s32
  | u64
  | s64
  | f32
  | d64
  deriving DecidableEq

/-- `sizeof`. -/
def Ty.width : Ty → Nat
  | .char | .u8 | .s8 => 1
  | .u16 | .s16 => 2
  | .u32 | .s32 | .f32 => 4
  | .u64 | .s64 | .d64 => 8

/-- `char` is signed, as on most hosts.  A value of a floating point type is given by its bits. -/
def Ty.signed : Ty → Bool
  | .char | .s8 | .s16 | .s32 | .s64 => true
  | _ => false

def Ty.float : Ty → Bool
  | .f32 | .d64 => true
  | _ => false

/-- The bits of a value. -/
def bits (t : Ty) (v : Int) : Nat := (v % 2 ^ (8 * t.width)).toNat

/-- The value with these bits. -/
def ofBits (t : Ty) (n : Nat) : Int :=
  if t.signed = true ∧ 2 ^ (8 * t.width - 1) ≤ n then (n : Int) - 2 ^ (8 * t.width) else n

/-! ## Bytes -/

/-- The bytes of a number, lowest first. -/
def leBytes : Nat → Nat → List Nat
  | 0, _ => []
  | w + 1, n => n % 256 :: leBytes w (n / 256)

/-- The number with these bytes, lowest first. -/
def ofLe : List Nat → Nat
  | [] => 0
  | b :: bs => b + 256 * ofLe bs

/-- Bytes in the order of the host. -/
def host (be : Bool) (l : List Nat) : List Nat := if be then l.reverse else l

def write (mem : Nat → Nat) (a : Nat) (l : List Nat) : Nat → Nat :=
  fun x => if a ≤ x ∧ x < a + l.length then l.getD (x - a) 0 else mem x

def read (mem : Nat → Nat) (a w : Nat) : List Nat := (List.range w).map fun k => mem (a + k)

/-- Exchange of bytes. -/
def swap (w n : Nat) : Nat := ofLe (leBytes w n).reverse

/-- `__cpu_to_le16` and so on, and back, asm/byteorder.h. -/
def cpuToLe (be : Bool) (w n : Nat) : Nat := if be then swap w n else n

/-- Assignment to a variable of type `t` at address `a`, with or without `__cpu_to_le`. -/
def put (be conv : Bool) (t : Ty) (mem : Nat → Nat) (a : Nat) (v : Int) : Nat → Nat :=
  write mem a (host be (leBytes t.width (if conv then cpuToLe be t.width (bits t v) else bits t v)))

/-- Reading a variable of type `t` at address `a`, with or without `__le_to_cpu`. -/
def get (be conv : Bool) (t : Ty) (mem : Nat → Nat) (a : Nat) : Int :=
  let n := ofLe (host be (read mem a t.width))
  ofBits t (if conv then cpuToLe be t.width n else n)

/-! ## Sets -/

/-- What a descriptor says of a metric, ldms_core.h:98-113; `ty` is the type of the value or
of the elements of an array, and `none` for lists and records; `size` is how many bytes the
value has. -/
structure Desc where
  ty : Option Ty
  array : Bool
  isData : Bool
  off : Nat
  count : Nat
  size : Nat
  deriving DecidableEq

/-- A set: its bytes, the meta data at 0, the current data at `cur` and the data before it in
the ring at `prev`; `inTxn` between the begin and the end of a transaction. -/
structure S where
  mem : Nat → Nat
  descs : List Desc
  cur : Nat
  prev : Nat
  inTxn : Bool
  metaGn : Nat
  dataMetaGn : Nat
  dataGn : Nat

/-- `vd_array_count` without conversion. -/
def rawCount (be : Bool) (d : Desc) : Nat := cpuToLe be 4 d.count

/-- The check of the index and `dict[idx]`, ldms.c:2266-2272, 2289-2295. -/
def desc (s : S) (i : Int) : Option Desc := if i < 0 then none else s.descs[i.toNat]?

/-- `__mval_to_set`, ldms.c:2262-2281. -/
def addrSet (s : S) (d : Desc) : Nat := if d.isData then s.cur + d.off else d.off

/-- `__mval_to_get`, ldms.c:2283-2316. -/
def addrGet (s : S) (d : Desc) : Nat :=
  if d.isData then (if s.inTxn = true ∧ d.ty.isSome = true then s.prev + d.off else s.cur + d.off) else d.off

/-- `__ldms_gn_inc`, ldms.c:177-185, and `LDMS_GN_INCREMENT`, ldms_private.h:62-64. -/
def gnInc (s : S) (d : Desc) : S :=
  if d.isData then { s with dataGn := (s.dataGn + 1) % 2 ^ 64 }
  else { s with metaGn := (s.metaGn + 1) % 2 ^ 64, dataMetaGn := (s.metaGn + 1) % 2 ^ 64 }

/-- `ldms_metric_set_char` to `ldms_metric_set_double`, ldms.c:2444-2571: type by type the same. -/
def metricSet (be : Bool) (s : S) (i : Int) (t : Ty) (v : Int) : Option S :=
  (desc s i).map fun d => gnInc { s with mem := put be true t s.mem (addrSet s d) v } d

/-- `ldms_metric_get_char` to `ldms_metric_get_double`, ldms.c:2754-2872. -/
def metricGet (be : Bool) (s : S) (i : Int) (t : Ty) : Option Int :=
  (desc s i).map fun d => get be true t s.mem (addrGet s d)

/-- `ldms_metric_set` and `__metric_set`, ldms.c:2340-2384. -/
def genSet (be : Bool) (s : S) (i : Int) (v : Int) : Option S :=
  match desc s i with
  | none => none
  | some d =>
    match d.ty with
    | none => none
    | some t => if d.array then none else some (gnInc { s with mem := put be true t s.mem (addrSet s d) v } d)

/-- `ldms_metric_array_set_char` to `ldms_metric_array_set_double`, ldms.c:2584-2715; the index
is compared with the count as it is in memory. -/
def arraySet (be : Bool) (s : S) (i k : Int) (t : Ty) (v : Int) : Option S :=
  match desc s i with
  | none => none
  | some d =>
    if k < 0 ∨ rawCount be d ≤ k.toNat then none
    else some (gnInc { s with mem := put be true t s.mem (addrSet s d + t.width * k.toNat) v } d)

/-- `ldms_metric_array_get_char` to `ldms_metric_array_get_double`, ldms.c:2885-3014: only
floating point elements are converted. -/
def arrayGet (be : Bool) (s : S) (i k : Int) (t : Ty) : Option Int :=
  match desc s i with
  | none => none
  | some d =>
    if k < 0 ∨ rawCount be d ≤ k.toNat then none
    else some (get be t.float t s.mem (addrGet s d + t.width * k.toNat))

/-- `ldms_metric_array_set_val` and `__metric_array_set`, ldms.c:2386-2442. -/
def genArraySet (be : Bool) (s : S) (i k : Int) (v : Int) : Option S :=
  match desc s i with
  | none => none
  | some d =>
    if k < 0 ∨ d.count ≤ k.toNat then none
    else
      match d.ty with
      | none => none
      | some t =>
        if d.array then some (gnInc { s with mem := put be true t s.mem (addrSet s d + t.width * k.toNat) v } d)
        else none

/-- The loop of `ldms_metric_array_set`. -/
def putRange (be : Bool) (t : Ty) (a : Nat) (src : Nat → Int) : Nat → Nat → (Nat → Nat) → Nat → Nat
  | _, 0, mem => mem
  | k, n + 1, mem => putRange be t a src (k + 1) n (put be true t mem (a + t.width * k) (src k))

/-- `ldms_metric_array_set`, ldms.c:2717-2752; `start + count` fits in an `int`. -/
def arraySetRange (be : Bool) (s : S) (i : Int) (src : Nat → Int) (start count : Nat) : Option S :=
  match desc s i with
  | none => none
  | some d =>
    match d.ty with
    | none => none
    | some t =>
      if d.array then
        some (gnInc { s with mem := putRange be t (addrSet s d) src start (min (start + count) (rawCount be d) - start) s.mem } d)
      else none

/-- `strncpy(dst, str, n)`. -/
def strncpy (mem : Nat → Nat) (a : Nat) (str : List Nat) (n : Nat) : Nat → Nat :=
  write mem a (str.take n ++ List.replicate (n - str.length) 0)

/-- `ldms_metric_array_set_str`, ldms.c:2573-2582. -/
def setStr (be : Bool) (s : S) (i : Int) (str : List Nat) : Option S :=
  (desc s i).map fun d => gnInc { s with mem := strncpy s.mem (addrSet s d) str (rawCount be d) } d

/-- `ldms_metric_array_get_str`, ldms.c:2874-2883: the address. -/
def getStr (s : S) (i : Int) : Option Nat := (desc s i).map (addrGet s)

/-! ## User data -/

/-- `ldms_metric_user_data_set`, ldms.c:2218-2225; the data is kept in the descriptors. -/
def userSet (s : S) (u : Nat → Nat) (i : Int) (v : Nat) : S × (Nat → Nat) :=
  match desc s i with
  | none => (s, u)
  | some d => (gnInc s d, fun j => if j = i.toNat then v else u j)

/-- `ldms_metric_user_data_get`, ldms.c:2227-2233. -/
def userGet (s : S) (u : Nat → Nat) (i : Int) : Nat :=
  match desc s i with
  | none => 2 ^ 64 - 1
  | some _ => u i.toNat

/-! ## Records -/

/-- An instance of a record at address `base` with these members; the generation number of the
data it is in. -/
structure R where
  mem : Nat → Nat
  base : Nat
  members : List Desc
  gn : Nat

/-- `__record_mdesc_get`, ldms.c:4022-4036: 0 for an index out of range, which
`__record_metric_get`, 4253-4277, follows. -/
def member (r : R) (i : Int) : Option Desc := if i < 0 then none else r.members[i.toNat]?

def gnIncR (r : R) : R := { r with gn := (r.gn + 1) % 2 ^ 64 }

/-- `ldms_record_set_char` to `ldms_record_set_double`, ldms.c:4624-4755: there is no conversion. -/
def recSet (be : Bool) (r : R) (i : Int) (t : Ty) (v : Int) : Option R :=
  (member r i).map fun d => gnIncR { r with mem := put be false t r.mem (r.base + d.off) v }

/-- `ldms_record_get_char` to `ldms_record_get_double`, ldms.c:4371-4480. -/
def recGet (be : Bool) (r : R) (i : Int) (t : Ty) : Option Int :=
  (member r i).map fun d => get be true t r.mem (r.base + d.off)

/-- `ldms_record_metric_set`, ldms.c:4322-4334. -/
def recGenSet (be : Bool) (r : R) (i : Int) (v : Int) : Option R :=
  match member r i with
  | none => none
  | some d =>
    match d.ty with
    | none => none
    | some t => if d.array then none else some (gnIncR { r with mem := put be true t r.mem (r.base + d.off) v })

/-- `ldms_record_array_set_char` to `ldms_record_array_set_double`, ldms.c:4770-4900. -/
def recArraySet (be : Bool) (r : R) (i k : Int) (t : Ty) (v : Int) : Option R :=
  match member r i with
  | none => none
  | some d =>
    if k < 0 ∨ rawCount be d ≤ k.toNat then none
    else some (gnIncR { r with mem := put be false t r.mem (r.base + d.off + t.width * k.toNat) v })

/-- `ldms_record_array_get_char` to `ldms_record_array_get_double`, ldms.c:4493-4622. -/
def recArrayGet (be : Bool) (r : R) (i k : Int) (t : Ty) : Option Int :=
  match member r i with
  | none => none
  | some d =>
    if k < 0 ∨ d.count ≤ k.toNat then none
    else some (get be t.float t r.mem (r.base + d.off + t.width * k.toNat))

/-- The loop of `ldms_record_metric_array_set`: always the same value. -/
def putSame (be : Bool) (t : Ty) (a n : Nat) (v : Int) : Int → Nat → (Nat → Nat) → Option (Nat → Nat)
  | _, 0, mem => some mem
  | k, m + 1, mem =>
    if k < 0 ∨ n ≤ k.toNat then none
    else putSame be t a n v (k + 1) m (put be true t mem (a + t.width * k.toNat) v)

/-- `ldms_record_metric_array_set`, ldms.c:4336-4352. -/
def recArraySetRange (be : Bool) (r : R) (i : Int) (v : Int) (start : Int) (count : Nat) : Option R :=
  match member r i with
  | none => none
  | some d =>
    match d.ty with
    | none => none
    | some t =>
      if d.array then
        (putSame be t (r.base + d.off) d.count v start count r.mem).map fun m => gnIncR { r with mem := m }
      else if count = 0 then some (gnIncR r)
      else none

end Verif.Mval
