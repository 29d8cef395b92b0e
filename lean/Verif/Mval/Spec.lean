import Verif.Mval.Model

/-!
# What is asked of values
-/

namespace Verif.Mval

/-- `v` is a value of the type `t` (for floating point types: its bits). -/
def Ty.Fits : Ty → Int → Prop
  | .char, v | .s8, v => -128 ≤ v ∧ v < 128
  | .s16, v => -32768 ≤ v ∧ v < 32768
  | .s32, v => -2147483648 ≤ v ∧ v < 2147483648
  | .s64, v => -9223372036854775808 ≤ v ∧ v < 9223372036854775808
  | .u8, v => 0 ≤ v ∧ v < 256
  | .u16, v => 0 ≤ v ∧ v < 65536
  | .u32, v | .f32, v => 0 ≤ v ∧ v < 4294967296
  | .u64, v | .d64, v => 0 ≤ v ∧ v < 18446744073709551616

/-- The `i`-th metric is a scalar of type `t`. -/
def Scalar (s : S) (i : Nat) (t : Ty) : Prop := ∃ d, s.descs[i]? = some d ∧ d.ty = some t ∧ d.array = false

/-- The `i`-th metric is an array of `n` elements of type `t`. -/
def Array (s : S) (i n : Nat) (t : Ty) : Prop :=
  ∃ d, s.descs[i]? = some d ∧ d.ty = some t ∧ d.array = true ∧ d.count = n

/-- The address `x` is one of the value of the metric `d` in the copy that is written. -/
def Desc.Has (s : S) (d : Desc) (x : Nat) : Prop := addrSet s d ≤ x ∧ x < addrSet s d + d.size

/-- The size is that of the elements. -/
def Desc.Sized (d : Desc) : Prop := ∀ t, d.ty = some t → d.size = (if d.array then d.count else 1) * t.width

/-- Values have room, and not the same. -/
structure Laid (s : S) (stride : Nat) : Prop where
  sized : ∀ d ∈ s.descs, d.Sized
  apart : ∀ (i j : Nat) di dj, s.descs[i]? = some di → s.descs[j]? = some dj → i ≠ j → di.isData = dj.isData →
    di.off + di.size ≤ dj.off ∨ dj.off + dj.size ≤ di.off
  metaRoom : ∀ d ∈ s.descs, d.isData = false → d.off + d.size ≤ s.cur ∧ d.off + d.size ≤ s.prev
  dataRoom : ∀ d ∈ s.descs, d.isData = true → d.off + d.size ≤ stride
  copies : s.prev = s.cur ∨ s.prev + stride ≤ s.cur ∨ s.cur + stride ≤ s.prev

/-- The calls that set a value of a metric. -/
inductive Call
  | scalar (t : Ty) (v : Int)
  | gen (v : Int)
  | elem (k : Int) (t : Ty) (v : Int)
  | genElem (k : Int) (v : Int)
  | range (src : Nat → Int) (start count : Nat)
  | str (l : List Nat)

/-- The call for the `i`-th metric, on a host of the given byte order. -/
def Call.run (be : Bool) (s : S) (i : Int) : Call → Option S
  | .scalar t v => metricSet be s i t v
  | .gen v => genSet be s i v
  | .elem k t v => arraySet be s i k t v
  | .genElem k v => genArraySet be s i k v
  | .range src start count => arraySetRange be s i src start count
  | .str l => setStr be s i l

/-- The function called is the one for the type of the metric. -/
def Call.Proper (d : Desc) : Call → Prop
  | .scalar t _ => d.ty = some t ∧ d.array = false
  | .elem _ t _ => d.ty = some t ∧ d.array = true
  | .str _ => d.ty = some .char ∧ d.array = true
  | _ => True

/-- The same is read from the metric `j` in `s` and in `s'`, by any host. -/
def SameValue (s s' : S) (j : Nat) : Prop :=
  (∀ be t, Scalar s j t → metricGet be s' j t = metricGet be s j t) ∧
    ∀ be n t, Array s j n t → ∀ k : Nat, k < n → arrayGet be s' j k t = arrayGet be s j k t

/-- The string `str` is at the address `a`. -/
def IsStr (mem : Nat → Nat) (a : Nat) (str : List Nat) : Prop :=
  (∀ k (h : k < str.length), mem (a + k) = str[k]) ∧ mem (a + str.length) = 0

/-- The generation numbers after a change of the `i`-th metric: that of the data for data, and
that of the meta data, which is copied to the data, for meta data. -/
def GnOne (s s' : S) (isData : Bool) : Prop :=
  if isData then s'.dataGn = (s.dataGn + 1) % 2 ^ 64 ∧ s'.metaGn = s.metaGn ∧ s'.dataMetaGn = s.dataMetaGn
  else s'.metaGn = (s.metaGn + 1) % 2 ^ 64 ∧ s'.dataMetaGn = s'.metaGn ∧ s'.dataGn = s.dataGn

/-- Members of a record have room, and not the same. -/
structure LaidR (r : R) : Prop where
  sized : ∀ d ∈ r.members, d.Sized
  apart : ∀ (i j : Nat) di dj, r.members[i]? = some di → r.members[j]? = some dj → i ≠ j →
    di.off + di.size ≤ dj.off ∨ dj.off + dj.size ≤ di.off

end Verif.Mval
