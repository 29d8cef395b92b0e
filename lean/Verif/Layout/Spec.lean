import Verif.Schema.Proofs

/-!
# Specification of the layout of a set: which bytes are used for what
-/

namespace Verif.Layout

open Schema

/-- the bytes of one element: char, u8, s8 (types 1 to 3) have one, u16 and s16 two, u32, s32 and float
(10) four, u64, s64 and double (11) eight; the array types 12 to 22 are the same in that order -/
def elemBytes (t : Nat) : Nat :=
  if t ∈ [1, 2, 3] then 1 else if t ∈ [4, 5] then 2 else if t ∈ [6, 7, 10] then 4 else if t ∈ [8, 9, 11] then 8
  else 0

/-- the bytes of a value that is not a record definition or a record array: a scalar, an array, the head
of a list, the header of a record -/
def plainBytes (t count : Nat) : Nat :=
  if t ≤ 11 then elemBytes t else if t ≤ 22 then count * elemBytes (t - 11)
  else if t ∈ [23, 24, 27] then 12 else if t ∈ [25, 26] then 16 else 0

/-- the bytes that the value of a metric needs: that of an array or a scalar depends on its type, a
record type is a header, an index and the descriptors of its members, a record array is a header and its
instances -/
def valueBytes (recs : List Rec) (m : Met) : Nat :=
  match m.kind with
  | .plain => plainBytes m.type m.count
  | .record r => (recs[r]?.map fun rc => 16 + 4 * rc.members.length + (rc.members.map (·.metaSz)).sum).getD 0
  | .recArray i _ => 12 + m.count * i

/-- the entries of the dictionary -/
def dictRegs (i : Nat) : List Nat → List Reg
  | [] => []
  | _ :: os => ⟨.dict i, 140 + 4 * i, 140 + 4 * i + 4⟩ :: dictRegs (i + 1) os

/-- the descriptors, where the dictionary says -/
def descRegs (i : Nat) : List Met → List Nat → List Reg
  | m :: ms, o :: os => ⟨.desc i, o, o + 27 + nameUnit m.name m.unit⟩ :: descRegs (i + 1) ms os
  | _, _ => []

/-- the values, where the descriptors say, from the address `base` on -/
def valRegs (recs : List Rec) (tag : Nat → Item) (base i : Nat) : List Met → List (Option Nat) → List Reg
  | m :: ms, some o :: os => ⟨tag i, base + o, base + o + valueBytes recs m⟩ :: valRegs recs tag base (i + 1) ms os
  | _ :: ms, none :: os => valRegs recs tag base (i + 1) ms os
  | _, _ => []

/-- the `k`-th data copy -/
def copyRegs (w : W) (l : Layout) (k : Nat) : List Reg :=
  ⟨.dataHdr k, l.metaSz + k * l.stride, l.metaSz + k * l.stride + 96⟩ ::
    (valRegs w.recs (.dataVal k) (l.metaSz + k * l.stride) 0 w.metrics l.dataVal ++
      [⟨.heap k, l.metaSz + k * l.stride + (l.stride - l.heapSz), l.metaSz + k * l.stride + l.stride⟩])

/-- all regions of a set: header, dictionary, instance name with its length byte, schema name with its
length byte and the digest, descriptors, values of the meta data, data copies -/
def regs (w : W) (i s : Nat) (l : Layout) : List Reg :=
  ⟨.hdr, 0, 140⟩ :: (dictRegs 0 l.dict ++ (⟨.inst, instOff w, instOff w + 1 + (i + 1)⟩ ::
    ⟨.schema, schemaOff w i, schemaOff w i + 1 + (s + 1) + 32⟩ ::
    (descRegs 0 w.metrics l.dict ++ (valRegs w.recs .metaVal 0 0 w.metrics l.metaVal ++
      (List.range l.copies).flatMap (copyRegs w l)))))

/-- no record array is followed by a data metric -/
def ArraysLast : List Met → Prop
  | [] => True
  | m :: ms => (m.type = vRecordArray → ∀ x ∈ ms, x.isData = false) ∧ ArraysLast ms

end Verif.Layout
