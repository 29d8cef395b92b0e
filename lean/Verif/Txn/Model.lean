import Verif.Timestamp.Model

/-!
# Transactions on array-backed sets

`ldms_transaction_begin`, `ldms_transaction_end`, `__mval_to_set`, `__mval_to_get`,
`ldms_set_is_consistent` of `ldms/src/core/ldms.c`.

The data part of a set is a ring of `n` buffers.  The contents of a buffer are a map from metric
indices to values (their layout in bytes is the subject of `Verif.Layout`).  Each function holds the
lock of the set.  The generation numbers are natural numbers: their wrap-around at `2 ^ 64` is left
out.  The heap of a buffer is part of the values of its list metrics; of the heap header only the
generation number is kept.
-/

namespace Verif.Txn

open Verif.Timestamp (Ts duration)

/-- `trans.flags` (`ldms_core.h:112-116`) -/
inductive TFlag where
  | none | begin | end_
  deriving DecidableEq, Repr

/-- `struct ldms_data_hdr` (`ldms_core.h:129-137`) with the values behind it -/
structure Buf where
  vals : Nat → Int
  flag : TFlag
  ts : Ts
  dur : Ts
  gn : Nat
  heapGn : Nat
  setOff : Nat
  currIdx : Nat

/-- a set -/
structure St where
  /-- `meta->array_card` -/
  n : Nat
  bufs : Nat → Buf
  /-- `s->curr_idx` -/
  curr : Nat
  /-- the index of the buffer `s->data` points to -/
  data : Nat
  /-- `LDMS_SET_F_DATA_COPY` -/
  copy : Bool
  /-- values of the metrics in the metadata part -/
  metaVals : Nat → Int
  metaGn : Nat

/-- what the schema says about a metric: in the data part, of type list or record array -/
structure Schema where
  isData : Nat → Bool
  isList : Nat → Bool

/-- change one buffer -/
def St.setBuf (s : St) (i : Nat) (b : Buf) : St :=
  { s with bufs := fun j => if j = i then b else s.bufs j }

/-- copy of a buffer by `ldms_transaction_begin` (`ldms.c:3429-3439`): all of it, or the header only -/
def copyBuf (copy : Bool) (dh prev : Buf) : Buf :=
  let b := if copy then prev
    else if dh.heapGn ≠ prev.heapGn then prev
    else { prev with vals := dh.vals }
  { b with setOff := dh.setOff }

/-- `ldms_transaction_begin` (`ldms.c:3408-3456`) at time `now` -/
def txBegin (s : St) (now : Ts) : St :=
  let s1 := if s.n = 1 then s
    else
      let prev := s.bufs s.curr
      let c := (s.curr + 1) % s.n
      let dh := s.bufs c
      let s' := { (s.setBuf c (copyBuf s.copy dh prev)) with curr := c, data := c }
      -- curr_idx in all headers
      { s' with bufs := fun j => if j < s.n then { s'.bufs j with currIdx := c } else s'.bufs j }
  s1.setBuf s1.data { s1.bufs s1.data with flag := .begin, ts := now }

/-- `ldms_transaction_end` (`ldms.c:3458-3481`) at time `now` -/
def txEnd (s : St) (now : Ts) : St :=
  let dh := s.bufs s.curr
  let s1 := s.setBuf s.curr { dh with dur := duration now dh.ts, ts := now, flag := .end_ }
  s1.setBuf s1.data { s1.bufs s1.data with gn := (s1.bufs s1.data).gn + 1 }

/-- `ldms_metric_set_*`: `__mval_to_set` (`ldms.c:2262-2281`), then `__ldms_gn_inc` (`ldms.c:174-184`) -/
def metricSet (S : Schema) (s : St) (i : Nat) (v : Int) : St :=
  if S.isData i then
    let b := s.bufs s.data
    s.setBuf s.data { b with vals := fun j => if j = i then v else b.vals j, gn := b.gn + 1 }
  else { s with metaVals := fun j => if j = i then v else s.metaVals j, metaGn := s.metaGn + 1 }

/-- an allocation or release in the heap of the current buffer, changing list metric `i`
(`ldms_heap.c:303,385`) -/
def heapChange (s : St) (i : Nat) (v : Int) : St :=
  let b := s.bufs s.data
  s.setBuf s.data { b with vals := fun j => if j = i then v else b.vals j, heapGn := b.heapGn + 1 }

/-- `ldms_metric_get_*`: `__mval_to_get` (`ldms.c:2283-2316`) -/
def metricGet (S : Schema) (s : St) (i : Nat) : Int :=
  if S.isData i then
    if (s.bufs s.data).flag ≠ .end_ ∧ ¬ S.isList i then
      (s.bufs ((s.curr + (s.n - 1)) % s.n)).vals i
    else (s.bufs s.data).vals i
  else s.metaVals i

/-- `ldms_set_is_consistent` (`ldms.c:3523-3527`) -/
def consistent (s : St) : Bool := (s.bufs s.data).flag = .end_

/-- `ldms_set_create` (`ldms.c:1602-1618`) and `__record_set` (`ldms.c:574-578`): zeroed buffers, the
last one current -/
def init (n : Nat) (copy : Bool) (gn : Nat) (off : Nat → Nat) : St where
  n := n
  bufs := fun j => ⟨fun _ => 0, .none, ⟨0, 0⟩, ⟨0, 0⟩, gn, 0, off j, n - 1⟩
  curr := n - 1
  data := n - 1
  copy := copy
  metaVals := fun _ => 0
  metaGn := gn

end Verif.Txn
