import Verif.Sched.Model

/-! # Specification of the timers -/

namespace Verif.Sched

open Verif.BinHeap

/-- a normalised time -/
def Tv.Norm (t : Tv) : Prop := t.usec < 1000000

/-- microseconds -/
def Tv.us (t : Tv) : Nat := t.sec * 1000000 + t.usec

/-- Histories of a scheduler: `Reach s live` when `s` can be reached by adds, deletions and
dispatches; `live` lists the timers added successfully and not deleted since. -/
inductive Reach : Sch → List Nat → Prop where
  | create (cap : Nat) (param : Nat → Param) : Reach (create cap param) []
  | addOk {s live ev now s'} : Reach s live → add s ev now = some (s', .ok) → Reach s' (ev :: live)
  | addFail {s live ev now s' rc} : Reach s live → add s ev now = some (s', rc) → rc ≠ .ok →
      Reach s' live
  | del {s live ev} : Reach s live → Reach (del s ev) (live.filter (· ≠ ev))
  | fire {s live now now2 ev s'} : Reach s live → process s now now2 = some (.fire ev s') →
      Reach s' live

/-- A deletion that keeps the heap in order: the timer is the first or the last of the array, or the
last one is not earlier than the parent of the deleted one. -/
def SafeDel (s : Sch) (ev : Nat) : Prop :=
  s.heap.idx ev ≤ 0 ∨ s.heap.idx ev = s.heap.len - 1 ∨
    s.evlt (s.heap.slots (s.heap.len - 1)) (s.heap.slots (((s.heap.idx ev).toNat - 1) / 2)) = false

/-- Histories in which every deletion is a `SafeDel`. -/
inductive SafeReach : Sch → List Nat → Prop where
  | create (cap : Nat) (param : Nat → Param) : SafeReach (create cap param) []
  | addOk {s live ev now s'} : SafeReach s live → add s ev now = some (s', .ok) →
      SafeReach s' (ev :: live)
  | addFail {s live ev now s' rc} : SafeReach s live → add s ev now = some (s', rc) → rc ≠ .ok →
      SafeReach s' live
  | del {s live ev} : SafeReach s live → SafeDel s ev → SafeReach (del s ev) (live.filter (· ≠ ev))
  | fire {s live now now2 ev s'} : SafeReach s live → process s now now2 = some (.fire ev s') →
      SafeReach s' live

end Verif.Sched
