import Verif.UpdSel.Model

/-! # Specification: the sets of an updater, its tasks and the histories considered -/

namespace Verif.UpdSel

/-- The set satisfies the match list. -/
def Fits (rx : Nat → Str → Bool) (ms : List Match) (x : PSet) : Prop :=
  ms = [] ∨ ∃ m ∈ ms, rx m.rx (if m.bySchema = true then x.schema else x.inst) = true

/-- `x` is a set of a producer `P` of the updater, the producer is connected and the set satisfies
the match list. -/
def Mine (rx : Nat → Str → Bool) (w : W) (P : Prd) (x : PSet) : Prop :=
  P ∈ w.prds ∧ P.name ∈ w.u.prd ∧ P.conn = true ∧ x ∈ P.sets ∧ Fits rx w.u.matches_ x

/-- The set has the schedule `h` as its hint; without automatic intervals every set does. -/
def Due (w : W) (h : Hint) (x : PSet) : Prop :=
  w.u.auto = true → x.hint.intrvl ≠ 0 ∧ x.hint = h

/-- What a set needs: an update if it is ready and was looked up at least a second ago, a lookup if
nothing is known of it yet. -/
def Needs (x : PSet) (k : Kind) : Prop :=
  (k = .update ∧ x.state = .ready true) ∨ (k = .lookup ∧ x.state = .start)

/-- The schedules by which the updater works. -/
def schedules (u : Upd) : List Hint :=
  u.deflt.hint :: (u.tasks.filter fun t => decide (t.st = .started)).map (·.hint)

/-- A hint that `int` differences tell apart: the interval is less than 2^31 us, about 35 minutes. -/
def Small (h : Hint) : Prop :=
  0 ≤ h.intrvl ∧ h.intrvl < 2147483648 ∧ (h.offset = offNone ∨ (-1073741824 < h.offset ∧ h.offset < 1073741824))

def SmallInfo : Option (Int × Option Int) → Prop
  | none => True
  | some (i, none) => 0 ≤ i ∧ i < 2147483648
  | some (i, some o) => 0 ≤ i ∧ i < 2147483648 ∧ -1073741824 < o ∧ o < 1073741824

/-- No task is between the stop in its callback and the end of the callback. -/
def Calm (w : W) : Prop := ∀ t ∈ w.u.tasks, t.st ≠ .stopping

/-- Hints are small. -/
def EvSmall : Ev → Prop
  | .start _ h => Small h
  | .dirAdd _ _ _ info => SmallInfo info
  | .dirUpd _ _ info => SmallInfo info
  | _ => True

/-- No set is added, changes its hint or ends its lookup just while a task without sets stops. -/
def EvCalm (w : W) : Ev → Prop
  | .dirAdd _ _ _ _ => Calm w
  | .dirUpd _ _ _ => Calm w
  | .lookupDone _ _ _ => Calm w
  | _ => True

/-- The states of all histories with small hints. -/
inductive ReachS (rx : Nat → Str → Bool) : W → Prop
  | init : ReachS rx init
  | step {w e} : ReachS rx w → EvSmall e → ReachS rx (step rx w e).w

/-- The states of the histories in which also no set comes just while a task stops. -/
inductive Reach (rx : Nat → Str → Bool) : W → Prop
  | init : Reach rx init
  | step {w e} : Reach rx w → EvSmall e → EvCalm w e → Reach rx (step rx w e).w

end Verif.UpdSel
