import Verif.LockOrder.Model

/-!
# What is expected of the locks

Written without reference to the order in which the routines take them.
-/

namespace Verif.LockOrder

/-- Thread `t` waits for a lock that thread `u` has. -/
def Waits (s : State) (t u : Nat) : Prop :=
  ∃ l k, (s t).rest = .acq l :: k ∧ l ∈ (s u).held

/-- Some threads (at least one) wait for each other: none of them can go on,
whatever the others do. -/
def Deadlock (s : State) : Prop :=
  ∃ D : List Nat, D ≠ [] ∧ ∀ t ∈ D, ∃ u ∈ D, Waits s t u

/-- The thread has nothing to do and no lock. -/
def Idle (s : State) (t : Nat) : Prop := (s t).rest = [] ∧ (s t).held = []

/-- The request is one about storage policies that does not start or stop one. -/
def AboutPolicies : Routine → Prop
  | .strgpCmd _ | .strgpDel _ | .strgpNew _ | .strgpStatus _ => True
  | _ => False

/-- Everything but: starting or stopping a storage policy (by a command, or by
the start of all that is configured), requests about anything but storage
policies that arrive from the peer of a producer, and closing the stores at
exit. -/
def Orderly : Routine → Prop
  | .strgpStartStop .. => False
  | .startAll _ _ ss => ss = []
  | .peerRequest _ r => AboutPolicies r
  | .closeStores _ => False
  | _ => True

/-- As `Orderly`, but storage policies may be started and stopped. -/
def Tidy : Routine → Prop
  | .peerRequest _ r => AboutPolicies r
  | .closeStores _ => False
  | _ => True

end Verif.LockOrder
