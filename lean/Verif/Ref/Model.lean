/-!
# Reference counts (lib/src/ovis_ref/ref.h, without _REF_TRACK_)

Any number of threads hold references to one object.  `ref_put` is two steps: the atomic decrement, and,
if that returned 0, the call of the destructor; other threads may run between them.
-/

namespace Verif.Ref

/-- `struct ref_s` (ref.h:23-31) plus the threads using it.  `refs` has one entry for every reference
held, naming the holder; `freeing` lists the threads whose decrement returned 0 and that have not called
the destructor yet.  The tracking list of `_REF_TRACK_` builds is not modelled. -/
structure St where
  count : Nat
  refs : List Nat
  freeing : List Nat
  deriving Repr, DecidableEq

/-- ref_count is a C int used with wrapping atomic operations (ref.h:24) -/
def wrap : Nat := 2 ^ 32

/-- atomic steps of the threads -/
inductive Ev where
  /-- thread takes a reference -/
  | get (t : Nat)
  /-- the decrement in ref_put -/
  | dec (t : Nat)
  /-- the destructor call in ref_put -/
  | free (t : Nat)
  /-- thread `t` hands one of its references to thread `u` -/
  | pass (t u : Nat)
  deriving Repr, DecidableEq

/-- ref_init (ref.h:105-124): one reference, held by the creating thread -/
def init (t : Nat) : St := ⟨1, [t], []⟩

/-- ref_get (ref.h:72-103): `__sync_fetch_and_add` -/
def incr (c : Nat) : Nat := (c + 1) % wrap

/-- ref_put (ref.h:64): `__sync_sub_and_fetch` -/
def decr (c : Nat) : Nat := (c + (wrap - 1)) % wrap

/-- One step; `none` when the thread is not entitled to it: threads get through, put and pass on only
references they hold, and call the destructor only after their own decrement returned 0
(ref.h:33-70, 72-103). -/
def step (s : St) : Ev → Option St
  | .get t => if t ∈ s.refs then some { s with count := incr s.count, refs := t :: s.refs } else none
  | .dec t =>
    if t ∈ s.refs then
      let c := decr s.count
      some { count := c, refs := s.refs.erase t,
             freeing := if c = 0 then t :: s.freeing else s.freeing }
    else none
  | .free t => if t ∈ s.freeing then some { s with freeing := s.freeing.erase t } else none
  | .pass t u => if t ∈ s.refs then some { s with refs := u :: s.refs.erase t } else none

/-- run a history -/
def run (s : St) : List Ev → Option St
  | [] => some s
  | e :: es => (step s e).bind (fun s' => run s' es)

/-- The same with a `get` that does not require the thread to hold a reference already (a lookup racing
with the last put); used to show why callers must hold one. -/
def stepLoose (s : St) : Ev → Option St
  | .get t => some { s with count := incr s.count, refs := t :: s.refs }
  | e => step s e

def runLoose (s : St) : List Ev → Option St
  | [] => some s
  | e :: es => (stepLoose s e).bind (fun s' => runLoose s' es)

end Verif.Ref
