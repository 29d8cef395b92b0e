import Verif.Push.Model

/-! # What a peer that registered should see -/

namespace Verif.Push

/-- The messages to one peer. -/
def toPeer (id : Nat) : List (Nat × Msg) → List Msg
  | [] => []
  | (i, m) :: l => if i = id then m :: toPeer id l else toPeer id l

/-- What the peer should be called for, with the flags it is registered with: the memory of the set at each push, if it registered, and at
each end of a transaction, if it registered for changes; the end (`none`) when it cancels. -/
def expect (id : Nat) : Daemon → Option Nat → List (Op × (Nat → Nat → Nat)) → List (Option Mem)
  | _, _, [] => []
  | d, fl, (o, rc) :: os =>
    let d' := (op rc d o).1
    match o with
    | .push => (if fl.any (fun f => f % 2 = 1) then [some d.src.mem] else []) ++ expect id d' fl os
    | .change => (if fl.any (fun f => f / 2 % 2 = 1) then [some d.src.mem] else []) ++ expect id d' fl os
    | .register i _ f _ _ => expect id d' (if i = id then some f else fl) os
    | .cancel i => if i = id ∧ fl.isSome then none :: expect id d' none os else expect id d' fl os
    | .data _ _ | .metaGn _ _ | .metaRaw _ _ | .next => expect id d' fl os

/-- The calls made are those that should be: the memory of the set is as it should be, in all its positions. -/
def Agree (size : Nat) : List Call → List (Option Mem) → Prop
  | [], [] => True
  | c :: cs, some m :: es => c.last = false ∧ (∀ j, j < size → c.mem j = m j) ∧ Agree size cs es
  | c :: cs, none :: es => c.last = true ∧ Agree size cs es
  | _, _ => False

/-- An operation as the theorem has it for the peer `id`, whose set has the number `rid`: the metadata change with a generation
number, the ring has one element, the peer registers as `ldms_xprt_register_push` does (ldms_xprt.c:3944-3968), and no send
fails. -/
def Usual (id rid : Nat) : Op × (Nat → Nat → Nat) → Prop
  | (.metaRaw _ _, _) => False
  | (.register i remote flags guard maxLen, rc) =>
    (i = id → remote = rid ∧ flags < 4 ∧ guard = false ∧ hdrLen < maxLen) ∧ rc = fun _ _ => 0
  | (_, rc) => rc = fun _ _ => 0

end Verif.Push
