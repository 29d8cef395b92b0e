import Verif.SetDel.Model

/-! # Specification: histories that the code copes with -/

namespace Verif.SetDel

/-- The deletion is older than the timeout, and the memory is still there. -/
def Due (to : Nat) (w : W) : Prop := ∃ t, w.del = some t ∧ to ≤ w.now - t ∧ w.freed = false

/-- When the thread that frees old sets runs: the program has given back its references, the deletion call is
done, no connection is between its loss and the handling of it with the set still listed, every peer that was
told without having looked the set up has answered, no connection is registered for push that is lost, and
no lookup is under way. -/
def Calm (w : W) : Prop :=
  w.users = 0 ∧ w.ended = true ∧
  ∀ c ∈ w.conns, c.found = false ∧ (c.net = .down → c.coll = false) ∧ c.ctx ≠ some false ∧ (c.push = true → c.net = .up)

/-- Steps that the theorems are about. -/
def Legal (to : Nat) (w : W) : Ev → Prop
  /- a peer does not cancel notifications of a set that it has looked up -/
  | .cancelNotify i => ∀ c, w.conns[i]? = some c → c.look = false
  | .reap => Due to w → Calm w
  | _ => True

inductive Run (to : Nat) : W → Prop
  | init : Run to init
  | step {w e w'} : Run to w → Legal to w e → step to w e = .ok w' → Run to w'

/-- Each process has one connection. -/
def OneEach (w : W) : Prop := (w.conns.map (·.peer)).Nodup

/-- A history. -/
def runs (to : Nat) : W → List Ev → Res
  | w, [] => .ok w
  | w, e :: es => (step to w e).bind fun w => runs to w es

end Verif.SetDel
