import Verif.ReqTab.Model

/-!
# What is asked of requests in progress

Messages are told apart by the connection (or configuration file) they come on and their
number.
-/

namespace Verif.ReqTab

variable {α : Type}

/-- What is seen about the request `k`. -/
def Out.about (k : Key) : Out α → Bool
  | .noMarker _ _ => false
  | .error k' _ => k' = k
  | .handled k' _ => k' = k
  | .garbled k' => k' = k
  | .forward k' _ _ => k' = k
  | .toOrg _ _ k' _ => k' = k
  | .toSelf _ _ _ => false
  | .useAfterFree => false

def about (k : Key) (os : List (Out α)) : List (Out α) := os.filter (Out.about k)

/-- What concerns the request `k`: its own records, and the end of its connection. -/
def concerns (k : Key) : Ev α → Bool
  | .recv kind conn r _ => r.marker && decide (kind = k.kind) && decide (conn = k.conn) && decide (r.msg = k.msg)
  | .term conn => decide (conn = k.conn)
  | _ => false

/-- Numbers fit: those of messages have 32 bits; fewer than 2^32 connections have been made.
Requests are not taken for responses. -/
def Ev.Ok : Ev α → Prop
  | .recv kind conn r fwd => kind ≠ .loc ∧ conn < 2 ^ 32 ∧ r.msg < 2 ^ 32 ∧ ∀ d ∈ fwd, d < 2 ^ 32
  | .own conn => conn < 2 ^ 32
  | .resp conn r => conn < 2 ^ 32 ∧ r.msg < 2 ^ 32
  | .term _ => True

/-- The handler of `k` answers by itself. -/
def Direct (k : Key) (e : Ev α) : Prop :=
  ∀ kind conn r fwd, e = .recv kind conn r fwd → (⟨kind, conn, r.msg⟩ : Key) = k → fwd = []

/-- A record of the request `k`. -/
def piece (k : Key) (som eom : Bool) (body : List α) : Ev α :=
  .recv k.kind k.conn { marker := true, som := som, eom := eom, msg := k.msg, body := body } []

/-- All records but the first. -/
def rest (k : Key) : List (List α) → List (Ev α)
  | [] => []
  | [b] => [piece k false true b]
  | b :: bs => piece k false false b :: rest k bs

/-- The records of a message cut into these pieces. -/
def message (k : Key) : List (List α) → List (Ev α)
  | [] => []
  | [b] => [piece k true true b]
  | b :: bs => piece k true false b :: rest k bs

/-- No record comes for a request that has been handled and waits for answers, and no
connection ends. -/
def Polite (valid : List α → Bool) : St α → List (Ev α) → Prop
  | _, [] => True
  | s, e :: es =>
    (∀ conn, e ≠ .term conn) ∧
    (∀ kind conn r fwd, e = .recv kind conn r fwd → r.som = false →
      ∀ c, find s ⟨kind, conn, r.msg⟩ = some c → c.host = false) ∧
    Polite valid (step valid s e).1 es

/-- How many requests the daemon sends. -/
def Ev.asks : Ev α → Nat
  | .recv _ _ _ fwd => fwd.length
  | .own _ => 1
  | _ => 0

/-- The number of a request sent for another. -/
def Out.number : Out α → Option Nat
  | .forward _ _ n => some n
  | _ => none

/-- A record of a response on connection `d` with number `n`. -/
def answers (d n : Nat) : Ev α → Bool
  | .resp conn r => r.marker && decide (conn = d) && decide (r.msg = n)
  | _ => false

/-- What is made of a response on connection `d` with number `n`. -/
def passed (d n : Nat) : Out α → Bool
  | .toOrg conn msg _ _ => decide (conn = d) && decide (msg = n)
  | .toSelf conn msg _ => decide (conn = d) && decide (msg = n)
  | _ => false

/-- The last of these records, and no other, is marked as the last. -/
def Ends : List (Rec α) → Prop
  | [] => False
  | [r] => r.eom = true
  | r :: rs => r.eom = false ∧ Ends rs

end Verif.ReqTab
