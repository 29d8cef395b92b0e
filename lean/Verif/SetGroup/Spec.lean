import Verif.SetGroup.Model
import Verif.SetInfo.Props

/-! # Specification: members, and which sets belong to a group -/

namespace Verif.SetGroup

/-- A request that changes the members: names put in, or names taken out. -/
inductive Req
  | ins (names : List SetInfo.Str)
  | rm (names : List SetInfo.Str)

/-- Names that can be members: not empty, no comma, not too long. -/
def Name (x : SetInfo.Str) : Prop := x ≠ [] ∧ 44 ∉ x ∧ x.length < 496

def Req.names : Req → List SetInfo.Str
  | .ins xs => xs
  | .rm xs => xs

/-- The members after the requests. -/
def isMember (x : SetInfo.Str) : Bool → List Req → Bool
  | b, [] => b
  | b, .ins xs :: rs => isMember x (b || decide (x ∈ xs)) rs
  | b, .rm xs :: rs => isMember x (b && decide (x ∉ xs)) rs

/-- The text of the request: the names with commas between them. -/
def text : List SetInfo.Str → SetInfo.Str
  | [] => []
  | [x] => x
  | x :: xs => x ++ 44 :: text xs

/-- The requests, one after the other; all are accepted, or `none`. -/
def requests : SetInfo.St → List Req → Option SetInfo.St
  | s, [] => some s
  | s, .ins xs :: rs => match ins s (some (text xs)) with
    | some (s, .ok) => requests s rs
    | _ => none
  | s, .rm xs :: rs => match del s (some (text xs)) with
    | some (s, .ok) => requests s rs
    | _ => none

/-- `l` belongs to `k`: it is `k`, or it belongs to a member of `k` that is ready. -/
inductive In (w : W) : Nat → Nat → Prop
  | self (k : Nat) : In w k k
  | member {k m l : Nat} {ms : List Nat} : (w.p k).mem = some ms → m ∈ ms → m < w.n → (w.p m).st = .ready → In w m l → In w k l

/-- The sets are alive. -/
def Alive (w : W) : Prop := ∀ k, k < w.n → 0 < (w.p k).refs

/-- Every call is accepted. -/
def Env.fine : Env := ⟨fun _ => 0, fun _ => 0⟩

/-- No group that can be updated has a member that was not looked up. -/
def NoStart (w : W) : Prop := ∀ g, g < w.n → (w.p g).st = .ready → ∀ ms, (w.p g).mem = some ms → ∀ m ∈ ms, m < w.n → (w.p m).st ≠ .start

/-- What happens: the updater comes to a set, an answer comes. -/
inductive Ev
  | visit (k : Nat)
  | looked (k : Nat) (ok : Bool)
  | updated (k : Nat) (ok : Bool)

def step (w : W) (e : Env) : Ev → Option W
  | .visit k => visitSet e w k
  | .looked k ok => lookupCb e w k ok
  | .updated k ok => updateCb w k ok

/-- Answers come only to what was asked, for sets that are there. -/
def Legal (w : W) : Ev → Prop
  | .visit k => k < w.n ∧ NoStart w
  | .looked k _ => k < w.n ∧ 0 < (w.p k).look
  | .updated k _ => k < w.n ∧ 0 < (w.p k).upd

/-- A history of it: the updater works with what it finds. -/
inductive Run : W → List (Env × Ev) → Option W → Prop
  | nil (w : W) : Run w [] (some w)
  | crash {w : W} {e : Env} {v : Ev} {es : List (Env × Ev)} : Legal w v → step w e v = none → Run w ((e, v) :: es) none
  | cons {w w' : W} {e : Env} {v : Ev} {es : List (Env × Ev)} {r : Option W} :
      Legal w v → step w e v = some w' → Run w' es r → Run w ((e, v) :: es) r

/-- Sets that a producer has just told about. -/
def fresh (n : Nat) (mem : Nat → Option (List Nat)) : W := ⟨n, fun k => ⟨.start, mem k, false, 2, 0, 0⟩⟩

end Verif.SetGroup
