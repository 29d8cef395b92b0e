import Verif.DStream.Model

/-!
# What clients and administrators expect of streams

All of it is said about the history of calls, the newest first.
-/

namespace Verif.DStream

/-- a subscription -/
structure Sub where
  handle : Nat
  name : Nat
  fn : Nat
  ctxt : Nat
  raw : Bool
  deriving DecidableEq, Repr

/-- calls of subscribe -/
def tries : List Act → Nat
  | [] => 0
  | .subscribe _ _ _ :: as => tries as + 1
  | _ :: as => tries as

/-- the subscriptions that are in force, the newest first: a function and its context can be subscribed to a stream only once -/
def subs : List Act → List Sub
  | [] => []
  | .subscribe n f x :: as => if ∃ s ∈ subs as, s.name = n ∧ s.fn = f ∧ s.ctxt = x then subs as else ⟨tries as, n, f, x, false⟩ :: subs as
  | .close h :: as => (subs as).filter fun s => s.handle ≠ h
  | .setRaw h r :: as => (subs as).map fun s => if s.handle = h then { s with raw := r } else s
  | _ :: as => subs as

/-- the subscriptions to a stream -/
def subsOf (as : List Act) (n : Nat) : List Sub := (subs as).filter fun s => s.name = n

/-- a text that cannot be parsed though a client wants it parsed -/
def Msg.Bad (m : Msg) : Prop := m.json = true ∧ m.given = false ∧ m.good = false

instance (m : Msg) : Decidable m.Bad := by unfold Msg.Bad; infer_instance

/-- the messages of the streams that the handle is subscribed to, in their order -/
def heard (h : Nat) : List Act → List Msg
  | [] => []
  | .deliver n m _ _ :: as => heard h as ++ (if ∃ s ∈ subsOf as n, s.handle = h then [m] else [])
  | _ :: as => heard h as

/-- times and lengths of the messages of a stream since the last reset, the newest first -/
def rxOf (n : Nat) : List Act → List (Nat × Nat)
  | [] => []
  | .deliver k m t _ :: as => if k = n then (t, m.len) :: rxOf n as else rxOf n as
  | .reset :: _ => []
  | _ :: as => rxOf n as

/-- times and lengths of what was published since the last reset: empty messages are not sent -/
def txOf (n : Nat) : List Act → List (Nat × Nat)
  | [] => []
  | .publish k l t :: as => if k = n ∧ l ≠ 0 then (t, l) :: txOf n as else txOf n as
  | .reset :: _ => []
  | _ :: as => txOf n as

/-- times and lengths of the messages of a stream from the publisher whose name is in buffer `b`, ever -/
def pxOf (n b : Nat) : List Act → List (Nat × Nat)
  | [] => []
  | .deliver k m t (some c) :: as => if k = n ∧ c = b then (t, m.len) :: pxOf n b as else pxOf n b as
  | _ :: as => pxOf n b as

/-- the statistics of a list of times and lengths: times of the first and of the last, number, and sum of the lengths -/
def Counts (i : Info) (l : List (Nat × Nat)) : Prop :=
  i.first = ((l.map Prod.fst).reverse.find? fun t => t ≠ 0).getD 0 ∧ i.last = ((l.map Prod.fst).head?).getD 0 ∧ i.count = l.length ∧ i.bytes = (l.map Prod.snd).sum

/-- what a look at a stream shows; a stream that is not there has nothing -/
def look (st : St) (n : Nat) : Stream := (st.streams.find? fun s => s.name = n).getD ⟨n, [], ⟨0, 0, 0, 0⟩, ⟨0, 0, 0, 0⟩, []⟩

end Verif.DStream
