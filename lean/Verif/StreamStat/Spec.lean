import Verif.StreamStat.Model

/-!
# What the statistics should say

Messages of the history that belong to a counter since it was last reset, as times and lengths, the newest first; and what a counter says of them.
-/

namespace Verif.StreamStat

/-- messages of a stream, while the statistics were on -/
def rxOf (name : Nat) : List Ev → List (Nat × Nat)
  | [] => []
  | .recv n _ b t lv :: l => if n = name ∧ 1 ≤ lv then (t, b) :: rxOf name l else rxOf name l
  | .resetStream n :: l => if n = name then [] else rxOf name l
  | .resetAll :: _ => []
  | _ :: l => rxOf name l

/-- messages of a stream from a source, while the level was 2 or more -/
def srcOf (name src : Nat) : List Ev → List (Nat × Nat)
  | [] => []
  | .recv n s b t lv :: l => if n = name ∧ s = src ∧ 2 ≤ lv then (t, b) :: srcOf name src l else srcOf name src l
  | .resetStream n :: l => if n = name then [] else srcOf name src l
  | .resetAll :: _ => []
  | _ :: l => srcOf name src l

/-- messages that a client got (or that its function refused) -/
def clientOf (c : Nat) (failed : Bool) : List Ev → List (Nat × Nat)
  | [] => []
  | .call _ k f b t lv :: l => if k = c ∧ f = failed ∧ 1 ≤ lv then (t, b) :: clientOf c failed l else clientOf c failed l
  | .resetClient k :: l => if k = c then [] else clientOf c failed l
  | .resetAll :: _ => []
  | _ :: l => clientOf c failed l

/-- messages of a stream that a client got (or refused).  A reset of the stream's statistics only concerns those that it got. -/
def pairOf (name c : Nat) (failed : Bool) : List Ev → List (Nat × Nat)
  | [] => []
  | .call n k f b t lv :: l => if n = name ∧ k = c ∧ f = failed ∧ 1 ≤ lv then (t, b) :: pairOf name c failed l else pairOf name c failed l
  | .resetStream n :: l => if n = name ∧ failed = false then [] else pairOf name c failed l
  | .resetClient k :: l => if k = c then [] else pairOf name c failed l
  | .resetAll :: _ => []
  | _ :: l => pairOf name c failed l

/-- the counter has the number of the messages, the sum of their lengths (both in 64 bits), and the earliest and the latest time; without messages the times are the largest
and 0 -/
def Tally (ms : List (Nat × Nat)) (c : Ctr) : Prop :=
  c.count = ms.length % 2 ^ 64 ∧ c.bytes = (ms.map Prod.snd).sum % 2 ^ 64 ∧
    (ms = [] → c.first = 9223372036854775807999999999 ∧ c.last = 0) ∧
    ((∀ m ∈ ms, m.1 ≤ 9223372036854775807999999999) → ms ≠ [] →
      c.first ∈ ms.map Prod.fst ∧ c.last ∈ ms.map Prod.fst ∧ ∀ m ∈ ms, c.first ≤ m.1 ∧ m.1 ≤ c.last)

/-- the name, or a regular expression that fits it -/
def Wants : Match → Nat → Prop
  | .exact m, n => m = n
  | .regex p, n => p n = true

end Verif.StreamStat
