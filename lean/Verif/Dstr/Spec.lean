import Verif.Dstr.Model

/-!
# What a dynamic string is to its client

A text, and whether it refuses input because memory ran out.  Written without the functions of the model.
-/

namespace Verif.Dstr

/-- What a client has: the text and whether the string is dead. -/
structure Client where
  text : Str
  dead : Bool
  deriving DecidableEq, Repr

/-- The value is the text: it is what is before the NUL in the memory that the string is in, and its length is that of the text. -/
def Shows (d : Ds) (c : Client) : Prop :=
  (∃ rest, (match d.heap with | some b => b | none => d.static) = c.text ++ 0 :: rest) ∧ 0 ∉ c.text ∧ d.length = c.text.length ∧ d.dead = c.dead

/-- `Digits t n`: the text `t` is the number `n` in decimal, without a zero before it. -/
inductive Digits : Str → Nat → Prop
  | one {c : Nat} : c < 10 → Digits [48 + c] c
  | more {t : Str} {n c : Nat} : Digits t n → 0 < n → c < 10 → Digits (t ++ [48 + c]) (10 * n + c)

/-- the text of a number that may be negative -/
def IntText (t : Str) (v : Int) : Prop := (0 ≤ v ∧ Digits t v.toNat) ∨ (v < 0 ∧ ∃ u, t = 45 :: u ∧ Digits u v.natAbs)

/-- what may be asked for: C strings of which the length is an `int` (for a new text, below `INT_MAX`), numbers of 64 bits -/
def Valid : Op → Prop
  | .set s => 0 ∉ s ∧ s.length < 2147483647
  | .setInt v => -2 ^ 63 ≤ v ∧ v < 2 ^ 64
  | .cat s _ => 0 ∉ s ∧ s.length ≤ 2147483647
  | .catInt v => -2 ^ 63 ≤ v ∧ v < 2 ^ 64
  | _ => True

/-- appending `x`: nothing for a dead string or one that would be longer than `INT_MAX - 1`; the string dies if memory runs out -/
inductive Append (memory : Bool) (c : Client) (x : Str) : Client → Option Str → Prop
  | dead : c.dead = true → Append memory c x c none
  | long : c.dead = false → 2147483646 < c.text.length + x.length → Append memory c x c none
  | ok : c.dead = false → c.text.length + x.length ≤ 2147483646 → Append memory c x ⟨c.text ++ x, false⟩ (some (c.text ++ x))
  | failed : c.dead = false → c.text.length + x.length ≤ 2147483646 → 200 ≤ c.text.length + x.length → memory = false → Append memory c x ⟨c.text, true⟩ none

/-- replacing the text: a dead string lives again -/
inductive Replace (memory : Bool) (c : Client) (x : Str) : Client → Option Str → Prop
  | ok : Replace memory c x ⟨x, false⟩ (some x)
  | failed : 200 ≤ x.length → memory = false → Replace memory c x ⟨c.text, true⟩ none

/-- `Does memory c o c' r`: the call `o` takes `c` to `c'` and returns `r`. -/
def Does (memory : Bool) (c : Client) (o : Op) (c' : Client) (r : Option Str) : Prop :=
  match o with
  | .set s => Replace memory c s c' r
  | .setInt v => ∃ t, IntText t v ∧ Replace memory c t c' r
  | .cat s n => Append memory c (if n < 0 then s else s.take n.toNat) c' r
  | .catInt v => ∃ t, IntText t v ∧ Append memory c t c' r
  | .trunc n => c' = ⟨c.text.take n.toNat, c.dead⟩ ∧ r = none
  | .free => c' = ⟨[], false⟩ ∧ r = none
  | .extract => c' = ⟨[], false⟩ ∧ r = if memory then some c.text else none

/-- a history of calls -/
inductive History : Client → List (Mem × Op) → Client → Prop
  | nil {c : Client} : History c [] c
  | cons {c c1 c2 : Client} {m : Mem} {o : Op} {r : Option Str} {os : List (Mem × Op)} : Does m.ok c o c1 r → History c1 os c2 → History c ((m, o) :: os) c2

end Verif.Dstr
