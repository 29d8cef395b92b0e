import Verif.Secret.Model

/-!
# Specification: the secret word of a file

Told by the lines of the file.
-/

namespace Verif.Secret

/-- A file is its lines, of which the last may be empty: each is without the end of a line. -/
structure Lines (file : Str) (ls : List Str) (last : Str) : Prop where
  all : file = (ls.flatMap fun l => l ++ [10]) ++ last
  line : ∀ l ∈ ls ++ [last], 10 ∉ l

/-- text in lines that are not longer than 526 bytes -/
structure Plain (ls : List Str) : Prop where
  text : ∀ l ∈ ls, 0 ∉ l
  short : ∀ l ∈ ls, l.length ≤ 526

/-- `secretword=` -/
def asked : Str := [115, 101, 99, 114, 101, 116, 119, 111, 114, 100, 61]

/-- a space, a tab, an end of line, or `#` -/
def Ends (c : Nat) : Prop := c = 32 ∨ c = 9 ∨ c = 10 ∨ c = 35

/-- `w` is the word of the line: after `secretword=` and what separates come its bytes, up to what separates or to the end. -/
def WordOf (l w : Str) : Prop := ∃ a b, l = asked ++ a ++ w ++ b ∧ (∀ c ∈ a, Ends c) ∧ w ≠ [] ∧ (∀ c ∈ w, ¬ Ends c) ∧ ∀ c, b.head? = some c → Ends c

/-- the first line with `secretword=` is `l` -/
def FirstLine (ls : List Str) (l : Str) : Prop := ∃ before after, ls = before ++ l :: after ∧ (∀ x ∈ before, ¬ asked <+: x) ∧ asked <+: l

/-- white space: space, tab, end of line, vertical tab, form feed, carriage return -/
def White (c : Nat) : Prop := c = 32 ∨ c = 9 ∨ c = 10 ∨ c = 11 ∨ c = 12 ∨ c = 13

/-- only the owner may use the file -/
def Private (mode : Nat) : Prop := ∀ i < 6, mode.testBit i = false

end Verif.Secret
