import Verif.SetOwner.Model
import Verif.Access.Props

/-! # Specification: numbers as text -/

namespace Verif.SetOwner

/-- a number in a base up to ten, as people write it -/
def numeral (base n : Nat) : Str :=
  if _h : n < base ∨ base < 2 then [48 + n] else numeral base (n / base) ++ [48 + n % base]
termination_by n
decreasing_by exact Nat.div_lt_self (by omega) (by omega)

/-- decimal and octal -/
abbrev dec (n : Nat) : Str := numeral 10 n
abbrev oct (n : Nat) : Str := numeral 8 n

/-- a name: begins with a letter -/
def Letter (c : Nat) : Prop := (65 ≤ c ∧ c ≤ 90) ∨ (97 ≤ c ∧ c ≤ 122)

/-- What is given for an owner: nothing, a number, or the name of someone. -/
inductive Who
  | unsaid
  | number (n : Nat)
  | name (c : Nat) (s : Str)

def Who.text : Who → Option Str
  | .unsaid => none
  | .number n => some (dec n)
  | .name c s => some (c :: s)

/-- it makes sense: numbers of users have 32 bits -/
def Who.ok : Who → Prop
  | .unsaid => True
  | .number n => n < 2 ^ 32
  | .name c _ => Letter c

/-- who is meant, if the system knows -/
def Who.is (db : Db) (dflt : Nat) : Who → Option Nat
  | .unsaid => some dflt
  | .number n => some n
  | .name c s => db (c :: s)

/-- Permissions: nothing, or an octal number, with any zeros before it. -/
def permText : Option (Nat × Nat) → Option Str
  | none => none
  | some (zeros, p) => some (List.replicate zeros 48 ++ oct p)

/-- the permissions that are meant: nine bits, not all zero -/
def permIs (dflt : Nat) : Option (Nat × Nat) → Option Nat
  | none => some dflt
  | some (_, p) => if 0 < p ∧ p < 8 * 8 * 8 then some p else none

end Verif.SetOwner
