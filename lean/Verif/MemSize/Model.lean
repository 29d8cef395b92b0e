import Verif.NameTab.Model

/-!
# Memory-size and time-interval strings

`ovis_get_mem_size` and `ovis_time_str2us` of `lib/src/ovis_util/util.c`.  Strings are lists of
character codes without NUL.
-/

namespace Verif.MemSize

open Verif.NameTab (codes)

/-- `isspace` in the C locale -/
def isspace (c : Nat) : Bool := c == 32 || (9 ≤ c && c ≤ 13)

/-- `isdigit` -/
def isdigit (c : Nat) : Bool := 48 ≤ c && c ≤ 57

/-- skip leading white space -/
def skipWs : List Nat → List Nat
  | [] => []
  | c :: cs => if isspace c then skipWs cs else c :: cs

/-- the value of leading digits, added to `acc`, and what follows them -/
def digits : Nat → List Nat → Nat × List Nat
  | acc, [] => (acc, [])
  | acc, c :: cs => if isdigit c then digits (acc * 10 + (c - 48)) cs else (acc, c :: cs)

/-- an optional sign: negative or not -/
def sign : List Nat → Bool × List Nat
  | 45 :: cs => (true, cs)
  | 43 :: cs => (false, cs)
  | cs => (false, cs)

/-- the string starts with a digit -/
def startsDigit : List Nat → Bool
  | [] => false
  | c :: _ => isdigit c

/-- `%lu` of `sscanf`: `none` if nothing matches, or if the number does not fit in 64 bits (undefined
by the C standard).  A minus sign negates modulo `2 ^ 64`, as `strtoul` does. -/
def scanLu (s : List Nat) : Option (Nat × List Nat) :=
  let (neg, s) := sign (skipWs s)
  if startsDigit s then
    let (v, r) := digits 0 s
    if 2 ^ 64 ≤ v then none
    else some (if neg then (2 ^ 64 - v) % 2 ^ 64 else v, r)
  else none

/-- the multiplication by the unit (`util.c:580-600`); 0 for an unknown unit -/
def applyUnit (size unit : Nat) : Nat :=
  if unit = 98 ∨ unit = 66 then size
  else if unit = 107 ∨ unit = 75 then size * 1024 % 2 ^ 64
  else if unit = 109 ∨ unit = 77 then size * 1024 * 1024 % 2 ^ 64
  else if unit = 103 ∨ unit = 71 then size * 1024 * 1024 * 1024 % 2 ^ 64
  else if unit = 116 ∨ unit = 84 then size * 1024 * 1024 * 1024 % 2 ^ 64
  else 0

/-- `ovis_get_mem_size` (`util.c:570-602`): `sscanf(s + "B", "%lu %c", &size, &unit)`.
`none` = `size` and `unit` are used uninitialised. -/
def memSize (s : List Nat) : Option Nat :=
  match scanLu (s ++ [66]) with
  | none => none
  | some (size, r) =>
    match skipWs r with
    | [] => none
    | unit :: _ => some (applyUnit size unit)

/-- `strtod` on strings whose number is a decimal integer: optional white space, sign, digits; the
value and the rest.  Fractions, exponents, hexadecimal, `inf` and `nan` are outside the model. -/
def strtodInt (s : List Nat) : Option (Int × List Nat) :=
  let (neg, s) := sign (skipWs s)
  if startsDigit s then
    let (v, r) := digits 0 s
    some (if neg then -(v : Int) else v, r)
  else none

/-- skip blanks (`while (unit[0] == ' ') unit++`) -/
def skipBlanks : List Nat → List Nat
  | 32 :: cs => skipBlanks cs
  | cs => cs

/-- the factor chosen by the unit string (`util.c:620-641`); `none` = `EINVAL` -/
def factor (unit : List Nat) : Option Int :=
  if unit = [] ∨ unit = codes "us" ∨ (codes "micro").isPrefixOf unit then some 1
  else if unit = codes "ms" ∨ (codes "milli").isPrefixOf unit then some 1000
  else
    match unit with
    | 115 :: _ => some 1000000
    | 109 :: _ => some (1000000 * 60)
    | 104 :: _ => some (1000000 * 60 * 60)
    | 100 :: _ => some (1000000 * 60 * 60 * 24)
    | _ => none

/-- the outcome of `ovis_time_str2us` -/
inductive Time where
  | einval
  /-- the product is too large to be exact in `double`, or to fit in `long`: outside the model -/
  | inexact
  | ok (us : Int)
  deriving DecidableEq, Repr

/-- `ovis_time_str2us` (`util.c:608-645`) on integer numbers.  Products of integers below `2 ^ 53`
are exact in `double`. -/
def timeStr2us (s : List Nat) : Time :=
  match strtodInt s with
  | none => .einval
  | some (x, r) =>
    match factor (skipBlanks r) with
    | none => .einval
    | some f => if (x * f).natAbs < 2 ^ 53 then .ok (x * f) else .inexact

end Verif.MemSize
