import Verif.LabelSet.Model

/-!
# What identifiers may look like

Written without the functions of the model.
-/

namespace Verif.LabelSet

/-- a letter or a digit -/
def Alnum (c : Nat) : Prop := (48 ≤ c ∧ c ≤ 57) ∨ (65 ≤ c ∧ c ≤ 90) ∨ (97 ≤ c ∧ c ≤ 122)

/-- a letter, a digit or `_` -/
def Plain (c : Nat) : Prop := Alnum c ∨ c = 95

/-- the bytes that an identifier of the language has -/
def Alphabet : Lang → Nat → Prop
  | .url, c => Plain c ∨ c = 37
  | .amqp, c => c ≠ 46
  | _, c => Plain c

/-- a label that needs no translation: only bytes of the alphabet, and no `_` at the beginning where none is allowed -/
def Clean (lang : Lang) (l : Str) : Prop :=
  l ≠ [] ∧ (match lang with | .amqp => ∀ c ∈ l, c ≠ 46 | _ => ∀ c ∈ l, Plain c) ∧ ((lang = .least ∨ lang = .r) → l.head? ≠ some 95)

/-- what stands for one byte in the hexadecimal translation: letters and digits for themselves, blanks as `_`, other signs as their number.
A `_` may also stand for itself, and the other kinds of white space may also be written as their number. -/
def HexPiece (sep c : Nat) (v : Str) : Prop :=
  (Plain c ∧ v = [c]) ∨ ((c = 32 ∨ (9 ≤ c ∧ c ≤ 13)) ∧ v = [95]) ∨
    (¬ Alnum c ∧ c ≠ 32 ∧ c < 128 ∧
      (if c < 16 then ∃ d, v = [sep, d] ∧ d = (if c < 10 then 48 + c else 55 + c)
       else ∃ d e, v = [sep, d, e] ∧ d = 48 + c / 16 ∧ e = (if c % 16 < 10 then 48 + c % 16 else 55 + c % 16)))

/-- the parts for the bytes of a label, one after the other -/
def HexText (sep : Nat) : Str → Str → Prop
  | [], t => t = []
  | c :: s, t => ∃ v u, HexPiece sep c v ∧ HexText sep s u ∧ t = v ++ u

/-- every byte that is no letter, no digit and no `_` becomes `_` -/
def Barred : Str → Str
  | [] => []
  | c :: s => (if (48 ≤ c ∧ c ≤ 57) ∨ (65 ≤ c ∧ c ≤ 90) ∨ (97 ≤ c ∧ c ≤ 122) then c else 95) :: Barred s

/-- the number of a text in the decimal system -/
def valueOf (t : Str) : Nat := t.foldl (fun n c => 10 * n + (c - 48)) 0

/-- the languages whose translation only knows ASCII -/
def Ascii : Lang → Prop
  | .least => False
  | .amqp => False
  | _ => True

end Verif.LabelSet
