import Verif.CfgFile.Model

/-!
# What is asked of configuration files

Files are described by what a user writes: blank lines, comments, and commands that may go
over several lines, each but the last ending in a backslash.
-/

namespace Verif.CfgFile

/-- Spaces within a line. -/
def Gap (l : List Char) : Prop := ∀ c ∈ l, isSpace c = true ∧ c ≠ '\n'

/-- The rest of a line. -/
def Rest (l : List Char) : Prop := ∀ c ∈ l, c ≠ '\n' ∧ c ≠ '\x00'

/-- A `#` at the beginning or after a space. -/
def hasComment (lead : Bool) : List Char → Bool
  | [] => false
  | c :: cs => (c == '#' && lead) || hasComment (isSpace c) cs

/-- A part of a command: begins and ends with something other than a space, and has no
comment in it. -/
structure Text (l : List Char) : Prop where
  rest : Rest l
  first : ∃ c, l.head? = some c ∧ isSpace c = false
  last : ∃ c, l.getLast? = some c ∧ isSpace c = false
  plain : hasComment true l = false

/-- A line that goes on: spaces, a text, spaces, a backslash, spaces. -/
structure Cont where
  pre : List Char
  text : List Char
  gap : List Char
  post : List Char

def Cont.show (c : Cont) : List Char := c.pre ++ c.text ++ c.gap ++ '\\' :: c.post ++ ['\n']

structure Cont.Ok (c : Cont) : Prop where
  pre : Gap c.pre
  text : Text c.text
  gap : Gap c.gap
  post : Gap c.post

/-- What a user writes. -/
inductive Item
  | blank (s : List Char)
  | comment (s text : List Char)
  /-- a command over several lines, the last with spaces and maybe a comment -/
  | cmd (conts : List Cont) (pre text gap : List Char) (comment : Option (List Char))

/-- The comment at the end of a line. -/
def tail : Option (List Char) → List Char
  | none => []
  | some t => '#' :: t

def Item.show : Item → List Char
  | .blank s => s ++ ['\n']
  | .comment s t => s ++ '#' :: t ++ ['\n']
  | .cmd cs pre text gap com => (cs.map Cont.show).flatten ++ (pre ++ text ++ gap ++ tail com ++ ['\n'])

/-- A backslash at the end of the last line would make it go on; a comment has a space before it. -/
def Item.Ok : Item → Prop
  | .blank s => Gap s
  | .comment s t => Gap s ∧ Rest t
  | .cmd cs pre text gap com =>
    (∀ c ∈ cs, c.Ok) ∧ Gap pre ∧ Text text ∧ text.getLast? ≠ some '\\' ∧ Gap gap ∧
      ∀ t, com = some t → Rest t ∧ gap ≠ []

/-- How many lines it has. -/
def Item.lines : Item → Nat
  | .cmd cs _ _ _ _ => cs.length + 1
  | _ => 1

/-- The texts of a command. -/
def Item.texts : Item → Option (List (List Char))
  | .cmd cs _ text _ _ => some (cs.map (·.text) ++ [text])
  | _ => none

/-- The words of a text. -/
def wordsAux (cur : List Char) : List Char → List (List Char)
  | [] => if cur = [] then [] else [cur]
  | c :: cs =>
    if isSpace c then (if cur = [] then wordsAux [] cs else cur :: wordsAux [] cs)
    else wordsAux (cur ++ [c]) cs

def words (l : List Char) : List (List Char) := wordsAux [] l

/-- The commands of a file: the number of their last line and their words. -/
def commands (no : Nat) : List Item → List (Nat × List (List Char))
  | [] => []
  | i :: is =>
    match i.texts with
    | some ts => (no + i.lines, ts.flatMap words) :: commands (no + i.lines) is
    | none => commands (no + i.lines) is

/-- What was read: numbers of lines and words. -/
def read : List Ev → List (Nat × List (List Char))
  | [] => []
  | .line no t :: es => (no, words t) :: read es
  | .overrun :: es => read es

/-! ## Execution -/

variable {C : Type}

/-- All lines are commands: their numbers and the commands. -/
def Parsed (L : Lang C) : List Ev → List (Nat × C) → Prop
  | [], [] => True
  | .line no t :: es, c :: cs => c.1 = no ∧ L.parse t = .ok c.2 ∧ Parsed L es cs
  | _, _ => False

/-- Nothing goes wrong with these commands, one after another, after `h`. -/
def Good (L : Lang C) : List C → List C → Prop
  | _, [] => True
  | h, c :: cs => L.rc h c = 0 ∧ Good L (h ++ [c]) cs

/-- The commands of a text, those of an included file after the include, with files nested
no deeper than `n`. -/
inductive Expands (fs : String → Option (List Char)) (L : Lang C) : Nat → List Ev → List C → Prop
  | nil {n : Nat} : Expands fs L n [] []
  | plain {n no : Nat} {t : List Char} {c : C} {es : List Ev} {cs : List C} :
      L.parse t = .ok c → L.incl c = none → Expands fs L n es cs → Expands fs L n (.line no t :: es) (c :: cs)
  | incl {n no : Nat} {t t' : List Char} {c : C} {p : String} {es : List Ev} {cs ds : List C} :
      L.parse t = .ok c → L.incl c = some p → fs p = some t' → Expands fs L n (scan t') ds →
      Expands fs L (n + 1) es cs → Expands fs L (n + 1) (.line no t :: es) (c :: (ds ++ cs))

/-- Several files: the commands without and with those of included files. -/
inductive Files (fs : String → Option (List Char)) (L : Lang C) (n : Nat) : List String → List C → List C → Prop
  | nil : Files fs L n [] [] []
  | cons {p : String} {t : List Char} {ps : List String} {cs : List (Nat × C)} {ds top all : List C} :
      fs p = some t → Parsed L (scan t) cs → Expands fs L n (scan t) ds → Files fs L n ps top all →
      Files fs L n (p :: ps) (cs.map (·.2) ++ top) (ds ++ all)

/-- `q` is `p`, or is included by `p` or by a file it includes, and so on. -/
inductive Reach (fs : String → Option (List Char)) (L : Lang C) (p : String) : String → Prop
  | here : Reach fs L p p
  | incl {q r : String} {t s : List Char} {no : Nat} {c : C} : Reach fs L p q → fs q = some s →
      .line no t ∈ scan s → L.parse t = .ok c → L.incl c = some r → Reach fs L p r

/-- A file that is not there or has a line that is no command. -/
def Bad (fs : String → Option (List Char)) (L : Lang C) (q : String) : Prop :=
  ∀ s, fs q = some s → ∃ no t e, .line no t ∈ scan s ∧ L.parse t = .error e

end Verif.CfgFile
