import Verif.JsonText.Model
import Verif.RowJson.Spec

/-!
# Specification: what a JSON text says

The texts and their values are those of the reader for RFC 8259 in `Verif/RowJson/Spec.lean`
(`RowJson.readJson`), which knows nothing of the library.
-/

namespace Verif.JsonText

open Verif.RowJson (JVal)

mutual

/-- An entity holds a JSON value.  The attributes of a dictionary may be in any order. -/
inductive Holds : JVal → Ent → Prop
  | null : Holds .null .null
  | bool (b) : Holds (.bool b) (.bool b)
  | int (v) : Holds (.num v 0) (.int v)
  | flt {m x t} : RowJson.number t = some (.num m x, []) → Holds (.num m x) (.flt t)
  | str (s) : Holds (.str s) (.str s)
  | arr {l es} : HoldsAll l es → Holds (.arr l) (.list es)
  | obj {l d d'} : HoldsObj l d' → d'.Perm d → Holds (.obj l) (.dict d)

/-- Element by element. -/
inductive HoldsAll : List JVal → List Ent → Prop
  | nil : HoldsAll [] []
  | cons {v e l es} : Holds v e → HoldsAll l es → HoldsAll (v :: l) (e :: es)

/-- Member by member, under the same name. -/
inductive HoldsObj : List (Text × JVal) → List (Text × Ent) → Prop
  | nil : HoldsObj [] []
  | cons {k v e l d} : Holds v e → HoldsObj l d → HoldsObj ((k, v) :: l) ((k, e) :: d)

end

mutual

/-- Integers are of 64 bits, and no member of an object has a name that is a name, or the start of a name,
before it. -/
def Fits : JVal → Prop
  | .num m x => x = 0 → -2 ^ 63 ≤ m ∧ m < 2 ^ 63
  | .arr l => FitsAll l
  | .obj l => FitsObj l ∧ l.Pairwise fun a b => ¬ b.1 <+: a.1
  | _ => True

def FitsAll : List JVal → Prop
  | [] => True
  | v :: l => Fits v ∧ FitsAll l

def FitsObj : List (Text × JVal) → Prop
  | [] => True
  | (_, v) :: l => Fits v ∧ FitsObj l

end

mutual

/-- The value an entity stands for, with the printed text of its floating point numbers. -/
def meaning (fmt : Text → Text) : Ent → JVal
  | .int v => .num v 0
  | .bool b => .bool b
  | .flt t => RowJson.numVal (fmt t)
  | .str s => .str s
  | .null => .null
  | .list l => .arr (meaningAll fmt l)
  | .dict d => .obj (meaningObj fmt d)

def meaningAll (fmt : Text → Text) : List Ent → List JVal
  | [] => []
  | e :: l => meaning fmt e :: meaningAll fmt l

def meaningObj (fmt : Text → Text) : List (Text × Ent) → List (Text × JVal)
  | [] => []
  | (k, e) :: d => (k, meaning fmt e) :: meaningObj fmt d

end

mutual

/-- An entity whose strings and names need no escapes, whose integers are of 64 bits, whose floating point
numbers are printed as JSON numbers, and in whose dictionaries no name is the start of a name listed before
it. -/
def Sane (fmt : Text → Text) : Ent → Prop
  | .int v => -2 ^ 63 ≤ v ∧ v < 2 ^ 63
  | .flt t => RowJson.IsNum (fmt t) ∧ Fits (RowJson.numVal (fmt t))
  | .str s => RowJson.Plain s
  | .list l => SaneAll fmt l
  | .dict d => SaneObj fmt d ∧ d.Pairwise fun a b => ¬ b.1 <+: a.1
  | _ => True

def SaneAll (fmt : Text → Text) : List Ent → Prop
  | [] => True
  | e :: l => Sane fmt e ∧ SaneAll fmt l

def SaneObj (fmt : Text → Text) : List (Text × Ent) → Prop
  | [] => True
  | (k, e) :: d => RowJson.Plain k ∧ Sane fmt e ∧ SaneObj fmt d

end

mutual

/-- The text of an entity: elements and members in order, separated by commas. -/
def text (fmt : Text → Text) : Ent → Text
  | .int v => decInt v
  | .bool true => "true".toList
  | .bool false => "false".toList
  | .flt t => fmt t
  | .str s => '"' :: s ++ ['"']
  | .null => "null".toList
  | .list l => '[' :: textAll fmt l true
  | .dict d => '{' :: textObj fmt d true

def textAll (fmt : Text → Text) : List Ent → Bool → Text
  | [], _ => [']']
  | e :: l, first => (if first then [] else [',']) ++ text fmt e ++ textAll fmt l false

def textObj (fmt : Text → Text) : List (Text × Ent) → Bool → Text
  | [], _ => ['}']
  | (k, e) :: d, first =>
    (if first then [] else [',']) ++ ('"' :: k ++ ['"', ':']) ++ text fmt e ++ textObj fmt d false

end

/-- A list or a dictionary. -/
def Ent.compound : Ent → Prop
  | .list _ => True
  | .dict _ => True
  | _ => False

mutual

/-- Two entities with the same contents, attributes in any order. -/
inductive Same : Ent → Ent → Prop
  | int (v) : Same (.int v) (.int v)
  | bool (b) : Same (.bool b) (.bool b)
  | flt (t) : Same (.flt t) (.flt t)
  | str (s) : Same (.str s) (.str s)
  | null : Same .null .null
  | list {l l'} : SameAll l l' → Same (.list l) (.list l')
  | dict {d d₁ d'} : SameObj d d₁ → d₁.Perm d' → Same (.dict d) (.dict d')

inductive SameAll : List Ent → List Ent → Prop
  | nil : SameAll [] []
  | cons {e e' l l'} : Same e e' → SameAll l l' → SameAll (e :: l) (e' :: l')

inductive SameObj : List (Text × Ent) → List (Text × Ent) → Prop
  | nil : SameObj [] []
  | cons {k e e' d d'} : Same e e' → SameObj d d' → SameObj ((k, e) :: d) ((k, e') :: d')

end

mutual

/-- In no dictionary is a name the start of a name listed before it. -/
def NoPrefix : Ent → Prop
  | .list l => NoPrefixAll l
  | .dict d => NoPrefixObj d ∧ d.Pairwise fun a b => ¬ b.1 <+: a.1
  | _ => True

def NoPrefixAll : List Ent → Prop
  | [] => True
  | e :: l => NoPrefix e ∧ NoPrefixAll l

def NoPrefixObj : List (Text × Ent) → Prop
  | [] => True
  | (_, e) :: d => NoPrefix e ∧ NoPrefixObj d

end

mutual

/-- No string and no name has a closing bracket in it. -/
def NoClose : Ent → Prop
  | .str s => ']' ∉ s ∧ '}' ∉ s
  | .list l => NoCloseAll l
  | .dict d => NoCloseObj d
  | _ => True

def NoCloseAll : List Ent → Prop
  | [] => True
  | e :: l => NoClose e ∧ NoCloseAll l

def NoCloseObj : List (Text × Ent) → Prop
  | [] => True
  | (k, e) :: d => (']' ∉ k ∧ '}' ∉ k) ∧ NoClose e ∧ NoCloseObj d

end

end Verif.JsonText
