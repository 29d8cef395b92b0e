import Verif.RowJson.Model

/-!
# Specification: reading JSON

A reader for JSON texts (RFC 8259), written without regard to how rows are printed.
-/

namespace Verif.RowJson

/-- A JSON value.  A number is `m * 10 ^ e`. -/
inductive JVal
  | null
  | bool (b : Bool)
  | num (m e : Int)
  | str (s : List Char)
  | arr (l : List JVal)
  | obj (l : List (List Char × JVal))

/-- The value of decimal digits. -/
def natOf (l : List Char) : Nat := l.foldl (fun n c => n * 10 + (c.toNat - 48)) 0

/-- Digits at the start of a text, and what follows. -/
def digits : List Char → List Char × List Char
  | [] => ([], [])
  | c :: s => if c.isDigit then (c :: (digits s).1, (digits s).2) else ([], c :: s)

/-- Leave out white space. -/
def skipWs : List Char → List Char
  | [] => []
  | c :: s => if c = ' ' ∨ c = '\t' ∨ c = '\n' ∨ c = '\r' then skipWs s else c :: s

/-- The integer part of a number: zero, or digits of which the first is not zero. -/
def intPart (s : List Char) : Option (List Char × List Char) :=
  match digits s with
  | ([], _) => none
  | ('0' :: _ :: _, _) => none
  | p => some p

/-- The fraction, if there is one. -/
def fracPart (s : List Char) : Option (List Char × List Char) :=
  match s with
  | '.' :: s =>
    match digits s with
    | ([], _) => none
    | p => some p
  | s => some ([], s)

/-- The digits of an exponent. -/
def expDigits (neg : Bool) (s : List Char) : Option (Int × List Char) :=
  match digits s with
  | ([], _) => none
  | (d, s) => some (if neg then -(natOf d) else natOf d, s)

/-- The exponent after its letter. -/
def expSigned : List Char → Option (Int × List Char)
  | '-' :: s => expDigits true s
  | '+' :: s => expDigits false s
  | s => expDigits false s

/-- The exponent, if there is one. -/
def expPart : List Char → Option (Int × List Char)
  | 'e' :: s => expSigned s
  | 'E' :: s => expSigned s
  | s => some (0, s)

/-- A number without sign. -/
def unsigned (neg : Bool) (s : List Char) : Option (JVal × List Char) :=
  match intPart s with
  | none => none
  | some (i, s) =>
    match fracPart s with
    | none => none
    | some (f, s) =>
      match expPart s with
      | none => none
      | some (e, s) =>
        let m : Int := natOf (i ++ f)
        some (.num (if neg then -m else m) (e - f.length), s)

/-- A number. -/
def number : List Char → Option (JVal × List Char)
  | '-' :: s => unsigned true s
  | s => unsigned false s

/-- A hexadecimal digit. -/
def hexVal (c : Char) : Option Nat :=
  if c.isDigit then some (c.toNat - 48)
  else if 'a' ≤ c ∧ c ≤ 'f' then some (c.toNat - 87)
  else if 'A' ≤ c ∧ c ≤ 'F' then some (c.toNat - 55)
  else none

/-- What follows a backslash. -/
def escape : Char → Option Char
  | '"' => some '"'
  | '\\' => some '\\'
  | '/' => some '/'
  | 'b' => some (Char.ofNat 8)
  | 'f' => some (Char.ofNat 12)
  | 'n' => some '\n'
  | 'r' => some '\r'
  | 't' => some '\t'
  | _ => none

/-- Four hexadecimal digits. -/
def hex4 (a b c d : Char) : Option Char :=
  match hexVal a, hexVal b, hexVal c, hexVal d with
  | some a, some b, some c, some d => some (Char.ofNat (((a * 16 + b) * 16 + c) * 16 + d))
  | _, _, _, _ => none

/-- A string after its opening quote, and what follows it. -/
def string : List Char → Option (List Char × List Char)
  | [] => none
  | '"' :: s => some ([], s)
  | '\\' :: 'u' :: a :: b :: c :: d :: s =>
    match hex4 a b c d with
    | none => none
    | some x => (string s).map fun p => (x :: p.1, p.2)
  | '\\' :: c :: s =>
    match escape c with
    | none => none
    | some x => (string s).map fun p => (x :: p.1, p.2)
  | c :: s => if c.toNat < 32 ∨ c = '\\' then none else (string s).map fun p => (c :: p.1, p.2)

mutual

/-- A value at the start of a text, and what follows it. -/
def value : Nat → List Char → Option (JVal × List Char)
  | 0, _ => none
  | n + 1, s =>
    match skipWs s with
    | '"' :: s => (string s).map fun p => (.str p.1, p.2)
    | '[' :: s =>
      match skipWs s with
      | ']' :: s => some (.arr [], s)
      | s => (elems n s).map fun p => (.arr p.1, p.2)
    | '{' :: s =>
      match skipWs s with
      | '}' :: s => some (.obj [], s)
      | s => (members n s).map fun p => (.obj p.1, p.2)
    | 't' :: 'r' :: 'u' :: 'e' :: s => some (.bool true, s)
    | 'f' :: 'a' :: 'l' :: 's' :: 'e' :: s => some (.bool false, s)
    | 'n' :: 'u' :: 'l' :: 'l' :: s => some (.null, s)
    | s => number s

/-- The elements of an array up to its end. -/
def elems : Nat → List Char → Option (List JVal × List Char)
  | 0, _ => none
  | n + 1, s =>
    match value n s with
    | none => none
    | some (v, s) =>
      match skipWs s with
      | ',' :: s => (elems n s).map fun p => (v :: p.1, p.2)
      | ']' :: s => some ([v], s)
      | _ => none

/-- The members of an object up to its end. -/
def members : Nat → List Char → Option (List (List Char × JVal) × List Char)
  | 0, _ => none
  | n + 1, s =>
    match skipWs s with
    | '"' :: s =>
      match string s with
      | none => none
      | some (k, s) =>
        match skipWs s with
        | ':' :: s =>
          match value n s with
          | none => none
          | some (v, s) =>
            match skipWs s with
            | ',' :: s => (members n s).map fun p => ((k, v) :: p.1, p.2)
            | '}' :: s => some ([(k, v)], s)
            | _ => none
        | _ => none
    | _ => none

end

/-- Read a text as JSON. -/
def readJson (s : List Char) : Option JVal :=
  match value (s.length + 1) s with
  | some (v, r) => if skipWs r = [] then some v else none
  | none => none

/-! ## What a row should say -/

/-- The number a text stands for; null if it does not. -/
def numVal (t : List Char) : JVal :=
  match number t with
  | some (v, []) => v
  | _ => .null

/-- The JSON value of a column.  A time stamp is in seconds. -/
def jval : CVal → JVal
  | .int _ v => .num v 0
  | .flt _ t => numVal t
  | .chr c => .str [c]
  | .str s => .str s
  | .ts sec usec => .num (sec * 1000000 + usec) (-6)
  | .ints _ vs => .arr (vs.map fun v => .num v 0)
  | .flts _ ts => .arr (ts.map numVal)
  | .other => .null

/-- A character that stands for itself in a string. -/
def plainChar (c : Char) : Prop := 32 ≤ c.toNat ∧ c ≠ '"' ∧ c ≠ '\\'

/-- A text of such characters. -/
def Plain (s : List Char) : Prop := ∀ c ∈ s, plainChar c

/-- A floating point number that is one: not infinite, not `nan`. -/
def IsNum (t : List Char) : Prop := ∃ v, number t = some (v, [])

/-- A length that the growing buffer can deal with. -/
def GoodLen (n : Nat) : Prop := n % 8192 ≠ 0

/-- A column that can be printed: the integers are of 64 bits, strings do not have
characters that must be escaped nor an unlucky length, and floating point numbers are
numbers, of which `printf` makes at most 30 characters. -/
def Printable : CVal → Prop
  | .int _ v => v.natAbs < 2 ^ 64
  | .flt _ t => IsNum t ∧ t.length ≤ 30
  | .chr c => plainChar c
  | .str s => Plain s ∧ GoodLen (s.length + 2)
  | .ts sec usec => sec < 2 ^ 32 ∧ usec < 1000000
  | .ints _ vs => ∀ v ∈ vs, v.natAbs < 2 ^ 64
  | .flts _ ts => ∀ t ∈ ts, IsNum t ∧ t.length ≤ 30
  | .other => False

/-! ## What an Avro schema should say -/

/-- A logical type. -/
def logical (ty l : String) : JVal :=
  .obj [("type".toList, .str ty.toList), ("logicalType".toList, .str l.toList)]

/-- The Avro type of an integer. -/
def avroInt : IKind → JVal
  | .u8 => logical "int" "uint8"
  | .s8 => logical "int" "int8"
  | .u16 => logical "int" "unsigned-short"
  | .s16 => logical "int" "signed-short"
  | .u32 => logical "long" "unsigned-int"
  | .s32 => .str "int".toList
  | .u64 => logical "long" "unsigned-long"
  | .s64 => .str "long".toList

/-- The Avro type of a floating point number. -/
def avroFlt : FKind → JVal
  | .f32 => .str "float".toList
  | .d64 => .str "double".toList

/-- The Avro type of an array. -/
def avroArray (ty : JVal) : JVal :=
  .obj [("type".toList, .str "array".toList), ("items".toList, ty)]

/-- The type of a column and its default, if it has one. -/
def avroType : CVal → JVal × Option JVal
  | .int k _ => (avroInt k, some (.num 0 0))
  | .flt k _ => (avroFlt k, some (.num 0 (-1)))
  | .chr _ => (logical "string" "single-character", some (.str [' ']))
  | .str _ => (.str "string".toList, some (.str []))
  | .ts _ _ => (logical "long" "timestamp-millis", none)
  | .ints k _ => (avroArray (avroInt k), some (.arr []))
  | .flts k _ => (avroArray (avroFlt k), some (.arr []))
  | .other => (.null, none)

/-- The field of a column. -/
def avroField (c : Col) : JVal :=
  .obj (("name".toList, .str (avroName c.name)) :: ("type".toList, (avroType c.val).1) ::
    match (avroType c.val).2 with
    | some d => [("default".toList, d)]
    | none => [])

/-- The schema of a row. -/
def avroSchema (schema : List Char) (cols : List Col) : JVal :=
  .obj [("name".toList, .str schema), ("type".toList, .str "record".toList),
    ("fields".toList, .arr (cols.map avroField))]

end Verif.RowJson
