/-!
# Rows as JSON

`ldms/src/ldmsd/ldmsd_decomp.c`: how the row of a decomposition is made into a JSON
array, a JSON object, or an Avro schema, for the stores that want text.  A character is
a byte.
-/

namespace Verif.RowJson

/-- The integer types of columns, `enum ldms_value_type`. -/
inductive IKind
  | s8 | u8 | s16 | u16 | s32 | u32 | s64 | u64
  deriving DecidableEq

/-- The floating point types. -/
inductive FKind
  | f32 | d64
  deriving DecidableEq

/-- The type and value of a column, `ldmsd_col_s`.  A floating point number is what
`printf` makes of it with `%.9g` or `%.17g`.  A string is what comes before its NUL. -/
inductive CVal
  | int (k : IKind) (v : Int)
  | flt (k : FKind) (text : List Char)
  | chr (c : Char)
  | str (s : List Char)
  | ts (sec usec : Nat)
  | ints (k : IKind) (vs : List Int)
  | flts (k : FKind) (texts : List (List Char))
  /-- A list, a record, a record type, or no value. -/
  | other
  deriving DecidableEq

/-- `ldmsd_col_s`. -/
structure Col where
  name : List Char
  val : CVal

/-! ## The growing buffer -/

/-- `BUFSIZ` of the C library. -/
def bufsiz : Nat := 8192

/-- `strbuf_s`, ldmsd_decomp.c:326-331: `off` is the length of `data`, `remain` is what
is left of `cap`. -/
structure Buf where
  data : List Char
  cap : Nat

/-- `(len + BUFSIZ - 1) & ~(BUFSIZ-1)`, ldmsd_decomp.c:358. -/
def roundUp (n : Nat) : Nat := (n + bufsiz - 1) / bufsiz * bufsiz

/-- `strbuf_printf`, ldmsd_decomp.c:345-377, of a piece that is formatted already.  The
last buffer is at the head of the list.  Each round of the loop takes one of `fuel`;
none means that the loop has not ended.  `malloc` does not fail. -/
def printIn : Nat → List Buf → List Char → Option (List Buf)
  | 0, _, _ => none
  | fuel + 1, [], p => printIn fuel [⟨[], roundUp bufsiz⟩] p
  | fuel + 1, b :: h, p =>
    if p.length ≥ b.cap - b.data.length then
      printIn fuel (⟨[], roundUp p.length⟩ :: b :: h) p
    else some (⟨b.data ++ p, b.cap⟩ :: h)

/-- `strbuf_printf` with rounds enough: it is shown that three are. -/
def printf (h : List Buf) (p : List Char) : Option (List Buf) := printIn 3 h p

/-- `strbuf_str`, ldmsd_decomp.c:379-398. -/
def strbufStr (h : List Buf) : List Char := (h.reverse.map (·.data)).flatten

/-- Outcome of printing a row. -/
inductive Out
  | ok (text : List Char)
  | einval
  /-- Buffers are allocated without end. -/
  | hang
  deriving DecidableEq

/-- Print pieces one after the other; `none` stands for the return of `EINVAL`. -/
def printAll : List Buf → List (Option (List Char)) → Out
  | h, [] => .ok (strbufStr h)
  | _, none :: _ => .einval
  | h, some p :: l =>
    match printf h p with
    | none => .hang
    | some h' => printAll h' l

/-! ## Formatting -/

/-- A decimal digit. -/
def digit (n : Nat) : Char := Char.ofNat (48 + n)

/-- `%u`: decimal digits. -/
def dec (n : Nat) : List Char :=
  if n < 10 then [digit n] else dec (n / 10) ++ [digit (n % 10)]
termination_by n

/-- `%d`, `%u` and their variants for the sizes. -/
def decInt (v : Int) : List Char :=
  if v < 0 then '-' :: dec v.natAbs else dec v.natAbs

/-- `%06u`. -/
def dec6 (n : Nat) : List Char := List.replicate (6 - (dec n).length) '0' ++ dec n

/-- The pieces of an array, ldmsd_decomp.c:467-655: the first element without, the others
with a comma. -/
def elemPieces : List (List Char) → List (Option (List Char))
  | [] => [some ['['], some [']']]
  | t :: l => some ['['] :: some t :: (l.map fun u => some (',' :: u)) ++ [some [']']]

/-- `strbuf_printcol` and the functions in its table, ldmsd_decomp.c:400-694. -/
def colPieces : CVal → List (Option (List Char))
  | .int _ v => [some (decInt v)]
  | .flt _ t => [some t]
  | .chr c => [some ['"', c, '"']]
  | .str s => [some ('"' :: s ++ ['"'])]
  | .ts sec usec => [some (dec sec ++ '.' :: dec6 usec)]
  | .ints _ vs => elemPieces (vs.map decInt)
  | .flts _ ts => elemPieces ts
  | .other => [none]

/-- Put a comma before each but the first. -/
def commas : List (List (Option (List Char))) → List (Option (List Char))
  | [] => []
  | c :: l => c ++ (l.map fun d => some [','] :: d).flatten

/-- `ldmsd_row_to_json_array`, ldmsd_decomp.c:696-727. -/
def toArray (cols : List Col) : Out :=
  printAll [] (some ['['] :: commas (cols.map fun c => colPieces c.val) ++ [some [']']])

/-- `ldmsd_row_to_json_object`, ldmsd_decomp.c:729-763. -/
def toObject (cols : List Col) : Out :=
  printAll [] (some ['{'] ::
    commas (cols.map fun c => some ('"' :: c.name ++ ['"', ':']) :: colPieces c.val) ++
    [some ['}']])

/-! ## Avro schema -/

/-- `col_type_str`, ldmsd_decomp.c:765-798, for integers and their arrays. -/
def intType : IKind → List Char
  | .u8 => "{\"type\":\"int\",\"logicalType\":\"uint8\"}".toList
  | .s8 => "{\"type\":\"int\",\"logicalType\":\"int8\"}".toList
  | .u16 => "{\"type\":\"int\",\"logicalType\":\"unsigned-short\"}".toList
  | .s16 => "{\"type\":\"int\",\"logicalType\":\"signed-short\"}".toList
  | .u32 => "{\"type\":\"long\",\"logicalType\":\"unsigned-int\"}".toList
  | .s32 => "\"int\"".toList
  | .u64 => "{\"type\":\"long\",\"logicalType\":\"unsigned-long\"}".toList
  | .s64 => "\"long\"".toList

/-- `col_type_str`, ldmsd_decomp.c:765-798, for floating point numbers. -/
def fltType : FKind → List Char
  | .f32 => "\"float\"".toList
  | .d64 => "\"double\"".toList

/-- `get_avro_char`, ldmsd_decomp.c:835-842, with the character classes of the C
locale. -/
def avroChar (c : Char) : Char := if c.isAlphanum || c = '-' then c else '_'

/-- `ldmsd_avro_name_get`, ldmsd_decomp.c:844-854. -/
def avroName (n : List Char) : List Char := n.map avroChar

/-- The piece of a field with a default, ldmsd_decomp.c:900-904. -/
def withDefault (n ty dflt : List Char) : List Char :=
  "{\"name\":\"".toList ++ n ++ "\",\"type\":".toList ++ ty ++ ",\"default\":".toList ++ dflt ++
    ['}']

/-- The type of an array, ldmsd_decomp.c:918-924. -/
def arrayOf (ty : List Char) : List Char :=
  "{ \"type\" : \"array\", \"items\": ".toList ++ ty ++ " }".toList

/-- The piece of a column, ldmsd_decomp.c:880-935, with `col_default`, 800-833. -/
def fieldPiece (c : Col) : Option (List Char) :=
  let n := avroName c.name
  match c.val with
  | .ts _ _ =>
    some ("{\"name\":\"".toList ++ n ++ "\",\"type\":".toList ++
      "{\"type\":\"long\",\"logicalType\":\"timestamp-millis\"}".toList ++ ['}'])
  | .int k _ => some (withDefault n (intType k) "0".toList)
  | .flt k _ => some (withDefault n (fltType k) "0.0".toList)
  | .chr _ =>
    some (withDefault n "{\"type\":\"string\",\"logicalType\":\"single-character\"}".toList
      "\" \"".toList)
  | .str _ => some (withDefault n "\"string\"".toList "\"\"".toList)
  | .ints k _ => some (withDefault n (arrayOf (intType k)) "[]".toList)
  | .flts k _ => some (withDefault n (arrayOf (fltType k)) "[]".toList)
  | .other => none

/-- `ldmsd_row_to_json_avro_schema`, ldmsd_decomp.c:856-951. -/
def toAvro (schema : List Char) (cols : List Col) : Out :=
  printAll [] (some ['{'] :: some ("\"name\":\"".toList ++ schema ++ "\",".toList) ::
    some "\"type\":\"record\",".toList :: some "\"fields\":[".toList ::
    commas (cols.map fun c => [fieldPiece c]) ++ [some "]}".toList])

/-- What is in the caller's `size_t` after the length has been stored through
`(int *)len`, ldmsd_decomp.c:941, on a little-endian machine: the upper half stays. -/
def lenAfter (before n : Nat) : Nat := before / 2 ^ 32 * 2 ^ 32 + n % 2 ^ 32

end Verif.RowJson
