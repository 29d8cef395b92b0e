import Verif.JsonDict.Model

/-!
# JSON texts (`lib/src/ovis_json/ovis_json_lexer.l`, `ovis_json_parser.y`, `ovis_json.c`)

A text is a list of characters; bytes of characters outside ASCII are not told apart, and there is no NUL.
Memory is never short, and texts are not nested so deep that the stack of the generated parser is full
(bison's `YYMAXDEPTH`).
-/

namespace Verif.JsonText

abbrev Text := List Char

/-- `struct json_entity_s` (ovis_json.h).  The value of a floating point number is given by a text for it.  A
dictionary is listed in the order of `json_attr_first` and `json_attr_next`: bucket by bucket. -/
inductive Ent
  | int (v : Int)
  | bool (b : Bool)
  | flt (t : Text)
  | str (s : Text)
  | null
  | list (l : List Ent)
  | dict (d : List (Text × Ent))

/-! ## Dictionaries -/

/-- The bucket of a name: `default_hash_fn` (htbl.c:57-67) modulo `JSON_HTBL_DEPTH` (ovis_json.c:155). -/
def bucket (k : Text) : Nat := JsonDict.fnv (k.map Char.toNat) % 23

/-- `htbl_find` takes an entry of the bucket if `attr_cmp` (ovis_json.c:146-153), which compares as many
characters as the wanted name has, finds no difference. -/
def hit (k : Text) (p : Text × Ent) : Bool := decide (bucket p.1 = bucket k) && k.isPrefixOf p.1

/-- `json_attr_find` (ovis_json.c:122-137): the attribute found. -/
def attrFind (d : List (Text × Ent)) (k : Text) : Option (Text × Ent) := d.find? (hit k)

/-- `json_value_find` (ovis_json.c:715-721). -/
def valueFind (d : List (Text × Ent)) (k : Text) : Option Ent := (attrFind d k).map (·.2)

/-- `htbl_ins` (htbl.c:131-138): at the head of the bucket. -/
def attrIns (k : Text) (v : Ent) : List (Text × Ent) → List (Text × Ent)
  | [] => [(k, v)]
  | p :: d => if bucket k ≤ bucket p.1 then (k, v) :: p :: d else p :: attrIns k v d

/-- `json_attr_add` and `__attr_add` (ovis_json.c:506-533): an attribute found under the name is removed
first. -/
def attrAdd (d : List (Text × Ent)) (k : Text) (v : Ent) : List (Text × Ent) :=
  attrIns k v (d.eraseP (hit k))

/-! ## The lexer -/

inductive Tok
  | lb | rb | lc | rc | comma | colon
  | str (raw : Text)
  | int (t : Text)
  | flt (t : Text)
  | bool (b : Bool)
  | null
deriving DecidableEq

/-- `[0-9A-Fa-f]` (ovis_json_lexer.l:64). -/
def isHex (c : Char) : Bool := c.isDigit || ('a' ≤ c && c ≤ 'f') || ('A' ≤ c && c ≤ 'F')

/-- `JSONEscapeCharacter` (ovis_json_lexer.l:65). -/
def isEsc (c : Char) : Bool := c ∈ ['"', '\\', '/', 'b', 'f', 'n', 'r', 't']

/-- `JSONStringCharacter*` and the closing quote (ovis_json_lexer.l:64-68): the characters between the quotes
and what follows, if there is a closing quote and what is after every backslash is known. -/
def strBody : Text → Option (Text × Text)
  | [] => none
  | '"' :: s => some ([], s)
  | '\\' :: 'u' :: a :: b :: c :: d :: s =>
    if isHex a && isHex b && isHex c && isHex d then
      (strBody s).map fun p => ('\\' :: 'u' :: a :: b :: c :: d :: p.1, p.2)
    else none
  | '\\' :: c :: s =>
    if isEsc c then (strBody s).map fun p => ('\\' :: c :: p.1, p.2) else none
  | '\\' :: [] => none
  | c :: s => (strBody s).map fun p => (c :: p.1, p.2)

/-- `[^\']*` and the closing quote (ovis_json_lexer.l:83). -/
def sqBody : Text → Option (Text × Text)
  | [] => none
  | c :: s => if c = '\'' then some ([], s) else (sqBody s).map fun p => (c :: p.1, p.2)

/-- `[-+]?` -/
def sign : Text → Text × Text
  | c :: s => if c = '-' ∨ c = '+' then ([c], s) else ([], c :: s)
  | [] => ([], [])

/-- `[0-9]*` -/
def digs (s : Text) : Text × Text := (s.takeWhile Char.isDigit, s.dropWhile Char.isDigit)

/-- `\.?` -/
def dot : Text → Text × Text
  | c :: s => if c = '.' then ([c], s) else ([], c :: s)
  | [] => ([], [])

/-- `([eE][-+]?[0-9]+)?` -/
def expo : Text → Text × Text
  | c :: s =>
    if c = 'e' ∨ c = 'E' then
      let g := sign s
      let d := digs g.2
      if d.1 = [] then ([], c :: s) else (c :: g.1 ++ d.1, d.2)
    else ([], c :: s)
  | [] => ([], [])

/-- `[-+]?[0-9]+` (ovis_json_lexer.l:95): what it matches, nothing if it does not. -/
def intMatch (s : Text) : Text :=
  let g := sign s
  let d := digs g.2
  if d.1 = [] then [] else g.1 ++ d.1

/-- `[-+]?[0-9]*\.?[0-9]*([eE][-+]?[0-9]+)?` (ovis_json_lexer.l:99): what it matches, and what follows. -/
def fltMatch (s : Text) : Text × Text :=
  let g := sign s
  let a := digs g.2
  let p := dot a.2
  let b := digs p.2
  let e := expo b.2
  (g.1 ++ a.1 ++ p.1 ++ b.1 ++ e.1, e.2)

/-- The words (ovis_json_lexer.l:103-107), and the character no rule knows, which is passed over
(ovis_json_lexer.l:93-94, 108). -/
def word : Text → Option Tok × Text
  | 't' :: 'r' :: 'u' :: 'e' :: s => (some (.bool true), s)
  | 'f' :: 'a' :: 'l' :: 's' :: 'e' :: s => (some (.bool false), s)
  | 'n' :: 'u' :: 'l' :: 'l' :: s => (some .null, s)
  | s => (none, s.tail)

/-- One match of the scanner (ovis_json_lexer.l:79-108): the longest, and of these the rule that comes first.
The text is not empty. -/
def lexOne (c : Char) (s : Text) : Option Tok × Text :=
  if c = '"' then
    match strBody s with
    | some (raw, r) => (some (.str raw), r)
    | none => (none, s)
  else if c = '\'' then
    match sqBody s with
    | some (raw, r) => (some (.str raw), r)
    | none => (none, s)
  else if c = '[' then (some .lb, s)
  else if c = ']' then (some .rb, s)
  else if c = '{' then (some .lc, s)
  else if c = '}' then (some .rc, s)
  else if c = ',' then (some .comma, s)
  else if c = ':' then (some .colon, s)
  else
    let f := fltMatch (c :: s)
    if f.1 = [] then word (c :: s)
    else if intMatch (c :: s) = f.1 then (some (.int f.1), f.2)
    else (some (.flt f.1), f.2)

/-- The tokens of a text; the number bounds the calls. -/
def lexN : Nat → Text → List Tok
  | 0, _ => []
  | _ + 1, [] => []
  | n + 1, c :: s =>
    match lexOne c s with
    | (some t, r) => t :: lexN n r
    | (none, r) => lexN n r

def lex (s : Text) : List Tok := lexN s.length s

/-! ## Values of tokens -/

/-- Digits below a base, to the first that is not. -/
def foldBase (base : Nat) (s : Text) : Nat :=
  (s.takeWhile fun c => decide (c.toNat < 48 + base)).foldl (fun n c => n * base + (c.toNat - 48)) 0

/-- What is left of an integer after the sign: octal if it starts with a zero. -/
def magnitude : Text → Nat
  | '0' :: s => foldBase 8 s
  | s => foldBase 10 s

/-- A number brought to the range of an `int64_t`. -/
def clamp (v : Int) : Int := if v < -2 ^ 63 then -2 ^ 63 else if 2 ^ 63 ≤ v then 2 ^ 63 - 1 else v

/-- `new_int_val` (ovis_json_lexer.l:27-30): `strtoll` with base 0. -/
def strtoll : Text → Int
  | '-' :: s => clamp (-(magnitude s : Int))
  | '+' :: s => clamp (magnitude s)
  | s => clamp (magnitude s)

/-! ## The parser -/

mutual

/-- `value` (ovis_json_parser.y:91-106) with `dict` and `array`. -/
def pvalue : Nat → List Tok → Option (Ent × List Tok)
  | 0, _ => none
  | _ + 1, .int t :: r => some (.int (strtoll t), r)
  | _ + 1, .flt t :: r => some (.flt t, r)
  | _ + 1, .bool b :: r => some (.bool b, r)
  | _ + 1, .null :: r => some (.null, r)
  | _ + 1, .str s :: r => some (.str s, r)
  | n + 1, .lb :: r =>
    if r.head? = some .rb ∨ r.head? = some .comma then pitems n [] r else pitem n [] r
  | n + 1, .lc :: r =>
    if r.head? = some .rc ∨ r.head? = some .comma then pattrs n [] r else pattr n [] r
  | _ + 1, _ => none

/-- A value and the rest of `item_list` (ovis_json_parser.y:120-128). -/
def pitem : Nat → List Ent → List Tok → Option (Ent × List Tok)
  | 0, _, _ => none
  | n + 1, acc, r =>
    match pvalue n r with
    | some (v, r) => pitems n (acc ++ [v]) r
    | none => none

/-- The rest of `item_list`, and the end of the array. -/
def pitems : Nat → List Ent → List Tok → Option (Ent × List Tok)
  | 0, _, _ => none
  | _ + 1, acc, .rb :: r => some (.list acc, r)
  | n + 1, acc, .comma :: r => pitem n acc r
  | _ + 1, _, _ => none

/-- A name, a value and the rest of `attr_list` (ovis_json_parser.y:108-118). -/
def pattr : Nat → List (Text × Ent) → List Tok → Option (Ent × List Tok)
  | n + 1, d, .str k :: .colon :: r =>
    match pvalue n r with
    | some (v, r) => pattrs n (attrAdd d k v) r
    | none => none
  | _, _, _ => none

/-- The rest of `attr_list`, and the end of the dictionary. -/
def pattrs : Nat → List (Text × Ent) → List Tok → Option (Ent × List Tok)
  | 0, _, _ => none
  | _ + 1, d, .rc :: r => some (.dict d, r)
  | n + 1, d, .comma :: r => pattr n d r
  | _ + 1, _, _ => none

end

/-- `json_parse_buffer` (ovis_json_lexer.l:131-149): the parser accepts as soon as it has a value
(ovis_json_parser.y:85-89) and does not look at what follows.  `none` is a syntax error. -/
def parse (s : Text) : Option Ent := (pvalue (2 * (lex s).length) (lex s)).map (·.1)

/-- `json_verify_string` (ovis_json.c:20-33). -/
def verify (s : Text) : Bool := (parse s).isSome

/-! ## Printing -/

def digit (n : Nat) : Char := Char.ofNat (48 + n)

def decNat (n : Nat) : Text := if n < 10 then [digit n] else decNat (n / 10) ++ [digit (n % 10)]
termination_by n

/-- `%ld` -/
def decInt (v : Int) : Text := if v < 0 then '-' :: decNat v.natAbs else decNat v.natAbs

/-- A block of memory with a `jbuf_t` (ovis_json.h): its address, its room and what is printed. -/
structure Blk where
  addr : Nat
  cap : Nat
  text : Text

/-- `jbuf_new` (ovis_json.c:35-43) -/
def jbufNew : Blk := ⟨0, 8192, []⟩

/-- `jbuf_append_str` (ovis_json.c:55-85).  When the text and its NUL do not fit the block is given up for a
new one by `realloc`; any use of a pointer to a block given up is `none`. -/
def append (b : Blk) (jb : Nat) (p : Text) : Option (Blk × Nat) :=
  if jb ≠ b.addr then none
  else if p.length ≥ b.cap - b.text.length then
    some (⟨b.addr + 1, b.cap + p.length + 8192, b.text ++ p⟩, b.addr + 1)
  else some (⟨b.addr, b.cap, b.text ++ p⟩, b.addr)

variable (fmt : Text → Text)

mutual

/-- `__entity_dump` (ovis_json.c:370-406) on the block with the pointer the caller has; the block after that
and the pointer returned.  `fmt` is `%f`.  The results of `__list_dump` and `__dict_dump` are not taken. -/
def dump : Ent → Blk → Nat → Option (Blk × Nat)
  | .int v, b, jb => append b jb (decInt v)
  | .bool true, b, jb => append b jb "true".toList
  | .bool false, b, jb => append b jb "false".toList
  | .flt t, b, jb => append b jb (fmt t)
  | .str s, b, jb => append b jb ('"' :: s ++ ['"'])
  | .null, b, jb => append b jb "null".toList
  | .list l, b, jb =>
    match append b jb ['['] with
    | none => none
    | some (b, jb') => (dumpList l true b jb').map fun p => (p.1, jb)
  | .dict d, b, jb =>
    match append b jb ['{'] with
    | none => none
    | some (b, jb') => (dumpDict d true b jb').map fun p => (p.1, jb)

/-- The loop and the end of `__list_dump` (ovis_json.c:339-352): the result of `__entity_dump` is not
taken. -/
def dumpList : List Ent → Bool → Blk → Nat → Option (Blk × Nat)
  | [], _, b, jb => append b jb [']']
  | e :: l, first, b, jb =>
    match (if first then some (b, jb) else append b jb [',']) with
    | none => none
    | some (b, jb) =>
      match dump e b jb with
      | none => none
      | some (b, _) => dumpList l false b jb

/-- The loop and the end of `__dict_dump` (ovis_json.c:354-368). -/
def dumpDict : List (Text × Ent) → Bool → Blk → Nat → Option (Blk × Nat)
  | [], _, b, jb => append b jb ['}']
  | (k, e) :: d, first, b, jb =>
    match (if first then some (b, jb) else append b jb [',']) with
    | none => none
    | some (b, jb) =>
      match append b jb ('"' :: k ++ ['"', ':']) with
      | none => none
      | some (b, jb) =>
        match dump e b jb with
        | none => none
        | some (b, jb) => dumpDict d false b jb

end

/-- `json_entity_dump(NULL, e)` (ovis_json.c:408-428) and reading the text of what it returns: `none` if
memory that was given up is used. -/
def entityDump (e : Ent) : Option Text :=
  match dump fmt e jbufNew 0 with
  | none => none
  | some (b, jb) => if jb = b.addr then some b.text else none

/-! ## Copying -/

mutual

/-- `json_entity_copy` (ovis_json.c:430-496) -/
def copy : Ent → Ent
  | .list l => .list (copyList l)
  | .dict d => .dict (copyDict d [])
  | e => e

def copyList : List Ent → List Ent
  | [] => []
  | e :: l => copy e :: copyList l

/-- The loop of the case of a dictionary (ovis_json.c:473-488). -/
def copyDict : List (Text × Ent) → List (Text × Ent) → List (Text × Ent)
  | [], acc => acc
  | (k, e) :: d, acc => copyDict d (attrAdd acc k (copy e))

end

end Verif.JsonText
