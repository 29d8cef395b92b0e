/-!
# Label sets (lib/src/coll/label-set.c, with lib/src/third/b62encode.c and lib/src/coll/ovis-map.c)

A label set gives each label (any text) an identifier for a language.  Texts are lists of bytes without the NUL.  The map from labels to pairs
is a list: the tree below it is modelled elsewhere, and what `ovis_map_visit` looks for does not depend on the order.  The hash of a text is
an arbitrary function `H`.  There is always memory, and the client's labels stay as they are (the map keeps the client's pointer even when a copy was asked
for, 551).  Line numbers are those of lib/src/coll/label-set.c unless another file is named.
-/

namespace Verif.LabelSet

abbrev Str := List Nat

/-- a loop that goes on for ever -/
inductive Fault
  | hang
  deriving DecidableEq, Repr

abbrev Out := Except Fault

/-- `isalnum`, in the "C" locale; bytes from 128 on are in none of the classes -/
def isalnum (c : Nat) : Bool := (48 ≤ c && c ≤ 57) || (65 ≤ c && c ≤ 90) || (97 ≤ c && c ≤ 122)

/-- `isspace` -/
def isspace (c : Nat) : Bool := (9 ≤ c && c ≤ 13) || c == 32

/-- `iscntrl` -/
def iscntrl (c : Nat) : Bool := c ≤ 31 || c == 127

/-- `ispunct` -/
def ispunct (c : Nat) : Bool := (33 ≤ c && c ≤ 47) || (58 ≤ c && c ≤ 64) || (91 ≤ c && c ≤ 96) || (123 ≤ c && c ≤ 126)

/-- `ascii_munge`, 92-120, with the lengths of `ascii_munge_len`, 122-142 -/
def munge : List Str :=
  [[48], [65], [66], [67], [68], [69], [70], [71], [72], [73], [74], [75], [76], [77], [78], [79],
   [80], [81], [82], [83], [84], [85], [86], [87], [120], [89], [90], [69], [70], [71], [82], [85],
   [66], [49], [113], [72], [83], [80], [74], [102], [80, 76], [82, 80], [84], [80], [106], [77], [100], [68],
   [48], [49], [50], [51], [52], [53], [54], [55], [56], [57], [99], [115], [65, 76], [69], [82, 65], [81],
   [65], [65], [66], [67], [68], [69], [70], [71], [72], [73], [74], [75], [76], [77], [78], [79],
   [80], [81], [82], [83], [84], [85], [86], [87], [88], [89], [90], [83, 76], [66], [82, 83], [67], [95],
   [98], [97], [98], [99], [100], [101], [102], [103], [104], [105], [106], [107], [108], [109], [110], [111],
   [112], [113], [114], [115], [116], [117], [118], [119], [120], [121], [122], [67, 76], [112], [82, 67], [116], [88]]

/-- `ascii_munge[c & 0x7F]`, 282 -/
def munged (c : Nat) : Str := munge.getD (c % 128) []

/-- `base62_tab`, third/b62encode.c:59-68 -/
def tab62 : Str :=
  [65, 66, 67, 68, 69, 70, 71, 72, 73, 74, 75, 76, 77, 78, 79, 80, 81, 82, 83, 84, 85, 86, 87, 88, 89, 90,
   97, 98, 99, 100, 101, 102, 103, 104, 105, 106, 107, 108, 109, 110, 111, 112, 113, 114, 115, 116, 117, 118, 119, 120, 121, 122,
   48, 49, 50, 51, 52, 53, 54, 55, 56, 57]

/-- `k` digits, the lowest first -/
def digits62 : Nat → Nat → Str
  | 0, _ => []
  | k + 1, n => tab62.getD (n % 62) 0 :: digits62 k (n / 62)

/-- byte `i` of a number, as it is in memory (little endian) -/
def byte (v i : Nat) : Nat := v / 256 ^ i % 256

/-- `hash64_to_string`, 150-169, with `b62_encode` of 8 bytes, third/b62encode.c:70-117: 7 digits for the first five bytes and 5 for the other
three.  The last of the five is not reduced by 62 there: it is below 62. -/
def encode (v : Nat) : Str :=
  digits62 7 (byte v 0 * 2 ^ 32 + byte v 1 * 2 ^ 24 + byte v 2 * 2 ^ 16 + byte v 3 * 2 ^ 8 + byte v 4) ++
    digits62 5 (byte v 5 * 2 ^ 16 + byte v 6 * 2 ^ 8 + byte v 7)

/-- `shorten_dstring`, 180-191; `HASH64_LEN` is 12 -/
def shorten (max : Nat) (hash : Nat) (t : Str) : Str :=
  if t.length ≤ max then t else if max < 12 then t else t.take (max - 12) ++ encode hash

/-- `%X` of a byte -/
def hexDigit (n : Nat) : Nat := if n < 10 then 48 + n else 55 + n
def hexByte (c : Nat) : Str := if c < 16 then [hexDigit c] else [hexDigit (c / 16), hexDigit (c % 16)]

/-- in which of its inner loops `ovis_label_to_id_hex` is -/
inductive Phase
  | word
  | space
  | punct
  deriving DecidableEq, Repr

/-- `ovis_label_to_id_hex`, 197-241.  The three inner loops follow each other, and the outer loop begins again with the first of them; a byte that none
of them takes is never passed.  `sep` is `_` or `%`; `first`: nothing was written and a separator must not come first. -/
def hex (sep : Nat) : Bool → Phase → Str → Out Str
  | _, _, [] => .ok []
  | first, p, c :: s =>
    let word := c == 95 || isalnum c
    let punct := iscntrl c || ispunct c
    let asWord := (hex sep false .word s).map (c :: ·)
    let asSpace := (hex sep false .space s).map (95 :: ·)
    let asPunct := (hex sep false .punct s).map ((if first then [] else [sep]) ++ hexByte c ++ ·)
    match p with
    | .word => if word then asWord else if isspace c then asSpace else if punct then asPunct else .error .hang
    | .space => if isspace c then asSpace else if punct then asPunct else if word then asWord else .error .hang
    | .punct => if punct then asPunct else if word then asWord else if isspace c then asSpace else .error .hang

/-- `ovis_label_to_id_amqp`, 245-265 -/
def amqp (s : Str) : Str := s.map fun c => if c = 46 then 111 else c

/-- `ovis_label_to_id_alnum`, 270-298 -/
def alnum : Bool → Str → Str
  | _, [] => []
  | first, c :: s => (if first && c == 95 then munged 117 else munged c) ++ alnum false s

/-- the loop of `ovis_label_to_id_ubar`, 318-336 -/
def ubarLoop : Str → Out Str
  | [] => .ok []
  | c :: s =>
    if c == 95 || isalnum c then (ubarLoop s).map (c :: ·)
    else if iscntrl c || ispunct c || isspace c then (ubarLoop s).map (95 :: ·)
    else .error .hang

/-- `ovis_label_to_id_ubar`, 300-337 -/
def ubar (first : Bool) : Str → Out Str
  | [] => .ok []
  | c :: s =>
    if first && (c == 95 || iscntrl c || ispunct c || isspace c) then (ubarLoop s).map (117 :: ·)
    else ubarLoop (c :: s)

/-- `enum id_lang`, label-set.h -/
inductive Lang
  | least
  | python
  | url
  | r
  | c
  | amqp
  | file
  deriving DecidableEq, Repr

/-- the table of functions that are tried, 373-405 -/
def tries : Lang → List (Str → Out Str)
  | .least => [fun s => .ok (alnum true s)]
  | .python => [ubar false, fun s => .ok (alnum false s), hex 95 false .word]
  | .r => [ubar true, fun s => .ok (alnum true s), hex 95 true .word]
  | .c => [ubar false, fun s => .ok (alnum false s), hex 95 false .word]
  | .url => [hex 37 false .word]
  | .file => [hex 95 false .word]
  | .amqp => [fun s => .ok (LabelSet.amqp s)]

/-- the loop of 408-421: the first text that no pair has, or nothing -/
def attempt (ids : List Str) (max hash : Nat) (s : Str) : List (Str → Out Str) → Out Str
  | [] => .ok []
  | f :: fs =>
    match f s with
    | .error x => .error x
    | .ok t => if shorten max hash t ∈ ids then attempt ids max hash s fs else .ok (shorten max hash t)

/-- `sprintf("%" PRIu64)` -/
def decimal (n : Nat) : Str := if n < 10 then [48 + n] else decimal (n / 10) ++ [48 + n % 10]
decreasing_by omega

/-- a set: its language, the limit of the length (`INT_MAX` for none), and the labels with their identifiers -/
structure LSet where
  lang : Lang
  max : Nat
  items : List (Str × Str)
  deriving DecidableEq, Repr

def ids (s : LSet) : List Str := s.items.map (·.2)
def labels (s : LSet) : List Str := s.items.map (·.1)

/-- `ovis_label_set_create`, 440-450 -/
def create (lang : Lang) (max : Nat) : LSet := ⟨lang, if max = 0 then 2147483647 else max, []⟩

/-- `ovis_label_to_id_language`, 361-438: `[]` when it gives up -/
def toId (H : Str → Nat) (s : LSet) (l : Str) : Out Str :=
  match attempt (ids s) s.max (H l) l (tries s.lang) with
  | .error x => .error x
  | .ok t =>
    if t = [] then
      let u := alnum true l ++ decimal (H l)
      .ok (if u ∈ ids s then [] else u)
    else .ok t

/-- `ovis_label_set_insert2`, 558-593.  `ovis_map_insert_fast`, ovis-map.c:260-276, refuses a key with the hash 0, which is not looked at. -/
def insert (H : Str → Nat) (s : LSet) (l : Str) : Out (LSet × Option Str) :=
  if l = [] then .ok (s, none)
  else if l ∈ labels s then .ok (s, none)
  else
    match toId H s l with
    | .error x => .error x
    | .ok [] => .ok (s, none)
    | .ok (c :: t) => .ok (if H l = 0 then s else { s with items := s.items ++ [(l, c :: t)] }, some (c :: t))

/-- `ovis_label_set_insert_pair`, 542-556, for an allowed `deep` -/
def insertPair (s : LSet) (l i : Str) : LSet × Option Str :=
  if l = [] then (s, none)
  else if l ∈ labels s then (s, none)
  else ({ s with items := s.items ++ [(l, i)] }, some i)

/-- `ovis_label_set_size`, 534-540 -/
def size (s : LSet) : Nat := s.items.length

/-- `ovis_label_set_get_id`, 613-619, and `ovis_label_set_get_label`, 605-611: "fixme" -/
def getId (_ : LSet) (_ : Str) : Option Str := none
def getLabel (_ : LSet) (_ : Str) : Option Str := none

/-- a sequence of insertions, with what they return -/
def insertAll (H : Str → Nat) (s : LSet) : List Str → Out (LSet × List (Option Str))
  | [] => .ok (s, [])
  | l :: ls =>
    match insert H s l with
    | .error x => .error x
    | .ok (s, r) =>
      match insertAll H s ls with
      | .error x => .error x
      | .ok (s, rs) => .ok (s, r :: rs)

end Verif.LabelSet
