/-!
# Schema digest strings

`ldms_digest_str` and `ldms_str_digest` of `ldms/src/core/ldms.c`.  Bytes and characters are
natural numbers below 256.
-/

namespace Verif.Digest

/-- `LDMS_DIGEST_LENGTH`: a SHA-256 digest (`ldms/src/core/ldms.h`, `SHA256_DIGEST_LENGTH`) -/
def digestLen : Nat := 32

/-- one digit printed by `%X` -/
def hexUp (d : Nat) : Nat := if d < 10 then 48 + d else 55 + d

/-- the text of `sprintf(s, "%02X", byte)` (`ldms.c:1165`), without the NUL -/
def hex2 (b : Nat) : List Nat := [hexUp (b / 16), hexUp (b % 16)]

/-- `sprintf` at offset `o` of the buffer: the two digits and a NUL; `none` if that is outside it -/
def sprintfAt (buf : List Nat) (o b : Nat) : Option (List Nat) :=
  if o + 3 ≤ buf.length then some (buf.take o ++ (hex2 b ++ [0]) ++ buf.drop (o + 3)) else none

/-- the `for` loop of `ldms_digest_str` (`ldms.c:1164-1167`) -/
def fmtLoop : List Nat → Nat → List Nat → Option (List Nat)
  | buf, _, [] => some buf
  | buf, o, b :: bs =>
    match sprintfAt buf o b with
    | none => none
    | some buf' => fmtLoop buf' (o + 2) bs

/-- the result of formatting -/
inductive Fmt where
  /-- NULL with `ENOBUFS` -/
  | enobufs
  /-- a write outside the buffer -/
  | ub
  /-- the buffer afterwards -/
  | ok (buf : List Nat)
  deriving DecidableEq, Repr

/-- `ldms_digest_str` (`ldms.c:1154-1169`); `buf` is the caller's buffer of `buf_len` bytes -/
def digestStr (d buf : List Nat) : Fmt :=
  if buf.length < 2 * digestLen + 1 then .enobufs
  else
    match fmtLoop buf 0 d with
    | none => .ub
    | some b => .ok b

/-- `isxdigit` in the C locale -/
def isxdigit (c : Nat) : Bool :=
  (48 ≤ c && c ≤ 57) || (65 ≤ c && c ≤ 70) || (97 ≤ c && c ≤ 102)

/-- the table `hex_int` (`ldms.c:1171-1197`): 0 for everything it does not name -/
def hexInt (c : Nat) : Nat :=
  if 48 ≤ c && c ≤ 57 then c - 48
  else if 65 ≤ c && c ≤ 70 then c - 55
  else if 97 ≤ c && c ≤ 102 then c - 87
  else 0

/-- the `for` loop of `ldms_str_digest` (`ldms.c:1206-1211`); `none` = `EINVAL`.  A single remaining
character cannot occur (the length is 64); the loop would read the NUL after it. -/
def parseLoop : List Nat → Option (List Nat)
  | [] => some []
  | [_] => none
  | c :: c' :: cs =>
    if !isxdigit c && !isxdigit c' then none
    else
      match parseLoop cs with
      | none => none
      | some ds => some ((hexInt c * 16 ||| hexInt c') % 256 :: ds)

/-- `ldms_str_digest` (`ldms.c:1199-1213`) -/
def strDigest (str : List Nat) : Option (List Nat) :=
  if str.length ≠ 2 * digestLen then none else parseLoop str

end Verif.Digest
