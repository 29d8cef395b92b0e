import Verif.NameTab.Model

/-!
# Argument encoding of configuration lines

`__ldmsd_parse_plugin_config`, `__ldmsd_parse_env`, `__ldmsd_parse_listen_req`,
`__ldmsd_parse_auth_add_req` and `__ldmsd_parse_default_auth_req` of
`ldms/src/ldmsd/ldmsd_request_util.c`.  They differ in the words which become attributes of their
own, in the size of the scratch buffer and in whether an empty scratch buffer is special.

Strings are lists of bytes without NUL.
-/

namespace Verif.CfgArgs

open Verif.NameTab (attrStr2Id codes)

/-- `__ldmsd_cfg_delim`: blank and tab (`ldmsd_request_util.c:445`) -/
def isDelim (c : Nat) : Bool := c == 32 || c == 9

/-- the words `strtok_r` cuts a string into: the non-empty runs of other characters.  `cur` is the
current run, in order. -/
def wordsAux (cur : List Nat) : List Nat → List (List Nat)
  | [] => if cur = [] then [] else [cur]
  | c :: cs =>
    if isDelim c then
      if cur = [] then wordsAux [] cs else cur :: wordsAux [] cs
    else wordsAux (cur ++ [c]) cs

/-- all words of a line -/
def words (line : List Nat) : List (List Nat) := wordsAux [] line

/-- `__get_attr_name_value` (`ldmsd_request_util.c:422-443`): cut at the first `=` -/
def splitEq : List Nat → List Nat × Option (List Nat)
  | [] => ([], none)
  | c :: cs =>
    if c = 61 then ([], some cs)
    else ((c :: (splitEq cs).1), (splitEq cs).2)

/-- the text appended by `snprintf` for a word: `"%s=%s "` or `"%s "` (`:528-534`) -/
def fmt (nv : List Nat × Option (List Nat)) : List Nat :=
  match nv.2 with
  | some v => nv.1 ++ (61 :: v ++ [32])
  | none => nv.1 ++ [32]

/-- the scratch buffer `tmp`: its bytes and `cnt` -/
structure Tmp where
  mem : List Nat
  cnt : Nat
  deriving DecidableEq, Repr

/-- store bytes at an offset of an allocated block; `none` if they do not fit in it -/
def store (mem : List Nat) (o : Nat) (xs : List Nat) : Option (List Nat) :=
  if o + xs.length ≤ mem.length then some (mem.take o ++ (xs ++ mem.drop (o + xs.length)))
  else none

/-- `cnt += snprintf(&tmp[cnt], len - cnt, …)` where `len` is the size of the buffer.  `len - cnt`
is a `size_t`: it wraps when `cnt > len`.  At most `size - 1` bytes and a NUL are written. -/
def snprintf (t : Tmp) (text : List Nat) : Option Tmp :=
  let size := if t.cnt ≤ t.mem.length then t.mem.length - t.cnt
    else 2 ^ 64 - (t.cnt - t.mem.length)
  if size = 0 then some { t with cnt := t.cnt + text.length }
  else
    match store t.mem t.cnt (text.take (size - 1) ++ [0]) with
    | none => none
    | some m => some ⟨m, t.cnt + text.length⟩

/-- the C string at the start of a block -/
def cstr (mem : List Nat) : List Nat := mem.takeWhile (fun b => b != 0)

/-- one of the parsers -/
structure Parser where
  /-- the words (by their name) added as attributes of their own -/
  isAttr : List Nat → Bool
  /-- the buffer has `strlen(av) + extra` bytes -/
  extra : Nat
  /-- the string attribute is added only if `cnt` is not zero -/
  guarded : Bool
  /-- a word without value is printed with a NULL argument for `%s` -/
  needsValue : Bool

/-- the string is a prefix of the name: `0 == strncmp(name, pfx, strlen(pfx))` -/
def hasPrefix (pfx : String) (name : List Nat) : Bool := (codes pfx).isPrefixOf name

/-- `__ldmsd_parse_plugin_config` (`ldmsd_request_util.c:492-551`) -/
def pluginConfig : Parser := ⟨hasPrefix "name", 0, false, false⟩

/-- `__ldmsd_parse_env` (`:553-604`) -/
def env : Parser := ⟨fun _ => false, 1, false, false⟩

/-- `__ldmsd_parse_listen_req` and `__parse_xprt_endpoint` (`:606-683`) -/
def listen : Parser :=
  ⟨fun n => hasPrefix "xprt" n || hasPrefix "port" n || hasPrefix "host" n || hasPrefix "auth" n,
    0, true, false⟩

/-- `__ldmsd_parse_auth_add_req` (`:685-740`) -/
def authAdd : Parser := ⟨fun n => n == codes "name" || n == codes "plugin", 0, true, true⟩

/-- `__ldmsd_parse_default_auth_req` (`:807-869`): `strncmp(name, "plugin", 4)` -/
def defaultAuth : Parser := ⟨hasPrefix "plug", 0, false, false⟩

/-- the outcome of a parser -/
inductive Res where
  /-- undefined behaviour: a write outside the scratch buffer, or NULL given to `%s` -/
  | ub
  /-- `EINVAL` from `add_attr_from_attr_str` -/
  | einval
  /-- the attributes added (id and value) and the string attribute, if one is added -/
  | ok (attrs : List (Nat × Option (List Nat))) (str : Option (List Nat))
  deriving DecidableEq, Repr

/-- the `while (av)` loop; `as` are the attributes added so far -/
def loop (p : Parser) : Tmp → List (Nat × Option (List Nat)) → List (List Nat) →
    Option (Option (Tmp × List (Nat × Option (List Nat))))
  | t, as, [] => some (some (t, as))
  | t, as, w :: ws =>
    if p.isAttr (splitEq w).1 then
      match attrStr2Id (splitEq w).1 with
      | none => some none
      | some id => loop p t (as ++ [(id, (splitEq w).2)]) ws
    else if p.needsValue && (splitEq w).2.isNone then none
    else
      match snprintf t (fmt (splitEq w)) with
      | none => none
      | some t' => loop p t' as ws

/-- the parser on the argument part of a line; `junk` is the content of the fresh `malloc` block,
of `strlen(av) + extra` bytes -/
def parse (p : Parser) (junk : List Nat) (line : List Nat) : Res :=
  match loop p ⟨junk, 0⟩ [] (words line) with
  | none => .ub
  | some none => .einval
  | some (some (t, as)) =>
    if t.cnt = 0 then
      if p.guarded then .ok as none
      else .ub  -- tmp[-1] = '\0'
    else
      match store t.mem (t.cnt - 1) [0] with
      | none => .ub
      | some m => .ok as (some (cstr m))

end Verif.CfgArgs
