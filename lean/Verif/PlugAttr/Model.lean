import Verif.Av.Model

/-!
# Options of plugins

`ldms/src/ldmsd/ldmsd_plugattr.c`: the options of a plugin, from its configuration command, from a file
with a line for each instance and from later additions.

Simplified: the substitution of environment variables in values (`str_repl_env_vars`, modelled in
`Verif.Av`) is the parameter `exp`; a NULL list is the empty list; the index (`idx.c`, modelled in
`Verif.Idx`) is a list of keys and entries; allocation does not fail; the lines of the file are those
left by `canonical` (continuations merged, comments blanked).  Log messages are left out.
Undefined behaviour is an outer `none`.
-/

namespace Verif.PlugAttr

open Verif.Av (Str Ent avIdxOf tokenize)

/-- `struct list_pair` without its key (`ldmsd_plugattr.c:71-76`) -/
structure Pair where
  avl : List Ent
  kvl : List Ent
  deriving DecidableEq, Repr

/-- `struct plugattr` (`ldmsd_plugattr.c:78-83`): what the command gave, the name of the plugin, the index -/
structure PA where
  over : Pair
  name : Str
  idx : List (Str × Pair)
  deriving DecidableEq, Repr

/-- `struct pa_deprecated` (`ldmsd_plugattr.h`), without the message -/
structure Dep where
  name : Str
  value : Option Str
  error : Bool
  deriving DecidableEq, Repr

/-- `av_value` (`util.c:308-330`) -/
def avValue (exp : Str → Str) : List Ent → Str → Option Str
  | [], _ => none
  | e :: es, n => if e.name ≠ n then avValue exp es n else e.value.map exp

/-- `av_value_at_idx` (`util.c:353-369`) -/
def avAt (exp : Str → Str) (l : List Ent) (i : Nat) : Option Str :=
  match l[i]? with
  | none => none
  | some e => e.value.map exp

/-- `idx_find` (`lib/src/coll/idx.c:142-160`): nothing has the empty key -/
def find : List (Str × Pair) → Str → Option Pair
  | [], _ => none
  | (k, p) :: r, key => if key ≠ [] ∧ k = key then some p else find r key

/-- `idx_add` (`idx.c:190-221`): outer `none` for the empty key, for which `keylen--` wraps; inner `none`
is `EEXIST` -/
def insert (idx : List (Str × Pair)) (key : Str) (p : Pair) : Option (Option (List (Str × Pair))) :=
  if key = [] then none
  else match find idx key with
    | some _ => some none
    | none => some (some (idx ++ [(key, p)]))

/-- `VGETKEY` (`ldmsd_plugattr.c:187-218`): the values of the key attributes joined by `/`; `none` is
`ENOKEY` -/
def getKey (exp : Str → Str) (avl : List Ent) : List Str → Option Str
  | [] => some []
  | [k] => avValue exp avl k
  | k :: k' :: ks =>
    match avValue exp avl k with
    | none => none
    | some v => match getKey exp avl (k' :: ks) with
      | none => none
      | some r => some (v ++ '/' :: r)

/-- the loop of `attr_deprecated` (`ldmsd_plugattr.c:238-292`); `last` is `last_name` -/
def depLoop (exp : Str → Str) (p : Pair) : List Dep → Option Str → Nat → Nat
  | [], _, bad => bad
  | d :: ds, last, bad =>
    let i := avIdxOf p.avl d.name
    let j := avIdxOf p.kvl d.name
    let hit := i ≠ -1 ∧ last ≠ some d.name ∧ (d.value = none ∨ d.value = avValue exp p.avl d.name)
    let last1 := if hit then some d.name else last
    let bad1 := if hit ∧ d.error then bad + 1 else bad
    let last2 := if j ≠ -1 then some d.name else last1
    let bad2 := if j ≠ -1 ∧ d.error then bad1 + 1 else bad1
    depLoop exp p ds last2 bad2

/-- `attr_deprecated` (`ldmsd_plugattr.c:220-297`) -/
def deprecated (exp : Str → Str) (p : Pair) (deps : List Dep) : Bool := depLoop exp p deps none 0 ≠ 0

/-- `attr_blacklist` (`ldmsd_plugattr.c:300-325`) -/
def blacklist : List Str → List Ent → Nat → Bool
  | [], _, bad => bad ≠ 0
  | b :: bs, l, bad => blacklist bs l (if avIdxOf l b ≠ -1 then bad + 1 else bad)

/-- what callers give besides the lists: banned attributes, banned keywords, deprecated names, names of the
key attributes -/
structure Rules where
  avban : List Str
  kwban : List Str
  deps : List Dep
  keys : List Str

/-- `ldmsd_plugattr_add` (`ldmsd_plugattr.c:327-390`): the state and the result -/
def add (exp : Str → Str) (pa : PA) (p : Pair) (r : Rules) : Option (PA × Nat) :=
  if r.keys = [] then some (pa, 22)
  else if deprecated exp p r.deps then some (pa, 1)
  else if blacklist r.kwban p.kvl 0 then some (pa, 1)
  else if blacklist r.avban p.avl 0 then some (pa, 1)
  else match getKey exp p.avl r.keys with
    | none => some (pa, 126)
    | some key => match insert pa.idx key p with
      | none => none
      | some none => some (pa, 17)
      | some (some idx) => some ({ pa with idx := idx }, 0)

/-- `isspace` -/
def isSpace (c : Char) : Bool := c == ' ' || c == '\t' || c == '\n' || c == '\r' || c.toNat == 11 || c.toNat == 12

/-- the sizes of the lists of a line (`ldmsd_plugattr.c:509-522`): one more than the runs of white space -/
def sizeLoop : Str → Bool → Nat → Nat
  | [], _, n => n
  | c :: cs, sp, n => if isSpace c then sizeLoop cs true (if sp then n else n + 1) else sizeLoop cs false n

/-- the key of a line (`ldmsd_plugattr.c:544-571`): from its options, else the plugin if it is named -/
def lineKey (exp : Str → Str) (name : Str) (keys : List Str) (avl kvl : List Ent) : Option Str :=
  match if avl.length ≥ keys.length then getKey exp avl keys else none with
  | some k => some k
  | none => if avIdxOf kvl name = -1 then none else some name

/-- a line of the file (`ldmsd_plugattr.c:504-607`): outer `none` undefined behaviour, inner `none` failure -/
def line (exp : Str → Str) (name : Str) (r : Rules) (s : Str) (idx : List (Str × Pair)) :
    Option (Option (List (Str × Pair))) :=
  let size := sizeLoop s false 1
  if size < 2 then some (some idx)
  else match tokenize size size s with
    | none => some none
    | some (kvl, avl) =>
      if avl = [] ∧ kvl = [] then some (some idx)
      else
        match lineKey exp name r.keys avl kvl with
        | none => some none
        | some k =>
          if blacklist r.kwban kvl 0 then some none
          else if blacklist r.avban avl 0 then some none
          else insert idx k ⟨avl, kvl⟩

/-- the loop over the lines (`ldmsd_plugattr.c:503-610`) -/
def lines (exp : Str → Str) (name : Str) (r : Rules) : List Str → List (Str × Pair) → Option (Option (List (Str × Pair)))
  | [], idx => some (some idx)
  | s :: ss, idx =>
    match line exp name r s idx with
    | none => none
    | some none => some none
    | some (some idx') => lines exp name r ss idx'

/-- `ldmsd_plugattr_create` (`ldmsd_plugattr.c:392-625`); no file is no lines -/
def create (exp : Str → Str) (file : List Str) (name : Str) (p : Pair) (r : Rules) : Option (Option PA) :=
  if deprecated exp p r.deps then some none
  else if blacklist r.avban p.avl 0 then some none
  else if blacklist r.kwban p.kvl 0 then some none
  else match lines exp name r file [] with
    | none => none
    | some none => some none
    | some (some idx) => some (some ⟨p, name, idx⟩)

/-- `ldmsd_plugattr_value` (`ldmsd_plugattr.c:648-698`) -/
def value (exp : Str → Str) (pa : PA) (attr : Str) (key : Option Str) : Option Str :=
  let c := match key with
    | none => none
    | some k => match find pa.idx k with
      | none => none
      | some lp => avValue exp lp.avl attr
  match c with
  | some v => some v
  | none => match avValue exp pa.over.avl attr with
    | some v => some v
    | none => match find pa.idx pa.name with
      | none => none
      | some lp => avValue exp lp.avl attr

/-- the loop of `fill_multi` (`ldmsd_plugattr.c:722-728`): it takes the value at `i`, not at `j` -/
def fillLoop (exp : Str → Str) (avl : List Ent) (attr : Str) (k : Nat) : List Ent → Nat → List (Option Str)
  | [], _ => []
  | e :: es, i =>
    if i < k then
      if e.name = attr then avAt exp avl i :: fillLoop exp avl attr k es (i + 1) else fillLoop exp avl attr k es i
    else []

/-- `fill_multi` (`ldmsd_plugattr.c:700-732`): the count and the values -/
def fillMulti (exp : Str → Str) (avl : List Ent) (attr : Str) (k : Int) : Nat × List (Option Str) :=
  if k ≥ 0 then (1, [avAt exp avl k.toNat])
  else ((-k).toNat, fillLoop exp avl attr (-k).toNat avl 0)

/-- `ldmsd_plugattr_multivalue` (`ldmsd_plugattr.c:734-766`) -/
def multivalue (exp : Str → Str) (pa : PA) (attr : Str) (key : Option Str) : Nat × List (Option Str) :=
  let here (o : Option Pair) (els : Nat × List (Option Str)) : Nat × List (Option Str) := match o with
    | none => els
    | some lp => if avIdxOf lp.avl attr ≠ -1 then fillMulti exp lp.avl attr (avIdxOf lp.avl attr) else els
  here (key.bind (find pa.idx)) (here (some pa.over) (here (find pa.idx pa.name) (0, [])))

/-- `ldmsd_plugattr_kw` (`ldmsd_plugattr.c:768-798`) -/
def kw (pa : PA) (k : Str) (key : Option Str) : Bool :=
  let here (o : Option Pair) : Bool := match o with
    | none => false
    | some lp => avIdxOf lp.kvl k ≠ -1
  here (key.bind (find pa.idx)) || here (some pa.over) || here (find pa.idx pa.name)

/-- `ldmsd_plugattr_bool` (`ldmsd_plugattr.c:800-832`): the return code and what is stored -/
def bool (exp : Str → Str) (pa : PA) (attr : Str) (key : Option Str) : Int × Option Bool :=
  match value exp pa attr key with
  | none => (-2, none)
  | some [] => (0, some true)
  | some (c :: _) =>
    if c = '1' ∨ c = 't' ∨ c = 'T' ∨ c = 'y' ∨ c = 'Y' then (0, some true)
    else if c = '0' ∨ c = 'f' ∨ c = 'F' ∨ c = 'n' ∨ c = 'N' then (0, some false)
    else (-1, none)

/-- the loops of `ldmsd_plugattr_config_check` over a list (`ldmsd_plugattr.c:1033-1054`,`1068-1089`): names
that are not in the array of allowed names; a NULL array allows none (`1020-1032`, `1056-1067`) -/
def unexpected (allowed : List Str) : List Ent → Nat → Nat
  | [], n => n
  | e :: es, n => unexpected allowed es (if allowed.any (fun a => e.name = a) then n else n + 1)

/-- `ldmsd_plugattr_config_check` (`ldmsd_plugattr.c:1004-1091`) -/
def configCheck (exp : Str → Str) (anames knames : List Str) (p : Pair) (deps : List Dep) : Nat :=
  unexpected knames p.kvl (unexpected anames p.avl (if deprecated exp p deps then 1 else 0))

end Verif.PlugAttr
