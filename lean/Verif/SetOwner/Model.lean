import Verif.Access.Model

/-!
# Model: who owns a sampler's set

`base_auth_parse`, `base_auth_set` and the component id of `base_config` in `ldms/src/sampler/sampler_base.c`,
`ldms_set_default_authz` of `ldms/src/core/ldms.c` and the request `metric_sets_default_authz`
(`set_default_authz_handler` in `ldms/src/ldmsd/ldmsd_request.c`).

Text is a list of bytes without the final zero.  `long` has 64 bits, `int`, `uid_t`, `gid_t` and `mode_t` have 32; the
locale is "C" (the daemon does not call `setlocale`).
-/

namespace Verif.SetOwner

abbrev Str := List Nat

/-- `isspace` -/
def isSpace (c : Nat) : Bool := decide (c = 32 ∨ (9 ≤ c ∧ c ≤ 13))

/-- `isalpha` -/
def isAlpha (c : Nat) : Bool := decide ((65 ≤ c ∧ c ≤ 90) ∨ (97 ≤ c ∧ c ≤ 122))

/-- `isdigit` -/
def isDigit (c : Nat) : Bool := decide (48 ≤ c ∧ c ≤ 57)

/-- the value of a character in a number, and whether the base has it -/
def digit (base c : Nat) : Option Nat :=
  let v := if isDigit c then some (c - 48) else if 97 ≤ c ∧ c ≤ 122 then some (c - 87) else if 65 ≤ c ∧ c ≤ 90 then some (c - 55) else none
  v.bind fun d => if d < base then some d else none

/-- the digits at the beginning: their value, and the rest of the text -/
def digits (base : Nat) : Nat → Str → Nat × Str
  | acc, [] => (acc, [])
  | acc, c :: s => match digit base c with
    | some d => digits base (acc * base + d) s
    | none => (acc, c :: s)

/-- The base and the text after its prefix; base 0: `0x` is 16, `0` is 8. -/
def prefixed (base : Nat) (s : Str) : Nat × Str :=
  if base = 0 then
    match s with
    | 48 :: x :: c :: r => if (x = 120 ∨ x = 88) ∧ (digit 16 c).isSome then (16, c :: r) else (8, s)
    | 48 :: _ => (8, s)
    | _ => (10, s)
  else (base, s)

structure Num where
  value : Int
  /-- `*endptr` -/
  rest : Str
  /-- `endptr == nptr` -/
  empty : Bool
  /-- `errno == ERANGE` -/
  range : Bool
  deriving DecidableEq, Repr

/-- `strtol` of the C library (base 0, 8 or 10). -/
def strtol (base : Nat) (s : Str) : Num :=
  let t := s.dropWhile isSpace
  let neg := t.head? = some 45
  let t := if t.head? = some 45 ∨ t.head? = some 43 then t.tail else t
  let (b, t) := prefixed base t
  match t with
  | [] => ⟨0, s, true, false⟩
  | c :: _ =>
    if (digit b c).isNone then ⟨0, s, true, false⟩
    else
      let (v, rest) := digits b 0 t
      let v : Int := if neg then -v else v
      if v < -2 ^ 63 then ⟨-2 ^ 63, rest, false, true⟩
      else if 2 ^ 63 ≤ v then ⟨2 ^ 63 - 1, rest, false, true⟩
      else ⟨v, rest, false, false⟩

/-- the conversion to 32 bits without a sign -/
def u32 (v : Int) : Nat := (v % 2 ^ 32).toNat

/-! ## Samplers -/

/-- What the system knows of names: `getpwnam` or `getgrnam`. -/
abbrev Db := Str → Option Nat

/-- `struct base_auth`, sampler_base.h:55-62: what is set -/
structure Auth where
  uid : Option Nat
  gid : Option Nat
  perm : Option Nat
  deriving DecidableEq, Repr

/-- The attribute `uid`, sampler_base.c:454-470, or `gid`, 471-487; `none`: refused. -/
def parseId (db : Db) (v : Str) : Option Nat :=
  if isAlpha (v.headD 0) then db v else some (u32 (strtol 0 v).value)

/-- The attribute `perm`, sampler_base.c:488-502. -/
def parsePerm (v : Str) : Option Nat :=
  let n := strtol 8 v
  let p := n.value % 512
  if n.range ∨ p ≠ n.value ∨ p = 0 then none else some p.toNat

/-- The attributes of `config` that say who owns the set. -/
structure Attrs where
  uid : Option Str
  gid : Option Str
  perm : Option Str

/-- `base_auth_parse`, sampler_base.c:446-506: what is set, and whether all is well. -/
def parse (users groups : Db) (a : Attrs) : Auth × Bool :=
  match a.uid.map (parseId users) with
  | some none => (⟨none, none, none⟩, false)
  | u => match a.gid.map (parseId groups) with
    | some none => (⟨u.join, none, none⟩, false)
    | g => match a.perm.map parsePerm with
      | some none => (⟨u.join, g.join, none⟩, false)
      | p => (⟨u.join, g.join, p.join⟩, true)

/-- Who owns a set, and the permissions. -/
structure Owner where
  uid : Nat
  gid : Nat
  perm : Nat
  deriving DecidableEq, Repr

/-- `base_auth_set`, sampler_base.c:508-516. -/
def authSet (a : Auth) (o : Owner) : Owner := ⟨a.uid.getD o.uid, a.gid.getD o.gid, a.perm.getD o.perm⟩

/-- The set of a sampler that uses `base_config`, sampler_base.c:254-256, and `base_set_new`: `ldms_set_new` (ldms.c:1733-1741)
gives it the defaults, `__set_init` (sampler_base.c:314-331) calls `base_auth_set`.  `none`: the configuration is refused. -/
def samplerSet (users groups : Db) (a : Attrs) (dflt : Owner) : Option Owner :=
  match parse users groups a with
  | (auth, true) => some (authSet auth dflt)
  | (_, false) => none

/-- The samplers that do not look at the result of `base_auth_parse`: lustre_client.c:254, lustre_mdc.c:238, ibnet_data.c:387,
ibmad_sampler.c:703. -/
def laxSet (users groups : Db) (a : Attrs) (dflt : Owner) : Owner := authSet (parse users groups a).1 dflt

/-- The attribute `component_id`, sampler_base.c:225-231: `atoi` makes an `int` of a `long`, which becomes a `uint64_t`. -/
def componentId (v : Option Str) : Nat :=
  match v with
  | none => 0
  | some v =>
    let v := v.dropWhile fun c => !isDigit c
    if v = [] then 0
    else
      let i := u32 (strtol 10 v).value
      if i < 2 ^ 31 then i else i + (2 ^ 64 - 2 ^ 32)

/-! ## Defaults -/

/-- `ldms_init`, ldms.c:1116-1118. -/
def initial (euid egid : Nat) : Owner := ⟨euid, egid, 4 * 64 + 4 * 8⟩

/-- The attribute `uid` or `gid` of the request, ldmsd_request.c:8423-8446, 8448-8471. -/
def requestId (db : Db) (v : Str) : Option Nat :=
  match db v with
  | some n => some n
  | none =>
    let n := strtol 0 v
    if n.range = false ∧ n.empty = false ∧ n.rest = [] then some (u32 n.value) else none

/-- The attribute `perm` of the request, ldmsd_request.c:8473-8490; `mode_t` has no sign. -/
def requestPerm (v : Str) : Option Nat :=
  let n := strtol 8 v
  if n.range ∨ n.empty ∨ n.rest ≠ [] then none
  else if 511 < u32 n.value then none
  else some (u32 n.value)

/-- `ldms_set_default_authz`, ldms.c:1822-1851: what is given is set. -/
def setDefault (d : Owner) (a : Auth) : Owner := ⟨a.uid.getD d.uid, a.gid.getD d.gid, a.perm.getD d.perm⟩

/-- `set_default_authz_handler`, ldmsd_request.c:8408-8511: the defaults after it, and whether it is accepted. -/
def request (users groups : Db) (d : Owner) (a : Attrs) : Owner × Bool :=
  let u := a.uid.map (requestId users)
  let g := a.gid.map (requestId groups)
  let p := a.perm.map requestPerm
  if u = some none ∨ g = some none ∨ p = some none then (d, false)
  else (setDefault d ⟨u.join, g.join, p.join⟩, true)

end Verif.SetOwner
