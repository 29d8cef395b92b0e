import Verif.PlugAttr.Model

/-!
# Numbers among the options of plugins

`ldmsd_plugattr_s32`, `u32`, `s64` and `u64` of `ldms/src/ldmsd/ldmsd_plugattr.c`.  Simplified: `num` gives the integer a
whole string denotes for `strtoll` and `strtoull` with base 0 (sign, prefix, digits), `none` if it is not a number or
something follows it.  The result is the return code and what is stored.
-/

namespace Verif.PlugAttr

open Verif.Av (Str)

/-- `strtoll`: `none` is `errno` set to `ERANGE` -/
def strtoll (v : Int) : Option Int := if v < -9223372036854775808 ∨ 9223372036854775807 < v then none else some v

/-- `strtoull`: the negative of a number is taken in the unsigned type; `none` is `errno` set to `ERANGE` -/
def strtoull (v : Int) : Option Int :=
  if v < -18446744073709551615 ∨ 18446744073709551615 < v then none else if v < 0 then some (18446744073709551616 + v) else some v

/-- `ldmsd_plugattr_s32` (`ldmsd_plugattr.c:834-852`) -/
def s32 (num : Str → Option Int) (exp : Str → Str) (pa : PA) (attr : Str) (key : Option Str) : Nat × Option Int :=
  match value exp pa attr key with
  | none => (126, none)
  | some t => match (num t).bind strtoll with
    | none => (95, none)
    | some j => if j > 2147483647 ∨ j < -2147483648 then (34, none) else (0, some j)

/-- `ldmsd_plugattr_u32` (`ldmsd_plugattr.c:854-872`) -/
def u32 (num : Str → Option Int) (exp : Str → Str) (pa : PA) (attr : Str) (key : Option Str) : Nat × Option Int :=
  match value exp pa attr key with
  | none => (126, none)
  | some t => match (num t).bind strtoll with
    | none => (95, none)
    | some j => if j > 4294967295 ∨ j < 0 then (34, none) else (0, some j)

/-- `ldmsd_plugattr_s64` (`ldmsd_plugattr.c:874-890`) -/
def s64 (num : Str → Option Int) (exp : Str → Str) (pa : PA) (attr : Str) (key : Option Str) : Nat × Option Int :=
  match value exp pa attr key with
  | none => (126, none)
  | some t => match (num t).bind strtoll with
    | none => (95, none)
    | some j => (0, some j)

/-- `ldmsd_plugattr_u64` (`ldmsd_plugattr.c:892-908`) -/
def u64 (num : Str → Option Int) (exp : Str → Str) (pa : PA) (attr : Str) (key : Option Str) : Nat × Option Int :=
  match value exp pa attr key with
  | none => (126, none)
  | some t => match (num t).bind strtoull with
    | none => (95, none)
    | some j => (0, some j)

end Verif.PlugAttr
