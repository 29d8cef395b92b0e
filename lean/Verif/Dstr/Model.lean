/-!
# Dynamic strings (lib/src/ovis_util/dstring.c)

Strings are lists of bytes without the NUL.  A pointer outside its block is the fault `overrun`.  Line numbers are those of
lib/src/ovis_util/dstring.c.
-/

namespace Verif.Dstr

abbrev Str := List Nat

inductive Fault
  | overrun
  deriving DecidableEq, Repr

abbrev Out := Except Fault

/-- `INT_MAX` -/
def INT_MAX : Nat := 2147483647

/-- `DSTRING_STATIC_SIZE`, dstring.h:86 -/
def STATIC : Nat := 200

/-- `dstring_t`, dstring.h:91-104: `heap` is the block that `string` points to, `none` if it points to `staticSpace` -/
structure Ds where
  static : Str
  heap : Option Str
  length : Nat
  capacity : Nat
  dead : Bool
  deriving DecidableEq, Repr

/-- the block that `string` points to -/
def block (d : Ds) : Str :=
  match d.heap with
  | some b => b
  | none => d.static

/-- the same with other bytes in that block -/
def putBlock (d : Ds) (b : Str) : Ds :=
  match d.heap with
  | some _ => { d with heap := some b }
  | none => { d with static := b }

/-- What `malloc` does in a call: whether it succeeds, and the bytes of the block it gives. -/
structure Mem where
  ok : Bool
  junk : Nat → Nat

/-- `malloc(n)` -/
def malloc (m : Mem) (n : Nat) : Option Str := if m.ok then some ((List.range n).map m.junk) else none

/-- bytes written to `b` from `i` on -/
def write (b : Str) (i : Nat) (bs : Str) : Out Str :=
  if i + bs.length ≤ b.length then .ok (b.take i ++ bs ++ b.drop (i + bs.length)) else .error .overrun

/-- what `strncpy(…, s, n)` writes: at most `n` bytes of `s`, and NULs up to `n` -/
def ncpy (s : Str) (n : Nat) : Str := s.take n ++ List.replicate (n - s.length) 0

/-- the bytes before the first NUL of a block; a block without a NUL is read beyond its end -/
def cstr (b : Str) : Out Str := if 0 ∈ b then .ok (b.takeWhile (· ≠ 0)) else .error .overrun

/-- `dstr_init`, 78-88; `staticSpace` has any bytes before -/
def init (junk : Nat → Nat) : Ds :=
  ⟨(((List.range STATIC).map junk).set 0 0).set (STATIC - 1) 0, none, 0, STATIC, false⟩

/-- `dstr_init2`, 90-105: the capacity is changed before `malloc` is asked -/
def init2 (junk : Nat → Nat) (m : Mem) (cap : Int) : Ds :=
  let d := init junk
  if cap ≥ d.capacity then
    match malloc m cap.toNat with
    | none => { d with capacity := cap.toNat, dead := true }
    | some b => { d with capacity := cap.toNat, heap := some (b.set 0 0) }
  else d

/-- the conversion `(int)` of a length -/
def toInt (n : Nat) : Int := if n % 4294967296 < 2147483648 then (n % 4294967296 : Nat) else (n % 4294967296 : Nat) - 4294967296

/-- "input_too_big" -/
def tooBig : Str := [105, 110, 112, 117, 116, 95, 116, 111, 111, 95, 98, 105, 103]

/-- the new capacity, 130-134 and 252-256 -/
def grown (n : Nat) : Nat := if n > INT_MAX / 2 then INT_MAX else n * 2

/-- `string[i] = '\0'` -/
def endAt (d : Ds) (i : Int) : Out Ds :=
  if i < 0 then .error .overrun
  else
    match write (block d) i.toNat [0] with
    | .error x => .error x
    | .ok b => .ok (putBlock d b)

/-- `dstr_set`, 107-154.  The result is the string that is returned, `none` for NULL.  A length that is negative is never stored: the copy
has overrun by then. -/
def set (d : Ds) (m : Mem) (s : Str) : Out (Ds × Option Str) :=
  let src := if INT_MAX < s.length then tooBig else s
  let length := toInt s.length
  let d := { d with dead := false }
  let copy (d : Ds) : Out (Ds × Option Str) :=
    match write (block d) 0 (ncpy src s.length) with
    | .error x => .error x
    | .ok b =>
      match endAt { putBlock d b with length := length.toNat } length with
      | .error x => .error x
      | .ok d =>
        match cstr (block d) with
        | .error x => .error x
        | .ok r => .ok (d, some r)
  if length ≥ d.capacity then
    match malloc m (grown length.toNat) with
    | none => .ok ({ d with dead := true }, none)
    | some b => copy { d with capacity := grown length.toNat, heap := some b }
  else copy d

/-- the digits of a number, as `sprintf` writes them -/
def digits (n : Nat) : Str := if n < 10 then [48 + n] else digits (n / 10) ++ [48 + n % 10]
decreasing_by omega

/-- `sprintf(string, "%" PRId64, val)` -/
def text (v : Int) : Str := if v < 0 then 45 :: digits v.natAbs else digits v.toNat

/-- `dstr_set_int`, 156-198: the same as `dstr_set` except for the copy; the text of a number has at most 20 bytes -/
def setInt (d : Ds) (m : Mem) (v : Int) : Out (Ds × Option Str) := set d m (text v)

/-- `dstrcat`, 218-277.  If the sum of the lengths is above `INT_MAX` it is negative (as `int`) and a large number (as `size_t`): NULL is returned. -/
def cat (d : Ds) (m : Mem) (s : Str) (n : Int) : Out (Ds × Option Str) :=
  if d.dead then .ok (d, none)
  else if INT_MAX < s.length then .ok (d, none)
  else
    let length := if n < 0 then s.length else min n.toNat s.length
    let newSize := length + d.length
    if newSize > INT_MAX - 1 then .ok (d, none)
    else
      let copy (d : Ds) : Out (Ds × Option Str) :=
        match write (block d) d.length (ncpy s length) with
        | .error x => .error x
        | .ok b =>
          match endAt { putBlock d b with length := d.length + length } newSize with
          | .error x => .error x
          | .ok d =>
            match cstr (block d) with
            | .error x => .error x
            | .ok r => .ok (d, some r)
      if newSize ≥ d.capacity then
        match malloc m (grown newSize) with
        | none => .ok ({ d with dead := true }, none)
        | some b =>
          match cstr (block d) with
          | .error x => .error x
          | .ok old =>
            match write b 0 (ncpy old d.length) with
            | .error x => .error x
            | .ok b => copy { d with capacity := grown newSize, heap := some b }
      else copy d

/-- `dstr_trunc`, 279-290 -/
def trunc (d : Ds) (n : Int) : Out Ds :=
  if n.toNat < d.length then endAt { d with length := n.toNat } n.toNat else .ok d

/-- `dstr_free`, 292-304 -/
def free (d : Ds) : Ds := ⟨d.static.set 0 0, none, 0, STATIC, false⟩

/-- `dstr_extract`, 306-317 -/
def extract (d : Ds) (m : Mem) : Out (Ds × Option Str) :=
  match cstr (block d) with
  | .error x => .error x
  | .ok s => .ok (free d, if m.ok then some s else none)

/-- The calls that a client makes. -/
inductive Op
  | set (s : Str)
  | setInt (v : Int)
  | cat (s : Str) (n : Int)
  | catInt (v : Int)
  | trunc (n : Int)
  | free
  | extract

/-- one call with what it returns.  `dstrcat_int` and `dstrcat_uint`, 200-216, are `dstrcat` of the text of the number. -/
def step (d : Ds) (m : Mem) : Op → Out (Ds × Option Str)
  | .set s => set d m s
  | .setInt v => setInt d m v
  | .cat s n => cat d m s n
  | .catInt v => cat d m (text v) (-1)
  | .trunc n =>
    match trunc d n with
    | .error x => .error x
    | .ok d => .ok (d, none)
  | .free => .ok (free d, none)
  | .extract => extract d m

/-- a sequence of calls -/
def run (d : Ds) : List (Mem × Op) → Out Ds
  | [] => .ok d
  | (m, o) :: os =>
    match step d m o with
    | .error x => .error x
    | .ok (d, _) => run d os

end Verif.Dstr
