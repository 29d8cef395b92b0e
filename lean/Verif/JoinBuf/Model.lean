/-!
# Joining path components into a buffer

`ovis_join_buf` of `lib/src/ovis_util/util.c`.  The buffer is a block of `buflen` bytes; writing
outside it is `none`.
-/

namespace Verif.JoinBuf

/-- result codes -/
inductive Rc where
  | ok | einval | e2big
  deriving DecidableEq, Repr

/-- store bytes at an offset of a block -/
def store (mem : List Nat) (o : Nat) (xs : List Nat) : Option (List Nat) :=
  if o + xs.length ≤ mem.length then some (mem.take o ++ (xs ++ mem.drop (o + xs.length))) else none

/-- `if ((len + chunk) < buflen) { memcpy(buf + len, n, chunk); len += chunk; } else rc = E2BIG;` -/
def put (mem : List Nat) (len : Nat) (xs : List Nat) : Option (List Nat × Nat × Rc) :=
  if len + xs.length < mem.length then
    match store mem len xs with
    | none => none
    | some m => some (m, len + xs.length, .ok)
  else some (mem, len, .e2big)

/-- the `while` loop (`util.c:722-741`) over the remaining components -/
def loop (sep : List Nat) : List Nat → Nat → List (List Nat) → Option (List Nat × Nat × Rc)
  | mem, len, [] => some (mem, len, .ok)
  | mem, len, n :: ns =>
    match put mem len sep with
    | none => none
    | some (mem, len, .ok) =>
      (match put mem len n with
       | none => none
       | some (mem, len, .ok) => loop sep mem len ns
       | some r => some r)
    | some r => some r

/-- `ovis_join_buf` (`util.c:691-748`) for a non-NULL buffer; `none` = a write outside it.
`comps` are the arguments up to the NULL. -/
def joinBuf (mem : List Nat) (sep : List Nat) (comps : List (List Nat)) : Option (List Nat × Rc) :=
  match store mem 0 [0] with
  | none => none
  | some mem =>
    match comps with
    | [] =>
      (match store mem 0 [0] with
       | none => none
       | some m => some (m, .einval))
    | n :: ns =>
      match put mem 0 n with
      | none => none
      | some (mem, len, .ok) =>
        (match loop sep mem len ns with
         | none => none
         | some (mem, len, rc) =>
           match store mem len [0] with
           | none => none
           | some m => some (m, rc))
      | some (mem, len, rc) =>
        match store mem len [0] with
        | none => none
        | some m => some (m, rc)

end Verif.JoinBuf
