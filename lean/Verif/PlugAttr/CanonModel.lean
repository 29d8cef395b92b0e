import Verif.PlugAttr.Model

/-!
# Continuation lines and comments of the options file

`canonical` of `ldms/src/ldmsd/ldmsd_plugattr.c`.  The buffer is the list of its characters, without the NUL after it;
the file has no NUL in it.
-/

namespace Verif.PlugAttr

open Verif.Av (Str)

/-- the first loop of `canonical` (`ldmsd_plugattr.c:140-153`): `acc` is the line so far, reversed, `first` that it is the
first line.  `none`: a blank first line makes it read the byte before the buffer.  Simplified: the loop finds the end of the
line with `strchr` and goes backwards from there. -/
def merge (first : Bool) (acc : Str) : Str → Option Str
  | [] => some acc.reverse
  | c :: r =>
    if c = '\n' then
      match acc.dropWhile isSpace with
      | [] => if first then none else (merge false [] r).map fun t => acc.reverse ++ '\n' :: t
      | d :: ds =>
        if d = '\\' then
          (merge false [] r).map fun t => ds.reverse ++ ' ' :: (acc.takeWhile isSpace).reverse ++ ' ' :: t
        else (merge false [] r).map fun t => acc.reverse ++ '\n' :: t
    else merge first (c :: acc) r

/-- where the second loop is: at the start of a line, in a comment, in another line -/
inductive Mode where
  | start | comment | text
  deriving DecidableEq

/-- the second loop of `canonical` (`ldmsd_plugattr.c:155-177`): the buffer, and whether the NUL after it is still there
(the loop of a comment writes a space at `bufend`, `ldmsd_plugattr.c:158-167`) -/
def clear : Mode → Str → Str × Bool
  | .comment, [] => ([], false)
  | _, [] => ([], true)
  | .start, c :: r =>
    if isSpace c then (c :: (clear .start r).1, (clear .start r).2)
    else if c = '#' then (' ' :: (clear .comment r).1, (clear .comment r).2)
    else (c :: (clear .text r).1, (clear .text r).2)
  | .comment, c :: r =>
    if c ≠ '\n' then (' ' :: (clear .comment r).1, (clear .comment r).2)
    else (c :: (clear .start r).1, (clear .start r).2)
  | .text, c :: r =>
    if c = '\n' then (c :: (clear .start r).1, (clear .start r).2) else (c :: (clear .text r).1, (clear .text r).2)

/-- `canonical` (`ldmsd_plugattr.c:131-179`) -/
def canonical (buf : Str) : Option (Str × Bool) := (merge true [] buf).map (clear .start)

end Verif.PlugAttr
