/-!
# Attribute-value lists and environment variables

`tokenize`, `av_name`, `av_value`, `av_idx_of`, `av_value_at_idx`, `av_add`, `av_copy`, `av_to_string`,
`str_repl_env_vars`, `get_env_var` of `lib/src/ovis_util/util.c`.

A C string is the list of its characters (without the terminating NUL).  Pointers into the command
string are represented by the characters they point at.  Allocation does not fail.  `none` from
`strReplEnvVars` is a write outside a local array or a failing `assert`.
-/

namespace Verif.Av

abbrev Str := List Char

/-- `" \t\n"`, the delimiters given to `strtok_r` (`util.c:379`) -/
def isDelim (c : Char) : Bool := c == ' ' || c == '\t' || c == '\n'

/-- `strtok_r` as used at `util.c:379,381`: skip delimiters, take the token, overwrite the delimiter
that ends it; the token and what is left -/
def strtok (s : Str) : Option (Str × Str) :=
  match s.dropWhile isDelim with
  | [] => none
  | c :: cs => some ((c :: cs).takeWhile (fun x => !isDelim x), ((c :: cs).dropWhile (fun x => !isDelim x)).drop 1)

theorem strtok_lt {s t r : Str} (h : strtok s = some (t, r)) : r.length < s.length := by
  rw [strtok] at h
  have hd : (s.dropWhile isDelim).length ≤ s.length := List.Sublist.length_le (List.dropWhile_sublist _)
  split at h
  · cases h
  · rename_i c cs hcs
    simp only [Option.some.injEq, Prod.mk.injEq] at h
    rw [← h.2]
    have hc : isDelim c = false := by
      rw [← Bool.not_eq_true]
      intro hh
      have h1 := List.head?_dropWhile_not isDelim s
      rw [hcs] at h1
      simp [hh] at h1
    rw [hcs] at hd
    rw [List.dropWhile_cons]
    simp only [hc, Bool.not_false, if_true]
    have h2 : (cs.dropWhile (fun x => !isDelim x)).length ≤ cs.length :=
      List.Sublist.length_le (List.dropWhile_sublist _)
    simp only [List.length_cons, List.length_drop] at hd ⊢
    omega

/-- `strstr(token, "=")`: the name and the value (`util.c:380,385-388`) -/
def splitEq : Str → Option (Str × Str)
  | [] => none
  | c :: cs => if c = '=' then some ([], cs) else (splitEq cs).map fun p => (c :: p.1, p.2)

/-- an entry of a list; the value of a keyword is NULL -/
structure Ent where
  name : Str
  value : Option Str
  deriving DecidableEq, Repr

/-- the loop of `tokenize` (`util.c:371-404`); `none` is `ENOMEM` -/
def tokLoop (kwSize avSize : Nat) (s : Str) (kw av : List Ent) : Option (List Ent × List Ent) :=
  match h : strtok s with
  | none => some (kw, av)
  | some (t, r) =>
    match splitEq t with
    | some (n, v) =>
      if av.length ≥ avSize then none else tokLoop kwSize avSize r kw (av ++ [⟨n, some v⟩])
    | none =>
      if kw.length ≥ kwSize then none else tokLoop kwSize avSize r (kw ++ [⟨t, none⟩]) av
  termination_by s.length
  decreasing_by
    · exact strtok_lt h
    · exact strtok_lt h

/-- `tokenize` (`util.c:371-404`) -/
def tokenize (kwSize avSize : Nat) (s : Str) : Option (List Ent × List Ent) :=
  tokLoop kwSize avSize s [] []

/-- `av_idx_of` (`util.c:332-351`): the loop with its counter -/
def idxLoop (name : Str) : List Ent → Int → Int → Int
  | [], _, k => k
  | e :: es, i, k =>
    if e.name ≠ name then idxLoop name es (i + 1) k
    else if k = -1 then idxLoop name es (i + 1) i
    else if k < 0 then idxLoop name es (i + 1) (k - 1)
    else idxLoop name es (i + 1) (-2)

def avIdxOf (l : List Ent) (name : Str) : Int := idxLoop name l 0 (-1)

/-! ## environment variables -/

/-- `[[:alnum:]_]` in the C locale (`util.c:238`) -/
def isName (c : Char) : Bool := c.isAlphanum || c == '_'

/-- a match of the expression at the beginning of the string: the name and what follows -/
def refAt : Str → Option (Str × Str)
  | '$' :: '{' :: t =>
    match t.takeWhile isName, t.dropWhile isName with
    | n :: ns, '}' :: r => some (n :: ns, r)
    | _, _ => none
  | _ => none

/-- `regexec`: the leftmost match, start and end offset and the name -/
def findMatch : Str → Option (Nat × Nat × Str)
  | [] => none
  | c :: cs =>
    match refAt (c :: cs) with
    | some (n, _) => some (0, n.length + 3, n)
    | none => (findMatch cs).map fun p => (p.1 + 1, p.2.1 + 1, p.2.2)

theorem findMatch_pos {s : Str} {a b : Nat} {n : Str} (h : findMatch s = some (a, b, n)) : 0 < b := by
  cases s with
  | nil => cases h
  | cons c cs =>
    rw [findMatch] at h
    split at h
    · simp only [Option.some.injEq, Prod.mk.injEq] at h; omega
    · cases hf : findMatch cs with
      | none => rw [hf] at h; cases h
      | some p =>
        rw [hf] at h
        simp only [Option.map_some, Option.some.injEq, Prod.mk.injEq] at h; omega

/-- an element of `match[]` and of `values[]` -/
structure Mat where
  so : Nat
  eo : Nat
  name : Str
  val : Str

/-- the first loop of `str_repl_env_vars` (`util.c:248-267`), at offset `pos` with `i` matches recorded.
`match[i].rm_so = -1` is a write outside the array when `i ≥ 100`; `get_env_var` asserts that the name
fits its buffer (`util.c:86`). -/
def scan (env : Str → Option Str) (str : Str) (pos i : Nat) : Option (List Mat) :=
  if i ≥ 100 then none
  else
    match findMatch (str.drop pos) with
    | none => some []
    | some (a, b, n) =>
      if n.length ≥ 100 then none
      else (scan env str (pos + b) (i + 1)).map fun l => ⟨pos + a, pos + b, n, (env n).getD []⟩ :: l
  termination_by 100 - i

/-- the second loop (`util.c:284-296`) and the copy of the remainder -/
def assemble (str : Str) : List Mat → Nat → Str → Str
  | [], so, acc => acc ++ str.drop so
  | m :: ms, so, acc => assemble str ms m.eo (acc ++ (str.drop so).take (m.so - so) ++ m.val)

/-- `str_repl_env_vars` (`util.c:227-297`) with the allocation (`res_len`) and the final `assert` -/
def strReplEnvVars (env : Str → Option Str) (str : Str) : Option Str :=
  match scan env str 0 0 with
  | none => none
  | some [] => some str
  | some ms =>
    let nameTotal := (ms.map fun m => m.name.length + 3).sum
    let valueTotal := (ms.map fun m => m.val.length).sum
    let res := assemble str ms 0 []
    if res.length + 1 ≤ str.length - nameTotal + valueTotal + 1 ∧
        res.length + 1 = str.length - nameTotal + valueTotal + 1 then some res else none

/-- `av_value` (`util.c:308-330`): outer `none` as for `strReplEnvVars`, inner `none` is NULL -/
def avValue (env : Str → Option Str) : List Ent → Str → Option (Option Str)
  | [], _ => some none
  | e :: es, name =>
    if e.name ≠ name then avValue env es name
    else match e.value with
      | none => some none
      | some v => (strReplEnvVars env v).map some

/-- `av_add` (`util.c:451-485`); `none` is `ENOSPC` -/
def avAdd (size : Nat) (l : List Ent) (name : Str) (value : Option Str) : Option (List Ent) :=
  if l.length = size then none else some (l ++ [⟨name, value⟩])

/-- `av_copy` (`util.c:487-518`) -/
def avCopy (l : List Ent) : List Ent := l.map fun e => ⟨e.name, e.value⟩

/-- `av_to_string(av, 0)` (`util.c:520-557`) -/
def avToString (l : List Ent) : Str :=
  (if l.length < 1 then "(empty)".toList else []) ++
    (l.map fun e => e.name ++ (match e.value with | none => [] | some v => '=' :: v) ++ [' ']).flatten

end Verif.Av
