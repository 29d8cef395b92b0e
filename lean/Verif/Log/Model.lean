/-!
# Model: logging

`lib/src/ovis_log/ovis_log.c`: names of levels, subsystems and their levels, messages that are queued
for the logging thread, and the file they go to.  After `ovis_log_init`, with the logging thread.  Left
out: time stamps and the format of a line, failure of allocation, `ovis_log_list`.
-/

namespace Verif.Log

abbrev Str := List Char

/-! ## Names of levels -/

/-- `OVIS_LQUIET` and so on, ovis_log.h:76-85. -/
def lQuiet : Nat := 0
def lDebug : Nat := 1
def lInfo : Nat := 2
def lWarn : Nat := 4
def lError : Nat := 8
def lCrit : Nat := 16
def lAlways : Nat := 31

def lower (s : Str) : Str := s.map Char.toLower

/-- `__str_to_loglevel`, ovis_log.c:257-278; `none` is -EINVAL. -/
def nameLevel (s : Str) : Option Nat :=
  if lower s = "quiet".toList then some lQuiet
  else if lower s = "always".toList then some lAlways
  else if lower s = "crit".toList ∨ lower s = "critical".toList then some lCrit
  else if lower s = "error".toList then some lError
  else if lower s = "warn".toList ∨ lower s = "warning".toList then some lWarn
  else if lower s = "info".toList then some lInfo
  else if lower s = "debug".toList then some lDebug
  else none

/-- `level_tbl`, ovis_log.c:126-133. -/
def levelTbl : List (Nat × Str) :=
  [(lDebug, "DEBUG".toList), (lInfo, "INFO".toList), (lWarn, "WARNING".toList), (lError, "ERROR".toList),
   (lCrit, "CRITICAL".toList)]

/-- `__get_bit`, ovis_log.c:280-288, for a level above zero; `level` is less than 2^`fuel`. -/
def getBit : Nat → Nat → Nat
  | 0, _ => 0
  | fuel + 1, level => if level / 2 = 0 then 0 else getBit fuel (level / 2) + 1

/-- The words of `strtok_r(s, ",")`; the second argument is the word so far, reversed. -/
def tokens : Str → Str → List Str
  | [], acc => if acc = [] then [] else [acc.reverse]
  | c :: s, acc =>
    if c = ',' then (if acc = [] then tokens s [] else acc.reverse :: tokens s [])
    else tokens s (c :: acc)

/-- The loop over the words, ovis_log.c:329-334. -/
def orAll : List Str → Nat → Option Nat
  | [], level => some level
  | w :: ws, level => match nameLevel w with
    | none => none
    | some l => orAll ws (level ||| l)

/-- `ovis_log_str_to_level`, ovis_log.c:290-341. -/
def strToLevel (s : Str) : Option Nat :=
  if ',' ∉ s then
    match nameLevel s with
    | none => none
    | some 0 => some 0
    | some l => some ((levelTbl.drop (getBit 8 l + 1)).foldl (fun a e => a ||| e.1) l)
  else orAll (tokens s []) 0

/-- The names of the levels in the mask, with commas, ovis_log.c:361-374. -/
def maskNames (level : Nat) : List Str :=
  (levelTbl.filter fun e => decide (level &&& e.1 ≠ 0)).map (·.2)

def commas : List Str → Str
  | [] => []
  | [w] => w
  | w :: ws => w ++ ',' :: commas ws

/-- `ovis_log_level_to_str`, ovis_log.c:343-377, for a mask. -/
def levelToStr (level : Nat) : Str :=
  if level = 0 then "QUIET".toList
  else commas (maskNames level) ++ (if (maskNames level).length = 1 then [','] else [])

/-! ## Subsystems, messages and files -/

/-- A level is a mask, or `none` for `OVIS_LDEFAULT`. -/
abbrev Lv := Option Nat

/-- The second argument of `ovis_log_set_level` and `is_level_valid`, ovis_log.c:135-138. -/
def validLevel (l : Int) : Option Lv :=
  if l = -1 then some none
  else if l / 32 = 0 then some (some l.toNat)
  else none

/-- Where `log_fp` points: NULL, stdout, the mark for syslog, or a file. -/
inductive Sink
  | null
  | std
  | syslog
  | file (n : Nat)
  deriving DecidableEq, Repr

/-- What was written. -/
structure Line where
  sink : Sink
  name : Str
  level : Nat
  text : Str
  deriving DecidableEq, Repr

/-- `struct ovis_log_s`, ovis_log.h:88-94. -/
structure Sub where
  id : Nat
  name : Str
  level : Lv
  refs : Nat
  deriving DecidableEq, Repr

/-- `struct log_data`, ovis_log.c:95-106; `path` 0 is "syslog", and whether the file can be opened. -/
inductive Item
  | msg (id : Option Nat) (level : Nat) (text : Str)
  | openf (path : Nat) (good : Bool)
  | closef
  deriving DecidableEq, Repr

structure W where
  prog : Str
  dflt : Lv
  subs : List Sub
  next : Nat
  q : List Item
  fp : Sink
  /-- the variables `stdout` and `stderr` -/
  out : Sink
  /-- the first stdout was closed -/
  gone : Bool
  lines : List Line
  deriving DecidableEq, Repr

/-- After `ovis_log_init`, ovis_log.c:772-832. -/
def init (prog : Str) (level : Lv) : W := ⟨prog, level, [], 0, [], .null, .std, false, []⟩

def strLe : Str → Str → Bool
  | [], _ => true
  | _ :: _, [] => false
  | a :: s, b :: t => if a.toNat < b.toNat then true else if a.toNat = b.toNat then strLe s t else false

/-- `rbt_ins`: the tree in order of the names. -/
def ins (x : Sub) : List Sub → List Sub
  | [] => [x]
  | y :: l => if strLe x.name y.name then x :: y :: l else y :: ins x l

def get (w : W) (id : Nat) : Option Sub := w.subs.find? fun s => s.id = id

def setSub (l : List Sub) (id : Nat) (f : Sub → Sub) : List Sub := l.map fun s => if s.id = id then f s else s

/-- `__ovis_log_put`, ovis_log.c:392-400. -/
def put (l : List Sub) (id : Nat) : List Sub :=
  (setSub l id fun s => { s with refs := s.refs - 1 }).filter fun s => decide (s.refs ≠ 0)

/-- `ovis_log_set_level` for a subsystem, or for the default one (`none`), ovis_log.c:156-174. -/
def setLevel (w : W) (id : Option Nat) (l : Lv) : W :=
  match id with
  | none => match l with
    | none => w
    | some m => { w with dflt := some m }
  | some i => { w with subs := setSub w.subs i fun s => { s with level := l } }

/-- `lmask & level` in `ovis_vlog`, ovis_log.c:938-948. -/
def enabled (dflt l : Lv) (level : Nat) : Bool :=
  match l with
  | some m => decide (m &&& level ≠ 0)
  | none => match dflt with
    | some m => decide (m &&& level ≠ 0)
    | none => decide (level ≠ 0)

inductive Ev
  | register (name : Str)
  | destroy (id : Nat)
  | setLevel (id : Option Nat) (l : Int)
  | setByName (name : Option Str) (l : Int)
  /-- the names matched by the regular expression -/
  | setByRegex (rx : Str → Bool) (l : Int)
  | log (id : Option Nat) (level : Nat) (text : Str)
  | openf (path : Nat) (good : Bool)
  | closef
  /-- the logging thread takes the next item -/
  | work

/-- `__log`, ovis_log.c:665-702: NULL stands for stdout. -/
def writeTo : Sink → Sink
  | .null => .std
  | s => s

/-- `regexec` of the last name, ovis_log.c:207-220. -/
def lastRc (rx : Str → Bool) : List Sub → Int
  | [] => 0
  | [s] => if rx s.name then 0 else 1
  | _ :: l => lastRc rx l

/-- The result and the return code; `none` if behaviour is undefined. -/
def step (w : W) : Ev → Option (W × Int)
  /- `ovis_log_register`, ovis_log.c:407-446: the number of the subsystem, or -EEXIST for NULL -/
  | .register name =>
    if w.subs.any fun s => s.name = name then some (w, -17)
    else some ({ w with subs := ins ⟨w.next, name, none, 1⟩ w.subs, next := w.next + 1 }, w.next)
  /- `ovis_log_destroy`, 402-405 -/
  | .destroy id =>
    match get w id with
    | none => none
    | some _ => some ({ w with subs := put w.subs id }, 0)
  | .setLevel id l =>
    match validLevel l with
    | none => some (w, 22)
    | some v =>
      match id with
      | none => some (setLevel w none v, 0)
      | some i => match get w i with
        | none => none
        | some _ => some (setLevel w (some i) v, 0)
  /- `ovis_log_set_level_by_name`, 176-185 -/
  | .setByName name l =>
    match name with
    | none => match validLevel l with
      | none => some (w, 22)
      | some v => some (setLevel w none v, 0)
    | some n => match w.subs.find? fun s => s.name = n with
      | none => some (w, 2)
      | some s => match validLevel l with
        | none => some (w, 22)
        | some v => some (setLevel w (some s.id) v, 0)
  /- `ovis_log_set_level_by_regex`, 187-223 -/
  | .setByRegex rx l =>
    let w' := match validLevel l with
      | none => w
      | some v => { w with subs := w.subs.map fun s => if rx s.name then { s with level := v } else s }
    some (w', if w.subs.any fun s => rx s.name then lastRc rx w.subs else 2)
  /- `ovis_vlog`, 920-989 -/
  | .log id level text =>
    match id with
    | none => if enabled w.dflt w.dflt level then some ({ w with q := w.q ++ [.msg none level text] }, 0) else some (w, 0)
    | some i => match get w i with
      | none => none
      | some s =>
        if enabled w.dflt s.level level then
          some ({ w with q := w.q ++ [.msg (some i) level text],
                         subs := setSub w.subs i fun s => { s with refs := s.refs + 1 } }, 0)
        else some (w, 0)
  /- `ovis_log_open`, 840-889, and `ovis_log_close`, 898-914 -/
  | .openf path good => some ({ w with q := w.q ++ [.openf path good] }, 0)
  | .closef => some ({ w with q := w.q ++ [.closef] }, 0)
  /- `log_actor`, 704-747 -/
  | .work =>
    match w.q with
    | [] => some (w, 0)
    | .msg none level text :: q =>
      if writeTo w.fp = .std ∧ w.gone = true then none
      else some ({ w with q := q, lines := w.lines ++ [⟨writeTo w.fp, w.prog, level, text⟩] }, 0)
    | .msg (some i) level text :: q =>
      match get w i with
      | none => none
      | some s =>
        if writeTo w.fp = .std ∧ w.gone = true then none
        else some ({ w with q := q, lines := w.lines ++ [⟨writeTo w.fp, s.name, level, text⟩], subs := put w.subs i }, 0)
    /- `__log_open` and `__log_reopen`, 588-648: `fflush` of the mark for syslog; the old stream is closed -/
    | .openf path good :: q =>
      if w.fp = .syslog then none
      else if w.fp = .std ∧ w.gone = true then none
      else if path ≠ 0 ∧ good = false then some ({ w with q := q }, 0)
      else
        let s := if path = 0 then .syslog else .file path
        some ({ w with q := q, fp := s, out := s, gone := w.gone || decide (w.fp = .std) }, 0)
    /- `__log_close`, 650-663: `fclose` of NULL, or again of the first stdout -/
    | .closef :: q =>
      if w.fp = .null then none
      else if w.fp = .std ∧ w.gone = true then none
      else some ({ w with q := q, fp := .std, out := .std, gone := w.gone || decide (w.fp = .std) }, 0)

/-! ## File descriptors -/

/-- What descriptors 0, 1, 2 and that of the log file refer to. -/
structure Fds where
  fd0 : Nat
  fd1 : Nat
  fd2 : Nat
  deriving DecidableEq, Repr

/-- `__cache_stdout_stderr`, ovis_log.c:749-770: `stdout_fd_cache` and `stderr_fd_cache` are static and
never set, so both are 0. -/
def cacheFds (f : Fds) : Fds :=
  let f := { f with fd0 := f.fd1 }
  { f with fd0 := f.fd2 }

/-- The `dup2` of `__log_open`, 605-617. -/
def openFds (f : Fds) (file : Nat) : Fds := { f with fd1 := file, fd2 := file }

/-- The `dup2` of `__log_close`, 655-657. -/
def closeFds (f : Fds) : Fds := { f with fd1 := f.fd0, fd2 := f.fd0 }

end Verif.Log
