/-!
# Model: reading configuration files

`__process_config_file` of ldms/src/ldmsd/ldmsd_config.c and what calls it.  A file is a
text without NUL characters; reading and allocating do not fail.
-/

namespace Verif.CfgFile

/-- `isspace` in the C locale. -/
def isSpace (c : Char) : Bool :=
  c == ' ' || c == '\t' || c == '\n' || c == '\x0b' || c == '\x0c' || c == '\r'

/-- `find_comment`, ldmsd_config.c:524-538, and the NUL put in its place, 649-650. -/
def cutComment (lead : Bool) : List Char → List Char
  | [] => []
  | c :: cs => if c = '#' ∧ lead = true then '\x00' :: cs else c :: cutComment (isSpace c) cs

/-- Without the spaces at the end. -/
def trimEnd (l : List Char) : List Char := (l.reverse.dropWhile isSpace).reverse

/-- `tmp`, of length `cnt`, ldmsd_config.c:645-672. -/
def physical (l : List Char) : List Char := (trimEnd (cutComment true l)).dropWhile isSpace

/-- What `snprintf("%s", tmp)` copies, ldmsd_config.c:689. -/
def piece (t : List Char) : List Char := t.takeWhile (· ≠ '\x00')

/-- `line`, up to `off`, and `line_sz`. -/
structure Buf where
  line : List Char
  sz : Nat
  deriving DecidableEq

/-- What a line of the file leads to. -/
inductive Fed
  /-- `goto next_line`, ldmsd_config.c:694 -/
  | more (b : Buf)
  /-- `parse:`, ldmsd_config.c:697 -/
  | parse (b : Buf)
  /-- a write beyond the buffer -/
  | overrun
  deriving DecidableEq

/-- One line of the file, ldmsd_config.c:645-697.  `snprintf` writes the piece and a NUL at
`off`. -/
def feed (b : Buf) (l : List Char) : Fed :=
  let t := physical l
  if t = [] ∨ t = ['\\'] then .parse b
  else
    let n := t.length + b.line.length
    let sz := if n > b.sz then (n / b.sz + 1) * b.sz else b.sz
    let line := b.line ++ piece t
    if line.length + 1 > sz then .overrun
    else if line.getLast? = some '\\' then .more { line := line.dropLast ++ [' '], sz := sz }
    else .parse { line := line, sz := sz }

/-- `getline`: the lines of a file, with their ends. -/
def lines : List Char → List (List Char)
  | [] => []
  | c :: cs =>
    if c = '\n' then ['\n'] :: lines cs
    else match lines cs with
      | [] => [[c]]
      | l :: ls => (c :: l) :: ls

/-- What is parsed, with the number of the line. -/
inductive Ev
  | line (no : Nat) (text : List Char)
  | overrun
  deriving DecidableEq

/-- The loop over lines, ldmsd_config.c:637-779, without what is done with them. -/
def scanLines (b : Buf) (no : Nat) : List (List Char) → List Ev
  | [] => []
  | l :: ls =>
    match feed b l with
    | .more b => scanLines b (no + 1) ls
    | .overrun => [.overrun]
    | .parse b =>
      if b.line = [] then scanLines b (no + 1) ls
      else .line (no + 1) b.line :: scanLines { b with line := [] } (no + 1) ls

/-- The file; `LDMSD_CFG_FILE_XPRT_MAX_REC` is 8192, ldmsd.h:755. -/
def scan (text : List Char) : List Ev := scanLines { line := [], sz := 8192 } 0 (lines text)

/-- Commands: parsing (or an error number), `is_req_id_priority`, the path of an include,
and the error number of executing one after those executed before (0 if there is none).
Commands that `__req_filter_failover`, ldmsd_config.c:863-902, notes down for later count
as executed. -/
structure Lang (C : Type) where
  parse : List Char → Except Nat C
  prio : C → Bool
  incl : C → Option String
  rc : List C → C → Nat

/-- How it ends, with the commands executed. -/
inductive Out (C : Type)
  | done (h : List C)
  | failed (h : List C) (rc line : Nat)
  | overrun
  /-- files are nested deeper than the fuel -/
  | deep

variable {C : Type}

/-- The loop with execution, ldmsd_config.c:697-779; `file` is the processing of an included
file, `include_handler`, ldmsd_request.c:5930-5959. -/
def runLines (file : String → List C → Out C) (L : Lang C) (init : Bool) :
    List Ev → List C → Out C
  | [], h => .done h
  | .overrun :: _, _ => .overrun
  | .line no text :: es, h =>
    match L.parse text with
    | .error e => .failed h e no
    | .ok c =>
      if L.prio c = init then runLines file L init es h
      else
        match L.incl c with
        | some p =>
          match file p (h ++ [c]) with
          | .done h' => runLines file L init es h'
          | .failed h' rc _ => .failed h' rc no
          | .overrun => .overrun
          | .deep => .deep
        | none =>
          if L.rc h c = 0 then runLines file L init es (h ++ [c]) else .failed (h ++ [c]) (L.rc h c) no

/-- `process_config_file`, ldmsd_config.c:986-992; `ENOENT` is 2. -/
def runFile (fs : String → Option (List Char)) (L : Lang C) (init : Bool) : Nat → String → List C → Out C
  | 0, _, _ => .deep
  | n + 1, p, h =>
    match fs p with
    | none => .failed h 2 0
    | some t => runLines (runFile fs L init n) L init (scan t) h

/-- The files of the command line in turn, ldmsd.c:2158-2171 and 2313-2332. -/
def runFiles (fs : String → Option (List Char)) (L : Lang C) (init : Bool) (n : Nat) :
    List String → List C → Out C
  | [], h => .done h
  | p :: ps, h =>
    match runFile fs L init n p h with
    | .done h => runFiles fs L init n ps h
    | o => o

/-- `main`: all files before and after `is_ldmsd_initialized` is set, ldmsd.c:2158-2332. -/
def startup (fs : String → Option (List Char)) (L : Lang C) (n : Nat) (ps : List String) : Out C :=
  match runFiles fs L false n ps [] with
  | .done h => runFiles fs L true n ps h
  | o => o

end Verif.CfgFile
