/-!
# Files of stream messages (ldms/src/sampler/blob_stream/blob_stream_writer.c)

One stream: the writer keeps the data of its streams apart, and their files have different names as long as the names of the streams have no slash.  A directory (path and
container) is a number, bytes are numbers.  Directories can be made, files can be opened, renamed and written to, and there is memory; only the write of the message
itself may be short.  Line numbers are those of blob_stream_writer.c.  `gens` and `sent` are not in the code: they are what the specification speaks about.
-/

namespace Verif.BlobFile

/-- the four files -/
inductive Kind
  | dat
  | off
  | tim
  | typ
  deriving DecidableEq, Repr

/-- `path/container/stream.KIND.time`, 412, 422, 432, 440, 240-243, or the same in `spool`, 346 -/
structure Name where
  dir : Nat
  spooled : Bool
  kind : Kind
  time : Nat
  deriving DecidableEq, Repr

abbrev Files := Name → Option (List Nat)

def put (fs : Files) (n : Name) (v : Option (List Nat)) : Files := fun m => if m = n then v else fs m

/-- `fwrite` to a file that is open -/
def add (fs : Files) (n : Name) (bs : List Nat) : Files := put fs n ((fs n).map (· ++ bs))

/-- `ldms_stream_type_t`; `other`: a number that is neither -/
inductive MType
  | string
  | json
  | other
  deriving DecidableEq, Repr

/-- `blob_stream_type_to_char`, 133-149 -/
def typeChar : MType → Nat
  | .string => 115
  | .json => 106
  | .other => 0

/-- a message, and the time when the writer gets it -/
structure Msg where
  data : List Nat
  type : MType
  sec : Nat
  usec : Nat
  deriving DecidableEq, Repr

/-- the bytes of `htole64` -/
def le : Nat → Nat → List Nat
  | 0, _ => []
  | k + 1, n => n % 256 :: le k (n / 256)

/-- `enum writer_state`, 78-84 -/
inductive WS
  | new
  | opened
  | reopen
  | closed
  | err
  deriving DecidableEq, Repr

/-- `struct stream_data`, 86-104: the directories of the names that are there (`main`: of DAT and OFFSET), the time in the names when the files are open -/
structure Sd where
  ws : WS
  main : Option Nat
  tim : Option Nat
  typ : Option Nat
  time : Option Nat
  offset : Nat
  subscribed : Bool
  deriving DecidableEq, Repr

/-- one opening of the files and what was written since, the newest first -/
structure Gen where
  dir : Nat
  tim : Option Nat
  typ : Option Nat
  time : Nat
  msgs : List Msg
  deriving DecidableEq, Repr

structure St where
  sd : Option Sd
  spool : Bool
  closing : Bool
  fs : Files
  gens : List Gen
  sent : List Msg

def init : St := ⟨none, false, false, fun _ => none, [], []⟩

/-- the magic words with their terminators, 277, 286, 295, 305: bloboff, blobdat, blobtim, blobtyp -/
def magic : Kind → List Nat
  | .off => [98, 108, 111, 98, 111, 102, 102, 0]
  | .dat => [98, 108, 111, 98, 100, 97, 116, 0]
  | .tim => [98, 108, 111, 98, 116, 105, 109, 0]
  | .typ => [98, 108, 111, 98, 116, 121, 112, 0]

/-- `fopen_perm(…, "w", …)`, with the magic word -/
def start (fs : Files) (k : Kind) (t : Nat) : Option Nat → Files
  | none => fs
  | some d => put fs ⟨d, false, k, t⟩ (some (magic k))

/-- `stream_data_open`, 234-314 -/
def openFiles (st : St) (sd : Sd) (t : Nat) : St :=
  match sd.main with
  | none => { st with sd := some { sd with ws := .err } }
  | some d =>
    { st with
      sd := some { sd with ws := .opened, time := some t, offset := sd.offset + 8 }
      fs := start (start (start (start st.fs .off t sd.main) .dat t sd.main) .tim t sd.tim) .typ t sd.typ
      gens := ⟨d, sd.tim, sd.typ, t, []⟩ :: st.gens }

/-- a write to a file if there is one -/
def write (fs : Files) (k : Kind) (t : Nat) (bs : List Nat) : Option Nat → Files
  | none => fs
  | some d => add fs ⟨d, false, k, t⟩ bs

/-- the ghost of a write -/
def record (m : Msg) : List Gen → List Gen
  | [] => []
  | g :: gs => { g with msgs := m :: g.msgs } :: gs

/-- `stream_cb`, 152-216, when the files are open: the offset, the time, the type and `w` bytes of the message -/
def store (st : St) (sd : Sd) (t : Nat) (m : Msg) (w : Nat) : St × Nat :=
  let data := m.data.take w
  let fs := write st.fs .off t (le 8 sd.offset) sd.main
  let fs := write fs .tim t (le 8 m.sec ++ le 8 m.usec) sd.tim
  let fs := write fs .typ t [typeChar m.type] sd.typ
  let fs := write fs .dat t data sd.main
  ({ st with sd := some { sd with offset := sd.offset + data.length }, fs := fs, gens := record { m with data := data } st.gens }, data.length)

/-- `stream_cb`, 163-166: the first message opens the files -/
def arrive (st : St) (sd : Sd) (m : Msg) (now w : Nat) : St :=
  let st := { st with sent := { m with data := m.data.take w } :: st.sent }
  if sd.ws = .new then openFiles st sd now else st

/-- `stream_cb`, 152-216; the second result is what it returns -/
def message (st : St) (m : Msg) (now w : Nat) : St × Nat :=
  match st.sd with
  | none => (st, 0)
  | some sd =>
    if !sd.subscribed then (st, 0)
    else
      let st := arrive st sd m now w
      match st.sd with
      | none => (st, 0)
      | some sd =>
        if sd.ws = .opened then
          match sd.time with
          | none => (st, 0)
          | some t => store st sd t m w
        else (st, 0)

/-- `fclose_and_spool`, 317-363 -/
def finish (spool : Bool) (fs : Files) (k : Kind) (t : Nat) : Option Nat → Files
  | none => fs
  | some d => if spool then put (put fs ⟨d, true, k, t⟩ (fs ⟨d, false, k, t⟩)) ⟨d, false, k, t⟩ none else fs

def finishAll (spool : Bool) (fs : Files) (sd : Sd) (t : Nat) : Files :=
  finish spool (finish spool (finish spool (finish spool fs .tim t sd.tim) .typ t sd.typ) .dat t sd.main) .off t sd.main

/-- `reset_paths`, 366-383: the offset stays -/
def resetPaths (spool : Bool) (fs : Files) (sd : Sd) : Files × Sd :=
  match sd.time with
  | none => (fs, { sd with ws := .new })
  | some t => (finishAll spool fs sd t, { sd with ws := .new, main := none, tim := none, typ := none, time := none })

/-- `set_paths`, 390-449: names that are not asked for stay as they were -/
def setPaths (dir : Nat) (timing types : Bool) (sd : Sd) : Sd :=
  { sd with main := some dir, tim := if timing then some dir else sd.tim, typ := if types then some dir else sd.typ, subscribed := true }

/-- `add_stream`, 452-474, with `stream_data_create`, 219-232 -/
def addStream : Option Sd → Sd
  | some sd => { sd with ws := .reopen }
  | none => ⟨.new, none, none, none, none, 0, false⟩

/-- `config`, 480-580.  `named`: the stream is one of those of the command; `dir`: `none` if the path or the container is missing. -/
def config (st : St) (named : Bool) (dir : Option Nat) (timing types spool : Bool) : St :=
  if st.closing then st
  else
    let st := { st with spool := spool }
    let st := if named then { st with sd := some (addStream st.sd) } else st
    match dir with
    | none => st
    | some d =>
      match st.sd with
      | none => st
      | some sd =>
        let p := if sd.ws = .reopen then resetPaths st.spool st.fs sd else (st.fs, sd)
        { st with fs := p.1, sd := some (if p.2.ws = .new then setPaths d timing types p.2 else p.2) }

/-- `term`, 609-628, with `stream_data_close`, 582-607 -/
def term (st : St) : St :=
  match st.sd with
  | none => { st with closing := true, sd := none }
  | some sd =>
    match sd.time with
    | none => { st with closing := true, sd := none }
    | some t => { st with closing := true, sd := none, fs := finishAll st.spool st.fs sd t }

inductive Act
  | config (named : Bool) (dir : Option Nat) (timing types spool : Bool)
  | message (m : Msg) (now w : Nat)
  | term

def step (st : St) : Act → St
  | .config n d ti ty s => config st n d ti ty s
  | .message m now w => (message st m now w).1
  | .term => term st

def run (st : St) (as : List Act) : St := as.foldl step st

def Reachable (st : St) : Prop := ∃ as, st = run init as

end Verif.BlobFile
