/-!
# Model: the samplers of the text files of `/proc`

`ldms/src/sampler/meminfo/meminfo.c`, `vmstat/vmstat.c`, `procnetdev/procnetdev.c`, `procnetdev2/procnetdev2.c` and
`loadavg/loadavg.c`, over the parts of `sampler_base.c` they call: how a file gives the metrics of a set when a sampler is configured, and
their values at each sample.

Text is a list of bytes.  A file is read as what it has at that moment: another content at each sample.  Failures of memory and messages to
the log are left out, except that `base_set_new` may fail with any error (the name of the set is in use, for one).
-/

namespace Verif.ProcSamp

abbrev Str := List Nat

def ENOENT : Int := 2
def ENOMEM : Int := 12
def EEXIST : Int := 17
def EINVAL : Int := 22

/-- What ends the process or spoils its memory. -/
inductive Fault
  | abort      -- a failed `assert`
  | overrun    -- bytes written after the end of a buffer
  | freed      -- memory that was freed is used or freed again
  deriving DecidableEq, Repr

abbrev Out := Except Fault

/-! ## Reading text -/

/-- `isspace` in the C locale -/
def space (c : Nat) : Bool := c == 32 || (9 ≤ c && c ≤ 13)

def digit (c : Nat) : Bool := 48 ≤ c && c ≤ 57

/-- the buffers that `fgets(lbuf, 256, mf)` gives until the end of the file: up to the end of the line, or 255 bytes.  `acc` is what the
buffer has so far. -/
def pieces : Str → Str → List Str
  | acc, [] => if acc = [] then [] else [acc]
  | acc, c :: b => if c = 10 ∨ acc.length + 1 = 255 then (acc ++ [c]) :: pieces [] b else pieces (acc ++ [c]) b

/-- the buffers as C strings: up to the first NUL -/
def lines (f : Str) : List Str := (pieces [] f).map fun l => l.takeWhile (· ≠ 0)

/-- `%s` of `sscanf`: the word, and what follows; `none` at the end of the text -/
def word (s : Str) : Option (Str × Str) :=
  let t := s.dropWhile space
  if t = [] then none else some (t.takeWhile fun c => !space c, t.dropWhile fun c => !space c)

def decimal (d : Str) : Nat := d.foldl (fun a c => 10 * a + (c - 48)) 0

/-- an optional sign -/
def sign : Str → Bool × Str
  | 45 :: s => (true, s)
  | 43 :: s => (false, s)
  | s => (false, s)

/-- `%lu` of `sscanf`, as `strtoul` reads it: a number that is too large is `2 ^ 64 - 1`, a minus sign negates modulo `2 ^ 64` -/
def number (s : Str) : Option (Nat × Str) :=
  let t := sign (s.dropWhile space)
  let d := t.2.takeWhile digit
  if d = [] then none
  else some (if 2 ^ 64 ≤ decimal d then 2 ^ 64 - 1 else if t.1 then (2 ^ 64 - decimal d) % 2 ^ 64 else decimal d, t.2.dropWhile digit)

/-- as many numbers as there are, up to `k` -/
def numbers : Nat → Str → List Nat
  | 0, _ => []
  | k + 1, s =>
    match number s with
    | none => []
    | some (v, r) => v :: numbers k r

/-- `sscanf(lbuf, "%s %lu", …)`: `some` if both are there (it returns 2), meminfo.c:116, 232 and vmstat.c:118, 217.  The word is at most 255
bytes, as the line is: `metric_name` has room. -/
def pair (l : Str) : Option (Str × Nat) :=
  match word l with
  | none => none
  | some (w, r) => (number r).map fun n => (w, n.1)

/-! ## Sets and the data of `sampler_base` -/

/-- A set all of whose metrics are `LDMS_V_U64`: names and values in the order of the indices, and the flag that
`ldms_transaction_begin`/`_end` change. -/
structure MSet where
  names : List Str
  vals : List Nat
  consistent : Bool
  deriving DecidableEq, Repr

/-- `base_data_t`: NULL, allocated, or a pointer left after `base_del` -/
inductive Base
  | null
  | live
  | dangling
  deriving DecidableEq, Repr

/-- `base_del`, sampler_base.c:63-83: nothing for NULL; for a pointer that was freed it reads and frees again -/
def baseDel : Base → Out Base
  | .null => .ok .null
  | .live => .ok .dangling
  | .dangling => .error .freed

/-- "component_id", "job_id", "app_id": sampler_base.c:276-292 -/
def baseNames : List Str :=
  [[99, 111, 109, 112, 111, 110, 101, 110, 116, 95, 105, 100], [106, 111, 98, 95, 105, 100], [97, 112, 112, 95, 105, 100]]

/-- What the command `config` and the system give. -/
structure Args where
  /-- the attribute "set", which is refused -/
  hasSet : Bool
  /-- what `base_config` needs is there: sampler_base.c:193-265 -/
  complete : Bool
  componentId : Nat
  /-- the error of `base_set_new`, or 0 -/
  setErr : Int
  /-- the attribute "ifaces" -/
  ifaces : Option Str
  /-- the file, if it can be opened -/
  file : Option Str
  deriving DecidableEq, Repr

/-- a new set: the base metrics and the others, which are 0; sampler_base.c:314-331 -/
def newSet (compId : Nat) (names : List Str) : MSet := ⟨names, compId :: List.replicate (names.length - 1) 0, false⟩

/-- `ldms_schema_metric_add`, ldms.c:2027-2083: a name that is taken is refused -/
def schemaAdd (have_ : List Str) (n : Str) : Option (List Str) := if n ∈ have_ then none else some (have_ ++ [n])

/-- `ldms_metric_set`, ldms.c:2372-2384: an index that is not in the set ends the process -/
def put (vals : List Nat) (i v : Nat) : Out (List Nat) := if i < vals.length then .ok (vals.set i v) else .error .abort

/-! ## meminfo and vmstat -/

/-- the state of the plugin.  `mf` is open exactly when there is a set. -/
structure Plug where
  base : Base
  set : Option MSet
  deriving DecidableEq, Repr

/-- the colon at the end is not part of the name, meminfo.c:122-124 -/
def strip (w : Str) : Str := if w.getLast? = some 58 then w.dropLast else w

/-- the loop of meminfo.c:111-131: a line that is not a name and a number ends it; `none` for a name that is taken -/
def memNames (have_ : List Str) : List Str → Option (List Str)
  | [] => some have_
  | l :: ls =>
    match pair l with
    | none => some have_
    | some (w, _) =>
      match schemaAdd have_ (strip w) with
      | none => none
      | some h => memNames h ls

/-- the loop of vmstat.c:114-124.  The error is what `create_metric_set` returns: -1 or 1, which `sscanf` returned, or -EEXIST. -/
def vmNames (have_ : List Str) : List Str → Except Int (List Str)
  | [] => .ok have_
  | l :: ls =>
    match pair l with
    | none => .error (if (word l).isNone then -1 else 1)
    | some (w, _) =>
      match schemaAdd have_ w with
      | none => .error (-EEXIST)
      | some h => vmNames h ls

/-- `create_metric_set`, meminfo.c:79-146 -/
def memCreate (a : Args) : Except Int MSet :=
  match a.file with
  | none => .error ENOENT
  | some f =>
    match memNames baseNames (lines f) with
    | none => .error ENOMEM
    | some ns => if a.setErr ≠ 0 then .error a.setErr else .ok (newSet a.componentId ns)

/-- `create_metric_set`, vmstat.c:85-138 -/
def vmCreate (a : Args) : Except Int MSet :=
  match a.file with
  | none => .error ENOENT
  | some f =>
    match vmNames baseNames (lines f) with
    | .error e => .error e
    | .ok ns => if a.setErr ≠ 0 then .error a.setErr else .ok (newSet a.componentId ns)

/-- `config`, meminfo.c:175-204 and vmstat.c:168-194 (which differ only in that vmstat.c returns at once if there is no base): the code that
is returned and the state that is left.  After an error `base` keeps the address of what was freed. -/
def config (create : Args → Except Int MSet) (p : Plug) (a : Args) : Out (Int × Plug) :=
  if p.set.isSome then .ok (EINVAL, p)
  else if a.hasSet then .ok (EINVAL, p)
  else if !a.complete then .ok (EINVAL, { p with base := .null })
  else
    match create a with
    | .ok s => .ok (0, ⟨.live, some s⟩)
    | .error e =>
      match baseDel .live with
      | .error x => .error x
      | .ok b => .ok (e, { p with base := b })

/-- the loop of meminfo.c:228-240 from metric `i` on -/
def memLoop (i : Nat) (vals : List Nat) : List Str → Out (List Nat)
  | [] => .ok vals
  | l :: ls =>
    match pair l with
    | none => .ok vals
    | some (_, v) =>
      match put vals i v with
      | .error x => .error x
      | .ok vals => memLoop (i + 1) vals ls

/-- the loop of vmstat.c:213-225 -/
def vmLoop (i : Nat) (vals : List Nat) : List Str → Out (Int × List Nat)
  | [] => .ok (0, vals)
  | l :: ls =>
    match pair l with
    | none => .ok (EINVAL, vals)
    | some (_, v) =>
      match put vals i v with
      | .error x => .error x
      | .ok vals => vmLoop (i + 1) vals ls

/-- `sample`, meminfo.c:211-244; `metric_offset` is the number of base metrics.  `base_sample_begin` may set `job_id` and `app_id` from the
set of the job (sampler_base.c:383-437): it is not modelled here, they stay as they are. -/
def memSample (p : Plug) (f : Str) : Out (Int × Plug) :=
  match p.set with
  | none => .ok (EINVAL, p)
  | some s =>
    match memLoop baseNames.length s.vals (lines f) with
    | .error x => .error x
    | .ok vals => .ok (0, { p with set := some { s with vals := vals, consistent := true } })

/-- `sample`, vmstat.c:196-229 -/
def vmSample (p : Plug) (f : Str) : Out (Int × Plug) :=
  match p.set with
  | none => .ok (EINVAL, p)
  | some s =>
    match vmLoop baseNames.length s.vals (lines f) with
    | .error x => .error x
    | .ok (rc, vals) => .ok (rc, { p with set := some { s with vals := vals, consistent := true } })

/-- `term`, meminfo.c:246-258: `base` keeps its address -/
def memTerm (p : Plug) : Out Plug :=
  match baseDel p.base with
  | .error x => .error x
  | .ok b => .ok ⟨b, none⟩

/-- `term`, vmstat.c:231-244 -/
def vmTerm (p : Plug) : Out Plug :=
  match baseDel p.base with
  | .error x => .error x
  | .ok _ => .ok ⟨.null, none⟩

/-! ## procnetdev -/

/-- `strtok_r(s, ",", …)` to the end: the words between the commas that are not empty -/
def tokens : Str → Str → List Str
  | acc, [] => if acc = [] then [] else [acc]
  | acc, c :: s => if c = 44 then (if acc = [] then tokens [] s else acc :: tokens [] s) else tokens (acc ++ [c]) s

/-- the loop over the names, procnetdev.c:231-241 and procnetdev2.c:273-283: the table afterwards, and whether there was room for all.
`snprintf(iface[niface], 20, …)` keeps 19 bytes; there is room for `room` names. -/
def addIfaces (room : Nat) (tab : List Str) : List Str → List Str × Bool
  | [] => (tab, true)
  | t :: ts => if room ≤ tab.length then (tab, false) else addIfaces room (tab ++ [t.take 19]) ts

/-- the names of the counters, procnetdev.c:74-77 -/
def varNames : List Str :=
  [[114, 120, 95, 98, 121, 116, 101, 115], [114, 120, 95, 112, 97, 99, 107, 101, 116, 115], [114, 120, 95, 101, 114, 114, 115],
   [114, 120, 95, 100, 114, 111, 112], [114, 120, 95, 102, 105, 102, 111], [114, 120, 95, 102, 114, 97, 109, 101],
   [114, 120, 95, 99, 111, 109, 112, 114, 101, 115, 115, 101, 100], [114, 120, 95, 109, 117, 108, 116, 105, 99, 97, 115, 116],
   [116, 120, 95, 98, 121, 116, 101, 115], [116, 120, 95, 112, 97, 99, 107, 101, 116, 115], [116, 120, 95, 101, 114, 114, 115],
   [116, 120, 95, 100, 114, 111, 112], [116, 120, 95, 102, 105, 102, 111], [116, 120, 95, 99, 111, 108, 108, 115],
   [116, 120, 95, 99, 97, 114, 114, 105, 101, 114], [116, 120, 95, 99, 111, 109, 112, 114, 101, 115, 115, 101, 100]]

/-- the loops of procnetdev.c:138-149.  `metric_name` has room for 127 bytes: a name has at most 33. -/
def ndNames (have_ : List Str) : List (Str × Str) → Option (List Str)
  | [] => some have_
  | (i, v) :: ps =>
    match schemaAdd have_ (v ++ 35 :: i) with
    | none => none
    | some h => ndNames h ps

def ndMetrics (tab : List Str) : List (Str × Str) := tab.flatMap fun i => varNames.map fun v => (i, v)

/-- the state of the plugin: `iface[]` with `niface`, `base`, `set`.  `mindex[j]` is the index of the first metric of interface `j`: `3 + 16 j`. -/
structure Nd where
  tab : List Str
  base : Base
  set : Option MSet
  deriving DecidableEq, Repr

/-- the label `err` of `config`, procnetdev.c:263-267 -/
def ndFail (n : Nd) (rc : Int) : Out (Int × Nd) :=
  match baseDel n.base with
  | .error x => .error x
  | .ok b => .ok (rc, { n with base := b })

/-- `config`, procnetdev.c:201-269 with `create_metric_set`, 103-167.  `MAXIFACE` is 21.  `rc` is 0 after `config_check`. -/
def ndConfig (n : Nd) (a : Args) : Out (Int × Nd) :=
  if a.hasSet then .ok (EINVAL, n)
  else if n.set.isSome then .ok (EINVAL, n)
  else
    match a.ifaces with
    | none => ndFail n 0
    | some s =>
      match addIfaces 20 n.tab (tokens [] s) with
      | (tab, false) => ndFail { n with tab := tab } 0
      | (tab, true) =>
        if tab = [] then ndFail { n with tab := tab } 0
        else if !a.complete then ndFail ⟨tab, .null, n.set⟩ EINVAL
        else if a.file.isNone then ndFail ⟨tab, .live, n.set⟩ ENOENT
        else
          match ndNames baseNames (ndMetrics tab) with
          | none => ndFail ⟨tab, .live, n.set⟩ ENOMEM
          | some ns => if a.setErr ≠ 0 then ndFail ⟨tab, .live, n.set⟩ a.setErr else .ok (0, ⟨tab, .live, some (newSet a.componentId ns)⟩)

/-- the first colon becomes a blank, procnetdev.c:308-311 -/
def uncolon : Str → Str
  | [] => []
  | c :: s => if c = 58 then 32 :: s else c :: uncolon s

/-- one line of the file, procnetdev.c:308-327 and procnetdev2.c:354-373: the name and the 16 numbers, or nothing; `room` is the size of
`curriface`, one byte of which is for the NUL -/
def ndLine (room : Nat) (l : Str) : Out (Option (Str × List Nat)) :=
  match word (uncolon l) with
  | none => .ok none
  | some (w, r) =>
    if room ≤ w.length then .error .overrun
    else .ok (if (numbers 16 r).length = 16 then some (w, numbers 16 r) else none)

/-- the values of one interface, procnetdev.c:337-339 -/
def putAll (vals : List Nat) (i : Nat) : List Nat → Out (List Nat)
  | [] => .ok vals
  | v :: vs =>
    match put vals i v with
    | .error x => .error x
    | .ok vals => putAll vals (i + 1) vs

/-- the loop of procnetdev.c:300-344; `used` is `usedifaces` -/
def ndLoop (tab : List Str) (used : Nat) (vals : List Nat) : List Str → Out (List Nat)
  | [] => .ok vals
  | l :: ls =>
    if used = tab.length then ndLoop tab used vals ls
    else
      match ndLine 20 l with
      | .error x => .error x
      | .ok none => ndLoop tab used vals ls
      | .ok (some (w, vs)) =>
        if w ∈ tab then
          match putAll vals (3 + 16 * tab.idxOf w) vs with
          | .error x => .error x
          | .ok vals => ndLoop tab (used + 1) vals ls
        else ndLoop tab used vals ls

/-- `sample`, procnetdev.c:271-348: the first two lines are titles.  The file is open when there is a set. -/
def ndSample (n : Nd) (f : Str) : Out (Int × Nd) :=
  match n.set with
  | none => .ok (EINVAL, n)
  | some s =>
    match ndLoop n.tab 0 s.vals ((lines f).drop 2) with
    | .error x => .error x
    | .ok vals => .ok (0, { n with set := some { s with vals := vals, consistent := true } })

/-! ## procnetdev2 -/

abbrev Rec := Str × List Nat

/-- the set: the list of records, the number of records its heap has room for (a simplification: the heap is in bytes), and the flag -/
structure LSet where
  recs : List Rec
  room : Nat
  consistent : Bool
  deriving DecidableEq, Repr

/-- the state of the plugin.  `base->set` is in the base. -/
structure Nd2 where
  tab : List Str
  base : Base
  set : Option LSet
  deriving DecidableEq, Repr

/-- the label `err` of `config`, procnetdev2.c:305-309 -/
def nd2Fail (n : Nd2) (rc : Int) : Out (Int × Nd2) :=
  match baseDel n.base with
  | .error x => .error x
  | .ok b => .ok (rc, { n with base := b })

/-- from the label `cfg` on, procnetdev2.c:290-303, with `create_metric_set`, 143-209 (whose `base = NULL` is to its argument) -/
def nd2Create (tab : List Str) (a : Args) : Out (Int × Nd2) :=
  if !a.complete then nd2Fail ⟨tab, .null, none⟩ EINVAL
  else if a.file.isNone then nd2Fail ⟨tab, .live, none⟩ ENOENT
  else if a.setErr ≠ 0 then nd2Fail ⟨tab, .live, none⟩ a.setErr
  else .ok (0, ⟨tab, .live, some ⟨[], 32, false⟩⟩)

/-- `config`, procnetdev2.c:243-311.  `MAXIFACE` is 32. -/
def nd2Config (n : Nd2) (a : Args) : Out (Int × Nd2) :=
  if a.hasSet then .ok (EINVAL, n)
  else if n.base ≠ .null then .ok (EINVAL, n)
  else
    match a.ifaces with
    | none => nd2Create n.tab a
    | some s =>
      match addIfaces 31 n.tab (tokens [] s) with
      | (tab, false) => nd2Fail { n with tab := tab } 0
      | (tab, true) => if tab = [] then nd2Fail { n with tab := tab } 0 else nd2Create tab a

/-- the records that one reading of the file gives, procnetdev2.c:349-396 without the allocation; `snprintf(…, IFNAMSIZ, …)` keeps 15 bytes -/
def nd2Recs (tab : List Str) : List Str → Out (List Rec)
  | [] => .ok []
  | l :: ls =>
    match ndLine 16 l with
    | .error x => .error x
    | .ok none => nd2Recs tab ls
    | .ok (some (w, vs)) =>
      match nd2Recs tab ls with
      | .error x => .error x
      | .ok rs => .ok (if tab = [] ∨ w ∈ tab then (w.take 15, vs) :: rs else rs)

/-- `sample`, procnetdev2.c:313-415, with what the file has at each reading: when a record has no room the set is made anew with room for two
more and the file is read again.  `none`: still reading.  A line that overruns the buffer does so in the reading in which it is reached: here
the whole file is looked at. -/
def nd2Read (tab : List Str) (room : Nat) : List Str → Out (Option LSet)
  | [] => .ok none
  | f :: fs =>
    match nd2Recs tab ((lines f).drop 2) with
    | .error x => .error x
    | .ok rs => if rs.length ≤ room then .ok (some ⟨rs, room, true⟩) else nd2Read tab (room + 2) fs

def nd2Sample (n : Nd2) (fs : List Str) : Out (Int × Option LSet) :=
  match n.base with
  | .null => .ok (EINVAL, n.set)
  | .dangling => .error .freed
  | .live =>
    match n.set with
    | none => .error .abort
    | some s =>
      match nd2Read n.tab s.room fs with
      | .error x => .error x
      | .ok s => .ok (0, s)

/-! ## loadavg -/

/-- "load1min", "load5min", "load15min", "runnable", "scheduling_entities", "newest_pid": loadavg.c:98-111 -/
def laNames : List Str :=
  [[108, 111, 97, 100, 49, 109, 105, 110], [108, 111, 97, 100, 53, 109, 105, 110], [108, 111, 97, 100, 49, 53, 109, 105, 110],
   [114, 117, 110, 110, 97, 98, 108, 101], [115, 99, 104, 101, 100, 117, 108, 105, 110, 103, 95, 101, 110, 116, 105, 116, 105, 101, 115],
   [110, 101, 119, 101, 115, 116, 95, 112, 105, 100]]

/-- the loop of `parse_metrics`, loadavg.c:140-152, over `metname[].collect`: the flags afterwards, and whether all names were known -/
def laMark (flags : List Bool) : List Str → List Bool × Bool
  | [] => (flags, true)
  | m :: ms => if m ∈ laNames then laMark (flags.set (laNames.idxOf m) true) ms else (flags, false)

/-- `parse_metrics`, loadavg.c:125-156 -/
def laParse (flags : List Bool) : Option Str → List Bool × Bool
  | none => (flags, true)
  | some s => laMark (List.replicate 6 false) (tokens [] s)

/-- `make_schema_name`, loadavg.c:160-182 -/
def laSchema (flags : List Bool) (force : Bool) : Str :=
  [108, 111, 97, 100, 97, 118, 103] ++ (if force then [105] else []) ++
    (if flags.all id then [] else flags.map fun b => if b then 49 else 48)

/-- the names of the metrics of the set after the base metrics, loadavg.c:215-240 -/
def laMetrics (flags : List Bool) : List Str := ((laNames.zip flags).filter (·.2)).map (·.1)

/-- the loop of loadavg.c:398-420: what is stored, in the order of the metrics after the base ones.  Values are left abstract: `cent` is the
conversion `(uint64_t)(100*v)` of the first three under `force_integer`. -/
def laValues {V : Type} (cent : V → V) (force : Bool) (flags : List Bool) (fields : List V) : List V :=
  (((fields.zipIdx).map fun p => if force && p.2 < 3 then cent p.1 else p.1).zip flags).filterMap fun p => if p.2 then some p.1 else none

/-- the state that `config` changes: the flags and `force_integer` -/
structure La where
  flags : List Bool
  force : Bool
  deriving DecidableEq, Repr

/-- the loading of the plugin, loadavg.c:83, 104-111 -/
def la0 : La := ⟨List.replicate 6 true, false⟩

/-- the part of `config` before the set is made, loadavg.c:307-320: the default name of the schema, or an error -/
def laConfig (l : La) (force : Bool) (metrics : Option Str) : La × Except Int Str :=
  let l := { l with force := l.force || force }
  let r := laParse l.flags metrics
  (⟨r.1, l.force⟩, if r.2 then .ok (laSchema r.1 l.force) else .error EINVAL)

end Verif.ProcSamp
