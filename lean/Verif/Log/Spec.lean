import Verif.Log.Model

/-! # Specification: what a log is to hold -/

namespace Verif.Log

/-- Severities from the least to the most severe, and messages that are always logged. -/
inductive Sev
  | debug
  | info
  | warning
  | error
  | critical
  | always
  deriving DecidableEq, Repr

/-- The place of a severity in the order. -/
def Sev.rank : Sev → Nat
  | .debug => 0
  | .info => 1
  | .warning => 2
  | .error => 3
  | .critical => 4
  | .always => 5

/-- The argument for `ovis_log`. -/
def Sev.value : Sev → Nat
  | .debug => 1
  | .info => 2
  | .warning => 4
  | .error => 8
  | .critical => 16
  | .always => 31

/-- The set of levels `m` lets a message of the severity through: the level is in the set, or for
"always" the set is not empty. -/
def Lets (m : Nat) : Sev → Prop
  | .always => m ≠ 0
  | s => m.testBit s.rank = true

/-- The names of a severity, in small letters. -/
def Sev.names : Sev → List Str
  | .debug => ["debug".toList]
  | .info => ["info".toList]
  | .warning => ["warning".toList, "warn".toList]
  | .error => ["error".toList]
  | .critical => ["critical".toList, "crit".toList]
  | .always => ["always".toList]

/-- The word is a name of the severity, in letters of any case. -/
def Names (w : Str) (s : Sev) : Prop := lower w ∈ s.names

/-- Words with a comma after each, and one more word that may be empty. -/
def listText : List Str → Str → Str
  | [], last => last
  | w :: ws, last => w ++ ',' :: listText ws last

/-- A log without queue and thread: the levels, and what is written at once. -/
structure S where
  prog : Str
  dflt : Lv
  /-- the subsystems there are, by number: name and level -/
  sub : Nat → Option (Str × Lv)
  sink : Sink
  lines : List Line

def S.init (prog : Str) (level : Lv) : S := ⟨prog, level, fun _ => none, .null, []⟩

/-- The levels that count for a subsystem: its own, or those of the default one. -/
def S.level (s : S) (id : Option Nat) : Lv :=
  match id.bind fun i => (s.sub i).bind (·.2) with
  | some m => some m
  | none => s.dflt

def S.name (s : S) : Option Nat → Str
  | none => s.prog
  | some i => ((s.sub i).map (·.1)).getD []

/-- Whether a message of this level is let through. -/
def Passes (l : Lv) (level : Nat) : Prop :=
  match l with
  | some m => m &&& level ≠ 0
  | none => level ≠ 0

instance (l : Lv) (level : Nat) : Decidable (Passes l level) := by
  unfold Passes; split <;> infer_instance

def S.setSub (s : S) (i : Nat) (v : Option (Str × Lv)) : S := { s with sub := fun j => if j = i then v else s.sub j }

/-- A level as an argument: -1 for that of the default subsystem, or a set of levels. -/
def levelArg (l : Int) : Option Lv :=
  if l = -1 then some none else if 0 ≤ l ∧ l < 32 then some (some l.toNat) else none

/-- Set the level of those subsystems for which `p` holds. -/
def S.setLevels (s : S) (p : Nat → Str → Prop) [∀ i n, Decidable (p i n)] (v : Lv) : S :=
  { s with sub := fun i => (s.sub i).map fun e => if p i e.1 then (e.1, v) else e }

/-- What each call is to do, given the number that a register call returned. -/
def S.step (s : S) (rc : Int) : Ev → S
  | .register name => if rc < 0 then s else s.setSub rc.toNat (some (name, none))
  | .destroy id => s.setSub id none
  | .setLevel id l =>
    match levelArg l, id with
    | none, _ => s
    | some none, none => s
    | some (some m), none => { s with dflt := some m }
    | some v, some i => s.setLevels (fun j _ => j = i) v
  | .setByName name l =>
    match levelArg l, name with
    | none, _ => s
    | some none, none => s
    | some (some m), none => { s with dflt := some m }
    | some v, some n => s.setLevels (fun _ m => m = n) v
  | .setByRegex rx l =>
    match levelArg l with
    | none => s
    | some v => s.setLevels (fun _ n => rx n = true) v
  | .log id level text =>
    if Passes (s.level id) level then
      { s with lines := s.lines ++ [⟨if s.sink = .null then .std else s.sink, s.name id, level, text⟩] }
    else s
  | .openf path good => if path = 0 then { s with sink := .syslog } else if good then { s with sink := .file path } else s
  | .closef => { s with sink := .std }
  | .work => s

/-- The caller uses subsystems that it has, opens no log after syslog or after a close, and closes a log
that is open. -/
def Legal (s : S) : Ev → Prop
  | .destroy id => s.sub id ≠ none
  | .setLevel (some i) _ => s.sub i ≠ none
  | .log (some i) _ _ => s.sub i ≠ none
  | .openf _ _ => s.sink ≠ .syslog ∧ s.sink ≠ .std
  | .closef => s.sink ≠ .null ∧ s.sink ≠ .std
  | _ => True

/-- A history of legal calls and work of the thread, of the log and of the specification. -/
inductive Run (prog : Str) (level : Lv) : W → S → Prop
  | init : Run prog level (Log.init prog level) (S.init prog level)
  | step {w s e w' rc} : Run prog level w s → Legal s e → Log.step w e = some (w', rc) → Run prog level w' (s.step rc e)

end Verif.Log
