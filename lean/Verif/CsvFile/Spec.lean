import Verif.CsvFile.Model

/-!
# What is asked of the files of the CSV store
-/

namespace Verif.CsvFile

/-- The rows of a text. -/
def rows : List Item → List Row
  | [] => []
  | .row r :: l => r :: rows l
  | .head :: l => rows l

/-- The headers in a text. -/
def heads : List Item → Nat
  | [] => 0
  | .row _ :: l => heads l
  | .head :: l => heads l + 1

/-- All rows in the files, in the order of the times in their names. -/
def filed (cfg : Cfg) (s : St) : List Row :=
  if cfg.roll ≥ 1 then (List.range (s.now + 1)).flatMap fun t => rows (s.disk (.data (some t)))
  else rows (s.disk (.data none))

/-- What a user knows of a history: the clock, how often files were opened at each time
(or might have been), for how many users the store is open, the rows stored since the last
crash and those stored between crashes before. -/
structure Log where
  now : Nat
  opens : Nat → Nat
  users : Nat
  cur : List Row
  past : List (List Row)

def Log.opened (g : Log) : Log :=
  { g with opens := fun t => if t = g.now then g.opens t + 1 else g.opens t }

def Log.put (g : Log) (r : Row) : Log := if g.users = 0 then g else { g with cur := g.cur ++ [r] }

def logStep (g : Log) : Op → Log
  | .tick d => { g with now := g.now + d }
  | .open => { g.opened with users := g.users + 1 }
  | .close => { g with users := g.users - 1 }
  | .store r | .row r | .rowText r => g.put r
  | .roll => g.opened
  | .crash => { g with users := 0, cur := [], past := g.past ++ [g.cur] }
  | .rowCount | .flush | .drain _ => g

def log (ops : List Op) : Log :=
  ops.foldl logStep { now := 0, opens := fun _ => 0, users := 0, cur := [], past := [] }

/-- Of each part of a history a beginning is kept, and the rest satisfies `lost`. -/
inductive Kept (lost : List Row → Prop) : List (List Row) → List Row → Prop
  | nil : Kept lost [] []
  | snoc {es : List (List Row)} {k p l : List Row} :
      Kept lost es k → lost l → Kept lost (es ++ [p ++ l]) (k ++ p)

/-- All rows are counted when they are written. -/
def Plain (ops : List Op) : Prop := ∀ op ∈ ops, op ≠ .rowCount ∧ ∀ r, op ≠ .rowText r

/-- What may be lost if the program ends: with `buffer=0` nothing, with `buffertype=3`
at most `buffer` rows, with `buffertype=4` less than `buffer` kilobytes. -/
def Small (cfg : Cfg) (l : List Row) : Prop :=
  (cfg.bufSz = 0 → l = []) ∧
  (cfg.bufType = 3 → l.length ≤ cfg.bufSz) ∧
  (cfg.bufType = 4 → 0 < cfg.bufSz → (l.map (·.bytes)).sum < cfg.bufSz)

/-- The counter that flushing goes by is not set back alone: rolling by time sets back
`store_count` but not `lastflush`. -/
def Counts (cfg : Cfg) : Prop :=
  cfg.bufType = 3 → cfg.roll = 0 ∨ cfg.roll = 3 ∨ cfg.roll = 4

/-- The rows that went to the file in use. -/
def Hd.rows (d : Name → List Item) (h : Hd) : List Row := CsvFile.rows (d h.name) ++ CsvFile.rows h.buf

/-- The bytes counted for rows. -/
def weight (l : List Row) : Int := ((l.map (·.bytes)).sum : Nat)

end Verif.CsvFile
