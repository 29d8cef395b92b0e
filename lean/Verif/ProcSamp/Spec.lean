import Verif.ProcSamp.Model
import Mathlib.Data.List.Forall2

/-!
# What the files of `/proc` say, and what a set says

Written without the functions of the model.
-/

namespace Verif.ProcSamp

/-- blanks inside a line -/
def Blank (s : Str) : Prop := ∀ c ∈ s, c = 32 ∨ c = 9

/-- a word: not empty, of printable bytes -/
def Word (s : Str) : Prop := s ≠ [] ∧ ∀ c ∈ s, 33 ≤ c ∧ c ≤ 126

/-- `Decimal d v`: the digits `d` are the number `v`. -/
inductive Decimal : Str → Nat → Prop
  | one {c : Nat} : 48 ≤ c → c ≤ 57 → Decimal [c] (c - 48)
  | more {d : Str} {v c : Nat} : Decimal d v → 48 ≤ c → c ≤ 57 → Decimal (d ++ [c]) (10 * v + (c - 48))

/-- the text does not go on with a digit -/
def NoDigit : Str → Prop
  | [] => True
  | c :: _ => ¬ (48 ≤ c ∧ c ≤ 57)

/-- A line "name  number  anything", of at most 255 bytes with its end; the number is one of 64 bits. -/
def Row (l : Str) (p : Str × Nat) : Prop :=
  ∃ a b d r, l = a ++ p.1 ++ b ++ d ++ r ++ [10] ∧ Blank a ∧ Word p.1 ∧ Blank b ∧ b ≠ [] ∧ Decimal d p.2 ∧ p.2 < 2 ^ 64 ∧
    NoDigit r ∧ 10 ∉ r ∧ l.length ≤ 255

/-- A file of such lines. -/
def Says (f : Str) (rows : List (Str × Nat)) : Prop := ∃ ls, f = ls.flatten ∧ List.Forall₂ Row ls rows

/-- Numbers with blanks before each of them. -/
inductive Numbers : Str → List Nat → Prop
  | nil {r : Str} : NoDigit r → 10 ∉ r → Numbers r []
  | cons {b d r : Str} {v : Nat} {vs : List Nat} : Blank b → b ≠ [] → Decimal d v → v < 2 ^ 64 → NoDigit r → Numbers r vs →
      Numbers (b ++ d ++ r) (v :: vs)

/-- A line of `/proc/net/dev`: "name: 16 numbers". -/
def NetRow (l : Str) (p : Str × List Nat) : Prop :=
  ∃ a r, l = a ++ p.1 ++ [58] ++ r ++ [10] ∧ Blank a ∧ Word p.1 ∧ 58 ∉ p.1 ∧ Numbers r p.2 ∧ p.2.length = 16 ∧ l.length ≤ 255

/-- A title: a line of at most 255 bytes. -/
def Title (l : Str) : Prop := ∃ t, l = t ++ [10] ∧ 10 ∉ t ∧ l.length ≤ 255

/-- `/proc/net/dev`: two titles, and a line for each interface. -/
def NetSays (f : Str) (rows : List (Str × List Nat)) : Prop :=
  ∃ t1 t2 ls, f = t1 ++ t2 ++ ls.flatten ∧ Title t1 ∧ Title t2 ∧ List.Forall₂ NetRow ls rows

/-- The metric `n` of the set has the value `v`, as one who looks it up by name finds. -/
def Holds (s : MSet) (n : Str) (v : Nat) : Prop := ∃ i : Nat, s.names[i]? = some n ∧ s.vals[i]? = some v

/-- The label of a row of `/proc/meminfo`: without the colon. -/
def Label (w n : Str) : Prop := w = n ++ [58] ∨ (w = n ∧ ∀ m, w ≠ m ++ [58])

/-- The metrics of `sampler_base`. -/
def OfBase (n : Str) : Prop :=
  n = "component_id".toList.map Char.toNat ∨ n = "job_id".toList.map Char.toNat ∨ n = "app_id".toList.map Char.toNat

/-- A history of samples, with what the file has at each of them. -/
def after {σ : Type} (sample : σ → Str → Out (Int × σ)) : σ → List Str → Out σ
  | p, [] => .ok p
  | p, f :: fs =>
    match sample p f with
    | .error x => .error x
    | .ok (_, q) => after sample q fs

/-- A line that is not "name number": there is no second word, or it does not begin with a digit or a sign. -/
def NotRow (l : Str) : Prop :=
  Title l ∧ ∃ a, Blank a ∧ (l = a ++ [10] ∨ ∃ w b r, l = a ++ w ++ b ++ r ++ [10] ∧ Word w ∧ Blank b ∧
    (r = [] ∨ (b ≠ [] ∧ ∃ x, Word x ∧ (∃ t, r = x ++ t) ∧ ∀ c ∈ x.head?, ¬ (48 ≤ c ∧ c ≤ 57) ∧ c ≠ 43 ∧ c ≠ 45)))

/-- A command `config` that can be carried out, with the file `f`. -/
def Good (a : Args) (f : Str) : Prop := a.hasSet = false ∧ a.complete = true ∧ a.setErr = 0 ∧ a.file = some f

/-- The counters of an interface, in the order of the file. -/
def counters : List Str :=
  ["rx_bytes", "rx_packets", "rx_errs", "rx_drop", "rx_fifo", "rx_frame", "rx_compressed", "rx_multicast", "tx_bytes", "tx_packets",
   "tx_errs", "tx_drop", "tx_fifo", "tx_colls", "tx_carrier", "tx_compressed"].map fun s => s.toList.map Char.toNat

/-- Names of interfaces that may be written in the attribute: words without commas, at most `k` bytes, different. -/
def Names (k : Nat) (xs : List Str) : Prop := xs.Nodup ∧ ∀ x ∈ xs, Word x ∧ 44 ∉ x ∧ x.length ≤ k

/-- The attribute: the names with commas between them. -/
def commas (xs : List Str) : Str := List.intercalate [44] xs

end Verif.ProcSamp
