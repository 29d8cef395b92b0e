import Verif.JobLabel.Model

/-! # Specification: which jobs run -/

namespace Verif.JobLabel

/-- A job: its id, its start, its end if it is over, and its application id if it was told. -/
structure Job where
  id : Nat
  start : Nat
  fin : Option Nat
  app : Option Nat
  deriving DecidableEq, Repr

/-- It runs in the second `t`. -/
def Job.runs (j : Job) (t : Nat) : Prop := j.start ≤ t ∧ ∀ f, j.fin = some f → t ≤ f

instance (j : Job) (t : Nat) : Decidable (j.runs t) :=
  match h : j.fin with
  | none => if hs : j.start ≤ t then .isTrue ⟨hs, fun f hf => by rw [h] at hf; exact nomatch hf⟩ else .isFalse fun h => hs h.1
  | some f => if hs : j.start ≤ t ∧ t ≤ f then .isTrue ⟨hs.1, fun g hg => by rw [h] at hg; exact Option.some.inj hg ▸ hs.2⟩
      else .isFalse fun hh => hs ⟨hh.1, hh.2 f h⟩

/-- The jobs that are followed, in the order of their start, and the one that was started last (it may be over). -/
structure Hist where
  live : List Job
  last : Option Job
  deriving DecidableEq, Repr

def Hist.empty : Hist := ⟨[], none⟩

/-- The effect of an event, when `cap` jobs can be followed at a time. -/
def Hist.step (cap : Nat) (h : Hist) : JEv → Hist
  | .init id ts =>
    if h.live.any (fun j => j.id == id) || decide (cap ≤ h.live.length) then h
    else ⟨h.live ++ [⟨id, ts, none, none⟩], some ⟨id, ts, none, none⟩⟩
  | .step id (some a) =>
    let f (j : Job) : Job := if j.id = id ∧ j.fin = none then { j with app := some a } else j
    ⟨h.live.map f, h.last.map f⟩
  | .step _ none => h
  | .exit id ts =>
    ⟨h.live.filter (fun j => j.id != id), h.last.map fun j => if j.id = id ∧ j.fin = none then { j with fin := some ts } else j⟩
  | .task _ => h

def Hist.all (cap : Nat) (es : List JEv) : Hist := es.foldl (Hist.step cap) .empty

/-- Times that fit 32 bits, application ids that fit 31. -/
def Fits : JEv → Prop
  | .init _ ts => ts < 2 ^ 32
  | .exit _ ts => 0 < ts ∧ ts < 2 ^ 32
  | .step _ (some a) => a < 2 ^ 31
  | _ => True

instance : DecidablePred Fits
  | .init _ ts => inferInstanceAs (Decidable (ts < 2 ^ 32))
  | .exit _ ts => inferInstanceAs (Decidable (0 < ts ∧ ts < 2 ^ 32))
  | .step _ (some a) => inferInstanceAs (Decidable (a < 2 ^ 31))
  | .step _ none => .isTrue trivial
  | .task _ => .isTrue trivial

/-- The id that a sample of the second `t` gets: that of the job started last, if it runs; 0 otherwise. -/
def Hist.label (h : Hist) (t : Nat) : Nat := match h.last with
  | some j => if j.runs t then j.id else 0
  | none => 0

/-- The first end of a job in a list of events. -/
def exitOf (id : Nat) : List JEv → Option Nat
  | [] => none
  | .exit i ts :: es => if i = id then some ts else exitOf id es
  | _ :: es => exitOf id es

/-- The first `c` values are read before a change, the others after it. -/
def switch (c : Nat) (before after : Slots) : Nat → Slots := fun k => if k < c then before else after

/-! ## Samplers -/

/-- What happens around a sampler: sets change, appear and disappear; it samples. -/
inductive BEv
  | world (w : World)
  | sample (ts : Nat)

/-- A history of it, from a sampler that was configured; `none` if the daemon ended. -/
def life : World → Base → List BEv → Option (World × Base)
  | w, x, [] => some (w, x)
  | _, x, .world w :: es => life w x es
  | w, x, .sample ts :: es => (begin w x ts).bind fun x => life w x es

/-- A set that a sampler can use at any time. -/
def Content.good : Content → Prop
  | .plain start fin job app => start.isSome = true ∧ fin.isSome = true ∧ job.isSome = true ∧ app.isSome = true
  | .slots s => s.tail < s.len ∧ s.list s.tail < s.len
  | .jobs hasStart hasFin hasJob hasApp recs =>
    hasStart = true ∧ hasFin = true ∧ hasJob = true ∧ hasApp = true ∧ recs ≠ []

end Verif.JobLabel
