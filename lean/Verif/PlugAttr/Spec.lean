import Verif.PlugAttr.Model
import Verif.Av.Props

/-!
# What options of plugins are to be

The value of an option is the first found in the line of the instance, in the configuration command and in
the line of the plugin.  Nothing of the model is used but its types.
-/

namespace Verif.PlugAttr

open Verif.Av (Str Ent)

/-- the values given to `attr` in a list of options, in their order -/
def given (exp : Str → Str) (l : List Ent) (attr : Str) : List (Option Str) :=
  (l.filter fun e => e.name = attr).map fun e => e.value.map exp

/-- the entry of a key -/
def entry (pa : PA) (key : Str) : Option Pair := ((pa.idx.filter fun x => x.1 = key).map (·.2)).head?

/-- the places where the options of the instance `key` are looked for, in their order -/
def places (pa : PA) (key : Option Str) : List Pair :=
  (key.bind (entry pa)).toList ++ [pa.over] ++ (entry pa pa.name).toList

/-- options have values (lists of `name=value`) -/
def Valued (l : List Ent) : Prop := ∀ e ∈ l, e.value ≠ none

/-- all lists of options have values and no key is empty or there twice -/
def Wf (pa : PA) : Prop :=
  Valued pa.over.avl ∧ (∀ x ∈ pa.idx, Valued x.2.avl ∧ x.1 ≠ []) ∧ (pa.idx.map (·.1)).Nodup

/-- the key of a list of options: the first values of the key attributes, joined by `/` -/
def KeyOf (exp : Str → Str) (l : List Ent) (keys : List Str) (key : Str) : Prop :=
  ∃ vs : List Str, vs.map some = keys.map (fun k => ((given exp l k).head?).join) ∧ key = ['/'].intercalate vs

/-- a list names one of the banned names -/
def Banned (ban : List Str) (l : List Ent) : Prop := ∃ e ∈ l, e.name ∈ ban

/-- the options use something that is no longer supported -/
def Obsolete (exp : Str → Str) (p : Pair) (deps : List Dep) : Prop :=
  ∃ d ∈ deps, d.error = true ∧ ((∃ e ∈ p.kvl, e.name = d.name) ∨
    ((∃ e ∈ p.avl, e.name = d.name) ∧ (d.value = none ∨ (given exp p.avl d.name).head? = some d.value)))

/-- white space -/
def White (c : Char) : Prop := c ∈ [' ', '\t', '\n', '\r', Char.ofNat 11, Char.ofNat 12]

/-- a line without meaning: no word at all, or not a single white space in it -/
def Ignored (s : Str) : Prop := Verif.Av.Words s [] ∨ ∀ c ∈ s, ¬ White c

/-- the entry a line of the file describes: it is that of the key its options give, or that of the plugin if they
give none and the plugin is named; nothing banned is in it -/
def RowOf (exp : Str → Str) (name : Str) (r : Rules) (s : Str) (x : Str × Pair) : Prop :=
  ∃ ws, Verif.Av.Words s ws ∧ ws ≠ [] ∧ (∃ c ∈ s, White c) ∧ x.2 = ⟨Verif.Av.avs ws, Verif.Av.kws ws⟩ ∧
    (KeyOf exp x.2.avl r.keys x.1 ∨ ((¬ ∃ k, KeyOf exp x.2.avl r.keys k) ∧ name ∈ ws ∧ '=' ∉ name ∧ x.1 = name)) ∧
    ¬ Banned r.avban x.2.avl ∧ ¬ Banned r.kwban x.2.kvl

/-- what the lines of a file mean -/
inductive FileOf (exp : Str → Str) (name : Str) (r : Rules) : List Str → List (Str × Pair) → Prop
  | nil : FileOf exp name r [] []
  | skip {s ss rows} : Ignored s → FileOf exp name r ss rows → FileOf exp name r (s :: ss) rows
  | row {s ss x rows} : RowOf exp name r s x → FileOf exp name r ss rows → FileOf exp name r (s :: ss) (x :: rows)

end Verif.PlugAttr
