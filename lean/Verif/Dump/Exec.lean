import Verif.Dump.Text
import Verif.Strgp.Props

/-!
# Proofs: what the lines of the file do
-/

namespace Verif.Dump

open Verif.SetOwner (Str dec numeral strtol)
open Verif.NameTab (codes attrStr2Id)
open Verif.Strgp (Pol Sel Plug Who EINVAL ENOENT EEXIST EBUSY EACCES)

/-! ## attributes -/

theorem id_name : attrStr2Id (codes "name") = some 1 := by decide +kernel
theorem id_interval : attrStr2Id (codes "interval") = some 2 := by decide +kernel
theorem id_flush : attrStr2Id (codes "flush") = some 2 := by decide +kernel
theorem id_offset : attrStr2Id (codes "offset") = some 3 := by decide +kernel
theorem id_regex : attrStr2Id (codes "regex") = some 4 := by decide +kernel
theorem id_type : attrStr2Id (codes "type") = some 5 := by decide +kernel
theorem id_xprt : attrStr2Id (codes "xprt") = some 8 := by decide +kernel
theorem id_host : attrStr2Id (codes "host") = some 9 := by decide +kernel
theorem id_port : attrStr2Id (codes "port") = some 10 := by decide +kernel
theorem id_match : attrStr2Id (codes "match") = some 11 := by decide +kernel
theorem id_plugin : attrStr2Id (codes "plugin") = some 12 := by decide +kernel
theorem id_container : attrStr2Id (codes "container") = some 13 := by decide +kernel
theorem id_schema : attrStr2Id (codes "schema") = some 14 := by decide +kernel
theorem id_metric : attrStr2Id (codes "metric") = some 15 := by decide +kernel
theorem id_push : attrStr2Id (codes "push") = some 23 := by decide +kernel
theorem id_perm : attrStr2Id (codes "perm") = some 27 := by decide +kernel
theorem id_auto : attrStr2Id (codes "auto_interval") = some 31 := by decide +kernel
theorem id_uid : attrStr2Id (codes "uid") = some 32 := by decide +kernel
theorem id_gid : attrStr2Id (codes "gid") = some 33 := by decide +kernel
theorem id_stream : attrStr2Id (codes "stream") = some 34 := by decide +kernel
theorem id_auth : attrStr2Id (codes "auth") = some 35 := by decide +kernel
theorem id_decomp : attrStr2Id (codes "decomposition") = some 37 := by decide +kernel

theorem attrs_cons {n : String} {i : Nat} {v : Str} {ws : List Str} {as : List (Nat × Option Str)} (hi : attrStr2Id (codes n) = some i)
    (h : attrsOf ws = some as) (hn : 61 ∉ codes n) : attrsOf (av n v :: ws) = some ((i, some v) :: as) := by
  unfold av
  simp only [attrsOf, splitEq_av _ _ hn, hi, h]

theorem attrs_nil : attrsOf [] = some [] := rfl

theorem get_some {w : World} {verb : Str} {as : List (Nat × Option Str)} {n : String} {i j : Nat} {v : Str}
    (hi : attrStr2Id (codes n) = some i) (hf : as.find? (fun a => some a.1 = some i) = some (j, some v)) (hv : Word v) :
    Req.get w ⟨verb, as⟩ n = some v := by
  unfold Req.get
  simp only [hi, hf, Option.getD_some]
  exact expand_self w v (fun b hb => (hv.bytes b hb).2) hv.noVar

theorem get_none {w : World} {verb : Str} {as : List (Nat × Option Str)} {n : String} {i : Nat}
    (hi : attrStr2Id (codes n) = some i) (hf : as.find? (fun a => some a.1 = some i) = none) : Req.get w ⟨verb, as⟩ n = none := by
  unfold Req.get
  simp only [hi, hf]

/-! ## numbers -/

theorem decVal_dec (n : Nat) : MemSize.decVal (dec n) = n := by
  induction n using Nat.strongRecOn with
  | ind n ih =>
    unfold dec numeral
    split
    · rename_i h
      have : n < 10 := h.resolve_right (by omega)
      simp [MemSize.decVal]
    · rename_i h
      have := ih (n / 10) (Nat.div_lt_self (by omega) (by omega))
      unfold dec MemSize.decVal at this
      unfold MemSize.decVal
      rw [List.foldl_append, this]
      simp only [List.foldl_cons, List.foldl_nil]
      omega

theorem dec_digits (n : Nat) : MemSize.IsDigits (dec n) := by
  refine ⟨(dec_word n).ne, ?_⟩
  have h := Strgp.numeral_all n
  rw [List.all_eq_true] at h
  intro b hb
  have := h b hb
  simpa [SetOwner.isDigit] using this

theorem us_ld (i : Int) (h : i.natAbs < 2 ^ 53) : us (ld i) = some i := by
  unfold us ld
  have h1 := decVal_dec i.natAbs
  by_cases hi : i < 0
  · have := MemSize.time_str_negative [] (dec i.natAbs) 0 [] 1 (fun _ h => nomatch h) (dec_digits _) (by constructor) (by
      rw [h1]; omega)
    simp only [List.nil_append, List.replicate_zero, List.append_nil] at this
    rw [if_pos hi, this, h1]
    simp only [Option.some.injEq]; omega
  · have := MemSize.time_str_units_partial [] (dec i.natAbs) 0 [] 1 (fun _ h => nomatch h) (dec_digits _) (by constructor) (by
      rw [h1]; omega)
    simp only [List.nil_append, List.replicate_zero, List.append_nil] at this
    rw [if_neg hi, this, h1]
    simp only [Option.some.injEq]; omega

theorem strtol_val (n : Nat) (h : n < 2 ^ 63) : (strtol 0 (dec n)).value = n := by
  have h1 := SetOwner.strtol_dec n [] (.inr rfl) (SetOwner.stops_nil 10)
  rw [List.append_nil] at h1
  rw [h1, SetOwner.ranged_small h]

/-! ## access of the owner -/

theorem may_owner (w : World) (p : Nat) (h : p / 128 % 2 = 1) : may w w.who.uid w.who.gid p = true := by
  have hb : p.testBit 7 = true := by
    rw [Nat.testBit_eq_decide_div_mod_eq]
    simpa using h
  have : 448 &&& (146 &&& p) ≠ 0 := by
    intro e
    have := congrArg (fun x => x.testBit 7) e
    simp only [Nat.testBit_and, Nat.zero_testBit, hb] at this
    exact absurd this (by decide)
  unfold may Access.check
  simp only [this, ne_eq, not_false_eq_true, and_self, if_true]
  repeat (first | rfl | split)

theorem owner_default (w : World) : may w w.who.uid w.who.gid 504 = true := may_owner w 504 (by decide)

/-! ## a line of the file -/

theorem line_request {verb : Str} {ws : List Str} {as : List (Nat × Option Str)} (hv : ∀ b ∈ verb, 32 < b) (hw : ∀ x ∈ ws, Wd x)
    (ha : attrsOf ws = some as) : request (line (verb :: ws)) = some ⟨verb, as⟩ := by
  unfold request
  rw [cut_line verb ws hv hw]
  simp [ha]

macro "pick" : tactic => `(tactic| (
  unfold exec
  rw [cut_line _ _ (by decide +kernel) ‹_›]
  dsimp only
  rw [if_neg (by decide +kernel), line_request (by decide +kernel) ‹_› ‹_›]
  dsimp only
  repeat (first | rw [if_pos rfl] | rw [if_neg (by decide +kernel)])))

variable {w : World} {d : Daemon} {ws : List Str} {as : List (Nat × Option Str)}

theorem exec_prdcr_add (_hw : ∀ x ∈ ws, Wd x) (_ha : attrsOf ws = some as) :
    exec w d (line (codes "prdcr_add" :: ws)) = prdcrAdd w d ⟨codes "prdcr_add", as⟩ := by pick

theorem exec_prdcr_start (_hw : ∀ x ∈ ws, Wd x) (_ha : attrsOf ws = some as) :
    exec w d (line (codes "prdcr_start" :: ws)) = prdcrStart w d ⟨codes "prdcr_start", as⟩ := by pick

theorem exec_prdcr_subscribe (_hw : ∀ x ∈ ws, Wd x) (_ha : attrsOf ws = some as) :
    exec w d (line (codes "prdcr_subscribe" :: ws)) = subscribe w d ⟨codes "prdcr_subscribe", as⟩ := by pick

theorem exec_load (_hw : ∀ x ∈ ws, Wd x) (_ha : attrsOf ws = some as) :
    exec w d (line (codes "load" :: ws)) = match Req.get w ⟨codes "load", as⟩ "name" with
      | none => .error (some EINVAL)
      | some n => strgp w d (.load n (w.plugin n)) := by pick; rfl

theorem exec_updtr_add (_hw : ∀ x ∈ ws, Wd x) (_ha : attrsOf ws = some as) :
    exec w d (line (codes "updtr_add" :: ws)) = updtrAdd w d ⟨codes "updtr_add", as⟩ := by pick

theorem exec_updtr_prdcr (_hw : ∀ x ∈ ws, Wd x) (_ha : attrsOf ws = some as) :
    exec w d (line (codes "updtr_prdcr_add" :: ws)) = updtrPrdcr w d ⟨codes "updtr_prdcr_add", as⟩ := by pick

theorem exec_updtr_match (_hw : ∀ x ∈ ws, Wd x) (_ha : attrsOf ws = some as) :
    exec w d (line (codes "updtr_match_add" :: ws)) = updtrMatch w d ⟨codes "updtr_match_add", as⟩ := by pick

theorem exec_updtr_start (_hw : ∀ x ∈ ws, Wd x) (_ha : attrsOf ws = some as) :
    exec w d (line (codes "updtr_start" :: ws)) = updtrStart w d ⟨codes "updtr_start", as⟩ := by pick

theorem exec_strgp_add (_hw : ∀ x ∈ ws, Wd x) (_ha : attrsOf ws = some as) :
    exec w d (line (codes "strgp_add" :: ws)) = strgp w d (.add (strgpArgs w ⟨codes "strgp_add", as⟩)) := by pick

theorem exec_strgp_prdcr (_hw : ∀ x ∈ ws, Wd x) (_ha : attrsOf ws = some as) :
    exec w d (line (codes "strgp_prdcr_add" :: ws)) =
      strgp w d (.prdcrAdd (Req.get w ⟨codes "strgp_prdcr_add", as⟩ "name") (Req.get w ⟨codes "strgp_prdcr_add", as⟩ "regex")) := by pick

theorem exec_strgp_start (_hw : ∀ x ∈ ws, Wd x) (_ha : attrsOf ws = some as) :
    exec w d (line (codes "strgp_start" :: ws)) = strgp w d (.start (Req.get w ⟨codes "strgp_start", as⟩ "name")) := by pick

theorem exec_config (hw : ∀ x ∈ ws, Wd x) : exec w d (line (codes "config" :: ws)) = config w d ws := by
  unfold exec
  rw [cut_line _ _ (by decide +kernel) hw]
  dsimp only
  rw [if_pos rfl]

theorem runLines_append (w : World) : ∀ (a b : List Str) (d : Daemon), runLines w d (a ++ b) =
    match runLines w d a with
    | .error e => .error e
    | .ok d' => runLines w d' b
  | [], b, d => rfl
  | l :: a, b, d => by
    simp only [List.cons_append, runLines]
    cases exec w d l with
    | error e => rfl
    | ok d' => exact runLines_append w a b d'

/-! ## the words of lines -/

theorem wd_one {n : String} {v : Str} (hv : Word v)
    (hn : codes n ≠ [] ∧ (∀ b ∈ codes n, 32 < b ∧ b < 256) ∧ (codes n).head? ≠ some 35) : Wd (av n v) := av_wd n v hn hv

theorem wd_cons {x : Str} {xs : List Str} (h : Wd x) (hs : ∀ y ∈ xs, Wd y) : ∀ y ∈ x :: xs, Wd y := by
  intro y hy
  rcases List.mem_cons.1 hy with rfl | hy
  · exact h
  · exact hs y hy

theorem wd_nil : ∀ y ∈ ([] : List Str), Wd y := fun _ h => nomatch h

theorem wd_verb {v : Str} (h : v ≠ [] ∧ (∀ b ∈ v, 32 < b ∧ b < 256) ∧ v.head? ≠ some 35 ∧ v.getLast? ≠ some 92) : Wd v :=
  ⟨h.1, h.2.1, h.2.2.1, h.2.2.2⟩

end Verif.Dump
