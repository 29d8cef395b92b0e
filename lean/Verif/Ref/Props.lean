import Verif.Ref.Model
import Verif.Common.ListLemmas

/-!
# Properties of reference counts (C12)

The specification looks at the history only: the number of gets, of puts and of destructor calls.
-/

namespace Verif.Ref

/-- `ref_get`s in a history -/
def gets (h : List Ev) : Nat := h.countP (fun e => match e with | .get _ => true | _ => false)
/-- `ref_put`s in a history -/
def puts (h : List Ev) : Nat := h.countP (fun e => match e with | .dec _ => true | _ => false)
/-- destructor calls in a history -/
def frees (h : List Ev) : Nat := h.countP (fun e => match e with | .free _ => true | _ => false)

/-- `h` is something the threads can do, starting from an object created by thread `t0` -/
def Possible (t0 : Nat) (h : List Ev) : Prop := ∃ s, run (init t0) h = some s

/-- fewer than 2^32 references are ever held at the same time -/
def Small (h : List Ev) : Prop := ∀ p, p <+: h → 1 + gets p < puts p + wrap

/-- no thread is between its last decrement and the destructor call -/
def Settled (t0 : Nat) (h : List Ev) : Prop := ∃ s, run (init t0) h = some s ∧ s.freeing = []

theorem run_append {s : St} {h1 h2 : List Ev} :
    run s (h1 ++ h2) = (run s h1).bind (fun s' => run s' h2) := by
  induction h1 generalizing s with
  | nil => rfl
  | cons e es ih =>
    simp only [List.cons_append, run]
    cases step s e with
    | none => rfl
    | some s1 => simpa using ih

theorem run_snoc {s : St} {h : List Ev} {e : Ev} :
    run s (h ++ [e]) = (run s h).bind (fun s' => step s' e) := by
  rw [run_append]
  congr 1; funext s'
  simp only [run]
  cases step s' e <;> rfl

/-- the invariant: the counter is the number of references held, the destructor call is pending or done
exactly when there are none -/
structure Inv (h : List Ev) (s : St) : Prop where
  len : s.refs.length + puts h = 1 + gets h
  cnt : s.count = s.refs.length
  fr : s.freeing.length + frees h = if s.refs.length = 0 then 1 else 0

theorem small_prefix {h : List Ev} {e : Ev} (hs : Small (h ++ [e])) : Small h :=
  fun p hp => hs p (hp.trans (List.prefix_append _ _))

theorem gets_snoc (h : List Ev) (e : Ev) : gets (h ++ [e]) = gets h + gets [e] := List.countP_append
theorem puts_snoc (h : List Ev) (e : Ev) : puts (h ++ [e]) = puts h + puts [e] := List.countP_append
theorem frees_snoc (h : List Ev) (e : Ev) : frees (h ++ [e]) = frees h + frees [e] := List.countP_append

theorem len_pos {t : Nat} {l : List Nat} (h : t ∈ l) : 0 < l.length := List.length_pos_of_mem h

theorem decr_pos {n : Nat} (h : 0 < n) (hl : n - 1 < wrap) : decr n = n - 1 := by
  unfold decr
  generalize hw : wrap = w at *
  have h0 : 0 < w := by rw [← hw]; decide
  have : n + (w - 1) = (n - 1) + w := by omega
  rw [this, Nat.add_mod_right, Nat.mod_eq_of_lt hl]

theorem inv_step {h : List Ev} {s s' : St} {e : Ev} (hi : Inv h s) (hs : Small (h ++ [e]))
    (hst : step s e = some s') : Inv (h ++ [e]) s' := by
  have hsm := hs _ (List.prefix_refl _)
  have hl := hi.len
  have hc := hi.cnt
  have hf := hi.fr
  rw [gets_snoc, puts_snoc] at hsm
  cases e with
  | get t =>
    simp only [step] at hst
    split at hst
    · rename_i hm
      have hp := len_pos hm
      injection hst with hst; subst hst
      have g : gets [Ev.get t] = 1 := rfl
      have p : puts [Ev.get t] = 0 := rfl
      have f : frees [Ev.get t] = 0 := rfl
      refine ⟨?_, ?_, ?_⟩
      · rw [gets_snoc, puts_snoc, g, p]; simp; omega
      · show incr s.count = (t :: s.refs).length
        unfold incr
        rw [g, p] at hsm
        rw [Nat.mod_eq_of_lt (by omega)]
        simp [hc]
      · rw [frees_snoc, f]
        show s.freeing.length + _ = if (t :: s.refs).length = 0 then 1 else 0
        rw [if_neg (by omega)] at hf
        rw [if_neg (by simp)]; omega
    · cases hst
  | dec t =>
    simp only [step] at hst
    split at hst
    · rename_i hm
      have hp := len_pos hm
      injection hst with hst; subst hst
      have g : gets [Ev.dec t] = 0 := rfl
      have p : puts [Ev.dec t] = 1 := rfl
      have f : frees [Ev.dec t] = 0 := rfl
      have hel : (s.refs.erase t).length = s.refs.length - 1 := List.length_erase_of_mem hm
      have hlt : s.refs.length - 1 < wrap := by rw [g, p] at hsm; omega
      have hd : decr s.count = (s.refs.erase t).length := by
        rw [hel, hc]; exact decr_pos hp hlt
      refine ⟨?_, hd, ?_⟩
      · rw [gets_snoc, puts_snoc, g, p]; simp only; omega
      · rw [frees_snoc, f]
        simp only [hd]
        rw [if_neg (by omega)] at hf
        split
        · simp; omega
        · omega
    · cases hst
  | free t =>
    simp only [step] at hst
    split at hst
    · rename_i hm
      have hp := len_pos hm
      injection hst with hst; subst hst
      have g : gets [Ev.free t] = 0 := rfl
      have p : puts [Ev.free t] = 0 := rfl
      have f : frees [Ev.free t] = 1 := rfl
      have hel : (s.freeing.erase t).length = s.freeing.length - 1 := List.length_erase_of_mem hm
      refine ⟨?_, hc, ?_⟩
      · rw [gets_snoc, puts_snoc, g, p]; simp only; omega
      · rw [frees_snoc, f]
        show (s.freeing.erase t).length + _ = if s.refs.length = 0 then 1 else 0
        omega
    · cases hst
  | pass t u =>
    simp only [step] at hst
    split at hst
    · rename_i hm
      have hp := len_pos hm
      injection hst with hst; subst hst
      have g : gets [Ev.pass t u] = 0 := rfl
      have p : puts [Ev.pass t u] = 0 := rfl
      have f : frees [Ev.pass t u] = 0 := rfl
      have hel : (u :: s.refs.erase t).length = s.refs.length := by
        simp [List.length_erase_of_mem hm]; omega
      refine ⟨?_, ?_, ?_⟩
      · rw [gets_snoc, puts_snoc, g, p]; simp only [hel]; omega
      · show s.count = (u :: s.refs.erase t).length
        rw [hel, hc]
      · rw [frees_snoc, f]
        show s.freeing.length + _ = if (u :: s.refs.erase t).length = 0 then 1 else 0
        rw [hel]; omega
    · cases hst

theorem inv_run {t0 : Nat} {h : List Ev} (hs : Small h) :
    ∀ {s : St}, run (init t0) h = some s → Inv h s := by
  induction h using snoc_induction with
  | nil =>
    intro s hr
    injection hr with hr; subst hr
    exact ⟨rfl, rfl, rfl⟩
  | snoc h e ih =>
    intro s hr
    rw [run_snoc] at hr
    cases h1 : run (init t0) h with
    | none => rw [h1] at hr; cases hr
    | some s1 =>
      rw [h1] at hr
      exact inv_step (ih (small_prefix hs) h1) hs hr

/-- **C12 (at most once, never early).** In every interleaving of any number of threads the destructor
runs at most once, and only after every reference (the initial one and every get) has been put. -/
theorem ref_free_at_most_once (t0 : Nat) (h : List Ev) (hp : Possible t0 h) (hs : Small h) :
    frees h ≤ 1 ∧ (0 < frees h → puts h = 1 + gets h) := by
  obtain ⟨s, hr⟩ := hp
  have hi := inv_run hs hr
  have h1 := hi.len
  have h2 := hi.fr
  constructor
  · split at h2 <;> omega
  · intro hf
    split at h2 <;> omega

/-- **C12 (exactly once).** When every reference has been put and no thread is still inside `ref_put`, the
destructor has run exactly once. -/
theorem ref_free_exactly_once (t0 : Nat) (h : List Ev) (hst : Settled t0 h) (hs : Small h)
    (hall : puts h = 1 + gets h) : frees h = 1 := by
  obtain ⟨s, hr, hf⟩ := hst
  have hi := inv_run hs hr
  have h1 := hi.len
  have h2 := hi.fr
  rw [hf, if_pos (by omega)] at h2
  simpa using h2

/-- puts never outnumber references -/
theorem ref_puts_le (t0 : Nat) (h : List Ev) (hp : Possible t0 h) (hs : Small h) :
    puts h ≤ 1 + gets h := by
  obtain ⟨s, hr⟩ := hp
  have hi := inv_run hs hr
  have h1 := hi.len
  omega

/-- **C12 (the value returned).** A `ref_put` returns 0, and so goes on to the destructor, exactly when it
is the put matching the last outstanding reference. -/
theorem ref_put_zero_iff_last (t0 : Nat) (h : List Ev) (t : Nat) (s s' : St)
    (hs : Small (h ++ [.dec t])) (hr : run (init t0) h = some s) (hst : step s (.dec t) = some s') :
    s'.count = 0 ↔ puts (h ++ [.dec t]) = 1 + gets (h ++ [.dec t]) := by
  have hi := inv_step (inv_run (small_prefix hs) hr) hs hst
  have h1 := hi.len
  have h2 := hi.cnt
  omega

/-- **C12 (nobody uses it afterwards).** After the destructor call nothing else happens to the object: no
get, put, pass or second destructor call is possible. -/
theorem ref_nothing_after_free (t0 : Nat) (h1 h2 : List Ev) (t : Nat)
    (hp : Possible t0 (h1 ++ .free t :: h2)) (hs : Small (h1 ++ .free t :: h2)) : h2 = [] := by
  obtain ⟨s, hr⟩ := hp
  have he : h1 ++ Ev.free t :: h2 = (h1 ++ [Ev.free t]) ++ h2 := by simp
  rw [he] at hr hs
  rw [run_append] at hr
  cases h1r : run (init t0) (h1 ++ [Ev.free t]) with
  | none => rw [h1r] at hr; cases hr
  | some s1 =>
    rw [h1r] at hr
    have hi := inv_run (fun p hp => hs p (hp.trans (List.prefix_append _ _))) h1r
    have hf := hi.fr
    have hl : frees (h1 ++ [Ev.free t]) = frees h1 + 1 := frees_snoc _ _
    have hr0 : s1.refs = [] := by
      apply List.eq_nil_of_length_eq_zero
      split at hf <;> omega
    have hf0 : s1.freeing = [] := by
      apply List.eq_nil_of_length_eq_zero
      split at hf <;> omega
    cases h2 with
    | nil => rfl
    | cons e es =>
      exfalso
      have : step s1 e = none := by cases e <;> simp [step, hr0, hf0]
      simp [run, this] at hr

/-- the object created by thread 0, got by it for thread 1, and put by both: thread 1 runs the destructor -/
example : Possible 0 [.get 0, .pass 0 1, .dec 0, .dec 1, .free 1] := ⟨⟨0, [], []⟩, by decide⟩
example : Settled 0 [.get 0, .pass 0 1, .dec 0, .dec 1, .free 1] := ⟨⟨0, [], []⟩, by decide, rfl⟩
example : puts [.get 0, .pass 0 1, .dec 0, .dec 1, .free 1] = 1 + gets [.get 0, .pass 0 1, .dec 0, .dec 1, .free 1] := by
  decide

theorem gets_le_length (h : List Ev) : gets h ≤ h.length := List.countP_le_length

/-- short histories are `Small` -/
theorem small_of_length {h : List Ev} (hl : h.length + 1 < wrap) : Small h := by
  intro p hp
  have h1 := gets_le_length p
  have h2 := hp.length_le
  omega

example : Small [.get 0, .pass 0 1, .dec 0, .dec 1, .free 1] := small_of_length (by decide)

/-- **Why callers must hold a reference.** If a thread that holds none may take one, for example after
finding the object in a directory while the last holder is inside `ref_put`, the destructor can run
twice. -/
theorem ref_get_without_holding_double_free :
    ∃ (h : List Ev) (s : St), runLoose (init 0) h = some s ∧ frees h = 2 :=
  ⟨[.dec 0, .get 1, .free 0, .dec 1, .free 1], ⟨0, [], []⟩, by decide, by decide⟩

theorem run_gets (n : Nat) : run (init 0) (List.replicate n (.get 0)) =
    some ⟨(n + 1) % wrap, List.replicate (n + 1) 0, []⟩ := by
  induction n with
  | zero => rfl
  | succ n ih =>
    rw [List.replicate_succ', run_snoc, ih]
    simp only [Option.bind_some, step]
    rw [if_pos (by simp)]
    simp only [incr, Nat.mod_add_mod, Option.some.injEq, St.mk.injEq, and_true, true_and]
    rw [← List.replicate_succ]

theorem gets_replicate (n : Nat) : gets (List.replicate n (.get 0)) = n := by
  unfold gets; rw [List.countP_replicate]; simp

/-- **Why the number of references must stay below 2^32.** The 32-bit counter wraps: after 2^32 gets it
is 1 again and the next put frees the object with 2^32 references outstanding. -/
theorem ref_count_wraps_defect :
    ∃ h : List Ev, Possible 0 h ∧ frees h = 1 ∧ puts h < 1 + gets h := by
  have hr := run_gets wrap
  have h1 : (wrap + 1) % wrap = 1 := by decide
  rw [h1] at hr
  refine ⟨List.replicate wrap (.get 0) ++ [.dec 0] ++ [.free 0], ?_, ?_, ?_⟩
  · refine ⟨⟨0, (List.replicate (wrap + 1) 0).erase 0, []⟩, ?_⟩
    rw [run_snoc, run_snoc, hr]
    simp only [Option.bind_some, step]
    rw [if_pos (by simp)]
    have h2 : decr 1 = 0 := by decide
    simp [h2]
  · rw [frees_snoc, frees_snoc]
    have h0 : frees (List.replicate wrap (.get 0)) = 0 := by
      unfold frees; rw [List.countP_replicate]; simp
    rw [h0]; rfl
  · rw [gets_snoc, gets_snoc, puts_snoc, puts_snoc, gets_replicate]
    have h0 : puts (List.replicate wrap (.get 0)) = 0 := by
      unfold puts; rw [List.countP_replicate]; simp
    rw [h0]
    decide

end Verif.Ref
