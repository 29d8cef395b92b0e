import Verif.Strgp.Change
import Verif.Access.Props

/-!
# Requests about storage policies (C77)
-/

namespace Verif.Strgp

open Verif.SetOwner (Str dec strtol u32)

/-! ## an example -/

/-- everyone is in no group; all texts are regular expressions but `[` -/
def e0 : Env := ⟨fun _ => some [], fun r => decide (r ≠ [91]), fun _ _ => 0⟩

def root : Who := ⟨0, 0⟩
def ann : Who := ⟨1001, 100⟩
def bob : Who := ⟨1002, 100⟩

/-- `strgp_add name=<n> plugin=1 container=2 schema=3` with the given interval and permissions -/
def args (n : Option Str) (flush perm : Option Str) : Args := ⟨n, some [1], some [2], some [3], none, none, flush, perm, true⟩

/-- a policy of ann, not open to others, stopped -/
def annPol : List (Who × Ev) := [(root, .load [1] true), (ann, .add (args (some [7]) (some [50, 115]) (some (48 :: dec 700))))]

/-- the state after a request, and its result -/
def Res.state : Res → State
  | .ok s _ => s
  | .crash => init

def Res.code : Res → Option Nat
  | .ok _ rc => some rc
  | .crash => none

def theState (es : List (Who × Ev)) : State := (run e0 init es).getD init

example : dec 700 = [55, 48, 48] := by decide +kernel

example : called (theState annPol) [7] = [⟨[7], 1001, 100, 448, [1], some 0, [2], .schema [3], none, ⟨2, 0⟩, [], [], false, false, 0⟩] := by
  decide +kernel

/-- a state that requests lead to -/
def Reach (e : Env) (es : List (Who × Ev)) (s : State) : Prop := run e init es = some s

theorem run_append (e : Env) : ∀ (es1 es2 : List (Who × Ev)) (s : State), run e s (es1 ++ es2) = (run e s es1).bind fun s' => run e s' es2
  | [], _, _ => rfl
  | (w, ev) :: es1, es2, s => by
    simp only [List.cons_append, run]
    split
    · rfl
    · exact run_append e es1 es2 _

theorem run_keeps (e : Env) (P : State → Prop) (Q : Ev → Prop)
    (hs : ∀ s w ev s' rc, P s → Q ev → step e s w ev = .ok s' rc → P s') :
    ∀ (es : List (Who × Ev)) (s s' : State), P s → (∀ x ∈ es, Q x.2) → run e s es = some s' → P s'
  | [], s, s', hp, _, h => by simp only [run, Option.some.injEq] at h; rw [← h]; exact hp
  | (w, ev) :: es, s, s', hp, hq, h => by
    simp only [run] at h
    split at h
    · exact nomatch h
    · rename_i s1 rc h1
      exact run_keeps e P Q hs es s1 s' (hs s w ev s1 rc hp (hq (w, ev) (by simp)) h1) (fun x hx => hq x (by simp [hx])) h

/-! ## requests are about one policy -/

/-- **C77.**  No request and no event changes, makes or removes a policy other than the one it names. -/
theorem other_policies_untouched (e : Env) (s s' : State) (w : Who) (ev : Ev) (rc : Nat) (h : step e s w ev = .ok s' rc)
    (m : Str) (hm : ev.target ≠ some m) : called s' m = called s m :=
  change_other (step_change h) hm

example : step e0 (theState annPol) ann (.start (some [7])) ≠ .crash ∧ (Ev.start (some [7])).target ≠ some [8] := by decide +kernel

/-- **C77.**  There is never more than one policy of a name. -/
theorem names_are_unique (e : Env) (es : List (Who × Ev)) (s : State) (h : Reach e es s) (n : Str) : (called s n).length ≤ 1 :=
  run_keeps e Unique (fun _ => True) (fun _ _ _ _ _ hu _ hs => change_unique (step_change hs) hu) es init s
    (fun _ => Nat.zero_le _) (fun _ _ => trivial) h n

/-- **C77.**  No metric is listed twice in a policy. -/
theorem metrics_are_distinct (e : Env) (es : List (Who × Ev)) (s : State) (h : Reach e es s) (hf : setsFine es) (p : Pol)
    (hp : p ∈ s.pols) : p.metrics.Nodup :=
  run_keeps e Distinct Ev.fine (fun _ _ _ _ _ hu hq hs => change_distinct (step_change hs) hq hu) es init s
    (fun _ hp => nomatch hp)
    (fun x hx n ms ok hh => hf x.1 n ms ok (by rw [← hh]; exact hx)) h p hp

example : Reach e0 annPol (theState annPol) := by unfold Reach; decide +kernel

/-! ## what a request that is refused does -/

theorem drop_hold (l : List Plug) (i : Nat) :
    (l.map fun p => if p.id = i then { p with refs := p.refs + 1 } else p).map
      (fun p => if p.id = i then { p with refs := p.refs - 1 } else p) = l := by
  rw [List.map_map]
  conv => rhs; rw [← List.map_id l]
  congr 1
  funext p
  simp only [Function.comp, id]
  by_cases h : p.id = i
  · simp only [h, if_true]
    cases p with
    | mk a b c => simp only [Plug.mk.injEq, true_and] at h ⊢; subst h; omega
  · simp only [if_neg h]

/-- **C77, in part.**  A request that is refused changes nothing — for `strgp_add` only if there is no policy of that name, or it is
running, or sets use it. -/
theorem refused_changes_nothing_partial (e : Env) (s s' : State) (w : Who) (ev : Ev) (rc : Nat) (h : step e s w ev = .ok s' rc)
    (hrc : rc ≠ 0)
    (hev : ev.plain = true ∨ ∃ a, ev = .add a ∧ ∀ n, a.name = some n → ∀ p ∈ called s n, p.running = true ∨ 0 < p.users) :
    s' = s := by
  have hcfg : ∀ {n : Str} {f : Pol → Except Nat Pol}, config e s w n f = .ok s' rc → s' = s := by
    intro n f h
    rcases config_ok h with ⟨h, _⟩ | ⟨_, _, _, _, ⟨h, _⟩ | ⟨_, _, _, h⟩⟩
    · exact h
    · exact h
    · exact absurd h hrc
  rcases hev with hev | ⟨a, rfl, ha⟩
  · cases ev with
    | add a => exact nomatch hev
    | prdcrAdd n r =>
      rcases with2_ok h with ⟨h, _⟩ | ⟨_, _, _, _, h⟩
      · exact h
      · exact hcfg h
    | prdcrDel n r =>
      rcases with2_ok h with ⟨h, _⟩ | ⟨_, _, _, _, h⟩
      · exact h
      · exact hcfg h
    | metricAdd n r =>
      rcases with2_ok h with ⟨h, _⟩ | ⟨_, _, _, _, h⟩
      · exact h
      · exact hcfg h
    | metricDel n r =>
      rcases with2_ok h with ⟨h, _⟩ | ⟨_, _, _, _, h⟩
      · exact h
      · exact hcfg h
    | start n =>
      rcases with1_ok h with ⟨h, _⟩ | ⟨_, _, h⟩
      · exact h
      · exact hcfg h
    | stop n =>
      rcases with1_ok h with ⟨h, _⟩ | ⟨_, _, h⟩
      · exact h
      · rcases stop_ok h with ⟨h, _⟩ | ⟨_, _, _, _, h, _⟩
        · exact h
        · exact absurd h hrc
    | del n =>
      rcases with1_ok h with ⟨h, _⟩ | ⟨_, _, h⟩
      · exact h
      · rcases del_ok h with ⟨h, _⟩ | ⟨_, _, _, _, _, _, _, _, h, _⟩
        · exact h
        · exact absurd h hrc
    | load n ok =>
      simp only [step, load] at h
      split at h
      · simp only [Res.ok.injEq] at h; exact h.1.symm
      · split at h
        · simp only [Res.ok.injEq] at h; exact absurd h.2.symm hrc
        · simp only [Res.ok.injEq] at h; exact h.1.symm
    | term n =>
      simp only [step, term] at h
      split at h
      · simp only [Res.ok.injEq] at h; exact h.1.symm
      · split at h
        · simp only [Res.ok.injEq] at h; exact h.1.symm
        · simp only [Res.ok.injEq] at h; exact absurd h.2.symm hrc
    | peer q => exact nomatch hev
    | users n k => exact nomatch hev
    | opens n ms ok => exact nomatch hev
    | stores n => exact nomatch hev
  · rcases add_cases e s w a with ⟨rc, _, hc⟩ | ⟨n, pl, c, sel, fl, g, hw, hc⟩
    · simp only [step] at h
      rw [hc] at h
      rcases (refuse_ok h).2 with ⟨_, h⟩ | ⟨n, r, hn, h⟩
      · exact h
      · rcases del_ok h with ⟨h, _⟩ | ⟨p, _, hp, _, hr, hu, _⟩
        · exact h
        · rcases ha n hn p (mem_called.2 (find_some hp)) with h1 | h1
          · rw [h1] at hr; exact nomatch hr
          · omega
    · rcases hc with ⟨rc, _, _, hc⟩ | ⟨_, _, hc⟩
      · simp only [step] at h
        rw [hc] at h
        have hfr := find_none.1 hw.fresh
        rcases (refuse_ok h).2 with ⟨h, _⟩ | ⟨m, r, hm, h⟩
        · exact nomatch h
        · simp only [Option.some.injEq] at hm
          subst hm
          have hf : find { s.hold g.id with pols := s.pols ++ [made w a n pl c sel fl g] } n = some (made w a n pl c sel fl g) := by
            apply find_one
            show (s.pols ++ [_]).filter _ = _
            unfold called at hfr
            rw [List.filter_append, hfr]
            simp [made]
          rcases del_ok h with ⟨_, h1 | h1 | h1⟩ | ⟨p, i, hp, _, _, _, hs, _, _, h⟩
          · rw [hf] at h1; exact nomatch h1.2
          · -- the policy just made is never refused to be deleted
            exfalso
            subst h1
            unfold del at h
            rw [hf] at h
            simp [allowed, Access.check, made, loaded, State.hold, EACCES] at h
            split at h <;> simp at h
          · exfalso
            subst h1
            unfold del at h
            rw [hf] at h
            simp [allowed, Access.check, made, loaded, State.hold, EBUSY] at h
            split at h <;> simp at h
          · rw [hf] at hp
            simp only [Option.some.injEq] at hp
            subst hp
            have hi : g.id = i := by simpa [made] using hs
            subst hi
            rw [h]
            cases s with
            | mk pols plugs next =>
              simp only [State.drop, State.hold, State.mk.injEq, and_true]
              refine ⟨?_, drop_hold plugs g.id⟩
              rw [List.filter_append]
              have : pols.filter (fun q => !(q.name == n)) = pols := filter_same hfr
              rw [this]
              simp [made]
      · simp only [step] at h
        rw [hc] at h
        simp only [Res.ok.injEq] at h
        exact absurd h.2.symm hrc

/-- bob asks for a policy of a name that is not there, with a bad interval -/
example : step e0 (theState annPol) bob (.add (args (some [8]) (some [120]) none)) = .ok (theState annPol) ENOENT ∧
    called (theState annPol) [8] = [] := by decide +kernel

/-- **C77, defect.**  `strgp_add` with the name of a policy that is stopped and not in use is refused, whoever asks and whatever the
other attributes are — and deletes that policy. -/
theorem failed_add_deletes_defect (e : Env) (s : State) (w : Who) (a : Args) (n : Str) (p : Pol) (i : Nat) (hn : a.name = some n)
    (hp : called s n = [p]) (hr : p.running = false) (hu : p.users = 0) (hs : p.store = some i) (hl : loaded s i = true) :
    ∃ s' rc, step e s w (.add a) = .ok s' rc ∧ rc ≠ 0 ∧ called s' n = [] := by
  have hf := find_one hp
  rcases add_cases e s w a with ⟨rc, hrc, hc⟩ | ⟨m, pl, c, sel, fl, g, hw, _⟩
  · refine ⟨{ s.drop i with pols := s.pols.filter fun q => !(q.name == n) }, rc, ?_, hrc, called_filter_self _ _⟩
    simp only [step]
    rw [hc, hn]
    have : del e s ⟨0, 0⟩ n = .ok { s.drop i with pols := s.pols.filter fun q => !(q.name == n) } 0 := by
      unfold del
      rw [hf]
      simp [allowed, Access.check, hr, hu, hs, hl]
    simp only [refuse, this]
  · have := hw.name
    rw [hn] at this
    simp only [Option.some.injEq] at this
    subst this
    rw [hw.fresh] at hf
    exact nomatch hf

/-- bob may not change ann's policy, yet asking for one of that name removes it -/
theorem failed_add_without_permission_defect :
    (step e0 (theState annPol) bob (.add (args (some [7]) none none))).code = some EEXIST ∧
      step e0 (theState annPol) bob (.del (some [7])) = .ok (theState annPol) EACCES ∧
      (called (theState annPol) [7]).length = 1 ∧
      called (step e0 (theState annPol) bob (.add (args (some [7]) none none))).state [7] = [] := by
  decide +kernel

/-! ## who may change a policy -/

theorem allowed_iff (e : Env) (hg : FewGroups e) (w : Who) (p : Pol) : allowed e w p = true ↔ MayWrite e w p :=
  Access.access_right_partial (e.groups w.uid) w.uid w.gid p.uid p.gid p.perm .write (hg w.uid)

/-- a request that changes a policy was allowed to -/
theorem changed_allowed (e : Env) (s s' : State) (w : Who) (ev : Ev) (rc : Nat) (h : step e s w ev = .ok s' rc)
    (hev : ev.plain = true) (n : Str) (p : Pol) (hp : called s n = [p]) (hc : called s' n ≠ [p]) : allowed e w p = true := by
  have ht : ev.target = some n := Classical.byContradiction fun ht => hc (by rw [other_policies_untouched e s s' w ev rc h n ht, hp])
  have same : s' ≠ s := fun hh => hc (by rw [hh, hp])
  have hcfg : ∀ {f : Pol → Except Nat Pol}, config e s w n f = .ok s' rc → allowed e w p = true := by
    intro f h
    rcases config_ok h with ⟨h, _⟩ | ⟨q, hq, ha, _⟩
    · exact absurd h same
    · rw [find_one hp] at hq; simp only [Option.some.injEq] at hq; rw [hq]; exact ha
  cases ev with
  | add a => exact nomatch hev
  | prdcrAdd m r =>
    rcases with2_ok h with ⟨h, _⟩ | ⟨_, _, hm, _, h⟩
    · exact absurd h same
    · rw [show m = some n from ht] at hm; simp only [Option.some.injEq] at hm; subst hm; exact hcfg h
  | prdcrDel m r =>
    rcases with2_ok h with ⟨h, _⟩ | ⟨_, _, hm, _, h⟩
    · exact absurd h same
    · rw [show m = some n from ht] at hm; simp only [Option.some.injEq] at hm; subst hm; exact hcfg h
  | metricAdd m r =>
    rcases with2_ok h with ⟨h, _⟩ | ⟨_, _, hm, _, h⟩
    · exact absurd h same
    · rw [show m = some n from ht] at hm; simp only [Option.some.injEq] at hm; subst hm; exact hcfg h
  | metricDel m r =>
    rcases with2_ok h with ⟨h, _⟩ | ⟨_, _, hm, _, h⟩
    · exact absurd h same
    · rw [show m = some n from ht] at hm; simp only [Option.some.injEq] at hm; subst hm; exact hcfg h
  | start m =>
    rcases with1_ok h with ⟨h, _⟩ | ⟨_, hm, h⟩
    · exact absurd h same
    · rw [show m = some n from ht] at hm; simp only [Option.some.injEq] at hm; subst hm; exact hcfg h
  | stop m =>
    rcases with1_ok h with ⟨h, _⟩ | ⟨_, hm, h⟩
    · exact absurd h same
    · rw [show m = some n from ht] at hm; simp only [Option.some.injEq] at hm; subst hm
      rcases stop_ok h with ⟨h, _⟩ | ⟨q, hq, ha, _⟩
      · exact absurd h same
      · rw [find_one hp] at hq; simp only [Option.some.injEq] at hq; rw [hq]; exact ha
  | del m =>
    rcases with1_ok h with ⟨h, _⟩ | ⟨_, hm, h⟩
    · exact absurd h same
    · rw [show m = some n from ht] at hm; simp only [Option.some.injEq] at hm; subst hm
      rcases del_ok h with ⟨h, _⟩ | ⟨q, _, hq, ha, _⟩
      · exact absurd h same
      · rw [find_one hp] at hq; simp only [Option.some.injEq] at hq; rw [hq]; exact ha
  | load m ok => exact nomatch ht
  | term m => exact nomatch ht
  | peer q => exact nomatch hev
  | users m k => exact nomatch hev
  | opens m ms ok => exact nomatch hev
  | stores m => exact nomatch hev

/-- **C77, in part.**  A request other than `strgp_add` changes, starts, stops or deletes a policy only if the user has the right to
write to it. -/
theorem changed_with_permission_partial (e : Env) (hg : FewGroups e) (s s' : State) (w : Who) (ev : Ev) (rc : Nat)
    (h : step e s w ev = .ok s' rc) (hev : ev.plain = true) (n : Str) (p : Pol) (hp : called s n = [p]) (hc : called s' n ≠ [p]) :
    MayWrite e w p :=
  (allowed_iff e hg w p).1 (changed_allowed e s s' w ev rc h hev n p hp hc)

example : (step e0 (theState annPol) ann (.metricAdd (some [7]) (some [5]))).code = some 0 ∧
    called (step e0 (theState annPol) ann (.metricAdd (some [7]) (some [5]))).state [7] ≠ called (theState annPol) [7] := by
  decide +kernel

/-! ## a policy that runs -/

/-- **C77.**  While a policy runs, nothing is changed in it, and it is not deleted, by any request but the one that stops it. -/
theorem running_is_frozen (e : Env) (s s' : State) (w : Who) (ev : Ev) (rc : Nat) (h : step e s w ev = .ok s' rc)
    (hev : ev.plain = true ∨ ∃ a, ev = .add a) (n : Str) (p : Pol) (hp : called s n = [p]) (hr : p.running = true)
    (hs : ev ≠ .stop (some n)) : called s' n = [p] := by
  by_cases hrc : rc = 0
  · subst hrc
    by_cases ht : ev.target = some n
    · have hfp := find_one hp
      have hcfg : ∀ {f : Pol → Except Nat Pol}, config e s w n f ≠ .ok s' 0 := by
        intro f h
        rcases config_ok h with ⟨_, h | h | h⟩ | ⟨q, hq, _, hr', _⟩
        · exact nomatch h
        · exact nomatch h
        · exact nomatch h
        · rw [hfp] at hq; simp only [Option.some.injEq] at hq; rw [← hq, hr] at hr'; exact nomatch hr'
      cases ev with
      | add a =>
        rcases add_cases e s w a with ⟨rc, hrc, hc⟩ | ⟨m, pl, c, sel, fl, g, hw, _⟩
        · simp only [step] at h
          rw [hc] at h
          exact absurd (refuse_ok h).1.symm hrc
        · have h1 := hw.name
          rw [show a.name = some n from ht] at h1
          simp only [Option.some.injEq] at h1
          subst h1
          rw [hw.fresh] at hfp
          exact nomatch hfp
      | prdcrAdd m r =>
        rcases with2_ok h with ⟨_, h, _⟩ | ⟨_, _, hm, _, h⟩
        · exact nomatch h
        · rw [show m = some n from ht] at hm; simp only [Option.some.injEq] at hm; subst hm; exact absurd h hcfg
      | prdcrDel m r =>
        rcases with2_ok h with ⟨_, h, _⟩ | ⟨_, _, hm, _, h⟩
        · exact nomatch h
        · rw [show m = some n from ht] at hm; simp only [Option.some.injEq] at hm; subst hm; exact absurd h hcfg
      | metricAdd m r =>
        rcases with2_ok h with ⟨_, h, _⟩ | ⟨_, _, hm, _, h⟩
        · exact nomatch h
        · rw [show m = some n from ht] at hm; simp only [Option.some.injEq] at hm; subst hm; exact absurd h hcfg
      | metricDel m r =>
        rcases with2_ok h with ⟨_, h, _⟩ | ⟨_, _, hm, _, h⟩
        · exact nomatch h
        · rw [show m = some n from ht] at hm; simp only [Option.some.injEq] at hm; subst hm; exact absurd h hcfg
      | start m =>
        rcases with1_ok h with ⟨_, h, _⟩ | ⟨_, hm, h⟩
        · exact nomatch h
        · rw [show m = some n from ht] at hm; simp only [Option.some.injEq] at hm; subst hm; exact absurd h hcfg
      | stop m => exact absurd (by rw [show m = some n from ht]) hs
      | del m =>
        rcases with1_ok h with ⟨_, h, _⟩ | ⟨_, hm, h⟩
        · exact nomatch h
        · rw [show m = some n from ht] at hm; simp only [Option.some.injEq] at hm; subst hm
          rcases del_ok h with ⟨_, ⟨h, _⟩ | h | h⟩ | ⟨q, _, hq, _, hr', _⟩
          · exact nomatch h
          · exact nomatch h
          · exact nomatch h
          · rw [hfp] at hq; simp only [Option.some.injEq] at hq; rw [← hq, hr] at hr'; exact nomatch hr'
      | load m ok => exact nomatch ht
      | term m => exact nomatch ht
      | peer q => rcases hev with hev | ⟨_, hev⟩ <;> exact nomatch hev
      | users m k => rcases hev with hev | ⟨_, hev⟩ <;> exact nomatch hev
      | opens m ms ok => rcases hev with hev | ⟨_, hev⟩ <;> exact nomatch hev
      | stores m => rcases hev with hev | ⟨_, hev⟩ <;> exact nomatch hev
    · rw [other_policies_untouched e s s' w ev 0 h n ht, hp]
  · by_cases ht : ev.target = some n
    · have := refused_changes_nothing_partial e s s' w ev rc h hrc (by
        rcases hev with hev | ⟨a, ha⟩
        · exact .inl hev
        · refine .inr ⟨a, ha, fun m hm q hq => .inl ?_⟩
          subst ha
          have h1 : a.name = some n := ht
          rw [h1] at hm
          simp only [Option.some.injEq] at hm
          subst hm
          rw [hp] at hq
          simp only [List.mem_singleton] at hq
          rw [hq, hr])
      rw [this, hp]
    · rw [other_policies_untouched e s s' w ev rc h n ht, hp]

def annRuns : List (Who × Ev) := annPol ++ [(ann, .start (some [7]))]

example : (called (theState annRuns) [7]).map (·.running) = [true] ∧
    step e0 (theState annRuns) root (.del (some [7])) = .ok (theState annRuns) EBUSY := by decide +kernel

/-- **C77.**  What opening the store of a policy changes in it: a policy that lists no metrics gets those of the set. -/
theorem opening_keeps (e : Env) (s s' : State) (w : Who) (n : Str) (ms : List Str) (ok : Bool) (rc : Nat) (p : Pol)
    (h : step e s w (.opens n ms ok) = .ok s' rc) (hp : called s n = [p]) :
    ∃ p', called s' n = [p'] ∧ (p.metrics ≠ [] → p'.metrics = p.metrics) ∧ (p.metrics = [] → p'.metrics = [] ∨ p'.metrics = ms) ∧
      p' = { p with store := p'.store, opened := p'.opened, metrics := p'.metrics } := by
  rcases opens_ok h with rfl | ⟨q, i, hq, _, _, _, rfl⟩
  · exact ⟨p, hp, fun _ => rfl, fun hm => .inl hm, rfl⟩
  · rw [find_one hp] at hq
    simp only [Option.some.injEq] at hq
    subst hq
    have hn := (find_some (find_one hp)).2
    refine ⟨{ p with store := some i, opened := ok, metrics := if p.metrics = [] then ms else p.metrics }, ?_, ?_, ?_, rfl⟩
    · rw [called_set, if_pos hn.symm, hp]; rfl
    · intro hm; simp [hm]
    · intro hm; simp [hm]

end Verif.Strgp
