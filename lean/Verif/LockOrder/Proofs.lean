import Verif.LockOrder.Spec

/-!
# Proofs about locks
-/

namespace Verif.LockOrder

/-- From the locks `h`, the path ends with the locks `h'`, releases only what it
has, and takes a lock only if `R` relates what it has to that lock. -/
def OkTo (R : Lock → Lock → Prop) : List Lock → Prog → List Lock → Prop
  | h, [], h' => h.Perm h'
  | h, .acq l :: k, h' => (∀ x ∈ h, R x l) ∧ OkTo R (l :: h) k h'
  | h, .rel l :: k, h' => l ∈ h ∧ OkTo R (h.erase l) k h'

/-- The place of each lock in the order. -/
def rank : Lock → Nat
  | .updtrTree => 0
  | .updtrTask _ => 1
  | .treeTask _ => 1
  | .updtr _ => 2
  | .prdcrTree => 3
  | .prdcrTask _ => 4
  | .prdcr _ => 5
  | .set _ => 6
  | .strgpTree => 7
  | .strgp _ => 8

/-- The relation of the order. -/
def Below (x l : Lock) : Prop := rank x < rank l

theorem okTo_perm {R : Lock → Lock → Prop} {p : Prog} : ∀ {h h2 h' : List Lock}, h.Perm h2 →
    OkTo R h p h' → OkTo R h2 p h' := by
  induction p with
  | nil => intro h h2 h' e o; exact e.symm.trans o
  | cons a k ih =>
    intro h h2 h' e o
    cases a with
    | acq l => exact ⟨fun x hx => o.1 x (e.mem_iff.2 hx), ih (e.cons l) o.2⟩
    | rel l => exact ⟨e.mem_iff.1 o.1, ih (e.erase l) o.2⟩

theorem okTo_append {R : Lock → Lock → Prop} {p q : Prog} {h1 h2 : List Lock} :
    ∀ {h : List Lock}, OkTo R h p h1 → OkTo R h1 q h2 → OkTo R h (p ++ q) h2 := by
  induction p with
  | nil => intro h o o2; exact okTo_perm (List.Perm.symm o) o2
  | cons a k ih =>
    intro h o o2
    cases a with
    | acq l => exact ⟨o.1, ih o.2 o2⟩
    | rel l => exact ⟨o.1, ih o.2 o2⟩

theorem okTo_hold {R : Lock → Lock → Prop} {l : Lock} {b : Prog} {h : List Lock}
    (hr : ∀ x ∈ h, R x l) (o : OkTo R (l :: h) b (l :: h)) : OkTo R h (hold l b) h := by
  refine ⟨hr, okTo_append o ⟨List.mem_cons_self, ?_⟩⟩
  rw [List.erase_cons_head]
  exact List.Perm.refl h

theorem okTo_nil {R : Lock → Lock → Prop} {h : List Lock} : OkTo R h [] h := List.Perm.refl h

theorem okTo_each {R : Lock → Lock → Prop} {α : Type} {xs : List α} {f : α → Prog} {h : List Lock}
    (o : ∀ x ∈ xs, OkTo R h (f x) h) : OkTo R h (each xs f) h := by
  induction xs with
  | nil => exact okTo_nil
  | cons x xs ih =>
    have e : each (x :: xs) f = f x ++ each xs f := by simp [each]
    rw [e]
    exact okTo_append (o x List.mem_cons_self)
      (ih fun y hy => o y (List.mem_cons_of_mem _ hy))

/-! ### The order of the routines -/

theorem ok_taskUpdate (i : Nat) (us : List (Nat × Bool)) : OkTo Below [] (taskUpdate i us) [] := by
  refine okTo_hold (by simp) (okTo_each fun u _ => okTo_hold (by simp [Below, rank]) ?_)
  split
  · exact okTo_hold (by simp [Below, rank]) okTo_nil
  · exact okTo_nil

theorem ok_updtrStart1 (h : List Lock) (hh : ∀ x ∈ h, rank x < 2) (u : Nat)
    (ps : List (Nat × List Nat)) : OkTo Below h (updtrStart1 u ps) h := by
  refine okTo_hold hh (okTo_each fun p _ => okTo_hold ?_ (okTo_each fun i _ => okTo_hold ?_ okTo_nil))
  · intro x hx
    rcases List.mem_cons.1 hx with e | hx
    · subst e; simp [Below, rank]
    · exact Nat.lt_trans (hh x hx) (by decide : 2 < 5)
  · intro x hx
    rcases List.mem_cons.1 hx with e | hx
    · subst e; simp [Below, rank]
    rcases List.mem_cons.1 hx with e | hx
    · subst e; simp [Below, rank]
    · exact Nat.lt_trans (hh x hx) (by decide : 2 < 6)

theorem ok_hold1 (h : List Lock) (l : Lock) (hh : ∀ x ∈ h, rank x < rank l) :
    OkTo Below h (hold l []) h := okTo_hold hh okTo_nil

theorem ok_each1 (h : List Lock) (ps : List Nat) (f : Nat → Lock)
    (hh : ∀ x ∈ h, ∀ p, rank x < rank (f p)) :
    OkTo Below h (each ps fun p => hold (f p) []) h :=
  okTo_each fun p _ => ok_hold1 h (f p) fun x hx => hh x hx p

theorem ok_prdcrStop1 (h : List Lock) (hh : ∀ x ∈ h, rank x < 4) (p : Nat) :
    OkTo Below h (prdcrStop1 p) h := by
  have h5 : OkTo Below h (hold (.prdcr p) []) h :=
    ok_hold1 h _ fun x hx => Nat.lt_trans (hh x hx) (by decide : 4 < 5)
  exact okTo_append (okTo_append h5 (ok_hold1 h _ hh)) h5

theorem ok_aboutPolicies (r : Routine) (hr : AboutPolicies r) (h : List Lock)
    (hh : ∀ x ∈ h, rank x < 7) : OkTo Below h (code r) h := by
  have h7 : ∀ x ∈ h, rank x < rank Lock.strgpTree := hh
  have h8 : ∀ s, ∀ x ∈ h, rank x < rank (Lock.strgp s) := fun s x hx => by
    exact Nat.lt_trans (hh x hx) (by decide : 7 < 8)
  have h78 : ∀ s, ∀ x ∈ Lock.strgpTree :: h, rank x < rank (Lock.strgp s) := fun s x hx => by
    rcases List.mem_cons.1 hx with e | hx
    · subst e; simp [rank]
    · exact h8 s x hx
  cases r <;> try exact hr.elim
  case strgpCmd s => exact okTo_append (ok_hold1 h _ h7) (ok_hold1 h _ (h8 s))
  case strgpDel s => exact okTo_hold h7 (ok_hold1 _ _ (h78 s))
  case strgpNew s =>
    refine ⟨h7, h78 s, ?_, ?_, ?_⟩
    · simp
    · simp
    · simp [OkTo]
  case strgpStatus ss => exact okTo_hold h7 (okTo_each fun s _ => ok_hold1 _ _ (h78 s))

/-- Every orderly routine takes locks in the order, and releases all it takes. -/
theorem ok_code (r : Routine) (hr : Orderly r) : OkTo Below [] (code r) [] := by
  have e1 : ∀ (l : Lock), OkTo Below [] (hold l []) [] := fun l => ok_hold1 [] l (by simp)
  have sets : ∀ (h : List Lock) (is : List Nat), (∀ x ∈ h, rank x < 6) →
      OkTo Below h (each is fun i => hold (.set i) []) h := fun h is hh =>
    ok_each1 h is Lock.set fun x hx _ => hh x hx
  cases r <;> try exact hr.elim
  case updtrTask u ps =>
    exact okTo_hold (by simp) (okTo_hold (by simp [Below, rank])
      (ok_each1 _ ps Lock.prdcr (by simp [rank])))
  case treeTask u => exact okTo_hold (by simp) (ok_hold1 _ _ (by simp [rank]))
  case updtrStart u ps =>
    exact okTo_append (okTo_append (e1 _) (e1 _)) (ok_updtrStart1 [] (by simp) u ps)
  case updtrStop u ps =>
    exact okTo_append (okTo_append (okTo_append (okTo_append (e1 _)
      (okTo_hold (by simp) (ok_each1 _ ps Lock.prdcr (by simp [rank])))) (e1 _)) (e1 _)) (e1 _)
  case updtrCmd u => exact okTo_append (e1 _) (e1 _)
  case updtrPrdcrAdd u =>
    exact okTo_append (e1 _) (okTo_hold (by simp) (ok_hold1 _ _ (by simp [rank])))
  case updtrDel u => exact okTo_hold (by simp) (ok_hold1 _ _ (by simp [rank]))
  case updtrNew u => simp [code, OkTo, Below, rank]
  case updtrStatus us => exact okTo_hold (by simp) (ok_each1 _ us Lock.updtr (by simp [rank]))
  case updateDone i ss => exact okTo_hold (by simp) (ok_each1 _ ss Lock.strgp (by simp [rank]))
  case lookupDone i found ss us =>
    cases found with
    | false => exact e1 _
    | true =>
      exact okTo_append (okTo_hold (by simp) (okTo_hold (by simp [Below, rank])
        (ok_each1 _ ss Lock.strgp (by simp [rank])))) (ok_taskUpdate i us)
  case dirAdd p sts =>
    refine okTo_hold (by simp) (okTo_each fun i _ => ?_)
    refine ⟨by simp, ?_⟩
    have e : ([Lock.prdcr p].erase (Lock.prdcr p)) = [] := by simp
    rw [e]
    refine okTo_append (ok_taskUpdate _ _) ⟨by simp, List.Perm.refl _⟩
  case dirUpd p sts =>
    refine okTo_hold (by simp) (okTo_each fun i _ => ?_)
    refine okTo_append (ok_hold1 _ _ (by simp [rank])) ?_
    rcases hi : i.2 with _ | us
    · exact okTo_nil
    · refine ⟨by simp, ?_⟩
      have e : ([Lock.prdcr p].erase (Lock.prdcr p)) = [] := by simp
      rw [e]
      exact okTo_append (ok_taskUpdate _ _) ⟨by simp, List.Perm.refl _⟩
  case connEvent p => exact e1 _
  case setGone p i => exact okTo_hold (by simp) (ok_hold1 _ _ (by simp [rank]))
  case prdcrTask p passive =>
    refine okTo_hold (by simp) (okTo_hold (by simp [Below, rank]) ?_)
    cases passive with
    | false => exact okTo_nil
    | true =>
      refine ⟨by simp, ?_⟩
      have e : ([Lock.prdcr p, Lock.prdcrTask p].erase (Lock.prdcr p)) = [Lock.prdcrTask p] := by simp
      rw [e]
      exact okTo_append (ok_hold1 _ _ (by simp [rank])) ⟨by simp [Below, rank], List.Perm.refl _⟩
  case prdcrCmd p => exact okTo_append (e1 _) (e1 _)
  case prdcrStop p => exact okTo_append (e1 _) (ok_prdcrStop1 [] (by simp) p)
  case prdcrDel p => exact okTo_hold (by simp) (ok_hold1 _ _ (by simp [rank]))
  case prdcrNew p => simp [code, OkTo, Below, rank]
  case prdcrEach ps => exact okTo_hold (by simp) (ok_each1 _ ps Lock.prdcr (by simp [rank]))
  case prdcrStopEach ps =>
    exact okTo_hold (by simp) (okTo_each fun p _ => ok_prdcrStop1 _ (by simp [rank]) p)
  case prdcrHints ps =>
    exact okTo_hold (by simp) (okTo_each fun p _ => okTo_hold (by simp [Below, rank])
      (sets _ _ (by simp [rank])))
  case statsReset ps => exact ok_each1 _ ps Lock.prdcr (by simp)
  case updtrLoad ps => exact okTo_hold (by simp) (ok_each1 _ ps Lock.prdcr (by simp [rank]))
  case updtrTimes ps =>
    exact okTo_hold (by simp) (okTo_each fun p _ => okTo_hold (by simp [Below, rank])
      (sets _ _ (by simp [rank])))
  case dumpCfg ps us =>
    exact okTo_append (okTo_append
      (okTo_hold (by simp) (ok_each1 _ ps Lock.prdcr (by simp [rank])))
      (okTo_hold (by simp) (okTo_each fun u _ => okTo_hold (by simp [Below, rank])
        (ok_each1 _ _ Lock.prdcr (by simp [rank]))))) (e1 _)
  case strgpCmd s => exact okTo_append (e1 _) (e1 _)
  case strgpDel s => exact okTo_hold (by simp) (ok_hold1 _ _ (by simp [rank]))
  case strgpNew s => simp [code, OkTo, Below, rank]
  case strgpStatus ss => exact okTo_hold (by simp) (ok_each1 _ ss Lock.strgp (by simp [rank]))
  case startAll ps us ss =>
    have hs : ss = [] := hr
    subst hs
    exact okTo_append (okTo_append
      (okTo_hold (by simp) (ok_each1 _ ps Lock.prdcr (by simp [rank])))
      (okTo_hold (by simp) (okTo_each fun u _ => ok_updtrStart1 _ (by simp [rank]) _ _))) (e1 _)
  case peerRequest p r => exact okTo_hold (by simp) (ok_aboutPolicies r hr _ (by simp [rank]))

/-! ### What holds in every state -/

theorem put_same (s : State) (t : Nat) (x : Thr) : s.put t x t = x := by simp [State.put]

theorem put_other (s : State) {t u : Nat} (x : Thr) (h : u ≠ t) : s.put t x u = s u := by
  simp [State.put, h]

/-- A relation in which no lock is related to itself. -/
structure Inv (R : Lock → Lock → Prop) (s : State) : Prop where
  ok : ∀ t, OkTo R (s t).held (s t).rest []
  one : ∀ t u l, l ∈ (s t).held → l ∈ (s u).held → t = u
  nodup : ∀ t, (s t).held.Nodup
  fin : ∃ n, ∀ t, n ≤ t → (s t).rest = []

theorem idle_held {R : Lock → Lock → Prop} {s : State} (i : Inv R s) {t : Nat}
    (h : (s t).rest = []) : (s t).held = [] := by
  have o := i.ok t
  rw [h] at o
  exact List.Perm.eq_nil o

theorem inv_init (R : Lock → Lock → Prop) : Inv R init :=
  ⟨fun _ => List.Perm.refl _, fun _ _ _ h => (by cases h), fun _ => List.nodup_nil,
    ⟨0, fun _ _ => rfl⟩⟩

theorem fin_put {s : State} (h : ∃ n, ∀ t, n ≤ t → (s t).rest = []) (t : Nat) (x : Thr) :
    ∃ n, ∀ u, n ≤ u → ((s.put t x) u).rest = [] := by
  obtain ⟨n, hn⟩ := h
  refine ⟨n + t + 1, fun u hu => ?_⟩
  rw [put_other s x (by omega)]
  exact hn u (by omega)

theorem inv_step {R : Lock → Lock → Prop} {A : Routine → Prop}
    (hA : ∀ r, A r → OkTo R [] (code r) []) {s s' : State} (i : Inv R s) (h : Step A s s') :
    Inv R s' := by
  cases h with
  | start t r ha hr =>
    have hh := idle_held i hr
    refine ⟨fun u => ?_, fun u v l h1 h2 => ?_, fun u => ?_, fin_put i.fin _ _⟩
    · by_cases e : u = t
      · subst e; rw [put_same, hh]; exact hA r ha
      · rw [put_other s _ e]; exact i.ok u
    · have k1 : l ∈ (s u).held := by
        by_cases e : u = t
        · subst e; rw [put_same] at h1; exact h1
        · rw [put_other s _ e] at h1; exact h1
      have k2 : l ∈ (s v).held := by
        by_cases e : v = t
        · subst e; rw [put_same] at h2; exact h2
        · rw [put_other s _ e] at h2; exact h2
      exact i.one u v l k1 k2
    · by_cases e : u = t
      · subst e; rw [put_same]; exact i.nodup u
      · rw [put_other s _ e]; exact i.nodup u
  | acq t l k hr hn =>
    have o := i.ok t
    rw [hr] at o
    refine ⟨fun u => ?_, fun u v x h1 h2 => ?_, fun u => ?_, fin_put i.fin _ _⟩
    · by_cases e : u = t
      · subst e; rw [put_same]; exact o.2
      · rw [put_other s _ e]; exact i.ok u
    · by_cases e1 : u = t
      · by_cases e2 : v = t
        · rw [e1, e2]
        · subst e1
          rw [put_same] at h1
          rw [put_other s _ e2] at h2
          rcases List.mem_cons.1 h1 with e | h1
          · subst e; exact absurd h2 (hn v)
          · exact i.one u v x h1 h2
      · by_cases e2 : v = t
        · subst e2
          rw [put_same] at h2
          rw [put_other s _ e1] at h1
          rcases List.mem_cons.1 h2 with e | h2
          · subst e; exact absurd h1 (hn u)
          · exact i.one u v x h1 h2
        · rw [put_other s _ e1] at h1
          rw [put_other s _ e2] at h2
          exact i.one u v x h1 h2
    · by_cases e : u = t
      · subst e; rw [put_same]; exact List.nodup_cons.2 ⟨hn u, i.nodup u⟩
      · rw [put_other s _ e]; exact i.nodup u
  | rel t l k hr =>
    have o := i.ok t
    rw [hr] at o
    have sub : ∀ u x, x ∈ ((s.put t ⟨(s t).held.erase l, k⟩) u).held → x ∈ (s u).held := by
      intro u x hx
      by_cases e : u = t
      · subst e; rw [put_same] at hx; exact List.mem_of_mem_erase hx
      · rw [put_other s _ e] at hx; exact hx
    refine ⟨fun u => ?_, fun u v x h1 h2 => i.one u v x (sub u x h1) (sub v x h2),
      fun u => ?_, fin_put i.fin _ _⟩
    · by_cases e : u = t
      · subst e; rw [put_same]; exact o.2
      · rw [put_other s _ e]; exact i.ok u
    · by_cases e : u = t
      · subst e; rw [put_same]; exact (i.nodup u).erase l
      · rw [put_other s _ e]; exact i.nodup u

theorem inv_reach {R : Lock → Lock → Prop} {A : Routine → Prop}
    (hA : ∀ r, A r → OkTo R [] (code r) []) {s : State} (h : Reach A s) : Inv R s := by
  induction h with
  | init => exact inv_init R
  | step _ hs ih => exact inv_step hA ih hs

/-- In a list of numbers that is not empty there is a greatest one. -/
theorem exists_greatest (f : Nat → Nat) : ∀ D : List Nat, D ≠ [] → ∃ t ∈ D, ∀ u ∈ D, f u ≤ f t := by
  intro D
  induction D with
  | nil => intro h; exact absurd rfl h
  | cons a D ih =>
    intro _
    rcases D with _ | ⟨b, D⟩
    · exact ⟨a, by simp, by simp⟩
    · obtain ⟨t, ht, hm⟩ := ih (by simp)
      by_cases c : f t ≤ f a
      · refine ⟨a, by simp, fun u hu => ?_⟩
        rcases List.mem_cons.1 hu with e | hu
        · subst e; exact Nat.le_refl _
        · exact Nat.le_trans (hm u hu) c
      · refine ⟨t, List.mem_cons_of_mem _ ht, fun u hu => ?_⟩
        rcases List.mem_cons.1 hu with e | hu
        · subst e; omega
        · exact hm u hu

/-- The rank of the lock a thread waits for. -/
def wanted (s : State) (t : Nat) : Nat :=
  match (s t).rest with
  | .acq l :: _ => rank l
  | _ => 0

theorem no_deadlock_of_inv {s : State} (i : Inv Below s) : ¬ Deadlock s := by
  rintro ⟨D, hD, hw⟩
  obtain ⟨t, ht, hm⟩ := exists_greatest (wanted s) D hD
  obtain ⟨u, hu, l, k, hr, hl⟩ := hw t ht
  obtain ⟨v, _, l', k', hr', _⟩ := hw u hu
  have o := i.ok u
  rw [hr'] at o
  have lt : rank l < rank l' := o.1 l hl
  have le := hm u hu
  have e1 : wanted s t = rank l := by simp [wanted, hr]
  have e2 : wanted s u = rank l' := by simp [wanted, hr']
  omega

/-- If nobody waits in a circle and something is left to do, a thread can go on. -/
theorem progress {R : Lock → Lock → Prop} {s : State} (i : Inv R s) (nd : ¬ Deadlock s)
    (h : ∃ t, (s t).rest ≠ []) :
    ∃ t s', Step (fun _ => False) s s' ∧ (s' t).rest.length < (s t).rest.length ∧
      (∀ u, u ≠ t → s' u = s u) := by
  by_cases hc : ∃ t s', Step (fun _ => False) s s' ∧ (s' t).rest.length < (s t).rest.length ∧
      (∀ u, u ≠ t → s' u = s u)
  · exact hc
  exfalso
  apply nd
  obtain ⟨n, hn⟩ := i.fin
  obtain ⟨t0, ht0⟩ := h
  have hlt : ∀ t, (s t).rest ≠ [] → t < n := fun t ht => by
    rcases Nat.lt_or_ge t n with a | a
    · exact a
    · exact absurd (hn t a) ht
  refine ⟨(List.range n).filter (fun t => !(s t).rest.isEmpty), ?_, ?_⟩
  · intro e
    have : t0 ∈ (List.range n).filter (fun t => !(s t).rest.isEmpty) := by
      simp [hlt t0 ht0, ht0]
    rw [e] at this
    cases this
  · intro t ht
    have hne : (s t).rest ≠ [] := by
      have := (List.mem_filter.1 ht).2
      simpa using this
    rcases hr : (s t).rest with _ | ⟨a, k⟩
    · exact absurd hr hne
    cases a with
    | rel l =>
      exfalso
      apply hc
      refine ⟨t, _, Step.rel s t l k hr, ?_, fun u hu => put_other s _ hu⟩
      rw [put_same, hr]; simp
    | acq l =>
      by_cases hx : ∃ u, l ∈ (s u).held
      · obtain ⟨u, hu⟩ := hx
        refine ⟨u, ?_, l, k, hr, hu⟩
        have hun : (s u).rest ≠ [] := by
          intro e
          rw [idle_held i e] at hu
          cases hu
        simp [hlt u hun, hun]
      · exfalso
        apply hc
        refine ⟨t, _, Step.acq s t l k hr (fun u hu => hx ⟨u, hu⟩), ?_,
          fun u hu => put_other s _ hu⟩
        rw [put_same, hr]; simp

/-- What is left to do for the first `n` threads. -/
def left (s : State) (n : Nat) : Nat := ((List.range n).map (fun t => (s t).rest.length)).sum

theorem left_succ (s : State) (n : Nat) : left s (n + 1) = left s n + (s n).rest.length := by
  simp [left, List.range_succ]

theorem left_lt {s s' : State} {t : Nat} (h : (s' t).rest.length < (s t).rest.length)
    (ho : ∀ u, u ≠ t → s' u = s u) : ∀ n, t < n → left s' n < left s n := by
  have same : ∀ n, n ≤ t → left s' n = left s n := by
    intro n
    induction n with
    | zero => intro _; rfl
    | succ n ih =>
      intro hn
      rw [left_succ, left_succ, ih (by omega), ho n (by omega)]
  intro n
  induction n with
  | zero => intro hn; omega
  | succ n ih =>
    intro hn
    rw [left_succ, left_succ]
    by_cases e : n = t
    · subst e
      rw [same n (Nat.le_refl n)]
      omega
    · have := ih (by omega)
      rw [ho n e]
      omega

theorem inv_quiet {R : Lock → Lock → Prop} {s s' : State} (i : Inv R s)
    (h : Step (fun _ => False) s s') : Inv R s' :=
  inv_step (A := fun _ => False) (fun _ h => h.elim) i h

/-- From a state without deadlock, when this is kept by steps, all can finish. -/
theorem finish_of_inv {R : Lock → Lock → Prop} (Q : State → Prop)
    (hq : ∀ s s', Inv R s → Q s → Step (fun _ => False) s s' → Q s')
    (hd : ∀ s, Inv R s → Q s → ¬ Deadlock s) (n : Nat) :
    ∀ (m : Nat) (s : State), left s n = m → Inv R s → Q s → (∀ t, n ≤ t → (s t).rest = []) →
      ∃ s', Finish s s' ∧ ∀ t, Idle s' t := by
  intro m
  induction m using Nat.strongRecOn with
  | ind m ih =>
    intro s hm i q hn
    by_cases h : ∃ t, (s t).rest ≠ []
    · obtain ⟨t, s', hs, hl, ho⟩ := progress i (hd s i q) h
      have htn : t < n := by
        rcases Nat.lt_or_ge t n with a | a
        · exact a
        · rw [hn t a] at hl; simp at hl
      have hlt := left_lt hl ho n htn
      obtain ⟨s'', hf, hi⟩ := ih (left s' n) (by omega) s' rfl (inv_quiet i hs) (hq s s' i q hs) (by
        intro u hu
        rw [ho u (by omega)]
        exact hn u hu)
      exact ⟨s'', Finish.step hs hf, hi⟩
    · refine ⟨s, Finish.here s, fun t => ?_⟩
      have e : (s t).rest = [] := by
        by_cases e : (s t).rest = []
        · exact e
        · exact absurd ⟨t, e⟩ h
      exact ⟨e, idle_held i e⟩

end Verif.LockOrder
