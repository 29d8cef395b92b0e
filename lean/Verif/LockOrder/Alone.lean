import Verif.LockOrder.Proofs

/-!
# One thread, endless runs, and runs that are computed
-/

namespace Verif.LockOrder

theorem okTo_mono {R R' : Lock → Lock → Prop} (hR : ∀ x l, R x l → R' x l) {p : Prog} :
    ∀ {h h' : List Lock}, OkTo R h p h' → OkTo R' h p h' := by
  induction p with
  | nil => intro h h' o; exact o
  | cons a k ih =>
    intro h h' o
    cases a with
    | acq l => exact ⟨fun x hx => hR x l (o.1 x hx), ih o.2⟩
    | rel l => exact ⟨o.1, ih o.2⟩

theorem below_ne (x l : Lock) (h : Below x l) : x ≠ l := by
  intro e
  subst e
  exact Nat.lt_irrefl _ h

theorem ok_strgpStartStop1 (h : List Lock) (hh : ∀ x ∈ h, x = Lock.strgpTree) (s : Nat)
    (ps : List (Nat × List Nat)) : OkTo (· ≠ ·) h (strgpStartStop1 s ps) h := by
  have ne : ∀ x ∈ h, ∀ l, l ≠ Lock.strgpTree → x ≠ l := fun x hx l hl => by
    rw [hh x hx]; exact fun e => hl e.symm
  refine okTo_hold (fun x hx => ne x hx _ (by simp)) (okTo_hold ?_ (okTo_each fun p _ =>
    okTo_hold ?_ (okTo_each fun i _ => ?_)))
  · intro x hx
    rcases List.mem_cons.1 hx with e | hx
    · subst e; simp
    · exact ne x hx _ (by simp)
  · intro x hx
    rcases List.mem_cons.1 hx with e | hx
    · subst e; simp
    rcases List.mem_cons.1 hx with e | hx
    · subst e; simp
    · exact ne x hx _ (by simp)
  · have e : (Lock.prdcr p.1 :: Lock.prdcrTree :: Lock.strgp s :: h).erase (Lock.strgp s)
        = Lock.prdcr p.1 :: Lock.prdcrTree :: h := by simp
    refine ⟨by simp, ?_⟩
    rw [e]
    refine ⟨?_, ?_, by simp, ?_⟩
    · intro x hx
      rcases List.mem_cons.1 hx with e | hx
      · subst e; simp
      rcases List.mem_cons.1 hx with e | hx
      · subst e; simp
      · exact ne x hx _ (by simp)
    · intro x hx
      rcases List.mem_cons.1 hx with e | hx
      · subst e; simp
      rcases List.mem_cons.1 hx with e | hx
      · subst e; simp
      rcases List.mem_cons.1 hx with e | hx
      · subst e; simp
      · exact ne x hx _ (by simp)
    · have e2 : (Lock.strgp s :: Lock.set i :: Lock.prdcr p.1 :: Lock.prdcrTree :: h).erase
          (Lock.set i) = Lock.strgp s :: Lock.prdcr p.1 :: Lock.prdcrTree :: h := by
        simp
      rw [e2]
      exact (List.Perm.swap _ _ _).trans ((List.Perm.swap _ _ _).cons _)

theorem ok_code_tidy (r : Routine) (hr : Tidy r) : OkTo (· ≠ ·) [] (code r) [] := by
  by_cases ho : Orderly r
  · exact okTo_mono below_ne (ok_code r ho)
  · cases r <;> try exact absurd trivial ho
    case strgpStartStop s ps =>
      exact okTo_append (okTo_hold (by simp) okTo_nil) (ok_strgpStartStop1 [] (by simp) s ps)
    case startAll ps us ss =>
      have h1 : OkTo (· ≠ ·) [] (code (.startAll ps us [])) [] :=
        okTo_mono below_ne (ok_code _ (show ([] : List (Nat × List (Nat × List Nat))) = [] from rfl))
      have e : code (.startAll ps us ss) =
          (hold .prdcrTree (each ps fun p => hold (.prdcr p) [])
            ++ hold .updtrTree (each us fun u => updtrStart1 u.1 u.2))
          ++ hold .strgpTree (each ss fun s => strgpStartStop1 s.1 s.2) := rfl
      rw [e]
      refine okTo_append (h1 := []) (okTo_append (h1 := []) ?_ ?_) ?_
      · exact okTo_mono below_ne (ok_code (.prdcrEach ps) trivial)
      · exact okTo_mono below_ne (okTo_hold (by simp)
          (okTo_each fun u _ => ok_updtrStart1 _ (by simp [rank]) _ _))
      · exact okTo_hold (by simp) (okTo_each fun s _ => ok_strgpStartStop1 _ (by simp) _ _)
    case peerRequest p r => exact absurd hr ho
    case closeStores ss => exact hr.elim

/-- Only thread `t` has something to do. -/
def Only (t : Nat) (s : State) : Prop := ∀ u, u ≠ t → (s u).rest = []

theorem only_step {t : Nat} {s s' : State} (h : Only t s) (hs : Step (fun _ => False) s s') :
    Only t s' := by
  cases hs with
  | start _ _ ha => exact ha.elim
  | acq v l k hr _ =>
    have e : v = t := by
      by_cases e : v = t
      · exact e
      · rw [h v e] at hr; cases hr
    subst e
    intro u hu
    rw [put_other s _ hu]; exact h u hu
  | rel v l k hr =>
    have e : v = t := by
      by_cases e : v = t
      · exact e
      · rw [h v e] at hr; cases hr
    subst e
    intro u hu
    rw [put_other s _ hu]; exact h u hu

theorem only_no_deadlock {t : Nat} {s : State} (i : Inv (· ≠ ·) s) (h : Only t s) : ¬ Deadlock s := by
  rintro ⟨D, hD, hw⟩
  have all : ∀ u ∈ D, u = t := fun u hu => by
    obtain ⟨_, _, l, k, hr, _⟩ := hw u hu
    by_cases e : u = t
    · exact e
    · rw [h u e] at hr; cases hr
  rcases D with _ | ⟨a, D⟩
  · exact hD rfl
  have ha := all a (by simp)
  obtain ⟨u, hu, l, k, hr, hl⟩ := hw a (by simp)
  have hu := all u hu
  rw [hu, ← ha] at hl
  have o := i.ok a
  rw [hr] at o
  exact o.1 l hl rfl

/-! ### Runs without end -/

theorem step_left {s s' : State} (hs : Step (fun _ => False) s s') :
    ∃ t, (s' t).rest.length < (s t).rest.length ∧ ∀ u, u ≠ t → s' u = s u := by
  cases hs with
  | start _ _ ha => exact ha.elim
  | acq t l k hr _ =>
    exact ⟨t, by rw [put_same, hr]; simp, fun u hu => put_other s _ hu⟩
  | rel t l k hr =>
    exact ⟨t, by rw [put_same, hr]; simp, fun u hu => put_other s _ hu⟩

theorem no_endless {n : Nat} : ∀ (m : Nat) (f : Nat → State), left (f 0) n = m →
    (∀ t, n ≤ t → (f 0 t).rest = []) → (∀ k, Step (fun _ => False) (f k) (f (k + 1))) → False := by
  intro m
  induction m using Nat.strongRecOn with
  | ind m ih =>
    intro f hm hn hs
    obtain ⟨t, hl, ho⟩ := step_left (hs 0)
    have htn : t < n := by
      rcases Nat.lt_or_ge t n with a | a
      · exact a
      · rw [hn t a] at hl; simp at hl
    refine ih (left (f 1) n) ?_ (fun k => f (k + 1)) rfl ?_ (fun k => hs (k + 1))
    · have := left_lt hl ho n htn
      simp at this ⊢; omega
    · intro u hu
      show (f (0 + 1) u).rest = []
      rw [ho u (by omega)]
      exact hn u hu

theorem inv_finish {R : Lock → Lock → Prop} {s s' : State} (i : Inv R s) (h : Finish s s') :
    Inv R s' := by
  induction h with
  | here => exact i
  | step hs _ ih => exact ih (inv_quiet i hs)

/-! ### Runs that are computed -/

/-- The state whose first threads are those of the list. -/
def ofList (l : List Thr) : State := fun t => l.getD t ⟨[], []⟩

/-- What thread `t` does next: begin a routine, or its next operation. -/
def act (l : List Thr) : Nat × Option Routine → Option (List Thr)
  | (t, some r) =>
    if t < l.length ∧ (l.getD t ⟨[], []⟩).rest.isEmpty then
      some (l.set t ⟨(l.getD t ⟨[], []⟩).held, code r⟩) else none
  | (t, none) =>
    if t < l.length then
      match (l.getD t ⟨[], []⟩).rest with
      | [] => none
      | .acq k :: rest =>
        if l.all (fun x => !x.held.contains k) then
          some (l.set t ⟨k :: (l.getD t ⟨[], []⟩).held, rest⟩) else none
      | .rel k :: rest => some (l.set t ⟨(l.getD t ⟨[], []⟩).held.erase k, rest⟩)
    else none

/-- Several of them. -/
def acts (l : List Thr) : List (Nat × Option Routine) → Option (List Thr)
  | [] => some l
  | a :: as => match act l a with
    | none => none
    | some l' => acts l' as

theorem ofList_set (l : List Thr) (t : Nat) (ht : t < l.length) (x : Thr) :
    ofList (l.set t x) = (ofList l).put t x := by
  funext u
  by_cases e : u = t
  · subst e
    simp [ofList, State.put, ht]
  · simp [ofList, State.put, e, List.getD_eq_getElem?_getD, List.getElem?_set_ne (Ne.symm e)]

theorem act_step {A : Routine → Prop} {l l' : List Thr} {a : Nat × Option Routine}
    (hA : ∀ r, a.2 = some r → A r) (h : act l a = some l') : Step A (ofList l) (ofList l') := by
  obtain ⟨t, r⟩ := a
  cases r with
  | some r =>
    simp only [act] at h
    split at h
    · rename_i c
      cases h
      rw [ofList_set l t c.1]
      exact Step.start _ t r (hA r rfl) (by simpa [ofList] using c.2)
    · cases h
  | none =>
    simp only [act] at h
    split at h
    · rename_i c
      split at h
      · cases h
      · rename_i k rest hr
        split at h
        · rename_i ha
          cases h
          rw [ofList_set l t c]
          refine Step.acq _ t k rest hr ?_
          intro u hu
          by_cases hul : u < l.length
          · have := List.all_eq_true.1 ha (l.getD u ⟨[], []⟩) (by
              rw [List.getD_eq_getElem?_getD, List.getElem?_eq_getElem hul]
              exact List.getElem_mem hul)
            simp [ofList] at hu this
            exact this hu
          · have e : ofList l u = ⟨[], []⟩ := by
              simp [ofList, List.getD_eq_getElem?_getD, List.getElem?_eq_none (Nat.le_of_not_lt hul)]
            rw [e] at hu
            cases hu
        · cases h
      · rename_i k rest hr
        cases h
        rw [ofList_set l t c]
        exact Step.rel _ t k rest hr
    · cases h

theorem acts_reach {A : Routine → Prop} : ∀ {as : List (Nat × Option Routine)} {l l' : List Thr},
    (∀ a ∈ as, ∀ r, a.2 = some r → A r) → Reach A (ofList l) → acts l as = some l' →
    Reach A (ofList l') := by
  intro as
  induction as with
  | nil => intro l l' _ h e; cases e; exact h
  | cons a as ih =>
    intro l l' hA h e
    simp only [acts] at e
    split at e
    · cases e
    · rename_i l1 hl
      exact ih (fun b hb => hA b (List.mem_cons_of_mem _ hb))
        (Reach.step h (act_step (hA a List.mem_cons_self) hl)) e

theorem reach_idle {A : Routine → Prop} (n : Nat) : Reach A (ofList (List.replicate n ⟨[], []⟩)) := by
  have e : ofList (List.replicate n ⟨[], []⟩) = init := by
    funext t
    by_cases h : t < n
    · simp [ofList, init, List.getD_eq_getElem?_getD, h]
    · simp [ofList, init, List.getD_eq_getElem?_getD, h]
  rw [e]
  exact Reach.init

end Verif.LockOrder
