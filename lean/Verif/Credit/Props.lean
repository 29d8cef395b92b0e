import Verif.Credit.Model
import Verif.Common.ListLemmas

/-!
# Properties of send credits (C14) and rate credits (C15)
-/

namespace Verif.Credit

/-! ## The specification of part 1: sums over what the calls reported -/

/-- bytes granted -/
def grantedSum : List Out → Nat
  | [] => 0
  | .granted n :: l => n + grantedSum l
  | _ :: l => grantedSum l

/-- bytes credited back -/
def releasedSum : List Out → Nat
  | [] => 0
  | .released n :: l => n + releasedSum l
  | _ :: l => releasedSum l

/-- bytes for which a release has been started in a history (newest event first) -/
def relStarted : List Ev → Nat
  | [] => 0
  | .relLoad _ n :: l => n + relStarted l
  | _ :: l => relStarted l

/-- Histories: any interleaving of any number of threads, where releases are only started for bytes that
were granted and not yet released (the peer returns credit only for what it received).  The history is
newest first. -/
inductive Reach (L : Nat) : List Ev → St → Prop where
  | init : Reach L [] (init L)
  | step {es s s' e} : Reach L es s → step s e = some s' →
      (∀ t n, e = .relLoad t n → relStarted es + n ≤ grantedSum s.log) → Reach L (e :: es) s'

theorem sum_erase {p : Nat × Nat} : ∀ {l : List (Nat × Nat)}, p ∈ l →
    ((l.erase p).map (·.2)).sum + p.2 = (l.map (·.2)).sum := by
  intro l
  induction l with
  | nil => intro h; cases h
  | cons q l ih =>
    intro h
    rw [List.erase_cons]
    by_cases hq : q = p
    · subst hq; simp; omega
    · have hb : ¬ ((q == p) = true) := by simpa using hq
      rw [if_neg hb]
      rcases List.mem_cons.1 h with h | h
      · exact absurd h.symm hq
      · have := ih h
        simp only [List.map_cons, List.sum_cons]; omega

structure Inv (L : Nat) (es : List Ev) (s : St) : Prop where
  cons : s.credit + grantedSum s.log = L + releasedSum s.log
  pend : releasedSum s.log + (s.rel.map (·.2)).sum = relStarted es
  legit : relStarted es ≤ grantedSum s.log
  acq : ∀ t n v0, s.acq t = some (n, v0) → n ≤ v0

theorem inv_acqCheck {L : Nat} {es : List Ev} {s : St} {t n : Nat} {e : Ev} (hi : Inv L es s)
    (he : relStarted (e :: es) = relStarted es) : Inv L (e :: es) (acqCheck s t n s.credit) := by
  unfold acqCheck
  split
  · refine ⟨hi.cons, by rw [he]; exact hi.pend, by rw [he]; exact hi.legit, ?_⟩
    intro u m v hu
    simp only [set] at hu
    split at hu
    · cases hu
    · exact hi.acq _ _ _ hu
  · refine ⟨hi.cons, by rw [he]; exact hi.pend, by rw [he]; exact hi.legit, ?_⟩
    intro u m v hu
    simp only [set] at hu
    split at hu
    · injection hu with hu; injection hu with h1 h2; omega
    · exact hi.acq _ _ _ hu

theorem inv_step {L : Nat} {es : List Ev} {s s' : St} {e : Ev} (hL : L < unlimited) (hi : Inv L es s)
    (hs : step s e = some s') (hg : ∀ t n, e = .relLoad t n → relStarted es + n ≤ grantedSum s.log) :
    Inv L (e :: es) s' := by
  have hcr : s.credit ≠ unlimited := by
    have h1 := hi.cons; have h2 := hi.pend; have h3 := hi.legit; omega
  cases e with
  | acqLoad t n =>
    simp only [step] at hs
    split at hs
    · injection hs with hs; subst hs
      exact inv_acqCheck hi rfl
    · cases hs
  | acqCas t =>
    simp only [step] at hs
    split at hs
    · cases hs
    · rename_i n v0 ha
      split at hs
      · rename_i hc
        injection hs with hs; subst hs
        have hle := hi.acq _ _ _ ha
        have h1 := hi.cons
        have h3 := hi.legit
        refine ⟨?_, hi.pend, ?_, ?_⟩
        · simp only [grantedSum, releasedSum]; omega
        · simp only [grantedSum, relStarted]; omega
        · intro u m v hu
          simp only [set] at hu
          split at hu
          · cases hu
          · exact hi.acq _ _ _ hu
      · injection hs with hs; subst hs
        exact inv_acqCheck hi rfl
  | relLoad t n =>
    simp only [step] at hs
    split at hs
    · injection hs with hs; subst hs
      have := hg t n rfl
      have h2 := hi.pend
      refine ⟨hi.cons, ?_, ?_, hi.acq⟩
      · simp only [relStarted, List.map_cons, List.sum_cons]; omega
      · simp only [relStarted]; omega
    · cases hs
  | relAdd t =>
    simp only [step] at hs
    split at hs
    · cases hs
    · rename_i p hf
      injection hs with hs; subst hs
      have hm := List.mem_of_find?_eq_some hf
      have := sum_erase hm
      have h1 := hi.cons
      have h2 := hi.pend
      refine ⟨?_, ?_, hi.legit, hi.acq⟩
      · simp only [grantedSum, releasedSum]; omega
      · simp only [releasedSum, relStarted]; omega

theorem reach_inv {L : Nat} {es : List Ev} {s : St} (hL : L < unlimited) (h : Reach L es s) :
    Inv L es s := by
  induction h with
  | init => exact ⟨rfl, rfl, Nat.le_refl _, fun _ _ _ h => by cases h⟩
  | step _ hs hg ih => exact inv_step hL ih hs hg

/-- **C14 (conservation).** With limit `L`, in every interleaving: the credit in hand plus the bytes granted
and not yet credited back is exactly `L`; so outstanding bytes never exceed `L`. -/
theorem credit_conservation (L : Nat) (es : List Ev) (s : St) (hL : L < unlimited) (h : Reach L es s) :
    s.credit + (grantedSum s.log - releasedSum s.log) = L ∧
    releasedSum s.log ≤ grantedSum s.log ∧ grantedSum s.log ≤ L + releasedSum s.log := by
  have hi := reach_inv hL h
  have h1 := hi.cons
  have h2 := hi.pend
  have h3 := hi.legit
  omega

/-- **C14 (refusal).** A call is refused only at a moment when the credit in hand is less than it asks for,
and a call that completes the swap had enough. -/
theorem credit_refused_only_when_short (L : Nat) (es : List Ev) (s s' : St) (e : Ev) (n : Nat)
    (hL : L < unlimited) (h : Reach L es s) (hs : step s e = some s') :
    (s'.log = .refused n :: s.log → s.credit < n ∧ s'.credit = s.credit) ∧
    (s'.log = .granted n :: s.log → n ≤ s.credit ∧ s'.credit = s.credit - n) := by
  have hi := reach_inv hL h
  have hcr : s.credit ≠ unlimited := by
    have h1 := hi.cons; have h2 := hi.pend; have h3 := hi.legit; omega
  have hne : ∀ (o : Out) (l : List Out), l ≠ o :: l := by
    intro o l hc
    have := congrArg List.length hc
    simp at this
  have hcheck : ∀ t m, ((acqCheck s t m s.credit).log = .refused n :: s.log →
      s.credit < n ∧ (acqCheck s t m s.credit).credit = s.credit) ∧
      ((acqCheck s t m s.credit).log = .granted n :: s.log →
        n ≤ s.credit ∧ (acqCheck s t m s.credit).credit = s.credit - n) := by
    intro t m
    unfold acqCheck
    split
    · rename_i hlt
      constructor
      · intro hl
        injection hl with hl _; injection hl with hl; subst hl
        exact ⟨hlt, rfl⟩
      · intro hl; injection hl with hl _; cases hl
    · exact ⟨fun hl => absurd hl (hne _ _), fun hl => absurd hl (hne _ _)⟩
  cases e with
  | acqLoad t m =>
    simp only [step] at hs
    split at hs
    · injection hs with hs; subst hs
      exact hcheck t m
    · cases hs
  | acqCas t =>
    simp only [step] at hs
    split at hs
    · cases hs
    · rename_i m v0 ha
      split at hs
      · rename_i hc
        injection hs with hs; subst hs
        have hle := hi.acq _ _ _ ha
        constructor
        · intro hl; injection hl with hl _; cases hl
        · intro hl
          injection hl with hl _; injection hl with hl; subst hl
          rw [hc]; exact ⟨hle, rfl⟩
      · injection hs with hs; subst hs
        exact hcheck t m
  | relLoad t m =>
    simp only [step] at hs
    split at hs
    · injection hs with hs; subst hs
      exact ⟨fun hl => absurd hl (hne _ _), fun hl => absurd hl (hne _ _)⟩
    · cases hs
  | relAdd t =>
    simp only [step] at hs
    split at hs
    · cases hs
    · injection hs with hs; subst hs
      exact ⟨fun hl => (by injection hl with hl _; cases hl), fun hl => (by injection hl with hl _; cases hl)⟩

/-- any interleaving, no condition on releases -/
inductive ReachAny (L : Nat) : St → Prop where
  | init : ReachAny L (init L)
  | step {s s' e} : ReachAny L s → step s e = some s' → ReachAny L s'

/-- **C14 (unlimited).** On an unlimited endpoint no call is ever refused and the credit never changes. -/
theorem credit_unlimited_never_refused (s : St) (h : ReachAny unlimited s) :
    s.credit = unlimited ∧ ∀ n, Out.refused n ∉ s.log := by
  suffices h2 : s.credit = unlimited ∧ (∀ n, Out.refused n ∉ s.log) ∧ (∀ t, s.acq t = none) ∧ s.rel = [] from
    ⟨h2.1, h2.2.1⟩
  induction h with
  | init => exact ⟨rfl, by simp [init], fun _ => rfl, rfl⟩
  | step _ hs ih =>
    rename_i s s' e _
    obtain ⟨h1, h2, h3, h4⟩ := ih
    cases e with
    | acqLoad t n =>
      simp only [step, h3, h4, h1] at hs
      simp at hs
      subst hs
      exact ⟨rfl, by simpa using h2, h3, rfl⟩
    | acqCas t => simp [step, h3] at hs
    | relLoad t n =>
      simp only [step, h3, h4, h1] at hs
      simp at hs
      subst hs
      exact ⟨rfl, by simpa using h2, h3, rfl⟩
    | relAdd t => simp [step, h4] at hs

/-- **C14 (progress).** A thread inside `__credit_acquire` that is left alone finishes within two more
steps, from any state the others left behind. -/
theorem credit_acquire_finishes_alone (s : St) (t n v0 : Nat) (h : s.acq t = some (n, v0)) :
    ∃ s1, step s (.acqCas t) = some s1 ∧
      (s1.acq t = none ∨ ∃ s2, step s1 (.acqCas t) = some s2 ∧ s2.acq t = none) := by
  by_cases hc : s.credit = v0
  · refine ⟨_, by simp only [step, h, hc, if_true]; rfl, Or.inl ?_⟩
    simp [set]
  · refine ⟨acqCheck s t n s.credit, by simp only [step, h, hc, if_false], ?_⟩
    by_cases hlt : s.credit < n
    · left; simp [acqCheck, hlt, set]
    · right
      have ha : (acqCheck s t n s.credit).acq t = some (n, s.credit) := by simp [acqCheck, hlt, set]
      have hcr : (acqCheck s t n s.credit).credit = s.credit := by simp [acqCheck, hlt]
      refine ⟨_, by simp only [step, ha, hcr, if_true]; rfl, ?_⟩
      simp [set]

/-- Limit 10; threads 1 and 2 both load 10; thread 2 takes 7; thread 1's swap fails and its retry is refused;
the 7 bytes come back and thread 1 tries again. -/
example : ∃ es s, Reach 10 es s ∧ s.log = [.granted 6, .released 7, .refused 6, .granted 7] ∧ s.credit = 4 := by
  refine ⟨_, _, Reach.step (e := .acqCas 1) (Reach.step (e := .acqLoad 1 6) (Reach.step (e := .relAdd 3)
    (Reach.step (e := .relLoad 3 7) (Reach.step (e := .acqCas 1) (Reach.step (e := .acqCas 2)
    (Reach.step (e := .acqLoad 2 7) (Reach.step (e := .acqLoad 1 6) (Reach.init) rfl ?_) rfl ?_) rfl ?_) rfl ?_)
    rfl ?_) rfl ?_) rfl ?_) rfl ?_, rfl, rfl⟩
  all_goals (intro t n h; cases h)
  decide

/-! ## Part 2: end to end -/

/-- **C14 (end to end).** Whatever the order of sends (granted, refused by the rate limit, or failing in the
transport), deliveries and credit returns: credit in hand + bytes not yet processed by the peer + credit on
the way back is always the limit.  So the peer never holds more than `L` unprocessed bytes, and no credit is
lost: when nothing is in flight the sender has all of it again. -/
theorem link_conservation (L : Nat) (hL : L < unlimited) (es : List LEv) :
    (lrun L es).credit + (lrun L es).wire.sum + (lrun L es).back.sum = L := by
  have key : ∀ (es : List LEv) (l : Link), l.credit + l.wire.sum + l.back.sum = L →
      (es.foldl lstep l).credit + (es.foldl lstep l).wire.sum + (es.foldl lstep l).back.sum = L := by
    intro es
    induction es with
    | nil => intro l h; exact h
    | cons e es ih =>
      intro l h
      apply ih
      cases e with
      | send n r s =>
        simp only [lstep, send, acquire]
        have h0 : l.credit ≠ unlimited := by omega
        rw [if_neg h0]
        by_cases hlt : l.credit < n
        · rw [if_pos hlt]; exact h
        · rw [if_neg hlt]
          have h1 : l.credit - n ≠ unlimited := by omega
          simp only [release, h1, if_false]
          cases r <;> cases s <;> simp <;> omega
      | recv =>
        obtain ⟨c, w, b⟩ := l
        cases w with
        | nil => exact h
        | cons n w => simp [lstep] at h ⊢; omega
      | deposit =>
        obtain ⟨c, w, b⟩ := l
        cases b with
        | nil => exact h
        | cons n b =>
          simp only [List.sum_cons] at h
          have h0 : c ≠ unlimited := by omega
          simp only [lstep, release, h0, if_false]
          omega
  exact key es _ (by simp)

/-- the peer never holds more than `L` unprocessed bytes -/
theorem link_bounded (L : Nat) (hL : L < unlimited) (es : List LEv) : (lrun L es).wire.sum ≤ L := by
  have := link_conservation L hL es; omega

/-- a send is refused for lack of credit exactly when fewer than `n` bytes of the limit are left; a
refused or failed send changes nothing -/
theorem link_send_result (L : Nat) (hL : L < unlimited) (es : List LEv) (n : Nat) (r s : Bool) :
    ((send (lrun L es) n r s).2 = true ↔
      (lrun L es).wire.sum + (lrun L es).back.sum + n ≤ L ∧ r = true ∧ s = true) ∧
    ((send (lrun L es) n r s).2 = false → (send (lrun L es) n r s).1 = lrun L es) := by
  have hc := link_conservation L hL es
  generalize hl : lrun L es = l at *
  obtain ⟨c, w, b⟩ := l
  simp only at hc
  have h0 : c ≠ unlimited := by omega
  simp only [send, acquire, h0, if_false]
  by_cases hlt : c < n
  · simp only [hlt, if_true]
    constructor
    · constructor
      · intro h; cases h
      · intro h; omega
    · intro _; trivial
  · simp only [hlt, if_false]
    have h1 : c - n ≠ unlimited := by omega
    have h2 : c - n + n = c := by omega
    simp only [release, h1, if_false, h2]
    cases r <;> cases s <;> simp
    omega

example : lrun 100 [.send 60 true true, .send 60 true true, .recv, .deposit, .send 60 true true] =
    ⟨40, [60], []⟩ := by decide

/-- **Defect.** A stream publish that fails in the transport keeps the credit it acquired: after it, credit in
hand plus bytes in flight is less than the limit for good (ldms_stream.c:216-245). -/
theorem stream_publish_failure_leaks_credit_defect :
    ∃ (L n : Nat) (es : List LEv), L < unlimited ∧ (lrun L es).wire = [] ∧ (lrun L es).back = [] ∧
      (publishFail (lrun L es) n).credit + n = L ∧ 0 < n :=
  ⟨100, 30, [.send 60 true true, .recv, .deposit], by decide, by decide, by decide, by decide, by decide⟩

/-! ## Part 3: rate credits -/

/-- closed form of an undisturbed acquire -/
theorem racquire_eq (c : Rate) (now n : Nat) :
    racquire c now n =
      if c.rate = unlimited then (c, .granted n now)
      else if c.sec < now then
        if c.rate < n then ({ c with credit := c.rate, sec := now }, .refused n)
        else ({ c with credit := c.rate - n, sec := now }, .granted n now)
      else if c.credit < n then (c, .refused n)
        else ({ c with credit := c.credit - n }, .granted n now) := by
  obtain ⟨rate, credit, sec⟩ := c
  simp only [racquire, ralone, rstep]
  by_cases h1 : rate = unlimited
  · simp [h1]
  · by_cases h2 : sec < now
    · by_cases h3 : rate < n <;> simp [h1, h2, h3]
    · by_cases h3 : credit < n <;> simp [h1, h2, h3]

/-- calls made one after the other: (clock second, acquire or release, bytes) -/
inductive REv where
  | acq (now n : Nat)
  | rel (now n : Nat)
  deriving Repr, DecidableEq

/-- one call; the second component is the net number of bytes granted in second `s` so far -/
def rcall (s : Nat) (p : Rate × Nat × Nat) : REv → Rate × Nat × Nat
  | .acq now n => match racquire p.1 now n with
    | (c, .granted m t) => (c, if t = s then p.2.1 + m else p.2.1, p.2.2)
    | (c, _) => (c, p.2)
  | .rel now n => (rrelease p.1 now n, p.2.1, if now = s then p.2.2 + n else p.2.2)

/-- after a history: the credit, the bytes granted in second `s` and the bytes released in second `s` -/
def rcalls (R s : Nat) (es : List REv) : Rate × Nat × Nat := es.foldl (rcall s) (⟨R, R, 0⟩, 0, 0)

/-- the clock second of a call -/
def REv.now : REv → Nat
  | .acq t _ => t
  | .rel t _ => t

/-- the clock does not go backwards -/
def Monotone (es : List REv) : Prop := es.Pairwise (fun a b => a.now ≤ b.now)

/-- bytes are released in the second they were granted in: in every prefix and every second, no more is
released than was granted -/
def SameSecond (R : Nat) (es : List REv) : Prop :=
  ∀ p, p <+: es → ∀ s, (rcalls R s p).2.2 ≤ (rcalls R s p).2.1

theorem rcall_fst (s s' : Nat) (c : Rate) (p q : Nat × Nat) (e : REv) :
    (rcall s (c, p) e).1 = (rcall s' (c, q) e).1 := by
  cases e with
  | acq now n =>
    simp only [rcall]
    generalize racquire c now n = r
    obtain ⟨c', r⟩ := r
    cases r <;> rfl
  | rel now n => rfl

theorem rcalls_snoc (R s : Nat) (es : List REv) (e : REv) :
    rcalls R s (es ++ [e]) = rcall s (rcalls R s es) e := by simp [rcalls]

structure RInv (R s : Nat) (es : List REv) : Prop where
  rate : (rcalls R s es).1.rate = R
  sec : (rcalls R s es).1.sec = 0 ∨ ∃ e ∈ es, (rcalls R s es).1.sec ≤ e.now
  bound : (rcalls R s es).2.1 ≤ R + (rcalls R s es).2.2
  here : (rcalls R s es).1.sec = s →
    (rcalls R s es).1.credit + (rcalls R s es).2.1 = R + (rcalls R s es).2.2
  future : (rcalls R s es).1.sec < s → (rcalls R s es).2.1 = 0

theorem rinv (R s : Nat) (hR : R ≠ unlimited) (es : List REv) (hm : Monotone es) (hs : SameSecond R es) :
    RInv R s es := by
  induction es using snoc_induction with
  | nil => exact ⟨rfl, Or.inl rfl, by simp [rcalls], fun _ => rfl, fun _ => rfl⟩
  | snoc es e ih =>
    have hm' : Monotone es := (List.pairwise_append.1 hm).1
    have hle : ∀ x ∈ es, x.now ≤ e.now := fun x hx => (List.pairwise_append.1 hm).2.2 x hx e (by simp)
    have hs' : SameSecond R es := fun p hp => hs p (hp.trans (List.prefix_append _ _))
    have hi := ih hm' hs'
    have hss := hs' es (List.prefix_refl _) s
    have hss' := hs _ (List.prefix_refl _) s
    rw [rcalls_snoc] at hss'
    have hsec : (rcalls R s es).1.sec ≤ e.now := by
      rcases hi.sec with h | ⟨x, hx, h⟩
      · omega
      · exact Nat.le_trans h (hle x hx)
    have h1 := hi.rate
    have h3 := hi.bound
    have h4 := hi.here
    have h5 := hi.future
    rcases hq : rcalls R s es with ⟨⟨rate, credit, sec⟩, g, rl⟩
    rw [hq] at h1 h3 h4 h5 hsec hss hss'
    simp only at h1 h3 h4 h5 hsec hss
    subst h1
    cases e with
    | acq now n =>
      have hsec' : sec ≤ now := hsec
      have he : rcalls rate s (es ++ [REv.acq now n]) =
          if sec < now then
            if rate < n then (⟨rate, rate, now⟩, g, rl)
            else (⟨rate, rate - n, now⟩, (if now = s then g + n else g), rl)
          else if credit < n then (⟨rate, credit, sec⟩, g, rl)
            else (⟨rate, credit - n, sec⟩, (if now = s then g + n else g), rl) := by
        rw [rcalls_snoc, hq]
        simp only [rcall, racquire_eq, hR, if_false]
        by_cases a1 : sec < now
        · by_cases a2 : rate < n <;> simp [a1, a2]
        · by_cases a2 : credit < n <;> simp [a1, a2]
      by_cases a1 : sec < now
      · by_cases a2 : rate < n
        · rw [if_pos a1, if_pos a2] at he
          refine ⟨by rw [he], Or.inr ⟨.acq _ n, List.mem_append_right _ List.mem_cons_self, by rw [he]; exact Nat.le_refl _⟩, by rw [he]; exact h3, ?_, ?_⟩
          · rw [he]; simp only; intro hns; subst hns
            have := h5 a1; omega
          · rw [he]; simp only; intro hns; exact h5 (by omega)
        · rw [if_pos a1, if_neg a2] at he
          refine ⟨by rw [he], Or.inr ⟨.acq _ n, List.mem_append_right _ List.mem_cons_self, by rw [he]; exact Nat.le_refl _⟩, ?_, ?_, ?_⟩
          · rw [he]; simp only; split
            · rename_i hns; have := h5 (by omega); omega
            · exact h3
          · rw [he]; simp only; intro hns
            rw [if_pos hns]; have := h5 (by omega); omega
          · rw [he]; simp only; intro hns
            rw [if_neg (by omega)]; exact h5 (by omega)
      · have a0 : sec = now := by omega
        subst a0
        by_cases a2 : credit < n
        · rw [if_neg a1, if_pos a2] at he
          exact ⟨by rw [he], Or.inr ⟨.acq _ n, List.mem_append_right _ List.mem_cons_self, by rw [he]; exact Nat.le_refl _⟩, by rw [he]; exact h3,
            by rw [he]; exact h4, by rw [he]; exact h5⟩
        · rw [if_neg a1, if_neg a2] at he
          refine ⟨by rw [he], Or.inr ⟨.acq _ n, List.mem_append_right _ List.mem_cons_self, by rw [he]; exact Nat.le_refl _⟩, ?_, ?_, ?_⟩
          · rw [he]; simp only; split
            · rename_i hns; have := h4 hns; omega
            · exact h3
          · rw [he]; simp only; intro hns
            rw [if_pos hns]; have := h4 hns; omega
          · rw [he]; simp only; intro hns
            rw [if_neg (by omega)]; exact h5 hns
    | rel now n =>
      have hsec' : sec ≤ now := hsec
      have he : rcalls rate s (es ++ [REv.rel now n]) =
          ((if sec = now then ⟨rate, credit + n, sec⟩ else ⟨rate, credit, sec⟩), g,
            if now = s then rl + n else rl) := by
        rw [rcalls_snoc, hq]
        simp only [rcall, rrelease, hR, if_false]
      simp only [rcall] at hss'
      by_cases a1 : sec = now
      · subst a1
        simp only [if_true] at he
        refine ⟨by rw [he], Or.inr ⟨.rel _ n, List.mem_append_right _ List.mem_cons_self, by rw [he]; exact Nat.le_refl _⟩, ?_, ?_, ?_⟩
        · rw [he]; simp only; split <;> omega
        · rw [he]; simp only; intro hns
          rw [if_pos hns]; have := h4 hns; omega
        · rw [he]; simp only; exact h5
      · simp only [a1, if_false] at he
        refine ⟨by rw [he], Or.inr ⟨.rel _ n, List.mem_append_right _ List.mem_cons_self, by rw [he]; exact hsec'⟩, ?_, ?_, ?_⟩
        · rw [he]; simp only; split <;> omega
        · rw [he]; simp only; intro hns
          rw [if_neg (by omega)]; exact h4 hns
        · rw [he]; simp only; exact h5

/-- **C15, partial.** Calls made one after the other under a clock that does not go backwards, where bytes
are released only in the second they were granted in: in every clock second the bytes granted, less the bytes
given back, are at most the rate.
Missing: interleaved calls, releases in a later second and clocks set back, for each of which the bound is
false (`rate_interleaving_defect`, `rate_release_defect`, `rate_clock_back_defect`). -/
theorem rate_bound_partial (R s : Nat) (es : List REv) (hR : R ≠ unlimited) (hm : Monotone es)
    (hs : SameSecond R es) : (rcalls R s es).2.1 ≤ R + (rcalls R s es).2.2 :=
  (rinv R s hR es hm hs).bound

/-- without releases the condition on them is met by every history -/
theorem sameSecond_of_no_release (R : Nat) (es : List REv) (h : ∀ e ∈ es, ∃ t n, e = .acq t n) :
    SameSecond R es := by
  intro p hp s
  have : ∀ (p : List REv) (q : Rate × Nat × Nat), (∀ e ∈ p, ∃ t n, e = .acq t n) → q.2.2 = 0 →
      (p.foldl (rcall s) q).2.2 = 0 := by
    intro p
    induction p with
    | nil => intro q _ h; exact h
    | cons e p ih =>
      intro q he hq
      apply ih _ (fun x hx => he x (List.mem_cons_of_mem _ hx))
      obtain ⟨t, n, rfl⟩ := he e List.mem_cons_self
      simp only [rcall]
      generalize racquire q.1 t n = r
      obtain ⟨c, r⟩ := r
      cases r <;> simp [hq]
  have h0 := this p (⟨R, R, 0⟩, 0, 0) (fun e he => h e (hp.subset he)) rfl
  show (p.foldl (rcall s) (⟨R, R, 0⟩, 0, 0)).2.2 ≤ _
  omega

/-- **C15 for sends, partial** (no releases happen on the send path): at most `R` bytes are granted in any
clock second. -/
theorem rate_sends_bounded_partial (R s : Nat) (es : List REv) (hR : R ≠ unlimited) (hm : Monotone es)
    (h : ∀ e ∈ es, ∃ t n, e = .acq t n) : (rcalls R s es).2.1 ≤ R := by
  have hb := rate_bound_partial R s es hR hm (sameSecond_of_no_release R es h)
  have : (rcalls R s es).2.2 = 0 := by
    have : ∀ (p : List REv) (q : Rate × Nat × Nat), (∀ e ∈ p, ∃ t n, e = .acq t n) → q.2.2 = 0 →
        (p.foldl (rcall s) q).2.2 = 0 := by
      intro p
      induction p with
      | nil => intro q _ h; exact h
      | cons e p ih =>
        intro q he hq
        apply ih _ (fun x hx => he x (List.mem_cons_of_mem _ hx))
        obtain ⟨t, n, rfl⟩ := he e List.mem_cons_self
        simp only [rcall]
        generalize racquire q.1 t n = r
        obtain ⟨c, r⟩ := r
        cases r <;> simp [hq]
    exact this es _ h rfl
  omega

/-- an undisturbed call is refused exactly when what is left in this second is less than asked for -/
theorem rate_refused_iff (c : Rate) (now n : Nat) (hR : c.rate ≠ unlimited) :
    (racquire c now n).2 = .refused n ↔ (if c.sec < now then c.rate else c.credit) < n := by
  rw [racquire_eq, if_neg hR]
  by_cases h1 : c.sec < now
  · by_cases h2 : c.rate < n <;> simp [h1, h2]
  · by_cases h2 : c.credit < n <;> simp [h1, h2]

/-- an unlimited endpoint is never refused -/
theorem rate_unlimited (c : Rate) (now n : Nat) (hR : c.rate = unlimited) :
    racquire c now n = (c, .granted n now) := by rw [racquire_eq, if_pos hR]

example : Monotone [.acq 5 60, .acq 5 60, .rel 5 60, .acq 6 100] := by
  unfold Monotone; decide
example : (rcalls 100 5 [.acq 5 60, .acq 5 60, .rel 5 60, .acq 6 100]).2 = (60, 60) := by decide

/-- **Defect (interleaving).** Rate 10, exhausted in second 1.  In second 2 thread 1 has loaded the old second
and a zero credit when thread 0 resets the credit and takes all 10 bytes, bringing the credit back to zero;
thread 1's swap then succeeds and resets the credit a second time, and 10 more bytes are granted. -/
theorem rate_interleaving_defect :
    ∃ (sched : List (Nat × Nat)), (sched.map (·.2)).Pairwise (· ≤ ·) ∧
      (sched.foldl rsys ⟨⟨10, 0, 1⟩, [.again 10, .again 10], []⟩).grants = [(10, 2), (10, 2)] :=
  ⟨[(1, 2), (1, 2), (1, 2), (0, 2), (0, 2), (0, 2), (0, 2), (0, 2), (0, 2), (1, 2), (1, 2), (1, 2), (1, 2),
    (1, 2), (1, 2), (1, 2)], by decide, by decide⟩

/-- the starting state of `rate_interleaving_defect` is reached by one acquire of 10 in second 1 -/
example : (racquire ⟨10, 10, 0⟩ 1 10).1 = ⟨10, 0, 1⟩ := by decide

/-- **Defect (late release).** Rate 10: 10 bytes are granted in second 1; in second 2 a byte is granted and
then the 10 bytes of second 1 are given back, so 20 bytes are granted in second 2. -/
theorem rate_release_defect :
    ∃ es : List REv, Monotone es ∧ (rcalls 10 2 es).2.1 = 20 :=
  ⟨[.acq 1 10, .acq 2 1, .rel 2 10, .acq 2 19], by unfold Monotone; decide, by decide⟩

/-- **Defect (clock set back).** Rate 10: 10 bytes in second 5, a reset in second 6, and after the clock is set
back 9 more in second 5. -/
theorem rate_clock_back_defect :
    ∃ es : List REv, (∀ e ∈ es, ∃ t n, e = .acq t n) ∧ (rcalls 10 5 es).2.1 = 19 :=
  ⟨[.acq 5 10, .acq 6 1, .acq 5 9], by
    intro e he
    simp at he
    rcases he with rfl | rfl | rfl <;> exact ⟨_, _, rfl⟩, by decide⟩

end Verif.Credit
