import Verif.Rrbt.Model

/-!
# Two copies of the memory behave alike
-/

namespace Verif.Rrbt

variable {κ α β : Type}

/-- two regions of the same size with the same contents at different places -/
structure Copy (t t' : Inst) (m m' : Mem κ) : Prop where
  root : m.root = m'.root
  node : ∀ o, o < t.size → m.node (t.base + o) = m'.node (t'.base + o)
  null : m.node 0 = none ∧ m'.node 0 = none

structure Two (t t' : Inst) : Prop where
  size : t.size = t'.size
  pos : 0 < t.base
  pos' : 0 < t'.base

/-- pointers to the same place of the two regions -/
def PR (t t' : Inst) (p p' : Ptr) : Prop :=
  (p.a = 0 ∧ p'.a = 0) ∨ ∃ o, o < t.size ∧ p.a = t.base + o ∧ p'.a = t'.base + o

/-- computations that do the same to both copies -/
def Sim (t t' : Inst) (R : α → α → Prop) (p p' : M κ α) : Prop :=
  ∀ m m', Copy t t' m m' →
    (p.run m = none ∧ p'.run m' = none) ∨
    ∃ a a' n n', p.run m = some (a, n) ∧ p'.run m' = some (a', n') ∧ R a a' ∧ Copy t t' n n'

variable {t t' : Inst}

theorem sim_bind {R : α → α → Prop} {S : β → β → Prop} {p p' : M κ α} {f f' : α → M κ β}
    (hp : Sim t t' R p p') (hf : ∀ a a', R a a' → Sim t t' S (f a) (f' a')) :
    Sim t t' S (p >>= f) (p' >>= f') := by
  intro m m' hm
  rcases hp m m' hm with ⟨h1, h2⟩ | ⟨a, a', n, n', h1, h2, h3, h4⟩
  · left
    exact ⟨by simp [bind, M.bind, h1], by simp [bind, M.bind, h2]⟩
  · rcases hf a a' h3 n n' h4 with ⟨g1, g2⟩ | ⟨b, b', k, k', g1, g2, g3, g4⟩
    · left
      exact ⟨by simp [bind, M.bind, h1, g1], by simp [bind, M.bind, h2, g2]⟩
    · right
      exact ⟨b, b', k, k', by simp [bind, M.bind, h1, g1], by simp [bind, M.bind, h2, g2], g3, g4⟩

theorem sim_bindE {S : β → β → Prop} {p p' : M κ α} {f f' : α → M κ β}
    (hp : Sim t t' Eq p p') (hf : ∀ a, Sim t t' S (f a) (f' a)) :
    Sim t t' S (p >>= f) (p' >>= f') :=
  sim_bind hp (fun a a' h => by cases h; exact hf a)

theorem sim_bindP {S : β → β → Prop} {p p' : M κ Ptr} {f f' : Ptr → M κ β}
    (hp : Sim t t' (PR t t') p p') (hf : ∀ a a', PR t t' a a' → Sim t t' S (f a) (f' a')) :
    Sim t t' S (p >>= f) (p' >>= f') := sim_bind hp hf

theorem sim_bindPI {S : β → β → Prop} {p p' : M κ (Ptr × Int)} {f f' : Ptr × Int → M κ β}
    (hp : Sim t t' (fun a b => PR t t' a.1 b.1 ∧ a.2 = b.2) p p')
    (hf : ∀ a a' c, PR t t' a a' → Sim t t' S (f (a, c)) (f' (a', c))) :
    Sim t t' S (p >>= f) (p' >>= f') :=
  sim_bind hp (fun a a' h => by
    obtain ⟨x, c⟩ := a; obtain ⟨x', c'⟩ := a'
    obtain ⟨h1, h2⟩ := h
    dsimp only at h1 h2
    subst h2
    exact hf x x' c h1)

theorem sim_pure {R : α → α → Prop} {a a' : α} (h : R a a') : Sim (κ := κ) t t' R (pure a) (pure a') :=
  fun m m' hm => Or.inr ⟨a, a', m, m', rfl, rfl, h, hm⟩

theorem sim_mpure {R : α → α → Prop} {a a' : α} (h : R a a') : Sim (κ := κ) t t' R (M.pure a) (M.pure a') :=
  sim_pure h

theorem sim_fault {R : α → α → Prop} : Sim (κ := κ) t t' R fault fault :=
  fun _ _ _ => Or.inl ⟨rfl, rfl⟩

theorem sim_ite {R : α → α → Prop} {c : Prop} [Decidable c] {p q p' q' : M κ α} (hp : Sim t t' R p p')
    (hq : Sim t t' R q q') : Sim t t' R (if c then p else q) (if c then p' else q') := by
  by_cases h : c
  · rw [if_pos h, if_pos h]; exact hp
  · rw [if_neg h, if_neg h]; exact hq

theorem sim_when {c : Bool} {p p' : M κ Unit} (hp : Sim t t' Eq p p') : Sim t t' Eq (when' c p) (when' c p') :=
  sim_ite hp (sim_pure rfl)

theorem sim_sel {c : Bool} {p p' q q' : M κ Unit} (hp : Sim t t' Eq p p') (hq : Sim t t' Eq q q') :
    Sim t t' Eq (sel c p q) (sel c p' q') := sim_ite hp hq

theorem sim_assert {c : Bool} : Sim (κ := κ) t t' Eq (assert' c) (assert' c) :=
  sim_ite (sim_pure rfl) sim_fault

theorem pr_null : PR t t' null null := Or.inl ⟨rfl, rfl⟩

theorem sim_ptr (h : Two t t') {o : Nat} : Sim (κ := κ) t t' (PR t t') (ptr t o) (ptr t' o) := by
  unfold ptr
  by_cases h0 : o = 0
  · rw [if_pos h0, if_pos h0]; exact sim_pure pr_null
  · rw [if_neg h0, if_neg h0, ← h.size]
    by_cases h1 : o < t.size
    · rw [if_pos h1, if_pos h1]; exact sim_pure (Or.inr ⟨o, h1, rfl, rfl⟩)
    · rw [if_neg h1, if_neg h1]; exact sim_fault

theorem sim_off (h : Two t t') {p p' : Ptr} (hp : PR t t' p p') :
    Sim (κ := κ) t t' Eq (off t p) (off t' p') := by
  have := h.pos; have := h.pos'
  unfold off
  rcases hp with ⟨h1, h2⟩ | ⟨o, h1, h2, h3⟩
  · rw [if_pos h1, if_pos h2]; exact sim_pure rfl
  · have hs := h.size
    have e1 : ¬ p.a = 0 := by omega
    have e2 : ¬ p'.a = 0 := by omega
    have e3 : t.base ≤ p.a ∧ p.a - t.base < t.size := by omega
    have e4 : t'.base ≤ p'.a ∧ p'.a - t'.base < t'.size := by omega
    rw [if_neg e1, if_neg e2, if_pos e3, if_pos e4]
    exact sim_pure (by omega)

theorem copy_at {m m' : Mem κ} (hm : Copy t t' m m') {p p' : Ptr} (hp : PR t t' p p') :
    m.node p.a = m'.node p'.a := by
  rcases hp with ⟨h1, h2⟩ | ⟨o, h1, h2, h3⟩
  · rw [h1, h2, hm.null.1, hm.null.2]
  · rw [h2, h3]; exact hm.node o h1

theorem sim_rd {p p' : Ptr} (hp : PR t t' p p') : Sim (κ := κ) t t' Eq (rd p) (rd p') := by
  intro m m' hm
  unfold rd
  dsimp only
  rw [copy_at hm hp]
  cases m'.node p'.a with
  | none => exact Or.inl ⟨rfl, rfl⟩
  | some n => exact Or.inr ⟨n, n, m, m', rfl, rfl, rfl, hm⟩

theorem sim_wr (h : Two t t') {p p' : Ptr} (hp : PR t t' p p') {f : Node κ → Node κ} :
    Sim (κ := κ) t t' Eq (wr p f) (wr p' f) := by
  have := h.pos; have := h.pos'
  intro m m' hm
  unfold wr
  have hat := copy_at hm hp
  dsimp only
  rw [hat]
  cases hn : m'.node p'.a with
  | none => exact Or.inl ⟨rfl, rfl⟩
  | some n =>
    refine Or.inr ⟨(), (), _, _, rfl, rfl, rfl, hm.root, ?_, ?_⟩
    · intro o ho
      show (if t.base + o = p.a then some (f n) else m.node (t.base + o)) =
        (if t'.base + o = p'.a then some (f n) else m'.node (t'.base + o))
      rcases hp with ⟨h1, h2⟩ | ⟨q, h1, h2, h3⟩
      · rw [h2, hm.null.2] at hn; cases hn
      · by_cases e : o = q
        · subst e; rw [if_pos h2.symm, if_pos h3.symm]
        · rw [if_neg (by omega), if_neg (by omega)]; exact hm.node o ho
    · have hne : p.a ≠ 0 := fun e => by rw [← hat, e, hm.null.1] at hn; cases hn
      have hne' : p'.a ≠ 0 := fun e => by rw [e, hm.null.2] at hn; cases hn
      exact ⟨by show (if 0 = p.a then _ else _) = _; rw [if_neg (by omega)]; exact hm.null.1,
        by show (if 0 = p'.a then _ else _) = _; rw [if_neg (by omega)]; exact hm.null.2⟩

theorem sim_getRoot : Sim (κ := κ) t t' Eq getRoot getRoot :=
  fun m m' hm => Or.inr ⟨m.root, m'.root, m, m', rfl, rfl, hm.root, hm⟩

theorem sim_setRoot {o : Nat} : Sim (κ := κ) t t' Eq (setRoot o) (setRoot o) :=
  fun _ _ hm => Or.inr ⟨(), (), _, _, rfl, rfl, rfl, rfl, hm.node, hm.null⟩

theorem pr_eq (h : Two t t') {p p' q q' : Ptr} (hp : PR t t' p p') (hq : PR t t' q q') :
    (p.a == q.a) = (p'.a == q'.a) := by
  have := h.pos; have := h.pos'
  have key : p.a = q.a ↔ p'.a = q'.a := by
    rcases hp with ⟨h1, h2⟩ | ⟨o, h1, h2, h3⟩ <;> rcases hq with ⟨g1, g2⟩ | ⟨r, g1, g2, g3⟩ <;> omega
  rw [Bool.eq_iff_iff, beq_iff_eq, beq_iff_eq]
  exact key

theorem sim_eqP (h : Two t t') {p p' q q' : Ptr} (hp : PR t t' p p') (hq : PR t t' q q') :
    Sim (κ := κ) t t' Eq (eqP p q) (eqP p' q') := sim_pure (pr_eq h hp hq)

theorem sim_isNull (h : Two t t') {p p' : Ptr} (hp : PR t t' p p') :
    Sim (κ := κ) t t' Eq (isNull p) (isNull p') := sim_pure (pr_eq h hp (pr_null (t := t) (t' := t')))

theorem sim_setLeft (h : Two t t') {p p' : Ptr} {o : Nat} (hp : PR t t' p p') :
    Sim (κ := κ) t t' Eq (setLeft p o) (setLeft p' o) := sim_wr h hp

theorem sim_setRight (h : Two t t') {p p' : Ptr} {o : Nat} (hp : PR t t' p p') :
    Sim (κ := κ) t t' Eq (setRight p o) (setRight p' o) := sim_wr h hp

theorem sim_setParent (h : Two t t') {p p' : Ptr} {o : Nat} (hp : PR t t' p p') :
    Sim (κ := κ) t t' Eq (setParent p o) (setParent p' o) := sim_wr h hp

theorem sim_setColor (h : Two t t') {p p' : Ptr} {o : Color} (hp : PR t t' p p') :
    Sim (κ := κ) t t' Eq (setColor p o) (setColor p' o) := sim_wr h hp

/-- one step of a proof that two computations do the same -/
syntax "simstep" term : tactic
macro_rules
  | `(tactic| simstep $h:term) => `(tactic| first
    | assumption
    | with_reducible exact pr_null
    | with_reducible exact sim_ptr $h
    | with_reducible exact sim_off $h (by assumption)
    | with_reducible exact sim_rd (by assumption)
    | with_reducible exact sim_setLeft $h (by assumption)
    | with_reducible exact sim_setRight $h (by assumption)
    | with_reducible exact sim_setParent $h (by assumption)
    | with_reducible exact sim_setColor $h (by assumption)
    | with_reducible exact sim_getRoot
    | with_reducible exact sim_setRoot
    | with_reducible exact sim_isNull $h (by assumption)
    | with_reducible exact sim_eqP $h (by assumption) (by assumption)
    | with_reducible exact sim_assert
    | with_reducible exact sim_fault
    | with_reducible exact sim_pure rfl
    | with_reducible exact sim_pure (by assumption)
    | with_reducible exact sim_pure pr_null
    | with_reducible exact sim_pure ⟨by assumption, rfl⟩
    | with_reducible exact sim_mpure (by assumption)
    | (with_reducible refine sim_bindP ?_ (fun _ _ _ => ?_))
    | (with_reducible refine sim_bindPI ?_ (fun _ _ _ _ => ?_))
    | (with_reducible refine sim_bindE ?_ (fun _ => ?_))
    | (with_reducible refine sim_when ?_)
    | (with_reducible refine sim_sel ?_ ?_)
    | (with_reducible refine sim_ite ?_ ?_))

theorem sim_leftP (h : Two t t') {p p' : Ptr} (hp : PR t t' p p') :
    Sim (κ := κ) t t' (PR t t') (leftP t p) (leftP t' p') := by
  unfold leftP
  repeat' simstep h

theorem sim_rightP (h : Two t t') {p p' : Ptr} (hp : PR t t' p p') :
    Sim (κ := κ) t t' (PR t t') (rightP t p) (rightP t' p') := by
  unfold rightP
  repeat' simstep h

theorem sim_parentP (h : Two t t') {p p' : Ptr} (hp : PR t t' p p') :
    Sim (κ := κ) t t' (PR t t') (parentP t p) (parentP t' p') := by
  unfold parentP
  repeat' simstep h

theorem sim_color (h : Two t t') {p p' : Ptr} (hp : PR t t' p p') :
    Sim (κ := κ) t t' Eq (color p) (color p') := by
  unfold color
  repeat' simstep h

theorem sim_isRed (h : Two t t') {p p' : Ptr} (hp : PR t t' p p') :
    Sim (κ := κ) t t' Eq (isRed p) (isRed p') := by
  unfold isRed
  refine sim_bindE (sim_color h hp) (fun _ => ?_)
  repeat' simstep h

macro_rules
  | `(tactic| simstep $h:term) => `(tactic| first
    | with_reducible exact sim_leftP $h (by assumption)
    | with_reducible exact sim_rightP $h (by assumption)
    | with_reducible exact sim_parentP $h (by assumption)
    | with_reducible exact sim_color $h (by assumption)
    | with_reducible exact sim_isRed $h (by assumption)
    | with_reducible exact sim_setColor $h (by assumption))

theorem sim_rotateLeft (h : Two t t') {p p' : Ptr} (hp : PR t t' p p') :
    Sim (κ := κ) t t' Eq (rotateLeft t p) (rotateLeft t' p') := by
  unfold rotateLeft
  repeat' simstep h

theorem sim_rotateRight (h : Two t t') {p p' : Ptr} (hp : PR t t' p p') :
    Sim (κ := κ) t t' Eq (rotateRight t p) (rotateRight t' p') := by
  unfold rotateRight
  repeat' simstep h

theorem sim_isRoot (h : Two t t') {p p' : Ptr} (hp : PR t t' p p') :
    Sim (κ := κ) t t' Eq (isRoot t p) (isRoot t' p') := by
  unfold isRoot
  repeat' simstep h

theorem sim_sibling (h : Two t t') {p p' : Ptr} (hp : PR t t' p p') :
    Sim (κ := κ) t t' (PR t t') (sibling t p) (sibling t' p') := by
  unfold sibling
  repeat' simstep h

macro_rules
  | `(tactic| simstep $h:term) => `(tactic| first
    | with_reducible exact sim_rotateLeft $h (by assumption)
    | with_reducible exact sim_rotateRight $h (by assumption)
    | with_reducible exact sim_isRoot $h (by assumption)
    | with_reducible exact sim_sibling $h (by assumption))

theorem sim_descend (h : Two t t') {cmp : κ → κ → Int} {k : κ} (f : Nat) : ∀ {p p' q q' : Ptr} {c : Int},
    PR t t' p p' → PR t t' q q' →
    Sim (κ := κ) t t' (fun a b => PR t t' a.1 b.1 ∧ a.2 = b.2) (descend t cmp k f p q c) (descend t' cmp k f p' q' c) := by
  induction f with
  | zero => intro _ _ _ _ _ _ _; exact sim_fault
  | succ f ih =>
    intro p p' q q' c hp hq
    unfold descend
    repeat' first | exact ih (by assumption) (by assumption) | simstep h

theorem sim_insFix (h : Two t t') (f : Nat) : ∀ {p p' : Ptr}, PR t t' p p' →
    Sim (κ := κ) t t' Eq (insFix t f p) (insFix t' f p') := by
  induction f with
  | zero => intro _ _ _; exact sim_fault
  | succ f ih =>
    intro p p' hp
    unfold insFix
    repeat' first | exact ih (by assumption) | simstep h

theorem sim_ins (h : Two t t') {cmp : κ → κ → Int} {f : Nat} {p p' : Ptr} (hp : PR t t' p p') :
    Sim (κ := κ) t t' Eq (ins t cmp f p) (ins t' cmp f p') := by
  unfold ins
  repeat' first | exact sim_descend h f (by assumption) pr_null | exact sim_insFix h f (by assumption) | simstep h

theorem sim_rightmost (h : Two t t') (f : Nat) : ∀ {p p' : Ptr}, PR t t' p p' →
    Sim (κ := κ) t t' (PR t t') (rightmost t f p) (rightmost t' f p') := by
  induction f with
  | zero => intro _ _ _; exact sim_fault
  | succ f ih =>
    intro p p' hp
    unfold rightmost
    repeat' first | exact ih (by assumption) | simstep h

theorem sim_replaceNode (h : Two t t') {p p' q q' : Ptr} (hp : PR t t' p p') (hq : PR t t' q q') :
    Sim (κ := κ) t t' Eq (replaceNode t p q) (replaceNode t' p' q') := by
  unfold replaceNode
  repeat' simstep h

theorem sim_case6 (h : Two t t') {p p' : Ptr} (hp : PR t t' p p') :
    Sim (κ := κ) t t' Eq (case6 t p) (case6 t' p') := by
  unfold case6
  repeat' simstep h

macro_rules
  | `(tactic| simstep $h:term) => `(tactic| first
    | with_reducible exact sim_case6 $h (by assumption))

theorem sim_case5 (h : Two t t') {p p' : Ptr} (hp : PR t t' p p') :
    Sim (κ := κ) t t' Eq (case5 t p) (case5 t' p') := by
  unfold case5
  repeat' simstep h

macro_rules
  | `(tactic| simstep $h:term) => `(tactic| first
    | with_reducible exact sim_case5 $h (by assumption))

theorem sim_case4 (h : Two t t') {p p' : Ptr} (hp : PR t t' p p') :
    Sim (κ := κ) t t' Eq (case4 t p) (case4 t' p') := by
  unfold case4
  repeat' simstep h

macro_rules
  | `(tactic| simstep $h:term) => `(tactic| first
    | with_reducible exact sim_case4 $h (by assumption))

theorem sim_case2 (h : Two t t') (f : Nat) : ∀ {p p' : Ptr}, PR t t' p p' →
    Sim (κ := κ) t t' Eq (case2 t f p) (case2 t' f p') := by
  induction f with
  | zero => intro _ _ _; exact sim_fault
  | succ f ih =>
    intro p p' hp
    unfold case2
    repeat' first | exact ih (by assumption) | simstep h

theorem sim_delOut (h : Two t t') : Sim (κ := κ) t t' Eq (delOut t) (delOut t') := by
  unfold delOut
  repeat' simstep h

theorem sim_delLow (h : Two t t') {f : Nat} {p p' : Ptr} (hp : PR t t' p p') :
    Sim (κ := κ) t t' Eq (delLow t f p) (delLow t' f p') := by
  unfold delLow
  repeat' first
    | exact sim_delOut h | exact sim_case2 h f (by assumption)
    | exact sim_replaceNode h (by assumption) (by assumption) | simstep h

theorem sim_relink (h : Two t t') {nn : Node κ} {a b : Nat} {c : Bool} {p p' : Ptr} (hp : PR t t' p p') :
    Sim (κ := κ) t t' Eq (relink t nn a b p c) (relink t' nn a b p' c) := by
  unfold relink
  repeat' simstep h

theorem sim_del (h : Two t t') {f : Nat} {p p' : Ptr} (hp : PR t t' p p') :
    Sim (κ := κ) t t' Eq (del t f p) (del t' f p') := by
  unfold del
  repeat' first
    | exact sim_delOut h | exact sim_delLow h (by assumption) | exact sim_relink h (by assumption)
    | exact sim_rightmost h f (by assumption) | simstep h

theorem sim_findFrom (h : Two t t') {cmp : κ → κ → Int} {k : κ} (f : Nat) : ∀ {p p' : Ptr}, PR t t' p p' →
    Sim (κ := κ) t t' (PR t t') (findFrom t cmp k f p) (findFrom t' cmp k f p') := by
  induction f with
  | zero => intro _ _ _; exact sim_fault
  | succ f ih =>
    intro p p' hp
    unfold findFrom
    repeat' first | exact ih (by assumption) | simstep h

theorem sim_minFrom (h : Two t t') (f : Nat) : ∀ {p p' : Ptr}, PR t t' p p' →
    Sim (κ := κ) t t' (PR t t') (minFrom t f p) (minFrom t' f p') := by
  induction f with
  | zero => intro _ _ _; exact sim_fault
  | succ f ih =>
    intro p p' hp
    unfold minFrom
    repeat' first | exact ih (by assumption) | simstep h

theorem sim_maxFrom (h : Two t t') (f : Nat) : ∀ {p p' : Ptr}, PR t t' p p' →
    Sim (κ := κ) t t' (PR t t') (maxFrom t f p) (maxFrom t' f p') := by
  induction f with
  | zero => intro _ _ _; exact sim_fault
  | succ f ih =>
    intro p p' hp
    unfold maxFrom
    repeat' first | exact ih (by assumption) | simstep h

theorem sim_upRight (h : Two t t') (f : Nat) : ∀ {p p' : Ptr}, PR t t' p p' →
    Sim (κ := κ) t t' (PR t t') (upRight t f p) (upRight t' f p') := by
  induction f with
  | zero => intro _ _ _; exact sim_fault
  | succ f ih =>
    intro p p' hp
    unfold upRight
    repeat' first | exact ih (by assumption) | simstep h

theorem sim_upLeft (h : Two t t') (f : Nat) : ∀ {p p' : Ptr}, PR t t' p p' →
    Sim (κ := κ) t t' (PR t t') (upLeft t f p) (upLeft t' f p') := by
  induction f with
  | zero => intro _ _ _; exact sim_fault
  | succ f ih =>
    intro p p' hp
    unfold upLeft
    repeat' first | exact ih (by assumption) | simstep h

theorem sim_glbFrom (h : Two t t') {cmp : κ → κ → Int} {k : κ} (f : Nat) : ∀ {p p' q q' : Ptr}, PR t t' p p' →
    PR t t' q q' → Sim (κ := κ) t t' (PR t t') (glbFrom t cmp k f p q) (glbFrom t' cmp k f p' q') := by
  induction f with
  | zero => intro _ _ _ _ _ _; exact sim_fault
  | succ f ih =>
    intro p p' q q' hp hq
    unfold glbFrom
    repeat' first | exact ih (by assumption) (by assumption) | simstep h

theorem sim_lubFrom (h : Two t t') {cmp : κ → κ → Int} {k : κ} (f : Nat) : ∀ {p p' q q' : Ptr}, PR t t' p p' →
    PR t t' q q' → Sim (κ := κ) t t' (PR t t') (lubFrom t cmp k f p q) (lubFrom t' cmp k f p' q') := by
  induction f with
  | zero => intro _ _ _ _ _ _; exact sim_fault
  | succ f ih =>
    intro p p' q q' hp hq
    unfold lubFrom
    repeat' first | exact ih (by assumption) (by assumption) | simstep h

theorem sim_find (h : Two t t') {cmp : κ → κ → Int} {f : Nat} {k : κ} :
    Sim (κ := κ) t t' (PR t t') (find t cmp f k) (find t' cmp f k) := by
  unfold find
  repeat' first | exact sim_findFrom h f (by assumption) | simstep h

theorem sim_findGlb (h : Two t t') {cmp : κ → κ → Int} {f : Nat} {k : κ} :
    Sim (κ := κ) t t' (PR t t') (findGlb t cmp f k) (findGlb t' cmp f k) := by
  unfold findGlb
  repeat' first | exact sim_glbFrom h f (by assumption) pr_null | simstep h

theorem sim_findLub (h : Two t t') {cmp : κ → κ → Int} {f : Nat} {k : κ} :
    Sim (κ := κ) t t' (PR t t') (findLub t cmp f k) (findLub t' cmp f k) := by
  unfold findLub
  repeat' first | exact sim_lubFrom h f (by assumption) pr_null | simstep h

theorem sim_min (h : Two t t') {f : Nat} : Sim (κ := κ) t t' (PR t t') (min t f) (min t' f) := by
  unfold min
  repeat' first | exact sim_minFrom h f (by assumption) | simstep h

theorem sim_max (h : Two t t') {f : Nat} : Sim (κ := κ) t t' (PR t t') (max t f) (max t' f) := by
  unfold max
  repeat' first | exact sim_maxFrom h f (by assumption) | simstep h

theorem sim_succ (h : Two t t') {f : Nat} {p p' : Ptr} (hp : PR t t' p p') :
    Sim (κ := κ) t t' (PR t t') (succ t f p) (succ t' f p') := by
  unfold succ
  repeat' first | exact sim_minFrom h f (by assumption) | exact sim_upRight h f (by assumption) | simstep h

theorem sim_pred (h : Two t t') {f : Nat} {p p' : Ptr} (hp : PR t t' p p') :
    Sim (κ := κ) t t' (PR t t') (pred t f p) (pred t' f p') := by
  unfold pred
  repeat' first | exact sim_maxFrom h f (by assumption) | exact sim_upLeft h f (by assumption) | simstep h

end Verif.Rrbt
