import Verif.Rrbt.Model
import Verif.Rbt.Proofs

/-!
# The tree that the memory holds

A tree of offsets, and what it means that the nodes in memory are linked as this tree.  Rules for running
programs on such memory.
-/

namespace Verif.Rrbt

open Verif.Rbt (Tree Frame Ctx plug traverse ctxL ctxR traverse_plug)
open Verif.Rbt.Tree (leaf node)
open Verif.Rbt.Color (red black)

variable {κ α β : Type}

/-! ## running programs -/

/-- the program does not fault, and what it gives and leaves in memory is as `Q` says -/
def Spec (p : M κ α) (m : Mem κ) (Q : α → Mem κ → Prop) : Prop :=
  ∃ a m', p.run m = some (a, m') ∧ Q a m'

theorem Spec.bind {p : M κ α} {f : α → M κ β} {m : Mem κ} {Q : β → Mem κ → Prop}
    (h : Spec p m fun a m' => Spec (f a) m' Q) : Spec (p >>= f) m Q := by
  obtain ⟨a, m', h1, b, m'', h2, h3⟩ := h
  exact ⟨b, m'', by simp [Bind.bind, M.bind, h1, h2], h3⟩

theorem Spec.mono {p : M κ α} {m : Mem κ} {Q R : α → Mem κ → Prop} (h : Spec p m Q)
    (hq : ∀ a m', Q a m' → R a m') : Spec p m R := by
  obtain ⟨a, m', h1, h2⟩ := h
  exact ⟨a, m', h1, hq a m' h2⟩

theorem Spec.pure {a : α} {m : Mem κ} {Q : α → Mem κ → Prop} (h : Q a m) : Spec (Pure.pure a : M κ α) m Q :=
  ⟨a, m, rfl, h⟩

theorem Spec.pure' {a : α} {m : Mem κ} {Q : α → Mem κ → Prop} (h : Q a m) : Spec (M.pure a : M κ α) m Q :=
  ⟨a, m, rfl, h⟩

/-- the pointer to the node at an offset -/
def pt (t : Inst) (o : Nat) : Ptr := if o = 0 then null else ⟨t.base + o⟩

def get (t : Inst) (m : Mem κ) (o : Nat) : Option (Node κ) := m.node (t.base + o)

def put (t : Inst) (m : Mem κ) (o : Nat) (n : Node κ) : Mem κ :=
  { m with node := fun a => if a = t.base + o then some n else m.node a }

theorem get_put (t : Inst) (m : Mem κ) (o : Nat) (n : Node κ) : get t (put t m o n) o = some n := by
  simp [get, put]

theorem get_put_ne {t : Inst} {m : Mem κ} {o o' : Nat} (h : o' ≠ o) (n : Node κ) :
    get t (put t m o n) o' = get t m o' := by
  simp [get, put]; omega

@[simp] theorem put_root (t : Inst) (m : Mem κ) (o : Nat) (n : Node κ) : (put t m o n).root = m.root := rfl

theorem put_put (t : Inst) (m : Mem κ) (o : Nat) (n n' : Node κ) : put t (put t m o n) o n' = put t m o n' := by
  unfold put
  congr 1
  funext a
  by_cases h : a = t.base + o <;> simp [h]

def setR (m : Mem κ) (o : Nat) : Mem κ := { m with root := o }

@[simp] theorem get_setR (t : Inst) (m : Mem κ) (r o : Nat) : get t (setR m r) o = get t m o := rfl
@[simp] theorem setR_root (m : Mem κ) (r : Nat) : (setR m r).root = r := rfl

theorem sp_rd {t : Inst} {m : Mem κ} {o : Nat} {n : Node κ} {Q : Node κ → Mem κ → Prop} (ho : o ≠ 0)
    (h : get t m o = some n) (hq : Q n m) : Spec (rd (pt t o)) m Q := by
  refine ⟨n, m, ?_, hq⟩
  simp only [get] at h
  simp [rd, pt, ho, h]

theorem sp_wr {t : Inst} {m : Mem κ} {o : Nat} {n : Node κ} {f : Node κ → Node κ} {Q : Unit → Mem κ → Prop}
    (ho : o ≠ 0) (h : get t m o = some n) (hq : Q () (put t m o (f n))) : Spec (wr (pt t o) f) m Q := by
  refine ⟨(), _, ?_, hq⟩
  simp only [get] at h
  simp [wr, pt, ho, h, put]

theorem sp_ptr {t : Inst} {m : Mem κ} {o : Nat} {Q : Ptr → Mem κ → Prop} (ho : o = 0 ∨ o < t.size)
    (hq : Q (pt t o) m) : Spec (ptr t o) m Q := by
  refine ⟨pt t o, m, ?_, hq⟩
  rcases ho with rfl | h
  · rfl
  · by_cases h0 : o = 0
    · subst h0; rfl
    · simp [ptr, pt, h0, h, Pure.pure, M.pure]

theorem sp_off {t : Inst} {m : Mem κ} {o : Nat} {Q : Nat → Mem κ → Prop} (hb : 0 < t.base)
    (ho : o = 0 ∨ o < t.size) (hq : Q o m) : Spec (off t (pt t o)) m Q := by
  refine ⟨o, m, ?_, hq⟩
  by_cases h0 : o = 0
  · subst h0; rfl
  · have hlt : o < t.size := by omega
    have h1 : t.base + o ≠ 0 := by omega
    have h2 : t.base ≤ t.base + o ∧ t.base + o - t.base < t.size := by omega
    simp only [off, pt, h0, if_false, h1, h2, and_self, if_true, Pure.pure, M.pure]
    congr 2; omega

theorem sp_getRoot {m : Mem κ} {Q : Nat → Mem κ → Prop} (hq : Q m.root m) : Spec getRoot m Q := ⟨_, _, rfl, hq⟩

theorem sp_setRoot {m : Mem κ} {o : Nat} {Q : Unit → Mem κ → Prop} (hq : Q () (setR m o)) :
    Spec (setRoot o) m Q := ⟨_, _, rfl, hq⟩

theorem sp_isNull {t : Inst} {m : Mem κ} {o : Nat} {Q : Bool → Mem κ → Prop} (hb : 0 < t.base)
    (hq : Q (o == 0) m) : Spec (isNull (pt t o)) m Q := by
  refine ⟨o == 0, m, ?_, hq⟩
  by_cases h0 : o = 0
  · subst h0; rfl
  · have h1 : t.base + o ≠ 0 := by omega
    have h2 : (t.base + o == 0) = (o == 0) := by rw [Bool.eq_iff_iff, beq_iff_eq, beq_iff_eq]; omega
    simp [isNull, pt, h0, Pure.pure, M.pure, h2]

theorem sp_eqP {t : Inst} {m : Mem κ} {a b : Nat} {Q : Bool → Mem κ → Prop} (hb : 0 < t.base)
    (hq : Q (a == b) m) : Spec (eqP (pt t a) (pt t b)) m Q := by
  refine ⟨a == b, m, ?_, hq⟩
  simp only [eqP, Pure.pure, M.pure, Option.some.injEq, Prod.mk.injEq, and_true]
  rw [Bool.eq_iff_iff, beq_iff_eq, beq_iff_eq]
  unfold pt null
  split <;> split <;> dsimp only <;> omega

theorem sp_assert {m : Mem κ} {b : Bool} {Q : Unit → Mem κ → Prop} (h : b = true) (hq : Q () m) :
    Spec (assert' b) m Q := by
  subst h; exact Spec.pure hq

theorem sp_when_t {m : Mem κ} {c : Bool} {p : M κ Unit} {Q : Unit → Mem κ → Prop} (h : c = true)
    (hq : Spec p m Q) : Spec (when' c p) m Q := by subst h; exact hq

theorem sp_when_f {m : Mem κ} {c : Bool} {p : M κ Unit} {Q : Unit → Mem κ → Prop} (h : c = false)
    (hq : Q () m) : Spec (when' c p) m Q := by subst h; exact Spec.pure hq

theorem sp_sel_t {m : Mem κ} {c : Bool} {p q : M κ Unit} {Q : Unit → Mem κ → Prop} (h : c = true)
    (hq : Spec p m Q) : Spec (sel c p q) m Q := by subst h; exact hq

theorem sp_sel_f {m : Mem κ} {c : Bool} {p q : M κ Unit} {Q : Unit → Mem κ → Prop} (h : c = false)
    (hq : Spec q m Q) : Spec (sel c p q) m Q := by subst h; exact hq

theorem sp_setLeft {t : Inst} {m : Mem κ} {o l : Nat} {n : Node κ} {Q : Unit → Mem κ → Prop} (ho : o ≠ 0)
    (hl : l < 2 ^ 63) (h : get t m o = some n) (hq : Q () (put t m o { n with left := l })) :
    Spec (setLeft (pt t o) l) m Q := by
  refine sp_wr ho h ?_
  rw [Nat.mod_eq_of_lt hl]
  exact hq

theorem sp_setRight {t : Inst} {m : Mem κ} {o r : Nat} {n : Node κ} {Q : Unit → Mem κ → Prop} (ho : o ≠ 0)
    (h : get t m o = some n) (hq : Q () (put t m o { n with right := r })) :
    Spec (setRight (pt t o) r) m Q := sp_wr ho h hq

theorem sp_setParent {t : Inst} {m : Mem κ} {o r : Nat} {n : Node κ} {Q : Unit → Mem κ → Prop} (ho : o ≠ 0)
    (h : get t m o = some n) (hq : Q () (put t m o { n with parent := r })) :
    Spec (setParent (pt t o) r) m Q := sp_wr ho h hq

theorem sp_setColor {t : Inst} {m : Mem κ} {o : Nat} {c : Color} {n : Node κ} {Q : Unit → Mem κ → Prop} (ho : o ≠ 0)
    (h : get t m o = some n) (hq : Q () (put t m o { n with color := c })) :
    Spec (setColor (pt t o) c) m Q := sp_wr ho h hq

/-! ## the tree in memory -/

/-- the offset of the root of a subtree -/
def top : Tree Nat → Nat
  | leaf => 0
  | node _ _ x _ => x

/-- the offset of the parent of the place below a context -/
def parOf : Ctx Nat → Nat
  | [] => 0
  | Frame.L _ x _ :: _ => x
  | Frame.R _ _ x :: _ => x

/-- the nodes of the subtree are in memory, linked as the tree says, below the parent `p`; the key of the
node at offset `x` is `key x` -/
def RepT (t : Inst) (key : Nat → κ) (m : Mem κ) : Tree Nat → Nat → Prop
  | leaf, _ => True
  | node c l x r, p => (x ≠ 0 ∧ x < t.size) ∧ get t m x = some ⟨c, top l, top r, p, key x⟩ ∧
    RepT t key m l x ∧ RepT t key m r x

/-- the ancestors are in memory, and `o` is at the place below them -/
def RepC (t : Inst) (key : Nat → κ) (m : Mem κ) : Ctx Nat → Nat → Prop
  | [], o => m.root = o
  | Frame.L c x r :: ctx, o => (x ≠ 0 ∧ x < t.size) ∧ get t m x = some ⟨c, o, top r, parOf ctx, key x⟩ ∧
    RepT t key m r x ∧ RepC t key m ctx x
  | Frame.R c l x :: ctx, o => (x ≠ 0 ∧ x < t.size) ∧ get t m x = some ⟨c, top l, o, parOf ctx, key x⟩ ∧
    RepT t key m l x ∧ RepC t key m ctx x

/-- the memory holds the tree -/
structure Rep (t : Inst) (key : Nat → κ) (m : Mem κ) (w : Tree Nat) : Prop where
  root : m.root = top w
  tree : RepT t key m w 0
  nodup : (traverse w).Nodup

variable {t : Inst} {key : Nat → κ}

theorem rep_plug {m : Mem κ} (ctx : Ctx Nat) : ∀ T : Tree Nat,
    (m.root = top (plug T ctx) ∧ RepT t key m (plug T ctx) 0) ↔
      (RepT t key m T (parOf ctx) ∧ RepC t key m ctx (top T)) := by
  induction ctx with
  | nil => intro T; simp [plug, parOf, RepC, and_comm]
  | cons f ctx ih =>
    intro T
    cases f with
    | L c x r =>
      rw [show plug T (Frame.L c x r :: ctx) = plug (node c T x r) ctx from rfl, ih]
      constructor
      · rintro ⟨⟨h1, h2, h3, h4⟩, h5⟩; exact ⟨h3, h1, h2, h4, h5⟩
      · rintro ⟨h3, h1, h2, h4, h5⟩; exact ⟨⟨h1, h2, h3, h4⟩, h5⟩
    | R c l x =>
      rw [show plug T (Frame.R c l x :: ctx) = plug (node c l x T) ctx from rfl, ih]
      constructor
      · rintro ⟨⟨h1, h2, h3, h4⟩, h5⟩; exact ⟨h4, h1, h2, h3, h5⟩
      · rintro ⟨h3, h1, h2, h4, h5⟩; exact ⟨⟨h1, h2, h4, h3⟩, h5⟩

theorem Rep.split {m : Mem κ} {T : Tree Nat} {ctx : Ctx Nat} (h : Rep t key m (plug T ctx)) :
    RepT t key m T (parOf ctx) ∧ RepC t key m ctx (top T) := (rep_plug ctx T).1 ⟨h.root, h.tree⟩

theorem Rep.join {m : Mem κ} {T : Tree Nat} {ctx : Ctx Nat} (h1 : RepT t key m T (parOf ctx))
    (h2 : RepC t key m ctx (top T)) (h3 : (traverse (plug T ctx)).Nodup) : Rep t key m (plug T ctx) := by
  obtain ⟨a, b⟩ := (rep_plug ctx T).2 ⟨h1, h2⟩
  exact ⟨a, b, h3⟩

theorem RepT.put {m : Mem κ} {o : Nat} {n : Node κ} : ∀ {T : Tree Nat} {p : Nat}, RepT t key m T p →
    o ∉ traverse T → RepT t key (put t m o n) T p := by
  intro T
  induction T with
  | leaf => intro p _ _; trivial
  | node c l x r ihl ihr =>
    intro p h ho
    simp only [traverse, List.mem_append, List.mem_cons, not_or] at ho
    obtain ⟨h1, h2, h3, h4⟩ := h
    exact ⟨h1, by rw [get_put_ne (Ne.symm ho.2.1)]; exact h2, ihl h3 ho.1, ihr h4 ho.2.2⟩

theorem RepT.setR {m : Mem κ} {o : Nat} : ∀ {T : Tree Nat} {p : Nat}, RepT t key m T p →
    RepT t key (setR m o) T p := by
  intro T
  induction T with
  | leaf => intro p _; trivial
  | node c l x r ihl ihr =>
    intro p h
    obtain ⟨h1, h2, h3, h4⟩ := h
    exact ⟨h1, h2, ihl h3, ihr h4⟩

theorem RepC.put {m : Mem κ} {o : Nat} {n : Node κ} : ∀ {ctx : Ctx Nat} {q : Nat}, RepC t key m ctx q →
    o ∉ ctxL ctx → o ∉ ctxR ctx → RepC t key (put t m o n) ctx q := by
  intro ctx
  induction ctx with
  | nil => intro q h _ _; exact h
  | cons f ctx ih =>
    intro q h h1 h2
    cases f with
    | L c x r =>
      simp only [ctxL, ctxR, List.mem_append, List.mem_cons, not_or] at h1 h2
      obtain ⟨g1, g2, g3, g4⟩ := h
      exact ⟨g1, by rw [get_put_ne (Ne.symm h2.1)]; exact g2, g3.put h2.2.1, ih g4 h1 h2.2.2⟩
    | R c l x =>
      simp only [ctxL, ctxR, List.mem_append, List.mem_singleton, not_or] at h1 h2
      obtain ⟨g1, g2, g3, g4⟩ := h
      exact ⟨g1, by rw [get_put_ne (Ne.symm h1.2)]; exact g2, g3.put h1.1.2, ih g4 h1.1.1 h2⟩

theorem RepT.top_ok {m : Mem κ} {T : Tree Nat} {p : Nat} (h : RepT t key m T p) : top T = 0 ∨ top T < t.size := by
  cases T with
  | leaf => exact Or.inl rfl
  | node c l x r => exact Or.inr h.1.2

theorem RepC.par_ok {m : Mem κ} {ctx : Ctx Nat} {q : Nat} (h : RepC t key m ctx q) :
    parOf ctx = 0 ∨ parOf ctx < t.size := by
  cases ctx with
  | nil => exact Or.inl rfl
  | cons f ctx => cases f <;> exact Or.inr h.1.2

/-- what the root of the subtree at a place holds -/
theorem Rep.cell {m : Mem κ} {c : Color} {l r : Tree Nat} {x : Nat} {ctx : Ctx Nat}
    (h : Rep t key m (plug (node c l x r) ctx)) :
    (x ≠ 0 ∧ x < t.size) ∧ get t m x = some ⟨c, top l, top r, parOf ctx, key x⟩ ∧
      (top l = 0 ∨ top l < t.size) ∧ (top r = 0 ∨ top r < t.size) ∧ (parOf ctx = 0 ∨ parOf ctx < t.size) := by
  obtain ⟨⟨h1, h2, h3, h4⟩, h5⟩ := h.split
  exact ⟨h1, h2, h3.top_ok, h4.top_ok, h5.par_ok⟩

/-- the disjointness of the parts of a tree -/
theorem nodup_node {c : Color} {l r : Tree Nat} {x : Nat} {ctx : Ctx Nat}
    (h : (traverse (plug (node c l x r) ctx)).Nodup) :
    x ∉ traverse l ∧ x ∉ traverse r ∧ x ∉ ctxL ctx ∧ x ∉ ctxR ctx ∧
    (∀ o ∈ traverse l, o ∉ traverse r ∧ o ∉ ctxL ctx ∧ o ∉ ctxR ctx) ∧
    (∀ o ∈ traverse r, o ∉ ctxL ctx ∧ o ∉ ctxR ctx) ∧ (traverse l).Nodup ∧ (traverse r).Nodup := by
  rw [traverse_plug] at h
  simp only [traverse, List.nodup_append, List.nodup_cons, List.mem_append, List.mem_cons] at h
  grind

/-- `n->color = c` -/
theorem Rep.setColor {m : Mem κ} {c c' : Color} {l r : Tree Nat} {x : Nat} {ctx : Ctx Nat}
    (h : Rep t key m (plug (node c l x r) ctx)) {Q : Unit → Mem κ → Prop}
    (hq : ∀ m', Rep t key m' (plug (node c' l x r) ctx) → Q () m') :
    Spec (setColor (pt t x) c') m Q := by
  obtain ⟨⟨h1, h2, h3, h4⟩, h5⟩ := h.split
  obtain ⟨n1, n2, n3, n4, _⟩ := nodup_node h.nodup
  refine sp_setColor h1.1 h2 (hq _ (Rep.join ⟨h1, get_put _ _ _ _, h3.put n1, h4.put n2⟩ (h5.put n3 n4) ?_))
  have := h.nodup
  rw [traverse_plug] at this ⊢
  exact this

/-! ## rotations -/

theorem top_mem {T : Tree Nat} (h : T ≠ leaf) : top T ∈ traverse T := by
  cases T with
  | leaf => exact absurd rfl h
  | node c l x r => simp [top, traverse]

/-- if the subtree is not empty, its parent link is changed -/
theorem sp_reparent {m : Mem κ} {T : Tree Nat} {p p' : Nat} (h : RepT t key m T p) (hn : (traverse T).Nodup)
    {Q : Unit → Mem κ → Prop}
    (h0 : T = leaf → Q () m)
    (h1 : ∀ n, T ≠ leaf → RepT t key (put t m (top T) n) T p' → Q () (put t m (top T) n)) :
    Spec (when' (top T != 0) (do let l ← ptr t (top T); setParent l p')) m Q := by
  cases T with
  | leaf => exact sp_when_f rfl (h0 rfl)
  | node c l x r =>
    obtain ⟨g1, g2, g3, g4⟩ := h
    simp only [traverse, List.nodup_append, List.nodup_cons, List.mem_cons] at hn
    have n1 : x ∉ traverse l := fun hc => hn.2.2 x hc x (Or.inl rfl) rfl
    have n2 : x ∉ traverse r := hn.2.1.1
    refine sp_when_t (by simp [top, g1.1]) (Spec.bind (sp_ptr (Or.inr g1.2) (sp_setParent g1.1 g2 ?_)))
    exact h1 _ (by simp) ⟨g1, get_put _ _ _ _, g3.put n1, g4.put n2⟩

/-- the root of the tree is among the ancestors of a place, if there are any -/
theorem top_plug_cons (ctx : Ctx Nat) : ∀ (f : Frame Nat) (T : Tree Nat),
    top (plug T (f :: ctx)) ∈ ctxL (f :: ctx) ∨ top (plug T (f :: ctx)) ∈ ctxR (f :: ctx) := by
  induction ctx with
  | nil => intro f T; cases f <;> simp [plug, top, ctxL, ctxR]
  | cons g ctx ih =>
    intro f T
    cases f with
    | L c x r =>
      have := ih g (node c T x r)
      rw [show plug T (Frame.L c x r :: g :: ctx) = plug (node c T x r) (g :: ctx) from rfl]
      simp only [ctxL.eq_2, ctxR.eq_2, List.mem_cons, List.mem_append]
      grind
    | R c l x =>
      have := ih g (node c l x T)
      rw [show plug T (Frame.R c l x :: g :: ctx) = plug (node c l x T) (g :: ctx) from rfl]
      simp only [ctxL.eq_3, ctxR.eq_3, List.mem_cons, List.mem_append]
      grind

theorem rotateLeft_spec (hb : 0 < t.base) (hs : t.size ≤ 2 ^ 63) {m : Mem κ} {c d : Color} {a b e : Tree Nat}
    {x y : Nat} {ctx : Ctx Nat} (h : Rep t key m (plug (node c a x (node d b y e)) ctx)) (hd : ctx = [] → d = black)
    {Q : Unit → Mem κ → Prop}
    (hq : ∀ m', Rep t key m' (plug (node d (node c a x b) y e) ctx) → Q () m') :
    Spec (rotateLeft t (pt t x)) m Q := by
  obtain ⟨⟨x1, x2, ha, y1, y2, hb', he⟩, hc⟩ := h.split
  have hnd := h.nodup
  have hnd' : (traverse (plug (node d (node c a x b) y e) ctx)).Nodup := by
    rw [traverse_plug] at hnd ⊢
    simpa [traverse] using hnd
  rw [traverse_plug] at hnd
  simp only [traverse, List.nodup_append, List.nodup_cons, List.mem_append, List.mem_cons] at hnd
  have nb : (traverse b).Nodup := by grind
  have xy : x ≠ y := by grind
  have n1 : x ∉ traverse a ∧ x ∉ traverse b ∧ x ∉ traverse e ∧ x ∉ ctxL ctx ∧ x ∉ ctxR ctx := by grind
  have n2 : y ∉ traverse a ∧ y ∉ traverse b ∧ y ∉ traverse e ∧ y ∉ ctxL ctx ∧ y ∉ ctxR ctx := by grind
  have n3 : ∀ o ∈ traverse b, o ≠ x ∧ o ≠ y ∧ o ∉ traverse a ∧ o ∉ traverse e ∧ o ∉ ctxL ctx ∧ o ∉ ctxR ctx := by grind
  have n4 : ∀ o, o ∈ ctxL ctx ∨ o ∈ ctxR ctx → o ≠ x ∧ o ≠ y ∧ o ∉ traverse a ∧ o ∉ traverse b ∧ o ∉ traverse e := by
    grind
  have tb := hb'.top_ok
  have hpar := hc.par_ok
  unfold rotateLeft
  refine Spec.bind (sp_rd x1.1 x2 ?_)
  refine Spec.bind (sp_ptr (Or.inr y1.2) ?_)
  refine Spec.bind (sp_ptr hpar ?_)
  refine Spec.bind (sp_rd y1.1 y2 ?_)
  refine Spec.bind (sp_setRight x1.1 x2 ?_)
  refine Spec.bind (sp_off hb (Or.inr x1.2) ?_)
  refine Spec.bind (sp_off hb (Or.inr y1.2) ?_)
  dsimp only [top]
  -- the state before the parent of `b` is changed
  have key1 : ∀ m1 : Mem κ, m1.root = m.root → get t m1 x = some ⟨c, top a, top b, parOf ctx, key x⟩ →
      get t m1 y = some ⟨d, top b, top e, x, key y⟩ → RepT t key m1 a x → RepT t key m1 b x → RepT t key m1 e y →
      RepC t key m1 ctx x →
      Spec (do
        setParent (pt t y) (parOf ctx)
        let root ← getRoot
        if root != x then do
          assert' (parOf ctx != 0)
          let np ← rd (pt t (parOf ctx))
          sel (np.left == x) (setLeft (pt t (parOf ctx)) y) (setRight (pt t (parOf ctx)) y)
          setLeft (pt t y) x
          setParent (pt t x) y
        else do
          assert' (parOf ctx == 0)
          setRoot y
          setParent (pt t y) 0
          setColor (pt t y) .black
          setLeft (pt t y) x
          setParent (pt t x) y) m1 Q := by
    intro m1 hr gx gy ga gb ge gc
    refine Spec.bind (sp_setParent y1.1 gy ?_)
    refine Spec.bind (sp_getRoot ?_)
    have hroot : m.root = top (plug (node c a x (node d b y e)) ctx) := h.root
    cases ctx with
    | nil =>
      obtain rfl := hd rfl
      have : m.root = x := hroot
      rw [if_neg (by simp [hr, this])]
      refine Spec.bind (sp_assert rfl ?_)
      refine Spec.bind (sp_setRoot ?_)
      refine Spec.bind (sp_setParent y1.1 (get_put _ _ _ _) ?_)
      refine Spec.bind (sp_setColor y1.1 (get_put _ _ _ _) ?_)
      refine Spec.bind (sp_setLeft y1.1 (by omega) (get_put _ _ _ _) ?_)
      refine sp_setParent x1.1 (n := ⟨c, top a, top b, 0, key x⟩) ?_ ?_
      · rw [get_put_ne xy, get_put_ne xy, get_put_ne xy, get_setR, get_put_ne xy]; exact gx
      · refine hq _ (Rep.join (ctx := []) ⟨y1, ?_, ⟨x1, get_put _ _ _ _, ?_, ?_⟩, ?_⟩ rfl hnd')
        · rw [get_put_ne xy.symm, get_put]; rfl
        · exact ((((ga.put n2.1).setR.put n2.1).put n2.1).put n2.1).put n1.1
        · exact ((((gb.put n2.2.1).setR.put n2.2.1).put n2.2.1).put n2.2.1).put n1.2.1
        · exact ((((ge.put n2.2.2.1).setR.put n2.2.2.1).put n2.2.2.1).put n2.2.2.1).put n1.2.2.1
    | cons f ctx =>
      have hne : m.root ≠ x := by
        intro e1
        have : m.root ∈ ctxL (f :: ctx) ∨ m.root ∈ ctxR (f :: ctx) := by
          rw [hroot]
          exact top_plug_cons _ _ _
        exact (n4 _ this).1 e1
      rw [if_pos (by simp [hr, hne])]
      cases f with
      | L pc px ps =>
        have np := n4 px (Or.inr (by simp [ctxR]))
        have nps : ∀ o, o = x ∨ o = y → o ∉ traverse ps ∧ o ∉ ctxL ctx ∧ o ∉ ctxR ctx := by
          intro o ho
          simp only [ctxL, ctxR, List.mem_cons, List.mem_append, not_or] at n1 n2
          rcases ho with rfl | rfl <;> grind
        have npx : px ∉ traverse ps ∧ px ∉ ctxL ctx ∧ px ∉ ctxR ctx := by
          have := h.nodup
          rw [show plug (node c a x (node d b y e)) (Frame.L pc px ps :: ctx) =
            plug (node pc (node c a x (node d b y e)) px ps) ctx from rfl] at this
          have := nodup_node this
          exact ⟨this.2.1, this.2.2.1, this.2.2.2.1⟩
        obtain ⟨p1, p2, p3, p4⟩ := gc
        simp only [parOf]
        refine Spec.bind (sp_assert (by simp [p1.1]) ?_)
        refine Spec.bind (sp_rd p1.1 (by rw [get_put_ne np.2.1]; exact p2) ?_)
        refine Spec.bind (sp_sel_t (by simp) ?_)
        refine sp_setLeft p1.1 (by omega) (by rw [get_put_ne np.2.1]; exact p2) ?_
        refine Spec.bind (sp_setLeft y1.1 (by omega) (by rw [get_put_ne np.2.1.symm, get_put]) ?_)
        refine sp_setParent x1.1 (n := ⟨c, top a, top b, px, key x⟩) ?_ ?_
        · rw [get_put_ne xy, get_put_ne np.1.symm, get_put_ne xy]; exact gx
        · refine hq _ (Rep.join ⟨y1, ?_, ⟨x1, get_put _ _ _ _, ?_, ?_⟩, ?_⟩ ⟨p1, ?_, ?_, ?_⟩ hnd')
          · rw [get_put_ne xy.symm, get_put]; rfl
          · exact (((ga.put n2.1).put np.2.2.1).put n2.1).put n1.1
          · exact (((gb.put n2.2.1).put np.2.2.2.1).put n2.2.1).put n1.2.1
          · exact (((ge.put n2.2.2.1).put np.2.2.2.2).put n2.2.2.1).put n1.2.2.1
          · rw [get_put_ne np.1, get_put_ne np.2.1, get_put]; rfl
          · exact (((p3.put (nps y (Or.inr rfl)).1).put npx.1).put (nps y (Or.inr rfl)).1).put (nps x (Or.inl rfl)).1
          · exact (((p4.put (nps y (Or.inr rfl)).2.1 (nps y (Or.inr rfl)).2.2).put npx.2.1 npx.2.2).put
              (nps y (Or.inr rfl)).2.1 (nps y (Or.inr rfl)).2.2).put (nps x (Or.inl rfl)).2.1 (nps x (Or.inl rfl)).2.2
      | R pc ps px =>
        have np := n4 px (Or.inl (by simp [ctxL]))
        have nps : ∀ o, o = x ∨ o = y → o ∉ traverse ps ∧ o ∉ ctxL ctx ∧ o ∉ ctxR ctx := by
          intro o ho
          simp only [ctxL, ctxR, List.mem_singleton, List.mem_append, not_or] at n1 n2
          rcases ho with rfl | rfl <;> grind
        have hh : (traverse (plug (node pc ps px (node c a x (node d b y e))) ctx)).Nodup := h.nodup
        have npx : px ∉ traverse ps ∧ px ∉ ctxL ctx ∧ px ∉ ctxR ctx := by
          have := nodup_node hh
          exact ⟨this.1, this.2.2.1, this.2.2.2.1⟩
        obtain ⟨p1, p2, p3, p4⟩ := gc
        have hps : top ps ≠ x := by
          intro e1
          by_cases hl : ps = leaf
          · subst hl; exact x1.1 e1.symm
          · exact (nps x (Or.inl rfl)).1 (e1 ▸ top_mem hl)
        simp only [parOf]
        refine Spec.bind (sp_assert (by simp [p1.1]) ?_)
        refine Spec.bind (sp_rd p1.1 (by rw [get_put_ne np.2.1]; exact p2) ?_)
        refine Spec.bind (sp_sel_f (by simp [hps]) ?_)
        refine sp_setRight p1.1 (by rw [get_put_ne np.2.1]; exact p2) ?_
        refine Spec.bind (sp_setLeft y1.1 (by omega) (by rw [get_put_ne np.2.1.symm, get_put]) ?_)
        refine sp_setParent x1.1 (n := ⟨c, top a, top b, px, key x⟩) ?_ ?_
        · rw [get_put_ne xy, get_put_ne np.1.symm, get_put_ne xy]; exact gx
        · refine hq _ (Rep.join ⟨y1, ?_, ⟨x1, get_put _ _ _ _, ?_, ?_⟩, ?_⟩ ⟨p1, ?_, ?_, ?_⟩ hnd')
          · rw [get_put_ne xy.symm, get_put]; rfl
          · exact (((ga.put n2.1).put np.2.2.1).put n2.1).put n1.1
          · exact (((gb.put n2.2.1).put np.2.2.2.1).put n2.2.1).put n1.2.1
          · exact (((ge.put n2.2.2.1).put np.2.2.2.2).put n2.2.2.1).put n1.2.2.1
          · rw [get_put_ne np.1, get_put_ne np.2.1, get_put]; rfl
          · exact (((p3.put (nps y (Or.inr rfl)).1).put npx.1).put (nps y (Or.inr rfl)).1).put (nps x (Or.inl rfl)).1
          · exact (((p4.put (nps y (Or.inr rfl)).2.1 (nps y (Or.inr rfl)).2.2).put npx.2.1 npx.2.2).put
              (nps y (Or.inr rfl)).2.1 (nps y (Or.inr rfl)).2.2).put (nps x (Or.inl rfl)).2.1 (nps x (Or.inl rfl)).2.2
  refine Spec.bind (sp_reparent (p' := x) (hb'.put n1.2.1) nb ?_ ?_)
  · intro e0
    subst e0
    exact key1 _ rfl (get_put _ _ _ _) (by rw [get_put_ne xy.symm]; exact y2) (ha.put n1.1) trivial (he.put n1.2.2.1)
      (hc.put n1.2.2.2.1 n1.2.2.2.2)
  · intro n hne hbx
    have hm := n3 _ (top_mem hne)
    exact key1 _ rfl (by rw [get_put_ne hm.1.symm, get_put]; rfl) (by rw [get_put_ne hm.2.1.symm, get_put_ne xy.symm]; exact y2)
      ((ha.put n1.1).put hm.2.2.1) hbx ((he.put n1.2.2.1).put hm.2.2.2.1)
      ((hc.put n1.2.2.2.1 n1.2.2.2.2).put hm.2.2.2.2.1 hm.2.2.2.2.2)

theorem rotateRight_spec (hb : 0 < t.base) (hs : t.size ≤ 2 ^ 63) {m : Mem κ} {c d : Color} {a b e : Tree Nat}
    {x y : Nat} {ctx : Ctx Nat} (h : Rep t key m (plug (node c (node d a y b) x e) ctx)) (hd : ctx = [] → d = black)
    {Q : Unit → Mem κ → Prop}
    (hq : ∀ m', Rep t key m' (plug (node d a y (node c b x e)) ctx) → Q () m') :
    Spec (rotateRight t (pt t x)) m Q := by
  obtain ⟨⟨x1, x2, ⟨y1, y2, ha, hb'⟩, he⟩, hc⟩ := h.split
  have hnd := h.nodup
  have hnd' : (traverse (plug (node d a y (node c b x e)) ctx)).Nodup := by
    rw [traverse_plug] at hnd ⊢
    simpa [traverse] using hnd
  rw [traverse_plug] at hnd
  simp only [traverse, List.nodup_append, List.nodup_cons, List.mem_append, List.mem_cons] at hnd
  have nb : (traverse b).Nodup := by grind
  have xy : x ≠ y := by grind
  have n1 : x ∉ traverse a ∧ x ∉ traverse b ∧ x ∉ traverse e ∧ x ∉ ctxL ctx ∧ x ∉ ctxR ctx := by grind
  have n2 : y ∉ traverse a ∧ y ∉ traverse b ∧ y ∉ traverse e ∧ y ∉ ctxL ctx ∧ y ∉ ctxR ctx := by grind
  have n3 : ∀ o ∈ traverse b, o ≠ x ∧ o ≠ y ∧ o ∉ traverse a ∧ o ∉ traverse e ∧ o ∉ ctxL ctx ∧ o ∉ ctxR ctx := by grind
  have n4 : ∀ o, o ∈ ctxL ctx ∨ o ∈ ctxR ctx → o ≠ x ∧ o ≠ y ∧ o ∉ traverse a ∧ o ∉ traverse b ∧ o ∉ traverse e := by
    grind
  have tb := hb'.top_ok
  have hpar := hc.par_ok
  unfold rotateRight
  refine Spec.bind (sp_rd x1.1 x2 ?_)
  refine Spec.bind (sp_ptr (Or.inr y1.2) ?_)
  refine Spec.bind (sp_ptr hpar ?_)
  refine Spec.bind (sp_rd y1.1 y2 ?_)
  refine Spec.bind (sp_setLeft x1.1 (by dsimp only; omega) x2 ?_)
  refine Spec.bind (sp_off hb (Or.inr x1.2) ?_)
  refine Spec.bind (sp_off hb (Or.inr y1.2) ?_)
  dsimp only [top]
  -- the state before the parent of `b` is changed
  have key1 : ∀ m1 : Mem κ, m1.root = m.root → get t m1 x = some ⟨c, top b, top e, parOf ctx, key x⟩ →
      get t m1 y = some ⟨d, top a, top b, x, key y⟩ → RepT t key m1 a y → RepT t key m1 b x → RepT t key m1 e x →
      RepC t key m1 ctx x →
      Spec (do
        let root ← getRoot
        if root != x then do
          let op ← off t (pt t (parOf ctx))
          setParent (pt t y) op
          let np ← rd (pt t (parOf ctx))
          sel (np.right == x) (setRight (pt t (parOf ctx)) y) (setLeft (pt t (parOf ctx)) y)
          setRight (pt t y) x
          setParent (pt t x) y
        else do
          setRoot y
          setColor (pt t y) .black
          setParent (pt t y) 0
          setRight (pt t y) x
          setParent (pt t x) y) m1 Q := by
    intro m1 hr gx gy ga gb ge gc
    refine Spec.bind (sp_getRoot ?_)
    have hroot : m.root = top (plug (node c (node d a y b) x e) ctx) := h.root
    cases ctx with
    | nil =>
      obtain rfl := hd rfl
      have : m.root = x := hroot
      rw [if_neg (by simp [hr, this])]
      refine Spec.bind (sp_setRoot ?_)
      refine Spec.bind (sp_setColor y1.1 (by rw [get_setR]; exact gy) ?_)
      refine Spec.bind (sp_setParent y1.1 (get_put _ _ _ _) ?_)
      refine Spec.bind (sp_setRight y1.1 (get_put _ _ _ _) ?_)
      refine sp_setParent x1.1 (n := ⟨c, top b, top e, 0, key x⟩) ?_ ?_
      · rw [get_put_ne xy, get_put_ne xy, get_put_ne xy, get_setR]; exact gx
      · refine hq _ (Rep.join (ctx := []) ⟨y1, ?_, ?_, ⟨x1, get_put _ _ _ _, ?_, ?_⟩⟩ rfl hnd')
        · rw [get_put_ne xy.symm, get_put]; rfl
        · exact (((ga.setR.put n2.1).put n2.1).put n2.1).put n1.1
        · exact (((gb.setR.put n2.2.1).put n2.2.1).put n2.2.1).put n1.2.1
        · exact (((ge.setR.put n2.2.2.1).put n2.2.2.1).put n2.2.2.1).put n1.2.2.1
    | cons f ctx =>
      have hne : m.root ≠ x := by
        intro e1
        have : m.root ∈ ctxL (f :: ctx) ∨ m.root ∈ ctxR (f :: ctx) := by
          rw [hroot]
          exact top_plug_cons _ _ _
        exact (n4 _ this).1 e1
      rw [if_pos (by simp [hr, hne])]
      refine Spec.bind (sp_off hb hpar ?_)
      refine Spec.bind (sp_setParent y1.1 gy ?_)
      cases f with
      | R pc ps px =>
        have np := n4 px (Or.inl (by simp [ctxL]))
        have nps : ∀ o, o = x ∨ o = y → o ∉ traverse ps ∧ o ∉ ctxL ctx ∧ o ∉ ctxR ctx := by
          intro o ho
          simp only [ctxL, ctxR, List.mem_singleton, List.mem_append, not_or] at n1 n2
          rcases ho with rfl | rfl <;> grind
        have hh : (traverse (plug (node pc ps px (node c (node d a y b) x e)) ctx)).Nodup := h.nodup
        have npx : px ∉ traverse ps ∧ px ∉ ctxL ctx ∧ px ∉ ctxR ctx := by
          have := nodup_node hh
          exact ⟨this.1, this.2.2.1, this.2.2.2.1⟩
        obtain ⟨p1, p2, p3, p4⟩ := gc
        simp only [parOf]
        refine Spec.bind (sp_rd p1.1 (by rw [get_put_ne np.2.1]; exact p2) ?_)
        refine Spec.bind (sp_sel_t (by simp) ?_)
        refine sp_setRight p1.1 (by rw [get_put_ne np.2.1]; exact p2) ?_
        refine Spec.bind (sp_setRight y1.1 (by rw [get_put_ne np.2.1.symm, get_put]) ?_)
        refine sp_setParent x1.1 (n := ⟨c, top b, top e, px, key x⟩) ?_ ?_
        · rw [get_put_ne xy, get_put_ne np.1.symm, get_put_ne xy]; exact gx
        · refine hq _ (Rep.join ⟨y1, ?_, ?_, ⟨x1, get_put _ _ _ _, ?_, ?_⟩⟩ ⟨p1, ?_, ?_, ?_⟩ hnd')
          · rw [get_put_ne xy.symm, get_put]; rfl
          · exact (((ga.put n2.1).put np.2.2.1).put n2.1).put n1.1
          · exact (((gb.put n2.2.1).put np.2.2.2.1).put n2.2.1).put n1.2.1
          · exact (((ge.put n2.2.2.1).put np.2.2.2.2).put n2.2.2.1).put n1.2.2.1
          · rw [get_put_ne np.1, get_put_ne np.2.1, get_put]; rfl
          · exact (((p3.put (nps y (Or.inr rfl)).1).put npx.1).put (nps y (Or.inr rfl)).1).put (nps x (Or.inl rfl)).1
          · exact (((p4.put (nps y (Or.inr rfl)).2.1 (nps y (Or.inr rfl)).2.2).put npx.2.1 npx.2.2).put
              (nps y (Or.inr rfl)).2.1 (nps y (Or.inr rfl)).2.2).put (nps x (Or.inl rfl)).2.1 (nps x (Or.inl rfl)).2.2
      | L pc px ps =>
        have np := n4 px (Or.inr (by simp [ctxR]))
        have nps : ∀ o, o = x ∨ o = y → o ∉ traverse ps ∧ o ∉ ctxL ctx ∧ o ∉ ctxR ctx := by
          intro o ho
          simp only [ctxL, ctxR, List.mem_cons, List.mem_append, not_or] at n1 n2
          rcases ho with rfl | rfl <;> grind
        have hh : (traverse (plug (node pc (node c (node d a y b) x e) px ps) ctx)).Nodup := h.nodup
        have npx : px ∉ traverse ps ∧ px ∉ ctxL ctx ∧ px ∉ ctxR ctx := by
          have := nodup_node hh
          exact ⟨this.2.1, this.2.2.1, this.2.2.2.1⟩
        obtain ⟨p1, p2, p3, p4⟩ := gc
        have hps : top ps ≠ x := by
          intro e1
          by_cases hl : ps = leaf
          · subst hl; exact x1.1 e1.symm
          · exact (nps x (Or.inl rfl)).1 (e1 ▸ top_mem hl)
        simp only [parOf]
        refine Spec.bind (sp_rd p1.1 (by rw [get_put_ne np.2.1]; exact p2) ?_)
        refine Spec.bind (sp_sel_f (by simp [hps]) ?_)
        refine sp_setLeft p1.1 (by omega) (by rw [get_put_ne np.2.1]; exact p2) ?_
        refine Spec.bind (sp_setRight y1.1 (by rw [get_put_ne np.2.1.symm, get_put]) ?_)
        refine sp_setParent x1.1 (n := ⟨c, top b, top e, px, key x⟩) ?_ ?_
        · rw [get_put_ne xy, get_put_ne np.1.symm, get_put_ne xy]; exact gx
        · refine hq _ (Rep.join ⟨y1, ?_, ?_, ⟨x1, get_put _ _ _ _, ?_, ?_⟩⟩ ⟨p1, ?_, ?_, ?_⟩ hnd')
          · rw [get_put_ne xy.symm, get_put]; rfl
          · exact (((ga.put n2.1).put np.2.2.1).put n2.1).put n1.1
          · exact (((gb.put n2.2.1).put np.2.2.2.1).put n2.2.1).put n1.2.1
          · exact (((ge.put n2.2.2.1).put np.2.2.2.2).put n2.2.2.1).put n1.2.2.1
          · rw [get_put_ne np.1, get_put_ne np.2.1, get_put]; rfl
          · exact (((p3.put (nps y (Or.inr rfl)).1).put npx.1).put (nps y (Or.inr rfl)).1).put (nps x (Or.inl rfl)).1
          · exact (((p4.put (nps y (Or.inr rfl)).2.1 (nps y (Or.inr rfl)).2.2).put npx.2.1 npx.2.2).put
              (nps y (Or.inr rfl)).2.1 (nps y (Or.inr rfl)).2.2).put (nps x (Or.inl rfl)).2.1 (nps x (Or.inl rfl)).2.2
  refine Spec.bind (sp_reparent (p' := x) (hb'.put n1.2.1) nb ?_ ?_)
  · intro e0
    subst e0
    exact key1 _ rfl (get_put _ _ _ _) (by rw [get_put_ne xy.symm]; exact y2) (ha.put n1.1) trivial (he.put n1.2.2.1)
      (hc.put n1.2.2.2.1 n1.2.2.2.2)
  · intro n hne hbx
    have hm := n3 _ (top_mem hne)
    exact key1 _ rfl (by rw [get_put_ne hm.1.symm, get_put]; rfl)
      (by rw [get_put_ne hm.2.1.symm, get_put_ne xy.symm]; exact y2)
      ((ha.put n1.1).put hm.2.2.1) hbx ((he.put n1.2.2.1).put hm.2.2.2.1)
      ((hc.put n1.2.2.2.1 n1.2.2.2.2).put hm.2.2.2.2.1 hm.2.2.2.2.2)

end Verif.Rrbt
