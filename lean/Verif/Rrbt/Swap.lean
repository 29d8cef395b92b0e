import Verif.Rrbt.Del

/-!
# Deletion of a node with two children: it changes places with its predecessor
-/

namespace Verif.Rrbt

open Verif.Rbt (Tree Frame Ctx plug traverse ctxL ctxR traverse_plug blacken)
open Verif.Rbt.Tree (leaf node)
open Verif.Rbt.Color (red black)

variable {κ : Type} {t : Inst} {key : Nat → κ}

/-! ## a part of the path to a place -/

/-- the parent of the place below the frames, when the parent of the outermost is `p` -/
def parD : Ctx Nat → Nat → Nat
  | [], p => p
  | Frame.L _ x _ :: _, _ => x
  | Frame.R _ _ x :: _, _ => x

/-- the frames are in memory, `o` is at the place below them and `p` is the parent of the outermost -/
def RepS (t : Inst) (key : Nat → κ) (m : Mem κ) : Ctx Nat → Nat → Nat → Prop
  | [], _, _ => True
  | Frame.L c x r :: fs, o, p => (x ≠ 0 ∧ x < t.size) ∧ get t m x = some ⟨c, o, top r, parD fs p, key x⟩ ∧
    RepT t key m r x ∧ RepS t key m fs x p
  | Frame.R c l x :: fs, o, p => (x ≠ 0 ∧ x < t.size) ∧ get t m x = some ⟨c, top l, o, parD fs p, key x⟩ ∧
    RepT t key m l x ∧ RepS t key m fs x p

theorem repT_plug {m : Mem κ} {p : Nat} (fs : Ctx Nat) : ∀ T : Tree Nat,
    RepT t key m (plug T fs) p ↔ RepT t key m T (parD fs p) ∧ RepS t key m fs (top T) p := by
  induction fs with
  | nil => intro T; simp [plug, parD, RepS]
  | cons f fs ih =>
    intro T
    cases f with
    | L c x r =>
      rw [show plug T (Frame.L c x r :: fs) = plug (node c T x r) fs from rfl, ih]
      constructor
      · rintro ⟨⟨h1, h2, h3, h4⟩, h5⟩; exact ⟨h3, h1, h2, h4, h5⟩
      · rintro ⟨h3, h1, h2, h4, h5⟩; exact ⟨⟨h1, h2, h3, h4⟩, h5⟩
    | R c l x =>
      rw [show plug T (Frame.R c l x :: fs) = plug (node c l x T) fs from rfl, ih]
      constructor
      · rintro ⟨⟨h1, h2, h3, h4⟩, h5⟩; exact ⟨h4, h1, h2, h3, h5⟩
      · rintro ⟨h3, h1, h2, h4, h5⟩; exact ⟨⟨h1, h2, h4, h3⟩, h5⟩

theorem RepS.put {m : Mem κ} {o : Nat} {n : Node κ} : ∀ {fs : Ctx Nat} {q p : Nat}, RepS t key m fs q p →
    o ∉ ctxL fs → o ∉ ctxR fs → RepS t key (put t m o n) fs q p := by
  intro ctx
  induction ctx with
  | nil => intro q p h _ _; exact h
  | cons f ctx ih =>
    intro q p h h1 h2
    cases f with
    | L c x r =>
      simp only [ctxL, ctxR, List.mem_append, List.mem_cons, not_or] at h1 h2
      obtain ⟨g1, g2, g3, g4⟩ := h
      exact ⟨g1, by rw [get_put_ne (Ne.symm h2.1)]; exact g2, g3.put h2.2.1, ih g4 h1 h2.2.2⟩
    | R c l x =>
      simp only [ctxL, ctxR, List.mem_append, List.mem_singleton, not_or] at h1 h2
      obtain ⟨g1, g2, g3, g4⟩ := h
      exact ⟨g1, by rw [get_put_ne (Ne.symm h1.2)]; exact g2, g3.put h1.1.2, ih g4 h1.1.1 h2⟩

theorem RepS.setR {m : Mem κ} {o : Nat} : ∀ {fs : Ctx Nat} {q p : Nat}, RepS t key m fs q p →
    RepS t key (setR m o) fs q p := by
  intro ctx
  induction ctx with
  | nil => intro q p h; exact h
  | cons f ctx ih =>
    intro q p h
    cases f with
    | L c x r => obtain ⟨g1, g2, g3, g4⟩ := h; exact ⟨g1, g2, g3.setR, ih g4⟩
    | R c l x => obtain ⟨g1, g2, g3, g4⟩ := h; exact ⟨g1, g2, g3.setR, ih g4⟩

/-- the outermost of the frames gets a new parent -/
theorem RepS.reparent {m : Mem κ} {T : Tree Nat} {p' : Nat} : ∀ {f : Frame Nat} {fs : Ctx Nat} {q p : Nat},
    RepS t key m (f :: fs) q p → (ctxL (f :: fs) ++ ctxR (f :: fs)).Nodup →
    ∃ n, get t m (top (plug T (f :: fs))) = some n ∧
      RepS t key (Verif.Rrbt.put t m (top (plug T (f :: fs))) { n with parent := p' }) (f :: fs) q p' := by
  intro f fs
  induction fs generalizing f T with
  | nil =>
    intro q p h hnd
    cases f with
    | L c x r =>
      obtain ⟨g1, g2, g3, g4⟩ := h
      simp only [ctxL, ctxR, List.nil_append, List.append_nil, List.nodup_cons] at hnd
      exact ⟨_, g2, g1, get_put _ _ _ _, g3.put hnd.1, trivial⟩
    | R c l x =>
      obtain ⟨g1, g2, g3, g4⟩ := h
      simp only [ctxL, ctxR, List.nil_append, List.append_nil] at hnd
      refine ⟨_, g2, g1, get_put _ _ _ _, g3.put ?_, trivial⟩
      intro hm
      simp only [plug, top] at hm
      rw [List.nodup_append] at hnd
      exact hnd.2.2 x hm x (by simp) rfl
  | cons g fs ih =>
    intro q p h hnd
    cases f with
    | L c x r =>
      obtain ⟨g1, g2, g3, g4⟩ := h
      have hm := top_plug_cons fs g (node c T x r)
      simp only [ctxL.eq_2, ctxR.eq_2] at hnd
      have hnd' : (ctxL (g :: fs) ++ ctxR (g :: fs)).Nodup := by
        simp only [List.nodup_append, List.nodup_cons, List.mem_cons, List.mem_append] at hnd ⊢
        grind
      obtain ⟨n, e1, e2⟩ := ih (T := node c T x r) g4 hnd'
      refine ⟨n, e1, g1, ?_, g3.put ?_, e2⟩
      · refine (get_put_ne ?_ _).trans (g2.trans ?_)
        · intro e
          rw [show plug T (Frame.L c x r :: g :: fs) = plug (node c T x r) (g :: fs) from rfl] at e
          rw [← e] at hm
          simp only [List.nodup_append, List.nodup_cons, List.mem_cons, List.mem_append] at hnd
          grind
        · cases g <;> rfl
      · intro e
        rw [show plug T (Frame.L c x r :: g :: fs) = plug (node c T x r) (g :: fs) from rfl] at e
        simp only [List.nodup_append, List.nodup_cons, List.mem_cons, List.mem_append] at hnd
        grind
    | R c l x =>
      obtain ⟨g1, g2, g3, g4⟩ := h
      have hm := top_plug_cons fs g (node c l x T)
      simp only [ctxL.eq_3, ctxR.eq_3] at hnd
      have hnd' : (ctxL (g :: fs) ++ ctxR (g :: fs)).Nodup := by
        simp only [List.nodup_append, List.nodup_cons, List.mem_cons, List.mem_append] at hnd ⊢
        grind
      obtain ⟨n, e1, e2⟩ := ih (T := node c l x T) g4 hnd'
      refine ⟨n, e1, g1, ?_, g3.put ?_, e2⟩
      · refine (get_put_ne ?_ _).trans (g2.trans ?_)
        · intro e
          rw [show plug T (Frame.R c l x :: g :: fs) = plug (node c l x T) (g :: fs) from rfl] at e
          rw [← e] at hm
          simp only [List.nodup_append, List.nodup_cons, List.mem_cons, List.mem_append] at hnd
          grind
        · cases g <;> rfl
      · intro e
        rw [show plug T (Frame.R c l x :: g :: fs) = plug (node c l x T) (g :: fs) from rfl] at e
        simp only [List.nodup_append, List.nodup_cons, List.mem_cons, List.mem_append] at hnd
        grind

/-! ## the walk to the predecessor -/

theorem rightmost_spec (m : Mem κ) : ∀ (fuel : Nat) (T : Tree Nat) (ctx below0 : Ctx Nat) (pc : Color)
    (pl : Tree Nat) (px : Nat) (below : Ctx Nat), (traverse T).length ≤ fuel → T ≠ leaf → Rep t key m (plug T ctx) →
    Rbt.findPred T below0 = some (pc, pl, px, below) →
    Spec (rightmost t fuel (pt t (top T))) m fun q m' => m' = m ∧ q = pt t px
  | _, leaf, _, _, _, _, _, _, _, hne, _, _ => absurd rfl hne
  | 0, node c l x r, _, _, _, _, _, _, hf, _, _, _ => by simp [traverse] at hf
  | fuel + 1, node c l x leaf, ctx, below0, pc, pl, px, below, hf, hne, h, hp => by
    unfold rightmost
    refine Spec.bind (h.rd ?_)
    rw [if_pos (by rfl)]
    simp only [Rbt.findPred, Option.some.injEq, Prod.mk.injEq] at hp
    obtain ⟨_, _, rfl, _⟩ := hp
    exact Spec.pure ⟨rfl, rfl⟩
  | fuel + 1, node c l x (node c' l' x' r'), ctx, below0, pc, pl, px, below, hf, hne, h, hp => by
    have h' : Rep t key m (plug (node c' l' x' r') (Frame.R c l x :: ctx)) := h
    unfold rightmost
    refine Spec.bind (h.rd ?_)
    rw [if_neg (by simp [top, h'.cell.1.1])]
    refine Spec.bind (h.ptrR ?_)
    rw [Rbt.findPred] at hp
    refine rightmost_spec m fuel (node c' l' x' r') (Frame.R c l x :: ctx) _ pc pl px below ?_ (by simp) h' hp
    simp only [traverse, List.length_append, List.length_cons] at hf ⊢
    omega

/-! ## the exchange -/

/-- what is where, during the exchange of `n` and `px`: the cells of the two; the frames between them, with
the node below and the parent above; the left subtree of `px`; the right subtree of `n`; the ancestors of `n` -/
structure Sw (t : Inst) (key : Nat → κ) (below ctx : Ctx Nat) (pl r : Tree Nat) (n px : Nat) (m : Mem κ)
    (X N : Node κ) (inner outer plp rp link : Nat) : Prop where
  gx : get t m px = some X
  gn : get t m n = some N
  sb : RepS t key m below inner outer
  tl : RepT t key m pl plp
  tr : RepT t key m r rp
  cc : RepC t key m ctx link

/-- the nodes are all different -/
structure Dj (below ctx : Ctx Nat) (pl r : Tree Nat) (n px : Nat) : Prop where
  nx : n ≠ px
  dx : px ∉ ctxL below ∧ px ∉ ctxR below ∧ px ∉ traverse pl ∧ px ∉ traverse r ∧ px ∉ ctxL ctx ∧ px ∉ ctxR ctx
  dn : n ∉ ctxL below ∧ n ∉ ctxR below ∧ n ∉ traverse pl ∧ n ∉ traverse r ∧ n ∉ ctxL ctx ∧ n ∉ ctxR ctx
  db : ∀ o, o ∈ ctxL below ∨ o ∈ ctxR below →
    o ≠ n ∧ o ≠ px ∧ o ∉ traverse pl ∧ o ∉ traverse r ∧ o ∉ ctxL ctx ∧ o ∉ ctxR ctx
  dpl : ∀ o ∈ traverse pl, o ≠ n ∧ o ≠ px ∧ o ∉ ctxL below ∧ o ∉ ctxR below ∧ o ∉ traverse r ∧ o ∉ ctxL ctx ∧ o ∉ ctxR ctx
  dr : ∀ o ∈ traverse r, o ≠ n ∧ o ≠ px ∧ o ∉ ctxL below ∧ o ∉ ctxR below ∧ o ∉ traverse pl ∧ o ∉ ctxL ctx ∧ o ∉ ctxR ctx
  dc : ∀ o, o ∈ ctxL ctx ∨ o ∈ ctxR ctx →
    o ≠ n ∧ o ≠ px ∧ o ∉ ctxL below ∧ o ∉ ctxR below ∧ o ∉ traverse pl ∧ o ∉ traverse r
  nb : (ctxL below ++ ctxR below).Nodup
  npl : (traverse pl).Nodup
  nr : (traverse r).Nodup
  nc : (ctxL ctx ++ ctxR ctx).Nodup

theorem dj_of_nodup {below ctx : Ctx Nat} {pl r : Tree Nat} {n px : Nat} {c pc : Color}
    (h : (traverse (plug (node pc pl px leaf) (below ++ Frame.L c n r :: ctx))).Nodup) : Dj below ctx pl r n px := by
  rw [traverse_plug, Rbt.ctxL_append, Rbt.ctxR_append] at h
  simp only [ctxL, ctxR, traverse, List.nodup_append, List.nodup_cons, List.mem_append, List.mem_cons] at h
  constructor
  · grind
  · grind
  · grind
  · grind
  · grind
  · grind
  · grind
  · rw [List.nodup_append]; grind
  · grind
  · grind
  · rw [List.nodup_append]; grind

section swap

variable {below ctx : Ctx Nat} {pl r : Tree Nat} {n px : Nat} {m : Mem κ} {X N X' N' : Node κ}
  {inner outer plp rp link : Nat}

theorem Sw.putX (h : Sw t key below ctx pl r n px m X N inner outer plp rp link) (d : Dj below ctx pl r n px) :
    Sw t key below ctx pl r n px (put t m px X') X' N inner outer plp rp link :=
  ⟨get_put _ _ _ _, by rw [get_put_ne d.nx]; exact h.gn, h.sb.put d.dx.1 d.dx.2.1, h.tl.put d.dx.2.2.1,
    h.tr.put d.dx.2.2.2.1, h.cc.put d.dx.2.2.2.2.1 d.dx.2.2.2.2.2⟩

theorem Sw.putN (h : Sw t key below ctx pl r n px m X N inner outer plp rp link) (d : Dj below ctx pl r n px) :
    Sw t key below ctx pl r n px (put t m n N') X N' inner outer plp rp link :=
  ⟨by rw [get_put_ne d.nx.symm]; exact h.gx, get_put _ _ _ _, h.sb.put d.dn.1 d.dn.2.1, h.tl.put d.dn.2.2.1,
    h.tr.put d.dn.2.2.2.1, h.cc.put d.dn.2.2.2.2.1 d.dn.2.2.2.2.2⟩

/-- the parent of the right subtree -/
theorem Sw.parR (h : Sw t key below ctx pl r n px m X N inner outer plp rp link) (d : Dj below ctx pl r n px)
    (hr : r ≠ leaf) (p : Nat) {Q : Unit → Mem κ → Prop}
    (hq : ∀ m', Sw t key below ctx pl r n px m' X N inner outer plp p link → Q () m') :
    Spec (setParent (pt t (top r)) p) m Q := by
  have hm := d.dr _ (top_mem hr)
  have hg : ∃ v, get t m (top r) = some v ∧ top r ≠ 0 := by
    have := h.tr
    cases r with
    | leaf => exact absurd rfl hr
    | node _ _ _ _ => exact ⟨_, this.2.1, this.1.1⟩
  obtain ⟨v, hg, h0⟩ := hg
  refine sp_setParent h0 hg (hq _ ⟨?_, ?_, ?_, ?_, h.tr.reparent hr d.nr hg, ?_⟩)
  · rw [get_put_ne hm.2.1.symm]; exact h.gx
  · rw [get_put_ne hm.1.symm]; exact h.gn
  · exact h.sb.put hm.2.2.1 hm.2.2.2.1
  · exact h.tl.put hm.2.2.2.2.1
  · exact h.cc.put hm.2.2.2.2.2.1 hm.2.2.2.2.2.2

/-- the parent of the left subtree of `px` -/
theorem Sw.parL (h : Sw t key below ctx pl r n px m X N inner outer plp rp link) (d : Dj below ctx pl r n px)
    (p : Nat) {Q : Unit → Mem κ → Prop}
    (hq : ∀ m', Sw t key below ctx pl r n px m' X N inner outer p rp link → Q () m') :
    Spec (when' (top pl != 0) (do let c ← ptr t (top pl); setParent c p)) m Q := by
  by_cases hl : pl = leaf
  · subst hl
    exact sp_when_f rfl (hq _ ⟨h.gx, h.gn, h.sb, trivial, h.tr, h.cc⟩)
  · have hm := d.dpl _ (top_mem hl)
    have hg : ∃ v, get t m (top pl) = some v ∧ top pl ≠ 0 ∧ top pl < t.size := by
      have := h.tl
      cases pl with
      | leaf => exact absurd rfl hl
      | node _ _ _ _ => exact ⟨_, this.2.1, this.1⟩
    obtain ⟨v, hg, h0, h1⟩ := hg
    refine sp_when_t (by simp [h0]) (Spec.bind (sp_ptr (Or.inr h1) ?_))
    refine sp_setParent h0 hg (hq _ ⟨?_, ?_, ?_, h.tl.reparent hl d.npl hg, ?_, ?_⟩)
    · rw [get_put_ne hm.2.1.symm]; exact h.gx
    · rw [get_put_ne hm.1.symm]; exact h.gn
    · exact h.sb.put hm.2.2.1 hm.2.2.2.1
    · exact h.tr.put hm.2.2.2.2.1
    · exact h.cc.put hm.2.2.2.2.2.1 hm.2.2.2.2.2.2

/-- the parent of the outermost node between the two -/
theorem Sw.parB (h : Sw t key below ctx pl r n px m X N inner outer plp rp link) (d : Dj below ctx pl r n px)
    (hbe : below ≠ []) (T : Tree Nat) (ho : top (plug T below) ≠ 0) (p : Nat) {Q : Unit → Mem κ → Prop}
    (hq : ∀ m', Sw t key below ctx pl r n px m' X N inner p plp rp link → Q () m') :
    Spec (setParent (pt t (top (plug T below))) p) m Q := by
  cases below with
  | nil => exact absurd rfl hbe
  | cons f fs =>
    obtain ⟨v, hg, hs⟩ := RepS.reparent (T := T) (p' := p) h.sb d.nb
    have hm := d.db _ (top_plug_cons fs f T)
    refine sp_setParent ho hg (hq _ ⟨?_, ?_, hs, ?_, ?_, ?_⟩)
    · rw [get_put_ne hm.2.1.symm]; exact h.gx
    · rw [get_put_ne hm.1.symm]; exact h.gn
    · exact h.tl.put hm.2.2.1
    · exact h.tr.put hm.2.2.2.1
    · exact h.cc.put hm.2.2.2.2.1 hm.2.2.2.2.2

/-- the right link of the innermost node between the two -/
theorem Sw.linkB {c : Color} {l : Tree Nat} {x : Nat} {fs : Ctx Nat}
    (h : Sw t key (Frame.R c l x :: fs) ctx pl r n px m X N inner outer plp rp link)
    (d : Dj (Frame.R c l x :: fs) ctx pl r n px) (o : Nat) {Q : Unit → Mem κ → Prop}
    (hq : ∀ m', Sw t key (Frame.R c l x :: fs) ctx pl r n px m' X N o outer plp rp link → Q () m') :
    Spec (setRight (pt t x) o) m Q := by
  obtain ⟨g1, g2, g3, g4⟩ := h.sb
  have hm := d.db x (by simp [ctxL])
  have hnb := d.nb
  simp only [ctxL, ctxR, List.nodup_append, List.mem_append, List.mem_singleton] at hnb
  refine sp_setRight g1.1 g2 (hq _ ⟨?_, ?_, ⟨g1, get_put _ _ _ _, g3.put ?_, g4.put ?_ ?_⟩, ?_, ?_, ?_⟩)
  · rw [get_put_ne hm.2.1.symm]; exact h.gx
  · rw [get_put_ne hm.1.symm]; exact h.gn
  · grind
  · grind
  · grind
  · exact h.tl.put hm.2.2.1
  · exact h.tr.put hm.2.2.2.1
  · exact h.cc.put hm.2.2.2.2.1 hm.2.2.2.2.2

/-- the link from above -/
theorem Sw.relink (hs : t.size ≤ 2 ^ 63) (h : Sw t key below ctx pl r n px m X N inner outer plp rp n)
    (d : Dj below ctx pl r n px) (hx : px ≠ 0 ∧ px < t.size) (hn : n ≠ 0) (nn : Node κ) (paint : Bool)
    (hnn : nn.parent = parOf ctx) (hX : X.parent = parOf ctx) (hc : ctx = [] → X.color = black)
    {Q : Unit → Mem κ → Prop}
    (hq : ∀ m', Sw t key below ctx pl r n px m' X N inner outer plp rp px → Q () m') :
    Spec (relink t nn n px (pt t px) paint) m Q := by
  unfold Rrbt.relink
  rw [hnn]
  cases ctx with
  | nil =>
    rw [if_neg (by simp [parOf])]
    refine Spec.bind (sp_setRoot ?_)
    have h1 : Sw t key below [] pl r n px (setR m px) X N inner outer plp rp px :=
      ⟨h.gx, h.gn, h.sb.setR, h.tl.setR, h.tr.setR, rfl⟩
    have hpp : ∀ m1 : Mem κ, Sw t key below [] pl r n px m1 X N inner outer plp rp px →
        Spec (setParent (pt t px) 0) m1 Q := by
      intro m1 h2
      refine sp_setParent hx.1 h2.gx (hq _ ?_)
      have e : ({ X with parent := 0 } : Node κ) = X := by
        cases X; simp only [parOf] at hX; simp [hX]
      have := h2.putX (X' := { X with parent := 0 }) d
      rw [e] at this ⊢
      exact this
    cases paint with
    | false => exact Spec.bind (sp_when_f rfl (hpp _ h1))
    | true =>
      refine Spec.bind (sp_when_t rfl (sp_setColor hx.1 h1.gx ?_))
      have e : ({ X with color := black } : Node κ) = X := by
        have := hc rfl
        cases X; simp only at this; simp [this]
      have h2 := h1.putX (X' := { X with color := black }) d
      rw [e] at h2 ⊢
      exact hpp _ h2
  | cons f ctx =>
    have hnc := d.nc
    cases f with
    | L pc y ps =>
      obtain ⟨g1, g2, g3, g4⟩ := h.cc
      have hm := d.dc y (by simp [ctxR])
      simp only [ctxL, ctxR, List.nodup_append, List.nodup_cons, List.mem_append, List.mem_cons] at hnc
      rw [if_pos (by simp [parOf, g1.1])]
      simp only [parOf]
      refine Spec.bind (sp_ptr (Or.inr g1.2) ?_)
      refine Spec.bind (sp_rd g1.1 g2 ?_)
      refine sp_sel_t (by simp) (sp_setLeft g1.1 (by omega) g2 (hq _ ⟨?_, ?_, ?_, ?_, ?_, g1, get_put _ _ _ _,
        g3.put ?_, g4.put ?_ ?_⟩))
      · rw [get_put_ne hm.2.1.symm]; exact h.gx
      · rw [get_put_ne hm.1.symm]; exact h.gn
      · exact h.sb.put hm.2.2.1 hm.2.2.2.1
      · exact h.tl.put hm.2.2.2.2.1
      · exact h.tr.put hm.2.2.2.2.2
      · grind
      · grind
      · grind
    | R pc ps y =>
      obtain ⟨g1, g2, g3, g4⟩ := h.cc
      have hm := d.dc y (by simp [ctxL])
      simp only [ctxL, ctxR, List.nodup_append, List.nodup_cons, List.mem_append, List.mem_singleton] at hnc
      have hps : top ps ≠ n := by
        intro e
        by_cases hl : ps = leaf
        · subst hl; exact hn e.symm
        · refine d.dn.2.2.2.2.1 ?_
          simp only [ctxL, List.mem_append]
          exact Or.inl (Or.inr (e ▸ top_mem hl))
      rw [if_pos (by simp [parOf, g1.1])]
      simp only [parOf]
      refine Spec.bind (sp_ptr (Or.inr g1.2) ?_)
      refine Spec.bind (sp_rd g1.1 g2 ?_)
      refine sp_sel_f (by simp [hps]) (sp_setRight g1.1 g2 (hq _ ⟨?_, ?_, ?_, ?_, ?_, g1, get_put _ _ _ _,
        g3.put ?_, g4.put ?_ ?_⟩))
      · rw [get_put_ne hm.2.1.symm]; exact h.gx
      · rw [get_put_ne hm.1.symm]; exact h.gn
      · exact h.sb.put hm.2.2.1 hm.2.2.2.1
      · exact h.tl.put hm.2.2.2.2.1
      · exact h.tr.put hm.2.2.2.2.2
      · grind
      · grind
      · grind

/-- the tree after the exchange -/
theorem Sw.join {T : Tree Nat} {c : Color}
    (h : Sw t key below ctx pl r n px m X N (top T) px plp px px) (hT : RepT t key m T (parD below px))
    (hx : px ≠ 0 ∧ px < t.size) (hX : X = ⟨c, top (plug T below), top r, parOf ctx, key px⟩)
    (hnd : (traverse (plug T (below ++ Frame.L c px r :: ctx))).Nodup) :
    Rep t key m (plug T (below ++ Frame.L c px r :: ctx)) := by
  rw [Rbt.plug_append] at hnd ⊢
  have : Rep t key m (plug (node c (plug T below) px r) ctx) :=
    Rep.join ⟨hx, by rw [h.gx, hX], (repT_plug below T).2 ⟨hT, h.sb⟩, h.tr⟩ h.cc hnd
  exact this

end swap

theorem parOf_append (fs ctx : Ctx Nat) : parOf (fs ++ ctx) = parD fs (parOf ctx) := by
  cases fs with
  | nil => rfl
  | cons f fs => cases f <;> rfl

theorem rootBlack_append (c : Color) (x : Nat) (r : Tree Nat) (ctx : Ctx Nat) : ∀ fs : Ctx Nat,
    RootBlack' c ctx → RootBlack (fs ++ Frame.L c x r :: ctx)
  | [], h => by
    unfold RootBlack' at h
    cases ctx with
    | nil => simpa [RootBlack] using h
    | cons g ctx => simpa [RootBlack] using h
  | [f], h => by
    have := rootBlack_append c x r ctx [] h
    cases f <;> exact this
  | f :: g :: fs, h => by
    have := rootBlack_append c x r ctx (g :: fs) h
    cases f <;> exact this

theorem top_plug_indep : ∀ (fs : Ctx Nat) (f : Frame Nat) (T T' : Tree Nat),
    top (plug T (f :: fs)) = top (plug T' (f :: fs))
  | [], f, T, T' => by cases f <;> rfl
  | g :: fs, Frame.L c x r, T, T' => top_plug_indep fs g (node c T x r) (node c T' x r)
  | g :: fs, Frame.R c l x, T, T' => top_plug_indep fs g (node c l x T) (node c l x T')

theorem delTwo_spec (hb : 0 < t.base) (hs : t.size ≤ 2 ^ 63) {fuel : Nat} {m : Mem κ} {c : Color} {l r : Tree Nat}
    {n : Nat} {ctx : Ctx Nat} {w : Tree Nat} (hf : (traverse (plug (node c l n r) ctx)).length ≤ fuel)
    (hrb : RootBlack' c ctx) (h : Rep t key m (plug (node c l n r) ctx)) (hl : l ≠ leaf) (hr : r ≠ leaf)
    (hred : ∀ pl px below, Rbt.findPred l [] = some (red, pl, px, below) → pl = leaf)
    (hw : Rbt.delTwo c l r ctx = some w) :
    Spec (del t fuel (pt t n)) m fun _ m' => Rep t key m' (blacken w) := by
  obtain ⟨pc, pl, px, below, hfp, hpl, hR⟩ := Rbt.findPred_ok hl ([] : Ctx Nat)
  rw [List.append_nil] at hfp
  unfold Rbt.delTwo at hw
  rw [hfp] at hw
  dsimp only at hw
  have hl' : Rep t key m (plug l (Frame.L c n r :: ctx)) := h
  have hX : Rep t key m (plug (node pc pl px leaf) (below ++ Frame.L c n r :: ctx)) := by
    rw [Rbt.plug_append, hpl]; exact hl'
  have d := dj_of_nodup hX.nodup
  obtain ⟨x1, x2, _⟩ := hX.cell
  obtain ⟨n1, n2, _, _, _⟩ := h.cell
  obtain ⟨⟨_, _, tl, tr⟩, cc⟩ := h.split
  rw [← hpl] at tl
  obtain ⟨⟨_, _, tpl, _⟩, sb⟩ := (repT_plug below _).1 tl
  have hpar : parOf (below ++ Frame.L c n r :: ctx) = parD below n := parOf_append _ _
  rw [hpar] at x2
  have h0 : Sw t key below ctx pl r n px m _ _ px n px n n := ⟨x2, n2, sb, tpl, tr, cc⟩
  have htl : top l ≠ 0 ∧ top l < t.size := by
    have := tl
    rw [hpl] at this
    cases l with
    | leaf => exact absurd rfl hl
    | node _ _ _ _ => exact this.1
  have htr : top r ≠ 0 ∧ top r < t.size := by
    cases r with
    | leaf => exact absurd rfl hr
    | node _ _ _ _ => exact tr.1
  have hpn : parD below n ≠ 0 := by
    cases below with
    | nil => exact n1.1
    | cons f fs => cases f <;> exact sb.1.1
  have hlen : (below ++ Frame.L c px r :: ctx).length ≤ fuel := by
    have := ctx_length (node pc pl px leaf) (below ++ Frame.L c n r :: ctx)
    rw [Rbt.plug_append, hpl] at this
    simp only [List.length_append, List.length_cons] at this ⊢
    exact Nat.le_trans this hf
  have hndT : ∀ T : Tree Nat, (∀ o, (traverse T).count o ≤ (traverse (node pc pl n leaf)).count o) →
      (traverse (plug T (below ++ Frame.L c px r :: ctx))).Nodup := by
    intro T hT
    have h1 := hX.nodup
    rw [List.nodup_iff_count] at h1 ⊢
    intro o
    have := h1 o
    have h2 := hT o
    rw [traverse_plug, Rbt.ctxL_append, Rbt.ctxR_append] at this ⊢
    simp only [ctxL, ctxR, traverse, List.count_append, List.count_cons, List.count_nil] at this h2 ⊢
    omega
  have hc0 : ctx = [] → c = black := by
    intro e; subst e; simpa [RootBlack'] using hrb
  have hrb1 : RootBlack' pc (below ++ Frame.L c px r :: ctx) := by
    unfold RootBlack'
    rw [if_neg (by simp)]
    exact rootBlack_append c px r ctx below hrb
  unfold del
  refine Spec.bind (h.rd ?_)
  rw [if_pos (by simp [htl.1, htr.1])]
  refine Spec.bind (h.ptrL ?_)
  refine Spec.bind (Spec.mono (rightmost_spec m fuel l (Frame.L c n r :: ctx) [] pc pl px below ?_ hl hl' hfp) ?_)
  · refine Nat.le_trans ?_ hf
    rw [traverse_plug]
    simp only [traverse, List.length_append, List.length_cons]
    omega
  rintro _ _ ⟨rfl, rfl⟩
  refine Spec.bind (sp_rd x1.1 h0.gx ?_)
  refine Spec.bind (sp_off hb (Or.inr n1.2) ?_)
  refine Spec.bind (sp_off hb (Or.inr x1.2) ?_)
  refine Spec.bind (sp_assert (by simp [hpn]) ?_)
  cases below with
  | nil =>
    rw [if_neg (by simp [parD])]
    refine Spec.bind (sp_setColor x1.1 h0.gx ?_)
    have h1 := h0.putX (X' := { color := c, left := top pl, right := 0, parent := n, key := key px }) d
    refine Spec.bind (sp_setColor n1.1 h1.gn ?_)
    have h2 := h1.putN (N' := { color := pc, left := top l, right := top r, parent := parOf ctx, key := key n }) d
    refine Spec.bind (sp_setParent x1.1 h2.gx ?_)
    have h3 := h2.putX (X' := { color := c, left := top pl, right := 0, parent := parOf ctx, key := key px }) d
    refine Spec.bind (sp_setRight x1.1 h3.gx ?_)
    have h4 := h3.putX (X' := { color := c, left := top pl, right := top r, parent := parOf ctx, key := key px }) d
    refine Spec.bind (sp_ptr (Or.inr htr.2) ?_)
    refine Spec.bind (h4.parR d hr px fun m5 h5 => ?_)
    refine Spec.bind (h5.relink hs d x1 n1.1 _ true rfl rfl hc0 fun m6 h6 => ?_)
    cases pc with
    | red =>
      rw [if_pos (by rfl)]
      have hw' : plug pl (Frame.L c px r :: ctx) = w := by
        have : Rbt.onlyChild pl leaf = some pl := by cases pl <;> rfl
        simp only [Rbt.delOne, this, List.nil_append] at hw
        simpa [Rbt.replaceNode] using hw
      subst hw'
      have h7 : Sw t key [] ctx pl r n px m6 _ _ (top pl) px px px px :=
        ⟨h6.gx, h6.gn, trivial, h6.tl, h6.tr, h6.cc⟩
      have := Sw.join (T := pl) h7 h6.tl x1 rfl (hndT pl (fun o => by simp [traverse]))
      exact delOut_spec this fun m' h' => h'
    | black =>
      rw [if_neg (by simp)]
      refine Spec.bind (sp_setLeft n1.1 (by have := tpl.top_ok; dsimp only; omega) h6.gn ?_)
      have h7 := h6.putN (N' := { color := black, left := top pl, right := top r, parent := parOf ctx, key := key n }) d
      refine Spec.bind (h7.parL d n fun m8 h8 => ?_)
      refine Spec.bind (sp_setLeft x1.1 (by omega) h8.gx ?_)
      have h9 := h8.putX (X' := { color := c, left := n, right := top r, parent := parOf ctx, key := key px }) d
      refine Spec.bind (sp_setParent n1.1 h9.gn ?_)
      have h10 := h9.putN (N' := { color := black, left := top pl, right := top r, parent := px, key := key n }) d
      refine Spec.bind (sp_setRight n1.1 h10.gn ?_)
      have h11 := h10.putN (N' := { color := black, left := top pl, right := 0, parent := px, key := key n }) d
      have h12 : Sw t key [] ctx pl r n px _ _ _ (top (node black pl n leaf)) px n px px :=
        ⟨h11.gx, h11.gn, trivial, h11.tl, h11.tr, h11.cc⟩
      have := Sw.join (T := node black pl n leaf) h12 ⟨n1, h11.gn, h11.tl, trivial⟩ x1 rfl
        (hndT _ (fun o => Nat.le_refl _))
      exact delLow_spec hb hs hlen hrb1 this hw
  | cons f fs =>
    cases f with
    | L fc fx fr => simp [ctxR] at hR
    | R fc fl fx =>
      have hfx := d.db fx (by simp [ctxL])
      have htop : ∀ T, top (plug T (Frame.R fc fl fx :: fs)) = top l := by
        intro T
        rw [← hpl]
        exact top_plug_indep fs _ _ _
      rw [if_pos (by simp [parD, hfx.1])]
      refine Spec.bind (sp_setLeft x1.1 (by dsimp only; omega) h0.gx ?_)
      have h1 := h0.putX (X' := { color := pc, left := top l, right := 0, parent := fx, key := key px }) d
      refine Spec.bind (sp_setRight x1.1 h1.gx ?_)
      have h2 := h1.putX (X' := { color := pc, left := top l, right := top r, parent := fx, key := key px }) d
      refine Spec.bind (sp_setParent x1.1 h2.gx ?_)
      have h3 := h2.putX (X' := { color := pc, left := top l, right := top r, parent := parOf ctx, key := key px }) d
      refine Spec.bind (sp_setColor x1.1 h3.gx ?_)
      have h4 := h3.putX (X' := { color := c, left := top l, right := top r, parent := parOf ctx, key := key px }) d
      refine Spec.bind (sp_setColor n1.1 h4.gn ?_)
      have h5 := h4.putN (N' := { color := pc, left := top l, right := top r, parent := parOf ctx, key := key n }) d
      refine Spec.bind (sp_ptr (Or.inr htl.2) ?_)
      have hB := fun (Q : Unit → Mem κ → Prop) hq => h5.parB d (by simp) leaf (by rw [htop]; exact htl.1) px (Q := Q) hq
      simp only [htop] at hB
      refine Spec.bind (hB _ fun m6 h6 => ?_)
      refine Spec.bind (sp_ptr (Or.inr htr.2) ?_)
      refine Spec.bind (h6.parR d hr px fun m7 h7 => ?_)
      refine Spec.bind (h7.relink hs d x1 n1.1 _ false rfl rfl hc0 fun m8 h8 => ?_)
      have hfo : fx ≠ 0 ∧ fx < t.size := sb.1
      refine Spec.bind (sp_ptr (Or.inr hfo.2) ?_)
      cases pc with
      | red =>
        obtain rfl := hred _ _ _ hfp
        rw [if_pos (by rfl)]
        have hw' : plug leaf (Frame.R fc fl fx :: fs ++ Frame.L c px r :: ctx) = w := by
          simp only [Rbt.delOne, Rbt.onlyChild] at hw
          simpa [Rbt.replaceNode] using hw
        subst hw'
        refine Spec.bind (h8.linkB d 0 fun m9 h9 => ?_)
        have := Sw.join (T := leaf) h9 trivial x1 (by rw [htop]) (hndT leaf (fun o => by simp [traverse]))
        exact delOut_spec this fun m' h' => h'
      | black =>
        rw [if_neg (by simp)]
        refine Spec.bind (sp_setLeft n1.1 (by have := tpl.top_ok; dsimp only; omega) h8.gn ?_)
        have h9 := h8.putN (N' := { color := black, left := top pl, right := top r, parent := parOf ctx, key := key n }) d
        refine Spec.bind (sp_setRight n1.1 h9.gn ?_)
        have h10 := h9.putN (N' := { color := black, left := top pl, right := 0, parent := parOf ctx, key := key n }) d
        refine Spec.bind (sp_setParent n1.1 h10.gn ?_)
        have h11 := h10.putN (N' := { color := black, left := top pl, right := 0, parent := fx, key := key n }) d
        refine Spec.bind (h11.parL d n fun m12 h12 => ?_)
        refine Spec.bind (sp_rd hfo.1 h12.sb.2.1 ?_)
        refine Spec.bind (sp_assert (by simp) ?_)
        refine Spec.bind (h12.linkB d n fun m13 h13 => ?_)
        have := Sw.join (T := node black pl n leaf) h13 ⟨n1, h13.gn, h13.tl, trivial⟩ x1 (by rw [htop])
          (hndT _ (fun o => Nat.le_refl _))
        exact delLow_spec hb hs hlen hrb1 this hw

end Verif.Rrbt
