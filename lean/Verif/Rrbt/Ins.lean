import Verif.Rrbt.Rep

/-!
# Insertion into the tree in memory does what insertion into the tree of values does
-/

namespace Verif.Rrbt

open Verif.Rbt (Tree Frame Ctx plug traverse ctxL ctxR traverse_plug blacken)
open Verif.Rbt.Tree (leaf node)
open Verif.Rbt.Color (red black)

variable {κ : Type} {t : Inst} {key : Nat → κ}

/-! ## walking -/

section walk

variable {m : Mem κ} {c : Color} {l r : Tree Nat} {x : Nat} {ctx : Ctx Nat}

theorem Rep.rd (h : Rep t key m (plug (node c l x r) ctx)) {Q : Node κ → Mem κ → Prop}
    (hq : Q ⟨c, top l, top r, parOf ctx, key x⟩ m) : Spec (rd (pt t x)) m Q := sp_rd h.cell.1.1 h.cell.2.1 hq

theorem Rep.ptrL (h : Rep t key m (plug (node c l x r) ctx)) {Q : Ptr → Mem κ → Prop} (hq : Q (pt t (top l)) m) :
    Spec (ptr t (top l)) m Q := sp_ptr h.cell.2.2.1 hq

theorem Rep.ptrR (h : Rep t key m (plug (node c l x r) ctx)) {Q : Ptr → Mem κ → Prop} (hq : Q (pt t (top r)) m) :
    Spec (ptr t (top r)) m Q := sp_ptr h.cell.2.2.2.1 hq

theorem Rep.ptrP (h : Rep t key m (plug (node c l x r) ctx)) {Q : Ptr → Mem κ → Prop} (hq : Q (pt t (parOf ctx)) m) :
    Spec (ptr t (parOf ctx)) m Q := sp_ptr h.cell.2.2.2.2 hq

theorem Rep.leftP (h : Rep t key m (plug (node c l x r) ctx)) {Q : Ptr → Mem κ → Prop} (hq : Q (pt t (top l)) m) :
    Spec (leftP t (pt t x)) m Q := Spec.bind (h.rd (h.ptrL hq))

theorem Rep.rightP (h : Rep t key m (plug (node c l x r) ctx)) {Q : Ptr → Mem κ → Prop} (hq : Q (pt t (top r)) m) :
    Spec (rightP t (pt t x)) m Q := Spec.bind (h.rd (h.ptrR hq))

theorem Rep.parentP (h : Rep t key m (plug (node c l x r) ctx)) {Q : Ptr → Mem κ → Prop}
    (hq : Q (pt t (parOf ctx)) m) : Spec (parentP t (pt t x)) m Q := Spec.bind (h.rd (h.ptrP hq))

theorem Rep.color (hb : 0 < t.base) {T : Tree Nat} (h : Rep t key m (plug T ctx)) {Q : Color → Mem κ → Prop}
    (hq : Q (Rbt.color T) m) : Spec (color (pt t (top T))) m Q := by
  refine Spec.bind (sp_isNull hb ?_)
  cases T with
  | leaf => exact Spec.pure hq
  | node c l x r =>
    rw [if_neg (by simp [top, h.cell.1.1])]
    exact Spec.bind (h.rd (Spec.pure hq))

theorem Rep.isRed (hb : 0 < t.base) {T : Tree Nat} (h : Rep t key m (plug T ctx)) {Q : Bool → Mem κ → Prop}
    (hq : Q (Rbt.color T == red) m) : Spec (isRed (pt t (top T))) m Q := Spec.bind (h.color hb (Spec.pure hq))

/-- the offset of an ancestor is not that of a node below it -/
theorem Rep.root_ne {f : Frame Nat} (h : Rep t key m (plug (node c l x r) (f :: ctx))) : m.root ≠ x := by
  have h1 := top_plug_cons ctx f (node c l x r)
  rw [h.root]
  obtain ⟨_, _, n3, n4, _⟩ := nodup_node h.nodup
  intro e
  rw [e] at h1
  rcases h1 with h1 | h1
  · exact n3 h1
  · exact n4 h1

theorem Rep.isRoot (hb : 0 < t.base) (h : Rep t key m (plug (node c l x r) ctx)) {Q : Bool → Mem κ → Prop}
    (hq : Q ctx.isEmpty m) : Spec (isRoot t (pt t x)) m Q := by
  have hr : m.root = 0 ∨ m.root < t.size := by
    rw [h.root]; exact h.tree.top_ok
  refine Spec.bind (sp_getRoot (Spec.bind (sp_ptr hr (sp_eqP hb ?_))))
  cases ctx with
  | nil => rw [show (x == m.root) = true by simp [h.root, plug, top]]; exact hq
  | cons f ctx => rw [show (x == m.root) = false by simp [h.root_ne.symm]]; exact hq

/-- the sibling is another node -/
theorem Rep.sibL {pc : Color} {px : Nat} {ps : Tree Nat}
    (h : Rep t key m (plug (node c l x r) (Frame.L pc px ps :: ctx))) : top ps ≠ x := by
  obtain ⟨_, _, _, n4, _⟩ := nodup_node h.nodup
  intro e
  by_cases hl : ps = leaf
  · subst hl; exact h.cell.1.1 e.symm
  · exact n4 (by simp only [ctxR, List.mem_append, List.mem_cons]; exact Or.inr (Or.inl (e ▸ top_mem hl)))

theorem Rep.sibR {pc : Color} {px : Nat} {ps : Tree Nat}
    (h : Rep t key m (plug (node c l x r) (Frame.R pc ps px :: ctx))) : top ps ≠ x := by
  obtain ⟨_, _, n3, _, _⟩ := nodup_node h.nodup
  intro e
  by_cases hl : ps = leaf
  · subst hl; exact h.cell.1.1 e.symm
  · exact n3 (by simp only [ctxL, List.mem_append]; exact Or.inl (Or.inr (e ▸ top_mem hl)))

end walk

/-! ## rebalancing -/

theorem color_red_node {u : Tree Nat} (h : Rbt.color u = red) : ∃ l x r, u = node red l x r := by
  cases u with
  | leaf => cases h
  | node c l x r => cases h; exact ⟨l, x, r, rfl⟩

/-- a node whose parent is black: nothing to do -/
theorem insFix_black (hb : 0 < t.base) {m : Mem κ} {c : Color} {l r : Tree Nat} {x : Nat} {ctx : Ctx Nat}
    {f : Frame Nat} (h : Rep t key m (plug (node c l x r) (f :: ctx)))
    (hf : (∃ px ps, f = Frame.L black px ps) ∨ (∃ px ps, f = Frame.R black ps px)) (fuel : Nat)
    {Q : Unit → Mem κ → Prop} (hq : Q () m) : Spec (insFix t (fuel + 1) (pt t x)) m Q := by
  unfold insFix
  refine Spec.bind (h.isRoot hb ?_)
  rw [if_neg (by simp)]
  refine Spec.bind (h.rd (Spec.bind (h.ptrP ?_)))
  rcases hf with ⟨px, ps, rfl⟩ | ⟨px, ps, rfl⟩
  · have h' : Rep t key m (plug (node black (node c l x r) px ps) ctx) := h
    refine Spec.bind (h'.isRed hb ?_)
    exact Spec.pure hq
  · have h' : Rep t key m (plug (node black ps px (node c l x r)) ctx) := h
    refine Spec.bind (h'.isRed hb ?_)
    exact Spec.pure hq

theorem insFix_black' (hb : 0 < t.base) {m : Mem κ} {c : Color} {l r : Tree Nat} {x : Nat} {ctx : Ctx Nat}
    {f : Frame Nat} (h : Rep t key m (plug (node c l x r) (f :: ctx)))
    (hf : (∃ px ps, f = Frame.L black px ps) ∨ (∃ px ps, f = Frame.R black ps px)) {fuel : Nat} (hfu : 0 < fuel)
    {Q : Unit → Mem κ → Prop} (hq : Q () m) : Spec (insFix t fuel (pt t x)) m Q := by
  cases fuel with
  | zero => omega
  | succ f => exact insFix_black hb h hf f hq

theorem insFix_spec (hb : 0 < t.base) (hs : t.size ≤ 2 ^ 63) : ∀ (fuel : Nat) (m : Mem κ) (c : Color) (l r : Tree Nat)
    (x : Nat) (ctx : Ctx Nat) (w : Tree Nat), ctx.length < fuel → Rep t key m (plug (node c l x r) ctx) →
    Rbt.insFix (node c l x r) ctx = some w →
    Spec (insFix t fuel (pt t x)) m fun _ m' => ∃ w', Rep t key m' w' ∧ blacken w' = w
  | 0, _, _, _, _, _, _, _, hf, _, _ => by omega
  | fuel + 1, m, c, l, r, x, ctx, w, hf, h, hw => by
    match ctx, hf, h, hw with
    | [], hf, h, hw =>
      unfold insFix
      refine Spec.bind (h.isRoot hb ?_)
      simp only [Rbt.insFix, Option.some.injEq] at hw
      exact Spec.pure ⟨_, h, hw⟩
    | Frame.L black px ps :: rest, hf, h, hw =>
      simp only [Rbt.insFix, Option.some.injEq] at hw
      exact insFix_black hb h (Or.inl ⟨_, _, rfl⟩) fuel ⟨_, h, hw⟩
    | Frame.R black ps px :: rest, hf, h, hw =>
      simp only [Rbt.insFix, Option.some.injEq] at hw
      exact insFix_black hb h (Or.inr ⟨_, _, rfl⟩) fuel ⟨_, h, hw⟩
    | [Frame.L red _ _], hf, h, hw => simp [Rbt.insFix] at hw
    | [Frame.R red _ _], hf, h, hw => simp [Rbt.insFix] at hw
    | Frame.L red px ps :: Frame.L gc gx u :: rest, hf, h, hw =>
      have hP : Rep t key m (plug (node red (node c l x r) px ps) (Frame.L gc gx u :: rest)) := h
      have hG : Rep t key m (plug (node gc (node red (node c l x r) px ps) gx u) rest) := h
      have hU : Rep t key m (plug u (Frame.R gc (node red (node c l x r) px ps) gx :: rest)) := h
      unfold insFix
      refine Spec.bind (h.isRoot hb ?_)
      rw [if_neg (by simp)]
      refine Spec.bind (h.rd (Spec.bind (h.ptrP ?_)))
      refine Spec.bind (hP.isRed hb ?_)
      rw [if_pos (by rfl)]
      refine Spec.bind (hP.parentP (Spec.bind (hG.rd ?_)))
      rw [if_pos (by simp [parOf, top])]
      refine Spec.bind (hG.ptrR ?_)
      refine Spec.bind (hU.isRed hb ?_)
      simp only [Rbt.insFix] at hw
      cases hu : Rbt.color u with
      | red =>
        obtain ⟨ul, ux, ur, rfl⟩ := color_red_node hu
        rw [if_pos (by rfl)]
        simp only [Rbt.color, blacken] at hw
        refine Spec.bind (hP.setColor (c' := black) fun m1 h1 => ?_)
        have h1' : Rep t key m1 (plug (node red ul ux ur) (Frame.R gc (node black (node c l x r) px ps) gx :: rest)) := h1
        refine Spec.bind (h1'.setColor (c' := black) fun m2 h2 => ?_)
        have h2' : Rep t key m2 (plug (node gc (node black (node c l x r) px ps) gx (node black ul ux ur)) rest) := h2
        refine Spec.bind (h2'.setColor (c' := red) fun m3 h3 => ?_)
        exact insFix_spec hb hs fuel m3 _ _ _ gx rest w (by simp only [List.length_cons] at hf; omega) h3 hw
      | black =>
        rw [if_neg (by simp)]
        rw [hu] at hw
        simp only [Rbt.rotateRight, Option.some.injEq] at hw
        refine Spec.bind (hP.rightP (Spec.bind (sp_eqP hb ?_)))
        rw [show (x == top ps) = false by simp [h.sibL.symm]]
        refine Spec.bind (sp_when_f rfl (Spec.bind (Spec.pure' ?_)))
        refine Spec.bind (h.parentP ?_)
        refine Spec.bind (hP.setColor (c' := black) fun m1 h1 => ?_)
        have h1' : Rep t key m1 (plug (node gc (node black (node c l x r) px ps) gx u) rest) := h1
        refine Spec.bind (h1.parentP ?_)
        refine Spec.bind (h1'.setColor (c' := red) fun m2 h2 => ?_)
        refine Spec.bind (rotateRight_spec hb hs h2 (fun _ => rfl) fun m3 h3 => ?_)
        have h3' : Rep t key m3 (plug (node c l x r) (Frame.L black px (node red ps gx u) :: rest)) := h3
        exact insFix_black' hb h3' (Or.inl ⟨_, _, rfl⟩) (by simp only [List.length_cons] at hf; omega) ⟨_, h3, hw⟩
    | Frame.R red ps px :: Frame.L gc gx u :: rest, hf, h, hw =>
      have hP : Rep t key m (plug (node red ps px (node c l x r)) (Frame.L gc gx u :: rest)) := h
      have hG : Rep t key m (plug (node gc (node red ps px (node c l x r)) gx u) rest) := h
      have hU : Rep t key m (plug u (Frame.R gc (node red ps px (node c l x r)) gx :: rest)) := h
      unfold insFix
      refine Spec.bind (h.isRoot hb ?_)
      rw [if_neg (by simp)]
      refine Spec.bind (h.rd (Spec.bind (h.ptrP ?_)))
      refine Spec.bind (hP.isRed hb ?_)
      rw [if_pos (by rfl)]
      refine Spec.bind (hP.parentP (Spec.bind (hG.rd ?_)))
      rw [if_pos (by simp [parOf, top])]
      refine Spec.bind (hG.ptrR ?_)
      refine Spec.bind (hU.isRed hb ?_)
      simp only [Rbt.insFix] at hw
      cases hu : Rbt.color u with
      | red =>
        obtain ⟨ul, ux, ur, rfl⟩ := color_red_node hu
        rw [if_pos (by rfl)]
        simp only [Rbt.color, blacken] at hw
        refine Spec.bind (hP.setColor (c' := black) fun m1 h1 => ?_)
        have h1' : Rep t key m1 (plug (node red ul ux ur) (Frame.R gc (node black ps px (node c l x r)) gx :: rest)) := h1
        refine Spec.bind (h1'.setColor (c' := black) fun m2 h2 => ?_)
        have h2' : Rep t key m2 (plug (node gc (node black ps px (node c l x r)) gx (node black ul ux ur)) rest) := h2
        refine Spec.bind (h2'.setColor (c' := red) fun m3 h3 => ?_)
        exact insFix_spec hb hs fuel m3 _ _ _ gx rest w (by simp only [List.length_cons] at hf; omega) h3 hw
      | black =>
        rw [if_neg (by simp)]
        rw [hu] at hw
        simp only [Rbt.rotateLeft, Rbt.setColor, Rbt.rotateRight, Option.some.injEq] at hw
        refine Spec.bind (hP.rightP (Spec.bind (sp_eqP hb ?_)))
        rw [show (x == top (node c l x r)) = true by simp [top]]
        refine Spec.bind (sp_when_t rfl (rotateLeft_spec hb hs hP (by simp) fun m0 h0 => ?_))
        have h0' : Rep t key m0 (plug (node red ps px l) (Frame.L c x r :: Frame.L gc gx u :: rest)) := h0
        refine Spec.bind (Spec.pure' ?_)
        refine Spec.bind (h0'.parentP ?_)
        refine Spec.bind (h0.setColor (c' := black) fun m1 h1 => ?_)
        have h1' : Rep t key m1 (plug (node gc (node black (node red ps px l) x r) gx u) rest) := h1
        refine Spec.bind (h1.parentP ?_)
        refine Spec.bind (h1'.setColor (c' := red) fun m2 h2 => ?_)
        refine Spec.bind (rotateRight_spec hb hs h2 (fun _ => rfl) fun m3 h3 => ?_)
        have h3' : Rep t key m3 (plug (node red ps px l) (Frame.L black x (node red r gx u) :: rest)) := h3
        exact insFix_black' hb h3' (Or.inl ⟨_, _, rfl⟩) (by simp only [List.length_cons] at hf; omega) ⟨_, h3, hw⟩
    | Frame.R red ps px :: Frame.R gc u gx :: rest, hf, h, hw =>
      have hP : Rep t key m (plug (node red ps px (node c l x r)) (Frame.R gc u gx :: rest)) := h
      have hG : Rep t key m (plug (node gc u gx (node red ps px (node c l x r))) rest) := h
      have hU : Rep t key m (plug u (Frame.L gc gx (node red ps px (node c l x r)) :: rest)) := h
      unfold insFix
      refine Spec.bind (h.isRoot hb ?_)
      rw [if_neg (by simp)]
      refine Spec.bind (h.rd (Spec.bind (h.ptrP ?_)))
      refine Spec.bind (hP.isRed hb ?_)
      rw [if_pos (by rfl)]
      refine Spec.bind (hP.parentP (Spec.bind (hG.rd ?_)))
      rw [if_neg (by simpa [parOf] using hP.sibR.symm)]
      refine Spec.bind (hG.ptrL ?_)
      refine Spec.bind (hU.isRed hb ?_)
      simp only [Rbt.insFix] at hw
      cases hu : Rbt.color u with
      | red =>
        obtain ⟨ul, ux, ur, rfl⟩ := color_red_node hu
        rw [if_pos (by rfl)]
        simp only [Rbt.color, blacken] at hw
        refine Spec.bind (hP.setColor (c' := black) fun m1 h1 => ?_)
        have h1' : Rep t key m1 (plug (node red ul ux ur) (Frame.L gc gx (node black ps px (node c l x r)) :: rest)) := h1
        refine Spec.bind (h1'.setColor (c' := black) fun m2 h2 => ?_)
        have h2' : Rep t key m2 (plug (node gc (node black ul ux ur) gx (node black ps px (node c l x r))) rest) := h2
        refine Spec.bind (h2'.setColor (c' := red) fun m3 h3 => ?_)
        exact insFix_spec hb hs fuel m3 _ _ _ gx rest w (by simp only [List.length_cons] at hf; omega) h3 hw
      | black =>
        rw [if_neg (by simp)]
        rw [hu] at hw
        simp only [Rbt.rotateLeft, Option.some.injEq] at hw
        refine Spec.bind (hP.leftP (Spec.bind (sp_eqP hb ?_)))
        rw [show (x == top ps) = false by simp [h.sibR.symm]]
        refine Spec.bind (sp_when_f rfl (Spec.bind (Spec.pure' ?_)))
        refine Spec.bind (h.parentP ?_)
        refine Spec.bind (hP.setColor (c' := black) fun m1 h1 => ?_)
        have h1' : Rep t key m1 (plug (node gc u gx (node black ps px (node c l x r))) rest) := h1
        refine Spec.bind (h1.rd ?_)
        refine Spec.bind (sp_when_t (by simp [parOf, h1'.cell.1.1]) ?_)
        refine Spec.bind (h1.ptrP ?_)
        refine Spec.bind (h1'.setColor (c' := red) fun m2 h2 => ?_)
        refine rotateLeft_spec hb hs h2 (fun _ => rfl) fun m3 h3 => ?_
        have h3' : Rep t key m3 (plug (node c l x r) (Frame.R black (node red u gx ps) px :: rest)) := h3
        exact insFix_black' hb h3' (Or.inr ⟨_, _, rfl⟩) (by simp only [List.length_cons] at hf; omega) ⟨_, h3, hw⟩
    | Frame.L red px ps :: Frame.R gc u gx :: rest, hf, h, hw =>
      have hP : Rep t key m (plug (node red (node c l x r) px ps) (Frame.R gc u gx :: rest)) := h
      have hG : Rep t key m (plug (node gc u gx (node red (node c l x r) px ps)) rest) := h
      have hU : Rep t key m (plug u (Frame.L gc gx (node red (node c l x r) px ps) :: rest)) := h
      unfold insFix
      refine Spec.bind (h.isRoot hb ?_)
      rw [if_neg (by simp)]
      refine Spec.bind (h.rd (Spec.bind (h.ptrP ?_)))
      refine Spec.bind (hP.isRed hb ?_)
      rw [if_pos (by rfl)]
      refine Spec.bind (hP.parentP (Spec.bind (hG.rd ?_)))
      rw [if_neg (by simpa [parOf] using hP.sibR.symm)]
      refine Spec.bind (hG.ptrL ?_)
      refine Spec.bind (hU.isRed hb ?_)
      simp only [Rbt.insFix] at hw
      cases hu : Rbt.color u with
      | red =>
        obtain ⟨ul, ux, ur, rfl⟩ := color_red_node hu
        rw [if_pos (by rfl)]
        simp only [Rbt.color, blacken] at hw
        refine Spec.bind (hP.setColor (c' := black) fun m1 h1 => ?_)
        have h1' : Rep t key m1 (plug (node red ul ux ur) (Frame.L gc gx (node black (node c l x r) px ps) :: rest)) := h1
        refine Spec.bind (h1'.setColor (c' := black) fun m2 h2 => ?_)
        have h2' : Rep t key m2 (plug (node gc (node black ul ux ur) gx (node black (node c l x r) px ps)) rest) := h2
        refine Spec.bind (h2'.setColor (c' := red) fun m3 h3 => ?_)
        exact insFix_spec hb hs fuel m3 _ _ _ gx rest w (by simp only [List.length_cons] at hf; omega) h3 hw
      | black =>
        rw [if_neg (by simp)]
        rw [hu] at hw
        simp only [Rbt.rotateLeft, Rbt.setColor, Rbt.rotateRight, Option.some.injEq] at hw
        refine Spec.bind (hP.leftP (Spec.bind (sp_eqP hb ?_)))
        rw [show (x == top (node c l x r)) = true by simp [top]]
        refine Spec.bind (sp_when_t rfl (rotateRight_spec hb hs hP (by simp) fun m0 h0 => ?_))
        have h0' : Rep t key m0 (plug (node red r px ps) (Frame.R c l x :: Frame.R gc u gx :: rest)) := h0
        refine Spec.bind (Spec.pure' ?_)
        refine Spec.bind (h0'.parentP ?_)
        refine Spec.bind (h0.setColor (c' := black) fun m1 h1 => ?_)
        have h1' : Rep t key m1 (plug (node gc u gx (node black l x (node red r px ps))) rest) := h1
        refine Spec.bind (h1.rd ?_)
        refine Spec.bind (sp_when_t (by simp [parOf, h1'.cell.1.1]) ?_)
        refine Spec.bind (h1.ptrP ?_)
        refine Spec.bind (h1'.setColor (c' := red) fun m2 h2 => ?_)
        refine rotateLeft_spec hb hs h2 (fun _ => rfl) fun m3 h3 => ?_
        have h3' : Rep t key m3 (plug (node red r px ps) (Frame.R black (node red u gx l) x :: rest)) := h3
        exact insFix_black' hb h3' (Or.inr ⟨_, _, rfl⟩) (by simp only [List.length_cons] at hf; omega) ⟨_, h3, hw⟩

/-! ## the descent -/

/-- the result of the last comparison is that of the direction taken -/
def Dir (ctx : Ctx Nat) (c : Int) : Prop :=
  match ctx with
  | [] => True
  | Frame.L _ _ _ :: _ => c > 0
  | Frame.R _ _ _ :: _ => ¬ c > 0

theorem descend_spec (hb : 0 < t.base) (cmp : κ → κ → Int) (k : κ) (m : Mem κ) : ∀ (fuel : Nat) (T : Tree Nat)
    (ctx : Ctx Nat) (c : Int), (traverse T).length < fuel → Rep t key m (plug T ctx) → Dir ctx c →
    Spec (descend t cmp k fuel (pt t (top T)) (pt t (parOf ctx)) c) m fun q m' => m' = m ∧
      q.1 = pt t (parOf (Rbt.descend cmp key k T ctx)) ∧ Dir (Rbt.descend cmp key k T ctx) q.2
  | 0, _, _, _, hf, _, _ => by omega
  | fuel + 1, leaf, ctx, c, hf, h, hd => by
    unfold descend
    refine Spec.bind (sp_isNull hb ?_)
    rw [if_pos (by simp [top])]
    exact Spec.pure ⟨rfl, rfl, hd⟩
  | fuel + 1, node col l x r, ctx, c, hf, h, hd => by
    unfold descend
    refine Spec.bind (sp_isNull hb ?_)
    rw [if_neg (by simp [top, h.cell.1.1])]
    refine Spec.bind (h.rd ?_)
    simp only [traverse, List.length_append, List.length_cons] at hf
    simp only [Rbt.descend]
    by_cases hc : cmp (key x) k > 0
    · simp only [hc, if_true]
      refine Spec.bind (h.ptrL ?_)
      exact descend_spec hb cmp k m fuel l (Frame.L col x r :: ctx) _ (by omega) h hc
    · simp only [hc, if_false]
      refine Spec.bind (h.ptrR ?_)
      exact descend_spec hb cmp k m fuel r (Frame.R col l x :: ctx) _ (by omega) h hc

theorem Rep.put {m : Mem κ} {w : Tree Nat} (h : Rep t key m w) {x : Nat} (hx : x ∉ traverse w) (n : Node κ) :
    Rep t key (put t m x n) w := ⟨h.root, h.tree.put hx, h.nodup⟩

/-- a new node is linked below the last node of the descent -/
theorem link_spec (hs : t.size ≤ 2 ^ 63) {m : Mem κ} {f : Frame Nat} {ctx : Ctx Nat} {x : Nat}
    (h : Rep t key m (plug leaf (f :: ctx))) (hx : x ≠ 0 ∧ x < t.size) (hn : x ∉ traverse (plug leaf (f :: ctx)))
    (hg : get t m x = some ⟨red, 0, 0, parOf (f :: ctx), key x⟩) {c : Int} (hc : Dir (f :: ctx) c)
    {Q : Unit → Mem κ → Prop} (hq : ∀ m', Rep t key m' (plug (node red leaf x leaf) (f :: ctx)) → Q () m') :
    Spec (sel (c > 0) (setLeft (pt t (parOf (f :: ctx))) x) (setRight (pt t (parOf (f :: ctx))) x)) m Q := by
  have hnd : (traverse (plug (node red leaf x leaf) (f :: ctx))).Nodup := by
    have h1 := h.nodup
    rw [traverse_plug] at h1 hn ⊢
    simp only [traverse, List.nodup_append, List.nodup_cons, List.mem_append, List.mem_cons] at h1 hn ⊢
    grind
  cases f with
  | L pc px ps =>
    have h' : Rep t key m (plug (node pc leaf px ps) ctx) := h
    obtain ⟨n1, n2, n3, n4, _⟩ := nodup_node h'.nodup
    have hpx : px ≠ x := by
      intro e
      rw [traverse_plug] at hn
      simp [ctxR, e] at hn
    obtain ⟨_, p1, p2, p3, p4⟩ := h.split
    refine sp_sel_t (decide_eq_true hc) (sp_setLeft p1.1 (by omega) p2 (hq _ (Rep.join ⟨hx, ?_, trivial, trivial⟩
      ⟨p1, get_put _ _ _ _, p3.put n2, p4.put n3 n4⟩ hnd)))
    exact (get_put_ne hpx.symm _).trans hg
  | R pc ps px =>
    have h' : Rep t key m (plug (node pc ps px leaf) ctx) := h
    obtain ⟨n1, n2, n3, n4, _⟩ := nodup_node h'.nodup
    have hpx : px ≠ x := by
      intro e
      rw [traverse_plug] at hn
      simp [ctxL, e] at hn
    obtain ⟨_, p1, p2, p3, p4⟩ := h.split
    refine sp_sel_f (decide_eq_false hc) (sp_setRight p1.1 p2 (hq _ (Rep.join ⟨hx, ?_, trivial, trivial⟩
      ⟨p1, get_put _ _ _ _, p3.put n1, p4.put n3 n4⟩ hnd)))
    exact (get_put_ne hpx.symm _).trans hg

theorem descend_ne_nil (cmp : κ → κ → Int) (k : κ) : ∀ (T : Tree Nat) (ctx : Ctx Nat), (T ≠ leaf ∨ ctx ≠ []) →
    Rbt.descend cmp key k T ctx ≠ []
  | leaf, ctx, h => by simpa [Rbt.descend] using h
  | node c l x r, ctx, _ => by
    unfold Rbt.descend
    split
    · exact descend_ne_nil cmp k l _ (Or.inr (by simp))
    · exact descend_ne_nil cmp k r _ (Or.inr (by simp))

theorem ctx_length (T : Tree Nat) (ctx : Ctx Nat) : ctx.length ≤ (traverse (plug T ctx)).length := by
  rw [traverse_plug]
  have : ctx.length ≤ (ctxL ctx).length + (ctxR ctx).length := by
    induction ctx with
    | nil => simp
    | cons f ctx ih => cases f <;> simp only [ctxL, ctxR, List.length_append, List.length_cons, List.length_nil] <;> omega
  simp only [List.length_append]
  omega

/-- `t->root->color = BLACK` -/
theorem blackenRoot_spec {m : Mem κ} {w : Tree Nat} (h : Rep t key m w) (hne : w ≠ leaf) {Q : Unit → Mem κ → Prop}
    (hq : ∀ m', Rep t key m' (blacken w) → Q () m') :
    Spec (do let root ← getRoot; let r ← ptr t root; setColor r .black) m Q := by
  refine Spec.bind (sp_getRoot ?_)
  rw [h.root]
  refine Spec.bind (sp_ptr h.tree.top_ok ?_)
  cases w with
  | leaf => exact absurd rfl hne
  | node c l x r => exact Rep.setColor (ctx := []) h fun m' h' => hq m' h'

/-- insertion -/
theorem ins_spec (hb : 0 < t.base) (hs : t.size ≤ 2 ^ 63) (cmp : κ → κ → Int) {m : Mem κ} {w : Tree Nat} {x : Nat}
    {fuel : Nat} {n0 : Node κ} {q q' : Int} {w' : Tree Nat} (h : Rep t key m w) (hx : x ≠ 0 ∧ x < t.size)
    (hn : x ∉ traverse w) (h0 : get t m x = some n0) (hk : n0.key = key x) (hf : (traverse w).length < fuel)
    (hw : Rbt.ins cmp key ⟨w, q⟩ x = some ⟨w', q'⟩) (hw' : w' ≠ leaf) :
    Spec (ins t cmp fuel (pt t x)) m fun _ m' => Rep t key m' w' := by
  unfold ins
  refine Spec.bind (sp_setLeft hx.1 (by omega) h0 ?_)
  refine Spec.bind (sp_setRight hx.1 (get_put _ _ _ _) ?_)
  refine Spec.bind (sp_setParent hx.1 (get_put _ _ _ _) ?_)
  simp only [put_put]
  refine Spec.bind (sp_getRoot ?_)
  refine Spec.bind (sp_off hb (Or.inr hx.2) ?_)
  have hr : m.root = top w := h.root
  rw [put_root, hr]
  cases w with
  | leaf =>
    simp only [Rbt.ins, Option.some.injEq, Rbt.Rbt.mk.injEq] at hw
    obtain ⟨rfl, _⟩ := hw
    rw [if_pos (by rfl)]
    refine Spec.bind (sp_setColor hx.1 (get_put _ _ _ _) (sp_setRoot ?_))
    exact ⟨rfl, ⟨hx, by rw [get_setR, get_put, hk]; rfl, trivial, trivial⟩, by simp [traverse]⟩
  | node c l y r =>
    have hy : y ≠ 0 ∧ y < t.size := (Rep.cell (ctx := []) h).1
    rw [if_neg (by simp [top, hy.1])]
    refine Spec.bind (sp_setColor hx.1 (get_put _ _ _ _) ?_)
    rw [put_put]
    refine Spec.bind (sp_rd hx.1 (get_put _ _ _ _) ?_)
    refine Spec.bind (sp_ptr (Or.inr hy.2) ?_)
    dsimp only
    rw [hk]
    refine Spec.bind (Spec.mono (descend_spec hb cmp (key x) _ fuel (node c l y r) [] 0 hf (h.put hn _) trivial) ?_)
    rintro ⟨p, cv⟩ _ ⟨rfl, hp, hd⟩
    simp only [Rbt.ins] at hw
    cases hw1 : Rbt.insFix (node red leaf x leaf) (Rbt.descend cmp key (key x) (node c l y r) []) with
    | none => rw [hw1] at hw; simp at hw
    | some w1 =>
      rw [hw1] at hw
      simp only [Option.some.injEq, Rbt.Rbt.mk.injEq] at hw
      obtain ⟨rfl, _⟩ := hw
      have hpl := Rbt.descend_plug cmp key (key x) (node c l y r) []
      have hne := descend_ne_nil (key := key) cmp (key x) (node c l y r) [] (Or.inl (by simp))
      generalize Rbt.descend cmp key (key x) (node c l y r) [] = ctx at hp hd hw1 hpl hne
      dsimp only at hp hd
      subst hp
      have hpl' : plug leaf ctx = node c l y r := hpl
      have h1 := h
      rw [← hpl'] at h1 hn hf
      have hlen := ctx_length leaf ctx
      cases ctx with
      | nil => exact absurd rfl hne
      | cons f ctx =>
        have hpo : parOf (f :: ctx) < t.size := by
          have := h1.split.2.par_ok
          have : parOf (f :: ctx) ≠ 0 := by cases f <;> exact h1.split.2.1.1
          omega
        refine Spec.bind (sp_off hb (Or.inr hpo) ?_)
        refine Spec.bind (sp_setParent hx.1 (get_put _ _ _ _) ?_)
        rw [put_put]
        refine Spec.bind (link_spec hs (h1.put hn _) hx hn (get_put _ _ _ _) hd fun m2 h2 => ?_)
        refine Spec.bind (Spec.mono (insFix_spec hb hs fuel m2 _ _ _ x _ _ (by omega) h2 hw1) ?_)
        rintro _ m3 ⟨w3, h3, rfl⟩
        refine blackenRoot_spec h3 ?_ fun m4 h4 => h4
        rintro rfl
        exact hw' rfl

end Verif.Rrbt
