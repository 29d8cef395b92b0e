import Verif.Rrbt.Ins

/-!
# Deletion from the tree in memory does what deletion from the tree of values does
-/

namespace Verif.Rrbt

open Verif.Rbt (Tree Frame Ctx plug traverse ctxL ctxR traverse_plug blacken)
open Verif.Rbt.Tree (leaf node)
open Verif.Rbt.Color (red black)

variable {κ : Type} {t : Inst} {key : Nat → κ}

theorem color_node {c : Color} {l r : Tree Nat} {x : Nat} : Rbt.color (node c l x r) = c := rfl

theorem Rep.siblingL (hb : 0 < t.base) {m : Mem κ} {c pc : Color} {l r ps : Tree Nat} {x px : Nat} {ctx : Ctx Nat}
    (h : Rep t key m (plug (node c l x r) (Frame.L pc px ps :: ctx))) {Q : Ptr → Mem κ → Prop}
    (hq : Q (pt t (top ps)) m) : Spec (sibling t (pt t x)) m Q := by
  have hp : Rep t key m (plug (node pc (node c l x r) px ps) ctx) := h
  unfold sibling
  refine Spec.bind (h.rd ?_)
  refine Spec.bind (sp_assert (by simp [parOf, hp.cell.1.1]) ?_)
  refine Spec.bind (h.ptrP ?_)
  refine Spec.bind (hp.rd ?_)
  refine Spec.bind (sp_off hb (Or.inr h.cell.1.2) ?_)
  rw [if_pos (by simp [top])]
  exact hp.ptrR hq

theorem Rep.siblingR (hb : 0 < t.base) {m : Mem κ} {c pc : Color} {l r ps : Tree Nat} {x px : Nat} {ctx : Ctx Nat}
    (h : Rep t key m (plug (node c l x r) (Frame.R pc ps px :: ctx))) {Q : Ptr → Mem κ → Prop}
    (hq : Q (pt t (top ps)) m) : Spec (sibling t (pt t x)) m Q := by
  have hp : Rep t key m (plug (node pc ps px (node c l x r)) ctx) := h
  unfold sibling
  refine Spec.bind (h.rd ?_)
  refine Spec.bind (sp_assert (by simp [parOf, hp.cell.1.1]) ?_)
  refine Spec.bind (h.ptrP ?_)
  refine Spec.bind (hp.rd ?_)
  refine Spec.bind (sp_off hb (Or.inr h.cell.1.2) ?_)
  rw [if_neg (by simpa [top] using h.sibR.symm)]
  exact hp.ptrL hq

/-! ## rebalancing: the deleted node is still in its place -/

theorem case6_L (hb : 0 < t.base) (hs : t.size ≤ 2 ^ 63) {m : Mem κ} {tc pc sc : Color} {tl tr sl sr : Tree Nat} {n px sx : Nat}
    {rest : Ctx Nat}
    (h : Rep t key m (plug (node tc tl n tr) (Frame.L pc px (node sc sl sx sr) :: rest))) (hrest : rest = [] → pc = black) {u0 w0 : Tree Nat}
    (hw : Rbt.case6 u0 (Frame.L pc px (node sc sl sx sr)) = some w0) {Q : Unit → Mem κ → Prop}
    (hq : ∀ m' fs, fs ≠ [] → Rep t key m' (plug (node tc tl n tr) (fs ++ rest)) →
      (∀ u, Rbt.case6 u (Frame.L pc px (node sc sl sx sr)) = some (plug u fs)) → Q () m') :
    Spec (case6 t (pt t n)) m Q := by
  simp only [Rbt.case6] at hw
  split at hw
  case isFalse => cases hw
  case isTrue hred =>
  obtain ⟨ol, ox, or', rfl⟩ := color_red_node hred
  have hp : Rep t key m (plug (node pc (node tc tl n tr) px (node sc sl sx (node red ol ox or'))) rest) := h
  have hsb : Rep t key m (plug (node sc sl sx (node red ol ox or')) (Frame.R pc (node tc tl n tr) px :: rest)) := h
  unfold case6
  refine Spec.bind (h.siblingL hb ?_)
  refine Spec.bind (h.parentP ?_)
  refine Spec.bind (hp.rd ?_)
  refine Spec.bind (hsb.setColor (c' := pc) fun m1 h1 => ?_)
  have h1' : Rep t key m1 (plug (node pc (node tc tl n tr) px (node pc sl sx (node red ol ox or'))) rest) := h1
  refine Spec.bind (h1'.setColor (c' := black) fun m2 h2 => ?_)
  have h2s : Rep t key m2 (plug (node pc sl sx (node red ol ox or')) (Frame.R black (node tc tl n tr) px :: rest)) := h2
  have h2r : Rep t key m2 (plug (node red ol ox or') (Frame.R pc sl sx :: Frame.R black (node tc tl n tr) px :: rest)) := h2
  refine Spec.bind (sp_off hb (Or.inr h.cell.1.2) ?_)
  rw [if_pos (by simp [top])]
  refine Spec.bind (h2s.rightP ?_)
  refine Spec.bind (h2r.color hb ?_)
  refine Spec.bind (sp_assert rfl ?_)
  refine Spec.bind (h2r.setColor (c' := black) fun m3 h3 => ?_)
  have h3' : Rep t key m3 (plug (node black (node tc tl n tr) px (node pc sl sx (node black ol ox or'))) rest) := h3
  refine rotateLeft_spec hb hs h3' hrest fun m4 h4 => ?_
  exact hq m4 [Frame.L black px sl, Frame.L pc sx (node black ol ox or')] (by simp) h4
    (fun u => by simp [Rbt.case6, Rbt.color, Rbt.setColor, Rbt.rotateLeft, plug])

theorem case6_R (hb : 0 < t.base) (hs : t.size ≤ 2 ^ 63) {m : Mem κ} {tc pc sc : Color} {tl tr sl sr : Tree Nat} {n px sx : Nat}
    {rest : Ctx Nat}
    (h : Rep t key m (plug (node tc tl n tr) (Frame.R pc (node sc sl sx sr) px :: rest))) (hrest : rest = [] → pc = black) {u0 w0 : Tree Nat}
    (hw : Rbt.case6 u0 (Frame.R pc (node sc sl sx sr) px) = some w0) {Q : Unit → Mem κ → Prop}
    (hq : ∀ m' fs, fs ≠ [] → Rep t key m' (plug (node tc tl n tr) (fs ++ rest)) →
      (∀ u, Rbt.case6 u (Frame.R pc (node sc sl sx sr) px) = some (plug u fs)) → Q () m') :
    Spec (case6 t (pt t n)) m Q := by
  simp only [Rbt.case6] at hw
  split at hw
  case isFalse => cases hw
  case isTrue hred =>
  obtain ⟨ol, ox, or', rfl⟩ := color_red_node hred
  have hp : Rep t key m (plug (node pc (node sc (node red ol ox or') sx sr) px (node tc tl n tr)) rest) := h
  have hsb : Rep t key m (plug (node sc (node red ol ox or') sx sr) (Frame.L pc px (node tc tl n tr) :: rest)) := h
  unfold case6
  refine Spec.bind (h.siblingR hb ?_)
  refine Spec.bind (h.parentP ?_)
  refine Spec.bind (hp.rd ?_)
  refine Spec.bind (hsb.setColor (c' := pc) fun m1 h1 => ?_)
  have h1' : Rep t key m1 (plug (node pc (node pc (node red ol ox or') sx sr) px (node tc tl n tr)) rest) := h1
  refine Spec.bind (h1'.setColor (c' := black) fun m2 h2 => ?_)
  have h2s : Rep t key m2 (plug (node pc (node red ol ox or') sx sr) (Frame.L black px (node tc tl n tr) :: rest)) := h2
  have h2r : Rep t key m2 (plug (node red ol ox or') (Frame.L pc sx sr :: Frame.L black px (node tc tl n tr) :: rest)) := h2
  refine Spec.bind (sp_off hb (Or.inr h.cell.1.2) ?_)
  rw [if_neg (by simpa [top] using h.sibR.symm)]
  refine Spec.bind (h2s.leftP ?_)
  refine Spec.bind (h2r.color hb ?_)
  refine Spec.bind (sp_assert rfl ?_)
  refine Spec.bind (h2r.setColor (c' := black) fun m3 h3 => ?_)
  have h3' : Rep t key m3 (plug (node black (node pc (node black ol ox or') sx sr) px (node tc tl n tr)) rest) := h3
  refine rotateRight_spec hb hs h3' hrest fun m4 h4 => ?_
  exact hq m4 [Frame.R black sr px, Frame.R pc (node black ol ox or') sx] (by simp) h4
    (fun u => by simp [Rbt.case6, Rbt.color, Rbt.setColor, Rbt.rotateRight, plug])

theorem case5_L (hb : 0 < t.base) (hs : t.size ≤ 2 ^ 63) {m : Mem κ} {tc pc sc : Color} {tl tr sl sr : Tree Nat} {n px sx : Nat}
    {rest : Ctx Nat}
    (h : Rep t key m (plug (node tc tl n tr) (Frame.L pc px (node sc sl sx sr) :: rest))) (hrest : rest = [] → pc = black) {u0 w0 : Tree Nat}
    (hw : Rbt.case5 u0 (Frame.L pc px (node sc sl sx sr)) = some w0) {Q : Unit → Mem κ → Prop}
    (hq : ∀ m' fs, fs ≠ [] → Rep t key m' (plug (node tc tl n tr) (fs ++ rest)) →
      (∀ u, Rbt.case5 u (Frame.L pc px (node sc sl sx sr)) = some (plug u fs)) → Q () m') :
    Spec (case5 t (pt t n)) m Q := by
  have hp : Rep t key m (plug (node pc (node tc tl n tr) px (node sc sl sx sr)) rest) := h
  have hsb : Rep t key m (plug (node sc sl sx sr) (Frame.R pc (node tc tl n tr) px :: rest)) := h
  have hl : Rep t key m (plug sl (Frame.L sc sx sr :: Frame.R pc (node tc tl n tr) px :: rest)) := h
  have hr : Rep t key m (plug sr (Frame.R sc sl sx :: Frame.R pc (node tc tl n tr) px :: rest)) := h
  unfold case5
  refine Spec.bind (h.siblingL hb ?_)
  refine Spec.bind (h.parentP ?_)
  refine Spec.bind (hp.rd ?_)
  refine Spec.bind (sp_off hb (Or.inr h.cell.1.2) ?_)
  refine Spec.bind (hsb.color hb ?_)
  refine Spec.bind (hsb.leftP ?_)
  refine Spec.bind (hsb.rightP ?_)
  refine Spec.bind (hl.color hb ?_)
  refine Spec.bind (hr.color hb ?_)
  rw [show (n == top (node tc tl n tr)) = true by simp [top]]
  rw [show (n == top (node sc sl sx sr)) = false by simpa [top] using h.sibL.symm]
  simp only [Bool.true_and, Bool.false_and, Bool.false_eq_true, if_false]
  by_cases hc : sc = black ∧ Rbt.color sl = red ∧ Rbt.color sr = black
  · obtain ⟨rfl, hci, hco⟩ := hc
    obtain ⟨il, ix, ir, rfl⟩ := color_red_node hci
    have hi : Rep t key m (plug (node red il ix ir) (Frame.L black sx sr :: Frame.R pc (node tc tl n tr) px :: rest)) := h
    rw [if_pos (by rw [hco]; rfl)]
    refine Spec.bind (hsb.setColor (c' := red) fun m1 h1 => ?_)
    have h1i : Rep t key m1 (plug (node red il ix ir) (Frame.L red sx sr :: Frame.R pc (node tc tl n tr) px :: rest)) := h1
    refine Spec.bind (h1i.setColor (c' := black) fun m2 h2 => ?_)
    have h2s : Rep t key m2 (plug (node red (node black il ix ir) sx sr) (Frame.R pc (node tc tl n tr) px :: rest)) := h2
    refine Spec.bind (rotateRight_spec hb hs h2s (by simp) fun m3 h3 => ?_)
    have h3' : Rep t key m3 (plug (node tc tl n tr) (Frame.L pc px (node black il ix (node red ir sx sr)) :: rest)) := h3
    have e5 : ∀ u, Rbt.case5 u (Frame.L pc px (node black (node red il ix ir) sx sr)) = Rbt.case6 u (Frame.L pc px (node black il ix (node red ir sx sr))) := by
      intro u
      simp [Rbt.case5, color_node, hco, Rbt.setColor, Rbt.rotateRight]
    rw [e5] at hw
    exact case6_L hb hs h3' hrest hw fun m' fs hne hr' he => hq m' fs hne hr' fun u => (e5 u).trans (he u)
  · have hc' : ¬ (Rbt.color (node sc sl sx sr) == black && Rbt.color sl == red && Rbt.color sr == black) = true := by
      simpa [color_node, Bool.and_eq_true, beq_iff_eq, and_assoc] using hc
    rw [if_neg hc']
    have e5 : ∀ u, Rbt.case5 u (Frame.L pc px (node sc sl sx sr)) = Rbt.case6 u (Frame.L pc px (node sc sl sx sr)) := by
      intro u
      simp only [Rbt.case5, hc, if_false]
    rw [e5] at hw
    exact case6_L hb hs h hrest hw fun m' fs hne hr' he => hq m' fs hne hr' fun u => (e5 u).trans (he u)

theorem case5_R (hb : 0 < t.base) (hs : t.size ≤ 2 ^ 63) {m : Mem κ} {tc pc sc : Color} {tl tr sl sr : Tree Nat} {n px sx : Nat}
    {rest : Ctx Nat}
    (h : Rep t key m (plug (node tc tl n tr) (Frame.R pc (node sc sl sx sr) px :: rest))) (hrest : rest = [] → pc = black) {u0 w0 : Tree Nat}
    (hw : Rbt.case5 u0 (Frame.R pc (node sc sl sx sr) px) = some w0) {Q : Unit → Mem κ → Prop}
    (hq : ∀ m' fs, fs ≠ [] → Rep t key m' (plug (node tc tl n tr) (fs ++ rest)) →
      (∀ u, Rbt.case5 u (Frame.R pc (node sc sl sx sr) px) = some (plug u fs)) → Q () m') :
    Spec (case5 t (pt t n)) m Q := by
  have hp : Rep t key m (plug (node pc (node sc sl sx sr) px (node tc tl n tr)) rest) := h
  have hsb : Rep t key m (plug (node sc sl sx sr) (Frame.L pc px (node tc tl n tr) :: rest)) := h
  have hl : Rep t key m (plug sl (Frame.L sc sx sr :: Frame.L pc px (node tc tl n tr) :: rest)) := h
  have hr : Rep t key m (plug sr (Frame.R sc sl sx :: Frame.L pc px (node tc tl n tr) :: rest)) := h
  unfold case5
  refine Spec.bind (h.siblingR hb ?_)
  refine Spec.bind (h.parentP ?_)
  refine Spec.bind (hp.rd ?_)
  refine Spec.bind (sp_off hb (Or.inr h.cell.1.2) ?_)
  refine Spec.bind (hsb.color hb ?_)
  refine Spec.bind (hsb.leftP ?_)
  refine Spec.bind (hsb.rightP ?_)
  refine Spec.bind (hl.color hb ?_)
  refine Spec.bind (hr.color hb ?_)
  rw [show (n == top (node sc sl sx sr)) = false by simpa [top] using h.sibR.symm]
  rw [show (n == top (node tc tl n tr)) = true by simp [top]]
  simp only [Bool.true_and, Bool.false_and, Bool.false_eq_true, if_false]
  by_cases hc : sc = black ∧ Rbt.color sr = red ∧ Rbt.color sl = black
  · obtain ⟨rfl, hci, hco⟩ := hc
    obtain ⟨il, ix, ir, rfl⟩ := color_red_node hci
    have hi : Rep t key m (plug (node red il ix ir) (Frame.R black sl sx :: Frame.L pc px (node tc tl n tr) :: rest)) := h
    rw [if_pos (by rw [hco]; rfl)]
    refine Spec.bind (hsb.setColor (c' := red) fun m1 h1 => ?_)
    have h1i : Rep t key m1 (plug (node red il ix ir) (Frame.R red sl sx :: Frame.L pc px (node tc tl n tr) :: rest)) := h1
    refine Spec.bind (h1i.setColor (c' := black) fun m2 h2 => ?_)
    have h2s : Rep t key m2 (plug (node red sl sx (node black il ix ir)) (Frame.L pc px (node tc tl n tr) :: rest)) := h2
    refine Spec.bind (rotateLeft_spec hb hs h2s (by simp) fun m3 h3 => ?_)
    have h3' : Rep t key m3 (plug (node tc tl n tr) (Frame.R pc (node black (node red sl sx il) ix ir) px :: rest)) := h3
    have e5 : ∀ u, Rbt.case5 u (Frame.R pc (node black sl sx (node red il ix ir)) px) = Rbt.case6 u (Frame.R pc (node black (node red sl sx il) ix ir) px) := by
      intro u
      simp [Rbt.case5, color_node, hco, Rbt.setColor, Rbt.rotateLeft]
    rw [e5] at hw
    exact case6_R hb hs h3' hrest hw fun m' fs hne hr' he => hq m' fs hne hr' fun u => (e5 u).trans (he u)
  · have hc' : ¬ (Rbt.color (node sc sl sx sr) == black && Rbt.color sr == red && Rbt.color sl == black) = true := by
      simpa [color_node, Bool.and_eq_true, beq_iff_eq, and_assoc] using hc
    rw [if_neg hc']
    have e5 : ∀ u, Rbt.case5 u (Frame.R pc (node sc sl sx sr) px) = Rbt.case6 u (Frame.R pc (node sc sl sx sr) px) := by
      intro u
      simp only [Rbt.case5, hc, if_false]
    rw [e5] at hw
    exact case6_R hb hs h hrest hw fun m' fs hne hr' he => hq m' fs hne hr' fun u => (e5 u).trans (he u)

theorem case4_L (hb : 0 < t.base) (hs : t.size ≤ 2 ^ 63) {m : Mem κ} {tc pc sc : Color} {tl tr sl sr : Tree Nat} {n px sx : Nat}
    {rest : Ctx Nat}
    (h : Rep t key m (plug (node tc tl n tr) (Frame.L pc px (node sc sl sx sr) :: rest))) (hrest : rest = [] → pc = black) {u0 w0 : Tree Nat}
    (hw : Rbt.case4 u0 (Frame.L pc px (node sc sl sx sr)) = some w0) {Q : Unit → Mem κ → Prop}
    (hq : ∀ m' fs, fs ≠ [] → Rep t key m' (plug (node tc tl n tr) (fs ++ rest)) →
      (∀ u, Rbt.case4 u (Frame.L pc px (node sc sl sx sr)) = some (plug u fs)) → Q () m') :
    Spec (case4 t (pt t n)) m Q := by
  have hp : Rep t key m (plug (node pc (node tc tl n tr) px (node sc sl sx sr)) rest) := h
  have hsb : Rep t key m (plug (node sc sl sx sr) (Frame.R pc (node tc tl n tr) px :: rest)) := h
  have hl : Rep t key m (plug sl (Frame.L sc sx sr :: Frame.R pc (node tc tl n tr) px :: rest)) := h
  have hr : Rep t key m (plug sr (Frame.R sc sl sx :: Frame.R pc (node tc tl n tr) px :: rest)) := h
  unfold case4
  refine Spec.bind (h.siblingL hb ?_)
  refine Spec.bind (h.parentP ?_)
  refine Spec.bind (hp.color hb ?_)
  refine Spec.bind (hsb.color hb ?_)
  refine Spec.bind (hsb.leftP ?_)
  refine Spec.bind (hsb.rightP ?_)
  refine Spec.bind (hl.color hb ?_)
  refine Spec.bind (hr.color hb ?_)
  by_cases hc : pc = red ∧ sc = black ∧ Rbt.color sl = black ∧ Rbt.color sr = black
  · have hc' := hc
    obtain ⟨rfl, rfl, hci, hco⟩ := hc
    rw [if_pos (by rw [hco, hci]; rfl)]
    refine Spec.bind (hsb.setColor (c' := red) fun m1 h1 => ?_)
    have h1p : Rep t key m1 (plug (node red (node tc tl n tr) px (node red sl sx sr)) rest) := h1
    refine h1p.setColor (c' := black) fun m2 h2 => ?_
    refine hq m2 [Frame.L black px (node red sl sx sr)] (by simp) h2 fun u => ?_
    simp only [Rbt.case4, hc', and_self, if_true]
    rfl
  · have hc' : ¬ (Rbt.color (node pc (node tc tl n tr) px (node sc sl sx sr)) == red && Rbt.color (node sc sl sx sr) == black && Rbt.color sl == black &&
        Rbt.color sr == black) = true := by
      simpa [color_node, Bool.and_eq_true, beq_iff_eq, and_assoc] using hc
    rw [if_neg hc']
    have e5 : ∀ u, Rbt.case4 u (Frame.L pc px (node sc sl sx sr)) = Rbt.case5 u (Frame.L pc px (node sc sl sx sr)) := by
      intro u
      simp only [Rbt.case4, hc, if_false]
    rw [e5] at hw
    exact case5_L hb hs h hrest hw fun m' fs hne hr' he => hq m' fs hne hr' fun u => (e5 u).trans (he u)

theorem case4_R (hb : 0 < t.base) (hs : t.size ≤ 2 ^ 63) {m : Mem κ} {tc pc sc : Color} {tl tr sl sr : Tree Nat} {n px sx : Nat}
    {rest : Ctx Nat}
    (h : Rep t key m (plug (node tc tl n tr) (Frame.R pc (node sc sl sx sr) px :: rest))) (hrest : rest = [] → pc = black) {u0 w0 : Tree Nat}
    (hw : Rbt.case4 u0 (Frame.R pc (node sc sl sx sr) px) = some w0) {Q : Unit → Mem κ → Prop}
    (hq : ∀ m' fs, fs ≠ [] → Rep t key m' (plug (node tc tl n tr) (fs ++ rest)) →
      (∀ u, Rbt.case4 u (Frame.R pc (node sc sl sx sr) px) = some (plug u fs)) → Q () m') :
    Spec (case4 t (pt t n)) m Q := by
  have hp : Rep t key m (plug (node pc (node sc sl sx sr) px (node tc tl n tr)) rest) := h
  have hsb : Rep t key m (plug (node sc sl sx sr) (Frame.L pc px (node tc tl n tr) :: rest)) := h
  have hl : Rep t key m (plug sl (Frame.L sc sx sr :: Frame.L pc px (node tc tl n tr) :: rest)) := h
  have hr : Rep t key m (plug sr (Frame.R sc sl sx :: Frame.L pc px (node tc tl n tr) :: rest)) := h
  unfold case4
  refine Spec.bind (h.siblingR hb ?_)
  refine Spec.bind (h.parentP ?_)
  refine Spec.bind (hp.color hb ?_)
  refine Spec.bind (hsb.color hb ?_)
  refine Spec.bind (hsb.leftP ?_)
  refine Spec.bind (hsb.rightP ?_)
  refine Spec.bind (hl.color hb ?_)
  refine Spec.bind (hr.color hb ?_)
  by_cases hc : pc = red ∧ sc = black ∧ Rbt.color sl = black ∧ Rbt.color sr = black
  · have hc' := hc
    obtain ⟨rfl, rfl, hci, hco⟩ := hc
    rw [if_pos (by rw [hco, hci]; rfl)]
    refine Spec.bind (hsb.setColor (c' := red) fun m1 h1 => ?_)
    have h1p : Rep t key m1 (plug (node red (node red sl sx sr) px (node tc tl n tr)) rest) := h1
    refine h1p.setColor (c' := black) fun m2 h2 => ?_
    refine hq m2 [Frame.R black (node red sl sx sr) px] (by simp) h2 fun u => ?_
    simp only [Rbt.case4, hc', and_self, if_true]
    rfl
  · have hc' : ¬ (Rbt.color (node pc (node sc sl sx sr) px (node tc tl n tr)) == red && Rbt.color (node sc sl sx sr) == black && Rbt.color sl == black &&
        Rbt.color sr == black) = true := by
      simpa [color_node, Bool.and_eq_true, beq_iff_eq, and_assoc] using hc
    rw [if_neg hc']
    have e5 : ∀ u, Rbt.case4 u (Frame.R pc (node sc sl sx sr) px) = Rbt.case5 u (Frame.R pc (node sc sl sx sr) px) := by
      intro u
      simp only [Rbt.case4, hc, if_false]
    rw [e5] at hw
    exact case5_R hb hs h hrest hw fun m' fs hne hr' he => hq m' fs hne hr' fun u => (e5 u).trans (he u)

/-- the root of the tree is black -/
def RootBlack : Ctx Nat → Prop
  | [] => True
  | [Frame.L c _ _] => c = black
  | [Frame.R c _ _] => c = black
  | _ :: rest => RootBlack rest

theorem RootBlack.tail {f : Frame Nat} {rest : Ctx Nat} (h : RootBlack (f :: rest)) : RootBlack rest := by
  cases rest with
  | nil => trivial
  | cons g rest => cases f <;> exact h

theorem case2_spec (hb : 0 < t.base) (hs : t.size ≤ 2 ^ 63) : ∀ (fuel : Nat) (m : Mem κ) (tc : Color)
    (tl tr : Tree Nat) (n : Nat) (ctx : Ctx Nat) (u0 w0 : Tree Nat), ctx ≠ [] → ctx.length ≤ fuel → RootBlack ctx →
    Rep t key m (plug (node tc tl n tr) ctx) → Rbt.delFix u0 ctx = some w0 →
    Spec (case2 t fuel (pt t n)) m fun _ m' => ∃ ctx', ctx' ≠ [] ∧ Rep t key m' (plug (node tc tl n tr) ctx') ∧
      ∀ u, Rbt.delFix u ctx = some (plug u ctx')
  | 0, _, _, _, _, _, ctx, _, _, hne, hf, _, _, _ => by
    cases ctx with
    | nil => exact absurd rfl hne
    | cons f ctx => simp at hf
  | fuel + 1, m, tc, tl, tr, n, ctx, u0, w0, hne, hf, hrb, h, hw => by
    match ctx, hne, hf, hrb, h, hw with
    | [], hne, hf, hrb, h, hw => exact absurd rfl hne
    | Frame.L pc px leaf :: rest, hne, hf, hrb, h, hw => simp [Rbt.delFix, Rbt.case3] at hw
    | Frame.R pc leaf px :: rest, hne, hf, hrb, h, hw => simp [Rbt.delFix, Rbt.case3] at hw
    | Frame.L pc px (node red sl sx sr) :: rest, hne, hf, hrb, h, hw =>
      have hp : Rep t key m (plug (node pc (node tc tl n tr) px (node red sl sx sr)) rest) := h
      have hsb : Rep t key m (plug (node red sl sx sr) (Frame.R pc (node tc tl n tr) px :: rest)) := h
      unfold case2
      refine Spec.bind (h.siblingL hb ?_)
      refine Spec.bind (h.parentP ?_)
      refine Spec.bind (sp_isNull hb ?_)
      rw [if_neg (by simp [top, hsb.cell.1.1])]
      refine Spec.bind (hsb.color hb ?_)
      refine Spec.bind (hp.rd ?_)
      refine Spec.bind (sp_off hb (Or.inr h.cell.1.2) ?_)
      refine Spec.bind (sp_when_t rfl ?_)
      refine Spec.bind (hp.setColor (c' := red) fun m1 h1 => ?_)
      have h1s : Rep t key m1 (plug (node red sl sx sr) (Frame.R red (node tc tl n tr) px :: rest)) := h1
      refine Spec.bind (h1s.setColor (c' := black) fun m2 h2 => ?_)
      have h2p : Rep t key m2 (plug (node red (node tc tl n tr) px (node black sl sx sr)) rest) := h2
      refine sp_sel_t (by simp [top]) ?_
      refine rotateLeft_spec hb hs h2p (fun _ => rfl) fun m3 h3 => ?_
      have h3n : Rep t key m3 (plug (node tc tl n tr) (Frame.L red px sl :: Frame.L black sx sr :: rest)) := h3
      cases sl with
      | leaf => simp [Rbt.delFix, Rbt.case3] at hw
      | node c2 l2 x2 r2 =>
        have h3s : Rep t key m3 (plug (node c2 l2 x2 r2) (Frame.R red (node tc tl n tr) px :: Frame.L black sx sr :: rest)) := h3
        have h3p : Rep t key m3 (plug (node red (node tc tl n tr) px (node c2 l2 x2 r2)) (Frame.L black sx sr :: rest)) := h3
        have hl2 : Rep t key m3 (plug l2 (Frame.L c2 x2 r2 :: Frame.R red (node tc tl n tr) px :: Frame.L black sx sr :: rest)) := h3
        have hr2 : Rep t key m3 (plug r2 (Frame.R c2 l2 x2 :: Frame.R red (node tc tl n tr) px :: Frame.L black sx sr :: rest)) := h3
        refine Spec.bind (h3n.siblingL hb ?_)
        refine Spec.bind (h3n.parentP ?_)
        refine Spec.bind (h3p.color hb ?_)
        refine Spec.bind (h3s.color hb ?_)
        refine Spec.bind (h3s.leftP ?_)
        refine Spec.bind (h3s.rightP ?_)
        refine Spec.bind (hl2.color hb ?_)
        refine Spec.bind (hr2.color hb ?_)
        rw [if_neg (by simp [color_node])]
        have e4 : ∀ u, Rbt.delFix u (Frame.L pc px (node red (node c2 l2 x2 r2) sx sr) :: rest) =
            (Rbt.case4 u (Frame.L red px (node c2 l2 x2 r2))).map fun w => plug w (Frame.L black sx sr :: rest) := by
          intro u
          simp only [Rbt.delFix, Rbt.case3, reduceCtorEq, false_and, if_false]
          cases Rbt.case4 u (Frame.L red px (node c2 l2 x2 r2)) <;> rfl
        rw [e4] at hw
        obtain ⟨w1, hw1, _⟩ := Option.map_eq_some_iff.1 hw
        refine case4_L hb hs h3n (by simp) hw1 fun m' fs hfs hr' he => ⟨fs ++ (Frame.L black sx sr :: rest), by simp, hr', fun u => ?_⟩
        rw [e4, he, Option.map_some, Rbt.plug_append]
    | Frame.L pc px (node black sl sx sr) :: rest, hne, hf, hrb, h, hw =>
      have hp : Rep t key m (plug (node pc (node tc tl n tr) px (node black sl sx sr)) rest) := h
      have hsb : Rep t key m (plug (node black sl sx sr) (Frame.R pc (node tc tl n tr) px :: rest)) := h
      have hl : Rep t key m (plug sl (Frame.L black sx sr :: Frame.R pc (node tc tl n tr) px :: rest)) := h
      have hr : Rep t key m (plug sr (Frame.R black sl sx :: Frame.R pc (node tc tl n tr) px :: rest)) := h
      unfold case2
      refine Spec.bind (h.siblingL hb ?_)
      refine Spec.bind (h.parentP ?_)
      refine Spec.bind (sp_isNull hb ?_)
      rw [if_neg (by simp [top, hsb.cell.1.1])]
      refine Spec.bind (hsb.color hb ?_)
      refine Spec.bind (hp.rd ?_)
      refine Spec.bind (sp_off hb (Or.inr h.cell.1.2) ?_)
      refine Spec.bind (sp_when_f rfl ?_)
      refine Spec.bind (h.siblingL hb ?_)
      refine Spec.bind (h.parentP ?_)
      refine Spec.bind (hp.color hb ?_)
      refine Spec.bind (hsb.color hb ?_)
      refine Spec.bind (hsb.leftP ?_)
      refine Spec.bind (hsb.rightP ?_)
      refine Spec.bind (hl.color hb ?_)
      refine Spec.bind (hr.color hb ?_)
      by_cases hc : pc = black ∧ Rbt.color sl = black ∧ Rbt.color sr = black
      · obtain ⟨rfl, hcl, hcr⟩ := hc
        rw [if_pos (by rw [hcl, hcr]; rfl)]
        refine Spec.bind (hsb.setColor (c' := red) fun m1 h1 => ?_)
        have h1p : Rep t key m1 (plug (node black (node tc tl n tr) px (node red sl sx sr)) rest) := h1
        refine Spec.bind (h1p.rd ?_)
        have e3 : ∀ u, Rbt.delFix u (Frame.L black px (node black sl sx sr) :: rest) =
            Rbt.delFix (plug u [Frame.L black px (node red sl sx sr)]) rest := by
          intro u
          simp only [Rbt.delFix, Rbt.case3, hcl, hcr, and_self, if_true, plug]
        cases rest with
        | nil =>
          refine sp_when_f (by simp [parOf]) ⟨[Frame.L black px (node red sl sx sr)], by simp, h1, fun u => ?_⟩
          rw [e3]
          simp only [Rbt.delFix]
        | cons f rest =>
          have hpo : parOf (f :: rest) ≠ 0 := by cases f <;> exact h1p.split.2.1.1
          refine sp_when_t (by simp [hpo]) ?_
          rw [e3] at hw
          refine Spec.mono (case2_spec hb hs fuel m1 _ _ _ px (f :: rest) _ w0 (by simp)
            (by simp only [List.length_cons] at hf ⊢; omega) hrb.tail h1p hw) ?_
          rintro _ m2 ⟨ctx', hne', hr', he⟩
          exact ⟨Frame.L black px (node red sl sx sr) :: ctx', by simp, hr', fun u => (e3 u).trans (he _)⟩
      · have hc' : ¬ (Rbt.color (node pc (node tc tl n tr) px (node black sl sx sr)) == black && Rbt.color (node black sl sx sr) == black &&
            Rbt.color sl == black && Rbt.color sr == black) = true := by
          simpa [color_node, Bool.and_eq_true, beq_iff_eq, and_assoc] using hc
        rw [if_neg hc']
        have e4 : ∀ u, Rbt.delFix u (Frame.L pc px (node black sl sx sr) :: rest) =
            (Rbt.case4 u (Frame.L pc px (node black sl sx sr))).map fun w => plug w rest := by
          intro u
          simp only [Rbt.delFix, Rbt.case3, true_and, hc, if_false]
          cases Rbt.case4 u (Frame.L pc px (node black sl sx sr)) <;> rfl
        rw [e4] at hw
        obtain ⟨w1, hw1, _⟩ := Option.map_eq_some_iff.1 hw
        refine case4_L hb hs h (fun e => by subst e; exact hrb) hw1 fun m' fs hfs hr' he =>
          ⟨fs ++ rest, by simp [hfs], hr', fun u => ?_⟩
        rw [e4, he, Option.map_some, Rbt.plug_append]
    | Frame.R pc (node red sl sx sr) px :: rest, hne, hf, hrb, h, hw =>
      have hp : Rep t key m (plug (node pc (node red sl sx sr) px (node tc tl n tr)) rest) := h
      have hsb : Rep t key m (plug (node red sl sx sr) (Frame.L pc px (node tc tl n tr) :: rest)) := h
      unfold case2
      refine Spec.bind (h.siblingR hb ?_)
      refine Spec.bind (h.parentP ?_)
      refine Spec.bind (sp_isNull hb ?_)
      rw [if_neg (by simp [top, hsb.cell.1.1])]
      refine Spec.bind (hsb.color hb ?_)
      refine Spec.bind (hp.rd ?_)
      refine Spec.bind (sp_off hb (Or.inr h.cell.1.2) ?_)
      refine Spec.bind (sp_when_t rfl ?_)
      refine Spec.bind (hp.setColor (c' := red) fun m1 h1 => ?_)
      have h1s : Rep t key m1 (plug (node red sl sx sr) (Frame.L red px (node tc tl n tr) :: rest)) := h1
      refine Spec.bind (h1s.setColor (c' := black) fun m2 h2 => ?_)
      have h2p : Rep t key m2 (plug (node red (node black sl sx sr) px (node tc tl n tr)) rest) := h2
      refine sp_sel_f (by simpa [top] using h.sibR.symm) ?_
      refine rotateRight_spec hb hs h2p (fun _ => rfl) fun m3 h3 => ?_
      have h3n : Rep t key m3 (plug (node tc tl n tr) (Frame.R red sr px :: Frame.R black sl sx :: rest)) := h3
      cases sr with
      | leaf => simp [Rbt.delFix, Rbt.case3] at hw
      | node c2 l2 x2 r2 =>
        have h3s : Rep t key m3 (plug (node c2 l2 x2 r2) (Frame.L red px (node tc tl n tr) :: Frame.R black sl sx :: rest)) := h3
        have h3p : Rep t key m3 (plug (node red (node c2 l2 x2 r2) px (node tc tl n tr)) (Frame.R black sl sx :: rest)) := h3
        have hl2 : Rep t key m3 (plug l2 (Frame.L c2 x2 r2 :: Frame.L red px (node tc tl n tr) :: Frame.R black sl sx :: rest)) := h3
        have hr2 : Rep t key m3 (plug r2 (Frame.R c2 l2 x2 :: Frame.L red px (node tc tl n tr) :: Frame.R black sl sx :: rest)) := h3
        refine Spec.bind (h3n.siblingR hb ?_)
        refine Spec.bind (h3n.parentP ?_)
        refine Spec.bind (h3p.color hb ?_)
        refine Spec.bind (h3s.color hb ?_)
        refine Spec.bind (h3s.leftP ?_)
        refine Spec.bind (h3s.rightP ?_)
        refine Spec.bind (hl2.color hb ?_)
        refine Spec.bind (hr2.color hb ?_)
        rw [if_neg (by simp [color_node])]
        have e4 : ∀ u, Rbt.delFix u (Frame.R pc (node red sl sx (node c2 l2 x2 r2)) px :: rest) =
            (Rbt.case4 u (Frame.R red (node c2 l2 x2 r2) px)).map fun w => plug w (Frame.R black sl sx :: rest) := by
          intro u
          simp only [Rbt.delFix, Rbt.case3, reduceCtorEq, false_and, if_false]
          cases Rbt.case4 u (Frame.R red (node c2 l2 x2 r2) px) <;> rfl
        rw [e4] at hw
        obtain ⟨w1, hw1, _⟩ := Option.map_eq_some_iff.1 hw
        refine case4_R hb hs h3n (by simp) hw1 fun m' fs hfs hr' he => ⟨fs ++ (Frame.R black sl sx :: rest), by simp, hr', fun u => ?_⟩
        rw [e4, he, Option.map_some, Rbt.plug_append]
    | Frame.R pc (node black sl sx sr) px :: rest, hne, hf, hrb, h, hw =>
      have hp : Rep t key m (plug (node pc (node black sl sx sr) px (node tc tl n tr)) rest) := h
      have hsb : Rep t key m (plug (node black sl sx sr) (Frame.L pc px (node tc tl n tr) :: rest)) := h
      have hl : Rep t key m (plug sl (Frame.L black sx sr :: Frame.L pc px (node tc tl n tr) :: rest)) := h
      have hr : Rep t key m (plug sr (Frame.R black sl sx :: Frame.L pc px (node tc tl n tr) :: rest)) := h
      unfold case2
      refine Spec.bind (h.siblingR hb ?_)
      refine Spec.bind (h.parentP ?_)
      refine Spec.bind (sp_isNull hb ?_)
      rw [if_neg (by simp [top, hsb.cell.1.1])]
      refine Spec.bind (hsb.color hb ?_)
      refine Spec.bind (hp.rd ?_)
      refine Spec.bind (sp_off hb (Or.inr h.cell.1.2) ?_)
      refine Spec.bind (sp_when_f rfl ?_)
      refine Spec.bind (h.siblingR hb ?_)
      refine Spec.bind (h.parentP ?_)
      refine Spec.bind (hp.color hb ?_)
      refine Spec.bind (hsb.color hb ?_)
      refine Spec.bind (hsb.leftP ?_)
      refine Spec.bind (hsb.rightP ?_)
      refine Spec.bind (hl.color hb ?_)
      refine Spec.bind (hr.color hb ?_)
      by_cases hc : pc = black ∧ Rbt.color sl = black ∧ Rbt.color sr = black
      · obtain ⟨rfl, hcl, hcr⟩ := hc
        rw [if_pos (by rw [hcl, hcr]; rfl)]
        refine Spec.bind (hsb.setColor (c' := red) fun m1 h1 => ?_)
        have h1p : Rep t key m1 (plug (node black (node red sl sx sr) px (node tc tl n tr)) rest) := h1
        refine Spec.bind (h1p.rd ?_)
        have e3 : ∀ u, Rbt.delFix u (Frame.R black (node black sl sx sr) px :: rest) =
            Rbt.delFix (plug u [Frame.R black (node red sl sx sr) px]) rest := by
          intro u
          simp only [Rbt.delFix, Rbt.case3, hcl, hcr, and_self, if_true, plug]
        cases rest with
        | nil =>
          refine sp_when_f (by simp [parOf]) ⟨[Frame.R black (node red sl sx sr) px], by simp, h1, fun u => ?_⟩
          rw [e3]
          simp only [Rbt.delFix]
        | cons f rest =>
          have hpo : parOf (f :: rest) ≠ 0 := by cases f <;> exact h1p.split.2.1.1
          refine sp_when_t (by simp [hpo]) ?_
          rw [e3] at hw
          refine Spec.mono (case2_spec hb hs fuel m1 _ _ _ px (f :: rest) _ w0 (by simp)
            (by simp only [List.length_cons] at hf ⊢; omega) hrb.tail h1p hw) ?_
          rintro _ m2 ⟨ctx', hne', hr', he⟩
          exact ⟨Frame.R black (node red sl sx sr) px :: ctx', by simp, hr', fun u => (e3 u).trans (he _)⟩
      · have hc' : ¬ (Rbt.color (node pc (node black sl sx sr) px (node tc tl n tr)) == black && Rbt.color (node black sl sx sr) == black &&
            Rbt.color sl == black && Rbt.color sr == black) = true := by
          simpa [color_node, Bool.and_eq_true, beq_iff_eq, and_assoc] using hc
        rw [if_neg hc']
        have e4 : ∀ u, Rbt.delFix u (Frame.R pc (node black sl sx sr) px :: rest) =
            (Rbt.case4 u (Frame.R pc (node black sl sx sr) px)).map fun w => plug w rest := by
          intro u
          simp only [Rbt.delFix, Rbt.case3, true_and, hc, if_false]
          cases Rbt.case4 u (Frame.R pc (node black sl sx sr) px) <;> rfl
        rw [e4] at hw
        obtain ⟨w1, hw1, _⟩ := Option.map_eq_some_iff.1 hw
        refine case4_R hb hs h (fun e => by subst e; exact hrb) hw1 fun m' fs hfs hr' he =>
          ⟨fs ++ rest, by simp [hfs], hr', fun u => ?_⟩
        rw [e4, he, Option.map_some, Rbt.plug_append]

/-! ## unlinking -/

theorem RepT.reparent {m : Mem κ} {T : Tree Nat} {p p' : Nat} {n : Node κ} (h : RepT t key m T p) (hT : T ≠ leaf)
    (hn : (traverse T).Nodup) (hg : get t m (top T) = some n) :
    RepT t key (Verif.Rrbt.put t m (top T) { n with parent := p' }) T p' := by
  cases T with
  | leaf => exact absurd rfl hT
  | node c l x r =>
    obtain ⟨g1, g2, g3, g4⟩ := h
    obtain ⟨n1, n2, _⟩ := nodup_node (ctx := []) hn
    simp only [top] at hg ⊢
    rw [g2] at hg
    cases hg
    exact ⟨g1, get_put _ _ _ _, g3.put n1, g4.put n2⟩

theorem replace_L (hb : 0 < t.base) (hs : t.size ≤ 2 ^ 63) {m : Mem κ} {c pc : Color} {l r ps child : Tree Nat}
    {x px : Nat} {ctx : Ctx Nat} (h : Rep t key m (plug (node c l x r) (Frame.L pc px ps :: ctx)))
    (hch : (r = leaf ∧ child = l) ∨ (l = leaf ∧ child = r)) {Q : Unit → Mem κ → Prop}
    (hq : ∀ m', Rep t key m' (plug child (Frame.L pc px ps :: ctx)) → Q () m') :
    Spec (replaceNode t (pt t x) (pt t (top child))) m Q := by
  have hp : Rep t key m (plug (node pc (node c l x r) px ps) ctx) := h
  obtain ⟨⟨x1, x2, hl, hr⟩, p1, p2, p3, p4⟩ := h.split
  have hc : RepT t key m child x := by
    rcases hch with ⟨rfl, rfl⟩ | ⟨rfl, rfl⟩
    · exact hl
    · exact hr
  have hsub : ∀ o, o ∈ traverse child → o ∈ traverse (node c l x r) := by
    intro o ho
    rcases hch with ⟨rfl, rfl⟩ | ⟨rfl, rfl⟩ <;> simp [traverse, ho]
  have hx : x ∉ traverse child := by
    obtain ⟨n1, n2, _⟩ := nodup_node h.nodup
    rcases hch with ⟨rfl, rfl⟩ | ⟨rfl, rfl⟩ <;> assumption
  have hcn : (traverse child).Nodup := by
    obtain ⟨_, _, _, _, _, _, n1, n2⟩ := nodup_node h.nodup
    rcases hch with ⟨rfl, rfl⟩ | ⟨rfl, rfl⟩ <;> assumption
  obtain ⟨q1, q2, q3, q4, q5, q6, _⟩ := nodup_node hp.nodup
  have hpn : px ∉ traverse child := fun hm => q1 (hsub _ hm)
  have hps : ∀ o ∈ traverse child, o ∉ traverse ps ∧ o ∉ ctxL ctx ∧ o ∉ ctxR ctx := by
    intro o ho
    exact q5 o (hsub o ho)
  have hnd : (traverse (plug child (Frame.L pc px ps :: ctx))).Nodup := by
    have h1 := h.nodup
    rw [traverse_plug] at h1 ⊢
    rcases hch with ⟨rfl, rfl⟩ | ⟨rfl, rfl⟩
    · simp only [traverse, List.nodup_append, List.nodup_cons, List.mem_append, List.mem_cons] at h1 ⊢
      grind
    · simp only [traverse, List.nodup_append, List.nodup_cons, List.mem_append, List.mem_cons] at h1 ⊢
      grind
  unfold replaceNode
  refine Spec.bind (h.rd ?_)
  refine Spec.bind (sp_off hb hc.top_ok ?_)
  rw [if_neg (by simp [parOf, p1.1])]
  refine Spec.bind (sp_off hb (Or.inr x1.2) ?_)
  refine Spec.bind (h.ptrP ?_)
  refine Spec.bind (hp.rd ?_)
  refine Spec.bind (sp_sel_t (by simp [top]) (sp_setLeft p1.1 (by have := hc.top_ok; omega) p2 ?_))
  refine Spec.bind (sp_isNull hb ?_)
  by_cases hl : child = leaf
  · subst hl
    refine sp_when_f rfl (hq _ (Rep.join trivial ⟨p1, get_put _ _ _ _, p3.put q2, p4.put q3 q4⟩ hnd))
  · have hm := top_mem hl
    have h0 : top child ≠ 0 := by
      cases child with
      | leaf => exact absurd rfl hl
      | node _ _ _ _ => exact hc.1.1
    have hg : ∃ n, get t m (top child) = some n := by
      cases child with
      | leaf => exact absurd rfl hl
      | node _ _ _ _ => exact ⟨_, hc.2.1⟩
    obtain ⟨n, hg⟩ := hg
    have hcp : top child ≠ px := fun e => hpn (e ▸ hm)
    have hg' : ∀ v, get t (Verif.Rrbt.put t m px v) (top child) = some n := by
      intro v; rw [get_put_ne hcp]; exact hg
    refine sp_when_t (by simp [h0]) (sp_setParent h0 (hg' _) (hq _ (Rep.join
      ((hc.put hpn).reparent hl hcn (hg' _)) ⟨p1, ?_, (p3.put q2).put (hps _ hm).1,
        (p4.put q3 q4).put (hps _ hm).2.1 (hps _ hm).2.2⟩ hnd)))
    exact (get_put_ne hcp.symm _).trans (get_put _ _ _ _)

theorem replace_R (hb : 0 < t.base) {m : Mem κ} {c pc : Color} {l r ps child : Tree Nat}
    {x px : Nat} {ctx : Ctx Nat} (h : Rep t key m (plug (node c l x r) (Frame.R pc ps px :: ctx)))
    (hch : (r = leaf ∧ child = l) ∨ (l = leaf ∧ child = r)) {Q : Unit → Mem κ → Prop}
    (hq : ∀ m', Rep t key m' (plug child (Frame.R pc ps px :: ctx)) → Q () m') :
    Spec (replaceNode t (pt t x) (pt t (top child))) m Q := by
  have hp : Rep t key m (plug (node pc ps px (node c l x r)) ctx) := h
  obtain ⟨⟨x1, x2, hl, hr⟩, p1, p2, p3, p4⟩ := h.split
  have hc : RepT t key m child x := by
    rcases hch with ⟨rfl, rfl⟩ | ⟨rfl, rfl⟩
    · exact hl
    · exact hr
  have hsub : ∀ o, o ∈ traverse child → o ∈ traverse (node c l x r) := by
    intro o ho
    rcases hch with ⟨rfl, rfl⟩ | ⟨rfl, rfl⟩ <;> simp [traverse, ho]
  have hx : x ∉ traverse child := by
    obtain ⟨n1, n2, _⟩ := nodup_node h.nodup
    rcases hch with ⟨rfl, rfl⟩ | ⟨rfl, rfl⟩ <;> assumption
  have hcn : (traverse child).Nodup := by
    obtain ⟨_, _, _, _, _, _, n1, n2⟩ := nodup_node h.nodup
    rcases hch with ⟨rfl, rfl⟩ | ⟨rfl, rfl⟩ <;> assumption
  obtain ⟨q1, q2, q3, q4, q5, q6, _⟩ := nodup_node hp.nodup
  have hpn : px ∉ traverse child := fun hm => q2 (hsub _ hm)
  have hps : ∀ o ∈ traverse child, o ∉ traverse ps ∧ o ∉ ctxL ctx ∧ o ∉ ctxR ctx := by
    intro o ho
    exact ⟨fun hm => (q5 o hm).1 (hsub o ho), q6 o (hsub o ho)⟩
  have hnd : (traverse (plug child (Frame.R pc ps px :: ctx))).Nodup := by
    have h1 := h.nodup
    rw [traverse_plug] at h1 ⊢
    rcases hch with ⟨rfl, rfl⟩ | ⟨rfl, rfl⟩
    · simp only [traverse, List.nodup_append, List.nodup_cons, List.mem_append, List.mem_cons] at h1 ⊢
      grind
    · simp only [traverse, List.nodup_append, List.nodup_cons, List.mem_append, List.mem_cons] at h1 ⊢
      grind
  unfold replaceNode
  refine Spec.bind (h.rd ?_)
  refine Spec.bind (sp_off hb hc.top_ok ?_)
  rw [if_neg (by simp [parOf, p1.1])]
  refine Spec.bind (sp_off hb (Or.inr x1.2) ?_)
  refine Spec.bind (h.ptrP ?_)
  refine Spec.bind (hp.rd ?_)
  refine Spec.bind (sp_sel_f (by simpa [top] using h.sibR.symm) (sp_setRight p1.1 p2 ?_))
  refine Spec.bind (sp_isNull hb ?_)
  by_cases hl : child = leaf
  · subst hl
    refine sp_when_f rfl (hq _ (Rep.join trivial ⟨p1, get_put _ _ _ _, p3.put q1, p4.put q3 q4⟩ hnd))
  · have hm := top_mem hl
    have h0 : top child ≠ 0 := by
      cases child with
      | leaf => exact absurd rfl hl
      | node _ _ _ _ => exact hc.1.1
    have hg : ∃ n, get t m (top child) = some n := by
      cases child with
      | leaf => exact absurd rfl hl
      | node _ _ _ _ => exact ⟨_, hc.2.1⟩
    obtain ⟨n, hg⟩ := hg
    have hcp : top child ≠ px := fun e => hpn (e ▸ hm)
    have hg' : ∀ v, get t (Verif.Rrbt.put t m px v) (top child) = some n := by
      intro v; rw [get_put_ne hcp]; exact hg
    refine sp_when_t (by simp [h0]) (sp_setParent h0 (hg' _) (hq _ (Rep.join
      ((hc.put hpn).reparent hl hcn (hg' _)) ⟨p1, ?_, (p3.put q1).put (hps _ hm).1,
        (p4.put q3 q4).put (hps _ hm).2.1 (hps _ hm).2.2⟩ hnd)))
    exact (get_put_ne hcp.symm _).trans (get_put _ _ _ _)

theorem replace_spec (hb : 0 < t.base) (hs : t.size ≤ 2 ^ 63) {m : Mem κ} {c : Color} {l r child : Tree Nat}
    {x : Nat} {ctx : Ctx Nat} (hne : ctx ≠ []) (h : Rep t key m (plug (node c l x r) ctx))
    (hch : (r = leaf ∧ child = l) ∨ (l = leaf ∧ child = r)) {Q : Unit → Mem κ → Prop}
    (hq : ∀ m', Rep t key m' (plug child ctx) → Q () m') :
    Spec (replaceNode t (pt t x) (pt t (top child))) m Q := by
  cases ctx with
  | nil => exact absurd rfl hne
  | cons f ctx =>
    cases f with
    | L pc px ps => exact replace_L hb hs h hch hq
    | R pc ps px => exact replace_R hb h hch hq

theorem delOut_spec {m : Mem κ} {w : Tree Nat} (h : Rep t key m w) {Q : Unit → Mem κ → Prop}
    (hq : ∀ m', Rep t key m' (blacken w) → Q () m') : Spec (delOut t) m Q := by
  unfold delOut
  refine Spec.bind (sp_getRoot ?_)
  rw [h.root]
  cases w with
  | leaf => exact sp_when_f rfl (hq _ h)
  | node c l x r =>
    have hx := (Rep.cell (ctx := []) h).1
    refine sp_when_t (by simp [top, hx.1]) (Spec.bind (sp_ptr (Or.inr hx.2) ?_))
    exact Rep.setColor (ctx := []) h fun m' h' => hq m' h'

/-- the colour of the root, with a node of colour `c` at the place -/
def RootBlack' (c : Color) (ctx : Ctx Nat) : Prop := if ctx = [] then c = black else RootBlack ctx

theorem onlyChild_some {l r child : Tree Nat} (h : Rbt.onlyChild l r = some child) :
    (r = leaf ∧ child = l) ∨ (l = leaf ∧ child = r) := by
  cases r with
  | leaf =>
    left
    cases l <;> simp [Rbt.onlyChild] at h <;> exact ⟨rfl, h.symm⟩
  | node c a x b =>
    right
    cases l with
    | leaf => simp [Rbt.onlyChild] at h; exact ⟨rfl, h.symm⟩
    | node _ _ _ _ => simp [Rbt.onlyChild] at h

theorem delLow_spec (hb : 0 < t.base) (hs : t.size ≤ 2 ^ 63) {fuel : Nat} {m : Mem κ} {c : Color} {l r : Tree Nat}
    {n : Nat} {ctx : Ctx Nat} {w : Tree Nat} (hf : ctx.length ≤ fuel) (hrb : RootBlack' c ctx)
    (h : Rep t key m (plug (node c l n r) ctx)) (hw : Rbt.delOne c l r ctx = some w) :
    Spec (delLow t fuel (pt t n)) m fun _ m' => Rep t key m' (blacken w) := by
  unfold Rbt.delOne at hw
  cases hoc : Rbt.onlyChild l r with
  | none => rw [hoc] at hw; cases hw
  | some child =>
    rw [hoc] at hw
    dsimp only at hw
    have hch := onlyChild_some hoc
    unfold delLow
    refine Spec.bind (h.rd ?_)
    refine Spec.bind (sp_off hb (Or.inr h.cell.1.2) ?_)
    refine Spec.bind (sp_assert (by rcases hch with ⟨rfl, _⟩ | ⟨rfl, _⟩ <;> simp [top]) ?_)
    have hchild : ∀ {Q : Ptr → Mem κ → Prop}, Q (pt t (top child)) m →
        Spec (if (top r == 0) = true then ptr t (top l) else ptr t (top r)) m Q := by
      intro Q hq
      by_cases hr0 : r = leaf
      · subst hr0
        have : child = l := by
          rcases hch with ⟨_, e⟩ | ⟨rfl, e⟩
          · exact e
          · exact e
        subst this
        rw [if_pos (by rfl)]
        exact h.ptrL hq
      · have : child = r := by
          rcases hch with ⟨e, _⟩ | ⟨_, e⟩
          · exact absurd e hr0
          · exact e
        subst this
        have : top child ≠ 0 := by
          have hh := h.split.1.2.2.2
          cases child with
          | leaf => exact absurd rfl hr0
          | node _ _ _ _ => exact hh.1.1
        rw [if_neg (by simp [this])]
        exact h.ptrR hq
    refine Spec.bind (hchild ?_)
    refine Spec.bind (sp_getRoot ?_)
    refine Spec.bind (sp_isNull hb ?_)
    have hRc : RepT t key m child n := by
      obtain ⟨⟨_, _, h1, h2⟩, _⟩ := h.split
      rcases hch with ⟨rfl, rfl⟩ | ⟨rfl, rfl⟩ <;> assumption
    have hc0 : child ≠ leaf → top child ≠ 0 := by
      intro hne
      cases child with
      | leaf => exact absurd rfl hne
      | node _ _ _ _ => exact hRc.1.1
    have hnc : n ∉ traverse child := by
      obtain ⟨n1, n2, _⟩ := nodup_node h.nodup
      rcases hch with ⟨rfl, rfl⟩ | ⟨rfl, rfl⟩ <;> assumption
    have hcn : (traverse child).Nodup := by
      obtain ⟨_, _, _, _, _, _, n1, n2⟩ := nodup_node h.nodup
      rcases hch with ⟨rfl, rfl⟩ | ⟨rfl, rfl⟩ <;> assumption
    by_cases hctx : ctx = []
    · subst hctx
      have hc : c = black := by simpa [RootBlack'] using hrb
      subst hc
      simp only [Option.some.injEq] at hw
      subst hw
      have hroot : m.root = n := h.root
      by_cases hcl : child = leaf
      · subst hcl
        rw [if_pos (by simp [top, hroot])]
        refine Spec.bind (sp_setRoot ?_)
        exact delOut_spec (w := leaf) ⟨rfl, trivial, by simp [traverse]⟩ fun m' h' => h'
      · have h0 := hc0 hcl
        rw [if_neg (by simp [h0])]
        rw [if_neg (by simp)]
        have hpc : Rep t key m (plug (node black l n r) []) := h
        have hcol : ∀ {Q : Color → Mem κ → Prop}, Q (Rbt.color child) m → Spec (color (pt t (top child))) m Q := by
          intro Q hq
          rcases hch with ⟨rfl, rfl⟩ | ⟨rfl, rfl⟩
          · exact Rep.color (ctx := [Frame.L black n leaf]) hb h hq
          · exact Rep.color (ctx := [Frame.R black leaf n]) hb h hq
        refine Spec.bind (hcol ?_)
        refine Spec.bind (hpc.setColor (c' := Rbt.color child) fun m1 h1 => ?_)
        rw [if_pos (by rfl)]
        refine Spec.bind (sp_off hb hRc.top_ok ?_)
        refine Spec.bind (sp_setRoot ?_)
        have hR1 : RepT t key m1 child n := by
          obtain ⟨⟨_, _, h1, h2⟩, _⟩ := h1.split
          rcases hch with ⟨rfl, rfl⟩ | ⟨rfl, rfl⟩ <;> assumption
        cases child with
        | leaf => exact absurd rfl hcl
        | node cc cl cx cr =>
          obtain ⟨g1, g2, g3, g4⟩ := hR1
          obtain ⟨n1, n2, _⟩ := nodup_node (ctx := []) hcn
          refine Spec.bind (sp_when_t (by simp [top, g1.1]) ?_)
          refine Spec.bind (sp_setColor g1.1 (by rw [get_setR]; exact g2) ?_)
          refine sp_setParent g1.1 (get_put _ _ _ _) ?_
          rw [put_put]
          refine delOut_spec (w := node black cl cx cr) ⟨rfl, ⟨g1, get_put _ _ _ _, g3.setR.put n1, g4.setR.put n2⟩, ?_⟩
            fun m' h' => h'
          simpa [traverse] using hcn
    · have hrb' : RootBlack ctx := by simpa [RootBlack', hctx] using hrb
      have hr : m.root ≠ n := by
        cases ctx with
        | nil => exact absurd rfl hctx
        | cons f ctx => exact h.root_ne
      rw [if_neg (by simp [hr])]
      cases c with
      | red =>
        rw [if_pos (by rfl)]
        have hw' : plug child ctx = w := by
          dsimp only at hw
          unfold Rbt.replaceNode at hw
          cases ctx with
          | nil => exact absurd rfl hctx
          | cons f ctx => simpa using hw
        subst hw'
        exact Spec.bind (replace_spec hb hs hctx h hch fun m1 h1 => delOut_spec h1 fun m' h' => h')
      | black =>
        rw [if_neg (by simp)]
        have hw' : Rbt.delFix child ctx = some w := by
          cases ctx with
          | nil => exact absurd rfl hctx
          | cons f ctx => simpa using hw
        have hcol : ∀ {Q : Color → Mem κ → Prop}, Q (Rbt.color child) m → Spec (color (pt t (top child))) m Q := by
          intro Q hq
          rcases hch with ⟨rfl, rfl⟩ | ⟨rfl, rfl⟩
          · exact Rep.color (ctx := Frame.L black n leaf :: ctx) hb h hq
          · exact Rep.color (ctx := Frame.R black leaf n :: ctx) hb h hq
        refine Spec.bind (hcol ?_)
        refine Spec.bind (h.setColor (c' := Rbt.color child) fun m1 h1 => ?_)
        have hpo : parOf ctx ≠ 0 := by
          cases ctx with
          | nil => exact absurd rfl hctx
          | cons f ctx => cases f <;> exact h.split.2.1.1
        rw [if_neg (by simp [hpo])]
        refine Spec.bind (Spec.mono (case2_spec hb hs fuel m1 _ _ _ n ctx _ _ hctx hf hrb' h1 hw') ?_)
        rintro _ m2 ⟨ctx', hne', h2, he⟩
        have hww : w = plug child ctx' := by
          have := (he child).symm.trans hw'
          simpa using this.symm
        subst hww
        exact Spec.bind (replace_spec hb hs hne' h2 hch fun m3 h3 => delOut_spec h3 fun m' h' => h')


end Verif.Rrbt
