import Verif.Rrbt.Model

/-!
# What the programs leave alone

No program makes, removes or re-keys a node, and none reads or writes a node it does not need: it does the
same to a larger memory, and leaves the rest as it was.
-/

namespace Verif.Rrbt

variable {κ α β : Type}

/-- the larger memory has the same root, and everything that is in the smaller -/
structure Sub (m M : Mem κ) : Prop where
  root : M.root = m.root
  node : ∀ x n, m.node x = some n → M.node x = some n

/-- what a program does, it does to every larger memory, and it keeps the nodes and their keys -/
def Local (p : M κ α) : Prop := ∀ m a m', p.run m = some (a, m') →
  (∀ x, (m'.node x).map Node.key = (m.node x).map Node.key) ∧
  ∀ M, Sub m M → ∃ M', p.run M = some (a, M') ∧ Sub m' M' ∧ ∀ x, m.node x = none → M'.node x = M.node x

theorem Local.bind {p : M κ α} {f : α → M κ β} (hp : Local p) (hf : ∀ a, Local (f a)) : Local (p >>= f) := by
  intro m b m'' h
  simp only [Bind.bind, M.bind] at h
  cases h1 : p.run m with
  | none => rw [h1] at h; cases h
  | some v =>
    obtain ⟨a, m'⟩ := v
    rw [h1] at h
    dsimp only at h
    obtain ⟨k1, l1⟩ := hp m a m' h1
    obtain ⟨k2, l2⟩ := hf a m' b m'' h
    refine ⟨fun x => (k2 x).trans (k1 x), ?_⟩
    intro M hM
    obtain ⟨M', e1, s1, f1⟩ := l1 M hM
    obtain ⟨M'', e2, s2, f2⟩ := l2 M' s1
    refine ⟨M'', ?_, s2, ?_⟩
    · simp only [Bind.bind, Rrbt.M.bind, e1, e2]
    · intro x hx
      have hx' : m'.node x = none := by
        have := k1 x
        rw [hx] at this
        simpa using this
      rw [f2 x hx', f1 x hx]

theorem Local.pure (a : α) : Local (Pure.pure a : M κ α) := by
  intro m b m' h
  cases h
  exact ⟨fun _ => rfl, fun M hM => ⟨M, rfl, hM, fun _ _ => rfl⟩⟩

theorem Local.mpure (a : α) : Local (M.pure a : M κ α) := Local.pure a

theorem Local.fault : Local (fault : M κ α) := by
  intro m b m' h
  cases h

theorem Local.rd (p : Ptr) : Local (rd p : M κ (Node κ)) := by
  intro m b m' h
  unfold Rrbt.rd at h ⊢
  dsimp only at h
  cases hn : m.node p.a with
  | none => rw [hn] at h; cases h
  | some n =>
    rw [hn] at h
    cases h
    refine ⟨fun _ => rfl, fun M hM => ⟨M, ?_, hM, fun _ _ => rfl⟩⟩
    dsimp only
    rw [hM.node _ _ hn]

theorem Local.wr (p : Ptr) (f : Node κ → Node κ) (hf : ∀ n, (f n).key = n.key) : Local (wr p f) := by
  intro m b m' h
  unfold Rrbt.wr at h ⊢
  dsimp only at h
  cases hn : m.node p.a with
  | none => rw [hn] at h; cases h
  | some n =>
    rw [hn] at h
    cases h
    refine ⟨?_, ?_⟩
    · intro x
      dsimp only
      split
      · subst_vars; rw [hn]; simp [hf]
      · rfl
    · intro M hM
      dsimp only
      rw [hM.node _ _ hn]
      refine ⟨_, rfl, ⟨hM.root, ?_⟩, ?_⟩
      · intro x n' hx
        dsimp only at hx ⊢
        split
        · rw [if_pos (by assumption)] at hx; exact hx
        · rw [if_neg (by assumption)] at hx; exact hM.node _ _ hx
      · intro x hx
        dsimp only
        rw [if_neg]
        rintro rfl
        rw [hn] at hx
        cases hx

theorem Local.getRoot : Local (getRoot : M κ Nat) := by
  intro m b m' h
  cases h
  refine ⟨fun _ => rfl, fun M hM => ⟨M, ?_, hM, fun _ _ => rfl⟩⟩
  show some (M.root, M) = _
  rw [hM.root]

theorem Local.setRoot (o : Nat) : Local (setRoot o : M κ Unit) := by
  intro m b m' h
  cases h
  exact ⟨fun _ => rfl, fun M hM => ⟨_, rfl, ⟨rfl, hM.node⟩, fun _ _ => rfl⟩⟩

theorem Local.ite {c : Prop} [Decidable c] {p q : M κ α} (hp : Local p) (hq : Local q) :
    Local (if c then p else q) := by split <;> assumption

theorem Local.when {c : Bool} {p : M κ Unit} (hp : Local p) : Local (when' c p) :=
  Local.ite hp (Local.pure ())

theorem Local.sel {c : Bool} {p q : M κ Unit} (hp : Local p) (hq : Local q) : Local (sel c p q) :=
  Local.ite hp hq

theorem Local.setLeft (p : Ptr) (o : Nat) : Local (setLeft p o : M κ Unit) := Local.wr _ _ fun _ => rfl
theorem Local.setRight (p : Ptr) (o : Nat) : Local (setRight p o : M κ Unit) := Local.wr _ _ fun _ => rfl
theorem Local.setParent (p : Ptr) (o : Nat) : Local (setParent p o : M κ Unit) := Local.wr _ _ fun _ => rfl
theorem Local.setColor (p : Ptr) (c : Color) : Local (setColor p c : M κ Unit) := Local.wr _ _ fun _ => rfl

theorem Local.assert (b : Bool) : Local (assert' b : M κ Unit) := Local.ite (Local.pure _) Local.fault
theorem Local.ptr (t : Inst) (o : Nat) : Local (ptr t o : M κ Ptr) :=
  Local.ite (Local.pure _) (Local.ite (Local.pure _) Local.fault)
theorem Local.off (t : Inst) (p : Ptr) : Local (off t p : M κ Nat) :=
  Local.ite (Local.pure _) (Local.ite (Local.pure _) Local.fault)
theorem Local.eqP (p q : Ptr) : Local (eqP p q : M κ Bool) := Local.pure _
theorem Local.isNull (p : Ptr) : Local (isNull p : M κ Bool) := Local.pure _

macro "loc" : tactic => `(tactic| repeat' (first
  | assumption
  | exact Local.pure _ | exact Local.mpure _ | exact Local.fault | exact Local.rd _
  | exact Local.getRoot | exact Local.setRoot _ | exact Local.setLeft _ _ | exact Local.setRight _ _
  | exact Local.setParent _ _ | exact Local.setColor _ _ | exact Local.assert _ | exact Local.ptr _ _
  | exact Local.off _ _ | exact Local.eqP _ _ | exact Local.isNull _
  | refine Local.bind ?_ (fun _ => ?_) | apply Local.ite | apply Local.when | apply Local.sel))

variable (t : Inst)

theorem Local.leftP (p : Ptr) : Local (leftP t p : M κ Ptr) := by unfold Rrbt.leftP; loc
theorem Local.rightP (p : Ptr) : Local (rightP t p : M κ Ptr) := by unfold Rrbt.rightP; loc
theorem Local.parentP (p : Ptr) : Local (parentP t p : M κ Ptr) := by unfold Rrbt.parentP; loc
theorem Local.color (p : Ptr) : Local (color p : M κ Color) := by unfold Rrbt.color; loc
theorem Local.isRed (p : Ptr) : Local (isRed p : M κ Bool) := by
  unfold Rrbt.isRed; exact Local.bind (Local.color p) fun _ => Local.pure _
theorem Local.rotateLeft (x : Ptr) : Local (rotateLeft t x : M κ Unit) := by unfold Rrbt.rotateLeft; loc
theorem Local.rotateRight (x : Ptr) : Local (rotateRight t x : M κ Unit) := by unfold Rrbt.rotateRight; loc
theorem Local.isRoot (x : Ptr) : Local (isRoot t x : M κ Bool) := by unfold Rrbt.isRoot; loc
theorem Local.sibling (x : Ptr) : Local (sibling t x : M κ Ptr) := by unfold Rrbt.sibling; loc
theorem Local.replaceNode (x y : Ptr) : Local (replaceNode t x y : M κ Unit) := by unfold Rrbt.replaceNode; loc

macro "loc'" : tactic => `(tactic| repeat' (first
  | assumption
  | exact Local.pure _ | exact Local.mpure _ | exact Local.fault | exact Local.rd _
  | exact Local.getRoot | exact Local.setRoot _ | exact Local.setLeft _ _ | exact Local.setRight _ _
  | exact Local.setParent _ _ | exact Local.setColor _ _ | exact Local.assert _ | exact Local.ptr _ _
  | exact Local.off _ _ | exact Local.eqP _ _ | exact Local.isNull _
  | exact Local.leftP _ _ | exact Local.rightP _ _ | exact Local.parentP _ _ | exact Local.color _
  | exact Local.isRed _ | exact Local.rotateLeft _ _ | exact Local.rotateRight _ _ | exact Local.isRoot _ _
  | exact Local.sibling _ _ | exact Local.replaceNode _ _ _
  | refine Local.bind ?_ (fun _ => ?_) | apply Local.ite | apply Local.when | apply Local.sel))

theorem Local.descend (cmp : κ → κ → Int) (k : κ) : ∀ (f : Nat) (n p : Ptr) (c : Int),
    Local (descend t cmp k f n p c)
  | 0, _, _, _ => Local.fault
  | f + 1, n, p, c => by
    have ih := Local.descend cmp k f
    unfold Rrbt.descend; loc'; all_goals exact ih _ _ _

theorem Local.insFix : ∀ (f : Nat) (x : Ptr), Local (insFix t f x : M κ Unit)
  | 0, _ => Local.fault
  | f + 1, x => by
    have ih := Local.insFix f
    unfold Rrbt.insFix; loc'; all_goals exact ih _

theorem Local.ins (cmp : κ → κ → Int) (fuel : Nat) (x : Ptr) : Local (ins t cmp fuel x) := by
  unfold Rrbt.ins; loc'
  · exact Local.descend t cmp _ _ _ _ _
  · exact Local.insFix t _ _

theorem Local.rightmost : ∀ (f : Nat) (x : Ptr), Local (rightmost t f x : M κ Ptr)
  | 0, _ => Local.fault
  | f + 1, x => by
    have ih := Local.rightmost f
    unfold Rrbt.rightmost; loc'; all_goals exact ih _

theorem Local.case6 (n : Ptr) : Local (case6 t n : M κ Unit) := by unfold Rrbt.case6; loc'
theorem Local.case5 (n : Ptr) : Local (case5 t n : M κ Unit) := by
  have := Local.case6 (κ := κ) t n
  unfold Rrbt.case5; loc'
theorem Local.case4 (n : Ptr) : Local (case4 t n : M κ Unit) := by
  have := Local.case5 (κ := κ) t n
  unfold Rrbt.case4; loc'

theorem Local.case2 : ∀ (f : Nat) (x : Ptr), Local (case2 t f x : M κ Unit)
  | 0, _ => Local.fault
  | f + 1, x => by
    have ih := Local.case2 f
    have := Local.case4 (κ := κ) t x
    unfold Rrbt.case2; loc'; all_goals exact ih _

theorem Local.delOut : Local (delOut t : M κ Unit) := by unfold Rrbt.delOut; loc'

theorem Local.delLow (f : Nat) (x : Ptr) : Local (delLow t f x : M κ Unit) := by
  have := Local.delOut (κ := κ) t
  have := Local.case2 (κ := κ) t f x
  unfold Rrbt.delLow; loc'

theorem Local.relink (nn : Node κ) (on op : Nat) (p : Ptr) (b : Bool) : Local (relink t nn on op p b) := by
  unfold Rrbt.relink; loc'

theorem Local.del (f : Nat) (x : Ptr) : Local (del t f x : M κ Unit) := by
  have := Local.delOut (κ := κ) t
  have := Local.delLow (κ := κ) t f x
  unfold Rrbt.del; loc'
  exact Local.rightmost t _ _

end Verif.Rrbt
