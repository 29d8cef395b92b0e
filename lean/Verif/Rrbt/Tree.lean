import Verif.Rrbt.Walk
import Verif.Rrbt.Local
import Verif.Rrbt.Props

/-!
# C51: the relocatable tree is a sorted multimap
-/

namespace Verif.Rrbt

open Verif.Rbt (Tree Frame Ctx plug traverse blacken RB LawfulCmp Sorted insertSorted IsRedBlack)
open Verif.Rbt.Tree (leaf node)
open Verif.Rbt.Color (red black)

variable {κ : Type}

/-! ## specification -/

/-- the offset of the root of a tree of offsets, 0 if it is empty -/
def rootOff : Tree Nat → Nat
  | leaf => 0
  | node _ _ x _ => x

/-- every node of the tree is in the region, with the colour and the links the tree says; `p` is the link
to the parent -/
def Linked (key : Nat → κ) (ph : Phys κ) : Tree Nat → Nat → Prop
  | leaf, _ => True
  | node c l x r, p => 0 < x ∧ x < ph.size ∧ ph.node x = some ⟨c, rootOff l, rootOff r, p, key x⟩ ∧
    Linked key ph l x ∧ Linked key ph r x

/-- the region holds a red-black tree with the nodes `l`, from left to right -/
def Holds (key : Nat → κ) (ph : Phys κ) (l : List Nat) : Prop :=
  ∃ w : Tree Nat, ph.root = rootOff w ∧ Linked key ph w 0 ∧ IsRedBlack w ∧ traverse w = l

/-- `l` without repetitions, in the order of the keys -/
def Listed (cmp : κ → κ → Int) (key : Nat → κ) (l : List Nat) : Prop := l.Nodup ∧ Sorted cmp key l

/-- what a caller may do when the nodes in the tree are `l`: insert a node of the region that is not in the
tree, delete a node of the tree, go on from a node of the tree, search -/
def Allowed (ph : Phys κ) (l : List Nat) : Op κ → Prop
  | .ins x => 0 < x ∧ x < ph.size ∧ (ph.node x).isSome ∧ x ∉ l
  | .del x => x ∈ l
  | .succ x => x ∈ l
  | .pred x => x ∈ l
  | _ => True

/-- the nodes in the tree after an operation -/
def after (cmp : κ → κ → Int) (key : Nat → κ) (l : List Nat) : Op κ → List Nat
  | .ins x => insertSorted cmp key x l
  | .del x => l.erase x
  | _ => l

/-- what an operation must give; 0 is NULL -/
def Answer (cmp : κ → κ → Int) (key : Nat → κ) (l : List Nat) : Op κ → Nat → Prop
  | .ins _, r => r = 0
  | .del _, r => r = 0
  | .find k, r => (r ≠ 0 → r ∈ l ∧ cmp (key r) k = 0) ∧ (r = 0 → ∀ y ∈ l, cmp (key y) k ≠ 0)
  | .glb k, r => (r ≠ 0 → r ∈ l ∧ cmp (key r) k ≤ 0 ∧ ∀ y ∈ l, cmp (key y) k ≤ 0 → cmp (key y) (key r) ≤ 0) ∧
      (r = 0 → ∀ y ∈ l, 0 < cmp (key y) k)
  | .lub k, r => (r ≠ 0 → r ∈ l ∧ 0 ≤ cmp (key r) k ∧ ∀ y ∈ l, 0 ≤ cmp (key y) k → cmp (key r) (key y) ≤ 0) ∧
      (r = 0 → ∀ y ∈ l, cmp (key y) k < 0)
  | .min, r => r = l.head?.getD 0
  | .max, r => r = l.getLast?.getD 0
  | .succ x, r => ∃ a b, l = a ++ x :: b ∧ r = b.head?.getD 0
  | .pred x, r => ∃ a b, l = a ++ x :: b ∧ r = a.getLast?.getD 0

/-- the node an operation adds to the tree, if any -/
def Op.adds : Op κ → Nat → Prop
  | .ins x, o => o = x
  | _, _ => False

/-- a history of operations that a caller may do; each has the base of the region of the program doing it -/
def LegalHist (cmp : κ → κ → Int) (key : Nat → κ) (ph : Phys κ) : List Nat → List (Nat × Op κ) → Prop
  | _, [] => True
  | l, (b, op) :: ops => 0 < b ∧ Allowed ph l op ∧ LegalHist cmp key ph (after cmp key l op) ops

/-- the nodes in the tree at the end -/
def final (cmp : κ → κ → Int) (key : Nat → κ) : List Nat → List (Nat × Op κ) → List Nat
  | l, [] => l
  | l, (_, op) :: ops => final cmp key (after cmp key l op) ops

/-- every result is what it must be -/
def Answers (cmp : κ → κ → Int) (key : Nat → κ) : List Nat → List (Nat × Op κ) → List Nat → Prop
  | _, [], rs => rs = []
  | l, (_, op) :: ops, rs => ∃ r rs', rs = r :: rs' ∧ Answer cmp key l op r ∧
    Answers cmp key (after cmp key l op) ops rs'

/-! ## proof -/

theorem rootOff_eq (w : Tree Nat) : rootOff w = top w := by cases w <;> rfl

theorem linked_iff {key : Nat → κ} {ph : Phys κ} {t : Inst} {m : Mem κ} (hsz : t.size = ph.size)
    (hm : ∀ o, o < ph.size → get t m o = ph.node o) : ∀ (w : Tree Nat) (p : Nat),
    Linked key ph w p ↔ RepT t key m w p
  | leaf, _ => Iff.rfl
  | node c l x r, p => by
    unfold Linked RepT
    rw [linked_iff hsz hm l x, linked_iff hsz hm r x, rootOff_eq, rootOff_eq, hsz]
    constructor
    · rintro ⟨h1, h2, h3, h4, h5⟩
      exact ⟨⟨by omega, h2⟩, by rw [hm x h2]; exact h3, h4, h5⟩
    · rintro ⟨⟨h1, h2⟩, h3, h4, h5⟩
      exact ⟨by omega, h2, by rw [← hm x h2]; exact h3, h4, h5⟩

theorem get_view (ph : Phys κ) (b : Nat) (o : Nat) (ho : o < ph.size) : get ⟨b, ph.size⟩ (view ph b) o = ph.node o := by
  show (if b ≤ b + o ∧ b + o - b < ph.size then ph.node (b + o - b) else none) = _
  rw [if_pos ⟨by omega, by omega⟩, Nat.add_sub_cancel_left]

theorem get_contents (m : Mem κ) (b size o : Nat) (ho : o < size) :
    get ⟨b, size⟩ m o = (contents m b size).node o := by
  show _ = if o < size then m.node (b + o) else none
  rw [if_pos ho]; rfl

/-- the memory with the nodes at some offsets only -/
def keep (t : Inst) (m : Mem κ) (l : List Nat) : Mem κ :=
  ⟨m.root, fun a => if t.base ≤ a ∧ a - t.base ∈ l then m.node a else none⟩

theorem keep_sub (t : Inst) (m : Mem κ) (l : List Nat) : Sub (keep t m l) m := by
  refine ⟨rfl, ?_⟩
  intro x n h
  unfold keep at h
  dsimp only at h
  split at h
  · exact h
  · cases h

theorem keep_get {t : Inst} {m : Mem κ} {l : List Nat} {o : Nat} (h : o ∈ l) : get t (keep t m l) o = get t m o := by
  show (if t.base ≤ t.base + o ∧ t.base + o - t.base ∈ l then _ else _) = _
  rw [if_pos ⟨by omega, by rwa [Nat.add_sub_cancel_left]⟩]; rfl

theorem keep_none {t : Inst} {m : Mem κ} {l : List Nat} {o : Nat} (h : o ∉ l) :
    (keep t m l).node (t.base + o) = none := by
  show (if t.base ≤ t.base + o ∧ t.base + o - t.base ∈ l then _ else _) = _
  rw [if_neg]
  rw [Nat.add_sub_cancel_left]
  exact fun hc => h hc.2

theorem repT_keep {t : Inst} {key : Nat → κ} {m : Mem κ} {l : List Nat} : ∀ {w : Tree Nat} {p : Nat},
    (∀ o ∈ traverse w, o ∈ l) → RepT t key m w p → RepT t key (keep t m l) w p
  | leaf, _, _, _ => trivial
  | node c a x b, p, hl, h => by
    simp only [traverse, List.mem_append, List.mem_cons] at hl
    obtain ⟨h1, h2, h3, h4⟩ := h
    exact ⟨h1, by rw [keep_get (hl x (Or.inr (Or.inl rfl)))]; exact h2,
      repT_keep (fun o ho => hl o (Or.inl ho)) h3, repT_keep (fun o ho => hl o (Or.inr (Or.inr ho))) h4⟩

theorem repT_sub {t : Inst} {key : Nat → κ} {m M : Mem κ} (hs : Sub m M) : ∀ {w : Tree Nat} {p : Nat},
    RepT t key m w p → RepT t key M w p
  | leaf, _, _ => trivial
  | node _ _ _ _, _, ⟨h1, h2, h3, h4⟩ => ⟨h1, hs.node _ _ h2, repT_sub hs h3, repT_sub hs h4⟩

theorem rep_keep {t : Inst} {key : Nat → κ} {m : Mem κ} {l : List Nat} {w : Tree Nat}
    (hl : ∀ o ∈ traverse w, o ∈ l) (h : Rep t key m w) : Rep t key (keep t m l) w :=
  ⟨h.root, repT_keep hl h.tree, h.nodup⟩

theorem rep_sub {t : Inst} {key : Nat → κ} {m M : Mem κ} {w : Tree Nat} (hs : Sub m M)
    (h : Rep t key m w) : Rep t key M w := ⟨hs.root.trans h.root, repT_sub hs h.tree, h.nodup⟩

/-- a program that is right on the nodes `l` only is right on the whole memory, and leaves the other nodes
alone -/
theorem frame {t : Inst} {key : Nat → κ} {α : Type} {p : M κ α} (hp : Local p) {m : Mem κ} {l : List Nat} {w' : Tree Nat}
    (h : Spec p (keep t m l) fun _ m' => Rep t key m' w') :
    ∃ a m', p.run m = some (a, m') ∧ Rep t key m' w' ∧
      (∀ o, o ∉ l → get t m' o = get t m o) ∧
      (∀ o, (get t m' o).map Node.key = (get t m o).map Node.key) := by
  obtain ⟨a, m1, e, hr⟩ := h
  obtain ⟨_, h2⟩ := hp _ _ _ e
  obtain ⟨m', e', hs, hn⟩ := h2 m (keep_sub t m l)
  exact ⟨a, m', e', rep_sub hs hr, fun o ho => hn _ (keep_none ho), fun o => (hp _ _ _ e').1 _⟩

theorem addr_pt (t : Inst) (o : Nat) : addr t.base o = pt t o := rfl

theorem opt_off (t : Inst) (o : Option Nat) : (opt t o).a - t.base = o.getD 0 := by
  unfold opt pt null
  split
  · rename_i h; rw [h]; simp
  · simp

theorem blacken_rb {k : Nat} {w : Tree Nat} (h : RB black k w) : blacken w = w := by
  cases h <;> rfl

theorem traverse_top {w : Tree Nat} {x : Nat} (h : x ∈ traverse w) : w ≠ leaf := by
  rintro rfl; simp [traverse] at h

theorem linked_ne {key : Nat → κ} {ph : Phys κ} : ∀ {w : Tree Nat} {p : Nat}, Linked key ph w p →
    ∀ x ∈ traverse w, x ≠ 0
  | leaf, _, _, _, hx => by simp [traverse] at hx
  | node c l y r, p, ⟨h1, _, _, h4, h5⟩, x, hx => by
    simp only [traverse, List.mem_append, List.mem_cons] at hx
    rcases hx with hx | rfl | hx
    · exact linked_ne h4 x hx
    · omega
    · exact linked_ne h5 x hx

/-- what every state of a legal history satisfies -/
structure Inv (cmp : κ → κ → Int) (key : Nat → κ) (ph : Phys κ) (l : List Nat) (w : Tree Nat) : Prop where
  root : ph.root = rootOff w
  linked : Linked key ph w 0
  rb : ∃ k, RB black k w
  list : traverse w = l
  nodup : l.Nodup
  sorted : Sorted cmp key l
  size : ph.size ≤ 2 ^ 63
  keys : ∀ o n, ph.node o = some n → n.key = key o

theorem Inv.rep {cmp : κ → κ → Int} {key : Nat → κ} {ph : Phys κ} {l : List Nat} {w : Tree Nat}
    (h : Inv cmp key ph l w) (b : Nat) : Rep ⟨b, ph.size⟩ key (view ph b) w :=
  ⟨by show ph.root = _; rw [h.root, rootOff_eq], (linked_iff rfl (fun o ho => get_view ph b o ho) w 0).1 h.linked,
    by rw [h.list]; exact h.nodup⟩

theorem Inv.coupled {cmp : κ → κ → Int} {key : Nat → κ} {ph : Phys κ} {l : List Nat} {w : Tree Nat}
    (h : Inv cmp key ph l w) : Rbt.Coupled cmp key ⟨w, l.length⟩ l := ⟨h.rb, h.list, rfl, h.nodup, h.sorted⟩

/-- the invariant after an operation that changes the tree -/
theorem inv_after {cmp : κ → κ → Int} {key : Nat → κ} {ph : Phys κ} {l l' : List Nat} {w w' : Tree Nat} {q : Int}
    {b : Nat} {m' : Mem κ} (h : Inv cmp key ph l w) (hc : Rbt.Coupled cmp key ⟨w', q⟩ l')
    (hr : Rep ⟨b, ph.size⟩ key m' w')
    (hk : ∀ o, (get ⟨b, ph.size⟩ m' o).map Node.key = (get ⟨b, ph.size⟩ (view ph b) o).map Node.key) :
    Inv cmp key (contents m' b ph.size) l' w' := by
  refine ⟨?_, ?_, hc.rb, hc.list, hc.nodup, hc.sorted, h.size, ?_⟩
  · show m'.root = _
    rw [hr.root, rootOff_eq]
  · exact (linked_iff (ph := contents m' b ph.size) rfl (fun o ho => get_contents m' b ph.size o ho) w' 0).2 hr.tree
  · intro o n hn
    have ho : o < ph.size := by
      refine Classical.byContradiction fun hc => ?_
      have : (contents m' b ph.size).node o = none := if_neg hc
      rw [this] at hn; cases hn
    have h1 := hk o
    rw [get_view ph b o ho, get_contents m' b ph.size o ho, hn] at h1
    cases hv : ph.node o with
    | none => rw [hv] at h1; simp at h1
    | some n' =>
      rw [hv] at h1
      simp only [Option.map_some, Option.some.injEq] at h1
      rw [h1]; exact h.keys o n' hv

theorem contents_view (ph : Phys κ) (b : Nat) (hout : ∀ o, ph.size ≤ o → ph.node o = none) :
    contents (view ph b) b ph.size = ph := by
  cases ph with
  | mk size root node =>
    unfold contents
    congr 1
    funext o
    by_cases ho : o < size
    · rw [if_pos ho]; exact get_view ⟨size, root, node⟩ b o ho
    · rw [if_neg ho]; exact (hout o (Nat.le_of_not_lt ho)).symm

/-- enough steps for the loops: the number of nodes, or for a search from the root the height -/
def Enough (l : List Nat) (w : Tree Nat) (fuel : Nat) : Op κ → Prop
  | .ins _ => l.length < fuel
  | .del _ => l.length < fuel
  | .succ _ => l.length < fuel
  | .pred _ => l.length < fuel
  | _ => Rbt.height w < fuel

/-- one operation: it does not fault, its answer is right, the tree has the right nodes, and no node is
touched that is neither in the tree nor inserted -/
theorem step_inv {cmp : κ → κ → Int} (hlaw : LawfulCmp cmp) {key : Nat → κ} {ph : Phys κ} {l : List Nat}
    {w : Tree Nat} (h : Inv cmp key ph l w) (hout : ∀ o, ph.size ≤ o → ph.node o = none) {fuel b : Nat}
    (hb : 0 < b) {op : Op κ} (hop : Allowed ph l op) (hf : Enough l w fuel op) :
    ∃ r ph' w', step cmp fuel b op ph = some (r, ph') ∧ Answer cmp key l op r ∧
      Inv cmp key ph' (after cmp key l op) w' ∧ (∀ o, o ∉ l → ¬ op.adds o → ph'.node o = ph.node o) ∧
      (∀ o, (ph'.node o).isSome = (ph.node o).isSome) ∧ ph'.size = ph.size := by
  have hrep := h.rep b
  have search : ∀ {p : M κ Ptr} {o : Option Nat},
      Spec p (view ph b) (fun q m' => m' = view ph b ∧ q = opt ⟨b, ph.size⟩ o) →
      ((p.run (view ph b)).map fun r => (r.1.a - b, r.2)).map
        (fun r => (r.1, contents r.2 b ph.size)) = some (o.getD 0, ph) := by
    rintro p o ⟨q, m', e, rfl, rfl⟩
    rw [e, Option.map_some, Option.map_some, contents_view ph b hout]
    rw [show (opt ⟨b, ph.size⟩ o).a - b = o.getD 0 from opt_off ⟨b, ph.size⟩ o]
  have keep' : ∀ {r : Nat}, (∀ o, o ∉ l → ¬ op.adds o → ph.node o = ph.node o) ∧
      (∀ o, (ph.node o).isSome = (ph.node o).isSome) ∧ ph.size = ph.size :=
    ⟨fun _ _ _ => rfl, fun _ => rfl, rfl⟩
  have write : ∀ {p : M κ Unit} {l' : List Nat} {w' : Tree Nat} {q : Int} (_ : Local p) (K : List Nat),
      Rbt.Coupled cmp key ⟨w', q⟩ l' →
      Spec p (keep ⟨b, ph.size⟩ (view ph b) K) (fun _ m' => Rep ⟨b, ph.size⟩ key m' w') →
      ∃ r ph' w', ((p.run (view ph b)).map fun r => ((0 : Nat), r.2)).map
          (fun r => (r.1, contents r.2 b ph.size)) = some (r, ph') ∧ r = 0 ∧ Inv cmp key ph' l' w' ∧
        (∀ o, o ∉ K → ph'.node o = ph.node o) ∧
        (∀ o, (ph'.node o).isSome = (ph.node o).isSome) ∧ ph'.size = ph.size := by
    intro p l' w' q hp K hc hs
    obtain ⟨a, m', e, hr, hfr, hk⟩ := frame hp hs
    refine ⟨0, contents m' b ph.size, w', by rw [e]; rfl, rfl, inv_after h hc hr hk, ?_, ?_, rfl⟩
    · intro o ho
      by_cases hlt : o < ph.size
      · rw [← get_contents m' b ph.size o hlt, hfr o ho, get_view ph b o hlt]
      · rw [hout o (by omega)]
        exact if_neg hlt
    · intro o
      by_cases hlt : o < ph.size
      · have := hk o
        rw [get_contents m' b ph.size o hlt, get_view ph b o hlt] at this
        have h2 := congrArg Option.isSome this
        simpa using h2
      · rw [hout o (by omega)]
        rw [show (contents m' b ph.size).node o = none from if_neg hlt]
  cases op with
  | ins x =>
    have hlen : (traverse w).length < fuel := by rw [h.list]; exact hf
    obtain ⟨hx0, hx1, hx2, hx3⟩ := hop
    obtain ⟨⟨w', q'⟩, e, hc⟩ := Rbt.coupled_ins hlaw h.coupled hx3
    obtain ⟨n0, hn0⟩ := Option.isSome_iff_exists.1 hx2
    have hmem : x ∈ traverse w' := by
      rw [hc.list, Rbt.perm_insertSorted.mem_iff]; simp
    obtain ⟨r, ph', w'', e1, e2, e3, e4, e5⟩ := write (Local.ins ⟨b, ph.size⟩ cmp fuel (pt ⟨b, ph.size⟩ x)) (x :: traverse w)
      hc (ins_spec (t := ⟨b, ph.size⟩) hb h.size cmp (rep_keep (fun o ho => List.mem_cons_of_mem _ ho) hrep)
        ⟨by omega, hx1⟩ (by rw [h.list]; exact hx3)
        ((keep_get List.mem_cons_self).trans ((get_view ph b x hx1).trans hn0)) (h.keys x n0 hn0) hlen e
        (traverse_top hmem))
    refine ⟨r, ph', w'', e1, e2, e3, ?_, e5⟩
    intro o ho hna
    refine e4 o ?_
    rw [List.mem_cons, h.list]
    rintro (rfl | hc)
    · exact hna rfl
    · exact ho hc
  | del x =>
    have hlen : (traverse w).length < fuel := by rw [h.list]; exact hf
    have hx : x ∈ l := hop
    obtain ⟨⟨w', q'⟩, e, hc⟩ := Rbt.coupled_del h.coupled hx
    obtain ⟨k, hk⟩ := h.rb
    obtain ⟨k', hk'⟩ := hc.rb
    obtain ⟨r, ph', w'', e1, e2, e3, e4, e5⟩ := write (Local.del ⟨b, ph.size⟩ fuel (pt ⟨b, ph.size⟩ x)) (traverse w)
      hc (by
        have := del_spec (t := ⟨b, ph.size⟩) hb h.size (rep_keep (fun o ho => ho) hrep) hk (Nat.le_of_lt hlen) e
        rw [blacken_rb hk'] at this
        exact this)
    exact ⟨r, ph', w'', e1, e2, e3, fun o ho _ => e4 o (by rw [h.list]; exact ho), e5⟩
  | find k =>
    have hht : Rbt.height w < fuel := hf
    refine ⟨_, ph, w, search (find_spec hb cmp k hht hrep), ?_, h, keep' (r := 0)⟩
    constructor
    · intro hr
      cases ho : Rbt.find cmp key k w with
      | none => rw [ho] at hr; exact absurd rfl hr
      | some y =>
        have := Rbt.find_sound ho
        rw [h.list] at this
        exact this
    · intro hr y hy hc
      obtain ⟨z, hz⟩ := Rbt.find_complete hlaw (by rw [h.list]; exact h.sorted) (by rw [h.list]; exact hy) hc
      rw [hz] at hr
      have hz2 := (Rbt.find_sound hz).1
      dsimp only [Option.getD_some] at hr
      subst hr
      exact absurd rfl (linked_ne h.linked _ hz2)
  | glb k =>
    have hht : Rbt.height w < fuel := hf
    refine ⟨_, ph, w, search (glb_spec hb cmp k hht hrep), ?_, h, keep' (r := 0)⟩
    have hs := Rbt.findGlbLoop_spec hlaw (k := k) w none (by rw [h.list]; exact h.sorted)
    rw [← Rbt.findGlb] at hs
    rcases hs with ⟨y, e1, h1⟩ | ⟨e1, h1⟩
    · rw [e1]
      have hne := linked_ne h.linked _ h1.1
      rw [h.list] at h1
      exact ⟨fun _ => h1, fun hc => absurd hc hne⟩
    · rw [e1]
      rw [h.list] at h1
      exact ⟨fun hc => absurd rfl hc, fun _ => by simpa using h1⟩
  | lub k =>
    have hht : Rbt.height w < fuel := hf
    refine ⟨_, ph, w, search (lub_spec hb cmp k hht hrep), ?_, h, keep' (r := 0)⟩
    have hs := Rbt.findLubLoop_spec hlaw (k := k) w none (by rw [h.list]; exact h.sorted)
    rw [← Rbt.findLub] at hs
    rcases hs with ⟨y, e1, h1⟩ | ⟨e1, h1⟩
    · rw [e1]
      have hne := linked_ne h.linked _ h1.1
      rw [h.list] at h1
      exact ⟨fun _ => h1, fun hc => absurd hc hne⟩
    · rw [e1]
      rw [h.list] at h1
      exact ⟨fun hc => absurd rfl hc, fun _ => by simpa using h1⟩
  | min =>
    have hht : Rbt.height w < fuel := hf
    refine ⟨_, ph, w, search (min_spec hb hht hrep), ?_, h, keep' (r := 0)⟩
    rw [Rbt.min?_eq, h.list]; rfl
  | max =>
    have hht : Rbt.height w < fuel := hf
    refine ⟨_, ph, w, search (max_spec hb hht hrep), ?_, h, keep' (r := 0)⟩
    rw [Rbt.max?_eq, h.list]; rfl
  | succ x =>
    have hlen : (traverse w).length < fuel := by rw [h.list]; exact hf
    have hx : x ∈ traverse w := by rw [h.list]; exact hop
    obtain ⟨a, c, h1, h2⟩ := Rbt.succ_eq hx
    rw [h.list] at h1
    exact ⟨_, ph, w, search (succ_spec hb hlen hrep h2), ⟨a, c, h1, rfl⟩, h, keep' (r := 0)⟩
  | pred x =>
    have hlen : (traverse w).length < fuel := by rw [h.list]; exact hf
    have hx : x ∈ traverse w := by rw [h.list]; exact hop
    obtain ⟨a, c, h1, h2⟩ := Rbt.pred_eq hx
    rw [h.list] at h1
    exact ⟨_, ph, w, search (pred_spec hb hlen hrep h2), ⟨a, c, h1, rfl⟩, h, keep' (r := 0)⟩

theorem inv_of_holds {cmp : κ → κ → Int} {key : Nat → κ} {ph : Phys κ} {l : List Nat} (h : Holds key ph l)
    (hl : Listed cmp key l) (hs : ph.size ≤ 2 ^ 63) (hk : ∀ o n, ph.node o = some n → n.key = key o) :
    ∃ w, Inv cmp key ph l w := by
  obtain ⟨w, h1, h2, h3, h4⟩ := h
  obtain ⟨n, hn⟩ := Rbt.rb_of_spec h3.2.1 h3.2.2
  rw [h3.1] at hn
  exact ⟨w, h1, h2, ⟨n, hn⟩, h4, hl.1, hl.2, hs, hk⟩

theorem Inv.holds {cmp : κ → κ → Int} {key : Nat → κ} {ph : Phys κ} {l : List Nat} {w : Tree Nat}
    (h : Inv cmp key ph l w) : Holds key ph l ∧ Listed cmp key l := by
  obtain ⟨k, hk⟩ := h.rb
  exact ⟨⟨w, h.root, h.linked, Rbt.rb_isRedBlack hk, h.list⟩, h.nodup, h.sorted⟩

theorem Inv.height {cmp : κ → κ → Int} {key : Nat → κ} {ph : Phys κ} {l : List Nat} {w : Tree Nat}
    (h : Inv cmp key ph l w) : Rbt.height w ≤ 2 * Nat.log2 (l.length + 1) := by
  obtain ⟨n, hn⟩ := h.rb
  have h1 := Rbt.rb_height hn
  have h2 := Rbt.rb_size hn
  rw [h.list] at h2
  have h3 : n ≤ Nat.log2 (l.length + 1) := (Nat.le_log2 (by omega)).2 h2
  simp at h1
  omega

theorem length_after {cmp : κ → κ → Int} {key : Nat → κ} (l : List Nat) (op : Op κ) :
    (after cmp key l op).length ≤ l.length + 1 := by
  cases op with
  | ins x => show (insertSorted cmp key x l).length ≤ _; rw [Rbt.perm_insertSorted.length_eq]; simp
  | del x => exact Nat.le_trans (List.length_erase_le) (Nat.le_succ _)
  | _ => exact Nat.le_succ _

theorem legalHist_congr {cmp : κ → κ → Int} {key : Nat → κ} {ph ph' : Phys κ} (hs : ph'.size = ph.size)
    (hn : ∀ o, (ph'.node o).isSome = (ph.node o).isSome) : ∀ (ops : List (Nat × Op κ)) (l : List Nat),
    LegalHist cmp key ph l ops → LegalHist cmp key ph' l ops
  | [], _, _ => trivial
  | (b, op) :: ops, l, ⟨h1, h2, h3⟩ => by
    refine ⟨h1, ?_, legalHist_congr hs hn ops _ h3⟩
    cases op with
    | ins x => obtain ⟨g1, g2, g3, g4⟩ := h2; exact ⟨g1, by rw [hs]; exact g2, by rw [hn]; exact g3, g4⟩
    | _ => exact h2

theorem step_out {cmp : κ → κ → Int} {fuel b r : Nat} {op : Op κ} {ph ph' : Phys κ}
    (h : step cmp fuel b op ph = some (r, ph')) : ∀ o, ph'.size ≤ o → ph'.node o = none := by
  unfold step at h
  rw [Option.map_eq_some_iff] at h
  obtain ⟨q, _, e⟩ := h
  cases e
  intro o ho
  exact if_neg (Nat.not_lt_of_le ho)

/-! ## the property -/

/-- **tree_step** (C51): in a region that holds a red-black tree with the nodes `l`, sorted, wherever the
region is, every operation that a caller may do ends without a fault, gives what it must, and leaves a
red-black tree with the nodes a sorted list would then have; it neither makes, removes nor re-keys a node, and
does not touch nodes that are not in the tree and are not inserted -/
theorem tree_step {cmp : κ → κ → Int} (hlaw : LawfulCmp cmp) {key : Nat → κ} {ph : Phys κ} {l : List Nat}
    (h : Holds key ph l) (hl : Listed cmp key l) (hs : ph.size ≤ 2 ^ 63)
    (hk : ∀ o n, ph.node o = some n → n.key = key o) (hout : ∀ o, ph.size ≤ o → ph.node o = none)
    {fuel b : Nat} (hb : 0 < b) (hf : l.length < fuel) {op : Op κ} (hop : Allowed ph l op) :
    ∃ r ph', step cmp fuel b op ph = some (r, ph') ∧ Answer cmp key l op r ∧
      Holds key ph' (after cmp key l op) ∧ Listed cmp key (after cmp key l op) ∧
      (∀ o, o ∉ l → ¬ op.adds o → ph'.node o = ph.node o) ∧
      (∀ o, (ph'.node o).isSome = (ph.node o).isSome) ∧ (∀ o n, ph'.node o = some n → n.key = key o) := by
  obtain ⟨w, hw⟩ := inv_of_holds h hl hs hk
  have hlt : Rbt.height w < fuel := by
    have := height_le w
    rw [hw.list] at this
    omega
  obtain ⟨r, ph', w', h1, h2, h3, h4, h5, h6⟩ := step_inv hlaw hw hout hb hop
    (show Enough l w fuel op by cases op <;> first | exact hf | exact hlt)
  exact ⟨r, ph', h1, h2, h3.holds.1, h3.holds.2, h4, h5, h3.keys⟩

theorem history_inv {cmp : κ → κ → Int} (hlaw : LawfulCmp cmp) {key : Nat → κ} {fuel : Nat} :
    ∀ (ops : List (Nat × Op κ)) (ph : Phys κ) (l : List Nat) (w : Tree Nat), Inv cmp key ph l w →
      (∀ o, ph.size ≤ o → ph.node o = none) → l.length + ops.length < fuel → LegalHist cmp key ph l ops →
      ∃ rs ph' w', history cmp fuel ops ph = some (rs, ph') ∧ Answers cmp key l ops rs ∧
        Inv cmp key ph' (final cmp key l ops) w'
  | [], ph, l, w, h, _, _, _ => ⟨[], ph, w, rfl, rfl, h⟩
  | (b, op) :: ops, ph, l, w, h, hout, hf, ⟨hb, hop, hleg⟩ => by
    simp only [List.length_cons] at hf
    have hlt : Rbt.height w < fuel := by
      have := height_le w
      rw [h.list] at this
      omega
    have hlt' : l.length < fuel := by omega
    obtain ⟨r, ph', w', h1, h2, h3, h4, h5, h6⟩ := step_inv hlaw h hout hb hop
      (show Enough l w fuel op by cases op <;> first | exact hlt' | exact hlt)
    have hla := length_after (cmp := cmp) (key := key) l op
    obtain ⟨rs, ph'', w'', g1, g2, g3⟩ := history_inv (fuel := fuel) hlaw ops ph' (after cmp key l op) w' h3 (step_out h1) (by omega)
      (legalHist_congr h6 h5 ops _ hleg)
    refine ⟨r :: rs, ph'', w'', ?_, ⟨r, rs, rfl, h2, g2⟩, g3⟩
    unfold history
    rw [h1]
    dsimp only
    rw [g1]
    rfl

/-- **tree_history** (C51): from an empty tree, every history of operations that callers may do – each by a
program that has the region at its own base – ends without a fault, every result is what a sorted list
would give, and the region then holds a red-black tree with the nodes of that list.  The loops need no more
steps than there are operations. -/
theorem tree_history {cmp : κ → κ → Int} (hlaw : LawfulCmp cmp) {key : Nat → κ} {ph : Phys κ} (h0 : ph.root = 0)
    (hs : ph.size ≤ 2 ^ 63) (hk : ∀ o n, ph.node o = some n → n.key = key o)
    (hout : ∀ o, ph.size ≤ o → ph.node o = none) (ops : List (Nat × Op κ))
    (hleg : LegalHist cmp key ph [] ops) (fuel : Nat) (hf : ops.length < fuel) :
    ∃ rs ph', history cmp fuel ops ph = some (rs, ph') ∧ Answers cmp key [] ops rs ∧
      Holds key ph' (final cmp key [] ops) ∧ Listed cmp key (final cmp key [] ops) := by
  obtain ⟨rs, ph', w', h1, h2, h3⟩ := history_inv hlaw ops ph [] leaf
    ⟨h0, trivial, ⟨0, .leaf⟩, rfl, List.nodup_nil, List.Pairwise.nil, hs, hk⟩ hout (by simpa using hf) hleg
  exact ⟨rs, ph', h1, h2, h3.holds⟩

/-- **tree_search_steps** (C51): a search in a tree of `n` nodes looks at no more than `2 * log2 (n + 1)`
nodes: this number of rounds of its loop is enough -/
theorem tree_search_steps {cmp : κ → κ → Int} (hlaw : LawfulCmp cmp) {key : Nat → κ} {ph : Phys κ} {l : List Nat}
    (h : Holds key ph l) (hl : Listed cmp key l) (hs : ph.size ≤ 2 ^ 63)
    (hk : ∀ o n, ph.node o = some n → n.key = key o) (hout : ∀ o, ph.size ≤ o → ph.node o = none)
    {b : Nat} (hb : 0 < b) (op : Op κ)
    (hop : (∃ k, op = .find k ∨ op = .glb k ∨ op = .lub k) ∨ op = .min ∨ op = .max) :
    ∃ r, step cmp (2 * Nat.log2 (l.length + 1) + 1) b op ph = some (r, ph) ∧ Answer cmp key l op r := by
  obtain ⟨w, hw⟩ := inv_of_holds h hl hs hk
  have hh := hw.height
  have hlt : Rbt.height w < 2 * Nat.log2 (l.length + 1) + 1 := by omega
  have key' : ∀ op : Op κ, Allowed ph l op → Enough l w (2 * Nat.log2 (l.length + 1) + 1) op →
      (∀ r ph', step cmp (2 * Nat.log2 (l.length + 1) + 1) b op ph = some (r, ph') → ph' = ph) →
      ∃ r, step cmp (2 * Nat.log2 (l.length + 1) + 1) b op ph = some (r, ph) ∧ Answer cmp key l op r := by
    intro op h1 h2 h3
    obtain ⟨r, ph', w', g1, g2, _⟩ := step_inv hlaw hw hout hb h1 h2
    have := h3 r ph' g1
    subst this
    exact ⟨r, g1, g2⟩
  have same : ∀ {p : M κ Ptr} {o : Option Nat} {r : Nat} {ph' : Phys κ},
      Spec p (view ph b) (fun q m' => m' = view ph b ∧ q = opt ⟨b, ph.size⟩ o) →
      ((p.run (view ph b)).map fun r => (r.1.a - b, r.2)).map
        (fun r => (r.1, contents r.2 b ph.size)) = some (r, ph') → ph' = ph := by
    rintro p o r ph' ⟨q, m', e, rfl, rfl⟩ he
    rw [e, Option.map_some, Option.map_some, contents_view ph b hout] at he
    cases he
    rfl
  have hrep := hw.rep b
  rcases hop with ⟨k, rfl | rfl | rfl⟩ | rfl | rfl
  · exact key' _ trivial hlt fun r ph' he => same (find_spec hb cmp k hlt hrep) he
  · exact key' _ trivial hlt fun r ph' he => same (glb_spec hb cmp k hlt hrep) he
  · exact key' _ trivial hlt fun r ph' he => same (lub_spec hb cmp k hlt hrep) he
  · exact key' _ trivial hlt fun r ph' he => same (min_spec hb hlt hrep) he
  · exact key' _ trivial hlt fun r ph' he => same (max_spec hb hlt hrep) he

/-! ## a concrete case -/

theorem icmp_lawful : LawfulCmp icmp where
  anti := by intro a b; unfold icmp; omega
  trans := by intro a b c; unfold icmp; omega

instance (ph : Phys κ) (l : List Nat) (op : Op κ) : Decidable (Allowed ph l op) := by
  cases op <;> unfold Allowed <;> infer_instance

instance decLegalHist (cmp : κ → κ → Int) (key : Nat → κ) (ph : Phys κ) : ∀ (l : List Nat) (ops : List (Nat × Op κ)),
    Decidable (LegalHist cmp key ph l ops)
  | _, [] => isTrue trivial
  | l, (_, op) :: ops => @instDecidableAnd _ _ _ (@instDecidableAnd _ _ _ (decLegalHist cmp key ph (after cmp key l op) ops))

/-- the history of `Props.lean`, with a deletion of an inner node, is one that callers may do -/
example : LegalHist icmp (fun o => (o / 8) * 5 % 8) empty [] hist := by
  decide +kernel

example : ∃ rs ph', history icmp 20 hist empty = some (rs, ph') ∧
    Holds (fun o => (o / 8) * 5 % 8) ph' [40, 16, 56, 8, 48, 24] := by
  obtain ⟨rs, ph', h1, _, h3, _⟩ := tree_history icmp_lawful (key := fun o => (o / 8) * 5 % 8) (ph := empty)
    rfl (by decide) (by
      intro o n h
      simp only [empty] at h
      split at h
      · cases h; rfl
      · cases h) (by
      intro o ho
      simp only [empty] at ho ⊢
      rw [if_neg]; omega) hist (by decide +kernel) 20 (by decide)
  refine ⟨rs, ph', h1, ?_⟩
  have : final icmp (fun o => (o / 8) * 5 % 8) [] hist = [40, 16, 56, 8, 48, 24] := by decide +kernel
  rw [this] at h3
  exact h3

end Verif.Rrbt
