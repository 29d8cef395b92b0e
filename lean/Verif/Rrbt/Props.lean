import Verif.Rrbt.Sim

/-!
# C38: a copy of the memory of a tree is the same tree
-/

namespace Verif.Rrbt

/-! ## specification -/

/-- the contents of a region of memory, by offset, wherever the region is -/
structure Phys (κ : Type) where
  size : Nat
  root : Nat
  node : Nat → Option (Node κ)

variable {κ : Type}

/-- the memory of a program that has the region at `base` -/
def view (ph : Phys κ) (base : Nat) : Mem κ :=
  ⟨ph.root, fun a => if base ≤ a ∧ a - base < ph.size then ph.node (a - base) else none⟩

/-- what a program that has the region at `base` leaves in it -/
def contents (m : Mem κ) (base size : Nat) : Phys κ :=
  ⟨size, m.root, fun o => if o < size then m.node (base + o) else none⟩

/-- the operations; nodes are given by their offset, 0 is NULL -/
inductive Op (κ : Type) where
  | ins (x : Nat)
  | del (x : Nat)
  | find (k : κ)
  | glb (k : κ)
  | lub (k : κ)
  | min
  | max
  | succ (x : Nat)
  | pred (x : Nat)

/-- the address of the node at an offset, for a program that has the region at `base` -/
def addr (base o : Nat) : Ptr := if o = 0 then null else ⟨base + o⟩

/-- the operation as the code does it, by a program that has the region at `base`: the node found (its
offset) -/
def exec (cmp : κ → κ → Int) (fuel : Nat) (t : Inst) : Op κ → Mem κ → Option (Nat × Mem κ)
  | .ins x, m => ((ins t cmp fuel (addr t.base x)).run m).map fun r => (0, r.2)
  | .del x, m => ((del t fuel (addr t.base x)).run m).map fun r => (0, r.2)
  | .find k, m => ((find t cmp fuel k).run m).map fun r => (r.1.a - t.base, r.2)
  | .glb k, m => ((findGlb t cmp fuel k).run m).map fun r => (r.1.a - t.base, r.2)
  | .lub k, m => ((findLub t cmp fuel k).run m).map fun r => (r.1.a - t.base, r.2)
  | .min, m => ((min t fuel).run m).map fun r => (r.1.a - t.base, r.2)
  | .max, m => ((max t fuel).run m).map fun r => (r.1.a - t.base, r.2)
  | .succ x, m => ((succ t fuel (addr t.base x)).run m).map fun r => (r.1.a - t.base, r.2)
  | .pred x, m => ((pred t fuel (addr t.base x)).run m).map fun r => (r.1.a - t.base, r.2)

/-- one operation on the contents, by a program that has the region at `base` -/
def step (cmp : κ → κ → Int) (fuel base : Nat) (op : Op κ) (ph : Phys κ) : Option (Nat × Phys κ) :=
  (exec cmp fuel ⟨base, ph.size⟩ op (view ph base)).map fun r => (r.1, contents r.2 base ph.size)

/-- a history: each operation is done by some program, which has the region at its own base -/
def history (cmp : κ → κ → Int) (fuel : Nat) : List (Nat × Op κ) → Phys κ → Option (List Nat × Phys κ)
  | [], ph => some ([], ph)
  | (base, op) :: l, ph =>
    match step cmp fuel base op ph with
    | none => none
    | some (r, ph') => (history cmp fuel l ph').map fun q => (r :: q.1, q.2)

/-! ## proof -/

theorem copy_view (ph : Phys κ) {b b' : Nat} (hb : 0 < b) (hb' : 0 < b') :
    Copy ⟨b, ph.size⟩ ⟨b', ph.size⟩ (view ph b) (view ph b') := by
  refine ⟨rfl, ?_, ?_⟩
  · intro o ho
    have ho : o < ph.size := ho
    show (if b ≤ b + o ∧ b + o - b < ph.size then ph.node (b + o - b) else none) =
      (if b' ≤ b' + o ∧ b' + o - b' < ph.size then ph.node (b' + o - b') else none)
    rw [if_pos ⟨by omega, by omega⟩, if_pos ⟨by omega, by omega⟩, Nat.add_sub_cancel_left,
      Nat.add_sub_cancel_left]
  · constructor
    · show (if b ≤ 0 ∧ 0 - b < ph.size then _ else _) = _
      rw [if_neg (by omega)]
    · show (if b' ≤ 0 ∧ 0 - b' < ph.size then _ else _) = _
      rw [if_neg (by omega)]

theorem copy_contents {m m' : Mem κ} {b b' size : Nat} (h : Copy ⟨b, size⟩ ⟨b', size⟩ m m') :
    contents m b size = contents m' b' size := by
  unfold contents
  congr 1
  · exact h.root
  · funext o
    by_cases ho : o < size
    · rw [if_pos ho, if_pos ho]; exact h.node o ho
    · rw [if_neg ho, if_neg ho]

theorem pr_addr {b b' size x : Nat} (hx : x < size) : PR ⟨b, size⟩ ⟨b', size⟩ (addr b x) (addr b' x) := by
  unfold addr
  by_cases h : x = 0
  · rw [if_pos h, if_pos h]; exact pr_null
  · rw [if_neg h, if_neg h]; exact Or.inr ⟨x, hx, rfl, rfl⟩

theorem pr_off {b b' size : Nat} {p p' : Ptr} (h : PR ⟨b, size⟩ ⟨b', size⟩ p p') : p.a - b = p'.a - b' := by
  rcases h with ⟨h1, h2⟩ | ⟨o, _, h2, h3⟩
  · omega
  · dsimp only at h2 h3; omega

theorem step_unit {b b' : Nat} {ph : Phys κ} {p p' : M κ Unit} (hb : 0 < b) (hb' : 0 < b')
    (h : Sim ⟨b, ph.size⟩ ⟨b', ph.size⟩ Eq p p') :
    ((p.run (view ph b)).map fun r => ((0 : Nat), contents r.2 b ph.size)) =
      (p'.run (view ph b')).map fun r => (0, contents r.2 b' ph.size) := by
  rcases h _ _ (copy_view ph hb hb') with ⟨h1, h2⟩ | ⟨a, a', n, n', h1, h2, _, h4⟩
  · rw [h1, h2]; rfl
  · rw [h1, h2, Option.map_some, Option.map_some, copy_contents h4]

theorem step_ptr {b b' : Nat} {ph : Phys κ} {p p' : M κ Ptr} (hb : 0 < b) (hb' : 0 < b')
    (h : Sim ⟨b, ph.size⟩ ⟨b', ph.size⟩ (PR ⟨b, ph.size⟩ ⟨b', ph.size⟩) p p') :
    ((p.run (view ph b)).map fun r => (r.1.a - b, contents r.2 b ph.size)) =
      (p'.run (view ph b')).map fun r => (r.1.a - b', contents r.2 b' ph.size) := by
  rcases h _ _ (copy_view ph hb hb') with ⟨h1, h2⟩ | ⟨a, a', n, n', h1, h2, h3, h4⟩
  · rw [h1, h2]; rfl
  · rw [h1, h2, Option.map_some, Option.map_some, copy_contents h4, pr_off h3]

/-! ## the property -/

/-- the nodes an operation is given lie in the region -/
def Op.inside (size : Nat) : Op κ → Prop
  | .ins x => x < size
  | .del x => x < size
  | .succ x => x < size
  | .pred x => x < size
  | _ => True

/-- **copy_same** (C38): for every contents of the region, well formed or not, every operation gives the
same result and leaves the same contents wherever the region is in memory -/
theorem copy_same (cmp : κ → κ → Int) (fuel b b' : Nat) (hb : 0 < b) (hb' : 0 < b') (op : Op κ) (ph : Phys κ)
    (hop : op.inside ph.size) : step cmp fuel b op ph = step cmp fuel b' op ph := by
  have two : Two ⟨b, ph.size⟩ ⟨b', ph.size⟩ := ⟨rfl, hb, hb'⟩
  unfold step
  cases op with
  | ins x => simpa [exec, Function.comp_def] using step_unit hb hb' (sim_ins two (pr_addr hop))
  | del x => simpa [exec, Function.comp_def] using step_unit hb hb' (sim_del two (pr_addr hop))
  | find k => simpa [exec, Function.comp_def] using step_ptr hb hb' (sim_find two)
  | glb k => simpa [exec, Function.comp_def] using step_ptr hb hb' (sim_findGlb two)
  | lub k => simpa [exec, Function.comp_def] using step_ptr hb hb' (sim_findLub two)
  | min => simpa [exec, Function.comp_def] using step_ptr hb hb' (sim_min two)
  | max => simpa [exec, Function.comp_def] using step_ptr hb hb' (sim_max two)
  | succ x => simpa [exec, Function.comp_def] using step_ptr hb hb' (sim_succ two (pr_addr hop))
  | pred x => simpa [exec, Function.comp_def] using step_ptr hb hb' (sim_pred two (pr_addr hop))

theorem step_size {cmp : κ → κ → Int} {fuel b : Nat} {op : Op κ} {ph ph' : Phys κ} {r : Nat}
    (h : step cmp fuel b op ph = some (r, ph')) : ph'.size = ph.size := by
  unfold step at h
  rw [Option.map_eq_some_iff] at h
  obtain ⟨q, _, e⟩ := h
  cases e
  rfl

/-- **history_same** (C38): a history of operations – each by a program that has the region at its own
address, or on a copy of the contents made in between – gives the same results and the same contents as
the history done by one program.  `ops` pairs each operation with the base it is done at; `bases` is any
other choice. -/
theorem history_same (cmp : κ → κ → Int) (fuel : Nat) : ∀ (ops : List (Nat × Op κ)) (bases : List Nat)
    (ph : Phys κ), bases.length = ops.length → (∀ p ∈ ops, 0 < p.1 ∧ p.2.inside ph.size) →
    (∀ b ∈ bases, 0 < b) →
    history cmp fuel ops ph = history cmp fuel (bases.zip (ops.map (·.2))) ph
  | [], [], _, _, _, _ => rfl
  | [], _ :: _, _, h, _, _ => by simp at h
  | _ :: _, [], _, h, _, _ => by simp at h
  | (b, op) :: ops, b' :: bases, ph, h, h1, h2 => by
    have e : step cmp fuel b op ph = step cmp fuel b' op ph :=
      copy_same cmp fuel b b' (h1 _ List.mem_cons_self).1 (h2 _ List.mem_cons_self) op ph
        (h1 _ List.mem_cons_self).2
    rw [List.map_cons, List.zip_cons_cons]
    unfold history
    rw [e]
    cases hs : step cmp fuel b' op ph with
    | none => rfl
    | some q =>
      obtain ⟨r, ph'⟩ := q
      have hsz := step_size hs
      dsimp only
      rw [history_same cmp fuel ops bases ph' (by simpa using h)
        (fun p hp => ⟨(h1 p (List.mem_cons_of_mem _ hp)).1, by
          rw [hsz]; exact (h1 p (List.mem_cons_of_mem _ hp)).2⟩)
        (fun b hb => h2 b (List.mem_cons_of_mem _ hb))]

/-! ## a concrete case -/

def icmp (a b : Nat) : Int := (a : Int) - b

/-- seven nodes that are not in the tree yet, at offsets 8, 16, …; the keys are out of order -/
def empty : Phys Nat :=
  ⟨64, 0, fun o => if o % 8 = 0 ∧ 0 < o ∧ o < 64 then some ⟨.red, 0, 0, 0, (o / 8) * 5 % 8⟩ else none⟩

/-- seven insertions by programs at four bases, then searches, a deletion and more searches -/
def hist : List (Nat × Op Nat) :=
  [(1000, .ins 8), (2000, .ins 16), (1000, .ins 24), (3000, .ins 32), (1, .ins 40), (1000, .ins 48),
   (1000, .ins 56), (2000, .find 4), (1000, .min), (3000, .max), (1000, .succ 32), (2000, .pred 32),
   (1000, .del 32), (2000, .find 4), (1000, .glb 4), (3000, .lub 4), (1, .succ 56)]

example : (history icmp 20 hist empty).map (·.1) =
    some [0, 0, 0, 0, 0, 0, 0, 32, 40, 24, 8, 56, 0, 0, 56, 8, 8] := by decide +kernel

/-- **base_node_defect** (C38): a node at the base of the region, and a node whose offset needs 64 bits,
cannot be in a tree: the first looks like NULL, the link to the second is cut off (`rrbt.h:74`, `117-118`) -/
theorem base_node_defect (t : Inst) (h : 0 < t.base) (hs : 0 < t.size) (m : Mem κ) :
    (off t ⟨t.base⟩).run m = some (0, m) ∧
    (∀ (p : Ptr) (n : Node κ), m.node p.a = some n →
      ∃ m', (setLeft p (2 ^ 63)).run m = some ((), m') ∧ ∃ n', m'.node p.a = some n' ∧ n'.left = 0) := by
  constructor
  · unfold off
    dsimp only
    rw [if_neg (by omega), if_pos ⟨Nat.le_refl _, by omega⟩, Nat.sub_self]
    rfl
  · intro p n hn
    unfold setLeft wr
    dsimp only
    rw [hn]
    exact ⟨_, rfl, _, if_pos rfl, rfl⟩

end Verif.Rrbt
