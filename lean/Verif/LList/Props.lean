import Verif.LList.Proofs

/-!
# C24: list metrics behave as sequences
-/

namespace Verif.LList

/-- a new set: the metadata and data of a set are zeroed when it is created (`ldms.c:1700`) -/
def St.init : St := ⟨fun _ => ⟨0, 0, 0⟩, fun _ => none⟩

/-- one call.  The first argument bounds the recursion depth of remove and purge. -/
def apply (f : Nat) (s : St) : Op → Option St
  | .append L typ arr count off => (appendItem s L typ arr count off).map (·.1)
  | .recAlloc off => some (recordAlloc s off).1
  | .appendRec L off => (appendRecord s L off).map (·.1)
  | .remove L off => removeItem f s L off
  | .purge L => purge f s L

/-- a history of calls; `none` means that some call used unallocated memory -/
def run (f : Nat) : St → List Op → Option St
  | s, [] => some s
  | s, op :: ops =>
    match apply f s op with
    | none => none
    | some s' => run f s' ops

/-- `s` represents the sequences `a` -/
def Rep (s : St) (a : Abs) : Prop :=
  ∃ st N, Inv s a.items st N (fun _ => False) (fun _ => 0) ∧ ∀ x, (s.mem x).map info = a.info x

theorem live_iff {s : St} {a : Abs} (h : ∀ x, (s.mem x).map info = a.info x) (L : Loc) :
    Live s.mem L ↔ a.IsList L := by
  cases L with
  | metric i => exact Iff.rfl
  | inner o =>
    have := h o
    simp only [Live, Abs.IsList, ← this]
    cases hm : s.mem o with
    | none => simp
    | some e => simp [info]

theorem rep_init : Rep St.init Abs.empty := by
  refine ⟨fun _ => 0, 0, ⟨?_, ?_, ?_, ?_, ?_, ?_, ?_, ?_, ?_⟩, fun x => rfl⟩
  · intro L _; rfl
  · intro L; trivial
  · intro L x hx; cases hx
  · intro L K x hx; cases hx
  · intro L; exact List.nodup_nil
  · intro L _; rfl
  · intro o x e hx; cases hx
  · intro x; exact Nat.le_refl 0
  · intro x e he; cases he

theorem rep_snoc {s : St} {a : Abs} {st : Nat → Nat} {N : Nat}
    (hi : Inv s a.items st N (fun _ => False) (fun _ => 0))
    (hinf : ∀ x, (s.mem x).map info = a.info x) {L : Loc} {off : Nat} {e : Entry}
    (hL : Live s.mem L) (h0 : off ≠ 0) (he : s.mem off = some e) (hno : ∀ K, off ∉ a.items K)
    (hst : e.typ = tList → ∀ o, L = .inner o → st o < st off) :
    ∃ s', listAppend s L off = some s' ∧ Rep s' (a.snoc L off) := by
  obtain ⟨s', h1, h2, h3⟩ := append_ok hi L hL off e he h0 hno rfl hst
  exact ⟨s', h1, st, N, h2, fun x => by rw [h3 x, hinf x]; rfl⟩

/-- every correct call is carried out -/
theorem step_ok {s : St} {a a' : Abs} {op : Op} (hr : Rep s a) (h : Step a op a') :
    ∃ f s', (∀ g, f ≤ g → apply g s op = some s') ∧ Rep s' a' := by
  obtain ⟨st, N, hi, hinf⟩ := hr
  cases h with
  | @append L off typ arr count hL h0 hfree =>
    have hnone : s.mem off = none := by
      have := hinf off
      rw [hfree] at this
      cases hm : s.mem off with
      | none => rfl
      | some e => rw [hm] at this; cases this
    have hLs := (live_iff hinf L).2 hL
    have hno : ∀ K, off ∉ a.items K := by
      intro K hm
      obtain ⟨e, he⟩ := seg_mem _ _ _ _ (hi.seg K) hm
      rw [hnone] at he; cases he
    have hLo : L ≠ .inner off := by
      rintro rfl
      obtain ⟨e, he, _⟩ := hLs
      rw [hnone] at he; cases he
    -- the stamp of the new entry: one more than that of the list it goes to
    have hk : ∃ k, ∀ o, L = .inner o → st o < k := by
      cases L with
      | metric i => exact ⟨0, fun o ho => by cases ho⟩
      | inner o => exact ⟨st o + 1, fun o' ho => by injection ho with ho; rw [ho]; omega⟩
    obtain ⟨k, hk⟩ := hk
    have ha := alloc_ok hi off typ ((if arr then count else 1) % 2 ^ 24) k hnone rfl
    generalize hs1 : (s.setMem off (some ⟨0, 0, typ, (if arr then count else 1) % 2 ^ 24⟩)).setHead
      (.inner off) ⟨0, 0, 0⟩ = s1 at ha
    have hm1 : ∀ x, s1.mem x = upd s.mem off (some ⟨0, 0, typ, (if arr then count else 1) % 2 ^ 24⟩) x := by
      rw [← hs1]; intro x; rfl
    have hinf1 : ∀ x, (s1.mem x).map info =
        (a.alloc off typ ((if arr then count else 1) % 2 ^ 24)).info x := by
      intro x
      rw [hm1 x]
      by_cases hx : x = off
      · subst hx; rw [upd_same]; simp [Abs.alloc, info]
      · rw [upd_ne _ _ hx, hinf x]; simp [Abs.alloc, hx]
    have hL1 : Live s1.mem L := by
      cases L with
      | metric i => trivial
      | inner o =>
        have ho : o ≠ off := fun hh => hLo (by rw [hh])
        simp only [Live, hm1 o, upd_ne _ _ ho]
        exact hLs
    obtain ⟨s', h1, h2⟩ := rep_snoc (a := a.alloc off typ ((if arr then count else 1) % 2 ^ 24)) ha
      hinf1 hL1 h0 (by rw [hm1 off, upd_same]) hno (by
        intro _ o ho
        have : o ≠ off := fun hh => hLo (by rw [ho, hh])
        simp only [if_neg this, if_true]
        exact hk o ho)
    refine ⟨0, s', ?_, h2⟩
    intro g _
    simp only [apply, appendItem]
    rw [if_neg h0]
    rw [hs1, h1]; rfl
  | nomem typ arr count =>
    exact ⟨0, s, fun g _ => rfl, st, N, hi, hinf⟩
  | @recAlloc off h0 hfree =>
    have hnone : s.mem off = none := by
      have := hinf off
      rw [hfree] at this
      cases hm : s.mem off with
      | none => rfl
      | some e => rw [hm] at this; cases this
    have ha := alloc_ok hi off tRec 1 0 hnone rfl
    refine ⟨0, s.setMem off (some ⟨0, 0, tRec, 1⟩), ?_, _, _, inv_heads ha rfl ?_, ?_⟩
    · intro g _
      simp only [apply, recordAlloc]
      rw [if_neg h0]
    · intro L hL
      have hne : L ≠ .inner off := by
        rintro rfl
        obtain ⟨e, he, ht⟩ := hL
        rw [setHead_mem, setMem_mem, upd_same] at he
        injection he with he
        rw [← he] at ht
        exact absurd ht (by decide)
      rw [setHead_ne _ _ hne]
    · intro x
      rw [setMem_mem]
      by_cases hx : x = off
      · subst hx; rw [upd_same]; simp [Abs.alloc, info]
      · rw [upd_ne _ _ hx, hinf x]; simp [Abs.alloc, hx]
  | recNomem => exact ⟨0, s, fun g _ => rfl, st, N, hi, hinf⟩
  | @appendRec L off c hL h0 hrec hno =>
    have hLs := (live_iff hinf L).2 hL
    have hoff := hinf off
    rw [hrec] at hoff
    cases hm : s.mem off with
    | none => rw [hm] at hoff; cases hoff
    | some e =>
      rw [hm] at hoff
      simp only [Option.map_some, Option.some.injEq, info, Prod.mk.injEq] at hoff
      have hz := hi.loose off e hm hoff.1 id hno
      obtain ⟨s', h1, h2⟩ := rep_snoc hi hinf hLs h0 hm hno (by
        intro ht; rw [hoff.1] at ht; exact absurd ht (by decide))
      refine ⟨0, s', ?_, h2⟩
      intro g _
      simp only [apply, appendRecord, hm]
      rw [if_neg (by simp [hz.1, hz.2]), h1]; rfl
  | @appendBusy L K off c hrec hin hlen =>
    refine ⟨0, s, ?_, st, N, hi, hinf⟩
    intro g _
    have hL := live_of_mem hi hin
    obtain ⟨l1, l2, hl⟩ := List.append_of_mem hin
    have hseg := hi.seg K
    rw [hl, seg_append] at hseg
    obtain ⟨_, ⟨e, he, hp, hn⟩, _⟩ := hseg
    have hbusy : e.prev ≠ 0 ∨ e.next ≠ 0 := by
      cases l1 with
      | nil =>
        right
        cases l2 with
        | nil => rw [hl] at hlen; simp at hlen
        | cons y l2 =>
          rw [hn]
          exact hi.nz K y (by rw [hl]; simp)
      | cons y l1 =>
        left
        rw [hp]
        apply hi.nz K
        rw [hl]
        exact List.mem_append_left _ (lastOr_mem 0 _ (List.cons_ne_nil _ _))
    simp only [apply, appendRecord, he]
    rw [if_pos hbusy]; rfl
  | @remove L off hoff =>
    obtain ⟨f, s', h1, h2, h3⟩ := remove_ok hi L off hoff
    refine ⟨f, s', fun g hg => (fuel_le hg).1 _ _ _ _ h1, st, N, h2, ?_⟩
    intro x
    rw [h3 x, hinf x]; rfl
  | @purge L hL =>
    obtain ⟨f, s', h1, h2, h3⟩ := purge_ok N (N + 2) s a.items st _ _ L hi ((live_iff hinf L).2 hL) (by
      cases L with
      | metric i => show N + 1 < N + 2; omega
      | inner o => show N - st o < N + 2; omega)
    refine ⟨f, s', fun g hg => (fuel_le hg).2 _ _ _ h1, st, N, h2, ?_⟩
    intro x
    rw [h3 x, hinf x]; rfl

theorem steps_ok {a a' : Abs} {ops : List Op} (h : Steps a ops a') : ∀ s, Rep s a →
    ∃ f s', (∀ g, f ≤ g → run g s ops = some s') ∧ Rep s' a' := by
  induction h with
  | nil a => intro s hr; exact ⟨0, s, fun _ _ => rfl, hr⟩
  | cons h1 _ ih =>
    intro s hr
    obtain ⟨f1, s1, hs1, hr1⟩ := step_ok hr h1
    obtain ⟨f2, s2, hs2, hr2⟩ := ih s1 hr1
    refine ⟨max f1 f2, s2, ?_, hr2⟩
    intro g hg
    rw [run, hs1 g (by omega)]
    exact hs2 g (by omega)

/-- what the API shows of a list -/
structure Shows (s : St) (a : Abs) (L : Loc) : Prop where
  /-- `ldms_list_len` -/
  len : len s L = (a.items L).length
  /-- `ldms_list_first`, then `ldms_list_next` until NULL, with type and count of each value -/
  visit : ∃ fuel, visit s fuel (first s L) = some ((a.items L).map fun x => (x, (a.info x).getD (0, 0)))
  /-- `ldms_list_first` is NULL exactly for an empty list -/
  first : first s L = ((a.items L).head?).getD 0
  /-- `ldms_list_last` -/
  last : last s L = ((a.items L).getLast?).getD 0
  /-- the entries are allocated and not NULL -/
  alloc : ∀ x ∈ a.items L, x ≠ 0 ∧ (a.info x).isSome

theorem lastOr_eq (l : List Nat) : ∀ p, lastOr p l = (l.getLast?).getD p := by
  induction l with
  | nil => intro p; rfl
  | cons x l ih =>
    intro p
    rw [lastOr, ih x]
    cases l with
    | nil => rfl
    | cons y l => rw [List.getLast?_cons_cons]; simp [List.getLast?_cons]

theorem rep_shows {s : St} {a : Abs} (hr : Rep s a) (L : Loc) (hL : a.IsList L) : Shows s a L := by
  obtain ⟨st, N, hi, hinf⟩ := hr
  have hh := hi.head L ((live_iff hinf L).2 hL)
  have hhd : hdOr (a.items L) 0 = ((a.items L).head?).getD 0 := by
    cases a.items L <;> rfl
  refine ⟨?_, ⟨(a.items L).length + 1, ?_⟩, ?_, ?_, ?_⟩
  · show (s.heads L).count = _
    rw [hh]; rfl
  · show LList.visit s _ (s.heads L).head = _
    rw [hh]
    refine (visit_ok (a.items L) 0 (hi.seg L) (hi.nz L)).trans ?_
    simp only [hinf]
  · show (s.heads L).head = _
    rw [hh]; exact hhd
  · show (if (s.heads L).head = 0 then 0 else (s.heads L).tail) = _
    rw [hh]
    simp only [lastOr_eq]
    by_cases hq : a.items L = []
    · rw [hq]; rfl
    · rw [if_neg (hi.nz L _ (hdOr_mem 0 _ hq))]
  · intro x hx
    refine ⟨hi.nz L x hx, ?_⟩
    obtain ⟨e, he⟩ := seg_mem _ _ _ _ (hi.seg L) hx
    rw [← hinf x, he]; rfl

/-- **C24**: after any history of correct calls (items of every type, lists in lists to any depth,
records, failed allocations, removals and purges), no call has used unallocated memory, and every
list shows, in order, exactly the entries that were appended to it and not removed. -/
theorem list_history {ops : List Op} {a : Abs} (h : Steps Abs.empty ops a) :
    ∃ f s, (∀ g, f ≤ g → run g St.init ops = some s) ∧ ∀ L, a.IsList L → Shows s a L := by
  obtain ⟨f, s, h1, h2⟩ := steps_ok h St.init rep_init
  exact ⟨f, s, h1, fun L hL => rep_shows h2 L hL⟩

/-- after appending, the value is the last of the list and the others are as before -/
theorem append_last {a : Abs} (L K : Loc) (off : Nat) :
    (a.snoc L off).items K = a.items K ++ (if K = L then [off] else []) := by
  by_cases h : K = L
  · subst h; simp [Abs.snoc]
  · simp [Abs.snoc, h]

/-- after removing an entry of a metric's list, the list has the other entries in the same order -/
theorem remove_erase {s : St} {a : Abs} (hr : Rep s a) (L : Loc) (off : Nat) (hoff : off ∈ a.items L) :
    (a.delete (goneR a.items off)).items L = (a.items L).erase off := by
  obtain ⟨st, N, hi, hinf⟩ := hr
  have hn := not_in_gone hi hoff
  show prune a.items (goneR a.items off) L = _
  rw [prune_out hn, (hi.nodup L).erase_eq_filter]
  apply List.filter_congr
  intro x hx
  by_cases hxo : x = off
  · simp [hxo, goneR]
  · have : ¬ goneR a.items off x := by
      rintro (h | h)
      · exact hxo h
      · -- x would be both in L and below off
        have key : ∀ K y, Below a.items K y → ∀ M, y ∈ a.items M → M = K ∨ ∃ o, M = .inner o ∧ Below a.items K o := by
          intro K y hb
          induction hb with
          | @here K y hy => intro M hM; exact Or.inl (hi.disj _ _ _ hM hy)
          | @deep K z y hz hb ih =>
            intro M hM
            rcases ih M hM with h' | ⟨o, h', h''⟩
            · exact Or.inr ⟨z, h', .here hz⟩
            · exact Or.inr ⟨o, h', .deep hz h''⟩
        apply hn
        rcases key _ _ h L hx with h' | ⟨o, h', h''⟩
        · rw [h']; exact Or.inl rfl
        · rw [h']; exact Or.inr h''
    simp [hxo, this]

/-- after purging, the list is empty -/
theorem purge_empty (a : Abs) (L : Loc) : (a.delete (Below a.items L)).items L = [] := by
  apply List.eq_nil_iff_forall_not_mem.2
  intro x hx
  have := mem_prune.1 hx
  exact this.2.2 (.here this.2.1)

/-- a history with a nested list: the inner entries go away with the outer entry -/
example : ∃ s, run 10 St.init [.append (.metric 3) 8 false 1 100, .append (.metric 3) tList false 1 200,
      .append (.inner 200) 4 false 1 300, .append (.inner 200) 12 true 40 400,
      .append (.metric 3) 11 false 1 500, .remove (.metric 3) 200] = some s ∧
    visit s 10 (first s (.metric 3)) = some [(100, 8, 1), (500, 11, 1)] ∧ s.mem 300 = none ∧
    s.mem 400 = none ∧ s.mem 200 = none ∧ len s (.metric 3) = 2 := ⟨_, rfl, rfl, rfl, rfl, rfl, rfl⟩

/-- the hypotheses of `list_history` are met by a history with a nested list -/
example : ∃ a, Steps Abs.empty [.append (.metric 3) tList false 1 200, .append (.inner 200) 4 false 1 300,
    .recAlloc 350, .appendRec (.inner 200) 350, .remove (.metric 3) 200, .purge (.metric 3)] a := by
  refine ⟨_, .cons (.append _ _ _ ?_ ?_ ?_) (.cons (.append _ _ _ ?_ ?_ ?_) (.cons (.recAlloc ?_ ?_)
    (.cons (.appendRec (c := 1) ?_ ?_ ?_ ?_) (.cons (.remove ?_) (.cons (.purge ?_) (.nil _))))))⟩
  · trivial
  · decide
  · rfl
  · exact ⟨1, rfl⟩
  · decide
  · rfl
  · decide
  · rfl
  · exact ⟨1, rfl⟩
  · decide
  · rfl
  · intro K
    simp only [Abs.snoc, Abs.alloc, Abs.empty]
    repeat' split
    all_goals simp
  · show (200 : Nat) ∈ _
    simp [Abs.snoc, Abs.alloc, Abs.empty]
  · trivial

/-- **C45, the part that holds**: whatever happened before, a record that is in a list together with at
least one other entry is refused with EBUSY and nothing changes.  Missing: the record that is the only
entry of its list, see the defects below. -/
theorem append_record_busy_partial {s : St} {a : Abs} (hr : Rep s a) (L K : Loc) (off : Nat)
    (hin : off ∈ a.items K) (hlen : 2 ≤ (a.items K).length) :
    appendRecord s L off = some (s, .ebusy) := by
  obtain ⟨st, N, hi, hinf⟩ := hr
  obtain ⟨l1, l2, hl⟩ := List.append_of_mem hin
  have hseg := hi.seg K
  rw [hl, seg_append] at hseg
  obtain ⟨_, ⟨e, he, hp, hn⟩, _⟩ := hseg
  have hbusy : e.prev ≠ 0 ∨ e.next ≠ 0 := by
    cases l1 with
    | nil =>
      right
      cases l2 with
      | nil => rw [hl] at hlen; simp at hlen
      | cons y l2 =>
        rw [hn]
        exact hi.nz K y (by rw [hl]; simp)
    | cons y l1 =>
      left
      rw [hp]
      apply hi.nz K
      rw [hl]
      exact List.mem_append_left _ (lastOr_mem 0 _ (List.cons_ne_nil _ _))
  simp only [appendRecord, he]
  rw [if_pos hbusy]

/-- a record in a list of two -/
example : ∃ s s', run 10 St.init [.recAlloc 64, .append (.metric 0) 8 false 1 32,
    .appendRec (.metric 0) 64] = some s ∧ appendRecord s (.metric 1) 64 = some (s', .ebusy) := ⟨_, _, rfl, rfl⟩

/-- **C45, defect**: a record that is the only entry of a list has `prev = next = 0` and is therefore
not refused when it is appended again: the list then claims two entries and shows one. -/
theorem append_record_twice_defect :
    ∃ s, run 10 St.init [.recAlloc 64, .appendRec (.metric 0) 64, .appendRec (.metric 0) 64] = some s ∧
      len s (.metric 0) = 2 ∧
      ∀ fuel, visit s (fuel + 2) (first s (.metric 0)) = some [(64, tRec, 1)] :=
  ⟨_, rfl, rfl, fun _ => rfl⟩

/-- **C45, defect**: it can also be put into two lists; removing it from one then leaves the other
with a freed entry. -/
theorem append_record_two_lists_defect :
    ∃ s, run 10 St.init [.recAlloc 64, .appendRec (.metric 0) 64, .appendRec (.metric 1) 64,
        .remove (.metric 0) 64] = some s ∧
      len s (.metric 1) = 1 ∧ first s (.metric 1) = 64 ∧ s.mem 64 = none := ⟨_, rfl, rfl, rfl, rfl⟩

/-- **C24, defect**: the element count of an array value is kept in 24 bits, so an array of `2 ^ 24`
elements, which was allocated in full, is reported to have 0 elements. -/
theorem append_array_count_defect :
    ∃ s, run 10 St.init [.append (.metric 0) 13 true (2 ^ 24) 64] = some s ∧
      visit s 10 (first s (.metric 0)) = some [(64, 13, 0)] := ⟨_, rfl, rfl⟩

end Verif.LList
