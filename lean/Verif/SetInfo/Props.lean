import Verif.SetInfo.Model

/-!
# C25: set information
-/

namespace Verif.SetInfo

/-! ## the lists as maps -/

/-- the keys are distinct -/
def Distinct (l : Info) : Prop := (l.map (·.1)).Nodup

theorem find_none {l : Info} {k : Str} : find l k = none ↔ k ∉ l.map (·.1) := by
  induction l with
  | nil => simp [find]
  | cons p l ih =>
    obtain ⟨a, b⟩ := p
    by_cases h : k = a
    · simp [find, h]
    · simp [find, h, ih]

theorem find_replace (l : Info) (k v k' : Str) (h : k ∈ l.map (·.1)) :
    find (replace l k v) k' = if k' = k then some v else find l k' := by
  induction l with
  | nil => simp at h
  | cons p l ih =>
    obtain ⟨a, b⟩ := p
    by_cases hk : k = a
    · subst hk
      by_cases h' : k' = k <;> simp [replace, find, h']
    · have : k ∈ l.map (·.1) := by simpa [hk] using h
      have hi := ih this
      by_cases h' : k' = a
      · subst h'
        have : k' ≠ k := fun hh => hk hh.symm
        simp [replace, find, hk, this]
      · simp [replace, find, hk, h', hi]

theorem replace_keys (l : Info) (k v : Str) : (replace l k v).map (·.1) = l.map (·.1) := by
  induction l with
  | nil => rfl
  | cons p l ih =>
    obtain ⟨a, b⟩ := p
    by_cases hk : k = a <;> simp [replace, hk, ih]

theorem find_remove (l : Info) (k k' : Str) (hd : Distinct l) :
    find (remove l k) k' = if k' = k then none else find l k' := by
  induction l with
  | nil => simp [remove, find]
  | cons p l ih =>
    obtain ⟨a, b⟩ := p
    have hd' : a ∉ l.map (·.1) ∧ Distinct l := List.nodup_cons.1 hd
    by_cases hk : k = a
    · subst hk
      by_cases h' : k' = k
      · subst h'; simp only [remove, if_true]; exact find_none.2 hd'.1
      · simp [remove, find, h']
    · by_cases h' : k' = a
      · subst h'
        have : k' ≠ k := fun hh => hk hh.symm
        simp [remove, find, hk, this]
      · simp [remove, find, hk, h', ih hd'.2]

theorem remove_distinct (l : Info) (k : Str) (hd : Distinct l) : Distinct (remove l k) := by
  have : ∀ l : Info, List.Sublist ((remove l k).map (·.1)) (l.map (·.1)) := by
    intro l
    induction l with
    | nil => exact List.Sublist.refl _
    | cons p l ih =>
      obtain ⟨a, b⟩ := p
      by_cases hk : k = a
      · simp only [remove, hk, if_true, List.map_cons]; exact List.sublist_cons_self _ _
      · simp only [remove, hk, if_false, List.map_cons]; exact ih.cons_cons _
  exact hd.sublist (this l)

/-- what `__ldms_set_info_set` does to the map -/
theorem infoSet_spec (l : Info) (k v : Str) (m : Mem) (hd : Distinct l) :
    Distinct (infoSet l k v m).1 ∧
    ((infoSet l k v m).2 = .changed → find l k ≠ some v ∧
      ∀ k', find (infoSet l k v m).1 k' = if k' = k then some v else find l k') ∧
    ((infoSet l k v m).2 = .same → find l k = some v ∧ (infoSet l k v m).1 = l) ∧
    ((infoSet l k v m).2 = .enomem → find l k ≠ some v ∧ (m.pair = false ∨ m.value = false) ∧
      ∀ k', find (infoSet l k v m).1 k' = if k' = k then none else find l k') := by
  cases hf : find l k with
  | some w =>
    have hmem : k ∈ l.map (·.1) := by
      apply Classical.byContradiction
      intro hn
      rw [find_none.2 hn] at hf; cases hf
    by_cases hv : v = w
    · simp only [infoSet, hf, hv, if_true]
      exact ⟨hd, by simp, by simp, by simp⟩
    · have hne : some w ≠ some v := fun h => hv (Option.some.inj h).symm
      by_cases hm : m.value = true
      · simp only [infoSet, hf, hv, if_false, hm, if_true]
        refine ⟨?_, fun _ => ⟨hne, fun k' => find_replace l k v k' hmem⟩, by simp, by simp⟩
        rw [Distinct, replace_keys]; exact hd
      · simp only [infoSet, hf, hv, if_false, hm]
        exact ⟨remove_distinct l k hd, by simp, by simp,
          fun _ => ⟨hne, Or.inr (by simpa only [Bool.not_eq_true] using hm), fun k' => find_remove l k k' hd⟩⟩
  | none =>
    have hn := find_none.1 hf
    have heq : ∀ k', find l k' = if k' = k then none else find l k' := by
      intro k'
      by_cases h : k' = k
      · rw [h, hf]; simp
      · simp [h]
    by_cases hp : m.pair = true
    · by_cases hm : m.value = true
      · simp only [infoSet, hf, hp, hm, if_true]
        exact ⟨List.nodup_cons.2 ⟨hn, hd⟩, fun _ => ⟨by simp, fun k' => rfl⟩, by simp, by simp⟩
      · simp only [infoSet, hf, hp, if_true, hm]
        exact ⟨hd, by simp, by simp, fun _ => ⟨by simp, Or.inr (by simpa only [Bool.not_eq_true] using hm), heq⟩⟩
    · simp only [infoSet, hf, hp]
      exact ⟨hd, by simp, by simp, fun _ => ⟨by simp, Or.inl (by simpa only [Bool.not_eq_true] using hp), heq⟩⟩

/-! ## specification: two maps -/

/-- the local and the remote values -/
structure Maps where
  loc : Str → Option Str
  rem : Str → Option Str

/-- the value to be shown -/
def Maps.get (m : Maps) (k : Str) : Option Str := (m.loc k).or (m.rem k)

/-- change one key -/
def upd (f : Str → Option Str) (k : Str) (v : Option Str) : Str → Option Str :=
  fun k' => if k' = k then v else f k'

/-- the value a list of pairs gives to a key: the last one -/
def lastOf (ps : List (Str × Str)) (k : Str) : Option Str := find ps.reverse k

/-- calls -/
inductive Op where
  | set (k v : Str)
  | unset (k : Str)
  | peerDir (upd : Bool) (ps : List (Str × Str))
  | publish (on : Bool)
  deriving DecidableEq

/-- effect on the maps -/
def Maps.op (m : Maps) : Op → Maps
  | .set k v => { m with loc := upd m.loc k (some v) }
  | .unset k => { m with loc := upd m.loc k none }
  | .peerDir _ ps => { m with rem := lastOf ps }
  | .publish _ => m

/-- the code, with memory available -/
def step (s : St) : Op → St
  | .set k v => (set s (some k) (some v) ⟨true, true⟩).1
  | .unset k => unset s k
  | .peerDir u ps => (peerDir s u ps []).1
  | .publish on => { s with published := on }

/-- the lists represent the maps -/
def Rep (s : St) (m : Maps) : Prop :=
  Distinct s.loc ∧ Distinct s.rem ∧ (∀ k, find s.loc k = m.loc k) ∧ (∀ k, find s.rem k = m.rem k)

theorem notify_loc (s : St) : (notify s).loc = s.loc := by unfold notify; split <;> rfl
theorem notify_rem (s : St) : (notify s).rem = s.rem := by unfold notify; split <;> rfl

theorem infoSet_ok (l : Info) (k v : Str) : (infoSet l k v ⟨true, true⟩).2 ≠ .enomem := by
  unfold infoSet
  cases find l k with
  | none => simp
  | some w => by_cases h : v = w <;> simp [h]

theorem infoSet_find (l : Info) (k v : Str) (hd : Distinct l) (k' : Str) :
    find (infoSet l k v ⟨true, true⟩).1 k' = if k' = k then some v else find l k' := by
  obtain ⟨_, h2, h3, _⟩ := infoSet_spec l k v ⟨true, true⟩ hd
  cases hr : (infoSet l k v ⟨true, true⟩).2 with
  | changed => exact (h2 hr).2 k'
  | same =>
    obtain ⟨h4, h5⟩ := h3 hr
    rw [h5]
    by_cases h : k' = k
    · rw [h, h4]; simp
    · simp [h]
  | enomem => exact absurd hr (infoSet_ok l k v)

theorem recv_spec (ps : List (Str × Str)) : ∀ (l : Info) (d : Bool), Distinct l →
    (recvPairs l ps [] d).2.2 = true ∧ Distinct (recvPairs l ps [] d).1 ∧
    ∀ k, find (recvPairs l ps [] d).1 k = (lastOf ps k).or (find l k) := by
  induction ps with
  | nil => intro l d hd; exact ⟨rfl, hd, fun k => by simp [recvPairs, lastOf, find]⟩
  | cons p ps ih =>
    obtain ⟨a, b⟩ := p
    intro l d hd
    have hf := infoSet_find l a b hd
    have hdi := (infoSet_spec l a b ⟨true, true⟩ hd).1
    have hne := infoSet_ok l a b
    have app : ∀ (xs : Info) k, find (xs ++ [(a, b)]) k = (find xs k).or (if k = a then some b else none) := by
      intro xs k
      induction xs with
      | nil => simp [find]
      | cons q xs ihx =>
        obtain ⟨c, e⟩ := q
        by_cases h : k = c <;> simp [find, h, ihx]
    have fin : ∀ k, (lastOf ps k).or (if k = a then some b else find l k) =
        (lastOf ((a, b) :: ps) k).or (find l k) := by
      intro k
      simp only [lastOf, List.reverse_cons, app]
      cases find ps.reverse k with
      | some x => rfl
      | none => by_cases h : k = a <;> simp [h]
    cases hr : infoSet l a b ⟨true, true⟩ with
    | mk l' r =>
      rw [hr] at hf hdi hne
      simp only [recvPairs, List.headD_nil, List.tail_nil, hr]
      cases r with
      | enomem => exact absurd rfl hne
      | same =>
        obtain ⟨h1, h2, h3⟩ := ih l' d hdi
        exact ⟨h1, h2, fun k => by rw [h3 k, hf k]; exact fin k⟩
      | changed =>
        obtain ⟨h1, h2, h3⟩ := ih l' true hdi
        exact ⟨h1, h2, fun k => by rw [h3 k, hf k]; exact fin k⟩

theorem find_filter (l : Info) (p : Str → Bool) (k : Str) :
    find (l.filter (fun q => p q.1)) k = if p k then find l k else none := by
  induction l with
  | nil => simp [find]
  | cons q l ih =>
    obtain ⟨a, b⟩ := q
    by_cases hp : p a = true
    · by_cases h : k = a
      · subst h; simp [hp, find]
      · simp [hp, find, h, ih]
    · by_cases h : k = a
      · subst h; simp [hp, ih]
      · simp [hp, find, h, ih]

theorem filter_distinct {l : Info} (hd : Distinct l) (p : Str × Str → Bool) : Distinct (l.filter p) :=
  hd.sublist (List.filter_sublist.map _)

theorem lastOf_none {ps : List (Str × Str)} {k : Str} : lastOf ps k = none ↔ keyIn ps k = false := by
  rw [lastOf, find_none]
  simp only [keyIn, List.map_reverse, List.mem_reverse, List.mem_map, List.any_eq_false]
  constructor
  · intro h q hq he
    exact h ⟨q, hq, of_decide_eq_true he⟩
  · rintro h ⟨q, hq, he⟩
    exact h q hq (decide_eq_true he)

theorem drop_spec (l : Info) (ps : List (Str × Str)) (r : Str → Option Str)
    (h : ∀ k, find l k = (lastOf ps k).or (r k)) (k : Str) : find (dropStale l ps) k = lastOf ps k := by
  rw [dropStale, find_filter l (keyIn ps), h k]
  cases hk : keyIn ps k with
  | false => rw [lastOf_none.2 hk]; rfl
  | true =>
    cases hl : lastOf ps k with
    | none => rw [lastOf_none.1 hl] at hk; cases hk
    | some x => rfl

theorem step_rep {s : St} {m : Maps} (h : Rep s m) (op : Op) : Rep (step s op) (m.op op) := by
  obtain ⟨h1, h2, h3, h4⟩ := h
  cases op with
  | set k v =>
    have hf := infoSet_find s.loc k v h1
    have hdi := (infoSet_spec s.loc k v ⟨true, true⟩ h1).1
    have hne := infoSet_ok s.loc k v
    have key : (step s (.set k v)).loc = (infoSet s.loc k v ⟨true, true⟩).1 ∧
        (step s (.set k v)).rem = s.rem := by
      simp only [step, set]
      cases hr : infoSet s.loc k v ⟨true, true⟩ with
      | mk l r =>
        rw [hr] at hne
        cases r with
        | enomem => exact absurd rfl hne
        | same => exact ⟨rfl, rfl⟩
        | changed => exact ⟨notify_loc _, notify_rem _⟩
    refine ⟨by rw [key.1]; exact hdi, by rw [key.2]; exact h2, ?_, by rw [key.2]; exact h4⟩
    intro k'
    rw [key.1, hf k', h3 k']; rfl
  | unset k =>
    simp only [step, unset]
    cases hf : find s.loc k with
    | none =>
      refine ⟨h1, h2, ?_, h4⟩
      intro k'
      show _ = upd m.loc k none k'
      by_cases hk : k' = k
      · subst hk; rw [hf]; simp [upd]
      · simp [upd, hk, h3]
    | some w =>
      refine ⟨?_, ?_, ?_, ?_⟩
      · rw [notify_loc]; exact remove_distinct _ _ h1
      · rw [notify_rem]; exact h2
      · intro k'
        rw [notify_loc]
        rw [find_remove _ _ _ h1]
        show _ = upd m.loc k none k'
        simp [upd, h3]
      · intro k'; rw [notify_rem]; exact h4 k'
  | peerDir u ps =>
    obtain ⟨r1, r2, r3⟩ := recv_spec ps s.rem false h2
    have key : (step s (.peerDir u ps)).loc = s.loc ∧
        (step s (.peerDir u ps)).rem = dropStale (recvPairs s.rem ps [] false).1 ps := by
      simp only [step, peerDir]
      cases hr : recvPairs s.rem ps [] false with
      | mk l rest =>
        obtain ⟨d, ok⟩ := rest
        rw [hr] at r1
        simp only at r1
        subst r1
        simp only
        split
        · exact ⟨notify_loc _, notify_rem _⟩
        · exact ⟨rfl, rfl⟩
    refine ⟨by rw [key.1]; exact h1, by rw [key.2]; exact filter_distinct r2 _,
      by rw [key.1]; exact h3, ?_⟩
    intro k
    rw [key.2]
    exact drop_spec _ ps _ r3 k
  | publish on => exact ⟨h1, h2, h3, h4⟩

/-- **C25**: after any history of sets, unsets and directory updates from the peer,
`ldms_set_info_get` gives the local value of the key if there is one, else the one last received,
where setting or unsetting a key changes the local value of that key only. -/
theorem info_history (ops : List Op) (pub : Bool) (k : Str) :
    get (ops.foldl step ⟨[], [], pub, 0⟩) k =
      (ops.foldl Maps.op ⟨fun _ => none, fun _ => none⟩).get k := by
  have gen : ∀ (ops : List Op) (s : St) (m : Maps), Rep s m →
      Rep (ops.foldl step s) (ops.foldl Maps.op m) := by
    intro ops
    induction ops with
    | nil => intro s m h; exact h
    | cons op ops ih => intro s m h; exact ih _ _ (step_rep h op)
  obtain ⟨_, _, h3, h4⟩ := gen ops ⟨[], [], pub, 0⟩ ⟨fun _ => none, fun _ => none⟩
    ⟨List.nodup_nil, List.nodup_nil, fun _ => rfl, fun _ => rfl⟩
  simp only [get, Maps.get, ← h3, ← h4]
  cases find _ k <;> rfl

/-- unset shows the peer's value again, and other keys are untouched -/
example : get ([.peerDir true [([1], [7]), ([2], [8])], .set [1] [9], .set [3] [5], .unset [1]].foldl step
    ⟨[], [], true, 0⟩) [1] = some [7] ∧
  get ([.peerDir true [([1], [7]), ([2], [8])], .set [1] [9], .set [3] [5], .unset [1]].foldl step
    ⟨[], [], true, 0⟩) [3] = some [5] := by decide

/-- a state reached by some history -/
def Reachable (s : St) : Prop := ∃ (ops : List Op) (pub : Bool), s = ops.foldl step ⟨[], [], pub, 0⟩

theorem reachable_distinct {s : St} (h : Reachable s) : Distinct s.loc ∧ Distinct s.rem := by
  obtain ⟨ops, pub, rfl⟩ := h
  have gen : ∀ (ops : List Op) (s : St), (∃ m, Rep s m) → ∃ m, Rep (ops.foldl step s) m := by
    intro ops
    induction ops with
    | nil => intro s h; exact h
    | cons op ops ih => intro s h; obtain ⟨m, h⟩ := h; exact ih _ ⟨_, step_rep h op⟩
  obtain ⟨m, h1, h2, _⟩ := gen ops ⟨[], [], pub, 0⟩ ⟨⟨fun _ => none, fun _ => none⟩,
    List.nodup_nil, List.nodup_nil, fun _ => rfl, fun _ => rfl⟩
  exact ⟨h1, h2⟩

/-- **C25**: a directory update is sent for a set exactly when the set is published and the local
value changes -/
theorem set_notifies {s : St} (h : Reachable s) (k v : Str) :
    (set s (some k) (some v) ⟨true, true⟩).2 = .ok ∧
    (set s (some k) (some v) ⟨true, true⟩).1.upds =
      s.upds + (if s.published = true ∧ find s.loc k ≠ some v then 1 else 0) := by
  obtain ⟨hd, _⟩ := reachable_distinct h
  obtain ⟨_, h2, h3, _⟩ := infoSet_spec s.loc k v ⟨true, true⟩ hd
  have hne := infoSet_ok s.loc k v
  simp only [set]
  cases hr : infoSet s.loc k v ⟨true, true⟩ with
  | mk l r =>
    rw [hr] at h2 h3 hne
    cases r with
    | enomem => exact absurd rfl hne
    | same => simp [(h3 rfl).1]
    | changed =>
      have := (h2 rfl).1
      refine ⟨rfl, ?_⟩
      simp only [notify]
      by_cases hp : s.published = true <;> simp [hp, this]

/-- **C25**: an unset sends a directory update exactly when there was a local value -/
theorem unset_notifies (s : St) (k : Str) :
    (unset s k).upds = s.upds + (if s.published = true ∧ find s.loc k ≠ none then 1 else 0) := by
  simp only [unset]
  cases hf : find s.loc k with
  | none => simp
  | some w => by_cases hp : s.published = true <;> simp [notify, hp]

/-- NULL arguments are refused and nothing changes -/
theorem set_null (s : St) (k v : Option Str) (m : Mem) (h : k = none ∨ v = none) :
    set s k v m = (s, .einval) := by
  cases k with
  | none => rfl
  | some k =>
    cases v with
    | none => rfl
    | some v => rcases h with h | h <;> cases h

/-- **C25, defect**: when there is no memory for the new value, the call fails with ENOMEM and the old
value is lost -/
theorem set_enomem_defect :
    ∃ s, Reachable s ∧ get s [1] = some [5] ∧ (set s (some [1]) (some [6]) ⟨true, false⟩).2 = .enomem ∧
      get (set s (some [1]) (some [6]) ⟨true, false⟩).1 [1] = none :=
  ⟨⟨[([1], [5])], [], true, 1⟩, ⟨[.set [1] [5]], true, by decide⟩, by decide, by decide, by decide⟩

/-- out of memory affects no other key -/
theorem set_enomem_frame {s : St} (h : Reachable s) (k v k' : Str) (m : Mem) (hk : k' ≠ k) :
    get (set s (some k) (some v) m).1 k' = get s k' := by
  obtain ⟨hd, _⟩ := reachable_distinct h
  obtain ⟨_, h2, h3, h4⟩ := infoSet_spec s.loc k v m hd
  simp only [set]
  cases hr : infoSet s.loc k v m with
  | mk l r =>
    rw [hr] at h2 h3 h4
    cases r with
    | enomem => have := (h4 rfl).2.2 k'; simp only [hk, if_false] at this; simp [get, this]
    | same => have := (h3 rfl).2; simp only at this; simp [get, this]
    | changed =>
      have := (h2 rfl).2 k'; simp only [hk, if_false] at this
      simp only [get, notify_loc, notify_rem, this]

/-! ## C46: what consumers are told -/

theorem find_append (a b : Info) (k : Str) : find (a ++ b) k = (find a k).or (find b k) := by
  induction a with
  | nil => simp [find]
  | cons p a ih =>
    obtain ⟨x, y⟩ := p
    by_cases h : k = x <;> simp [find, h, ih]

theorem find_sent {s : St} (k : Str) : find (sent s) k = get s k := by
  rw [sent, find_append, find_filter s.rem (fun x => (find s.loc x).isNone)]
  simp only [get]
  cases find s.loc k <;> simp

theorem sent_distinct {s : St} (h : Reachable s) : Distinct (sent s) := by
  obtain ⟨h1, h2⟩ := reachable_distinct h
  rw [Distinct, sent, List.map_append, List.nodup_append]
  refine ⟨h1, filter_distinct h2 _, ?_⟩
  intro a ha b hb hab
  subst hab
  obtain ⟨p, hp, rfl⟩ := List.mem_map.1 hb
  have := (List.mem_filter.1 hp).2
  rw [Option.isNone_iff_eq_none, find_none] at this
  exact this ha

theorem lastOf_distinct {ps : Info} (hd : Distinct ps) (k : Str) : lastOf ps k = find ps k := by
  have mem_find : ∀ (l : Info) (v : Str), Distinct l → (find l k = some v ↔ (k, v) ∈ l) := by
    intro l v
    induction l with
    | nil => simp [find]
    | cons p l ih =>
      obtain ⟨a, b⟩ := p
      intro hdl
      have hd' : a ∉ l.map (·.1) ∧ Distinct l := List.nodup_cons.1 hdl
      by_cases h : k = a
      · subst h
        simp only [find, if_true, Option.some.injEq, List.mem_cons, Prod.mk.injEq, true_and]
        constructor
        · intro hh; exact Or.inl hh.symm
        · rintro (hh | hh)
          · exact hh.symm
          · exact absurd (List.mem_map.2 ⟨_, hh, rfl⟩) hd'.1
      · simp [find, h, ih hd'.2]
  have hr : Distinct ps.reverse := by
    rw [Distinct, List.map_reverse]; exact List.pairwise_reverse.2 (hd.imp Ne.symm)
  cases h : find ps k with
  | some v =>
    rw [lastOf, mem_find _ _ hr, List.mem_reverse]
    exact (mem_find _ _ hd).1 h
  | none =>
    rw [lastOf, find_none]
    rw [find_none] at h
    simpa using h

/-- **C46**: a consumer that receives the directory information of a set gets for every key the value
the producer shows for it, no matter what it knew before -/
theorem dir_transfers {p c : St} (hp : Reachable p) (hc : Reachable c) (u : Bool) (k : Str) :
    find (step c (.peerDir u (sent p))).rem k = get p k := by
  obtain ⟨h1, h2⟩ := reachable_distinct hc
  have := (step_rep (m := ⟨find c.loc, find c.rem⟩) ⟨h1, h2, fun _ => rfl, fun _ => rfl⟩
    (.peerDir u (sent p))).2.2.2 k
  rw [this]
  show lastOf (sent p) k = _
  rw [lastOf_distinct (sent_distinct hp), find_sent]

/-- **C46**: a consumer that looks a set up for the first time gets the same -/
theorem lookup_transfers {p : St} (hp : Reachable p) (pub : Bool) (k : Str) :
    find (peerLookup ⟨[], [], pub, 0⟩ (sent p) []).1.rem k = get p k := by
  obtain ⟨r1, r2, r3⟩ := recv_spec (sent p) [] false List.nodup_nil
  have hl : lastOf (sent p) k = get p k := by rw [lastOf_distinct (sent_distinct hp), find_sent]
  have h0 : find (recvPairs [] (sent p) [] false).1 k = get p k := by
    rw [r3 k, hl]; simp [find]
  simp only [peerLookup]
  cases hr : recvPairs [] (sent p) [] false with
  | mk l rest =>
    obtain ⟨d, ok⟩ := rest
    rw [hr] at r1 r3 h0
    simp only at r1
    subst r1
    cases d with
    | true => simp only [notify_rem]; exact h0
    | false =>
      have hd := drop_spec l (sent p) _ r3 k
      rw [hl] at hd
      simp only
      split
      · rw [notify_rem]; exact hd
      · exact hd

/-- **C46, defect**: when a consumer already has information about the set, a lookup that changes some
value does not drop the pairs that the producer has removed. -/
theorem lookup_stale_defect :
    ∃ p c, Reachable p ∧ Reachable c ∧ get p [2] = none ∧
      find (peerLookup c (sent p) []).1.rem [2] = some [8] :=
  ⟨⟨[([1], [6])], [], true, 1⟩, ⟨[], [([2], [8]), ([1], [5])], true, 0⟩,
    ⟨[.set [1] [6]], true, by decide⟩,
    ⟨[.peerDir false [([1], [5]), ([2], [8])]], true, by decide⟩, by decide, by decide⟩

/-! ## the lookup message -/

/-- no NUL inside and short enough for the 8-bit length -/
def Fits (s : Str) : Prop := s.length ≤ 254 ∧ ∀ b ∈ s, b ≠ 0

theorem writeAt_mid (a m c bs : List Nat) (h : bs.length = m.length) :
    writeAt (a ++ m ++ c) a.length bs = some (a ++ bs ++ c) := by
  unfold writeAt
  rw [if_pos (by simp; omega)]
  congr 1
  rw [List.append_assoc a m c, List.take_left' rfl]
  congr 1
  rw [h, ← List.append_assoc, List.drop_left' (by simp)]

/-- bytes of one name -/
def nameBytes (s : Str) : List Nat := (s.length + 1) :: (s ++ [0])

theorem nameBytes_length (s : Str) : (nameBytes s).length = s.length + 2 := by simp [nameBytes]

theorem putName_ok (a c : List Nat) (s : Str) (n : Nat) (hs : s.length ≤ 254) (hn : n = s.length + 2) :
    putName (a ++ List.replicate n 0 ++ c) a.length s =
      some (a ++ nameBytes s ++ c, (a ++ nameBytes s).length) := by
  subst hn
  have hmod : (s.length + 1) % 256 = s.length + 1 := Nat.mod_eq_of_lt (by omega)
  have e1 : a ++ List.replicate (s.length + 2) 0 ++ c =
      a ++ [0] ++ (List.replicate (s.length + 1) 0 ++ c) := by
    rw [show s.length + 2 = 1 + (s.length + 1) by omega, ← List.replicate_append_replicate]
    simp
  have w1 := writeAt_mid a [0] (List.replicate (s.length + 1) 0 ++ c) [s.length + 1] rfl
  have w2 := writeAt_mid (a ++ [s.length + 1]) (List.replicate (s.length + 1) 0) c (s ++ [0]) (by simp)
  simp only [putName, hmod, e1, w1]
  rw [show a ++ [s.length + 1] ++ (List.replicate (s.length + 1) 0 ++ c) =
    a ++ [s.length + 1] ++ List.replicate (s.length + 1) 0 ++ c by simp only [List.append_assoc]]
  rw [show a.length + 1 = (a ++ [s.length + 1]).length by simp, w2]
  simp [nameBytes]
  omega

/-- bytes of the pairs -/
def pairBytes : List (Str × Str) → List Nat
  | [] => []
  | (k, v) :: ps => nameBytes k ++ nameBytes v ++ pairBytes ps

theorem pairBytes_length (ps : List (Str × Str)) : (pairBytes ps).length + 1 = msgLen ps := by
  induction ps with
  | nil => rfl
  | cons p ps ih =>
    obtain ⟨k, v⟩ := p
    simp only [pairBytes, List.length_append, nameBytes_length, msgLen, List.map_cons, List.sum_cons,
      List.length_cons] at *
    omega

theorem putPairs_ok : ∀ (ps : List (Str × Str)) (a c : List Nat) (n : Nat),
    (∀ p ∈ ps, p.1.length ≤ 254 ∧ p.2.length ≤ 254) → n = (pairBytes ps).length →
    putPairs (a ++ List.replicate n 0 ++ c) a.length ps =
      some (a ++ pairBytes ps ++ c, (a ++ pairBytes ps).length) := by
  intro ps
  induction ps with
  | nil => intro a c n _ hn; subst hn; simp [putPairs, pairBytes]
  | cons p ps ih =>
    obtain ⟨k, v⟩ := p
    intro a c n hf hn
    have hkv := hf _ (List.mem_cons_self ..)
    have e1 : a ++ List.replicate n 0 ++ c = a ++ List.replicate (k.length + 2) 0 ++
        (List.replicate (v.length + 2) 0 ++ (List.replicate (pairBytes ps).length 0 ++ c)) := by
      rw [hn]
      simp only [pairBytes, List.length_append, nameBytes_length, ← List.replicate_append_replicate,
        List.append_assoc]
    rw [e1]
    simp only [putPairs]
    rw [putName_ok a _ k _ hkv.1 rfl]
    simp only
    rw [show a ++ nameBytes k ++ (List.replicate (v.length + 2) 0 ++
        (List.replicate (pairBytes ps).length 0 ++ c)) =
      (a ++ nameBytes k) ++ List.replicate (v.length + 2) 0 ++
        (List.replicate (pairBytes ps).length 0 ++ c) by simp only [List.append_assoc]]
    rw [putName_ok (a ++ nameBytes k) _ v _ hkv.2 rfl]
    simp only
    rw [show a ++ nameBytes k ++ nameBytes v ++ (List.replicate (pairBytes ps).length 0 ++ c) =
      (a ++ nameBytes k ++ nameBytes v) ++ List.replicate (pairBytes ps).length 0 ++ c by
        simp only [List.append_assoc]]
    rw [ih _ c _ (fun p hp => hf p (List.mem_cons_of_mem _ hp)) rfl]
    simp [pairBytes, List.append_assoc]

theorem encode_ok (ps : List (Str × Str)) (hf : ∀ p ∈ ps, p.1.length ≤ 254 ∧ p.2.length ≤ 254) :
    encode ps = some (pairBytes ps ++ [0]) := by
  have h := putPairs_ok ps [] [0] (pairBytes ps).length hf rfl
  have e : List.replicate (msgLen ps) 0 = [] ++ List.replicate (pairBytes ps).length 0 ++ [0] := by
    rw [← pairBytes_length, List.nil_append, List.replicate_succ']
  simp only [encode, e]
  rw [List.length_nil] at h
  rw [h]
  simp only [List.nil_append]
  have := writeAt_mid (pairBytes ps) [0] [] [0] rfl
  simpa using this

theorem cstr_ok (s : Str) (r : List Nat) (h : ∀ b ∈ s, b ≠ 0) : cstr (s ++ 0 :: r) = some s := by
  induction s with
  | nil => rfl
  | cons b s ih =>
    have hb := h b (List.mem_cons_self ..)
    have := ih (fun x hx => h x (List.mem_cons_of_mem _ hx))
    cases b with
    | zero => exact absurd rfl hb
    | succ b => simp only [List.cons_append, cstr, this]

theorem decode_ok : ∀ (ps : List (Str × Str)) (r : List Nat) (f : Nat), ps.length < f →
    (∀ p ∈ ps, Fits p.1 ∧ Fits p.2) → decode f (pairBytes ps ++ 0 :: r) = some ps := by
  intro ps
  induction ps with
  | nil => intro r f hf _; cases f with
    | zero => cases hf
    | succ f => rfl
  | cons p ps ih =>
    obtain ⟨k, v⟩ := p
    intro r f hf hfit
    cases f with
    | zero => cases hf
    | succ f =>
      obtain ⟨⟨_, hk⟩, ⟨_, hv⟩⟩ := hfit _ (List.mem_cons_self ..)
      have hi := ih r f (by simpa using hf) (fun p hp => hfit p (List.mem_cons_of_mem _ hp))
      have e : pairBytes ((k, v) :: ps) ++ 0 :: r =
          (k.length + 1) :: (k ++ 0 :: ((v.length + 1) :: (v ++ 0 :: (pairBytes ps ++ 0 :: r)))) := by
        simp [pairBytes, nameBytes]
      rw [e, decode]
      rw [if_neg (Nat.succ_ne_zero _), cstr_ok k _ hk]
      dsimp only
      rw [show List.drop (k.length + 1) (k ++ 0 :: ((v.length + 1) :: (v ++ 0 :: (pairBytes ps ++ 0 :: r))))
          = (v.length + 1) :: (v ++ 0 :: (pairBytes ps ++ 0 :: r)) by
        rw [show k ++ 0 :: ((v.length + 1) :: (v ++ 0 :: (pairBytes ps ++ 0 :: r))) =
          (k ++ [0]) ++ ((v.length + 1) :: (v ++ 0 :: (pairBytes ps ++ 0 :: r))) by simp]
        exact List.drop_left' (by simp)]
      dsimp only
      rw [cstr_ok v _ hv]
      dsimp only
      rw [show List.drop (v.length + 1) (v ++ 0 :: (pairBytes ps ++ 0 :: r)) = pairBytes ps ++ 0 :: r by
        rw [show v ++ 0 :: (pairBytes ps ++ 0 :: r) = (v ++ [0]) ++ (pairBytes ps ++ 0 :: r) by simp]
        exact List.drop_left' (by simp)]
      rw [hi]

/-- **C46**: the message is written within the bytes allocated for it and the consumer reads from it
exactly the pairs that were sent, when no key or value is longer than 254 bytes.  Missing: longer
ones, see `message_defect`. -/
theorem message_roundtrip_partial (ps : List (Str × Str)) (h : ∀ p ∈ ps, Fits p.1 ∧ Fits p.2) :
    ∃ b, encode ps = some b ∧ b.length = msgLen ps ∧ ∀ f, ps.length < f → decode f b = some ps := by
  refine ⟨_, encode_ok ps (fun p hp => ⟨(h p hp).1.1, (h p hp).2.1⟩), ?_, ?_⟩
  · rw [← pairBytes_length]; simp
  · intro f hf; exact decode_ok ps [] f hf h

example : encode [([65], [66, 67])] = some [2, 65, 0, 3, 66, 67, 0, 0] := by decide

/-- **C46**: from the producer's lists through the message to the consumer's list -/
theorem lookup_end_to_end_partial {p : St} (hp : Reachable p)
    (h : ∀ q ∈ sent p, Fits q.1 ∧ Fits q.2) (pub : Bool) :
    ∃ b ps, encode (sent p) = some b ∧ decode (b.length + 1) b = some ps ∧
      ∀ k, find (peerLookup ⟨[], [], pub, 0⟩ ps []).1.rem k = get p k := by
  obtain ⟨b, h1, h2, h3⟩ := message_roundtrip_partial (sent p) h
  refine ⟨b, sent p, h1, h3 _ ?_, fun k => lookup_transfers hp pub k⟩
  rw [h2, msgLen]; omega

/-- **C46, defect**: a value of 255 bytes has length byte 0; the next pair is written over it and the
consumer gets a different value for the key -/
theorem message_defect :
    ∃ b, encode [([65], List.replicate 255 66), ([67], [68])] = some b ∧
      decode 5 b = some [([65], [2, 67]), ([67], [68])] := by
  refine ⟨(encode [([65], List.replicate 255 66), ([67], [68])]).getD [], ?_, ?_⟩
  · decide +kernel
  · decide +kernel

/-- **C46, defect**: a key of 255 bytes has length byte 0, which the consumer takes for the end: this
pair and all after it are lost -/
theorem message_key_defect :
    ∃ b, encode [(List.replicate 255 66, [65]), ([67], [68])] = some b ∧ decode 5 b = some [] := by
  refine ⟨(encode [(List.replicate 255 66, [65]), ([67], [68])]).getD [], ?_, ?_⟩
  · decide +kernel
  · decide +kernel

/-! ### traversal -/

theorem traverse_go (cb : Str × Str → Nat) (l : Info) :
    (traverse.go cb l).1 = l.takeWhile (fun p => cb p == 0) ++ (l.dropWhile fun p => cb p == 0).take 1 ∧
    (traverse.go cb l).2 = ((l.dropWhile fun p => cb p == 0).head?.map cb).getD 0 := by
  induction l with
  | nil => exact ⟨rfl, rfl⟩
  | cons p l ih =>
    by_cases h : cb p = 0
    · simp [traverse.go, h, ih.1, ih.2]
    · simp [traverse.go, h]

/-- **C46**: a traversal gives the callback the pairs of the chosen list, in order and each once, up to
and including the first one for which the callback returns nonzero, and returns that code, or 0 when
there is none -/
theorem traverse_spec (s : St) (f : Flag) (cb : Str × Str → Nat) (l : Info)
    (h : (f = .localInfo ∧ l = s.loc) ∨ (f = .remoteInfo ∧ l = s.rem)) :
    (traverse s f cb).1 = l.takeWhile (fun p => cb p == 0) ++ (l.dropWhile fun p => cb p == 0).take 1 ∧
    (traverse s f cb).2 = ((l.dropWhile fun p => cb p == 0).head?.map cb).getD 0 := by
  rcases h with ⟨rfl, rfl⟩ | ⟨rfl, rfl⟩ <;> exact traverse_go cb _

/-- **C46**: a callback that never objects sees every pair of the list -/
theorem traverse_all (s : St) (cb : Str × Str → Nat) (h : ∀ p, cb p = 0) :
    traverse s .localInfo cb = (s.loc, 0) ∧ traverse s .remoteInfo cb = (s.rem, 0) := by
  have key : ∀ l : Info, traverse.go cb l = (l, 0) := by
    intro l
    induction l with
    | nil => rfl
    | cons p l ih => simp [traverse.go, h p, ih]
  exact ⟨key _, key _⟩

example : traverse ⟨[([65], [66]), ([67], [68]), ([69], [70])], [], true, 0⟩ .localInfo
    (fun p => if p.1 = [67] then 5 else 0) = ([([65], [66]), ([67], [68])], 5) := by decide

end Verif.SetInfo
