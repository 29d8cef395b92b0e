import Verif.SetGroup.Spec

/-! # Proofs about groups -/

namespace Verif.SetGroup

/-! ## Members -/

theorem tokens_word (x rest : SetInfo.Str) : ∀ cur, 44 ∉ x → tokens cur (x ++ rest) = tokens (cur ++ x) rest := by
  induction x with
  | nil => intro cur _; simp
  | cons c x ih =>
    intro cur hx
    have hc : ¬ c = 44 := fun e => hx (e ▸ List.mem_cons_self ..)
    rw [List.cons_append, tokens, if_neg hc, ih _ (fun h => hx (List.mem_cons_of_mem _ h))]
    simp

theorem tokens_text : ∀ xs : List SetInfo.Str, (∀ x ∈ xs, Name x) → tokens [] (text xs) = xs
  | [], _ => rfl
  | [x], h => by
    have hx := h x (List.mem_cons_self ..)
    have := tokens_word x [] [] hx.2.1
    rw [List.append_nil, List.nil_append] at this
    show tokens [] x = [x]
    rw [this]
    show (if x = [] then [] else [x]) = [x]
    rw [if_neg hx.1]
  | x :: y :: xs, h => by
    have hx := h x (List.mem_cons_self ..)
    have ih := tokens_text (y :: xs) (fun z hz => h z (List.mem_cons_of_mem _ hz))
    show tokens [] (x ++ 44 :: text (y :: xs)) = _
    rw [tokens_word x _ [] hx.2.1, List.nil_append, tokens, if_pos rfl, if_neg hx.1, ih]

theorem key_inj {x y : SetInfo.Str} (h : keyPrefix ++ x = keyPrefix ++ y) : x = y := List.append_cancel_left h

theorem memberName_iff (k x : SetInfo.Str) : memberName k = some x ↔ k = keyPrefix ++ x := by
  unfold memberName
  constructor
  · intro h
    split at h
    · rename_i hp
      obtain ⟨r, hr⟩ := List.isPrefixOf_iff_prefix.1 hp
      have := Option.some.inj h
      rw [← hr] at this ⊢
      rw [List.drop_left] at this
      rw [this]
    · exact nomatch h
  · intro h
    subst h
    rw [if_pos (List.isPrefixOf_iff_prefix.2 ⟨x, rfl⟩), List.drop_left]

theorem find_some_iff {l : SetInfo.Info} {k : SetInfo.Str} : (SetInfo.find l k).isSome = true ↔ k ∈ l.map (·.1) := by
  cases h : SetInfo.find l k with
  | none => have := SetInfo.find_none.1 h; simp [this]
  | some v =>
    have : ¬ SetInfo.find l k = none := by rw [h]; exact nofun
    simp only [Option.isSome_some, true_iff]
    exact Classical.byContradiction fun hn => this (SetInfo.find_none.2 hn)

theorem visit_eq (s : SetInfo.St) : visit s = (s.loc ++ s.rem).filterMap fun p => memberName p.1 := by
  have := SetInfo.traverse_all s (fun _ => 0) (fun _ => rfl)
  unfold visit
  rw [this.1, this.2]

theorem visit_iff (s : SetInfo.St) (x : SetInfo.Str) :
    x ∈ visit s ↔ (SetInfo.find s.loc (keyPrefix ++ x)).isSome = true ∨ (SetInfo.find s.rem (keyPrefix ++ x)).isSome = true := by
  rw [visit_eq, List.mem_filterMap, find_some_iff, find_some_iff]
  constructor
  · rintro ⟨p, hp, e⟩
    rw [memberName_iff] at e
    rcases List.mem_append.1 hp with h | h
    · exact .inl (List.mem_map.2 ⟨p, h, e⟩)
    · exact .inr (List.mem_map.2 ⟨p, h, e⟩)
  · rintro (h | h)
    · obtain ⟨p, hp, e⟩ := List.mem_map.1 h
      exact ⟨p, List.mem_append_left _ hp, (memberName_iff _ _).2 e⟩
    · obtain ⟨p, hp, e⟩ := List.mem_map.1 h
      exact ⟨p, List.mem_append_right _ hp, (memberName_iff _ _).2 e⟩

theorem names_nodup : ∀ {l : SetInfo.Info}, (l.map (·.1)).Nodup → (l.filterMap fun p => memberName p.1).Nodup
  | [], _ => List.nodup_nil
  | p :: l, h => by
    rw [List.map_cons, List.nodup_cons] at h
    rw [List.filterMap_cons]
    cases e : memberName p.1 with
    | none => exact names_nodup h.2
    | some x =>
      simp only
      rw [List.nodup_cons]
      refine ⟨fun hm => ?_, names_nodup h.2⟩
      obtain ⟨q, hq, eq⟩ := List.mem_filterMap.1 hm
      rw [memberName_iff] at e eq
      exact h.1 (List.mem_map.2 ⟨q, hq, by rw [eq, e]⟩)

/-- A local group and its members. -/
structure G (s : SetInfo.St) (mem : SetInfo.Str → Bool) : Prop where
  reach : SetInfo.Reachable s
  rem : s.rem = []
  mem : ∀ x, (SetInfo.find s.loc (keyPrefix ++ x)).isSome = mem x

theorem reach_step {s : SetInfo.St} (h : SetInfo.Reachable s) (op : SetInfo.Op) : SetInfo.Reachable (SetInfo.step s op) := by
  obtain ⟨ops, pub, e⟩ := h
  exact ⟨ops ++ [op], pub, by rw [List.foldl_append, ← e]; rfl⟩

theorem set_ok (s : SetInfo.St) (k v : SetInfo.Str) : (SetInfo.set s (some k) (some v) ⟨true, true⟩).2 = .ok ∧
    (SetInfo.set s (some k) (some v) ⟨true, true⟩).1.rem = s.rem := by
  have := SetInfo.infoSet_ok s.loc k v
  unfold SetInfo.set
  cases h : SetInfo.infoSet s.loc k v ⟨true, true⟩ with
  | mk l r =>
    rw [h] at this
    cases r with
    | changed => simp only [h]; exact ⟨trivial, SetInfo.notify_rem _⟩
    | same => simp only [h]; exact ⟨trivial, trivial⟩
    | enomem => exact absurd rfl this

theorem g_add {s : SetInfo.St} {mem : SetInfo.Str → Bool} (g : G s mem) (x : SetInfo.Str) (hx : Name x) :
    (add s x).2 = .ok ∧ G (add s x).1 (fun y => mem y || decide (y = x)) := by
  have hlen : ¬ 512 ≤ (keyPrefix ++ x).length := by
    have := hx.2.2
    simp [keyPrefix]; omega
  unfold add
  rw [if_neg hlen]
  obtain ⟨h1, h2⟩ := set_ok s (keyPrefix ++ x) [45]
  refine ⟨by simp only [h1], ?_⟩
  obtain ⟨d1, d2⟩ := SetInfo.reachable_distinct g.reach
  have hr := SetInfo.step_rep (s := s) (m := ⟨SetInfo.find s.loc, SetInfo.find s.rem⟩) ⟨d1, d2, fun _ => rfl, fun _ => rfl⟩ (.set (keyPrefix ++ x) [45])
  refine ⟨reach_step g.reach (.set _ _), by rw [← g.rem]; exact h2, fun y => ?_⟩
  have := hr.2.2.1 (keyPrefix ++ y)
  show (SetInfo.find (SetInfo.step s (.set (keyPrefix ++ x) [45])).loc (keyPrefix ++ y)).isSome = _
  rw [this]
  simp only [SetInfo.Maps.op, SetInfo.upd]
  by_cases e : y = x
  · subst e; simp
  · have : ¬ keyPrefix ++ y = keyPrefix ++ x := fun h => e (key_inj h)
    rw [if_neg this, g.mem]
    simp [e]

theorem g_rm {s : SetInfo.St} {mem : SetInfo.Str → Bool} (g : G s mem) (x : SetInfo.Str) (hx : Name x) :
    (rm s x).2 = .ok ∧ G (rm s x).1 (fun y => mem y && decide (y ≠ x)) := by
  have hlen : ¬ 512 ≤ (keyPrefix ++ x).length := by
    have := hx.2.2
    simp [keyPrefix]; omega
  unfold rm
  rw [if_neg hlen]
  refine ⟨rfl, ?_⟩
  obtain ⟨d1, d2⟩ := SetInfo.reachable_distinct g.reach
  have hr := SetInfo.step_rep (s := s) (m := ⟨SetInfo.find s.loc, SetInfo.find s.rem⟩) ⟨d1, d2, fun _ => rfl, fun _ => rfl⟩ (.unset (keyPrefix ++ x))
  refine ⟨reach_step g.reach (.unset _), ?_, fun y => ?_⟩
  · rw [← g.rem]
    show (SetInfo.unset s (keyPrefix ++ x)).rem = s.rem
    unfold SetInfo.unset
    split
    · rfl
    · exact SetInfo.notify_rem _
  · have := hr.2.2.1 (keyPrefix ++ y)
    show (SetInfo.find (SetInfo.step s (.unset (keyPrefix ++ x))).loc (keyPrefix ++ y)).isSome = _
    rw [this]
    simp only [SetInfo.Maps.op, SetInfo.upd]
    by_cases e : y = x
    · subst e; simp
    · have : ¬ keyPrefix ++ y = keyPrefix ++ x := fun h => e (key_inj h)
      rw [if_neg this, g.mem]
      simp [e]

theorem g_each_add : ∀ (xs : List SetInfo.Str) {s : SetInfo.St} {mem : SetInfo.Str → Bool}, G s mem → (∀ x ∈ xs, Name x) →
    (each add s xs).2 = .ok ∧ G (each add s xs).1 (fun y => mem y || decide (y ∈ xs))
  | [], s, mem, g, _ => ⟨rfl, by simpa [each] using g⟩
  | x :: xs, s, mem, g, h => by
    obtain ⟨h1, g1⟩ := g_add g x (h x (List.mem_cons_self ..))
    obtain ⟨h2, g2⟩ := g_each_add xs g1 (fun y hy => h y (List.mem_cons_of_mem _ hy))
    have e : each add s (x :: xs) = each add (add s x).1 xs := by
      unfold each
      cases hr : add s x with
      | mk s' r => rw [hr] at h1; simp only at h1; subst h1; cases xs <;> rfl
    rw [e]
    refine ⟨h2, ?_⟩
    have : (fun y => (mem y || decide (y = x)) || decide (y ∈ xs)) = fun y => mem y || decide (y ∈ x :: xs) := by
      funext y; rw [Bool.or_assoc]; congr 1; simp
    rw [← this]; exact g2

theorem g_each_rm : ∀ (xs : List SetInfo.Str) {s : SetInfo.St} {mem : SetInfo.Str → Bool}, G s mem → (∀ x ∈ xs, Name x) →
    (each rm s xs).2 = .ok ∧ G (each rm s xs).1 (fun y => mem y && decide (y ∉ xs))
  | [], s, mem, g, _ => ⟨rfl, by simpa [each] using g⟩
  | x :: xs, s, mem, g, h => by
    obtain ⟨h1, g1⟩ := g_rm g x (h x (List.mem_cons_self ..))
    obtain ⟨h2, g2⟩ := g_each_rm xs g1 (fun y hy => h y (List.mem_cons_of_mem _ hy))
    have e : each rm s (x :: xs) = each rm (rm s x).1 xs := by
      unfold each
      cases hr : rm s x with
      | mk s' r => rw [hr] at h1; simp only at h1; subst h1; cases xs <;> rfl
    rw [e]
    refine ⟨h2, ?_⟩
    have : (fun y => (mem y && decide (y ≠ x)) && decide (y ∉ xs)) = fun y => mem y && decide (y ∉ x :: xs) := by
      funext y; rw [Bool.and_assoc]; congr 1; simp
    rw [← this]; exact g2

theorem g_requests : ∀ (rs : List Req) {s : SetInfo.St} {mem : SetInfo.Str → Bool}, G s mem → (∀ r ∈ rs, ∀ x ∈ r.names, Name x) →
    ∃ s', requests s rs = some s' ∧ G s' (fun y => isMember y (mem y) rs)
  | [], s, mem, g, _ => ⟨s, rfl, g⟩
  | .ins xs :: rs, s, mem, g, h => by
    have hn := h _ (List.mem_cons_self ..)
    obtain ⟨h1, g1⟩ := g_each_add xs g hn
    obtain ⟨s', h2, g2⟩ := g_requests rs g1 (fun r hr => h r (List.mem_cons_of_mem _ hr))
    refine ⟨s', ?_, g2⟩
    unfold requests ins
    simp only [Option.map_some, tokens_text xs hn]
    cases hr : each add s xs with
    | mk s1 r => rw [hr] at h1 h2; simp only at h1; subst h1; exact h2
  | .rm xs :: rs, s, mem, g, h => by
    have hn := h _ (List.mem_cons_self ..)
    obtain ⟨h1, g1⟩ := g_each_rm xs g hn
    obtain ⟨s', h2, g2⟩ := g_requests rs g1 (fun r hr => h r (List.mem_cons_of_mem _ hr))
    refine ⟨s', ?_, g2⟩
    unfold requests del
    simp only [Option.map_some, tokens_text xs hn]
    cases hr : each rm s xs with
    | mk s1 r => rw [hr] at h1 h2; simp only at h1; subst h1; exact h2

/-! ## Updates -/

theorem mod_n (w : W) (k : Nat) (f : P → P) : (w.mod k f).n = w.n := rfl
theorem mod_same (w : W) (k : Nat) (f : P → P) : (w.mod k f).p k = f (w.p k) := by simp [W.mod]
theorem mod_other (w : W) {k j : Nat} (f : P → P) (h : j ≠ k) : (w.mod k f).p j = w.p j := by simp [W.mod, h]

/-- What an update never does. -/
structure Rel (w w' : W) : Prop where
  n : w'.n = w.n
  mem : ∀ j, (w'.p j).mem = (w.p j).mem
  found : ∀ j, (w'.p j).found = (w.p j).found
  st : ∀ j, (w.p j).st ≠ .ready → (w'.p j).st = (w.p j).st
  one : ∀ j, (w'.p j).upd = (w.p j).upd ∨
    ((w'.p j).upd = (w.p j).upd + 1 ∧ (w.p j).st = .ready ∧ (w'.p j).st = .updating ∧ (w.p j).mem = none)
  two : ∀ j, (w.p j).st = .ready → (w'.p j).st = .ready ∨ (w'.p j).st = .updating

theorem Rel.refl (w : W) : Rel w w := ⟨rfl, fun _ => rfl, fun _ => rfl, fun _ _ => rfl, fun _ => .inl rfl, fun _ h => .inl h⟩

theorem Rel.trans {a b c : W} (h1 : Rel a b) (h2 : Rel b c) : Rel a c := by
  obtain ⟨n1, m1, f1, s1, o1, t1⟩ := h1
  obtain ⟨n2, m2, f2, s2, o2, t2⟩ := h2
  refine ⟨n2.trans n1, fun j => (m2 j).trans (m1 j), fun j => (f2 j).trans (f1 j), fun j hj => ?_, fun j => ?_, fun j hj => ?_⟩
  · rw [s2 j (by rw [s1 j hj]; exact hj), s1 j hj]
  · have h1 := o1 j; have h2 := o2 j; have h3 := s2 j; have h4 := m1 j; have h5 := s1 j; have h6 := t1 j; have h7 := t2 j
    grind
  · have h1 := t1 j hj; have h2 := t2 j; have h3 := s2 j
    grind

def count (w : W) : Nat := (List.range w.n).countP fun k => decide ((w.p k).st = .ready)

theorem count_mono {w w' : W} (h : Rel w w') : count w' ≤ count w := by
  unfold count
  rw [h.n]
  apply List.countP_mono_left
  intro k _ hk
  have hk : (w'.p k).st = .ready := by simpa using hk
  have : (w.p k).st = .ready := Classical.byContradiction fun hn => by rw [h.st k hn] at hk; exact hn hk
  simpa using this

theorem countP_lt {α : Type} (p q : α → Bool) : ∀ (l : List α) (k : α), (∀ x, p x = true → q x = true) → k ∈ l → p k = false → q k = true →
    l.countP p < l.countP q
  | a :: l, k, h, hk, h1, h2 => by
    have hle : l.countP p ≤ l.countP q := List.countP_mono_left (fun x _ => h x)
    rcases List.mem_cons.1 hk with e | e
    · subst e
      rw [List.countP_cons_of_neg (by rw [h1]; exact nofun), List.countP_cons_of_pos h2]
      omega
    · have := countP_lt p q l k h e h1 h2
      by_cases hp : p a = true
      · rw [List.countP_cons_of_pos hp, List.countP_cons_of_pos (h a hp)]; omega
      · rw [List.countP_cons_of_neg hp]
        by_cases hq : q a = true
        · rw [List.countP_cons_of_pos hq]; omega
        · rw [List.countP_cons_of_neg hq]; exact this
  | [], k, _, hk, _, _ => by simp at hk

theorem count_begin {w : W} {k : Nat} (hk : k < w.n) (hr : (w.p k).st = .ready) :
    count (w.mod k fun p => { p with st := .updating, refs := p.refs + 1 }) < count w := by
  unfold count
  refine countP_lt _ _ _ k ?_ (List.mem_range.2 hk) (by simp [mod_same]) (by simp [hr])
  intro x hx
  by_cases e : x = k
  · subst e; simp [mod_same] at hx
  · simp only [mod_other _ _ e] at hx; exact hx

/-- One call, and the loop over members, with any environment. -/
theorem members_rel (e : Env) (f : W → Nat → Res) (bound : Nat)
    (hf : ∀ w m, m < w.n → (w.p m).st = .ready → count w ≤ bound → f w m ≠ .more ∧ ∀ w' rc, f w m = .done w' rc → Rel w w') :
    ∀ (ms : List Nat) (w : W), count w ≤ bound → members e f w ms ≠ .more ∧ ∀ w' rc, members e f w ms = .done w' rc → Rel w w'
  | [], w, _ => ⟨nofun, fun w' rc h => by cases h; exact Rel.refl w⟩
  | m :: ms, w, hc => by
    unfold members
    split
    · rename_i hm
      split
      · rename_i hs
        split
        · have hrel : Rel w (w.mod m fun p => { p with look := p.look + 1 }) := by
            refine ⟨rfl, fun j => ?_, fun j => ?_, fun j hj => ?_, fun j => ?_, fun j hj => ?_⟩ <;>
              by_cases e : j = m <;> simp_all [W.mod]
          obtain ⟨h1, h2⟩ := members_rel e f bound hf ms _ (Nat.le_trans (count_mono hrel) hc)
          exact ⟨h1, fun w' rc h => hrel.trans (h2 w' rc h)⟩
        · exact ⟨nofun, fun w' rc h => by cases h; exact Rel.refl w⟩
      · split
        · rename_i hr
          obtain ⟨h1, h2⟩ := hf w m hm hr hc
          split
          · rename_i w2 he
            have hrel := h2 w2 0 he
            obtain ⟨h3, h4⟩ := members_rel e f bound hf ms w2 (Nat.le_trans (count_mono hrel) hc)
            exact ⟨h3, fun w' rc h => hrel.trans (h4 w' rc h)⟩
          · exact ⟨h1, h2⟩
        · exact members_rel e f bound hf ms w hc
    · exact members_rel e f bound hf ms w hc

theorem sched_rel (e : Env) : ∀ (fuel : Nat) (w : W) (k : Nat), k < w.n → (w.p k).st = .ready → count w ≤ fuel →
    sched e fuel w k ≠ .more ∧ ∀ w' rc, sched e fuel w k = .done w' rc → Rel w w'
  | 0, w, k, hk, hr, hc => by
    have := count_begin hk hr
    omega
  | fuel + 1, w, k, hk, hr, hc => by
    unfold sched
    split
    · exact ⟨nofun, nofun⟩
    · have hc1 := count_begin hk hr
      simp only
      split
      · rename_i ms hms
        obtain ⟨h1, h2⟩ := members_rel e (sched e fuel) fuel (fun w m => sched_rel e fuel w m) ms.reverse
          (w.mod k fun p => { p with st := .updating, refs := p.refs + 1 }) (by omega)
        split
        · rename_i w2 he
          refine ⟨nofun, fun w' rc h => ?_⟩
          cases h
          obtain ⟨n1, m1, f1, s1, o1, t1⟩ := h2 w2 0 he
          refine ⟨n1, fun j => ?_, fun j => ?_, fun j hj => ?_, fun j => ?_, fun j hj => ?_⟩ <;>
            have a1 := m1 j <;> have a2 := f1 j <;> have a3 := s1 j <;> have a4 := o1 j <;> have a5 := t1 j <;>
            by_cases e : j = k <;> simp_all [W.mod] <;> grind
        · rename_i w2 rc hne he
          refine ⟨nofun, fun w' rc h => ?_⟩
          cases h
          obtain ⟨n1, m1, f1, s1, o1, t1⟩ := h2 w2 rc he
          refine ⟨n1, fun j => ?_, fun j => ?_, fun j hj => ?_, fun j => ?_, fun j hj => ?_⟩ <;>
            have a1 := m1 j <;> have a2 := f1 j <;> have a3 := s1 j <;> have a4 := o1 j <;> have a5 := t1 j <;>
            by_cases e : j = k <;> simp_all [W.mod] <;> grind
        · rename_i r hr1 hr2
          refine ⟨h1, fun w' rc h => ?_⟩
          cases rc with
          | zero => exact absurd h (hr1 w')
          | succ rc => exact absurd h (hr2 w' (rc + 1))
      · rename_i hms
        split
        · refine ⟨nofun, fun w' rc h => ?_⟩
          cases h
          refine ⟨rfl, fun j => ?_, fun j => ?_, fun j hj => ?_, fun j => ?_, fun j hj => ?_⟩ <;>
            by_cases e : j = k <;> simp_all [W.mod]
        · refine ⟨nofun, fun w' rc h => ?_⟩
          cases h
          refine ⟨rfl, fun j => ?_, fun j => ?_, fun j hj => ?_, fun j => ?_, fun j hj => ?_⟩ <;>
            by_cases e : j = k <;> simp_all [W.mod]

theorem count_le_n (w : W) : count w ≤ w.n := by
  have := List.countP_le_length (l := List.range w.n) (p := fun k => decide ((w.p k).st = .ready))
  simpa [count] using this

/-! ## Which sets are updated -/

/-- What happens to a set that is no group and is ready: updated, or not. -/
def updated (p : P) : P := { p with st := .updating, refs := p.refs + 1, upd := p.upd + 1 }

/-- All members are visited; `V j`: the set belongs to what was visited. -/
structure Post (w w' : W) (V : Nat → Prop) : Prop where
  n : w'.n = w.n
  yes : ∀ j, (w.p j).mem = none → (w.p j).st = .ready → V j → w'.p j = updated (w.p j)
  no : ∀ j, (w.p j).mem = none → (w.p j).st = .ready → ¬ V j → w'.p j = w.p j
  group : ∀ j, (w.p j).mem ≠ none → (w.p j).st ≠ .start → ∃ r, (w.p j).refs ≤ r ∧ w'.p j = { w.p j with refs := r }
  other : ∀ j, (w.p j).st ≠ .ready → ((w.p j).mem = none ∨ (w.p j).st = .start) →
    ∃ l, (w.p j).look ≤ l ∧ w'.p j = { w.p j with look := l } ∧ ((w.p j).st ≠ .start → l = (w.p j).look)

theorem Post.alive {w w' : W} {V : Nat → Prop} (h : Post w w' V) (ha : Alive w) : Alive w' := by
  intro k hk
  have := ha k (by rw [← h.n]; exact hk)
  by_cases hs : (w.p k).st = .start
  · obtain ⟨l, _, e, _⟩ := h.other k (by rw [hs]; exact nofun) (.inr hs)
    rw [e]; exact this
  · cases hm : (w.p k).mem with
    | some ms =>
      obtain ⟨r, h1, h2⟩ := h.group k (by rw [hm]; exact nofun) hs
      rw [h2]; exact Nat.lt_of_lt_of_le this h1
    | none =>
      by_cases hr : (w.p k).st = .ready
      · by_cases hv : V k
        · rw [h.yes k hm hr hv]; exact Nat.succ_pos _
        · rw [h.no k hm hr hv]; exact this
      · obtain ⟨l, _, e, _⟩ := h.other k hr (.inl hm)
        rw [e]; exact this

theorem Post.refl (w : W) : Post w w (fun _ => False) :=
  ⟨rfl, fun _ _ _ h => h.elim, fun _ _ _ _ => rfl, fun _ _ _ => ⟨_, Nat.le_refl _, rfl⟩, fun _ _ _ => ⟨_, Nat.le_refl _, rfl, fun _ => rfl⟩⟩

/-- mem and st after a visit. -/
theorem Post.keep {w w' : W} {V : Nat → Prop} (h : Post w w' V) (j : Nat) :
    (w'.p j).mem = (w.p j).mem ∧ ((w.p j).st ≠ .ready ∨ (w.p j).mem ≠ none → (w'.p j).st = (w.p j).st) := by
  by_cases hs : (w.p j).st = .start
  · obtain ⟨l, _, e, _⟩ := h.other j (by rw [hs]; exact nofun) (.inr hs)
    rw [e]; exact ⟨rfl, fun _ => rfl⟩
  · cases hm : (w.p j).mem with
    | some ms =>
      obtain ⟨r, h1, h2⟩ := h.group j (by rw [hm]; exact nofun) hs
      rw [h2]; exact ⟨hm, fun _ => rfl⟩
    | none =>
      by_cases hr : (w.p j).st = .ready
      · by_cases hv : V j
        · rw [h.yes j hm hr hv]; exact ⟨hm, fun hh => by simp [hr] at hh⟩
        · rw [h.no j hm hr hv]; exact ⟨hm, fun _ => rfl⟩
      · obtain ⟨l, _, e, _⟩ := h.other j hr (.inl hm)
        rw [e]; exact ⟨hm, fun _ => rfl⟩

theorem Post.trans {a b c : W} {U V : Nat → Prop} (h1 : Post a b U) (h2 : Post b c V) : Post a c (fun j => U j ∨ V j) := by
  refine ⟨h2.n.trans h1.n, fun j hm hr hv => ?_, fun j hm hr hv => ?_, fun j hm hs => ?_, fun j hr ho => ?_⟩
  · by_cases hu : U j
    · have e1 := h1.yes j hm hr hu
      obtain ⟨l, hl, e2, hk⟩ := h2.other j (by rw [e1]; exact nofun) (.inl (by rw [e1]; exact hm))
      have : l = (b.p j).look := hk (by rw [e1]; exact nofun)
      rw [e2, this, e1]
    · have e1 := h1.no j hm hr hu
      have hv : V j := hv.resolve_left hu
      rw [h2.yes j (by rw [e1]; exact hm) (by rw [e1]; exact hr) hv, e1]
  · have e1 := h1.no j hm hr (fun h => hv (.inl h))
    rw [h2.no j (by rw [e1]; exact hm) (by rw [e1]; exact hr) (fun h => hv (.inr h)), e1]
  · obtain ⟨r, hr, e1⟩ := h1.group j hm hs
    obtain ⟨r2, hr2, e2⟩ := h2.group j (by rw [e1]; exact hm) (by rw [e1]; exact hs)
    rw [e1] at hr2 e2
    exact ⟨r2, Nat.le_trans hr hr2, e2⟩
  · obtain ⟨l, hl, e1, k1⟩ := h1.other j hr ho
    obtain ⟨l2, hl2, e2, k2⟩ := h2.other j (by rw [e1]; exact hr) (by rw [e1]; exact ho)
    rw [e1] at hl2 e2 k2
    exact ⟨l2, Nat.le_trans hl hl2, e2, fun hs => by rw [k2 hs]; exact k1 hs⟩

theorem Post.congr {w w' : W} {U V : Nat → Prop} (h : Post w w' U)
    (he : ∀ j, (w.p j).mem = none → (w.p j).st = .ready → (U j ↔ V j)) : Post w w' V :=
  ⟨h.n, fun j hm hr hv => h.yes j hm hr ((he j hm hr).2 hv), fun j hm hr hv => h.no j hm hr (fun hu => hv ((he j hm hr).1 hu)), h.group, h.other⟩

/-- A path is there after a visit, as long as its end is ready. -/
theorem in_after {w w' : W} {V : Nat → Prop} (h : Post w w' V) {a j : Nat} (hj : (w'.p j).st = .ready) : In w a j ↔ In w' a j := by
  constructor
  · intro hi
    induction hi with
    | self k => exact .self k
    | @member k m l ms h1 h2 h3 h4 h5 ih =>
      have ih := ih hj
      refine .member (by rw [(h.keep k).1]; exact h1) h2 (by rw [h.n]; exact h3) ?_ ih
      cases h5 with
      | self => exact hj
      | member g1 _ _ _ _ => rw [(h.keep m).2 (.inr (by rw [g1]; exact nofun))]; exact h4
  · intro hi
    induction hi with
    | self k => exact .self k
    | @member k m l ms h1 h2 h3 h4 h5 ih =>
      refine .member (by rw [← (h.keep k).1]; exact h1) h2 (by rw [← h.n]; exact h3) ?_ (ih hj)
      exact Classical.byContradiction fun hn => by rw [(h.keep m).2 (.inl hn)] at h4; exact hn h4

/-- Paths from a set that is being updated do not lead through it again. -/
theorem in_avoid {w : W} {k a j : Nat} {ms : List Nat} (hk : (w.p k).mem = some ms) (hi : In w a j) :
    let w1 := w.mod k fun p => { p with st := .updating, refs := p.refs + 1 }
    j = k ∨ In w1 a j ∨ ∃ m ∈ ms, m < w.n ∧ (w1.p m).st = .ready ∧ In w1 m j := by
  intro w1
  induction hi with
  | self a => exact .inr (.inl (.self a))
  | @member a m l ms' h1 h2 h3 h4 _ ih =>
    rcases ih with h | h | h
    · exact .inl h
    · by_cases e : m = k
      · subst e
        cases h with
        | self => exact .inl rfl
        | @member _ m2 _ ms2 g1 g2 g3 g4 g5 =>
          have : (w1.p m).mem = (w.p m).mem := by show ((w.mod m _).p m).mem = _; rw [mod_same]
          rw [this, hk] at g1
          have := Option.some.inj g1
          exact .inr (.inr ⟨m2, this ▸ g2, g3, g4, g5⟩)
      · refine .inr (.inl (.member ?_ h2 h3 ?_ h))
        · show ((w.mod k _).p a).mem = _
          by_cases ea : a = k
          · subst ea; rw [mod_same]; exact h1
          · rw [mod_other _ _ ea]; exact h1
        · show ((w.mod k _).p m).st = _
          rw [mod_other _ _ e]; exact h4
    · exact .inr (.inr h)

theorem in_begin {w : W} {k a j : Nat}
    (hi : In (w.mod k fun p => { p with st := .updating, refs := p.refs + 1 }) a j) : In w a j := by
  induction hi with
  | self a => exact .self a
  | @member a m l ms h1 h2 h3 h4 _ ih =>
    refine .member ?_ h2 h3 ?_ ih
    · by_cases ea : a = k
      · subst ea; rw [mod_same] at h1; exact h1
      · rw [mod_other _ _ ea] at h1; exact h1
    · by_cases em : m = k
      · subst em; rw [mod_same] at h4; exact nomatch h4
      · rw [mod_other _ _ em] at h4; exact h4

theorem in_leaf {w : W} {k j : Nat} (h : (w.p k).mem = none) (hi : In w k j) : j = k := by
  cases hi with
  | self => rfl
  | member h1 _ _ _ _ => rw [h] at h1; exact nomatch h1

theorem members_post (f : W → Nat → Res)
    (hf : ∀ w m, m < w.n → (w.p m).st = .ready → Alive w → f w m ≠ .crash ∧ ∀ w' rc, f w m = .done w' rc → rc = 0 ∧ Post w w' (In w m)) :
    ∀ (ms : List Nat) (w : W), Alive w → members .fine f w ms ≠ .crash ∧
      ∀ w' rc, members .fine f w ms = .done w' rc → rc = 0 ∧ Post w w' (fun j => ∃ m ∈ ms, m < w.n ∧ (w.p m).st = .ready ∧ In w m j)
  | [], w, _ => ⟨nofun, fun w' rc h => by
      cases h; exact ⟨rfl, (Post.refl w).congr fun j _ _ => ⟨False.elim, fun ⟨m, hm, _⟩ => nomatch hm⟩⟩⟩
  | m :: ms, w, ha => by
    have skip : ¬ (m < w.n ∧ (w.p m).st = .ready) → members .fine f w ms ≠ .crash ∧
        ∀ w' rc, members .fine f w ms = .done w' rc → rc = 0 ∧ Post w w' (fun j => ∃ i ∈ m :: ms, i < w.n ∧ (w.p i).st = .ready ∧ In w i j) := by
      intro hn
      obtain ⟨h1, h2⟩ := members_post f hf ms w ha
      refine ⟨h1, fun w' rc h => ⟨(h2 w' rc h).1, (h2 w' rc h).2.congr fun j _ _ => ?_⟩⟩
      constructor
      · rintro ⟨i, hi, hh⟩; exact ⟨i, List.mem_cons_of_mem _ hi, hh⟩
      · rintro ⟨i, hi, h3, h4, h5⟩
        rcases List.mem_cons.1 hi with e | e
        · subst e; exact absurd ⟨h3, h4⟩ hn
        · exact ⟨i, e, h3, h4, h5⟩
    unfold members
    split
    · rename_i hm
      split
      · rename_i hs
        rw [if_pos (show Env.fine.look m = 0 from rfl)]
        have hp : Post w (w.mod m fun p => { p with look := p.look + 1 }) (fun _ => False) := by
          refine ⟨rfl, fun _ _ _ h => h.elim, fun j _ hr _ => ?_, fun j hg hne => ?_, fun j hr ho => ?_⟩
          · have : j ≠ m := fun e => by rw [e, hs] at hr; exact nomatch hr
            rw [mod_other _ _ this]
          · have : j ≠ m := fun e => hne (by rw [e]; exact hs)
            rw [mod_other _ _ this]
            exact ⟨_, Nat.le_refl _, rfl⟩
          · by_cases e : j = m
            · subst e
              rw [mod_same]
              exact ⟨_, Nat.le_succ _, rfl, fun h => absurd hs h⟩
            · rw [mod_other _ _ e]
              exact ⟨_, Nat.le_refl _, rfl, fun _ => rfl⟩
        obtain ⟨h1, h2⟩ := members_post f hf ms _ (hp.alive ha)
        refine ⟨h1, fun w' rc h => ⟨(h2 w' rc h).1, (hp.trans (h2 w' rc h).2).congr fun j hj1 hj2 => ?_⟩⟩
        have hst : ∀ i, ((w.mod m fun p => { p with look := p.look + 1 }).p i).st = (w.p i).st := by
          intro i; by_cases e : i = m
          · subst e; rw [mod_same]
          · rw [mod_other _ _ e]
        constructor
        · rintro (h | ⟨i, hi, h3, h4, h5⟩)
          · exact h.elim
          · exact ⟨i, List.mem_cons_of_mem _ hi, h3, by rw [← hst i]; exact h4, (in_after hp (by rw [hst]; exact hj2)).2 h5⟩
        · rintro ⟨i, hi, h3, h4, h5⟩
          rcases List.mem_cons.1 hi with e | e
          · subst e; rw [hs] at h4; exact nomatch h4
          · exact .inr ⟨i, e, h3, by rw [hst]; exact h4, (in_after hp (by rw [hst]; exact hj2)).1 h5⟩
      · split
        · rename_i hr
          obtain ⟨h1, h2⟩ := hf w m hm hr ha
          split
          · rename_i w2 he
            obtain ⟨_, hp⟩ := h2 w2 0 he
            obtain ⟨h3, h4⟩ := members_post f hf ms w2 (hp.alive ha)
            refine ⟨h3, fun w' rc h => ⟨(h4 w' rc h).1, (hp.trans (h4 w' rc h).2).congr fun j hj1 hj2 => ?_⟩⟩
            have back : ∀ i, (w2.p i).st = .ready → (w.p i).st = .ready := fun i hi =>
              Classical.byContradiction fun hn => by rw [(hp.keep i).2 (.inl hn)] at hi; exact hn hi
            by_cases hV : In w m j
            · constructor
              · intro _; exact ⟨m, List.mem_cons_self .., hm, hr, hV⟩
              · intro _; exact .inl hV
            · have hj3 : (w2.p j).st = .ready := by rw [hp.no j hj1 hj2 hV]; exact hj2
              constructor
              · rintro (h | ⟨i, hi, g1, g2, g3⟩)
                · exact absurd h hV
                · exact ⟨i, List.mem_cons_of_mem _ hi, by rw [← hp.n]; exact g1, back i g2, (in_after hp hj3).2 g3⟩
              · rintro ⟨i, hi, g1, g2, g3⟩
                rcases List.mem_cons.1 hi with e | e
                · subst e; exact .inl g3
                · right
                  have g3' := (in_after hp hj3).1 g3
                  refine ⟨i, e, by rw [hp.n]; exact g1, ?_, g3'⟩
                  cases g3 with
                  | self => exact hj3
                  | member q1 _ _ _ _ => rw [(hp.keep i).2 (.inr (by rw [q1]; exact nofun))]; exact g2
          · rename_i hne
            refine ⟨h1, fun w' rc h => ?_⟩
            have := (h2 w' rc h).1
            subst this
            exact absurd h (hne w')
        · rename_i hnr
          exact skip fun h => hnr h.2
    · rename_i hm
      exact skip fun h => hm h.1

theorem sched_post : ∀ (fuel : Nat) (w : W) (k : Nat), k < w.n → (w.p k).st = .ready → Alive w →
    sched .fine fuel w k ≠ .crash ∧ ∀ w' rc, sched .fine fuel w k = .done w' rc → rc = 0 ∧ Post w w' (In w k)
  | 0, w, k, _, _, _ => ⟨nofun, nofun⟩
  | fuel + 1, w, k, hk, hr, ha => by
    have h0 : ¬ (w.p k).refs = 0 := Nat.ne_of_gt (ha k hk)
    unfold sched
    rw [if_neg h0]
    simp only
    have ha1 : Alive (w.mod k fun p => { p with st := .updating, refs := p.refs + 1 }) := by
      intro j hj
      by_cases e : j = k
      · subst e; rw [mod_same]; exact Nat.succ_pos _
      · rw [mod_other _ _ e]; exact ha j hj
    split
    · rename_i ms hms
      obtain ⟨h1, h2⟩ := members_post (sched .fine fuel) (fun w m hm hr ha => sched_post fuel w m hm hr ha) ms.reverse _ ha1
      split
      · rename_i w2 he
        refine ⟨nofun, fun w' rc h => ?_⟩
        cases h
        obtain ⟨_, hp⟩ := h2 w2 0 he
        refine ⟨rfl, hp.n, fun j hj1 hj2 hV => ?_, fun j hj1 hj2 hV => ?_, fun j hj1 hj2 => ?_, fun j hj1 hj2 => ?_⟩
        · have e : j ≠ k := fun e => by rw [e, hms] at hj1; exact nomatch hj1
          rw [mod_other _ _ e]
          have eq := mod_other w (fun p => { p with st := .updating, refs := p.refs + 1 }) e
          have := hp.yes j (by rw [eq]; exact hj1) (by rw [eq]; exact hj2) ?_
          · rw [this, eq]
          · rcases in_avoid hms hV with h | h | ⟨m, hm, g1, g2, g3⟩
            · exact absurd h e
            · cases h with
              | self => exact absurd rfl e
              | member q1 q2 q3 q4 q5 =>
                rw [mod_same] at q1
                simp only at q1
                rw [hms] at q1
                have := Option.some.inj q1
                subst this
                exact ⟨_, List.mem_reverse.2 q2, q3, q4, q5⟩
            · exact ⟨m, List.mem_reverse.2 hm, g1, g2, g3⟩
        · have e : j ≠ k := fun e => by rw [e, hms] at hj1; exact nomatch hj1
          rw [mod_other _ _ e]
          have eq := mod_other w (fun p => { p with st := .updating, refs := p.refs + 1 }) e
          have := hp.no j (by rw [eq]; exact hj1) (by rw [eq]; exact hj2) ?_
          · rw [this, eq]
          · rintro ⟨m, hm, g1, g2, g3⟩
            apply hV
            refine .member hms (List.mem_reverse.1 hm) g1 ?_ (in_begin g3)
            by_cases em : m = k
            · subst em; rw [mod_same] at g2; exact nomatch g2
            · rw [mod_other _ _ em] at g2; exact g2
        · by_cases e : j = k
          · subst e
            rw [mod_same]
            obtain ⟨r, q1, q2⟩ := hp.group j (by rw [mod_same]; exact hj1) (by rw [mod_same]; exact nofun)
            rw [mod_same] at q1 q2
            refine ⟨r, by simp only at q1; omega, ?_⟩
            rw [q2]
            simp only [hr]
          · have eq := mod_other w (fun p => { p with st := .updating, refs := p.refs + 1 }) e
            rw [mod_other _ _ e]
            have := hp.group j (by rw [eq]; exact hj1) (by rw [eq]; exact hj2)
            rw [eq] at this
            exact this
        · have e : j ≠ k := fun e => hj1 (by rw [e]; exact hr)
          have eq := mod_other w (fun p => { p with st := .updating, refs := p.refs + 1 }) e
          rw [mod_other _ _ e]
          have := hp.other j (by rw [eq]; exact hj1) (by rw [eq]; exact hj2)
          rw [eq] at this
          exact this
      · rename_i w2 rc hne he
        have := (h2 w2 rc he).1
        subst this
        exact (hne rfl).elim
      · rename_i r hr1 hr2
        refine ⟨h1, fun w' rc h => ?_⟩
        have := (h2 w' rc h).1
        subst this
        exact absurd h (hr1 w')
    · rename_i hms
      rw [if_pos (show Env.fine.upd k = 0 from rfl)]
      refine ⟨nofun, fun w' rc h => ?_⟩
      cases h
      refine ⟨rfl, rfl, fun j hj1 hj2 hV => ?_, fun j hj1 hj2 hV => ?_, fun j hj1 hj2 => ?_, fun j hj1 hj2 => ?_⟩
      · have := in_leaf hms hV
        subst this
        rw [mod_same, mod_same]; rfl
      · have e : j ≠ k := fun e => hV (e ▸ .self j)
        rw [mod_other _ _ e, mod_other _ _ e]
      · have e : j ≠ k := fun e => hj1 (by rw [e]; exact hms)
        rw [mod_other _ _ e, mod_other _ _ e]
        exact ⟨_, Nat.le_refl _, rfl⟩
      · have e : j ≠ k := fun e => hj1 (by rw [e]; exact hr)
        rw [mod_other _ _ e, mod_other _ _ e]
        exact ⟨_, Nat.le_refl _, rfl, fun _ => rfl⟩

/-! ## References -/

structure Inv1 (p : P) : Prop where
  start : p.st = .start → p.found = false ∧ p.look = 0 ∧ p.upd = 0
  lookup : p.st = .lookup → p.upd = 0 ∧ p.look ≤ 1 ∧ (p.look = 1 → p.found = false)
  ready : p.st = .ready → p.look = 0 ∧ p.upd = 0 ∧ p.found = true
  updating : p.st = .updating → p.look = 0 ∧ p.upd ≤ 1 ∧ p.found = true
  deleted : p.st = .deleted → p.look = 0 ∧ p.upd = 0
  refs : 2 + p.upd + p.look ≤ p.refs

def Sys (w : W) : Prop := ∀ j, j < w.n → Inv1 (w.p j)

theorem sys_mod {w : W} (h : Sys w) (k : Nat) (f : P → P) (hf : k < w.n → Inv1 (w.p k) → Inv1 (f (w.p k))) : Sys (w.mod k f) := by
  intro j hj
  by_cases e : j = k
  · subst e; rw [mod_same]; exact hf hj (h j hj)
  · rw [mod_other _ _ e]; exact h j hj

theorem noStart_rel {w w' : W} (h : Rel w w') (hn : NoStart w) : NoStart w' := by
  intro g hg hr ms hms m hm hmn hs
  have hr' : (w.p g).st = .ready := Classical.byContradiction fun hh => by rw [h.st g hh] at hr; exact hh hr
  rw [h.n] at hg hmn
  rw [h.mem] at hms
  have := hn g hg hr' ms hms m hm hmn
  by_cases hmr : (w.p m).st = .ready
  · rcases h.two m hmr with q | q <;> rw [q] at hs <;> exact nomatch hs
  · rw [h.st m hmr] at hs; exact this hs

theorem notStart_rel {w w' : W} (h : Rel w w') {m : Nat} (hn : (w.p m).st ≠ .start) : (w'.p m).st ≠ .start := by
  intro hs
  by_cases hmr : (w.p m).st = .ready
  · rcases h.two m hmr with q | q <;> rw [q] at hs <;> exact nomatch hs
  · rw [h.st m hmr] at hs; exact hn hs

theorem members_safe (e : Env) (f : W → Nat → Res)
    (hf : ∀ w m, m < w.n → (w.p m).st = .ready → Sys w → NoStart w → f w m ≠ .crash ∧ ∀ w' rc, f w m = .done w' rc → Sys w' ∧ Rel w w' ∧ (∀ j, (w.p j).refs ≤ (w'.p j).refs)) :
    ∀ (ms : List Nat) (w : W), Sys w → NoStart w → (∀ m ∈ ms, m < w.n → (w.p m).st ≠ .start) →
      members e f w ms ≠ .crash ∧ ∀ w' rc, members e f w ms = .done w' rc → Sys w' ∧ Rel w w' ∧ (∀ j, (w.p j).refs ≤ (w'.p j).refs)
  | [], w, hs, _, _ => ⟨nofun, fun w' rc h => by cases h; exact ⟨hs, Rel.refl w, fun _ => Nat.le_refl _⟩⟩
  | m :: ms, w, hs, hn, hm => by
    have hm' : ∀ i ∈ ms, i < w.n → (w.p i).st ≠ .start := fun i hi => hm i (List.mem_cons_of_mem _ hi)
    unfold members
    split
    · rename_i hmn
      rw [if_neg (hm m (List.mem_cons_self ..) hmn)]
      split
      · rename_i hr
        obtain ⟨h1, h2⟩ := hf w m hmn hr hs hn
        split
        · rename_i w2 he
          obtain ⟨hs2, hrel, hmo⟩ := h2 w2 0 he
          obtain ⟨h3, h4⟩ := members_safe e f hf ms w2 hs2 (noStart_rel hrel hn)
            (fun i hi hin => notStart_rel hrel (hm' i hi (by rw [← hrel.n]; exact hin)))
          exact ⟨h3, fun w' rc h => ⟨(h4 w' rc h).1, hrel.trans (h4 w' rc h).2.1, fun j => Nat.le_trans (hmo j) ((h4 w' rc h).2.2 j)⟩⟩
        · exact ⟨h1, h2⟩
      · exact members_safe e f hf ms w hs hn hm'
    · exact members_safe e f hf ms w hs hn hm'

theorem sched_safe (e : Env) : ∀ (fuel : Nat) (w : W) (k : Nat), k < w.n → (w.p k).st = .ready → Sys w → NoStart w → count w ≤ fuel →
    sched e fuel w k ≠ .crash ∧ ∀ w' rc, sched e fuel w k = .done w' rc → Sys w' ∧ (∀ j, (w.p j).refs ≤ (w'.p j).refs)
  | 0, w, k, _, _, _, _, _ => ⟨nofun, nofun⟩
  | fuel + 1, w, k, hk, hr, hs, hn, hc => by
    have hi := hs k hk
    have h0 : ¬ (w.p k).refs = 0 := by have := hi.refs; omega
    unfold sched
    rw [if_neg h0]
    simp only
    have hs1 : Sys (w.mod k fun p => { p with st := .updating, refs := p.refs + 1 }) := by
      apply sys_mod hs
      intro _ hi
      obtain ⟨a, b, c, d, e, f⟩ := hi
      constructor <;> grind
    have hb1 : Rel w (w.mod k fun p => { p with st := .updating, refs := p.refs + 1 }) := by
      refine ⟨rfl, fun j => ?_, fun j => ?_, fun j hj => ?_, fun j => ?_, fun j hj => ?_⟩ <;>
        by_cases e : j = k <;> simp_all [W.mod]
    have hc1 := count_begin hk hr
    split
    · rename_i ms hms
      have key := fun (ms : List Nat) => members_safe e (fun w m => if count w ≤ fuel then sched e fuel w m else .more)
        (fun w m hm hr hs hn => by
          by_cases hcc : count w ≤ fuel
          · simp only [if_pos hcc]
            exact ⟨(sched_safe e fuel w m hm hr hs hn hcc).1, fun w' rc h =>
              ⟨((sched_safe e fuel w m hm hr hs hn hcc).2 w' rc h).1, (sched_rel e fuel w m hm hr hcc).2 w' rc h,
                ((sched_safe e fuel w m hm hr hs hn hcc).2 w' rc h).2⟩⟩
          · simp only [if_neg hcc]; exact ⟨nofun, nofun⟩) ms
      have same : ∀ (l : List Nat) (w : W), count w ≤ fuel →
          members e (fun w m => if count w ≤ fuel then sched e fuel w m else .more) w l = members e (sched e fuel) w l := by
        intro l
        induction l with
        | nil => intro w _; rfl
        | cons m l ih =>
          intro w hcw
          unfold members
          simp only [if_pos hcw]
          split
          · rename_i hmn
            split
            · split
              · apply ih
                have : count (w.mod m fun p => { p with look := p.look + 1 }) = count w := by
                  unfold count
                  congr 1
                  funext x
                  by_cases ex : x = m
                  · subst ex; simp [mod_same]
                  · rw [mod_other _ _ ex]
                omega
              · rfl
            · split
              · rename_i hmr
                split
                · rename_i w2 he
                  exact ih w2 (Nat.le_trans (count_mono ((sched_rel e fuel w m hmn hmr hcw).2 w2 0 he)) hcw)
                · rfl
              · exact ih w hcw
          · exact ih w hcw
      obtain ⟨h1, h2⟩ := key ms.reverse (w.mod k fun p => { p with st := .updating, refs := p.refs + 1 }) hs1 (noStart_rel hb1 hn)
        (fun m hm hmn => notStart_rel hb1 (hn k hk hr ms hms m (List.mem_reverse.1 hm) hmn))
      rw [same _ _ (by omega)] at h1 h2
      split
      · rename_i w2 he
        refine ⟨nofun, fun w' rc h => ?_⟩
        cases h
        obtain ⟨hs2, hrel, hmo⟩ := h2 w2 0 he
        refine ⟨?_, fun j => ?_⟩
        rotate_left
        · have := hmo j
          by_cases ej : j = k
          · subst ej; rw [mod_same] at *; simp only at *; omega
          · rw [mod_other _ _ ej] at *; exact this
        apply sys_mod hs2
        intro _ hi2
        have q3 := hmo k
        rw [mod_same] at q3
        simp only at q3
        have q1 := hrel.st k (by rw [mod_same]; exact nofun)
        have q2 := hrel.one k
        rw [mod_same] at q1 q2
        obtain ⟨a, b, c, d, e, f⟩ := hi2
        have := hi.ready hr
        constructor <;> grind
      · rename_i w2 rc hne he
        refine ⟨nofun, fun w' rc h => ?_⟩
        cases h
        obtain ⟨hs2, hrel, hmo⟩ := h2 w2 rc he
        refine ⟨?_, fun j => ?_⟩
        rotate_left
        · have := hmo j
          by_cases ej : j = k
          · subst ej; rw [mod_same] at *; simp only at *; omega
          · rw [mod_other _ _ ej] at *; exact this
        apply sys_mod hs2
        intro _ hi2
        have q3 := hmo k
        rw [mod_same] at q3
        simp only at q3
        have q1 := hrel.st k (by rw [mod_same]; exact nofun)
        have q2 := hrel.one k
        rw [mod_same] at q1 q2
        obtain ⟨a, b, c, d, e, f⟩ := hi2
        have := hi.ready hr
        have := hi.refs
        constructor <;> grind
      · rename_i r hr1 hr2
        refine ⟨h1, fun w' rc h => ?_⟩
        cases rc with
        | zero => exact absurd h (hr1 w')
        | succ rc => exact absurd h (hr2 w' (rc + 1))
    · rename_i hms
      split
      · refine ⟨nofun, fun w' rc h => ?_⟩
        cases h
        refine ⟨?_, fun j => ?_⟩
        rotate_left
        · by_cases ej : j = k
          · subst ej; rw [mod_same, mod_same]; simp
          · rw [mod_other _ _ ej, mod_other _ _ ej]; exact Nat.le_refl _
        intro j hj
        by_cases ej : j = k
        · subst ej
          rw [mod_same, mod_same]
          obtain ⟨a, b, c, d, e, f⟩ := hi
          constructor <;> grind
        · rw [mod_other _ _ ej, mod_other _ _ ej]; exact hs j hj
      · refine ⟨nofun, fun w' rc h => ?_⟩
        cases h
        refine ⟨?_, fun j => ?_⟩
        rotate_left
        · by_cases ej : j = k
          · subst ej; rw [mod_same, mod_same]; simp
          · rw [mod_other _ _ ej, mod_other _ _ ej]; exact Nat.le_refl _
        intro j hj
        by_cases ej : j = k
        · subst ej
          rw [mod_same, mod_same]
          obtain ⟨a, b, c, d, e, f⟩ := hi
          constructor <;> grind
        · rw [mod_other _ _ ej, mod_other _ _ ej]; exact hs j hj

theorem sys_put {w : W} {k : Nat} (hs : ∀ j, j < w.n → j ≠ k → Inv1 (w.p j)) (hk : Inv1 { w.p k with refs := (w.p k).refs - 1 }) (h0 : 0 < (w.p k).refs) :
    ∃ w', put w k = some w' ∧ Sys w' := by
  refine ⟨_, by unfold put; rw [if_neg (by omega)], fun j hj => ?_⟩
  by_cases ej : j = k
  · subst ej; rw [mod_same]; exact hk
  · rw [mod_other _ _ ej]; exact hs j hj ej

theorem lookups_safe (e : Env) : ∀ (ms : List Nat) (w : W), Sys w →
    ∃ w' rc, memberLookups e w ms = some (w', rc) ∧ Sys w' ∧ w'.n = w.n ∧ ∀ j, (w.p j).st ≠ .start → w'.p j = w.p j
  | [], w, h => ⟨w, 0, rfl, h, rfl, fun _ _ => rfl⟩
  | m :: ms, w, h => by
    unfold memberLookups
    split
    · rename_i hm
      have hi := h m hm.1
      rw [if_neg (by have := hi.refs; omega)]
      split
      · have hs1 : Sys (w.mod m fun p => { p with st := .lookup, refs := p.refs + 1, look := p.look + 1 }) := by
          apply sys_mod h
          intro _ hi
          have hst := hm.2
          obtain ⟨a, b, c, d, e, f⟩ := hi
          constructor <;> grind
        obtain ⟨w', rc, h1, h2, h3, h4⟩ := lookups_safe e ms _ hs1
        refine ⟨w', rc, h1, h2, h3, fun j hj => ?_⟩
        have hne : j ≠ m := by rintro rfl; exact hj hm.2
        have := h4 j (by rw [mod_other _ _ hne]; exact hj)
        rw [this, mod_other _ _ hne]
      · exact ⟨w, _, rfl, h, rfl, fun _ _ => rfl⟩
    · exact lookups_safe e ms w h

theorem step_safe (w : W) (e : Env) (v : Ev) (h : Sys w) (hl : Legal w v) : ∃ w', step w e v = some w' ∧ Sys w' := by
  cases v with
  | visit k =>
    obtain ⟨hk, hn⟩ := hl
    have hi := h k hk
    simp only [step, visitSet]
    cases hst : (w.p k).st with
    | ready =>
      simp only
      have hc := Nat.le_succ_of_le (count_le_n w)
      have h1 := sched_safe e (w.n + 1) w k hk hst h hn hc
      have h2 := sched_rel e (w.n + 1) w k hk hst hc
      unfold update
      cases hu : sched e (w.n + 1) w k with
      | crash => exact absurd hu h1.1
      | more => exact absurd hu h2.1
      | done w' rc => exact ⟨w', rfl, (h1.2 w' rc hu).1⟩
    | start =>
      simp only
      have q := hi.start hst
      have q2 := hi.refs
      rw [if_neg (by rw [q.1]; simp; omega)]
      split
      · refine ⟨_, rfl, sys_mod h k _ fun _ hi => ?_⟩
        obtain ⟨a, b, c, d, e, f⟩ := hi
        constructor <;> grind
      · exact ⟨w, rfl, h⟩
    | lookup => exact ⟨w, rfl, h⟩
    | updating => exact ⟨w, rfl, h⟩
    | deleted => exact ⟨w, rfl, h⟩
  | updated k ok =>
    obtain ⟨hk, hu⟩ := hl
    have hi := h k hk
    simp only [step, updateCb]
    cases ok with
    | true =>
      simp only [if_true]
      apply sys_put
      · intro j hj hne
        rw [mod_other _ _ hne, mod_other _ _ hne]; exact h j hj
      · rw [mod_same, mod_same]
        obtain ⟨a, b, c, d, e, f⟩ := hi
        cases hst : (w.p k).st <;> constructor <;> grind
      · rw [mod_same, mod_same]; have := hi.refs; simp only; omega
    | false =>
      simp only [Bool.false_eq_true, if_false]
      apply sys_put
      · intro j hj hne
        rw [mod_other _ _ hne]; exact h j hj
      · rw [mod_same]
        obtain ⟨a, b, c, d, e, f⟩ := hi
        cases hst : (w.p k).st <;> constructor <;> grind
      · rw [mod_same]; have := hi.refs; simp only; omega
  | looked k ok =>
    obtain ⟨hk, hu⟩ := hl
    have hi := h k hk
    have hst : (w.p k).st = .lookup := by
      obtain ⟨a, b, c, d, e, f⟩ := hi
      cases hst : (w.p k).st <;> grind
    obtain ⟨q1, q2, q3⟩ := hi.lookup hst
    have q4 : (w.p k).look = 1 := by omega
    have q5 := q3 q4
    have q6 := hi.refs
    simp only [step, lookupCb]
    cases ok with
    | false =>
      simp only [Bool.false_eq_true, if_false]
      apply sys_put
      · intro j hj hne
        rw [mod_other _ _ hne, mod_other _ _ hne]; exact h j hj
      · rw [mod_same, mod_same]
        constructor <;> grind
      · rw [mod_same, mod_same]; simp only; omega
    | true =>
      simp only [if_true, mod_same, q5, Bool.false_eq_true, if_false]
      have hs1 : Sys ((w.mod k fun p => { p with look := p.look - 1 }).mod k fun p => { p with found := true }) := by
        intro j hj
        by_cases ej : j = k
        · subst ej; rw [mod_same, mod_same]
          constructor <;> grind
        · rw [mod_other _ _ ej, mod_other _ _ ej]; exact h j hj
      cases hm : (w.p k).mem with
      | none =>
        simp only
        apply sys_put
        · intro j hj hne
          rw [mod_other _ _ hne]; exact hs1 j hj
        · simp only [mod_same]
          constructor <;> grind
        · simp only [mod_same]; omega
      | some ms =>
        simp only
        obtain ⟨w', rc, h1, h2, h3, h4⟩ := lookups_safe e ms.reverse _ hs1
        have h5 := h4 k (by simp only [mod_same, hst]; exact nofun)
        simp only [mod_same] at h5
        rw [h1]
        cases rc with
        | zero =>
          simp only
          apply sys_put
          · intro j hj hne
            rw [mod_other _ _ hne]; exact h2 j hj
          · rw [mod_same, h5]
            constructor <;> grind
          · rw [mod_same, h5]; simp only; omega
        | succ rc =>
          simp only
          apply sys_put
          · intro j hj hne
            exact h2 j hj
          · rw [h5]
            constructor <;> grind
          · rw [h5]; simp only; omega

theorem sys_fresh (n : Nat) (mem : Nat → Option (List Nat)) : Sys (fresh n mem) := by
  intro j _
  constructor <;> simp [fresh]

theorem run_safe {w : W} {es : List (Env × Ev)} {r : Option W} (h : Run w es r) (hs : Sys w) : ∃ w', r = some w' ∧ Sys w' := by
  induction h with
  | nil w => exact ⟨w, rfl, hs⟩
  | crash hl hc =>
    obtain ⟨w', e, _⟩ := step_safe _ _ _ hs hl
    rw [hc] at e; exact nomatch e
  | cons hl hc _ ih =>
    obtain ⟨w', e, h'⟩ := step_safe _ _ _ hs hl
    rw [hc] at e; cases e
    exact ih h'

end Verif.SetGroup
