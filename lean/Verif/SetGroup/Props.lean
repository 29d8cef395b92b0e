import Verif.SetGroup.Proofs

/-! # C75: set groups, their members and their update -/

namespace Verif.SetGroup

/-! ## Members -/

/-- **C75**: after any requests that put names in and take names out, every request is accepted and the members are the names
that were put in and not taken out later, each once. -/
theorem group_members (rs : List Req) (h : ∀ r ∈ rs, ∀ x ∈ r.names, Name x) (pub : Bool) :
    ∃ s, requests ⟨[], [], pub, 0⟩ rs = some s ∧ (∀ x, x ∈ visit s ↔ isMember x false rs = true) ∧ (visit s).Nodup := by
  have g0 : G ⟨[], [], pub, 0⟩ (fun _ => false) := ⟨⟨[], pub, rfl⟩, rfl, fun _ => rfl⟩
  obtain ⟨s, h1, g⟩ := g_requests rs g0 h
  refine ⟨s, h1, fun x => ?_, ?_⟩
  · rw [visit_iff, g.rem, g.mem]
    simp [SetInfo.find]
  · rw [visit_eq, g.rem, List.append_nil]
    exact names_nodup (SetInfo.reachable_distinct g.reach).1

theorem visit_peer {s c : SetInfo.St} (hc : c.loc = []) (hr : s.rem = []) (hd : (c.rem.map (·.1)).Nodup)
    (ht : ∀ k, SetInfo.find c.rem k = SetInfo.get s k) : (∀ x, x ∈ visit c ↔ x ∈ visit s) ∧ (visit c).Nodup := by
  refine ⟨fun x => ?_, ?_⟩
  · rw [visit_iff, visit_iff, hc, ht, hr]
    unfold SetInfo.get
    rw [hr]
    cases SetInfo.find s.loc (keyPrefix ++ x) <;> simp [SetInfo.find]
  · rw [visit_eq, hc, List.nil_append]
    exact names_nodup hd

/-- **C75**: an aggregator that looks the group up sees the same members, each once. -/
theorem group_members_peer (rs : List Req) (h : ∀ r ∈ rs, ∀ x ∈ r.names, Name x) (pub pub' : Bool) :
    ∃ s, requests ⟨[], [], pub, 0⟩ rs = some s ∧
      (∀ x, x ∈ visit (SetInfo.peerLookup ⟨[], [], pub', 0⟩ (SetInfo.sent s) []).1 ↔ isMember x false rs = true) ∧
      (visit (SetInfo.peerLookup ⟨[], [], pub', 0⟩ (SetInfo.sent s) []).1).Nodup := by
  have g0 : G ⟨[], [], pub, 0⟩ (fun _ => false) := ⟨⟨[], pub, rfl⟩, rfl, fun _ => rfl⟩
  obtain ⟨s, h1, g⟩ := g_requests rs g0 h
  obtain ⟨s', h1', h2, h3⟩ := group_members rs h pub
  rw [h1] at h1'; cases h1'
  have hd : ((SetInfo.peerLookup ⟨[], [], pub', 0⟩ (SetInfo.sent s) []).1.rem.map (·.1)).Nodup := by
    have r2 := (SetInfo.recv_spec (SetInfo.sent s) [] false List.nodup_nil).2.1
    unfold SetInfo.peerLookup SetInfo.notify
    split
    · rename_i l _ e; rw [e] at r2; exact r2
    · rename_i l e; rw [e] at r2
      simp only; split <;> exact r2
    · rename_i l e; rw [e] at r2
      have r3 := SetInfo.filter_distinct r2 fun p => SetInfo.keyIn (SetInfo.sent s) p.1
      simp only; split
      · split <;> exact r3
      · exact r3
  have hl : (SetInfo.peerLookup ⟨[], [], pub', 0⟩ (SetInfo.sent s) []).1.loc = [] := by
    unfold SetInfo.peerLookup SetInfo.notify
    split
    · rfl
    · simp only; split <;> rfl
    · simp only; split
      · split <;> rfl
      · rfl
  obtain ⟨a, b⟩ := visit_peer hl g.rem hd (SetInfo.lookup_transfers g.reach pub')
  exact ⟨s, h1, fun x => (a x).trans (h2 x), b⟩

/-- **C75**: and it goes on seeing the members when they change: whatever it saw before, after a directory update with the
group's information it sees the members of now. -/
theorem group_members_follow (rs : List Req) (h : ∀ r ∈ rs, ∀ x ∈ r.names, Name x) (pub u : Bool) (c : SetInfo.St)
    (hc : SetInfo.Reachable c) (hl : c.loc = []) :
    ∃ s, requests ⟨[], [], pub, 0⟩ rs = some s ∧
      (∀ x, x ∈ visit (SetInfo.step c (.peerDir u (SetInfo.sent s))) ↔ isMember x false rs = true) ∧
      (visit (SetInfo.step c (.peerDir u (SetInfo.sent s)))).Nodup := by
  have g0 : G ⟨[], [], pub, 0⟩ (fun _ => false) := ⟨⟨[], pub, rfl⟩, rfl, fun _ => rfl⟩
  obtain ⟨s, h1, g⟩ := g_requests rs g0 h
  obtain ⟨s', h1', h2, h3⟩ := group_members rs h pub
  rw [h1] at h1'; cases h1'
  have hl' : (SetInfo.step c (.peerDir u (SetInfo.sent s))).loc = [] := by
    have h4 := (SetInfo.step_rep (m := ⟨SetInfo.find c.loc, SetInfo.find c.rem⟩)
      ⟨(SetInfo.reachable_distinct hc).1, (SetInfo.reachable_distinct hc).2, fun _ => rfl, fun _ => rfl⟩
      (.peerDir u (SetInfo.sent s))).2.2.1
    cases hx : (SetInfo.step c (.peerDir u (SetInfo.sent s))).loc with
    | nil => rfl
    | cons p l =>
      have := h4 p.1
      rw [hx] at this
      simp [SetInfo.find, SetInfo.Maps.op, hl] at this
  obtain ⟨a, b⟩ := visit_peer hl' g.rem (SetInfo.reachable_distinct (reach_step hc _)).2 (SetInfo.dir_transfers g.reach hc u)
  exact ⟨s, h1, fun x => (a x).trans (h2 x), b⟩

/-- **C75**: other information of the group is no member: setting and deleting it leaves the members alone. -/
theorem group_other_info (s : SetInfo.St) (h : SetInfo.Reachable s) (k v : SetInfo.Str) (hk : ¬ keyPrefix <+: k) (x : SetInfo.Str) :
    (x ∈ visit (SetInfo.step s (.set k v)) ↔ x ∈ visit s) ∧ (x ∈ visit (SetInfo.step s (.unset k)) ↔ x ∈ visit s) := by
  obtain ⟨h1, h2⟩ := SetInfo.reachable_distinct h
  have hr : SetInfo.Rep s ⟨SetInfo.find s.loc, SetInfo.find s.rem⟩ := ⟨h1, h2, fun _ => rfl, fun _ => rfl⟩
  have hne : keyPrefix ++ x ≠ k := fun e => hk ⟨x, e⟩
  refine ⟨?_, ?_⟩
  · have q := (SetInfo.step_rep hr (.set k v)).2.2
    rw [visit_iff, visit_iff, q.1, q.2]
    simp [SetInfo.Maps.op, SetInfo.upd, hne]
  · have q := (SetInfo.step_rep hr (.unset k)).2.2
    rw [visit_iff, visit_iff, q.1, q.2]
    simp [SetInfo.Maps.op, SetInfo.upd, hne]

/-- the information `k` of a group is not one of its members -/
example : visit (SetInfo.step (SetInfo.step ⟨[], [], true, 0⟩ (.set [107] [49])) (.set (keyPrefix ++ [97]) [45])) = [[97]] := by decide +kernel

/-- **C75**: a name that is too long is refused and changes nothing; it is not a member under a shorter name. -/
theorem group_name_too_long (s : SetInfo.St) (x : SetInfo.Str) (h : 496 ≤ x.length) : add s x = (s, .nametoolong) ∧ rm s x = (s, .nametoolong) := by
  have : 512 ≤ (keyPrefix ++ x).length := by simp [keyPrefix]; omega
  exact ⟨if_pos this, if_pos this⟩

/-- names as bytes -/
def nm (c : Nat) : SetInfo.Str := [c]

example : ∃ s, requests ⟨[], [], true, 0⟩ [.ins [nm 97, nm 98], .rm [nm 97], .ins [nm 99, nm 98]] = some s ∧
    visit s = [nm 99, nm 98] ∧ isMember (nm 98) false [.ins [nm 97, nm 98], .rm [nm 97], .ins [nm 99, nm 98]] = true ∧
    isMember (nm 97) false [.ins [nm 97, nm 98], .rm [nm 97], .ins [nm 99, nm 98]] = false := by
  refine ⟨_, rfl, ?_⟩
  decide +kernel

/-! ## Updates -/

/-- **C75**: an update of a group ends, whatever the groups have as members (also themselves) and whatever the calls return:
at most as many calls inside each other as there are sets. -/
theorem group_update_ends (e : Env) (w : W) (k : Nat) (hk : k < w.n) (hr : (w.p k).st = .ready) : update e w k ≠ .more :=
  (sched_rel e (w.n + 1) w k hk hr (Nat.le_succ_of_le (count_le_n w))).1

/-- **C75**: no set gets two updates at a time: whatever the calls return, one update of a group asks at most once for a set,
only for one that was ready and that is then updating; sets that were not ready keep their state. -/
theorem group_update_once (e : Env) (w w' : W) (k rc : Nat) (hk : k < w.n) (hr : (w.p k).st = .ready) (h : update e w k = .done w' rc) (j : Nat) :
    ((w'.p j).upd = (w.p j).upd ∨ ((w'.p j).upd = (w.p j).upd + 1 ∧ (w.p j).st = .ready ∧ (w'.p j).st = .updating ∧ (w.p j).mem = none)) ∧
    ((w.p j).st ≠ .ready → (w'.p j).st = (w.p j).st) :=
  have r := (sched_rel e (w.n + 1) w k hk hr (Nat.le_succ_of_le (count_le_n w))).2 w' rc h
  ⟨r.one j, r.st j⟩

/-- **C75**: when the calls are accepted, the update of a group succeeds and asks for every ready set that belongs to it,
directly or through groups that are ready, once each, however often it is a member; no other set is asked for; the groups
are as before, ready for the next update. -/
theorem group_update_members (w : W) (k : Nat) (hk : k < w.n) (hr : (w.p k).st = .ready) (ha : Alive w) :
    ∃ w', update .fine w k = .done w' 0 ∧
      (∀ j, (w.p j).mem = none → (w.p j).st = .ready → In w k j →
        (w'.p j).st = .updating ∧ (w'.p j).upd = (w.p j).upd + 1 ∧ (w'.p j).refs = (w.p j).refs + 1) ∧
      (∀ j, (w.p j).mem = none → (w.p j).st = .ready → ¬ In w k j → w'.p j = w.p j) ∧
      (∀ j, (w.p j).mem ≠ none ∨ (w.p j).st ≠ .ready → (w'.p j).st = (w.p j).st ∧ (w'.p j).upd = (w.p j).upd) := by
  have h1 := sched_post (w.n + 1) w k hk hr ha
  cases hu : update .fine w k with
  | more => exact absurd hu (group_update_ends .fine w k hk hr)
  | crash => exact absurd hu h1.1
  | done w' rc =>
    obtain ⟨h0, h2⟩ := h1.2 w' rc hu
    subst h0
    refine ⟨w', rfl, fun j hm hj hi => ?_, fun j hm hj hi => h2.no j hm hj hi, fun j hj => ?_⟩
    · rw [h2.yes j hm hj hi]; exact ⟨rfl, rfl, rfl⟩
    · by_cases hs : (w.p j).st = .start
      · obtain ⟨l, _, e, _⟩ := h2.other j (by rw [hs]; exact nofun) (.inr hs)
        rw [e]; exact ⟨rfl, rfl⟩
      · by_cases hm : (w.p j).mem = none
        · obtain ⟨l, _, e, _⟩ := h2.other j (hj.resolve_left (fun h => h hm)) (.inl hm)
          rw [e]; exact ⟨rfl, rfl⟩
        · obtain ⟨r, _, e⟩ := h2.group j hm hs
          rw [e]; exact ⟨rfl, rfl⟩

theorem lookups_all : ∀ (ms : List Nat) (w : W), Alive w → ∃ w', memberLookups .fine w ms = some (w', 0) ∧ w'.n = w.n ∧ ∀ j,
    (j ∈ ms ∧ j < w.n ∧ (w.p j).st = .start → w'.p j = { w.p j with st := .lookup, refs := (w.p j).refs + 1, look := (w.p j).look + 1 }) ∧
    (¬ (j ∈ ms ∧ j < w.n ∧ (w.p j).st = .start) → w'.p j = w.p j)
  | [], w, _ => ⟨w, rfl, rfl, fun j => ⟨fun h => (List.not_mem_nil h.1).elim, fun _ => rfl⟩⟩
  | m :: ms, w, ha => by
    unfold memberLookups
    split
    · rename_i hm
      rw [if_neg (Nat.ne_of_gt (ha m hm.1))]
      simp only [show Env.fine.look m = 0 from rfl, if_true]
      have ha' : Alive (w.mod m fun p => { p with st := .lookup, refs := p.refs + 1, look := p.look + 1 }) := by
        intro j hj
        by_cases e : j = m
        · subst e; rw [mod_same]; simp
        · rw [mod_other _ _ e]; exact ha j hj
      obtain ⟨w', h1, h2, h3⟩ := lookups_all ms _ ha'
      refine ⟨w', h1, h2, fun j => ?_⟩
      obtain ⟨h4, h5⟩ := h3 j
      by_cases e : j = m
      · subst e
        have h6 := h5 (by rw [mod_same]; rintro ⟨_, _, q⟩; exact nomatch q)
        rw [mod_same] at h6
        exact ⟨fun _ => h6, fun q => absurd ⟨List.mem_cons_self .., hm.1, hm.2⟩ q⟩
      · rw [mod_other _ _ e] at h4 h5
        exact ⟨fun ⟨q1, q2, q3⟩ => h4 ⟨(List.mem_cons.1 q1).resolve_left e, q2, q3⟩,
          fun q => h5 fun ⟨q1, q2, q3⟩ => q ⟨List.mem_cons_of_mem _ q1, q2, q3⟩⟩
    · rename_i hm
      obtain ⟨w', h1, h2, h3⟩ := lookups_all ms w ha
      refine ⟨w', h1, h2, fun j => ?_⟩
      obtain ⟨h4, h5⟩ := h3 j
      refine ⟨fun ⟨q1, q2, q3⟩ => h4 ⟨(List.mem_cons.1 q1).resolve_left (fun e => hm (e ▸ ⟨q2, q3⟩)), q2, q3⟩,
          fun q => h5 fun ⟨q1, q2, q3⟩ => q ⟨List.mem_cons_of_mem _ q1, q2, q3⟩⟩

/-- **C75**: when a group was looked up and the calls are accepted, it is ready, and each of its members that was never looked
up is looked up now, once, with a reference; the other sets are as they were. -/
theorem group_lookup_members (w : W) (k : Nat) (ms : List Nat) (hk : (w.p k).st = .lookup) (hm : (w.p k).mem = some ms) (hf : (w.p k).found = false)
    (hkn : k < w.n) (ha : Alive w) :
    ∃ w', lookupCb .fine w k true = some w' ∧ (w'.p k).st = .ready ∧ (w'.p k).found = true ∧ (w'.p k).refs = (w.p k).refs - 1 ∧
      ∀ j, j ≠ k →
        (j ∈ ms ∧ j < w.n ∧ (w.p j).st = .start → w'.p j = { w.p j with st := .lookup, refs := (w.p j).refs + 1, look := (w.p j).look + 1 }) ∧
        (¬ (j ∈ ms ∧ j < w.n ∧ (w.p j).st = .start) → w'.p j = w.p j) := by
    have ha' : Alive ((w.mod k fun p => { p with look := p.look - 1 }).mod k fun p => { p with found := true }) := by
      intro j hj
      by_cases e : j = k
      · subst e; rw [mod_same, mod_same]; exact ha j hj
      · rw [mod_other _ _ e, mod_other _ _ e]; exact ha j hj
    obtain ⟨w2, h1, h2, h3⟩ := lookups_all ms.reverse _ ha'
    have h4 := (h3 k).2 (by rw [mod_same, mod_same]; rintro ⟨_, _, q⟩; rw [hk] at q; exact nomatch q)
    rw [mod_same, mod_same] at h4
    have h0 := ha k hkn
    unfold lookupCb
    simp only [if_true, mod_same, hf, Bool.false_eq_true, if_false, hm, h1]
    unfold put
    rw [mod_same, h4, if_neg (by simp only; omega)]
    refine ⟨_, rfl, by rw [mod_same, mod_same], by rw [mod_same, mod_same, h4], by rw [mod_same, mod_same, h4], fun j hj => ?_⟩
    obtain ⟨h5, h6⟩ := h3 j
    rw [mod_other _ _ hj, mod_other _ _ hj] at h5 h6 ⊢
    rw [List.mem_reverse] at h5 h6
    exact ⟨h5, h6⟩

/-- **C75**: an update that is answered without an error makes the set ready again and gives its reference back. -/
theorem update_answered (w : W) (k : Nat) (hr : 0 < (w.p k).refs) :
    ∃ w', updateCb w k true = some w' ∧ w'.p k = { w.p k with st := .ready, upd := (w.p k).upd - 1, refs := (w.p k).refs - 1 } ∧ ∀ j, j ≠ k → w'.p j = w.p j := by
  unfold updateCb put
  simp only [if_true, mod_same]
  rw [if_neg (by omega)]
  exact ⟨_, rfl, by simp [mod_same], fun j hj => by rw [mod_other _ _ hj, mod_other _ _ hj, mod_other _ _ hj]⟩

/-- **C75**: a plain set that was looked up is ready, and the lookup's reference is given back; after a lookup that fails it is
looked up again in the next round. -/
theorem lookup_answered (e : Env) (w : W) (k : Nat) (hm : (w.p k).mem = none) (hf : (w.p k).found = false) (hr : 0 < (w.p k).refs) (ok : Bool) :
    ∃ w', lookupCb e w k ok = some w' ∧ (w'.p k).st = (if ok then .ready else .start) ∧ (w'.p k).found = ok ∧ (w'.p k).refs = (w.p k).refs - 1 ∧
      (w'.p k).look = (w.p k).look - 1 ∧ ∀ j, j ≠ k → w'.p j = w.p j := by
  unfold lookupCb put
  cases ok <;> simp only [if_true, Bool.false_eq_true, if_false, mod_same, hm, hf]
  · rw [if_neg (by omega)]
    exact ⟨_, rfl, by simp [mod_same], by simp [mod_same, hf], by simp [mod_same], by simp [mod_same],
      fun j hj => by rw [mod_other _ _ hj, mod_other _ _ hj, mod_other _ _ hj]⟩
  · rw [if_neg (by omega)]
    exact ⟨_, rfl, by simp [mod_same], by simp [mod_same], by simp [mod_same], by simp [mod_same],
      fun j hj => by rw [mod_other _ _ hj, mod_other _ _ hj, mod_other _ _ hj, mod_other _ _ hj]⟩

/-- two groups that are members of each other, and of which both have the plain set 2 -/
def two : W := ⟨4, fun k => match k with
  | 0 => ⟨.ready, some [1, 2], true, 2, 0, 0⟩
  | 1 => ⟨.ready, some [2, 0], true, 2, 0, 0⟩
  | _ => ⟨.ready, none, true, 2, 0, 0⟩⟩

example : In two 0 2 ∧ ¬ In two 2 3 := by
  constructor
  · exact .member (m := 2) (ms := [1, 2]) rfl (by simp) (by decide) rfl (.self 2)
  · intro h
    have := in_leaf (w := two) (k := 2) (j := 3) rfl h
    omega

/-- what an update returns, and the states and outstanding updates of the first sets after it -/
def shown (r : Res) (n : Nat) : Option (Nat × List (State × Nat)) := match r with
  | .done w rc => some (rc, (List.range n).map fun k => ((w.p k).st, (w.p k).upd))
  | _ => none

example : shown (update .fine two 0) 4 = some (0, [(.ready, 0), (.ready, 0), (.updating, 1), (.ready, 0)]) := by decide +kernel

/-- **C75**, in part: the reference counts are right in every history of visits, lookups and updates with any answers, as long as
no group is visited that has a member which was never looked up: no assertion fails, and every set that the producer has
keeps its two references besides those of the calls that are not answered.  Missing: groups with such members
(`group_start_member_defect`, `group_second_lookup_defect`). -/
theorem group_safe_partial (n : Nat) (mem : Nat → Option (List Nat)) (es : List (Env × Ev)) (r : Option W) (h : Run (fresh n mem) es r) :
    ∃ w, r = some w ∧ ∀ j, j < w.n → 2 + (w.p j).upd + (w.p j).look ≤ (w.p j).refs ∧ (w.p j).upd + (w.p j).look ≤ 1 := by
  obtain ⟨w, h1, h2⟩ := run_safe h (sys_fresh n mem)
  refine ⟨w, h1, fun j hj => ?_⟩
  obtain ⟨a, b, c, d, e, f⟩ := h2 j hj
  refine ⟨f, ?_⟩
  cases hs : (w.p j).st <;> grind

/-- a group with one member -/
def one : Nat → Option (List Nat) := fun k => if k = 0 then some [1] else none

theorem noStart_one {w : W} (h : (w.p 0).mem = some [1]) (h' : ∀ k, k ≠ 0 → (w.p k).mem = none) (hr : (w.p 0).st = .ready → (w.p 1).st ≠ .start) : NoStart w := by
  intro g _ hg ms hms m hm _
  by_cases e : g = 0
  · subst e
    rw [h] at hms
    cases hms
    rw [List.mem_singleton] at hm
    subst hm
    exact hr hg
  · rw [h' g e] at hms; exact nomatch hms

/-- lookups of the group and of its member, then an update of the group: two visits and three answers -/
example : ∃ w, Run (fresh 2 one) [(.fine, .visit 0), (.fine, .looked 0 true), (.fine, .looked 1 true), (.fine, .visit 0), (.fine, .updated 1 true)] (some w) ∧
    (w.p 0).st = .ready ∧ (w.p 1).st = .ready := by
  refine ⟨_, .cons ⟨by decide, noStart_one rfl (fun k h => ?_) (fun h => nomatch h)⟩ rfl (.cons ⟨by decide, by decide⟩ rfl
    (.cons ⟨by decide, by decide⟩ rfl (.cons ⟨by decide, noStart_one rfl (fun k h => ?_) (fun _ h => nomatch h)⟩ rfl
      (.cons ⟨by decide, by decide⟩ rfl (.nil _))))), rfl, rfl⟩
  · simp [fresh, one, h]
  · have : one k = none := by simp [one, h]
    by_cases h1 : k = 1
    · subst h1; rfl
    · simpa [W.mod, h, h1, fresh] using this

/-! ## Where the code is wrong -/

/-- `n` updates of `k` with nothing in between. -/
def again (w : W) (k : Nat) : Nat → Option W
  | 0 => some w
  | n + 1 => match update .fine w k with
    | .done w 0 => again w k n
    | _ => none

/-- Every update of a group leaks a reference of it: an empty group has two more after two updates, and so on. -/
theorem group_leak_defect : ∀ (n : Nat) (w : W) (k : Nat), k < w.n → (w.p k).st = .ready → (w.p k).mem = some [] → 0 < (w.p k).refs →
    ∃ w', again w k n = some w' ∧ (w'.p k).refs = (w.p k).refs + n ∧ (w'.p k).upd = (w.p k).upd
  | 0, w, k, _, _, _, _ => ⟨w, rfl, rfl, rfl⟩
  | n + 1, w, k, hk, hr, hm, h0 => by
    have hu : update .fine w k = .done ((w.mod k fun p => { p with st := .updating, refs := p.refs + 1 }).mod k fun p => { p with st := .ready }) 0 := by
      unfold update sched
      rw [if_neg (by omega)]
      simp only [hm, List.reverse_nil, members]
    obtain ⟨w', a, b, c⟩ := group_leak_defect n ((w.mod k fun p => { p with st := .updating, refs := p.refs + 1 }).mod k fun p => { p with st := .ready }) k hk
      (by rw [mod_same]) (by rw [mod_same, mod_same]; exact hm) (by rw [mod_same, mod_same]; simp)
    refine ⟨w', ?_, ?_, ?_⟩
    · simp only [again, hu]; exact a
    · rw [b, mod_same, mod_same]; simp only; omega
    · rw [c, mod_same, mod_same]

/-- a group with two plain sets -/
def pair : W := ⟨3, fun k => match k with
  | 0 => ⟨.ready, some [1, 2], true, 2, 0, 0⟩
  | _ => ⟨.ready, none, true, 2, 0, 0⟩⟩

/-- the update of the set 2 is refused at once -/
def refuse : Env := ⟨fun _ => 0, fun k => if k = 2 then 12 else 0⟩

/-- When the update of one member is refused at once, the group stays UPDATING, the members after it are not updated, … -/
theorem group_stuck_defect : shown (update refuse pair 0) 3 = some (12, [(.updating, 0), (.ready, 0), (.updating, 0)]) := by decide +kernel

/-- … and so it is forever: a visit leaves a set that is UPDATING alone, a lookup's answer does not come, and without an
outstanding update no answer to one comes. -/
theorem group_stuck_forever_defect (e : Env) (w w' : W) (k j : Nat) (hj : j < w.n) (h : visitSet e w j = some w') (hs : (w.p k).st = .updating) :
    (w'.p k).st = .updating ∧ (w'.p k).upd = (w.p k).upd := by
  unfold visitSet at h
  split at h
  · rename_i hr
    split at h
    · rename_i w2 rc he
      cases h
      have := group_update_once e w w' j rc hj hr he k
      refine ⟨by rw [this.2 (by rw [hs]; exact nofun), hs], ?_⟩
      rcases this.1 with q | q
      · exact q
      · rw [hs] at q; exact nomatch q.2.1
    · exact nomatch h
  · rename_i hr
    split at h
    · exact nomatch h
    · split at h
      · cases h
        have hne : k ≠ j := by rintro rfl; rw [hs] at hr; exact nomatch hr
        rw [mod_other _ _ hne]
        exact ⟨hs, rfl⟩
      · cases h; exact ⟨hs, rfl⟩
  · cases h; exact ⟨hs, rfl⟩

/-- a group that was looked up before its member was announced: the member 1 was not looked up -/
def late : W := ⟨2, fun k => match k with
  | 0 => ⟨.ready, some [1], true, 2, 0, 0⟩
  | _ => ⟨.start, none, false, 2, 0, 0⟩⟩

/-- events, one after the other -/
def play (w : W) : List Ev → Option W
  | [] => some w
  | v :: vs => (step w .fine v).bind fun w => play w vs

/-- The member is looked up without a reference, so two answers that say no free it although the producer has it. -/
theorem group_start_member_defect : ((play late [.visit 0, .looked 1 false, .visit 0, .looked 1 false]).map fun w => (w.p 1).refs) = some 0 := by
  decide +kernel

/-- It stays in START, so each round looks it up once more; the second answer aborts the program. -/
theorem group_second_lookup_defect : ((play late [.visit 0, .visit 0]).map fun w => (w.p 1).look) = some 2 ∧
    (play late [.visit 0, .visit 0, .looked 1 true, .looked 1 true]).isNone = true := by
  decide +kernel

/-- When a member's lookup is refused at once, the group stays in LOOKUP with no lookup under way, and no visit changes it. -/
theorem group_lookup_stuck_defect :
    ((lookupCb ⟨fun _ => 12, fun _ => 0⟩ ⟨2, fun k => if k = 0 then ⟨.lookup, some [1], false, 3, 0, 1⟩ else ⟨.start, none, false, 2, 0, 0⟩⟩ 0 true).map
      fun w => ((w.p 0).st, (w.p 0).look, (w.p 0).found)) = some (.lookup, 0, true) ∧
    ∀ (e : Env) (w : W), (w.p 0).st = .lookup → visitSet e w 0 = some w := by
  refine ⟨by decide +kernel, fun e w h => ?_⟩
  unfold visitSet
  rw [h]

/-- `setgroup_ins` without `instance` is not refused. -/
theorem group_ins_null_defect (s : SetInfo.St) : ins s none = none ∧ del s none = none := ⟨rfl, rfl⟩

/-- A request with several names of which one is too long is refused, and has put in the names before it. -/
theorem group_half_ins_defect (s : SetInfo.St) (x y : SetInfo.Str) (hy : 496 ≤ y.length) :
    each add s [x, y] = ((add s x).1, .nametoolong) ∨ (add s x).2 ≠ .ok := by
  cases h : (add s x).2 with
  | ok =>
    left
    have : add s x = ((add s x).1, .ok) := by rw [← h]
    unfold each
    rw [this]
    simp only [each, (group_name_too_long _ y hy).1]
  | _ => exact .inr nofun

end Verif.SetGroup
