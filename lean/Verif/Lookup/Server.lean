import Verif.Lookup.Spec

/-! # The daemon that is asked -/

namespace Verif.Lookup

variable {E : Env} {rx : Text → Bool} {flags : Nat} {path : Text}

theorem flag_mod : fSchema flags = fSchema (flags % 4) ∧ fRe flags = fRe (flags % 4) := by
  have h : ∀ k, k < 4 → flags &&& k = (flags % 4) &&& k := by
    intro k hk
    have h1 : (flags &&& k) % 2 ^ 2 = (flags % 2 ^ 2) &&& (k % 2 ^ 2) := Nat.and_mod_two_pow
    have h2 : flags &&& k ≤ k := Nat.and_le_right
    rw [Nat.mod_eq_of_lt (show k < 2 ^ 2 by omega), Nat.mod_eq_of_lt (show flags &&& k < 2 ^ 2 by omega)] at h1
    exact h1
  unfold fSchema fRe
  rw [h 1 (by omega), h 2 (by omega)]
  exact ⟨rfl, rfl⟩

/-- The loop over the sets that match. -/
def loopM (E : Env) : List SetR → Bool → List Act × LoopEnd
  | [], matched => ([], .done matched)
  | s :: l, matched =>
    if !E.acc s then loopM E l matched
    else
      let r := sendReply E s (!l.isEmpty)
      if r.2 ≠ 0 then (r.1, .error r.2)
      else
        let p := loopM E l true
        (r.1 ++ p.1, p.2)

theorem nextMatch_filter (l : List SetR) :
    (nextMatch rx flags path l).filter (reMatch rx flags path) = l.filter (reMatch rx flags path) := by
  induction l with
  | nil => rfl
  | cons s l ih =>
    simp only [nextMatch]
    split
    · rfl
    · rename_i h; simp [h, ih]

theorem nextMatch_len (l : List SetR) : (nextMatch rx flags path l).length ≤ l.length := by
  induction l with
  | nil => exact Nat.le_refl _
  | cons s l ih =>
    simp only [nextMatch]
    split
    · exact Nat.le_refl _
    · simp only [List.length_cons]; omega

theorem nextMatch_head {l l' : List SetR} {s : SetR} (h : nextMatch rx flags path l = s :: l') :
    reMatch rx flags path s = true := by
  induction l with
  | nil => cases h
  | cons t l ih =>
    simp only [nextMatch] at h
    split at h
    · rename_i ht; cases h; exact ht
    · exact ih h

theorem nextMatch_nil {l : List SetR} :
    (nextMatch rx flags path l).isEmpty = (l.filter (reMatch rx flags path)).isEmpty := by
  induction l with
  | nil => rfl
  | cons t l ih =>
    simp only [nextMatch]
    split
    · rename_i ht; simp [ht]
    · rename_i ht; simp [ht, ih]

theorem loop_loopM (n : Nat) (l : List SetR) (matched : Bool) (h : l.length < n) :
    loop E rx flags path n (nextMatch rx flags path l) matched =
      loopM E (l.filter (reMatch rx flags path)) matched := by
  induction n generalizing l matched with
  | zero => omega
  | succ n ih =>
    cases hl : nextMatch rx flags path l with
    | nil =>
      have h1 := nextMatch_filter (rx := rx) (flags := flags) (path := path) l
      rw [hl] at h1
      rw [← h1]; rfl
    | cons s rest =>
      have hm := nextMatch_head hl
      have h1 := nextMatch_filter (rx := rx) (flags := flags) (path := path) l
      have h2 := nextMatch_len (rx := rx) (flags := flags) (path := path) l
      rw [hl] at h1 h2
      rw [← h1, List.filter_cons, if_pos hm]
      simp only [List.length_cons] at h2
      simp only [loop, loopM, ih rest _ (show rest.length < n by omega), nextMatch_nil]

/-- `treeLookup` by the sets that match. -/
def treeM (E : Env) (M : List SetR) : List Act :=
  if M = [] then .lock :: err1 ENOENT
  else
    match (loopM E M false).2 with
    | .error rc => .lock :: (loopM E M false).1 ++ err1 rc
    | .done matched => .lock :: (loopM E M false).1 ++ .unlock :: (if matched then [] else err1 ENOENT)

theorem treeLookup_treeM (tree : List SetR) :
    treeLookup E rx flags path tree = treeM E (tree.filter (reMatch rx flags path)) := by
  have h0 := nextMatch_nil (rx := rx) (flags := flags) (path := path) (l := tree)
  have h1 := loop_loopM (E := E) (rx := rx) (flags := flags) (path := path) (tree.length + 1) tree false
    (Nat.lt_succ_self _)
  unfold treeLookup treeM
  cases hn : nextMatch rx flags path tree with
  | nil =>
    rw [hn] at h0
    rw [if_pos (List.isEmpty_iff.mp (Eq.symm h0))]
  | cons s l =>
    rw [hn] at h0 h1
    rw [if_neg (fun he => by rw [he] at h0; cases h0)]
    simp only [h1]
    rfl

theorem request_tree {q : Query} (hq : Asks E flags path q) (hs : q.single = false) (tree : List SetR) :
    request E flags path tree = treeM E (tree.filter q.wants) := by
  obtain ⟨f1, f2⟩ := flag_mod (flags := flags)
  cases q with
  | «instance» n => cases hs
  | schema n =>
    obtain ⟨h4, hp⟩ := hq
    rw [h4] at f1 f2
    unfold request
    rw [f1, f2]
    simp only [show fRe 1 = false from rfl, show fSchema 1 = true from rfl, Bool.not_true, if_neg Bool.false_ne_true]
    rw [treeLookup_treeM]
    congr 1
    apply List.filter_congr
    intro s _
    simp only [reMatch, f1, f2, show fRe 1 = false from rfl, show fSchema 1 = true from rfl, Query.wants, hp]
    simp only [if_neg Bool.false_ne_true]
    exact Bool.beq_comm
  | instanceRe p =>
    obtain ⟨h4, hp⟩ := hq
    rw [h4] at f1 f2
    unfold request
    rw [f2, hp]
    simp only [show fRe 2 = true from rfl, if_true]
    rw [treeLookup_treeM]
    congr 1
    apply List.filter_congr
    intro s _
    simp only [reMatch, f1, f2, show fRe 2 = true from rfl, show fSchema 2 = false from rfl, Query.wants,
      if_true, if_neg Bool.false_ne_true]
  | schemaRe p =>
    obtain ⟨h4, hp⟩ := hq
    rw [h4] at f1 f2
    unfold request
    rw [f2, hp]
    simp only [show fRe 3 = true from rfl, if_true]
    rw [treeLookup_treeM]
    congr 1
    apply List.filter_congr
    intro s _
    simp only [reMatch, f1, f2, show fRe 3 = true from rfl, show fSchema 3 = true from rfl, Query.wants, if_true]

theorem request_one {n : Text} (hq : Asks E flags path (.instance n)) (tree : List SetR) :
    request E flags path tree =
      match tree.find? (fun s => s.name == n) with
      | none => .lock :: err1 ENOENT
      | some s =>
        .lock :: .unlock :: (sendReply E s false).1 ++
          (if (sendReply E s false).2 ≠ 0 then err1 (sendReply E s false).2 else []) := by
  obtain ⟨f1, f2⟩ := flag_mod (flags := flags)
  obtain ⟨h4, hp⟩ := hq
  rw [h4] at f1 f2
  unfold request
  rw [f1, f2, hp]
  simp only [show fRe 0 = false from rfl, show fSchema 0 = false from rfl, Bool.not_false, if_true,
    if_neg Bool.false_ne_true]
  rfl

/-! ## Messages -/

theorem messages_append (a b : List Act) : messages (a ++ b) = messages a ++ messages b := by
  induction a with
  | nil => rfl
  | cons x a ih => cases x <;> simp [messages, ih]

theorem shared_append (a b : List Msg) : shared (a ++ b) = shared a ++ shared b := by
  induction a with
  | nil => rfl
  | cons x a ih => cases x <;> simp [shared, ih]

theorem sendReply_ok {s : SetR} (h : Sends E s) (more : Bool) :
    sendReply E s more = ([.send (.share s more)], 0) := by
  simp [sendReply, h.1, h.2]

theorem sendReply_acts (s : SetR) (more : Bool) :
    (sendReply E s more).1 = [] ∧ (sendReply E s more).2 ≠ 0 ∨
      (sendReply E s more).1 = [.send (.share s more)] := by
  unfold sendReply
  split
  · rename_i h; exact .inl ⟨rfl, h⟩
  · exact .inr rfl

theorem sendReply_rc (s : SetR) (more : Bool) : (sendReply E s more).2 = 0 ↔ Sends E s := by
  unfold sendReply Sends
  split
  · rename_i h; simp [h]
  · rename_i h; simp at h; simp [h]

/-- Every set that may be read is sent. -/
theorem loopM_all (M : List SetR) (matched : Bool) (h : ∀ s ∈ M, E.acc s = true → Sends E s) :
    shared (messages (loopM E M matched).1) = M.filter E.acc ∧
      (loopM E M matched).2 = .done (matched || !(M.filter E.acc).isEmpty) := by
  induction M generalizing matched with
  | nil => simp [loopM, messages, shared]
  | cons s M ih =>
    have ih' := fun b => ih b (fun t ht => h t (List.mem_cons_of_mem _ ht))
    cases ha : E.acc s with
    | false =>
      have := ih' matched
      simp only [loopM, ha, Bool.not_false, if_true, List.filter_cons, if_neg Bool.false_ne_true]
      exact this
    | true =>
      have h1 := sendReply_ok (h s List.mem_cons_self ha) (!M.isEmpty)
      have := ih' true
      simp only [loopM, ha, h1, List.filter_cons, Bool.not_true, if_neg Bool.false_ne_true, ne_eq, not_true,
        if_false, if_true, messages_append, shared_append, this]
      exact ⟨rfl, by simp⟩

theorem loopM_sound (M : List SetR) (matched : Bool) {s : SetR} {more : Bool}
    (h : Act.send (.share s more) ∈ (loopM E M matched).1) : s ∈ M ∧ E.acc s = true := by
  induction M generalizing matched with
  | nil => cases h
  | cons t M ih =>
    simp only [loopM] at h
    split at h
    · have := ih _ h; exact ⟨List.mem_cons_of_mem _ this.1, this.2⟩
    · rename_i ha
      have ha' : E.acc t = true := by simpa using ha
      have key : ∀ m, Act.send (.share s more) ∈ (sendReply E t m).1 → s = t := by
        intro m hm
        rcases sendReply_acts (E := E) t m with ⟨h1, _⟩ | h1
        · rw [h1] at hm; cases hm
        · rw [h1] at hm; simp at hm; exact hm.1
      split at h
      · have := key _ h; subst this; exact ⟨List.mem_cons_self, ha'⟩
      · rcases List.mem_append.mp h with h | h
        · have := key _ h; subst this; exact ⟨List.mem_cons_self, ha'⟩
        · have := ih _ h; exact ⟨List.mem_cons_of_mem _ this.1, this.2⟩

/-- The messages are sets in order, without the lock. -/
theorem loopM_prefix (M : List SetR) (matched : Bool) :
    shared (messages (loopM E M matched).1) <+: M.filter E.acc := by
  induction M generalizing matched with
  | nil => exact List.prefix_refl _
  | cons t M ih =>
    simp only [loopM]
    split
    · rename_i ha
      have ha' : E.acc t = false := by simpa using ha
      rw [List.filter_cons, if_neg (by simp [ha'])]
      exact ih _
    · rename_i ha
      have ha' : E.acc t = true := by simpa using ha
      rw [List.filter_cons, if_pos ha']
      have key : ∀ m, shared (messages (sendReply E t m).1) <+: [t] := by
        intro m
        rcases sendReply_acts (E := E) t m with ⟨h1, _⟩ | h1 <;> rw [h1] <;> simp [messages, shared]
      split
      · exact (key _).trans ⟨M.filter E.acc, rfl⟩
      · rename_i hr
        have hr' := Classical.not_not.mp hr
        rw [sendReply_ok ((sendReply_rc _ _).mp hr')]
        simp only [messages_append, shared_append]
        obtain ⟨w, hw⟩ := ih true
        exact ⟨w, by simp [messages, shared, hw]⟩

/-- The flag, if the last set that matches may be read. -/
theorem loopM_flagged (M : List SetR) (matched : Bool) (h : ∀ s ∈ M, E.acc s = true → Sends E s)
    (hl : ∀ s, M.getLast? = some s → E.acc s = true) :
    messages (loopM E M matched).1 = flagged (M.filter E.acc) := by
  induction M generalizing matched with
  | nil => rfl
  | cons s M ih =>
    have hl' : ∀ t, M.getLast? = some t → E.acc t = true := by
      intro t ht
      apply hl
      cases M with
      | nil => cases ht
      | cons u M => rw [List.getLast?_cons_cons]; exact ht
    have ih' := fun b => ih b (fun t ht => h t (List.mem_cons_of_mem _ ht)) hl'
    cases ha : E.acc s with
    | false =>
      simp only [loopM, ha, Bool.not_false, if_true, List.filter_cons, if_neg Bool.false_ne_true]
      exact ih' matched
    | true =>
      have h1 := sendReply_ok (h s List.mem_cons_self ha) (!M.isEmpty)
      simp only [loopM, ha, h1, List.filter_cons, Bool.not_true, if_neg Bool.false_ne_true, ne_eq, not_true,
        if_false, if_true, messages_append, ih' true]
      cases M with
      | nil => rfl
      | cons u M =>
        have hne : (u :: M).filter E.acc ≠ [] := by
          intro he
          obtain ⟨t, ht⟩ : ∃ t, (u :: M).getLast? = some t := ⟨_, List.getLast?_eq_some_getLast (List.cons_ne_nil _ _)⟩
          have := hl' t ht
          have hm : t ∈ (u :: M).filter E.acc := List.mem_filter.mpr ⟨List.mem_of_getLast? ht, this⟩
          rw [he] at hm; cases hm
        cases hf : (u :: M).filter E.acc with
        | nil => exact absurd hf hne
        | cons v N => rfl

/-! ## The lock -/

theorem follow_sends (b : Bool) (a c : List Act) (h : ∀ x ∈ a, ∃ m, x = .send m) : follow b (a ++ c) = follow b c := by
  induction a with
  | nil => rfl
  | cons x a ih =>
    obtain ⟨m, rfl⟩ := h x List.mem_cons_self
    have := ih fun y hy => h y (List.mem_cons_of_mem _ hy)
    cases b <;> simpa [follow] using this

theorem sendReply_sends (s : SetR) (more : Bool) : ∀ x ∈ (sendReply E s more).1, ∃ m, x = .send m := by
  intro x hx
  rcases sendReply_acts (E := E) s more with ⟨h1, _⟩ | h1 <;> rw [h1] at hx
  · cases hx
  · exact ⟨_, List.mem_singleton.mp hx⟩

theorem loopM_sends (M : List SetR) (matched : Bool) : ∀ x ∈ (loopM E M matched).1, ∃ m, x = .send m := by
  induction M generalizing matched with
  | nil => intro x hx; cases hx
  | cons t M ih =>
    simp only [loopM]
    split
    · exact ih _
    · split
      · exact sendReply_sends _ _
      · intro x hx
        rcases List.mem_append.mp hx with h | h
        · exact sendReply_sends _ _ _ h
        · exact ih _ _ h

theorem loopM_done (M : List SetR) (matched b : Bool) (h : (loopM E M matched).2 = .done b) :
    b = (matched || !(M.filter E.acc).isEmpty) := by
  induction M generalizing matched with
  | nil => simp only [loopM, LoopEnd.done.injEq] at h; simp [h]
  | cons t M ih =>
    simp only [loopM] at h
    split at h
    · rename_i ha
      have ha' : E.acc t = false := by simpa using ha
      rw [List.filter_cons, if_neg (by simp [ha'])]
      exact ih _ h
    · rename_i ha
      have ha' : E.acc t = true := by simpa using ha
      rw [List.filter_cons, if_pos ha']
      split at h
      · cases h
      · have := ih _ h; simp [this]

theorem loopM_error (M : List SetR) (matched : Bool) (rc : Nat) (h : (loopM E M matched).2 = .error rc) :
    M.filter E.acc ≠ [] := by
  induction M generalizing matched with
  | nil => cases h
  | cons t M ih =>
    simp only [loopM] at h
    split at h
    · rename_i ha
      have ha' : E.acc t = false := by simpa using ha
      rw [List.filter_cons, if_neg (by simp [ha'])]
      exact ih _ h
    · rename_i ha
      have ha' : E.acc t = true := by simpa using ha
      rw [List.filter_cons, if_pos ha']
      exact List.cons_ne_nil _ _

theorem treeM_lock (M : List SetR) :
    follow false (treeM E M) = some false ↔ ¬ (M ≠ [] ∧ M.filter E.acc = []) := by
  unfold treeM
  by_cases hM : M = []
  · simp [hM, err1, err0, follow]
  · rw [if_neg hM]
    cases hr : (loopM E M false).2 with
    | error rc =>
      have := loopM_error _ _ _ hr
      simp only [List.cons_append, follow, follow_sends _ _ _ (loopM_sends M false), err1, err0, this]
      simp
    | done b =>
      have hb := loopM_done _ _ _ hr
      simp only [List.cons_append, follow, follow_sends _ _ _ (loopM_sends M false)]
      by_cases hf : M.filter E.acc = []
      · rw [hf] at hb
        simp at hb
        simp [hb, hf, hM, err1, follow]
      · have hb' : b = true := by rw [hb]; simpa using hf
        simp [hb', hf, follow]

end Verif.Lookup
