import Verif.Lookup.Server
import Verif.Lookup.Client

/-!
# Looking sets up
-/

namespace Verif.Lookup

variable {E : Env} {flags : Nat} {path : Text} {q : Query}

/-! ## What is sent -/

theorem messages_treeM (M : List SetR) :
    messages (treeM E M) = messages (loopM E M false).1 ++
      (match (loopM E M false).2 with
       | .error rc => [.err rc]
       | .done true => []
       | .done false => [.err ENOENT]) := by
  unfold treeM
  by_cases hM : M = []
  · subst hM; rfl
  · rw [if_neg hM]
    cases hr : (loopM E M false).2 with
    | error rc => simp [messages, messages_append, err1, err0]
    | done b => cases b <;> simp [messages, messages_append, err1, err0]

/-- A lookup by schema or by an expression sends the sets asked for that the peer may read, each once, in the order
of their names, if their sending succeeds. -/
theorem lookup_sets (hq : Asks E flags path q) (hs : q.single = false) (tree : List SetR)
    (hE : ∀ s ∈ tree, E.acc s = true → Sends E s) :
    shared (messages (request E flags path tree)) = tree.filter fun s => q.wants s && E.acc s := by
  rw [request_tree hq hs, messages_treeM, shared_append]
  obtain ⟨h1, h2⟩ := loopM_all (E := E) (tree.filter q.wants) false
    (fun s h => hE s (List.mem_filter.mp h).1)
  rw [h1, h2, List.filter_filter]
  have : ∀ b : Bool, shared (match LoopEnd.done b with
       | .error rc => [.err rc]
       | .done true => []
       | .done false => [.err ENOENT]) = [] := by
    intro b; cases b <;> rfl
  rw [this, List.append_nil]
  exact List.filter_congr fun s _ => Bool.and_comm _ _

/-- Whatever fails, only sets asked for are sent, those a peer may not read only to one that gives their name. -/
theorem lookup_sound (hq : Asks E flags path q) (tree : List SetR) {s : SetR} {more : Bool}
    (h : Msg.share s more ∈ messages (request E flags path tree)) :
    s ∈ tree ∧ q.wants s = true ∧ (q.single = false → E.acc s = true) := by
  have mem : ∀ {a : List Act} {m : Msg}, m ∈ messages a → Act.send m ∈ a := by
    intro a m hm
    induction a with
    | nil => cases hm
    | cons x a ih =>
      cases x with
      | send y =>
        rcases List.mem_cons.mp hm with rfl | hm
        · exact List.mem_cons_self
        · exact List.mem_cons_of_mem _ (ih hm)
      | lock => exact List.mem_cons_of_mem _ (ih hm)
      | unlock => exact List.mem_cons_of_mem _ (ih hm)
  cases hs : q.single with
  | false =>
    rw [request_tree hq hs, messages_treeM] at h
    rcases List.mem_append.mp h with h | h
    · have := loopM_sound _ _ (mem h)
      exact ⟨(List.mem_filter.mp this.1).1, (List.mem_filter.mp this.1).2, fun _ => this.2⟩
    · split at h <;> simp at h
  | true =>
    cases q with
    | «instance» n =>
      rw [request_one hq] at h
      split at h
      · simp [messages, err1, err0] at h
      · rename_i t ht
        have h2 : Msg.share s more ∈ messages (sendReply E t false).1 := by
          simp only [List.cons_append, messages, messages_append] at h
          rcases List.mem_append.mp h with h | h
          · exact h
          · split at h <;> simp [messages, err1, err0] at h
        have h3 : s = t := by
          rcases sendReply_acts (E := E) t false with ⟨h1, _⟩ | h1 <;> rw [h1] at h2 <;>
            simp [messages] at h2
          exact h2.1
        subst h3
        have h4 := List.find?_some ht
        exact ⟨List.mem_of_find?_eq_some ht, h4, by simp⟩
    | schema n => cases hs
    | instanceRe p => cases hs
    | schemaRe p => cases hs

/-- If a sending fails, what has been sent is a beginning of the sets asked for that may be read. -/
theorem lookup_prefix (hq : Asks E flags path q) (hs : q.single = false) (tree : List SetR) :
    shared (messages (request E flags path tree)) <+: tree.filter fun s => q.wants s && E.acc s := by
  rw [request_tree hq hs, messages_treeM, shared_append]
  have h1 := loopM_prefix (E := E) (tree.filter q.wants) false
  rw [List.filter_filter] at h1
  have h2 : shared (match (loopM E (tree.filter q.wants) false).2 with
       | .error rc => [.err rc]
       | .done true => []
       | .done false => [.err ENOENT]) = [] := by
    split <;> rfl
  rw [h2, List.append_nil]
  have h3 : (tree.filter fun a => E.acc a && q.wants a) = tree.filter fun s => q.wants s && E.acc s :=
    List.filter_congr fun s _ => Bool.and_comm _ _
  rw [h3] at h1
  exact h1

/-- If nothing that is asked for may be read, the answer is that there is no such set. -/
theorem lookup_none (hq : Asks E flags path q) (hs : q.single = false) (tree : List SetR)
    (h : ∀ s ∈ tree, q.wants s = true → E.acc s = false) :
    messages (request E flags path tree) = [.err ENOENT] := by
  rw [request_tree hq hs, messages_treeM]
  have hf : (tree.filter q.wants).filter E.acc = [] := by
    rw [List.filter_eq_nil_iff]
    intro s hs
    have := h s (List.mem_filter.mp hs).1 (List.mem_filter.mp hs).2
    simp [this]
  have h2 : ∀ M b, M.filter E.acc = [] → loopM E M b = ([], .done b) := by
    intro M
    induction M with
    | nil => intro b _; rfl
    | cons t M ih =>
      intro b hM
      cases ha : E.acc t with
      | true => simp [ha] at hM
      | false =>
        simp only [List.filter_cons, ha, if_neg Bool.false_ne_true] at hM
        simp [loopM, ha, ih b hM]
  rw [h2 _ _ hf]
  rfl

/-- If a set asked for that may be read cannot be sent, the last message is an error. -/
theorem lookup_error_reported (hq : Asks E flags path q) (hs : q.single = false) (tree : List SetR) {s : SetR}
    (hm : s ∈ tree) (hw : q.wants s = true) (ha : E.acc s = true) (hE : ¬ Sends E s) :
    ∃ rc, rc ≠ 0 ∧ (messages (request E flags path tree)).getLast? = some (.err rc) := by
  rw [request_tree hq hs, messages_treeM]
  have h1 : ∀ (M : List SetR) (b : Bool), s ∈ M → ∃ rc, rc ≠ 0 ∧ (loopM E M b).2 = .error rc := by
    intro M
    induction M with
    | nil => intro b h; cases h
    | cons t M ih =>
      intro b h
      simp only [loopM]
      split
      · rename_i hat
        rcases List.mem_cons.mp h with rfl | h
        · simp [ha] at hat
        · exact ih b h
      · split
        · rename_i hr; exact ⟨_, hr, rfl⟩
        · rename_i hr
          rcases List.mem_cons.mp h with rfl | h
          · exact absurd ((sendReply_rc _ _).mp (Classical.not_not.mp hr)) hE
          · exact ih true h
  obtain ⟨rc, h0, h2⟩ := h1 (tree.filter q.wants) false (List.mem_filter.mpr ⟨hm, hw⟩)
  rw [h2]
  exact ⟨rc, h0, by simp⟩

/-- A name no set has. -/
theorem lookup_no_name {n : Text} (hq : Asks E flags path (.instance n)) (tree : List SetR)
    (h : ∀ s ∈ tree, s.name ≠ n) : messages (request E flags path tree) = [.err ENOENT] := by
  rw [request_one hq]
  have : tree.find? (fun s => s.name == n) = none := by
    rw [List.find?_eq_none]
    intro s hs
    simpa using h s hs
  rw [this]
  rfl

/-- A name that a set has: the set is sent, and nothing else comes. -/
theorem lookup_name {n : Text} (hq : Asks E flags path (.instance n)) (tree : List SetR) {s : SetR}
    (hs : s ∈ tree) (hn : s.name = n) (hnd : (tree.map SetR.name).Nodup) (hE : Sends E s) :
    messages (request E flags path tree) = [.share s false] := by
  rw [request_one hq]
  have : tree.find? (fun s => s.name == n) = some s := by
    induction tree with
    | nil => cases hs
    | cons t tree ih =>
      rw [List.map_cons, List.nodup_cons] at hnd
      rcases List.mem_cons.mp hs with rfl | hs
      · simp [hn]
      · have : t.name ≠ n := fun he => hnd.1 (by rw [he, ← hn]; exact List.mem_map_of_mem hs)
        rw [List.find?_cons_of_neg (by simpa using this)]
        exact ih hs hnd.2
  rw [this]
  simp only [sendReply_ok hE]
  rfl

/-- A name whose set cannot be sent. -/
theorem lookup_name_error {n : Text} (hq : Asks E flags path (.instance n)) (tree : List SetR) {s : SetR}
    (hs : tree.find? (fun s => s.name == n) = some s) (hE : ¬ Sends E s) :
    ∃ rc, rc ≠ 0 ∧ (messages (request E flags path tree)).getLast? = some (.err rc) := by
  rw [request_one hq, hs]
  have h : (sendReply E s false).2 ≠ 0 := fun h => hE ((sendReply_rc _ _).mp h)
  refine ⟨_, h, ?_⟩
  simp [h, messages, messages_append, err1, err0]

/-- An expression that is none. -/
theorem lookup_bad (h2 : flags % 4 = 2 ∨ flags % 4 = 3) (h : E.comp path = none) (tree : List SetR) :
    messages (request E flags path tree) = [.err EINVAL] := by
  obtain ⟨_, f2⟩ := flag_mod (flags := flags)
  unfold request
  have : fRe flags = true := by rcases h2 with h2 | h2 <;> rw [f2, h2] <;> rfl
  rw [this, h]
  rfl

/-! ## The lock of the tree of sets -/

/-- The lock is taken and released by its rules, except where a set of the name given cannot be sent, and where sets
match but none may be read. -/
theorem lookup_lock (hq : Asks E flags path q) (tree : List SetR) :
    follow false (request E flags path tree) = some false ↔
      ¬ (q.single = false ∧ (∃ s ∈ tree, q.wants s = true) ∧ ∀ s ∈ tree, q.wants s = true → E.acc s = false) ∧
      ¬ (q.single = true ∧ ∃ s, tree.find? q.wants = some s ∧ ¬ Sends E s) := by
  cases hs : q.single with
  | false =>
    rw [request_tree hq hs, treeM_lock]
    simp only [Bool.false_eq_true, false_and, not_false_eq_true, and_true, true_and]
    have h1 : tree.filter q.wants ≠ [] ↔ ∃ s ∈ tree, q.wants s = true := by
      rw [Ne, List.filter_eq_nil_iff]; simp
    have h2 : (tree.filter q.wants).filter E.acc = [] ↔ ∀ s ∈ tree, q.wants s = true → E.acc s = false := by
      rw [List.filter_eq_nil_iff]; simp
    rw [h1, h2]
  | true =>
    cases q with
    | «instance» n =>
      rw [request_one hq]
      have hw : (Query.instance n).wants = fun s => s.name == n := rfl
      rw [hw]
      cases hf : tree.find? (fun s => s.name == n) with
      | none => simp [follow, err1, err0]
      | some t =>
        simp only [List.cons_append, follow, follow_sends _ _ _ (sendReply_sends t false)]
        have h3 := sendReply_rc (E := E) t false
        by_cases h : (sendReply E t false).2 = 0
        · simp [h, follow, h3.mp h]
        · have h4 : ¬ Sends E t := fun h' => h (h3.mpr h')
          simp [h, follow, h4, err1]
    | schema n => cases hs
    | instanceRe p => cases hs
    | schemaRe p => cases hs

/-! ## What the application is told -/

/-- Sets come with the flag on all but the last. -/
theorem client_any {W : World} {held : List Text} {l : List SetR} (hl : l ≠ []) (hnd : (l.map SetR.name).Nodup)
    (hnh : ∀ s ∈ l, s.name ∉ held) (hw : ∀ s ∈ l, W.createRc s.name = 0 ∧ W.readRc s.name = 0)
    (evs : List Ev) (hev : arrived evs <+: flagged l) :
    (run W (asked held) evs).fault = none ∧ (run W (asked held) evs).calls <+: told W l ∧
    (arrived evs = flagged l → (run W (asked held) evs).reads = [] →
      (run W (asked held) evs).calls = told W l ∧
      (run W (asked held) evs).live = false ∧ (run W (asked held) evs).rail = false ∧
      ∀ x, x ∈ (run W (asked held) evs).held ↔ x ∈ held ∨ ∃ s ∈ l, W.readOk s.name = true ∧ x = s.name) := by
  obtain ⟨rest, hrest⟩ := hev
  obtain ⟨D, P, todo, he, hf, hinv⟩ := (Inv.start (W := W) held l hl).run evs rest hrest
    (by simpa using hnd) (by simpa using hnh) hw
  simp only [List.nil_append] at he
  have hcalls := hinv.calls
  rw [he] at hcalls
  refine ⟨hinv.ok, ⟨_, hcalls.symm⟩, fun ha hr => ?_⟩
  have hrest' : rest = [] := by
    rw [ha] at hrest
    exact List.append_right_eq_self.mp hrest
  have htodo : todo = [] := by
    rw [hrest'] at hf
    cases todo with
    | nil => rfl
    | cons s todo => rw [flagged_cons] at hf; cases hf
  have hP : P = [] := by
    rw [hinv.reads] at hr
    cases P with
    | nil => rfl
    | cons s P => cases hr
  subst htodo hP
  simp only [List.append_nil] at he
  subst he
  refine ⟨by simpa [told] using hcalls.symm, by simpa using hinv.live, by simpa using hinv.rail, ?_⟩
  intro x
  rw [hinv.held]
  simp

/-- A lookup by schema or by an expression, answered in full: whatever the order in which the replies come and the reads of
the sets end, nothing bad happens, the calls made are at any time a beginning of one call for each set asked for that may
be read, in the order of names, with `more` on all but the last; and once all has come and been read, all
of them have been made, and what the request held is free.  Missing: the last set that matches may not be
readable (`lookup_more_defect`), one may be there already (`lookup_held_defect`), a set may fail
(`lookup_failed_defect`). -/
theorem lookup_told_partial (hq : Asks E flags path q) (hs : q.single = false) (tree : List SetR)
    (hnd : (tree.map SetR.name).Nodup)
    (hE : ∀ s ∈ tree, E.acc s = true → Sends E s)
    (hlast : ∀ s, (tree.filter q.wants).getLast? = some s → E.acc s = true)
    {s₀ : SetR} (h₀ : s₀ ∈ tree) (hw₀ : q.wants s₀ = true)
    {W : World} {held : List Text}
    (hnh : ∀ s ∈ tree, q.wants s = true → s.name ∉ held)
    (hW : ∀ s ∈ tree, W.createRc s.name = 0 ∧ W.readRc s.name = 0)
    (evs : List Ev) (hev : arrived evs <+: messages (request E flags path tree)) :
    let sets := tree.filter fun s => q.wants s && E.acc s
    let c := run W (asked held) evs
    c.fault = none ∧ c.calls <+: told W sets ∧
    (arrived evs = messages (request E flags path tree) → c.reads = [] →
      c.calls = told W sets ∧ c.live = false ∧ c.rail = false ∧
      ∀ x, x ∈ c.held ↔ x ∈ held ∨ ∃ s ∈ sets, W.readOk s.name = true ∧ x = s.name) := by
  have hM : tree.filter q.wants ≠ [] := by
    intro h
    rw [List.filter_eq_nil_iff] at h
    exact h s₀ h₀ hw₀
  have hsets : (tree.filter q.wants).filter E.acc = tree.filter fun s => q.wants s && E.acc s := by
    rw [List.filter_filter]
    exact List.filter_congr fun s _ => Bool.and_comm _ _
  have hne : (tree.filter q.wants).filter E.acc ≠ [] := by
    intro h
    have h1 := List.getLast?_eq_some_getLast hM
    have h2 := hlast _ h1
    rw [List.filter_eq_nil_iff] at h
    exact h _ (List.mem_of_getLast? h1) h2
  have hmsgs : messages (request E flags path tree) = flagged ((tree.filter q.wants).filter E.acc) := by
    rw [request_tree hq hs, messages_treeM]
    have h1 := loopM_all (E := E) (tree.filter q.wants) false (fun s h => hE s (List.mem_filter.mp h).1)
    rw [h1.2]
    have : (!((tree.filter q.wants).filter E.acc).isEmpty) = true := by
      cases h : (tree.filter q.wants).filter E.acc with
      | nil => exact absurd h hne
      | cons _ _ => rfl
    rw [this]
    simp only [Bool.or_true, List.append_nil]
    exact loopM_flagged _ _ (fun s h => hE s (List.mem_filter.mp h).1) hlast
  rw [hmsgs] at hev
  rw [hsets] at hne hev
  simp only
  rw [hmsgs, hsets]
  exact client_any hne ((List.filter_sublist.map SetR.name).nodup hnd)
    (fun s h => hnh s (List.mem_filter.mp h).1 (by have := (List.mem_filter.mp h).2; simp at this; exact this.1))
    (fun s h => hW s (List.mem_filter.mp h).1) evs hev

/-- A lookup of one name that a set has. -/
theorem lookup_name_told {n : Text} (hq : Asks E flags path (.instance n)) (tree : List SetR) {s : SetR}
    (hs : s ∈ tree) (hn : s.name = n) (hnd : (tree.map SetR.name).Nodup) (hE : Sends E s)
    {W : World} {held : List Text} (hnh : n ∉ held) (hW : W.createRc n = 0 ∧ W.readRc n = 0)
    (evs : List Ev) (hev : arrived evs = messages (request E flags path tree))
    (hr : (run W (asked held) evs).reads = []) :
    (run W (asked held) evs).fault = none ∧
    (run W (asked held) evs).calls = [if W.readOk n then ⟨0, false, some n⟩ else ⟨EREMOTEIO, false, none⟩] ∧
    (run W (asked held) evs).live = false ∧ (run W (asked held) evs).rail = false := by
  subst hn
  have hm := lookup_name hq tree hs rfl hnd hE
  have := client_any (W := W) (held := held) (l := [s]) (List.cons_ne_nil _ _) (by simp)
    (by simpa using hnh) (by simpa using hW) evs (by rw [hev, hm]; exact List.prefix_refl _)
  obtain ⟨h1, _, h3⟩ := this
  obtain ⟨h4, h5, h6, _⟩ := h3 (by rw [hev, hm]; rfl) hr
  exact ⟨h1, h4, h5, h6⟩

/-- A reply that there is no such set, or another error, ends the request with one call. -/
theorem lookup_error_told {W : World} {held : List Text} {rc : Nat} (hrc : rc ≠ 0) (evs : List Ev)
    (hev : arrived evs = [.err rc]) :
    run W (asked held) evs = ⟨held, false, false, [], [⟨rc, false, none⟩], none⟩ := by
  have idle : ∀ (c : Client) (evs : List Ev), c.reads = [] → arrived evs = [] → run W c evs = c := by
    intro c evs hc
    induction evs with
    | nil => intro _; rfl
    | cons e evs ih =>
      intro ha
      cases e with
      | message m => cases ha
      | read =>
        have : step W c .read = c := by simp [step, readDone, hc]
        simp only [run, List.foldl_cons, this]
        exact ih ha
  induction evs with
  | nil => cases hev
  | cons e evs ih =>
    cases e with
    | message m =>
      simp only [arrived, List.cons.injEq] at hev
      obtain ⟨rfl, hev⟩ := hev
      have : step W (asked held) (.message (.err rc)) = ⟨held, false, false, [], [⟨rc, false, none⟩], none⟩ := by
        simp [step, asked, lookupReply, hrc, failed, callback]
      simp only [run, List.foldl_cons, this]
      exact idle _ evs rfl hev
    | read =>
      have : step W (asked held) .read = asked held := by simp [step, asked, readDone]
      simp only [run, List.foldl_cons, this]
      exact ih hev

/-! ## Requests that are not sent -/

/-- A path of more than 511 characters is refused; so is one that is the name of a set there is. -/
theorem lookup_refused (held : List Text) (path : Text) (flags : Nat) :
    (refuse held path flags true = 0 ↔ path.length ≤ 511 ∧ path ∉ held) ∧
    (511 < path.length → refuse held path flags true = EINVAL) := by
  unfold refuse
  simp only [if_true, Nat.and_zero]
  constructor
  · by_cases h : path.length > 511
    · simp only [h, or_true, if_true, EINVAL]; exact ⟨(fun h' => nomatch h'), (fun h' => by omega)⟩
    · by_cases h2 : path ∈ held
      · simp [h, h2, EEXIST]
      · simp [h, h2]; omega
  · intro h; simp [h]

/-! ## Where it goes wrong -/

def sA : SetR := ⟨['a'], ['m']⟩
def sB : SetR := ⟨['b'], ['m']⟩
def sC : SetR := ⟨['c'], ['n']⟩

/-- Any text is an expression for any name; `a` may be read, `b` may not. -/
def envX : Env := ⟨fun _ => some fun _ => true, fun s => s.name == ['a'], fun _ => 0, fun _ => 0⟩

/-- All may be read. -/
def envY : Env := ⟨fun _ => some fun _ => true, fun _ => true, fun _ => 0, fun _ => 0⟩

def worldOk : World := ⟨fun _ => 0, fun _ => 0, fun _ => true⟩

/-- The name of a set gives it to a peer that may not read it. -/
theorem lookup_access_defect :
    envX.acc sB = false ∧ messages (request envX 0 ['b'] [sA, sB]) = [.share sB false] := by
  decide

/-- The last set that matches may not be read: the reply before it says that more come, and the request stays
open, whatever happens at the daemon that asks. -/
theorem lookup_more_defect :
    messages (request envX 1 ['m'] [sA, sB]) = [.share sA true] ∧
    ∀ (W : World) (held : List Text) (evs : List Ev), arrived evs <+: [.share sA true] →
      W.createRc ['a'] = 0 → W.readRc ['a'] = 0 → ['a'] ∉ held →
      (run W (asked held) evs).live = true ∧ ∀ k ∈ (run W (asked held) evs).calls, k.more = true := by
  refine ⟨by decide, ?_⟩
  intro W held evs hev hc hr hn
  obtain ⟨rest, hrest⟩ := hev
  have key : ∀ (evs : List Ev) (c : Client), (c = asked held ∨
      (c.live = true ∧ (∀ k ∈ c.calls, k.more = true) ∧ (∀ p ∈ c.reads, p.2 = true) ∧ arrived evs = [])) →
      (arrived evs = [] ∨ arrived evs = [.share sA true]) →
      (run W c evs).live = true ∧ ∀ k ∈ (run W c evs).calls, k.more = true := by
    intro evs
    induction evs with
    | nil =>
      rintro c (rfl | h) _
      · simp [run, asked]
      · exact ⟨h.1, h.2.1⟩
    | cons e evs ih =>
      intro c hc' ha
      simp only [run, List.foldl_cons]
      cases e with
      | message m =>
        have ha' : m = .share sA true ∧ arrived evs = [] := by simpa [arrived] using ha
        obtain ⟨rfl, ha'⟩ := ha'
        rcases hc' with rfl | h
        · have h1 : step W (asked held) (.message (.share sA true)) =
              ⟨['a'] :: held, true, true, [(['a'], true)], [], none⟩ := by
            simp [step, asked, rendezvous, sA, hn, hc, hr]
          rw [h1]
          exact ih _ (.inr ⟨rfl, by simp, by simp, ha'⟩) (.inl ha')
        · cases h.2.2.2
      | read =>
        simp only [arrived] at ha
        rcases hc' with rfl | ⟨h1, h2, h3, h4⟩
        · have h1 : step W (asked held) .read = asked held := by simp [step, asked, readDone]
          rw [h1]
          exact ih _ (.inl rfl) ha
        · refine ih _ (.inr ?_) ha
          simp only [arrived] at h4
          unfold step
          split
          · exact ⟨h1, h2, h3, h4⟩
          · simp only [readDone]
            split
            · exact ⟨h1, h2, h3, h4⟩
            · rename_i name more rest' hr'
              have hm : more = true := h3 (name, more) (by rw [hr']; exact List.mem_cons_self)
              have hrest : ∀ p ∈ rest', p.2 = true := fun p hp => h3 p (by rw [hr']; exact List.mem_cons_of_mem _ hp)
              subst hm
              split <;> unfold callback <;> split
              · exact ⟨h1, h2, hrest, h4⟩
              · refine ⟨h1, ?_, hrest, h4⟩
                intro k hk
                rcases List.mem_append.mp hk with hk | hk
                · exact h2 k hk
                · rw [List.mem_singleton.mp hk]
              · exact ⟨h1, h2, hrest, h4⟩
              · refine ⟨h1, ?_, hrest, h4⟩
                intro k hk
                rcases List.mem_append.mp hk with hk | hk
                · exact h2 k hk
                · rw [List.mem_singleton.mp hk]
  apply key evs _ (.inl rfl)
  cases h : arrived evs with
  | nil => exact .inl rfl
  | cons m l =>
    rw [h] at hrest
    simp only [List.cons_append, List.cons.injEq, List.append_eq_nil_iff] at hrest
    exact .inr (by rw [hrest.1, hrest.2.1])

/-- A set that matches is there already: the program writes through a null pointer. -/
theorem lookup_held_defect :
    refuse [['a']] ['m'] 1 true = 0 ∧
    messages (request envY 1 ['m'] [sA, sB]) = [.share sA true, .share sB false] ∧
    (run worldOk (asked [['a']]) [.message (.share sA true), .read, .message (.share sB false)]).fault =
      some .null := by
  decide

/-- A set cannot be made: the request is given up, and the next reply finds it freed. -/
theorem lookup_failed_defect :
    (run ⟨fun n => if n = ['a'] then ENOMEM else 0, fun _ => 0, fun _ => true⟩ (asked [])
      [.message (.share sA true), .message (.share sB false)]).fault = some .freed := by
  decide

/-- The daemon asked cannot send the second set: its error ends the request while the first is being read, and the
end of the read calls a function whose context is freed. -/
theorem lookup_midway_defect :
    messages (request ⟨fun _ => none, fun _ => true, fun s => if s = sB then 5 else 0, fun _ => 0⟩ 1 ['m']
      [sA, sB]) = [.share sA true, .err 5] ∧
    (run worldOk (asked []) [.message (.share sA true), .message (.err 5), .read]).fault = some .freed := by
  decide

/-- Sets match but none may be read: a lock that is not held is released. -/
theorem lookup_lock_defect :
    request envX 1 ['m'] [sB] = [.lock, .unlock, .unlock, .send (.err ENOENT)] ∧
    follow false (request envX 1 ['m'] [sB]) = none := by
  decide

/-- Without a function to call, a lookup by schema is refused, one by an expression is not. -/
theorem lookup_sync_defect :
    refuse [] ['m'] 1 false = EINVAL ∧ refuse [] ['m'] 2 false = 0 := by
  decide

/-! ## Cases -/

example : Asks envY 1 ['m'] (.schema ['m']) ∧ Asks envY 2 ['.', '*'] (.instanceRe fun _ => true) ∧
    Asks envY 0 ['a'] (.instance ['a']) := ⟨⟨rfl, rfl⟩, ⟨rfl, rfl⟩, ⟨rfl, rfl⟩⟩

example : messages (request envY 1 ['m'] [sA, sB, sC]) = [.share sA true, .share sB false] ∧
    messages (request envY 2 ['.'] [sA, sB, sC]) = [.share sA true, .share sB true, .share sC false] ∧
    messages (request envY 0 ['c'] [sA, sB, sC]) = [.share sC false] ∧
    messages (request envX 3 ['.'] [sA, sB, sC]) = [.share sA true] ∧
    messages (request envY 1 ['x'] [sA, sB, sC]) = [.err ENOENT] := by
  decide

/-- The hypotheses of `lookup_told_partial`, with reads that end late and one that fails. -/
example : (run ⟨fun _ => 0, fun _ => 0, fun n => n == ['a']⟩ (asked [['z']])
    [.message (.share sA true), .message (.share sB false), .read, .read]) =
    ⟨[['a'], ['z']], false, false, [], [⟨0, true, some ['a']⟩, ⟨EREMOTEIO, false, none⟩], none⟩ := by
  decide

example : (∀ s ∈ [sA, sB, sC], envY.acc s = true → Sends envY s) ∧
    ([sA, sB, sC].map SetR.name).Nodup ∧ (Query.schema ['m']).wants sA = true ∧
    (∀ s, ([sA, sB, sC].filter (Query.schema ['m']).wants).getLast? = some s → envY.acc s = true) ∧
    (Query.schema ['m']).single = false :=
  ⟨fun _ _ _ => ⟨rfl, rfl⟩, by decide, rfl, fun _ _ => rfl, rfl⟩

end Verif.Lookup
