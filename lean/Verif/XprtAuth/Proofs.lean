import Verif.XprtAuth.Spec
import Verif.Common.ListLemmas

/-! Every step is one of a few kinds; invariants of single transports. -/

namespace Verif.XprtAuth

/-- what the message `m` shows as user `u` and group `v`, at a side that issued `chal` -/
def ShownBy (g : Cfg) (chal : Option Nat) (m : Msg) (u v : Nat) : Prop :=
  match g.plugin with
  | .none => False
  | .naive => m.len = 8 ∧ 8 ≤ m.body.length ∧ u = beVal (m.body.take 4) ∧ v = beVal ((m.body.drop 4).take 4)
  | .ovis => u = 0 ∧ v = 0 ∧ ∃ c, chal = some c ∧ IsReply m (g.H c g.secret)
  | .munge => g.munge m.body = some (u, v)

/-- how the record of handled messages may grow -/
def Grown (x x' : X) : Prop :=
  x'.handled = x.handled ∨ ∃ cmd, x'.handled = x.handled ++ [⟨cmd, x.ruid, x.rgid⟩]

inductive Tr (g : Cfg) (x : X) : Ev → X → Prop
  | quiet (e : Ev) (x' : X) (hf : x'.flag = x.flag) (hc : x'.chal = x.chal) (hu : x'.ruid = x.ruid)
      (hg : x'.rgid = x.rgid) (ho : conns x'.out = conns x.out)
      (hs : x'.sent = x.sent ∨ ∃ m, e = .ask m ∧ isRequest m.cmd = true ∧ x.flag = .approved ∧
        x'.sent = x.sent ++ [m])
      (hh : Grown x x') (h1 : e ≠ .connectError) (h2 : e ≠ .rejected)
      (h3 : e = .disconnected → g.rail = false ∧ g.active = false ∧ x.flag ≠ .approved)
      (h4 : ∀ m ok, e = .recv m ok → m.cmd = cmdAuth → x.flag = .busy ∧ g.plugin = .none) :
      Tr g x e x'
  | wait (w : Bool) (c : Nat) (ok : Bool) (x' : X) (h0 : x.flag = .init) (hf : x'.flag = .busy)
      (hc : x'.chal = if g.plugin = .ovis then some c else x.chal) (hu : x'.ruid = x.ruid)
      (hg : x'.rgid = x.rgid) (ho : x'.out = x.out)
      (hs : x'.sent = x.sent ∨ (g.plugin = .naive ∧ x'.sent = x.sent ++ [authMsg (naiveCred g.uid g.gid)]) ∨
        (g.plugin = .ovis ∧ x'.sent = x.sent ++ [authMsg (ovisChal c)]) ∨
        (g.plugin = .munge ∧ x'.sent = x.sent ++ [authMsg (g.mungeCred ++ [0])]))
      (hh : x'.handled = x.handled) : Tr g x (.connected w c ok) x'
  | free (w : Bool) (c : Nat) (ok : Bool) (x' : X) (h0 : x.flag = .init) (hp : g.plugin = .none)
      (hf : x'.flag = .approved) (hc : x'.chal = x.chal) (hu : x'.ruid = 0) (hg : x'.rgid = 0)
      (ho : x'.out = x.out ++ [.connected]) (hs : x'.sent = x.sent) (hh : x'.handled = x.handled) :
      Tr g x (.connected w c ok) x'
  | approve (m : Msg) (ok : Bool) (x' : X) (hm : m.cmd = cmdAuth) (h0 : x.flag = .busy)
      (hf : x'.flag = .approved) (hc : x'.chal = x.chal) (hw : ShownBy g x.chal m x'.ruid x'.rgid)
      (ho : x'.out = x.out ++ [.connected]) (hs : x'.sent = x.sent) (hh : x'.handled = x.handled) :
      Tr g x (.recv m ok) x'
  | answer (m : Msg) (ok : Bool) (c : Nat) (x' : X) (hp : g.plugin = .ovis) (hm : IsChal m c)
      (h0 : x.flag = .busy)
      (hx : x' = { x with sent := x.sent ++ [authMsg (ovisReply (g.H c g.secret))] }) :
      Tr g x (.recv m ok) x'
  | fail (m : Msg) (ok : Bool) (hm : m.cmd = cmdAuth) : Tr g x (.recv m ok) (authFail x)
  | last (e : Ev) (t : App) (x' : X) (he : (e = .disconnected ∧ t = endEvent x.flag) ∨
        (e = .connectError ∧ t = .error) ∨ (e = .rejected ∧ t = .rejected ∧ g.active = true))
      (hd : e = .disconnected → (g.active = true ∨ g.rail = true) ∨ x.flag = .approved)
      (hf : x'.flag = x.flag) (hc : x'.chal = x.chal) (hu : x'.ruid = x.ruid)
      (hg : x'.rgid = x.rgid) (ho : x'.out = x.out ++ [t]) (hs : x'.sent = x.sent)
      (hh : x'.handled = x.handled) : Tr g x e x'

theorem strcmpEq_true : ∀ (b h : List Nat), strcmpEq b h = some true → h ++ [0] <+: b := by
  intro b
  induction b with
  | nil => intro h hh; simp [strcmpEq] at hh
  | cons k ks ih =>
    intro h hh
    simp only [strcmpEq] at hh
    split at hh
    · next hk =>
      cases h with
      | nil => subst hk; exact ⟨ks, rfl⟩
      | cons a l => simp at hh
    · cases h with
      | nil => simp at hh
      | cons a l =>
        simp only at hh
        split at hh
        · next he =>
          subst he
          obtain ⟨r, hr⟩ := ih l hh
          exact ⟨r, by simp [← hr]⟩
        · simp at hh

theorem strcmpEq_self : ∀ (h r : List Nat), 0 ∉ h → strcmpEq (h ++ 0 :: r) h = some true := by
  intro h
  induction h with
  | nil => intro r _; simp [strcmpEq]
  | cons a l ih =>
    intro r hz
    simp only [List.mem_cons, not_or] at hz
    have ha : a ≠ 0 := fun hh => hz.1 hh.symm
    simp only [List.cons_append, strcmpEq, ha, if_false, if_true]
    exact ih r hz.2

theorem take_eq_prefix (k : Nat) (b l : List Nat) (h : b.take k = l) : l <+: b :=
  h ▸ List.take_prefix k b

theorem reply_prefix (b h : List Nat) (h1 : b.take 4 = [2, 0, 0, 0]) (h2 : h ++ [0] <+: b.drop 4) :
    ovisReply h <+: b := by
  obtain ⟨r, hr⟩ := h2
  refine ⟨r, ?_⟩
  rw [ovisReply, List.append_assoc, List.append_assoc, ← List.append_assoc h, hr, ← h1,
    List.take_append_drop]

theorem conns_append (a b : List App) : conns (a ++ b) = conns a ++ conns b := by
  simp [conns]

theorem handle_tr (g : Cfg) (x : X) (m : Msg) (ok : Bool) (hm : m.cmd ≠ cmdAuth) :
    Tr g x (.recv m ok) (handle x m) := by
  have hq : ∀ (o : List App), conns o = conns x.out →
      Tr g x (.recv m ok) { x with handled := x.handled ++ [⟨m.cmd, x.ruid, x.rgid⟩], out := o } := by
    intro o ho
    exact .quiet _ _ rfl rfl rfl rfl ho (.inl rfl) (.inr ⟨_, rfl⟩) (fun h => by cases h) (fun h => by cases h)
      (fun h => by cases h) (fun m' ok' h h' => by cases h; exact absurd h' hm)
  unfold handle
  dsimp only
  split
  · exact hq _ (by rw [conns_append]; simp [conns, isConn])
  · split
    · exact hq _ (by rw [conns_append]; simp [conns, isConn])
    · exact hq _ rfl

theorem recvAuth_tr (g : Cfg) (x x' : X) (m : Msg) (ok : Bool) (hm : m.cmd = cmdAuth)
    (h : recvAuth g x m.len m.body ok = some x') : Tr g x (.recv m ok) x' := by
  unfold recvAuth at h
  split at h
  · cases h; exact .fail m ok hm
  · next hb =>
    have hb : x.flag = .busy := Decidable.not_not.mp hb
    split at h
    · next hp =>
      cases h
      exact .quiet _ _ rfl rfl rfl rfl rfl (.inl rfl) (.inl rfl) (fun h => by cases h) (fun h => by cases h)
        (fun h => by cases h) (fun _ _ _ _ => ⟨hb, hp⟩)
    · next hp =>
      split at h
      · cases h; exact .fail m ok hm
      · next hl =>
        split at h
        · cases h
        · next hl2 =>
          cases h
          refine .approve m ok _ hm hb rfl rfl ?_ rfl rfl rfl
          rw [ShownBy, hp]
          exact ⟨Decidable.not_not.mp hl, Nat.le_of_not_lt hl2, rfl, rfl⟩
    · next hp =>
      split at h
      · cases h
      · split at h
        · next h1 =>
          split at h
          · cases h
          · next h12 =>
            split at h
            · next hok =>
              exact .answer m ok _ x' hp ⟨hm, take_eq_prefix 4 _ _ h1, Nat.le_of_not_lt h12, rfl⟩ hb
                (Option.some.inj h).symm
            · cases h; exact .fail m ok hm
        · split at h
          · next h2 =>
            split at h
            · cases h
            · split at h
              · cases h; exact .fail m ok hm
              · split at h
                · cases h
                · next c hc =>
                  split at h
                  · cases h
                  · next hs =>
                    cases h
                    refine .approve m ok _ hm hb rfl rfl ?_ rfl rfl rfl
                    rw [ShownBy, hp]
                    exact ⟨rfl, rfl, c, hc, hm, reply_prefix _ _ h2 (strcmpEq_true _ _ hs)⟩
                  · cases h; exact .fail m ok hm
          · cases h; exact .fail m ok hm
    · next hp =>
      split at h
      · cases h; exact .fail m ok hm
      · next u v hd =>
        cases h
        refine .approve m ok _ hm hb rfl rfl ?_ rfl rfl rfl
        rw [ShownBy, hp]
        exact hd

theorem authBegin_tr (g : Cfg) (x : X) (w : Bool) (c : Nat) (ok : Bool) :
    Tr g x (.connected w c ok) (authBegin g x c ok) := by
  unfold authBegin
  split
  · exact .quiet _ _ rfl rfl rfl rfl rfl (.inl rfl) (.inl rfl) (fun h => by cases h) (fun h => by cases h)
      (fun h => by cases h) (fun _ _ h _ => by cases h)
  · next h0 =>
    have h0 : x.flag = .init := Decidable.not_not.mp h0
    dsimp only
    cases hp : g.plugin with
    | none => exact .free w c ok _ h0 hp rfl rfl rfl rfl rfl rfl rfl
    | naive =>
      cases ok
      · exact .wait w c _ _ h0 rfl (by simp [hp]) rfl rfl rfl (.inl rfl) rfl
      · exact .wait w c _ _ h0 rfl (by simp [hp]) rfl rfl rfl (.inr (.inl ⟨hp, rfl⟩)) rfl
    | ovis =>
      cases ok
      · exact .wait w c _ _ h0 rfl (by simp [hp]) rfl rfl rfl (.inl rfl) rfl
      · exact .wait w c _ _ h0 rfl (by simp [hp]) rfl rfl rfl (.inr (.inr (.inl ⟨hp, rfl⟩))) rfl
    | munge =>
      cases ok
      · exact .wait w c _ _ h0 rfl (by simp [hp]) rfl rfl rfl (.inl rfl) rfl
      · exact .wait w c _ _ h0 rfl (by simp [hp]) rfl rfl rfl (.inr (.inr (.inr ⟨hp, rfl⟩))) rfl

theorem step_tr (g : Cfg) (x x' : X) (e : Ev) (h : step g x e = some x') : Tr g x e x' := by
  cases e with
  | connected w c ok =>
    simp only [step] at h
    split at h
    · cases h
      exact .quiet _ _ rfl rfl rfl rfl rfl (.inl rfl) (.inl rfl) (fun h => by cases h) (fun h => by cases h)
        (fun h => by cases h) (fun _ _ h _ => by cases h)
    · cases h; exact authBegin_tr g x w c ok
  | connectError =>
    simp only [step] at h
    cases h
    exact .last _ .error _ (.inr (.inl ⟨rfl, rfl⟩)) (fun h => by cases h) rfl rfl rfl rfl rfl rfl rfl
  | rejected =>
    simp only [step] at h
    split at h
    · next ha =>
      cases h
      exact .last _ .rejected _ (.inr (.inr ⟨rfl, rfl, ha⟩)) (fun h => by cases h) rfl rfl rfl rfl rfl rfl rfl
    · cases h
  | disconnected =>
    simp only [step] at h
    split at h
    · next hy =>
      cases h
      refine .last _ (endEvent x.flag) _ (.inl ⟨rfl, rfl⟩) (fun _ => ?_) rfl rfl rfl rfl rfl rfl rfl
      simp only [Bool.or_eq_true, decide_eq_true_eq] at hy
      rcases hy with (hy | hy) | hy
      · exact .inl (.inr hy)
      · exact .inl (.inl hy)
      · refine .inr ?_
        cases hf : x.flag <;> simp [hf, endEvent] at hy ⊢
    · next hn =>
      cases h
      simp only [Bool.or_eq_true, decide_eq_true_eq, not_or, Bool.not_eq_true] at hn
      refine .quiet _ _ rfl rfl rfl rfl rfl (.inl rfl) (.inl rfl) (fun h => by cases h) (fun h => by cases h)
        (fun _ => ⟨hn.1.1, hn.1.2, ?_⟩) (fun _ _ h _ => by cases h)
      intro hf
      rw [hf] at hn
      exact hn.2 rfl
  | recv m ok =>
    simp only [step, recv] at h
    split at h
    · cases h
    · split at h
      · next hr =>
        cases h
        refine handle_tr g x m ok ?_
        intro hc
        rw [hc] at hr
        exact absurd hr (by decide)
      · split at h
        · next hc => exact recvAuth_tr g x x' m ok hc h
        · next hc =>
          split at h
          · cases h; exact handle_tr g x m ok hc
          · cases h
  | sendComplete app =>
    simp only [step] at h
    split at h
    · cases h
      exact .quiet _ _ rfl rfl rfl rfl (by rw [conns_append]; simp [conns, isConn]) (.inl rfl) (.inl rfl)
        (fun h => by cases h) (fun h => by cases h) (fun h => by cases h) (fun _ _ h _ => by cases h)
    · cases h
      exact .quiet _ _ rfl rfl rfl rfl rfl (.inl rfl) (.inl rfl)
        (fun h => by cases h) (fun h => by cases h) (fun h => by cases h) (fun _ _ h _ => by cases h)
  | rendezvous =>
    simp only [step] at h
    split at h
    · cases h
      exact .quiet _ _ rfl rfl rfl rfl rfl (.inl rfl) (.inl rfl)
        (fun h => by cases h) (fun h => by cases h) (fun h => by cases h) (fun _ _ h _ => by cases h)
    · cases h
      exact .quiet _ _ rfl rfl rfl rfl rfl (.inl rfl) (.inl rfl)
        (fun h => by cases h) (fun h => by cases h) (fun h => by cases h) (fun _ _ h _ => by cases h)
  | ask m =>
    simp only [step] at h
    split at h
    · next ha =>
      cases h
      exact .quiet _ _ rfl rfl rfl rfl rfl (.inr ⟨m, rfl, ha.2.2, ha.1, rfl⟩) (.inl rfl)
        (fun h => by cases h) (fun h => by cases h) (fun h => by cases h) (fun _ _ h _ => by cases h)
    · cases h
      exact .quiet _ _ rfl rfl rfl rfl rfl (.inl rfl) (.inl rfl)
        (fun h => by cases h) (fun h => by cases h) (fun h => by cases h) (fun _ _ h _ => by cases h)
  | close =>
    simp only [step] at h
    cases h
    exact .quiet _ _ rfl rfl rfl rfl rfl (.inl rfl) (.inl rfl)
      (fun h => by cases h) (fun h => by cases h) (fun h => by cases h) (fun _ _ h _ => by cases h)

/-! ### Histories -/

theorem run_append (g : Cfg) (l : List Ev) : ∀ (x : X) (r : List Ev),
    run g x (l ++ r) = (run g x l).bind (fun y => run g y r) := by
  induction l with
  | nil => intro x r; rfl
  | cons e es ih =>
    intro x r
    simp only [List.cons_append, run]
    cases step g x e with
    | none => rfl
    | some y => exact ih y r

theorem run_snoc {g : Cfg} {x x' : X} {l : List Ev} {e : Ev} (h : run g x (l ++ [e]) = some x') :
    ∃ y, run g x l = some y ∧ step g y e = some x' := by
  rw [run_append] at h
  cases hy : run g x l with
  | none => rw [hy] at h; cases h
  | some y =>
    rw [hy] at h
    refine ⟨y, rfl, ?_⟩
    simp only [Option.bind_some, run] at h
    cases hs : step g y e with
    | none => rw [hs] at h; cases h
    | some z => rw [hs] at h; exact h

/-- induction over the histories of a transport -/
theorem run_ind (g : Cfg) (P : List Ev → X → Prop) (h0 : P [] {})
    (hs : ∀ l x e x', run g {} l = some x → P l x → Tr g x e x' → P (l ++ [e]) x') :
    ∀ l x, run g {} l = some x → P l x := by
  intro l
  induction l using snoc_induction with
  | nil => intro x h; cases h; exact h0
  | snoc l e ih =>
    intro x h
    obtain ⟨y, hy, hst⟩ := run_snoc h
    exact hs l y e x hy (ih y hy) (step_tr g y x e hst)

theorem mem_conns (l : List App) : App.connected ∈ l ↔ App.connected ∈ conns l := by
  simp [conns, isConn]

theorem shown_mono (g : Cfg) (l : List Ev) (e : Ev) (u v : Nat) (h : Shown g l u v) :
    Shown g (l ++ [e]) u v := by
  unfold Shown at h ⊢
  cases hp : g.plugin <;> simp only [hp] at h ⊢
  · exact h
  · obtain ⟨m, ok, h1, h2⟩ := h
    exact ⟨m, ok, List.mem_append_left _ h1, h2⟩
  · obtain ⟨h1, h2, c, w, ok, m, ok', h3, h4, h5⟩ := h
    exact ⟨h1, h2, c, w, ok, m, ok', List.mem_append_left _ h3, List.mem_append_left _ h4, h5⟩
  · obtain ⟨m, ok, h1, h2⟩ := h
    exact ⟨m, ok, List.mem_append_left _ h1, h2⟩

/-- who the peer is taken for -/
structure Who (g : Cfg) (l : List Ev) (x : X) : Prop where
  chal : ∀ c, x.chal = some c → ∃ w ok, Ev.connected w c ok ∈ l
  who : (App.connected ∉ x.out ∧ x.ruid = nobody ∧ x.rgid = nobody ∧ x.flag ≠ .approved) ∨
    (App.connected ∈ x.out ∧ Shown g l x.ruid x.rgid ∧ (x.flag = .approved ∨ x.flag = .failed))
  handled : ∀ h ∈ x.handled, (h.uid = nobody ∧ h.gid = nobody) ∨ Shown g l h.uid h.gid

theorem shown_of (g : Cfg) (l : List Ev) (x : X) (m : Msg) (ok : Bool) (u v : Nat) (hm : m.cmd = cmdAuth)
    (hc : ∀ c, x.chal = some c → ∃ w ok, Ev.connected w c ok ∈ l) (h : ShownBy g x.chal m u v) :
    Shown g (l ++ [.recv m ok]) u v := by
  have hme : Ev.recv m ok ∈ l ++ [.recv m ok] := by simp
  unfold ShownBy at h
  unfold Shown
  cases hp : g.plugin <;> simp only [hp] at h ⊢
  · exact ⟨m, ok, hme, hm, h⟩
  · obtain ⟨h1, h2, c, h3, h4⟩ := h
    obtain ⟨w, ok', h5⟩ := hc c h3
    exact ⟨h1, h2, c, w, ok', m, ok, List.mem_append_left _ h5, hme, h4⟩
  · exact ⟨m, ok, hme, hm, h⟩

theorem who_run (g : Cfg) : ∀ l x, run g {} l = some x → Who g l x := by
  apply run_ind g (Who g)
  · exact ⟨(fun c h => by cases h), .inl ⟨by simp, rfl, rfl, by simp⟩, (fun h hh => by cases hh)⟩
  · intro l x e x' _ ih t
    have hold : ∀ h ∈ x.handled, (h.uid = nobody ∧ h.gid = nobody) ∨ Shown g (l ++ [e]) h.uid h.gid := by
      intro h hh
      rcases ih.handled h hh with a | a
      · exact .inl a
      · exact .inr (shown_mono g l e _ _ a)
    have hchal : ∀ c, x.chal = some c → ∃ w ok, Ev.connected w c ok ∈ l ++ [e] := by
      intro c hc
      obtain ⟨w, ok, h⟩ := ih.chal c hc
      exact ⟨w, ok, List.mem_append_left _ h⟩
    cases t with
    | quiet _ _ hf hc hu hg ho hs hh h1 h2 h3 h4 =>
      refine ⟨by rw [hc]; exact hchal, ?_, ?_⟩
      · rw [mem_conns, ho, ← mem_conns, hu, hg, hf]
        rcases ih.who with a | a
        · exact .inl a
        · exact .inr ⟨a.1, shown_mono g l e _ _ a.2.1, a.2.2⟩
      · rcases hh with hh | ⟨cmd, hh⟩
        · rw [hh]; exact hold
        · rw [hh]
          intro k hk
          rcases List.mem_append.mp hk with hk | hk
          · exact hold k hk
          · simp only [List.mem_singleton] at hk
            subst hk
            rcases ih.who with a | a
            · exact .inl ⟨a.2.1, a.2.2.1⟩
            · exact .inr (shown_mono g l e _ _ a.2.1)
    | wait w c ok _ h0 hf hc hu hg ho hs hh =>
      refine ⟨?_, ?_, by rw [hh]; exact hold⟩
      · rw [hc]
        intro d hd
        split at hd
        · cases hd; exact ⟨w, ok, by simp⟩
        · exact hchal d hd
      · rw [ho, hu, hg, hf]
        rcases ih.who with a | a
        · exact .inl ⟨a.1, a.2.1, a.2.2.1, by simp⟩
        · rw [h0] at a; simp at a
    | free w c ok _ h0 hp hf hc hu hg ho hs hh =>
      refine ⟨by rw [hc]; exact hchal, ?_, by rw [hh]; exact hold⟩
      rw [ho, hu, hg, hf]
      refine .inr ⟨by simp, ?_, .inl rfl⟩
      rw [Shown, hp]
      exact ⟨rfl, rfl⟩
    | approve m ok _ hm h0 hf hc hw ho hs hh =>
      refine ⟨by rw [hc]; exact hchal, ?_, by rw [hh]; exact hold⟩
      rw [ho, hf]
      exact .inr ⟨by simp, shown_of g l x m ok _ _ hm ih.chal hw, .inl rfl⟩
    | answer m ok c _ hp hm h0 hx =>
      subst hx
      refine ⟨hchal, ?_, hold⟩
      rcases ih.who with a | a
      · exact .inl a
      · exact .inr ⟨a.1, shown_mono g l _ _ _ a.2.1, a.2.2⟩
    | fail m ok hm =>
      refine ⟨hchal, ?_, hold⟩
      rcases ih.who with a | a
      · exact .inl ⟨a.1, a.2.1, a.2.2.1, by simp [authFail]⟩
      · exact .inr ⟨a.1, shown_mono g l _ _ _ a.2.1, .inr rfl⟩
    | last _ t _ he hd hf hc hu hg ho hs hh =>
      refine ⟨by rw [hc]; exact hchal, ?_, by rw [hh]; exact hold⟩
      have ht : t ≠ .connected := by
        rcases he with ⟨_, rfl⟩ | ⟨_, rfl⟩ | ⟨_, rfl, _⟩
        · cases x.flag <;> simp [endEvent]
        · simp
        · simp
      rw [ho, hu, hg, hf]
      rcases ih.who with a | a
      · refine .inl ⟨?_, a.2⟩
        simp only [List.mem_append, List.mem_singleton, not_or]
        exact ⟨a.1, fun h => ht h.symm⟩
      · exact .inr ⟨List.mem_append_left _ a.1, shown_mono g l _ _ _ a.2.1, a.2.2⟩

/-! ### What the application is told of the connection -/

theorem phase_append (l : List Ev) : ∀ (p : Ph) (r : List Ev),
    phase p (l ++ r) = (phase p l).bind (fun q => phase q r) := by
  induction l with
  | nil => intro p r; rfl
  | cons e es ih =>
    intro p r
    simp only [List.cons_append, phase]
    cases next p e with
    | none => rfl
    | some q => exact ih q r

theorem phase_snoc {p : Ph} {l : List Ev} {e : Ev} {q : Ph} (h : phase p (l ++ [e]) = some q) :
    ∃ r, phase p l = some r ∧ next r e = some q := by
  rw [phase_append] at h
  cases hr : phase p l with
  | none => rw [hr] at h; cases h
  | some r =>
    rw [hr] at h
    refine ⟨r, rfl, ?_⟩
    simp only [Option.bind_some, phase] at h
    cases hn : next r e with
    | none => rw [hn] at h; cases h
    | some s => rw [hn] at h; exact h

/-- what was told, by phase -/
inductive Told (g : Cfg) (l : List Ev) : Ph → Flag → List App → Prop
  | t0 : Told g l .idle .init []
  | t1 (f : Flag) (hf : f = .init ∨ f = .busy) : Told g l .up f []
  | t2 (m : Msg) (ok : Bool) (hm : m.cmd = cmdAuth) (he : Ev.recv m ok ∈ l) : Told g l .up .failed []
  | t3 : Told g l .up .approved [.connected]
  | t4 (m : Msg) (ok : Bool) (hm : m.cmd = cmdAuth) (hl : ¬ NoLateAuth g l) : Told g l .up .failed [.connected]
  | t5 (f : Flag) (hf : f = .init ∨ f = .busy) : Told g l .done f [.error]
  | t6 (m : Msg) (ok : Bool) (hm : m.cmd = cmdAuth) (he : Ev.recv m ok ∈ l) : Told g l .done .failed [.rejected]
  | t7 (he : Ev.rejected ∈ l) : Told g l .done .init [.rejected]
  | t8 : Told g l .done .approved [.connected, .disconnected]
  | t9 (hl : ¬ NoLateAuth g l) (hp : g.active = true ∨ g.rail = true) :
      Told g l .done .failed [.connected, .rejected]
  | t10 (hl : ¬ NoLateAuth g l) (hp : g.active = false ∧ g.rail = false) : Told g l .done .failed [.connected]
  | t11 (f : Flag) (hf : f ≠ .approved) (hp : g.active = false ∧ g.rail = false) : Told g l .done f []

theorem late_mono (g : Cfg) (l : List Ev) (e : Ev) (h : ¬ NoLateAuth g l) : ¬ NoLateAuth g (l ++ [e]) := by
  intro hn
  apply h
  intro pre m ok post x hl hm hr
  exact hn pre m ok (post ++ [e]) x (by rw [hl]; simp) hm hr

theorem told_mono (g : Cfg) (l : List Ev) (e : Ev) (p : Ph) (f : Flag) (o : List App) (h : Told g l p f o) :
    Told g (l ++ [e]) p f o := by
  cases h with
  | t0 => exact .t0
  | t1 _ hf => exact .t1 _ hf
  | t2 m ok hm he => exact .t2 m ok hm (List.mem_append_left _ he)
  | t3 => exact .t3
  | t4 m ok hm hl => exact .t4 m ok hm (late_mono g l e hl)
  | t5 _ hf => exact .t5 _ hf
  | t6 m ok hm he => exact .t6 m ok hm (List.mem_append_left _ he)
  | t7 he => exact .t7 (List.mem_append_left _ he)
  | t8 => exact .t8
  | t9 hl hp => exact .t9 (late_mono g l e hl) hp
  | t10 hl hp => exact .t10 (late_mono g l e hl) hp
  | t11 _ hf hp => exact .t11 _ hf hp

theorem told_run (g : Cfg) : ∀ l x, run g {} l = some x → ∀ p, phase .idle l = some p →
    Told g l p x.flag (conns x.out) := by
  apply run_ind g (fun l x => ∀ p, phase .idle l = some p → Told g l p x.flag (conns x.out))
  · intro p hp; cases hp; exact .t0
  · intro l x e x' hrun ih t q hq
    obtain ⟨p, hp, hn⟩ := phase_snoc hq
    have h := ih p hp
    cases t with
    | quiet _ _ hf hc hu hg ho hs hh h1 h2 h3 h4 =>
      rw [hf, ho]
      have h' := told_mono g l e p _ _ h
      cases e with
      | connected w c ok =>
        cases p <;> simp only [next, Option.some.injEq, reduceCtorEq] at hn
        subst hn
        generalize x.flag = f at h
        generalize conns x.out = o at h
        cases h with
        | t0 => exact .t1 _ (.inl rfl)
      | connectError => exact absurd rfl h1
      | rejected => exact absurd rfl h2
      | disconnected =>
        obtain ⟨ha, hb, hc⟩ := h3 rfl
        cases p <;> simp only [next, Option.some.injEq, reduceCtorEq] at hn
        subst hn
        generalize x.flag = f at h hc
        generalize conns x.out = o at h
        cases h with
        | t1 _ hf => exact .t11 _ hc ⟨hb, ha⟩
        | t2 m ok hm he => exact .t11 _ hc ⟨hb, ha⟩
        | t3 => exact absurd rfl hc
        | t4 m ok hm hl => exact .t10 (late_mono g l _ hl) ⟨hb, ha⟩
      | recv m ok => cases p <;> simp only [next, Option.some.injEq, reduceCtorEq] at hn; subst hn; exact h'
      | sendComplete a => cases p <;> simp only [next, Option.some.injEq, reduceCtorEq] at hn; subst hn; exact h'
      | rendezvous => cases p <;> simp only [next, Option.some.injEq, reduceCtorEq] at hn; subst hn; exact h'
      | ask m => cases p <;> simp only [next, Option.some.injEq] at hn <;> (subst hn; exact h')
      | close => cases p <;> simp only [next, Option.some.injEq] at hn <;> (subst hn; exact h')
    | wait w c ok _ h0 hf hc hu hg ho hs hh =>
      cases p <;> simp only [next, Option.some.injEq, reduceCtorEq] at hn
      subst hn
      rw [hf, ho]
      rw [h0] at h
      generalize conns x.out = o at h
      cases h
      exact .t1 _ (.inr rfl)
    | free w c ok _ h0 hp' hf hc hu hg ho hs hh =>
      cases p <;> simp only [next, Option.some.injEq, reduceCtorEq] at hn
      subst hn
      rw [hf, ho, conns_append]
      rw [h0] at h
      generalize conns x.out = o at h
      cases h
      exact .t3
    | approve m ok _ hm h0 hf hc hw ho hs hh =>
      cases p <;> simp only [next, Option.some.injEq, reduceCtorEq] at hn
      subst hn
      rw [hf, ho, conns_append]
      rw [h0] at h
      generalize conns x.out = o at h
      cases h
      exact .t3
    | answer m ok c _ hp' hm h0 hx =>
      subst hx
      cases p <;> simp only [next, Option.some.injEq, reduceCtorEq] at hn
      subst hn
      exact told_mono g l _ _ _ _ h
    | fail m ok hm =>
      cases p <;> simp only [next, Option.some.injEq, reduceCtorEq] at hn
      subst hn
      show Told g _ .up .failed (conns x.out)
      have hmem : Ev.recv m ok ∈ l ++ [Ev.recv m ok] := by simp
      have hlate : App.connected ∈ x.out → ¬ NoLateAuth g (l ++ [.recv m ok]) := by
        intro hc hn
        exact hn l m ok [] x rfl hm hrun hc
      rw [mem_conns] at hlate
      generalize conns x.out = o at h hlate
      generalize x.flag = f at h
      cases h with
      | t1 _ hf => exact .t2 m ok hm hmem
      | t2 => exact .t2 m ok hm hmem
      | t3 => exact .t4 m ok hm (hlate (by simp))
      | t4 => exact .t4 m ok hm (hlate (by simp))
    | last _ t _ he hd hf hc hu hg ho hs hh =>
      rw [hf, ho, conns_append]
      rcases he with ⟨rfl, rfl⟩ | ⟨rfl, rfl⟩ | ⟨rfl, rfl, ha⟩
      · cases p <;> simp only [next, Option.some.injEq, reduceCtorEq] at hn
        subst hn
        have hd := hd rfl
        generalize conns x.out = o at h
        generalize x.flag = f at h hd
        have hne : ∀ f, conns [endEvent f] = [endEvent f] := by intro f; cases f <;> rfl
        rw [hne]
        cases h with
        | t1 _ hf =>
          rcases hf with rfl | rfl
          · exact .t5 _ (.inl rfl)
          · exact .t5 _ (.inr rfl)
        | t2 m ok hm he => exact .t6 m ok hm (List.mem_append_left _ he)
        | t3 => exact .t8
        | t4 m ok hm hl =>
          rcases hd with hd | hd
          · exact .t9 (late_mono g l _ hl) hd
          · cases hd
      · cases p <;> simp only [next, Option.some.injEq, reduceCtorEq] at hn
        subst hn
        generalize conns x.out = o at h
        generalize x.flag = f at h
        cases h
        exact .t5 _ (.inl rfl)
      · cases p <;> simp only [next, Option.some.injEq, reduceCtorEq] at hn
        subst hn
        generalize conns x.out = o at h
        generalize x.flag = f at h
        cases h
        exact .t7 (by simp)

end Verif.XprtAuth
