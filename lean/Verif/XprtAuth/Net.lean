import Verif.XprtAuth.Proofs

/-! Several transports: what a reply that was sent tells, and the pair of honest ends. -/

namespace Verif.XprtAuth

theorem isRequest_ne (m : Msg) (h : isRequest m.cmd = true) : m.cmd ≠ cmdAuth := by
  intro hc
  rw [hc] at h
  exact absurd h (by decide)

theorem chal_not_reply (c : Nat) (h : List Nat) : ¬ IsReply (authMsg (ovisChal c)) h := by
  intro ⟨_, r, hr⟩
  simp [authMsg, ovisChal, ovisReply] at hr

theorem prefix_cons_append (h t r : List Nat) (hz : 0 ∉ t) (he : h ++ 0 :: r = t ++ [0]) :
    h = t ∨ 0 ∈ h := by
  induction h generalizing t with
  | nil =>
    cases t with
    | nil => exact .inl rfl
    | cons a l =>
      simp only [List.nil_append, List.cons_append, List.cons.injEq] at he
      exact absurd (by simp [← he.1]) hz
  | cons a l ih =>
    cases t with
    | nil =>
      simp only [List.cons_append, List.nil_append, List.cons.injEq] at he
      exact .inr (by simp [he.1])
    | cons b k =>
      simp only [List.cons_append, List.cons.injEq] at he
      simp only [List.mem_cons, not_or] at hz
      rcases ih k hz.2 he.2 with hl | hl
      · exact .inl (by rw [he.1, hl])
      · exact .inr (List.mem_cons_of_mem _ hl)

/-- strings are read up to the first zero -/
theorem reply_inj (h t : List Nat) (hh : 0 ∉ h) (ht : 0 ∉ t) (hr : IsReply (authMsg (ovisReply t)) h) :
    h = t := by
  obtain ⟨_, r, hr⟩ := hr
  simp only [authMsg, ovisReply, List.append_assoc, List.append_cancel_left_eq] at hr
  rcases prefix_cons_append h t r ht hr with h1 | h1
  · exact h1
  · exact absurd h1 hh

/-- what an `ovis` transport has sent -/
structure SentInv (g : Cfg) (l : List Ev) (x : X) : Prop where
  flag : x.flag = .init → x.sent = [] ∧ x.chal = none
  sent : ∀ m ∈ x.sent, (∃ c, x.chal = some c ∧ m = authMsg (ovisChal c)) ∨
    (∃ c m' ok, Ev.recv m' ok ∈ l ∧ IsChal m' c ∧ m = authMsg (ovisReply (g.H c g.secret))) ∨
    isRequest m.cmd = true

theorem sent_mono (g : Cfg) (l : List Ev) (e : Ev) (x : X) (m : Msg) (hm :
    (∃ c, x.chal = some c ∧ m = authMsg (ovisChal c)) ∨
    (∃ c m' ok, Ev.recv m' ok ∈ l ∧ IsChal m' c ∧ m = authMsg (ovisReply (g.H c g.secret))) ∨
    isRequest m.cmd = true) :
    (∃ c, x.chal = some c ∧ m = authMsg (ovisChal c)) ∨
    (∃ c m' ok, Ev.recv m' ok ∈ l ++ [e] ∧ IsChal m' c ∧ m = authMsg (ovisReply (g.H c g.secret))) ∨
    isRequest m.cmd = true := by
  rcases hm with h | ⟨c, m', ok, h1, h2⟩ | h
  · exact .inl h
  · exact .inr (.inl ⟨c, m', ok, List.mem_append_left _ h1, h2⟩)
  · exact .inr (.inr h)

theorem sent_run (g : Cfg) (hp : g.plugin = .ovis) : ∀ l x, run g {} l = some x → SentInv g l x := by
  apply run_ind g (SentInv g)
  · exact ⟨fun _ => ⟨rfl, rfl⟩, (fun m hm => by cases hm)⟩
  · intro l x e x' _ ih t
    have hold := fun m hm => sent_mono g l e x m (ih.sent m hm)
    cases t with
    | quiet _ _ hf hc hu hg ho hs hh h1 h2 h3 h4 =>
      rcases hs with hs | ⟨m, _, hm, hfl, hs⟩
      · exact ⟨by rw [hf, hs, hc]; exact ih.flag, by rw [hs, hc]; exact hold⟩
      · refine ⟨(fun hfi => by rw [hf, hfl] at hfi; cases hfi), ?_⟩
        rw [hs, hc]
        intro k hk
        rcases List.mem_append.mp hk with hk | hk
        · exact hold k hk
        · simp only [List.mem_singleton] at hk
          subst hk
          exact .inr (.inr hm)
    | wait w c ok _ h0 hf hc hu hg ho hs hh =>
      refine ⟨(fun hfi => by rw [hf] at hfi; cases hfi), ?_⟩
      have hnil := (ih.flag h0).1
      rw [hnil] at hs
      simp only [hp, if_true] at hc
      rcases hs with hs | ⟨hq, _⟩ | ⟨_, hs⟩ | ⟨hq, _⟩
      · rw [hs]; intro k hk; cases hk
      · rw [hp] at hq; cases hq
      · rw [hs]
        intro k hk
        simp only [List.nil_append, List.mem_singleton] at hk
        exact .inl ⟨c, hc, hk⟩
      · rw [hp] at hq; cases hq
    | free w c ok _ h0 hp' => rw [hp] at hp'; cases hp'
    | approve m ok _ hm h0 hf hc hw ho hs hh =>
      exact ⟨(fun hfi => by rw [hf] at hfi; cases hfi), by rw [hs, hc]; exact hold⟩
    | answer m ok c _ hp' hm h0 hx =>
      subst hx
      refine ⟨(fun hfi => by rw [show ({ x with sent := _ } : X).flag = x.flag from rfl, h0] at hfi; cases hfi), ?_⟩
      intro k hk
      rcases List.mem_append.mp hk with hk | hk
      · exact hold k hk
      · simp only [List.mem_singleton] at hk
        exact .inr (.inl ⟨c, m, ok, by simp, hm, hk⟩)
    | fail m ok hm => exact ⟨(fun hfi => by cases hfi), hold⟩
    | last _ t _ he hd hf hc hu hg ho hs hh =>
      exact ⟨by rw [hf, hs, hc]; exact ih.flag, by rw [hs, hc]; exact hold⟩

/-- a reply was sent only on a challenge -/
theorem sent_reply (g : Cfg) (hp : g.plugin = .ovis) (hz : ∀ c, 0 ∉ g.H c g.secret) (l : List Ev) (x : X)
    (hr : run g {} l = some x) (m : Msg) (hm : m ∈ x.sent) (d : Nat) (hd : IsReply m (g.H d g.secret)) :
    ∃ c m' ok, Ev.recv m' ok ∈ l ∧ IsChal m' c ∧ g.H c g.secret = g.H d g.secret := by
  rcases (sent_run g hp l x hr).sent m hm with ⟨c, _, rfl⟩ | ⟨c, m', ok, h1, h2, rfl⟩ | h
  · exact absurd hd (chal_not_reply c _)
  · exact ⟨c, m', ok, h1, h2, (reply_inj _ _ (hz d) (hz c) hd).symm⟩
  · exact absurd hd.1 (isRequest_ne m h)

/-! ### The world -/

/-- what happened at transport `i` -/
def proj (i : Nat) (tr : List (Nat × Ev)) : List Ev := tr.filterMap (fun p => if p.1 = i then some p.2 else none)

theorem mem_proj (i : Nat) (tr : List (Nat × Ev)) (e : Ev) : e ∈ proj i tr ↔ (i, e) ∈ tr := by
  simp only [proj, List.mem_filterMap]
  constructor
  · rintro ⟨⟨j, f⟩, h1, h2⟩
    simp only at h2
    split at h2
    · next hj => cases h2; rw [← hj]; exact h1
    · cases h2
  · intro h
    exact ⟨(i, e), h, by simp⟩

theorem wrun_proj (g : Nat → Cfg) : ∀ (tr : List (Nat × Ev)) (w w' : World), wrun g w tr = some w' →
    ∀ i, run (g i) (w i) (proj i tr) = some (w' i) := by
  intro tr
  induction tr with
  | nil => intro w w' h i; cases h; rfl
  | cons p es ih =>
    obtain ⟨j, e⟩ := p
    intro w w' h i
    simp only [wrun, wstep] at h
    cases hs : step (g j) (w j) e with
    | none => rw [hs] at h; cases h
    | some x =>
      rw [hs] at h
      have := ih _ w' h i
      by_cases hji : j = i
      · subst hji
        simp only [if_true] at this
        simp only [proj, List.filterMap_cons, if_true, run, hs]
        exact this
      · have hij : ¬ i = j := fun h => hji h.symm
        simp only [hij, if_false] at this
        simp only [proj, List.filterMap_cons, hji, if_false]
        exact this

theorem wrun_prefix (g : Nat → Cfg) : ∀ (a b : List (Nat × Ev)) (w w' : World), wrun g w (a ++ b) = some w' →
    ∃ v, wrun g w a = some v := by
  intro a
  induction a with
  | nil => intro b w w' _; exact ⟨w, rfl⟩
  | cons p es ih =>
    obtain ⟨j, e⟩ := p
    intro b w w' h
    simp only [List.cons_append, wrun] at h ⊢
    cases hs : wstep g w j e with
    | none => rw [hs] at h; cases h
    | some v => rw [hs] at h; exact ih b v w' h

/-! ### The pair -/

/-- the histories of the two ends of a pair -/
structure Hist (ga gb : Cfg) (p : Pair) (la lb : List Ev) : Prop where
  a : run ga {} la = some p.a
  b : run gb {} lb = some p.b
  ra : ∀ m ok, Ev.recv m ok ∈ la → m ∈ p.b.sent
  rb : ∀ m ok, Ev.recv m ok ∈ lb → m ∈ p.a.sent

theorem tr_sent (g : Cfg) (x x' : X) (e : Ev) (h : Tr g x e x') : ∀ m ∈ x.sent, m ∈ x'.sent := by
  intro m hm
  cases h with
  | quiet _ _ hf hc hu hg ho hs => rcases hs with hs | ⟨k, _, _, _, hs⟩ <;> (rw [hs]; simp [hm])
  | wait w c ok _ h0 hf hc hu hg ho hs =>
    rcases hs with hs | ⟨_, hs⟩ | ⟨_, hs⟩ | ⟨_, hs⟩ <;> (rw [hs]; simp [hm])
  | free w c ok _ h0 hp hf hc hu hg ho hs => rw [hs]; exact hm
  | approve m ok _ h1 h0 hf hc hw ho hs => rw [hs]; exact hm
  | answer m ok c _ hp h1 h0 hx => subst hx; simp [hm]
  | fail m ok => exact hm
  | last _ t _ he hd hf hc hu hg ho hs => rw [hs]; exact hm

theorem run_snoc_of {g : Cfg} {x x' : X} {l : List Ev} {e : Ev} (h : run g {} l = some x)
    (hs : step g x e = some x') : run g {} (l ++ [e]) = some x' := by
  rw [run_append, h]
  simp [run, hs]

theorem hist_step (ga gb : Cfg) (p p' : Pair) (e : PEv) (h : pstep ga gb p e = some p')
    (hh : ∃ la lb, Hist ga gb p la lb) : ∃ la lb, Hist ga gb p' la lb := by
  obtain ⟨la, lb, ih⟩ := hh
  have goA : ∀ (x : X) (ev : Ev) (n : Nat), step ga p.a ev = some x →
      (∀ m ok, ev = .recv m ok → m ∈ p.b.sent) → ∃ la lb, Hist ga gb { p with a := x, na := n } la lb := by
    intro x ev n hs hr
    refine ⟨la ++ [ev], lb, run_snoc_of ih.a hs, ih.b, ?_, ?_⟩
    · intro m ok hm
      rcases List.mem_append.mp hm with hm | hm
      · exact ih.ra m ok hm
      · exact hr m ok (List.mem_singleton.mp hm).symm
    · intro m ok hm
      exact tr_sent ga p.a x ev (step_tr _ _ _ _ hs) m (ih.rb m ok hm)
  have goB : ∀ (x : X) (ev : Ev) (n : Nat), step gb p.b ev = some x →
      (∀ m ok, ev = .recv m ok → m ∈ p.a.sent) → ∃ la lb, Hist ga gb { p with b := x, nb := n } la lb := by
    intro x ev n hs hr
    refine ⟨la, lb ++ [ev], ih.a, run_snoc_of ih.b hs, ?_, ?_⟩
    · intro m ok hm
      exact tr_sent gb p.b x ev (step_tr _ _ _ _ hs) m (ih.ra m ok hm)
    · intro m ok hm
      rcases List.mem_append.mp hm with hm | hm
      · exact ih.rb m ok hm
      · exact hr m ok (List.mem_singleton.mp hm).symm
  cases e with
  | upA c =>
    simp only [pstep] at h
    split at h
    · cases h
    · next x hs => cases h; exact goA x _ p.na hs (fun m ok he => by cases he)
  | upB c =>
    simp only [pstep] at h
    split at h
    · cases h
    · next x hs => cases h; exact goB x _ p.nb hs (fun m ok he => by cases he)
  | toA =>
    simp only [pstep] at h
    split at h
    · cases h; exact ⟨la, lb, ih⟩
    · split at h
      · cases h; exact ⟨la, lb, ih⟩
      · next m hm =>
        split at h
        · cases h
        · next x hs =>
          cases h
          exact goA x _ _ hs (fun m' ok he => by cases he; exact List.mem_of_getElem? hm)
  | toB =>
    simp only [pstep] at h
    split at h
    · cases h; exact ⟨la, lb, ih⟩
    · split at h
      · cases h; exact ⟨la, lb, ih⟩
      · next m hm =>
        split at h
        · cases h
        · next x hs =>
          cases h
          exact goB x _ _ hs (fun m' ok he => by cases he; exact List.mem_of_getElem? hm)
  | askA m =>
    simp only [pstep] at h
    split at h
    · cases h
    · next x hs => cases h; exact goA x _ p.na hs (fun m ok he => by cases he)
  | askB m =>
    simp only [pstep] at h
    split at h
    · cases h
    · next x hs => cases h; exact goB x _ p.nb hs (fun m ok he => by cases he)

theorem hist_run (ga gb : Cfg) : ∀ (es : List PEv) (p p' : Pair), prun ga gb p es = some p' →
    (∃ la lb, Hist ga gb p la lb) → ∃ la lb, Hist ga gb p' la lb := by
  intro es
  induction es with
  | nil => intro p p' h hh; cases h; exact hh
  | cons e es ih =>
    intro p p' h hh
    simp only [prun] at h
    cases hs : pstep ga gb p e with
    | none => rw [hs] at h; cases h
    | some q => rw [hs] at h; exact ih q p' h (hist_step ga gb p q e hs hh)

theorem hist_init (ga gb : Cfg) : ∃ la lb, Hist ga gb {} la lb :=
  ⟨[], [], rfl, rfl, (fun m ok h => by cases h), (fun m ok h => by cases h)⟩

/-! #### Equal secrets -/

/-- waiting for the peer, after the given messages -/
abbrev waiting (c : Nat) (l : List Msg) : X := { flag := .busy, chal := some c, sent := l }

/-- how far one end has come: `n` messages received, the peer issued `pc` -/
inductive Side (g : Cfg) : X → Nat → Option Nat → Prop
  | s0 (pc : Option Nat) : Side g {} 0 pc
  | s1 (c : Nat) (hc : c < 256 ^ 8) (pc : Option Nat) :
      Side g (waiting c [authMsg (ovisChal c)]) 0 pc
  | s2 (c d : Nat) (hc : c < 256 ^ 8) :
      Side g (waiting c [authMsg (ovisChal c), authMsg (ovisReply (g.H d g.secret))]) 1 (some d)
  | s3 (c d n : Nat) (x : X) (l : List Msg) (hc : c < 256 ^ 8) (hf : x.flag = .approved) (hch : x.chal = some c)
      (ht : x.term = false) (hs : x.sent = authMsg (ovisChal c) :: authMsg (ovisReply (g.H d g.secret)) :: l)
      (hl : ∀ m ∈ l, isRequest m.cmd = true) (hn : 2 ≤ n) (hu : x.ruid = 0 ∧ x.rgid = 0)
      (ho : conns x.out = [.connected]) (hh : ∀ k ∈ x.handled, k.uid = 0 ∧ k.gid = 0) : Side g x n (some d)

/-- the messages of one end, in order -/
def Talk (g : Cfg) (sent : List Msg) (own peer : Option Nat) : Prop :=
  sent = [] ∨ ∃ c, c < 256 ^ 8 ∧ own = some c ∧ (sent = [authMsg (ovisChal c)] ∨
    ∃ d l, peer = some d ∧ sent = authMsg (ovisChal c) :: authMsg (ovisReply (g.H d g.secret)) :: l ∧
      ∀ m ∈ l, isRequest m.cmd = true)

theorem side_talk (g : Cfg) (x : X) (n : Nat) (pc : Option Nat) (h : Side g x n pc) : Talk g x.sent x.chal pc := by
  cases h with
  | s0 => exact .inl rfl
  | s1 c hc => exact .inr ⟨c, hc, rfl, .inl rfl⟩
  | s2 c d hc => exact .inr ⟨c, hc, rfl, .inr ⟨d, [], rfl, rfl, (fun m hm => by cases hm)⟩⟩
  | s3 c d n x l hc hf hch ht hs hl => exact .inr ⟨c, hc, hch, .inr ⟨d, l, rfl, hs, hl⟩⟩

theorem drop_append_four (a : List Nat) : (([1, 0, 0, 0] : List Nat) ++ a).drop 4 = a := rfl

theorem recv_chal (g : Cfg) (hp : g.plugin = .ovis) (x : X) (hb : x.flag = .busy) (d : Nat) (hd : d < 256 ^ 8) :
    step g x (.recv (authMsg (ovisChal d)) true) =
      some { x with sent := x.sent ++ [authMsg (ovisReply (g.H d g.secret))] } := by
  have hlen : (ovisChal d).length = 12 := by simp [ovisChal, beBytes_length]
  have hv : beVal (((ovisChal d).drop 4).take 8) = d := by
    have : ((ovisChal d).drop 4).take 8 = beBytes 8 d := by
      rw [ovisChal, drop_append_four, List.take_of_length_le (by rw [beBytes_length]; omega)]
    rw [this, beVal_beBytes 8 d hd]
  have ht : (ovisChal d).take 4 = [1, 0, 0, 0] := rfl
  have e1 : ¬ (cmdAuth < 0 ∨ opTbl ≤ cmdAuth) := by decide
  have e2 : ¬ (cmdReply < cmdAuth) := by decide
  simp only [step, recv, authMsg, e1, e2, if_false, if_true, recvAuth, hb, hp, ne_eq, not_true_eq_false, hlen, ht,
    hv]
  rfl

theorem recv_reply (g : Cfg) (hp : g.plugin = .ovis) (x : X) (hb : x.flag = .busy) (c : Nat)
    (hc : x.chal = some c) (hz : 0 ∉ g.H c g.secret) (hs : (g.H c g.secret).length < 4294967200) :
    step g x (.recv (authMsg (ovisReply (g.H c g.secret))) true) =
      some { x with ruid := 0, rgid := 0, flag := .approved, out := x.out ++ [.connected] } := by
  have e1 : ¬ (cmdAuth < 0 ∨ opTbl ≤ cmdAuth) := by decide
  have e2 : ¬ (cmdReply < cmdAuth) := by decide
  have hlen : (ovisReply (g.H c g.secret)).length = (g.H c g.secret).length + 5 := by
    simp [ovisReply]
  have hi : ((ovisReply (g.H c g.secret)).length + 4294967295) % 4294967296 = (g.H c g.secret).length + 4 := by
    rw [hlen]; omega
  have hlast : (ovisReply (g.H c g.secret))[(g.H c g.secret).length + 4]? = some 0 := by
    rw [ovisReply, List.append_assoc, List.getElem?_append_right (by simp)]
    simp
  have h4 : ¬ (ovisReply (g.H c g.secret)).length < 4 := by rw [hlen]; omega
  have ht1 : (ovisReply (g.H c g.secret)).take 4 = [2, 0, 0, 0] := rfl
  have hd : (ovisReply (g.H c g.secret)).drop 4 = g.H c g.secret ++ 0 :: [] := rfl
  have hcmp := strcmpEq_self (g.H c g.secret) [] hz
  simp only [step, recv, authMsg, e1, e2, if_false, if_true, recvAuth, hb, hp, ne_eq, not_true_eq_false, h4, ht1,
    hi, hlast, hc, hd, hcmp, authEnd]
  rfl

/-- both ends of a pair with one secret -/
structure PInv (ga gb : Cfg) (p : Pair) : Prop where
  a : Side ga p.a p.na p.b.chal
  b : Side gb p.b p.nb p.a.chal
  na : p.na ≤ p.b.sent.length
  nb : p.nb ≤ p.a.sent.length

/-- the challenges drawn are 64-bit numbers -/
def Drawn : PEv → Prop
  | .upA c => c < 256 ^ 8
  | .upB c => c < 256 ^ 8
  | _ => True

/-- the peer's later challenge does not disturb this end -/
theorem side_peer (g : Cfg) (x : X) (n : Nat) (c : Nat) (h : Side g x n none) : Side g x n (some c) := by
  cases h with
  | s0 => exact .s0 _
  | s1 c hc => exact .s1 c hc _

theorem up_side (g : Cfg) (hp : g.plugin = .ovis) (x : X) (n c : Nat) (pc : Option Nat) (hc : c < 256 ^ 8)
    (h : Side g x n pc) : ∃ x', step g x (.connected true c true) = some x' ∧ Side g x' n pc ∧
      (x' = x ∨ (x = {} ∧ x'.chal = some c ∧ x'.sent.length = 1)) := by
  cases h with
  | s0 =>
    refine ⟨waiting c [authMsg (ovisChal c)], ?_, .s1 c hc _, .inr ⟨rfl, rfl, rfl⟩⟩
    simp [step, authBegin, hp]
  | s1 d hd => exact ⟨_, by simp [step, authBegin], .s1 d hd _, .inl rfl⟩
  | s2 d e hd => exact ⟨_, by simp [step, authBegin], .s2 d e hd, .inl rfl⟩
  | s3 d e n x l hc' hf hch ht hs hl hn hu ho hh =>
    exact ⟨x, by simp [step, authBegin, hf], .s3 d e n x l hc' hf hch ht hs hl hn hu ho hh, .inl rfl⟩

theorem ask_side (g : Cfg) (x : X) (n : Nat) (m : Msg) (pc : Option Nat) (h : Side g x n pc) :
    ∃ x', step g x (.ask m) = some x' ∧ Side g x' n pc ∧ x'.chal = x.chal ∧ x.sent.length ≤ x'.sent.length := by
  cases h with
  | s0 => exact ⟨{}, by simp [step], .s0 _, rfl, by simp⟩
  | s1 c hc => exact ⟨_, by simp [step], .s1 c hc _, rfl, by simp⟩
  | s2 c d hc => exact ⟨_, by simp [step], .s2 c d hc, rfl, by simp⟩
  | s3 c d n x l hc hf hch ht hs hl hn hu ho hh =>
    by_cases hm : isRequest m.cmd = true
    · refine ⟨{ x with sent := x.sent ++ [m] }, by simp [step, hf, ht, hm], ?_, rfl, by simp⟩
      refine .s3 c d n _ (l ++ [m]) hc hf hch ht (by simp [hs]) ?_ hn hu ho hh
      intro k hk
      rcases List.mem_append.mp hk with hk | hk
      · exact hl k hk
      · rw [List.mem_singleton.mp hk]; exact hm
    · exact ⟨x, by simp [step, hm], .s3 c d n x l hc hf hch ht hs hl hn hu ho hh, rfl, Nat.le_refl _⟩

theorem request_cmd (m : Msg) (h : isRequest m.cmd = true) :
    ¬ (m.cmd < 0 ∨ opTbl ≤ m.cmd) ∧ ¬ (cmdReply < m.cmd) ∧ m.cmd ≠ cmdAuth := by
  simp only [isRequest, List.contains_eq_mem, List.mem_cons, List.not_mem_nil, or_false,
    decide_eq_true_eq] at h
  rcases h with h | h | h | h | h | h | h | h | h | h | h | h <;> (rw [h]; decide)

theorem msg_side (g : Cfg) (gp : Cfg) (hp : g.plugin = .ovis) (hH : gp.H = g.H) (hS : gp.secret = g.secret)
    (hz : ∀ c, 0 ∉ g.H c g.secret) (hl : ∀ c, (g.H c g.secret).length < 4294967200)
    (x : X) (n : Nat) (peer : List Msg) (pc : Option Nat)
    (h : Side g x n pc) (ht : Talk gp peer pc x.chal) (hx : x.flag ≠ .init) (m : Msg) (hm : peer[n]? = some m) :
    ∃ x', step g x (.recv m true) = some x' ∧ Side g x' (n + 1) pc ∧ x'.chal = x.chal ∧
      x.sent.length ≤ x'.sent.length := by
  rcases ht with ht | ⟨d, hd, hpc, ht⟩
  · rw [ht] at hm; cases hm
  cases h with
  | s0 => exact absurd rfl hx
  | s1 c hc =>
    have : m = authMsg (ovisChal d) := by
      rcases ht with ht | ⟨_, _, _, ht, _⟩ <;> (rw [ht] at hm; simpa using hm.symm)
    subst this
    rw [hpc]
    exact ⟨_, recv_chal g hp _ rfl d hd, .s2 c d hc, rfl, by simp⟩
  | s2 c d' hc =>
    rcases ht with ht | ⟨c', l, hc', ht, _⟩
    · rw [ht] at hm; simp at hm
    · rw [ht] at hm
      simp only [List.getElem?_cons_succ, List.getElem?_cons_zero, Option.some.injEq] at hm
      cases hc'
      rw [← hm, hH, hS]
      refine ⟨_, recv_reply g hp _ rfl c rfl (hz c) (hl c), ?_, rfl, by simp⟩
      exact .s3 c d' 2 _ [] hc rfl rfl rfl rfl (fun m hm => by cases hm) (Nat.le_refl _) ⟨rfl, rfl⟩ rfl
        (fun m hm => by cases hm)
  | s3 c d' n x l hc hf hch htm hs hl' hn hu ho hh =>
    rcases ht with ht | ⟨c', l2, hc', ht, hl2⟩
    · rw [ht] at hm
      rw [List.getElem?_eq_none (by simp; omega)] at hm
      cases hm
    · rw [ht] at hm
      obtain ⟨k, rfl⟩ : ∃ k, n = k + 2 := ⟨n - 2, by omega⟩
      simp only [List.getElem?_cons_succ] at hm
      have hreq := hl2 m (List.mem_of_getElem? hm)
      obtain ⟨e1, e2, e3⟩ := request_cmd m hreq
      refine ⟨handle x m, by simp only [step, recv, e1, e2, e3, if_false, hreq, if_true], ?_, ?_, ?_⟩
      · have hq : ∀ o, conns o = conns x.out →
            Side g { x with handled := x.handled ++ [⟨m.cmd, x.ruid, x.rgid⟩], out := o } (k + 2 + 1) (some d') := by
          intro o hoo
          refine .s3 c d' _ _ l hc hf hch htm hs hl' (by omega) hu (hoo.trans ho) ?_
          intro j hj
          rcases List.mem_append.mp hj with hj | hj
          · exact hh j hj
          · rw [List.mem_singleton.mp hj]; exact hu
        unfold handle
        dsimp only
        split
        · exact hq _ (by rw [conns_append]; simp [conns, isConn])
        · split
          · exact hq _ (by rw [conns_append]; simp [conns, isConn])
          · exact hq _ rfl
      · unfold handle; dsimp only; split
        · rfl
        · split <;> rfl
      · unfold handle; dsimp only; split
        · exact Nat.le_refl _
        · split <;> exact Nat.le_refl _

theorem pinv_step (ga gb : Cfg) (hpa : ga.plugin = .ovis) (hpb : gb.plugin = .ovis) (hH : gb.H = ga.H)
    (hS : gb.secret = ga.secret) (hz : ∀ c, 0 ∉ ga.H c ga.secret)
    (hl : ∀ c, (ga.H c ga.secret).length < 4294967200) (p : Pair) (e : PEv) (he : Drawn e)
    (ih : PInv ga gb p) : ∃ p', pstep ga gb p e = some p' ∧ PInv ga gb p' := by
  have hz' : ∀ c, 0 ∉ gb.H c gb.secret := by rw [hH, hS]; exact hz
  have hl' : ∀ c, (gb.H c gb.secret).length < 4294967200 := by rw [hH, hS]; exact hl
  cases e with
  | upA c =>
    obtain ⟨x', h1, h2, h3⟩ := up_side ga hpa p.a p.na c _ he ih.a
    refine ⟨{ p with a := x' }, by simp only [pstep, h1], h2, ?_, ih.na, ?_⟩
    · rcases h3 with rfl | ⟨h0, h3, _⟩
      · exact ih.b
      · have := ih.b
        rw [h0] at this
        rw [show ({ p with a := x' } : Pair).a.chal = some c from h3]
        exact side_peer gb _ _ c this
    · rcases h3 with rfl | ⟨h0, _, h3⟩
      · exact ih.nb
      · have := ih.nb
        rw [h0] at this
        have h0' : p.nb = 0 := by simpa using this
        show p.nb ≤ _
        omega
  | upB c =>
    obtain ⟨x', h1, h2, h3⟩ := up_side gb hpb p.b p.nb c _ he ih.b
    refine ⟨{ p with b := x' }, by simp only [pstep, h1], ?_, h2, ?_, ih.nb⟩
    · rcases h3 with rfl | ⟨h0, h3, _⟩
      · exact ih.a
      · have := ih.a
        rw [h0] at this
        rw [show ({ p with b := x' } : Pair).b.chal = some c from h3]
        exact side_peer ga _ _ c this
    · rcases h3 with rfl | ⟨h0, _, h3⟩
      · exact ih.na
      · have := ih.na
        rw [h0] at this
        have h0' : p.na = 0 := by simpa using this
        show p.na ≤ _
        omega
  | askA m =>
    obtain ⟨x', h1, h2, h3, h4⟩ := ask_side ga p.a p.na m _ ih.a
    exact ⟨{ p with a := x' }, by simp only [pstep, h1], h2, by
      show Side gb p.b p.nb x'.chal
      rw [h3]; exact ih.b, ih.na, Nat.le_trans ih.nb h4⟩
  | askB m =>
    obtain ⟨x', h1, h2, h3, h4⟩ := ask_side gb p.b p.nb m _ ih.b
    exact ⟨{ p with b := x' }, by simp only [pstep, h1], by
      show Side ga p.a p.na x'.chal
      rw [h3]; exact ih.a, h2, Nat.le_trans ih.na h4, ih.nb⟩
  | toA =>
    by_cases hf : p.a.flag = .init
    · exact ⟨p, by simp only [pstep, hf, if_true], ih⟩
    · cases hm : p.b.sent[p.na]? with
      | none => exact ⟨p, by simp only [pstep, hf, if_false, hm], ih⟩
      | some m =>
        obtain ⟨x', h1, h2, h3, h4⟩ := msg_side ga gb hpa hH hS hz hl p.a p.na _ _ ih.a (side_talk gb _ _ _ ih.b)
          hf m hm
        have hlt : p.na < p.b.sent.length := (List.getElem?_eq_some_iff.mp hm).1
        exact ⟨{ p with a := x', na := p.na + 1 }, by simp only [pstep, hf, if_false, hm, h1], h2, by
          show Side gb p.b p.nb x'.chal
          rw [h3]; exact ih.b, hlt, Nat.le_trans ih.nb h4⟩
  | toB =>
    by_cases hf : p.b.flag = .init
    · exact ⟨p, by simp only [pstep, hf, if_true], ih⟩
    · cases hm : p.a.sent[p.nb]? with
      | none => exact ⟨p, by simp only [pstep, hf, if_false, hm], ih⟩
      | some m =>
        obtain ⟨x', h1, h2, h3, h4⟩ := msg_side gb ga hpb hH.symm hS.symm hz' hl' p.b p.nb _ _ ih.b
          (side_talk ga _ _ _ ih.a) hf m hm
        have hlt : p.nb < p.a.sent.length := (List.getElem?_eq_some_iff.mp hm).1
        exact ⟨{ p with b := x', nb := p.nb + 1 }, by simp only [pstep, hf, if_false, hm, h1], by
          show Side ga p.a p.na x'.chal
          rw [h3]; exact ih.a, h2, Nat.le_trans ih.na h4, hlt⟩

theorem pinv_run (ga gb : Cfg) (hpa : ga.plugin = .ovis) (hpb : gb.plugin = .ovis) (hH : gb.H = ga.H)
    (hS : gb.secret = ga.secret) (hz : ∀ c, 0 ∉ ga.H c ga.secret)
    (hl : ∀ c, (ga.H c ga.secret).length < 4294967200) : ∀ (es : List PEv) (p : Pair), (∀ e ∈ es, Drawn e) →
    PInv ga gb p → ∃ p', prun ga gb p es = some p' ∧ PInv ga gb p' := by
  intro es
  induction es with
  | nil => intro p _ h; exact ⟨p, rfl, h⟩
  | cons e es ih =>
    intro p hd h
    obtain ⟨q, h1, h2⟩ := pinv_step ga gb hpa hpb hH hS hz hl p e (hd e (by simp)) h
    obtain ⟨p', h3, h4⟩ := ih q (fun e he => hd e (by simp [he])) h2
    exact ⟨p', by simp only [prun, h1]; exact h3, h4⟩

end Verif.XprtAuth
