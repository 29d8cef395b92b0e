import Verif.StreamStat.Spec

/-!
# The invariant of the statistics
-/

namespace Verif.StreamStat

/-- the counter of some messages -/
def acc : List (Nat × Nat) → Ctr
  | [] => zero
  | (t, b) :: l => update (acc l) t b

theorem tally_acc : ∀ ms : List (Nat × Nat), Tally ms (acc ms)
  | [] => by simp [Tally, acc, zero, TMAX]
  | (t, b) :: ms => by
    obtain ⟨h1, h2, h3, h4⟩ := tally_acc ms
    refine ⟨?_, ?_, by simp, ?_⟩
    · simp only [acc, update, h1, List.length_cons]; omega
    · simp only [acc, update, h2, List.map_cons, List.sum_cons]; omega
    · intro hm _
      simp only [acc, update]
      have ht : t ≤ 9223372036854775807999999999 := hm (t, b) (by simp)
      by_cases he : ms = []
      · subst he
        obtain ⟨a, c⟩ := h3 rfl
        rw [a, c]
        have e1 : (if t < 9223372036854775807999999999 then t else 9223372036854775807999999999) = t := by split <;> omega
        have e2 : (if 0 < t then t else 0) = t := by split <;> omega
        rw [e1, e2]
        simp
      · obtain ⟨a, c, d⟩ := h4 (fun m h => hm m (by simp [h])) he
        refine ⟨?_, ?_, ?_⟩
        · split
          · simp
          · simp only [List.map_cons, List.mem_cons]; exact .inr a
        · split
          · simp
          · simp only [List.map_cons, List.mem_cons]; exact .inr c
        · intro m hmm
          rcases List.mem_cons.1 hmm with rfl | hmm
          · constructor
            · split <;> omega
            · split <;> omega
          · have := d m hmm
            constructor
            · split <;> omega
            · split <;> omega

/-! ### messages of the history -/

theorem rxOf_nil {name : Nat} : ∀ {l : List Ev}, (∀ s b t lv, Ev.recv name s b t lv ∉ l) → rxOf name l = []
  | [], _ => rfl
  | ev :: l, h => by
    have ih := rxOf_nil (name := name) (l := l) fun s b t lv hh => h s b t lv (List.mem_cons_of_mem _ hh)
    cases ev <;> simp only [rxOf]
    case recv n s b t lv =>
      rw [if_neg, ih]
      rintro ⟨rfl, -⟩
      exact h s b t lv (by simp)
    all_goals simp [ih]

theorem srcOf_nil {name src : Nat} : ∀ {l : List Ev}, (∀ b t lv, Ev.recv name src b t lv ∉ l) → srcOf name src l = []
  | [], _ => rfl
  | ev :: l, h => by
    have ih := srcOf_nil (name := name) (src := src) (l := l) fun b t lv hh => h b t lv (List.mem_cons_of_mem _ hh)
    cases ev <;> simp only [srcOf]
    case recv n s b t lv =>
      rw [if_neg, ih]
      rintro ⟨rfl, rfl, -⟩
      exact h b t lv (by simp)
    all_goals simp [ih]

theorem clientOf_nil {c : Nat} {failed : Bool} : ∀ {l : List Ev}, (∀ n f b t lv, Ev.call n c f b t lv ∉ l) → clientOf c failed l = []
  | [], _ => rfl
  | ev :: l, h => by
    have ih := clientOf_nil (c := c) (failed := failed) (l := l) fun n f b t lv hh => h n f b t lv (List.mem_cons_of_mem _ hh)
    cases ev <;> simp only [clientOf]
    case call n k f b t lv =>
      rw [if_neg, ih]
      rintro ⟨rfl, -, -⟩
      exact h n f b t lv (by simp)
    all_goals simp [ih]

theorem pairOf_nil {n c : Nat} {failed : Bool} : ∀ {l : List Ev}, (∀ f b t lv, Ev.call n c f b t lv ∉ l) → pairOf n c failed l = []
  | [], _ => rfl
  | ev :: l, h => by
    have ih := pairOf_nil (n := n) (c := c) (failed := failed) (l := l) fun f b t lv hh => h f b t lv (List.mem_cons_of_mem _ hh)
    cases ev <;> simp only [pairOf]
    case call m k f b t lv =>
      rw [if_neg, ih]
      rintro ⟨rfl, rfl, -, -⟩
      exact h f b t lv (by simp)
    all_goals simp [ih]

/-! ### the invariant -/

structure StreamOK (log : List Ev) (cs : List Client) (s : Stream) : Prop where
  rx : s.rx = acc (rxOf s.name log)
  keys : (s.srcs.map Prod.fst).Nodup
  srcs : ∀ p ∈ s.srcs, p.2 = acc (srcOf s.name p.1 log)
  miss : ∀ a, a ∉ s.srcs.map Prod.fst → srcOf s.name a log = []
  once : (s.ents.map Ent.client).Nodup
  small : ∀ e ∈ s.ents, e.client < cs.length
  live : ∀ e ∈ s.ents, e.bound = true → ∃ k, cs[e.client]? = some k ∧ k.isOpen = true
  bnd : ∀ e ∈ s.ents, ∀ k : Client, cs[e.client]? = some k → k.isOpen = true → e.bound = true
  pair : ∀ e ∈ s.ents, e.bound = true → e.tx = acc (pairOf s.name e.client false log) ∧ e.drops = acc (pairOf s.name e.client true log)

def ClientsOK (log : List Ev) (cs : List Client) : Prop :=
  ∀ (c : Nat) (k : Client), cs[c]? = some k → k.isOpen = true → k.tx = acc (clientOf c false log) ∧ k.drops = acc (clientOf c true log)

structure Inv (st : St) : Prop where
  names : (st.streams.map Stream.name).Nodup
  strm : ∀ s ∈ st.streams, StreamOK st.log st.clients s
  cl : ClientsOK st.log st.clients
  opnR : ∀ (c : Nat) (k : Client), st.clients[c]? = some k → k.isOpen = true → k.m.isRegex = true → c ∈ st.regexq
  opnE : ∀ (c : Nat) (k : Client), st.clients[c]? = some k → k.isOpen = true → k.m.isRegex = false → ∃ s ∈ st.streams, ∃ e ∈ s.ents, e.client = c ∧ e.bound = true
  rqn : st.regexq.Nodup
  rq : ∀ c ∈ st.regexq, ∃ k, st.clients[c]? = some k ∧ k.isOpen = true ∧ k.m.isRegex = true
  lcall : ∀ n c f b t lv, Ev.call n c f b t lv ∈ st.log → c < st.clients.length ∧ ∃ s ∈ st.streams, s.name = n
  lrecv : ∀ n s b t lv, Ev.recv n s b t lv ∈ st.log → ∃ x ∈ st.streams, x.name = n

theorem inv_init : Inv init := by
  constructor <;> simp [init, ClientsOK]

theorem get_lt {cs : List Client} {c : Nat} {k : Client} (h : cs[c]? = some k) : c < cs.length := by
  exact (List.getElem?_eq_some_iff.1 h).1

theorem StreamOK.mono {log : List Ev} {cs cs' : List Client} {s : Stream} (h : StreamOK log cs s) (hl : cs.length ≤ cs'.length)
    (ho : ∀ (c : Nat) (k : Client), cs[c]? = some k → k.isOpen = true → ∃ k', cs'[c]? = some k' ∧ k'.isOpen = true)
    (hb : ∀ (c : Nat) (k : Client), c < cs.length → cs'[c]? = some k → k.isOpen = true → ∃ k', cs[c]? = some k' ∧ k'.isOpen = true) : StreamOK log cs' s :=
  ⟨h.rx, h.keys, h.srcs, h.miss, h.once, fun e he => Nat.lt_of_lt_of_le (h.small e he) hl,
    fun e he hb => by obtain ⟨k, h1, h2⟩ := h.live e he hb; exact ho _ k h1 h2,
    fun e he k hk hk2 => by obtain ⟨k', h1, h2⟩ := hb _ k (h.small e he) hk hk2; exact h.bnd e he k' h1 h2, h.pair⟩

/-! ### streams are made -/

theorem inv_get {st : St} {n : Nat} (h : Inv st) : Inv (streamGet st n) ∧ (∃ s ∈ (streamGet st n).streams, s.name = n) ∧
    (streamGet st n).clients = st.clients ∧ (streamGet st n).log = st.log ∧ (streamGet st n).regexq = st.regexq ∧ (streamGet st n).level = st.level := by
  unfold streamGet
  by_cases ha : st.streams.any (fun s => s.name == n) = true
  · rw [if_pos ha]
    refine ⟨h, ?_, rfl, rfl, rfl, rfl⟩
    obtain ⟨s, hs, hn⟩ := List.any_eq_true.1 ha
    exact ⟨s, hs, by simpa using hn⟩
  · rw [if_neg ha]
    have hno : ∀ s ∈ st.streams, s.name ≠ n := by
      intro s hs hn
      exact ha (List.any_eq_true.2 ⟨s, hs, by simpa using hn⟩)
    have hr : ∀ s b t lv, Ev.recv n s b t lv ∉ st.log := fun s b t lv hh => by
      obtain ⟨x, hx, hn⟩ := h.lrecv _ _ _ _ _ hh
      exact hno x hx hn
    have hc : ∀ c f b t lv, Ev.call n c f b t lv ∉ st.log := fun c f b t lv hh => by
      obtain ⟨x, hx, hn⟩ := (h.lcall _ _ _ _ _ _ hh).2
      exact hno x hx hn
    refine ⟨?_, ⟨_, List.mem_append_right _ (List.mem_singleton.2 rfl), rfl⟩, rfl, rfl, rfl, rfl⟩
    constructor
    · simp only [List.map_append, List.map_cons, List.map_nil]
      rw [List.nodup_append]
      refine ⟨h.names, by simp, ?_⟩
      intro a ha b hb e
      simp at hb
      obtain ⟨s, hs, rfl⟩ := List.mem_map.1 ha
      exact hno s hs (e.trans hb)
    · intro s hs
      rcases List.mem_append.1 hs with hs | hs
      · exact h.strm s hs
      · rw [List.mem_singleton.1 hs]
        constructor
        · simp only; rw [rxOf_nil hr]; rfl
        · simp
        · simp
        · intro a _; exact srcOf_nil (hr a)
        · simp only [List.map_map]
          have : (Ent.client ∘ entry) = id := rfl
          rw [this, List.map_id]
          exact h.rqn.filter _
        · intro e he
          obtain ⟨c, hcm, rfl⟩ := List.mem_map.1 he
          obtain ⟨k, hk, -⟩ := h.rq c (List.mem_filter.1 hcm).1
          exact get_lt hk
        · intro e he _
          obtain ⟨c, hcm, rfl⟩ := List.mem_map.1 he
          obtain ⟨k, hk, ho, -⟩ := h.rq c (List.mem_filter.1 hcm).1
          exact ⟨k, hk, ho⟩
        · intro e he _ _ _
          obtain ⟨c, hcm, rfl⟩ := List.mem_map.1 he
          rfl
        · intro e he _
          obtain ⟨c, hcm, rfl⟩ := List.mem_map.1 he
          simp only [entry]
          rw [pairOf_nil (hc c), pairOf_nil (hc c)]
          exact ⟨rfl, rfl⟩
    · exact h.cl
    · exact h.opnR
    · intro c k h1 h2 h3
      obtain ⟨s, hs, he⟩ := h.opnE c k h1 h2 h3
      exact ⟨s, List.mem_append_left _ hs, he⟩
    · exact h.rqn
    · exact h.rq
    · intro n c f b t lv hh
      obtain ⟨a, s, hs, e⟩ := h.lcall n c f b t lv hh
      exact ⟨a, s, List.mem_append_left _ hs, e⟩
    · intro n s b t lv hh
      obtain ⟨s, hs, e⟩ := h.lrecv n s b t lv hh
      exact ⟨s, List.mem_append_left _ hs, e⟩

/-! ### a client is added -/

theorem inv_bind {st : St} (h : Inv st) (q : Nat → Bool) (m : Match) (l : Bool)
    (hq : m.isRegex = false → ∃ s ∈ st.streams, q s.name = true) :
    Inv { st with
      clients := st.clients ++ [⟨m, l, true, zero, zero⟩]
      regexq := if m.isRegex then st.regexq ++ [st.clients.length] else st.regexq
      streams := st.streams.map fun s => if q s.name = true then bind st.clients.length s else s } := by
  have hcall : ∀ n f b t lv, Ev.call n st.clients.length f b t lv ∉ st.log := fun n f b t lv hh => Nat.lt_irrefl _ (h.lcall _ _ _ _ _ _ hh).1
  have hnew : (st.clients ++ [⟨m, l, true, zero, zero⟩])[st.clients.length]? = some ⟨m, l, true, zero, zero⟩ := by simp
  have hold : ∀ (c : Nat) (k : Client), st.clients[c]? = some k → (st.clients ++ [⟨m, l, true, zero, zero⟩])[c]? = some k := by
    intro c k hk
    rw [List.getElem?_append_left (get_lt hk)]
    exact hk
  have hback : ∀ (c : Nat) (k : Client), (st.clients ++ [⟨m, l, true, zero, zero⟩])[c]? = some k → (st.clients[c]? = some k) ∨ (c = st.clients.length ∧ k = ⟨m, l, true, zero, zero⟩) := by
    intro c k hk
    by_cases hc : c < st.clients.length
    · rw [List.getElem?_append_left hc] at hk; exact .inl hk
    · have hlt := get_lt hk
      simp at hlt
      obtain rfl : c = st.clients.length := by omega
      rw [hnew] at hk
      exact .inr ⟨rfl, (Option.some.inj hk).symm⟩
  have hname : ∀ s, (if q s.name = true then bind st.clients.length s else s).name = s.name := by
    intro s; split <;> rfl
  constructor
  · simp only [List.map_map]
    have : (Stream.name ∘ fun s => if q s.name = true then bind st.clients.length s else s) = Stream.name := funext hname
    rw [this]
    exact h.names
  · intro s1 hs1
    obtain ⟨s, hs, rfl⟩ := List.mem_map.1 hs1
    have hs' := (h.strm s hs).mono (cs' := st.clients ++ [⟨m, l, true, zero, zero⟩]) (by simp) (fun c k h1 h2 => ⟨k, hold c k h1, h2⟩)
      (fun c k hc hk ho => ⟨k, by rw [List.getElem?_append_left hc] at hk; exact hk, ho⟩)
    dsimp only
    by_cases hqs : q s.name = true
    · rw [if_pos hqs]
      constructor
      · exact hs'.rx
      · exact hs'.keys
      · exact hs'.srcs
      · exact hs'.miss
      · simp only [bind, List.map_append, List.map_cons, List.map_nil, entry]
        rw [List.nodup_append]
        refine ⟨hs'.once, by simp, ?_⟩
        intro a ha b hb e
        obtain ⟨x, hx, rfl⟩ := List.mem_map.1 ha
        have := (h.strm s hs).small x hx
        simp at hb
        omega
      · intro e he
        rcases List.mem_append.1 he with he | he
        · exact hs'.small e he
        · rw [List.mem_singleton.1 he]; simp [entry]
      · intro e he hb
        rcases List.mem_append.1 he with he | he
        · exact hs'.live e he hb
        · rw [List.mem_singleton.1 he]; exact ⟨_, hnew, rfl⟩
      · intro e he k hk ho
        rcases List.mem_append.1 he with he | he
        · exact hs'.bnd e he k hk ho
        · rw [List.mem_singleton.1 he]; rfl
      · intro e he hb
        rcases List.mem_append.1 he with he | he
        · exact hs'.pair e he hb
        · rw [List.mem_singleton.1 he]
          simp only [entry, bind]
          rw [pairOf_nil (hcall _), pairOf_nil (hcall _)]
          exact ⟨rfl, rfl⟩
    · rw [if_neg hqs]; exact hs'
  · intro c k hk ho
    rcases hback c k hk with hk | ⟨rfl, rfl⟩
    · exact h.cl c k hk ho
    · simp only
      rw [clientOf_nil hcall, clientOf_nil hcall]
      exact ⟨rfl, rfl⟩
  · intro c k hk ho hr
    dsimp only
    rcases hback c k hk with hk | ⟨rfl, rfl⟩
    · split
      · exact List.mem_append_left _ (h.opnR c k hk ho hr)
      · exact h.opnR c k hk ho hr
    · rw [if_pos hr]; simp
  · intro c k hk ho hr
    rcases hback c k hk with hk | ⟨rfl, rfl⟩
    · obtain ⟨s, hs, e, he, h1, h2⟩ := h.opnE c k hk ho hr
      refine ⟨_, List.mem_map.2 ⟨s, hs, rfl⟩, e, ?_, h1, h2⟩
      split
      · exact List.mem_append_left _ he
      · exact he
    · obtain ⟨s, hs, hqs⟩ := hq hr
      refine ⟨_, List.mem_map.2 ⟨s, hs, rfl⟩, entry st.clients.length, ?_, rfl, rfl⟩
      rw [if_pos hqs]
      simp [bind]
  · dsimp only
    split
    · rw [List.nodup_append]
      refine ⟨h.rqn, by simp, ?_⟩
      intro a ha b hb e
      obtain ⟨k, hk, -⟩ := h.rq a ha
      have := get_lt hk
      simp at hb
      omega
    · exact h.rqn
  · intro c hc
    dsimp only at hc ⊢
    split at hc
    · rename_i hr
      rcases List.mem_append.1 hc with hc | hc
      · obtain ⟨k, h1, h2⟩ := h.rq c hc
        exact ⟨k, hold c k h1, h2⟩
      · rw [List.mem_singleton.1 hc]; exact ⟨_, hnew, rfl, hr⟩
    · obtain ⟨k, h1, h2⟩ := h.rq c hc
      exact ⟨k, hold c k h1, h2⟩
  · intro n c f b t lv hh
    obtain ⟨a, s, hs, e⟩ := h.lcall n c f b t lv hh
    refine ⟨by simp; omega, _, List.mem_map.2 ⟨s, hs, rfl⟩, ?_⟩
    rw [hname]; exact e
  · intro n s b t lv hh
    obtain ⟨s, hs, e⟩ := h.lrecv n s b t lv hh
    refine ⟨_, List.mem_map.2 ⟨s, hs, rfl⟩, ?_⟩
    rw [hname]; exact e

theorem inv_subscribe {st : St} (h : Inv st) (m : Match) (l : Bool) : Inv (subscribe st m l) := by
  cases m with
  | regex p => exact inv_bind h p (.regex p) l (by simp [Match.isRegex])
  | exact n =>
    obtain ⟨hi, ⟨s, hs, hn⟩, hc, hl, hr, -⟩ := inv_get (n := n) h
    have := inv_bind hi (fun x => decide (x = n)) (.exact n) l fun _ => ⟨s, hs, by simpa using hn⟩
    simpa [subscribe, Match.isRegex, hc] using this

/-! ### a client goes -/

theorem inv_close {st : St} (h : Inv st) (c : Nat) : Inv (close st c) := by
  have hget : ∀ d : Nat, d ≠ c → (st.clients.modify c fun k => { k with isOpen := false })[d]? = st.clients[d]? := by
    intro d hd
    rw [List.getElem?_modify]
    have hd : c ≠ d := fun e => hd e.symm
    cases st.clients[d]? <;> simp [hd]
  have hopen : ∀ (d : Nat) (k : Client), (st.clients.modify c fun k => { k with isOpen := false })[d]? = some k → k.isOpen = true → d ≠ c ∧ st.clients[d]? = some k := by
    intro d k hk ho
    have hd : d ≠ c := by
      intro e
      subst e
      rw [List.getElem?_modify] at hk
      cases hx : st.clients[d]? with
      | none => rw [hx] at hk; cases hk
      | some y =>
        rw [hx] at hk
        simp at hk
        subst hk
        cases ho
    exact ⟨hd, by rw [← hget d hd]; exact hk⟩
  have hlen : (st.clients.modify c fun k => { k with isOpen := false }).length = st.clients.length := by simp
  unfold close
  constructor
  · simp only [List.map_map]
    exact h.names
  · intro s1 hs1
    obtain ⟨s, hs, rfl⟩ := List.mem_map.1 hs1
    have hs' := h.strm s hs
    have hmem : ∀ e ∈ (unbind c s).ents, ∃ e0 ∈ s.ents, e.client = e0.client ∧ (e.bound = true → e = e0 ∧ e0.client ≠ c) := by
      intro e he
      obtain ⟨e0, he0, rfl⟩ := List.mem_map.1 he
      refine ⟨e0, he0, by split <;> rfl, ?_⟩
      split
      · intro hb; cases hb
      · intro _; exact ⟨rfl, by assumption⟩
    constructor
    · exact hs'.rx
    · exact hs'.keys
    · exact hs'.srcs
    · exact hs'.miss
    · simp only [unbind, List.map_map]
      have : (Ent.client ∘ fun e => if e.client = c then { e with bound := false } else e) = Ent.client := by
        funext e; simp only [Function.comp_apply]; split <;> rfl
      rw [this]
      exact hs'.once
    · intro e he
      obtain ⟨e0, he0, h1, -⟩ := hmem e he
      dsimp only
      rw [hlen, h1]
      exact hs'.small e0 he0
    · intro e he hb
      obtain ⟨e0, he0, -, h2⟩ := hmem e he
      obtain ⟨rfl, hne⟩ := h2 hb
      obtain ⟨k, hk, ho⟩ := hs'.live e he0 hb
      exact ⟨k, by dsimp only; rw [hget _ hne]; exact hk, ho⟩
    · intro e1 he1 k hk ho
      obtain ⟨e0, he0, rfl⟩ := List.mem_map.1 he1
      obtain ⟨hd, hk⟩ := hopen _ k hk ho
      have hc : (if e0.client = c then { e0 with bound := false } else e0).client = e0.client := by split <;> rfl
      rw [hc] at hd hk
      rw [if_neg hd]
      exact hs'.bnd e0 he0 k hk ho
    · intro e he hb
      obtain ⟨e0, he0, -, h2⟩ := hmem e he
      obtain ⟨rfl, hne⟩ := h2 hb
      exact hs'.pair e he0 hb
  · intro d k hk ho
    obtain ⟨-, hk⟩ := hopen d k hk ho
    exact h.cl d k hk ho
  · intro d k hk ho hr
    obtain ⟨hd, hk⟩ := hopen d k hk ho
    exact (List.mem_erase_of_ne hd).2 (h.opnR d k hk ho hr)
  · intro d k hk ho hr
    obtain ⟨hd, hk⟩ := hopen d k hk ho
    obtain ⟨s, hs, e, he, h1, h2⟩ := h.opnE d k hk ho hr
    refine ⟨_, List.mem_map.2 ⟨s, hs, rfl⟩, e, List.mem_map.2 ⟨e, he, ?_⟩, h1, h2⟩
    rw [if_neg (by rw [h1]; exact hd)]
  · exact h.rqn.erase c
  · intro d hd
    have hne : d ≠ c := by
      intro e
      subst e
      exact (h.rqn.mem_erase_iff.1 hd).1 rfl
    obtain ⟨k, hk, h2⟩ := h.rq d (List.mem_of_mem_erase hd)
    exact ⟨k, by dsimp only; rw [hget d hne]; exact hk, h2⟩
  · intro n d f b t lv hh
    obtain ⟨a, s, hs, e⟩ := h.lcall n d f b t lv hh
    exact ⟨by simpa using a, _, List.mem_map.2 ⟨s, hs, rfl⟩, e⟩
  · intro n x b t lv hh
    obtain ⟨s, hs, e⟩ := h.lrecv n x b t lv hh
    exact ⟨_, List.mem_map.2 ⟨s, hs, rfl⟩, e⟩

end Verif.StreamStat
