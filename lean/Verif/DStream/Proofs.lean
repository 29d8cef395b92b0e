import Verif.DStream.Spec

/-!
# Streams of the daemon: invariants
-/

namespace Verif.DStream

theorem find_onStream {α : Type} {n k : Nat} {f : Stream → Stream × α} (hf : ∀ s, (f s).1.name = s.name) : ∀ ss : List Stream,
    ((onStream n f ss).1.find? fun s => s.name = k).getD (fresh k) =
      if k = n then (f ((ss.find? fun s => s.name = n).getD (fresh n))).1 else (ss.find? fun s => s.name = k).getD (fresh k)
  | [] => by
    have h0 : (f (fresh n)).1.name = n := hf _
    by_cases hk : k = n
    · subst hk
      simp [onStream, h0]
    · have hne : ¬ n = k := fun h => hk h.symm
      simp [onStream, h0, hk, hne]
  | s :: ss => by
    unfold onStream
    by_cases hs : s.name = n
    · rw [if_pos hs]
      have h0 : (f s).1.name = n := (hf s).trans hs
      by_cases hk : k = n
      · subst hk
        simp [hs, h0]
      · have hne : ¬ n = k := fun h => hk h.symm
        simp [hs, h0, hk, hne]
    · rw [if_neg hs]
      have ih := find_onStream (n := n) (k := k) hf ss
      by_cases hk : s.name = k
      · have hkn : ¬ k = n := fun h => hs (hk.trans h)
        simp [hk, hkn]
      · simp only [List.find?_cons, hk, hs, decide_false]
        exact ih

theorem snd_onStream {α : Type} {n : Nat} {f : Stream → Stream × α} : ∀ ss : List Stream,
    (onStream n f ss).2 = (f ((ss.find? fun s => s.name = n).getD (fresh n))).2
  | [] => rfl
  | s :: ss => by
    unfold onStream
    by_cases hs : s.name = n
    · rw [if_pos hs]; simp [hs]
    · rw [if_neg hs]
      simp only [List.find?_cons, hs, decide_false]
      exact snd_onStream ss

theorem find_map {g : Stream → Stream} (hg : ∀ s, (g s).name = s.name) {k : Nat} (h0 : g (fresh k) = fresh k) : ∀ ss : List Stream,
    ((ss.map g).find? fun s => s.name = k).getD (fresh k) = g ((ss.find? fun s => s.name = k).getD (fresh k))
  | [] => h0.symm
  | s :: ss => by
    by_cases hs : s.name = k
    · simp [hg, hs]
    · have ih := find_map hg h0 ss
      simp only [List.map_cons, List.find?_cons, hg, hs, decide_false]
      exact ih

theorem look_eq {st : St} {n : Nat} : look st n = (st.streams.find? fun s => s.name = n).getD (fresh n) := rfl

theorem deliverAt_name {mem : Nat → Nat} {m : Msg} {now : Nat} {b : Option Nat} (s : Stream) : (deliverAt mem m now b s).1.name = s.name := rfl

theorem subscribeAt_name {h f x : Nat} (s : Stream) : (subscribeAt h f x s).1.name = s.name := by
  unfold subscribeAt
  split <;> rfl

theorem publishAt_name {l t : Nat} (s : Stream) : (publishAt l t s).1.name = s.name := rfl

theorem look_new {st : St} {n k : Nat} : look (new st n) k = look st k := by
  rw [look_eq, look_eq]
  show ((onStream n (fun s => (s, ())) st.streams).1.find? _).getD _ = _
  rw [find_onStream (fun s => rfl)]
  split
  · next h => subst h; rfl
  · rfl

theorem look_subscribe {st : St} {n f x k : Nat} :
    look (subscribe st n f x).1 k = if k = n then (subscribeAt st.next f x (look st n)).1 else look st k := by
  rw [look_eq, look_eq, look_eq]
  show ((onStream n (subscribeAt st.next f x) st.streams).1.find? _).getD _ = _
  rw [find_onStream subscribeAt_name]

theorem look_deliver {st : St} {n : Nat} {m : Msg} {now : Nat} {b : Option Nat} {k : Nat} :
    look (deliver st n m now b) k = if k = n then (deliverAt st.mem m now b (look st n)).1 else look st k := by
  rw [look_eq, look_eq, look_eq]
  show ((onStream n (deliverAt st.mem m now b) st.streams).1.find? _).getD _ = _
  rw [find_onStream deliverAt_name]

theorem calls_deliver {st : St} {n : Nat} {m : Msg} {now : Nat} {b : Option Nat} :
    (deliver st n m now b).calls = st.calls ++ visit m (look st n).clients m.given false := by
  show st.calls ++ (onStream n (deliverAt st.mem m now b) st.streams).2 = _
  rw [snd_onStream]
  rfl

theorem look_publish {st : St} {n l t k : Nat} :
    look (publish st n l t) k = if k = n ∧ l ≠ 0 then (publishAt l t (look st n)).1 else look st k := by
  unfold publish
  by_cases hl : l = 0
  · rw [if_pos hl, if_neg (fun h => h.2 hl)]
  · rw [if_neg hl, look_eq, look_eq, look_eq]
    show ((onStream n (publishAt l t) st.streams).1.find? _).getD _ = _
    rw [find_onStream publishAt_name]
    by_cases hk : k = n
    · rw [if_pos hk, if_pos ⟨hk, hl⟩]
    · rw [if_neg hk, if_neg (fun h => hk h.1)]

theorem look_reset {st : St} {k : Nat} : look (reset st) k = { look st k with recv := Info.zero, pub := Info.zero } := by
  rw [look_eq, look_eq]
  exact find_map (g := fun s => { s with recv := Info.zero, pub := Info.zero }) (fun _ => rfl) rfl _

theorem look_close {st : St} {h k : Nat} : look (close st h) k = { look st k with clients := (look st k).clients.filter fun c => c.handle != h } := by
  rw [look_eq, look_eq]
  exact find_map (g := fun s => { s with clients := s.clients.filter fun c => c.handle != h }) (fun _ => rfl) rfl _

theorem look_setRaw {st : St} {h : Nat} {r : Bool} {k : Nat} :
    look (setRaw st h r) k = { look st k with clients := (look st k).clients.map fun c => if c.handle = h then { c with raw := r } else c } := by
  rw [look_eq, look_eq]
  exact find_map (g := fun s => { s with clients := s.clients.map fun c => if c.handle = h then { c with raw := r } else c }) (fun _ => rfl) rfl _

/-! ## Subscriptions -/

def toClient (s : Sub) : Client := ⟨s.handle, s.fn, s.ctxt, s.raw⟩

theorem next_eq : ∀ as : List Act, (run as).next = tries as
  | [] => rfl
  | a :: as => by
    have ih := next_eq as
    cases a with
    | subscribe n f x => show (run as).next + 1 = tries as + 1; rw [ih]
    | publish n l t =>
      show (publish (run as) n l t).next = tries as
      unfold publish
      split <;> exact ih
    | new n => exact ih
    | close h => exact ih
    | setRaw h r => exact ih
    | deliver n m t b => exact ih
    | reset => exact ih
    | write b n => exact ih

theorem clients_eq : ∀ (as : List Act) (n : Nat), (look (run as) n).clients = (subsOf as n).map toClient
  | [], _ => rfl
  | a :: as, n => by
    have ih := clients_eq as n
    cases a with
    | new k =>
      show (look (new (run as) k) n).clients = (subsOf as n).map toClient
      rw [look_new]; exact ih
    | subscribe k f x =>
      show (look (subscribe (run as) k f x).1 n).clients = _
      rw [look_subscribe]
      have hex : ((look (run as) k).clients.any fun c => c.fn == f && c.ctxt == x) = true ↔ ∃ s ∈ subs as, s.name = k ∧ s.fn = f ∧ s.ctxt = x := by
        rw [clients_eq as k]
        simp [subsOf, toClient, List.any_eq_true]
      unfold subsOf subs
      by_cases he : ∃ s ∈ subs as, s.name = k ∧ s.fn = f ∧ s.ctxt = x
      · rw [if_pos he]
        have : subscribeAt (run as).next f x (look (run as) k) = (look (run as) k, false) := by
          unfold subscribeAt; rw [if_pos (hex.2 he)]
        rw [this]
        by_cases hn : n = k
        · subst hn; rw [if_pos rfl]; exact ih
        · rw [if_neg hn]; exact ih
      · rw [if_neg he]
        have : subscribeAt (run as).next f x (look (run as) k) =
            ({ look (run as) k with clients := ⟨(run as).next, f, x, false⟩ :: (look (run as) k).clients }, true) := by
          unfold subscribeAt; rw [if_neg (fun h => he (hex.1 h))]
        rw [this]
        by_cases hn : n = k
        · subst hn
          rw [if_pos rfl]
          show _ :: (look (run as) n).clients = _
          rw [ih, next_eq]
          simp [subsOf, toClient]
        · rw [if_neg hn, ih]
          have hne : ¬ k = n := fun h => hn h.symm
          simp [subsOf, hne]
    | close h =>
      show (look (close (run as) h) n).clients = _
      rw [look_close]
      show (look (run as) n).clients.filter _ = _
      rw [ih]
      simp only [subsOf, subs, List.filter_map, List.filter_filter]
      congr 1
      apply List.filter_congr
      intro s _
      by_cases hh : s.handle = h <;> simp [toClient, hh]
    | setRaw h r =>
      show (look (setRaw (run as) h r) n).clients = _
      rw [look_setRaw]
      show (look (run as) n).clients.map _ = _
      rw [ih]
      simp only [subsOf, subs, List.map_map, List.filter_map]
      have hp : ((fun s : Sub => decide (s.name = n)) ∘ fun s => if s.handle = h then { s with raw := r } else s) = fun s : Sub => decide (s.name = n) := by
        funext s
        simp only [Function.comp]
        split <;> rfl
      rw [hp]
      apply List.map_congr_left
      intro s _
      show (if (toClient s).handle = h then { toClient s with raw := r } else toClient s) = toClient (if s.handle = h then { s with raw := r } else s)
      by_cases hh : s.handle = h
      · rw [if_pos hh, if_pos (show (toClient s).handle = h from hh)]; rfl
      · rw [if_neg hh, if_neg (show ¬ (toClient s).handle = h from hh)]
    | deliver k m t b =>
      show (look (deliver (run as) k m t b) n).clients = (subsOf as n).map toClient
      rw [look_deliver]
      by_cases hn : n = k
      · subst hn; rw [if_pos rfl]; exact ih
      · rw [if_neg hn]; exact ih
    | publish k l t =>
      show (look (publish (run as) k l t) n).clients = (subsOf as n).map toClient
      rw [look_publish]
      by_cases hn : n = k ∧ l ≠ 0
      · rw [if_pos hn]; rw [← hn.1]; exact ih
      · rw [if_neg hn]; exact ih
    | reset =>
      show (look (reset (run as)) n).clients = (subsOf as n).map toClient
      rw [look_reset]; exact ih
    | write b k => exact ih

theorem handles_lt : ∀ (as : List Act) {s : Sub}, s ∈ subs as → s.handle < tries as
  | [], _, h => nomatch h
  | a :: as, s, h => by
    have ih := fun {s} => handles_lt as (s := s)
    cases a with
    | subscribe n f x =>
      unfold subs at h
      show s.handle < tries as + 1
      split at h
      · have := ih h; omega
      · rcases List.mem_cons.1 h with h | h
        · subst h; exact Nat.lt_succ_self _
        · have := ih h; omega
    | close k => exact ih (List.mem_filter.1 h).1
    | setRaw k r =>
      obtain ⟨s', h', rfl⟩ := List.mem_map.1 h
      show (if _ then _ else _ : Sub).handle < tries as
      have := ih h'
      split
      · exact this
      · exact this
    | new n => exact ih h
    | deliver n m t b => exact ih h
    | publish n l t => exact ih h
    | reset => exact ih h
    | write b n => exact ih h

theorem handles_nodup : ∀ as : List Act, ((subs as).map Sub.handle).Nodup
  | [] => List.nodup_nil
  | a :: as => by
    have ih := handles_nodup as
    cases a with
    | subscribe n f x =>
      unfold subs
      split
      · exact ih
      · refine List.nodup_cons.2 ⟨?_, ih⟩
        intro h
        obtain ⟨s, hs, he⟩ := List.mem_map.1 h
        have := handles_lt as hs
        simp only at he
        omega
    | close k => exact List.Nodup.sublist (List.Sublist.map _ List.filter_sublist) ih
    | setRaw k r =>
      unfold subs
      rw [List.map_map]
      have : (Sub.handle ∘ fun s : Sub => if s.handle = k then { s with raw := r } else s) = Sub.handle := by
        funext s
        simp only [Function.comp]
        split <;> rfl
      rw [this]
      exact ih
    | new n => exact ih
    | deliver n m t b => exact ih
    | publish n l t => exact ih
    | reset => exact ih
    | write b n => exact ih

theorem subsOf_nodup (as : List Act) (n : Nat) : ((subsOf as n).map Sub.handle).Nodup :=
  List.Nodup.sublist (List.Sublist.map _ List.filter_sublist) (handles_nodup as)

/-! ## The loop of a delivery -/

theorem visit_done {m : Msg} {obj tried : Bool} (h : m.json = false ∨ obj = true ∨ tried = true) : ∀ cs : List Client,
    visit m cs obj tried = cs.map fun c => ⟨c.handle, m, obj⟩
  | [] => rfl
  | c :: cs => by
    unfold visit
    have : (m.json && !c.raw && !obj && !tried) = false := by
      rcases h with h | h | h <;> simp [h]
    rw [if_neg (by simp [this]), visit_done h cs]
    rfl

theorem visit_bad {m : Msg} (h : m.Bad) : ∀ cs : List Client,
    visit m cs false false = (cs.eraseP fun c => !c.raw).map fun c => ⟨c.handle, m, false⟩
  | [] => rfl
  | c :: cs => by
    unfold visit
    cases hr : c.raw
    · simp [h.1, hr, h.2.2, visit_done]
    · simp [hr, visit_bad h cs]

theorem visit_good {m : Msg} (hj : m.json = true) (hg : m.good = true) : ∀ cs : List Client,
    (visit m cs false false).map (fun c => (c.handle, c.msg)) = cs.map (fun c => (c.handle, m)) ∧
    ∀ c ∈ cs, c.raw = false → ⟨c.handle, m, true⟩ ∈ visit m cs false false
  | [] => ⟨rfl, fun _ h => nomatch h⟩
  | c :: cs => by
    unfold visit
    cases hr : c.raw
    · simp [hj, hr, hg, visit_done]
      exact fun a ha _ => Or.inr ⟨a, ha, rfl⟩
    · obtain ⟨a, b⟩ := visit_good hj hg cs
      simp only [Bool.not_true, Bool.and_false, Bool.false_and]
      refine ⟨by simp [a], ?_⟩
      intro d hd hdr
      rcases List.mem_cons.1 hd with rfl | hd
      · rw [hr] at hdr; exact absurd hdr (by simp)
      · exact List.mem_cons_of_mem _ (b d hd hdr)

theorem visit_all {m : Msg} (h : ¬ m.Bad) (cs : List Client) :
    (visit m cs m.given false).map (fun c => (c.handle, c.msg)) = cs.map (fun c => (c.handle, m)) := by
  by_cases hj : m.json = true
  · by_cases hv : m.given = true
    · rw [hv, visit_done (Or.inr (Or.inl rfl))]; simp
    · have hv : m.given = false := by simpa using hv
      have hg : m.good = true := by
        cases hg : m.good
        · exact absurd ⟨hj, hv, hg⟩ h
        · rfl
      rw [hv]
      exact (visit_good hj hg cs).1
  · have hj : m.json = false := by simpa using hj
    rw [visit_done (Or.inl hj)]; simp

/-! ## Statistics -/

theorem counts_nil : Counts Info.zero [] := ⟨rfl, rfl, rfl, rfl⟩

theorem counts_tick {i : Info} {l : List (Nat × Nat)} (h : Counts i l) (t n : Nat) : Counts (tick i t n) ((t, n) :: l) := by
  obtain ⟨a, b, c, d⟩ := h
  refine ⟨?_, rfl, ?_, ?_⟩
  · show (if i.first = 0 then t else i.first) = _
    rw [a]
    simp only [List.map_cons, List.reverse_cons, List.find?_append]
    cases hf : (l.map Prod.fst).reverse.find? fun t => decide (t ≠ 0) with
    | none =>
      simp only [Option.getD_none, if_true, Option.none_or]
      by_cases ht : t = 0 <;> simp [ht]
    | some x =>
      have := List.find?_some hf
      simp at this
      simp [this]
  · show i.count + 1 = _
    rw [c]; rfl
  · show i.bytes + n = _
    rw [d]; simp [Nat.add_comm]

theorem counts_run : ∀ (as : List Act) (n : Nat), Counts (look (run as) n).recv (rxOf n as) ∧ Counts (look (run as) n).pub (txOf n as)
  | [], _ => ⟨counts_nil, counts_nil⟩
  | a :: as, n => by
    obtain ⟨ih1, ih2⟩ := counts_run as n
    cases a with
    | new k =>
      show Counts (look (new (run as) k) n).recv (rxOf n as) ∧ Counts (look (new (run as) k) n).pub (txOf n as)
      rw [look_new]; exact ⟨ih1, ih2⟩
    | subscribe k f x =>
      show Counts (look (subscribe (run as) k f x).1 n).recv (rxOf n as) ∧ Counts (look (subscribe (run as) k f x).1 n).pub (txOf n as)
      rw [look_subscribe]
      by_cases hn : n = k
      · subst hn
        rw [if_pos rfl]
        unfold subscribeAt
        split <;> exact ⟨ih1, ih2⟩
      · rw [if_neg hn]; exact ⟨ih1, ih2⟩
    | close h =>
      show Counts (look (close (run as) h) n).recv (rxOf n as) ∧ Counts (look (close (run as) h) n).pub (txOf n as)
      rw [look_close]; exact ⟨ih1, ih2⟩
    | setRaw h r =>
      show Counts (look (setRaw (run as) h r) n).recv (rxOf n as) ∧ Counts (look (setRaw (run as) h r) n).pub (txOf n as)
      rw [look_setRaw]; exact ⟨ih1, ih2⟩
    | deliver k m t b =>
      show Counts (look (deliver (run as) k m t b) n).recv (rxOf n (.deliver k m t b :: as)) ∧ Counts (look (deliver (run as) k m t b) n).pub (txOf n as)
      rw [look_deliver]
      unfold rxOf
      by_cases hn : n = k
      · subst hn
        rw [if_pos rfl, if_pos rfl]
        exact ⟨counts_tick ih1 _ _, ih2⟩
      · rw [if_neg hn, if_neg (fun h => hn h.symm)]; exact ⟨ih1, ih2⟩
    | publish k l t =>
      show Counts (look (publish (run as) k l t) n).recv (rxOf n as) ∧ Counts (look (publish (run as) k l t) n).pub (txOf n (.publish k l t :: as))
      rw [look_publish]
      unfold txOf
      by_cases hn : n = k ∧ l ≠ 0
      · rw [if_pos hn, if_pos ⟨hn.1.symm, hn.2⟩, ← hn.1]
        exact ⟨ih1, counts_tick ih2 _ _⟩
      · rw [if_neg hn, if_neg (fun h => hn ⟨h.1.symm, h.2⟩)]
        exact ⟨ih1, ih2⟩
    | reset =>
      show Counts (look (reset (run as)) n).recv [] ∧ Counts (look (reset (run as)) n).pub []
      rw [look_reset]
      exact ⟨counts_nil, counts_nil⟩
    | write b k => exact ⟨ih1, ih2⟩

/-! ## Publishers -/

theorem note_key {b now len : Nat} : ∀ {ps : List Publ}, (∀ p ∈ ps, p.key = p.name) → ∀ p ∈ note id b now len ps, p.key = p.name
  | [], _, p, h => by
    simp only [note, List.mem_singleton] at h
    subst h; rfl
  | q :: ps, hk, p, h => by
    unfold note at h
    split at h
    · rcases List.mem_cons.1 h with rfl | h
      · exact hk q (List.mem_cons_self ..)
      · exact hk p (List.mem_cons_of_mem _ h)
    · rcases List.mem_cons.1 h with rfl | h
      · exact hk _ (List.mem_cons_self ..)
      · exact note_key (fun p hp => hk p (List.mem_cons_of_mem _ hp)) p h

theorem note_other {b c now len : Nat} (hc : c ≠ b) : ∀ {ps : List Publ}, (∀ p ∈ ps, p.key = p.name) →
    (note id b now len ps).filter (fun p => p.name = c) = ps.filter fun p => p.name = c
  | [], _ => by simp [note]; exact fun h => hc h.symm
  | q :: ps, hk => by
    have hq := hk q (List.mem_cons_self ..)
    have ih := note_other hc (now := now) (len := len) (fun p hp => hk p (List.mem_cons_of_mem _ hp))
    unfold note
    by_cases h : q.key = b
    · have hn : ¬ q.name = c := fun h' => hc (by rw [← h', ← hq, h])
      rw [if_pos (show id q.key = id b from h)]
      simp [hn]
    · rw [if_neg (show ¬ id q.key = id b from h), List.filter_cons, List.filter_cons, ih]

theorem note_same {b now len : Nat} : ∀ {ps : List Publ}, (∀ p ∈ ps, p.key = p.name) →
    ((note id b now len ps).filter (fun p => p.name = b)).map Publ.info =
      match (ps.filter fun p => p.name = b).map Publ.info with
      | [] => [⟨now, now, 1, len⟩]
      | i :: is => ⟨i.first, now, i.count + 1, i.bytes + len⟩ :: is
  | [], _ => by simp [note]
  | q :: ps, hk => by
    have hq := hk q (List.mem_cons_self ..)
    have ih := note_same (b := b) (now := now) (len := len) (fun p hp => hk p (List.mem_cons_of_mem _ hp))
    unfold note
    by_cases h : q.key = b
    · have hn : q.name = b := by rw [← hq, h]
      rw [if_pos (show id q.key = id b from h)]
      simp [hn]
    · have hn : ¬ q.name = b := by rw [← hq]; exact h
      rw [if_neg (show ¬ id q.key = id b from h)]
      simp only [List.filter_cons, hn, decide_false, if_neg (show ¬ false = true by simp)]
      exact ih

end Verif.DStream
