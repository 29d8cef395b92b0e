import Verif.Strgp.Flush

/-!
# What requests about storage policies do, and the plugins the policies use (C77)
-/

namespace Verif.Strgp

open Verif.SetOwner (Str dec strtol u32)

/-! ## requests that are accepted -/

theorem config_does {e : Env} {s : State} {w : Who} {n : Str} {p p' : Pol} {f : Pol → Except Nat Pol} (hp : called s n = [p])
    (ha : allowed e w p = true) (hr : p.running = false) (hf : f p = .ok p') (hn : p'.name = p.name) :
    ∃ s', config e s w n f = .ok s' 0 ∧ called s' n = [p'] := by
  refine ⟨s.set p', ?_, ?_⟩
  · unfold config
    rw [find_one hp]
    simp [ha, hr, hf]
  · have := (find_some (find_one hp)).2
    rw [called_set, if_pos (by rw [hn, this]), hp]; rfl

/-- **C77.**  A user who may write to a policy that is stopped adds producers to it by a regular expression … -/
theorem prdcr_added (e : Env) (hg : FewGroups e) (s : State) (w : Who) (n r : Str) (p : Pol) (hp : called s n = [p])
    (ha : MayWrite e w p) (hr : p.running = false) (hx : e.regexOk r = true) :
    ∃ s', step e s w (.prdcrAdd (some n) (some r)) = .ok s' 0 ∧ called s' n = [{ p with prdcrs := r :: p.prdcrs }] :=
  config_does hp ((allowed_iff e hg w p).2 ha) hr (by simp [prdcrAdd, hx]) rfl

/-- … and takes an expression away, one that was added before; if it was added twice, it is still there once. -/
theorem prdcr_removed (e : Env) (hg : FewGroups e) (s : State) (w : Who) (n r : Str) (p : Pol) (hp : called s n = [p])
    (ha : MayWrite e w p) (hr : p.running = false) :
    (r ∉ p.prdcrs → step e s w (.prdcrDel (some n) (some r)) = .ok s EEXIST) ∧
    (r ∈ p.prdcrs → ∃ s' l, step e s w (.prdcrDel (some n) (some r)) = .ok s' 0 ∧ called s' n = [{ p with prdcrs := l }] ∧
      l.count r + 1 = p.prdcrs.count r ∧ ∀ x, x ≠ r → l.count x = p.prdcrs.count x) := by
  have ha := (allowed_iff e hg w p).2 ha
  refine ⟨fun h => ?_, fun h => ?_⟩
  · simp [step, with2, config, find_one hp, ha, hr, prdcrDel, h]
  · obtain ⟨s', h1, h2⟩ := config_does (f := prdcrDel r) (p' := { p with prdcrs := p.prdcrs.erase r }) hp ha hr (by simp [prdcrDel, h]) rfl
    refine ⟨s', p.prdcrs.erase r, h1, h2, ?_, ?_⟩
    · have := List.count_pos_iff.2 h
      rw [List.count_erase_self]; omega
    · intro x hx
      exact List.count_erase_of_ne hx

/-- **C77.**  A metric is added at the end of the list, once … -/
theorem metric_added (e : Env) (hg : FewGroups e) (s : State) (w : Who) (n m : Str) (p : Pol) (hp : called s n = [p])
    (ha : MayWrite e w p) (hr : p.running = false) :
    (m ∈ p.metrics → step e s w (.metricAdd (some n) (some m)) = .ok s EEXIST) ∧
    (m ∉ p.metrics → ∃ s', step e s w (.metricAdd (some n) (some m)) = .ok s' 0 ∧ called s' n = [{ p with metrics := p.metrics ++ [m] }]) := by
  have ha := (allowed_iff e hg w p).2 ha
  refine ⟨fun h => ?_, fun h => ?_⟩
  · simp [step, with2, config, find_one hp, ha, hr, metricAdd, h]
  · exact config_does hp ha hr (by simp [metricAdd, h]) rfl

/-- … and taken away; the others stay in order. -/
theorem metric_removed (e : Env) (hg : FewGroups e) (s : State) (w : Who) (n m : Str) (p : Pol) (hp : called s n = [p])
    (ha : MayWrite e w p) (hr : p.running = false) (hd : p.metrics.Nodup) :
    (m ∉ p.metrics → step e s w (.metricDel (some n) (some m)) = .ok s EEXIST) ∧
    (m ∈ p.metrics → ∃ s', step e s w (.metricDel (some n) (some m)) = .ok s' 0 ∧
      called s' n = [{ p with metrics := p.metrics.filter fun x => x ≠ m }]) := by
  have ha := (allowed_iff e hg w p).2 ha
  refine ⟨fun h => ?_, fun h => ?_⟩
  · simp [step, with2, config, find_one hp, ha, hr, metricDel, h]
  · refine config_does hp ha hr ?_ rfl
    unfold metricDel
    rw [if_pos h, hd.erase_eq_filter]
    congr 2
    congr 1
    funext x
    by_cases hx : x = m <;> simp [hx]

/-- **C77.**  A policy that is stopped is started. -/
theorem started (e : Env) (hg : FewGroups e) (s : State) (w : Who) (n : Str) (p : Pol) (hp : called s n = [p])
    (ha : MayWrite e w p) :
    (p.running = true → step e s w (.start (some n)) = .ok s EBUSY) ∧
    (p.running = false → ∃ s' p', step e s w (.start (some n)) = .ok s' 0 ∧ called s' n = [p'] ∧ p'.running = true ∧
      p' = { p with running := true, perm := p'.perm } ∧ ∀ i < 9, p'.perm.testBit i = p.perm.testBit i) := by
  have ha := (allowed_iff e hg w p).2 ha
  refine ⟨fun h => ?_, fun h => ?_⟩
  · simp [step, with1, start, config, find_one hp, ha, h]
  · obtain ⟨s', h1, h2⟩ := config_does (f := fun p => .ok { p with running := true, perm := p.perm ||| 512 }) hp ha h rfl rfl
    refine ⟨s', _, h1, h2, rfl, rfl, fun i hi => ?_⟩
    have : (512 : Nat).testBit i = false := by
      have : ∀ j < 9, (512 : Nat).testBit j = false := by decide
      exact this i hi
    simp [Nat.testBit_or, this]

example : MayWrite e0 ann ⟨[7], 1001, 100, 448, [1], some 0, [2], .schema [3], none, ⟨2, 0⟩, [], [], false, false, 0⟩ ∧ FewGroups e0 :=
  ⟨.inr (.inr (.inl ⟨rfl, by unfold Access.ownerHas; decide⟩)), fun u gs h => by simp [e0] at h; subst h; simp⟩

/-! ## `strgp_add` -/

theorem selOf_iff (a : Args) (x : Sel) : selOf a = some x ↔ SelAsked a x := by
  unfold selOf
  split
  · rename_i h1 h2
    cases x <;> simp [SelAsked, h1, h2]
  · rename_i h1 h2
    cases x <;> simp [SelAsked, h1, h2]
  · rename_i h1 h2
    split
    · rename_i hd
      cases x with
      | schema y => simp [SelAsked, h1]
      | regex y =>
        have : a.decomp ≠ none := by intro q; rw [q] at hd; exact nomatch hd
        simp [SelAsked, h1, h2, this]
    · rename_i hd
      have : a.decomp = none := by simpa using hd
      cases x <;> simp [SelAsked, h1, this]
  · rename_i h1 h2
    cases x <;> simp [SelAsked, h1, h2]

theorem perm_dec (n : Nat) (h : n < 2 ^ 32) : u32 (strtol 0 (dec n)).value = n := by
  have h1 := SetOwner.strtol_dec n [] (.inr rfl) (fun _ _ h => nomatch h)
  rw [List.append_nil] at h1
  rw [h1]
  unfold SetOwner.ranged
  rw [if_neg (by omega)]
  unfold u32
  show ((n : Int) % 2 ^ 32).toNat = n
  omega

theorem made_asked {e : Env} {s : State} {w : Who} {a : Args} {n pl c : Str} {sel : Sel} {fl : Time} {g : Plug}
    (h : Well e s a n pl c sel fl g) : Asked w a (made w a n pl c sel fl g) where
  name := h.name
  plugin := h.plugin
  container := h.container
  sel := (selOf_iff a sel).1 h.sel
  decomp := rfl
  owner := ⟨rfl, rfl⟩
  noFlush := by
    intro hf
    have := h.flush
    unfold flushArg at this
    rw [hf] at this
    simp only [Option.some.injEq] at this
    show fl.nanos = 0
    rw [← this]; rfl
  noPerm := by
    intro hp
    show permArg a = _
    unfold permArg; rw [hp]
  flush := by
    intro n u hf hlt
    obtain ⟨t, h1, h2⟩ := flush_means e n u hlt
    have := h.flush
    unfold flushArg at this
    rw [hf] at this
    simp only at this
    rw [this] at h1
    simp only [Option.some.injEq] at h1
    show fl.nanos = _ ∧ fl.normal
    rw [h1]; exact h2
  perm := by
    intro n hp hn
    show permArg a = _
    unfold permArg; rw [hp]
    exact perm_dec n hn
  stopped := ⟨rfl, rfl, rfl, rfl⟩

/-- **C77.**  If `strgp_add` is accepted there was no policy of the name, and now there is one as it was asked for. -/
theorem add_makes (e : Env) (s s' : State) (w : Who) (a : Args) (h : step e s w (.add a) = .ok s' 0) :
    ∃ n p, a.name = some n ∧ called s n = [] ∧ called s' n = [p] ∧ Asked w a p ∧ ∃ g ∈ s.plugs, g.name = p.plugin ∧ p.store = some g.id := by
  rcases add_cases e s w a with ⟨rc, hrc, hc⟩ | ⟨n, pl, c, sel, fl, g, hw, ⟨rc, hrc, _, hc⟩ | ⟨_, _, hc⟩⟩
  · simp only [step] at h
    rw [hc] at h
    exact absurd (refuse_ok h).1.symm hrc
  · simp only [step] at h
    rw [hc] at h
    exact absurd (refuse_ok h).1.symm hrc
  · simp only [step] at h
    rw [hc] at h
    simp only [Res.ok.injEq, and_true] at h
    have hfr := find_none.1 hw.fresh
    refine ⟨n, made w a n pl c sel fl g, hw.name, hfr, ?_, made_asked hw, g, (plugOf_some hw.plug).1, (plugOf_some hw.plug).2, rfl⟩
    rw [← h]
    show (s.pols ++ [_]).filter _ = _
    unfold called at hfr
    rw [List.filter_append, hfr]
    simp [made]

/-- the interval is left out or makes sense -/
def FlushGiven (a : Args) : Prop := a.flush = none ∨ ∃ n u, a.flush = some (dec n ++ Unit'.text u) ∧ n * u.nanos < 2 ^ 53

/-- **C77.**  `strgp_add` is accepted if the plugin is loaded, there is no policy of the name, and the attributes make sense. -/
theorem add_accepted (e : Env) (s : State) (w : Who) (a : Args) (n pl c : Str) (x : Sel) (h1 : a.name = some n) (h2 : a.plugin = some pl)
    (h3 : a.container = some c) (h4 : SelAsked a x) (h5 : FlushGiven a) (h6 : ∃ g ∈ s.plugs, g.name = pl) (h7 : called s n = [])
    (h8 : ∀ r, x = .regex r → e.regexOk r = true) (h9 : a.decomp ≠ none → a.decompOk = true) :
    ∃ s', step e s w (.add a) = .ok s' 0 := by
  have hs := (selOf_iff a x).2 h4
  have hf : ∃ fl, flushArg e a = some fl := by
    unfold flushArg
    rcases h5 with h | ⟨m, u, h, hlt⟩
    · rw [h]; exact ⟨_, rfl⟩
    · rw [h]
      obtain ⟨t, ht, _⟩ := flush_means e m u hlt
      exact ⟨t, ht⟩
  obtain ⟨fl, hf⟩ := hf
  have hg : ∃ g, plugOf s pl = some g := by
    obtain ⟨g, hg, hn⟩ := h6
    cases hh : plugOf s pl with
    | none => exact absurd hn (plugOf_none hh g hg)
    | some g => exact ⟨g, rfl⟩
  obtain ⟨g, hg⟩ := hg
  have hok : x.ok e = true := by
    cases x with
    | schema y => rfl
    | regex r => exact h8 r rfl
  have hd : (a.decomp.isSome && !a.decompOk) = false := by
    cases hh : a.decomp with
    | none => rfl
    | some d => simp [h9 (by rw [hh]; exact fun q => nomatch q)]
  exact ⟨_, by simp only [step, add, h1, h2, h3, hs, hf, hg, find_none.2 h7, hok, hd, Option.isSome_none, Bool.false_eq_true, if_false]; rfl⟩

example : (step e0 (theState annPol) bob (.add (args (some [8]) (some (dec 10 ++ Unit'.s.text)) (some (dec 438))))).code = some 0 := by
  decide +kernel

/-- **C77.**  … and refused if something is missing or makes no sense: no plugin of that name is loaded, both or none of `schema` and
`regex` are given, or the regular expression or the decomposition are bad. -/
theorem add_refused (e : Env) (s s' : State) (w : Who) (a : Args) (rc : Nat) (h : step e s w (.add a) = .ok s' rc)
    (hb : a.name = none ∨ a.plugin = none ∨ a.container = none ∨ (∀ x, ¬ SelAsked a x) ∨
      (∃ pl, a.plugin = some pl ∧ ∀ g ∈ s.plugs, g.name ≠ pl) ∨ (∃ r, a.regex = some r ∧ e.regexOk r = false) ∨
      (a.decomp ≠ none ∧ a.decompOk = false)) : rc ≠ 0 := by
  intro h0
  subst h0
  rcases add_cases e s w a with ⟨rc, hrc, hc⟩ | ⟨n, pl, c, sel, fl, g, hw, ⟨rc, hrc, _, hc⟩ | ⟨hok, hd, _⟩⟩
  · simp only [step] at h
    rw [hc] at h
    exact absurd (refuse_ok h).1.symm hrc
  · simp only [step] at h
    rw [hc] at h
    exact absurd (refuse_ok h).1.symm hrc
  · have hsel := (selOf_iff a sel).1 hw.sel
    rcases hb with hb | hb | hb | hb | ⟨q, hq, hb⟩ | ⟨r, hr, hb⟩ | ⟨h1, h2⟩
    · rw [hw.name] at hb; exact nomatch hb
    · rw [hw.plugin] at hb; exact nomatch hb
    · rw [hw.container] at hb; exact nomatch hb
    · exact hb _ hsel
    · rw [hw.plugin] at hq
      simp only [Option.some.injEq] at hq
      subst hq
      exact hb g (plugOf_some hw.plug).1 (plugOf_some hw.plug).2
    · cases sel with
      | schema y => rw [hsel.2] at hr; exact nomatch hr
      | regex y =>
        rw [hsel.2.1] at hr
        simp only [Option.some.injEq] at hr
        subst hr
        simp only [Sel.ok] at hok
        rw [hb] at hok; exact nomatch hok
    · have : a.decomp.isSome = true := by
        cases hh : a.decomp with
        | none => exact absurd hh h1
        | some _ => rfl
      rw [hd this] at h2
      exact nomatch h2

/-! ## plugins -/

theorem linked_init : Linked init where
  uniq := fun _ => Nat.zero_le _
  has := fun _ h => nomatch h
  ids := fun _ h => nomatch h
  names := fun _ h => nomatch h
  fresh := fun _ h => nomatch h
  count := fun _ h => nomatch h

theorem linked (e : Env) (es : List (Who × Ev)) (s : State) (h : Reach e es s) (hp : noPeer es) : Linked s :=
  run_keeps e Linked (fun ev => ev.isPeer = false) (fun _ _ _ _ _ hl hq hs => change_linked (step_change hs) hq hl) es init s
    linked_init
    (fun x hx => by
      obtain ⟨w, ev⟩ := x
      cases ev with
      | peer q => exact absurd hx (hp w q)
      | _ => rfl) h

theorem loaded_of {s : State} {i : Nat} (h : ∃ g ∈ s.plugs, g.id = i) : loaded s i = true := by
  obtain ⟨g, hg, hi⟩ := h
  unfold loaded
  rw [List.any_eq_true]
  exact ⟨g, hg, by simpa using hi⟩

/-- **C77, in part.**  Without a failover peer, the plugin a policy stores with stays loaded: it is the one the policy was made with. -/
theorem plugin_stays_partial (e : Env) (es : List (Who × Ev)) (s : State) (h : Reach e es s) (hp : noPeer es) (p : Pol) (hm : p ∈ s.pols) :
    ∃ g ∈ s.plugs, g.name = p.plugin ∧ p.store = some g.id := by
  obtain ⟨g, hg, h1, h2⟩ := (linked e es s h hp).has p hm
  exact ⟨g, hg, h2, h1⟩

/-- **C77, in part.**  Without a failover peer, a plugin is unloaded on request exactly if no policy uses it. -/
theorem unloaded_iff_unused_partial (e : Env) (es : List (Who × Ev)) (s : State) (h : Reach e es s) (hp : noPeer es) (w : Who) (x : Str)
    (hl : ∃ g ∈ s.plugs, g.name = x) :
    ((∃ p ∈ s.pols, p.plugin = x) → step e s w (.term x) = .ok s EINVAL) ∧
    ((∀ p ∈ s.pols, p.plugin ≠ x) → ∃ s', step e s w (.term x) = .ok s' 0 ∧ (∀ g ∈ s'.plugs, g.name ≠ x) ∧ s'.pols = s.pols ∧
      ∀ g, g.name ≠ x → (g ∈ s'.plugs ↔ g ∈ s.plugs)) := by
  have hL := linked e es s h hp
  obtain ⟨g, hg, hn⟩ := hl
  have hof : plugOf s x = some g := by
    cases hh : plugOf s x with
    | none => exact absurd hn (plugOf_none hh g hg)
    | some g' =>
      obtain ⟨h1, h2⟩ := plugOf_some hh
      rw [hL.names g' h1 g hg (by rw [h2, hn])]
  have hc := hL.count g hg
  refine ⟨fun ⟨p, hpm, hpx⟩ => ?_, fun hno => ?_⟩
  · have : p ∈ usedBy s g.name := by simp [usedBy, hpx, hn, hpm]
    have := List.length_pos_of_mem this
    have : g.refs ≠ 0 := by omega
    simp [step, term, hof, this]
  · have h0 : usedBy s g.name = [] := by
      unfold usedBy
      rw [List.filter_eq_nil_iff]
      intro p hpm hh
      exact hno p hpm (by rw [← hn]; simpa using hh)
    have hr : g.refs = 0 := by rw [hc, h0]; rfl
    refine ⟨{ s with plugs := s.plugs.filter fun p => p.id ≠ g.id }, by simp [step, term, hof, hr], ?_, rfl, ?_⟩
    · intro q hq hqx
      have hq := List.mem_filter.1 hq
      have := hL.names q hq.1 g hg (by rw [hqx, hn])
      subst this
      simp at hq
    · intro q hqx
      simp only [List.mem_filter]
      constructor
      · exact fun h => h.1
      · intro hq
        refine ⟨hq, ?_⟩
        simp only [decide_eq_true_eq]
        intro hid
        have := hL.ids q hq g hg hid
        subst this
        exact hqx hn

example : Reach e0 annPol (theState annPol) ∧ step e0 (theState annPol) root (.term [1]) = .ok (theState annPol) EINVAL := by
  unfold Reach; decide +kernel

theorem good_of {s : State} (hL : Linked s) {p : Pol} (hp : p ∈ s.pols) : ∃ i, p.store = some i ∧ loaded s i = true := by
  obtain ⟨g, hg, h1, _⟩ := hL.has p hp
  exact ⟨g.id, h1, loaded_of ⟨g, hg, rfl⟩⟩

theorem del_safe {e : Env} {s : State} (hL : Linked s) (w : Who) (n : Str) : del e s w n ≠ .crash := by
  unfold del
  split
  · exact fun h => nomatch h
  · rename_i p hp
    obtain ⟨i, h1, h2⟩ := good_of hL (find_some hp).1
    simp only [h1, h2, if_true]
    split
    · exact fun h => nomatch h
    · split
      · exact fun h => nomatch h
      · split <;> exact fun h => nomatch h

theorem refuse_safe {e : Env} {s : State} (hL : Linked s) (n : Str) (rc : Nat) : refuse e s (some n) rc ≠ .crash := by
  simp only [refuse]
  split
  · rename_i h; exact absurd h (del_safe hL _ _)
  · exact fun h => nomatch h

theorem step_safe {e : Env} {s : State} (hL : Linked s) (w : Who) (ev : Ev) (hp : ev.isPeer = false)
    (hn : ∀ a, ev = .add a → a.name ≠ none) : step e s w ev ≠ .crash := by
  cases ev with
  | add a =>
    have ⟨n, hnm⟩ : ∃ n, a.name = some n := Option.ne_none_iff_exists'.1 (hn a rfl)
    simp only [step]
    rcases add_cases e s w a with ⟨rc, _, hc⟩ | ⟨m, pl, c, sel, fl, g, hw, ⟨rc, _, _, hc⟩ | ⟨_, _, hc⟩⟩
    · rw [hc, hnm]; exact refuse_safe hL n rc
    · rw [hc]
      refine refuse_safe (change_linked (pr := false) (nd := True) (n := some m) (Change.new s (made w a m pl c sel fl g) g hw.fresh rfl hw.plug rfl rfl) rfl hL) m rc
    · rw [hc]; exact fun h => nomatch h
  | prdcrAdd n r => simp only [step, with2]; split; exact config_crash; exact fun h => nomatch h
  | prdcrDel n r => simp only [step, with2]; split; exact config_crash; exact fun h => nomatch h
  | metricAdd n r => simp only [step, with2]; split; exact config_crash; exact fun h => nomatch h
  | metricDel n r => simp only [step, with2]; split; exact config_crash; exact fun h => nomatch h
  | start n => simp only [step, with1]; split; exact fun h => nomatch h; exact config_crash
  | stop n =>
    simp only [step, with1]
    split
    · exact fun h => nomatch h
    · unfold stop
      split
      · exact fun h => nomatch h
      · rename_i p hp
        obtain ⟨i, h1, h2⟩ := good_of hL (find_some hp).1
        split
        · exact fun h => nomatch h
        · split
          · exact fun h => nomatch h
          · simp [good, h1, h2]
  | del n =>
    simp only [step, with1]
    split
    · exact fun h => nomatch h
    · exact del_safe hL _ _
  | load n ok => simp only [step, load]; split; exact fun h => nomatch h; split <;> exact fun h => nomatch h
  | term n => simp only [step, term]; split; exact fun h => nomatch h; split <;> exact fun h => nomatch h
  | peer q => exact nomatch hp
  | users n k => simp only [step]; split <;> exact fun h => nomatch h
  | opens n ms ok =>
    simp only [step, opens]
    split
    · exact fun h => nomatch h
    · rename_i p hp
      obtain ⟨i, h1, h2⟩ := good_of hL (find_some hp).1
      split
      · simp [h1, h2]
      · exact fun h => nomatch h
  | stores n =>
    simp only [step, stores]
    split
    · exact fun h => nomatch h
    · rename_i p hp
      obtain ⟨i, h1, h2⟩ := good_of hL (find_some hp).1
      simp [good, h1, h2]

/-- **C77, in part.**  Without a failover peer, and as long as every `strgp_add` gives a name, no request crashes the daemon and
storing never uses a plugin that is gone. -/
theorem never_crashes_partial (e : Env) (es : List (Who × Ev)) (hp : noPeer es) (hn : named es) : ∃ s, Reach e es s := by
  have key : ∀ (es : List (Who × Ev)) (s : State), Linked s → noPeer es → named es → ∃ s', run e s es = some s' := by
    intro es
    induction es with
    | nil => exact fun s _ _ _ => ⟨s, rfl⟩
    | cons x es ih =>
      intro s hL hp hn
      obtain ⟨w, ev⟩ := x
      have hpe : ev.isPeer = false := by
        cases ev with
        | peer q => exact absurd (by simp) (hp w q)
        | _ => rfl
      have h1 := step_safe (e := e) hL w ev hpe (fun a ha => hn w a (by rw [ha]; simp))
      simp only [run]
      split
      · rename_i h; exact absurd h h1
      · rename_i s' rc h
        exact ih s' (change_linked (step_change h) hpe hL) (fun w q hq => hp w q (by simp [hq])) (fun w a ha => hn w a (by simp [ha]))
  exact key es init
    linked_init hp hn

example : noPeer annRuns ∧ named annRuns := by
  refine ⟨?_, ?_⟩
  · intro w q h; simp [annRuns, annPol] at h
  · intro w a h; simp [annRuns, annPol] at h; rw [h.2]; exact fun q => nomatch q

/-- **C77.**  A policy that runs is stopped, one that is stopped and that no set uses is deleted, by a user who may write to it. -/
theorem stopped_and_deleted (e : Env) (hg : FewGroups e) (es : List (Who × Ev)) (s : State) (h : Reach e es s) (hp : noPeer es) (w : Who)
    (n : Str) (p : Pol) (hc : called s n = [p]) (ha : MayWrite e w p) :
    (p.running = true → ∃ s' p', step e s w (.stop (some n)) = .ok s' 0 ∧ called s' n = [p'] ∧ p'.running = false ∧
      p' = { p with running := false, opened := false, perm := p'.perm } ∧ ∀ i < 9, p'.perm.testBit i = p.perm.testBit i) ∧
    (p.running = false → p.users = 0 → ∃ s', step e s w (.del (some n)) = .ok s' 0 ∧ called s' n = []) ∧
    (p.running = false → step e s w (.stop (some n)) = .ok s EBUSY) ∧
    (p.running = true ∨ 0 < p.users → step e s w (.del (some n)) = .ok s EBUSY) := by
  have hL := linked e es s h hp
  have ha := (allowed_iff e hg w p).2 ha
  have hf := find_one hc
  obtain ⟨hpm, hpn⟩ := find_some hf
  obtain ⟨i, h1, h2⟩ := good_of hL hpm
  refine ⟨fun hr => ?_, fun hr hu => ?_, fun hr => ?_, fun hr => ?_⟩
  · refine ⟨s.set { p with running := false, opened := false, perm := p.perm &&& 4294966783 },
      { p with running := false, opened := false, perm := p.perm &&& 4294966783 }, ?_, ?_, rfl, rfl, ?_⟩
    · simp [step, with1, stop, hf, ha, hr, good, h1, h2]
    · rw [called_set, if_pos hpn.symm, hc]; rfl
    · intro j hj
      have : ∀ j < 9, (4294966783 : Nat).testBit j = true := by decide
      simp [Nat.testBit_and, this j hj]
  · refine ⟨{ s.drop i with pols := s.pols.filter fun q => !(q.name == n) }, ?_, called_filter_self _ _⟩
    simp [step, with1, del, hf, ha, hr, hu, h1, h2]
  · simp [step, with1, stop, hf, ha, hr]
  · rcases hr with hr | hr
    · simp [step, with1, del, hf, ha, hr]
    · by_cases hrr : p.running = true
      · simp [step, with1, del, hf, ha, hrr]
      · simp [step, with1, del, hf, ha, hrr, hr]

/-! ## what goes wrong -/

/-- **C77, defect.**  `strgp_add` without a name crashes a daemon that has a policy. -/
theorem add_without_name_defect (e : Env) (s : State) (w : Who) (a : Args) (h : a.name = none) (hs : s.pols ≠ []) :
    step e s w (.add a) = .crash := by
  simp only [step, add, h, refuse, if_neg hs]

example : (theState annPol).pols ≠ [] := by decide +kernel

/-- **C77, defect.**  A policy that a failover peer sent has no plugin until its store is opened; deleting it, as the daemon does with
all policies of the peer when it drops the peer's configuration, crashes the daemon. -/
theorem peer_policy_deletion_defect (e : Env) (s s' : State) (w : Who) (q : Peer) (h : step e s w (.peer q) = .ok s' 0)
    (hn : called s q.name = []) : step e s' root (.del (some q.name)) = .crash := by
  have key : ∃ p, called s' q.name = [p] ∧ p.running = false ∧ p.users = 0 ∧ p.store = none := by
    have hpart : ∀ {s1 s2 : State} {x : Option Str} {f : Str → Pol → Except Nat Pol} {rc : Nat},
        (∀ x p p', f x p = .ok p' → p'.name = p.name ∧ p'.running = p.running ∧ p'.users = p.users ∧ p'.store = p.store) →
        part e s1 q x f = .ok s2 rc →
        (∃ p, called s1 q.name = [p] ∧ p.running = false ∧ p.users = 0 ∧ p.store = none) →
        ∃ p, called s2 q.name = [p] ∧ p.running = false ∧ p.users = 0 ∧ p.store = none := by
      intro s1 s2 x f rc hf h ⟨p, hp, h1, h2, h3⟩
      unfold part at h
      split at h
      · simp only [Res.ok.injEq] at h; rw [← h.1]; exact ⟨p, hp, h1, h2, h3⟩
      · rcases config_ok h with ⟨h, _⟩ | ⟨r, hr, _, _, ⟨h, _⟩ | ⟨p', hfp, h, _⟩⟩
        · rw [h]; exact ⟨p, hp, h1, h2, h3⟩
        · rw [h]; exact ⟨p, hp, h1, h2, h3⟩
        · rw [find_one hp] at hr
          simp only [Option.some.injEq] at hr
          subst hr
          obtain ⟨a, b, c, d⟩ := hf _ _ _ hfp
          have := (find_some (find_one hp)).2
          refine ⟨p', ?_, by rw [b]; exact h1, by rw [c]; exact h2, by rw [d]; exact h3⟩
          rw [h, called_set, if_pos (by rw [a, this]), hp]; rfl
    simp only [step, peer] at h
    split at h
    · simp only [Res.ok.injEq] at h; exact nomatch h.2
    · rename_i s1 h1
      have c1 : ∃ p, called s1 q.name = [p] ∧ p.running = false ∧ p.users = 0 ∧ p.store = none := by
        unfold peerNew at h1
        rw [find_none.2 hn] at h1
        simp only at h1
        split at h1
        · simp only [Option.some.injEq] at h1
          rw [← h1]
          unfold called at hn ⊢
          rename_i x pl c _ _ _
          refine ⟨⟨q.name, q.uid, q.gid, q.perm, pl, none, c, .schema x, none, ⟨0, 0⟩, [], [], false, false, 0⟩, ?_, rfl, rfl, rfl⟩
          rw [List.filter_append, hn]
          simp
        · exact nomatch h1
      split at h
      · exact nomatch h
      · rename_i s2 rc2 h2
        have c2 := hpart (f := prdcrAdd e) (fun x p p' hx => by
          unfold prdcrAdd at hx
          split at hx
          · simp only [Except.ok.injEq] at hx; subst hx; exact ⟨rfl, rfl, rfl, rfl⟩
          · exact nomatch hx) h2 c1
        split at h
        · simp only [Res.ok.injEq] at h; rw [← h.1]; exact c2
        · exact hpart (f := metricAdd) (fun x p p' hx => by
            unfold metricAdd at hx
            split at hx
            · exact nomatch hx
            · simp only [Except.ok.injEq] at hx; subst hx; exact ⟨rfl, rfl, rfl, rfl⟩) h c2
  obtain ⟨p, hp, h1, h2, h3⟩ := key
  simp only [step, with1, del, find_one hp]
  simp [allowed, Access.check, root, h1, h2, h3]

def thePeer : Peer := ⟨[35, 7], some [1], some [3], some [2], some [46, 42], none, 0, 0, 448⟩

example : (step e0 (theState annPol) root (.peer thePeer)).code = some 0 ∧ called (theState annPol) thePeer.name = [] := by decide +kernel

/-- **C77, defect.**  Nothing keeps the plugin of a policy that a peer sent: it is unloaded while the policy stores with it. -/
theorem peer_policy_unload_defect :
    run e0 init [(root, .load [1] true), (root, .peer thePeer), (root, .start (some [35, 7])), (root, .opens [35, 7] [[5]] true),
      (root, .term [1])] ≠ none ∧
    run e0 init [(root, .load [1] true), (root, .peer thePeer), (root, .start (some [35, 7])), (root, .opens [35, 7] [[5]] true),
      (root, .term [1]), (root, .stores [35, 7])] = none := by decide +kernel

end Verif.Strgp
