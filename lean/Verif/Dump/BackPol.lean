import Verif.Dump.BackUpdtr

/-!
# Proofs: plugins and storage policies come back
-/

namespace Verif.Dump

open Verif.SetOwner (Str dec numeral strtol)
open Verif.NameTab (codes attrStr2Id)
open Verif.Strgp (Pol Sel Plug Who EINVAL ENOENT EEXIST EBUSY EACCES)

variable {w : World}

/-! ## plugins -/

/-- no reference to a variable -/
def NoVar (v : Str) : Prop := ∀ a b, v ≠ a ++ 36 :: 123 :: b

theorem noVar_join {x y : Str} {c : Nat} (hc : c ≠ 36 ∧ c ≠ 123) (hx : NoVar x) (hy : NoVar y) : NoVar (x ++ c :: y) := by
  intro a b e
  rcases List.append_eq_append_iff.1 e with ⟨a', h1, h2⟩ | ⟨x', h1, h2⟩
  · cases a' with
    | nil =>
      simp only [List.nil_append, List.cons.injEq] at h2
      exact hc.1 h2.1
    | cons z a' =>
      simp only [List.cons_append, List.cons.injEq] at h2
      exact hy a' b h2.2
  · cases x' with
    | nil =>
      simp only [List.nil_append, List.cons.injEq] at h2
      exact hc.1 h2.1.symm
    | cons z x' =>
      cases x' with
      | nil =>
        simp only [List.cons_append, List.nil_append, List.cons.injEq] at h2
        exact hc.2 h2.2.1.symm
      | cons z' x' =>
        simp only [List.cons_append, List.cons.injEq] at h2
        rw [← h2.1, ← h2.2.1] at h1
        exact hx a x' h1

theorem noVar_line : ∀ (xs : List Str), (∀ x ∈ xs, NoVar x) → NoVar (line xs)
  | [], _ => by intro a b e; simp [line] at e
  | [x], h => h x (by simp)
  | x :: y :: xs, h => by
    rw [line]
    exact noVar_join (by decide) (h x (by simp)) (noVar_line (y :: xs) fun z hz => h z (by simp [hz]))

theorem confWords_nil : ∀ xs : List Str, confWords xs [] = xs
  | [] => rfl
  | [_] => rfl
  | x :: y :: xs => by rw [confWords, confWords_nil (y :: xs)]

/-- a word for the plugin -/
structure PlugWord (x : Str) : Prop where
  wd : Wd x
  noVar : NoVar x
  notName : CfgArgs.pluginConfig.isAttr (CfgArgs.splitEq x).1 = false

theorem not_prefix {n : Str} (h : ¬ [110, 97, 109, 101] <+: n) : CfgArgs.pluginConfig.isAttr n = false := by
  show (codes "name").isPrefixOf n = false
  rw [show codes "name" = [110, 97, 109, 101] from by decide +kernel]
  rw [← Bool.not_eq_true, List.isPrefixOf_iff_prefix]
  exact h

theorem plugWord_av {c : Conf} (h : FineConf w c) {a : Str × Str} (ha : a ∈ c.avs) : PlugWord (a.1 ++ 61 :: a.2) := by
  obtain ⟨h1, h2, h3, h4, h5⟩ := h.av a ha
  refine ⟨⟨by simp, ?_, ?_, ?_⟩, noVar_join (by decide) h1.noVar h2.noVar, ?_⟩
  · intro b hb
    rcases List.mem_append.1 hb with hb | hb
    · exact h1.bytes b hb
    · rcases List.mem_cons.1 hb with rfl | hb
      · omega
      · exact h2.bytes b hb
  · cases e : a.1 with
    | nil => exact absurd e h1.ne
    | cons z s => rw [e] at h4; simpa using h4
  · rw [List.getLast?_append, List.getLast?_cons]
    cases e : a.2.getLast? with
    | none => exact absurd (List.getLast?_eq_none_iff.1 e) h2.ne
    | some b =>
      have := h2.noCont
      rw [e] at this
      simpa using this
  · rw [splitEq_av _ _ h3]
    exact not_prefix h5

theorem plugWord_kw {c : Conf} (h : FineConf w c) {k : Str} (hk : k ∈ c.kws) : PlugWord k := by
  obtain ⟨h1, h2, h3, h4⟩ := h.kw k hk
  refine ⟨⟨h1.ne, h1.bytes, h3, h1.noCont⟩, h1.noVar, ?_⟩
  rw [splitEq_kw _ h2]
  exact not_prefix h4

/-- the words of the plugin -/
def plugWords (c : Conf) : List Str := (c.avs.map fun a => a.1 ++ 61 :: a.2) ++ c.kws

theorem confWords_eq {c : Conf} (h : FineConf w c) : confWords (c.avs.map fun a => a.1 ++ 61 :: a.2) c.kws = plugWords c := by
  unfold plugWords
  rcases h.one with h | h
  · rw [h]; rfl
  · rw [h, confWords_nil, List.append_nil]

theorem plugWords_all {c : Conf} (h : FineConf w c) : ∀ x ∈ plugWords c, PlugWord x := by
  intro x hx
  unfold plugWords at hx
  rcases List.mem_append.1 hx with hx | hx
  · obtain ⟨a, ha, rfl⟩ := List.mem_map.1 hx
    exact plugWord_av h ha
  · exact plugWord_kw h hx

theorem plugWords_read {c : Conf} (h : FineConf w c) (n : Str) :
    (⟨n, ((plugWords c).map CfgArgs.splitEq).filterMap fun x => x.2.map fun v => (x.1, v),
      ((plugWords c).map CfgArgs.splitEq).filterMap fun x => if x.2.isSome then none else some x.1⟩ : Conf) = ⟨n, c.avs, c.kws⟩ := by
  have e1 : (c.avs.map fun a => a.1 ++ 61 :: a.2).map CfgArgs.splitEq = c.avs.map fun a => (a.1, some a.2) := by
    rw [List.map_map]
    exact List.map_congr_left fun a ha => splitEq_av _ _ (h.av a ha).2.2.1
  have e2 : c.kws.map CfgArgs.splitEq = c.kws.map fun k => (k, none) :=
    List.map_congr_left fun k hk => splitEq_kw _ (h.kw k hk).2.1
  have f1 : ∀ l : List (Str × Str), (l.map fun a => (a.1, some a.2)).filterMap (fun x : Str × Option Str => x.2.map fun v => (x.1, v)) = l := by
    intro l; induction l with
    | nil => rfl
    | cons a l ih => simp only [List.map_cons, List.filterMap_cons, Option.map_some, ih]
  have f2 : ∀ l : List Str, (l.map fun k => (k, (none : Option Str))).filterMap (fun x : Str × Option Str => x.2.map fun v => (x.1, v)) = [] := by
    intro l; induction l with
    | nil => rfl
    | cons a l ih => simp only [List.map_cons, List.filterMap_cons, Option.map_none, ih]
  have f3 : ∀ l : List (Str × Str), (l.map fun a => (a.1, some a.2)).filterMap
      (fun x : Str × Option Str => if x.2.isSome then none else some x.1) = [] := by
    intro l; induction l with
    | nil => rfl
    | cons a l ih => simp only [List.map_cons, List.filterMap_cons, Option.isSome_some, if_true, ih]
  have f4 : ∀ l : List Str, (l.map fun k => (k, (none : Option Str))).filterMap
      (fun x : Str × Option Str => if x.2.isSome then none else some x.1) = l := by
    intro l; induction l with
    | nil => rfl
    | cons a l ih => simp only [List.map_cons, List.filterMap_cons, Option.isSome_none, Bool.false_eq_true, if_false, ih]
  unfold plugWords
  rw [List.map_append, e1, e2, List.filterMap_append, List.filterMap_append, f1, f2, f3, f4, List.append_nil, List.nil_append]

theorem config_back {c : Conf} (h : FineConf w c) (hp : Word c.plugin) (d : Daemon) (hl : (Strgp.plugOf d.st c.plugin).isSome) :
    exec w d (dumpConf c) = .ok { d with conf := d.conf ++ [c] } := by
  have hall := plugWords_all h
  have hne : plugWords c ≠ [] := by
    unfold plugWords
    rcases h.some with h | h <;> simp [h]
  unfold dumpConf
  rw [confWords_eq h, exec_config (wd_cons (wd_one hp (by decide +kernel)) fun x hx => (hall x hx).wd)]
  have hname : CfgArgs.splitEq (av "name" c.plugin) = (codes "name", some c.plugin) := splitEq_av _ _ (by decide +kernel)
  have ht : CfgArgs.pluginConfig.isAttr (codes "name") = true := by decide +kernel
  have f1 : (av "name" c.plugin :: plugWords c).filter (fun x => CfgArgs.pluginConfig.isAttr (CfgArgs.splitEq x).1) = [av "name" c.plugin] := by
    rw [List.filter_cons_of_pos (by rw [hname]; exact ht)]
    congr 1
    rw [List.filter_eq_nil_iff]
    intro x hx
    rw [(hall x hx).notName]; decide
  have f2 : (av "name" c.plugin :: plugWords c).filter (fun x => !CfgArgs.pluginConfig.isAttr (CfgArgs.splitEq x).1) = plugWords c := by
    rw [List.filter_cons_of_neg (by rw [hname, ht]; decide), List.filter_eq_self]
    intro x hx
    rw [(hall x hx).notName]; rfl
  unfold config
  rw [f1, f2, attrs_cons id_name attrs_nil (by decide +kernel)]
  cases hx : plugWords c with
  | nil => exact absurd hx hne
  | cons x xs =>
    simp only
    rw [← hx, get_some id_name rfl hp, expand_self w _ (fun b hb => (line_bytes _ (fun x hx => (hall x hx).wd) b hb).2)
      (noVar_line _ fun x hx => (hall x hx).noVar)]
    simp only
    rw [words_line _ fun x hx => (hall x hx).wd, plugWords_read h]
    rw [if_neg (by rw [Option.isNone_iff_eq_none]; intro e; rw [e] at hl; exact nomatch hl), if_pos h.taken]

theorem configs_back (n : Str) (hn : Word n) : ∀ (cs : List Conf) (d : Daemon), (∀ c ∈ cs, FineConf w c ∧ c.plugin = n) →
    (Strgp.plugOf d.st n).isSome → runLines w d (cs.map dumpConf) = .ok { d with conf := d.conf ++ cs }
  | [], d, _, _ => by simp [runLines]
  | c :: cs, d, h, hl => by
    obtain ⟨h1, h2⟩ := h c (by simp)
    simp only [List.map_cons, runLines]
    rw [config_back h1 (h2 ▸ hn) d (h2 ▸ hl)]
    simp only
    rw [configs_back n hn cs { d with conf := d.conf ++ [c] } (fun x hx => h x (by simp [hx])) hl]
    simp

theorem plugOf_none {s : Strgp.State} {n : Str} (h : n ∉ s.plugs.map (·.name)) : Strgp.plugOf s n = none := by
  unfold Strgp.plugOf
  rw [List.find?_eq_none]
  intro g hg e
  exact h (List.mem_map.2 ⟨g, hg, by simpa using e⟩)

theorem plug_back (src : Daemon) (g : Plug) (hg : Word g.name) (hok : w.plugin g.name = true) (hc : ∀ c ∈ src.conf, FineConf w c) (d : Daemon)
    (hn : g.name ∉ d.st.plugs.map (·.name)) :
    ∃ s, runLines w d (dumpPlug src g) = .ok { d with conf := d.conf ++ src.conf.filter (fun c => c.plugin = g.name), st := s } ∧
      s.plugs.map (·.name) = g.name :: d.st.plugs.map (·.name) ∧ s.pols = d.st.pols := by
  refine ⟨{ d.st with plugs := ⟨d.st.next, g.name, 0⟩ :: d.st.plugs, next := d.st.next + 1 }, ?_, rfl, rfl⟩
  unfold dumpPlug
  simp only [runLines]
  rw [exec_load (wd_cons (wd_one hg (by decide +kernel)) wd_nil) (attrs_cons id_name attrs_nil (by decide +kernel)), get_some id_name rfl hg]
  simp only [strgp, Strgp.step, Strgp.load, plugOf_none hn, Option.isSome_none, Bool.false_eq_true, if_false, hok, if_true]
  rw [configs_back g.name hg _ { d with st := _ } (fun c hx => ⟨hc c (List.mem_filter.1 hx).1, by simpa using (List.mem_filter.1 hx).2⟩)
    (by simp [Strgp.plugOf])]

theorem plugs_back (src : Daemon) (hc : ∀ c ∈ src.conf, FineConf w c) : ∀ (gs : List Plug) (d : Daemon),
    (∀ g ∈ gs, Word g.name ∧ w.plugin g.name = true) → (gs.map (·.name) ++ d.st.plugs.map (·.name)).Nodup →
    ∃ s, runLines w d (gs.flatMap (dumpPlug src)) =
        .ok { d with conf := d.conf ++ gs.flatMap (fun g => src.conf.filter fun c => c.plugin = g.name), st := s } ∧
      s.plugs.map (·.name) = (gs.map (·.name)).reverse ++ d.st.plugs.map (·.name) ∧ s.pols = d.st.pols
  | [], d, _, _ => ⟨d.st, by simp [runLines], by simp, rfl⟩
  | g :: gs, d, h, hnd => by
    obtain ⟨h1, h2⟩ := h g (by simp)
    simp only [List.map_cons, List.cons_append, List.nodup_cons, List.mem_append, not_or] at hnd
    obtain ⟨s, e1, e2, e3⟩ := plug_back (w := w) src g h1 h2 hc d hnd.1.2
    obtain ⟨s', f1, f2, f3⟩ := plugs_back src hc gs
      { d with conf := d.conf ++ src.conf.filter (fun c => c.plugin = g.name), st := s } (fun x hx => h x (by simp [hx])) (by
        simp only [e2]
        have := List.nodup_append.1 hnd.2
        refine List.nodup_append.2 ⟨this.1, List.nodup_cons.2 ⟨hnd.1.2, this.2.1⟩, ?_⟩
        intro a ha b hb
        rcases List.mem_cons.1 hb with rfl | hb
        · rintro rfl; exact hnd.1.1 ha
        · exact this.2.2 a ha b hb)
    refine ⟨s', ?_, ?_, f3.trans e3⟩
    · rw [List.flatMap_cons, runLines_append, e1]
      simp only
      rw [f1]
      simp
    · rw [f2]
      simp [e2]

/-! ## policies -/

/-- the policy as `strgp_add` makes it -/
def polNew (w : World) (i : Nat) (p : Pol) : Pol :=
  ⟨p.name, w.who.uid, w.who.gid, p.perm, p.plugin, some i, p.container, p.sel, p.decomp,
    ⟨p.flush.sec * 1000 / 10 ^ 9, p.flush.sec * 1000 % 10 ^ 9⟩, [], [], false, false, 0⟩

def polWords (p : Pol) : List Str :=
  [av "name" p.name, av "plugin" p.plugin, av "container" p.container, av "flush" (ld p.flush.sec),
    av "perm" (ld p.perm), match p.sel with | .regex r => av "regex" r | .schema s => av "schema" s] ++
    match p.decomp with | some x => [av "decomposition" x] | none => []

theorem polWords_wd {gs : List Str} {p : Pol} (h : FinePol w gs p) : ∀ x ∈ polWords p, Wd x := by
  unfold polWords
  refine wd_append (wd_cons (wd_one h.name (by decide +kernel)) (wd_cons (wd_one h.plugin (by decide +kernel)) (wd_cons (wd_one h.container (by decide +kernel))
    (wd_cons (wd_one (ld_word _) (by decide +kernel)) (wd_cons (wd_one (ld_word _) (by decide +kernel)) (wd_cons ?_ wd_nil)))))) ?_
  · have hs := h.sel
    cases hh : p.sel with
    | schema s => rw [hh] at hs; exact wd_one hs (by decide +kernel)
    | regex s => rw [hh] at hs; exact wd_one hs (by decide +kernel)
  · cases hh : p.decomp with
    | none => exact wd_nil
    | some x => exact wd_cons (wd_one (h.decomp x hh).1 (by decide +kernel)) wd_nil

theorem strgp_args {gs : List Str} {p : Pol} (h : FinePol w gs p) (verb : Str) :
    ∃ as, attrsOf (polWords p) = some as ∧ strgpArgs w ⟨verb, as⟩ = ⟨some p.name, some p.plugin, some p.container,
      (match p.sel with | .schema s => some s | .regex _ => none), (match p.sel with | .schema _ => none | .regex r => some r),
      p.decomp, some (ld p.flush.sec), some (ld p.perm), p.decomp.isSome⟩ := by
  unfold polWords strgpArgs
  have hs := h.sel
  cases hsel : p.sel with
  | schema s =>
    rw [hsel] at hs
    have hs : Word s := hs
    cases hd : p.decomp with
    | none =>
      refine ⟨_, attrs_cons id_name (attrs_cons id_plugin (attrs_cons id_container (attrs_cons id_flush (attrs_cons id_perm (attrs_cons id_schema attrs_nil
        (by decide +kernel)) (by decide +kernel)) (by decide +kernel)) (by decide +kernel)) (by decide +kernel)) (by decide +kernel), ?_⟩
      rw [get_some id_name rfl h.name, get_some id_plugin rfl h.plugin, get_some id_container rfl h.container, get_some id_schema rfl hs,
        get_none id_regex rfl, get_none id_decomp rfl, get_some id_flush rfl (ld_word _), get_some id_perm rfl (ld_word _)]
      rfl
    | some x =>
      obtain ⟨hx, hy⟩ := h.decomp x hd
      refine ⟨_, attrs_cons id_name (attrs_cons id_plugin (attrs_cons id_container (attrs_cons id_flush (attrs_cons id_perm (attrs_cons id_schema (attrs_cons id_decomp attrs_nil
        (by decide +kernel)) (by decide +kernel)) (by decide +kernel)) (by decide +kernel)) (by decide +kernel)) (by decide +kernel)) (by decide +kernel), ?_⟩
      rw [get_some id_name rfl h.name, get_some id_plugin rfl h.plugin, get_some id_container rfl h.container, get_some id_schema rfl hs,
        get_none id_regex rfl, get_some id_decomp rfl hx, get_some id_flush rfl (ld_word _), get_some id_perm rfl (ld_word _)]
      simp [hy]
  | regex s =>
    rw [hsel] at hs
    have hs : Word s := hs
    cases hd : p.decomp with
    | none => exact absurd hd (h.regex s hsel).1
    | some x =>
      obtain ⟨hx, hy⟩ := h.decomp x hd
      refine ⟨_, attrs_cons id_name (attrs_cons id_plugin (attrs_cons id_container (attrs_cons id_flush (attrs_cons id_perm (attrs_cons id_regex (attrs_cons id_decomp attrs_nil
        (by decide +kernel)) (by decide +kernel)) (by decide +kernel)) (by decide +kernel)) (by decide +kernel)) (by decide +kernel)) (by decide +kernel), ?_⟩
      rw [get_some id_name rfl h.name, get_some id_plugin rfl h.plugin, get_some id_container rfl h.container, get_some id_regex rfl hs,
        get_none id_schema rfl, get_some id_decomp rfl hx, get_some id_flush rfl (ld_word _), get_some id_perm rfl (ld_word _)]
      simp [hy]

theorem flush_back (e : Strgp.Env) (i : Int) (h0 : 0 ≤ i) (h : i * 1000 < 2 ^ 53) :
    Strgp.flushOf e (ld i) = some ⟨i * 1000 / 10 ^ 9, i * 1000 % 10 ^ 9⟩ := by
  obtain ⟨n, rfl⟩ := Int.eq_ofNat_of_zero_le h0
  have h1 : n * 1000 < 2 ^ 53 := by omega
  have := Strgp.flush_value e n .none h1
  rw [show Strgp.Unit'.none.text = [] from rfl, List.append_nil] at this
  rw [ld_nat, this, Int.tdiv_eq_ediv_of_nonneg (by omega), Int.tmod_eq_emod_of_nonneg (by omega)]
  rfl

theorem plugOf_some {s : Strgp.State} {n : Str} (h : n ∈ s.plugs.map (·.name)) : ∃ g, Strgp.plugOf s n = some g := by
  cases e : Strgp.plugOf s n with
  | some g => exact ⟨g, rfl⟩
  | none =>
    unfold Strgp.plugOf at e
    rw [List.find?_eq_none] at e
    obtain ⟨g, hg, rfl⟩ := List.mem_map.1 h
    exact absurd (by simp) (e g hg)

theorem find_no {s : Strgp.State} {n : Str} (h : n ∉ s.pols.map (·.name)) : Strgp.find s n = none := by
  unfold Strgp.find
  rw [List.find?_eq_none]
  intro g hg e
  exact h (List.mem_map.2 ⟨g, hg, by simpa using e⟩)

theorem hold_names (s : Strgp.State) (i : Nat) : (s.hold i).plugs.map (·.name) = s.plugs.map (·.name) := by
  unfold Strgp.State.hold
  simp only [List.map_map]
  refine List.map_congr_left fun g _ => ?_
  simp only [Function.comp]
  split <;> rfl

theorem pol_add_back {gs : List Str} {p : Pol} (h : FinePol w gs p) (d : Daemon) (hg : d.st.plugs.map (·.name) = gs)
    (hn : p.name ∉ d.st.pols.map (·.name)) :
    ∃ i s, exec w d (line (codes "strgp_add" :: polWords p)) = .ok { d with st := s } ∧ s.pols = d.st.pols ++ [polNew w i p] ∧
      s.plugs.map (·.name) = gs := by
  obtain ⟨as, ha, hargs⟩ := strgp_args h (codes "strgp_add")
  obtain ⟨g, hgg⟩ := plugOf_some (s := d.st) (n := p.plugin) (by rw [hg]; exact h.there)
  refine ⟨g.id, { d.st.hold g.id with pols := d.st.pols ++ [polNew w g.id p] }, ?_, rfl, by rw [← hg]; exact hold_names _ _⟩
  rw [exec_strgp_add (polWords_wd h) ha, hargs]
  have hsel : Strgp.selOf ⟨some p.name, some p.plugin, some p.container,
      (match p.sel with | .schema s => some s | .regex _ => none), (match p.sel with | .schema _ => none | .regex r => some r),
      p.decomp, some (ld p.flush.sec), some (ld p.perm), p.decomp.isSome⟩ = some p.sel := by
    unfold Strgp.selOf
    cases hh : p.sel with
    | schema s => rfl
    | regex r =>
      have := (h.regex r hh).1
      cases hd : p.decomp with
      | none => exact absurd hd this
      | some x => rfl
  have hok : p.sel.ok w.se = true := by
    cases hh : p.sel with
    | schema s => rfl
    | regex r => exact (h.regex r hh).2
  have hperm : SetOwner.u32 (strtol 0 (ld p.perm)).value = p.perm := by
    rw [ld_nat]
    exact Strgp.perm_dec p.perm (by have := h.perm; omega)
  simp only [strgp, Strgp.step, Strgp.add, hsel, Strgp.flushArg, flush_back w.se p.flush.sec h.flush.1 h.flush.2, hgg, find_no hn, Strgp.permArg, hperm,
    Option.isSome_none, Bool.false_eq_true, if_false, hok, reduceCtorEq, Bool.and_not_self, if_true, Bool.true_eq_false]
  rfl

theorem config_last (w : World) (d : Daemon) (ps : List Pol) (p p' : Pol) (hd : d.st.pols = ps ++ [p]) (hn : p.name ∉ ps.map (·.name))
    (ho : p.uid = w.who.uid ∧ p.gid = w.who.gid ∧ p.perm / 128 % 2 = 1) (hr : p.running = false) (f : Pol → Except Nat Pol)
    (hf : f p = .ok p') (hp : p'.name = p.name) :
    Strgp.config w.se d.st w.who p.name f = .ok { d.st with pols := ps ++ [p'] } 0 := by
  have hfind : Strgp.find d.st p.name = some p := by
    unfold Strgp.find
    rw [hd, List.find?_append]
    have : ps.find? (fun q => q.name == p.name) = none := by
      rw [List.find?_eq_none]
      intro q hq e
      exact hn (List.mem_map.2 ⟨q, hq, by simpa using e⟩)
    rw [this]
    simp
  have hal : Strgp.allowed w.se w.who p = true := by
    unfold Strgp.allowed
    rw [ho.1, ho.2.1]
    exact may_owner w p.perm ho.2.2
  unfold Strgp.config
  simp only [hfind, hal, hr, hf, Bool.true_eq_false, Bool.false_eq_true, reduceCtorEq, if_false]
  congr 1
  unfold Strgp.State.set
  rw [hd, List.map_append, hp, map_same (l := ps) fun q hq => if_neg (fun e => hn (List.mem_map.2 ⟨q, hq, e⟩))]
  simp

theorem pol_prdcrs_back (n : Str) (hw : Word n) : ∀ (rs : List Str) (d : Daemon) (ps : List Pol) (p : Pol), p.name = n → d.st.pols = ps ++ [p] →
    n ∉ ps.map (·.name) → (p.uid = w.who.uid ∧ p.gid = w.who.gid ∧ p.perm / 128 % 2 = 1) → p.running = false →
    (∀ r ∈ rs, Word r ∧ w.se.regexOk r = true) →
    runLines w d (rs.map fun r => line [codes "strgp_prdcr_add", av "name" n, av "regex" r]) =
      .ok { d with st := { d.st with pols := ps ++ [{ p with prdcrs := rs.reverse ++ p.prdcrs }] } }
  | [], d, ps, p, _, hd, _, _, _, _ => by
    simp only [List.map_nil, runLines, List.reverse_nil, List.nil_append]
    rw [← hd]
  | r :: rs, d, ps, p, hp, hd, hn, ho, hr, hrs => by
    subst hp
    obtain ⟨h1, h2⟩ := hrs r (by simp)
    have ha : attrsOf [av "name" p.name, av "regex" r] = some [(1, some p.name), (4, some r)] :=
      attrs_cons id_name (attrs_cons id_regex attrs_nil (by decide +kernel)) (by decide +kernel)
    simp only [List.map_cons, runLines]
    rw [exec_strgp_prdcr (wd_cons (wd_one hw (by decide +kernel)) (wd_cons (wd_one h1 (by decide +kernel)) wd_nil)) ha,
      get_some id_name rfl hw, get_some id_regex rfl h1]
    simp only [strgp, Strgp.step, Strgp.with2]
    rw [config_last w d ps p { p with prdcrs := r :: p.prdcrs } hd hn ho hr _ (by simp [Strgp.prdcrAdd, h2]) rfl]
    simp only [if_true]
    rw [pol_prdcrs_back p.name hw rs { d with st := { d.st with pols := ps ++ [{ p with prdcrs := r :: p.prdcrs }] } } ps
      { p with prdcrs := r :: p.prdcrs } rfl rfl hn ho hr (fun x hx => hrs x (by simp [hx]))]
    simp

theorem dumpPol_eq (p : Pol) : dumpPol p = (line (codes "strgp_add" :: polWords p) ::
    p.prdcrs.map fun r => line [codes "strgp_prdcr_add", av "name" p.name, av "regex" r]) ++
    if p.running then [line [codes "strgp_start", av "name" p.name]] else [] := by
  unfold dumpPol polWords
  cases p.sel <;> cases p.decomp <;> rfl

theorem pol_back {gs : List Str} {p : Pol} (h : FinePol w gs p) (d : Daemon) (hg : d.st.plugs.map (·.name) = gs)
    (hn : p.name ∉ d.st.pols.map (·.name)) :
    ∃ s, runLines w d (dumpPol p) = .ok { d with st := s } ∧ s.pols.map noStore = d.st.pols.map noStore ++ [polAgain w p] ∧
      s.plugs.map (·.name) = gs := by
  obtain ⟨i, s, e1, e2, e3⟩ := pol_add_back h d hg hn
  rw [dumpPol_eq]
  simp only [List.cons_append, runLines, e1]
  rw [runLines_append, pol_prdcrs_back p.name h.name p.prdcrs { d with st := s } d.st.pols (polNew w i p) rfl e2 hn ⟨rfl, rfl, h.change⟩ rfl h.prdcr]
  simp only
  cases hr : p.running with
  | false =>
    refine ⟨{ s with pols := d.st.pols ++ [{ polNew w i p with prdcrs := p.prdcrs.reverse ++ [] }] }, rfl, ?_, e3⟩
    simp [noStore, polAgain, polNew, hr]
  | true =>
    refine ⟨{ s with pols := d.st.pols ++ [{ polNew w i p with prdcrs := p.prdcrs.reverse ++ [], running := true, perm := p.perm ||| 512 }] }, ?_, ?_, e3⟩
    · have ha : attrsOf [av "name" p.name] = some [(1, some p.name)] := attrs_cons id_name attrs_nil (by decide +kernel)
      simp only [if_true, runLines]
      rw [exec_strgp_start (wd_cons (wd_one h.name (by decide +kernel)) wd_nil) ha, get_some id_name rfl h.name]
      simp only [strgp, Strgp.step, Strgp.with1, Strgp.start]
      have := config_last w { d with st := { s with pols := d.st.pols ++ [{ polNew w i p with prdcrs := p.prdcrs.reverse ++ [] }] } } d.st.pols
        { polNew w i p with prdcrs := p.prdcrs.reverse ++ [] } { polNew w i p with prdcrs := p.prdcrs.reverse ++ [], running := true, perm := p.perm ||| 512 }
        rfl hn ⟨rfl, rfl, h.change⟩ rfl (fun p => .ok { p with running := true, perm := p.perm ||| 512 }) rfl rfl
      simp only [show (polNew w i p).name = p.name from rfl] at this
      rw [show (polNew w i p).prdcrs = [] from rfl, show (polNew w i p).name = p.name from rfl]
      rw [this]
      simp
    · simp [noStore, polAgain, polNew, hr]

theorem pols_back {gs : List Str} : ∀ (ps : List Pol) (d : Daemon), (∀ p ∈ ps, FinePol w gs p) → d.st.plugs.map (·.name) = gs →
    (d.st.pols.map (·.name) ++ ps.map (·.name)).Nodup →
    ∃ s, runLines w d (ps.flatMap dumpPol) = .ok { d with st := s } ∧ s.pols.map noStore = d.st.pols.map noStore ++ ps.map (polAgain w) ∧
      s.plugs.map (·.name) = gs
  | [], d, _, hg, _ => ⟨d.st, rfl, by simp, hg⟩
  | p :: ps, d, h, hg, hnd => by
    have hn : p.name ∉ d.st.pols.map (·.name) := by
      intro hx
      rw [List.nodup_append] at hnd
      exact hnd.2.2 p.name hx p.name (by simp) rfl
    obtain ⟨s, e1, e2, e3⟩ := pol_back (h p (by simp)) d hg hn
    have names : s.pols.map (·.name) = d.st.pols.map (·.name) ++ [p.name] := by
      have := congrArg (List.map (fun q : Pol => q.name)) e2
      simpa [noStore, polAgain, Function.comp_def] using this
    obtain ⟨s', f1, f2, f3⟩ := pols_back ps { d with st := s } (fun x hx => h x (by simp [hx])) e3 (by
      simp only [names]
      simpa using hnd)
    refine ⟨s', ?_, ?_, f3⟩
    · rw [List.flatMap_cons, runLines_append, e1]
      exact f1
    · rw [f2]
      simp [e2]

end Verif.Dump
