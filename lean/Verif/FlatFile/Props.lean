import Verif.FlatFile.Spec

/-!
# C87: flat files
-/

namespace Verif.FlatFile

theorem trim_ok : ∀ {n : Str}, ('#' ∈ n → (n.takeWhile (· ≠ '#')).length < 128) → trim n = some (n.takeWhile (· ≠ '#')) := by
  intro n h
  unfold trim
  have key : ∀ n : Str, (n.findIdx? (· = '#') = none → n.takeWhile (· ≠ '#') = n) ∧ ∀ k, n.findIdx? (· = '#') = some k → '#' ∈ n ∧ n.take k = n.takeWhile (· ≠ '#') ∧
      (n.takeWhile (· ≠ '#')).length = k := by
    intro n
    induction n with
    | nil => exact ⟨fun _ => rfl, fun k h => by simp at h⟩
    | cons c n ih =>
      by_cases hc : c = '#'
      · subst hc
        refine ⟨fun h => by simp [List.findIdx?_cons] at h, fun k h => ?_⟩
        simp [List.findIdx?_cons] at h
        subst h
        simp
      · rw [List.findIdx?_cons]
        simp only [hc, decide_false, if_neg (show ¬ false = true by simp)]
        refine ⟨fun h => ?_, fun k h => ?_⟩
        · simp only [Option.map_eq_none_iff] at h
          have := ih.1 h
          rw [List.takeWhile_cons_of_pos (by simp [hc]), this]
        · obtain ⟨j, hj, rfl⟩ := Option.map_eq_some_iff.1 h
          obtain ⟨a, b, d⟩ := ih.2 j hj
          refine ⟨List.mem_cons_of_mem _ a, ?_, ?_⟩
          · rw [List.takeWhile_cons_of_pos (by simp [hc]), List.take_succ_cons, b]
          · rw [List.takeWhile_cons_of_pos (by simp [hc]), List.length_cons, d]
  cases hf : n.findIdx? (· = '#') with
  | none => simp only; rw [(key n).1 hf]
  | some k =>
    obtain ⟨a, b, d⟩ := (key n).2 k hf
    have := h a
    simp only
    rw [if_pos (by omega), b]

theorem paths_ok {c s : Str} : ∀ {ns all : List Str}, (∀ n ∈ ns, '#' ∈ n → (n.takeWhile (· ≠ '#')).length < 128) →
    paths (c ++ '/' :: s) ns = some (ns.map fun n => fileOf ⟨c, s, all⟩ n)
  | [], _, _ => rfl
  | n :: ns, all, h => by
    unfold paths
    rw [trim_ok (h n (List.mem_cons_self ..)), paths_ok (all := all) fun m hm => h m (List.mem_cons_of_mem _ hm)]
    simp [fileOf]

theorem loop_ok {x : Sample} {comp : Nat} {o : Owned} : ∀ {ns : List Str} {vs : List (Option Str)} {fs : Str → List Line}, vs.length = ns.length →
    ∃ fs', loop x comp (ns.map (fileOf o)) vs fs = some fs' ∧ ∀ p, fs' p = fs p ++ (ns.zip vs).filterMap fun nv =>
      if fileOf o nv.1 = p then nv.2.map fun v => ⟨x.sec, x.usec, x.prod, comp, v⟩ else none
  | [], [], fs, _ => ⟨fs, rfl, fun p => by simp⟩
  | n :: ns, v :: vs, fs, h => by
    simp only [List.length_cons, Nat.add_right_cancel_iff] at h
    obtain ⟨fs', h1, h2⟩ := loop_ok (o := o) (x := x) (comp := comp) (fs := match v with
      | none => fs
      | some t => add fs (fileOf o n) ⟨x.sec, x.usec, x.prod, comp, t⟩) h
    refine ⟨fs', h1, fun p => ?_⟩
    rw [h2 p]
    cases v with
    | none =>
      simp only [List.zip_cons_cons, List.filterMap_cons, Option.map_none, ite_self]
    | some t =>
      simp only [List.zip_cons_cons, List.filterMap_cons, Option.map_some]
      unfold add
      by_cases hp : fileOf o n = p
      · subst hp
        simp
      · have hp' : ¬ p = fileOf o n := fun h => hp h.symm
        simp [hp, hp']

/-- the state agrees with the history -/
structure Inv (as : List Act) (st : St) : Prop where
  own : ∀ u o, owned u as = some o → ∃ i s, st.user u = some i ∧ st.insts[i]? = some s ∧ s.live = true ∧ s.files = o.names.map (fileOf o)
  no : ∀ u, owned u as = none → st.user u = none
  inj : ∀ u v i, st.user u = some i → st.user v = some i → u = v
  idx : ∀ p ∈ st.idx, p.1 ∈ labels as
  fs : ∀ p, st.files p = written p as

theorem inv_open {as : List Act} {st : St} (h : Inv as st) {u : Nat} {c s : Str} {ns : List Str} (h1 : owned u as = none) (h2 : c ++ [':'] ++ s ∉ labels as)
    (h3 : ∀ n ∈ ns, '#' ∈ n → (n.takeWhile (· ≠ '#')).length < 128) : ∃ st', open_ st u c s ns = some st' ∧ Inv (.open_ u c s ns :: as) st' := by
  have hk : key c s = c ++ [':'] ++ s := by simp [key]
  have hf : find st.idx (key c s) = none := by
    unfold find
    rw [Option.map_eq_none_iff, List.find?_eq_none]
    intro p hp he
    have he : p.1 = key c s := by simpa using he
    exact h2 (by rw [← hk, ← he]; exact h.idx p hp)
  unfold open_
  rw [hf, paths_ok (all := ns) h3]
  refine ⟨_, rfl, ?_, ?_, ?_, ?_, h.fs⟩
  · intro v o ho
    unfold owned at ho
    by_cases hv : u = v
    · subst hv
      rw [if_pos rfl] at ho
      cases ho
      exact ⟨st.insts.length, _, by simp, List.getElem?_concat_length, rfl, rfl⟩
    · rw [if_neg hv] at ho
      obtain ⟨i, t, a, b, d, e⟩ := h.own v o ho
      have hne : ¬ v = u := fun h => hv h.symm
      refine ⟨i, t, by simp [hne, a], ?_, d, e⟩
      have hi : i < st.insts.length := (List.getElem?_eq_some_iff.1 b).1
      show (st.insts ++ _)[i]? = _
      rw [List.getElem?_append_left hi]
      exact b
  · intro v hv
    unfold owned at hv
    by_cases huv : u = v
    · rw [if_pos huv] at hv; exact absurd hv (by simp)
    · rw [if_neg huv] at hv
      have := h.no v hv
      have hne : ¬ v = u := fun h => huv h.symm
      simp [hne, this]
  · intro v w i hv hw
    have bound : ∀ v i, st.user v = some i → i < st.insts.length := by
      intro v i hv
      cases ho : owned v as with
      | none => rw [h.no v ho] at hv; exact absurd hv (by simp)
      | some o =>
        obtain ⟨j, t, a, b, _⟩ := h.own v o ho
        rw [a] at hv
        cases hv
        exact (List.getElem?_eq_some_iff.1 b).1
    dsimp only at hv hw
    split at hv <;> split at hw
    · next a b => rw [a, b]
    · cases hv
      have := bound w _ hw
      omega
    · cases hw
      have := bound v _ hv
      omega
    · exact h.inj v w i hv hw
  · intro p hp
    show p.1 ∈ (c ++ [':'] ++ s) :: labels as
    rcases List.mem_cons.1 hp with rfl | hp
    · rw [← hk]; exact List.mem_cons_self ..
    · exact List.mem_cons_of_mem _ (h.idx p hp)

theorem inv_store {as : List Act} {st : St} (h : Inv as st) {u : Nat} {x : Sample} (h1 : ∀ o, owned u as = some o → x.values.length = o.names.length) :
    ∃ st' rc, store st u x = some (st', rc) ∧ Inv (.store u x :: as) st' := by
  have keep : (∀ p, written p (.store u x :: as) = written p as) → Inv (.store u x :: as) st := by
    intro hw
    exact ⟨h.own, h.no, h.inj, h.idx, fun p => by rw [hw]; exact h.fs p⟩
  unfold store
  cases ho : owned u as with
  | none =>
    rw [h.no u ho]
    exact ⟨st, _, rfl, keep fun p => by simp [written, ho]⟩
  | some o =>
    obtain ⟨i, t, a, b, d, e⟩ := h.own u o ho
    rw [a]
    dsimp only
    cases hc : x.comp with
    | none => exact ⟨st, _, rfl, keep fun p => by simp [written, ho, hc]⟩
    | some comp =>
      dsimp only
      rw [b]
      dsimp only
      have hl := h1 o ho
      by_cases hv : x.values = []
      · rw [if_pos hv]
        exact ⟨st, _, rfl, keep fun p => by simp [written, ho, hc, linesOf, hv]⟩
      · rw [if_neg hv, if_pos d, e]
        obtain ⟨fs', h2, h3⟩ := loop_ok (x := x) (comp := comp) (o := o) (fs := st.files) hl
        rw [h2]
        refine ⟨_, _, rfl, h.own, h.no, h.inj, h.idx, fun p => ?_⟩
        show fs' p = written p as ++ _
        rw [h3 p, h.fs p, ho, hc]
        rfl

theorem inv_close {as : List Act} {st : St} (h : Inv as st) {u : Nat} (h1 : owned u as ≠ none) : ∃ st', close st u = some st' ∧ Inv (.close u :: as) st' := by
  cases ho : owned u as with
  | none => exact absurd ho h1
  | some o =>
    obtain ⟨i, t, a, b, d, e⟩ := h.own u o ho
    unfold close
    rw [a]
    dsimp only
    rw [b]
    dsimp only
    rw [if_pos d]
    refine ⟨_, rfl, ?_, ?_, ?_, ?_, h.fs⟩
    · intro v o' ho'
      unfold owned at ho'
      by_cases huv : u = v
      · rw [if_pos huv] at ho'; exact absurd ho' (by simp)
      · rw [if_neg huv] at ho'
        obtain ⟨j, t', a', b', d', e'⟩ := h.own v o' ho'
        have hne : ¬ v = u := fun h => huv h.symm
        refine ⟨j, t', by simp [hne, a'], ?_, d', e'⟩
        have hij : i ≠ j := fun hij => huv (h.inj u v i a (by rw [a', hij]))
        show (st.insts.set i _)[j]? = _
        rw [List.getElem?_set_ne hij]
        exact b'
    · intro v hv
      unfold owned at hv
      by_cases huv : u = v
      · simp [huv]
      · rw [if_neg huv] at hv
        simp [h.no v hv]
    · intro v w j hv hw
      dsimp only at hv hw
      split at hv
      · exact absurd hv (by simp)
      · split at hw
        · exact absurd hw (by simp)
        · exact h.inj v w j hv hw
    · intro p hp
      exact h.idx p (List.mem_filter.1 hp).1

/-- **C87, part.** If each container and schema is opened only once, nothing goes wrong, and each file holds the lines of all samples that were stored for it, in their order, and
nothing else. -/
theorem files_partial : ∀ {as : List Act}, Tidy as → ∃ st, run as = some st ∧ ∀ p, st.files p = written p as := by
  intro as h
  have key : ∀ as : List Act, Tidy as → ∃ st, run as = some st ∧ Inv as st := by
    intro as
    induction as with
    | nil =>
      intro _
      exact ⟨init, rfl, (fun u o h => nomatch h), fun _ _ => rfl, (fun _ _ _ h => nomatch h), (fun _ h => nomatch h), fun _ => rfl⟩
    | cons a as ih =>
      intro h
      cases a with
      | open_ u c s ns =>
        obtain ⟨h0, h1, h2, h3⟩ := h
        obtain ⟨st, hr, hi⟩ := ih h0
        obtain ⟨st', a, b⟩ := inv_open hi h1 h2 h3
        exact ⟨st', by show (run as).bind _ = _; rw [hr]; exact a, b⟩
      | store u x =>
        obtain ⟨h0, h1⟩ := h
        obtain ⟨st, hr, hi⟩ := ih h0
        obtain ⟨st', rc, a, b⟩ := inv_store hi h1
        refine ⟨st', ?_, b⟩
        show (run as).bind _ = _
        rw [hr]
        show (store st u x).map Prod.fst = _
        rw [a]; rfl
      | close u =>
        obtain ⟨h0, h1⟩ := h
        obtain ⟨st, hr, hi⟩ := ih h0
        obtain ⟨st', a, b⟩ := inv_close hi h1
        exact ⟨st', by show (run as).bind _ = _; rw [hr]; exact a, b⟩
  obtain ⟨st, a, b⟩ := key as h
  exact ⟨st, a, b.fs⟩

theorem key_ne (c s : Str) : key c s ≠ s := by
  intro h
  have := congrArg List.length h
  simp [key] at this
  omega

/-- **C87 is false** of a container and schema that are opened again after they were closed: the policy is given the freed record, and the next sample is undefined behaviour. -/
theorem reopen_defect {st st1 : St} {u : Nat} {c s : Str} {ns : List Str} (h0 : find st.idx (key c s) = none) (h1 : open_ st u c s ns = some st1) (ns' : List Str) {x : Sample}
    (hx : x.comp ≠ none) (hv : x.values ≠ []) : ∃ st2 st3, close st1 u = some st2 ∧ open_ st2 u c s ns' = some st3 ∧ store st3 u x = none := by
  unfold open_ at h1
  rw [h0] at h1
  dsimp only at h1
  split at h1
  · exact absurd h1 (by simp)
  · next ps hps =>
    cases h1
    refine ⟨{ idx := ((key c s, st.insts.length) :: st.idx).filter fun p => p.1 ≠ s
              insts := (st.insts ++ [(⟨s, ps, true⟩ : Inst)]).set st.insts.length ⟨s, ps, false⟩
              user := fun v => if v = u then none else if v = u then some st.insts.length else st.user v
              files := st.files },
            { idx := ((key c s, st.insts.length) :: st.idx).filter fun p => p.1 ≠ s
              insts := (st.insts ++ [(⟨s, ps, true⟩ : Inst)]).set st.insts.length ⟨s, ps, false⟩
              user := fun v => if v = u then some st.insts.length else (if v = u then none else if v = u then some st.insts.length else st.user v)
              files := st.files }, ?_, ?_, ?_⟩
    · unfold close
      dsimp only
      rw [if_pos rfl]
      dsimp only
      rw [List.getElem?_concat_length]
      dsimp only
      rw [if_pos rfl]
    · have hf : find (((key c s, st.insts.length) :: st.idx).filter fun p => p.1 ≠ s) (key c s) = some st.insts.length := by
        unfold find
        rw [List.filter_cons_of_pos (by simpa using key_ne c s)]
        simp
      unfold open_
      dsimp only
      rw [hf]
    · cases hcx : x.comp with
      | none => exact absurd hcx hx
      | some comp =>
        unfold store
        simp [hcx, hv]

/-! ## What else is false -/

def line (v : Str) : Line := ⟨10, 5, ['n'], 1, v⟩
def sample (vs : List (Option Str)) : Sample := ⟨10, 5, ['n'], some 1, vs⟩

/-- **C87 is false** of two policies with the same container and schema and different metrics: the second writes its values to the files of the first. -/
theorem mixed_defect : ∃ as st, run as = some st ∧ owned 2 as = some ⟨['c'], ['s'], [['b'], ['a']]⟩ ∧ written ['c', '/', 's', '/', 'a'] as = [line ['1']] ∧
    st.files ['c', '/', 's', '/', 'a'] = [line ['2']] :=
  ⟨[.store 2 (sample [some ['2'], some ['1']]), .open_ 2 ['c'] ['s'] [['b'], ['a']], .open_ 1 ['c'] ['s'] [['a'], ['b']]], _, rfl, by decide, by decide, by decide⟩

/-- **C87 is false** of a policy that has more metrics than the first one with its container and schema: its samples are undefined behaviour. -/
theorem more_defect : ∃ as, run as ≠ none ∧ owned 2 as = some ⟨['c'], ['s'], [['a'], ['b']]⟩ ∧ run (.store 2 (sample [some ['1'], some ['2']]) :: as) = none :=
  ⟨[.open_ 2 ['c'] ['s'] [['a'], ['b']], .open_ 1 ['c'] ['s'] [['a']]], by simp [run, step, open_, find, paths, trim, init], by decide, rfl⟩

/-- **C87 is false** of containers and schemas with colons: container `a:b` with schema `c` and container `a` with schema `b:c` are taken for the same. -/
theorem colon_defect : ∃ as st, run as = some st ∧ written ['a', '/', 'b', ':', 'c', '/', 'm'] as = [line ['1']] ∧ st.files ['a', '/', 'b', ':', 'c', '/', 'm'] = [] ∧
    st.files ['a', ':', 'b', '/', 'c', '/', 'm'] = [line ['1']] :=
  ⟨[.store 2 (sample [some ['1']]), .open_ 2 ['a'] ['b', ':', 'c'] [['m']], .open_ 1 ['a', ':', 'b'] ['c'] [['m']]], _, rfl, by decide, by decide, by decide⟩

/-- **C87 is false** of two policies that share a container and schema: closing one of them takes the files from the other. -/
theorem shared_defect : ∃ as, run as ≠ none ∧ owned 2 as ≠ none ∧ run (.store 2 (sample [some ['1']]) :: as) = none :=
  ⟨[.close 1, .open_ 2 ['c'] ['s'] [['a']], .open_ 1 ['c'] ['s'] [['a']]], by simp [run, step, open_, close, find, paths, trim, init, key], by decide, rfl⟩

/-- **C87 is false** of the result for sets without a component: nothing is stored, and the result is 0. -/
theorem comp_defect {st : St} {u i : Nat} {x : Sample} (hu : st.user u = some i) (hx : x.comp = none) : store st u x = some (st, 0) := by
  unfold store
  rw [hu, hx]

/-- **C87 is false** of long names with a `#`: opening is undefined behaviour. -/
theorem long_defect {st : St} {u : Nat} {c s n : Str} {ns : List Str} (h0 : find st.idx (key c s) = none) (hn : n.length ≥ 128) (hh : '#' ∉ n) (tail : Str) :
    open_ st u c s ((n ++ '#' :: tail) :: ns) = none := by
  have ht : trim (n ++ '#' :: tail) = none := by
    unfold trim
    have : (n ++ '#' :: tail).findIdx? (· = '#') = some n.length := by
      rw [List.findIdx?_append]
      have h1 : n.findIdx? (· = '#') = none := by
        rw [List.findIdx?_eq_none_iff]
        intro x hx
        simp only [decide_eq_false_iff_not]
        exact fun h => hh (h ▸ hx)
      rw [h1]
      simp [List.findIdx?_cons]
    rw [this]
    dsimp only
    rw [if_neg (by omega)]
  unfold open_
  rw [h0]
  simp [paths, ht]

/-! ## Cases -/

/-- two policies with different schemas; metrics `a#1` and `a#2` share a file; the first is closed in the end -/
def story : List Act :=
  [.close 1, .store 2 (sample [some ['7'], none]), .store 1 (sample [some ['1'], some ['2'], some ['3']]), .open_ 2 ['c'] ['t'] [['x'], ['y']],
    .open_ 1 ['c'] ['s'] [['a', '#', '1'], ['b'], ['a', '#', '2']]]

example : Tidy story := by
  refine ⟨⟨⟨⟨⟨trivial, by decide, by decide, by decide⟩, by decide, by decide, by decide⟩, ?_⟩, ?_⟩, by decide⟩
  · intro o h; cases h; rfl
  · intro o h; cases h; rfl

example : written ['c', '/', 's', '/', 'a'] story = [line ['1'], line ['3']] ∧ written ['c', '/', 't', '/', 'x'] story = [line ['7']] ∧ written ['c', '/', 't', '/', 'y'] story = [] := by
  decide

example : ∃ st, open_ init 1 ['c'] ['s'] [['a']] = some st ∧ find init.idx (key ['c'] ['s']) = none ∧ st.user 1 = some 0 := ⟨_, rfl, rfl, rfl⟩

example : (List.replicate 130 'a').length ≥ 128 ∧ '#' ∉ List.replicate 130 'a' := by simp

end Verif.FlatFile
