import Verif.Strgp.Spec
import Verif.SetOwner.Proofs

namespace Verif.Strgp

open Verif.SetOwner (Str)

theorem mem_called {s : State} {n : Str} {p : Pol} : p ∈ called s n ↔ p ∈ s.pols ∧ p.name = n := by
  simp [called]

theorem find_called (s : State) (n : Str) : find s n = (called s n).head? := by
  unfold find called
  induction s.pols with
  | nil => rfl
  | cons p l ih =>
    by_cases h : p.name = n
    · simp [h]
    · simp [h, ih]

theorem find_some {s : State} {n : Str} {p : Pol} (h : find s n = some p) : p ∈ s.pols ∧ p.name = n := by
  rw [find_called] at h
  exact mem_called.1 (List.mem_of_head? h)

theorem find_one {s : State} {n : Str} {p : Pol} (h : called s n = [p]) : find s n = some p := by
  rw [find_called, h]; rfl

theorem find_none {s : State} {n : Str} : find s n = none ↔ called s n = [] := by
  rw [find_called]; simp

theorem called_set (s : State) (p : Pol) (m : Str) :
    called (s.set p) m = if m = p.name then (called s m).map fun _ => p else called s m := by
  unfold called State.set
  dsimp only
  induction s.pols with
  | nil => simp
  | cons q l ih =>
    by_cases hm : m = p.name
    · subst hm
      simp only [if_true] at ih ⊢
      by_cases hq : q.name = p.name <;> simp [hq, ih]
    · simp only [if_neg hm] at ih ⊢
      by_cases hq : q.name = p.name
      · have : ¬ p.name = m := fun h => hm h.symm
        have h2 : ¬ q.name = m := fun h => hm (h.symm.trans hq)
        simp [hq, this, ih]
      · simp [hq, ih, List.filter_cons]

theorem called_filter (l : List Pol) (n m : Str) (h : m ≠ n) :
    (l.filter fun q => !(q.name == n)).filter (fun p => p.name = m) = l.filter fun p => p.name = m := by
  rw [List.filter_filter]
  congr 1
  funext p
  by_cases hp : p.name = m
  · have : p.name ≠ n := fun q => h (hp.symm.trans q)
    simp [hp, h]
  · simp [hp]

theorem called_filter_self (l : List Pol) (n : Str) :
    (l.filter fun q => !(q.name == n)).filter (fun p => p.name = n) = [] := by
  rw [List.filter_filter]
  simp

theorem filter_same {l : List Pol} {n : Str} (h : l.filter (fun p => p.name = n) = []) :
    l.filter (fun q => !(q.name == n)) = l := by
  rw [List.filter_eq_self]
  intro p hp
  have := List.filter_eq_nil_iff.1 h p hp
  simpa using this

/-! ## how each function ends -/

theorem config_ok {e : Env} {s s' : State} {w : Who} {n : Str} {f : Pol → Except Nat Pol} {rc : Nat}
    (h : config e s w n f = .ok s' rc) :
    (s' = s ∧ (rc = ENOENT ∨ rc = EACCES ∨ rc = EBUSY)) ∨
    (∃ p, find s n = some p ∧ allowed e w p = true ∧ p.running = false ∧
      ((s' = s ∧ f p = .error rc) ∨ ∃ p', f p = .ok p' ∧ s' = s.set p' ∧ rc = 0)) := by
  unfold config at h
  split at h
  · simp only [Res.ok.injEq] at h; exact .inl ⟨h.1.symm, .inl h.2.symm⟩
  · rename_i p hp
    split at h
    · simp only [Res.ok.injEq] at h; exact .inl ⟨h.1.symm, .inr (.inl h.2.symm)⟩
    · split at h
      · simp only [Res.ok.injEq] at h; exact .inl ⟨h.1.symm, .inr (.inr h.2.symm)⟩
      · rename_i ha hr
        refine .inr ⟨p, hp, by simpa using ha, by simpa using hr, ?_⟩
        split at h
        · rename_i hf
          simp only [Res.ok.injEq] at h
          exact .inl ⟨h.1.symm, by rw [hf, h.2]⟩
        · rename_i p' hf
          simp only [Res.ok.injEq] at h
          exact .inr ⟨p', hf, h.1.symm, h.2.symm⟩

theorem config_crash {e : Env} {s : State} {w : Who} {n : Str} {f : Pol → Except Nat Pol} : config e s w n f ≠ .crash := by
  unfold config
  split
  · exact fun h => nomatch h
  · split
    · exact fun h => nomatch h
    · split
      · exact fun h => nomatch h
      · split <;> exact fun h => nomatch h

/-- the changes keep the name -/
def Keeps (f : Pol → Except Nat Pol) : Prop := ∀ p p', f p = .ok p' → p'.name = p.name

theorem keeps_prdcrAdd (e : Env) (r : Str) : Keeps (prdcrAdd e r) := by
  intro p p' h; unfold prdcrAdd at h; split at h
  · simp only [Except.ok.injEq] at h; rw [← h]
  · exact nomatch h

theorem keeps_prdcrDel (r : Str) : Keeps (prdcrDel r) := by
  intro p p' h; unfold prdcrDel at h; split at h
  · simp only [Except.ok.injEq] at h; rw [← h]
  · exact nomatch h

theorem keeps_metricAdd (r : Str) : Keeps (metricAdd r) := by
  intro p p' h; unfold metricAdd at h; split at h
  · exact nomatch h
  · simp only [Except.ok.injEq] at h; rw [← h]

theorem keeps_metricDel (r : Str) : Keeps (metricDel r) := by
  intro p p' h; unfold metricDel at h; split at h
  · simp only [Except.ok.injEq] at h; rw [← h]
  · exact nomatch h

theorem stop_ok {e : Env} {s s' : State} {w : Who} {n : Str} {rc : Nat} (h : stop e s w n = .ok s' rc) :
    (s' = s ∧ (rc = ENOENT ∨ rc = EACCES ∨ rc = EBUSY)) ∨
    (∃ p, find s n = some p ∧ allowed e w p = true ∧ p.running = true ∧ rc = 0 ∧
      s' = s.set { p with running := false, opened := false, perm := p.perm &&& 4294966783 }) := by
  unfold stop at h
  split at h
  · simp only [Res.ok.injEq] at h; exact .inl ⟨h.1.symm, .inl h.2.symm⟩
  · rename_i p hp
    split at h
    · simp only [Res.ok.injEq] at h; exact .inl ⟨h.1.symm, .inr (.inl h.2.symm)⟩
    · split at h
      · simp only [Res.ok.injEq] at h; exact .inl ⟨h.1.symm, .inr (.inr h.2.symm)⟩
      · split at h
        · exact nomatch h
        · rename_i ha hr _
          simp only [Res.ok.injEq] at h
          exact .inr ⟨p, hp, by simpa using ha, by simpa using hr, h.2.symm, h.1.symm⟩

theorem del_ok {e : Env} {s s' : State} {w : Who} {n : Str} {rc : Nat} (h : del e s w n = .ok s' rc) :
    (s' = s ∧ ((rc = ENOENT ∧ find s n = none) ∨ rc = EACCES ∨ rc = EBUSY)) ∨
    (∃ p i, find s n = some p ∧ allowed e w p = true ∧ p.running = false ∧ p.users = 0 ∧ p.store = some i ∧ loaded s i = true ∧
      rc = 0 ∧ s' = { s.drop i with pols := s.pols.filter fun q => !(q.name == n) }) := by
  unfold del at h
  split at h
  · rename_i hf
    simp only [Res.ok.injEq] at h; exact .inl ⟨h.1.symm, .inl ⟨h.2.symm, hf⟩⟩
  · rename_i p hp
    split at h
    · simp only [Res.ok.injEq] at h; exact .inl ⟨h.1.symm, .inr (.inl h.2.symm)⟩
    · split at h
      · simp only [Res.ok.injEq] at h; exact .inl ⟨h.1.symm, .inr (.inr h.2.symm)⟩
      · split at h
        · simp only [Res.ok.injEq] at h; exact .inl ⟨h.1.symm, .inr (.inr h.2.symm)⟩
        · rename_i ha hr hu
          split at h
          · exact nomatch h
          · rename_i i hi
            split at h
            · rename_i hl
              simp only [Res.ok.injEq] at h
              exact .inr ⟨p, i, hp, by simpa using ha, by simpa using hr, by omega, hi, hl, h.2.symm, h.1.symm⟩
            · exact nomatch h

theorem refuse_ok {e : Env} {s s' : State} {n : Option Str} {rc rc' : Nat} (h : refuse e s n rc = .ok s' rc') :
    rc' = rc ∧ ((n = none ∧ s' = s) ∨ ∃ m r, n = some m ∧ del e s ⟨0, 0⟩ m = .ok s' r) := by
  unfold refuse at h
  split at h
  · split at h
    · simp only [Res.ok.injEq] at h; exact ⟨h.2.symm, .inl ⟨rfl, h.1.symm⟩⟩
    · exact nomatch h
  · rename_i m
    split at h
    · exact nomatch h
    · rename_i s2 r hd
      simp only [Res.ok.injEq] at h
      exact ⟨h.2.symm, .inr ⟨m, r, rfl, by rw [hd, h.1]⟩⟩

/-- the policy that `strgp_add` makes -/
def made (w : Who) (a : Args) (n pl c : Str) (sel : Sel) (fl : Time) (g : Plug) : Pol :=
  ⟨n, w.uid, w.gid, permArg a, pl, some g.id, c, sel, a.decomp, fl, [], [], false, false, 0⟩

/-- all is well with the attributes -/
structure Well (e : Env) (s : State) (a : Args) (n pl c : Str) (sel : Sel) (fl : Time) (g : Plug) : Prop where
  name : a.name = some n
  plugin : a.plugin = some pl
  container : a.container = some c
  sel : selOf a = some sel
  flush : flushArg e a = some fl
  plug : plugOf s pl = some g
  fresh : find s n = none

/-- How `strgp_add` ends: refused before anything was made, refused after the policy was made, or accepted. -/
theorem add_cases (e : Env) (s : State) (w : Who) (a : Args) :
    (∃ rc, rc ≠ 0 ∧ add e s w a = refuse e s a.name rc) ∨
    (∃ n pl c sel fl g, Well e s a n pl c sel fl g ∧
      ((∃ rc, rc ≠ 0 ∧ (sel.ok e = false ∨ (a.decomp.isSome = true ∧ a.decompOk = false)) ∧
        add e s w a = refuse e { s.hold g.id with pols := s.pols ++ [made w a n pl c sel fl g] } (some n) rc) ∨
       (sel.ok e = true ∧ (a.decomp.isSome = true → a.decompOk = true) ∧
        add e s w a = .ok { s.hold g.id with pols := s.pols ++ [made w a n pl c sel fl g] } 0))) := by
  by_cases hc : ∃ n pl c, a.name = some n ∧ a.plugin = some pl ∧ a.container = some c
  · obtain ⟨n, pl, c, h1, h2, h3⟩ := hc
    unfold add
    simp only [h1, h2, h3]
    split
    · exact .inl ⟨EINVAL, by decide, rfl⟩
    · rename_i sel hs
      split
      · exact .inl ⟨ENOENT, by decide, rfl⟩
      · rename_i fl hf
        split
        · exact .inl ⟨ENOENT, by decide, rfl⟩
        · rename_i g hg
          split
          · exact .inl ⟨EEXIST, by decide, rfl⟩
          · rename_i hn
            have hn : find s n = none := by simpa using hn
            refine .inr ⟨n, pl, c, sel, fl, g, ⟨h1, h2, h3, hs, hf, hg, hn⟩, ?_⟩
            split
            · rename_i ho
              exact .inl ⟨1, by decide, .inl ho, rfl⟩
            · rename_i ho
              split
              · rename_i hd
                exact .inl ⟨EINVAL, by decide, .inr (by simpa using hd), rfl⟩
              · rename_i hd
                exact .inr ⟨by simpa using ho, by simpa using hd, rfl⟩
  · refine .inl ⟨EINVAL, by decide, ?_⟩
    unfold add
    split
    · rename_i n pl c h1 h2 h3
      exact absurd ⟨n, pl, c, h1, h2, h3⟩ hc
    · rfl

end Verif.Strgp
