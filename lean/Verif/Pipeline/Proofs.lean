import Verif.Pipeline.Spec
import Verif.Common.ListLemmas

namespace Verif.Pipeline

/-- `put` on the set -/
def drop (x : PSet) : PSet :=
  if x.refs = 1 then { x with refs := 0, live := false, att := [] } else { x with refs := x.refs - 1 }

/-- policies that differ at most in their counters -/
def SamePol (x y : Pol) : Prop :=
  y.running = x.running ∧ y.decomp = x.decomp ∧ y.handle = x.handle ∧ y.digest = x.digest ∧ y.list = x.list ∧
    y.arr = x.arr

theorem SamePol.refl (x : Pol) : SamePol x x := ⟨rfl, rfl, rfl, rfl, rfl, rfl⟩

theorem put_ok {s s' : State} {i : Nat} {x : PSet} (h : put s i x = .ok s') :
    x.refs ≠ 0 ∧ s'.used = s.used ∧ s'.todo = s.todo ∧ s'.log = s.log ∧ (∀ q, SamePol (s.pols q) (s'.pols q)) ∧
      s'.sets = fun j => if j = i then drop x else s.sets j := by
  unfold put at h
  split at h
  · cases h
  · next h0 =>
    split at h
    · next h1 =>
      cases h
      refine ⟨h0, rfl, rfl, rfl, fun q => ⟨rfl, rfl, rfl, rfl, rfl, rfl⟩, ?_⟩
      funext j
      simp only [setSet, drop, h1, if_true]
    · next h1 =>
      cases h
      refine ⟨h0, rfl, rfl, rfl, fun q => .refl _, ?_⟩
      funext j
      simp only [setSet, drop, h1, if_false]

theorem put_total (s : State) (i : Nat) (x : PSet) (h : x.refs ≠ 0) : ∃ s', put s i x = .ok s' := by
  unfold put
  rw [if_neg h]
  split <;> exact ⟨_, rfl⟩

/-- how the list of policies of a set may change at a policy `p` -/
def AttOf (p : Nat) (a a' : List Nat) : Prop := a' = a ∨ a' = a.erase p ∨ (p ∉ a ∧ a' = p :: a)

theorem sync_att (g : Cfg) (p : Nat) (x : Pol) (c : Content) (a : List Nat) (ok : Bool) :
    AttOf p a (sync g p x c a ok).2 := by
  unfold sync
  dsimp only
  repeat' split
  all_goals first
    | exact .inl rfl
    | exact .inr (.inl rfl)
    | (rename_i h _ _; exact .inr (.inr ⟨h, rfl⟩))
    | skip
  all_goals
    refine .inr (.inr ⟨?_, rfl⟩)
    assumption

/-- what can happen to a set -/
inductive SetTr (g : Cfg) (s : State) (j : Nat) (x : PSet) : Ev → PSet → Prop
  | same (e : Ev) (h : ∀ u, e ≠ .updated j u) (h' : e ≠ .storeOne j) : SetTr g s j x e x
  | add (h : j ∉ s.used) : SetTr g s j x (.add j) { live := true, inTree := true, refs := 2 }
  | req (fresh ok : Bool) (ht : x.inTree = true) (hs : x.st = .ready) : SetTr g s j x (.tick j fresh ok) (request x ok)
  | look (fresh ok : Bool) (ht : x.inTree = true) (hs : x.st = .start) (hc : x.content = none) :
      SetTr g s j x (.tick j fresh ok) { x with st := .lookup, refs := x.refs + 1, lookups := x.lookups + 1 }
  | skip (fresh ok : Bool) (ht : x.inTree = true) (hs : x.st = .updating) :
      SetTr g s j x (.tick j fresh ok) { x with skipped := x.skipped + 1 }
  | lookFail (hl : x.lookups ≠ 0) (hj : x.job = .idle) (hv : x.live = true) :
      SetTr g s j x (.looked j none) (drop { x with st := .start, lookups := x.lookups - 1 })
  | lookOk (c : Content) (hl : x.lookups ≠ 0) (hj : x.job = .idle) (hv : x.live = true) (hc : x.content = none) :
      SetTr g s j x (.looked j (some c)) { x with content := some c, st := .ready, job := .attach g.pols }
  | att (p : Nat) (ps : List Nat) (ok : Bool) (a : List Nat) (hj : x.job = .attach (p :: ps)) (ha : AttOf p x.att a)
      (hd : g.applies p j = true → ∃ c, x.content = some c ∧ a = (sync g p (s.pols p) c x.att ok).2)
      (hn : g.applies p j = false → a = x.att) :
      SetTr g s j x (.attachOne j ok) { x with job := .attach ps, att := a }
  | attEnd (hj : x.job = .attach []) :
      SetTr g s j x (.attachEnd j) (drop { x with job := .idle, lookups := x.lookups - 1 })
  | scan (p : Nat) (ok : Bool) (a : List Nat) (ht : x.inTree = true) (hj : x.job = .idle)
      (hs : ¬ (x.st = .start ∨ x.st = .lookup)) (ha : AttOf p x.att a)
      (hd : g.applies p j = true → ∃ c, x.content = some c ∧ a = (sync g p (s.pols p) c x.att ok).2)
      (hn : g.applies p j = false → a = x.att) :
      SetTr g s j x (.scan p j ok) { x with att := a }
  | updErr (u : Upd) (hu : x.updates ≠ 0) (hj : x.job = .idle) (hv : x.live = true) (he : u.err = true)
      (hm : u.more = false) : SetTr g s j x (.updated j u) (drop { x with updates := x.updates - 1 })
  | updErrMore (u : Upd) (hu : x.updates ≠ 0) (hj : x.job = .idle) (hv : x.live = true) (he : u.err = true)
      (hm : u.more = true) : SetTr g s j x (.updated j u) x
  | updOld (u : Upd) (n : Nat) (hu : x.updates ≠ 0) (hj : x.job = .idle) (hv : x.live = true) (he : u.err = false)
      (ho : u.ok = false ∨ u.gn = x.lastGn) (hm : u.more = false) :
      SetTr g s j x (.updated j u) (drop { x with st := .ready, updates := x.updates - 1, oversampled := n })
  | updOldMore (u : Upd) (n : Nat) (hu : x.updates ≠ 0) (hj : x.job = .idle) (hv : x.live = true)
      (he : u.err = false) (ho : u.ok = false ∨ u.gn = x.lastGn) (hm : u.more = true) :
      SetTr g s j x (.updated j u) { x with oversampled := n }
  | updNew (u : Upd) (hu : x.updates ≠ 0) (hj : x.job = .idle) (hv : x.live = true) (he : u.err = false)
      (ho : u.ok = true) (hg : u.gn ≠ x.lastGn) :
      SetTr g s j x (.updated j u) { x with lastGn := u.gn, job := .store x.att u }
  | storeOne (p : Nat) (ps : List Nat) (u : Upd) (hj : x.job = .store (p :: ps) u) :
      SetTr g s j x (.storeOne j) { x with job := .store ps u }
  | storeMore (u : Upd) (hj : x.job = .store [] u) (hm : u.more = true) :
      SetTr g s j x (.storeEnd j) { x with job := .idle }
  | storeEnd (u : Upd) (hj : x.job = .store [] u) (hm : u.more = false) :
      SetTr g s j x (.storeEnd j) (drop { x with job := .idle, st := .ready, updates := x.updates - 1 })
  | reset (ht : x.inTree = true) (hv : (drop { x with inTree := false }).live = true) :
      SetTr g s j x (.reset j) (drop { drop { x with inTree := false } with st := .start })

theorem syncOne_ok {g : Cfg} {s s' : State} {p i : Nat} {ok : Bool} (h : syncOne g s p i ok = .ok s') :
    (g.applies p i = false ∧ s' = s) ∨
    (g.applies p i = true ∧ ∃ c, (s.sets i).content = some c ∧
      s' = setPol (setSet s i { s.sets i with att := (sync g p (s.pols p) c (s.sets i).att ok).2 }) p
        (sync g p (s.pols p) c (s.sets i).att ok).1) := by
  unfold syncOne at h
  dsimp only at h
  split at h
  · next ha => cases h; exact .inl ⟨ha, rfl⟩
  · next ha =>
    refine .inr ⟨by simpa using ha, ?_⟩
    split at h
    · cases h
    · next c hc => cases h; exact ⟨c, hc, rfl⟩

theorem step_sets (g : Cfg) (s s' : State) (e : Ev) (hg : isGroup e = false) (h : step g s e = .ok s') (j : Nat) :
    SetTr g s j (s.sets j) e (s'.sets j) := by
  cases e with
  | group => cases hg
  | add i =>
    simp only [step] at h
    split at h
    · cases h
    · next hu =>
      cases h
      simp only [setSet]
      split
      · next hj => subst hj; exact .add hu
      · exact .same _ (fun u h => by cases h) (fun h => by cases h)
  | tick i fresh ok =>
    simp only [step] at h
    split at h
    · cases h
    · next ht =>
      have ht : (s.sets i).inTree = true := by simpa using ht
      split at h
      · next hs =>
        split at h
        · cases h; exact .same _ (fun u h => by cases h) (fun h => by cases h)
        · cases h
          simp only [setSet]
          split
          · next hj => subst hj; exact .req _ _ ht hs
          · exact .same _ (fun u h => by cases h) (fun h => by cases h)
      · next hs =>
        split at h
        · cases h
        · next hc =>
          split at h
          · cases h
            simp only [setSet]
            split
            · next hj => subst hj; exact .look _ _ ht hs (Decidable.not_not.mp hc)
            · exact .same _ (fun u h => by cases h) (fun h => by cases h)
          · cases h; exact .same _ (fun u h => by cases h) (fun h => by cases h)
      · cases h; exact .same _ (fun u h => by cases h) (fun h => by cases h)
      · next hs =>
        cases h
        simp only [setSet]
        split
        · next hj => subst hj; exact .skip _ _ ht hs
        · exact .same _ (fun u h => by cases h) (fun h => by cases h)
  | looked i c =>
    simp only [step] at h
    split at h
    · cases h
    · next h1 =>
      have hl : (s.sets i).lookups ≠ 0 := fun h => h1 (.inl h)
      have hj : (s.sets i).job = .idle := Decidable.not_not.mp (fun h => h1 (.inr h))
      split at h
      · cases h
      · next hv =>
        have hv : (s.sets i).live = true := by simpa using hv
        split at h
        · have := (put_ok h).2.2.2.2.2
          rw [this]
          dsimp only
          split
          · next hj' => subst hj'; exact .lookFail hl hj hv
          · exact .same _ (fun u h => by cases h) (fun h => by cases h)
        · next c =>
          split at h
          · cases h
          · next hc =>
            cases h
            simp only [setSet]
            split
            · next hj' => subst hj'; exact .lookOk c hl hj hv (Decidable.not_not.mp hc)
            · exact .same _ (fun u h => by cases h) (fun h => by cases h)
  | attachOne i ok =>
    simp only [step] at h
    split at h
    · next p ps hj =>
      rcases syncOne_ok h with ⟨ha, rfl⟩ | ⟨ha, c, hc, rfl⟩
      · simp only [setSet]
        split
        · next hj' =>
          subst hj'
          exact .att p ps ok (s.sets j).att hj (.inl rfl) (fun h => by rw [ha] at h; cases h) (fun _ => rfl)
        · exact .same _ (fun u h => by cases h) (fun h => by cases h)
      · simp only [setSet, setPol, if_true] at hc ⊢
        split
        · next hj' =>
          subst hj'
          exact .att p ps ok _ hj (sync_att ..) (fun _ => ⟨c, hc, rfl⟩) (fun h => by rw [ha] at h; cases h)
        · exact .same _ (fun u h => by cases h) (fun h => by cases h)
    · cases h
  | attachEnd i =>
    simp only [step] at h
    split at h
    · next hj =>
      rw [(put_ok h).2.2.2.2.2]
      dsimp only
      split
      · next hj' => subst hj'; exact .attEnd hj
      · exact .same _ (fun u h => by cases h) (fun h => by cases h)
    · cases h
  | start p =>
    simp only [step] at h
    repeat' split at h
    all_goals first
      | (cases h; done)
      | (cases h; exact .same _ (fun u h => by cases h) (fun h => by cases h))
  | stop p =>
    simp only [step] at h
    repeat' split at h
    all_goals first
      | (cases h; done)
      | (cases h; exact .same _ (fun u h => by cases h) (fun h => by cases h))
  | scan p i ok =>
    simp only [step] at h
    split at h
    · cases h
    · split at h
      · cases h; exact .same _ (fun u h => by cases h) (fun h => by cases h)
      · next ht =>
        split at h
        · cases h
        · next hj =>
          split at h
          · cases h; exact .same _ (fun u h => by cases h) (fun h => by cases h)
          · next hs =>
            rcases syncOne_ok h with ⟨ha, rfl⟩ | ⟨ha, c, hc, rfl⟩
            · exact .same _ (fun u h => by cases h) (fun h => by cases h)
            · simp only [setSet, setPol] at hc ⊢
              split
              · next hj' =>
                subst hj'
                exact .scan p ok _ (by simpa using ht) (Decidable.not_not.mp hj) hs (sync_att ..)
                  (fun _ => ⟨c, hc, rfl⟩) (fun h => by rw [ha] at h; cases h)
              · exact .same _ (fun u h => by cases h) (fun h => by cases h)
  | updated i u =>
    by_cases hji : j = i
    · subst hji
      simp only [step] at h
      split at h
      · cases h
      · next h1 =>
        have hu : (s.sets j).updates ≠ 0 := fun h => h1 (.inl h)
        have hj : (s.sets j).job = .idle := Decidable.not_not.mp (fun h => h1 (.inr h))
        split at h
        · cases h
        · next hv =>
          have hv : (s.sets j).live = true := by simpa using hv
          split at h
          · next he =>
            split at h
            · next hm => cases h; exact .updErrMore u hu hj hv he hm
            · next hm =>
              rw [(put_ok h).2.2.2.2.2]
              simp only [if_true]
              exact .updErr u hu hj hv he (by simpa using hm)
          · next he =>
            have he : u.err = false := by simpa using he
            split at h
            · next ho =>
              split at h
              · next hm =>
                cases h
                simp only [setSet, if_true]
                split
                · exact .updOldMore u _ hu hj hv he ho hm
                · exact .updOldMore u (s.sets j).oversampled hu hj hv he ho hm
              · next hm =>
                have hm : u.more = false := by simpa using hm
                rw [(put_ok h).2.2.2.2.2]
                simp only [if_true]
                split
                · exact .updOld u _ hu hj hv he ho hm
                · exact .updOld u (s.sets j).oversampled hu hj hv he ho hm
            · next ho =>
              cases h
              simp only [setSet, if_true]
              exact .updNew u hu hj hv he (by cases hk : u.ok <;> simp [hk] at ho ⊢) (fun h => ho (.inr h))
    · have : s'.sets j = s.sets j := by
        simp only [step] at h
        repeat' split at h
        all_goals first
          | (cases h; done)
          | (cases h; simp only [setSet, hji, if_false]; done)
          | (rw [(put_ok h).2.2.2.2.2]; simp only [hji, if_false]; done)
      rw [this]
      exact .same _ (fun v h => by cases h; exact hji rfl) (fun h => by cases h)
  | storeOne i =>
    by_cases hji : j = i
    · subst hji
      simp only [step] at h
      split at h
      · next p ps u hj =>
        have : s'.sets j = { s.sets j with job := .store ps u } := by
          repeat' split at h
          all_goals
            cases h
            simp only [setSet, setPol, if_true]
        rw [this]
        exact .storeOne p ps u hj
      · cases h
    · have : s'.sets j = s.sets j := by
        simp only [step] at h
        repeat' split at h
        all_goals first
          | (cases h; done)
          | (cases h; simp only [setSet, setPol, hji, if_false]; done)
      rw [this]
      exact .same _ (fun v h => by cases h) (fun h => by cases h; exact hji rfl)
  | storeEnd i =>
    simp only [step] at h
    split at h
    · next u hj =>
      split at h
      · next hm =>
        cases h
        simp only [setSet]
        split
        · next hj' => subst hj'; exact .storeMore u hj hm
        · exact .same _ (fun u h => by cases h) (fun h => by cases h)
      · next hm =>
        rw [(put_ok h).2.2.2.2.2]
        dsimp only
        split
        · next hj' => subst hj'; exact .storeEnd u hj (by simpa using hm)
        · exact .same _ (fun u h => by cases h) (fun h => by cases h)
    · cases h
  | reset i =>
    simp only [step] at h
    split at h
    · cases h
    · next ht =>
      split at h
      · next s1 h1 =>
        have e1 := (put_ok h1).2.2.2.2.2
        split at h
        · cases h
        · next hv =>
          rw [(put_ok h).2.2.2.2.2]
          rw [e1] at hv ⊢
          simp only [if_true] at hv ⊢
          split
          · next hj' => subst hj'; exact .reset (by simpa using ht) (by simpa using hv)
          · exact .same _ (fun u h => by cases h) (fun h => by cases h)
      · next hr => exact (hr _ h).elim

/-! ## What holds of a set -/

/-- references are counted, operations are outstanding at most once, and the state tells which -/
structure Good (x : PSet) : Prop where
  refs : x.refs = (if x.inTree then 2 else 0) + x.lookups + x.updates
  live : x.live = decide (x.refs ≠ 0)
  l1 : x.lookups ≤ 1
  u1 : x.updates ≤ 1
  looking : x.job = .idle → x.lookups = 1 → x.content = none
  attaching : ∀ t, x.job = .attach t → x.lookups = 1 ∧ x.content ≠ none
  storing : ∀ t u, x.job = .store t u → x.updates = 1 ∧ t.Nodup ∧ x.lookups = 0
  updating : x.updates = 1 → x.content ≠ none
  start : x.inTree = true → x.st = .start → x.content = none ∧ x.lookups = 0
  lookup : x.inTree = true → x.st = .lookup → x.lookups = 1 ∧ x.content = none
  ready : x.inTree = true → x.st = .ready → x.content ≠ none ∧ x.updates = 0
  busy : x.inTree = true → x.st = .updating → x.content ≠ none
  att : x.content = none → x.att = []
  nodup : x.att.Nodup

theorem good_init : Good {} := by
  constructor <;> simp

theorem attOf_nodup {p : Nat} {a a' : List Nat} (h : AttOf p a a') (ha : a.Nodup) : a'.Nodup := by
  rcases h with rfl | rfl | ⟨hp, rfl⟩
  · exact ha
  · exact ha.erase p
  · exact List.nodup_cons.mpr ⟨hp, ha⟩

/-- what `drop` needs -/
theorem good_drop {x : PSet} (h0 : x.refs ≠ 0)
    (hr : x.refs - 1 = (if x.inTree then 2 else 0) + x.lookups + x.updates) (hl : x.live = true)
    (h : Good { x with refs := x.refs - 1, live := decide (x.refs - 1 ≠ 0) }) : Good (drop x) := by
  unfold drop
  split
  · next h1 =>
    have h2 : x.refs - 1 = 0 := by omega
    simp only [h2] at h hr
    have hu : x.updates = 0 := by omega
    exact { h with
      live := rfl
      att := fun _ => rfl
      nodup := List.nodup_nil }
  · next h1 =>
    have h2 : x.refs - 1 ≠ 0 := by omega
    simp only [h2, ne_eq, not_false_eq_true, decide_true] at h
    have : ({ x with refs := x.refs - 1, live := true } : PSet) = { x with refs := x.refs - 1 } := by
      rw [← hl]
    rw [this] at h
    exact h

theorem good_step (g : Cfg) (s : State) (j : Nat) (x y : PSet) (e : Ev) (h : Good x) (t : SetTr g s j x e y) :
    Good y := by
  obtain ⟨hr, hlv, hl1, hu1, hlo, hat, hst, hup, hs, hk, hrd, hb, ha, hn⟩ := h
  cases t with
  | same => exact ⟨hr, hlv, hl1, hu1, hlo, hat, hst, hup, hs, hk, hrd, hb, ha, hn⟩
  | add => constructor <;> simp
  | req fresh ok ht hs' =>
    have ⟨hc, h0⟩ := hrd ht hs'
    simp only [request]
    split
    · constructor <;> simp_all <;> grind
    · constructor <;> simp_all
  | look fresh ok ht hs' hc =>
    have ⟨_, h0⟩ := hs ht hs'
    have hu : x.updates = 0 := by
      rcases Nat.lt_or_ge x.updates 1 with h | h
      · omega
      · exact absurd hc (hup (by omega))
    constructor <;> simp_all <;> grind
  | skip => exact ⟨hr, hlv, hl1, hu1, hlo, hat, hst, hup, hs, hk, hrd, hb, ha, hn⟩
  | lookFail hl hj hv =>
    have hc := hlo hj (by omega)
    have hu : x.updates = 0 := by
      rcases Nat.lt_or_ge x.updates 1 with h | h
      · omega
      · exact absurd hc (hup (by omega))
    have h1 : x.lookups = 1 := by omega
    apply good_drop
    · simp_all
    · simp_all
    · exact hv
    · constructor <;> simp_all
  | lookOk c hl hj hv hc =>
    have hu : x.updates = 0 := by
      rcases Nat.lt_or_ge x.updates 1 with h | h
      · omega
      · exact absurd hc (hup (by omega))
    constructor <;> simp_all
    omega
  | att p ps ok a hj hatt hd hn' =>
    have ⟨h1, h2⟩ := hat _ hj
    exact ⟨hr, hlv, hl1, hu1, (fun h => by cases h), (fun _ _ => ⟨h1, h2⟩), (fun _ _ h => by cases h), hup, hs, hk,
      hrd, hb, (fun h => absurd h h2), attOf_nodup hatt hn⟩
  | attEnd hj =>
    have ⟨h1, h2⟩ := hat _ hj
    apply good_drop
    · simp_all
    · simp_all
    · simp_all
    · constructor <;> simp_all
  | scan p ok a ht hj hs' hatt hd hn' =>
    have hc : x.content ≠ none := by
      cases hx : x.st with
      | start => exact absurd (.inl hx) hs'
      | lookup => exact absurd (.inr hx) hs'
      | ready => exact (hrd ht hx).1
      | updating => exact hb ht hx
    exact ⟨hr, hlv, hl1, hu1, hlo, hat, hst, hup, hs, hk, hrd, hb, (fun h => absurd h hc), attOf_nodup hatt hn⟩
  | updErr u hu hj hv he hm =>
    have h1 : x.updates = 1 := by omega
    have hc := hup h1
    have hst' : x.inTree = true → x.st = .updating := by
      intro ht
      cases hx : x.st with
      | start => exact absurd (hs ht hx).1 hc
      | lookup => exact absurd (hk ht hx).2 hc
      | ready => have := (hrd ht hx).2; omega
      | updating => rfl
    apply good_drop
    · simp_all
    · simp_all
    · exact hv
    · constructor <;> simp_all
  | updErrMore => exact ⟨hr, hlv, hl1, hu1, hlo, hat, hst, hup, hs, hk, hrd, hb, ha, hn⟩
  | updOld u n hu hj hv he ho hm =>
    have h1 : x.updates = 1 := by omega
    have hc := hup h1
    apply good_drop
    · simp_all
    · simp_all
    · exact hv
    · constructor <;> simp_all
  | updOldMore => exact ⟨hr, hlv, hl1, hu1, hlo, hat, hst, hup, hs, hk, hrd, hb, ha, hn⟩
  | updNew u hu hj hv he ho hg =>
    have h1 : x.updates = 1 := by omega
    have hc := hup h1
    have hl : x.lookups = 0 := by
      rcases Nat.lt_or_ge x.lookups 1 with h | h
      · omega
      · exact absurd (hlo hj (by omega)) hc
    constructor <;> simp_all
  | storeOne p ps u hj =>
    have ⟨h1, h2, h3⟩ := hst _ _ hj
    constructor <;> simp_all
  | storeMore u hj hm =>
    have ⟨h1, h2, h3⟩ := hst _ _ hj
    constructor <;> simp_all
  | storeEnd u hj hm =>
    have ⟨h1, h2, h3⟩ := hst _ _ hj
    have hc := hup h1
    apply good_drop
    · simp_all
    · simp_all
    · simp_all
    · constructor <;> simp_all
  | reset ht hv =>
    have h2 : x.refs ≠ 1 := by rw [hr, ht]; simp; omega
    have hx : drop { x with inTree := false } = { x with inTree := false, refs := x.refs - 1 } := by
      unfold drop
      rw [if_neg h2]
    rw [hx] at hv ⊢
    have h3 : x.refs = 2 + x.lookups + x.updates := by rw [hr, ht]; simp
    apply good_drop
    · dsimp only; omega
    · simp; omega
    · exact hv
    · constructor
      · simp; omega
      · simp
      all_goals first
        | (intro h; cases h; done)
        | assumption

/-! ## Histories -/

theorem run_append (g : Cfg) (s : State) (as bs : List Ev) :
    run g s (as ++ bs) = match run g s as with
      | .ok s' => run g s' bs
      | .no => .no
      | .crash => .crash := by
  induction as generalizing s with
  | nil => rfl
  | cons a as ih =>
    simp only [List.cons_append, run]
    cases step g s a with
    | ok s' => exact ih s'
    | no => rfl
    | crash => rfl

theorem reach_append {g : Cfg} {as bs : List Ev} {s' : State} :
    Reach g (as ++ bs) s' ↔ ∃ s, Reach g as s ∧ run g s bs = .ok s' := by
  simp only [Reach, run_append]
  cases h : run g (init g) as with
  | ok s => simp
  | no => simp
  | crash => simp

theorem run_one {g : Cfg} {s s' : State} {e : Ev} : run g s [e] = .ok s' ↔ step g s e = .ok s' := by
  simp only [run]
  cases h : step g s e <;> simp

theorem reach_snoc {g : Cfg} {es : List Ev} {e : Ev} {s' : State} :
    Reach g (es ++ [e]) s' ↔ ∃ s, Reach g es s ∧ step g s e = .ok s' := by
  rw [reach_append]
  simp only [run_one]

theorem reach_nil {g : Cfg} {s : State} : Reach g [] s ↔ s = init g := by
  simp only [Reach, run, Out.ok.injEq]
  exact eq_comm

/-- to prove something of all histories -/
theorem reach_induction {g : Cfg} {P : List Ev → State → Prop} (h0 : P [] (init g))
    (h1 : ∀ es e s s', Reach g es s → P es s → step g s e = .ok s' → P (es ++ [e]) s') :
    ∀ es s, Reach g es s → P es s := by
  intro es
  induction es using snoc_induction with
  | nil => intro s h; rw [reach_nil] at h; subst h; exact h0
  | snoc es e ih =>
    intro s' h
    obtain ⟨s, hs, he⟩ := reach_snoc.mp h
    exact h1 es e s s' hs (ih s hs) he

theorem all_good (g : Cfg) : ∀ es s, Reach g es s → (∀ e ∈ es, isGroup e = false) → ∀ j, Good (s.sets j) := by
  apply reach_induction
  · intro _ j; exact good_init
  · intro es e s s' _ ih hs hg j
    exact good_step g s j _ _ e (ih (fun e h => hg e (List.mem_append_left _ h)) j)
      (step_sets g s s' e (hg e (by simp)) hs j)

theorem good_refs {x : PSet} (h : Good x) (h1 : x.lookups ≠ 0 ∨ x.updates ≠ 0 ∨ x.inTree = true) :
    x.refs ≠ 0 ∧ x.live = true := by
  have : x.refs ≠ 0 := by
    rw [h.refs]
    rcases h1 with h1 | h1 | h1
    · omega
    · omega
    · rw [h1]; simp
  exact ⟨this, by rw [h.live]; simp [this]⟩

theorem put_no_crash (s : State) (i : Nat) (x : PSet) (h : x.refs ≠ 0) : put s i x ≠ .crash := by
  obtain ⟨s', h⟩ := put_total s i x h
  rw [h]
  simp

theorem syncOne_no_crash (g : Cfg) (s : State) (p i : Nat) (ok : Bool) (h : (s.sets i).content ≠ none) :
    syncOne g s p i ok ≠ .crash := by
  unfold syncOne
  dsimp only
  split
  · simp
  · split
    · next hc => exact absurd hc h
    · simp

theorem step_no_crash (g : Cfg) (s : State) (e : Ev) (hg : isGroup e = false) (h : ∀ j, Good (s.sets j)) :
    step g s e ≠ .crash := by
  cases e with
  | group => cases hg
  | add i => simp only [step]; split <;> simp
  | tick i fresh ok =>
    simp only [step]
    split
    · simp
    · next ht =>
      have ht : (s.sets i).inTree = true := by simpa using ht
      split
      · split <;> simp
      · next hs =>
        rw [if_neg (by simp [((h i).start ht hs).1])]
        split <;> simp
      · simp
      · simp
  | looked i c =>
    simp only [step]
    split
    · simp
    · next h1 =>
      have hl : (s.sets i).lookups ≠ 0 := fun h => h1 (.inl h)
      have hj : (s.sets i).job = .idle := Decidable.not_not.mp (fun h => h1 (.inr h))
      have ⟨hr, hv⟩ := good_refs (h i) (.inl hl)
      rw [if_neg (by simp [hv])]
      split
      · exact put_no_crash _ _ _ hr
      · rw [if_neg (by simpa using (h i).looking hj (by have := (h i).l1; omega))]
        simp
  | attachOne i ok =>
    simp only [step]
    split
    · next p ps hj =>
      apply syncOne_no_crash
      simpa [setSet] using ((h i).attaching _ hj).2
    · simp
  | attachEnd i =>
    simp only [step]
    split
    · next hj =>
      exact put_no_crash _ _ _ (good_refs (h i) (.inl (by have := ((h i).attaching _ hj).1; omega))).1
    · simp
  | start p => simp only [step]; repeat' split
               all_goals simp
  | stop p => simp only [step]; repeat' split
              all_goals simp
  | scan p i ok =>
    simp only [step]
    split
    · simp
    · split
      · simp
      · next ht =>
        have ht : (s.sets i).inTree = true := by simpa using ht
        split
        · simp
        · split
          · simp
          · next hs =>
            apply syncOne_no_crash
            dsimp only
            cases hx : (s.sets i).st with
            | start => exact absurd (.inl hx) hs
            | lookup => exact absurd (.inr hx) hs
            | ready => exact ((h i).ready ht hx).1
            | updating => exact (h i).busy ht hx
  | updated i u =>
    simp only [step]
    split
    · simp
    · next h1 =>
      have hu : (s.sets i).updates ≠ 0 := fun h => h1 (.inl h)
      have ⟨hr, hv⟩ := good_refs (h i) (.inr (.inl hu))
      rw [if_neg (by simp [hv])]
      split
      · split
        · simp
        · exact put_no_crash _ _ _ hr
      · split
        · split
          · simp
          · apply put_no_crash
            dsimp only
            split <;> exact hr
        · simp
  | storeOne i =>
    simp only [step]
    repeat' split
    all_goals simp
  | storeEnd i =>
    simp only [step]
    split
    · next u hj =>
      split
      · simp
      · exact put_no_crash _ _ _ (good_refs (h i) (.inr (.inl (by have := ((h i).storing _ _ hj).1; omega)))).1
    · simp
  | reset i =>
    simp only [step]
    split
    · simp
    · next ht =>
      have ht : (s.sets i).inTree = true := by simpa using ht
      have ⟨hr, hv⟩ := good_refs (h i) (.inr (.inr ht))
      have h2 : (s.sets i).refs ≠ 1 := by rw [(h i).refs, ht]; simp; omega
      have h3 : (s.sets i).refs ≥ 2 := by omega
      have : put s i { s.sets i with inTree := false } =
          .ok (setSet s i { s.sets i with inTree := false, refs := (s.sets i).refs - 1 }) := by
        unfold put
        rw [if_neg hr, if_neg h2]
      rw [this]
      simp only [setSet, if_true, hv]
      rw [if_neg (by simp)]
      apply put_no_crash
      dsimp only
      omega

/-! ## Policies and what is stored -/

/-- what can happen to a policy -/
inductive PolTr (g : Cfg) (s : State) (q : Nat) (x : Pol) : Ev → Pol → Prop
  | same (e : Ev) (y : Pol) (h : SamePol x y) (h1 : e = .start q → x.running = true)
      (h2 : e = .stop q → x.running = false) : PolTr g s q x e y
  | start (h : x.running = false) (hw : s.todo q = []) : PolTr g s q x (.start q) { x with running := true }
  | stop (h : x.running = true) (hw : s.todo q = []) : PolTr g s q x (.stop q) { x with running := false, handle := false }
  | att (i : Nat) (ok : Bool) (ps : List Nat) (c : Content) (hj : (s.sets i).job = .attach (q :: ps))
      (ha : g.applies q i = true) (hc : (s.sets i).content = some c) :
      PolTr g s q x (.attachOne i ok) (sync g q x c (s.sets i).att ok).1
  | scan (i : Nat) (ok : Bool) (c : Content) (ht : i ∈ s.todo q) (ha : g.applies q i = true)
      (hc : (s.sets i).content = some c) :
      PolTr g s q x (.scan q i ok) (sync g q x c (s.sets i).att ok).1
  | selfStop (i : Nat) (ps : List Nat) (u : Upd) (hj : (s.sets i).job = .store (q :: ps) u)
      (hr : x.running = true) (hh : (if g.decomp q then x.decomp else x.handle) = false) :
      PolTr g s q x (.storeOne i) { x with running := false }

theorem step_pols (g : Cfg) (s s' : State) (e : Ev) (h : step g s e = .ok s') (q : Nat) :
    PolTr g s q (s.pols q) e (s'.pols q) := by
  cases e with
  | start p =>
    simp only [step] at h
    split at h
    · next hr =>
      cases h
      exact .same _ _ (.refl _) (fun h => by cases h; exact hr) (fun h => by cases h)
    · next hr =>
      split at h
      · cases h
      · next hw =>
        cases h
        simp only [setPol]
        split
        · next hq => subst hq; exact .start (by simpa using hr) (Decidable.not_not.mp hw)
        · next hq => exact .same _ _ (.refl _) (fun h => by cases h; exact absurd rfl hq) (fun h => by cases h)
  | stop p =>
    simp only [step] at h
    split at h
    · next hr =>
      cases h
      exact .same _ _ (.refl _) (fun h => by cases h) (fun h => by cases h; exact hr)
    · next hr =>
      split at h
      · cases h
      · next hw =>
        cases h
        simp only [setPol]
        split
        · next hq => subst hq; exact .stop (by simpa using hr) (Decidable.not_not.mp hw)
        · next hq => exact .same _ _ (.refl _) (fun h => by cases h) (fun h => by cases h; exact absurd rfl hq)
  | attachOne i ok =>
    simp only [step] at h
    split at h
    · next p ps hj =>
      rcases syncOne_ok h with ⟨ha, rfl⟩ | ⟨ha, c, hc, rfl⟩
      · exact .same _ _ (.refl _) (fun h => by cases h) (fun h => by cases h)
      · simp only [setSet, setPol, if_true] at hc ⊢
        split
        · next hq => subst hq; exact .att i ok ps c hj ha hc
        · exact .same _ _ (.refl _) (fun h => by cases h) (fun h => by cases h)
    · cases h
  | scan p i ok =>
    simp only [step] at h
    split at h
    · cases h
    · next hi =>
      split at h
      · cases h; exact .same _ _ (.refl _) (fun h => by cases h) (fun h => by cases h)
      · split at h
        · cases h
        · split at h
          · cases h; exact .same _ _ (.refl _) (fun h => by cases h) (fun h => by cases h)
          · rcases syncOne_ok h with ⟨ha, rfl⟩ | ⟨ha, c, hc, rfl⟩
            · exact .same _ _ (.refl _) (fun h => by cases h) (fun h => by cases h)
            · simp only [setSet, setPol] at hc ⊢
              split
              · next hq => subst hq; exact .scan i ok c (Decidable.not_not.mp hi) ha hc
              · exact .same _ _ (.refl _) (fun h => by cases h) (fun h => by cases h)
  | storeOne i =>
    simp only [step] at h
    split at h
    · next p ps u hj =>
      split at h
      · cases h; exact .same _ _ (.refl _) (fun h => by cases h) (fun h => by cases h)
      · next hr =>
        split at h
        · next hd =>
          split at h
          · cases h; exact .same _ _ (.refl _) (fun h => by cases h) (fun h => by cases h)
          · next hx =>
            cases h
            simp only [setSet, setPol] at hr hx ⊢
            split
            · next hq => subst hq; exact .selfStop i ps u hj (by simpa using hr) (by simp [hd]; simpa using hx)
            · exact .same _ _ (.refl _) (fun h => by cases h) (fun h => by cases h)
        · next hd =>
          split at h
          · cases h; exact .same _ _ (.refl _) (fun h => by cases h) (fun h => by cases h)
          · next hx =>
            cases h
            simp only [setSet, setPol] at hr hx ⊢
            split
            · next hq => subst hq; exact .selfStop i ps u hj (by simpa using hr) (by simp [hd]; simpa using hx)
            · exact .same _ _ (.refl _) (fun h => by cases h) (fun h => by cases h)
    · cases h
  | add i =>
    simp only [step] at h
    split at h
    · cases h
    · cases h; exact .same _ _ (.refl _) (fun h => by cases h) (fun h => by cases h)
  | tick i fresh ok =>
    simp only [step] at h
    repeat' split at h
    all_goals first
      | (cases h; done)
      | (cases h; exact .same _ _ (.refl _) (fun h => by cases h) (fun h => by cases h))
  | looked i c =>
    simp only [step] at h
    repeat' split at h
    all_goals first
      | (cases h; done)
      | (cases h; exact .same _ _ (.refl _) (fun h => by cases h) (fun h => by cases h))
      | exact .same _ _ ((put_ok h).2.2.2.2.1 q) (fun h => by cases h) (fun h => by cases h)
  | attachEnd i =>
    simp only [step] at h
    split at h
    · exact .same _ _ ((put_ok h).2.2.2.2.1 q) (fun h => by cases h) (fun h => by cases h)
    · cases h
  | updated i u =>
    simp only [step] at h
    repeat' split at h
    all_goals first
      | (cases h; done)
      | (cases h; exact .same _ _ (.refl _) (fun h => by cases h) (fun h => by cases h))
      | exact .same _ _ ((put_ok h).2.2.2.2.1 q) (fun h => by cases h) (fun h => by cases h)
  | storeEnd i =>
    simp only [step] at h
    repeat' split at h
    all_goals first
      | (cases h; done)
      | (cases h; exact .same _ _ (.refl _) (fun h => by cases h) (fun h => by cases h))
      | exact .same _ _ ((put_ok h).2.2.2.2.1 q) (fun h => by cases h) (fun h => by cases h)
  | reset i =>
    simp only [step] at h
    split at h
    · cases h
    · split at h
      · next s1 h1 =>
        split at h
        · cases h
        · have a := (put_ok h1).2.2.2.2.1 q
          have b := (put_ok h).2.2.2.2.1 q
          obtain ⟨a1, a2, a3, a4, a5, a6⟩ := a
          obtain ⟨b1, b2, b3, b4, b5, b6⟩ := b
          exact .same _ _ ⟨b1.trans a1, b2.trans a2, b3.trans a3, b4.trans a4, b5.trans a5, b6.trans a6⟩
            (fun h => by cases h) (fun h => by cases h)
      · next hr => exact (hr _ h).elim
  | group i m ok =>
    simp only [step] at h
    repeat' split at h
    all_goals first
      | (cases h; done)
      | (cases h; exact .same _ _ (.refl _) (fun h => by cases h) (fun h => by cases h))

/-- what a step stores -/
def stores (g : Cfg) (s : State) : Ev → List Stored
  | .storeOne i =>
    match (s.sets i).job with
    | .store (p :: _) u =>
      let y := s.pols p
      if y.running = false then []
      else if g.decomp p then (if y.decomp then [⟨p, i, u.gn, none⟩] else [])
      else if y.handle then [⟨p, i, u.gn, some y.arr⟩] else []
    | _ => []
  | _ => []

theorem step_log (g : Cfg) (s s' : State) (e : Ev) (h : step g s e = .ok s') : s'.log = s.log ++ stores g s e := by
  cases e with
  | storeOne i =>
    simp only [step] at h
    simp only [stores]
    split at h
    · next p ps u hj =>
      split at h
      · next hr =>
        have hr : (s.pols p).running = false := hr
        cases h; simp [setSet, hj, hr]
      · next hr =>
        have hr : ¬ (s.pols p).running = false := hr
        split at h
        · next hd =>
          split at h
          · next hx =>
            have hx : (s.pols p).decomp = true := hx
            cases h; simp [setSet, hj, hr, hd, hx]
          · next hx =>
            have hx : ¬ (s.pols p).decomp = true := hx
            cases h; simp [setSet, setPol, hj, hd, hx]
        · next hd =>
          split at h
          · next hx =>
            have hx : (s.pols p).handle = true := hx
            cases h; simp [setSet, hj, hr, hd, hx]
          · next hx =>
            have hx : ¬ (s.pols p).handle = true := hx
            cases h; simp [setSet, setPol, hj, hd, hx]
    · cases h
  | reset i =>
    simp only [step] at h
    simp only [stores, List.append_nil]
    split at h
    · cases h
    · split at h
      · next s1 h1 =>
        split at h
        · cases h
        · rw [(put_ok h).2.2.2.1, (put_ok h1).2.2.2.1]
      · next hr => exact (hr _ h).elim
  | attachOne i ok =>
    simp only [step] at h
    simp only [stores, List.append_nil]
    split at h
    · rcases syncOne_ok h with ⟨ha, rfl⟩ | ⟨ha, c, hc, rfl⟩ <;> rfl
    · cases h
  | scan p i ok =>
    simp only [step] at h
    simp only [stores, List.append_nil]
    repeat' split at h
    all_goals first
      | (cases h; done)
      | (cases h; rfl)
      | (rcases syncOne_ok h with ⟨ha, rfl⟩ | ⟨ha, c, hc, rfl⟩ <;> rfl)
  | _ =>
    simp only [step] at h
    simp only [stores, List.append_nil]
    repeat' split at h
    all_goals first
      | (cases h; done)
      | (cases h; rfl)
      | exact (put_ok h).2.2.2.1

end Verif.Pipeline
