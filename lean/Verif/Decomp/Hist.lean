import Verif.Decomp.Static

/-!
# Proofs: the sets seen before do not matter
-/

namespace Verif.Decomp

theorem resolveAll_agrees {s t : MSet} : ∀ (cols : List Col),
    (∀ c ∈ cols, ∃ m, resolve s c = .ok m ∧ Agrees c m t) →
    ∃ ms, resolveAll s cols = .ok ms ∧ ms.length = cols.length ∧
      ∀ p ∈ cols.zip ms, Agrees p.1 p.2 t
  | [], _ => ⟨[], rfl, rfl, by simp⟩
  | c :: cols, h => by
    obtain ⟨m, h1, h2⟩ := h c (List.mem_cons_self ..)
    obtain ⟨ms, h3, h4, h5⟩ := resolveAll_agrees cols fun c' hc' => h c' (List.mem_cons_of_mem _ hc')
    refine ⟨m :: ms, by simp [resolveAll, h1, h3, Res.map], by simp [h4], ?_⟩
    intro p hp
    rcases List.mem_cons.mp hp with rfl | hp
    · exact h2
    · exact h5 p hp

theorem initCols_length {s : MSet} : ∀ (l : List (Col × ColMid)),
    (initCols s l).1.length = l.length
  | [] => rfl
  | (c, m) :: l => by
    have ih := initCols_length (s := s) l
    rw [initCols]
    split <;> simp [ih]

theorem initCols_agrees {s t : MSet} (ha : Alike s t) : ∀ (cols : List Col) (ms : List ColMid),
    (∀ p ∈ cols.zip ms, Agrees p.1 p.2 t) →
    ∀ p ∈ cols.zip (initCols s (cols.zip ms)).1, Agrees p.1 p.2 t
  | [], _, _ => by simp
  | _ :: _, [], _ => by simp [initCols]
  | c :: cols, m :: ms, h => by
    have hm : Agrees c m t := h (c, m) (List.mem_cons_self ..)
    have hl : ∀ p ∈ cols.zip ms, Agrees p.1 p.2 t := fun p hp => h p (List.mem_cons_of_mem _ hp)
    have ih := initCols_agrees ha cols ms hl
    have h1 := initCol_agrees ha hm
    have hkeep : ∀ p ∈ cols.zip ((cols.zip ms).map (·.2)), Agrees p.1 p.2 t := by
      intro p hp
      refine hl p ?_
      clear ih h hl hm h1
      induction cols generalizing ms with
      | nil => simp at hp
      | cons c' cols ihc =>
        cases ms with
        | nil => simp at hp
        | cons m' ms =>
          simp only [List.zip_cons_cons, List.map_cons, List.mem_cons] at hp ⊢
          exact hp.imp id (ihc ms)
    intro p hp
    rw [List.zip_cons_cons, initCols] at hp
    split at hp <;> rename_i he <;> rw [he] at h1 <;>
      rcases List.mem_cons.mp hp with rfl | hp
    · exact h1
    · exact ih p hp
    · exact h1
    · exact hkeep p hp
    · exact h1
    · exact hkeep p hp

/-- The IDs kept for a digest go with every set that is like all sets of that digest
seen so far. -/
def RowInv (hist : List MSet) (st : RowSt) : Prop :=
  ∀ e ∈ st.mids, e.2.length = st.cfg.cols.length ∧
    ∀ t, (∀ u ∈ hist, u.digest = e.1 → Alike u t ∧ Fits u st.cfg.cols) →
      ∀ p ∈ st.cfg.cols.zip e.2, Agrees p.1 p.2 t

theorem RowInv.mono {hist : List MSet} {st : RowSt} (s : MSet) (h : RowInv hist st) :
    RowInv (hist ++ [s]) st := fun e he =>
  ⟨(h e he).1, fun t ht => (h e he).2 t fun u hu => ht u (List.mem_append_left _ hu)⟩

theorem rowWith_cfg (st : RowSt) (s : MSet) (ms : List ColMid) :
    (rowWith st s ms).1.cfg = st.cfg := rfl

theorem rowStep_cfg (st : RowSt) (s : MSet) : (rowStep st s).1.cfg = st.cfg := by
  unfold rowStep
  split
  · rfl
  · split <;> rfl

theorem rowWith_inv {hist : List MSet} {st : RowSt} {s : MSet} {ms : List ColMid}
    (h : RowInv hist st) (hl : ms.length = st.cfg.cols.length)
    (hm : ∀ t, (∀ u ∈ hist ++ [s], u.digest = s.digest → Alike u t ∧ Fits u st.cfg.cols) →
      ∀ p ∈ st.cfg.cols.zip ms, Agrees p.1 p.2 t) :
    RowInv (hist ++ [s]) (rowWith st s ms).1 := by
  intro e he
  simp only [rowWith, upsert, List.mem_cons, List.mem_filter] at he
  rcases he with rfl | ⟨he, _⟩
  · refine ⟨by simp [initCols_length, hl, rowWith], fun t ht => ?_⟩
    exact initCols_agrees (ht s (by simp) rfl).1 _ _ (hm t ht)
  · exact h.mono s e he

theorem rowStep_inv {hist : List MSet} {st : RowSt} (s : MSet) (h : RowInv hist st) :
    RowInv (hist ++ [s]) (rowStep st s).1 := by
  unfold rowStep
  split
  · rename_i e he
    have hk : e.1 = s.digest := by simpa using List.find?_some he
    have hmem := List.mem_of_find?_eq_some he
    refine rowWith_inv h (h e hmem).1 fun t ht => ?_
    rw [← hk] at ht
    exact (h.mono s e hmem).2 t ht
  · split
    · rename_i ms hms
      have hlen : ∀ (cols : List Col) (ms : List ColMid), resolveAll s cols = .ok ms →
          ms.length = cols.length := by
        intro cols
        induction cols with
        | nil => intro ms h; cases h; rfl
        | cons c cols ih =>
          intro ms h
          rw [resolveAll] at h
          split at h
          · cases hr : resolveAll s cols with
            | ok l =>
              rw [hr] at h
              simp only [Res.map, Res.ok.injEq] at h
              rw [← h]
              simp [ih l hr]
            | fail => rw [hr] at h; cases h
            | crash => rw [hr] at h; cases h
          · cases h
          · cases h
      refine rowWith_inv h (hlen _ _ hms) fun t ht => ?_
      obtain ⟨ha, hf⟩ := ht s (by simp) rfl
      obtain ⟨ms', h1, _, h3⟩ := resolveAll_agrees (s := s) (t := t) st.cfg.cols
        fun c hc => resolve_agrees (hf c hc) ha
      rw [hms] at h1
      cases h1
      exact h3
    · exact h.mono s
    · exact h.mono s

theorem static_inv {hist : List MSet} (s : MSet) : ∀ {sts : List RowSt},
    (∀ st ∈ sts, RowInv hist st) → ∀ st ∈ (static sts s).1, RowInv (hist ++ [s]) st
  | [], _ => by simp [static]
  | st :: sts, h => by
    have h1 := rowStep_inv s (h st (List.mem_cons_self ..))
    have ih := static_inv s fun x hx => h x (List.mem_cons_of_mem _ hx)
    intro x hx
    rw [static] at hx
    split at hx <;> rename_i he <;> rw [he] at h1 <;> rcases List.mem_cons.mp hx with rfl | hx
    · exact h1
    · exact ih x hx
    · exact h1
    · exact (h x (List.mem_cons_of_mem _ hx)).mono s
    · exact h1
    · exact (h x (List.mem_cons_of_mem _ hx)).mono s

theorem static_cfg (s : MSet) : ∀ (sts : List RowSt),
    (static sts s).1.map (·.cfg) = sts.map (·.cfg)
  | [] => rfl
  | st :: sts => by
    have h := rowStep_cfg st s
    have ih := static_cfg s sts
    rw [static]
    split <;> rename_i he <;> rw [he] at h <;> simp only [List.map_cons] <;> rw [h]
    rw [ih]

theorem foldl_inv : ∀ (l hist : List MSet) (sts : List RowSt), (∀ st ∈ sts, RowInv hist st) →
    (∀ st ∈ l.foldl (fun st s => (static st s).1) sts, RowInv (hist ++ l) st) ∧
    (l.foldl (fun st s => (static st s).1) sts).map (·.cfg) = sts.map (·.cfg)
  | [], hist, sts, h => by simpa using h
  | s :: l, hist, sts, h => by
    have ih := foldl_inv l (hist ++ [s]) (static sts s).1 (static_inv s h)
    rw [static_cfg, List.append_assoc] at ih
    exact ih

theorem after_inv (cfg : List RowCfg) (hist : List MSet) :
    (∀ st ∈ after cfg hist, RowInv hist st) ∧ (after cfg hist).map (·.cfg) = cfg := by
  have h := foldl_inv hist [] (fresh cfg) (by
    intro st hst e he
    simp only [fresh, List.mem_map] at hst
    obtain ⟨rc, _, rfl⟩ := hst
    simp at he)
  simpa [fresh, after, List.map_map, Function.comp_def] using h

theorem rowStep_ok {hist : List MSet} {st : RowSt} {s : MSet} (h : RowInv hist st)
    (hf : Fits s st.cfg.cols)
    (hh : ∀ u ∈ hist, u.digest = s.digest → Alike u s ∧ Fits u st.cfg.cols) :
    (rowStep st s).2 = Res.ofOption (rowsOf s st.cfg) := by
  unfold rowStep
  split
  · rename_i e he
    have hk : e.1 = s.digest := by simpa using List.find?_some he
    have hmem := List.mem_of_find?_eq_some he
    rw [← hk] at hh
    exact (rowWith_ok (h e hmem).1 ((h e hmem).2 s hh) hf).1
  · obtain ⟨ms, h1, h2, h3⟩ := resolveAll_agrees (s := s) (t := s) st.cfg.cols
      fun c hc => resolve_agrees_self (hf c hc)
    rw [h1]
    exact (rowWith_ok h2 h3 hf).1

theorem static_ok {hist : List MSet} {s : MSet} : ∀ {sts : List RowSt},
    (∀ st ∈ sts, RowInv hist st) → (∀ st ∈ sts, Fits s st.cfg.cols) →
    (∀ st ∈ sts, ∀ u ∈ hist, u.digest = s.digest → Alike u s ∧ Fits u st.cfg.cols) →
    (static sts s).2 = Res.ofOption (staticRows s (sts.map (·.cfg)))
  | [], _, _, _ => rfl
  | st :: sts, hi, hf, hh => by
    have h1 := rowStep_ok (hi st (List.mem_cons_self ..)) (hf st (List.mem_cons_self ..))
      (hh st (List.mem_cons_self ..))
    have ih := static_ok (fun x hx => hi x (List.mem_cons_of_mem _ hx))
      (fun x hx => hf x (List.mem_cons_of_mem _ hx)) fun x hx => hh x (List.mem_cons_of_mem _ hx)
    have he : rowStep st s = ((rowStep st s).1, Res.ofOption (rowsOf s st.cfg)) := by rw [← h1]
    rw [static, he]
    simp only [staticRows, List.map_cons, List.mapM_cons] at ih ⊢
    cases hr : rowsOf s st.cfg with
    | none => simp [Res.ofOption]
    | some rows =>
      simp only [Res.ofOption, ih]
      cases hm : (sts.map (·.cfg)).mapM (rowsOf s) <;> simp [Res.map]

end Verif.Decomp
