import Verif.Decomp.Spec

/-!
# Proofs: the loop that makes the rows
-/

namespace Verif.Decomp

/-- A column of the loop: its key, the states it goes through, its values, and in how
many rows it asks for another one. -/
structure W (κ : Type) where
  k : κ
  q : Nat → MCol
  f : Nat → Val
  n : Nat

/-- The states are those the loop goes through. -/
def W.Good {κ : Type} (adv : κ → MCol → Res (MCol × Bool)) (w : W κ) : Prop :=
  ∀ j, (w.q j).cur = w.f j ∧ adv w.k (w.q j) = .ok (w.q (j + 1), decide (j < w.n))

theorem makeCells_W {κ : Type} {cell : κ → Val → Option Cell}
    {adv : κ → MCol → Res (MCol × Bool)} (j : Nat) :
    ∀ (ws : List (W κ)), (∀ w ∈ ws, w.Good adv) →
    makeCells cell adv (ws.map fun w => (w.k, w.q j)) =
      match ws.mapM (fun w => cell w.k (w.f j)) with
      | none => .fail
      | some cs => .ok (cs, ws.map (fun w => w.q (j + 1)), ws.any fun w => decide (j < w.n))
  | [], _ => rfl
  | w :: ws, h => by
    have hw := h w (List.mem_cons_self ..) j
    have ih := makeCells_W (cell := cell) j ws fun x hx => h x (List.mem_cons_of_mem _ hx)
    simp only [List.map_cons, makeCells, hw.1, hw.2, List.mapM_cons]
    cases hc : cell w.k (w.f j) with
    | none => rfl
    | some y =>
      simp only [ih]
      cases hm : ws.mapM (fun w => cell w.k (w.f j)) with
      | none => simp [Res.map]
      | some cs => simp [Res.map]

/-- The number of further rows. -/
def maxN {κ : Type} (ws : List (W κ)) : Nat := (ws.map (·.n)).foldr max 0

theorem any_maxN {κ : Type} (j : Nat) :
    ∀ (ws : List (W κ)), (ws.any fun w => decide (j < w.n)) = decide (j < maxN ws)
  | [] => by simp [maxN]
  | w :: ws => by
    have ih := any_maxN j ws
    have hc : maxN (w :: ws) = max w.n (maxN ws) := rfl
    rw [List.any_cons, ih, hc, ← Bool.decide_or, decide_eq_decide]
    omega

theorem makeRows_W {κ : Type} {cell : κ → Val → Option Cell}
    {adv : κ → MCol → Res (MCol × Bool)} {mk : List Cell → Row}
    (ws : List (W κ)) (h : ∀ w ∈ ws, w.Good adv) :
    ∀ (fuel j : Nat), maxN ws < fuel + j → j ≤ maxN ws →
    makeRows cell adv mk (ws.map (·.k)) fuel (ws.map fun w => w.q j) =
      Res.ofOption ((List.range' j (maxN ws + 1 - j)).mapM fun r =>
        (ws.mapM fun w => cell w.k (w.f r)).map mk)
  | 0, j, h1, h2 => by omega
  | fuel + 1, j, h1, h2 => by
    have hz : (ws.map (·.k)).zip (ws.map fun w => w.q j) = ws.map fun w => (w.k, w.q j) := by
      rw [List.zip_map']
    simp only [makeRows, hz, makeCells_W j ws h, any_maxN]
    have hr : List.range' j (maxN ws + 1 - j) = j :: List.range' (j + 1) (maxN ws - j) := by
      have : maxN ws + 1 - j = (maxN ws - j) + 1 := by omega
      rw [this, List.range'_succ]
    rw [hr, List.mapM_cons]
    cases hc : ws.mapM (fun w => cell w.k (w.f j)) with
    | none => simp [Res.ofOption]
    | some cs =>
      by_cases hj : j < maxN ws
      · have ih := makeRows_W ws h fuel (j + 1) (by omega) (by omega) (cell := cell) (mk := mk)
        have e : maxN ws + 1 - (j + 1) = maxN ws - j := by omega
        rw [e] at ih
        simp only [hj, decide_true, ih, if_true]
        cases hx : (List.range' (j + 1) (maxN ws - j)).mapM
            (fun r => (ws.mapM fun w => cell w.k (w.f r)).map mk) <;> simp [Res.ofOption, Res.map]
      · have e : maxN ws - j = 0 := by omega
        simp [hj, e, Res.ofOption]

/-- A column goes through some states. -/
def Walk {κ : Type} (adv : κ → MCol → Res (MCol × Bool)) (k : κ) (x : MCol) (f : Nat → Val)
    (n : Nat) : Prop :=
  ∃ q : Nat → MCol, q 0 = x ∧
    ∀ j, (q j).cur = f j ∧ adv k (q j) = .ok (q (j + 1), decide (j < n))

theorem walk_step {κ : Type} {adv : κ → MCol → Res (MCol × Bool)} {k : κ} {x x' : MCol}
    {f : Nat → Val} {n : Nat} (h1 : x.cur = f 0) (h2 : adv k x = .ok (x', decide (0 < n)))
    (h3 : Walk adv k x' (fun j => f (j + 1)) (n - 1)) : Walk adv k x f n := by
  obtain ⟨q, hq, hs⟩ := h3
  refine ⟨fun j => match j with | 0 => x | j + 1 => q j, rfl, ?_⟩
  intro j
  cases j with
  | zero => exact ⟨h1, by simp only [hq]; exact h2⟩
  | succ j =>
    refine ⟨(hs j).1, ?_⟩
    simp only [(hs j).2]
    have : decide (j < n - 1) = decide (j + 1 < n) := by
      rw [decide_eq_decide]; omega
    rw [this]

theorem walk_same {κ : Type} {adv : κ → MCol → Res (MCol × Bool)} {k : κ} {v : Val}
    (h : adv k ⟨v, .none⟩ = .ok (⟨v, .none⟩, false)) {f : Nat → Val} (hf : ∀ j, f j = v) :
    Walk adv k ⟨v, .none⟩ f 0 :=
  ⟨fun _ => ⟨v, .none⟩, rfl, fun j => ⟨(hf j).symm, by simp [h]⟩⟩

/-- Along a list, every step of which is known. -/
theorem walk_list {κ : Type} {adv : κ → MCol → Res (MCol × Bool)} {k : κ} {d : Val}
    (g : Elem → Val) (h0 : ∀ v, adv k ⟨v, .list []⟩ = .ok (⟨d, .none⟩, false))
    (hd : adv k ⟨d, .none⟩ = .ok (⟨d, .none⟩, false)) :
    ∀ (es : List Elem) (v : Val),
    (∀ e ∈ es, ∀ v es', adv k ⟨v, .list (e :: es')⟩ = .ok (⟨g e, .list es'⟩, true)) →
    Walk adv k ⟨v, .list es⟩ (fun j => (v :: es.map g).getD j d) es.length
  | [], v, _ =>
    walk_step rfl (by simpa using h0 v) (walk_same hd fun j => by simp)
  | e :: es, v, h =>
    walk_step rfl (by simpa using h e (List.mem_cons_self ..) v es)
      (by
        have ih := walk_list g h0 hd es (g e) fun e' he' => h e' (List.mem_cons_of_mem _ he')
        simpa using ih)

/-- Along an array. -/
theorem walk_arr {κ : Type} {adv : κ → MCol → Res (MCol × Bool)} {k : κ} {d : Val}
    (g : Rec → Val) (h0 : ∀ v, adv k ⟨v, .arr []⟩ = .ok (⟨d, .none⟩, false))
    (hd : adv k ⟨d, .none⟩ = .ok (⟨d, .none⟩, false)) :
    ∀ (rs : List Rec) (v : Val),
    (∀ r ∈ rs, ∀ v rs', adv k ⟨v, .arr (r :: rs')⟩ = .ok (⟨g r, .arr rs'⟩, false)) →
    Walk adv k ⟨v, .arr rs⟩ (fun j => (v :: rs.map g).getD j d) 0
  | [], v, _ =>
    walk_step rfl (by simpa using h0 v) (walk_same hd fun j => by simp)
  | e :: es, v, h =>
    walk_step rfl (by simpa using h e (List.mem_cons_self ..) v es)
      (by
        have ih := walk_arr g h0 hd es (g e) fun e' he' => h e' (List.mem_cons_of_mem _ he')
        simpa using ih)

end Verif.Decomp
