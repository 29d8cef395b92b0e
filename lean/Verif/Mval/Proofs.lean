import Verif.Mval.Spec

/-!
# Lemmas about bytes
-/

namespace Verif.Mval

@[simp] theorem leBytes_length (w n : Nat) : (leBytes w n).length = w := by
  induction w generalizing n with
  | zero => rfl
  | succ w ih => simp [leBytes, ih]

theorem leBytes_lt (w n : Nat) : ∀ b ∈ leBytes w n, b < 256 := by
  induction w generalizing n with
  | zero => intro b hb; cases hb
  | succ w ih =>
    intro b hb
    rcases List.mem_cons.1 hb with rfl | h
    · omega
    · exact ih _ b h

theorem ofLe_leBytes (w n : Nat) : ofLe (leBytes w n) = n % 256 ^ w := by
  induction w generalizing n with
  | zero => simp [leBytes, ofLe, Nat.mod_one]
  | succ w ih => simp only [leBytes, ofLe, ih]; rw [Nat.pow_succ, Nat.mul_comm (256 ^ w), Nat.mod_mul]

theorem leBytes_ofLe (l : List Nat) (h : ∀ b ∈ l, b < 256) : leBytes l.length (ofLe l) = l := by
  induction l with
  | nil => rfl
  | cons b l ih =>
    have hb : b < 256 := h b (List.mem_cons_self ..)
    have e1 : (b + 256 * ofLe l) % 256 = b := by omega
    have e2 : (b + 256 * ofLe l) / 256 = ofLe l := by omega
    simp only [List.length_cons, ofLe, leBytes, e1, e2, ih fun x hx => h x (List.mem_cons_of_mem _ hx)]

@[simp] theorem host_length (be : Bool) (l : List Nat) : (host be l).length = l.length := by
  cases be <;> simp [host]

theorem host_host (be : Bool) (l : List Nat) : host be (host be l) = l := by cases be <;> simp [host]

theorem leBytes_swap (w n : Nat) : leBytes w (swap w n) = (leBytes w n).reverse := by
  have h := leBytes_ofLe (leBytes w n).reverse fun b hb => leBytes_lt w n b (List.mem_reverse.1 hb)
  simpa [swap] using h

/-- After conversion the bytes are those of little endian, whatever the host. -/
theorem host_conv (be : Bool) (w n : Nat) : host be (leBytes w (cpuToLe be w n)) = leBytes w n := by
  cases be <;> simp [host, cpuToLe, leBytes_swap]

theorem conv_host (be : Bool) {w : Nat} (l : List Nat) (hl : l.length = w) (h : ∀ b ∈ l, b < 256) :
    cpuToLe be w (ofLe (host be l)) = ofLe l := by
  cases be with
  | false => simp [host, cpuToLe]
  | true =>
    have e := leBytes_ofLe l.reverse fun b hb => h b (List.mem_reverse.1 hb)
    simp only [List.length_reverse, hl] at e
    simp [host, cpuToLe, swap, e]

/-! ## Reading and writing -/

theorem write_out {mem : Nat → Nat} {a : Nat} {l : List Nat} {x : Nat} (h : x < a ∨ a + l.length ≤ x) :
    write mem a l x = mem x := by
  unfold write
  rw [if_neg]
  omega

theorem write_in {mem : Nat → Nat} {a : Nat} {l : List Nat} {k : Nat} (h : k < l.length) :
    write mem a l (a + k) = l[k] := by
  unfold write
  rw [if_pos (by omega)]
  simp [h]

@[simp] theorem read_length (mem : Nat → Nat) (a w : Nat) : (read mem a w).length = w := by simp [read]

theorem read_write (mem : Nat → Nat) (a : Nat) (l : List Nat) : read (write mem a l) a l.length = l := by
  apply List.ext_getElem
  · simp
  · intro k h1 h2
    simp only [read, List.getElem_map, List.getElem_range]
    exact write_in h2

theorem read_congr {mem mem' : Nat → Nat} {a w : Nat} (h : ∀ k, k < w → mem (a + k) = mem' (a + k)) :
    read mem a w = read mem' a w := by
  unfold read
  apply List.map_congr_left
  intro k hk
  exact h k (List.mem_range.1 hk)

theorem get_congr {mem mem' : Nat → Nat} {a : Nat} {t : Ty} (be conv : Bool)
    (h : ∀ k, k < t.width → mem (a + k) = mem' (a + k)) : get be conv t mem a = get be conv t mem' a := by
  unfold get
  rw [read_congr h]

theorem put_out {be conv : Bool} {t : Ty} {mem : Nat → Nat} {a : Nat} {v : Int} {x : Nat}
    (h : x < a ∨ a + t.width ≤ x) : put be conv t mem a v x = mem x := by
  unfold put
  exact write_out (by simpa using h)

theorem pow8 (w : Nat) : (2 : Nat) ^ (8 * w) = 256 ^ w := by rw [Nat.pow_mul]

theorem bits_lt (t : Ty) (v : Int) : bits t v < 256 ^ t.width := by
  cases t <;> simp only [bits, Ty.width] <;> omega

theorem ofBits_bits (t : Ty) (v : Int) (h : t.Fits v) : ofBits t (bits t v) = v := by
  cases t <;> simp [Ty.Fits, Ty.signed, Ty.width, bits, ofBits] at h ⊢ <;> (try split) <;> omega

/-- What is written with conversion is read with conversion by any host. -/
theorem get_put {be be' : Bool} {t : Ty} {mem : Nat → Nat} {a : Nat} {v : Int} (h : t.Fits v) :
    get be' true t (put be true t mem a v) a = v := by
  have hr : read (put be true t mem a v) a t.width = leBytes t.width (bits t v) := by
    unfold put
    have := read_write mem a (host be (leBytes t.width (cpuToLe be t.width (bits t v))))
    rw [host_conv] at this
    simpa [host_conv] using this
  unfold get
  rw [hr]
  simp only [if_true]
  rw [conv_host be' _ (leBytes_length ..) (leBytes_lt _ _), ofLe_leBytes, Nat.mod_eq_of_lt (bits_lt t v), ofBits_bits t v h]

theorem put_le {conv : Bool} {t : Ty} {mem : Nat → Nat} {a : Nat} {v : Int} :
    put false conv t mem a v = put false true t mem a v := by
  cases conv <;> rfl

theorem get_le {conv : Bool} {t : Ty} {mem : Nat → Nat} {a : Nat} : get false conv t mem a = get false true t mem a := by
  cases conv <;> rfl

theorem get_put_le {c c' : Bool} {t : Ty} {mem : Nat → Nat} {a : Nat} {v : Int} (h : t.Fits v) :
    get false c' t (put false c t mem a v) a = v := by
  rw [get_le, put_le, get_put h]

/-- A value elsewhere is not changed. -/
theorem get_put_ne {be be' conv conv' : Bool} {t t' : Ty} {mem : Nat → Nat} {a a' : Nat} {v : Int}
    (h : a' + t'.width ≤ a ∨ a + t.width ≤ a') : get be' conv' t' (put be conv t mem a v) a' = get be' conv' t' mem a' := by
  apply get_congr
  intro k hk
  exact put_out (by omega)

theorem putRange_out {be : Bool} {t : Ty} {a : Nat} {src : Nat → Int} {x : Nat} (n k : Nat) (mem : Nat → Nat)
    (h : x < a + t.width * k ∨ a + t.width * (k + n) ≤ x) : putRange be t a src k n mem x = mem x := by
  induction n generalizing k mem with
  | zero => rfl
  | succ n ih =>
    have e1 : t.width * (k + 1) = t.width * k + t.width := Nat.mul_succ ..
    have e2 : t.width * (k + 1 + n) = t.width * (k + (n + 1)) := by congr 1; omega
    have e3 : t.width * (k + (n + 1)) = t.width * k + t.width * n + t.width := by
      rw [Nat.mul_add, Nat.mul_succ]; omega
    simp only [putRange]
    rw [ih (k + 1) _ (by rw [e1, e2]; omega)]
    exact put_out (by omega)

theorem get_putRange {be be' : Bool} {t : Ty} {a : Nat} {src : Nat → Int} (hs : ∀ k, t.Fits (src k)) (n k : Nat)
    (mem : Nat → Nat) {j : Nat} (hj : k ≤ j ∧ j < k + n) :
    get be' true t (putRange be t a src k n mem) (a + t.width * j) = src j := by
  induction n generalizing k mem with
  | zero => omega
  | succ n ih =>
    simp only [putRange]
    by_cases e : j = k
    · subst e
      have e1 : t.width * (j + 1) = t.width * j + t.width := Nat.mul_succ ..
      rw [get_congr (mem' := put be true t mem (a + t.width * j) (src j)) be' true, get_put (hs j)]
      intro i hi
      exact putRange_out n (j + 1) _ (by left; omega)
    · exact ih (k + 1) _ (by omega)

theorem putSame_out {be : Bool} {t : Ty} {a n : Nat} {v : Int} {x : Nat} (m : Nat) (k : Nat) (mem mem' : Nat → Nat)
    (he : putSame be t a n v k m mem = some mem')
    (h : x < a + t.width * k ∨ a + t.width * (k + m) ≤ x) : mem' x = mem x := by
  induction m generalizing k mem with
  | zero => simp only [putSame, Option.some.injEq] at he; rw [he]
  | succ m ih =>
    simp only [putSame, Int.toNat_natCast] at he
    split at he
    · cases he
    · have e1 : t.width * (k + 1) = t.width * k + t.width := Nat.mul_succ ..
      have e2 : t.width * (k + 1 + m) = t.width * (k + (m + 1)) := by congr 1; omega
      have e3 : t.width * (k + (m + 1)) = t.width * k + t.width * m + t.width := by
        rw [Nat.mul_add, Nat.mul_succ]; omega
      rw [ih (k + 1) _ (by simpa using he) (by rw [e1, e2]; omega)]
      exact put_out (by omega)

theorem get_putSame {be be' : Bool} {t : Ty} {a n : Nat} {v : Int} (hv : t.Fits v) (m k : Nat) (mem mem' : Nat → Nat)
    (he : putSame be t a n v k m mem = some mem') {j : Nat} (hj : k ≤ j ∧ j < k + m) :
    get be' true t mem' (a + t.width * j) = v := by
  induction m generalizing k mem with
  | zero => omega
  | succ m ih =>
    simp only [putSame, Int.toNat_natCast] at he
    split at he
    · cases he
    · have he' : putSame be t a n v ((k + 1 : Nat) : Int) m (put be true t mem (a + t.width * k) v) = some mem' := by
        simpa using he
      by_cases e : j = k
      · subst e
        have e1 : t.width * (j + 1) = t.width * j + t.width := Nat.mul_succ ..
        rw [get_congr (mem' := put be true t mem (a + t.width * j) v) be' true, get_put hv]
        intro i hi
        exact putSame_out m (j + 1) _ _ he' (by left; omega)
      · exact ih (k + 1) _ he' (by omega)

/-- All elements have to be there. -/
theorem putSame_some {be : Bool} {t : Ty} {a n : Nat} {v : Int} (m k : Nat) (mem : Nat → Nat) (h : k + m ≤ n) :
    ∃ mem', putSame be t a n v k m mem = some mem' := by
  induction m generalizing k mem with
  | zero => exact ⟨_, rfl⟩
  | succ m ih =>
    simp only [putSame, Int.toNat_natCast]
    rw [if_neg (by omega)]
    have := ih (k + 1) (put be true t mem (a + t.width * k) v) (by omega)
    simpa using this

/-! ## Sets -/

@[simp] theorem gnInc_mem (s : S) (d : Desc) : (gnInc s d).mem = s.mem := by unfold gnInc; split <;> rfl
@[simp] theorem gnInc_descs (s : S) (d : Desc) : (gnInc s d).descs = s.descs := by unfold gnInc; split <;> rfl
@[simp] theorem gnInc_cur (s : S) (d : Desc) : (gnInc s d).cur = s.cur := by unfold gnInc; split <;> rfl
@[simp] theorem gnInc_prev (s : S) (d : Desc) : (gnInc s d).prev = s.prev := by unfold gnInc; split <;> rfl
@[simp] theorem gnInc_inTxn (s : S) (d : Desc) : (gnInc s d).inTxn = s.inTxn := by unfold gnInc; split <;> rfl

theorem gnInc_one (s : S) (m : Nat → Nat) (d : Desc) : GnOne s (gnInc { s with mem := m } d) d.isData := by
  unfold GnOne gnInc
  split <;> simp

/-- A change of the bytes: nothing else but the generation numbers. -/
structure Wrote (s s' : S) (d : Desc) (mem' : Nat → Nat) : Prop where
  mem : s'.mem = mem'
  descs : s'.descs = s.descs
  cur : s'.cur = s.cur
  prev : s'.prev = s.prev
  inTxn : s'.inTxn = s.inTxn
  gn : GnOne s s' d.isData

theorem wrote (s : S) (d : Desc) (m : Nat → Nat) : Wrote s (gnInc { s with mem := m } d) d m :=
  ⟨by simp, by simp, by simp, by simp, by simp, gnInc_one s m d⟩

theorem Wrote.desc {s s' : S} {d : Desc} {m : Nat → Nat} (h : Wrote s s' d m) (i : Int) : desc s' i = desc s i := by
  unfold Mval.desc
  rw [h.descs]

theorem Wrote.addrGet {s s' : S} {d : Desc} {m : Nat → Nat} (h : Wrote s s' d m) (e : Desc) :
    addrGet s' e = addrGet s e := by
  unfold Mval.addrGet
  rw [h.cur, h.prev, h.inTxn]

theorem desc_nat {s : S} {i : Nat} {d : Desc} (h : s.descs[i]? = some d) : desc s i = some d := by
  unfold desc
  rw [if_neg (by omega)]
  simpa using h

theorem desc_some {s : S} {i : Int} {d : Desc} (h : desc s i = some d) : s.descs[i.toNat]? = some d ∧ (i.toNat : Int) = i := by
  unfold desc at h
  split at h
  · cases h
  · exact ⟨h, by omega⟩

end Verif.Mval
