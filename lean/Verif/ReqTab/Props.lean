import Verif.ReqTab.Resp

/-!
# C69: requests in progress
-/

namespace Verif.ReqTab

variable {α : Type} {valid : List α → Bool}

/-! ## Messages do not mix -/

/-- **C69** What a request leads to depends only on its own records and the end of its
connection, whatever else the daemon receives, sends, forwards or is answered in between. -/
theorem reqtab_isolation (k : Key) (hk : k.kind ≠ .loc ∧ k.conn < 2 ^ 32 ∧ k.msg < 2 ^ 32) (es : List (Ev α))
    (he : ∀ e ∈ es, e.Ok ∧ Direct k e) :
    about k (run valid init es).2 = about k (run valid init (es.filter (concerns k))).2 := by
  rw [run_view hk.1 hk.2 es (init_inv k) (init_view k) he,
    run_view hk.1 hk.2 _ (init_inv k) (init_view k) (fun e h => he e (List.mem_filter.mp h).1), List.filter_filter]
  simp

theorem krun_rest (k : Key) : ∀ (bs : List (List α)) (b : List α) (es : List (Ev α)), bs ≠ [] →
    valid (b ++ bs.flatten) = true →
    krun valid k (some b) (rest k bs ++ es) = .handled k (b ++ bs.flatten) :: krun valid k none es
  | [], _, _, h, _ => absurd rfl h
  | [c], b, es, _, hv => by
    simp only [List.flatten_cons, List.flatten_nil, List.append_nil] at hv ⊢
    simp [rest, piece, krun, kstep, kgather, hv]
  | c :: d :: bs, b, es, _, hv => by
    have := krun_rest k (d :: bs) (b ++ c) es (by simp) (by simpa using hv)
    simp only [rest, List.cons_append, krun]
    have e : kstep valid k (some b) (piece k false false c) = (some (b ++ c), []) := by
      simp [piece, kstep, kgather]
    rw [e]
    simp only [List.nil_append]
    rw [this]
    simp

theorem krun_message (k : Key) (m : List (List α)) (es : List (Ev α)) (hm : m ≠ []) (hv : valid m.flatten = true) :
    krun valid k none (message k m ++ es) = .handled k m.flatten :: krun valid k none es := by
  cases m with
  | nil => exact absurd rfl hm
  | cons b bs =>
    cases bs with
    | nil =>
      simp only [List.flatten_cons, List.flatten_nil, List.append_nil] at hv ⊢
      simp [message, piece, krun, kstep, kgather, hv]
    | cons c bs =>
      have e : kstep valid k none (piece k true false b) = (some b, []) := by simp [piece, kstep, kgather]
      simp only [message, List.cons_append, krun, e, List.nil_append]
      have := krun_rest k (c :: bs) b es (by simp) (by simpa using hv)
      rw [this]
      simp

theorem krun_messages (k : Key) (es : List (Ev α)) : ∀ (ms : List (List (List α))), (∀ m ∈ ms, m ≠ [] ∧ valid m.flatten = true) →
    krun valid k none (ms.flatMap (message k) ++ es) = ms.map (fun m => .handled k m.flatten) ++ krun valid k none es
  | [], _ => by simp
  | m :: ms, h => by
    rw [List.flatMap_cons, List.append_assoc, krun_message k m _ (h m (by simp)).1 (h m (by simp)).2,
      krun_messages k es ms fun x hx => h x (by simp [hx])]
    simp

theorem krun_append (k : Key) (a : List (Ev α)) (b : List (Ev α)) : ∀ v, ∃ w,
    krun valid k v (a ++ b) = krun valid k v a ++ krun valid k w b := by
  induction a with
  | nil => intro v; exact ⟨v, rfl⟩
  | cons e a ih =>
    intro v
    obtain ⟨w, hw⟩ := ih (kstep valid k v e).1
    exact ⟨w, by simp only [List.cons_append, krun, hw, List.append_assoc]⟩

/-- **C69** Messages that come in any number of pieces, among any others, are handled once
each, in order, each as the whole of its own pieces. -/
theorem reqtab_whole (k : Key) (hk : k.kind ≠ .loc ∧ k.conn < 2 ^ 32 ∧ k.msg < 2 ^ 32) (es : List (Ev α))
    (he : ∀ e ∈ es, e.Ok ∧ Direct k e) (ms : List (List (List α))) (hm : ∀ m ∈ ms, m ≠ [] ∧ valid m.flatten = true)
    (h : es.filter (concerns k) = ms.flatMap (message k)) :
    about k (run valid init es).2 = ms.map fun m => .handled k m.flatten := by
  rw [run_view hk.1 hk.2 es (init_inv k) (init_view k) he, h]
  have := krun_messages k [] ms hm
  simpa [krun] using this

/-- **C69** After the end of a connection all begins anew: whatever was sent before, messages
sent then are handled as above. -/
theorem reqtab_afresh (k : Key) (hk : k.kind ≠ .loc ∧ k.conn < 2 ^ 32 ∧ k.msg < 2 ^ 32) (es pre : List (Ev α))
    (he : ∀ e ∈ es, e.Ok ∧ Direct k e) (ms : List (List (List α))) (hm : ∀ m ∈ ms, m ≠ [] ∧ valid m.flatten = true)
    (h : es.filter (concerns k) = pre ++ .term k.conn :: ms.flatMap (message k)) :
    about k (run valid init es).2 = about k (run valid init pre).2 ++ ms.map fun m => .handled k m.flatten := by
  have hpre : ∀ e ∈ pre, e ∈ es.filter (concerns k) := fun e hp => by rw [h]; exact List.mem_append_left _ hp
  have hf : pre.filter (concerns k) = pre := List.filter_eq_self.mpr fun e hp => (List.mem_filter.mp (hpre e hp)).2
  rw [run_view hk.1 hk.2 es (init_inv k) (init_view k) he, h,
    run_view hk.1 hk.2 pre (init_inv k) (init_view k) (fun e hp => he e (List.mem_filter.mp (hpre e hp)).1), hf]
  obtain ⟨w, hw⟩ := krun_append (valid := valid) k pre (.term k.conn :: ms.flatMap (message k)) none
  rw [hw]
  have e : ∀ w, krun valid k w (.term k.conn :: ms.flatMap (message k)) = ms.map fun m => .handled k m.flatten := by
    intro w
    have := krun_messages k [] ms hm
    simp only [krun, kstep, List.nil_append]
    simpa [krun] using this
  rw [e]

/-- **C69** The beginning of a message that is in progress is refused with `EADDRINUSE` and
does it no harm. -/
theorem reqtab_duplicate (k : Key) (hk : k.kind ≠ .loc ∧ k.conn < 2 ^ 32 ∧ k.msg < 2 ^ 32) (es : List (Ev α))
    (he : ∀ e ∈ es, e.Ok ∧ Direct k e) (b x : List α) (eom : Bool) (bs : List (List α)) (hb : bs ≠ [])
    (hv : valid (b ++ bs.flatten) = true)
    (h : es.filter (concerns k) = piece k true false b :: piece k true eom x :: rest k bs) :
    about k (run valid init es).2 = [.error k 98, .handled k (b ++ bs.flatten)] := by
  rw [run_view hk.1 hk.2 es (init_inv k) (init_view k) he, h]
  have e : kstep valid k none (piece k true false b) = (some b, []) := by simp [piece, kstep, kgather]
  have e2 : kstep valid k (some b) (piece k true eom x) = (some b, [.error k 98]) := by simp [piece, kstep]
  simp only [krun, e, e2, List.nil_append]
  have := krun_rest (valid := valid) k bs b [] hb hv
  simp only [List.append_nil, krun] at this
  rw [this]
  rfl

/-- **C69** A piece of a message that has not begun is refused with `ENOENT`. -/
theorem reqtab_no_start (k : Key) (hk : k.kind ≠ .loc ∧ k.conn < 2 ^ 32 ∧ k.msg < 2 ^ 32) (es : List (Ev α))
    (he : ∀ e ∈ es, e.Ok ∧ Direct k e) (x : List α) (eom : Bool) (ms : List (List (List α)))
    (hm : ∀ m ∈ ms, m ≠ [] ∧ valid m.flatten = true)
    (h : es.filter (concerns k) = piece k false eom x :: ms.flatMap (message k)) :
    about k (run valid init es).2 = .error k 2 :: ms.map fun m => .handled k m.flatten := by
  rw [run_view hk.1 hk.2 es (init_inv k) (init_view k) he, h]
  have e : kstep valid k none (piece k false eom x) = (none, [.error k 2]) := by simp [piece, kstep]
  have := krun_messages k [] ms hm
  simp only [krun, e]
  simpa [krun] using this

/-- **C69** Nothing is left of a connection that has ended. -/
theorem reqtab_term (s : St α) (conn : Nat) : ∀ c ∈ (step valid s (.term conn)).1.tab, c.key.conn ≠ conn := by
  intro c hc
  have := (List.mem_filter.mp hc).2
  simpa using this

/-! ## Requests forwarded -/

/-- **C69** As long as no connection ends and no record comes for a request that has been
handled: nothing that was freed is used, and a response is passed on to the request for
which its number was sent on that connection, and no other. -/
theorem reqtab_answers_partial (es : List (Ev α)) (he : ∀ e ∈ es, e.Ok) (hp : Polite valid init es) :
    .useAfterFree ∉ (run valid init es).2 ∧
    ∀ a d n k t b, (run valid init es).2 = a ++ .toOrg d n k t :: b → .forward k d n ∈ a := by
  obtain ⟨_, h⟩ := run_fwd (valid := valid) es init_finv he hp
  exact ⟨h.safe, fun a d n k t b e => by simpa using h.fit a d n k t b e⟩

/-- **C69** And a request sent on for another has been answered, or is waited for, and the
other waits too. -/
theorem reqtab_outstanding_partial (es : List (Ev α)) (he : ∀ e ∈ es, e.Ok) (hp : Polite valid init es)
    {k : Key} {d n : Nat} (hf : .forward k d n ∈ (run valid init es).2) :
    (∃ t, .toOrg d n k t ∈ (run valid init es).2) ∨
    ((∃ c ∈ (run valid init es).1.tab, c.key = ⟨.loc, d, n⟩) ∧ ∃ c ∈ (run valid init es).1.tab, c.key = k) := by
  obtain ⟨h, _⟩ := run_fwd (valid := valid) es init_finv he hp
  simp only [List.nil_append] at h
  rcases h.done k d n hf with h1 | ⟨c, hc, e1, y, hy, _, e3⟩
  · exact .inl h1
  · exact .inr ⟨⟨c, hc, e1⟩, ⟨y, hy, e3⟩⟩

/-- **C69** When nothing is waited for, no request that was handled is left. -/
theorem reqtab_released_partial (es : List (Ev α)) (he : ∀ e ∈ es, e.Ok) (hp : Polite valid init es)
    (hw : ∀ c ∈ (run valid init es).1.tab, c.key.kind ≠ .loc) : ∀ c ∈ (run valid init es).1.tab, c.host = false := by
  obtain ⟨h, _⟩ := run_fwd (valid := valid) es init_finv he hp
  intro c hc
  obtain ⟨_, h2, h3⟩ := h.req c hc (hw c hc)
  have h0 : cnt (run valid init es).1 c.id = 0 := by
    unfold cnt
    rw [List.countP_eq_zero]
    intro x hx e
    have := (h.req x hx (hw x hx)).1
    rw [this] at e
    cases e
  rw [h0] at h3
  cases hh : c.host with
  | false => rfl
  | true =>
    rw [hh] at h3
    simp only [if_true, extra, reduceCtorEq, if_false] at h3
    omega

/-- **C69** The numbers of requests sent for others differ, as long as fewer than 2^32 - 1
requests are sent in all. -/
theorem reqtab_numbers (es : List (Ev α)) (hn : (es.map Ev.asks).sum < 2 ^ 32 - 1) :
    ((run valid init es).2.filterMap Out.number).Nodup :=
  (run_numbers es init (by show 1 + _ < _; omega)).1

/-- **C69** A response, in any number of records among whatever else happens, is passed on
once, as the whole of its own records in order, to the request for which it was asked. -/
theorem reqtab_response_whole_partial (pre es : List (Ev α)) (he : ∀ e ∈ pre ++ es, e.Ok) (hp : Polite valid init (pre ++ es))
    (hn : ((pre ++ es).map Ev.asks).sum < 2 ^ 32 - 1) {k : Key} {d n : Nat} (hd : d < 2 ^ 32)
    (hf : .forward k d n ∈ (run valid init pre).2) (hpre : ∀ e ∈ pre, answers d n e = false) (rs : List (Rec α))
    (hrs : es.filter (answers d n) = rs.map (.resp d)) (hends : Ends rs) (hv : valid (rs.map (·.body)).flatten = true) :
    (run valid init (pre ++ es)).2.filter (passed d n) = [.toOrg d n k (rs.map (·.body)).flatten] := by
  obtain ⟨p1, p2⟩ := polite_append pre es init hp
  obtain ⟨h, _⟩ := run_fwd (valid := valid) pre init_finv (fun e h => he e (by simp [h])) p1
  rw [List.map_append, List.sum_append] at hn
  have hi : (init : St α).msgNo = 1 := rfl
  obtain ⟨r, hm⟩ := run_before (valid := valid) pre (init_rinv d n) (fun e h => he e (by simp [h])) (by omega) hpre
  simp only [List.nil_append] at h
  have hp0 := run_passed (valid := valid) (d := d) (n := n) pre init hpre
  have hlt : n < 2 ^ 32 := by
    rcases h.done k d n hf with ⟨t, ht⟩ | ⟨c, hc, ec, _⟩
    · exfalso
      have : Out.toOrg d n k t ∈ (run valid init pre).2.filter (passed d n) := List.mem_filter.mpr ⟨ht, by simp [passed]⟩
      rw [hp0] at this
      cases this
    · have := (h.key c hc).2
      rw [ec] at this
      exact this
  have := run_answer (valid := valid) hd hlt es h r (fun e h => he e (by simp [h])) p2 (by omega) hf hp0 hrs hends hv
  rw [run_append, List.filter_append, hp0, this]
  rfl

/-! ## The order of the tree -/

/-- **C69** The comparison of keys is an order, as the tree needs, as long as the numbers of
connections and messages are below 2^31. -/
theorem reqtab_key_order_partial (a b c : Key) (ha : a.conn < 2 ^ 31 ∧ a.msg < 2 ^ 31)
    (hb : b.conn < 2 ^ 31 ∧ b.msg < 2 ^ 31) (hc : c.conn < 2 ^ 31 ∧ c.msg < 2 ^ 31) :
    (0 < cmp a b ↔ cmp b a < 0) ∧ (cmp a b ≤ 0 → cmp b c ≤ 0 → cmp a c ≤ 0) := by
  have ht : ∀ x y : Nat, x < 2 ^ 31 → y < 2 ^ 31 → toInt ((x : Int) - y) = x - y := by
    intro x y hx hy
    unfold toInt
    omega
  unfold cmp
  rw [ht _ _ ha.1 hb.1, ht _ _ ha.2 hb.2, ht _ _ hb.1 ha.1, ht _ _ hb.2 ha.2, ht _ _ hb.1 hc.1, ht _ _ hb.2 hc.2,
    ht _ _ ha.1 hc.1, ht _ _ ha.2 hc.2]
  constructor
  · repeat' split
    all_goals omega
  · repeat' split
    all_goals omega

/-- Beyond that it is not: the numbers of messages, which a client chooses, go round. -/
theorem reqtab_key_order_defect : cmp ⟨.rem, 1, 0⟩ ⟨.rem, 1, 1500000000⟩ < 0 ∧
    cmp ⟨.rem, 1, 1500000000⟩ ⟨.rem, 1, 3000000000⟩ < 0 ∧ cmp ⟨.rem, 1, 3000000000⟩ ⟨.rem, 1, 0⟩ < 0 := by decide

/-! ## Examples and defects -/

/-- Everything but the message `[9]` is valid. -/
def exValid (t : List Nat) : Bool := t != [9]

def exRec (som eom : Bool) (msg : Nat) (body : List Nat) : Rec Nat := ⟨true, som, eom, msg, body⟩

/-- Two clients and a configuration file with the same numbers, in turns. -/
def exMixed : List (Ev Nat) :=
  [.recv .rem 5 (exRec true false 1 [10]) [], .recv .rem 6 (exRec true false 1 [20]) [],
   .recv .file 5 (exRec true true 1 [30]) [], .recv .rem 6 (exRec false true 1 [21]) [7],
   .own 7, .recv .rem 5 (exRec false false 1 [11]) [], .resp 7 (exRec true true 1 [99]), .term 6,
   .recv .rem 5 (exRec false true 1 [12]) []]

/-- Beside `reqtab_isolation` and `reqtab_whole`. -/
example : exMixed.filter (concerns ⟨.rem, 5, 1⟩) = [[[10], [11], [12]]].flatMap (message ⟨.rem, 5, 1⟩) ∧
    about ⟨.rem, 5, 1⟩ (run exValid init exMixed).2 = [.handled ⟨.rem, 5, 1⟩ [10, 11, 12]] := ⟨rfl, by decide +kernel⟩

example : ∀ e ∈ exMixed, e.Ok ∧ Direct ⟨.rem, 5, 1⟩ e := by
  intro e he
  simp only [exMixed, List.mem_cons, List.not_mem_nil, or_false] at he
  rcases he with rfl | rfl | rfl | rfl | rfl | rfl | rfl | rfl | rfl
  all_goals refine ⟨?_, ?_⟩
  all_goals first
    | (intro a b c d e1 e2; cases e1; first | rfl | cases e2)
    | (simp [Ev.Ok, exRec]; done)
    | trivial
    | (intro a b c d e1; cases e1; done)

/-- A request forwarded to two others and answered by both. -/
def exFwd : List (Ev Nat) :=
  [.recv .rem 5 (exRec true true 1 [10]) [7, 8], .recv .rem 6 (exRec true true 1 [20]) [7],
   .resp 8 (exRec true true 2 [98]), .resp 7 (exRec true true 3 [97]), .resp 7 (exRec true true 1 [96])]

/-- Beside `reqtab_answers_partial`, `reqtab_outstanding_partial` and `reqtab_released_partial`. -/
example : Polite exValid init exFwd := by
  refine ⟨(fun _ h => nomatch h), ?_, (fun _ h => nomatch h), ?_, (fun _ h => nomatch h), (fun _ _ _ _ h => nomatch h),
    (fun _ h => nomatch h), (fun _ _ _ _ h => nomatch h), (fun _ h => nomatch h), (fun _ _ _ _ h => nomatch h), trivial⟩
  · rintro _ _ _ _ ⟨⟩ h; cases h
  · rintro _ _ _ _ ⟨⟩ h; cases h

example : (run exValid init exFwd).2 =
    [.handled ⟨.rem, 5, 1⟩ [10], .forward ⟨.rem, 5, 1⟩ 7 1, .forward ⟨.rem, 5, 1⟩ 8 2,
     .handled ⟨.rem, 6, 1⟩ [20], .forward ⟨.rem, 6, 1⟩ 7 3,
     .toOrg 8 2 ⟨.rem, 5, 1⟩ [98], .toOrg 7 3 ⟨.rem, 6, 1⟩ [97], .toOrg 7 1 ⟨.rem, 5, 1⟩ [96]] ∧
    (run exValid init exFwd).1.tab.length = 0 := by decide +kernel

/-- Beside `reqtab_response_whole_partial`: a response in two records with other things in between. -/
example : (run exValid init
    ([.recv .rem 5 (exRec true true 1 [10]) [7]] ++ [.resp 7 (exRec true false 1 [96]), .resp 8 (exRec true true 1 [1]),
      .recv .rem 6 (exRec true true 1 [20]) [7], .resp 7 (exRec true true 2 [55]), .resp 7 (exRec false true 1 [97])])).2.filter
      (passed 7 1) = [.toOrg 7 1 ⟨.rem, 5, 1⟩ [96, 97]] := by decide +kernel

/-- A client goes away while its request is forwarded: the response uses its context, which
was freed although references to it were left. -/
theorem reqtab_disconnect_defect :
    .useAfterFree ∈ (run exValid init [.recv .rem 5 (exRec true true 1 [10]) [7], .term 5,
      .resp 7 (exRec true true 1 [99])]).2 := by decide +kernel

/-- The other side goes away: the client gets no answer, and its message number stays in use. -/
theorem reqtab_peer_gone_defect :
    (run exValid init [.recv .rem 5 (exRec true true 1 [10]) [7], .term 7, .recv .rem 5 (exRec true true 1 [11]) []]).2 =
      [.handled ⟨.rem, 5, 1⟩ [10], .forward ⟨.rem, 5, 1⟩ 7 1, .error ⟨.rem, 5, 1⟩ 98] := by decide +kernel

/-- A further record for a request that waits for an answer makes the daemon handle it again,
with its header converted twice, and give up the reference of the answer, which then uses
what was freed. -/
theorem reqtab_again_defect :
    (run exValid init [.recv .rem 5 (exRec true true 1 [10]) [7], .recv .rem 5 (exRec false true 1 [11]) [],
      .resp 7 (exRec true true 1 [99])]).2 =
      [.handled ⟨.rem, 5, 1⟩ [10], .forward ⟨.rem, 5, 1⟩ 7 1, .garbled ⟨.rem, 5, 1⟩, .useAfterFree] := by decide +kernel

/-- A message that is not valid is answered with error 0, and its number stays in use. -/
theorem reqtab_invalid_defect :
    (run exValid init [.recv .rem 5 (exRec true true 1 [9]) [], .recv .rem 5 (exRec true true 1 [10]) []]).2 =
      [.error ⟨.rem, 5, 1⟩ 0, .error ⟨.rem, 5, 1⟩ 98] := by decide +kernel

/-- The end of connection 5 also frees what belongs to the configuration file with number 5. -/
theorem reqtab_file_term_defect :
    .useAfterFree ∈ (run exValid init [.recv .file 5 (exRec true true 1 [10]) [7], .term 5,
      .resp 7 (exRec true true 1 [99])]).2 := by decide +kernel

/-- Connections whose numbers differ by 2^32 are taken for the same: their messages mix. -/
theorem reqtab_wrap_defect :
    (run exValid init [.recv .rem 5 (exRec true false 1 [10]) [], .recv .rem (2 ^ 32 + 5) (exRec false true 1 [20]) []]).2 =
      [.handled ⟨.rem, 5, 1⟩ [10, 20]] := by decide +kernel

end Verif.ReqTab
