import Verif.RowJson.Proofs

/-! # Proofs about Avro schemas -/

namespace Verif.RowJson

theorem plain_of_all {s : List Char}
    (h : s.all (fun c => 32 ≤ c.toNat && c != '"' && c != '\\') = true) : Plain s := by
  intro c hc
  have := List.all_eq_true.mp h c hc
  simp only [Bool.and_eq_true, decide_eq_true_eq, bne_iff_ne] at this
  exact ⟨this.1.1, this.1.2, this.2⟩

theorem kName : Plain "name".toList := plain_of_all (by decide)
theorem kType : Plain "type".toList := plain_of_all (by decide)
theorem kLogical : Plain "logicalType".toList := plain_of_all (by decide)
theorem kDefault : Plain "default".toList := plain_of_all (by decide)
theorem kItems : Plain "items".toList := plain_of_all (by decide)
theorem kFields : Plain "fields".toList := plain_of_all (by decide)
theorem kArray : Plain "array".toList := plain_of_all (by decide)
theorem kRecord : Plain "record".toList := plain_of_all (by decide)

theorem avroChar_plain (c : Char) : plainChar (avroChar c) := by
  unfold avroChar
  split
  · rename_i h
    simp only [Bool.or_eq_true, decide_eq_true_eq] at h
    rcases h with h | rfl
    · simp only [Char.isAlphanum, Char.isAlpha, Char.isUpper, Char.isLower, Char.isDigit,
        Bool.or_eq_true, Bool.and_eq_true, decide_eq_true_eq] at h
      have h48 : 48 ≤ c.toNat ∧ c.toNat ≤ 57 ∨ 65 ≤ c.toNat ∧ c.toNat ≤ 90 ∨
          97 ≤ c.toNat ∧ c.toNat ≤ 122 := by
        rcases h with (h | h) | h
        · right; left
          exact ⟨UInt32.le_iff_toNat_le.mp h.1, UInt32.le_iff_toNat_le.mp h.2⟩
        · right; right
          exact ⟨UInt32.le_iff_toNat_le.mp h.1, UInt32.le_iff_toNat_le.mp h.2⟩
        · left
          exact ⟨UInt32.le_iff_toNat_le.mp h.1, UInt32.le_iff_toNat_le.mp h.2⟩
      refine ⟨by omega, ?_, ?_⟩ <;> rintro rfl <;> revert h48 <;> decide
    · exact ⟨by decide, by decide, by decide⟩
  · exact ⟨by decide, by decide, by decide⟩

theorem avroName_plain (n : List Char) : Plain (avroName n) := by
  intro c hc
  obtain ⟨d, _, rfl⟩ := List.mem_map.mp hc
  exact avroChar_plain d

theorem reads_strConst {s : String} (h : Plain s.toList) {t : List Char}
    (e : t = '"' :: s.toList ++ ['"']) : Reads t (.str s.toList) := by
  rw [e]; exact reads_str h

theorem reads_logical {ty l : String} (h1 : Plain ty.toList) (h2 : Plain l.toList)
    {t : List Char} (e : t = '{' :: joined [memText "type".toList ('"' :: ty.toList ++ ['"']),
      memText "logicalType".toList ('"' :: l.toList ++ ['"'])] ++ ['}']) :
    Reads t (logical ty l) := by
  rw [e]
  refine reads_obj (l := [(("type".toList, '"' :: ty.toList ++ ['"']), .str ty.toList),
    (("logicalType".toList, '"' :: l.toList ++ ['"']), .str l.toList)]) ?_
  intro p hp
  simp only [List.mem_cons, List.not_mem_nil, or_false] at hp
  rcases hp with rfl | rfl
  · exact ⟨kType, reads_str h1⟩
  · exact ⟨kLogical, reads_str h2⟩

theorem reads_intType (k : IKind) : Reads (intType k) (avroInt k) := by
  cases k
  · exact reads_logical (plain_of_all (by decide)) (plain_of_all (by decide)) (by decide)
  · exact reads_logical (plain_of_all (by decide)) (plain_of_all (by decide)) (by decide)
  · exact reads_logical (plain_of_all (by decide)) (plain_of_all (by decide)) (by decide)
  · exact reads_logical (plain_of_all (by decide)) (plain_of_all (by decide)) (by decide)
  · exact reads_strConst (plain_of_all (by decide)) (by decide)
  · exact reads_logical (plain_of_all (by decide)) (plain_of_all (by decide)) (by decide)
  · exact reads_strConst (plain_of_all (by decide)) (by decide)
  · exact reads_logical (plain_of_all (by decide)) (plain_of_all (by decide)) (by decide)

theorem reads_fltType (k : FKind) : Reads (fltType k) (avroFlt k) := by
  cases k
  · exact reads_strConst (plain_of_all (by decide)) (by decide)
  · exact reads_strConst (plain_of_all (by decide)) (by decide)

theorem value_space (n : Nat) (s : List Char) : value (n + 1) (' ' :: s) = value (n + 1) s := by
  rw [value, value, show skipWs (' ' :: s) = skipWs s from rfl]

theorem members_space (n : Nat) (s : List Char) :
    members (n + 1) (' ' :: s) = members (n + 1) s := by
  rw [members, members, show skipWs (' ' :: s) = skipWs s from rfl]

theorem members_step {n : Nat} {k s : List Char} (hk : Plain k) :
    members (n + 1) ('"' :: (k ++ '"' :: s)) = match skipWs s with
      | ':' :: s =>
        match value n s with
        | none => none
        | some (v, s) =>
          match skipWs s with
          | ',' :: s => (members n s).map fun p => ((k, v) :: p.1, p.2)
          | '}' :: s => some ([(k, v)], s)
          | _ => none
      | _ => none := by
  rw [members, skipWs_cons _ (by decide)]
  simp only
  rw [string_plain hk]
  rfl

theorem len3 {a b : List Char} {x y : Nat} (t : List Char) (h1 : a.length = x)
    (h2 : b.length = y) : (a ++ t ++ b).length = x + t.length + y := by
  simp [h1, h2, Nat.add_assoc]

theorem arrayOf_length (t : List Char) : (arrayOf t).length = 29 + t.length + 2 :=
  len3 t (by decide) (by decide)

theorem arrayOf_gen {t r a b c l m : List Char}
    (h1 : l = '{' :: ' ' :: '"' :: (a ++ '"' :: ' ' :: ':' :: ' ' ::
      ('"' :: b ++ ['"'] ++ ',' :: ' ' :: '"' :: (c ++ ['"', ':', ' ']))))
    (h2 : m = [' ', '}']) :
    l ++ t ++ m ++ r = '{' :: ' ' :: '"' :: (a ++ '"' :: ' ' :: ':' :: ' ' ::
      ('"' :: b ++ ['"'] ++ ',' :: ' ' :: '"' :: (c ++ '"' :: ':' :: ' ' ::
      (t ++ ' ' :: '}' :: r)))) := by
  subst h1 h2
  simp only [List.append_assoc, List.cons_append, List.nil_append]

theorem arrayOf_eq (t r : List Char) : arrayOf t ++ r =
    '{' :: ' ' :: '"' :: ("type".toList ++ '"' :: ' ' :: ':' :: ' ' ::
      ('"' :: "array".toList ++ ['"'] ++ ',' :: ' ' :: '"' :: ("items".toList ++ '"' :: ':' :: ' ' ::
      (t ++ ' ' :: '}' :: r)))) :=
  arrayOf_gen (by decide) (by decide)

theorem reads_arrayOf {t : List Char} {v : JVal} (h : Reads t v) :
    Reads (arrayOf t) (avroArray v) := by
  intro n r hn _
  rw [arrayOf_length] at hn
  obtain ⟨n, rfl⟩ : ∃ m, n = m + 4 := ⟨n - 4, by omega⟩
  rw [arrayOf_eq, value, skipWs_cons _ (by decide)]
  simp only
  rw [show ∀ s, skipWs (' ' :: '"' :: s) = '"' :: s from fun _ => rfl]
  show (members (n + 3) _).map _ = _
  rw [members_step kType,
    show ∀ s, skipWs (' ' :: ':' :: s) = ':' :: s from fun _ => rfl]
  simp only
  rw [value_space, reads_str kArray (n + 2) _
    (by rw [show ('"' :: "array".toList ++ ['"']).length = 7 by decide]; omega) (by simp [Ends])]
  simp only
  rw [skipWs_cons _ (by decide)]
  simp only
  rw [members_space, members_step kItems, skipWs_cons _ (by decide)]
  simp only
  rw [value_space, h (n + 1) _ (by omega) (by simp [Ends])]
  simp only
  rw [show ∀ s, skipWs (' ' :: '}' :: s) = '}' :: s from fun _ => rfl]
  rfl

theorem lit1 : "{\"name\":\"".toList = '{' :: ('"' :: "name".toList ++ ['"', ':', '"']) := by
  decide
theorem lit2 : "\",\"type\":".toList = '"' :: ',' :: ('"' :: "type".toList ++ ['"', ':']) := by
  decide
theorem lit3 : ",\"default\":".toList = ',' :: ('"' :: "default".toList ++ ['"', ':']) := by
  decide

theorem withDefault_gen {n ty d a b c l1 l2 l3 : List Char}
    (h1 : l1 = '{' :: ('"' :: a ++ ['"', ':', '"'])) (h2 : l2 = '"' :: ',' :: ('"' :: b ++ ['"', ':']))
    (h3 : l3 = ',' :: ('"' :: c ++ ['"', ':'])) :
    l1 ++ n ++ l2 ++ ty ++ l3 ++ d ++ ['}'] =
    '{' :: joined [memText a ('"' :: n ++ ['"']), memText b ty, memText c d] ++ ['}'] := by
  subst h1 h2 h3
  simp [joined, memText]

theorem withDefault_eq (n ty d : List Char) : withDefault n ty d =
    '{' :: joined [memText "name".toList ('"' :: n ++ ['"']),
      memText "type".toList ty, memText "default".toList d] ++ ['}'] :=
  withDefault_gen lit1 lit2 lit3

theorem withDefault_len_gen {n ty d l1 l2 l3 : List Char} {a b c : Nat}
    (h1 : l1.length = a) (h2 : l2.length = b) (h3 : l3.length = c) :
    (l1 ++ n ++ l2 ++ ty ++ l3 ++ d ++ ['}']).length =
      a + b + c + 1 + n.length + ty.length + d.length := by
  subst h1 h2 h3
  simp
  omega

theorem reads_withDefault (n : List Char) {ty d : List Char} {v w : JVal} (h1 : Reads ty v)
    (h2 : Reads d w) : Reads (withDefault (avroName n) ty d)
      (.obj [("name".toList, .str (avroName n)), ("type".toList, v), ("default".toList, w)]) := by
  rw [withDefault_eq]
  refine reads_obj (l := [(("name".toList, '"' :: avroName n ++ ['"']), .str (avroName n)),
    (("type".toList, ty), v), (("default".toList, d), w)]) ?_
  intro p hp
  simp only [List.mem_cons, List.not_mem_nil, or_false] at hp
  rcases hp with rfl | rfl | rfl
  · exact ⟨kName, reads_str (avroName_plain n)⟩
  · exact ⟨kType, h1⟩
  · exact ⟨kDefault, h2⟩

theorem tsField_gen {n t a b l1 l2 : List Char}
    (h1 : l1 = '{' :: ('"' :: a ++ ['"', ':', '"'])) (h2 : l2 = '"' :: ',' :: ('"' :: b ++ ['"', ':'])) :
    l1 ++ n ++ l2 ++ t ++ ['}'] =
      '{' :: joined [memText a ('"' :: n ++ ['"']), memText b t] ++ ['}'] := by
  subst h1 h2
  simp [joined, memText]

theorem tsField_len {n t l1 l2 : List Char} {a b c : Nat} (h1 : l1.length = a)
    (h2 : l2.length = b) (h3 : t.length = c) :
    (l1 ++ n ++ l2 ++ t ++ ['}']).length = a + b + c + 1 + n.length := by
  subst h1 h2 h3
  simp
  omega

theorem avro_gen {schema j a b c d l1 l2 l3 l4 l5 : List Char}
    (h1 : l1 = '"' :: a ++ ['"', ':', '"']) (h2 : l2 = ['"', ','])
    (h3 : l3 = '"' :: b ++ ['"', ':', '"'] ++ c ++ ['"', ','])
    (h4 : l4 = '"' :: d ++ ['"', ':', '[']) (h5 : l5 = [']', '}']) :
    ['{'] ++ (l1 ++ schema ++ l2 ++ (l3 ++ l4)) ++ j ++ l5 =
      '{' :: joined [memText a ('"' :: schema ++ ['"']), memText b ('"' :: c ++ ['"']),
        memText d ('[' :: j ++ [']'])] ++ ['}'] := by
  subst h1 h2 h3 h4 h5
  simp [joined, memText]

theorem avro_eq (schema j : List Char) :
    ['{'] ++ ("\"name\":\"".toList ++ schema ++ "\",".toList ++
      ("\"type\":\"record\",".toList ++ "\"fields\":[".toList)) ++ j ++ "]}".toList =
      '{' :: joined [memText "name".toList ('"' :: schema ++ ['"']),
        memText "type".toList ('"' :: "record".toList ++ ['"']),
        memText "fields".toList ('[' :: j ++ [']'])] ++ ['}'] :=
  avro_gen (by decide) (by decide) (by decide) (by decide) (by decide)

theorem reads_zero : Reads "0".toList (.num 0 0) := by
  have h := reads_int 0
  have e : decInt 0 = "0".toList := by
    rw [decInt, if_neg (by decide), dec, if_pos (by decide)]
    decide
  rwa [e] at h

theorem reads_zeroPoint : Reads "0.0".toList (.num 0 (-1)) :=
  reads_flt (t := "0.0".toList) ⟨.num 0 (-1), rfl⟩

theorem reads_empty : Reads "[]".toList (.arr []) :=
  reads_arr (l := []) (by simp) (by simp)

theorem reads_field {c : Col} {p : List Char} (h : fieldPiece c = some p) :
    Reads p (avroField c) ∧ Starts p ∧ 0 < p.length ∧ p.length ≤ c.name.length + 150 := by
  obtain ⟨n, v⟩ := c
  have hname : (avroName n).length = n.length := by simp [avroName]
  have hst : ∀ ty d, Starts (withDefault (avroName n) ty d) := fun ty d =>
    ⟨'{', _, rfl, by decide, by decide, by decide⟩
  have hln : ∀ ty d, (withDefault (avroName n) ty d).length = 30 + n.length + ty.length + d.length := by
    intro ty d
    have := withDefault_len_gen (n := avroName n) (ty := ty) (d := d)
      (show "{\"name\":\"".toList.length = 9 by decide)
      (show "\",\"type\":".toList.length = 9 by decide)
      (show ",\"default\":".toList.length = 11 by decide)
    rw [hname] at this
    exact this
  have hi : ∀ k, (intType k).length ≤ 50 := by intro k; cases k <;> decide
  have hf : ∀ k, (fltType k).length ≤ 50 := by intro k; cases k <;> decide
  have fin : ∀ (ty d : List Char), ty.length ≤ 100 → d.length ≤ 10 →
      0 < (withDefault (avroName n) ty d).length ∧
      (withDefault (avroName n) ty d).length ≤ n.length + 150 := by
    intro ty d h1 h2
    rw [hln]
    omega
  cases v with
  | int k v =>
    cases h
    have := hi k
    exact ⟨reads_withDefault n (reads_intType k) reads_zero, hst _ _,
      fin _ _ (by omega) (by decide)⟩
  | flt k t =>
    cases h
    have := hf k
    exact ⟨reads_withDefault n (reads_fltType k) reads_zeroPoint, hst _ _,
      fin _ _ (by omega) (by decide)⟩
  | chr c =>
    cases h
    exact ⟨reads_withDefault n (reads_logical (plain_of_all (by decide)) (plain_of_all (by decide))
      (by decide)) (reads_str (s := [' ']) (plain_of_all (by decide))), hst _ _,
      fin _ _ (by decide) (by decide)⟩
  | str s =>
    cases h
    exact ⟨reads_withDefault n (reads_strConst (plain_of_all (by decide)) (by decide))
      (reads_str (s := []) (plain_of_all (by decide))), hst _ _, fin _ _ (by decide) (by decide)⟩
  | ts sec usec =>
    cases h
    refine ⟨?_, ⟨'{', _, rfl, by decide, by decide, by decide⟩, ?_⟩
    · have e := tsField_gen (n := avroName n) (t :=
        "{\"type\":\"long\",\"logicalType\":\"timestamp-millis\"}".toList) lit1 lit2
      rw [e]
      refine reads_obj (l := [(("name".toList, '"' :: avroName n ++ ['"']), .str (avroName n)),
        (("type".toList, "{\"type\":\"long\",\"logicalType\":\"timestamp-millis\"}".toList),
          logical "long" "timestamp-millis")]) ?_
      intro p hp
      simp only [List.mem_cons, List.not_mem_nil, or_false] at hp
      rcases hp with rfl | rfl
      · exact ⟨kName, reads_str (avroName_plain n)⟩
      · exact ⟨kType, reads_logical (plain_of_all (by decide))
          (plain_of_all (by decide)) (by decide)⟩
    · have := tsField_len (n := avroName n) (t :=
          "{\"type\":\"long\",\"logicalType\":\"timestamp-millis\"}".toList)
        (show "{\"name\":\"".toList.length = 9 by decide)
        (show "\",\"type\":".toList.length = 9 by decide)
        (show "{\"type\":\"long\",\"logicalType\":\"timestamp-millis\"}".toList.length = 48
          by decide)
      rw [this, hname]
      constructor
      · exact Nat.lt_of_lt_of_le (by decide : 0 < 9 + 9 + 48 + 1) (Nat.le_add_right _ _)
      · show 9 + 9 + 48 + 1 + n.length ≤ n.length + 150
        clear this
        omega
  | ints k vs =>
    cases h
    have := hi k
    exact ⟨reads_withDefault n (reads_arrayOf (reads_intType k)) reads_empty, hst _ _,
      fin _ _ (by rw [arrayOf_length]; omega) (by decide)⟩
  | flts k ts =>
    cases h
    have := hf k
    exact ⟨reads_withDefault n (reads_arrayOf (reads_fltType k)) reads_empty, hst _ _,
      fin _ _ (by rw [arrayOf_length]; omega) (by decide)⟩
  | other => cases h

theorem fieldPiece_some {c : Col} (h : c.val ≠ .other) : ∃ p, fieldPiece c = some p := by
  obtain ⟨n, v⟩ := c
  cases v <;> first | exact ⟨_, rfl⟩ | exact absurd rfl h

theorem toAvro_ok {schema : List Char} {cols : List Col} (hs : Plain schema)
    (hl : schema.length ≤ 8000) (hc : ∀ c ∈ cols, c.val ≠ .other ∧ c.name.length ≤ 8000) :
    ∃ t, toAvro schema cols = .ok t ∧ Reads t (avroSchema schema cols) := by
  let f : Col → List Char := fun c => (fieldPiece c).getD []
  have hf : ∀ c ∈ cols, fieldPiece c = some (f c) := by
    intro c hcc
    obtain ⟨p, hp⟩ := fieldPiece_some (hc c hcc).1
    simp [f, hp]
  have h1 := prints_commas (ls := cols.map fun c => ([fieldPiece c], f c)) (by
    intro p hp
    obtain ⟨c, hcc, rfl⟩ := List.mem_map.mp hp
    have hr := reads_field (hf c hcc)
    have := (hc c hcc).2
    show Prints [fieldPiece c] (f c)
    rw [hf c hcc]
    exact prints_one (goodLen_small (by omega) (by omega)))
  simp only [List.map_map, Function.comp_def] at h1
  have g1 := prints_one (t := ['{']) (goodLen_small (by simp) (by simp))
  have l2 := len3 schema (show "\"name\":\"".toList.length = 8 by decide)
    (show "\",".toList.length = 2 by decide)
  have g2 := prints_one (t := "\"name\":\"".toList ++ schema ++ "\",".toList) (by
    rw [l2]
    clear l2
    exact goodLen_small (by omega) (by omega))
  have g3 := prints_one (t := "\"type\":\"record\",".toList) (goodLen_small (by decide) (by decide))
  have g4 := prints_one (t := "\"fields\":[".toList) (goodLen_small (by decide) (by decide))
  have g5 := prints_one (t := "]}".toList) (goodLen_small (by decide) (by decide))
  refine ⟨_, printAll_prints (((g1.append (g2.append (g3.append g4))).append h1).append g5), ?_⟩
  have hr := reads_arr (l := cols.map fun c => (f c, avroField c)) (by
    intro p hp
    obtain ⟨c, hcc, rfl⟩ := List.mem_map.mp hp
    exact (reads_field (hf c hcc)).1) (by
    intro p hp
    obtain ⟨c, hcc, rfl⟩ := List.mem_map.mp hp
    exact (reads_field (hf c hcc)).2.1)
  simp only [List.map_map, Function.comp_def] at hr
  have := reads_obj (l := [(("name".toList, '"' :: schema ++ ['"']), .str schema),
    (("type".toList, '"' :: "record".toList ++ ['"']), .str "record".toList),
    (("fields".toList, '[' :: joined (cols.map fun c => f c) ++ [']']),
      .arr (cols.map avroField))]) (by
    intro p hp
    simp only [List.mem_cons, List.not_mem_nil, or_false] at hp
    rcases hp with rfl | rfl | rfl
    · exact ⟨kName, reads_str hs⟩
    · exact ⟨kType, reads_str kRecord⟩
    · exact ⟨kFields, hr⟩)
  rw [avro_eq]
  exact this

end Verif.RowJson
