import Verif.Lemmas.Plain
import Verif.Model.Generator
namespace Conduit
open Spec

/-- the JSON value of a leaf -/
def dtypeJV (big : Bool) (d : DataType) : JV :=
  .obj ((chars! "dtype", .str d.id.name) ::
    (if d.id = .empty ∨ d.id = .object ∨ d.id = .list then []
     else [(chars! "number_of_elements", .int d.n), (chars! "offset", .int d.offset),
       (chars! "stride", .int d.stride), (chars! "element_bytes", .int d.ele),
       (chars! "endianness", .str (Node.resolve big d.endian).name)]))

mutual
/-- the JSON value a schema is printed as -/
def schemaJV (big : Bool) : Schema → JV
  | .leaf d => dtypeJV big d
  | .obj es => .obj (schemaJVE big es)
  | .lst cs => .arr (schemaJVL big cs)
def schemaJVE (big : Bool) : List (Str × Schema) → List (Str × JV)
  | [] => []
  | (n, c) :: es => (n, schemaJV big c) :: schemaJVE big es
def schemaJVL (big : Bool) : List Schema → List JV
  | [] => []
  | c :: cs => schemaJV big c :: schemaJVL big cs
end

theorem typeName_clean (id : TypeId) : CleanName id.name := by
  unfold CleanName; cases id <;> decide

theorem endianName_clean (e : Endian) : CleanName e.name := by
  unfold CleanName; cases e <;> decide

theorem ws_nil : WS [] := by intro c h; simp at h
theorem ws_one : WS [' '] := by intro c h; simp at h; subst h; decide
theorem ws_append {a b : Str} (ha : WS a) (hb : WS b) : WS (a ++ b) := by
  intro c h; rcases List.mem_append.1 h with h | h
  · exact ha c h
  · exact hb c h

theorem ws_indent {pad : Str} (h : WS pad) (i d : Nat) : WS (indentText i d pad) := by
  intro c hc
  simp only [indentText, List.mem_flatten, List.mem_replicate] at hc
  obtain ⟨l, ⟨_, rfl⟩, hc⟩ := hc
  simp only [List.mem_flatten, List.mem_replicate] at hc
  obtain ⟨l, ⟨_, rfl⟩, hc⟩ := hc
  exact h c hc

theorem index_range {i : Int} (h : Index i) : -(2 ^ 63) ≤ i ∧ i < 2 ^ 64 := by
  obtain ⟨h1, h2⟩ := h
  omega

theorem rep_str {s : Str} (h : CleanName s) : Rep (.str s) ('"' :: (s ++ ['"'])) := ⟨s, clean_rj h, rfl⟩
theorem rep_int {i : Int} (h : Index i) : Rep (.int i) (intText i) := ⟨(index_range h).1, (index_range h).2, rfl⟩

theorem dtype_rep (big : Bool) (d : DataType) (h : Printable (.leaf d)) : Rep (dtypeJV big d) (d.toJson big) := by
  obtain ⟨h1, h2, h3⟩ := h
  have hname := rep_str (typeName_clean d.id)
  have k1 : rjString ((chars! "dtype") ++ ['"']) = some (chars! "dtype", []) := by decide
  by_cases he : d.id = .empty
  · refine ⟨[], '"' :: ((chars! "dtype") ++ '"' :: ([] ++ ':' :: ([] ++ ('"' :: (d.id.name ++ ['"']) ++ [])))), ws_nil, ?_, ?_⟩
    · simp only [he, true_or, if_true]
      rw [he] at hname
      exact ⟨_, [], [], _, [], k1, ws_nil, ws_nil, hname, ws_nil, .inl ⟨rfl, rfl⟩⟩
    · simp [DataType.toJson, he]
  · obtain ⟨i1, i2, i3, i4⟩ := h3 he
    have hne : ¬ (d.id = .empty ∨ d.id = .object ∨ d.id = .list) := by simp [he, h1, h2]
    simp only [dtypeJV, DataType.toJson, if_neg hne]
    refine ⟨[], _, ws_nil, ⟨chars! "dtype", [], [], _, [], k1, ws_nil, ws_nil, hname, ws_nil, .inr ⟨by simp, [], _, ws_nil,
      ⟨chars! "number_of_elements", [], [' '], _, [], by decide, ws_nil, ws_one, rep_int i1, ws_nil, .inr ⟨by simp, [], _, ws_nil,
      ⟨chars! "offset", [], [' '], _, [], by decide, ws_nil, ws_one, rep_int i2, ws_nil, .inr ⟨by simp, [], _, ws_nil,
      ⟨chars! "stride", [], [' '], _, [], by decide, ws_nil, ws_one, rep_int i3, ws_nil, .inr ⟨by simp, [], _, ws_nil,
      ⟨chars! "element_bytes", [], [' '], _, [], by decide, ws_nil, ws_one, rep_int i4, ws_nil, .inr ⟨by simp, [], _, ws_nil,
      ⟨chars! "endianness", [], [' '], _, [], by decide, ws_nil, ws_one, rep_str (endianName_clean _), ws_nil, .inl ⟨rfl, rfl⟩⟩,
      rfl⟩⟩, rfl⟩⟩, rfl⟩⟩, rfl⟩⟩, rfl⟩⟩, ?_⟩
    simp

mutual
theorem toJson_rep (big : Bool) (i : Nat) (pad eoe : Str) (hp : WS pad) (he : WS eoe) :
    ∀ (s : Schema) (dep : Nat), Printable s →
    ∃ w t, WS w ∧ Rep (schemaJV big s) t ∧ Schema.toJson big i pad eoe s dep = w ++ t
  | .leaf d, dep, h => ⟨[], _, ws_nil, dtype_rep big d h, by simp [Schema.toJson]⟩
  | .obj es, dep, h => by
    obtain ⟨w, t, hw, ht, heq⟩ := toJsonE_rep big i pad eoe hp he es (dep + 1) (indentText i dep pad) (ws_indent hp _ _) h.2
    refine ⟨eoe ++ indentText i dep pad, '{' :: ((eoe ++ w) ++ (t ++ ['}'])), ws_append he (ws_indent hp _ _),
      ⟨eoe ++ w, t, ws_append he hw, ht, rfl⟩, ?_⟩
    have := congrArg (· ++ ['}']) heq
    simp only [List.append_assoc] at this
    simp [Schema.toJson, this]
  | .lst cs, dep, h => by
    obtain ⟨w, t, hw, ht, heq⟩ := toJsonL_rep big i pad eoe hp he cs (dep + 1) (indentText i dep pad) (ws_indent hp _ _) h
    refine ⟨eoe ++ indentText i dep pad, '[' :: ((eoe ++ w) ++ (t ++ [']'])), ws_append he (ws_indent hp _ _),
      ⟨eoe ++ w, t, ws_append he hw, ht, rfl⟩, ?_⟩
    have := congrArg (· ++ [']']) heq
    simp only [List.append_assoc] at this
    simp [Schema.toJson, this]
theorem toJsonE_rep (big : Bool) (i : Nat) (pad eoe : Str) (hp : WS pad) (he : WS eoe) :
    ∀ (es : List (Str × Schema)) (dep : Nat) (tr : Str), WS tr → PrintableE es →
    ∃ w t, WS w ∧ RepM (schemaJVE big es) t ∧ Schema.toJsonE big i pad eoe es dep ++ tr = w ++ t
  | [], dep, tr, htr, _ => ⟨tr, [], htr, rfl, by simp [Schema.toJsonE]⟩
  | [(n, c)], dep, tr, htr, h => by
    obtain ⟨hn, hd, hc, _⟩ := h
    obtain ⟨wv, tv, hwv, htv, hv⟩ := toJson_rep big i pad eoe hp he c dep hc
    refine ⟨indentText i dep pad, _, ws_indent hp _ _, ⟨n, [], ' ' :: wv, tv, eoe ++ tr, clean_rj hn, ws_nil,
      ws_append ws_one hwv, htv, ws_append he htr, .inl ⟨rfl, rfl⟩⟩, ?_⟩
    simp [Schema.toJsonE, sepText, hv]
  | (n, c) :: (n', c') :: es, dep, tr, htr, h => by
    obtain ⟨hn, hd, hc, hes⟩ := h
    obtain ⟨wv, tv, hwv, htv, hv⟩ := toJson_rep big i pad eoe hp he c dep hc
    obtain ⟨w, t, hw, ht, heq⟩ := toJsonE_rep big i pad eoe hp he ((n', c') :: es) dep tr htr hes
    refine ⟨indentText i dep pad, _, ws_indent hp _ _, ⟨n, [], ' ' :: wv, tv, [], clean_rj hn, ws_nil,
      ws_append ws_one hwv, htv, ws_nil, .inr ⟨by simp [schemaJVE], eoe ++ w, t, ws_append he hw, ht, rfl⟩⟩, ?_⟩
    rw [Schema.toJsonE, hv]
    simp [sepText, heq]
theorem toJsonL_rep (big : Bool) (i : Nat) (pad eoe : Str) (hp : WS pad) (he : WS eoe) :
    ∀ (cs : List Schema) (dep : Nat) (tr : Str), WS tr → PrintableL cs →
    ∃ w t, WS w ∧ RepL (schemaJVL big cs) t ∧ Schema.toJsonL big i pad eoe cs dep ++ tr = w ++ t
  | [], dep, tr, htr, _ => ⟨tr, [], htr, rfl, by simp [Schema.toJsonL]⟩
  | [c], dep, tr, htr, h => by
    obtain ⟨wv, tv, hwv, htv, hv⟩ := toJson_rep big i pad eoe hp he c dep h.1
    refine ⟨indentText i dep pad ++ wv, _, ws_append (ws_indent hp _ _) hwv, ⟨tv, eoe ++ tr, htv,
      ws_append he htr, .inl ⟨rfl, rfl⟩⟩, ?_⟩
    simp [Schema.toJsonL, sepText, hv]
  | c :: c' :: cs, dep, tr, htr, h => by
    obtain ⟨wv, tv, hwv, htv, hv⟩ := toJson_rep big i pad eoe hp he c dep h.1
    obtain ⟨w, t, hw, ht, heq⟩ := toJsonL_rep big i pad eoe hp he (c' :: cs) dep tr htr h.2
    refine ⟨indentText i dep pad ++ wv, _, ws_append (ws_indent hp _ _) hwv, ⟨tv, [], htv, ws_nil,
      .inr ⟨by simp [schemaJVL], eoe ++ w, t, ws_append he hw, ht, rfl⟩⟩, ?_⟩
    rw [Schema.toJsonL, hv]
    simp [sepText, heq]
end

theorem plain_char (c : Char) {t : Str} (ht : Plain t) (h : c ≠ '"' ∧ c ≠ '/' ∧ c ≠ '\\' ∧ c ≠ '\x00' ∧ checkWordChar c = false) :
    Plain (c :: t) := .sym c t h.1 h.2.1 h.2.2.1 h.2.2.2.1 h.2.2.2.2 ht

theorem plain_key (n : Str) (hn : CleanName n) {t : Str} (ht : Plain t) : Plain ('"' :: (n ++ '"' :: t)) :=
  plain_lit hn ht

theorem plain_dtype (big : Bool) (d : DataType) : Plain (d.toJson big) := by
  unfold DataType.toJson
  have one : Plain ['}'] := plain_char _ .nil (by decide)
  split
  · have := plain_char '{' (plain_key (chars! "dtype") (by unfold CleanName; decide) (plain_char ':'
      (plain_key _ (typeName_clean d.id) one) (by decide))) (by decide)
    simpa using this
  · have := plain_char '{' (plain_key (chars! "dtype") (by unfold CleanName; decide) (plain_char ':'
      (plain_key _ (typeName_clean d.id) (plain_char ','
      (plain_key (chars! "number_of_elements") (by unfold CleanName; decide) (plain_char ':' (plain_char ' '
      ((plain_int d.n).append (plain_char ','
      (plain_key (chars! "offset") (by unfold CleanName; decide) (plain_char ':' (plain_char ' '
      ((plain_int d.offset).append (plain_char ','
      (plain_key (chars! "stride") (by unfold CleanName; decide) (plain_char ':' (plain_char ' '
      ((plain_int d.stride).append (plain_char ','
      (plain_key (chars! "element_bytes") (by unfold CleanName; decide) (plain_char ':' (plain_char ' '
      ((plain_int d.ele).append (plain_char ','
      (plain_key (chars! "endianness") (by unfold CleanName; decide) (plain_char ':' (plain_char ' '
      (plain_key _ (endianName_clean (Node.resolve big d.endian)) one)
      (by decide)) (by decide)))
      (by decide))) (by decide)) (by decide)))
      (by decide))) (by decide)) (by decide)))
      (by decide))) (by decide)) (by decide)))
      (by decide))) (by decide)) (by decide)))
      (by decide))) (by decide))) (by decide)
    simpa using this

mutual
theorem plain_toJson (big : Bool) (i : Nat) (pad eoe : Str) (hp : WS pad) (he : WS eoe) :
    ∀ (s : Schema) (dep : Nat), Printable s → Plain (Schema.toJson big i pad eoe s dep)
  | .leaf d, dep, h => plain_dtype big d
  | .obj es, dep, h => by
    have := (plain_ws he).append ((plain_ws (ws_indent hp i dep)).append (plain_char '{' ((plain_ws he).append
      ((plain_toJsonE big i pad eoe hp he es (dep + 1) h.2).append ((plain_ws (ws_indent hp i dep)).append
      (plain_char '}' .nil (by decide))))) (by decide)))
    simpa [Schema.toJson] using this
  | .lst cs, dep, h => by
    have := (plain_ws he).append ((plain_ws (ws_indent hp i dep)).append (plain_char '[' ((plain_ws he).append
      ((plain_toJsonL big i pad eoe hp he cs (dep + 1) h).append ((plain_ws (ws_indent hp i dep)).append
      (plain_char ']' .nil (by decide))))) (by decide)))
    simpa [Schema.toJson] using this
theorem plain_toJsonE (big : Bool) (i : Nat) (pad eoe : Str) (hp : WS pad) (he : WS eoe) :
    ∀ (es : List (Str × Schema)) (dep : Nat), PrintableE es → Plain (Schema.toJsonE big i pad eoe es dep)
  | [], dep, _ => .nil
  | (n, c) :: es, dep, h => by
    have hc : Plain (sepText es) := by
      unfold sepText; split
      · exact .nil
      · exact plain_char ',' .nil (by decide)
    have := (plain_ws (ws_indent hp i dep)).append (plain_key n h.1 (plain_char ':' (plain_char ' '
      ((plain_toJson big i pad eoe hp he c dep h.2.2.1).append (hc.append ((plain_ws he).append
      (plain_toJsonE big i pad eoe hp he es dep h.2.2.2)))) (by decide)) (by decide)))
    rw [Schema.toJsonE]
    simpa using this
theorem plain_toJsonL (big : Bool) (i : Nat) (pad eoe : Str) (hp : WS pad) (he : WS eoe) :
    ∀ (cs : List Schema) (dep : Nat), PrintableL cs → Plain (Schema.toJsonL big i pad eoe cs dep)
  | [], dep, _ => .nil
  | c :: cs, dep, h => by
    have hc : Plain (sepText cs) := by
      unfold sepText; split
      · exact .nil
      · exact plain_char ',' .nil (by decide)
    have := (plain_ws (ws_indent hp i dep)).append
      ((plain_toJson big i pad eoe hp he c dep h.1).append (hc.append ((plain_ws he).append
      (plain_toJsonL big i pad eoe hp he cs dep h.2))))
    rw [Schema.toJsonL]
    simpa using this
end

theorem toJson_head (big : Bool) (i : Nat) (pad eoe : Str) (hp : WS pad) (he : WS eoe) (s : Schema) (dep : Nat) :
    (Schema.toJson big i pad eoe s dep).head? ≠ some '"' := by
  have key : ∀ (w : Str) (c : Char) (r : Str), WS w → c ≠ '"' → (w ++ c :: r).head? ≠ some '"' := by
    intro w c r hw hc
    cases w with
    | nil => simpa using hc
    | cons x w =>
      have := hw x (by simp)
      simp; rintro rfl; exact absurd this (by decide)
  cases s with
  | leaf d => simp [Schema.toJson, DataType.toJson]
  | obj es =>
    have := key (eoe ++ indentText i dep pad) '{' (eoe ++
      Schema.toJsonE big i pad eoe es (dep + 1) ++ indentText i dep pad ++ ['}']) (ws_append he (ws_indent hp _ _)) (by decide)
    simpa only [Schema.toJson, List.append_assoc, List.cons_append, List.nil_append] using this
  | lst es =>
    have := key (eoe ++ indentText i dep pad) '[' (eoe ++
      Schema.toJsonL big i pad eoe es (dep + 1) ++ indentText i dep pad ++ [']']) (ws_append he (ws_indent hp _ _)) (by decide)
    simpa only [Schema.toJson, List.append_assoc, List.cons_append, List.nil_append] using this

/-- reading back the leaf -/
theorem leafDtype_read (big : Bool) (d : DataType) (h : Printable (.leaf d)) (init : Schema) (off : Int) :
    Gen.walkS (dtypeJV big d) init off = .ok (readBack big (.leaf d) off) := by
  obtain ⟨h1, h2, h3⟩ := h
  by_cases he : d.id = .empty
  · rw [dtypeJV, he, Gen.walkS]
    simp [Gen.leafDtype, Gen.lengthMember, Gen.u64Member, Gen.leafName, Gen.endianMember, TypeId.name, nameToId,
      List.lookup, Gen.cTypeNameToId, readBack, he, Tree.setDtype, TypeId.bytes]
  · obtain ⟨⟨i1, i1'⟩, ⟨i2, i2'⟩, ⟨i3, i3'⟩, ⟨i4, i4'⟩⟩ := h3 he
    have hne : ¬ (d.id = .empty ∨ d.id = .object ∨ d.id = .list) := by simp [he, h1, h2]
    have hid : Gen.leafName d.id.name = .ok d.id := by
      cases hd : d.id <;> first | decide | simp_all
    have hres : Node.resolve big d.endian = .big ∨ Node.resolve big d.endian = .little := by
      unfold Node.resolve; split
      · unfold machineDefault; cases big <;> simp
      · cases hd : d.endian <;> simp_all
    have hu : ∀ i : Int, 0 ≤ i → i < 2 ^ 63 → Gen.getU64 (.int i) = .ok i := by
      intro i h1 h2
      rw [Gen.getU64, if_pos h1, Gen.toIndex, if_pos h2]
    have hen : Gen.endianMember [(chars! "dtype", .str d.id.name), (chars! "number_of_elements", .int d.n), (chars! "offset", .int d.offset),
       (chars! "stride", .int d.stride), (chars! "element_bytes", .int d.ele),
       (chars! "endianness", .str (Node.resolve big d.endian).name)] = .ok (Node.resolve big d.endian) := by
      rcases hres with h | h <;> rw [h] <;> simp [Gen.endianMember, List.lookup, Endian.name]
    rw [dtypeJV, if_neg hne, Gen.walkS]
    have hl : List.lookup (chars! "dtype") [(chars! "dtype", JV.str d.id.name), (chars! "number_of_elements", .int d.n), (chars! "offset", .int d.offset),
       (chars! "stride", .int d.stride), (chars! "element_bytes", .int d.ele),
       (chars! "endianness", .str (Node.resolve big d.endian).name)] = some (JV.str d.id.name) := by simp [List.lookup]
    simp only [hl]
    simp only [Gen.leafDtype, hen, hl, hid]
    have hn : (if d.n = 0 then (0 : Int) else d.n) = d.n := by split <;> simp_all
    simp [Gen.lengthMember, Gen.u64Member, List.lookup, hu _ i1 i1', hu _ i2 i2', hu _ i3 i3', hu _ i4 i4', hn, readBack, he]
    unfold Tree.setDtype
    split
    · exact absurd ‹_› h1
    · exact absurd ‹_› h2
    · rfl

theorem schemaJVE_keys (big : Bool) (es : List (Str × Schema)) : (schemaJVE big es).map (·.1) = es.map (·.1) := by
  induction es with
  | nil => rfl
  | cons e es ih => simp [schemaJVE, ih]

theorem lookup_none_of_not_mem {α : Type} {n : Str} {l : List (Str × α)} (h : n ∉ l.map (·.1)) : l.lookup n = none := by
  induction l with
  | nil => rfl
  | cons e l ih =>
    rw [List.map_cons, List.mem_cons, not_or] at h
    obtain ⟨k, v⟩ := e
    rw [List.lookup_cons]
    have : (n == k) = false := by simpa using h.1
    simp only [this]
    exact ih h.2

theorem no_dtype {es : List (Str × Schema)} (h : PrintableE es) : (chars! "dtype") ∉ es.map (·.1) := by
  induction es with
  | nil => simp
  | cons e es ih =>
    have := ih h.2.2.2
    simp only [List.map_cons, List.mem_cons, not_or]
    exact ⟨fun he => h.2.1 he.symm, this⟩

mutual
theorem walkS_read (big : Bool) : ∀ (s : Schema) (init : Schema) (off : Int), Printable s →
    Gen.walkS (schemaJV big s) init off = .ok (readBack big s off)
  | .leaf d, init, off, h => leafDtype_read big d h init off
  | .obj es, init, off, h => by
    rw [schemaJV, Gen.walkS]
    have hl : (schemaJVE big es).lookup (chars! "dtype") = none :=
      lookup_none_of_not_mem (by rw [schemaJVE_keys]; exact no_dtype h.2)
    simp only [hl]
    rw [objLoop_read big es [] off h.2 (by simpa using h.1)]
    rfl
  | .lst cs, init, off, h => by
    rw [schemaJV, Gen.walkS]
    rw [lstLoop_read big cs [] off h]
    rfl
theorem objLoop_read (big : Bool) : ∀ (es acc : List (Str × Schema)) (off : Int), PrintableE es →
    (acc.map (·.1) ++ es.map (·.1)).Nodup →
    Gen.objLoop acc off (Gen.walkSM (schemaJVE big es)) = .ok (acc ++ readBackE big es off)
  | [], acc, off, _, _ => by simp [schemaJVE, Gen.walkSM, Gen.objLoop, readBackE]
  | (n, c) :: es, acc, off, h, hnd => by
    rw [schemaJVE, Gen.walkSM, Gen.objLoop, walkS_read big c _ off h.2.2.1]
    have hn : n ∉ acc.map (·.1) := by
      intro hm
      rw [List.nodup_append] at hnd
      exact hnd.2.2 n hm n (by simp) rfl
    have hp : Gen.putChild acc n (readBack big c off) = acc ++ [(n, readBack big c off)] := by
      rw [Gen.putChild, if_neg hn]
    simp only [hp]
    rw [objLoop_read big es _ _ h.2.2.2 (by simpa using hnd)]
    simp [readBackE]
theorem lstLoop_read (big : Bool) : ∀ (cs acc : List Schema) (off : Int), PrintableL cs →
    Gen.lstLoop acc off (Gen.walkSL (schemaJVL big cs)) = .ok (acc ++ readBackL big cs off)
  | [], acc, off, _ => by simp [schemaJVL, Gen.walkSL, Gen.lstLoop, readBackL]
  | c :: cs, acc, off, h => by
    rw [schemaJVL, Gen.walkSL, Gen.lstLoop, walkS_read big c _ off h.1]
    simp only
    rw [lstLoop_read big cs _ _ h.2]
    simp [readBackL]
end

mutual
theorem readBack_form (big : Bool) : ∀ (s : Schema) (off : Int), jsonForm big (readBack big s off) = jsonForm big s
  | .leaf d, off => by
    rw [readBack]
    split
    · rename_i h; simp [jsonForm, h]
    · rename_i h; simp [jsonForm, h]
      unfold Node.resolve
      split
      · cases big <;> rfl
      · rfl
  | .obj es, off => by rw [readBack, jsonForm, jsonForm, readBackE_form]
  | .lst cs, off => by rw [readBack, jsonForm, jsonForm, readBackL_form]
theorem readBackE_form (big : Bool) : ∀ (es : List (Str × Schema)) (off : Int),
    jsonFormE big (readBackE big es off) = jsonFormE big es
  | [], off => rfl
  | (n, c) :: es, off => by rw [readBackE, jsonFormE, jsonFormE, readBack_form, readBackE_form]
theorem readBackL_form (big : Bool) : ∀ (cs : List Schema) (off : Int),
    jsonFormL big (readBackL big cs off) = jsonFormL big cs
  | [], off => rfl
  | c :: cs, off => by rw [readBackL, jsonFormL, jsonFormL, readBack_form, readBackL_form]
end

mutual
theorem readBack_definite (big : Bool) : ∀ (s : Schema) (off : Int), Definite s → readBack big s off = s
  | .leaf d, off, h => by
    rw [readBack, if_neg h.1]
    unfold Node.resolve
    rw [if_neg h.2]
  | .obj es, off, h => by rw [readBack, readBackE_definite big es off h]
  | .lst cs, off, h => by rw [readBack, readBackL_definite big cs off h]
theorem readBackE_definite (big : Bool) : ∀ (es : List (Str × Schema)) (off : Int), DefiniteE es → readBackE big es off = es
  | [], off, _ => rfl
  | (n, c) :: es, off, h => by rw [readBackE, readBack_definite big c off h.1, readBackE_definite big es _ h.2]
theorem readBackL_definite (big : Bool) : ∀ (cs : List Schema) (off : Int), DefiniteL cs → readBackL big cs off = cs
  | [], off, _ => rfl
  | c :: cs, off, h => by rw [readBackL, readBack_definite big c off h.1, readBackL_definite big cs _ h.2]
end

theorem parseSchema_read (big : Bool) (i : Nat) (pad eoe : Str) (hp : WS pad) (he : WS eoe) (s : Schema) (dep : Nat)
    (h : Printable s) : Gen.parseSchema (Schema.toJson big i pad eoe s dep) = .ok (readBack big s 0) := by
  have hpl := plain_toJson big i pad eoe hp he s dep h
  rw [Gen.parseSchema, hpl.sanitize (toJson_head big i pad eoe hp he s dep)]
  obtain ⟨w, t, hw, ht, heq⟩ := toJson_rep big i pad eoe hp he s dep h
  have h0 := hpl.no_nul
  rw [heq] at h0 ⊢
  have := parseDoc_rep ht hw ws_nil (by simpa using h0)
  rw [List.append_nil] at this
  rw [this]
  exact walkS_read big s _ 0 h

end Conduit
