import Verif.Lemmas.NodeJson
/-
Detailed JSON text of a tree and reading it.
-/
namespace Conduit
open Spec Spec.Tree Schema Node Gen

/-! ### strings -/

theorem byte_cases {P : UInt8 → Prop} (h : ∀ k : Fin 256, P (UInt8.ofFin k)) (b : UInt8) : P b := by
  have := h b.toFin
  rwa [UInt8.ofFin_toFin] at this

theorem byte_char (b : UInt8) : charByte (byteChar b) = b := by
  refine byte_cases (P := fun b => charByte (byteChar b) = b) ?_ b
  decide +kernel

theorem bytes_chars (s : List UInt8) : (s.map byteChar).map charByte = s := by
  induction s with
  | nil => rfl
  | cons b s ih => rw [List.map_cons, List.map_cons, ih, byte_char]

theorem stringOK_char (b : UInt8) : b ≠ 0x5c ∧ (0x20 ≤ b ∨ b ∈ ([8, 9, 10, 12, 13] : List UInt8)) →
    byteChar b ≠ '\\' ∧ (0x20 ≤ (byteChar b).toNat ∨ byteChar b ∈ ['\n', '\t', '\x08', '\x0c', '\r']) ∧ b ≠ 0 := by
  refine byte_cases (P := fun b => b ≠ 0x5c ∧ (0x20 ≤ b ∨ b ∈ ([8, 9, 10, 12, 13] : List UInt8)) →
    byteChar b ≠ '\\' ∧ (0x20 ≤ (byteChar b).toNat ∨ byteChar b ∈ ['\n', '\t', '\x08', '\x0c', '\r']) ∧ b ≠ 0) ?_ b
  decide +kernel

theorem stringOK_text {s : List UInt8} (h : StringOK s) : JsonSafe (s.map byteChar) ∧ '\\' ∉ s.map byteChar ∧ 0 ∉ s := by
  refine ⟨?_, ?_, ?_⟩
  · intro c hc
    obtain ⟨b, hb, rfl⟩ := List.mem_map.1 hc
    exact (stringOK_char b (h b hb)).2.1
  · intro hc
    obtain ⟨b, hb, he⟩ := List.mem_map.1 hc
    exact (stringOK_char b (h b hb)).1 he
  · intro hc
    exact (stringOK_char 0 (h 0 hc)).2.2 rfl

theorem string_rep {s : List UInt8} (h : StringOK s) :
    Rep (.str (s.map byteChar)) (jsonLit (s.map byteChar)) ∧ Tame (.str (s.map byteChar)) := by
  obtain ⟨h1, h2, -⟩ := stringOK_text h
  exact ⟨⟨escape (s.map byteChar), rjString_escape _ [] h1, rfl⟩, fun hl => h2 (List.mem_of_getLast? hl)⟩

theorem string_text {m : Mem} {x : Info} {d : DataType} {s : List UInt8} (hid : d.id = .char8Str)
    (he : elems m x.data d = ((s ++ [0]).map (fun b => [b])).map (fun b : List UInt8 => b.map some))
    (hst : d.stride = 1 ∨ d.n ≤ 1) (h0 : 0 ∉ s) : asString x d m = .ok s := by
  have hn : d.n.toNat = s.length + 1 := by
    have := congrArg List.length he; simpa [elems] using this
  have hbyte : ∀ e : Nat, e < s.length + 1 → m.byteAt x.data (d.offset + d.stride * e) = (s ++ [0])[e]? := by
    intro e h
    have := congrArg (fun l => l[e]?) he
    simp only [elems, List.getElem?_map, List.getElem?_range (show e < d.n.toNat by omega), Option.map_some] at this
    rw [List.getElem?_eq_getElem (by simp; omega)] at this ⊢
    rw [hid] at this
    simpa [TypeId.bytes, List.range_succ] using this
  cases hx : x.data with
  | none =>
    have := hbyte 0 (by omega)
    rw [hx, List.getElem?_eq_getElem (by simp)] at this
    simp [Mem.byteAt] at this
  | some p =>
    rw [hx] at hbyte
    refine asString_of (p := p) hid hx (hst.imp id fun h => List.length_eq_zero_iff.1 (by omega)) h0 ?_
    intro e h
    rw [← hbyte e h]
    simp only [Mem.byteAt, DataType.elementIndex]
    congr 1; simp; omega

theorem inlineValue_str (L : Lib) (big : Bool) (s : Str) (x : Info) (d : DataType) (m : Mem) :
    inlineValue L big (.str s) (.leaf x d) m =
      (if d.id = .char8Str then (Node.leaf x d).setString ((unescape s).map charByte) m else .error) := rfl

theorem setString_same (s : List UInt8) (x : Info) (d : DataType) (m : Mem)
    (h : d.compatible (DataType.ofId .char8Str (s ++ [0]).length) = true) :
    (Node.leaf x d).setString s m = (do
      let m2 ← (if d.ele = 1 ∧ d.stride = 1 then m.store x.data (d.elementIndex 0) (s ++ [0])
        else if d.ele = 1 then storeElems x.data d.stride ((s ++ [0]).map (fun b => [b])) (d.elementIndex 0) m
        else .ub)
      .ok (m2, .leaf x d)) := by
  have hi : (Node.leaf x d).init (DataType.ofId .char8Str (s ++ [0]).length) m = .ok (m, .leaf x d) := by
    rw [init]; exact if_pos h
  unfold setString
  dsimp only
  rw [hi]; rfl

theorem tameL_map {f : List UInt8 → JV} : ∀ {es : List (List UInt8)}, (∀ b ∈ es, Tame (f b)) → TameL (es.map f)
  | [], _ => trivial
  | b :: es, h => ⟨h b (by simp), tameL_map (fun c hc => h c (by simp [hc]))⟩

theorem inline_string (L : Lib) (big : Bool) {d : DataType} (hid : d.id = .char8Str) (ho : d.offset = 0) (hs : d.stride = d.id.bytes)
    (hel : d.ele = d.id.bytes) {s : List UInt8} (hn : d.n = (s ++ [0]).length) (hok : StringOK s) (md : Mem) :
    ∃ m', inlineValue L big (.str (s.map byteChar)) (.leaf ⟨some ⟨md.length, 0⟩, true⟩ d)
          (md.alloc (d.id.bytes * ((s ++ [0]).map (fun b => [b])).length)).1 = .ok (m', .leaf ⟨some ⟨md.length, 0⟩, true⟩ d) ∧
      Built (fun _ => False) md m' (.leaf d.id d.endian (((s ++ [0]).map (fun b => [b])).map (fun b : List UInt8 => b.map some)))
        (.leaf ⟨some ⟨md.length, 0⟩, true⟩ d) := by
  obtain ⟨h1, h2, h3⟩ := stringOK_text hok
  have hd : DataId d.id := by rw [hid]; unfold DataId; decide
  obtain ⟨m', g1, g2⟩ := fill_run (fun _ => False) hd ho hs (es := (s ++ [0]).map (fun b => [b])) (by rw [hn]; simp)
    (by rw [hid]; exact stringElems s) md
  refine ⟨m', ?_, g2⟩
  rw [singles_flatten] at g1
  have hu : unescape (s.map byteChar) = s.map byteChar :=
    (unescape_eq_self_iff _).2 (fun h => h2 (List.dropLast_subset _ h))
  have hb : d.id.bytes = 1 := by rw [hid]; rfl
  have hc : d.compatible (DataType.ofId .char8Str (s ++ [0]).length) = true := by
    simp only [DataType.compatible, DataType.ofId, hel, hid, hn]
    simp
  have he : d.elementIndex 0 = 0 := by simp [DataType.elementIndex, ho]
  have hg : d.ele = 1 ∧ d.stride = 1 := by rw [hel, hs, hb]; exact ⟨rfl, rfl⟩
  rw [inlineValue_str, if_pos hid, hu, bytes_chars, setString_same _ _ _ _ hc, if_pos hg, he, g1, bind_ok]

/-! ### the members of a leaf -/

/-- the JSON value a leaf is printed as -/
def leafJV (big : Bool) (d : DataType) (v : JV) : JV :=
  .obj ((chars! "dtype", .str d.id.name) ::
    (if d.id = .empty then [(chars! "value", v)]
     else [(chars! "number_of_elements", .int d.n), (chars! "offset", .int d.offset),
       (chars! "stride", .int d.stride), (chars! "element_bytes", .int d.ele),
       (chars! "endianness", .str (Node.resolve big d.endian).name), (chars! "value", v)]))

theorem leafJson_rep (L : Lib) (big : Bool) (i : Nat) (pad eoe : Str) (hp : WS pad) (he : WS eoe) {m : Mem} {x : Info} {d : DataType}
    (depth : Nat) (h : Printable (.leaf d)) {v : JV} {tv : Str} (ht : leafText L big m x d = .ok tv) (hv : Rep v tv) :
    ∃ w t, WS w ∧ Rep (leafJV big d v) t ∧ leafJson L big true false i pad eoe m x d depth = .ok (w ++ t) := by
  obtain ⟨h1, h2, h3⟩ := h
  have w0 := ws_append he (ws_indent hp i depth)
  have w1 := ws_append he (ws_indent hp i (depth + 1))
  have nb : ∀ c : Char, JV.isWs c = false → c ∉ eoe ∧ ∀ k, c ∉ indentText i k pad := by
    intro c hc
    refine ⟨fun hm => ?_, fun k hm => ?_⟩
    · have := he c hm
      rw [hc] at this; cases this
    · have := ws_indent hp i k c hm
      rw [hc] at this; cases this
  obtain ⟨nb1, nb2⟩ := nb '}' (by decide)
  obtain ⟨nq1, nq2⟩ := nb '"' (by decide)
  have ni : ∀ k : Int, '}' ∉ intText k := by
    intro k hm
    unfold intText at hm
    split at hm
    · rcases List.mem_cons.1 hm with h | h
      · exact absurd h (by decide)
      · exact absurd (isDigit_toDigits h) (by decide)
    · exact absurd (isDigit_toDigits hm) (by decide)
  have hname : '}' ∉ d.id.name := by cases d.id <;> decide
  have c0 : CleanName (chars! "dtype") := by unfold CleanName; decide
  have c1 : CleanName (chars! "number_of_elements") := by unfold CleanName; decide
  have c2 : CleanName (chars! "offset") := by unfold CleanName; decide
  have c3 : CleanName (chars! "stride") := by unfold CleanName; decide
  have c4 : CleanName (chars! "element_bytes") := by unfold CleanName; decide
  have c5 : CleanName (chars! "endianness") := by unfold CleanName; decide
  have c6 : CleanName (chars! "value") := by unfold CleanName; decide
  have rv := repM_last c6 ws_one hv w0
  by_cases hem : d.id = .empty
  · have r0 := rep_obj w1 (repM_cons c0 ws_nil (rep_str (typeName_clean d.id)) ws_nil (by simp) w1 rv)
    refine ⟨_, _, w0, by rw [leafJV, if_pos hem]; exact r0, ?_⟩
    have htx : d.toJsonText big i pad eoe depth = ((eoe ++ indentText i depth pad ++ '{' :: eoe ++ indentText i (depth + 1) pad ++
        chars! "\"dtype\":\"" ++ d.id.name) ++ '"' :: (eoe ++ indentText i depth pad)) ++ '}' :: eoe := by
      simp [DataType.toJsonText, hem]
    rw [leafJson, if_neg (by simp), ht, bind_ok, if_pos rfl, htx, splitString_append]
    · simp only
      rw [rsplitString_append (by simp [nq1, nq2])]
      simp
    · simp [nb1, nb2, hname]
  · obtain ⟨i1, i2, i3, i4⟩ := h3 hem
    have hne : ¬ (d.id = .empty ∨ d.id = .object ∨ d.id = .list) := by simp [hem, h1, h2]
    have r5 := repM_cons c5 ws_one (rep_str (endianName_clean (Node.resolve big d.endian))) ws_nil (by simp) w1 rv
    have r4 := repM_cons c4 ws_one (rep_int i4) ws_nil (by simp) w1 r5
    have r3 := repM_cons c3 ws_one (rep_int i3) ws_nil (by simp) w1 r4
    have r2 := repM_cons c2 ws_one (rep_int i2) ws_nil (by simp) w1 r3
    have r1 := repM_cons c1 ws_one (rep_int i1) ws_nil (by simp) w1 r2
    have r0 := rep_obj w1 (repM_cons c0 ws_nil (rep_str (typeName_clean d.id)) ws_nil (by simp) w1 r1)
    have hen : '}' ∉ (Node.resolve big d.endian).name := by cases Node.resolve big d.endian <;> decide
    refine ⟨_, _, w0, by rw [leafJV, if_neg hem]; exact r0, ?_⟩
    have htx : d.toJsonText big i pad eoe depth = ((eoe ++ indentText i depth pad ++ '{' :: eoe ++ indentText i (depth + 1) pad ++
        chars! "\"dtype\":\"" ++ d.id.name ++ ['"'] ++
        ((',' :: (eoe ++ indentText i (depth + 1) pad)) ++ chars! "\"number_of_elements\": " ++ intText d.n ++
         (',' :: (eoe ++ indentText i (depth + 1) pad)) ++ chars! "\"offset\": " ++ intText d.offset ++
         (',' :: (eoe ++ indentText i (depth + 1) pad)) ++ chars! "\"stride\": " ++ intText d.stride ++
         (',' :: (eoe ++ indentText i (depth + 1) pad)) ++ chars! "\"element_bytes\": " ++ intText d.ele ++
         (',' :: (eoe ++ indentText i (depth + 1) pad)) ++ chars! "\"endianness\": \"" ++ (Node.resolve big d.endian).name)) ++
         '"' :: (eoe ++ indentText i depth pad)) ++ '}' :: eoe := by
      simp [DataType.toJsonText, if_neg hne]
    rw [leafJson, if_neg (by simp), ht, bind_ok, if_pos rfl, htx, splitString_append]
    · simp only
      rw [rsplitString_append (by simp [nq1, nq2])]
      simp
    · simp [nb1, nb2, hname, ni, hen]

theorem leafDtype_value (big : Bool) (d : DataType) (h : Printable (.leaf d)) (he : d.id ≠ .empty) (v : JV) (hv : d.n = 0 → v = .arr [])
    (off : Int) : ∃ ms name, leafJV big d v = .obj ms ∧ ms.lookup (chars! "dtype") = some (.str name) ∧
      ms.lookup (chars! "value") = some v ∧ ms.lookup (chars! "address") = none ∧
      leafDtype ms off = .ok { d with endian := Node.resolve big d.endian } := by
  obtain ⟨h1, h2, h3⟩ := h
  obtain ⟨⟨i1, i1'⟩, ⟨i2, i2'⟩, ⟨i3, i3'⟩, ⟨i4, i4'⟩⟩ := h3 he
  have hid : Gen.leafName d.id.name = .ok d.id := by
    cases hd : d.id <;> first | decide | simp_all
  have hres : Node.resolve big d.endian = .big ∨ Node.resolve big d.endian = .little := by
    unfold Node.resolve; split
    · unfold machineDefault; cases big <;> simp
    · cases hd : d.endian <;> simp_all
  have hu : ∀ i : Int, 0 ≤ i → i < 2 ^ 63 → Gen.getU64 (.int i) = .ok i := by
    intro i h1 h2
    rw [Gen.getU64, if_pos h1, Gen.toIndex, if_pos h2]
  refine ⟨_, d.id.name, by rw [leafJV, if_neg he], by simp [List.lookup], by simp [List.lookup], by simp [-List.lookup_eq_none_iff, List.lookup], ?_⟩
  have hen : Gen.endianMember [(chars! "dtype", .str d.id.name), (chars! "number_of_elements", .int d.n), (chars! "offset", .int d.offset),
     (chars! "stride", .int d.stride), (chars! "element_bytes", .int d.ele),
     (chars! "endianness", .str (Node.resolve big d.endian).name), (chars! "value", v)] = .ok (Node.resolve big d.endian) := by
    rcases hres with h | h <;> rw [h] <;> simp [Gen.endianMember, List.lookup, Endian.name]
  have hl : List.lookup (chars! "dtype") [(chars! "dtype", JV.str d.id.name), (chars! "number_of_elements", .int d.n), (chars! "offset", .int d.offset),
     (chars! "stride", .int d.stride), (chars! "element_bytes", .int d.ele),
     (chars! "endianness", .str (Node.resolve big d.endian).name), (chars! "value", v)] = some (JV.str d.id.name) := by simp [List.lookup]
  simp only [Gen.leafDtype, hen, hl, hid]
  by_cases hn : d.n = 0
  · rw [hv hn]
    simp [Gen.lengthMember, Gen.u64Member, List.lookup, hu _ i1 i1', hu _ i2 i2', hu _ i3 i3', hu _ i4 i4', hn,
      hu 0 (by decide) (by decide)]
  · simp [Gen.lengthMember, Gen.u64Member, List.lookup, hu _ i1 i1', hu _ i2 i2', hu _ i3 i3', hu _ i4 i4', hn]

/-- printing and reading one node -/
def NodeClaim (L : Lib) (big : Bool) (i : Nat) (pad eoe : Str) (m : Mem) (n : Node) : Prop :=
  ∀ depth, ∃ v w t, toJsonG L big true false i pad eoe m n depth = .ok (w ++ t) ∧ WS w ∧ Rep v t ∧ Tame v ∧ Container v ∧
    ∀ x off md, x.alloced = false → ∃ m' n', walkN L big false none v x off md = .ok (m', n') ∧
      Built (fun _ => False) md m' (named big (val m n)) n'

theorem leaf_claim (L : Lib) (big : Bool) (i : Nat) (pad eoe : Str) (hp : WS pad) (he : WS eoe) (m : Mem) (x : Info) (d : DataType)
    (hr : Readable m (.leaf x d)) (hpr : Printable (.leaf d)) (hs : DenseStrings (.leaf d)) (ht : TextSafe L big (val m (.leaf x d))) :
    NodeClaim L big i pad eoe m (.leaf x d) := by
  intro depth
  rw [toJsonG]
  have hnb : ∀ s : Str, CleanName s → s.getLast? ≠ some '\\' := fun s hs hl => (hs _ (List.mem_of_getLast? hl)).2.1 rfl
  have tame : ∀ v, Tame v → Tame (leafJV big d v) := by
    intro v hv
    unfold leafJV
    rw [Tame]
    split
    · exact ⟨by decide, hnb _ (typeName_clean d.id), by decide, hv, trivial⟩
    · exact ⟨by decide, hnb _ (typeName_clean d.id), by decide, trivial, by decide, trivial, by decide, trivial, by decide, trivial,
        by decide, hnb _ (endianName_clean _), by decide, hv, trivial⟩
  by_cases hem : d.id = .empty
  · obtain ⟨w, t, hw, hrep, hjs⟩ := leafJson_rep L big i pad eoe hp he (m := m) (x := x) depth hpr
      (tv := chars! "null") (v := .null) (by rw [leafText, if_pos hem]) rfl
    refine ⟨_, w, t, hjs, hw, hrep, tame _ trivial, trivial, ?_⟩
    intro y off md hy
    have hv : named big (val m (.leaf x d)) = .leaf .empty .default [] := by simp [val, hem, named]
    rw [hv, leafJV, if_pos hem, hem, walkN]
    have hleaf : leafExplicit L big false none [(chars! "dtype", JV.str TypeId.empty.name), (chars! "value", .null)] y off md =
        .ok (md, .leaf y {}) := by
      have hdt : leafDtype [(chars! "dtype", JV.str TypeId.empty.name), (chars! "value", .null)] off =
          .ok { id := .empty, n := 1, offset := off } := by
        simp [-List.lookup_eq_none_iff, Gen.leafDtype, Gen.lengthMember, Gen.u64Member, Gen.leafName, Gen.endianMember, TypeId.name, nameToId,
          List.lookup, Gen.cTypeNameToId, TypeId.bytes]
      obtain ⟨n, h1, h2⟩ := init_empty_none y ({ id := .empty, n := 1, offset := off } : DataType).compactTo md (by simp [DataId, DataType.compactTo])
      have hn : ∃ d', n = .leaf y d' ∧ d'.id = .empty := by
        rcases h2 with ⟨rfl, _⟩ | rfl
        · exact ⟨_, rfl, rfl⟩
        · exact ⟨_, rfl, rfl⟩
      obtain ⟨d', rfl, hd'⟩ := hn
      simp only [leafExplicit]
      rw [hdt, bind_ok]
      simp only [-List.lookup_eq_none_iff, List.lookup]
      rw [leafData, if_neg (by simp), h1, bind_ok]
      simp only [bind_ok, inlineValue, inlineLeaf, reset, releaseMem, freeOwn, releasedInfo, info, dtype, hd']
      simp
    refine ⟨md, .leaf y {}, ?_, ?_⟩
    · simpa [-List.lookup_eq_none_iff, List.lookup] using hleaf
    · refine ⟨rfl, ⟨by decide, by decide, by decide, fun h => absurd rfl h⟩, by simp [Spec.blocks], frame_refl md,
        ⟨⟨by simp [CleanInfo, hy], fun _ => hy⟩, ?_, ?_⟩⟩
      · simpa [owned, ownPtr, hy] using good_nil md
      · simp [owned, ownPtr, hy]
  · have hval : val m (.leaf x d) = .leaf d.id d.endian (elems m x.data d) := by simp [val, hem]
    rw [hval] at ht ⊢
    rw [TextSafe] at ht
    obtain ⟨es, hes, hok⟩ := ht.resolve_left hem
    have hd : DataId d.id := ⟨hem, hr.1, hr.2.1⟩
    have hn : d.n = es.length := by
      have := congrArg List.length hes
      have h0 := hr.2.2.1
      simp [elems] at this; omega
    have hpos := bytes_pos hd.1 hd.2.1 hd.2.2
    have hl : ∀ b ∈ es, b.length = d.id.bytes := by
      intro b hb
      obtain ⟨k, hk⟩ := List.mem_iff_getElem?.1 hb
      exact (load_elem hes hpos hk).1
    let src : DataType := { d with endian := Node.resolve big d.endian }
    -- the value and what becomes of it
    have key : ∃ v tv, leafText L big m x d = .ok tv ∧ Rep v tv ∧ Tame v ∧ (d.n = 0 → v = .arr []) ∧
        ∀ md : Mem, ∃ m', inlineValue L big v (.leaf ⟨some ⟨md.length, 0⟩, true⟩ src.compactTo) (md.alloc (d.id.bytes * es.length)).1 =
            .ok (m', .leaf ⟨some ⟨md.length, 0⟩, true⟩ src.compactTo) ∧
          Built (fun _ => False) md m' (.leaf d.id (Node.resolve big d.endian) (es.map (fun b => b.map some)))
            (.leaf ⟨some ⟨md.length, 0⟩, true⟩ src.compactTo) := by
      have num : (d.id.intTy.isSome ∨ ((d.id = .float32 ∨ d.id = .float64) ∧
          ∀ b ∈ es, FloatOK L d.id (es.length = 1) (pattern big b))) → _ := fun hok' =>
        inline_numbers L big (d := src.compactTo) rfl rfl rfl (es := es) hn hl hok'
      rcases hok with hok | hok | ⟨hid, s, rfl, hok⟩
      · have hnum : Numeric d.id := .inl hok
        obtain ⟨t, htt⟩ := Option.isSome_iff_exists.1 hok
        obtain ⟨tv, h1, h2⟩ := arrayText_rep L big hr.2.2.1 hes hnum (fun b _ => (int_rep L big htt b).1)
        refine ⟨_, tv, by rw [leafText, if_neg hem, if_neg (numeric_data hnum).2.2]; exact h1, h2, ?_, ?_, num (.inl hok)⟩
        · unfold arrayJV
          split
          · exact (int_rep L big htt _).2
          · rw [Tame]
            exact tameL_map (fun b _ => (int_rep L big htt b).2)
        · intro h0
          have : es = [] := List.length_eq_zero_iff.1 (by omega)
          subst this; rfl
      · have hnum : Numeric d.id := .inr hok.1
        obtain ⟨tv, h1, h2⟩ := arrayText_rep L big hr.2.2.1 hes hnum (fun b hb => (float_rep L big hok.1 (hok.2 b hb)).1)
        refine ⟨_, tv, by rw [leafText, if_neg hem, if_neg (numeric_data hnum).2.2]; exact h1, h2, ?_, ?_, num (.inr hok)⟩
        · unfold arrayJV
          have hall : ∀ b ∈ es, Tame (elemJV L big d.id b) := fun b hb => (float_rep L big hok.1 (hok.2 b hb)).2
          split
          · exact hall _ (by simp)
          · rw [Tame]
            exact tameL_map hall
        · intro h0
          have : es = [] := List.length_eq_zero_iff.1 (by omega)
          subst this; rfl
      · obtain ⟨g1, g2, g3⟩ := stringOK_text hok
        have hst := hs d (by simp [leaves]) hid
        obtain ⟨r1, r2⟩ := string_rep hok
        refine ⟨.str (s.map byteChar), jsonLit (s.map byteChar), ?_, r1, r2, ?_, ?_⟩
        · rw [leafText, if_neg hem, if_pos hid, string_text hid hes hst g3]; rfl
        · intro h0; rw [hn] at h0; simp at h0; omega
        · intro md
          exact inline_string L big (d := src.compactTo) hid rfl rfl rfl (by rw [show src.compactTo.n = d.n from rfl, hn]; simp) hok md
    obtain ⟨v, tv, k1, k2, k3, k4, k5⟩ := key
    obtain ⟨w, t, hw, hrep, hjs⟩ := leafJson_rep L big i pad eoe hp he (m := m) (x := x) depth hpr k1 k2
    refine ⟨_, w, t, hjs, hw, hrep, tame _ k3, trivial, ?_⟩
    intro y off md hy
    obtain ⟨ms, name, a1, a2, a3, a4, a5⟩ := leafDtype_value big d hpr hem v k4 off
    obtain ⟨m', b1, b2⟩ := k5 md
    refine ⟨m', _, ?_, by rw [named, if_neg hem, hes]; exact b2⟩
    have hsp : src.compactTo.spannedBytes = ((d.id.bytes * es.length : Nat) : Int) := by
      rw [spanned_compact]
      show (d.id.bytes : Int) * d.n = _
      rw [hn]; simp
    have hin := init_empty_data y src.compactTo md hd (by rw [hsp]; omega)
    rw [hsp, Int.toNat_natCast] at hin
    rw [a1, walkN, a2]
    simp only [leafExplicit]
    rw [a5, bind_ok, a4]
    simp only
    rw [leafData, if_neg (by simp)]
    show ((Node.leaf y {}).init src.compactTo md >>= fun r => Res.ok r) >>= _ = _
    rw [hin, bind_ok, bind_ok, a3]
    exact b1

end Conduit
