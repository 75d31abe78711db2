import Verif.Lemmas.PureJson
/-
Printing plain JSON (protocol json).
-/
namespace Conduit
open Spec Spec.Tree Schema Node Gen

theorem cast_value {id : TypeId} {t : IntTy} (h : id.intTy = some t) {b : List UInt8} (hl : b.length = id.bytes) (big : Bool) :
    t.cast (machineNat big b) = intValue (isSigned id) id.bytes (pattern big b) := by
  have := machineNat_lt big b
  rw [hl] at this
  rw [pattern_eq]
  exact cast_pattern h this

theorem elemDoc_eq (L : Lib) (big : Bool) {id : TypeId} (hn : Numeric id) {b : List UInt8} (hl : b.length = id.bytes) :
    elemDoc L big id (b.map some) = elemJV L big id b := by
  have hb : (b.map some).map (·.getD 0) = b := by
    rw [List.map_map]; simp [Function.comp_def]
  unfold elemDoc elemJV
  simp only [hb]
  rcases hn with h | h
  · obtain ⟨t, ht⟩ := Option.isSome_iff_exists.1 h
    rw [ht, if_neg (by rintro (h | h) <;> rw [h] at ht <;> cases ht)]
    simp only
    rw [cast_value ht hl]
  · rw [if_pos h]
    have : id.intTy = none := by rcases h with rfl | rfl <;> rfl
    rw [this]

theorem docOf_array (L : Lib) (big : Bool) {id : TypeId} (e : Endian) (hn : Numeric id) {es : List (List UInt8)} (hl : ∀ b ∈ es, b.length = id.bytes) :
    docOf L big (.leaf id e (es.map (fun b => b.map some))) = arrayJV L big id es := by
  obtain ⟨h1, -, h3⟩ := numeric_data hn
  unfold docOf leafDoc
  rw [if_neg h1.1, if_neg h3]
  match es, hl with
  | [], _ => rfl
  | [b], hl => exact elemDoc_eq L big hn (hl b (by simp))
  | a :: b :: es, hl =>
    simp only [List.map_cons, arrayJV]
    rw [elemDoc_eq L big hn (hl a (by simp)), elemDoc_eq L big hn (hl b (by simp)), List.map_map]
    congr 3
    exact List.map_congr_left (fun c hc => elemDoc_eq L big hn (hl c (by simp [hc])))

theorem docOf_string (L : Lib) (big : Bool) (e : Endian) (s : List UInt8) :
    docOf L big (.leaf .char8Str e (((s ++ [0]).map (fun b => [b])).map (fun b : List UInt8 => b.map some))) = .str (s.map byteChar) := by
  unfold docOf leafDoc
  rw [if_neg (by decide), if_pos rfl]
  simp [Function.comp_def]

/-- printing one node -/
def PlainClaim (L : Lib) (big : Bool) (i : Nat) (pad eoe : Str) (m : Mem) (n : Node) : Prop :=
  ∀ depth, ∃ w t, toJsonG L big false false i pad eoe m n depth = .ok (w ++ t) ∧ WS w ∧ Rep (docOf L big (val m n)) t ∧
    Tame (docOf L big (val m n))

theorem plain_leaf (L : Lib) (big : Bool) (i : Nat) (pad eoe : Str) (m : Mem) (x : Info) (d : DataType)
    (hr : Readable m (.leaf x d)) (hs : DenseStrings (.leaf d)) (ht : TextSafe L big (val m (.leaf x d))) :
    PlainClaim L big i pad eoe m (.leaf x d) := by
  intro depth
  have hj : ∀ tv, leafText L big m x d = .ok tv → toJsonG L big false false i pad eoe m (.leaf x d) depth = .ok ([] ++ tv) := by
    intro tv h
    rw [toJsonG, leafJson, if_neg (by simp), h, bind_ok, if_neg (by simp)]; rfl
  by_cases hem : d.id = .empty
  · refine ⟨[], chars! "null", hj _ (by rw [leafText, if_pos hem]), ws_nil, ?_, ?_⟩
    · simp only [val, hem]; rfl
    · simp only [val, hem]; exact trivial
  · have hval : val m (.leaf x d) = .leaf d.id d.endian (elems m x.data d) := by simp [val, hem]
    rw [hval] at ht ⊢
    rw [TextSafe] at ht
    obtain ⟨es, hes, hok⟩ := ht.resolve_left hem
    have hd : DataId d.id := ⟨hem, hr.1, hr.2.1⟩
    have hpos := bytes_pos hd.1 hd.2.1 hd.2.2
    have hl : ∀ b ∈ es, b.length = d.id.bytes := by
      intro b hb
      obtain ⟨k, hk⟩ := List.mem_iff_getElem?.1 hb
      exact (load_elem hes hpos hk).1
    have tame : (∀ b ∈ es, Tame (elemJV L big d.id b)) → Tame (arrayJV L big d.id es) := by
      intro h
      unfold arrayJV
      split
      · exact h _ (by simp)
      · rw [Tame]; exact tameL_map h
    rw [hes]
    rcases hok with hok | hok | ⟨hid, s, rfl, hok⟩
    · have hnum : Numeric d.id := .inl hok
      obtain ⟨t, htt⟩ := Option.isSome_iff_exists.1 hok
      obtain ⟨tv, h1, h2⟩ := arrayText_rep L big hr.2.2.1 hes hnum (fun b _ => (int_rep L big htt b).1)
      rw [docOf_array L big d.endian hnum hl]
      exact ⟨[], tv, hj tv (by rw [leafText, if_neg hem, if_neg (numeric_data hnum).2.2]; exact h1), ws_nil, h2,
        tame (fun b _ => (int_rep L big htt b).2)⟩
    · have hnum : Numeric d.id := .inr hok.1
      obtain ⟨tv, h1, h2⟩ := arrayText_rep L big hr.2.2.1 hes hnum (fun b hb => (float_rep L big hok.1 (hok.2 b hb)).1)
      rw [docOf_array L big d.endian hnum hl]
      exact ⟨[], tv, hj tv (by rw [leafText, if_neg hem, if_neg (numeric_data hnum).2.2]; exact h1), ws_nil, h2,
        tame (fun b hb => (float_rep L big hok.1 (hok.2 b hb)).2)⟩
    · obtain ⟨g1, g2, g3⟩ := stringOK_text hok
      have hst := hs d (by simp [leaves]) hid
      obtain ⟨r1, r2⟩ := string_rep hok
      rw [hid, docOf_string]
      exact ⟨[], jsonLit (s.map byteChar), hj _ (by rw [leafText, if_neg hem, if_pos hid, string_text hid hes hst g3]; rfl), ws_nil, r1, r2⟩

mutual
theorem plain_claim (L : Lib) (big : Bool) (i : Nat) (pad eoe : Str) (hp : WS pad) (he : WS eoe) (m : Mem) :
    ∀ n : Node, Readable m n → Printable n.schema → DenseStrings n.schema → TextSafe L big (val m n) →
    PlainClaim L big i pad eoe m n
  | .leaf x d, hr, hpr, hs, ht => plain_leaf L big i pad eoe m x d hr hs ht
  | .obj x es, hr, hpr, hs, ht => by
    intro depth
    have hpr' : ((schemaE es).map (·.1)).Nodup ∧ PrintableE (schemaE es) := hpr
    obtain ⟨w, t, ts, h1, h2, h3, h4, h5⟩ := plain_claimE L big i pad eoe hp he m es hr hpr'.2
      (fun d hd => hs d (by simpa [Node.schema, leaves] using hd)) ht (depth + 1)
      (indentText i depth pad) (ws_indent hp _ _)
    refine ⟨eoe ++ indentText i depth pad, '{' :: ((eoe ++ w) ++ (t ++ ['}'])), ?_, ws_append he (ws_indent hp _ _),
      ⟨eoe ++ w, t, ws_append he h3, h4, rfl⟩, h5⟩
    rw [toJsonG, h1]
    have := congrArg (· ++ ['}']) h2
    simp only [List.append_assoc] at this
    simp [Res.map', this]
  | .lst x cs, hr, hpr, hs, ht => by
    intro depth
    obtain ⟨w, t, ts, h1, h2, h3, h4, h5⟩ := plain_claimL L big i pad eoe hp he m cs hr hpr
      (fun d hd => hs d (by simpa [Node.schema, leaves] using hd)) ht (depth + 1)
      (indentText i depth pad) (ws_indent hp _ _)
    refine ⟨eoe ++ indentText i depth pad, '[' :: ((eoe ++ w) ++ (t ++ [']'])), ?_, ws_append he (ws_indent hp _ _),
      ⟨eoe ++ w, t, ws_append he h3, h4, rfl⟩, h5⟩
    rw [toJsonG, h1]
    have := congrArg (· ++ [']']) h2
    simp only [List.append_assoc] at this
    simp [Res.map', this]
theorem plain_claimE (L : Lib) (big : Bool) (i : Nat) (pad eoe : Str) (hp : WS pad) (he : WS eoe) (m : Mem) :
    ∀ es : List (Str × Node), ReadableE m es → PrintableE (schemaE es) → (∀ d ∈ leavesE (schemaE es), d.id = .char8Str → d.stride = 1 ∨ d.n ≤ 1) →
    TextSafeE L big (valE m es) → ∀ depth tr, WS tr → ∃ w t ts, toJsonGE L big false false i pad eoe m es depth = .ok ts ∧ ts ++ tr = w ++ t ∧ WS w ∧
    RepM (docOfE L big (valE m es)) t ∧ TameM (docOfE L big (valE m es))
  | [], _, _, _, _ => fun depth tr htr => ⟨tr, [], [], rfl, by simp, htr, rfl, trivial⟩
  | (n, c) :: es, hr, hpr, hs, ht => by
    intro depth tr htr
    obtain ⟨hn, hd, hc, hes⟩ := hpr
    obtain ⟨wv, tv, a1, a2, a3, a4⟩ := plain_claim L big i pad eoe hp he m c hr.1 hc
      (fun d hd => hs d (by simp [schemaE, leavesE, hd])) ht.1 depth
    obtain ⟨w, t, ts, h1, h2, h3, h4, h5⟩ := plain_claimE L big i pad eoe hp he m es hr.2 hes
      (fun d hd => hs d (by simp [schemaE, leavesE, hd])) ht.2 depth tr htr
    have hnl : n.getLast? ≠ some '\\' := fun hl => (hn _ (List.mem_of_getLast? hl)).2.1 rfl
    cases es with
    | nil =>
      refine ⟨indentText i depth pad, _, _, by rw [toJsonGE, a1, bind_ok, h1, bind_ok], ?_, ws_indent hp _ _,
        ⟨n, [], ' ' :: wv, tv, eoe ++ tr, clean_rj hn, ws_nil, ws_append ws_one a2, a3, ws_append he htr, .inl ⟨rfl, rfl⟩⟩,
        ⟨hnl, a4, trivial⟩⟩
      have : ts = [] := by simpa [toJsonGE] using h1.symm
      simp [sepText, this]
    | cons e es =>
      refine ⟨indentText i depth pad, _, _, by rw [toJsonGE, a1, bind_ok, h1, bind_ok], ?_, ws_indent hp _ _,
        ⟨n, [], ' ' :: wv, tv, [], clean_rj hn, ws_nil, ws_append ws_one a2, a3, ws_nil,
          .inr ⟨by simp [valE, docOfE], eoe ++ w, t, ws_append he h3, h4, rfl⟩⟩,
        ⟨hnl, a4, h5⟩⟩
      simp [sepText, h2]
theorem plain_claimL (L : Lib) (big : Bool) (i : Nat) (pad eoe : Str) (hp : WS pad) (he : WS eoe) (m : Mem) :
    ∀ es : List Node, ReadableL m es → PrintableL (schemaL es) → (∀ d ∈ leavesL (schemaL es), d.id = .char8Str → d.stride = 1 ∨ d.n ≤ 1) →
    TextSafeL L big (valL m es) → ∀ depth tr, WS tr → ∃ w t ts, toJsonGL L big false false i pad eoe m es depth = .ok ts ∧ ts ++ tr = w ++ t ∧ WS w ∧
    RepL (docOfL L big (valL m es)) t ∧ TameL (docOfL L big (valL m es))
  | [], _, _, _, _ => fun depth tr htr => ⟨tr, [], [], rfl, by simp, htr, rfl, trivial⟩
  | c :: es, hr, hpr, hs, ht => by
    intro depth tr htr
    obtain ⟨hc, hes⟩ := hpr
    obtain ⟨wv, tv, a1, a2, a3, a4⟩ := plain_claim L big i pad eoe hp he m c hr.1 hc
      (fun d hd => hs d (by simp [schemaL, leavesL, hd])) ht.1 depth
    obtain ⟨w, t, ts, h1, h2, h3, h4, h5⟩ := plain_claimL L big i pad eoe hp he m es hr.2 hes
      (fun d hd => hs d (by simp [schemaL, leavesL, hd])) ht.2 depth tr htr
    cases es with
    | nil =>
      refine ⟨indentText i depth pad ++ wv, _, _, by rw [toJsonGL, a1, bind_ok, h1, bind_ok], ?_, ws_append (ws_indent hp _ _) a2,
        ⟨tv, eoe ++ tr, a3, ws_append he htr, .inl ⟨rfl, rfl⟩⟩, ⟨a4, trivial⟩⟩
      have : ts = [] := by simpa [toJsonGL] using h1.symm
      simp [sepText, this]
    | cons e es =>
      refine ⟨indentText i depth pad ++ wv, _, _, by rw [toJsonGL, a1, bind_ok, h1, bind_ok], ?_, ws_append (ws_indent hp _ _) a2,
        ⟨tv, [], a3, ws_nil, .inr ⟨by simp [valL, docOfL], eoe ++ w, t, ws_append he h3, h4, rfl⟩⟩, ⟨a4, h5⟩⟩
      simp [sepText, h2]
end

end Conduit
