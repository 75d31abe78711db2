import Verif.Lemmas.GenFill
import Verif.Lemmas.SaneText
import Verif.Spec.NodeJson
/-
Detailed JSON text of a leaf: what is printed and what is read.
-/
namespace Conduit
open Spec Spec.Tree Schema Node Gen

/-! ### the elements in memory -/

theorem load_elem {m : Mem} {x : Info} {d : DataType} {es : List (List UInt8)}
    (he : elems m x.data d = es.map (fun b => b.map some)) (hp : 0 < d.id.bytes) {i : Nat} {b : List UInt8} (hi : es[i]? = some b) :
    b.length = d.id.bytes ∧ m.load x.data (d.elementIndex i) d.id.bytes = .ok b := by
  have hlt := (List.getElem?_eq_some_iff.1 hi).1
  have hn : d.n.toNat = es.length := by
    have := congrArg List.length he; simpa [elems] using this
  have hb := congrArg (fun l => l[i]?) he
  simp only [elems, List.getElem?_map, hi, Option.map_some, List.getElem?_range (show i < d.n.toNat by omega), Option.some.injEq] at hb
  have hlen : b.length = d.id.bytes := by
    have := congrArg List.length hb; simpa using this.symm
  refine ⟨hlen, ?_⟩
  have hbyte : ∀ k : Nat, k < d.id.bytes → m.byteAt x.data (d.offset + d.stride * i + k) = b[k]? := by
    intro k hk
    have := congrArg (fun l => l[k]?) hb
    simp only [List.getElem?_map, List.getElem?_range hk, Option.map_some] at this
    have hk' : k < b.length := by omega
    rw [List.getElem?_eq_getElem hk'] at this ⊢
    simpa using this
  cases hx : x.data with
  | none => exact absurd (hbyte 0 hp) (by rw [hx, List.getElem?_eq_getElem (by omega)]; simp [Mem.byteAt])
  | some q =>
    rw [hx] at hbyte
    have hb' : ∀ k : Nat, k < d.id.bytes → m.byte q.blk (q.off + d.elementIndex i + k) = b[k]? := by
      intro k hk
      rw [← hbyte k hk]
      simp only [Mem.byteAt, DataType.elementIndex]; congr 1; omega
    obtain ⟨cs, h1, h2, h3⟩ := Mem.load_ok (m := m) (q := q) (off := d.elementIndex i) (len := d.id.bytes) (by
      intro k hk; rw [hb' k hk, List.getElem?_eq_getElem (by omega)]; rfl)
    have hc : cs = b := by
      apply List.ext_getElem?
      intro k
      by_cases hk : k < d.id.bytes
      · rw [h3 k hk, hb' k hk]
      · rw [List.getElem?_eq_none (by omega), List.getElem?_eq_none (by omega)]
    rw [h1, hc]

theorem pattern_eq (big : Bool) (b : List UInt8) : pattern big b = machineNat big b := by rw [machineNat_eq]; rfl

/-- the value printed for an element -/
def elemJV (L : Lib) (big : Bool) (id : TypeId) (b : List UInt8) : JV :=
  match id.intTy with
  | some t => .int (t.cast (machineNat big b))
  | none => if 'n' ∈ floatText L id (pattern big b) then .str (floatText L id (pattern big b)) else .real (floatText L id (pattern big b))

/-- its text -/
def elemStr (L : Lib) (big : Bool) (id : TypeId) (b : List UInt8) : Str :=
  match id.intTy with
  | some t => intText (t.cast (machineNat big b))
  | none => if 'n' ∈ floatText L id (pattern big b) then '"' :: floatText L id (pattern big b) ++ ['"'] else floatText L id (pattern big b)

def Numeric (id : TypeId) : Prop := id.intTy.isSome ∨ id = .float32 ∨ id = .float64

theorem numeric_data {id : TypeId} (h : Numeric id) : DataId id ∧ 0 < id.bytes ∧ id ≠ .char8Str := by
  unfold Numeric at h
  unfold DataId
  cases id <;> simp [TypeId.intTy] at h <;> decide

theorem cast_bits (t : IntTy) (hs : t.signed = false) (big : Bool) (b : List UInt8) (hl : b.length = t.size) :
    t.cast (machineNat big b) = machineNat big b := by
  have := machineNat_emod big t b hl
  unfold IntTy.cast
  simp only [hs]
  simpa using this

theorem elemText_eq (L : Lib) (big : Bool) {m : Mem} {x : Info} {d : DataType} {es : List (List UInt8)}
    (he : elems m x.data d = es.map (fun b => b.map some)) (hnum : Numeric d.id) {i : Nat} {b : List UInt8} (hi : es[i]? = some b) :
    elemText L big m x d i = .ok (elemStr L big d.id b) := by
  obtain ⟨hd, hp, -⟩ := numeric_data hnum
  obtain ⟨hl, hload⟩ := load_elem he hp hi
  unfold elemText elemStr
  cases ht : d.id.intTy with
  | some t =>
    simp only
    have hsz := (intTy_spec ht).2.1
    rw [arrElement, readInt, hsz, hload, bind_ok]; rfl
  | none =>
    simp only
    rcases hnum with h | h | h
    · rw [ht] at h; cases h
    · have hb : bits32.size = d.id.bytes := by rw [h]; rfl
      rw [if_neg (by rw [h]; decide), if_pos h, arrElement, readInt, hb, hload, bind_ok]
      simp only [Res.map', bind_ok]
      rw [cast_bits bits32 rfl big b (by rw [hb]; exact hl)]
      simp [floatText, h, pattern_eq]
    · have hb : bits64.size = d.id.bytes := by rw [h]; rfl
      rw [if_pos h, arrElement, readInt, hb, hload]
      simp only [bind_ok]
      rw [cast_bits bits64 rfl big b (by rw [hb]; exact hl)]
      simp [floatText, h, pattern_eq]

/-- the elements from index `i` on -/
theorem elemTexts_rep (L : Lib) (big : Bool) {m : Mem} {x : Info} {d : DataType} {es : List (List UInt8)}
    (he : elems m x.data d = es.map (fun b => b.map some)) (hnum : Numeric d.id)
    (hrep : ∀ b ∈ es, Rep (elemJV L big d.id b) (elemStr L big d.id b)) :
    ∀ (post pre : List (List UInt8)), es = pre ++ post → post ≠ [] →
      ∃ body, elemTexts L big m x d post.length pre.length = .ok ((if pre.length = 0 then [] else chars! ", ") ++ body) ∧
        RepL (post.map (elemJV L big d.id)) body
  | [], pre, _, h => absurd rfl h
  | [b], pre, h, _ => by
    have hi : es[pre.length]? = some b := by rw [h]; simp
    refine ⟨elemStr L big d.id b, ?_, elemStr L big d.id b, [], hrep b (by rw [h]; simp), ws_nil, .inl ⟨rfl, by simp⟩⟩
    rw [List.length_singleton, elemTexts, elemText_eq L big he hnum hi, bind_ok, elemTexts, bind_ok]
    simp
  | b :: b' :: post, pre, h, _ => by
    have hi : es[pre.length]? = some b := by rw [h]; simp
    obtain ⟨body, h1, h2⟩ := elemTexts_rep L big he hnum hrep (b' :: post) (pre ++ [b]) (by simpa using h) (by simp)
    rw [List.length_append, List.length_singleton, if_neg (by omega)] at h1
    refine ⟨elemStr L big d.id b ++ ([] ++ ',' :: ([' '] ++ body)), ?_, elemStr L big d.id b, [], hrep b (by rw [h]; simp), ws_nil,
      .inr ⟨by simp, [' '], body, ws_one, h2, rfl⟩⟩
    rw [List.length_cons, elemTexts, elemText_eq L big he hnum hi, bind_ok, h1, bind_ok]
    simp

/-- the value printed for the elements of a number leaf -/
def arrayJV (L : Lib) (big : Bool) (id : TypeId) : List (List UInt8) → JV
  | [b] => elemJV L big id b
  | es => .arr (es.map (elemJV L big id))

theorem arrayText_rep (L : Lib) (big : Bool) {m : Mem} {x : Info} {d : DataType} {es : List (List UInt8)} (hn : 0 ≤ d.n)
    (he : elems m x.data d = es.map (fun b => b.map some)) (hnum : Numeric d.id)
    (hrep : ∀ b ∈ es, Rep (elemJV L big d.id b) (elemStr L big d.id b)) :
    ∃ t, arrayText L big m x d = .ok t ∧ Rep (arrayJV L big d.id es) t := by
  have hlen : d.n.toNat = es.length := by
    have := congrArg List.length he; simpa [elems] using this
  unfold arrayText
  rw [hlen]
  match es, hlen, he, hrep with
  | [], hlen, he, _ =>
    refine ⟨chars! "[]", ?_, [], [], ws_nil, rfl, rfl⟩
    rw [List.length_nil, elemTexts, bind_ok, if_pos (by simp at hlen; omega)]
    rfl
  | [b], hlen, he, hrep =>
    refine ⟨elemStr L big d.id b, ?_, hrep b (by simp)⟩
    have hi : ([b] : List (List UInt8))[0]? = some b := rfl
    rw [List.length_singleton, elemTexts, elemText_eq L big he hnum hi, bind_ok, elemTexts, bind_ok, bind_ok,
      if_neg (by simp at hlen; omega)]
    simp
  | b :: b' :: es, hlen, he, hrep =>
    obtain ⟨body, h1, h2⟩ := elemTexts_rep L big he hnum hrep (b :: b' :: es) [] rfl (by simp)
    rw [List.length_nil] at h1
    simp only [if_true, List.nil_append] at h1
    refine ⟨'[' :: ([] ++ (body ++ [']'])), ?_, [], body, ws_nil, h2, rfl⟩
    rw [h1, bind_ok, if_pos (by simp at hlen; omega)]
    simp

/-! ### reading the elements -/

theorem realText_chars {t : Str} (h : RealText t) : 'n' ∉ t := by
  obtain ⟨sg, f, e, n, rfl, hsg, hf, he, -⟩ := h
  have dig : ∀ ds : Str, (∀ c ∈ ds, c.isDigit = true) → 'n' ∉ ds := fun ds hd hm => absurd (hd _ hm) (by decide)
  simp only [List.mem_append, not_or]
  refine ⟨?_, dig _ (fun _ => isDigit_toDigits), ?_, ?_⟩
  · rcases hsg with rfl | rfl <;> decide
  · rcases hf with rfl | ⟨ds, -, hd, rfl⟩
    · decide
    · simp only [List.mem_cons, not_or]; exact ⟨by decide, dig _ hd⟩
  · rcases he with rfl | ⟨es, ds, -, hd, hes, rfl⟩
    · decide
    · simp only [List.mem_cons, List.mem_append, not_or]
      refine ⟨by decide, ?_, dig _ hd⟩
      rcases hes with rfl | rfl | rfl <;> decide

theorem float_bytes (L : Lib) (big : Bool) {id : TypeId} (h : id = .float32 ∨ id = .float64) {b : List UInt8} (hl : b.length = id.bytes)
    {y : Nat} (hy : floatStored L id y = pattern big b) : Num.bytes L big id (.dbl y) = .ok b := by
  rw [pattern_eq] at hy
  rcases h with rfl | rfl
  · simp only [floatStored] at hy
    simp only [Num.bytes, TypeId.intTy]
    rw [if_neg (by decide), if_pos trivial]
    congr 1
    refine machineBytes_pattern big bits32 b hl _ ?_
    have hy' : (L.narrow y : Int) = machineNat big b := by simpa using hy
    rw [hy']
    exact machineNat_emod big bits32 b hl
  · simp only [floatStored] at hy
    simp only [Num.bytes, TypeId.intTy]
    rw [if_pos trivial]
    congr 1
    refine machineBytes_pattern big bits64 b hl _ ?_
    have hy' : (y : Int) = machineNat big b := by simpa using hy
    rw [hy']
    exact machineNat_emod big bits64 b hl

theorem int_bytes (L : Lib) (big : Bool) {id : TypeId} {t : IntTy} (h : id.intTy = some t) {b : List UInt8} (hl : b.length = id.bytes) :
    Num.bytes L big id (.int (t.cast (machineNat big b))) = .ok b := by
  have hsz := (intTy_spec h).2.1
  unfold Num.bytes
  rw [h]
  simp only
  congr 1
  refine machineBytes_pattern big t b (by omega) _ ?_
  rw [cast_emod, cast_emod]
  exact machineNat_emod big t b (by omega)

/-- one floating point element among others -/
structure FloatElem (L : Lib) (big : Bool) (id : TypeId) (b : List UInt8) (v : JV) (y : Nat) : Prop where
  num : numType L v = .float64
  get : ∀ vs is, getDoubles L vs = .ok is → getDoubles L (v :: vs) = .ok (.dbl y :: is)
  bytes : Num.bytes L big id (.dbl y) = .ok b

theorem float_elem (L : Lib) (big : Bool) {id : TypeId} (h : id = .float32 ∨ id = .float64) {single : Prop} {b : List UInt8}
    (hl : b.length = id.bytes) (hok : FloatOK L id single (pattern big b)) :
    ∃ y, FloatElem L big id b (elemJV L big id b) y := by
  have hi : id.intTy = none := by rcases h with rfl | rfl <;> rfl
  unfold elemJV
  rw [hi]
  simp only
  rcases hok with ⟨h1, h2⟩ | ⟨-, h1, h2, y, h3, h4⟩
  · rw [if_neg (realText_chars h1)]
    exact ⟨_, rfl, fun vs is hv => by rw [getDoubles]; simp only [bind_ok]; rw [hv, bind_ok], float_bytes L big h hl h2⟩
  · rw [if_pos h1]
    refine ⟨y, ?_, fun vs is hv => by rw [getDoubles]; simp only [bind_ok]; rw [hv, bind_ok, h3]; rfl, float_bytes L big h hl h4⟩
    show (if stringIsDouble L (floatText L id (pattern big b)) = true then TypeId.float64 else TypeId.empty) = _
    rw [if_pos]
    simp only [stringIsDouble, h3]
    cases ht : floatText L id (pattern big b) with
    | nil => rw [ht] at h1; cases h1
    | cons c s => rfl

theorem float_rep (L : Lib) (big : Bool) {id : TypeId} (h : id = .float32 ∨ id = .float64) {single : Prop} {b : List UInt8}
    (hok : FloatOK L id single (pattern big b)) : Rep (elemJV L big id b) (elemStr L big id b) ∧ Tame (elemJV L big id b) := by
  have hi : id.intTy = none := by rcases h with rfl | rfl <;> rfl
  unfold elemJV elemStr
  rw [hi]
  simp only
  rcases hok with ⟨h1, h2⟩ | ⟨-, h1, h2, y, h3, h4⟩
  · rw [if_neg (realText_chars h1), if_neg (realText_chars h1)]
    exact ⟨⟨rfl, h1⟩, trivial⟩
  · rw [if_pos h1, if_pos h1]
    exact ⟨rep_str h2, fun hl => (h2 _ (List.mem_of_getLast? hl)).2.1 rfl⟩

theorem int_rep (L : Lib) (big : Bool) {id : TypeId} {t : IntTy} (h : id.intTy = some t) (b : List UInt8) :
    Rep (elemJV L big id b) (elemStr L big id b) ∧ Tame (elemJV L big id b) := by
  unfold elemJV elemStr
  rw [h]
  have := cast_range t (machineNat big b)
  exact ⟨⟨this.1, this.2.1, rfl⟩, trivial⟩

theorem hom_float (L : Lib) : ∀ (vs : List JV), (∀ v ∈ vs, numType L v = .float64) → homLoop L .float64 vs = .float64
  | [], _ => rfl
  | v :: vs, h => by
    rw [homLoop, if_neg (by simp), if_neg (by rw [h v (by simp)]; decide), hom_float L vs (fun x hx => h x (by simp [hx]))]

theorem hom_int (L : Lib) : ∀ (vs : List JV), (∀ v ∈ vs, ∃ i, v = .int i) → homLoop L .int64 vs = .int64
  | [], _ => rfl
  | v :: vs, h => by
    obtain ⟨i, rfl⟩ := h v (by simp)
    rw [homLoop, if_neg (by simp [numType]), if_neg (by simp [numType]), hom_int L vs (fun x hx => h x (by simp [hx]))]

theorem getDoubles_floats (L : Lib) (big : Bool) {id : TypeId} (h : id = .float32 ∨ id = .float64) {single : Prop} :
    ∀ (es : List (List UInt8)), (∀ b ∈ es, b.length = id.bytes) → (∀ b ∈ es, FloatOK L id single (pattern big b)) →
    ∃ nums, getDoubles L (es.map (elemJV L big id)) = .ok nums ∧ NumsBytes L big id nums es
  | [], _, _ => ⟨[], rfl, rfl⟩
  | b :: es, hl, hok => by
    obtain ⟨y, h1⟩ := float_elem L big h (hl b (by simp)) (hok b (by simp))
    obtain ⟨nums, h2, h3⟩ := getDoubles_floats L big h es (fun x hx => hl x (by simp [hx])) (fun x hx => hok x (by simp [hx]))
    refine ⟨.dbl y :: nums, ?_, b, es, rfl, h1.bytes, h3⟩
    rw [List.map_cons]
    exact h1.get _ _ h2

theorem getAll_ints (L : Lib) (big : Bool) {id : TypeId} {t : IntTy} (h : id.intTy = some t) :
    ∀ (es : List (List UInt8)), (∀ b ∈ es, b.length = id.bytes) →
    ∃ nums, getAll (if t.signed then getInt64 else getUint64) (es.map (elemJV L big id)) = .ok nums ∧ NumsBytes L big id nums es
  | [], _ => ⟨[], rfl, rfl⟩
  | b :: es, hl => by
    obtain ⟨nums, h2, h3⟩ := getAll_ints L big h es (fun x hx => hl x (by simp [hx]))
    refine ⟨.int (t.cast (machineNat big b)) :: nums, ?_, b, es, rfl, int_bytes L big h (hl b (by simp)), h3⟩
    have hg : (if t.signed then getInt64 else getUint64) (elemJV L big id b) = .ok (t.cast (machineNat big b)) := by
      unfold elemJV
      rw [h]
      obtain ⟨-, -, r1, r2⟩ := cast_range t (machineNat big b)
      cases hs : t.signed
      · simp only [Bool.false_eq_true, if_false, getUint64]
        rw [if_pos (r2 hs)]
      · simp only [if_true, getInt64]
        rw [if_pos (r1 hs)]
    rw [List.map_cons, getAll, hg, bind_ok, h2, bind_ok]

/-- one number into a leaf of one element -/
theorem setNum_one (L : Lib) (big : Bool) {d : DataType} (hd : DataId d.id) (ho : d.offset = 0) (hs : d.stride = d.id.bytes)
    (hel : d.ele = d.id.bytes) (hn : d.n = 1) {b : List UInt8} (hl : b.length = d.id.bytes) {v : Num} (hv : v.bytes L big d.id = .ok b) (md : Mem) :
    ∃ m', setNum L big (.leaf ⟨some ⟨md.length, 0⟩, true⟩ d) v (md.alloc (d.id.bytes * 1)).1 =
        .ok (m', .leaf ⟨some ⟨md.length, 0⟩, true⟩ d) ∧
      Built (fun _ => False) md m' (.leaf d.id d.endian [b.map some]) (.leaf ⟨some ⟨md.length, 0⟩, true⟩ d) := by
  obtain ⟨m', h1, h2⟩ := fill_run (fun _ => False) hd ho hs (es := [b]) (by simp [hn]) (by simpa using hl) md
  refine ⟨m', ?_, h2⟩
  have hc : d.compatible (DataType.ofId d.id 1) = true := by
    simp [DataType.compatible, DataType.ofId, hel, hn]
  have he : d.elementIndex 0 = 0 := by simp [DataType.elementIndex, ho]
  simp only [List.length_singleton, List.flatten_cons, List.flatten_nil, List.append_nil] at h1
  rw [setNum]
  simp only [dtype]
  rw [hv, bind_ok, setScalar, init]
  simp only [dtype]
  rw [if_pos hc, bind_ok]
  simp only [dtype, info]
  rw [he, h1, bind_ok]

theorem inlineValue_arr (L : Lib) (big : Bool) (vs : List JV) (x : Info) (d : DataType) (m : Mem) :
    inlineValue L big (.arr vs) (.leaf x d) m =
      (if d.n < vs.length then .error
      else if homType L vs = .empty then .ok (m, .leaf x d)
      else do
        let nums ← (if homType L vs = .int64 then
            getAll (match d.id.intTy with
              | some ty => if ty.signed then getInt64 else getUint64
              | none => getInt64) vs
          else getDoubles L vs : Res (List Num))
        if d.id.intTy.isNone ∧ d.id ≠ .float32 ∧ d.id ≠ .float64 then .error
        else do
          let m1 ← setNums L big x d nums 0 m
          .ok (m1, .leaf x d)) := rfl

/-- The inline value of a number leaf. -/
theorem inline_numbers (L : Lib) (big : Bool) {d : DataType} (ho : d.offset = 0) (hs : d.stride = d.id.bytes)
    (hel : d.ele = d.id.bytes) {es : List (List UInt8)} (hn : d.n = es.length) (hl : ∀ b ∈ es, b.length = d.id.bytes)
    (hok : d.id.intTy.isSome ∨ ((d.id = .float32 ∨ d.id = .float64) ∧ ∀ b ∈ es, FloatOK L d.id (es.length = 1) (pattern big b))) (md : Mem) :
    ∃ m', inlineValue L big (arrayJV L big d.id es) (.leaf ⟨some ⟨md.length, 0⟩, true⟩ d) (md.alloc (d.id.bytes * es.length)).1 =
        .ok (m', .leaf ⟨some ⟨md.length, 0⟩, true⟩ d) ∧
      Built (fun _ => False) md m' (.leaf d.id d.endian (es.map (fun b => b.map some))) (.leaf ⟨some ⟨md.length, 0⟩, true⟩ d) := by
  have hnum : Numeric d.id := by
    rcases hok with h | ⟨h, -⟩
    · exact .inl h
    · exact .inr h
  have hd := (numeric_data hnum).1
  have he : d.elementIndex (0 : Nat) = 0 := by simp [DataType.elementIndex, ho]
  by_cases h1 : es.length = 1
  · obtain ⟨b, rfl⟩ : ∃ b, es = [b] := by
      match es, h1 with
      | [b], _ => exact ⟨b, rfl⟩
    have hlb := hl b (by simp)
    rcases hok with h | ⟨hf, hok⟩
    · obtain ⟨t, ht⟩ := Option.isSome_iff_exists.1 h
      obtain ⟨m', h2, h3⟩ := setNum_one L big hd ho hs hel (by simpa using hn) hlb (int_bytes L big ht hlb) md
      refine ⟨m', ?_, h3⟩
      obtain ⟨-, -, r1, r2⟩ := cast_range t (machineNat big b)
      simp only [arrayJV, elemJV, ht, inlineValue, inlineLeaf, dtype]
      cases hs : t.signed
      · simp only [Bool.false_eq_true, if_false, getUint64]
        rw [if_pos (r2 hs), bind_ok]
        exact h2
      · simp only [if_true, getInt64]
        rw [if_pos (r1 hs), bind_ok]
        exact h2
    · obtain ⟨hr, hst⟩ := (hok b (by simp)).resolve_right (by simp)
      obtain ⟨m', h2, h3⟩ := setNum_one L big hd ho hs hel (by simpa using hn) hlb (float_bytes L big hf hlb hst) md
      refine ⟨m', ?_, h3⟩
      have hi : d.id.intTy = none := by rcases hf with h | h <;> rw [h] <;> rfl
      simp only [arrayJV, elemJV, hi]
      rw [if_neg (realText_chars hr)]
      simp only [inlineValue, inlineLeaf, dtype, hi]
      exact h2
  · have hj : arrayJV L big d.id es = .arr (es.map (elemJV L big d.id)) := by
      match es, h1 with
      | [], _ => rfl
      | _ :: _ :: _, _ => rfl
    rw [hj, inlineValue_arr]
    have hlt : ¬ d.n < ((es.map (elemJV L big d.id)).length : Int) := by rw [hn]; simp
    rw [if_neg hlt]
    obtain ⟨m', h2, h3⟩ := fill_elems (fun _ => False) hd ho hs hn hl md
    cases es with
    | nil =>
      refine ⟨m', ?_, h3⟩
      rw [if_pos (show homType L (List.map (elemJV L big d.id) []) = TypeId.empty from rfl)]
      have : m' = (md.alloc (d.id.bytes * ([] : List (List UInt8)).length)).1 := by simpa [storeElems] using h2.symm
      rw [this]
    | cons b es =>
      have key : ∀ nums, NumsBytes L big d.id nums (b :: es) →
          setNums L big ⟨some ⟨md.length, 0⟩, true⟩ d nums 0 (md.alloc (d.id.bytes * (b :: es).length)).1 = .ok m' := by
        intro nums hnums
        rw [setNums_eq hnums, he]
        exact h2
      have hty : ¬ (d.id.intTy.isNone ∧ d.id ≠ .float32 ∧ d.id ≠ .float64) := by
        rintro ⟨q1, q2, q3⟩
        rcases hnum with h | h | h
        · cases hh : d.id.intTy <;> simp [hh] at h q1
        · exact q2 h
        · exact q3 h
      refine ⟨m', ?_, h3⟩
      rcases hok with h | ⟨hf, hok⟩
      · obtain ⟨t, ht⟩ := Option.isSome_iff_exists.1 h
        have hall : ∀ v ∈ (b :: es).map (elemJV L big d.id), ∃ i, v = .int i := by
          intro v hv
          obtain ⟨c, _, rfl⟩ := List.mem_map.1 hv
          exact ⟨_, by unfold elemJV; rw [ht]⟩
        have hh : homType L ((b :: es).map (elemJV L big d.id)) = .int64 := by
          rw [List.map_cons] at hall ⊢
          obtain ⟨i, hi⟩ := hall (elemJV L big d.id b) (by simp)
          rw [homType, hi, if_neg (by simp [numType])]
          exact hom_int L _ (fun v hv => hall v (by simp [hv]))
        obtain ⟨nums, g1, g2⟩ := getAll_ints L big ht (b :: es) hl
        rw [hh, if_neg (by decide), if_pos rfl, ht]
        simp only
        rw [g1, bind_ok, if_neg (by simp), key nums g2, bind_ok]
      · have hi : d.id.intTy = none := by rcases hf with h | h <;> rw [h] <;> rfl
        have hall : ∀ v ∈ (b :: es).map (elemJV L big d.id), numType L v = .float64 := by
          intro v hv
          obtain ⟨c, hc, rfl⟩ := List.mem_map.1 hv
          obtain ⟨y, hy⟩ := float_elem L big hf (hl c hc) (hok c hc)
          exact hy.num
        have hh : homType L ((b :: es).map (elemJV L big d.id)) = .float64 := by
          rw [List.map_cons] at hall ⊢
          have h0 := hall (elemJV L big d.id b) (by simp)
          rw [homType, h0, if_neg (by decide)]
          exact hom_float L _ (fun v hv => hall v (by simp [hv]))
        obtain ⟨nums, g1, g2⟩ := getDoubles_floats L big hf (b :: es) hl hok
        rw [hh, if_neg (by decide), if_neg (by decide), g1, bind_ok, if_neg hty, key nums g2, bind_ok]

end Conduit
