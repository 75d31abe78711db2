import Verif.Lemmas.SetSchema
import Verif.Lemmas.SchemaJson2
import Verif.Props.Base64
import Verif.Model.Base64Json
namespace Conduit
open Spec Schema Node

mutual
/-- a forward layout inside readable bytes gives readable leaves -/
theorem readable_walk {m : Mem} {p : Option Ptr} {al : Bool} : ∀ s : Schema, Forward s → CountsOK s →
    (∀ d ∈ s.leaves, d.id ≠ .object ∧ d.id ≠ .list) →
    (∀ i, 0 ≤ i → i < s.spannedBytes → (m.byteAt p i).isSome) → Readable m (walk p al s)
  | .leaf d, h, hc, hl, hb => by
    have h1 := hl d (by simp [Tree.leaves])
    rw [walk]
    refine ⟨h1.1, h1.2, hc d (by simp [Tree.leaves]), fun he e hm b hbm => ?_⟩
    simp only [elems, List.mem_map, List.mem_range] at hm
    obtain ⟨i, hi, rfl⟩ := hm
    simp only [List.mem_map, List.mem_range] at hbm
    obtain ⟨k, hk, rfl⟩ := hbm
    obtain ⟨a, b⟩ := forward_inside he h i k (by omega) hk
    exact hb _ a b
  | .obj es, h, hc, hl, hb => by
    rw [walk]
    exact readableE_walk es h hc (by simpa [Tree.leaves] using hl)
      fun e he i h0 hi => hb i h0 (Int.lt_of_lt_of_le hi ((spanE_ge es 0).2 e he))
  | .lst es, h, hc, hl, hb => by
    rw [walk]
    exact readableL_walk es h hc (by simpa [Tree.leaves] using hl)
      fun e he i h0 hi => hb i h0 (Int.lt_of_lt_of_le hi ((spanL_ge es 0).2 e he))
theorem readableE_walk {m : Mem} {p : Option Ptr} : ∀ es : List (Str × Schema), ForwardE es → CountsOK (.obj es) →
    (∀ d ∈ Tree.leavesE es, d.id ≠ .object ∧ d.id ≠ .list) →
    (∀ e ∈ es, ∀ i, 0 ≤ i → i < e.2.spannedBytes → (m.byteAt p i).isSome) → ReadableE m (walkE p es)
  | [], _, _, _, _ => trivial
  | (n, c) :: es, h, hc, hl, hb => by
    have hc' := countsE hc
    simp only [Tree.leavesE, List.mem_append] at hl
    rw [walkE]
    exact ⟨readable_walk c h.1 hc'.1 (fun d hd => hl d (.inl hd)) (hb _ List.mem_cons_self),
      readableE_walk es h.2 hc'.2 (fun d hd => hl d (.inr hd)) fun e he => hb e (List.mem_cons_of_mem _ he)⟩
theorem readableL_walk {m : Mem} {p : Option Ptr} : ∀ es : List Schema, ForwardL es → CountsOK (.lst es) →
    (∀ d ∈ Tree.leavesL es, d.id ≠ .object ∧ d.id ≠ .list) →
    (∀ e ∈ es, ∀ i, 0 ≤ i → i < e.spannedBytes → (m.byteAt p i).isSome) → ReadableL m (walkL p es)
  | [], _, _, _, _ => trivial
  | c :: es, h, hc, hl, hb => by
    have hc' := countsL hc
    simp only [Tree.leavesL, List.mem_append] at hl
    rw [walkL]
    exact ⟨readable_walk c h.1 hc'.1 (fun d hd => hl d (.inl hd)) (hb _ List.mem_cons_self),
      readableL_walk es h.2 hc'.2 (fun d hd => hl d (.inr hd)) fun e he => hb e (List.mem_cons_of_mem _ he)⟩
end

/-! ### decode buffer -/

theorem decodeBuffer_length {t buf : List UInt8} (h : Base64.decodeBuffer t = .ok buf) :
    buf.length = Base64.decodeBufferSize t.length := by
  unfold Base64.decodeBuffer at h
  split at h
  · simp at h
  · injection h with h
    rw [← h]; simp; omega

theorem decodeBuffer_out {t buf : List UInt8} (h : Base64.decodeBuffer t = .ok buf) (i : Nat)
    (hi : i < (Base64.decode t).out.length) (hi2 : i < Base64.decodeBufferSize t.length) :
    buf[i]? = (Base64.decode t).out[i]? := by
  unfold Base64.decodeBuffer at h
  split at h
  · simp at h
  · injection h with h
    rw [← h, List.getElem?_take_of_lt hi2, List.getElem?_append_left hi]

/-- what `setDecoded` does -/
theorem setDecoded_spec (s : Schema) (t buf : List UInt8) (hb : Base64.decodeBuffer t = .ok buf) (dest : Node) (m : Mem)
    (hd : GoodOwners m (owned dest)) (h0 : 0 ≤ s.spannedBytes) (h1 : s.spannedBytes ≤ buf.length) :
    ∃ m' q, setDecoded s t dest m = .ok (m', walk (some q) true s) ∧
      (∀ i : Nat, (i : Int) < s.spannedBytes → m'.byteAt (some q) i = buf[i]?) ∧ Frame m m' (owned dest) ∧
      q = ⟨m.length + 1, 0⟩ ∧ Live m' q.blk := by
  have hd' : GoodOwners (m ++ [some buf]) (owned dest) := by
    refine ⟨hd.1, fun p hp => ⟨(hd.2 p hp).1, ?_⟩⟩
    obtain ⟨bs, hbs⟩ := (hd.2 p hp).2
    exact ⟨bs, by rw [List.getElem?_append_left (List.getElem?_eq_some_iff.1 hbs).1, hbs]⟩
  have hlt : ∀ p ∈ owned dest, p.blk < m.length := fun p hp => live_lt (hd.2 p hp).2
  have hnot : m.length ∉ (owned dest).map Ptr.blk := by
    intro h; obtain ⟨p, hp, he⟩ := List.mem_map.1 h
    have := hlt p hp; omega
  obtain ⟨m1, a1, a2⟩ := releaseMem_spec dest _ hd'
  have hlen : m1.length = m.length + 1 := by rw [a2.1]; simp
  have hblk : m1[m.length]? = some (some buf) := by rw [a2.2 _ hnot]; simp
  have hall : allocate m1 s.spannedBytes =
      ((m1.alloc s.spannedBytes.toNat).1, { data := some ⟨m1.length, 0⟩, alloced := true }) := by
    rw [allocate, if_neg (by omega)]; rfl
  have hbq : ∀ i, (m1.alloc s.spannedBytes.toNat).1.byte m.length i = if i < 0 then none else buf[i.toNat]? := by
    intro i; rw [Mem.byte_alloc_old _ _ _ _ (by omega), Mem.byte, hblk]
  obtain ⟨m', c1, c2, c3⟩ := Mem.memcpy_spec (m := (m1.alloc s.spannedBytes.toNat).1) (p := ⟨m1.length, 0⟩)
    (q := ⟨m.length, 0⟩) (doff := 0) (soff := 0) (len := s.spannedBytes.toNat)
    (by
      intro k hk
      simp only
      rw [hbq, if_neg (by omega)]
      simp; omega)
    (by
      intro k hk
      rw [Mem.byte_alloc_new, if_pos (by simp; omega)]; rfl)
    (.inr (.inl (by simp only [ne_eq]; omega)))
  have hlive : Live m' m.length := by
    refine live_iff.2 ?_
    rw [c2.2, Mem.size_alloc_old _ _ _ (by omega), Mem.size, hblk]; rfl
  have hfree := free_ok (p := ⟨m.length, 0⟩) rfl hlive
  refine ⟨m'.set m.length none, ⟨m1.length, 0⟩, ?_, ?_, ?_, ?_, ?_⟩
  · rw [setDecoded, hb, Res.bind_ok, setSchemaData, a1, Res.bind_ok, hall]
    simp only
    rw [if_neg (by omega), c1, Res.bind_ok, Res.bind_ok]
    simp only
    rw [hfree, Res.bind_ok]
  · intro i hi
    have : Mem.byte (m'.set m.length none) m1.length ((0 : Int) + i) = m'.byte m1.length ((0 : Int) + i) := by
      unfold Mem.byte; rw [List.getElem?_set_ne (by omega)]
    simp only [Mem.byteAt]
    rw [this, c3, if_pos (by simp; omega), hbq, if_neg (by simp)]
    simp
  · refine ⟨?_, fun b hb1 hb2 => ?_⟩
    · rw [List.length_set, c2.1]; simp [Mem.alloc, hlen]; omega
    have e1 : (m'.set m.length none)[b]? = m'[b]? := List.getElem?_set_ne (by omega)
    refine ⟨?_, fun i => ?_⟩
    · have : Mem.size (m'.set m.length none) b = m'.size b := by unfold Mem.size; rw [e1]
      rw [this, c2.2, Mem.size_alloc_old _ _ _ (by omega), a2.size hb2]
      unfold Mem.size; rw [List.getElem?_append_left hb1]
    · have : Mem.byte (m'.set m.length none) b i = m'.byte b i := by unfold Mem.byte; rw [e1]
      rw [this, c3, if_neg (by simp only [not_and]; omega), Mem.byte_alloc_old _ _ _ _ (by omega), a2.byte hb2]
      unfold Mem.byte; rw [List.getElem?_append_left hb1]
  · rw [hlen]
  · have h2 : Live m' m1.length := by
      refine live_iff.2 ?_
      rw [c2.2, Mem.size]; simp [Mem.alloc]
    obtain ⟨bs, hbs⟩ := h2
    exact ⟨bs, by rw [List.getElem?_set_ne (by simp; omega)]; exact hbs⟩

theorem load_short {m : Mem} {b : Nat} {buf : List UInt8} (h : m[b]? = some (some buf)) {len : Nat} (hl : buf.length < len) :
    m.load (some ⟨b, 0⟩) 0 len = .ub := by
  refine Mem.load_ub (k := buf.length) hl ?_
  simp [Mem.byte, h]

/-- reading past the decode buffer -/
theorem setDecoded_ub (s : Schema) (t : List UInt8) (dest : Node) (m : Mem)
    (hd : GoodOwners m (owned dest)) (h : Base64.decodeBuffer t = .ub ∨ s.spannedBytes < 0 ∨
      (Base64.decodeBufferSize t.length : Int) < s.spannedBytes) : setDecoded s t dest m = .ub := by
  rw [setDecoded]
  cases hb : Base64.decodeBuffer t with
  | ub => rfl
  | error =>
    unfold Base64.decodeBuffer at hb; split at hb <;> simp at hb
  | ok buf =>
    have hl := decodeBuffer_length hb
    rw [hb] at h
    rw [Res.bind_ok]
    have hd' : GoodOwners (m ++ [some buf]) (owned dest) := by
      refine ⟨hd.1, fun p hp => ⟨(hd.2 p hp).1, ?_⟩⟩
      obtain ⟨bs, hbs⟩ := (hd.2 p hp).2
      exact ⟨bs, by rw [List.getElem?_append_left (List.getElem?_eq_some_iff.1 hbs).1, hbs]⟩
    have hnot : m.length ∉ (owned dest).map Ptr.blk := by
      intro h; obtain ⟨p, hp, he⟩ := List.mem_map.1 h
      have := live_lt (hd.2 p hp).2; omega
    obtain ⟨m1, a1, a2⟩ := releaseMem_spec dest _ hd'
    have hblk : m1[m.length]? = some (some buf) := by rw [a2.2 _ hnot]; simp
    rw [setSchemaData, a1, Res.bind_ok]
    simp only
    rcases h with h | h | h
    · simp at h
    · rw [if_pos h]; rfl
    · have hneg : ¬ s.spannedBytes < 0 := by omega
      rw [if_neg hneg, allocate, if_neg hneg]
      simp only
      have : ((m1.alloc s.spannedBytes.toNat).1)[m.length]? = some (some buf) := by
        have : m.length < m1.length := by rw [a2.1]; simp
        simp only [Mem.alloc]
        rw [List.getElem?_append_left this, hblk]
      rw [Mem.memcpy, load_short this (by omega)]
      rfl

/-! ### the leaves of a parsed schema -/

/-- no leaf claims to be an object or a list -/
def TypedLeaves (s : Schema) : Prop := ∀ d ∈ s.leaves, d.id ≠ .object ∧ d.id ≠ .list

theorem typed_setDtype (d : DataType) : TypedLeaves (Tree.setDtype d) := by
  unfold TypedLeaves Tree.setDtype
  split
  · simp [Tree.leaves, Tree.leavesE]
  · simp [Tree.leaves, Tree.leavesL]
  · rename_i h1 h2
    intro d' hd
    simp only [Tree.leaves, List.mem_singleton] at hd
    subst hd
    exact ⟨h1, h2⟩

theorem leavesE_append (a b : List (Str × Schema)) : Tree.leavesE (a ++ b) = Tree.leavesE a ++ Tree.leavesE b := by
  induction a with
  | nil => rfl
  | cons e a ih => obtain ⟨n, c⟩ := e; simp [Tree.leavesE, ih]

theorem leavesL_append (a b : List Schema) : Tree.leavesL (a ++ b) = Tree.leavesL a ++ Tree.leavesL b := by
  induction a with
  | nil => rfl
  | cons e a ih => simp [Tree.leavesL, ih]

theorem typed_putChild {es : List (Str × Schema)} {n : Str} {c : Schema} (h : TypedLeaves (.obj es)) (hc : TypedLeaves c) :
    TypedLeaves (.obj (Gen.putChild es n c)) := by
  unfold Gen.putChild
  split
  · rename_i hm; clear hm
    induction es with
    | nil => exact h
    | cons e es ih =>
      obtain ⟨k, x⟩ := e
      have h1 : TypedLeaves (.obj es) := fun d hd => h d (by simp [Tree.leaves, Tree.leavesE] at hd ⊢; exact .inr hd)
      have h2 : TypedLeaves x := fun d hd => h d (by simp [Tree.leaves, Tree.leavesE]; exact .inl hd)
      intro d hd
      simp only [List.map_cons, Tree.leaves] at hd
      have ih := ih h1 d
      simp only [Tree.leaves] at ih
      by_cases hk : k = n
      · simp only [hk, if_true, Tree.leavesE, List.mem_append] at hd
        rcases hd with hd | hd
        · exact hc d hd
        · exact ih hd
      · simp only [hk, if_false, Tree.leavesE, List.mem_append] at hd
        rcases hd with hd | hd
        · exact h2 d hd
        · exact ih hd
  · intro d hd
    simp only [Tree.leaves, leavesE_append, List.mem_append, Tree.leavesE, List.append_nil] at hd
    rcases hd with hd | hd
    · exact h d hd
    · exact hc d hd

theorem typed_objLoop : ∀ (fs : List (Str × (Schema → Int → Res Schema))) (es : List (Str × Schema)) (off : Int) (r : List (Str × Schema)),
    (∀ f ∈ fs, ∀ i o s, TypedLeaves i → f.2 i o = .ok s → TypedLeaves s) → TypedLeaves (.obj es) →
    Gen.objLoop es off fs = .ok r → TypedLeaves (.obj r)
  | [], es, off, r, _, h, hr => by
    rw [Gen.objLoop] at hr; injection hr with hr; rw [← hr]; exact h
  | (n, f) :: fs, es, off, r, hf, h, hr => by
    rw [Gen.objLoop] at hr
    split at hr
    · rename_i c hc
      have : TypedLeaves c := hf (n, f) (by simp) _ _ _ (by simp [TypedLeaves, Tree.leaves, Tree.leavesE]) hc
      exact typed_objLoop fs _ _ _ (fun g hg => hf g (by simp [hg])) (typed_putChild h this) hr
    · simp at hr
    · simp at hr

theorem typed_lstLoop : ∀ (fs : List (Schema → Int → Res Schema)) (es : List Schema) (off : Int) (r : List Schema),
    (∀ f ∈ fs, ∀ i o s, TypedLeaves i → f i o = .ok s → TypedLeaves s) → TypedLeaves (.lst es) →
    Gen.lstLoop es off fs = .ok r → TypedLeaves (.lst r)
  | [], es, off, r, _, h, hr => by
    rw [Gen.lstLoop] at hr; injection hr with hr; rw [← hr]; exact h
  | f :: fs, es, off, r, hf, h, hr => by
    rw [Gen.lstLoop] at hr
    split at hr
    · rename_i c hc
      have hc' : TypedLeaves c := hf f (by simp) _ _ _ (by simp [TypedLeaves, Tree.leaves, Tree.leavesL]) hc
      refine typed_lstLoop fs _ _ _ (fun g hg => hf g (by simp [hg])) ?_ hr
      intro d hd
      simp only [Tree.leaves, leavesL_append, List.mem_append, Tree.leavesL, List.append_nil] at hd
      rcases hd with hd | hd
      · exact h d hd
      · exact hc' d hd
    · simp at hr
    · simp at hr

theorem map'_ok_iff {α β : Type} {f : α → β} {r : Res α} {b : β} : r.map' f = .ok b ↔ ∃ a, r = .ok a ∧ f a = b := by
  cases r <;> simp [Res.map']

theorem mem_of_lookup {α : Type} {n : Str} {v : α} : ∀ {l : List (Str × α)}, l.lookup n = some v → (n, v) ∈ l
  | [], h => by simp at h
  | (k, x) :: l, h => by
    rw [List.lookup_cons] at h
    by_cases hk : (n == k) = true
    · simp only [hk] at h; injection h with h
      have := eq_of_beq hk
      subst this; subst h; simp
    · have : (n == k) = false := by simpa using hk
      simp only [this] at h
      exact List.mem_cons_of_mem _ (mem_of_lookup h)

mutual
theorem typed_walkS : ∀ (v : JV) (init : Schema) (off : Int) (s : Schema), TypedLeaves init →
    Gen.walkS v init off = .ok s → TypedLeaves s
  | .obj ms, init, off, s, hi, h => by
    rw [Gen.walkS] at h
    split at h
    · split at h
      · rename_i len f _ hf
        split at h
        · injection h with h; rw [← h]; exact hi
        · obtain ⟨r, hr, rfl⟩ := map'_ok_iff.1 h
          refine typed_lstLoop _ _ _ _ ?_ (by simp [TypedLeaves, Tree.leaves, Tree.leavesL]) hr
          intro g hg
          rw [List.eq_of_mem_replicate hg]
          exact typed_walkSM ms _ (mem_of_lookup hf)
      · simp at h
      · simp at h
    · obtain ⟨d, _, rfl⟩ := map'_ok_iff.1 h
      exact typed_setDtype d
    · obtain ⟨r, hr, rfl⟩ := map'_ok_iff.1 h
      exact typed_objLoop _ _ _ _ (typed_walkSM ms) (by simp [TypedLeaves, Tree.leaves, Tree.leavesE]) hr
  | .arr vs, init, off, s, _, h => by
    rw [Gen.walkS] at h
    obtain ⟨r, hr, rfl⟩ := map'_ok_iff.1 h
    exact typed_lstLoop _ _ _ _ (typed_walkSL vs) (by simp [TypedLeaves, Tree.leaves, Tree.leavesL]) hr
  | .str t, init, off, s, _, h => by
    rw [Gen.walkS] at h
    obtain ⟨d, _, rfl⟩ := map'_ok_iff.1 h
    exact typed_setDtype d
  | .null, _, _, _, _, h => by simp [Gen.walkS] at h
  | .bool _, _, _, _, _, h => by simp [Gen.walkS] at h
  | .int _, _, _, _, _, h => by simp [Gen.walkS] at h
  | .real _, _, _, _, _, h => by simp [Gen.walkS] at h
theorem typed_walkSM : ∀ (ms : List (Str × JV)), ∀ f ∈ Gen.walkSM ms, ∀ i o s, TypedLeaves i → f.2 i o = .ok s → TypedLeaves s
  | [], f, hf => by simp [Gen.walkSM] at hf
  | (n, v) :: ms, f, hf => by
    rw [Gen.walkSM] at hf
    rcases List.mem_cons.1 hf with rfl | hf
    · exact typed_walkS v
    · exact typed_walkSM ms f hf
theorem typed_walkSL : ∀ (vs : List JV), ∀ f ∈ Gen.walkSL vs, ∀ i o s, TypedLeaves i → f i o = .ok s → TypedLeaves s
  | [], f, hf => by simp [Gen.walkSL] at hf
  | v :: vs, f, hf => by
    rw [Gen.walkSL] at hf
    rcases List.mem_cons.1 hf with rfl | hf
    · exact typed_walkS v
    · exact typed_walkSL vs f hf
end

/-! ### the encoded text as a string literal -/

theorem encodeValue_letter (v : UInt8) : Base64.encodeValue v ∈ 61 :: Base64.alphabet := by
  unfold Base64.encodeValue
  cases h : Base64.alphabet[v.toNat]? with
  | none => simp
  | some b => simp [List.mem_of_getElem? h]

theorem encBlock_letters : ∀ (bs : List UInt8) (st : Base64.EncSt), ∀ b ∈ (Base64.encBlock st bs).1, b ∈ 61 :: Base64.alphabet
  | [], st, b, hb => by cases st <;> simp [Base64.encBlock] at hb
  | f :: bs, st, b, hb => by
    cases st with
    | stepA =>
      simp only [Base64.encBlock, List.mem_cons] at hb
      rcases hb with rfl | hb
      · exact encodeValue_letter _
      · exact encBlock_letters bs _ b hb
    | stepB r =>
      simp only [Base64.encBlock, List.mem_cons] at hb
      rcases hb with rfl | hb
      · exact encodeValue_letter _
      · exact encBlock_letters bs _ b hb
    | stepC r =>
      simp only [Base64.encBlock, List.mem_cons] at hb
      rcases hb with rfl | rfl | hb
      · exact encodeValue_letter _
      · exact encodeValue_letter _
      · exact encBlock_letters bs _ b hb

theorem encode_letters {bs t : List UInt8} (h : Base64.encode bs = some t) : ∀ b ∈ t, b ∈ 61 :: Base64.alphabet := by
  unfold Base64.encode at h
  simp only at h
  split at h
  · simp at h
  · injection h with h
    intro b hb
    rw [← h, List.mem_append] at hb
    rcases hb with hb | hb
    · exact encBlock_letters _ _ b hb
    · unfold Base64.encEnd at hb
      split at hb
      · simp at hb
      · simp only [List.mem_cons, List.not_mem_nil, or_false] at hb
        rcases hb with rfl | rfl | rfl
        · exact encodeValue_letter _
        · simp
        · simp
      · simp only [List.mem_cons, List.not_mem_nil, or_false] at hb
        rcases hb with rfl | rfl
        · exact encodeValue_letter _
        · simp

theorem letter_char : ∀ b ∈ 61 :: Base64.alphabet, charByte (byteChar b) = b ∧ escapeChar (byteChar b) = [byteChar b] ∧
    byteChar b ≠ '"' ∧ byteChar b ≠ '\\' ∧ 0x20 ≤ (byteChar b).toNat := by decide +kernel

theorem encoded_text {bs t : List UInt8} (h : Base64.encode bs = some t) :
    (t.map byteChar).map charByte = t ∧ escape (t.map byteChar) = t.map byteChar ∧ CleanName (t.map byteChar) := by
  have hl := encode_letters h
  clear h
  induction t with
  | nil => exact ⟨rfl, rfl, by simp [CleanName]⟩
  | cons b t ih =>
    obtain ⟨i1, i2, i3⟩ := ih (fun x hx => hl x (by simp [hx]))
    obtain ⟨a1, a2, a3⟩ := letter_char b (hl b (by simp))
    refine ⟨by rw [List.map_cons, List.map_cons, i1, a1], ?_, ?_⟩
    · unfold escape at i2 ⊢
      rw [List.map_cons, List.flatMap_cons, a2, i2]; rfl
    · intro c hc
      rw [List.map_cons, List.mem_cons] at hc
      rcases hc with rfl | hc
      · exact a3
      · exact i3 c hc

/-! ### reading the document -/

/-- the JSON value of a conduit_base64_json document -/
def base64JV (big : Bool) (s : Schema) (t : Str) : JV :=
  .obj [(chars! "schema", schemaJV big s), (chars! "data", .obj [(chars! "base64", .str t)])]

theorem rep_obj {ms : List (Str × JV)} {w body : Str} (hw : WS w) (h : RepM ms body) :
    Rep (.obj ms) ('{' :: (w ++ (body ++ ['}']))) := by rw [Rep]; exact ⟨w, body, hw, h, rfl⟩

theorem repM_last {n : Str} {v : JV} {w2 tv w : Str} (hn : CleanName n) (h2 : WS w2) (hv : Rep v tv) (hw : WS w) :
    RepM [(n, v)] ('"' :: (n ++ '"' :: (':' :: (w2 ++ (tv ++ w))))) := by
  rw [RepM]; exact ⟨n, [], w2, tv, w, clean_rj hn, ws_nil, h2, hv, hw, .inl ⟨rfl, rfl⟩⟩

theorem repM_cons {n : Str} {v : JV} {ms : List (Str × JV)} {w2 tv w w' t' : Str} (hn : CleanName n) (h2 : WS w2) (hv : Rep v tv)
    (hw : WS w) (hm : ms ≠ []) (hw' : WS w') (ht : RepM ms t') :
    RepM ((n, v) :: ms) ('"' :: (n ++ '"' :: (':' :: (w2 ++ (tv ++ (w ++ ',' :: (w' ++ t'))))))) := by
  rw [RepM]; exact ⟨n, [], w2, tv, w, clean_rj hn, ws_nil, h2, hv, hw, .inr ⟨hm, w', t', hw', ht, rfl⟩⟩

theorem base64Doc_rep (big : Bool) (i : Nat) (pad eoe : Str) (hp : WS pad) (he : WS eoe) (dep : Nat) (s : Schema) (h : Printable s)
    (t : Str) (ht : CleanName t) (hesc : escape t = t) :
    ∃ w r, WS w ∧ Rep (base64JV big s t) r ∧ base64Doc big i pad eoe dep s t = w ++ r := by
  obtain ⟨ws, ts, hws, hts, hseq⟩ := toJson_rep big i pad eoe hp he s (dep + 1) h
  have w0 := ws_append he (ws_indent hp i dep)
  have w1 := ws_append he (ws_indent hp i (dep + 1))
  have w2 := ws_append he (ws_indent hp i (dep + 2))
  have c1 : CleanName (chars! "schema") := by unfold CleanName; decide
  have c2 : CleanName (chars! "data") := by unfold CleanName; decide
  have c3 : CleanName (chars! "base64") := by unfold CleanName; decide
  have r1 := rep_obj w2 (repM_last c3 ws_one (rep_str ht) w1)
  have r2 := repM_last c2 (ws_append ws_one w1) r1 w0
  have r3 := rep_obj w1 (repM_cons c1 (ws_append ws_one hws) hts ws_nil (by simp) w1 r2)
  refine ⟨_, _, w0, r3, ?_⟩
  simp only [base64Doc, base64Data, jsonLit, hesc, hseq, List.append_assoc, List.cons_append, List.nil_append, List.append_nil]

theorem plain_base64Doc (big : Bool) (i : Nat) (pad eoe : Str) (hp : WS pad) (he : WS eoe) (dep : Nat) (s : Schema) (h : Printable s)
    (t : Str) (ht : CleanName t) (hesc : escape t = t) : Plain (base64Doc big i pad eoe dep s t) := by
  have e := plain_ws he
  have n0 := plain_ws (ws_indent hp i dep)
  have n1 := plain_ws (ws_indent hp i (dep + 1))
  have n2 := plain_ws (ws_indent hp i (dep + 2))
  have c1 : CleanName (chars! "schema") := by unfold CleanName; decide
  have c2 : CleanName (chars! "data") := by unfold CleanName; decide
  have c3 : CleanName (chars! "base64") := by unfold CleanName; decide
  have p1 := e.append (n1.append (plain_char '}' (e.append (n0.append (plain_char '}' .nil (by decide)))) (by decide)))
  have p2 := plain_key _ c3 (plain_char ':' (plain_char ' ' (plain_key t ht p1) (by decide)) (by decide))
  have p3 := plain_key _ c2 (plain_char ':' (plain_char ' ' (e.append (n1.append (plain_char '{' (e.append (n2.append p2)) (by decide))))
    (by decide)) (by decide))
  have p4 := plain_key _ c1 (plain_char ':' (plain_char ' ' ((plain_toJson big i pad eoe hp he s (dep + 1) h).append
    (plain_char ',' (e.append (n1.append p3)) (by decide))) (by decide)) (by decide))
  have p5 := e.append (n0.append (plain_char '{' (e.append (n1.append p4)) (by decide)))
  simpa only [base64Doc, base64Data, jsonLit, hesc, List.append_assoc, List.cons_append, List.nil_append, List.append_nil] using p5

theorem base64Doc_head (big : Bool) (i : Nat) (pad eoe : Str) (hp : WS pad) (he : WS eoe) (dep : Nat) (s : Schema) (t : Str) :
    (base64Doc big i pad eoe dep s t).head? ≠ some '"' := by
  have key : ∀ (w : Str) (c : Char) (r : Str), WS w → c ≠ '"' → (w ++ c :: r).head? ≠ some '"' := by
    intro w c r hw hc
    cases w with
    | nil => simpa using hc
    | cons x w =>
      have := hw x (by simp)
      simp; rintro rfl; exact absurd this (by decide)
  unfold base64Doc
  simp only [List.append_assoc, List.cons_append]
  rw [← List.append_assoc]
  exact key _ '{' _ (ws_append he (ws_indent hp _ _)) (by decide)

theorem parse_base64Doc (big : Bool) (i : Nat) (pad eoe : Str) (hp : WS pad) (he : WS eoe) (dep : Nat) (s : Schema) (h : Printable s)
    (t : Str) (ht : CleanName t) (hesc : escape t = t) :
    JV.parseDoc (jsonSanitize (base64Doc big i pad eoe dep s t)) = some (base64JV big s t) := by
  have hpl := plain_base64Doc big i pad eoe hp he dep s h t ht hesc
  rw [hpl.sanitize (base64Doc_head big i pad eoe hp he dep s t)]
  obtain ⟨w, r, hw, hr, heq⟩ := base64Doc_rep big i pad eoe hp he dep s h t ht hesc
  have h0 := hpl.no_nul
  rw [heq] at h0 ⊢
  have := parseDoc_rep hr hw ws_nil (by simpa using h0)
  rwa [List.append_nil] at this

/-- the bytes handed to the encoder -/
theorem base64Source_spec (n : Node) (m : Mem) (hr : Readable m n) :
    ∃ bytes, base64Source n m = .ok (n.schema.compactTo, bytes) ∧ bytes.map some = flat (val m n) := by
  obtain ⟨bytes, _, hb⟩ := saveBin_spec n m hr
  obtain ⟨m', n', h1, h2, h3, _⟩ := compactTo_spec n new m hr (good_nil m) (by simp [new, owned, ownPtr])
  obtain ⟨p, al, hw⟩ := compactTo_walk _ _ _ _ _ h1
  have hc := countsOK_of hr
  have t := total_nonneg _ hc
  have hfl := flat_walk_compact m' p al n.schema 0 hc
  rw [show walk p al (compactAt n.schema 0) = n' from hw.symm, h2, ← hb] at hfl
  have hbl : bytes.length = n.schema.totalBytesCompact.toNat := by
    have := congrArg List.length hfl; simpa [Spec.run] using this
  have hbyte : ∀ i : Nat, i < bytes.length → m'.byteAt p i = bytes[i]? := by
    intro i hi
    have := congrArg (fun l => l[i]?) hfl
    simp only [List.getElem?_map, Spec.run] at this
    rw [List.getElem?_range (by omega), List.getElem?_eq_getElem hi] at this
    simp only [Option.map_some, Int.zero_add, Option.some.injEq] at this
    rw [← this, List.getElem?_eq_getElem hi]
  obtain ⟨s1, s2, s3⟩ := span_compactAt n.schema 0 hc (Int.le_refl 0)
  have hsp : n.schema.compactTo.spannedBytes = n.schema.totalBytesCompact := by
    rw [Schema.compactTo]
    rcases Int.lt_or_eq_of_le t with h | h
    · have := s3 h; omega
    · omega
  have hinfo : n'.info.data = p := by
    rw [hw]; cases n.schema.compactTo <;> rfl
  refine ⟨bytes, ?_, hb⟩
  rw [base64Source, h1, Res.bind_ok]
  simp only
  rw [h3, hsp, if_neg (by omega), hinfo, ← hbl]
  by_cases hz : bytes.length = 0
  · rw [hz, List.length_eq_zero_iff.1 hz]; rfl
  · cases p with
    | none =>
      have := hbyte 0 (by omega)
      rw [List.getElem?_eq_getElem (by omega)] at this
      simp [Mem.byteAt] at this
    | some q =>
      obtain ⟨bs, l1, l2, l3⟩ := Mem.load_ok (m := m') (q := q) (off := 0) (len := bytes.length) (by
        intro k hk
        have := hbyte k hk
        simp only [Mem.byteAt] at this
        rw [Int.add_zero, this, List.getElem?_eq_getElem hk]; rfl)
      rw [l1, Res.bind_ok]
      have : bs = bytes := by
        apply List.ext_getElem? 
        intro k
        by_cases hk : k < bytes.length
        · rw [l3 k hk]
          have := hbyte k hk
          simp only [Mem.byteAt] at this
          rw [Int.add_zero, this]
        · rw [List.getElem?_eq_none (by omega), List.getElem?_eq_none (by omega)]
      rw [this]

end Conduit
