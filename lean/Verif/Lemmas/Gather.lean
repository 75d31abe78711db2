import Verif.Model.Gather
import Verif.Lemmas.Relay
import Verif.Lemmas.MeshReorder
namespace Conduit
namespace Relay
open Spec Spec.Tree Schema Node

/-! ### the schema of the gathered tree -/

mutual
theorem total_readBack' (big : Bool) : ∀ (s : Schema) (o : Int), totalBytesCompact (readBack big s o) = totalBytesCompact s
  | .leaf d, o => by
    rw [readBack]; split
    · rename_i h; simp [totalBytesCompact, h]
    · rename_i h; simp [totalBytesCompact, DataType.bytesCompact, h]
  | .obj es, o => by rw [readBack, totalBytesCompact, totalBytesCompact, total_readBackE' big es o]
  | .lst es, o => by rw [readBack, totalBytesCompact, totalBytesCompact, total_readBackL' big es o]
theorem total_readBackE' (big : Bool) : ∀ (es : List (Str × Schema)) (o : Int),
    totalBytesCompactE (readBackE big es o) = totalBytesCompactE es
  | [], _ => rfl
  | (n, c) :: es, o => by
    rw [readBackE, totalBytesCompactE, totalBytesCompactE, total_readBack' big c o, total_readBackE' big es]
theorem total_readBackL' (big : Bool) : ∀ (es : List Schema) (o : Int),
    totalBytesCompactL (readBackL big es o) = totalBytesCompactL es
  | [], _ => rfl
  | c :: es, o => by
    rw [readBackL, totalBytesCompactL, totalBytesCompactL, total_readBack' big c o, total_readBackL' big es]
end

mutual
theorem view_compact_readBack (big : Bool) (m : Mem) (p : Option Ptr) : ∀ (s : Schema) (o off : Int),
    view m p (compactAt (readBack big s o) off) = named big (view m p (compactAt s off))
  | .leaf d, o, off => by
    rw [readBack]
    by_cases h : d.id = .empty
    · simp [h, compactAt, view, named]
    · simp [h, compactAt, view, named, DataType.compactTo, elems]
  | .obj es, o, off => by rw [readBack, compactAt, compactAt, view, view, named, viewE_compact_readBack big m p es]
  | .lst es, o, off => by rw [readBack, compactAt, compactAt, view, view, named, viewL_compact_readBack big m p es]
theorem viewE_compact_readBack (big : Bool) (m : Mem) (p : Option Ptr) : ∀ (es : List (Str × Schema)) (o off : Int),
    viewE m p (compactAtE (readBackE big es o) off) = namedE big (viewE m p (compactAtE es off))
  | [], _, _ => rfl
  | (n, c) :: es, o, off => by
    rw [readBackE, compactAtE, compactAtE, viewE, viewE, namedE, view_compact_readBack big m p c, viewE_compact_readBack big m p es,
      total_compactAt, total_compactAt, total_readBack']
theorem viewL_compact_readBack (big : Bool) (m : Mem) (p : Option Ptr) : ∀ (es : List Schema) (o off : Int),
    viewL m p (compactAtL (readBackL big es o) off) = namedL big (viewL m p (compactAtL es off))
  | [], _, _ => rfl
  | c :: es, o, off => by
    rw [readBackL, compactAtL, compactAtL, viewL, viewL, namedL, view_compact_readBack big m p c, viewL_compact_readBack big m p es,
      total_compactAt, total_compactAt, total_readBack']
end

mutual
theorem leavesOK_readBack (big : Bool) : ∀ (s : Schema) (o : Int), (∀ d ∈ s.leaves, LeafOK d) →
    ∀ d ∈ (readBack big s o).leaves, LeafOK d
  | .leaf d, o, h, d', hd => by
    have := h d (by simp [leaves])
    rw [readBack] at hd
    split at hd <;> simp only [leaves, List.mem_singleton] at hd <;> subst hd
    · exact ⟨by simp, by simp, by simp⟩
    · exact this
  | .obj es, o, h, d', hd => leavesOK_readBackE big es o h d' hd
  | .lst es, o, h, d', hd => leavesOK_readBackL big es o h d' hd
theorem leavesOK_readBackE (big : Bool) : ∀ (es : List (Str × Schema)) (o : Int), (∀ d ∈ leavesE es, LeafOK d) →
    ∀ d ∈ leavesE (readBackE big es o), LeafOK d
  | [], _, _, d', hd => by simp [readBackE, leavesE] at hd
  | (n, c) :: es, o, h, d', hd => by
    simp only [readBackE, leavesE, List.mem_append] at hd
    rcases hd with hd | hd
    · exact leavesOK_readBack big c o (fun d hd => h d (by simp [leavesE, hd])) d' hd
    · exact leavesOK_readBackE big es _ (fun d hd => h d (by simp [leavesE, hd])) d' hd
theorem leavesOK_readBackL (big : Bool) : ∀ (es : List Schema) (o : Int), (∀ d ∈ leavesL es, LeafOK d) →
    ∀ d ∈ leavesL (readBackL big es o), LeafOK d
  | [], _, _, d', hd => by simp [readBackL, leavesL] at hd
  | c :: es, o, h, d', hd => by
    simp only [readBackL, leavesL, List.mem_append] at hd
    rcases hd with hd | hd
    · exact leavesOK_readBack big c o (fun d hd => h d (by simp [leavesL, hd])) d' hd
    · exact leavesOK_readBackL big es _ (fun d hd => h d (by simp [leavesL, hd])) d' hd
end

mutual
theorem view_shift (m : Mem) (b : Nat) (o k : Int) : ∀ (s : Schema) (off : Int),
    view m (some ⟨b, o⟩) (compactAt s (off + k)) = view m (some ⟨b, o + k⟩) (compactAt s off)
  | .leaf d, off => by
    by_cases h : d.id = .empty
    · simp [h, compactAt, view]
    · simp only [h, compactAt, view, if_false, DataType.compactTo, elems, Mem.byteAt]
      congr 1
      apply List.map_congr_left
      intro i _
      apply List.map_congr_left
      intro j _
      congr 1
      omega
  | .obj es, off => by rw [compactAt, compactAt, view, view, viewE_shift m b o k es]
  | .lst es, off => by rw [compactAt, compactAt, view, view, viewL_shift m b o k es]
theorem viewE_shift (m : Mem) (b : Nat) (o k : Int) : ∀ (es : List (Str × Schema)) (off : Int),
    viewE m (some ⟨b, o⟩) (compactAtE es (off + k)) = viewE m (some ⟨b, o + k⟩) (compactAtE es off)
  | [], _ => rfl
  | (n, c) :: es, off => by
    rw [compactAtE, compactAtE, viewE, viewE, view_shift m b o k c, total_compactAt, total_compactAt,
      show off + k + totalBytesCompact c = off + totalBytesCompact c + k by omega, viewE_shift m b o k es]
theorem viewL_shift (m : Mem) (b : Nat) (o k : Int) : ∀ (es : List Schema) (off : Int),
    viewL m (some ⟨b, o⟩) (compactAtL es (off + k)) = viewL m (some ⟨b, o + k⟩) (compactAtL es off)
  | [], _ => rfl
  | c :: es, off => by
    rw [compactAtL, compactAtL, viewL, viewL, view_shift m b o k c, total_compactAt, total_compactAt,
      show off + k + totalBytesCompact c = off + totalBytesCompact c + k by omega, viewL_shift m b o k es]
end

/-! ### the contributions -/

/-- what a rank's text and data are -/
structure Part (big : Bool) (r : Node × Mem) (x : List UInt8 × List UInt8) : Prop where
  text : x.1 = (schemaText big r.1.schema.compactTo).map charByte ++ [0]
  data : x.2.map some = flat (val r.2 r.1)
  len : (x.2.length : Int) = totalBytesCompact r.1.schema

theorem gatherSend_ok (big : Bool) (n : Node) (m : Mem) (hr : Readable m n)
    (h1 : ((schemaText big n.schema.compactTo).length : Int) + 1 < 2 ^ 31) (h2 : totalBytesCompact n.schema < 2 ^ 31) :
    ∃ x, gatherSend big n m = .ok x ∧ Part big (n, m) x := by
  have hc := countsOK_of hr
  have t := total_nonneg _ hc
  have htext : mpiSend ((schemaText big n.schema.compactTo).map charByte ++ [0])
      ((schemaText big n.schema.compactTo).map charByte ++ [0]).length =
        .ok ((schemaText big n.schema.compactTo).map charByte ++ [0]) :=
    mpiSend_all rfl (by simpa using h1)
  have hcast : castInt (totalBytesCompact n.schema.compactTo) = totalBytesCompact n.schema := by
    rw [Schema.compactTo, total_compactAt]; exact castInt_small t h2
  rcases Int.lt_or_eq_of_le t with hp | hp
  · obtain ⟨m', bs, a1, a2, a3, a4, _⟩ := compactTo_block n new m hr (good_nil m) (by simp [new, owned, ownPtr]) hp
    refine ⟨(_, bs), ?_, ⟨rfl, a3, a4⟩⟩
    unfold gatherSend
    rw [a1, bind_ok]
    simp only [schema_walk]
    rw [htext, bind_ok, hcast, if_neg (by omega), ← a4]
    have hi : (walk (some ⟨m.length, 0⟩) true n.schema.compactTo).info.data = some ⟨m.length, 0⟩ := by
      cases n.schema.compactTo <;> rfl
    rw [hi]
    have : m'.load (some ⟨m.length, 0⟩) 0 ((bs.length : Int)).toNat = .ok bs := by
      unfold Mem.load
      split
      · rename_i h0
        have : bs = [] := List.eq_nil_of_length_eq_zero (by omega)
        rw [this]
      · simp [a2]
    rw [this, bind_ok]
  · obtain ⟨m', n', a1, a2, a3, _⟩ := compactTo_spec n new m hr (good_nil m) (by simp [new, owned, ownPtr])
    refine ⟨(_, []), ?_, ⟨rfl, ?_, by simpa using hp⟩⟩
    · unfold gatherSend
      rw [a1, bind_ok]
      simp only [a3]
      rw [htext, bind_ok, hcast, if_neg (by omega), ← hp]
      rfl
    · obtain ⟨p, al, hw⟩ := compactTo_walk _ _ _ _ _ a1
      have hfl := flat_walk_compact m' p al n.schema 0 hc
      rw [show walk p al (compactAt n.schema 0) = n' from hw.symm, a2, ← hp] at hfl
      rw [hfl]; rfl

/-! ### displacements -/

/-- the starts of consecutive pieces -/
def starts : Int → List (List UInt8) → List Int
  | _, [] => []
  | cur, x :: xs => cur :: starts (cur + x.length) xs

theorem displs_ok : ∀ (xs : List (List UInt8)) (cur : Int), cur + xs.flatten.length < 2 ^ 31 →
    displs cur xs = .ok (starts cur xs, cur + xs.flatten.length)
  | [], cur, _ => by simp [displs, starts]
  | x :: xs, cur, h => by
    simp only [List.flatten_cons, List.length_append] at h
    rw [displs, if_pos (by omega), displs_ok xs _ (by omega), bind_ok]
    simp only [starts, List.flatten_cons, List.length_append]
    congr 2
    omega

theorem gatherv_spec (q : Ptr) : ∀ (xs : List (List UInt8)) (cur : Int) (m : Mem),
    (∀ k : Nat, k < xs.flatten.length → (m.byte q.blk (q.off + cur + k)).isSome) →
    ∃ m', gatherv (some q) ((starts cur xs).zip xs) m = .ok m' ∧ m'.length = m.length ∧ (∀ b, m'.size b = m.size b) ∧
      ∀ b i, m'.byte b i = if b = q.blk ∧ q.off + cur ≤ i ∧ i < q.off + cur + xs.flatten.length
        then xs.flatten[(i - (q.off + cur)).toNat]? else m.byte b i
  | [], cur, m, _ => ⟨m, rfl, rfl, fun _ => rfl, fun b i => by
      rw [if_neg (by simp only [List.flatten_nil, List.length_nil]; omega)]⟩
  | x :: xs, cur, m, h => by
    simp only [List.flatten_cons, List.length_append] at h
    obtain ⟨m1, s1, s2, s3, s4⟩ := Mem.store_spec (m := m) (q := q) (off := cur) (xs := x) (fun k hk => h k (by omega))
    obtain ⟨m2, r1, r2, r3, r4⟩ := gatherv_spec q xs (cur + x.length) m1 (by
      intro k hk
      rw [s4, if_neg (by omega)]
      have := h (x.length + k) (by omega)
      rw [show q.off + cur + ((x.length + k : Nat) : Int) = q.off + (cur + x.length) + k by omega] at this
      exact this)
    refine ⟨m2, ?_, by omega, fun b => by rw [r3, s3], ?_⟩
    · rw [starts, List.zip_cons_cons, gatherv, s1, bind_ok, r1]
    · intro b i
      rw [r4, s4]
      simp only [List.flatten_cons, List.length_append]
      by_cases hb : b = q.blk
      · by_cases h1 : q.off + cur ≤ i
        · by_cases h2 : i < q.off + cur + x.length
          · rw [if_neg (by omega), if_pos (by omega), if_pos (by omega), List.getElem?_append_left (by omega)]
          · by_cases h3 : i < q.off + cur + x.length + xs.flatten.length
            · rw [if_pos (by omega), if_pos (by omega), List.getElem?_append_right (by omega)]
              congr 1
              omega
            · rw [if_neg (by omega), if_neg (by omega), if_neg (by omega)]
        · rw [if_neg (by omega), if_neg (by omega), if_neg (by omega)]
      · rw [if_neg (by simp [hb]), if_neg (by simp [hb]), if_neg (by simp [hb])]

/-- the schema texts one after the other -/
theorem gatherv_text (xs : List (List UInt8)) :
    gatherv (some ⟨0, 0⟩) ((starts 0 xs).zip xs) [some (List.replicate xs.flatten.length 0)] = .ok [some xs.flatten] := by
  obtain ⟨m', r1, r2, r3, r4⟩ := gatherv_spec ⟨0, 0⟩ xs 0 [some (List.replicate xs.flatten.length 0)] (by
    intro k hk
    simp only [Mem.byte, List.getElem?_cons_zero]
    rw [if_neg (by omega), List.getElem?_replicate, if_pos (by omega)]; rfl)
  rw [r1]
  have hb := block_eq (m := m') (b := 0) (xs := xs.flatten) (by rw [r3]; simp [Mem.size]) (by
    intro i hi
    rw [r4, if_pos ⟨rfl, by simp, by show (i : Int) < 0 + 0 + _; omega⟩]
    simp)
  match m', r2, hb with
  | [y], _, hb => simp at hb; rw [hb]

theorem gatherSchema_at {pre text post : List UInt8} {s : Schema} (h0 : 0 ∉ text)
    (hs : Gen.parseSchema (text.map byteChar) = .ok s) :
    gatherSchema (pre ++ ((text ++ [0]) ++ post)) pre.length = .ok s := by
  unfold gatherSchema cString
  have hd : (pre ++ ((text ++ [0]) ++ post)).drop ((pre.length : Int)).toNat = text ++ 0 :: post := by
    simp
  rw [hd, if_neg (by simp), takeWhile_text h0, bind_ok, hs]

/-! ### the receiver -/

/-- what is asked of a rank's node -/
structure Sends (big : Bool) (r : Node × Mem) : Prop where
  readable : Readable r.2 r.1
  names : NamesOK r.1.schema
  bytes : ByteNames r.1.schema

/-- the schema a rank's text is read as -/
def partSchema (big : Bool) (r : Node × Mem) : Schema := readBack big r.1.schema.compactTo 0

theorem part_text (big : Bool) (r : Node × Mem) (h : Sends big r) (h2 : totalBytesCompact r.1.schema < 2 ^ 31) :
    0 ∉ (schemaText big r.1.schema.compactTo).map charByte ∧
      Gen.parseSchema (((schemaText big r.1.schema.compactTo).map charByte).map byteChar) = .ok (partSchema big r) := by
  have hp : Printable r.1.schema.compactTo :=
    printable_compactAt r.1.schema 0 h.names (countsOK_of h.readable) (readable_ids r.1 h.readable) (Int.le_refl 0) (by omega)
  have hws : WS (chars! " ") ∧ WS (chars! "\n") := by unfold WS; decide
  have hbytes : Bytes (schemaText big r.1.schema.compactTo) := bytes_toJson big 2 _ 0 (byteNames_compactAt _ _ h.bytes)
  constructor
  · intro h
    obtain ⟨c, hcm, he⟩ := List.mem_map.1 h
    refine charByte_ne (hbytes c hcm) ?_ he
    rintro rfl
    exact (plain_toJson big 2 (chars! " ") (chars! "\n") hws.1 hws.2 _ 0 hp).no_nul hcm
  · rw [chars_bytes hbytes]
    exact parseSchema_read big 2 _ _ hws.1 hws.2 _ 0 hp

theorem gatherSchemas_ok (big : Bool) {ranks : List (Node × Mem)} {parts : List (List UInt8 × List UInt8)}
    (h : List.Forall₂ (Part big) ranks parts) :
    ∀ (pre : List UInt8), (∀ r ∈ ranks, Sends big r ∧ totalBytesCompact r.1.schema < 2 ^ 31) →
    (starts pre.length (parts.map (·.1))).mapM (gatherSchema (pre ++ (parts.map (·.1)).flatten)) = .ok (ranks.map (partSchema big)) := by
  induction h with
  | nil => intro pre _; rfl
  | @cons r x ranks parts hp _ ih =>
    intro pre hs
    obtain ⟨a1, a2⟩ := part_text big r (hs r (by simp)).1 (hs r (by simp)).2
    have e1 : gatherSchema (pre ++ ((x :: parts).map (·.1)).flatten) pre.length = .ok (partSchema big r) := by
      rw [List.map_cons, List.flatten_cons, hp.text]
      exact gatherSchema_at a1 a2
    have e2 := ih (pre ++ x.1) (fun r hr => hs r (by simp [hr]))
    have e3 : pre ++ ((x :: parts).map (·.1)).flatten = pre ++ x.1 ++ (parts.map (·.1)).flatten := by simp
    rw [show ((pre ++ x.1).length : Int) = pre.length + x.1.length by simp, ← e3] at e2
    simp only [List.map_cons, starts, List.mapM_cons]
    simp only [List.map_cons] at e1 e2
    rw [e1, bind_ok, e2, bind_ok]
    rfl

theorem total_part (big : Bool) (r : Node × Mem) : totalBytesCompact (partSchema big r) = totalBytesCompact r.1.schema := by
  rw [partSchema, total_readBack', Schema.compactTo, total_compactAt]

theorem total_parts (big : Bool) {ranks : List (Node × Mem)} {parts : List (List UInt8 × List UInt8)}
    (h : List.Forall₂ (Part big) ranks parts) :
    totalBytesCompactL (ranks.map (partSchema big)) = ((parts.map (·.2)).flatten.length : Int) := by
  induction h with
  | nil => rfl
  | @cons r x ranks parts hp _ ih =>
    rw [List.map_cons, totalBytesCompactL, ih, total_part, ← hp.len]
    simp

theorem leaves_parts (big : Bool) : ∀ (ranks : List (Node × Mem)), (∀ r ∈ ranks, Readable r.2 r.1) →
    ∀ d ∈ leavesL (ranks.map (partSchema big)), LeafOK d
  | [], _, d, hd => by simp [leavesL] at hd
  | r :: ranks, h, d, hd => by
    simp only [List.map_cons, leavesL, List.mem_append] at hd
    rcases hd with hd | hd
    · exact leavesOK_readBack big _ _ (leavesOK_compactAt _ _ (readable_leaves r.1 (h r (by simp)))) d hd
    · exact leaves_parts big ranks (fun r hr => h r (by simp [hr])) d hd

/-- what the compacted list of schemas describes, where the data lie one after the other -/
theorem view_parts (big : Bool) {ranks : List (Node × Mem)} {parts : List (List UInt8 × List UInt8)}
    (h : List.Forall₂ (Part big) ranks parts) (m : Mem) (b : Nat) : ∀ (off : Int),
    (∀ r ∈ ranks, Readable r.2 r.1) →
    (∀ i : Nat, i < (parts.map (·.2)).flatten.length → m.byte b (off + i) = (parts.map (·.2)).flatten[i]?) →
    viewL m (some ⟨b, 0⟩) (compactAtL (ranks.map (partSchema big)) off) = ranks.map (fun r => named big (val r.2 r.1)) := by
  induction h with
  | nil => intro off _ _; rfl
  | @cons r x ranks parts hp _ ih =>
    intro off hr hb
    simp only [List.map_cons, List.flatten_cons, List.length_append] at hb
    rw [List.map_cons, compactAtL, viewL, List.map_cons, total_compactAt, total_part, ← hp.len]
    congr 1
    · rw [partSchema, view_compact_readBack, Schema.compactTo, compactAt_idem]
      congr 1
      have := view_shift m b 0 off r.1.schema 0
      rw [Int.zero_add] at this
      rw [this]
      refine (view_flat r.1 r.2 (hr r (by simp)) x.2 hp.data m (some ⟨b, off⟩) ?_).1
      intro i hi
      have := hb i (by omega)
      rw [List.getElem?_append_left hi] at this
      simpa [Mem.byteAt] using this
    · refine ih (off + x.2.length) (fun r h => hr r (by simp [h])) ?_
      intro i hi
      have := hb (x.2.length + i) (by omega)
      rw [List.getElem?_append_right (by omega)] at this
      rw [show off + (x.2.length : Int) + i = off + ((x.2.length + i : Nat) : Int) by omega, this]
      congr 1
      omega

theorem gatherRecv_ok (big : Bool) {ranks : List (Node × Mem)} {parts : List (List UInt8 × List UInt8)}
    (hp : List.Forall₂ (Part big) ranks parts) (hs : ∀ r ∈ ranks, Sends big r)
    (h1 : ((parts.map (·.1)).flatten.length : Int) < 2 ^ 31) (h2 : ((parts.map (·.2)).flatten.length : Int) < 2 ^ 31)
    (h3 : ∀ r ∈ ranks, totalBytesCompact r.1.schema < 2 ^ 31)
    (dest : Node) (m : Mem) (hd : GoodOwners m (owned dest)) :
    ∃ m' n', gatherRecv parts dest m = .ok (m', n') ∧ val m' n' = .lst (ranks.map fun r => named big (val r.2 r.1)) ∧
      Readable m' n' ∧ (∀ b ∈ blocks n', b = m.length) ∧ n'.info = ⟨some ⟨m.length, 0⟩, true⟩ ∧
      (∀ b, b < m.length → b ∉ (owned dest).map Ptr.blk → ∀ i, m'.byte b i = m.byte b i) := by
  let S : Schema := .lst (ranks.map (partSchema big))
  let D := (parts.map (·.2)).flatten
  have hT : totalBytesCompact S = D.length := total_parts big hp
  have hleaf : ∀ d ∈ S.leaves, LeafOK d := leaves_parts big ranks fun r h => (hs r h).readable
  have hcnt : CountsOK S := fun d h => (hleaf d h).1
  have hspan : spannedBytes S.compactTo = D.length := by
    obtain ⟨s1, s2, s3⟩ := span_compactAt S 0 hcnt (Int.le_refl 0)
    rw [Schema.compactTo]
    by_cases h : 0 < totalBytesCompact S
    · rw [s3 h, hT]; simp
    · omega
  obtain ⟨m1, a1, a2⟩ := releaseMem_spec dest m hd
  have hlen : m1.length = m.length := a2.1
  have hall : allocate m1 (spannedBytes S.compactTo) =
      ((m1.alloc D.length).1, { data := some ⟨m.length, 0⟩, alloced := true }) := by
    rw [hspan, allocate, if_neg (by omega), ← hlen]; rfl
  obtain ⟨m2, g1, g2, g3, g4⟩ := gatherv_spec ⟨m.length, 0⟩ (parts.map (·.2)) 0 (m1.alloc D.length).1 (by
    intro k hk
    rw [← hlen, Mem.byte_alloc_new, if_pos (by simp only [D]; omega)]; rfl)
  have hbyte : ∀ i : Nat, i < D.length → m2.byte m.length i = D[i]? := by
    intro i hi
    rw [g4, if_pos ⟨rfl, by simp, by show (i : Int) < 0 + 0 + _; simp only [D] at hi; omega⟩]
    simp [D]
  refine ⟨m2, walk (some ⟨m.length, 0⟩) true S.compactTo, ?_, ?_, ?_, blocks_walk _ _ _, rfl, ?_⟩
  · unfold gatherRecv
    rw [displs_ok _ _ (by omega), bind_ok, displs_ok _ _ (by omega), bind_ok]
    simp only [Int.zero_add, Int.toNat_natCast]
    rw [gatherv_text, bind_ok]
    simp only
    have := gatherSchemas_ok big hp [] (fun r h => ⟨hs r h, h3 r h⟩)
    simp only [List.nil_append, List.length_nil] at this
    rw [show ((0 : Nat) : Int) = 0 from rfl] at this
    rw [this, bind_ok]
    have hset : setSchema S.compactTo dest m = .ok ((m1.alloc D.length).1, walk (some ⟨m.length, 0⟩) true S.compactTo) := by
      rw [setSchema, a1, bind_ok, hall]
    rw [show Schema.compactTo (.lst (ranks.map (partSchema big))) = S.compactTo from rfl, hset, bind_ok]
    show (gatherv (some ⟨m.length, 0⟩) _ _ >>= _) = _
    rw [g1, bind_ok]
  · rw [val_walk]
    show Val.lst _ = _
    congr 1
    apply view_parts big hp m2 m.length 0 (fun r h => (hs r h).readable)
    intro i hi
    rw [Int.zero_add]
    exact hbyte i hi
  · refine readable_compact ⟨m.length, 0⟩ S true 0 hleaf ?_
    intro i i1 i2
    simp only [Int.zero_add, hT] at i1 i2
    have := hbyte i.toNat (by omega)
    rw [show ((i.toNat : Nat) : Int) = i by omega] at this
    rw [this, List.getElem?_eq_getElem (by omega)]; rfl
  · intro b hb hb' i
    rw [g4, if_neg (by simp only; omega), Mem.byte_alloc_old _ _ _ _ (by omega)]
    unfold Mem.byte
    rw [a2.2 b hb']

end Relay
end Conduit
