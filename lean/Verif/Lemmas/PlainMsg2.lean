import Verif.Lemmas.PlainMsg
namespace Conduit
namespace Relay
open Spec Spec.Tree Schema Node

/-! ### one run of memory -/

/-- the memory with one block only -/
def only (blk : Nat) (m : Mem) : Mem := m.mapIdx fun b x => if b = blk then x else none

theorem byte_only (blk : Nat) (m : Mem) (b : Nat) (i : Int) : (only blk m).byte b i = if b = blk then m.byte b i else none := by
  unfold Mem.byte only
  rw [List.getElem?_mapIdx]
  by_cases h : b = blk
  · simp [h]
  · rw [if_neg h]
    cases m[b]? <;> simp [h]

mutual
theorem inBlock_blocks {blk : Nat} : ∀ n : Node, InBlock blk n → ∀ b ∈ blocks n, b = blk
  | .leaf x d, h, b, hb => by
    rw [blocks] at hb
    split at hb
    · simp at hb
    · rename_i he
      obtain ⟨q, h1, h2⟩ := h (fun e => he (.inl e))
      rw [h1] at hb
      simp at hb
      rw [hb, h2]
  | .obj x es, h, b, hb => inBlock_blocksE es h b hb
  | .lst x es, h, b, hb => inBlock_blocksL es h b hb
theorem inBlock_blocksE {blk : Nat} : ∀ es : List (Str × Node), InBlockE blk es → ∀ b ∈ blocksE es, b = blk
  | [], _, b, hb => by simp [blocksE] at hb
  | (_, c) :: es, h, b, hb => by
    rw [blocksE, List.mem_append] at hb
    exact hb.elim (inBlock_blocks c h.1 b) (inBlock_blocksE es h.2 b)
theorem inBlock_blocksL {blk : Nat} : ∀ es : List Node, InBlockL blk es → ∀ b ∈ blocksL es, b = blk
  | [], _, b, hb => by simp [blocksL] at hb
  | c :: es, h, b, hb => by
    rw [blocksL, List.mem_append] at hb
    exact hb.elim (inBlock_blocks c h.1 b) (inBlock_blocksL es h.2 b)
end

mutual
theorem firstElem_data {base : Nat → Int} {blk : Nat} : ∀ n : Node, InBlock blk n →
    (firstElem base n = none ∧ firstData base n = 0) ∨
      ∃ (q : Ptr) (o : Int), firstElem base n = some (some q, o) ∧ q.blk = blk ∧ firstData base n = base blk + q.off + o ∧ firstData base n ≠ 0
  | .leaf x d, h => by
    rw [firstElem, firstData]
    by_cases he : d.id = .empty
    · left; simp [he]
    · obtain ⟨q, h1, h2⟩ := h he
      by_cases ha : elementAddr base x d = 0
      · left; simp [he, ha]
      · right
        refine ⟨q, d.elementIndex 0, by simp [he, ha, h1], h2, ?_, by simp [he, ha]⟩
        rw [if_neg he, elementAddr, h1, ← h2]
  | .obj x es, h => firstElemE_data es h
  | .lst x es, h => firstElemL_data es h
theorem firstElemE_data {base : Nat → Int} {blk : Nat} : ∀ es : List (Str × Node), InBlockE blk es →
    (firstElemE base es = none ∧ firstDataE base es = 0) ∨
      ∃ (q : Ptr) (o : Int), firstElemE base es = some (some q, o) ∧ q.blk = blk ∧ firstDataE base es = base blk + q.off + o ∧
        firstDataE base es ≠ 0
  | [], _ => .inl ⟨rfl, rfl⟩
  | (_, c) :: es, h => by
    rw [firstElemE, firstDataE]
    rcases firstElem_data (base := base) c h.1 with ⟨h1, h2⟩ | ⟨q, o, h1, h2, h3, h4⟩
    · rw [h1, if_pos h2]
      exact firstElemE_data es h.2
    · rw [h1, if_neg h4]
      exact .inr ⟨q, o, rfl, h2, h3, h4⟩
theorem firstElemL_data {base : Nat → Int} {blk : Nat} : ∀ es : List Node, InBlockL blk es →
    (firstElemL base es = none ∧ firstDataL base es = 0) ∨
      ∃ (q : Ptr) (o : Int), firstElemL base es = some (some q, o) ∧ q.blk = blk ∧ firstDataL base es = base blk + q.off + o ∧
        firstDataL base es ≠ 0
  | [], _ => .inl ⟨rfl, rfl⟩
  | c :: es, h => by
    rw [firstElemL, firstDataL]
    rcases firstElem_data (base := base) c h.1 with ⟨h1, h2⟩ | ⟨q, o, h1, h2, h3, h4⟩
    · rw [h1, if_pos h2]
      exact firstElemL_data es h.2
    · rw [h1, if_neg h4]
      exact .inr ⟨q, o, rfl, h2, h3, h4⟩
end

/-- the bytes of one run, where the run is -/
theorem run_flat {base : Nat → Int} {n : Node} (h1 : OneRun base n) (hc : isContiguous base n = true) {p : Option Ptr} {o : Int}
    (hf : firstElem base n = some (p, o)) :
    ∃ q, p = some q ∧ (∀ b ∈ blocks n, b = q.blk) ∧ ∀ m, Readable m n →
      flat (val m n) = (List.range (flat (val m n)).length).map fun (k : Nat) => m.byte q.blk (q.off + o + k) := by
  obtain ⟨blk, hb⟩ := h1.block
  rcases firstElem_data (base := base) n hb with ⟨h, _⟩ | ⟨q, o', h, h2, h3, _⟩
  · rw [h] at hf; cases hf
  · rw [h] at hf
    injection hf with hf
    injection hf with e1 e2
    subst e1; subst e2
    have hbl := inBlock_blocks n hb
    refine ⟨q, rfl, fun b hb => (hbl b hb).trans h2.symm, fun m hr => ?_⟩
    have ag : Agree m (only blk m) (blocks n) := by
      intro b hb i
      rw [byte_only, if_pos (hbl b hb)]
    have hr' := (readable_agree n ag).2 hr
    have hv := val_agree n ag
    have := C36_contents base (fun a => m.byte blk (a - base blk)) (only blk m) n (by
      intro b i v hv
      rw [byte_only] at hv
      split at hv
      · rename_i hb
        subst hb
        show m.byte b (base b + i - base b) = some v
        rw [show base b + i - base b = i by omega]; assumption
      · cases hv) hr' h1.dense h1.addr hc
    rw [hv] at this
    refine this.trans ?_
    unfold interval contiguousDataPtr
    rw [if_pos hc, h3, List.map_map]
    apply List.map_congr_left
    intro k _
    show m.byte blk (base blk + q.off + o' + k - base blk) = m.byte q.blk (q.off + o' + k)
    rw [h2]
    congr 1
    omega

theorem own_some {base : Nat → Int} {n : Node} {x : Option Ptr × Int} (h : ownData base n = some x) :
    n.schema.isCompact = true ∧ isContiguous base n = true ∧ firstElem base n = some x := by
  unfold ownData at h
  split at h
  · rename_i hc
    rw [Bool.and_eq_true] at hc
    exact ⟨hc.1, hc.2, h⟩
  · cases h

/-! ### both ends -/

theorem plainSend_ok {base : Nat → Int} {n : Node} {m : Mem} (hr : Readable m n)
    (h1 : n.schema.isCompact = true → isContiguous base n = true → OneRun base n) (h2 : totalBytesCompact n.schema < 2 ^ 31) :
    ∃ msg, plainSend base n m = .ok msg ∧ msg.map some = flat (val m n) ∧ (msg.length : Int) = totalBytesCompact n.schema := by
  obtain ⟨bs, b1, b2⟩ := flat_bytes_exist hr
  unfold plainSend
  cases ho : ownData base n with
  | some x =>
    obtain ⟨p, o⟩ := x
    obtain ⟨c1, c2, c3⟩ := own_some ho
    obtain ⟨q, rfl, _, hq⟩ := run_flat (h1 c1 c2) c2 c3
    have hq := hq m hr
    have hb : ∀ k : Nat, k < bs.length → m.byte q.blk (q.off + o + k) = bs[k]? := by
      intro k hk
      have := congrArg (fun l => l[k]?) (b1.trans hq)
      simp only [List.getElem?_map] at this
      rw [List.getElem?_range (by rw [← b1]; simpa using hk), List.getElem?_eq_getElem hk] at this
      simp only [Option.map_some, Option.some.injEq] at this
      rw [← this, List.getElem?_eq_getElem hk]
    obtain ⟨bs', l1, l2, l3⟩ := Mem.load_ok (m := m) (q := q) (off := o) (len := bs.length) (by
      intro k hk
      rw [hb k hk, List.getElem?_eq_getElem hk]; rfl)
    have : bs' = bs := by
      apply List.ext_getElem?
      intro i
      by_cases hi : i < bs.length
      · rw [l3 i hi]; exact hb i hi
      · rw [List.getElem?_eq_none (by omega), List.getElem?_eq_none (by omega)]
    subst this
    refine ⟨bs', ?_, b1, b2⟩
    simp only
    rw [bind_ok, ← b2, castInt_small (by omega) (by omega), if_neg (by omega)]
    exact l1
  | none =>
    simp only
    rcases Nat.eq_zero_or_pos bs.length with h0 | hp
    · obtain ⟨m', n', d1, _⟩ := compactTo_spec n new m hr (good_nil m) (by simp [new, owned, ownPtr])
      have hbs : bs = [] := List.eq_nil_of_length_eq_zero h0
      subst hbs
      refine ⟨[], ?_, b1, b2⟩
      rw [d1, bind_ok, bind_ok, ← b2, castInt_small (by simp) (by simp), if_neg (by simp)]
      rfl
    · obtain ⟨m', bs', d1, d2, d3, d4, _⟩ := compactTo_block n new m hr (good_nil m) (by simp [new, owned, ownPtr]) (by omega)
      have : bs' = bs := by
        have := d3.trans b1.symm
        exact List.map_injective_iff.2 (Option.some_injective _) this
      subst this
      refine ⟨bs', ?_, b1, b2⟩
      rw [d1, bind_ok, bind_ok, info_walk, ← b2, castInt_small (by omega) (by omega), if_neg (by omega)]
      obtain ⟨bs2, l1, l2, l3⟩ := Mem.load_ok (m := m') (q := ⟨m.length, 0⟩) (off := 0) (len := bs'.length) (by
        intro k hk
        simp [Mem.byte, d2, hk])
      show m'.load (some ⟨m.length, 0⟩) 0 bs'.length = _
      rw [l1]
      congr 1
      apply List.ext_getElem?
      intro i
      by_cases hi : i < bs'.length
      · rw [l3 i hi]; simp [Mem.byte, d2]
      · rw [List.getElem?_eq_none (by omega), List.getElem?_eq_none (by omega)]

mutual
theorem owned_walk_false (p : Option Ptr) : ∀ s : Schema, owned (walk p false s) = []
  | .leaf d => by simp [walk, owned, ownPtr]
  | .obj es => by rw [walk, owned, owned_walkE p es]; simp [ownPtr]
  | .lst es => by rw [walk, owned, owned_walkL p es]; simp [ownPtr]
theorem owned_walkE (p : Option Ptr) : ∀ es : List (Str × Schema), ownedE (walkE p es) = []
  | [] => rfl
  | (n, c) :: es => by rw [walkE, ownedE, owned_walk_false p c, owned_walkE p es]; rfl
theorem owned_walkL (p : Option Ptr) : ∀ es : List Schema, ownedL (walkL p es) = []
  | [] => rfl
  | c :: es => by rw [walkL, ownedL, owned_walk_false p c, owned_walkL p es]; rfl
end

theorem owned_walk_true (p : Ptr) (s : Schema) : owned (walk (some p) true s) = [p] := by
  cases s with
  | leaf d => simp [walk, owned, ownPtr]
  | obj es => rw [walk, owned, owned_walkE]; simp [ownPtr]
  | lst es => rw [walk, owned, owned_walkL]; simp [ownPtr]

/-- data put into a buffer of a schema and copied from there -/
theorem copyOut_ok {m : Mem} {data : List UInt8} {s : Schema} {dest : Node} {v : Val}
    (hv : view (m ++ [some data]) (some ⟨m.length, 0⟩) s = v)
    (hr : Readable (m ++ [some data]) (walk (some ⟨m.length, 0⟩) true s)) (hf : Fits v (val m dest)) (hdv : DistinctV v)
    (hdest : Ready m dest) (hdd : DistinctV (val m dest)) :
    ∃ m' n', copyOut (walk (some ⟨m.length, 0⟩) true s) dest (m ++ [some data]) = .ok (m', n') ∧ val m' n' = merge v (val m dest) ∧ Ready m' n' ∧
      (∀ b i, b < m.length → b ∉ (owned dest).map Ptr.blk → (∀ pl ∈ places dest, ¬ pl.Has b i) → m'.byte b i = m.byte b i) := by
  let p : Ptr := ⟨m.length, 0⟩
  let m1 : Mem := m ++ [some data]
  let src := walk (some p) true s
  have hval : val m1 src = v := by rw [val_walk]; exact hv
  have hr1 : Ready m1 dest := ready_ext data hdest
  have hbd : ∀ b ∈ blocks dest, b < m.length := blocks_lt dest hdest.readable
  have hod : ∀ q ∈ owned dest, q.blk < m.length := owned_lt hdest.good
  have hbs : ∀ b ∈ blocks src, b = m.length := blocks_walk p true s
  have hvd : val m1 dest = val m dest := val_agree dest (fun b hb i => byte_ext m data (hbd b hb) i)
  have hsrc : SrcOK m1 src dest := ⟨hr, fun q hq h => by
      have := hbs _ h; have := hod q hq; omega, fun a ha b hb blk i h1 h2 => by
      have x := hbs _ (has_blocks src a ha blk i h1)
      have y := hbd _ (has_blocks dest b hb blk i h2)
      omega⟩
  obtain ⟨m2, d2, u1, u2, u3, u4⟩ := update_spec src dest m1 hsrc hr1 (by rw [hval, hvd]; exact hf) (by rw [hval]; exact hdv)
    (by rw [hvd]; exact hdd)
  have hl1 : m1.length = m.length + 1 := by simp [m1]
  have hlive : Live m2 m.length := u2.live m.length (by omega) (by
    intro h
    obtain ⟨q, hq, he⟩ := List.mem_map.1 h
    have := hod q hq; omega) ⟨data, by simp [m1]⟩
  have hown : owned src = [p] := owned_walk_true p s
  obtain ⟨m3, f1, f2⟩ := releaseMem_spec src m2 (by
    rw [hown]
    refine ⟨by simp, fun q hq => ?_⟩
    have : q = p := by simpa using hq
    subst this
    exact ⟨rfl, hlive⟩)
  rw [hown] at f2
  have hget : ∀ b, b ≠ m.length → m3[b]? = m2[b]? := fun b hb => f2.2 b (by simpa [p] using hb)
  have hbyte : ∀ b i, b ≠ m.length → Mem.byte m3 b i = m2.byte b i := by
    intro b i hb
    unfold Mem.byte
    rw [hget b hb]
  have hb2 : ∀ b ∈ blocks d2, b ≠ m.length := by
    intro b hb
    rcases u2.blk b hb with h | h
    · have := hbd b h; omega
    · omega
  have ag : Agree m2 m3 (blocks d2) := fun b hb i => hbyte b i (hb2 b hb)
  refine ⟨m3, d2, ?_, ?_, ?_, ?_⟩
  · unfold copyOut
    rw [u1, bind_ok, f1, bind_ok]
  · rw [val_agree d2 ag, u4, hval, hvd]
  · refine ⟨(readable_agree d2 ag).2 u3.readable, u3.sep, u3.nat, u3.clean, ⟨u3.good.1, fun q hq => ⟨(u3.good.2 q hq).1, ?_⟩⟩, u3.tidy⟩
    have hne : q.blk ≠ m.length := by
      rcases u2.own q hq with h | h
      · have := hod q h; omega
      · omega
    obtain ⟨xs, hx⟩ := (u3.good.2 q hq).2
    exact ⟨xs, by rw [hget _ hne]; exact hx⟩
  · intro b i hb ho hp
    rw [hbyte b i (by omega), u2.keep b i (by omega) ho hp]
    exact byte_ext m data hb i

mutual
theorem proper_view (m : Mem) (p : Option Ptr) : ∀ s : Schema, Proper (view m p s)
  | .leaf d => by
    rw [view]
    split
    · intro _; exact ⟨rfl, rfl⟩
    · rename_i h; intro h'; exact absurd h' h
  | .obj es => proper_viewE m p es
  | .lst es => proper_viewL m p es
theorem proper_viewE (m : Mem) (p : Option Ptr) : ∀ es : List (Str × Schema), ProperE (viewE m p es)
  | [] => trivial
  | (_, c) :: es => ⟨proper_view m p c, proper_viewE m p es⟩
theorem proper_viewL (m : Mem) (p : Option Ptr) : ∀ es : List Schema, ProperL (viewL m p es)
  | [] => trivial
  | c :: es => ⟨proper_view m p c, proper_viewL m p es⟩
end

mutual
theorem distinct_blank : ∀ v : Val, DistinctV (blank v) ↔ DistinctV v
  | .leaf _ _ _ => Iff.rfl
  | .obj es => by
    rw [blank, DistinctV, DistinctV, names_blankE, distinct_blankE es]
  | .lst es => by
    rw [blank, DistinctV, DistinctV, distinct_blankL es]
theorem distinct_blankE : ∀ es : List (Str × Val), DistinctVE (blankE es) ↔ DistinctVE es
  | [] => Iff.rfl
  | (_, c) :: es => by rw [blankE, DistinctVE, DistinctVE, distinct_blank c, distinct_blankE es]
theorem distinct_blankL : ∀ es : List Val, DistinctVL (blankL es) ↔ DistinctVL es
  | [] => Iff.rfl
  | c :: es => by rw [blankL, DistinctVL, DistinctVL, distinct_blank c, distinct_blankL es]
end

/-- a buffer of the node's compact schema with the message in it, copied out -/
theorem copyOut_msg {dest : Node} {m : Mem} {msg : List UInt8} (hd : Ready m dest) (hdd : DistinctV (val m dest))
    (hl : (msg.length : Int) = totalBytesCompact dest.schema) :
    ∃ m' n', copyOut (walk (some ⟨m.length, 0⟩) true dest.schema.compactTo) dest (m ++ [some msg]) = .ok (m', n') ∧
      flat (val m' n') = msg.map some ∧ blank (val m' n') = blank (val m dest) ∧ Ready m' n' ∧
      (∀ b i, b < m.length → b ∉ (owned dest).map Ptr.blk → (∀ pl ∈ places dest, ¬ pl.Has b i) → m'.byte b i = m.byte b i) := by
  have hc := countsOK_of hd.readable
  have hflat : flat (view (m ++ [some msg]) (some ⟨m.length, 0⟩) dest.schema.compactTo) = msg.map some := by
    have := flat_walk_compact (m ++ [some msg]) (some ⟨m.length, 0⟩) true dest.schema 0 hc
    rw [val_walk] at this
    rw [show dest.schema.compactTo = compactAt dest.schema 0 from rfl, this, ← hl, Int.toNat_natCast]
    exact run_bytes _ _ _ (by simp)
  have hblank : blank (view (m ++ [some msg]) (some ⟨m.length, 0⟩) dest.schema.compactTo) = blank (val m dest) := by
    rw [← val_walk _ _ true, blank_val, schema_walk, blank_val]
    exact blankS_compactAt _ _
  have hdist : DistinctV (view (m ++ [some msg]) (some ⟨m.length, 0⟩) dest.schema.compactTo) := by
    rw [← distinct_blank, hblank, distinct_blank]; exact hdd
  have hread : Readable (m ++ [some msg]) (walk (some ⟨m.length, 0⟩) true dest.schema.compactTo) := by
    apply readable_of_flat
    · rw [schema_walk]; exact leavesOK_compactAt _ _ (readable_leaves dest hd.readable)
    · rw [val_walk, hflat]
      intro b hb
      obtain ⟨x, _, rfl⟩ := List.mem_map.1 hb
      rfl
  obtain ⟨m', n', c1, c2, c3, c4⟩ := copyOut_ok rfl hread (fits_same _ _ hblank hdist) hdist hd hdd
  rw [merge_same _ _ hblank (proper_view _ _ _) hdist] at c2
  exact ⟨m', n', c1, by rw [c2, hflat], by rw [c2, hblank], c3, c4⟩

mutual
theorem readable_sizes {m m' : Mem} (h : ∀ b i, (m.byte b i).isSome → (m'.byte b i).isSome) : ∀ n : Node, Readable m n → Readable m' n
  | .leaf x d, hr => by
    refine ⟨hr.1, hr.2.1, hr.2.2.1, fun he e h1 b h2 => ?_⟩
    unfold elems at h1
    obtain ⟨i, hi, rfl⟩ := List.mem_map.1 h1
    obtain ⟨k, hk, rfl⟩ := List.mem_map.1 h2
    have := hr.2.2.2 he ((List.range d.id.bytes).map fun (k : Nat) => m.byteAt x.data (d.offset + d.stride * i + k))
      (List.mem_map.2 ⟨i, hi, rfl⟩) _ (List.mem_map.2 ⟨k, hk, rfl⟩)
    cases hx : x.data with
    | none => rw [hx] at this; simp [Mem.byteAt] at this
    | some q => rw [hx] at this; exact h _ _ this
  | .obj x es, hr => readable_sizesE h es hr
  | .lst x es, hr => readable_sizesL h es hr
theorem readable_sizesE {m m' : Mem} (h : ∀ b i, (m.byte b i).isSome → (m'.byte b i).isSome) : ∀ es : List (Str × Node), ReadableE m es → ReadableE m' es
  | [], _ => trivial
  | (_, c) :: es, hr => ⟨readable_sizes h c hr.1, readable_sizesE h es hr.2⟩
theorem readable_sizesL {m m' : Mem} (h : ∀ b i, (m.byte b i).isSome → (m'.byte b i).isSome) : ∀ es : List Node, ReadableL m es → ReadableL m' es
  | [], _ => trivial
  | c :: es, hr => ⟨readable_sizes h c hr.1, readable_sizesL h es hr.2⟩
end

mutual
theorem allBytes_place {base : Nat → Int} {blk : Nat} : ∀ n : Node, InBlock blk n → ∀ a ∈ allBytes base n, ∃ pl ∈ places n, pl.Has blk (a - base blk)
  | .leaf x d, h, a, ha => by
    rw [allBytes] at ha
    split at ha
    · cases ha
    · rename_i he
      obtain ⟨q, h1, h2⟩ := h he
      unfold leafBytes at ha
      rw [List.mem_flatMap] at ha
      obtain ⟨i, hi, ha⟩ := ha
      obtain ⟨k, hk, rfl⟩ := List.mem_map.1 ha
      rw [places]
      refine ⟨⟨x.data, d.offset + d.stride * i, d.id.bytes⟩, ?_, q, h1, h2.symm, ?_, ?_⟩
      · exact List.mem_map.2 ⟨i, hi, rfl⟩
      all_goals
        have := List.mem_range.1 hk
        simp only [leafAddr, h1, Option.elim, h2]
        omega
  | .obj x es, h, a, ha => allBytes_placeE es h a ha
  | .lst x es, h, a, ha => allBytes_placeL es h a ha
theorem allBytes_placeE {base : Nat → Int} {blk : Nat} : ∀ es : List (Str × Node), InBlockE blk es → ∀ a ∈ allBytesE base es,
    ∃ pl ∈ placesE es, pl.Has blk (a - base blk)
  | [], _, a, ha => by cases ha
  | (_, c) :: es, h, a, ha => by
    rw [allBytesE, List.mem_append] at ha
    rw [placesE]
    rcases ha with ha | ha
    · obtain ⟨pl, h1, h2⟩ := allBytes_place c h.1 a ha
      exact ⟨pl, List.mem_append_left _ h1, h2⟩
    · obtain ⟨pl, h1, h2⟩ := allBytes_placeE es h.2 a ha
      exact ⟨pl, List.mem_append_right _ h1, h2⟩
theorem allBytes_placeL {base : Nat → Int} {blk : Nat} : ∀ es : List Node, InBlockL blk es → ∀ a ∈ allBytesL base es,
    ∃ pl ∈ placesL es, pl.Has blk (a - base blk)
  | [], _, a, ha => by cases ha
  | c :: es, h, a, ha => by
    rw [allBytesL, List.mem_append] at ha
    rw [placesL]
    rcases ha with ha | ha
    · obtain ⟨pl, h1, h2⟩ := allBytes_place c h.1 a ha
      exact ⟨pl, List.mem_append_left _ h1, h2⟩
    · obtain ⟨pl, h1, h2⟩ := allBytes_placeL es h.2 a ha
      exact ⟨pl, List.mem_append_right _ h1, h2⟩
end

mutual
theorem allBytes_length (base : Nat → Int) (m : Mem) : ∀ n : Node, (allBytes base n).length = (flat (val m n)).length
  | .leaf x d => by
    rw [allBytes, val]
    split
    · rfl
    · simp [leafBytes, flat, elems, Function.comp_def]
  | .obj x es => allBytes_lengthE base m es
  | .lst x es => allBytes_lengthL base m es
theorem allBytes_lengthE (base : Nat → Int) (m : Mem) : ∀ es : List (Str × Node), (allBytesE base es).length = (flatE (valE m es)).length
  | [] => rfl
  | (_, c) :: es => by
    rw [allBytesE, valE, flatE, List.length_append, List.length_append, allBytes_length base m c, allBytes_lengthE base m es]
theorem allBytes_lengthL (base : Nat → Int) (m : Mem) : ∀ es : List Node, (allBytesL base es).length = (flatL (valL m es)).length
  | [] => rfl
  | c :: es => by
    rw [allBytesL, valL, flatL, List.length_append, List.length_append, allBytes_length base m c, allBytes_lengthL base m es]
end

/-- each byte of the run is a byte of an element -/
theorem run_place {base : Nat → Int} {n : Node} {m : Mem} (h1 : OneRun base n) (hc : isContiguous base n = true) {q : Ptr} {o : Int}
    (hf : firstElem base n = some (some q, o)) (i : Int) (hi : q.off + o ≤ i) (hi2 : i < q.off + o + (flat (val m n)).length) :
    ∃ pl ∈ places n, pl.Has q.blk i := by
  obtain ⟨blk, hb⟩ := h1.block
  rcases firstElem_data (base := base) n hb with ⟨h, _⟩ | ⟨q', o', h, h2, h3, _⟩
  · rw [h] at hf; cases hf
  · rw [h] at hf
    injection hf with hf
    injection hf with e1 e2
    injection e1 with e1
    subst e1; subst e2
    have hall := C36_bytes_consecutive base n h1.dense h1.addr hc
    rw [allBytes_length base m, contiguousDataPtr, if_pos hc, h3] at hall
    obtain ⟨pl, p1, p2⟩ := allBytes_place (base := base) n hb (base blk + i) (by
      rw [hall]
      exact List.mem_map.2 ⟨(i - (q'.off + o')).toNat, by rw [List.mem_range]; omega, by omega⟩)
    refine ⟨pl, p1, ?_⟩
    rw [show base blk + i - base blk = i by omega] at p2
    rw [h2]; exact p2

/-- the message stored into the node's own memory -/
theorem store_msg {base : Nat → Int} {dest : Node} {m : Mem} {msg : List UInt8} (hd : Ready m dest)
    (h1 : OneRun base dest) (hc : isContiguous base dest = true) {p : Option Ptr} {o : Int} (hf : firstElem base dest = some (p, o))
    (hl : (msg.length : Int) = totalBytesCompact dest.schema) :
    ∃ m', m.store p o msg = .ok m' ∧ flat (val m' dest) = msg.map some ∧ Ready m' dest ∧
      (∀ b i, (∀ pl ∈ places dest, ¬ pl.Has b i) → m'.byte b i = m.byte b i) := by
  obtain ⟨q, rfl, hq, hrun⟩ := run_flat h1 hc hf
  obtain ⟨bs, b1, b2⟩ := flat_bytes_exist hd.readable
  have hbl : (flat (val m dest)).length = msg.length := by rw [← b1, List.length_map]; omega
  have hsome : ∀ k : Nat, k < msg.length → (m.byte q.blk (q.off + o + k)).isSome := by
    intro k hk
    have h2 := hrun m hd.readable
    refine readable_flat dest hd.readable _ ?_
    rw [h2]
    exact List.mem_map.2 ⟨k, by rw [List.mem_range]; omega, rfl⟩
  obtain ⟨m1, s1, s2, s3, s4⟩ := Mem.store_spec hsome
  have hr1 : Readable m1 dest := readable_sizes (by
    intro b i hh
    rw [Mem.byte_isSome, s3]
    exact (Mem.byte_isSome _ _ _).1 hh) dest hd.readable
  have hbl1 : (flat (val m1 dest)).length = msg.length := by
    rw [flat_blank_len, blank_val, ← blank_val m, ← flat_blank_len, hbl]
  refine ⟨m1, s1, ?_, ⟨hr1, hd.sep, hd.nat, hd.clean, ⟨hd.good.1, fun q hq => ⟨(hd.good.2 q hq).1, ?_⟩⟩, hd.tidy⟩, ?_⟩
  · rw [hrun m1 hr1, hbl1]
    apply List.ext_getElem?
    intro k
    by_cases hk : k < msg.length
    · rw [List.getElem?_map, List.getElem?_range hk, List.getElem?_map, List.getElem?_eq_getElem hk, Option.map_some, Option.map_some, s4,
        if_pos ⟨rfl, by omega, by omega⟩]
      rw [show (q.off + o + (k : Int) - (q.off + o)).toNat = k by omega, List.getElem?_eq_getElem hk]
    · rw [List.getElem?_eq_none (by simpa using hk), List.getElem?_eq_none (by simpa using hk)]
  · rw [live_iff, s3, ← live_iff]
    exact (hd.good.2 q hq).2
  · intro b i hno
    rw [s4, if_neg]
    rintro ⟨rfl, i1, i2⟩
    obtain ⟨pl, p1, p2⟩ := run_place (m := m) h1 hc hf i i1 (by rw [hbl]; exact i2)
    exact hno pl p1 p2

/-- what a receiver has -/
structure Got (msg : List UInt8) (m : Mem) (dest : Node) (r : Mem × Node) : Prop where
  bytes : flat (val r.1 r.2) = msg.map some
  tree : blank (val r.1 r.2) = blank (val m dest)
  ready : Ready r.1 r.2
  rest : ∀ b i, b < m.length → b ∉ (owned dest).map Ptr.blk → (∀ pl ∈ places dest, ¬ pl.Has b i) → r.1.byte b i = m.byte b i

theorem span_compactTo (s : Schema) (h : CountsOK s) : spannedBytes s.compactTo = totalBytesCompact s := by
  have t := total_nonneg _ h
  obtain ⟨s1, s2, s3⟩ := span_compactAt s 0 h (Int.le_refl 0)
  rw [Schema.compactTo]
  rcases Int.lt_or_eq_of_le t with h | h
  · have := s3 h; omega
  · omega

theorem plainRecv_ok {base : Nat → Int} {dest : Node} {m : Mem} {msg : List UInt8} (hd : Ready m dest) (hdd : DistinctV (val m dest))
    (h1 : dest.schema.isCompact = true → isContiguous base dest = true → OneRun base dest) (h2 : totalBytesCompact dest.schema < 2 ^ 31)
    (hl : (msg.length : Int) = totalBytesCompact dest.schema) :
    ∃ r, plainRecv base msg dest m = .ok r ∧ Got msg m dest r := by
  unfold plainRecv
  rw [← hl, castInt_small (by omega) (by omega), if_neg (by omega)]
  cases ho : ownData base dest with
  | some x =>
    obtain ⟨p, o⟩ := x
    obtain ⟨c1, c2, c3⟩ := own_some ho
    obtain ⟨m', s1, s2, s3, s4⟩ := store_msg hd (h1 c1 c2) c2 c3 hl
    simp only
    rw [s1, bind_ok]
    exact ⟨(m', dest), rfl, s2, by rw [blank_val, blank_val], s3, fun b i _ _ h => s4 b i h⟩
  | none =>
    obtain ⟨m', n', c1, c2, c3, c4, c5⟩ := copyOut_msg hd hdd hl
    have hspan : spannedBytes dest.schema.compactTo = (msg.length : Nat) := by rw [span_compactTo _ (countsOK_of hd.readable), hl]
    simp only
    rw [setSchema_own hspan (dest := new) (m := m) (m1 := m) (by rfl) rfl, bind_ok]
    simp only [info_walk]
    rw [store_last _ _ _ rfl, bind_ok, c1]
    exact ⟨(m', n'), rfl, c2, c3, c4, c5⟩

end Relay
end Conduit
