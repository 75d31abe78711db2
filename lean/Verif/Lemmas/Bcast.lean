import Verif.Model.Bcast
import Verif.Spec.Bcast
import Verif.Lemmas.Gather
namespace Conduit
namespace Relay
open Spec Spec.Tree Schema Node

/-! ### the root -/

mutual
theorem firstElem_walk (base : Nat → Int) (p : Ptr) : ∀ (s : Schema) (al : Bool) (off : Int), 0 < base p.blk + p.off + off →
    (firstElem base (walk (some p) al (compactAt s off)) = none ∧ totalBytesCompact s = 0) ∨
      firstElem base (walk (some p) al (compactAt s off)) = some (some p, off)
  | .leaf d, al, off, h => by
    by_cases he : d.id = .empty
    · left; simp [compactAt, he, walk, firstElem, totalBytesCompact]
    · right
      simp only [compactAt, he, if_false, walk, firstElem, DataType.compactTo, elementAddr, DataType.elementIndex, Int.mul_zero, Int.add_zero]
      rw [if_neg (by simp; omega)]
  | .obj es, al, off, h => firstElemE_walk base p es off h
  | .lst es, al, off, h => firstElemL_walk base p es off h
theorem firstElemE_walk (base : Nat → Int) (p : Ptr) : ∀ (es : List (Str × Schema)) (off : Int), 0 < base p.blk + p.off + off →
    (firstElemE base (walkE (some p) (compactAtE es off)) = none ∧ totalBytesCompactE es = 0) ∨
      firstElemE base (walkE (some p) (compactAtE es off)) = some (some p, off)
  | [], off, _ => .inl ⟨rfl, rfl⟩
  | (n, c) :: es, off, h => by
    rw [compactAtE, walkE, firstElemE]
    rcases firstElem_walk base p c false off h with ⟨h1, h2⟩ | h1
    · rw [h1, total_compactAt, h2, Int.add_zero, totalBytesCompactE, h2, Int.zero_add]
      exact firstElemE_walk base p es off h
    · right; rw [h1]
theorem firstElemL_walk (base : Nat → Int) (p : Ptr) : ∀ (es : List Schema) (off : Int), 0 < base p.blk + p.off + off →
    (firstElemL base (walkL (some p) (compactAtL es off)) = none ∧ totalBytesCompactL es = 0) ∨
      firstElemL base (walkL (some p) (compactAtL es off)) = some (some p, off)
  | [], off, _ => .inl ⟨rfl, rfl⟩
  | c :: es, off, h => by
    rw [compactAtL, walkL, firstElemL]
    rcases firstElem_walk base p c false off h with ⟨h1, h2⟩ | h1
    · rw [h1, total_compactAt, h2, Int.add_zero, totalBytesCompactL, h2, Int.zero_add]
      exact firstElemL_walk base p es off h
    · right; rw [h1]
end

/-- reading a compact tree's bytes where it lies -/
theorem load_walk {p : Ptr} {al : Bool} {s : Schema} {m : Mem} (hr : Readable m (walk (some p) al (compactAt s 0))) :
    ∃ bs : List UInt8, m.load (some p) 0 (totalBytesCompact s).toNat = .ok bs ∧
      bs.map some = flat (val m (walk (some p) al (compactAt s 0))) ∧ (bs.length : Int) = totalBytesCompact s := by
  have hsch : (walk (some p) al (compactAt s 0)).schema = compactAt s 0 := schema_walk _ _ _
  have hc0 := countsOK_of hr
  rw [hsch] at hc0
  have t : 0 ≤ totalBytesCompact s := by
    have := total_nonneg _ hc0
    rwa [total_compactAt] at this
  have hfl := flat_walk_compact m (some p) al (compactAt s 0) 0 hc0
  rw [compactAt_idem, total_compactAt] at hfl
  rcases Int.lt_or_eq_of_le t with hp | hp
  · obtain ⟨m', bs, a1, a2, a3, a4, _⟩ := compactTo_block (walk (some p) al (compactAt s 0)) new m hr (good_nil m)
      (by simp [new, owned, ownPtr]) (by rw [hsch, total_compactAt]; exact hp)
    rw [hsch, total_compactAt] at a4
    have hb : ∀ i : Nat, i < bs.length → m.byteAt (some p) i = bs[i]? := by
      intro i hi
      have := congrArg (fun l => l[i]?) (a3.trans hfl)
      simp only [List.getElem?_map, Spec.run] at this
      rw [List.getElem?_range (by omega), List.getElem?_eq_getElem hi] at this
      simp only [Option.map_some, Int.zero_add, Option.some.injEq] at this
      rw [← this, List.getElem?_eq_getElem hi]
    obtain ⟨bs', l1, l2, l3⟩ := Mem.load_ok (m := m) (q := p) (off := 0) (len := (totalBytesCompact s).toNat) (by
      intro k hk
      have := hb k (by omega)
      simp only [Mem.byteAt] at this
      rw [Int.add_zero, this, List.getElem?_eq_getElem (by omega)]; rfl)
    have : bs' = bs := by
      apply List.ext_getElem?
      intro i
      by_cases hi : i < bs.length
      · rw [l3 i (by omega), Int.add_zero]; exact hb i hi
      · rw [List.getElem?_eq_none (by omega), List.getElem?_eq_none (by omega)]
    subst this
    exact ⟨bs', l1, a3, a4⟩
  · refine ⟨[], by rw [← hp]; rfl, ?_, by simpa using hp⟩
    rw [hfl, ← hp]; rfl

theorem bcastSend_ok (base : Nat → Int) (big : Bool) (n : Node) (m : Mem) (hr : Readable m n)
    (ha : n.schema.isCompact = true → isContiguous base n = true →
      (∃ (p : Ptr) (al : Bool), n = walk (some p) al n.schema.compactTo ∧ 0 < base p.blk + p.off) ∨ firstElem base n = none)
    (h1 : ((schemaText big n.schema.compactTo).length : Int) + 1 < 2 ^ 31) (h2 : totalBytesCompact n.schema < 2 ^ 31) :
    ∃ x, bcastSend base big n m = .ok x ∧ Part big (n, m) x := by
  have slow := gatherSend_ok big n m hr h1 h2
  unfold bcastSend ownData
  by_cases hc : (n.schema.isCompact && isContiguous base n) = true
  · rw [if_pos hc]
    rw [Bool.and_eq_true] at hc
    rcases ha hc.1 hc.2 with ⟨p, al, hn, hp⟩ | hn
    · have hsch : n.schema = n.schema.compactTo := by
        have := congrArg Node.schema hn
        rwa [schema_walk] at this
      have hw : walk (some p) al (compactAt n.schema 0) = n := hn.symm
      rcases firstElem_walk base p n.schema al 0 (by omega) with ⟨f1, _⟩ | f1
      · rw [hw] at f1
        rw [f1]; exact slow
      · rw [hw] at f1
        obtain ⟨bs, l1, l2, l3⟩ := load_walk (p := p) (al := al) (s := n.schema) (m := m) (by rw [hw]; exact hr)
        rw [hw] at l2
        refine ⟨((schemaText big n.schema).map charByte ++ [0], bs), ?_, ⟨by rw [← hsch], l2, l3⟩⟩
        rw [f1]
        simp only
        rw [mpiSend_all rfl (by rw [← hsch] at h1; simpa using h1), bind_ok, castInt_small (by omega) h2, if_neg (by omega), l1, bind_ok]
    · rw [hn]; exact slow
  · rw [if_neg hc]; exact slow

/-! ### the receivers -/

theorem store_last (m : Mem) (k : Nat) (data : List UInt8) (hk : k = data.length) :
    Mem.store (m.alloc k).1 (some ⟨m.length, 0⟩) 0 data = .ok (m ++ [some data]) := by
  subst hk
  unfold Mem.store Mem.alloc
  split
  · rename_i h
    have : data = [] := List.eq_nil_of_length_eq_zero h
    subst this; rfl
  · simp

theorem setSchema_own {s : Schema} {k : Nat} (hs : spannedBytes s = k) {dest : Node} {m m1 : Mem} (h : dest.releaseMem m = .ok m1)
    (hl : m1.length = m.length) :
    setSchema s dest m = .ok ((m1.alloc k).1, walk (some ⟨m.length, 0⟩) true s) := by
  rw [setSchema, h, bind_ok, hs, allocate, if_neg (by omega), ← hl]; rfl

theorem info_walk (p : Option Ptr) (al : Bool) (s : Schema) : (walk p al s).info = ⟨p, al⟩ := by cases s <;> rfl

/-- the sent tree in a buffer -/
theorem view_part {big : Bool} {n : Node} {m : Mem} {x : List UInt8 × List UInt8} (hp : Part big (n, m) x) (hr : Readable m n)
    (m2 : Mem) (q : Ptr) (al : Bool) (hb : ∀ i : Nat, i < x.2.length → m2.byteAt (some q) i = x.2[i]?) :
    view m2 (some q) (partSchema big (n, m)) = named big (val m n) ∧ Readable m2 (walk (some q) al (partSchema big (n, m))) := by
  have hv := (view_flat n m hr x.2 hp.data m2 (some q) hb).1
  refine ⟨by rw [partSchema, view_readBack, hv], readable_readBack big _ _ _ ?_⟩
  exact readable_of_val _ n (by
    rw [schema_walk]; exact leavesOK_compactAt _ _ (readable_leaves n hr)) (by rw [val_walk]; exact hv) hr

theorem bcastNew_ok {big : Bool} {n : Node} {m : Mem} {x : List UInt8 × List UInt8} (hp : Part big (n, m) x) (hr : Readable m n)
    (h2 : totalBytesCompact n.schema < 2 ^ 31) (dest : Node) (md : Mem) (hd : GoodOwners md (owned dest)) :
    ∃ m' n', bcastNew x.2 (partSchema big (n, m)) dest md = .ok (m', n') ∧ val m' n' = named big (val m n) ∧ Readable m' n' ∧
      (∀ b, b < md.length → b ∉ (owned dest).map Ptr.blk → ∀ i, m'.byte b i = md.byte b i) := by
  have hc := countsOK_of hr
  obtain ⟨m1, a1, a2⟩ := releaseMem_spec dest md hd
  have hspan : spannedBytes (partSchema big (n, m)) = (x.2.length : Nat) := by
    rw [partSchema, span_readBack_compact big _ hc, ← hp.len]
  refine ⟨m1 ++ [some x.2], walk (some ⟨md.length, 0⟩) true (partSchema big (n, m)), ?_, ?_, ?_, ?_⟩
  · unfold bcastNew
    rw [setSchema_own hspan a1 a2.1, bind_ok]
    simp only [schema_walk, info_walk]
    rw [total_part, ← hp.len, castInt_small (by omega) (by have := hp.len; simp only at this; omega), if_neg (by simp), ← a2.1,
      store_last _ _ _ rfl, bind_ok]
  · rw [val_walk]
    refine (view_part hp hr _ _ true ?_).1
    intro i hi
    simp [Mem.byteAt, Mem.byte, a2.1 ▸ (List.getElem?_concat_length (l := m1) (a := some x.2))]
  · refine (view_part hp hr _ _ true ?_).2
    intro i hi
    simp [Mem.byteAt, Mem.byte, a2.1 ▸ (List.getElem?_concat_length (l := m1) (a := some x.2))]
  · intro b hb hb' i
    have := a2.1
    unfold Mem.byte
    rw [List.getElem?_append_left (by omega), a2.2 b hb']

end Relay
end Conduit
