import Verif.Lemmas.Merge
import Verif.Props.NodeCopy
/-
Property theorems C26 (update) and C27 (update_compatible).
Specification: Verif/Spec/Update.lean (`merge`, `overlay`, paths).
-/
namespace Conduit
open Spec Schema Node

/-- The situation of `dest.update(src)` between different trees. -/
structure UpdateOK (m : Mem) (src dest : Node) : Prop where
  src_readable : Readable m src
  dest_readable : Readable m dest
  /-- names are distinct in every object (they always are) -/
  src_names : DistinctV (val m src)
  dest_names : DistinctV (val m dest)
  /-- the two trees have no element byte in common -/
  apart : ∀ a ∈ places src, ∀ b ∈ places dest, NoShare a b
  /-- no element of `src` is in a buffer owned by `dest` -/
  apart_owned : ∀ p ∈ owned dest, p.blk ∉ blocks src
  /-- elements of `dest` do not overlap and have the size of their type -/
  dest_separate : (places dest).Pairwise NoShare
  dest_size : NatSize dest
  /-- `dest`'s buffers are its own, and no branch shows a buffer of another one -/
  dest_owners : GoodOwners m (owned dest)
  dest_clean : Clean dest
  dest_tidy : Tidy dest
  /-- no object of `src` falls on a list of `dest` that has children -/
  fits : Fits (val m src) (val m dest)

theorem UpdateOK.srcOK {m : Mem} {src dest : Node} (h : UpdateOK m src dest) : SrcOK m src dest :=
  ⟨h.src_readable, h.apart_owned, h.apart⟩
theorem UpdateOK.ready {m : Mem} {src dest : Node} (h : UpdateOK m src dest) : Ready m dest :=
  ⟨h.dest_readable, h.dest_separate, h.dest_size, h.dest_clean, h.dest_owners, h.dest_tidy⟩

/-- C26: `dest.update(src)` succeeds, gives `dest` the merged value, does not change
    `src`, leaves `dest` in a state where `update` from `src` is possible again, and
    changes no memory other than `dest`'s elements and buffers. -/
theorem C26_update_merges (src dest : Node) (m : Mem) (h : UpdateOK m src dest) :
    ∃ m' n', update src dest m = .ok (m', n') ∧ val m' n' = merge (val m src) (val m dest) ∧
      val m' src = val m src ∧ UpdateOK m' src n' ∧
      (∀ b i, b < m.length → b ∉ (owned dest).map Ptr.blk → (∀ pl ∈ places dest, ¬ pl.Has b i) → m'.byte b i = m.byte b i) := by
  obtain ⟨m', n', h1, h2, h3, h4⟩ := update_spec src dest m h.srcOK h.ready h.fits h.src_names h.dest_names
  have hv : val m' src = val m src := val_same src (h2.same h.srcOK)
  have hs := h.srcOK.after h2
  refine ⟨m', n', h1, h4, hv, ⟨hs.readable, h3.readable, ?_, ?_, hs.share, hs.own, h3.sep, h3.nat, h3.good, h3.clean, h3.tidy, ?_⟩, h2.keep⟩
  · rw [hv]; exact h.src_names
  · rw [h4]; exact distinct_merge _ _ h.src_names h.dest_names
  · rw [hv, h4]; exact fits_merge _ _ h.src_names

/-- C26 (every leaf of `src`): after `dest.update(src)`, wherever `src` has a non
    empty leaf, `dest` has a leaf of that type whose first elements are those bytes.
    It is that very leaf unless `dest` had a leaf of this type there that was at
    least as long; then the additional elements and the declared byte order of
    `dest` stay.  Missing for the full claim: equality of the value in that second
    case, which is false (`C26_byte_order_false`, `C26_longer_leaf_false`). -/
theorem C26_update_leaf_partial (src dest : Node) (m : Mem) (h : UpdateOK m src dest) (p : List Step)
    (id : TypeId) (e : Endian) (es : List (List (Option UInt8))) (hid : id ≠ .empty)
    (hp : at? (val m src) p = some (.leaf id e es)) :
    ∃ m' n' e' es', update src dest m = .ok (m', n') ∧ at? (val m' n') p = some (.leaf id e' es') ∧
      es'.take es.length = es ∧
      ((e' = e ∧ es' = es) ∨
        ∃ ds, at? (val m dest) p = some (.leaf id e' ds) ∧ es.length ≤ ds.length ∧ es' = es ++ ds.drop es.length) := by
  obtain ⟨m', n', h1, h2, _⟩ := C26_update_merges src dest m h
  have := merge_leaf_at p (val m src) (val m dest) id e es h.src_names hid hp
  rw [← h2] at this
  cases hd : at? (val m dest) p with
  | none =>
    rw [hd, Option.getD_none, overLeaf_empty hid] at this
    exact ⟨m', n', e, es, h1, this, by simp, Or.inl ⟨rfl, rfl⟩⟩
  | some v =>
    rw [hd, Option.getD_some] at this
    unfold overLeaf at this
    split at this
    · rename_i id' e' ds
      split at this
      · rename_i hc
        obtain ⟨hi, hl⟩ := hc
        subst hi
        exact ⟨m', n', e', _, h1, this, by simp, Or.inr ⟨ds, rfl, hl, rfl⟩⟩
      · exact ⟨m', n', e, es, h1, this, by simp, Or.inl ⟨rfl, rfl⟩⟩
    · exact ⟨m', n', e, es, h1, this, by simp, Or.inl ⟨rfl, rfl⟩⟩

/-- C26 (every other path): what `src` says nothing about keeps its value. -/
theorem C26_update_keeps (src dest : Node) (m : Mem) (h : UpdateOK m src dest) (p : List Step) (v : Val)
    (hs : Silent (val m src) p) (hp : at? (val m dest) p = some v) :
    ∃ m' n', update src dest m = .ok (m', n') ∧ at? (val m' n') p = some v := by
  obtain ⟨m', n', h1, h2, _⟩ := C26_update_merges src dest m h
  exact ⟨m', n', h1, by rw [h2]; exact merge_silent_at p _ _ v h.src_names hs hp⟩

/-- C26 (idempotence): a second `update` from the same source succeeds and changes
    nothing. -/
theorem C26_update_idempotent (src dest : Node) (m : Mem) (h : UpdateOK m src dest) :
    ∃ m' n' m'' n'', update src dest m = .ok (m', n') ∧ update src n' m' = .ok (m'', n'') ∧ val m'' n'' = val m' n' := by
  obtain ⟨m', n', h1, h2, h3, h4, _⟩ := C26_update_merges src dest m h
  obtain ⟨m'', n'', g1, g2, _⟩ := C26_update_merges src n' m' h4
  refine ⟨m', n', m'', n'', h1, g1, ?_⟩
  rw [g2, h3, h2, merge_idem _ _ h.src_names h.dest_names]

/-- C26: into an empty node, `update` copies every leaf exactly. -/
theorem C26_update_into_empty (src dest : Node) (m : Mem) (h : UpdateOK m src dest) (hd : val m dest = emptyV)
    (p : List Step) (id : TypeId) (e : Endian) (es : List (List (Option UInt8))) (hid : id ≠ .empty)
    (hp : at? (val m src) p = some (.leaf id e es)) :
    ∃ m' n', update src dest m = .ok (m', n') ∧ at? (val m' n') p = some (.leaf id e es) := by
  obtain ⟨m', n', h1, h2, _⟩ := C26_update_merges src dest m h
  refine ⟨m', n', h1, ?_⟩
  rw [h2, merge_leaf_at p _ _ id e es h.src_names hid hp, hd, at_empty, overLeaf_empty hid]

/-! ### the situation occurs -/

/-- the caller's buffer and two buffers owned by the destination -/
def updMem : Mem := [some [10, 11, 12, 13, 14, 15, 16, 17, 18, 19], some [1, 2, 3, 4], some [21, 22, 23, 24, 25, 26]]

/-- an object with an unrelated leaf and a longer leaf of the source's type -/
def updDest : Node :=
  .obj {} [(chars! "z", .leaf ⟨some ⟨1, 0⟩, true⟩ (DataType.ofId .uint8 4)),
           (chars! "a", .leaf ⟨some ⟨2, 0⟩, true⟩ (DataType.ofId .int16 3))]

theorem upd_ok : UpdateOK updMem copySrc updDest := by
  refine ⟨?_, ?_, ?_, ?_, ?_, ?_, ?_, ?_, ⟨by decide, ?_⟩, ?_, ?_, ?_⟩
  · simp only [copySrc, Readable, ReadableE, ReadableL]; decide
  · simp only [updDest, Readable, ReadableE]; decide
  · simp [copySrc, val, valE, valL, DistinctV, DistinctVE, DistinctVL]
  · simp [updDest, val, valE, DistinctV, DistinctVE, DataType.ofId]
  · simp only [copySrc, updDest, places, placesE, placesL, leafPlaces, DataType.ofId, TypeId.bytes]
    intro a ha b hb blk i h1 h2
    simp [List.range_succ] at ha hb
    obtain ⟨p, hp, rfl, _⟩ := h1
    obtain ⟨q, hq, h3, _⟩ := h2
    rcases ha with rfl | rfl | rfl | rfl | rfl <;> rcases hb with rfl | rfl | rfl | rfl | rfl | rfl | rfl <;>
      (simp at hp hq; subst hp; subst hq; simp at h3)
  · simp [updDest, copySrc, owned, ownedE, ownPtr, blocks, blocksE, blocksL]
  · simp only [updDest, places, placesE, leafPlaces, DataType.ofId, TypeId.bytes]
    refine List.Pairwise.imp (R := Place.Apart) (fun h b i h1 => apart_has h h1) ?_
    simp [List.range_succ, Place.Apart]
  · simp [updDest, NatSize, NatSizeE, DataType.ofId]
  · intro p hp
    simp [updDest, owned, ownedE, ownPtr] at hp
    rcases hp with rfl | rfl
    · exact ⟨rfl, _, rfl⟩
    · exact ⟨rfl, _, rfl⟩
  · simp [updDest, Clean, CleanE, CleanInfo, DataType.ofId]
  · simp [updDest, Tidy, TidyE, Cross, owned, ownPtr, blocks, DataType.ofId]
  · simp [copySrc, updDest, val, valE, valL, Fits, FitsE, FitsL, items, entries, entry, DataType.ofId]

example : UpdateOK updMem copySrc updDest ∧ (update copySrc updDest updMem).isOk = true := ⟨upd_ok, by decide⟩

/-- the hypotheses of `C26_update_leaf_partial` and `C26_update_keeps` -/
example : at? (val updMem copySrc) [.key (chars! "b"), .idx 1] =
    some (.leaf .uint8 .big [[some 13], [some 14], [some 15]]) ∧
    Silent (val updMem copySrc) [.key (chars! "z")] ∧
    at? (val updMem updDest) [.key (chars! "z")] = some (.leaf .uint8 .default [[some 1], [some 2], [some 3], [some 4]]) := by
  refine ⟨rfl, ?_, rfl⟩
  simp [copySrc, val, valE, Silent, entry]

/-! ### where the claim fails -/

/-- The value of a leaf is not always carried over: `update` copies bytes into an
    existing leaf of the same type and ignores the byte order the two leaves
    declare, so the number changes. -/
theorem C26_byte_order_false :
    ∃ (src dest n' : Node) (m m' : Mem), UpdateOK m src dest ∧ update src dest m = .ok (m', n') ∧
      numbers false (val m' n') ≠ numbers false (val m src) := by
  refine ⟨.leaf ⟨some ⟨0, 0⟩, false⟩ { DataType.ofId .uint16 1 with endian := .big },
    .leaf ⟨some ⟨1, 0⟩, true⟩ (DataType.ofId .uint16 1), _, [some [1, 2], some [0, 0]], _, ?_, rfl, ?_⟩
  · refine ⟨?_, ?_, ?_, ?_, ?_, ?_, ?_, ?_, ⟨by decide, ?_⟩, ?_, ?_, ?_⟩
    · simp only [Readable]; decide
    · simp only [Readable]; decide
    · simp [val, DistinctV, DataType.ofId]
    · simp [val, DistinctV, DataType.ofId]
    · intro a ha b hb blk i h1 h2
      simp [places, leafPlaces, DataType.ofId, List.range_succ] at ha hb
      subst ha hb
      obtain ⟨p, hp, rfl, _⟩ := h1
      obtain ⟨q, hq, h3, _⟩ := h2
      simp at hp hq; subst hp hq; simp at h3
    · simp [owned, ownPtr, blocks, DataType.ofId]
    · simp [places, leafPlaces, DataType.ofId, List.range_succ]
    · simp [NatSize, DataType.ofId]
    · intro p hp
      simp [owned, ownPtr] at hp; subst hp; exact ⟨rfl, _, rfl⟩
    · simp [Clean, CleanInfo, DataType.ofId]
    · trivial
    · simp [val, Fits, DataType.ofId]
  · intro h
    have h := congrArg (fun v => match v with
      | NumVal.leaf _ (x :: _) => x
      | _ => none) h
    revert h
    decide

/-- A longer leaf of the same type keeps its length: the leaf of `dest` is then not
    the leaf of `src`. -/
theorem C26_longer_leaf_false :
    ∃ (src dest n' : Node) (m m' : Mem), UpdateOK m src dest ∧ update src dest m = .ok (m', n') ∧
      at? (val m src) [.key (chars! "a")] = some (.leaf .int16 .default [[some 11, some 12], [some 16, some 17]]) ∧
      at? (val m' n') [.key (chars! "a")] =
        some (.leaf .int16 .default [[some 11, some 12], [some 16, some 17], [some 25, some 26]]) :=
  ⟨copySrc, updDest,
    .obj {} [(chars! "z", .leaf ⟨some ⟨1, 0⟩, true⟩ (DataType.ofId .uint8 4)),
             (chars! "a", .leaf ⟨some ⟨2, 0⟩, true⟩ (DataType.ofId .int16 3)),
             (chars! "b", .lst {} [.leaf {} {},
               .leaf ⟨some ⟨3, 0⟩, true⟩ { id := .uint8, n := 3, offset := 0, stride := 1, ele := 1, endian := .big }])],
    updMem, [some [10, 11, 12, 13, 14, 15, 16, 17, 18, 19], some [1, 2, 3, 4], some [11, 12, 16, 17, 25, 26], some [13, 14, 15]],
    upd_ok, rfl, rfl, rfl⟩

/-- `update` of a list that has children from an object with children is undefined
    behaviour (add_child resets the list's schema and leaves its child nodes). -/
theorem C26_object_into_list_ub (x y : Info) (n : Str) (c d : Node) (es : List (Str × Node)) (ds : List Node) (m : Mem) :
    update (.obj x ((n, c) :: es)) (.lst y (d :: ds)) m = .ub := rfl

/-! ### C27 -/

/-- C27: `dest.update_compatible(src)` succeeds and leaves the very same node tree
    (no path added, removed or retyped); its value becomes the overlay; no byte
    outside `dest`'s elements changes; `src` keeps its value. -/
theorem C27_update_compatible (src dest : Node) (m : Mem) (hs : Readable m src) (hd : Readable m dest) (hn : NatSize dest)
    (hsep : (places dest).Pairwise NoShare) (hap : ∀ a ∈ places src, ∀ b ∈ places dest, NoShare a b)
    (ns : DistinctV (val m src)) (nd : DistinctV (val m dest)) :
    ∃ m', updateCompatible src dest m = .ok (m', dest) ∧ val m' dest = overlay (val m src) (val m dest) ∧
      val m' src = val m src ∧
      (∀ b i, (∀ pl ∈ places dest, ¬ pl.Has b i) → m'.byte b i = m.byte b i) := by
  obtain ⟨m', h1, h2, h3⟩ := updateCompatible_spec src dest m ⟨hs, hd, hn, hsep, hap⟩ ns nd
  exact ⟨m', h1, h3, val_same src (h2.same hap), h2.keep⟩

/-- C27: element by element.  Every leaf of `dest` keeps type, byte order and
    count; element `i` becomes element `i` of `src`'s leaf at the same path when that
    leaf has the same type, not more elements than `dest`'s, and an element `i`;
    every other element keeps its value. -/
theorem C27_update_compatible_elements (src dest : Node) (m : Mem) (hs : Readable m src) (hd : Readable m dest) (hn : NatSize dest)
    (hsep : (places dest).Pairwise NoShare) (hap : ∀ a ∈ places src, ∀ b ∈ places dest, NoShare a b)
    (ns : DistinctV (val m src)) (nd : DistinctV (val m dest))
    (p : List Step) (id : TypeId) (e : Endian) (es : List (List (Option UInt8))) (hp : at? (val m dest) p = some (.leaf id e es)) :
    ∃ m' es', updateCompatible src dest m = .ok (m', dest) ∧ at? (val m' dest) p = some (.leaf id e es') ∧
      es'.length = es.length ∧
      (∀ e' ss (i : Nat) v, at? (val m src) p = some (.leaf id e' ss) → ss.length ≤ es.length → ss[i]? = some v → id ≠ .empty → es'[i]? = some v) ∧
      (∀ i : Nat, (∀ e' ss, at? (val m src) p = some (.leaf id e' ss) → ss.length ≤ es.length → id ≠ .empty → ss[i]? = none) → es'[i]? = es[i]?) := by
  obtain ⟨m', h1, h2, _⟩ := C27_update_compatible src dest m hs hd hn hsep hap ns nd
  have := overlay_leaf_at p (val m src) (val m dest) id e es hp
  rw [← h2] at this
  by_cases hc : ∃ e' ss, at? (val m src) p = some (.leaf id e' ss) ∧ ss.length ≤ es.length ∧ id ≠ .empty
  · obtain ⟨e', ss, c1, c2, c3⟩ := hc
    rw [c1] at this
    simp only [overlay, c3, if_false, overLeaf, c2, and_self, if_true] at this
    refine ⟨m', _, h1, this, by simp; omega, ?_, ?_⟩
    · intro e'' ss' i v hss _ hv _
      rw [c1] at hss
      simp only [Option.some.injEq, Val.leaf.injEq, true_and] at hss
      obtain ⟨-, rfl⟩ := hss
      have : i < ss.length := (List.getElem?_eq_some_iff.1 hv).1
      rw [List.getElem?_append_left this]; exact hv
    · intro i hi
      have := hi e' ss c1 c2 c3
      rw [List.getElem?_eq_none_iff] at this
      rw [List.getElem?_append_right this, List.getElem?_drop]
      congr 1; omega
  · have hov : (match at? (val m src) p with | some v => overlay v (.leaf id e es) | none => .leaf id e es) = .leaf id e es := by
      cases ha : at? (val m src) p with
      | none => rfl
      | some v =>
        cases v with
        | obj _ => rfl
        | lst _ => rfl
        | leaf id' e' ss =>
          simp only [overlay]
          split
          · rfl
          · rename_i hne
            simp only [overLeaf]
            rw [if_neg]
            rintro ⟨g1, g2⟩
            subst g1
            exact hc ⟨e', ss, ha, g2, hne⟩
    have this := this.trans (congrArg some hov)
    refine ⟨m', es, h1, this, rfl, ?_, fun _ _ => rfl⟩
    intro e' ss i v a1 a2 _ a3
    exact absurd ⟨e', ss, a1, a2, a3⟩ hc

example : Readable updMem copySrc ∧ Readable updMem updDest ∧ NatSize updDest ∧ (places updDest).Pairwise NoShare ∧
    (∀ a ∈ places copySrc, ∀ b ∈ places updDest, NoShare a b) ∧ DistinctV (val updMem copySrc) ∧ DistinctV (val updMem updDest) :=
  ⟨upd_ok.1, upd_ok.2, upd_ok.8, upd_ok.7, upd_ok.5, upd_ok.3, upd_ok.4⟩
example : ∃ m', updateCompatible copySrc updDest updMem = .ok (m', updDest) ∧
    m'[2]? = some (some [11, 12, 16, 17, 25, 26]) := ⟨_, rfl, rfl⟩

end Conduit
