import Verif.Lemmas.GenNull
import Verif.Props.SchemaJson
/-
Property theorems C39 (three walks over one schema text) and C62 (ownership of generated
nodes).
-/
namespace Conduit
open Spec Spec.Tree Schema Node Gen

/-- A library for the witnesses; none of them reads a floating point number. -/
def someLib : Lib where
  double _ := 0
  strtod _ := none
  ofInt _ := 0
  ofInt32 _ := 0
  narrow x := x
  widen x := x
  toInt _ _ := .error
  text _ := []
  addr _ := none
  hex _ := []

/-! ### C39 -/

/-- C39, copying (partial): if whatever follows a leaf with gaps states its offsets, no leaf has an
    inline value or an address, no name occurs twice in an object and no list_of is empty, then the
    node made by `Generator::walk` from text and data has exactly the values that the schema
    parsed from the same text describes on that data; nothing but the node's old buffers is changed.
    Missing: documents outside these conditions, where the claim can be false
    (`C39_strided_sibling_false`, `C39_empty_list_of_false`). -/
theorem C39_copy_partial (L : Lib) (big : Bool) (text : Str) (v : JV) (s : Schema) (q : Ptr) (dest : Node) (m : Mem)
    (hv : JV.parseDoc (jsonSanitize text) = some v) (hs : parseSchema text = .ok s)
    (hi : NoInline v) (hr : Regular v) (hst : Steady v)
    (hd : GoodOwners m (owned dest)) (hcl : Clean dest) (hq : q.blk ∉ (owned dest).map Ptr.blk)
    (hb : Readable m (walk (some q) false s)) :
    ∃ m' n, genNode L big false text (some q) dest m = .ok (m', n) ∧ val m' n = view m (some q) s ∧ Readable m' n ∧
      Fresh m m' n ∧ Frame m m' (owned dest) := by
  obtain ⟨m1, a1, a2⟩ := reset_spec dest m hd
  rw [parseSchema, hv] at hs
  have hag : Agree m m1 (Spec.blocks (walk (some q) false s)) := a2.frame.agree (blocks_lt _ hb) (by
    intro p hp hc
    exact hq (by rw [← blocks_walk q false s _ hc]; exact List.mem_map_of_mem hp))
  obtain ⟨m2, n, b1, b2, _⟩ := copy_walk L big q (fun _ => True) v hi hr hst (.inl trivial) _ dest.releasedInfo 0 0 m1 s hs (.inl rfl)
    (releasedInfo_clean hcl) ((readable_agree _ hag).2 hb)
  have hl : m1.length = m.length := a2.1
  refine ⟨m2, n, ?_, ?_, b2.readable, ?_, a2.frame.trans b2.frame⟩
  · rw [genNode, a1, bind_ok, hv]
    exact b1
  · rw [b2.val, ← val_walk m (some q) false s, ← val_walk m1 (some q) false s]
    exact val_agree _ hag
  · obtain ⟨f1, f2, f3⟩ := b2.fresh
    exact ⟨f1, f2, fun p hp => by have := f3 p hp; omega⟩

/-- C39, external: for the same documents without any condition on offsets, the node made by
    `Generator::walk_external` has exactly the schema parsed from the text, every leaf on the
    caller's buffer, and so the values that schema describes; memory other than the node's old
    buffers stays as it was. -/
theorem C39_external_partial (L : Lib) (big : Bool) (text : Str) (v : JV) (s : Schema) (q : Ptr) (dest : Node) (m : Mem)
    (hv : JV.parseDoc (jsonSanitize text) = some v) (hs : parseSchema text = .ok s)
    (hi : NoInline v) (hr : Regular v) (hd : GoodOwners m (owned dest)) :
    ∃ m' n, genNode L big true text (some q) dest m = .ok (m', n) ∧ n.schema = s ∧ OnBuffer q n ∧
      val m' n = view m' (some q) s ∧ Frame m m' (owned dest) := by
  obtain ⟨m1, a1, a2⟩ := reset_spec dest m hd
  rw [parseSchema, hv] at hs
  obtain ⟨n, b1, b2, b3⟩ := ext_walk L big q v hi hr _ dest.releasedInfo 0 m1 s hs
  refine ⟨m1, n, ?_, b2, b3, ?_, a2.frame⟩
  · rw [genNode, a1, bind_ok, hv]
    exact b1
  · rw [val_onBuffer m1 q n b3, b2]

/-! ### C62 -/

/-- C62 (partial): if every leaf of the document is an object with its properties, the node made by
    `Generator::walk` keeps all its data in memory of its own: every block it reads is new and
    it owns each block once.  Later changes of the caller's buffer do not show.
    Missing: leaves given by a type name only, where the claim is false
    (`C62_named_leaf_aliases_false`). -/
theorem C62_own_memory_partial (L : Lib) (big : Bool) (text : Str) (v : JV) (s : Schema) (q : Ptr) (dest : Node) (m : Mem)
    (hv : JV.parseDoc (jsonSanitize text) = some v) (hs : parseSchema text = .ok s)
    (hi : NoInline v) (hr : Regular v) (hst : Steady v) (he : Explicit v)
    (hd : GoodOwners m (owned dest)) (hcl : Clean dest) (hq : q.blk ∉ (owned dest).map Ptr.blk)
    (hb : Readable m (walk (some q) false s)) :
    ∃ m' n, genNode L big false text (some q) dest m = .ok (m', n) ∧ Fresh m m' n ∧
      (∀ b ∈ Spec.blocks n, m.length ≤ b) ∧
      ∀ m'', (∀ b, m.length ≤ b → ∀ i, m''.byte b i = m'.byte b i) → val m'' n = view m (some q) s := by
  obtain ⟨m1, a1, a2⟩ := reset_spec dest m hd
  rw [parseSchema, hv] at hs
  have hag : Agree m m1 (Spec.blocks (walk (some q) false s)) := a2.frame.agree (blocks_lt _ hb) (by
    intro p hp hc
    exact hq (by rw [← blocks_walk q false s _ hc]; exact List.mem_map_of_mem hp))
  obtain ⟨m2, n, b1, b2, _⟩ := copy_walk L big q (fun _ => False) v hi hr hst (.inr he) _ dest.releasedInfo 0 0 m1 s hs (.inl rfl)
    (releasedInfo_clean hcl) ((readable_agree _ hag).2 hb)
  have hl : m1.length = m.length := a2.1
  have hbl : ∀ b ∈ Spec.blocks n, m.length ≤ b := by
    intro b hb
    rcases b2.blocks b hb with h | h
    · omega
    · exact h.elim
  refine ⟨m2, n, ?_, ?_, hbl, ?_⟩
  · rw [genNode, a1, bind_ok, hv]
    exact b1
  · obtain ⟨f1, f2, f3⟩ := b2.fresh
    exact ⟨f1, f2, fun p hp => by have := f3 p hp; omega⟩
  · intro m'' h
    have : val m'' n = val m2 n := val_agree n (fun b hb i => h b (hbl b hb) i)
    rw [this, b2.val, ← val_walk m (some q) false s, ← val_walk m1 (some q) false s]
    exact val_agree _ hag

/-- C62 without data (partial): for the same documents the node made by `Generator::walk` without
    data owns its memory and holds 0 in every element.  Missing: leaves given by a type name only
    (`C62_named_leaf_null_false`). -/
theorem C62_null_zeros_partial (L : Lib) (big : Bool) (text : Str) (v : JV) (s : Schema) (dest : Node) (m : Mem)
    (hv : JV.parseDoc (jsonSanitize text) = some v) (hs : parseSchema text = .ok s)
    (hi : NoInline v) (hr : Regular v) (he : Explicit v) (hn : CountsOK s)
    (hd : GoodOwners m (owned dest)) (hcl : Clean dest) :
    ∃ m' n, genNode L big false text none dest m = .ok (m', n) ∧ val m' n = zeros s ∧ Readable m' n ∧ Fresh m m' n ∧
      (∀ b ∈ Spec.blocks n, m.length ≤ b) ∧ Frame m m' (owned dest) := by
  obtain ⟨m1, a1, a2⟩ := reset_spec dest m hd
  rw [parseSchema, hv] at hs
  obtain ⟨m2, n, b1, b2⟩ := null_walk L big v hi hr he _ dest.releasedInfo 0 0 m1 s hs (releasedInfo_clean hcl) hn
  have hl : m1.length = m.length := a2.1
  refine ⟨m2, n, ?_, b2.val, b2.readable, ?_, ?_, a2.frame.trans b2.frame⟩
  · rw [genNode, a1, bind_ok, hv]
    exact b1
  · obtain ⟨f1, f2, f3⟩ := b2.fresh
    exact ⟨f1, f2, fun p hp => by have := f3 p hp; omega⟩
  · intro b hb
    rcases b2.blocks b hb with h | h
    · omega
    · exact h.elim

/-! ### where the claims fail -/

/-- C39 is false for a strided leaf followed by one without an offset: the copying walk takes the
    second leaf from the byte after the first leaf's *compacted* size, the Schema and the
    external walk from the byte after its strided size. -/
theorem C39_strided_sibling_false :
    ∃ text : Str, ∃ m : Mem, ∃ s, parseSchema text = .ok s ∧ Readable m (walk (some ⟨0, 0⟩) false s) ∧
      (genNode someLib false true text (some ⟨0, 0⟩) new m).map' (fun r => val r.1 r.2) = .ok (view m (some ⟨0, 0⟩) s) ∧
      (genNode someLib false false text (some ⟨0, 0⟩) new m).map' (fun r => val r.1 r.2) ≠ .ok (view m (some ⟨0, 0⟩) s) := by
  refine ⟨chars! "{\"a\": {\"dtype\": \"int8\", \"length\": 2, \"stride\": 2}, \"b\": {\"dtype\": \"int8\"}}",
    [some [1, 2, 3, 4]], .obj [(chars! "a", .leaf ⟨.int8, 2, 0, 2, 1, .default⟩), (chars! "b", .leaf ⟨.int8, 1, 3, 1, 1, .default⟩)],
    by decide +kernel, ?_, by decide +kernel, by decide +kernel⟩
  simp only [walk, walkE, Readable, ReadableE]
  decide +kernel

/-- C39 is false for a list_of of length 0 below the root: the Schema has an empty object there,
    the nodes an empty leaf. -/
theorem C39_empty_list_of_false :
    ∃ text : Str, parseSchema text = .ok (.obj [(chars! "a", .obj [])]) ∧
      ∃ n, genNode someLib false true text (some ⟨0, 0⟩) new [some [1]] = .ok ([some [1]], n) ∧
        n.schema = .obj [(chars! "a", .empty)] := by
  refine ⟨chars! "{\"a\": {\"dtype\": {\"x\": \"int8\"}, \"length\": 0}}", by decide +kernel, .obj {} [(chars! "a", .leaf {} {})],
    by decide +kernel, by decide +kernel⟩

/-- C62 is false for a leaf given by its type name: the copying walk leaves it on the caller's
    buffer, so a later change of that buffer shows in the node. -/
theorem C62_named_leaf_aliases_false :
    ∃ text : Str, ∃ n, genNode someLib false false text (some ⟨0, 0⟩) new [some [7]] = .ok ([some [7]], n) ∧
      val [some [7]] n ≠ val [some [8]] n ∧ owned n = [] :=
  ⟨chars! "{\"a\": \"int8\"}", .obj {} [(chars! "a", .leaf ⟨some ⟨0, 0⟩, false⟩ ⟨.int8, 1, 0, 1, 1, .default⟩)], by decide +kernel,
    by decide +kernel, by decide +kernel⟩

/-- C62 is false for such a leaf without data: it gets a type with one element but no memory. -/
theorem C62_named_leaf_null_false :
    ∃ text : Str, ∃ n, genNode someLib false false text none new [] = .ok ([], n) ∧
      val [] n = .obj [(chars! "a", .leaf .int8 .default [[none]])] :=
  ⟨chars! "{\"a\": \"int8\"}", .obj {} [(chars! "a", .leaf ⟨none, false⟩ ⟨.int8, 1, 0, 1, 1, .default⟩)], by decide +kernel,
    by decide +kernel⟩

/-! ### a document that meets the conditions -/

/-- an object with a strided leaf followed by a leaf with an offset, and a list_of of packed pairs -/
def walksText : Str := chars! "{\"a\": {\"dtype\": \"int8\", \"length\": 2, \"stride\": 2}, \"b\": {\"dtype\": \"int8\", \"offset\": 1}, \"c\": {\"dtype\": {\"x\": {\"dtype\": \"uint8\", \"offset\": 4, \"length\": 2}}, \"length\": 2}}"

def walksDoc : JV := .obj [
  (chars! "a", .obj [(chars! "dtype", .str (chars! "int8")), (chars! "length", .int 2), (chars! "stride", .int 2)]),
  (chars! "b", .obj [(chars! "dtype", .str (chars! "int8")), (chars! "offset", .int 1)]),
  (chars! "c", .obj [(chars! "dtype", .obj [(chars! "x", .obj [(chars! "dtype", .str (chars! "uint8")), (chars! "offset", .int 4),
    (chars! "length", .int 2)])]), (chars! "length", .int 2)])]

example : JV.parseDoc (jsonSanitize walksText) = some walksDoc := by decide +kernel

def walksSchema : Schema := .obj [(chars! "a", .leaf ⟨.int8, 2, 0, 2, 1, .default⟩), (chars! "b", .leaf ⟨.int8, 1, 1, 1, 1, .default⟩),
  (chars! "c", .lst [.obj [(chars! "x", .leaf ⟨.uint8, 2, 4, 1, 1, .default⟩)], .obj [(chars! "x", .leaf ⟨.uint8, 2, 4, 1, 1, .default⟩)]])]

example : parseSchema walksText = .ok walksSchema := by decide +kernel

example : NoInline walksDoc ∧ Regular walksDoc ∧ Steady walksDoc ∧ Explicit walksDoc ∧ CountsOK walksSchema ∧
    Readable [some [1, 2, 3, 4, 5, 6]] (walk (some ⟨0, 0⟩) false walksSchema) := by
  refine ⟨?_, ?_, ?_, ?_, ?_, ?_⟩
  · simp [-List.lookup_eq_none_iff, walksDoc, NoInline, AllLeaves, AllLeavesM, List.lookup]
  · simp [walksDoc, Regular, RegularM, List.lookup]
  · simp [walksDoc, Steady, SteadyM, SteadyA, List.lookup, AnchoredM, Anchored, AllLeaves, AllLeavesM]
  · simp [walksDoc, Explicit, AllLeaves, AllLeavesM, List.lookup]
  · unfold CountsOK; decide +kernel
  · simp only [walksSchema, walk, walkE, walkL, Readable, ReadableE, ReadableL]
    decide +kernel

/-- the three results on six bytes -/
example : (genNode someLib false false walksText (some ⟨0, 0⟩) new [some [1, 2, 3, 4, 5, 6]]).map' (fun r => val r.1 r.2) =
      .ok (view [some [1, 2, 3, 4, 5, 6]] (some ⟨0, 0⟩) walksSchema) ∧
    (genNode someLib false true walksText (some ⟨0, 0⟩) new [some [1, 2, 3, 4, 5, 6]]).map' (fun r => val r.1 r.2) =
      .ok (view [some [1, 2, 3, 4, 5, 6]] (some ⟨0, 0⟩) walksSchema) ∧
    view [some [1, 2, 3, 4, 5, 6]] (some ⟨0, 0⟩) walksSchema = .obj [(chars! "a", .leaf .int8 .default [[some 1], [some 3]]),
      (chars! "b", .leaf .int8 .default [[some 2]]),
      (chars! "c", .lst [.obj [(chars! "x", .leaf .uint8 .default [[some 5], [some 6]])],
        .obj [(chars! "x", .leaf .uint8 .default [[some 5], [some 6]])]])] ∧
    (genNode someLib false false walksText none new []).map' (fun r => val r.1 r.2) = .ok (zeros walksSchema) := by
  decide +kernel

end Conduit
