import Verif.Lemmas.SchemaJson2
import Verif.Props.NodeIO
import Verif.Lemmas.TreeDec
/-
Property theorems C20 (a schema survives its JSON form) and the full C23 (binary save
and load, with the schema as JSON text).
Specification: Verif/Spec/SchemaJson.lean.
-/
namespace Conduit
open Spec Spec.Tree Schema Node

/-! ### C20 -/

/-- C20 (partial): the text of a schema, with any indentation made of white space, is read
    back as a schema of the same layout: the same tree and names, every leaf with the same
    type, count, offset, stride and element size, the default byte order named
    (`jsonForm`); every buffer it describes shows the same numbers.  An empty leaf has no
    layout; it comes back with one element of 0 bytes placed after its predecessor
    (`readBack`).  Missing, because the claim is false there (next theorems): names that
    need escaping, a child named `dtype`, negative layout fields. -/
theorem C20_schema_json_partial (big : Bool) (indent depth : Nat) (pad eoe : Str) (hp : WS pad) (he : WS eoe) (s : Schema)
    (h : Printable s) :
    ∃ s', Gen.parseSchema (s.toJson big indent pad eoe depth) = .ok s' ∧ s' = readBack big s 0 ∧
      jsonForm big s' = jsonForm big s ∧
      ∀ m p, numbers big (view m p s') = numbers big (view m p s) :=
  ⟨_, parseSchema_read big indent pad eoe hp he s depth h, rfl, readBack_form big s 0,
    fun m p => by rw [view_readBack, numbers_named]⟩

/-- C20 (partial): a schema in which every leaf has a type and a byte order comes back
    exactly as it was. -/
theorem C20_schema_json_exact_partial (big : Bool) (indent depth : Nat) (pad eoe : Str) (hp : WS pad) (he : WS eoe)
    (s : Schema) (h : Printable s) (hd : Definite s) :
    Gen.parseSchema (s.toJson big indent pad eoe depth) = .ok s := by
  rw [parseSchema_read big indent pad eoe hp he s depth h, readBack_definite big s 0 hd]

/-- a tree with nesting, a strided leaf, an empty leaf, and names with special characters -/
def jsonSchema : Schema :=
  .obj [(chars! "a b/c", .leaf { id := .int16, n := 3, offset := 2, stride := 5, ele := 2, endian := .big }),
    (chars! "", .lst [.leaf {}, .obj [], .leaf { id := .char8Str, n := 0, offset := 17, stride := 1, ele := 1 }]),
    (chars! "true", .obj [(chars! "x", .leaf { id := .float64, n := 1, offset := 24, stride := 8, ele := 8 })])]

example : Printable jsonSchema ∧ WS (chars! " ") ∧ WS (chars! "\n") ∧
    Gen.parseSchema (jsonSchema.toJson false 2 (chars! " ") (chars! "\n") 0) = .ok (readBack false jsonSchema 0) := by
  have hp : Printable jsonSchema := by
    simp [jsonSchema, Printable, PrintableE, PrintableL, CleanName, Index]
  have h1 : WS (chars! " ") := by unfold WS; decide
  have h2 : WS (chars! "\n") := by unfold WS; decide
  exact ⟨hp, h1, h2, parseSchema_read false 2 _ _ h1 h2 jsonSchema 0 hp⟩

example : Definite (.obj [(chars! "a b/c", .leaf { id := .int16, n := 3, offset := 2, stride := 5, ele := 2, endian := .big })]) := by
  simp [Definite, DefiniteE]

/-- the text with the default arguments of `to_json` -/
def jsonText (s : Schema) : Str := s.toJson false 2 (chars! " ") (chars! "\n") 0

/-- C20 is false: the text of an object with a child named `dtype` is read as a list of
    one (the child's layout), the siblings are lost. -/
theorem C20_child_named_dtype_false :
    Gen.parseSchema (jsonText (.obj [(chars! "dtype", .leaf (DataType.ofId .int8 1)), (chars! "v", .leaf (DataType.ofId .int8 1))])) =
      .ok (.lst [.leaf { DataType.ofId .int8 1 with endian := .little }]) := by decide +kernel

/-- C20 is false: names are not escaped, so a quote in a name makes the text unreadable. -/
theorem C20_quote_in_name_false :
    Gen.parseSchema (jsonText (.obj [(chars! "a\"b", .leaf (DataType.ofId .int8 1))])) = .error := by decide +kernel

/-- C20 is false: a name with a backslash (here `a`, backslash, `n`, `b`) silently becomes
    another name (with a line break). -/
theorem C20_backslash_in_name_false :
    Gen.parseSchema (jsonText (.obj [(chars! "a\\nb", .leaf (DataType.ofId .int8 1))])) =
      .ok (.obj [(chars! "a\nb", .leaf { DataType.ofId .int8 1 with endian := .little })]) := by decide +kernel

/-- C20 is false: a leaf that runs backwards (negative stride) fails a rapidjson assertion. -/
theorem C20_negative_stride_false :
    Gen.parseSchema (jsonText (.leaf { id := .int8, n := 3, offset := 2, stride := -1, ele := 1 })) = .ub := by
  decide +kernel

/-- C20 is false for `equals`: an empty leaf is read back with one element, so the schema
    read back does not equal the one written. -/
theorem C20_empty_leaf_equals_false :
    ∃ s', Gen.parseSchema (jsonText (.obj [(chars! "a", Tree.empty)])) = .ok s' ∧
      Schema.equals (.obj [(chars! "a", Tree.empty)]) s' = .ok false := by
  refine ⟨.obj [(chars! "a", .leaf { id := .empty, n := 1 })], by decide +kernel, ?_⟩
  decide +kernel

/-! ### C23 -/

/-- C23 (partial): saving a readable node with protocol `conduit_bin` and loading the two files (in
    any process of the same byte order, into any node) gives the same tree and the same
    values; the default byte order becomes the machine's name for it.  Missing, because false there: names as
    excluded in C20 (and 2^63 bytes of data or more).  File system errors are not modelled. -/
theorem C23_save_load_files_partial (big : Bool) (n : Node) (m : Mem) (hr : Readable m n) (hn : NamesOK n.schema)
    (hs : n.schema.totalBytesCompact < 2 ^ 63) :
    ∃ text bytes, saveBinFiles big n m = .ok (text, bytes) ∧ bytes.map some = flat (val m n) ∧
      ∀ (dest : Node) (m2 : Mem), GoodOwners m2 (owned dest) →
        ∃ m3 n3, loadBinFiles text bytes dest m2 = .ok (m3, n3) ∧ val m3 n3 = named big (val m n) ∧
          numbers big (val m3 n3) = numbers big (val m n) ∧
          ∀ b, b < m2.length → b ∉ (owned dest).map Ptr.blk → ∀ i, m3.byte b i = m2.byte b i := by
  obtain ⟨bytes, h1, h2⟩ := saveBin_spec n m hr
  have hc := countsOK_of hr
  have hp : Printable n.schema.compactTo :=
    printable_compactAt n.schema 0 hn hc (readable_ids n hr) (Int.le_refl 0) (by omega)
  refine ⟨n.schema.compactTo.toJson big 2 (chars! " ") (chars! "\n") 0, bytes, ?_, h2, ?_⟩
  · rw [saveBinFiles, h1, Res.bind_ok]
  intro dest m2 hd
  have hparse := parseSchema_read big 2 (chars! " ") (chars! "\n") (by unfold WS; decide) (by unfold WS; decide)
    n.schema.compactTo 0 hp
  have hlen := (view_flat n m hr bytes h2 [some bytes] (some ⟨0, 0⟩) (by
    intro i hi; simp [Mem.byteAt, Mem.byte]; omega)).2
  obtain ⟨m3, p, c1, c2, c3⟩ := loadBin_bytes (readBack big n.schema.compactTo 0) bytes
    (by rw [span_readBack_compact big _ hc]; omega) dest m2 hd
  have hval : val m3 (walk (some p) true (readBack big n.schema.compactTo 0)) = named big (val m n) := by
    rw [val_walk, view_readBack, (view_flat n m hr bytes h2 m3 (some p) c2).1]
  refine ⟨m3, _, ?_, hval, by rw [hval, numbers_named], fun b hb hb' => (c3.2 b hb hb').2⟩
  rw [loadBinFiles, hparse, Res.bind_ok, c1]

example : Readable copyMem copySrc ∧ NamesOK copySrc.schema ∧ copySrc.schema.totalBytesCompact < 2 ^ 63 ∧
    GoodOwners copyMem (owned copyDest) := by
  refine ⟨copy_call_ok.1, ?_, by decide, copy_call_ok.2⟩
  simp only [copySrc, schema, schemaE, schemaL, NamesOK, NamesOKE, NamesOKL, CleanName]; decide

/-- the tree of `C23_child_named_dtype_false` -/
def dtypeChild : Node :=
  .obj {} [(chars! "dtype", .leaf ⟨some ⟨0, 0⟩, false⟩ (DataType.ofId .int8 1)),
    (chars! "v", .leaf ⟨some ⟨0, 1⟩, false⟩ (DataType.ofId .int8 1))]

/-- C23 fails for a child named `dtype`: the saved files load as another tree (a list with
    one entry). -/
theorem C23_child_named_dtype_false :
    Readable copyMem dtypeChild ∧ dtypeChild.schema.keys = [chars! "dtype", chars! "v"] ∧
    (match saveBinFiles false dtypeChild copyMem with
      | .ok (text, bytes) => (loadBinFiles text bytes new copyMem).map' (fun (r : Mem × Node) => r.2.schema)
      | _ => .error) = Res.ok (Tree.lst [.leaf { DataType.ofId .int8 1 with endian := .little }]) := by
  refine ⟨by simp only [dtypeChild, Readable, ReadableE]; decide, rfl, by decide +kernel⟩

end Conduit
