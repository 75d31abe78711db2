import Verif.Lemmas.Base64Json
import Verif.Props.SchemaJson
/-
Property theorems C40 (loading untrusted conduit_base64_json) and C61 (round trip of
`to_json("conduit_base64_json")`).
-/
namespace Conduit
open Spec Spec.Tree Schema Node Base64

/-! ### C40 -/

/-- A document fits: its `k` base64 letters decode inside the buffer of `L/4*3 + 1` bytes made
    for a text of `L` characters, and the schema spans no more than that buffer. -/
def DocFits (t : List UInt8) (s : Schema) : Prop :=
  max 1 (3 * (letters t / 4) + letters t % 4) ≤ t.length / 4 * 3 + 1 ∧
  0 ≤ s.spannedBytes ∧ s.spannedBytes ≤ (t.length / 4 * 3 + 1 : Nat)

theorem decodeBuffer_cases (t : List UInt8) :
    (max 1 (3 * (letters t / 4) + letters t % 4) ≤ t.length / 4 * 3 + 1 → ∃ buf, decodeBuffer t = .ok buf) ∧
    (¬ max 1 (3 * (letters t / 4) + letters t % 4) ≤ t.length / 4 * 3 + 1 → decodeBuffer t = .ub) := by
  have he := C06_decode_extent t
  constructor <;> intro h
  · exact ⟨_, if_neg (by rw [he]; unfold decodeBufferSize; omega)⟩
  · rw [decodeBuffer, if_pos (by rw [he]; unfold decodeBufferSize; omega)]

/-- C40 (exact): a document with a readable schema and base64 data is loaded without touching a
    byte outside the decoded data exactly when it fits; otherwise the code writes or reads out of
    bounds (it makes no check of its own). -/
theorem C40_out_of_bounds_iff (ms ds : List (Str × JV)) (t : Str) (sv : JV) (s : Schema)
    (h1 : ms.lookup (chars! "data") = some (.obj ds)) (h2 : ds.lookup (chars! "base64") = some (.str t))
    (h3 : ms.lookup (chars! "schema") = some sv) (h4 : Gen.walkS sv Tree.empty 0 = .ok s) (dest : Node) (m : Mem)
    (hd : GoodOwners m (owned dest)) :
    (parseBase64 (.obj ms) dest m = .ub ↔ ¬ DocFits (t.map charByte) s) ∧
    (parseBase64 (.obj ms) dest m ≠ .ub → ∃ m' n', parseBase64 (.obj ms) dest m = .ok (m', n')) := by
  have hp : parseBase64 (.obj ms) dest m = setDecoded s (t.map charByte) dest m := by
    rw [parseBase64, h1]
    simp only
    rw [h2]
    simp only
    rw [h3]
    simp only
    rw [h4, Res.bind_ok]
  rw [hp]
  have hc := decodeBuffer_cases (t.map charByte)
  by_cases hf : DocFits (t.map charByte) s
  · obtain ⟨buf, hb⟩ := hc.1 hf.1
    obtain ⟨m', q, e, _⟩ := setDecoded_spec s _ buf hb dest m hd hf.2.1
      (by rw [decodeBuffer_length hb]; exact hf.2.2)
    rw [e]
    simp [hf]
  · have : setDecoded s (t.map charByte) dest m = .ub := by
      apply setDecoded_ub s _ dest m hd
      by_cases ha : max 1 (3 * (letters (t.map charByte) / 4) + letters (t.map charByte) % 4) ≤ (t.map charByte).length / 4 * 3 + 1
      · right
        unfold decodeBufferSize
        by_cases hb : s.spannedBytes < 0
        · exact .inl hb
        · right
          have : ¬ (0 ≤ s.spannedBytes ∧ s.spannedBytes ≤ ((t.map charByte).length / 4 * 3 + 1 : Nat)) := fun h => hf ⟨ha, h⟩
          omega
      · exact .inl (hc.2 ha)
    rw [this]
    simp [hf]

/-- C40 (partial): if the document fits and no leaf of its schema declares elements smaller than
    their type or runs backwards, the loaded node has that schema, every element can be
    read, its values are those the schema describes on the decoded bytes (followed by zeros),
    and no other memory is changed.  Missing: documents that do not fit, where the claim
    is false. -/
theorem C40_loaded_partial (ms ds : List (Str × JV)) (t : Str) (sv : JV) (s : Schema)
    (h1 : ms.lookup (chars! "data") = some (.obj ds)) (h2 : ds.lookup (chars! "base64") = some (.str t))
    (h3 : ms.lookup (chars! "schema") = some sv) (h4 : Gen.walkS sv Tree.empty 0 = .ok s) (dest : Node) (m : Mem)
    (hd : GoodOwners m (owned dest)) (hf : DocFits (t.map charByte) s) (hs : Forward s) (hn : CountsOK s) :
    ∃ m' n' buf, parseBase64 (.obj ms) dest m = .ok (m', n') ∧ n'.schema = s ∧ Readable m' n' ∧
      (∀ i, i < (decode (t.map charByte)).out.length → i < buf.length → buf[i]? = (decode (t.map charByte)).out[i]?) ∧
      buf.length = t.length / 4 * 3 + 1 ∧ val m' n' = view [some buf] (some ⟨0, 0⟩) s ∧
      ∀ b, b < m.length → b ∉ (owned dest).map Ptr.blk → ∀ i, m'.byte b i = m.byte b i := by
  obtain ⟨buf, hb⟩ := (decodeBuffer_cases (t.map charByte)).1 hf.1
  have hl := decodeBuffer_length hb
  obtain ⟨m', q, e, eb, ef, _⟩ := setDecoded_spec s _ buf hb dest m hd hf.2.1 (by rw [hl]; exact hf.2.2)
  refine ⟨m', walk (some q) true s, buf, ?_, schema_walk _ _ _, ?_, ?_, ?_, ?_, ?_⟩
  · rw [parseBase64, h1]
    simp only
    rw [h2]
    simp only
    rw [h3]
    simp only
    rw [h4, Res.bind_ok, e]
  · refine readable_walk s hs hn (typed_walkS sv _ _ _ (by unfold TypedLeaves; decide) h4) ?_
    intro i i0 hi
    have := eb i.toNat (by omega)
    rw [show ((i.toNat : Nat) : Int) = i by omega] at this
    rw [this, List.getElem?_eq_getElem (by have := hf.2.2; rw [hl]; unfold decodeBufferSize; omega)]
    rfl
  · intro i hi hi'
    exact decodeBuffer_out hb i hi (by rw [← hl]; exact hi')
  · rw [hl]; unfold decodeBufferSize; simp
  · rw [val_walk]
    apply view_span s hs
    intro i i0 hi
    have := eb i.toNat (by omega)
    rw [show ((i.toNat : Nat) : Int) = i by omega] at this
    rw [this]
    simp [Mem.byteAt, Mem.byte]
    intro; omega
  · intro b hb1 hb2 i
    exact (ef.2 b hb1 hb2).2 i

/-- C40: a text that is no JSON, a document that is no object, or one in which `data`, `data/base64` or
    `schema` is missing is refused with an error (no undefined behaviour). -/
theorem C40_incomplete_refused (text : Str) (dest : Node) (m : Mem) (hd : GoodOwners m (owned dest))
    (h : match JV.parseDoc (jsonSanitize text) with
      | none => True
      | some (.obj ms) =>
        ms.lookup (chars! "data") = none ∨
        (∃ ds, ms.lookup (chars! "data") = some (.obj ds) ∧ (ds.lookup (chars! "base64") = none ∨
          (∃ t, ds.lookup (chars! "base64") = some (.str t)) ∧ ms.lookup (chars! "schema") = none))
      | some _ => True) : genBase64 text dest m = .error := by
  obtain ⟨m1, a1, _⟩ := reset_spec dest m hd
  rw [genBase64, a1, Res.bind_ok]
  simp only
  cases hp : JV.parseDoc (jsonSanitize text) with
  | none => rfl
  | some v =>
    rw [hp] at h
    simp only
    cases v with
    | obj ms =>
      rw [parseBase64]
      rcases h with h | ⟨ds, h1, h | ⟨⟨t, h2⟩, h3⟩⟩
      · rw [h]
      · rw [h1]; simp only; rw [h]
      · rw [h1]; simp only; rw [h2]; simp only; rw [h3]
    | _ => rfl

example : genBase64 (chars! "{\"data\": {\"base64\": \"AAAA\"}}") new [] = .error := by decide +kernel

/-- a document that fits: two int16 in four decoded bytes -/
def fitDoc : List (Str × JV) :=
  [(chars! "schema", .obj [(chars! "dtype", .str (chars! "int16")), (chars! "number_of_elements", .int 2)]),
   (chars! "data", .obj [(chars! "base64", .str (chars! "AQACAA=="))])]

def fitSchema : Schema := .leaf { id := .int16, n := 2, offset := 0, stride := 2, ele := 2, endian := .default }

example : Gen.walkS (.obj [(chars! "dtype", .str (chars! "int16")), (chars! "number_of_elements", .int 2)]) Tree.empty 0 = .ok fitSchema ∧
    DocFits ((chars! "AQACAA==").map charByte) fitSchema ∧ Forward fitSchema ∧ CountsOK fitSchema ∧
    (parseBase64 (.obj fitDoc) new []).map' (fun r => val r.1 r.2) =
      .ok (.leaf .int16 .default [[some 1, some 0], [some 2, some 0]]) := by
  refine ⟨by decide +kernel, ?_, ?_, ?_, by decide +kernel⟩
  · unfold DocFits; decide +kernel
  · simp only [fitSchema, Forward]; decide
  · intro d hd
    simp only [fitSchema, Tree.leaves, List.mem_singleton] at hd
    subst hd; decide

/-- C40 is false: a document whose schema asks for 100 numbers while its data decodes to 3
    bytes makes the loader read 796 bytes past its buffer. -/
theorem C40_overread_false :
    genBase64 (chars! "{\"schema\": {\"dtype\": \"int64\", \"number_of_elements\": 100}, \"data\": {\"base64\": \"AAAA\"}}") new [] = .ub := by
  decide +kernel

/-- C40 is false: a base64 text cut short (no padding) is decoded past the end of its buffer. -/
theorem C40_overwrite_false :
    genBase64 (chars! "{\"schema\": {\"dtype\": \"int8\"}, \"data\": {\"base64\": \"QUJ\"}}") new [] = .ub := by
  decide +kernel

/-- C40 is false: `element_bytes` is taken as given.  This document loads, but its one int64
    leaf has 0 bytes of storage behind it. -/
theorem C40_element_bytes_false :
    ∃ m n, genBase64 (chars! "{\"schema\": {\"dtype\": \"int64\", \"element_bytes\": 0}, \"data\": {\"base64\": \"\"}}") new [] = .ok (m, n) ∧
      val m n = .leaf .int64 .default [List.replicate 8 none] ∧ ¬ Readable m n := by
  refine ⟨[none, some []], .leaf ⟨some ⟨1, 0⟩, true⟩ { id := .int64, n := 1, offset := 0, stride := 8, ele := 0 }, by decide +kernel,
    by decide +kernel, ?_⟩
  intro h
  have := h.2.2.2 (by decide) (List.replicate 8 none) (by decide +kernel) none (by decide)
  simp at this

/-! ### C61 -/

/-- C61 (partial): the conduit_base64_json text of a readable node, loaded into any node on a machine of
    the same byte order, gives the same tree and the same values (the default byte order becomes the
    machine's name for it), whatever white space is used for indentation.  Missing, because false
    there: names as excluded in C20; 2 GiB of data or more (C05). -/
theorem C61_base64_json_partial (big : Bool) (indent depth : Nat) (pad eoe : Str) (hp : WS pad) (he : WS eoe) (n : Node) (m : Mem)
    (hr : Readable m n) (hn : NamesOK n.schema) (hs : n.schema.totalBytesCompact < 2 ^ 31) :
    ∃ text, toBase64Json big indent pad eoe n depth m = .ok text ∧
      ∀ (dest : Node) (m2 : Mem), GoodOwners m2 (owned dest) → Clean dest →
        ∃ m3 n3, genBase64 text dest m2 = .ok (m3, n3) ∧ val m3 n3 = named big (val m n) ∧
          numbers big (val m3 n3) = numbers big (val m n) ∧
          (∀ b ∈ blocks n3, m2.length ≤ b) ∧
          ∀ b, b < m2.length → b ∉ (owned dest).map Ptr.blk → ∀ i, m3.byte b i = m2.byte b i := by
  obtain ⟨bytes, h1, h2⟩ := base64Source_spec n m hr
  have hc := countsOK_of hr
  have hlen := (view_flat n m hr bytes h2 [some bytes] (some ⟨0, 0⟩) (by
    intro i hi; simp [Mem.byteAt, Mem.byte]; omega)).2
  have hsz : bytes.length < 2 ^ 31 := by omega
  obtain ⟨t, e1, e2⟩ := C05_roundtrip bytes hsz
  obtain ⟨x1, x2, x3⟩ := encoded_text e1
  have hpr : Printable n.schema.compactTo :=
    printable_compactAt n.schema 0 hn hc (readable_ids n hr) (Int.le_refl 0) (by omega)
  refine ⟨base64Doc big indent pad eoe depth n.schema.compactTo (t.map byteChar), ?_, ?_⟩
  · rw [toBase64Json, h1, Res.bind_ok]
    simp only
    rw [e1]
  intro dest m2 hd hcl
  obtain ⟨m1, a1, a2⟩ := reset_spec dest m2 hd
  have hdoc := parse_base64Doc big indent pad eoe hp he depth n.schema.compactTo hpr (t.map byteChar) x3 x2
  have hown := C06_own_text_in_bounds bytes t hsz e1
  obtain ⟨buf, hb⟩ : ∃ buf, decodeBuffer t = .ok buf := 
    ⟨_, if_neg (by omega)⟩
  have hbl := decodeBuffer_length hb
  have hsp := span_readBack_compact big n.schema hc
  have hown0 : owned (.leaf dest.releasedInfo {}) = [] := by
    simp [owned, ownPtr, releasedInfo_clean hcl]
  have hg : GoodOwners m1 (owned (.leaf dest.releasedInfo {})) := by
    rw [hown0]; exact good_nil m1
  obtain ⟨m3, q, g1, g2, g3, g4, _⟩ := setDecoded_spec (readBack big n.schema.compactTo 0) t buf hb (.leaf dest.releasedInfo {}) m1 hg
    (by rw [hsp]; omega) (by rw [hsp, hbl]; omega)
  have hval : val m3 (walk (some q) true (readBack big n.schema.compactTo 0)) = named big (val m n) := by
    rw [val_walk, view_readBack, (view_flat n m hr bytes h2 m3 (some q) (by
      intro i hi
      rw [g2 i (by rw [hsp]; omega), decodeBuffer_out hb i (by rw [e2]; exact hi) (by omega), e2])).1]
  refine ⟨m3, _, ?_, hval, by rw [hval, numbers_named], ?_, ?_⟩
  · rw [genBase64, a1, Res.bind_ok]
    simp only
    rw [hdoc]
    have l1 : List.lookup (chars! "data") [(chars! "schema", schemaJV big n.schema.compactTo),
        (chars! "data", JV.obj [(chars! "base64", .str (t.map byteChar))])] =
        some (.obj [(chars! "base64", .str (t.map byteChar))]) := rfl
    have l2 : List.lookup (chars! "base64") [(chars! "base64", JV.str (t.map byteChar))] = some (.str (t.map byteChar)) := rfl
    have l3 : List.lookup (chars! "schema") [(chars! "schema", schemaJV big n.schema.compactTo),
        (chars! "data", JV.obj [(chars! "base64", .str (t.map byteChar))])] = some (schemaJV big n.schema.compactTo) := rfl
    rw [base64JV]
    simp only
    rw [parseBase64.eq_def]
    simp only
    rw [l1]
    simp only
    rw [l2]
    simp only
    rw [l3]
    simp only
    rw [walkS_read big _ _ _ hpr, Res.bind_ok, x1, g1]
  · intro b hbb
    rw [blocks_walk _ _ _ b hbb, g4]
    have := a2.1; simp only; omega
  · intro b hb1 hb2 i
    rw [(g3.2 b (by rw [a2.1]; exact hb1) (by rw [hown0]; simp)).2 i, a2.byte hb2]

example : Readable copyMem copySrc ∧ NamesOK copySrc.schema ∧ copySrc.schema.totalBytesCompact < 2 ^ 31 ∧
    GoodOwners copyMem (owned copyDest) ∧ Clean copyDest := by
  refine ⟨copy_call_ok.1, ?_, by decide, copy_call_ok.2, ?_⟩
  rotate_left
  · simp only [copyDest, Clean, CleanInfo]; decide
  simp only [copySrc, schema, schemaE, schemaL, NamesOK, NamesOKE, NamesOKL, CleanName]; decide

/-- C61 fails for a child named `dtype`: the text is read back as another tree. -/
theorem C61_child_named_dtype_false :
    Readable copyMem dtypeChild ∧
    (match toBase64Json false 2 (chars! " ") (chars! "\n") dtypeChild 0 copyMem with
      | .ok text => (genBase64 text new copyMem).map' (fun (r : Mem × Node) => r.2.schema)
      | _ => .error) = Res.ok (Tree.lst [.leaf { DataType.ofId .int8 1 with endian := .little }]) := by
  refine ⟨by simp only [dtypeChild, Readable, ReadableE]; decide, by decide +kernel⟩

end Conduit
