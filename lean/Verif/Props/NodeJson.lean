import Verif.Lemmas.NodeJson3
import Verif.Props.GenNode
/-
Property theorem C63: the detailed JSON text of a node (`conduit_json`) is read back as the
same values.
-/
namespace Conduit
open Spec Spec.Tree Schema Node Gen

/-- C63 (partial): `Node::to_json(protocol = "conduit_json")` of a node writes a text from which
    `Node::parse` (the Generator without a data pointer) makes a node with the same
    values, whatever the indentation, whatever the node read into held; the new node owns all its
    memory and nothing else changes.
    Hypotheses on the values (`TextSafe`): the library's decimal text of every floating point
    element is read back as the same bits, a scalar one is not NaN or infinite
    (`C63_scalar_nan_false`), and strings hold no backslash (`C63_backslash_false`) and no control
    character that JSON does not name.  On the tree (`Printable`): names need no escapes, are
    distinct and not "dtype", layout fields are not negative.
    Missing: the values outside these conditions. -/
theorem C63_detailed_json_partial (L : Lib) (big : Bool) (indent depth : Nat) (pad eoe : Str) (hp : WS pad) (he : WS eoe)
    (m md : Mem) (n dest : Node) (hr : Readable m n) (hpr : Printable n.schema) (hs : DenseStrings n.schema)
    (ht : TextSafe L big (val m n)) (hd : GoodOwners md (owned dest)) (hcl : Clean dest) :
    ∃ text m' n', toJsonG L big true false indent pad eoe m n depth = .ok text ∧
      genNode L big false text none dest md = .ok (m', n') ∧ val m' n' = named big (val m n) ∧ Readable m' n' ∧
      Fresh md m' n' ∧ (∀ b ∈ Spec.blocks n', md.length ≤ b) ∧ Frame md m' (owned dest) := by
  obtain ⟨v, w, t, h1, h2, h3, h4, h5, h6⟩ := node_claim L big indent pad eoe hp he m n hr hpr hs ht depth
  obtain ⟨m1, a1, a2⟩ := reset_spec dest md hd
  obtain ⟨m2, n', b1, b2⟩ := h6 dest.releasedInfo 0 m1 (releasedInfo_clean hcl)
  have hl : m1.length = md.length := a2.1
  have hv : JV.parseDoc (jsonSanitize (w ++ t)) = some v := by
    have := parse_sane h3 h4 h5 h2 ws_nil
    simpa using this
  refine ⟨w ++ t, m2, n', h1, ?_, b2.val, b2.readable, ?_, ?_, a2.frame.trans b2.frame⟩
  · rw [genNode, a1, bind_ok, hv]
    exact b1
  · obtain ⟨f1, f2, f3⟩ := b2.fresh
    exact ⟨f1, f2, fun p hp => by have := f3 p hp; omega⟩
  · intro b hb
    rcases b2.blocks b hb with h | h
    · omega
    · exact h.elim

/-! ### where the claim fails -/

/-- A library in which every floating point number is NaN, printed as `nan`. -/
def nanLib : Lib := { someLib with text := fun _ => chars! "nan", strtod := fun s => if s = chars! "nan" then some 0x7ff8000000000000 else none }

/-- C63 is false for a scalar NaN: it is printed as the string "nan", which the reader refuses as the
    value of a number leaf; as an element of an array it is accepted. -/
theorem C63_scalar_nan_false :
    ∃ n : Node, ∃ m : Mem, ∃ text : Str, Readable m n ∧ Printable n.schema ∧
      toJsonG nanLib false true false 0 [] [] m n 0 = .ok text ∧ genNode nanLib false false text none new [] = .error ∧
      ∃ n2 : Node, Readable m n2 ∧ ∃ text2, toJsonG nanLib false true false 0 [] [] m n2 0 = .ok text2 ∧
        (genNode nanLib false false text2 none new []).map' (fun r => val r.1 r.2) = .ok (named false (val m n2)) := by
  refine ⟨.leaf ⟨some ⟨0, 0⟩, false⟩ ⟨.float64, 1, 0, 8, 8, .default⟩,
    [some [0, 0, 0, 0, 0, 0, 0xf8, 0x7f, 0, 0, 0, 0, 0, 0, 0xf8, 0x7f]],
    chars! "{\"dtype\":\"float64\",\"number_of_elements\": 1,\"offset\": 0,\"stride\": 8,\"element_bytes\": 8,\"endianness\": \"little\",\"value\": \"nan\"}",
    ?_, ?_, by decide +kernel, by decide +kernel, .leaf ⟨some ⟨0, 0⟩, false⟩ ⟨.float64, 2, 0, 8, 8, .default⟩, ?_,
    chars! "{\"dtype\":\"float64\",\"number_of_elements\": 2,\"offset\": 0,\"stride\": 8,\"element_bytes\": 8,\"endianness\": \"little\",\"value\": [\"nan\", \"nan\"]}",
    by decide +kernel, by decide +kernel⟩
  · simp only [Readable]; decide +kernel
  · simp [Node.schema, Printable, Index]
  · simp only [Readable]; decide +kernel

/-- C63 is false for a string with a backslash before an `n`: the text is unescaped twice. -/
theorem C63_backslash_false :
    ∃ n : Node, ∃ m : Mem, ∃ text : Str, Readable m n ∧ Printable n.schema ∧
      toJsonG someLib false true false 0 [] [] m n 0 = .ok text ∧
      ∃ m' n', genNode someLib false false text none new [] = .ok (m', n') ∧ val m' n' ≠ named false (val m n) ∧
        val m n = .leaf .char8Str .default [[some 0x5c], [some 0x6e], [some 0]] := by
  refine ⟨.leaf ⟨some ⟨0, 0⟩, false⟩ ⟨.char8Str, 3, 0, 1, 1, .default⟩, [some [0x5c, 0x6e, 0]],
    chars! "{\"dtype\":\"char8_str\",\"number_of_elements\": 3,\"offset\": 0,\"stride\": 1,\"element_bytes\": 1,\"endianness\": \"little\",\"value\": \"\\\\n\"}",
    ?_, ?_, by decide +kernel, ?_⟩
  · simp only [Readable]; decide +kernel
  · simp [Node.schema, Printable, Index]
  · exact ⟨[some [10, 0, 0]], .leaf ⟨some ⟨0, 0⟩, true⟩ ⟨.char8Str, 3, 0, 1, 1, .little⟩, by decide +kernel, by decide +kernel,
      by decide +kernel⟩

/-! ### a tree that meets the conditions -/

/-- A library that knows one number: the double 1.5, printed and read as "1.5". -/
def oneLib : Lib := { someLib with text := fun b => if b = 0x3ff8000000000000 then chars! "1.5" else chars! "0", double := fun v => if v = .real (chars! "1.5") then 0x3ff8000000000000 else 0 }

/-- strided big-endian integers, a string, a double and an empty leaf in a list -/
def textNode : Node := .obj {} [
  (chars! "a", .leaf ⟨some ⟨0, 0⟩, false⟩ ⟨.int16, 2, 1, 4, 2, .big⟩),
  (chars! "s", .leaf ⟨some ⟨1, 0⟩, true⟩ ⟨.char8Str, 4, 0, 1, 1, .default⟩),
  (chars! "l", .lst {} [.leaf ⟨some ⟨2, 0⟩, false⟩ ⟨.float64, 1, 0, 8, 8, .default⟩, .leaf {} {}])]

def textMem : Mem := [some [9, 1, 2, 9, 9, 0xff, 0xfe, 9], some [0x61, 0x22, 0x0a, 0], some [0, 0, 0, 0, 0, 0, 0xf8, 0x3f]]

def textVal : Val := .obj [(chars! "a", .leaf .int16 .big [[some 1, some 2], [some 0xff, some 0xfe]]),
    (chars! "s", .leaf .char8Str .default [[some 0x61], [some 0x22], [some 0x0a], [some 0]]),
    (chars! "l", .lst [.leaf .float64 .default [[some 0, some 0, some 0, some 0, some 0, some 0, some 0xf8, some 0x3f]], .leaf .empty .default []])]

example : val textMem textNode = textVal := by decide +kernel

example : Readable textMem textNode ∧ Printable textNode.schema ∧ DenseStrings textNode.schema ∧ TextSafe oneLib false (val textMem textNode) := by
  refine ⟨?_, ?_, ?_, ?_⟩
  · simp only [textNode, Readable, ReadableE, ReadableL]; decide +kernel
  · simp [textNode, Node.schema, schemaE, schemaL, Printable, PrintableE, PrintableL, Index, CleanName]
  · unfold DenseStrings; decide +kernel
  · rw [show val textMem textNode = textVal by decide +kernel]
    simp only [textVal, TextSafe, TextSafeE, TextSafeL]
    refine ⟨.inr ⟨[[1, 2], [0xff, 0xfe]], rfl, .inl (by decide)⟩,
      .inr ⟨[[0x61], [0x22], [0x0a], [0]], rfl, .inr (.inr ⟨rfl, [0x61, 0x22, 0x0a], rfl, by unfold StringOK; decide⟩)⟩,
      ⟨.inr ⟨[[0, 0, 0, 0, 0, 0, 0xf8, 0x3f]], rfl, .inr (.inl ⟨.inr rfl, ?_⟩)⟩, .inl trivial, trivial⟩, trivial⟩
    intro b hb
    obtain rfl := List.mem_singleton.1 hb
    refine .inl ⟨?_, by decide +kernel⟩
    rw [show floatText oneLib .float64 (pattern false [0, 0, 0, 0, 0, 0, 0xf8, 0x3f]) = chars! "1.5" by decide +kernel]
    exact ⟨[], chars! ".5", [], 1, by decide +kernel, .inl rfl, .inr ⟨['5'], by simp, by decide, rfl⟩, .inl rfl, .inl (by simp)⟩

/-- the text and what is read from it -/
example : toJsonG oneLib false true false 0 [] [] textMem textNode 0 = .ok (chars! "{\"a\": {\"dtype\":\"int16\",\"number_of_elements\": 2,\"offset\": 1,\"stride\": 4,\"element_bytes\": 2,\"endianness\": \"big\",\"value\": [513, -257]},\"s\": {\"dtype\":\"char8_str\",\"number_of_elements\": 4,\"offset\": 0,\"stride\": 1,\"element_bytes\": 1,\"endianness\": \"little\",\"value\": \"a\\\"\\n\"},\"l\": [{\"dtype\":\"float64\",\"number_of_elements\": 1,\"offset\": 0,\"stride\": 8,\"element_bytes\": 8,\"endianness\": \"little\",\"value\": 1.5},{\"dtype\":\"empty\",\"value\": null}]}") ∧
    (toJsonG oneLib false true false 0 [] [] textMem textNode 0 >>= fun t => (genNode oneLib false false t none new []).map' (fun r => val r.1 r.2)) =
      .ok (named false textVal) := by
  decide +kernel

end Conduit
