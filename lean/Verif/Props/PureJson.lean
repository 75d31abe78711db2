import Verif.Lemmas.PureJson2
import Verif.Props.NodeJson
/-
Property theorems C64: plain JSON (protocol json) in and out.
-/
namespace Conduit
open Spec Spec.Tree Schema Node Gen

/-- C64, reading: from every text of a JSON object or array, `Node::parse(text, "json")` makes the
    values the document stands for, in memory the new node owns, whatever the node held before.
    Hypotheses: no string ends in a backslash (`Tame`, the preprocessor's limit), no name twice in
    one object, no integer from 2^63 in an array of integers (`C64_big_array_false`). -/
theorem C64_read_json (L : Lib) (big : Bool) (v : JV) (t w w' : Str) (hw : WS w) (hw' : WS w') (ht : Rep v t) (htm : Tame v)
    (hc : Container v) (hok : PureOK v) (md : Mem) (dest : Node) (hd : GoodOwners md (owned dest)) (hcl : Clean dest) :
    ∃ m' n', genPure L big (w ++ (t ++ w')) dest md = .ok (m', n') ∧ val m' n' = pureVal L big v ∧ Readable m' n' ∧
      Fresh md m' n' ∧ (∀ b ∈ Spec.blocks n', md.length ≤ b) ∧ Frame md m' (owned dest) := by
  obtain ⟨m1, a1, a2⟩ := reset_spec dest md hd
  obtain ⟨m2, n', b1, b2⟩ := pure_claim L big v hok dest.releasedInfo m1 (releasedInfo_clean hcl)
  have hl : m1.length = md.length := a2.1
  refine ⟨m2, n', ?_, b2.val, b2.readable, ?_, ?_, a2.frame.trans b2.frame⟩
  · rw [genPure, a1, bind_ok, parse_sane ht htm hc hw hw']
    exact b1
  · obtain ⟨f1, f2, f3⟩ := b2.fresh
    exact ⟨f1, f2, fun p hp => by have := f3 p hp; omega⟩
  · intro b hb
    rcases b2.blocks b hb with h | h
    · omega
    · exact h.elim

/-- C64, there and back (partial): `to_json("json")` writes a text of the document of the node's value, and
    reading it gives what that document stands for.  Hypotheses on values and names as in
    `C63_detailed_json_partial`; the root's document is an object or array (`C64_root_null_false`).
    Missing: the values outside these conditions. -/
theorem C64_plain_json_partial (L : Lib) (big : Bool) (indent depth : Nat) (pad eoe : Str) (hp : WS pad) (he : WS eoe)
    (m md : Mem) (n dest : Node) (hr : Readable m n) (hpr : Printable n.schema) (hs : DenseStrings n.schema)
    (ht : TextSafe L big (val m n)) (hc : Container (docOf L big (val m n))) (hok : PureOK (docOf L big (val m n)))
    (hd : GoodOwners md (owned dest)) (hcl : Clean dest) :
    ∃ text m' n', toJsonG L big false false indent pad eoe m n depth = .ok text ∧
      genPure L big text dest md = .ok (m', n') ∧ val m' n' = pureVal L big (docOf L big (val m n)) ∧ Readable m' n' ∧
      Fresh md m' n' ∧ Frame md m' (owned dest) := by
  obtain ⟨w, t, h1, h2, h3, h4⟩ := plain_claim L big indent pad eoe hp he m n hr hpr hs ht depth
  obtain ⟨m', n', g1, g2, g3, g4, -, g6⟩ := C64_read_json L big _ t w [] h2 ws_nil h3 h4 hc hok md dest hd hcl
  exact ⟨w ++ t, m', n', h1, by simpa using g1, g2, g3, g4, g6⟩

theorem allOf_ints (L : Lib) (big : Bool) {id : TypeId} (h : id.intTy.isSome) : ∀ es : List (List (Option UInt8)),
    allOf intOf (es.map (elemDoc L big id)) = some (es.map (fun b => intValue (isSigned id) id.bytes (pattern big (b.map (·.getD 0)))))
  | [] => rfl
  | b :: es => by
    have hn : ¬ (id = .float32 ∨ id = .float64) := by rintro (rfl | rfl) <;> cases h
    have hb : elemDoc L big id b = .int (intValue (isSigned id) id.bytes (pattern big (b.map (·.getD 0)))) := by
      unfold elemDoc; simp only; rw [if_neg hn]
    rw [List.map_cons, allOf, allOf_ints L big h es, hb]
    rfl

mutual
theorem wide_of (L : Lib) (big : Bool) : ∀ v : Val, IntTree big v → pureVal L big (docOf L big v) = wide big v
  | .leaf id e es, h => by
    obtain ⟨h1, h2, h3⟩ := h
    have hn : ¬ (id = .float32 ∨ id = .float64) := by rintro (rfl | rfl) <;> cases h1
    have hem : id ≠ .empty := by rintro rfl; cases h1
    have hch : id ≠ .char8Str := by rintro rfl; cases h1
    unfold docOf leafDoc
    rw [if_neg hem, if_neg hch]
    match es, h2, h3 with
    | [b], _, h3 =>
      simp only
      have := h3 b (by simp)
      unfold elemDoc
      simp only
      rw [if_neg hn, pureVal, if_pos this]
      rfl
    | a :: b :: es, _, _ =>
      have := allOf_ints L big h1 (a :: b :: es)
      simp only
      rw [pureVal, this]
      simp [wide]
  | .obj es, h => by
    rw [docOf, pureVal, wide, wide_ofE L big es h]
  | .lst cs, h => absurd h id
theorem wide_ofE (L : Lib) (big : Bool) : ∀ es : List (Str × Val), IntTreeE big es → pureValM L big (docOfE L big es) = wideE big es
  | [], _ => rfl
  | (n, c) :: es, h => by
    rw [docOfE, pureValM, wideE, wide_of L big c h.1, wide_ofE L big es h.2]
end

theorem all_some {es : List (List (Option UInt8))} (h : ∀ e ∈ es, ∀ b ∈ e, b.isSome) :
    ∃ bs : List (List UInt8), es = bs.map (fun b => b.map some) := by
  refine ⟨es.map (fun e => e.map (·.getD 0)), ?_⟩
  rw [List.map_map]
  conv => lhs; rw [← List.map_id es]
  refine List.map_congr_left (fun e he => ?_)
  simp only [Function.comp_apply, id_eq, List.map_map]
  conv => lhs; rw [← List.map_id e]
  refine List.map_congr_left (fun b hb => ?_)
  obtain ⟨y, rfl⟩ := Option.isSome_iff_exists.1 (h e he b hb)
  rfl

mutual
theorem intTree_safe (L : Lib) (big : Bool) (m : Mem) : ∀ n : Node, Readable m n → Printable n.schema → IntTree big (val m n) →
    TextSafe L big (val m n) ∧ DenseStrings n.schema ∧ PureOK (docOf L big (val m n))
  | .leaf x d, hr, _, hi => by
    by_cases hem : d.id = .empty
    · simp only [val, hem, if_true] at hi
      exact absurd hi.1 (by decide)
    · have hval : val m (.leaf x d) = .leaf d.id d.endian (elems m x.data d) := by simp [val, hem]
      rw [hval] at hi ⊢
      obtain ⟨h1, h2, h3⟩ := hi
      obtain ⟨bs, hbs⟩ := all_some (hr.2.2.2 hem)
      refine ⟨.inr ⟨bs, hbs, .inl h1⟩, ?_, ?_⟩
      · intro d' hd hid
        have : d' = d := by simpa [Node.schema, leaves] using hd
        subst this
        rw [hid] at h1; cases h1
      · have hn : ¬ (d.id = .float32 ∨ d.id = .float64) := by rintro (h | h) <;> rw [h] at h1 <;> cases h1
        have hch : d.id ≠ .char8Str := by intro h; rw [h] at h1; cases h1
        have he : ∀ b, elemDoc L big d.id b = .int (intValue (isSigned d.id) d.id.bytes (pattern big (b.map (·.getD 0)))) := by
          intro b; unfold elemDoc; simp only; rw [if_neg hn]
        have hall := allOf_ints L big h1 (elems m x.data d)
        unfold docOf leafDoc
        rw [if_neg hem, if_neg hch]
        split
        · rw [he]; exact trivial
        · refine ⟨?_, ?_⟩
          · intro is his i hi
            rw [hall] at his
            cases his
            obtain ⟨b, hb, rfl⟩ := List.mem_map.1 hi
            exact h3 b hb
          · have : ∀ es : List (List (Option UInt8)), PureOKL (es.map (elemDoc L big d.id)) := by
              intro es
              induction es with
              | nil => exact trivial
              | cons b es ih => rw [List.map_cons, he]; exact ⟨trivial, ih⟩
            exact this _
  | .obj x es, hr, hp, hi => by
    have hpr' : ((schemaE es).map (·.1)).Nodup ∧ PrintableE (schemaE es) := hp
    obtain ⟨h1, h2, h3, h4⟩ := intTree_safeE L big m es hr hpr'.2 hi
    refine ⟨h1, fun d hd => h2 d (by simpa [Node.schema, leaves] using hd), ?_, h3⟩
    have : (docOfE L big (valE m es)).map (·.1) = (schemaE es).map (·.1) := h4
    rw [this]; exact hpr'.1
  | .lst x cs, _, _, hi => absurd hi id
theorem intTree_safeE (L : Lib) (big : Bool) (m : Mem) : ∀ es : List (Str × Node), ReadableE m es → PrintableE (schemaE es) →
    IntTreeE big (valE m es) → TextSafeE L big (valE m es) ∧
      (∀ d ∈ leavesE (schemaE es), d.id = .char8Str → d.stride = 1 ∨ d.n ≤ 1) ∧ PureOKM (docOfE L big (valE m es)) ∧
      (docOfE L big (valE m es)).map (·.1) = (schemaE es).map (·.1)
  | [], _, _, _ => ⟨trivial, by simp [schemaE, leavesE], trivial, rfl⟩
  | (n, c) :: es, hr, hp, hi => by
    obtain ⟨h1, h2, h3⟩ := intTree_safe L big m c hr.1 hp.2.2.1 hi.1
    obtain ⟨g1, g2, g3, g4⟩ := intTree_safeE L big m es hr.2 hp.2.2.2 hi.2
    refine ⟨⟨h1, g1⟩, ?_, ⟨h3, g3⟩, by simp [valE, docOfE, schemaE, g4]⟩
    intro d hd
    simp only [schemaE, leavesE, List.mem_append] at hd
    rcases hd with hd | hd
    · exact h2 d hd
    · exact g2 d hd
end

/-- C64, integers: an object tree of integer leaves (at least one element each, every integer below
    2^63) comes back with the same integers, as int64. -/
theorem C64_integers_kept (L : Lib) (big : Bool) (indent depth : Nat) (pad eoe : Str) (hp : WS pad) (he : WS eoe)
    (m md : Mem) (x : Info) (es : List (Str × Node)) (dest : Node) (hr : Readable m (.obj x es)) (hpr : Printable (Node.obj x es).schema)
    (hi : IntTree big (val m (.obj x es))) (hd : GoodOwners md (owned dest)) (hcl : Clean dest) :
    ∃ text m' n', toJsonG L big false false indent pad eoe m (.obj x es) depth = .ok text ∧
      genPure L big text dest md = .ok (m', n') ∧ val m' n' = wide big (val m (.obj x es)) ∧ Readable m' n' ∧
      Fresh md m' n' ∧ Frame md m' (owned dest) := by
  obtain ⟨h1, h2, h3⟩ := intTree_safe L big m (.obj x es) hr hpr hi
  have := C64_plain_json_partial L big indent depth pad eoe hp he m md (.obj x es) dest hr hpr h2 h1 trivial h3 hd hcl
  rwa [wide_of L big _ hi] at this

/-! ### where the claim fails -/

/-- An empty node is written as `null`, which cannot be read: the preprocessor keeps only the
    first letter of a word that ends the text. -/
theorem C64_root_null_false :
    toJsonG someLib false false false 2 [' '] ['\n'] [] new 0 = .ok (chars! "null") ∧
      genPure someLib false (chars! "null") new [] = .error := by decide +kernel

/-- An array with an integer from 2^63 fails a library assertion, although one such integer alone is
    read as uint64. -/
theorem C64_big_array_false :
    genPure someLib false (chars! "{\"a\": [1, 9223372036854775808]}") new [] = .ub ∧
      (genPure someLib false (chars! "{\"a\": 9223372036854775808}") new []).map' (fun r => val r.1 r.2) =
        .ok (.obj [(chars! "a", .leaf .uint64 .default [word false (2 ^ 63)])]) := by decide +kernel

/-- Types are not kept: a list of strings that look like numbers comes back as one float64 array. -/
theorem C64_numeric_strings_false :
    ∃ n : Node, ∃ m : Mem, ∃ text : Str, val m n = .lst [.leaf .char8Str .default [[some 0x31], [some 0]], .leaf .char8Str .default [[some 0x32], [some 0]]] ∧
      toJsonG nanLib false false false 0 [] [] m n 0 = .ok text ∧
      ∃ L : Lib, (genPure L false text new []).map' (fun r => val r.1 r.2) = .ok (.leaf .float64 .default [word false 1, word false 2]) := by
  refine ⟨.lst {} [.leaf ⟨some ⟨0, 0⟩, false⟩ ⟨.char8Str, 2, 0, 1, 1, .default⟩, .leaf ⟨some ⟨1, 0⟩, false⟩ ⟨.char8Str, 2, 0, 1, 1, .default⟩],
    [some [0x31, 0], some [0x32, 0]], chars! "[\"1\",\"2\"]", by decide +kernel, by decide +kernel,
    { someLib with strtod := fun s => if s = chars! "1" then some 1 else if s = chars! "2" then some 2 else none }, by decide +kernel⟩

/-! ### a document and a tree that meet the conditions -/

/-- every kind of value in one document -/
def pureDoc : JV := .obj [(chars! "i", .int (-5)), (chars! "u", .int (2 ^ 63)), (chars! "b", .bool true), (chars! "z", .null),
  (chars! "s", .str (chars! "ab")), (chars! "is", .arr [.int 1, .int (-1)]), (chars! "fs", .arr [.int 1, .real (chars! "1.5")]),
  (chars! "e", .arr []), (chars! "l", .arr [.int 1, .str (chars! "x")]), (chars! "o", .obj [])]

def pureText : Str := chars! "{\"i\": -5, \"u\":9223372036854775808,\"b\":true,\"z\":null,\"s\":\"ab\",\"is\":[1,-1],\"fs\":[1,1.5],\"e\":[],\"l\":[1,\"x\"],\"o\":{}}"

example : JV.parseDoc (jsonSanitize pureText) = some pureDoc := by decide +kernel

example : Tame pureDoc ∧ Container pureDoc ∧ PureOK pureDoc := by
  refine ⟨?_, trivial, ?_⟩
  · simp [pureDoc, Tame, TameM, TameL]
  · simp [pureDoc, PureOK, PureOKM, PureOKL, allOf, intOf]

example : (genPure oneLib false pureText new []).map' (fun r => val r.1 r.2) = .ok (pureVal oneLib false pureDoc) ∧
    pureVal oneLib false pureDoc = .obj [(chars! "i", .leaf .int64 .default [word false (-5)]), (chars! "u", .leaf .uint64 .default [word false (2 ^ 63)]),
      (chars! "b", .leaf .uint8 .default [[some 1]]), (chars! "z", .leaf .empty .default []),
      (chars! "s", .leaf .char8Str .default [[some 0x61], [some 0x62], [some 0]]), (chars! "is", .leaf .int64 .default [word false 1, word false (-1)]),
      (chars! "fs", .leaf .float64 .default [word false 0, word false 0x3ff8000000000000]), (chars! "e", .lst []),
      (chars! "l", .lst [.leaf .int64 .default [word false 1], .leaf .char8Str .default [[some 0x78], [some 0]]]), (chars! "o", .obj [])] := by
  decide +kernel

/-- integers of two types, strided -/
def intNode : Node := .obj {} [(chars! "a", .leaf ⟨some ⟨0, 0⟩, false⟩ ⟨.int16, 2, 1, 4, 2, .big⟩),
  (chars! "o", .obj {} [(chars! "u", .leaf ⟨some ⟨0, 0⟩, false⟩ ⟨.uint8, 1, 5, 1, 1, .default⟩)])]

example : Readable textMem intNode ∧ Printable intNode.schema ∧ IntTree false (val textMem intNode) := by
  refine ⟨?_, ?_, ?_⟩
  · simp only [intNode, Readable, ReadableE]; decide +kernel
  · simp [intNode, Node.schema, schemaE, Printable, PrintableE, Index, CleanName]
  · simp only [intNode, val, valE, IntTree, IntTreeE, if_neg (show ¬ TypeId.int16 = .empty by decide), if_neg (show ¬ TypeId.uint8 = .empty by decide)]
    decide +kernel

example : (toJsonG oneLib false false false 0 [] [] textMem intNode 0 >>= fun t => (genPure oneLib false t new []).map' (fun r => val r.1 r.2)) =
    .ok (.obj [(chars! "a", .leaf .int64 .default [word false 513, word false (-257)]), (chars! "o", .obj [(chars! "u", .leaf .int64 .default [word false 255])])]) := by
  decide +kernel

end Conduit
