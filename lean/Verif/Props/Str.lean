import Verif.Lemmas.Str
import Verif.Lemmas.Sanitize
/-
Property theorems C01 (paths), C02 (escaping), C03 (string leaves through JSON),
C04 (json_sanitize), C57 (drive-letter file paths).
-/
namespace Conduit
open Spec

/-! ## C01 paths -/

/-- C01: `split_path` cuts at the first slash and loses nothing else. -/
theorem C01_split_path (p curr next : Str) (h : splitPath p = (curr, next)) :
    ('/' ∉ p → curr = p ∧ next = []) ∧
    ('/' ∈ p → p = curr ++ '/' :: next ∧ '/' ∉ curr) := by
  unfold splitPath at h
  constructor
  · intro hn; rw [splitString_not_mem hn] at h; simp at h; exact ⟨h.1.symm, h.2⟩
  · intro hm
    obtain ⟨a, b, rfl, ha⟩ := exists_first hm
    rw [splitString_append ha] at h; simp at h
    obtain ⟨rfl, rfl⟩ := h; exact ⟨rfl, ha⟩

example : splitPath "a/b/c".toList = ("a".toList, "b/c".toList) ∧ '/' ∈ "a/b/c".toList := by decide

/-- C01: `rsplit_path` cuts at the last slash and loses nothing else. -/
theorem C01_rsplit_path (p curr next : Str) (h : rsplitPath p = (curr, next)) :
    ('/' ∉ p → curr = p ∧ next = []) ∧
    ('/' ∈ p → p = next ++ '/' :: curr ∧ '/' ∉ curr) := by
  unfold rsplitPath at h
  constructor
  · intro hn; rw [rsplitString_not_mem hn] at h; simp at h; exact ⟨h.1.symm, h.2⟩
  · intro hm
    obtain ⟨a, b, rfl, ha⟩ := exists_last hm
    rw [rsplitString_append ha] at h; simp at h
    obtain ⟨rfl, rfl⟩ := h; exact ⟨rfl, ha⟩

example : rsplitPath "a/b/c".toList = ("c".toList, "a/b".toList) := by decide

/-- C01: joining the two parts of a split path gives the path back. -/
theorem C01_join_split (p curr next : Str) (h : splitPath p = (curr, next))
    (hc : curr ≠ []) (hn : next ≠ []) : joinPath curr next = p := by
  have := C01_split_path p curr next h
  by_cases hm : '/' ∈ p
  · obtain ⟨h1, h2⟩ := this.2 hm
    have hl : curr.getLast? ≠ some '/' := fun hx => h2 (List.mem_of_getLast? hx)
    have hc' : 0 < curr.length := List.length_pos_iff.mpr hc
    have hn' : 0 < next.length := List.length_pos_iff.mpr hn
    simp [joinPath, hl, hc', hn', h1]
  · exact absurd (this.1 hm).2 hn

example : splitPath "a/b".toList = ("a".toList, "b".toList) ∧ "a".toList ≠ [] ∧ "b".toList ≠ [] := by decide

/-- C01: splitting a joined path gives the parts back. -/
theorem C01_split_join (l r : Str) (hl : l ≠ []) (hs : '/' ∉ l) :
    splitPath (joinPath l r) = (l, r) := by
  have hl' : 0 < l.length := List.length_pos_iff.mpr hl
  have hg : l.getLast? ≠ some '/' := fun hx => hs (List.mem_of_getLast? hx)
  by_cases hr : r = []
  · subst hr; simp [joinPath, splitPath, splitString_not_mem hs]
  · have hr' : 0 < r.length := List.length_pos_iff.mpr hr
    simp [joinPath, hg, hl', hr', splitPath, splitString_append hs]

example : "mesh".toList ≠ [] ∧ '/' ∉ "mesh".toList := by decide

/-- C01: `rsplit_path` undoes `join_path` when the right part has no slash. -/
theorem C01_rsplit_join (l r : Str) (hl : l ≠ []) (hr : r ≠ []) (hs : '/' ∉ r)
    (he : l.getLast? ≠ some '/') : rsplitPath (joinPath l r) = (r, l) := by
  have hl' : 0 < l.length := List.length_pos_iff.mpr hl
  have hr' : 0 < r.length := List.length_pos_iff.mpr hr
  simp [joinPath, he, hl', hr', rsplitPath, rsplitString_append hs]

example : "a/b".toList ≠ [] ∧ "c".toList ≠ [] ∧ '/' ∉ "c".toList ∧ "a/b".toList.getLast? ≠ some '/' := by
  decide

/-- C01: `join_path` is associative, so a path does not depend on how it is built up. -/
theorem C01_join_assoc (a b c : Str) : joinPath (joinPath a b) c = joinPath a (joinPath b c) := by
  cases b with
  | nil => simp [joinPath]
  | cons y ys =>
    have key : ∀ w : Str, joinPath (w ++ y :: ys) c = w ++ joinPath (y :: ys) c := by
      intro w
      have h1 : (w ++ y :: ys).getLast? = (y :: ys).getLast? := by
        rw [List.getLast?_append]; cases h : (y :: ys).getLast? with
        | none => simp at h
        | some z => rfl
      unfold joinPath; rw [h1]
      by_cases h2 : (y :: ys).getLast? ≠ some '/' ∧ c.length > 0
      · rw [if_pos ⟨by simp; omega, h2⟩, if_pos ⟨by simp, h2⟩]; simp
      · rw [if_neg (fun h => h2 h.2), if_neg (fun h => h2 h.2)]; simp
    have key2 : ∃ w : Str, ∀ z : Str, joinPath a (y :: (ys ++ z)) = w ++ y :: (ys ++ z) := by
      by_cases h : a.length > 0 ∧ a.getLast? ≠ some '/'
      · exact ⟨a ++ ['/'], fun z => by unfold joinPath; rw [if_pos ⟨h.1, h.2, by simp⟩]⟩
      · exact ⟨a, fun z => by unfold joinPath; rw [if_neg (fun g => h ⟨g.1, g.2.1⟩)]⟩
    have key3 : ∃ z : Str, joinPath (y :: ys) c = y :: (ys ++ z) := by
      unfold joinPath; split
      · exact ⟨['/'] ++ c, by simp⟩
      · exact ⟨c, by simp⟩
    obtain ⟨w, hw⟩ := key2
    obtain ⟨z, hz⟩ := key3
    have h0 := hw []
    simp only [List.append_nil] at h0
    rw [h0, key, hz, hw z]

example : joinPath (joinPath "a".toList "b/".toList) "c".toList = "a/b/c".toList := by decide

/-- C01: the vector form of `split_string` returns the non-empty segments, in
    order (of the text before a NUL, since the code scans a C string). -/
theorem C01_split_vector (s : Str) (sep : Char) :
    splitVec s sep = (segments sep (s.takeWhile (· ≠ '\x00'))).filter (· ≠ []) := by
  have key : ∀ (s acc : Str), splitVecLoop sep acc s =
      ((acc.reverse ++ (segments sep (s.takeWhile (· ≠ '\x00'))).headD []) ::
        (segments sep (s.takeWhile (· ≠ '\x00'))).tail).filter (· ≠ []) := by
    intro s
    induction s with
    | nil => intro acc; by_cases h : acc = [] <;> simp [splitVecLoop, segments, h, List.length_pos_iff]
    | cons c cs ih =>
      intro acc
      by_cases h0 : c = '\x00'
      · subst h0
        by_cases h : acc = [] <;> simp [splitVecLoop, segments, h, List.length_pos_iff]
      · have htw : (List.takeWhile (fun x => decide (x ≠ '\x00')) (c :: cs)) =
              c :: List.takeWhile (fun x => decide (x ≠ '\x00')) cs := by simp [h0]
        rw [htw]
        obtain ⟨y, ys, hy⟩ := segments_cons sep (List.takeWhile (fun x => decide (x ≠ '\x00')) cs)
        by_cases hc : c = sep
        · subst hc
          simp only [splitVecLoop, h0, if_false, if_true, ih []]
          rw [segments, if_pos rfl, hy]
          by_cases h : acc = [] <;> simp [h, List.length_pos_iff, List.filter_cons]
        · simp only [splitVecLoop, h0, if_false, hc, ih (c :: acc)]
          rw [segments, if_neg hc, hy]; simp
  unfold splitVec; rw [key s []]
  obtain ⟨y, ys, hy⟩ := segments_cons sep (List.takeWhile (fun x => decide (x ≠ '\x00')) s)
  rw [hy]; simp

example : splitVec "a//b/".toList '/' = ["a".toList, "b".toList] := by decide

/-- C01: `trim_string` removes exactly the longest prefix and suffix of trimmed characters. -/
theorem C01_trim (s chars : Str) :
    ∃ a b, s = a ++ trimString s chars ++ b ∧ (∀ c ∈ a, c ∈ chars) ∧ (∀ c ∈ b, c ∈ chars) ∧
      (∀ c, (trimString s chars).head? = some c → c ∉ chars) ∧
      (∀ c, (trimString s chars).getLast? = some c → c ∉ chars) := by
  have hL : ∀ l : Str, ∀ c, (l.dropWhile (fun c => chars.contains c)).head? = some c → c ∉ chars := by
    intro l c h
    induction l with
    | nil => simp at h
    | cons x l ih =>
      rw [List.dropWhile_cons] at h
      split at h
      · exact ih h
      · rename_i hx; simp at h; subst h; simpa using hx
  have hT : ∀ l : Str, ∀ c ∈ l.takeWhile (fun c => chars.contains c), c ∈ chars := by
    intro l
    induction l with
    | nil => simp
    | cons x l ih =>
      intro c h
      rw [List.takeWhile_cons] at h
      split at h
      · rename_i hx
        rcases List.mem_cons.mp h with rfl | h
        · simpa using hx
        · exact ih c h
      · simp at h
  let l := s.dropWhile (fun c => chars.contains c)
  let r := l.reverse.dropWhile (fun c => chars.contains c)
  refine ⟨s.takeWhile (fun c => chars.contains c),
    (l.reverse.takeWhile (fun c => chars.contains c)).reverse, ?_, hT s, ?_, ?_, ?_⟩
  · show s = _ ++ r.reverse ++ _
    rw [List.append_assoc, ← List.reverse_append, List.takeWhile_append_dropWhile,
      List.reverse_reverse, List.takeWhile_append_dropWhile]
  · intro c hc; exact hT _ c (by simpa using hc)
  · intro c hc
    have hc' : r.reverse.head? = some c := hc
    -- the head of the result is the head of `l`
    have : l = r.reverse ++ (l.reverse.takeWhile (fun c => chars.contains c)).reverse := by
      rw [← List.reverse_append, List.takeWhile_append_dropWhile, List.reverse_reverse]
    have hl : l.head? = some c := by rw [this, List.head?_append, hc']; rfl
    exact hL s c hl
  · intro c hc
    have hc' : r.reverse.getLast? = some c := hc
    rw [List.getLast?_reverse] at hc'
    exact hL _ c hc'

/-! ## C57 file paths with drive letters -/

/-- C57: forward split at a separator: nothing is lost, with or without a drive
    letter (and the drive letter's colon is never a split point). -/
theorem C57_split_file_path (p curr next : Str) (sep : Char)
    (h : splitFilePath p sep = (curr, next)) :
    p = curr ∨ p = curr ++ sep :: next := by
  have key : ∀ q a b, splitString q sep = (a, b) → q = a ∨ q = a ++ sep :: b := by
    intro q a b h
    by_cases hm : sep ∈ q
    · obtain ⟨x, y, rfl, hx⟩ := exists_first hm
      rw [splitString_append hx] at h; simp at h; right; rw [h.1, h.2]
    · rw [splitString_not_mem hm] at h; simp at h; left; exact h.1
  unfold splitFilePath at h
  split at h
  · split at h
    · simp only [Prod.mk.injEq] at h
      obtain ⟨h1, h2⟩ := h
      have h3 := key (p.drop 3) (splitString (p.drop 3) sep).1 (splitString (p.drop 3) sep).2 rfl
      have h4 : p = p.take 3 ++ p.drop 3 := (List.take_append_drop 3 p).symm
      rcases h3 with h3 | h3
      · left; rw [← h1, ← h3]; exact h4
      · right; rw [← h1, ← h2, List.append_assoc, ← h3]; exact h4
    · simp at h; left; exact h.1
  · exact key p _ _ h

/-- C57 (false in general): `rsplit_file_path` drops a separator that directly
    follows a drive letter. -/
theorem C57_rsplit_file_path_false :
    ¬ ∀ (p curr next : Str) (sep : Char), rsplitFilePath p sep = (curr, next) →
      p = curr ∨ p = next ++ sep :: curr := by
  intro h
  have := h "C:\\:a".toList "C:\\a".toList [] ':' (by decide)
  revert this; decide

/-- C57: `rsplit_file_path` loses nothing unless a separator directly follows
    the drive letter. -/
theorem C57_rsplit_file_path_partial (p curr next : Str) (sep : Char)
    (h : rsplitFilePath p sep = (curr, next))
    (hd : isDrive p sep = true → (p.drop 3).head? ≠ some sep) :
    p = curr ∨ p = next ++ sep :: curr := by
  have key : ∀ q a b, rsplitString q sep = (a, b) → (q = a ∧ b = []) ∨ q = b ++ sep :: a := by
    intro q a b h
    by_cases hm : sep ∈ q
    · obtain ⟨x, y, rfl, hx⟩ := exists_last hm
      rw [rsplitString_append hx] at h; simp at h; right; rw [h.1, h.2]
    · rw [rsplitString_not_mem hm] at h; simp at h; left; exact ⟨h.1, h.2⟩
  unfold rsplitFilePath at h
  split at h
  · rename_i hdr
    split at h
    · have h4 : p = p.take 3 ++ p.drop 3 := (List.take_append_drop 3 p).symm
      obtain ⟨x, y, hxy⟩ : ∃ x y, rsplitString (p.drop 3) sep = (x, y) := ⟨_, _, rfl⟩
      rw [hxy] at h
      simp only at h
      rcases key _ _ _ hxy with ⟨h3, h5⟩ | h3
      · subst h5; simp at h; left; rw [← h.1, ← h3]; exact h4
      · split at h
        · rename_i hy; subst hy
          have := hd hdr; rw [h3] at this; simp at this
        · simp at h; right; rw [← h.1, ← h.2, List.append_assoc, ← h3]; exact h4
    · simp at h; left; exact h.1
  · rcases key p _ _ h with ⟨h1, _⟩ | h1
    · left; exact h1
    · right; exact h1

example : rsplitFilePath "C:\\x.root:mesh".toList ':' = ("mesh".toList, "C:\\x.root".toList) ∧
    ((("C:\\x.root:mesh".toList).drop 3).head? ≠ some ':') := by decide

/-! ## C02 escaping -/

/-- C02: unescaping an escaped string gives the string back. -/
theorem C02_unescape_escape (s : Str) : unescape (escape s) = s := unescape_escape s

/-- C02: the escaped text has no raw newline, tab, backspace, formfeed or carriage return. -/
theorem C02_no_raw_control (s : Str) :
    ∀ c ∈ escape s, c ∉ ['\n', '\t', '\x08', '\x0c', '\r'] := by
  intro c hc
  unfold escape at hc
  rw [List.mem_flatMap] at hc
  obtain ⟨d, _, hd⟩ := hc
  unfold escapeChar at hd
  split at hd
  · rename_i h; simp at hd; rcases hd with rfl | rfl
    · decide
    · rcases h with rfl | rfl <;> decide
  · repeat' split at hd
    all_goals simp at hd
    all_goals (first | (rcases hd with rfl | rfl <;> decide) | (subst hd; simp [*]))

/-- C02: every double quote of the escaped text is escaped: it is preceded by an
    odd number of consecutive backslashes. -/
theorem C02_quotes_escaped (s a b : Str) (h : escape s = a ++ '"' :: b) :
    (a.reverse.takeWhile (· = '\\')).length % 2 = 1 := by
  have key : ∀ (s pre a b : Str), (pre.reverse.takeWhile (· = '\\')).length % 2 = 0 →
      pre ++ escape s = a ++ '"' :: b → pre.length ≤ a.length →
      (a.reverse.takeWhile (· = '\\')).length % 2 = 1 := by
    intro s
    induction s with
    | nil =>
      intro pre a b _ h hlen
      have := congrArg List.length h
      simp [escape] at this; omega
    | cons c s ih =>
      intro pre a b hpre h hlen
      rw [escape_cons] at h
      rcases escapeChar_cases c with ⟨v, hv, -, -⟩ | ⟨hv, hq, hb, -⟩
      · rw [hv] at h
        by_cases h2 : a.length = pre.length
        · have := List.append_inj h (h2.symm); simp at this
        · by_cases h3 : a.length = pre.length + 1
          · have h' : (pre ++ ['\\']) ++ (v :: escape s) = a ++ '"' :: b := by simpa using h
            have hh := List.append_inj h' (by simp [h3])
            rw [← hh.1]; simp [hpre, Nat.add_mod]
          · refine ih (pre ++ ['\\', v]) a b ?_ (by simpa using h) (by simp; omega)
            by_cases hvb : v = '\\'
            · subst hvb; simp; omega
            · simp [hvb]
      · rw [hv] at h
        by_cases h2 : a.length = pre.length
        · have hh := List.append_inj h (h2.symm); simp at hh; exact absurd hh.2.1 hq
        · refine ih (pre ++ [c]) a b ?_ (by simpa using h) (by simp; omega)
          simp [hb]
  exact key s [] a b (by simp) (by simpa using h) (by simp)

example : escape "a\"".toList = "a\\".toList ++ '"' :: [] := by decide

/-! ## C03 string leaves through JSON -/

/-- the characters a JSON string may hold after conduit's escaping -/
def JsonSafe (s : Str) : Prop :=
  ∀ c ∈ s, 0x20 ≤ c.toNat ∨ c ∈ ['\n', '\t', '\x08', '\x0c', '\r']

/-- C03, `json` protocol at literal level: a written string literal is read back
    exactly when the string holds no control character other than the five
    that conduit escapes. -/
theorem C03_json_literal (s rest : Str) :
    readLitJson (jsonLit s ++ rest) = some (s, rest) ↔ JsonSafe s := by
  have e : readLitJson (jsonLit s ++ rest) = rjString (escape s ++ '"' :: rest) := by
    simp [jsonLit, readLitJson]
  rw [e]
  constructor
  · intro h c hc
    by_cases h1 : 0x20 ≤ c.toNat
    · exact Or.inl h1
    · by_cases h2 : c ∈ ['\n', '\t', '\x08', '\x0c', '\r']
      · exact Or.inr h2
      · rw [rjString_ctrl s rest c hc (by omega) h2] at h; simp at h
  · exact rjString_escape s rest

/-- C03 is false of the `json` protocol for other control characters. -/
theorem C03_json_literal_false : ¬ ∀ s rest : Str, readLitJson (jsonLit s ++ rest) = some (s, rest) := by
  intro h
  have := (C03_json_literal ['\x01'] []).1 (h _ _)
  revert this; unfold JsonSafe; decide

/-- C03, `conduit_json` protocol at literal level: the string comes back exactly
    when it has no backslash before its last character. -/
theorem C03_conduit_json_literal (s rest : Str) (hs : JsonSafe s) :
    readLitConduitJson (jsonLit s ++ rest) = some (s, rest) ↔ '\\' ∉ s.dropLast := by
  unfold readLitConduitJson
  rw [(C03_json_literal s rest).2 hs]
  simp [unescape_eq_self_iff]

example : JsonSafe "two\nlines".toList ∧ '\\' ∉ "two\nlines".toList.dropLast := by
  unfold JsonSafe; decide

/-- C03 is false of `conduit_json`: the two characters `\n` come back as a newline. -/
theorem C03_conduit_json_false :
    ¬ ∀ s rest : Str, JsonSafe s → readLitConduitJson (jsonLit s ++ rest) = some (s, rest) := by
  intro h
  have := (C03_conduit_json_literal "\\n".toList [] (by unfold JsonSafe; decide)).1
    (h _ _ (by unfold JsonSafe; decide))
  revert this; decide

/-! ## C04 json_sanitize -/

/-- C04 (partial): `json_sanitize` turns a document of conduit's relaxed syntax into
    JSON by quoting the bare words and dropping the comments, and changes nothing
    else.  `DocOK` excludes a string literal at the very start of the text, a
    literal whose value ends in a backslash, a word at the very start or end, and a
    comment containing a quote. -/
theorem C04_sanitize_relaxed_partial (ps : List Piece) (h : DocOK none ps) :
    jsonSanitize (render ps) = renderJson ps := by
  have := sanLoop_doc ps none [] (by decide) h
  simpa [jsonSanitize] using this

/-- C04 (partial): `json_sanitize` returns a well formed JSON document unchanged. -/
theorem C04_sanitize_identity_partial (ps : List Piece) (h : DocOK none ps) (hs : ∀ p ∈ ps, p.standard = true) :
    jsonSanitize (render ps) = render ps := by
  rw [C04_sanitize_relaxed_partial ps h]
  unfold renderJson render
  rw [List.flatMap_def, List.flatMap_def]
  congr 1
  apply List.map_congr_left
  intro p hp
  have := hs p hp
  cases p <;> simp_all [Piece.standard, Piece.json]

/-- A relaxed document meeting the hypotheses:
    `{ // note` newline `dtype:float64, "n" : 3}`. -/
def relaxedDoc : List Piece :=
  [.sym '{', .sym ' ', .comment " note: it's /here/".toList, .ident "dtype".toList, .sym ':', .ident "float64".toList, .sym ',',
   .lit "n".toList, .sym ':', .sym '3', .sym '}']

example : DocOK none relaxedDoc := by
  have v1 : ValidBody "n".toList := ⟨"n".toList, by decide⟩
  simp [relaxedDoc, DocOK, checkWordChar, checkNumChar]
  refine ⟨⟨_, _, ⟨rfl, rfl⟩, by decide, by decide⟩, ⟨_, _, ⟨rfl, rfl⟩, by decide, by decide⟩, v1⟩

/-- C04 is false: quotes in a comment make part of the comment appear in the result. -/
theorem C04_comment_quote_false :
    jsonSanitize "{//say \"hi\" \n}".toList = "{\"hi}".toList := by decide

/-- A document meeting the hypotheses: `{"a":[1.5e3,true,"x\"y"]}`. -/
def sampleDoc : List Piece :=
  [.sym '{', .lit "a".toList, .sym ':', .sym '[', .sym '1', .sym '.', .sym '5', .sym 'e', .sym '3',
   .sym ',', .kw "true".toList, .sym ',', .lit "x\\\"y".toList, .sym ']', .sym '}']

example : ∀ p ∈ sampleDoc, p.standard = true := by simp [sampleDoc, Piece.standard]
example : DocOK none sampleDoc := by
  have v1 : ValidBody "a".toList := ⟨"a".toList, by decide⟩
  have v2 : ValidBody "x\\\"y".toList := ⟨"x\"y".toList, by decide⟩
  simp [sampleDoc, DocOK, checkWordChar, checkNumChar]
  exact ⟨v1, v2⟩

/-- C04 is false: a document that is a single string is emptied. -/
theorem C04_root_string_false : jsonSanitize "\"abc\"".toList = "\"\"".toList := by decide

/-- C04 is false: a valid document with a string value ending in a backslash is rewritten. -/
theorem C04_backslash_false :
    jsonSanitize "{\"a\":\"x\\\\\",\"b\":1}".toList ≠ "{\"a\":\"x\\\\\",\"b\":1}".toList := by decide

/-- C04 is false: the document `true` is truncated. -/
theorem C04_root_keyword_false : jsonSanitize "true".toList = "t".toList := by decide

/-- C03/C04 together: for a member of an object, the whole `to_json` / parse
    pipeline (sanitize, then read the literal at its place) returns the string,
    for every string that ends in no backslash and holds no unescaped control
    character.  The document is `{"name": "value"}` with an arbitrary safe name. -/
theorem C03_object_member_roundtrip (name s : Str) (hn : JsonSafe name) (hs : JsonSafe s)
    (hn' : name.getLast? ≠ some '\\') (hs' : s.getLast? ≠ some '\\') :
    let doc := '{' :: jsonLit name ++ [':', ' '] ++ jsonLit s ++ ['}']
    jsonSanitize doc = doc ∧
    readLitJson (doc.drop (1 + (jsonLit name).length + 2)) = some (s, ['}']) := by
  have lastEsc : ∀ t : Str, t.getLast? ≠ some '\\' → (escape t).getLast? ≠ some '\\' := by
    intro t ht
    rcases List.eq_nil_or_concat t with rfl | ⟨u, c, rfl⟩
    · simp [escape]
    · have : escape (u ++ [c]) = escape u ++ escapeChar c := by simp [escape]
      rw [List.concat_eq_append, this]
      rw [List.concat_eq_append] at ht
      rcases escapeChar_cases c with ⟨v, hv, hv2, _⟩ | ⟨hv, _, hb, _⟩
      · rw [hv]; simp
        rintro rfl
        simp [unescapeCode] at hv2
        simp [← hv2] at ht
      · rw [hv]; simpa using hb
  have valid : ∀ t, JsonSafe t → ValidBody (escape t) := fun t ht =>
    ⟨t, by simpa using rjString_escape t [] ht⟩
  refine ⟨?_, ?_⟩
  · have := C04_sanitize_identity_partial
      [.sym '{', .lit (escape name), .sym ':', .sym ' ', .lit (escape s), .sym '}'] (by
        simp [DocOK, valid name hn, valid s hs, lastEsc name hn', lastEsc s hs', checkWordChar])
      (by simp [Piece.standard])
    simpa [render, Piece.text, jsonLit] using this
  · have h1 : ('{' :: jsonLit name ++ [':', ' '] ++ jsonLit s ++ ['}']) =
        ('{' :: jsonLit name ++ [':', ' ']) ++ (jsonLit s ++ ['}']) := by simp
    rw [h1, List.drop_left' (by simp; omega)]
    exact (C03_json_literal s ['}']).2 hs

example : JsonSafe "c:\\dir\\f \"q\"".toList ∧ "c:\\dir\\f \"q\"".toList.getLast? ≠ some '\\' := by
  unfold JsonSafe; decide

end Conduit
