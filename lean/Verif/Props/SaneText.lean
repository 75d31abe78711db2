import Verif.Lemmas.SaneText
/-
C04 on JSON documents as such: what the relaxed-JSON preprocessor does to a text that already
is JSON.
-/
namespace Conduit
open Spec

/-- C04: `json_sanitize` changes nothing in a JSON document (`Rep`: any white space between
    the tokens) that is an object or an array and in which no string and no name ends with
    a backslash.  The three excluded shapes are exactly those of `C04_root_string_false`,
    `C04_root_keyword_false` and `C04_backslash_false`. -/
theorem C04_sanitize_json (v : JV) (t w w' : Str) (h : Rep v t) (ht : Tame v) (hc : Container v) (hw : WS w) (hw' : WS w') :
    jsonSanitize (w ++ (t ++ w')) = w ++ (t ++ w') := sanitize_rep h ht hc hw hw'

/-- C04: reading such a document through the preprocessor gives its value. -/
theorem C04_parse_sanitized (v : JV) (t w w' : Str) (h : Rep v t) (ht : Tame v) (hc : Container v) (hw : WS w) (hw' : WS w') :
    JV.parseDoc (jsonSanitize (w ++ (t ++ w'))) = some v := parse_sane h ht hc hw hw'

/-- a document with an escape, a keyword, a number with exponent and a comment sign in a string -/
example : let t := chars! "{\"a\\\"//\": [true, -1.5e+3,null ],\n \"b\":{}}"
    ∃ v, Rep v t ∧ Tame v ∧ Container v := by
  refine ⟨.obj [(chars! "a\"//", .arr [.bool true, .real (chars! "-1.5e+3"), .null]), (chars! "b", .obj [])], ?_, ?_, trivial⟩
  · refine ⟨[], _, by intro c hc; simp at hc, ⟨chars! "a\\\"//", [], [' '], _, [], by decide, by intro c hc; simp at hc,
      by unfold WS; decide, ⟨[], _, by intro c hc; simp at hc, ⟨chars! "true", [], rfl, by intro c hc; simp at hc, .inr ⟨by simp, [' '], _,
        by unfold WS; decide, ⟨chars! "-1.5e+3", [], ⟨rfl, ['-'], ['.', '5'], ['e', '+', '3'], 1, by decide, .inr rfl, .inr ⟨['5'], by decide, by decide, rfl⟩,
          .inr ⟨['+'], ['3'], by decide, by decide, .inl rfl, rfl⟩, by decide⟩, by intro c hc; simp at hc, .inr ⟨by simp, [], _, by intro c hc; simp at hc,
          ⟨chars! "null", [' '], rfl, by unfold WS; decide, .inl ⟨rfl, rfl⟩⟩, rfl⟩⟩, rfl⟩⟩, rfl⟩, by intro c hc; simp at hc, .inr ⟨by simp, ['\n', ' '], _,
        by unfold WS; decide, ⟨chars! "b", [], [], _, [], by decide, by intro c hc; simp at hc, by intro c hc; simp at hc,
          ⟨[], [], by intro c hc; simp at hc, rfl, rfl⟩, by intro c hc; simp at hc, .inl ⟨rfl, rfl⟩⟩, rfl⟩⟩, by decide⟩
  · simp [Tame, TameM, TameL]

end Conduit
