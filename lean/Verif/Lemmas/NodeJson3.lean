import Verif.Lemmas.NodeJson2
/-
Detailed JSON text of a tree and reading it: the induction over the tree.
-/
namespace Conduit
open Spec Spec.Tree Schema Node Gen

def NodeClaimE (L : Lib) (big : Bool) (i : Nat) (pad eoe : Str) (m : Mem) (es : List (Str × Node)) : Prop :=
  ∀ depth tr, WS tr → ∃ ms w t ts, toJsonGE L big true false i pad eoe m es depth = .ok ts ∧ ts ++ tr = w ++ t ∧ WS w ∧
    RepM ms t ∧ TameM ms ∧ ms.map (·.1) = es.map (·.1) ∧
    ∀ off md, ∃ m' ns, SeqN L big false none off md ms m' ns ∧ BuiltE (fun _ => False) md m' (namedE big (valE m es)) ns

def NodeClaimL (L : Lib) (big : Bool) (i : Nat) (pad eoe : Str) (m : Mem) (es : List Node) : Prop :=
  ∀ depth tr, WS tr → ∃ ms w t ts, toJsonGL L big true false i pad eoe m es depth = .ok ts ∧ ts ++ tr = w ++ t ∧ WS w ∧
    RepL ms t ∧ TameL ms ∧ ms.length = es.length ∧
    ∀ off md, ∃ m' ns, SeqNL L big false none off md ms m' ns ∧ BuiltL (fun _ => False) md m' (namedL big (valL m es)) ns

theorem names_schemaE : ∀ es : List (Str × Node), (schemaE es).map (·.1) = es.map (·.1)
  | [] => rfl
  | (n, c) :: es => by simp [schemaE, names_schemaE es]

mutual
theorem node_claim (L : Lib) (big : Bool) (i : Nat) (pad eoe : Str) (hp : WS pad) (he : WS eoe) (m : Mem) :
    ∀ n : Node, Readable m n → Printable n.schema → DenseStrings n.schema → TextSafe L big (val m n) →
    NodeClaim L big i pad eoe m n
  | .leaf x d, hr, hpr, hs, ht => leaf_claim L big i pad eoe hp he m x d hr hpr hs ht
  | .obj x es, hr, hpr, hs, ht => by
    intro depth
    have hpr' : ((schemaE es).map (·.1)).Nodup ∧ PrintableE (schemaE es) := hpr
    obtain ⟨ms, w, t, ts, h1, h2, h3, h4, h5, h6, h7⟩ := node_claimE L big i pad eoe hp he m es hr hpr'.2
      (fun d hd => hs d (by simpa [Node.schema, leaves] using hd)) ht (depth + 1)
      (indentText i depth pad) (ws_indent hp _ _)
    have hnames : ms.map (·.1) = (schemaE es).map (·.1) := by rw [h6, names_schemaE]
    refine ⟨.obj ms, eoe ++ indentText i depth pad, '{' :: ((eoe ++ w) ++ (t ++ ['}'])), ?_, ws_append he (ws_indent hp _ _),
      ⟨eoe ++ w, t, ws_append he h3, h4, rfl⟩, h5, trivial, ?_⟩
    · rw [toJsonG, h1]
      have := congrArg (· ++ ['}']) h2
      simp only [List.append_assoc] at this
      simp [Res.map', this]
    · intro y off md hy
      obtain ⟨m', ns, g1, g2⟩ := h7 off md
      refine ⟨m', .obj y ns, ?_, g2.obj y hy⟩
      have hlk : ms.lookup (chars! "dtype") = none := lookup_none_of_not_mem (by rw [hnames]; exact no_dtype hpr'.2)
      rw [walkN, hlk]
      simp only
      rw [objLoopN_seq L big false none ms [] ns off md m' (by rw [hnames]; simpa using hpr'.1) g1]
      simp [Res.map']
  | .lst x cs, hr, hpr, hs, ht => by
    intro depth
    obtain ⟨ms, w, t, ts, h1, h2, h3, h4, h5, -, h7⟩ := node_claimL L big i pad eoe hp he m cs hr hpr
      (fun d hd => hs d (by simpa [Node.schema, leaves] using hd)) ht (depth + 1)
      (indentText i depth pad) (ws_indent hp _ _)
    refine ⟨.arr ms, eoe ++ indentText i depth pad, '[' :: ((eoe ++ w) ++ (t ++ [']'])), ?_, ws_append he (ws_indent hp _ _),
      ⟨eoe ++ w, t, ws_append he h3, h4, rfl⟩, h5, trivial, ?_⟩
    · rw [toJsonG, h1]
      have := congrArg (· ++ [']']) h2
      simp only [List.append_assoc] at this
      simp [Res.map', this]
    · intro y off md hy
      obtain ⟨m', ns, g1, g2⟩ := h7 off md
      refine ⟨m', .lst y ns, ?_, g2.lst y hy⟩
      rw [walkN, lstLoopN_seq L big false none ms [] ns off md m' g1]
      simp [Res.map']
theorem node_claimE (L : Lib) (big : Bool) (i : Nat) (pad eoe : Str) (hp : WS pad) (he : WS eoe) (m : Mem) :
    ∀ es : List (Str × Node), ReadableE m es → PrintableE (schemaE es) → (∀ d ∈ leavesE (schemaE es), d.id = .char8Str → d.stride = 1 ∨ d.n ≤ 1) →
    TextSafeE L big (valE m es) → NodeClaimE L big i pad eoe m es
  | [], _, _, _, _ => fun depth tr htr => ⟨[], tr, [], [], rfl, by simp, htr, rfl, trivial, rfl,
      fun off md => ⟨md, [], ⟨rfl, rfl⟩, BuiltE.nil _ md⟩⟩
  | (n, c) :: es, hr, hpr, hs, ht => by
    intro depth tr htr
    obtain ⟨hn, hd, hc, hes⟩ := hpr
    obtain ⟨v, wv, tv, a1, a2, a3, a4, -, a6⟩ := node_claim L big i pad eoe hp he m c hr.1 hc
      (fun d hd => hs d (by simp [schemaE, leavesE, hd])) ht.1 depth
    obtain ⟨ms, w, t, ts, h1, h2, h3, h4, h5, h6, h7⟩ := node_claimE L big i pad eoe hp he m es hr.2 hes
      (fun d hd => hs d (by simp [schemaE, leavesE, hd])) ht.2 depth tr htr
    have hnl : n.getLast? ≠ some '\\' := fun hl => (hn _ (List.mem_of_getLast? hl)).2.1 rfl
    have hread : ∀ off md, ∃ m' ns, SeqN L big false none off md ((n, v) :: ms) m' ns ∧
        BuiltE (fun _ => False) md m' (namedE big (valE m ((n, c) :: es))) ns := by
      intro off md
      obtain ⟨m1, k, k1, k2⟩ := a6 {} off md rfl
      obtain ⟨m2, ns, g1, g2⟩ := h7 (advance none off k) m1
      exact ⟨m2, (n, k) :: ns, ⟨k, ns, m1, rfl, k1, g1⟩, BuiltE.cons n k2 g2⟩
    cases es with
    | nil =>
      have hms : ms = [] := by simpa using h6
      subst hms
      refine ⟨[(n, v)], indentText i depth pad, _, _, by rw [toJsonGE, a1, bind_ok, h1, bind_ok], ?_, ws_indent hp _ _,
        ⟨n, [], ' ' :: wv, tv, eoe ++ tr, clean_rj hn, ws_nil, ws_append ws_one a2, a3, ws_append he htr, .inl ⟨rfl, rfl⟩⟩,
        ⟨hnl, a4, trivial⟩, rfl, hread⟩
      have : ts = [] := by simpa [toJsonGE] using h1.symm
      simp [sepText, this]
    | cons e es =>
      have hne : ms ≠ [] := by rintro rfl; simp at h6
      refine ⟨(n, v) :: ms, indentText i depth pad, _, _, by rw [toJsonGE, a1, bind_ok, h1, bind_ok], ?_, ws_indent hp _ _,
        ⟨n, [], ' ' :: wv, tv, [], clean_rj hn, ws_nil, ws_append ws_one a2, a3, ws_nil,
          .inr ⟨hne, eoe ++ w, t, ws_append he h3, h4, rfl⟩⟩,
        ⟨hnl, a4, h5⟩, by simp [h6], hread⟩
      simp [sepText, h2]
theorem node_claimL (L : Lib) (big : Bool) (i : Nat) (pad eoe : Str) (hp : WS pad) (he : WS eoe) (m : Mem) :
    ∀ es : List Node, ReadableL m es → PrintableL (schemaL es) → (∀ d ∈ leavesL (schemaL es), d.id = .char8Str → d.stride = 1 ∨ d.n ≤ 1) →
    TextSafeL L big (valL m es) → NodeClaimL L big i pad eoe m es
  | [], _, _, _, _ => fun depth tr htr => ⟨[], tr, [], [], rfl, by simp, htr, rfl, trivial, rfl,
      fun off md => ⟨md, [], ⟨rfl, rfl⟩, BuiltL.nil _ md⟩⟩
  | c :: es, hr, hpr, hs, ht => by
    intro depth tr htr
    obtain ⟨hc, hes⟩ := hpr
    obtain ⟨v, wv, tv, a1, a2, a3, a4, -, a6⟩ := node_claim L big i pad eoe hp he m c hr.1 hc
      (fun d hd => hs d (by simp [schemaL, leavesL, hd])) ht.1 depth
    obtain ⟨ms, w, t, ts, h1, h2, h3, h4, h5, h6, h7⟩ := node_claimL L big i pad eoe hp he m es hr.2 hes
      (fun d hd => hs d (by simp [schemaL, leavesL, hd])) ht.2 depth tr htr
    have hread : ∀ off md, ∃ m' ns, SeqNL L big false none off md (v :: ms) m' ns ∧
        BuiltL (fun _ => False) md m' (namedL big (valL m (c :: es))) ns := by
      intro off md
      obtain ⟨m1, k, k1, k2⟩ := a6 {} off md rfl
      obtain ⟨m2, ns, g1, g2⟩ := h7 (advance none off k) m1
      exact ⟨m2, k :: ns, ⟨k, ns, m1, rfl, k1, g1⟩, BuiltL.cons k2 g2⟩
    cases es with
    | nil =>
      have hms : ms = [] := List.length_eq_zero_iff.1 h6
      subst hms
      refine ⟨[v], indentText i depth pad ++ wv, _, _, by rw [toJsonGL, a1, bind_ok, h1, bind_ok], ?_, ws_append (ws_indent hp _ _) a2,
        ⟨tv, eoe ++ tr, a3, ws_append he htr, .inl ⟨rfl, rfl⟩⟩, ⟨a4, trivial⟩, rfl, hread⟩
      have : ts = [] := by simpa [toJsonGL] using h1.symm
      simp [sepText, this]
    | cons e es =>
      have hne : ms ≠ [] := by rintro rfl; simp at h6
      refine ⟨v :: ms, indentText i depth pad ++ wv, _, _, by rw [toJsonGL, a1, bind_ok, h1, bind_ok], ?_, ws_append (ws_indent hp _ _) a2,
        ⟨tv, [], a3, ws_nil, .inr ⟨hne, eoe ++ w, t, ws_append he h3, h4, rfl⟩⟩, ⟨a4, h5⟩, by simp [h6], hread⟩
      simp [sepText, h2]
end

end Conduit
