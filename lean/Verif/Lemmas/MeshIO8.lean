import Verif.Lemmas.MeshIO7
/-
The root file, and where the index says that the domains are (C88).
-/
namespace Conduit.MeshIO
open Conduit.Mesh

section
variable {F : Type}

/-! ### The root file -/

theorem rootNode_get (p : Plan) (q : Patterns F) (version : Str) (bp : BNode F) :
    (∀ s, Has (rootNode p q version bp) s ↔ s ∈ rootNames) ∧
    (rootNode p q version bp).get (chars! "blueprint_index") = .ok bp := by
  constructor
  · intro s
    unfold rootNode
    rw [has_obj]
    simp only [rootNames, List.map_cons, List.map_nil, List.mem_cons, List.not_mem_nil, or_false]
    constructor <;> rintro (h | h | h | h | h | h) <;> simp [h]
  · rw [rootNode, get_cons_self]

theorem rootNode_plain (p : Plan) (q : Patterns F) (version : Str) {bp : BNode F} (h : Plain bp) : Plain (rootNode p q version bp) := by
  refine plain_obj (by dsimp only [List.map]; decide) fun k hk => ?_
  simp only [List.mem_cons, List.not_mem_nil, or_false] at hk
  rcases hk with rfl | rfl | rfl | rfl | rfl | rfl
  · exact ⟨by simp [vkey], h⟩
  · refine ⟨by simp [vkey], plain_obj (by dsimp only [List.map]; decide) fun k hk => ?_⟩
    simp only [List.mem_cons, List.not_mem_nil, or_false] at hk
    rcases hk with rfl | rfl <;> exact ⟨by simp [vkey], trivial⟩
  · exact ⟨by simp [vkey], trivial⟩
  · exact ⟨by simp [vkey], trivial⟩
  · exact ⟨by simp [vkey], trivial⟩
  · exact ⟨by simp [vkey], trivial⟩

/-- What the root file holds. -/
structure RootFile (p : Plan) (q : Patterns F) (bp R : BNode F) : Prop where
  index : R.get (chars! "blueprint_index") = .ok (tidy bp)
  parts : ∀ s ∈ rootNames, ∀ x, R.get s = .ok x → Plain x ∧ tidy x = x
  old : R.get (chars! "file_pattern") = .ok (.str q.file) ∧ R.get (chars! "tree_pattern") = .ok (.str q.tree) ∧
    R.get (chars! "number_of_trees") = .ok (.ints int32 [(p.doms : Int)]) ∧ R.get (chars! "number_of_files") = .ok (.ints int32 [(p.files : Int)])

theorem writeRoot_spec {p : Plan} {fs : Disk F} (q : Patterns F) (version : Str) {bp : BNode F} (hb : Plain bp) (hc : ':' ∉ p.root) {m : Mode} (hm : m ≠ .r)
    (h0 : ∀ s ∈ rootNames, (if m.loads then (fs p.root).getD .empty else .empty).get s = .error) :
    ∃ R, writeAll fs p.root m (rootNode p q version bp) = .ok (fs.put p.root R) ∧ RootFile p q bp R ∧
      ∀ s, s ∉ rootNames → R.get s = (if m.loads then (fs p.root).getD .empty else .empty).get s := by
  have hsane : Sane (rootNode p q version bp) := Sane.of (rootNode_get p q version bp).2 (rootNode_plain p q version hb)
  have hpl := rootNode_plain p q version hb
  refine ⟨(rootNode p q version bp).update (if m.loads then (fs p.root).getD .empty else .empty), ?_, ⟨?_, ?_, ?_⟩, ?_⟩
  · rw [writeAll, openFile_eq fs hc hm]; rfl
  · rw [hsane.get_update (rootNode_get p q version bp).2, getOrEmpty_error (h0 _ (by decide)), update_empty _ hb]
  · intro s hs x hx
    obtain ⟨y, hy⟩ := ((rootNode_get p q version bp).1 s).2 hs
    rw [hsane.get_update hy, getOrEmpty_error (h0 s hs), update_empty _ (hpl.get hy)] at hx
    injection hx with hx
    subst hx
    exact ⟨plain_tidy (hpl.get hy), tidy_tidy _⟩
  · have get : ∀ {s x}, s ∈ rootNames → (rootNode p q version bp).get s = .ok x →
        ((rootNode p q version bp).update (if m.loads then (fs p.root).getD .empty else .empty)).get s = .ok (tidy x) := by
      intro s x hs hx
      rw [hsane.get_update hx, getOrEmpty_error (h0 s hs), update_empty _ (hpl.get hx)]
    refine ⟨?_, ?_, ?_, ?_⟩
    · rw [get (by decide) (x := .str q.file) (by unfold rootNode; iterate 4 rw [get_cons_ne (by decide)]
                                                 exact get_cons_self ..)]
      simp
    · rw [get (by decide) (x := .str q.tree) (by unfold rootNode; iterate 5 rw [get_cons_ne (by decide)]
                                                 exact get_cons_self ..)]
      simp
    · rw [get (by decide) (x := .ints int32 [(p.doms : Int)]) (by unfold rootNode; iterate 3 rw [get_cons_ne (by decide)]
                                                                  exact get_cons_self ..)]
      simp
    · rw [get (by decide) (x := .ints int32 [(p.files : Int)]) (by unfold rootNode; iterate 2 rw [get_cons_ne (by decide)]
                                                                   exact get_cons_self ..)]
      simp
  · intro s hs
    exact hsane.get_other (get_error fun h => hs (((rootNode_get p q version bp).1 s).1 h))

/-! ### Directories -/

/-- A path and its directory, which may be none. -/
structure Split (p dir base : Str) : Prop where
  base_ne : base ≠ []
  noSlash : '/' ∉ base
  eq : (dir = [] ∧ p = base) ∨ (dir ≠ [] ∧ dir.getLast? ≠ some '/' ∧ p = dir ++ '/' :: base)

variable {p dir base : Str}

theorem Split.rsplit (h : Split p dir base) : rsplitString p '/' = (base, dir) := by
  rcases h.eq with ⟨rfl, rfl⟩ | ⟨-, -, rfl⟩
  · exact rsplitString_not_mem h.noSlash
  · exact rsplitString_append h.noSlash

theorem Split.add (h : Split p dir base) {s : Str} (hs : '/' ∉ s) : Split (p ++ s) dir (base ++ s) where
  base_ne := by simp [h.base_ne]
  noSlash := by simp [h.noSlash, hs]
  eq := by
    rcases h.eq with ⟨rfl, rfl⟩ | ⟨h1, h2, rfl⟩
    · exact .inl ⟨rfl, rfl⟩
    · exact .inr ⟨h1, h2, by simp⟩

theorem Split.join (h : Split p dir base) (r : Str) : joinPath dir (base ++ r) = p ++ r := by
  unfold joinPath
  rcases h.eq with ⟨rfl, rfl⟩ | ⟨h1, h2, rfl⟩
  · simp
  · rw [if_pos ⟨List.length_pos_iff.2 h1, h2, by have := List.length_pos_iff.2 h.base_ne; simp; omega⟩]; simp

theorem Split.ends (h : Split p dir base) : p ≠ [] ∧ p.getLast? ≠ some '/' := by
  have hb : base.getLast? ≠ some '/' := fun q => h.noSlash (List.mem_of_getLast? q)
  have hn := h.base_ne
  rcases h.eq with ⟨rfl, rfl⟩ | ⟨h1, h2, rfl⟩
  · exact ⟨hn, hb⟩
  · refine ⟨by simp, ?_⟩
    rw [List.getLast?_append, List.getLast?_cons]
    cases hl : base.getLast? with
    | none => exact absurd (List.getLast?_eq_none_iff.1 hl) hn
    | some c =>
      rw [hl] at hb
      simpa using hb

/-! ### Where the domains are -/

theorem full_counting {n : Nat} (m : List (Str × BNode F)) (pat : Str) {i : Nat} (hi : i < n)
    (hm : (BNode.obj m).get (chars! "domain") = .ok (counting n)) :
    fullPath pat (some (.obj m)) i = (mapArgs i m).bind fun args => vformat args none pat := by
  obtain ⟨k, rfl⟩ : ∃ k, n = k + 1 := ⟨n - 1, by omega⟩
  obtain ⟨t, t1, t2⟩ := domToTree_range (k + 1) (k + 1) 0 (List.replicate (k + 1) 0) (by omega) (by simp) (fun j hj => by omega)
  unfold fullPath
  dsimp only
  rw [hm]
  simp only [Res.bind_ok, counting]
  rw [countOf_range, show ((k + 1 : Nat) : Int).toNat = k + 1 from rfl, t1]
  simp only [Res.bind_ok, Res.ofIdx, t2 i hi]
  rfl

/-- What the patterns say of a domain. -/
structure Says (q : Patterns F) (n : Nat) (dir : Str) (at' : Nat → Str × List Str) : Prop where
  map : (q.map.map (·.1)).Nodup ∧ ∀ k ∈ q.map, k.1 ∈ [chars! "file", chars! "domain"] ∧ IsInts k.2
  count : q.map = [] ∧ n = 1 ∨ (BNode.obj q.map).get (chars! "domain") = .ok (counting n)
  paths : ∀ i < n, ∃ file tree, partitionPaths q.part (if q.map = [] then none else some (.obj q.map)) i = .ok (file, tree) ∧
    joinPath dir file = (at' i).1 ∧ ∀ segs, segs ≠ [] → joinPath tree (slash segs) = '/' :: slash ((at' i).2 ++ segs)

theorem mapArgs_counting {n i : Nat} (hi : i < n) (name : Str) : mapArgs i [(name, (counting n : BNode F))] = .ok [(name, (i : Int))] := by
  simp only [mapArgs, counting]
  rw [List.getElem?_map, List.getElem?_range hi]; rfl

theorem mapArgs_two {n i k : Nat} (hi : i < n) (files : List Nat) (hf : files[i]? = some k) (a b : Str) :
    mapArgs i [(a, (.ints int64 (files.map Int.ofNat) : BNode F)), (b, counting n)] = .ok [(a, (k : Int)), (b, (i : Int))] := by
  have := mapArgs_counting (F := F) hi b
  rw [mapArgs]
  dsimp only
  rw [List.getElem?_map, hf]
  dsimp only [Option.map]
  rw [this]; rfl

theorem patterns_says {p : Plan} {dir base : Str} {toFile : Nat → Nat} (hok : PlanOk p) (hpos : 0 < p.doms) (hs : Split p.root dir base)
    (hmk : NoMarks p.root) (hroot : p.rootOnly = true → 1 < p.doms → dir = [])
    (hdir : p.rootOnly = false → ∃ b, base = b ++ chars! ".root" ∧ Split p.dir dir b)
    (hto : p.rootOnly = false → p.doms ≠ p.files → ∃ m, Files.domainMap p.doms p.files = .ok m ∧ m.toFile.length = p.doms ∧
        ∀ i < p.doms, m.toFile[i]? = some (toFile i)) :
    ∃ q : Patterns F, patterns p = .ok q ∧ Says q p.doms dir (place p toFile) := by
  have hbase : NoMarks base := by
    rcases hs.eq with ⟨-, e⟩ | ⟨-, -, e⟩
    · rw [← e]; exact hmk
    · rw [e] at hmk
      unfold NoMarks at hmk ⊢
      simp only [List.mem_append, List.mem_cons, not_or] at hmk
      exact ⟨hmk.1.2.2, hmk.2.1.2.2, hmk.2.2.2.2⟩
  cases hr : p.rootOnly with
  | true =>
    by_cases h1 : p.doms = 1
    · refine ⟨_, by rw [patterns, if_pos hr, if_pos h1], ⟨⟨by simp, by simp⟩, .inl ⟨rfl, h1⟩, fun i hi => ?_⟩⟩
      refine ⟨base, ['/'], ?_, ?_, ?_⟩
      · rw [if_pos rfl]
        dsimp only [partitionPaths, fullPath, Res.bind_ok]
        unfold rsplitPath
        rw [hs.rsplit, splitColon_eq hbase.1]
        rfl
      · have := hs.join []
        simpa [place, hr] using this
      · intro segs _
        rw [join_root]
        simp [place, hr, h1]
    · obtain rfl := hroot hr (by omega)
      have hpb : p.root = base := by
        rcases hs.eq with ⟨-, e⟩ | ⟨e, -⟩
        · exact e
        · exact absurd rfl e
      have hd : (BNode.obj [(chars! "domain", (counting p.doms : BNode F))]).get (chars! "domain") = .ok (counting p.doms) := get_cons_self ..
      refine ⟨_, by rw [patterns, if_pos hr, if_neg h1], ⟨⟨by simp, ?_⟩, .inr hd, fun i hi => ?_⟩⟩
      · intro k hk
        rw [List.mem_singleton] at hk
        subst hk
        exact ⟨by simp, _, _, rfl⟩
      · refine ⟨p.root, '/' :: domainName i ++ ['/'], ?_, ?_, ?_⟩
        · rw [if_neg (by simp), partitionPaths]
          dsimp only
          rw [full_counting _ _ hi hd, mapArgs_counting hi]
          simp only [Res.bind]
          have e : p.root ++ chars! ":/domain_{domain:06d}" = (p.root ++ chars! ":/domain_") ++ ('{' :: (chars! "domain" ++ chars! ":06d}") ++ []) := by simp
          rw [e, vformat_lit _ (by
            simp only [List.mem_append, not_or]
            exact ⟨⟨hmk.2.1, by decide⟩, hmk.2.2, by decide⟩), vformat_field (v := (i : Int)) (by simp [List.lookup]) ⟨_, _, rfl, by decide⟩ (by decide),
            vformat_end _ (by simp)]
          simp only [Res.map', Res.bind_ok]
          have e2 : p.root ++ chars! ":/domain_" ++ (pad6 (i : Int) ++ []) = p.root ++ ':' :: '/' :: domainName i := by simp [domainName]
          rw [e2, splitColon_eq hmk.1, tree_domain]
        · simp [place, hr, joinPath]
        · intro segs h
          rw [join_domain i h]
          simp [place, hr, h1]
  | false =>
    obtain ⟨b, hb, hsd⟩ := hdir hr
    obtain ⟨pm, psl⟩ := hok.protocol
    have hb0 : (rsplitPath (rsplitString p.dir '/').1).1 = b := by
      unfold rsplitPath
      rw [hsd.rsplit]
      dsimp only
      rw [rsplitString_not_mem hsd.noSlash]
    have hbl : b.getLast? ≠ some '/' := fun q => hsd.noSlash (List.mem_of_getLast? q)
    have hbm : NoMarks b := by
      rw [hb] at hbase
      unfold NoMarks at hbase ⊢
      simp only [List.mem_append, not_or] at hbase
      exact ⟨hbase.1.1, hbase.2.1.1, hbase.2.2.1⟩
    by_cases c : p.doms = p.files
    · have hd : (BNode.obj [(chars! "file", (counting p.doms : BNode F)), (chars! "domain", counting p.doms)]).get (chars! "domain") =
          .ok (counting p.doms) := by rw [get_cons_ne (by decide), get_cons_self]
      refine ⟨_, by rw [patterns, if_neg (by simp [hr]), if_pos c], ⟨⟨by dsimp only [List.map]; decide, ?_⟩, .inr hd, fun i hi => ?_⟩⟩
      · intro k hk
        simp only [List.mem_cons, List.not_mem_nil, or_false] at hk
        rcases hk with rfl | rfl <;> exact ⟨by simp, _, _, rfl⟩
      · refine ⟨b ++ '/' :: (domainName i ++ chars! "." ++ p.protocol), ['/'], ?_, ?_, ?_⟩
        · rw [if_neg (by simp), partitionPaths]
          dsimp only
          have hm := mapArgs_two (F := F) hi (List.range p.doms) (List.getElem?_range hi) (chars! "file") (chars! "domain")
          rw [full_counting _ _ hi hd]
          rw [show (counting p.doms : BNode F) = .ints int64 ((List.range p.doms).map Int.ofNat) from rfl] at hm ⊢
          rw [hm]
          simp only [Res.bind]
          rw [hb0, joinFile hsd.base_ne hbl]
          have e : b ++ '/' :: (chars! "domain_{domain:06d}." ++ p.protocol ++ chars! ":/") =
            (b ++ chars! "/domain_") ++ ('{' :: (chars! "domain" ++ chars! ":06d}") ++ (chars! "." ++ p.protocol ++ chars! ":/")) := by simp
          rw [e, vformat_lit _ (by
            simp only [List.mem_append, not_or]
            exact ⟨⟨hbm.2.1, by decide⟩, hbm.2.2, by decide⟩), vformat_field (v := (i : Int)) (by simp [List.lookup]) ⟨_, _, rfl, by decide⟩ (by decide),
            vformat_end _ (by
              simp only [List.mem_append, not_or]
              exact ⟨⟨⟨by decide, pm.2.1⟩, by decide⟩, ⟨by decide, pm.2.2⟩, by decide⟩)]
          simp only [Res.map', Res.bind_ok]
          have e2 : b ++ chars! "/domain_" ++ (pad6 (i : Int) ++ (chars! "." ++ p.protocol ++ chars! ":/")) =
            (b ++ '/' :: (domainName i ++ chars! "." ++ p.protocol)) ++ ':' :: '/' :: [] := by simp [domainName]
          rw [e2, splitColon_eq (hbm.append (NoMarks.cons (by decide)
            (((noMarks_domainName i).append (by unfold NoMarks; decide)).append pm))).1, tree_root]
        · rw [hsd.join]
          simp [place, hr, c]
        · intro segs h
          rw [join_root]
          simp [place, hr, c]
    · obtain ⟨m, m1, m2, m3⟩ := hto hr c
      have hd : (BNode.obj [(chars! "file", (.ints int64 (m.toFile.map Int.ofNat) : BNode F)), (chars! "domain", counting p.doms)]).get (chars! "domain") =
          .ok (counting p.doms) := by rw [get_cons_ne (by decide), get_cons_self]
      refine ⟨_, by rw [patterns, if_neg (by simp [hr]), if_neg c, m1]; rfl, ⟨⟨by dsimp only [List.map]; decide, ?_⟩, .inr hd, fun i hi => ?_⟩⟩
      · intro k hk
        simp only [List.mem_cons, List.not_mem_nil, or_false] at hk
        rcases hk with rfl | rfl <;> exact ⟨by simp, _, _, rfl⟩
      · refine ⟨b ++ '/' :: (fileName (toFile i) ++ chars! "." ++ p.protocol), '/' :: domainName i ++ ['/'], ?_, ?_, ?_⟩
        · rw [if_neg (by simp), partitionPaths]
          dsimp only
          rw [full_counting _ _ hi hd, mapArgs_two hi _ (m3 i hi)]
          simp only [Res.bind]
          rw [hb0, joinFile hsd.base_ne hbl]
          have e : b ++ '/' :: (chars! "file_{file:06d}." ++ p.protocol ++ chars! ":/domain_{domain:06d}") =
            (b ++ chars! "/file_") ++ ('{' :: (chars! "file" ++ chars! ":06d}") ++ ((chars! "." ++ p.protocol ++ chars! ":/domain_") ++
              ('{' :: (chars! "domain" ++ chars! ":06d}") ++ []))) := by simp
          rw [e, vformat_lit _ (by
            simp only [List.mem_append, not_or]
            exact ⟨⟨hbm.2.1, by decide⟩, hbm.2.2, by decide⟩),
            vformat_field (v := (toFile i : Int)) (by simp [List.lookup]) ⟨_, _, rfl, by decide⟩ (by decide),
            vformat_lit _ (by
              simp only [List.mem_append, not_or]
              exact ⟨⟨⟨by decide, pm.2.1⟩, by decide⟩, ⟨by decide, pm.2.2⟩, by decide⟩),
            vformat_field (v := (i : Int)) (by simp [List.lookup]) ⟨_, _, rfl, by decide⟩ (by decide), vformat_end _ (by simp)]
          simp only [Res.map', Res.bind_ok]
          have e2 : b ++ chars! "/file_" ++ (pad6 (toFile i : Int) ++ ((chars! "." ++ p.protocol ++ chars! ":/domain_") ++ (pad6 (i : Int) ++ []))) =
            (b ++ '/' :: (fileName (toFile i) ++ chars! "." ++ p.protocol)) ++ ':' :: '/' :: domainName i := by simp [fileName, domainName]
          rw [e2, splitColon_eq (hbm.append (NoMarks.cons (by decide)
            (((noMarks_fileName _).append (by unfold NoMarks; decide)).append pm))).1, tree_domain]
        · rw [hsd.join]
          simp [place, hr, c]
        · intro segs h
          rw [join_domain i h]
          simp [place, hr, c]

end
end Conduit.MeshIO
