import Verif.Lemmas.MeshIO10
/-
A mesh that was written is read back: reading (C88).
-/
namespace Conduit.MeshIO
open Conduit.Mesh

section
variable {F : Type}

theorem readRoot_eq {fs : Disk F} {root name : Str} {R idx o : BNode F} (hc : ':' ∉ root) (hR : fs root = some R)
    (hb : R.get (chars! "blueprint_index") = .ok (.obj [(name, idx)]))
    (hp : ∀ s ∈ rootNames, ∀ x, R.get s = .ok x → Plain x ∧ tidy x = x)
    (ho : ∀ s, o.get (chars! "mesh_name") = .ok (.str s) → s = [] ∨ s = name) :
    ∃ r, readRoot fs root o = .ok (r, name) ∧ ∀ s ∈ rootNames, r.get s = R.get s := by
  obtain ⟨r, r1, r2, -⟩ := readParts (R := R) rootNames (by decide) (by unfold GoodName; decide) hp .empty (fun _ _ => rfl)
  have hbp : r.get (chars! "blueprint_index") = .ok (.obj [(name, idx)]) := by rw [r2 _ (by decide), hb]
  refine ⟨r, ?_, r2⟩
  have hn : ∀ s, s = [] ∨ s = name → (if s = [] then (match (BNode.obj [(name, idx)]).items with | k :: _ => .ok k.1 | [] => .error) else .ok s : Res Str) = .ok name := by
    rintro s (rfl | rfl)
    · rfl
    · split
      · rename_i e; rw [e]; rfl
      · rfl
  have hso := strOpt_mem (P := fun s => s = [] ∨ s = name) (dflt := []) ho (.inl rfl)
  have hhas : (BNode.obj [(name, idx)]).hasChild name = true := (has_iff ..).2 ⟨_, get_cons_self ..⟩
  unfold readRoot
  rw [openFile_read hc hR, Res.bind_ok, r1, Res.bind_ok, hbp, Res.bind_ok]
  dsimp only
  rcases hso with e | e
  · rw [e, if_pos rfl]
    dsimp only [BNode.items, Res.bind_ok]
    rw [if_pos hhas]
  · rw [e]
    by_cases c : name = []
    · rw [if_pos c]
      dsimp only [BNode.items, Res.bind_ok]
      rw [if_pos hhas]
    · rw [if_neg c]
      dsimp only [Res.bind_ok]
      rw [if_pos hhas]

theorem locate_eq (A : Arith F) {root idx : BNode F} {q : Patterns F} {n : Nat} {dir : Str} {at' : Nat → Str × List Str} (hsay : Says q n dir at') (hn : 0 < n)
    (hs : ∃ s, idx.get (chars! "state") = .ok s ∧ s.get (chars! "partition_pattern") = .ok (.str q.part) ∧
      s.get (chars! "partition_map") = if q.map = [] then .error else .ok (.obj q.map)) :
    locate A root idx = .ok (n, partitionPaths q.part (if q.map = [] then none else some (.obj q.map))) := by
  obtain ⟨s, s1, s2, s3⟩ := hs
  unfold locate
  rw [getOrEmpty_ok s1]
  dsimp only
  rw [s2]
  dsimp only
  by_cases c : q.map = []
  · rw [if_pos c] at s3
    have h1 : n = 1 := by
      rcases hsay.count with ⟨-, h⟩ | h
      · exact h
      · rw [c] at h; cases h
    rw [getOrEmpty_error s3, s3, if_pos c, h1]
    rfl
  · rw [if_neg c] at s3
    have hd : (BNode.obj q.map).get (chars! "domain") = .ok (counting n) := by
      rcases hsay.count with ⟨h, -⟩ | h
      · exact absurd h c
      · exact h
    rw [getOrEmpty_ok s3, s3, if_neg c, hd]
    obtain ⟨k, rfl⟩ : ∃ k, n = k + 1 := ⟨n - 1, by omega⟩
    dsimp only [counting]
    rw [countOf_range]
    rfl

theorem Stored.mono {name protocol root dir : Str} {ds : List (BNode F)} {fs fs' : Disk F} (h : Stored name protocol root dir ds fs)
    (he : ∀ f, FileOf root f → fs' f = fs f) : Stored name protocol root dir ds fs' := by
  obtain ⟨R, idx, q, place, e1, e2, e3, e4, e5, e6, e8, e7⟩ := h.content
  refine ⟨h.split, h.rootColon, R, idx, q, place, by rw [he _ (.inl rfl), e1], e2, e3, e4, e5, e6, e8, fun i d hd => ?_⟩
  obtain ⟨f1, f2, f3, T, f4, f5⟩ := e7 i d hd
  exact ⟨f1, f2, f3, T, by rw [he _ f2.1, f4], f5⟩

theorem load_from (A : Arith F) {name root dir base : Str} {doms : List (BNode F)} {fs : Disk F} {o r I : BNode F} {paths : Nat → Res (Str × Str)}
    {place : Nat → Str × List Str} (hne : doms ≠ []) (hgn : GoodName name) (hpl : ∀ d ∈ doms, Plain d) (hsp : Split root dir base)
    (r1 : readRoot fs root o = .ok (r, name)) (r2 : r.get (chars! "blueprint_index") = .ok (.obj [(name, I)]))
    (hI : Indexed name (doms.mapIdx setId) I) (hloc : locate A r I = .ok (doms.length, paths))
    (hpaths : ∀ i < doms.length, ∃ file tree, paths i = .ok (file, tree) ∧
      joinPath dir file = (place i).1 ∧ ∀ segs, segs ≠ [] → joinPath tree (slash segs) = '/' :: slash ((place i).2 ++ segs))
    (e7 : ∀ i d, (doms.mapIdx setId)[i]? = some d → ':' ∉ (place i).1 ∧ (∀ s ∈ (place i).2 ++ [name], GoodName s) ∧
      ∃ T, fs (place i).1 = some T ∧ down T ((place i).2 ++ [name]) = .ok (tidy d)) :
    ∃ m, loadMesh A fs root o = .ok m ∧ RestoredAll doms m := by
  obtain ⟨ks, hks, hg, hst⟩ := hI.guide
  obtain ⟨b, t, v1, v2, -⟩ := C85_verdict_partial I .empty hI.plain
  have hb : b = true := v2.2 (Flat.isIndex hI.flat)
  have hfetch : fetch (r.getOrEmpty (chars! "blueprint_index")) name = .ok I := by
    rw [getOrEmpty_ok r2]
    have := fetch_down (l := [name]) (n := .obj [(name, I)]) (x := I) (by simp) (by simpa using hgn) (by rw [down, get_cons_self]; rfl)
    exact this
  -- each domain
  have hdom : ∀ i d, doms[i]? = some d → ∃ x, Restored i d x ∧
      ∃ file tree, paths i = .ok (file, tree) ∧
        ∃ T, openFile fs (joinPath dir file) .r = .ok T ∧ readDomain T tree I .empty = .ok x := by
    intro i d hd
    have hi : i < doms.length := (List.getElem?_eq_some_iff.1 hd).1
    have hdi : (doms.mapIdx setId)[i]? = some (setId i d) := by rw [List.getElem?_mapIdx, hd]; rfl
    obtain ⟨f1, f2, T, f3, f4⟩ := e7 i _ hdi
    obtain ⟨file, tree, g1, g2, g3⟩ := hpaths i hi
    obtain ⟨st, st1, st2, st3⟩ := state_setId i d
    have hp : Plain (setId i d) := plain_modKid (by decide) (hpl d (List.mem_of_getElem? hd)) fun x hx => plain_modKid (by decide) hx fun _ _ => trivial
    have hl : Leads T tree name (tidy (setId i d)) := ⟨⟨(place i).2, f2, f4, fun segs h _ => g3 segs h⟩, plain_tidy hp, tidy_tidy _⟩
    obtain ⟨x, x1, x2, x3, x4⟩ := readDomain_eq hl ((has_tidy ..).2 ⟨st, st1⟩) hg hst
    refine ⟨x, ⟨?_, ?_, ?_, x4⟩, file, tree, g1, T, ?_, ?_⟩
    · intro coll hc n c
      rw [x3 coll hc n c, ← hks, entry_tidy]
      constructor
      · rintro ⟨-, b, q1, q2⟩
        exact ⟨b, (entry_congr (get_setId i d (coll_ne hc))).1 q1, q2⟩
      · rintro ⟨b, q1, q2⟩
        have q1' := (entry_congr (get_setId i d (coll_ne hc))).2 q1
        exact ⟨hI.lists coll hc n ⟨_, List.mem_of_getElem? hdi, b, q1'⟩, b, q1', q2⟩
    · refine (entry_congr x2).2 ((entry_tidy ..).2 ⟨_, ⟨st, st1, st2⟩, by simp⟩)
    · intro f hf c
      rw [entry_congr x2, entry_tidy]
      simp only [entry_setId i d hf]
    · rw [g2]; exact openFile_read f1 f3
    · rw [hks]; exact x1
  have hx : ∃ xs : Nat → BNode F, ∀ i d, doms[i]? = some d → Restored i d (xs i) ∧
      ∃ file tree, paths i = .ok (file, tree) ∧
        ∃ T, openFile fs (joinPath dir file) .r = .ok T ∧ readDomain T tree I .empty = .ok (xs i) := by
    have := fun i => (show ∃ x, ∀ d, doms[i]? = some d → Restored i d x ∧
      ∃ file tree, paths i = .ok (file, tree) ∧
        ∃ T, openFile fs (joinPath dir file) .r = .ok T ∧ readDomain T tree I .empty = .ok x from by
      cases hd : doms[i]? with
      | none => exact ⟨.empty, fun d h => by cases h⟩
      | some d =>
        obtain ⟨x, hx⟩ := hdom i d hd
        exact ⟨x, fun d' h => by injection h with h; subst h; exact hx⟩)
    exact ⟨fun i => Classical.choose (this i), fun i => Classical.choose_spec (this i)⟩
  obtain ⟨xs, hxs⟩ := hx
  obtain ⟨m, m1, m2⟩ := readAll (n := doms.length) (fun mesh i => do
      let (file, tree) ← paths i
      let f ← openFile fs (joinPath (rsplitString root '/').2 file) .r
      let x ← readDomain f tree I (mesh.getOrEmpty (domainName i))
      .ok (.obj (modKid (domainName i) (fun _ => x) mesh.kids))) xs (by
    intro i hi mesh hm
    obtain ⟨-, file, tree, g1, T, g2, g3⟩ := hxs i _ (List.getElem?_eq_getElem hi)
    dsimp only
    rw [g1, Res.bind_ok]
    dsimp only
    rw [hsp.rsplit, g2, Res.bind_ok, getOrEmpty_error hm, g3, Res.bind_ok])
  refine ⟨m, ?_, ?_, ?_⟩
  · unfold loadMesh readMesh
    rw [r1, Res.bind_ok]
    dsimp only
    rw [hfetch, Res.bind_ok, v1, Res.bind_ok]
    dsimp only
    rw [hb, if_neg (by simp), hloc, Res.bind_ok]
    exact m1
  · have hm : Mesh.childNames m = m.kids.map (·.1) := by
      cases m with
      | obj ks => rfl
      | _ =>
        have h0 : doms.length = 0 := by simpa [BNode.kids] using congrArg List.length m2.symm
        exact absurd (List.length_eq_zero_iff.1 h0) hne
    rw [hm, m2, List.map_map]
    rfl
  · intro i d hd
    have hi : i < doms.length := (List.getElem?_eq_some_iff.1 hd).1
    refine ⟨xs i, ?_, (hxs i d hd).1⟩
    show (BNode.obj m.kids).get (domainName i) = _
    rw [m2]
    have hnd : (((List.range doms.length).map fun i => (domainName i, xs i)).map (·.1)).Nodup := by
      rw [List.map_map]
      refine List.Pairwise.map _ (fun a b hab e => hab (domainName_inj e)) List.nodup_range
    exact get_mem hnd (k := (domainName i, xs i)) (List.mem_map.2 ⟨i, List.mem_range.2 hi, rfl⟩)

theorem loadMesh_stored (A : Arith F) {name protocol root dir : Str} {doms : List (BNode F)} {fs : Disk F}
    (h : Stored name protocol root dir (doms.mapIdx setId) fs) (hne : doms ≠ []) (hgn : GoodName name) (hpl : ∀ d ∈ doms, Plain d) :
    Loads A fs root name doms := by
  intro o ho
  obtain ⟨base, hsp⟩ := h.split
  obtain ⟨R, idx, q, place, e1, e2, e3, e4, e5, e6, -, e7⟩ := h.content
  rw [List.length_mapIdx] at e6
  obtain ⟨r, r1, r2⟩ := readRoot_eq h.rootColon e1 e2 e3 ho
  have hstate : ∃ s, (tidy (addPartition q idx)).get (chars! "state") = .ok s ∧ s.get (chars! "partition_pattern") = .ok (.str q.part) ∧
      s.get (chars! "partition_map") = if q.map = [] then .error else .ok (.obj q.map) := by
    obtain ⟨s, s1, s2, s3⟩ := e5
    refine ⟨_, get_tidy_ok s1, get_str_tidy s2, ?_⟩
    by_cases c : q.map = []
    · rw [if_pos c] at s3 ⊢
      exact get_tidy_error s3
    · rw [if_neg c] at s3 ⊢
      rw [get_obj_tidy s3 c]
      congr 2
      conv => rhs; rw [← List.map_id q.map]
      apply List.map_congr_left
      intro k hk
      obtain ⟨-, t, l, ek⟩ := e6.map.2 k hk
      rw [ek]
      show (k.1, tidy (.ints t l)) = k
      rw [show tidy (.ints t l : BNode F) = .ints t l from by simp, ← ek]
  exact load_from A hne hgn hpl hsp r1 (by rw [r2 _ (by decide), e2]) e4.tidy (locate_eq A e6 (List.length_pos_iff.2 hne) hstate) e6.paths
    (fun i d hd => by obtain ⟨f1, -, f2⟩ := e7 i d hd; exact ⟨f1, f2⟩)

/-! ### Apart -/

theorem pad6_inj_int {i j : Int} (h : pad6 i = pad6 j) : i = j := by
  have hneg : ∀ {k : Int}, k < 0 → ∃ r, pad6 k = '-' :: r ∧ value r = k.natAbs := by
    intro k hk
    refine ⟨_, by unfold pad6; rw [if_pos hk], ?_⟩
    rw [value_zeros, value_toDigits]
  have hpos : ∀ {k : Int}, ¬ k < 0 → pad6 k = pad6 (k.natAbs : Int) := by
    intro k hk
    congr 1
    omega
  have hne : ∀ (n : Nat) r, pad6 (n : Int) ≠ '-' :: r := by
    intro n r e
    have h1 : ('-' : Char) ∈ pad6 (n : Int) := by rw [e]; exact List.mem_cons_self
    rw [pad6_nat] at h1
    rcases List.mem_append.1 h1 with h1 | h1
    · exact absurd (List.eq_of_mem_replicate h1) (by decide)
    · exact absurd (Nat.isDigit_of_mem_toDigits (by decide) (by decide) h1) (by decide)
  by_cases hi : i < 0 <;> by_cases hj : j < 0
  · obtain ⟨r, e1, e2⟩ := hneg hi
    obtain ⟨r', e3, e4⟩ := hneg hj
    rw [e1, e3] at h
    obtain rfl := (List.cons.inj h).2
    omega
  · obtain ⟨r, e1, -⟩ := hneg hi
    rw [e1, hpos hj] at h
    exact absurd h.symm (hne _ _)
  · obtain ⟨r, e1, -⟩ := hneg hj
    rw [e1, hpos hi] at h
    exact absurd h (hne _ _)
  · rw [hpos hi, hpos hj] at h
    have := pad6_inj h
    omega

theorem before_slash {a b x y : Str} (ha : '/' ∉ a) (hb : '/' ∉ b) (h : a ++ '/' :: x = b ++ '/' :: y) : a = b := by
  induction a generalizing b with
  | nil =>
    cases b with
    | nil => rfl
    | cons c b => injection h with h1 _; exact absurd (by rw [← h1]; simp) hb
  | cons c a ih =>
    cases b with
    | nil => injection h with h1 _; exact absurd (by rw [h1]; simp) ha
    | cons e b =>
      injection h with h1 h2
      rw [h1, ih (fun q => ha (List.mem_cons_of_mem _ q)) (fun q => hb (List.mem_cons_of_mem _ q)) h2]

/-- The files of two cycles are different. -/
theorem cycles_apart {path f : Str} {i j : Int} (h : i ≠ j) (hi : FileOf (path ++ chars! ".cycle_" ++ pad6 i ++ chars! ".root") f) :
    ¬ FileOf (path ++ chars! ".cycle_" ++ pad6 j ++ chars! ".root") f := by
  have hin : ∀ {k : Int}, FileOf (path ++ chars! ".cycle_" ++ pad6 k ++ chars! ".root") f →
      f = path ++ chars! ".cycle_" ++ (pad6 k ++ chars! ".root") ∨ ∃ x, f = path ++ chars! ".cycle_" ++ (pad6 k ++ '/' :: x) := by
    rintro k (h | ⟨stem, x, h1, h2⟩)
    · left; rw [h, List.append_assoc]
    · right
      rw [← List.append_cancel_right h1] at h2
      exact ⟨x, by rw [h2, List.append_assoc]⟩
  have hno : ∀ k x : Int, ∀ y, pad6 k ++ chars! ".root" ≠ pad6 x ++ '/' :: y := by
    intro k x y e
    have : '/' ∈ pad6 k ++ chars! ".root" := by rw [e]; simp
    rcases List.mem_append.1 this with q | q
    · exact noSlash_pad6 k q
    · exact absurd q (by decide)
  intro hj
  rcases hin hi with e1 | ⟨x, e1⟩ <;> rcases hin hj with e2 | ⟨y, e2⟩ <;> rw [e1] at e2 <;> have e3 := List.append_cancel_left e2
  · exact h (pad6_inj_int (List.append_cancel_right e3))
  · exact hno _ _ _ e3
  · exact hno _ _ _ e3.symm
  · exact h (pad6_inj_int (before_slash (noSlash_pad6 i) (noSlash_pad6 j) e3))

/-! ### The options of `save_mesh` -/

theorem get_truncate (o : BNode F) {f : Str} (h : chars! "truncate" ≠ f) :
    (BNode.obj (modKid (chars! "truncate") (fun _ => .str (chars! "true")) o.kids) : BNode F).get f = o.get f := by
  rw [get_modKid_ne h]
  cases o <;> rfl

theorem optsOk_truncate {o : BNode F} (h : OptsOk o) :
    OptsOk (.obj (modKid (chars! "truncate") (fun _ => .str (chars! "true")) o.kids) : BNode F) := by
  refine ⟨?_, ?_, ?_, ?_⟩ <;> rw [get_truncate o (by decide)]
  · exact h.style
  · exact h.suffix
  · exact h.name
  · exact h.files

theorem meshName_truncate {o : BNode F} {name : Str} (h : MeshName o name) :
    MeshName (.obj (modKid (chars! "truncate") (fun _ => .str (chars! "true")) o.kids) : BNode F) name := by
  cases h with
  | given h => exact .given (by rw [get_truncate o (by decide), h])
  | default h => exact .default (by rw [get_truncate o (by decide)]; exact h)

theorem rootName_truncate (A : Arith F) {o : BNode F} {counter : Int} {path root : Str} {d : BNode F}
    (h : RootName A (.obj (modKid (chars! "truncate") (fun _ => .str (chars! "true")) o.kids) : BNode F) counter path d root) :
    RootName A o counter path d root := by
  cases h with
  | cycle h hv hs => exact .cycle h hv (by rwa [get_truncate o (by decide)] at hs)
  | counter h hs => exact .counter h (by rwa [get_truncate o (by decide)] at hs)
  | none h => exact .none (by rwa [get_truncate o (by decide)] at h)

/-! ### Together -/

theorem writable_plain {mesh : BNode F} {doms : List (BNode F)} {path protocol : Str} {o : BNode F} (h : Writable mesh doms path protocol o) :
    ∀ d ∈ doms, Plain d := plain_doms h.plain h.domains

theorem meshName_good {o : BNode F} {name : Str} (h : OptsOk o) (hn : MeshName o name) : GoodName name := by
  cases hn with
  | given e => exact (h.name _ e).1
  | default _ => unfold GoodName; decide

theorem writable_truncate {mesh : BNode F} {doms : List (BNode F)} {path protocol : Str} {o : BNode F} (h : Writable mesh doms path protocol o) :
    Writable mesh doms path protocol (.obj (modKid (chars! "truncate") (fun _ => .str (chars! "true")) o.kids)) :=
  { h with opts := optsOk_truncate h.opts, place := by rw [get_truncate o (by decide)]; exact h.place }

theorem saveMesh_stored (A : Arith F) (version : Str) (counter : Int) {mesh : BNode F} {doms : List (BNode F)} {path protocol name : Str} {o : BNode F}
    (fs : Disk F) (h : Writable mesh doms path protocol o) (hn : MeshName o name) :
    ∃ d0 root dir fs', doms[0]? = some d0 ∧ RootName A o counter path d0 root ∧
      saveMesh A version counter mesh path protocol o fs = .ok fs' ∧ Stored name protocol root dir (doms.mapIdx setId) fs' ∧
      ∀ f, ¬ FileOf root f → fs' f = fs f := by
  have h' := writable_truncate h
  obtain ⟨S, hS⟩ := h'.systems
  obtain ⟨d0, root, dir, fs', h0, h1, h2⟩ := writeMesh_stored A version counter (fs := fs) h'.plain h'.domains h'.savable hS h'.opts
    h'.pathOk h'.protocolOk (meshName_truncate hn) h'.place (.inl (get_modKid_self ..))
  exact ⟨d0, root, dir, fs', h0, rootName_truncate A h1, h2⟩

theorem Dump.Ok.root {A : Arith F} {path protocol : Str} {x : Dump F} (h : x.Ok A path protocol) {d0 : BNode F} {root : Str} (h0 : x.doms[0]? = some d0)
    (hr : RootName A x.opts x.counter path d0 root) : root = cycleRoot path x.cycle := by
  obtain ⟨d, c, e1, e2, e3⟩ := h.cycleIs
  obtain rfl := Option.some.inj (h0.symm.trans e1)
  cases hr with
  | cycle q1 q2 _ =>
    obtain ⟨s, s1, s2⟩ := e2
    obtain ⟨s', s1', s2'⟩ := q1
    obtain rfl := get_inj s1 s1'
    obtain rfl := get_inj s2 s2'
    rw [e3] at q2
    obtain rfl := Res.ok.inj q2
    rfl
  | counter q _ => exact absurd e2 (q c)
  | none q =>
    rcases q with ⟨q, -⟩ | q
    · exact absurd e2 (q c)
    · exact absurd q h.suffix

theorem series_stored (A : Arith F) (version path protocol : Str) (l : List (Dump F)) (h : ∀ x ∈ l, x.Ok A path protocol)
    (hd : (l.map (·.cycle)).Nodup) (fs : Disk F) :
    ∃ fs', l.foldlM (fun fs x => saveMesh A version x.counter x.mesh path protocol x.opts fs) fs = .ok fs' ∧
      (∀ x ∈ l, ∃ dir, Stored x.name protocol (cycleRoot path x.cycle) dir (x.doms.mapIdx setId) fs') ∧
      ∀ f, (∀ x ∈ l, ¬ FileOf (cycleRoot path x.cycle) f) → fs' f = fs f := by
  induction l generalizing fs with
  | nil => exact ⟨fs, rfl, by simp, fun _ _ => rfl⟩
  | cons x l ih =>
    have hx := h x List.mem_cons_self
    obtain ⟨d0, root, dir, fs1, h0, h1, h2, h3, h4⟩ := saveMesh_stored A version x.counter fs hx.writable hx.named
    obtain rfl := hx.root h0 h1
    obtain ⟨hx1, hd1⟩ := List.nodup_cons.1 hd
    obtain ⟨fs', i1, i2, i3⟩ := ih (fun y hy => h y (List.mem_cons_of_mem _ hy)) hd1 fs1
    refine ⟨fs', ?_, ?_, ?_⟩
    · rw [List.foldlM_cons, h2]
      exact i1
    · intro y hy
      rcases List.mem_cons.1 hy with rfl | hy
      · refine ⟨dir, h3.mono fun f hf => i3 f fun z hz => cycles_apart ?_ hf⟩
        intro e
        exact hx1 (List.mem_map.2 ⟨z, hz, e.symm⟩)
      · exact i2 y hy
    · intro f hf
      rw [i3 f fun z hz => hf z (List.mem_cons_of_mem _ hz), h4 f (hf x List.mem_cons_self)]

end
end Conduit.MeshIO
