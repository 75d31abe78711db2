import Verif.Lemmas.MeshIO9
import Verif.Lemmas.MeshLegacy
import Verif.Props.MeshIndex
/-
A mesh that was written is read back (C88).
-/
namespace Conduit.MeshIO
open Conduit.Mesh

section
variable {F : Type}

/-! ### Options and paths -/

theorem strOpt_mem {o : BNode F} {f dflt : Str} {P : Str → Prop} (h : ∀ s, o.get f = .ok (.str s) → P s) (hd : P dflt) : P (strOpt o f dflt) := by
  unfold strOpt
  split
  · rename_i s e; exact h s e
  · exact hd

theorem readOpts_ok (A : Arith F) {o : BNode F} (h : OptsOk o) :
    ∃ p, readOpts A o = .ok p ∧ p.style = strOpt o (chars! "file_style") (chars! "default") ∧ p.suffix = strOpt o (chars! "suffix") (chars! "default") ∧
      p.name = strOpt o (chars! "mesh_name") (chars! "mesh") ∧ p.truncate = decide (strOpt o (chars! "truncate") [] = chars! "true") := by
  have h1 : strOpt o (chars! "file_style") (chars! "default") ∈ [chars! "default", chars! "root_only", chars! "multi_file"] :=
    strOpt_mem (P := fun s => s ∈ [chars! "default", chars! "root_only", chars! "multi_file"]) h.style (by decide)
  have h2 : strOpt o (chars! "suffix") (chars! "default") ∈ [chars! "default", chars! "cycle", chars! "none"] :=
    strOpt_mem (P := fun s => s ∈ [chars! "default", chars! "cycle", chars! "none"]) h.suffix (by decide)
  unfold readOpts
  dsimp only
  rw [if_neg (fun q => q h1), if_neg (fun q => q h2)]
  rcases get_cases o (chars! "number_of_files") with ⟨x, hx⟩ | hx
  · rw [hx]
    cases x with
    | ints t l =>
      cases l with
      | nil => exact absurd rfl (h.files t [] hx)
      | cons v l => exact ⟨_, rfl, rfl, rfl, rfl, rfl⟩
    | _ => exact ⟨_, rfl, rfl, rfl, rfl, rfl⟩
  · rw [hx]; exact ⟨_, rfl, rfl, rfl, rfl, rfl⟩

theorem meshName_strOpt {o : BNode F} {s : Str} (h : MeshName o s) : strOpt o (chars! "mesh_name") (chars! "mesh") = s := by
  unfold strOpt
  cases h with
  | given h => rw [h]
  | default h =>
    split
    · rename_i s e; exact absurd e (h s)
    · rfl

theorem cycleSuffix_ok (A : Arith F) {o : BNode F} (counter : Int) {i : Nat} {d : BNode F} (hs : Savable d) (path : Str) :
    ∃ suffix, cycleSuffix A (strOpt o (chars! "suffix") (chars! "default")) counter (setId i d) = .ok suffix ∧
      NoMarks suffix ∧ '/' ∉ suffix ∧ RootName A o counter path d (path ++ suffix ++ chars! ".root") := by
  have hE := fun c => entry_setId i d (f := chars! "cycle") (by decide) c
  have hm : ∀ v, NoMarks (chars! ".cycle_" ++ pad6 v) ∧ '/' ∉ (chars! ".cycle_" ++ pad6 v) := by
    intro v
    refine ⟨NoMarks.append (by unfold NoMarks; decide) (noMarks_pad6 v), ?_⟩
    rw [List.mem_append, not_or]
    exact ⟨by decide, noSlash_pad6 v⟩
  have hnil : NoMarks [] ∧ '/' ∉ ([] : Str) := ⟨by unfold NoMarks; decide, by decide⟩
  have hget : ∀ t, t ≠ chars! "default" → (strOpt o (chars! "suffix") (chars! "default") = t ↔ o.get (chars! "suffix") = .ok (.str t)) := by
    intro t ht
    unfold strOpt
    split
    · rename_i s e
      rw [e]
      constructor
      · rintro rfl; rfl
      · intro q; injection q with q; injection q
    · rename_i e
      constructor
      · intro q; exact absurd q.symm ht
      · intro q; exact absurd q (e t)
  obtain ⟨s, s1, -, -⟩ := state_setId i d
  unfold cycleSuffix
  rw [getOrEmpty_ok s1]
  rcases get_cases s (chars! "cycle") with ⟨c, hc⟩ | hc
  · rw [hc]
    dsimp only
    have hcy : Entry d (chars! "state") (chars! "cycle") c := (hE c).1 ⟨s, s1, hc⟩
    by_cases e : strOpt o (chars! "suffix") (chars! "default") = chars! "none"
    · rw [if_pos e]
      have := (hget _ (by decide)).1 e
      exact ⟨[], rfl, hnil.1, hnil.2, by rw [List.append_nil]; exact .none (.inr this)⟩
    · rw [if_neg e]
      obtain ⟨v, hv⟩ := number_int64 A (hs.state _ (by decide) c hcy)
      have hv' : c.toInt32 A = .ok (int32.cast v) := by rw [BNode.toInt32, hv]; rfl
      rw [hv']
      refine ⟨_, rfl, (hm _).1, (hm _).2, ?_⟩
      rw [← List.append_assoc]
      exact .cycle hcy hv' fun q => e ((hget _ (by decide)).2 q)
  · have hno : ∀ c, ¬ Entry d (chars! "state") (chars! "cycle") c := by
      intro c q
      obtain ⟨e, h1, h2⟩ := (hE c).2 q
      obtain rfl := get_inj s1 h1
      rw [hc] at h2; cases h2
    rw [hc]
    dsimp only
    by_cases e : strOpt o (chars! "suffix") (chars! "default") = chars! "cycle"
    · rw [if_pos e]
      have := (hget _ (by decide)).1 e
      refine ⟨_, rfl, (hm _).1, (hm _).2, ?_⟩
      rw [← List.append_assoc]
      exact .counter hno this
    · rw [if_neg e]
      exact ⟨[], rfl, hnil.1, hnil.2, by
        rw [List.append_nil]
        exact .none (.inl ⟨hno, fun q => e ((hget _ (by decide)).2 q)⟩)⟩

/-! ### Written -/

/-- Everything is where the index says. -/
structure Stored (name protocol root dir : Str) (ds : List (BNode F)) (fs : Disk F) : Prop where
  split : ∃ base, Split root dir base
  rootColon : ':' ∉ root
  content : ∃ R idx q place, fs root = some R ∧ R.get (chars! "blueprint_index") = .ok (.obj [(name, tidy (addPartition q idx))]) ∧
    (∀ s ∈ rootNames, ∀ x, R.get s = .ok x → Plain x ∧ tidy x = x) ∧
    Indexed name ds (addPartition q idx) ∧
    (∃ s, (addPartition q idx).get (chars! "state") = .ok s ∧ s.get (chars! "partition_pattern") = .ok (.str q.part) ∧
      s.get (chars! "partition_map") = if q.map = [] then .error else .ok (.obj q.map)) ∧
    Says q ds.length dir place ∧
    (R.get (chars! "file_pattern") = .ok (.str q.file) ∧ R.get (chars! "tree_pattern") = .ok (.str q.tree) ∧
      R.get (chars! "number_of_trees") = .ok (.ints int32 [(ds.length : Int)]) ∧
      ∃ f : Nat, R.get (chars! "number_of_files") = .ok (.ints int32 [(f : Int)]) ∧ f ≤ ds.length ∧
        ('%' ∉ root → '%' ∉ protocol → Old q.file q.tree f ds.length dir place)) ∧
    ∀ i d, ds[i]? = some d → ':' ∉ (place i).1 ∧
      (FileOf root (place i).1 ∧ ∃ s r, (place i).2 ++ [name] = s :: r ∧ s ∉ rootNames) ∧ (∀ s ∈ (place i).2 ++ [name], GoodName s) ∧
      ∃ T, fs (place i).1 = some T ∧ down T ((place i).2 ++ [name]) = .ok (tidy d)

theorem place_good {p : Plan} (hok : PlanOk p) (toFile : Nat → Nat) (i : Nat) :
    ':' ∉ (place p toFile i).1 ∧ (∀ s ∈ (place p toFile i).2 ++ [p.name], GoodName s) ∧
      (∃ s r, (place p toFile i).2 ++ [p.name] = s :: r ∧ s ∉ rootNames) ∧ (p.rootOnly = true → (place p toFile i).1 = p.root) ∧
      (p.rootOnly = false → (place p toFile i).1 ≠ p.root) := by
  have hdn : domainName i ∉ rootNames := fun h => domainName_ne_root i h rfl
  unfold place
  cases hr : p.rootOnly with
  | true =>
    rw [if_pos rfl]
    refine ⟨hok.root, ?_, ?_, fun _ => rfl, by simp⟩
    · dsimp only
      split
      · simpa using hok.name.1
      · simpa using ⟨good_domainName i, hok.name.1⟩
    · dsimp only
      split
      · exact ⟨_, _, rfl, hok.name.2⟩
      · exact ⟨_, _, rfl, hdn⟩
  | false =>
    obtain ⟨d1, d2, d3, d4⟩ := hok.dir hr
    have hne : ∀ x, p.dir ++ '/' :: x ≠ p.root := by
      intro x e
      rw [d4] at e
      have := List.append_cancel_left e
      simp at this
    rw [if_neg (by simp)]
    split
    · refine ⟨(d3.append (NoMarks.cons (by decide) (((noMarks_domainName i).append (by unfold NoMarks; decide)).append hok.protocol.1))).1,
        by simpa using hok.name.1, ⟨_, _, rfl, hok.name.2⟩, by simp, fun _ => hne _⟩
    · refine ⟨(d3.append (NoMarks.cons (by decide) (((noMarks_fileName _).append (by unfold NoMarks; decide)).append hok.protocol.1))).1,
        by simpa using ⟨good_domainName i, hok.name.1⟩, ⟨_, _, rfl, hdn⟩, by simp, fun _ => hne _⟩

theorem planned_stored {p : Plan} {ds : List (BNode F)} {fs : Disk F} {S : Str → Str} {dir base : Str} (version : Str)
    (hok : PlanOk p) (hn : p.doms = ds.length) (hds : ds ≠ []) (hfresh : Fresh p fs)
    (hsd : ∀ d ∈ ds, Plain d ∧ Savable d ∧ Has d (chars! "state"))
    (hS : ∀ d ∈ ds, ∀ n c, Entry d (chars! "coordsets") n c → InSystem c (S n))
    (hsr : Split p.root dir base) (hrm : NoMarks p.root) (hrootonly : p.rootOnly = true → 1 < p.doms → dir = [])
    (hdir : p.rootOnly = false → ∃ b, base = b ++ chars! ".root" ∧ Split p.dir dir b) :
    ∃ fs1 idx q bp fs2, writeDoms p ds fs = .ok fs1 ∧ generateIndex (.list ds) p.name p.doms = .ok idx ∧ patterns p = .ok q ∧
      change (fun _ => addPartition q idx) .empty p.name = .ok bp ∧
      writeAll fs1 p.root (if !p.rootOnly && p.truncate then .wt else .rwa) (rootNode p q version bp) = .ok fs2 ∧
      Stored p.name p.protocol p.root dir ds fs2 ∧
      ∀ f, f ≠ p.root → (p.rootOnly = false → ∀ x, f ≠ p.dir ++ '/' :: x) → fs2 f = fs f := by
  have hpos : 0 < p.doms := by rw [hn]; exact List.length_pos_iff.2 hds
  obtain ⟨toFile, fs1, t1, w1, w2, w3, w4⟩ := writeDoms_spec hok (ds := ds) hn hds (fun d hd => (hsd d hd).1) hfresh
  obtain ⟨idx, i1, i2, i3⟩ := index_made (name := p.name) (ds := ds) (S := S) (p.doms : Int) hok.name.1 hds hsd hS
  obtain ⟨s, s1, s2, -⟩ := i3
  obtain ⟨q, q1, q2⟩ := patterns_says (F := F) (toFile := toFile) hok hpos hsr hrm hrootonly hdir t1
  rw [hn] at q2
  obtain ⟨p1, p2⟩ := partition_made q i2 ⟨s, s1, s2⟩ q2.map
  have hbp : change (fun _ => addPartition q idx) (.empty : BNode F) p.name = .ok (.obj [(p.name, addPartition q idx)]) := by
    have := change_alter (fun _ => addPartition q idx) (l := [p.name]) (by simp) (by simpa using hok.name.1) (.empty : BNode F)
    rw [show slash [p.name] = p.name from rfl] at this
    rw [this]; rfl
  have hbpl : Plain (.obj [(p.name, addPartition q idx)] : BNode F) := by
    refine plain_obj (by simp) fun k hk => ?_
    rw [List.mem_singleton] at hk
    subst hk
    exact ⟨hok.valid, p1.plain⟩
  obtain ⟨R, r1, r2, r3⟩ := writeRoot_spec (p := p) (fs := fs1) q version hbpl hok.root (m := if !p.rootOnly && p.truncate then .wt else .rwa)
    (by split <;> simp) (by
      intro s hs
      cases hr : p.rootOnly with
      | true =>
        obtain ⟨T, e1, e2⟩ := w4 hr
        rw [e1]
        exact e2 s hs
      | false =>
        cases ht : p.truncate with
        | true => rfl
        | false =>
          rcases hfresh with h | ⟨h, -⟩
          · rw [ht] at h; cases h
          · rw [w3 p.root fun i _ => Ne.symm ((place_good hok toFile i).2.2.2.2 hr), h]; rfl)
  have htid : tidy (.obj [(p.name, addPartition q idx)] : BNode F) = .obj [(p.name, tidy (addPartition q idx))] := by
    rw [tidy_obj (by simp)]; rfl
  refine ⟨fs1, idx, q, _, fs1.put p.root R, w1, i1, q1, hbp, r1, ⟨⟨_, hsr⟩, hrm.1, R, idx, q, place p toFile, ?_, ?_, r2.parts, p1, p2, q2,
    ⟨r2.old.1, r2.old.2.1, by rw [r2.old.2.2.1, hn], p.files, r2.old.2.2.2, by rw [← hn]; exact hok.few,
      fun c1 c2 => by rw [← hn]; exact patterns_old hok hsr ⟨c1, c2⟩ q1 hdir t1⟩, ?_⟩, ?_⟩
  · rw [Disk.put, if_pos rfl]
  · rw [r2.index, htid]
  · intro i d hi
    obtain ⟨v1, v2, ⟨s', r', v3, v3'⟩, v4, v5⟩ := place_good hok toFile i
    obtain ⟨T, e1, e2⟩ := w2 i d hi
    refine ⟨v1, ⟨?_, s', r', v3, v3'⟩, v2, ?_⟩
    · cases hr : p.rootOnly with
      | true => exact .inl (v4 hr)
      | false =>
        refine .inr ⟨p.dir, ?_⟩
        unfold place
        rw [if_neg (by simp [hr])]
        split
        · exact ⟨_, (hok.dir hr).2.2.2, rfl⟩
        · exact ⟨_, (hok.dir hr).2.2.2, rfl⟩
    by_cases hr : p.rootOnly = true
    · refine ⟨R, by rw [v4 hr, Disk.put, if_pos rfl], ?_⟩
      rw [v4 hr] at e1
      rw [v3] at e2 ⊢
      rw [down, r3 s' v3', e1]
      have : (if (if !p.rootOnly && p.truncate then Mode.wt else Mode.rwa).loads then (some T).getD (.empty : BNode F) else .empty) = T := by
        rw [hr]; rfl
      rw [this]
      exact e2
    · have hr : p.rootOnly = false := by simpa using hr
      refine ⟨T, by rw [Disk.put, if_neg (v5 hr)]; exact e1, e2⟩
  · intro f hnr hf
    rw [Disk.put, if_neg hnr, w3 f]
    intro i _
    cases hr : p.rootOnly with
    | true => rw [(place_good hok toFile i).2.2.2.1 hr]; exact hnr
    | false =>
      unfold place
      rw [if_neg (by simp [hr])]
      split
      · exact hf hr _
      · exact hf hr _

theorem writeMesh_eq (A : Arith F) (version : Str) (counter : Int) {mesh o : BNode F} {path protocol : Str} {fs : Disk F} {op : Opts} {d : BNode F}
    {l : List (BNode F)} {suffix : Str} {p : Plan} {fs1 fs2 : Disk F} {idx bp : BNode F} {q : Patterns F}
    (o1 : readOpts A o = .ok op) (hcl : cleanMesh A mesh = .ok (d :: l)) (hc : cycleSuffix A op.suffix counter d = .ok suffix)
    (hp : plan op path protocol suffix (d :: l).length = p) (w1 : writeDoms p (d :: l) fs = .ok fs1)
    (i1 : generateIndex (.list (d :: l)) p.name p.doms = .ok idx) (q1 : patterns p = .ok q)
    (b1 : change (fun _ => addPartition q idx) .empty p.name = .ok bp)
    (r1 : writeAll fs1 p.root (if !p.rootOnly && p.truncate then .wt else .rwa) (rootNode p q version bp) = .ok fs2) :
    writeMesh A version counter mesh path protocol o fs = .ok fs2 := by
  unfold writeMesh
  rw [o1, Res.bind_ok, hcl, Res.bind_ok]
  dsimp only
  rw [hc, Res.bind_ok, hp, w1, Res.bind_ok, i1, Res.bind_ok, q1, Res.bind_ok, b1, Res.bind_ok, r1]

theorem writeMesh_stored (A : Arith F) (version : Str) (counter : Int) {mesh : BNode F} {doms : List (BNode F)} {path protocol name : Str} {o : BNode F}
    {fs : Disk F} {S : Str → Str} (hp : Plain mesh) (hd : DomainsOf mesh doms) (hs : ∀ d ∈ doms, Savable d)
    (hS : ∀ d ∈ doms, ∀ n c, Entry d (chars! "coordsets") n c → InSystem c (S n))
    (ho : OptsOk o) (hpath : GoodPath path) (hpr : GoodProtocol protocol) (hname : MeshName o name)
    (hroot : o.get (chars! "file_style") = .ok (.str (chars! "root_only")) → doms.length ≤ 1 ∨ '/' ∉ path)
    (hfr : o.get (chars! "truncate") = .ok (.str (chars! "true")) ∨ ∀ f, path <+: f → fs f = none) :
    ∃ d0 root dir fs', doms[0]? = some d0 ∧ RootName A o counter path d0 root ∧
      writeMesh A version counter mesh path protocol o fs = .ok fs' ∧ Stored name protocol root dir (doms.mapIdx setId) fs' ∧
      ∀ f, ¬ FileOf root f → fs' f = fs f := by
  obtain ⟨hcl, hne⟩ := cleanMesh_spec A hd hs
  have hpd := plain_doms hp hd
  obtain ⟨op, o1, o2, o3, o4, o5⟩ := readOpts_ok A ho
  cases doms with
  | nil => exact absurd rfl hne
  | cons d0 rest =>
  obtain ⟨suffix, c1, c2, c3, c4⟩ := cycleSuffix_ok A (o := o) counter (i := 0) (hs d0 List.mem_cons_self) path
  obtain ⟨g1, g2, g3, base, b1, b2, b3⟩ := hpath
  obtain ⟨dir, hsp⟩ : ∃ dir, Split path dir base := by
    rcases b3 with e | ⟨dir, e1, e2, e3⟩
    · exact ⟨[], b1, b2, .inl ⟨rfl, e⟩⟩
    · exact ⟨dir, b1, b2, .inr ⟨e1, e2, e3⟩⟩
  have hsd := hsp.add c3
  have hsr := hsd.add (s := chars! ".root") (by decide)
  have hpm : NoMarks path := ⟨g1, g2, g3⟩
  have hrm : NoMarks (path ++ suffix ++ chars! ".root") := (hpm.append c2).append (by unfold NoMarks; decide)
  obtain ⟨ds, hdsd⟩ : ∃ ds, ds = (d0 :: rest).mapIdx setId := ⟨_, rfl⟩
  have hlen : ds.length = rest.length + 1 := by rw [hdsd, List.length_mapIdx]; rfl
  have hds : ds ≠ [] := List.length_pos_iff.1 (by omega)
  obtain ⟨p, hplan⟩ : ∃ p, plan op path protocol suffix ds.length = p := ⟨_, rfl⟩
  have p1 : p.rootOnly = (if op.style = chars! "default" then !decide (1 < ds.length) else op.style = chars! "root_only") := by rw [← hplan]; rfl
  have p2 : p.dir = if p.rootOnly then [] else path ++ suffix := by rw [← hplan]; rfl
  have p3 : p.root = path ++ suffix ++ chars! ".root" := by rw [← hplan]; rfl
  have p4 : p.doms = ds.length := by rw [← hplan]; rfl
  have p5 : p.files = if op.files ≤ 0 ∨ (ds.length : Int) < op.files then ds.length else op.files.toNat := by rw [← hplan]; rfl
  have p6 : p.protocol = protocol := by rw [← hplan]; rfl
  have p7 : p.truncate = op.truncate := by rw [← hplan]; rfl
  have pn : p.name = name := by rw [← meshName_strOpt hname, ← o4, ← hplan]; rfl
  have hdir : p.rootOnly = false → p.dir = path ++ suffix := fun hr => by rw [p2, hr]; rfl
  have hgn : GoodName name ∧ name ∉ rootNames := by
    rw [← meshName_strOpt hname]
    refine strOpt_mem (P := fun s => GoodName s ∧ s ∉ rootNames) (fun s h => ?_) ⟨by unfold GoodName; decide, by decide⟩
    obtain ⟨q1, q2⟩ := ho.name s h
    exact ⟨q1, fun q => q2 (by simp only [rootNames, List.mem_cons, List.not_mem_nil, or_false] at q ⊢; exact .inr q)⟩
  have hval : name ≠ chars! "valid" := by
    rw [← meshName_strOpt hname]
    refine strOpt_mem (P := fun s => s ≠ chars! "valid") (fun s h => ?_) (by decide)
    obtain ⟨-, q2⟩ := ho.name s h
    rintro rfl
    exact q2 (by decide)
  have hok : PlanOk p := by
    refine ⟨by rw [pn]; exact hgn, by rw [pn]; exact hval, ?_, by rw [p3]; exact hrm.1, fun hr => ?_, by
      rw [p6]; exact ⟨⟨hpr.1, hpr.2.1, hpr.2.2.1⟩, hpr.2.2.2⟩, ?_⟩
    · rw [p5]
      split <;> omega
    · rw [hdir hr, p3]
      exact ⟨hsd.ends.1, hsd.ends.2, hpm.append c2, rfl⟩
    · rw [p5, p4]
      split <;> omega
  have hfresh : Fresh p fs := by
    rcases hfr with h | h
    · left
      rw [p7, o5, strOpt, h]
      rfl
    · right
      refine ⟨h _ (by rw [p3]; exact ⟨suffix ++ chars! ".root", by simp⟩), fun hr f => h _ ?_⟩
      rw [hdir hr]
      exact ⟨suffix ++ '/' :: f, by simp⟩
  have hsd' : ∀ d ∈ ds, Plain d ∧ Savable d ∧ Has d (chars! "state") := by
    intro d hdm
    rw [hdsd] at hdm
    obtain ⟨i, hi, rfl⟩ := List.mem_mapIdx.1 hdm
    exact setId_spec i (hpd _ (List.getElem_mem _)) (hs _ (List.getElem_mem _))
  have hS' : ∀ d ∈ ds, ∀ n c, Entry d (chars! "coordsets") n c → InSystem c (S n) := by
    intro d hdm n c hc
    rw [hdsd] at hdm
    obtain ⟨i, hi, rfl⟩ := List.mem_mapIdx.1 hdm
    exact hS _ (List.getElem_mem hi) n c ((entry_congr (get_setId i _ (by decide))).1 hc)
  have hrootonly : p.rootOnly = true → 1 < p.doms → dir = [] := by
    intro hr hm
    rw [p4] at hm
    rw [p1] at hr
    have hst : o.get (chars! "file_style") = .ok (.str (chars! "root_only")) := by
      split at hr
      · simp [hm] at hr
      · rename_i e
        have e2 : op.style = chars! "root_only" := by simpa using hr
        rw [o2] at e2
        unfold strOpt at e2
        split at e2
        · rename_i x ex; rw [ex, e2]
        · exact absurd e2 (by decide)
    rcases hroot hst with q | q
    · rw [List.length_cons] at q; omega
    · rcases hsp.eq with ⟨e, -⟩ | ⟨-, -, e⟩
      · exact e
      · exact absurd (by rw [e]; simp) q
  obtain ⟨fs1, idx, q, bp, fs2, w1, w2, w3, w4, w5, w6, w7⟩ := planned_stored (S := S) (dir := dir) (base := base ++ suffix ++ chars! ".root")
    version hok p4 hds hfresh hsd' hS' (by rw [p3]; exact hsr) (by rw [p3]; exact hrm) hrootonly
    (fun hr => ⟨base ++ suffix, rfl, by rw [hdir hr]; exact hsd⟩)
  refine ⟨d0, path ++ suffix ++ chars! ".root", dir, fs2, rfl, c4, ?_, ?_, fun f hf => w7 f ?_ ?_⟩
  · have hcons : ds = setId 0 d0 :: rest.mapIdx (fun i => setId (i + 1)) := by rw [hdsd]; exact List.mapIdx_cons
    rw [hcons] at hplan w1 w2
    rw [← hdsd, hcons] at hcl
    rw [← o3] at c1
    exact writeMesh_eq A version counter o1 hcl c1 hplan w1 w2 w3 w4 w5
  · rw [← pn, ← p3, ← p6, ← hdsd]; exact w6
  · rintro rfl
    exact hf (.inl p3)
  · rintro hr x rfl
    exact hf (.inr ⟨path ++ suffix, x, rfl, by rw [hdir hr]⟩)

end
end Conduit.MeshIO
