import Verif.Lemmas.MapBack2
/-
What the new domains give to an original one.
-/
namespace Conduit.Back
open Conduit.Mesh Conduit.Part Conduit.Merge Conduit.Comb
variable {F : Type}

/-! ### where the elements came from -/

/-- The numbers of the elements of domain `d`. -/
def selN (d : Int) (l : List (Int × Nat)) : List Nat := (l.zipIdx.filter fun x => x.1.1 == d).map (·.2)

/-- The numbers they had. -/
def tgtN (d : Int) (l : List (Int × Nat)) : List Nat := (l.filter fun x => x.1 == d).map (·.2)

/-- As they are read. -/
def asRead (l : List (Int × Nat)) : List (Int × Int) := l.map fun x => (x.1, (x.2 : Int))

theorem selElems_eq (d : Int) (l : List (Int × Nat)) : selElems d (asRead l) = ints (selN d l) := by
  unfold selElems asRead selN ints
  rw [List.zipIdx_map, List.filter_map, List.map_map, List.map_map]
  rfl

theorem tgtElems_eq (d : Int) (l : List (Int × Nat)) : tgtElems d (asRead l) = ints (tgtN d l) := by
  unfold tgtElems asRead tgtN ints
  rw [List.filter_map, List.map_map, List.map_map]
  rfl

theorem tgtN_eq (d : Int) (l : List (Int × Nat)) (s : Nat) : tgtN d l = ((l.zipIdx s).filter fun x => x.1.1 == d).map fun x => x.1.2 := by
  induction l generalizing s with
  | nil => rfl
  | cons a l ih =>
    unfold tgtN at ih ⊢
    rw [List.zipIdx_cons, List.filter_cons, List.filter_cons]
    by_cases h : (a.1 == d) = true
    · rw [if_pos h, if_pos h, List.map_cons, List.map_cons, ih (s + 1)]
    · rw [if_neg h, if_neg h, ih (s + 1)]

theorem sel_tgt {d : Int} {l : List (Int × Nat)} {j e : Nat} (h : l[j]? = some (d, e)) :
    ∃ r : Nat, (selN d l)[r]? = some j ∧ (tgtN d l)[r]? = some e := by
  have hm : ((d, e), j) ∈ l.zipIdx.filter fun x => x.1.1 == d :=
    List.mem_filter.2 ⟨List.mem_zipIdx_iff_getElem?.2 h, by simp⟩
  obtain ⟨r, hr⟩ := List.getElem?_of_mem hm
  refine ⟨r, ?_, ?_⟩
  · unfold selN; rw [List.getElem?_map, hr]; rfl
  · rw [tgtN_eq d l 0, List.getElem?_map, hr]; rfl

theorem selN_lt {d : Int} {l : List (Int × Nat)} : ∀ j ∈ selN d l, j < l.length := by
  intro j hj
  obtain ⟨x, h1, h2⟩ := List.mem_map.1 hj
  have := (List.mem_filter.1 h1).1
  have := List.mem_zipIdx_iff_getElem?.1 this
  rw [h2] at this
  exact (List.getElem?_eq_some_iff.1 this).1

theorem selN_length (d : Int) (l : List (Int × Nat)) : (selN d l).length = (tgtN d l).length := by
  rw [tgtN_eq d l 0]; simp [selN]

theorem zip_reads (l : List (Int × Nat)) : ((l.map fun x => (x.2 : Int)).zipIdx.mapM fun (ek : Int × Nat) => (do
      Res.ok (← pick (l.map fun (x : Int × Nat) => x.1) (ek.2 : Int), ek.1))) = .ok (asRead l) := by
  have hh : ∀ (A B : List (Int × Nat)), ((B.map fun x => (x.2 : Int)).zipIdx A.length).mapM (fun (ek : Int × Nat) => (do
      Res.ok (← pick ((A ++ B).map fun (x : Int × Nat) => x.1) (ek.2 : Int), ek.1))) = .ok (asRead B) := by
    intro A B
    induction B generalizing A with
    | nil => rfl
    | cons b B ih =>
      rw [List.map_cons, List.zipIdx_cons, List.mapM_cons]
      have e : pick ((A ++ b :: B).map fun (x : Int × Nat) => x.1) ((A.length : Nat) : Int) = .ok b.1 := pick_nat _ _ _ (by simp)
      simp only [e, Res.bind_ok]
      have := ih (A ++ [b])
      rw [List.append_assoc, List.length_append] at this
      simp only [List.cons_append, List.nil_append, List.length_singleton] at this
      rw [this]
      rfl
  exact hh [] l

theorem origins_ok {A : Arith F} {ename gname : Str} {names : List Str} {assoc topo : Str → Str} {p : Piece F}
    (h : GoodPiece A ename gname names assoc topo p) : origins A ename p.mesh = .ok (asRead p.orig) := by
  obtain ⟨f, v, i, d, h1, h2, h3, h4, h5, h6⟩ := h.origin
  unfold origins
  rw [h.fields, Res.bind_ok, if_pos ((hasChild_iff_get _ _).2 ⟨f, h1⟩)]
  simp only [h1, h2, h3, h4, h5, h6, Res.bind_ok]
  exact zip_reads p.orig

/-! ### shared points -/

theorem lastPlace_some {g : Int} {l : List Int} {s r : Nat} (h : lastPlace g l s = some r) :
    s ≤ r ∧ l[r - s]? = some g ∧ ∀ r', r - s < r' → l[r']? ≠ some g := by
  induction l generalizing s with
  | nil => cases h
  | cons x l ih =>
    rw [lastPlace] at h
    split at h
    case h_1 r0 hr =>
      cases h
      obtain ⟨a, b, c⟩ := ih hr
      have e : r - s = (r - (s + 1)) + 1 := by omega
      refine ⟨by omega, by rw [e, List.getElem?_cons_succ]; exact b, fun r' hr' => ?_⟩
      cases r' with
      | zero => omega
      | succ r' => rw [List.getElem?_cons_succ]; exact c r' (by omega)
    case h_2 hr =>
      split at h
      case isTrue hx =>
        cases h
        refine ⟨le_refl _, by simp [hx], fun r' hr' => ?_⟩
        cases r' with
        | zero => omega
        | succ r' =>
          rw [List.getElem?_cons_succ]
          intro hg
          have : ∀ (l : List Int) (s : Nat), lastPlace g l s = none → g ∉ l := by
            intro l
            induction l with
            | nil => intro _ _; simp
            | cons y l ih' =>
              intro s hn hm
              rw [lastPlace] at hn
              split at hn
              · cases hn
              case h_2 hr' =>
                split at hn
                · cases hn
                case isFalse hy =>
                  rcases List.mem_cons.1 hm with rfl | hm
                  · exact hy rfl
                  · exact ih' _ hr' hm
          exact this _ _ hr (List.mem_of_getElem? hg)
      · cases h

theorem lastPlace_none {g : Int} {l : List Int} {s : Nat} (h : lastPlace g l s = none) : g ∉ l := by
  induction l generalizing s with
  | nil => simp
  | cons y l ih =>
    rw [lastPlace] at h
    split at h
    · cases h
    case h_2 hr =>
      split at h
      · cases h
      case isFalse hy =>
        intro hm
        rcases List.mem_cons.1 hm with rfl | hm
        · exact hy rfl
        · exact ih hr hm

theorem lastPlace_eq {g : Int} {l : List Int} {r : Nat} (h : l[r]? = some g) (hl : ∀ r', r < r' → l[r']? ≠ some g) : lastPlace g l 0 = some r := by
  cases e : lastPlace g l 0 with
  | none => exact absurd (List.mem_of_getElem? h) (lastPlace_none e)
  | some s =>
    obtain ⟨_, a, b⟩ := lastPlace_some e
    rw [Nat.sub_zero] at a b
    rcases Nat.lt_trichotomy r s with hlt | rfl | hlt
    · exact absurd a (hl s hlt)
    · rfl
    · exact absurd h (b r hlt)

/-- The points both have. -/
def sharedN (ogids ngids : List Int) : List (Nat × Nat) :=
  ogids.zipIdx.filterMap fun gv => (lastPlace gv.1 ngids 0).map fun r => (gv.2, r)

theorem shared_eq (ogids ngids : List Int) : sharedPoints ogids ngids = (sharedN ogids ngids).map fun x => ((x.1 : Int), (x.2 : Int)) := by
  unfold sharedPoints sharedN
  rw [List.map_filterMap]
  congr 1
  funext gv
  cases lastPlace gv.1 ngids 0 <;> rfl

theorem sharedN_mem {ogids ngids : List Int} {q r : Nat} :
    (q, r) ∈ sharedN ogids ngids ↔ ∃ g, ogids[q]? = some g ∧ lastPlace g ngids 0 = some r := by
  unfold sharedN
  rw [List.mem_filterMap]
  constructor
  · rintro ⟨⟨g, q'⟩, h1, h2⟩
    obtain ⟨r', h3, h4⟩ := Option.map_eq_some_iff.1 h2
    cases h4
    exact ⟨g, List.mem_zipIdx_iff_getElem?.1 h1, h3⟩
  · rintro ⟨g, h1, h2⟩
    exact ⟨(g, q), List.mem_zipIdx_iff_getElem?.2 h1, by simp [h2]⟩

theorem sharedN_nodup (ogids ngids : List Int) : ((sharedN ogids ngids).map (·.1)).Nodup := by
  have : ∀ (l : List Int) (s : Nat), (((l.zipIdx s).filterMap fun gv => (lastPlace gv.1 ngids 0).map fun r => (gv.2, r)).map (·.1)).Nodup ∧
      ∀ q ∈ ((l.zipIdx s).filterMap fun gv => (lastPlace gv.1 ngids 0).map fun r => (gv.2, r)).map (·.1), s ≤ q := by
    intro l
    induction l with
    | nil => intro s; simp
    | cons g l ih =>
      intro s
      obtain ⟨a, b⟩ := ih (s + 1)
      rw [List.zipIdx_cons, List.filterMap_cons]
      cases e : lastPlace g ngids 0 with
      | none => exact ⟨a, fun q hq => by have := b q hq; omega⟩
      | some r =>
        simp only [Option.map_some, List.map_cons]
        refine ⟨List.nodup_cons.2 ⟨fun hm => ?_, a⟩, fun q hq => ?_⟩
        · have := b s hm; omega
        · rcases List.mem_cons.1 hq with rfl | hq
          · exact le_refl _
          · have := b q hq; omega
  exact (this ogids 0).1

/-! ### the chunk -/

/-- Which entries are taken. -/
def taken (d : Int) (p : Piece F) (vs : List (Nat × Nat)) (assoc : Str) : List Nat := if assoc = chars! "vertex" then vs.map (·.2) else selN d p.orig

/-- The field of the chunk has the entries of that of the piece. -/
def Given (assoc topo : Str → Str) (d : Int) (p : Piece F) (vs : List (Nat × Nat)) (name : Str) (f' : BNode F) : Prop :=
  ∃ v v', p.Has name (assoc name) (topo name) v ∧ Table v (p.count (assoc name)) ∧ FieldOf f' (assoc name) (topo name) v' ∧ Alike v v' ∧
    Exact v' (taken d p vs (assoc name)).length ∧
    ∀ (k id : Nat), (taken d p vs (assoc name))[k]? = some id → rowAt v' k = rowAt v id

/-- A chunk with its fields. -/
def mkChunk (d : Int) (p : Piece F) (vs : List (Nat × Nat)) (l : List (Str × BNode F)) : BNode F :=
  .obj [(chars! "fields", .obj l), (chars! "elem_map", .ints int64 (ints (tgtN d p.orig))), (chars! "vert_map", .ints int64 (ints (vs.map (·.1))))]

theorem setChild_new {n : BNode F} {a : Str} {v : BNode F} (h : a ∉ n.kids.map (·.1)) : n.setChild a v = .obj (n.kids ++ [(a, v)]) := by
  unfold BNode.setChild
  rw [if_neg]
  intro hc
  obtain ⟨x, hx⟩ := (hasChild_iff_get _ _).1 hc
  apply h
  unfold BNode.get at hx
  cases hf : n.kids.find? (fun k => k.1 == a) with
  | none => rw [hf] at hx; cases hx
  | some k =>
    have h1 := List.mem_of_find?_eq_some hf
    have h2 := List.find?_some hf
    rw [← (by simpa using h2 : k.1 = a)]
    exact List.mem_map_of_mem h1

theorem chunkFields_ok {A : Arith F} {ename gname : Str} {names : List Str} {assoc topo : Str → Str} {p : Piece F} (op : Opts)
    (hop : op.fields = []) (h : GoodPiece A ename gname names assoc topo p) (d : Int) (vs : List (Nat × Nat))
    (hvs : ∀ x ∈ vs, x.2 < p.gids.length) : ∀ (ns : List Str) (out : BNode F), (∀ n ∈ ns, n ∈ names) →
      (out.kids.map (·.1) ++ ns).Nodup →
      ∃ out' l, ns.foldlM (fun (out : BNode F) name => do
        let f ← (← p.mesh.get (chars! "fields")).get name
        let a ← (← f.get (chars! "association")).asString
        if a = chars! "vertex" then copyField op (name, f) (ints (vs.map fun (x : Nat × Nat) => x.2)) out
        else if a = chars! "element" then copyField op (name, f) (selElems d (asRead p.orig)) out
        else .error) out = .ok out' ∧ out'.kids = out.kids ++ l ∧ (ns ≠ [] → out' = .obj (out.kids ++ l)) ∧
        List.Forall₂ (fun n (k : Str × BNode F) => k.1 = n ∧ Given assoc topo d p vs n k.2) ns l
  | [], out, _, _ => ⟨out, [], rfl, by simp, fun h => absurd rfl h, .nil⟩
  | n :: ns, out, hn, hd => by
    obtain ⟨ha, v, ⟨f, hf1, hf2⟩, hv⟩ := h.has n (hn n (by simp))
    have hids : ∀ i ∈ taken d p vs (assoc n), i < p.count (assoc n) := by
      intro i hi
      rcases ha with ha | ha
      · rw [taken, if_pos ha] at hi
        obtain ⟨x, hx, rfl⟩ := List.mem_map.1 hi
        rw [Piece.count, if_neg (by rw [ha]; decide)]
        exact hvs x hx
      · rw [taken, if_neg (by rw [ha]; decide)] at hi
        rw [Piece.count, if_pos ha]
        exact selN_lt i hi
    obtain ⟨f', v', c1, c2, c3, c4, c5⟩ := copy_like op hop n f (assoc n) (topo n) v hf2 _ hv (taken d p vs (assoc n)) hids out
    have hnew : n ∉ out.kids.map (·.1) := by
      intro hm
      exact (List.nodup_append.1 hd).2.2 n hm n (by simp) rfl
    rw [setChild_new hnew] at c1
    have hkids : (BNode.obj (out.kids ++ [(n, f')])).kids = out.kids ++ [(n, f')] := rfl
    obtain ⟨out', l, e1, e2, e3, e4⟩ := chunkFields_ok op hop h d vs hvs ns (.obj (out.kids ++ [(n, f')])) (fun m hm => hn m (by simp [hm])) (by
      rw [hkids, List.map_append, List.append_assoc]; exact hd)
    rw [hkids, List.append_assoc] at e2 e3
    refine ⟨out', (n, f') :: l, ?_, e2, fun _ => ?_, .cons ⟨rfl, v, v', ⟨f, hf1, hf2⟩, hv, c2, c3, c4, c5⟩ e4⟩
    · rw [List.foldlM_cons, h.fields]
      simp only [Res.bind_ok, hf1, hf2.association, BNode.asString]
      rcases ha with ha | ha
      · rw [taken, if_pos ha] at c1
        rw [if_pos ha, c1, Res.bind_ok, ← e1, h.fields]; rfl
      · rw [taken, if_neg (by rw [ha]; decide)] at c1
        rw [if_neg (by rw [ha]; decide), if_pos ha, selElems_eq, c1, Res.bind_ok, ← e1, h.fields, selElems_eq]; rfl
    · by_cases hns : ns = []
      · subst hns
        cases e4
        simp only [List.foldlM_nil] at e1
        have : out' = .obj (out.kids ++ [(n, f')]) := by
          have e1' : Res.ok (BNode.obj (out.kids ++ [(n, f')])) = Res.ok out' := e1
          injection e1' with e1'
          exact e1'.symm
        exact this
      · exact e3 hns

theorem chunkFor_ok {A : Arith F} {ename gname : Str} {names : List Str} {assoc topo : Str → Str} {p : Piece F} (op : Opts)
    (hop : op.fields = []) (h : GoodPiece A ename gname names assoc topo p) (hne : names ≠ []) (hnd : names.Nodup) (d : Int) (vs : List (Nat × Nat))
    (hvs : ∀ x ∈ vs, x.2 < p.gids.length) :
    ∃ l, chunkFor op names p.mesh (asRead p.orig) (vs.map fun x => ((x.1 : Int), (x.2 : Int))) d = .ok (mkChunk d p vs l) ∧
      List.Forall₂ (fun n (k : Str × BNode F) => k.1 = n ∧ Given assoc topo d p vs n k.2) names l := by
  obtain ⟨out', l, e1, e2, e3, e4⟩ := chunkFields_ok op hop h d vs hvs names .empty (fun _ h => h) (by simpa [BNode.kids] using hnd)
  refine ⟨l, ?_, e4⟩
  have e3' : out' = .obj l := e3 hne
  subst e3'
  unfold chunkFor
  have hmap : (vs.map fun x => ((x.1 : Int), (x.2 : Int))).map (·.2) = ints (vs.map (·.2)) := by rw [ints, List.map_map, List.map_map]; rfl
  have hmap1 : (vs.map fun x => ((x.1 : Int), (x.2 : Int))).map (·.1) = ints (vs.map (·.1)) := by rw [ints, List.map_map, List.map_map]; rfl
  rw [hmap, e1, Res.bind_ok, tgtElems_eq, hmap1]
  rfl

end Conduit.Back
