import Verif.Lemmas.MeshTopo
/-
Conversions of coordsets and grids, in terms of what the conversions read from the trees.
-/
namespace Conduit.Mesh
variable {F : Type}

/-! ### C70 -/

theorem mapCoord_names (r : F → F) (g : List (Axis F)) : (mapCoord r g).map (·.name) = g.map (·.name) := by
  simp [mapCoord]

theorem mapCoord_lens (r : F → F) (g : List (Axis F)) : (mapCoord r g).map (·.len) = g.map (·.len) := by
  simp [mapCoord]

theorem toExplicit_uniform (A : Arith F) (n : BNode F) (g : List (Axis F)) (h : UniformRd A n g)
    (hv : n.hasChild (chars! "values") = false) :
    toExplicit A .uniform n = .ok (explicitOf (widestFloat n) (mapCoord (storeF A (widestFloat n) true) g)) := by
  apply toExplicit_eq
  · rw [mapCoord_names]; exact h.names
  · intro i a ha
    rw [mapCoord, List.getElem?_map] at ha
    cases hg : g[i]? with
    | none => simp [hg] at ha
    | some x =>
      rw [hg] at ha
      simp only [Option.map_some, Option.some.injEq] at ha
      subst ha
      simpa [axisLen] using (h.axis i x hg).1
  · intro i a ha
    rw [mapCoord, List.getElem?_map] at ha
    cases hg : g[i]? with
    | none => simp [hg] at ha
    | some x =>
      rw [hg] at ha
      simp only [Option.map_some, Option.some.injEq] at ha
      subst ha
      obtain ⟨_, o, s, h2, h3, h4⟩ := h.axis i x hg
      refine ⟨.empty, o, s, by simp [sourceOf, hv], h2, h3, fun d _ => ?_⟩
      simp [axisValue, h4]

/-- C70: the explicit form of a uniform coordset lists every point of the grid, under each axis its
    coordinate along that axis: the float64 value if the coordset holds a float64, else that value
    rounded to float32. -/
theorem rd_uniform_explicit (A : Arith F) (n : BNode F) (g : List (Axis F)) (h : UniformRd A n g)
    (hv : n.hasChild (chars! "values") = false) :
    ∃ m, toExplicit A .uniform n = .ok m ∧ (HasLeaf n (.f true) → Explicit m g) ∧
      (¬ HasLeaf n (.f true) → Explicit m (mapCoord A.narrow g)) := by
  have hnd := axes_nodup n _ h.names
  refine ⟨_, toExplicit_uniform A n g h hv, fun hl => ?_, fun hl => ?_⟩
  · have hid : mapCoord (storeF A (widestFloat n) true) g = g := by
      rw [widestFloat_true n hl]
      exact (List.map_congr_left (fun a _ => by simp [storeF])).trans (List.map_id' g)
    rw [hid]
    exact explicitOf_explicit _ g hnd
  · rw [widestFloat_false n hl]
    have he : mapCoord (storeF A false true) g = mapCoord A.narrow g := by simp [mapCoord, storeF]
    rw [he]
    exact explicitOf_explicit _ _ (by rw [mapCoord_names]; exact hnd)

/-- C70: the explicit form of a rectilinear coordset with floating point arrays lists every point of the grid;
    each coordinate is exactly the one given (also if the arrays differ in type). -/
theorem rd_rectilinear_explicit (A : Arith F) (n : BNode F) (g : List (Axis F)) (h : RectilinearRd n g) :
    ∃ m, toExplicit A .rectilinear n = .ok m ∧ Explicit m g :=
  ⟨_, toExplicit_rectilinear A n g h, explicitOf_explicit _ g (axes_nodup n _ h.names)⟩

/-- C70: going from uniform to explicit through the rectilinear form gives the same tree as going directly. -/
theorem rd_commute (A : Arith F) (n : BNode F) (g : List (Axis F)) (h : UniformRd A n g) (hg : g ≠ [])
    (hv : n.hasChild (chars! "values") = false) :
    ∃ r, toRectilinear A n = .ok r ∧ RectilinearRd r (mapCoord (storeF A (widestFloat n) true) g) ∧
      toExplicit A .rectilinear r = toExplicit A .uniform n := by
  have hg' : mapCoord (storeF A (widestFloat n) true) g ≠ [] := by simpa [mapCoord] using hg
  have hn' : axes n = .ok ((mapCoord (storeF A (widestFloat n) true) g).map (·.name)) := by
    rw [mapCoord_names]; exact h.names
  refine ⟨_, toRectilinear_eq A n g h, rectilinearOf_rectilinear n _ _ hg' hn', ?_⟩
  rw [toExplicit_rectilinear A _ _ (rectilinearOf_rectilinear n _ _ hg' hn'),
    widestFloat_rectilinearOf _ _ hg', toExplicit_uniform A n g h hv]

theorem axes_length (n : BNode F) (as : List Str) (h : axes n = .ok as) : as.length ≤ 3 := by
  unfold axes at h
  simp only [Res.bind_eq_ok] at h
  obtain ⟨_, _, _, _, c, _, h⟩ := h
  injection h with h
  rw [← h]
  refine Nat.le_trans (List.length_filter_le _ _) ?_
  unfold baseAxes
  split
  · decide
  · split
    · decide
    · split
      · decide
      · split
        · decide
        · decide

/-- C70: `coordset::length` counts the points of a uniform coordset, and of the rectilinear one made from it. -/
theorem rd_length (A : Arith F) (n : BNode F) (g : List (Axis F)) (h : UniformRd A n g) (hg : g ≠ [])
    (ht : n.get (chars! "type") = .ok (.str (chars! "uniform"))) (hv : n.hasChild (chars! "values") = false) :
    coordsetLength A n = .ok (count (g.map (·.len)) : Nat) ∧
    (∀ r, toRectilinear A n = .ok r → coordsetLength A r = .ok (count (g.map (·.len)) : Nat)) := by
  constructor
  · have hl : forNames (fun i (_ : Str) => dimLen A n i) 0 (g.map (·.name))
        = .ok ((g.map (·.len)).map (fun x : Nat => (x : Int))) := by
      apply forNames_ok
      · simp
      · intro i a b ha hb
        cases hx : g[i]? with
        | none => simp [hx] at ha
        | some x =>
          simp [hx] at hb
          subst hb
          simpa using (h.axis i x hx).1
    unfold coordsetLength
    rw [ht, Res.bind_ok]
    simp only [BNode.asString]
    rw [Res.bind_ok, h.names, Res.bind_ok, if_pos rfl, hl, Res.bind_ok, prod_cast]
  · intro r hr
    rw [toRectilinear_eq A n g h] at hr
    injection hr with hr
    have hg' : mapCoord (storeF A (widestFloat n) true) g ≠ [] := by simpa [mapCoord] using hg
    have hn' : axes n = .ok ((mapCoord (storeF A (widestFloat n) true) g).map (·.name)) := by
      rw [mapCoord_names]; exact h.names
    have hR := rectilinearOf_rectilinear n (widestFloat n) _ hg' hn'
    rw [hr] at hR
    have htr : r.get (chars! "type") = .ok (.str (chars! "rectilinear")) := by rw [← hr]; rfl
    have hl : forNames (axisLen A .rectilinear r) 0 ((mapCoord (storeF A (widestFloat n) true) g).map (·.name))
        = .ok ((g.map (·.len)).map (fun x : Nat => (x : Int))) := by
      apply forNames_ok
      · simp [mapCoord]
      · intro i a b ha hb
        rw [List.getElem?_map] at ha
        cases hx : (mapCoord (storeF A (widestFloat n) true) g)[i]? with
        | none => simp [hx] at ha
        | some x =>
          simp only [hx, Option.map_some, Option.some.injEq] at ha
          subst ha
          obtain ⟨v, w, l, h1, h2, h3, _⟩ := hR.axis i x hx
          have hb' : b = (x.len : Int) := by
            rw [← mapCoord_lens (storeF A (widestFloat n) true), List.getElem?_map, List.getElem?_map, hx] at hb
            simpa using hb.symm
          simp [axisLen, h1, h2, BNode.numElements, h3, hb']
    unfold coordsetLength
    rw [htr, Res.bind_ok]
    simp only [BNode.asString]
    rw [Res.bind_ok, hR.names, Res.bind_ok, if_neg (by decide), if_pos rfl, hl, Res.bind_ok, prod_cast]

theorem axes_explicitOf (n : BNode F) (wide : Bool) (g : List (Axis F)) (hg : g ≠ [])
    (h : axes n = .ok (g.map (·.name))) : axes (explicitOf wide g) = .ok (g.map (·.name)) := by
  have hs := axes_stable n _ h
  have hk : ∀ ks : List (Str × BNode F), ks ≠ [] →
      axes (.obj ((chars! "type", .str (chars! "explicit")) :: objKid (chars! "values") ks)) =
        .ok ((baseAxes ((ks.map (·.1)).map axisName)).filter fun b => ((ks.map (·.1)).map axisName).contains b) := by
    intro ks hks
    cases ks with
    | nil => simp at hks
    | cons k ks => simp only [List.map_map]; rfl
  unfold explicitOf
  rw [hk _ (by intro h0; have := congrArg List.length h0; simp [columns] at this; exact hg this), columns_names, hs]

/-- C70: it counts the points of the explicit coordset made from a uniform or rectilinear one. -/
theorem rd_length_explicit (A : Arith F) (base : Base) (n m : BNode F) (g : List (Axis F)) (hg : g ≠ [])
    (h : (base = .uniform ∧ UniformRd A n g ∧ n.hasChild (chars! "values") = false) ∨
      (base = .rectilinear ∧ RectilinearRd n g))
    (hm : toExplicit A base n = .ok m) : coordsetLength A m = .ok (count (g.map (·.len)) : Nat) := by
  obtain ⟨g', hlens, hne, hn, rfl⟩ : ∃ g' : List (Axis F), g'.map (·.len) = g.map (·.len) ∧ g' ≠ [] ∧
      axes n = .ok (g'.map (·.name)) ∧ explicitOf (widestFloat n) g' = m := by
    rcases h with ⟨rfl, h, hv⟩ | ⟨rfl, h⟩
    · rw [toExplicit_uniform A n g h hv] at hm
      injection hm with hm
      exact ⟨_, mapCoord_lens _ g, by simpa [mapCoord] using hg, by rw [mapCoord_names]; exact h.names, hm⟩
    · rw [toExplicit_rectilinear A n g h] at hm
      injection hm with hm
      exact ⟨g, rfl, hg, h.names, hm⟩
  have hE := explicitOf_explicit (widestFloat n) g' (axes_nodup n _ hn)
  have hl : forNames (axisLen A .rectilinear (explicitOf (widestFloat n) g')) 0 (g'.map (·.name))
      = .ok (g'.map fun _ => ((count (g'.map (·.len)) : Nat) : Int)) := by
    apply forNames_ok
    · simp
    · intro i a b ha hb
      rw [List.getElem?_map] at ha hb
      cases hx : g'[i]? with
      | none => simp [hx] at ha
      | some x =>
        simp only [hx, Option.map_some, Option.some.injEq] at ha hb
        subst ha; subst hb
        obtain ⟨v, w, l, h1, h2, h3, _⟩ := hE.2 i x hx
        simp [axisLen, h1, h2, BNode.numElements, h3]
  unfold coordsetLength
  rw [hE.1, Res.bind_ok]
  simp only [BNode.asString]
  rw [Res.bind_ok, axes_explicitOf n _ g' hne hn, Res.bind_ok, if_neg (by decide), if_neg (by decide), hl, Res.bind_ok,
    hlens]
  have : (g'.map fun _ => ((count (g.map (·.len)) : Nat) : Int)).getLast? = some ((count (g.map (·.len)) : Nat) : Int) := by
    rw [List.getLast?_map, List.getLast?_eq_some_getLast hne]; rfl
  rw [this]; rfl

/-! ### C71 -/

/-- The same with entries cast to a type. -/
def ElementsAs (t : IntTy) (topo : BNode F) (ed : List Nat) : Prop :=
  ∃ e conn, topo.get (chars! "elements") = .ok e ∧ e.get (chars! "connectivity") = .ok (.ints t conn) ∧
    e.get (chars! "shape") = .ok (.str (shapeOf ed.length)) ∧
    conn.length = count ed * 2 ^ ed.length ∧
    ∀ x, InGrid ed x → ∀ (c : Nat) (s : List Nat), (corners ed.length)[c]? = some s →
      conn[pointId ed x * 2 ^ ed.length + c]? = some (t.cast (pointId (ed.map (· + 1)) (addIdx x s) : Nat))

theorem inGrid_length (l x : List Nat) (h : InGrid l x) : x.length = l.length := by
  induction l generalizing x with
  | nil => cases x with
    | nil => rfl
    | cons => simp [InGrid] at h
  | cons d l ih => cases x with
    | nil => simp [InGrid] at h
    | cons y x => simp only [InGrid] at h; simp [ih x h.2]

theorem corners_step (n : Nat) (c : Nat) (s : List Nat) (h : (corners n)[c]? = some s) :
    s.length = n ∧ ∀ b ∈ s, b ≤ 1 := by
  have hm := List.mem_of_getElem? h
  have h1 : ∀ s ∈ corners 1, s.length = 1 ∧ ∀ b ∈ s, b ≤ 1 := by decide
  have h2 : ∀ s ∈ corners 2, s.length = 2 ∧ ∀ b ∈ s, b ≤ 1 := by decide
  have h3 : ∀ s ∈ corners 3, s.length = 3 ∧ ∀ b ∈ s, b ≤ 1 := by decide
  match n, hm with
  | 1, hm => exact h1 s hm
  | 2, hm => exact h2 s hm
  | 3, hm => exact h3 s hm
  | 0, hm => simp [corners] at hm
  | n + 4, hm => simp [corners] at hm

theorem addIdx_inGrid (ed x s : List Nat) (hx : InGrid ed x) (hs : s.length = ed.length) (hb : ∀ b ∈ s, b ≤ 1) :
    InGrid (ed.map (· + 1)) (addIdx x s) := by
  induction ed generalizing x s with
  | nil => cases x with
    | nil => simp [addIdx, InGrid]
    | cons => simp [InGrid] at hx
  | cons d ed ih =>
    cases x with
    | nil => simp [InGrid] at hx
    | cons y x =>
      cases s with
      | nil => simp at hs
      | cons b s =>
        simp only [InGrid] at hx
        have hb0 := hb b (by simp)
        exact ⟨(by show y + b < d + 1; omega), ih x s hx.2 (by simpa using hs) (fun b hb' => hb b (by simp [hb']))⟩

theorem elements_of_as (t : IntTy) (topo : BNode F) (ed : List Nat) (h : ElementsAs t topo ed)
    (hf : ∀ k : Nat, k < count (ed.map (· + 1)) → t.cast k = k) : Elements topo ed := by
  obtain ⟨e, conn, h1, h2, h3, h4, h5⟩ := h
  refine ⟨e, t, conn, h1, h2, h3, h4, fun x hx c s hs => ?_⟩
  obtain ⟨hl, hb⟩ := corners_step _ _ _ hs
  rw [h5 x hx c s hs, hf _ (pointId_lt _ _ (addIdx_inGrid ed x s hx hl hb))]

theorem toUnstructured_as (A : Arith F) (base : Base) (topo coordset : BNode F) (cname : Str) (as : List Str)
    (ed : List Nat) (c : BNode F) (org : List (Str × BNode F))
    (hc : convertCoordset A base coordset = .ok c) (ho : originKid topo = .ok org)
    (ha : axes coordset = .ok as) (hl : as.length = ed.length) (hne : as ≠ [])
    (he : elemDims A base topo coordset as = .ok (ijkOf ed)) :
    ∃ m, toUnstructured A base topo coordset cname = .ok (m, c) ∧ ElementsAs (widestInt topo) m ed ∧
      m.get (chars! "type") = .ok (.str (chars! "unstructured")) ∧ m.get (chars! "coordset") = .ok (.str cname) := by
  have h1 : 1 ≤ ed.length := by rw [← hl]; exact List.length_pos_iff.mpr hne
  have h3 : ed.length ≤ 3 := by rw [← hl]; exact axes_length coordset as ha
  obtain ⟨conn, e1, e2, e3⟩ := corner_entry (widestInt topo) ed h1 h3
  have hu : toUnstructured A base topo coordset cname = .ok (.obj ([(chars! "type", .str (chars! "unstructured")),
      (chars! "coordset", .str cname)] ++ org ++ [(chars! "elements", .obj [(chars! "shape", .str (shapeName ed.length)),
        (chars! "connectivity", .ints (widestInt topo) conn)])]), c) := by
    unfold toUnstructured
    rw [hc, Res.bind_ok, ho, Res.bind_ok]
    simp only []
    rw [ha, Res.bind_ok, he, Res.bind_ok, hl, e1, Res.bind_ok]
  have hsh : shapeName ed.length = shapeOf ed.length := by
    rcases (by omega : ed.length = 1 ∨ ed.length = 2 ∨ ed.length = 3) with h | h | h <;> rw [h] <;> rfl
  rw [hsh] at hu
  refine ⟨_, hu, ?_, rfl, rfl⟩
  refine ⟨.obj [(chars! "shape", .str (shapeOf ed.length)), (chars! "connectivity", .ints (widestInt topo) conn)],
    conn, ?_, rfl, rfl, e2, e3⟩
  unfold originKid at ho
  by_cases hh : topo.hasChild (chars! "origin") = true
  · rw [if_pos hh, Res.bind_eq_ok] at ho
    obtain ⟨o, _, ho⟩ := ho
    injection ho with ho
    subst ho
    rfl
  · rw [if_neg hh] at ho
    injection ho with ho
    subst ho
    rfl

theorem get_of_hasChild (n : BNode F) (name : Str) (h : n.hasChild name = true) : ∃ v, n.get name = .ok v := by
  rw [BNode.hasChild, List.any_eq_true] at h
  obtain ⟨k, hk, hk2⟩ := h
  unfold BNode.get
  cases hf : n.kids.find? (fun k => k.1 == name) with
  | none => exact absurd hk2 (by simpa using List.find?_eq_none.mp hf k hk)
  | some v => exact ⟨v.2, rfl⟩

theorem originKid_ok (topo : BNode F) : ∃ org, originKid topo = .ok org := by
  unfold originKid
  by_cases hh : topo.hasChild (chars! "origin") = true
  · obtain ⟨v, hv⟩ := get_of_hasChild topo _ hh
    rw [if_pos hh, hv]; exact ⟨_, rfl⟩
  · rw [if_neg hh]; exact ⟨_, rfl⟩

theorem getD_cast (l : List Nat) (i : Nat) : (l.map (fun x : Nat => (x : Int))).getD i 1 = ((l.getD i 1 : Nat) : Int) := by
  simp only [List.getD_eq_getElem?_getD, List.getElem?_map]
  cases l[i]? <;> rfl

theorem elemDims_ok (A : Arith F) (base : Base) (topo coordset : BNode F) (as : List Str) (ed : List Nat)
    (hl : as.length = ed.length)
    (h : ∀ (i : Nat) (a : Str) (d : Nat), as[i]? = some a → ed[i]? = some d →
      elemLen A base topo coordset i a = .ok (d : Int)) :
    elemDims A base topo coordset as = .ok (ijkOf ed) := by
  unfold elemDims
  rw [forNames_ok _ 0 as (ed.map (fun x : Nat => (x : Int))) (by simpa using hl) (by
    intro i a b ha hb
    rw [List.getElem?_map] at hb
    cases hd : ed[i]? with
    | none => simp [hd] at hb
    | some d =>
      simp [hd] at hb
      subst hb
      rw [Nat.zero_add]
      exact h i a d ha hd), Res.bind_ok]
  simp only [ijkOf, getD_cast]

theorem int32_cast_id (k : Nat) (h : k < 2147483648) : int32.cast (k : Int) = k := by
  simp only [IntTy.cast, int32, IntWidth.card]
  have : ((k : Int) % 4294967296) = k := Int.emod_eq_of_lt (by omega) (by omega)
  rw [this, if_neg (by rintro ⟨_, h⟩; omega)]

theorem elemCounts_succ (g : List (Axis F)) (h : ∀ a ∈ g, 1 ≤ a.len) : (elemCounts g).map (· + 1) = g.map (·.len) := by
  rw [elemCounts, List.map_map]
  apply List.map_congr_left
  intro a ha
  have := h a ha
  simp only [Function.comp]; omega

/-- C71: a uniform mesh becomes an unstructured one with the same points and the same elements: the coordset is
    the explicit form of the grid, and element `x` lists the points at `x` plus the steps to its corners.
    The topology's integer type (the widest of its leaves, else int32) must hold every point number. -/
theorem rdt_uniform (A : Arith F) (topo n : BNode F) (cname : Str) (g : List (Axis F)) (h : UniformRd A n g) (hg : g ≠ [])
    (hv : n.hasChild (chars! "values") = false) (h1 : ∀ a ∈ g, 1 ≤ a.len) (h32 : ∀ a ∈ g, a.len < 2147483648)
    (hf : ∀ k : Nat, k < count (g.map (·.len)) → (widestInt topo).cast k = k) :
    ∃ m c, toUnstructured A .uniform topo n cname = .ok (m, c) ∧ toExplicit A .uniform n = .ok c ∧
      Elements m (elemCounts g) ∧ m.get (chars! "coordset") = .ok (.str cname) := by
  obtain ⟨c, hc, _⟩ := rd_uniform_explicit A n g h hv
  obtain ⟨org, ho⟩ := originKid_ok topo
  have hd : elemDims A .uniform topo n (g.map (·.name)) = .ok (ijkOf (elemCounts g)) := by
    apply elemDims_ok
    · simp [elemCounts]
    · intro i a d ha hd
      cases hx : g[i]? with
      | none => simp [hx] at ha
      | some x =>
        simp only [elemCounts, List.getElem?_map, hx, Option.map_some, Option.some.injEq] at hd
        have hm := List.mem_of_getElem? hx
        have hl := (h.axis i x hx).1
        unfold dimLen at hl
        simp only [Res.bind_eq_ok] at hl
        obtain ⟨name, e1, d1, e2, d2, e3, e4⟩ := hl
        simp only [elemLen, e1, e2, e3, Res.bind_ok, BNode.toInt32, e4, Res.map'_ok]
        rw [int32_cast_id _ (h32 x hm)]
        have := h1 x hm
        congr 1
        omega
  obtain ⟨m, e1, e2, _, e4⟩ := toUnstructured_as A .uniform topo n cname _ (elemCounts g) c org hc ho h.names
    (by simp [elemCounts]) (by simpa using hg) hd
  exact ⟨m, c, e1, hc, elements_of_as _ m _ e2 (by rw [elemCounts_succ g h1]; exact hf), e4⟩

/-- C71: the same for a rectilinear mesh. -/
theorem rdt_rectilinear (A : Arith F) (topo n : BNode F) (cname : Str) (g : List (Axis F)) (h : RectilinearRd n g)
    (hg : g ≠ []) (h1 : ∀ a ∈ g, 1 ≤ a.len)
    (hf : ∀ k : Nat, k < count (g.map (·.len)) → (widestInt topo).cast k = k) :
    ∃ m c, toUnstructured A .rectilinear topo n cname = .ok (m, c) ∧ Explicit c g ∧
      Elements m (elemCounts g) ∧ m.get (chars! "coordset") = .ok (.str cname) := by
  obtain ⟨c, hc, hx⟩ := rd_rectilinear_explicit A n g h
  obtain ⟨org, ho⟩ := originKid_ok topo
  have hd : elemDims A .rectilinear topo n (g.map (·.name)) = .ok (ijkOf (elemCounts g)) := by
    apply elemDims_ok
    · simp [elemCounts]
    · intro i a d ha hd
      cases hx : g[i]? with
      | none => simp [hx] at ha
      | some x =>
        simp only [elemCounts, List.getElem?_map, hx, Option.map_some, Option.some.injEq] at hd ha
        subst ha
        have hm := List.mem_of_getElem? hx
        obtain ⟨v, w, l, e1, e2, e3, _⟩ := h.axis i x hx
        simp only [elemLen, e1, e2, Res.bind_ok, BNode.numElements, e3]
        have := h1 x hm
        congr 1
        omega
  obtain ⟨m, e1, e2, _, e4⟩ := toUnstructured_as A .rectilinear topo n cname _ (elemCounts g) c org hc ho h.names
    (by simp [elemCounts]) (by simpa using hg) hd
  exact ⟨m, c, e1, hx, elements_of_as _ m _ e2 (by rw [elemCounts_succ g h1]; exact hf), e4⟩

theorem logicalAxes_get (i : Nat) (hi : i < 3) : logicalAxes[i]? = some (logical i) := by
  rcases (by omega : i = 0 ∨ i = 1 ∨ i = 2) with rfl | rfl | rfl <;> rfl

/-- C71: the same for a structured mesh (without `offsets` and `strides`); the coordset is kept. -/
theorem rdt_structured (A : Arith F) (topo n : BNode F) (cname : Str) (as : List Str) (ed : List Nat)
    (ha : axes n = .ok as) (hl : as.length = ed.length) (hne : as ≠ []) (h : Structured A topo ed)
    (hf : ∀ k : Nat, k < count (ed.map (· + 1)) → (widestInt topo).cast k = k) :
    ∃ m, toUnstructured A .structured topo n cname = .ok (m, n) ∧ Elements m ed ∧
      m.get (chars! "coordset") = .ok (.str cname) := by
  obtain ⟨org, ho⟩ := originKid_ok topo
  obtain ⟨e, d, h1, h2, h3⟩ := h
  have hd : elemDims A .structured topo n as = .ok (ijkOf ed) := by
    apply elemDims_ok _ _ _ _ _ _ hl
    intro i a k _ hk
    obtain ⟨c, hi, e2, e3, e4⟩ := h3 i k hk
    have e1 := logicalAxes_get i hi
    simp only [elemLen, Res.ofIdx, e1, h1, h2, e2, Res.bind_ok, BNode.toInt32, e3, Res.map'_ok]
    rw [int32_cast_id _ e4]
  obtain ⟨m, e1, e2, _, e4⟩ := toUnstructured_as A .structured topo n cname as ed n org rfl ho ha hl hne hd
  exact ⟨m, e1, elements_of_as _ m _ e2 hf, e4⟩

/-- C71, what it is for: every corner of every element of the converted mesh lies where the grid puts it. -/
theorem rdt_corner_coordinates (m c : BNode F) (g : List (Axis F)) (h1 : ∀ a ∈ g, 1 ≤ a.len)
    (hc : Explicit c g) (hm : Elements m (elemCounts g)) (x : List Nat) (hx : InGrid (elemCounts g) x)
    (k : Nat) (s : List Nat) (hs : (corners g.length)[k]? = some s) (i : Nat) (a : Axis F) (ha : g[i]? = some a) :
    ∃ e t conn v w l p, m.get (chars! "elements") = .ok e ∧ e.get (chars! "connectivity") = .ok (.ints t conn) ∧
      c.get (chars! "values") = .ok v ∧ v.get a.name = .ok (.flts w l) ∧
      conn[pointId (elemCounts g) x * 2 ^ g.length + k]? = some ((p : Nat) : Int) ∧
      l[p]? = ((addIdx x s)[i]?).map a.coord ∧ ∃ q, (addIdx x s)[i]? = some q ∧ q < a.len := by
  obtain ⟨e, t, conn, e1, e2, _, _, e5⟩ := hm
  obtain ⟨_, hc⟩ := hc
  obtain ⟨v, w, l, f1, f2, f3, f4⟩ := hc i a ha
  have hlen : (elemCounts g).length = g.length := by simp [elemCounts]
  rw [hlen] at e5
  obtain ⟨hsl, hsb⟩ := corners_step _ _ _ hs
  have hin := addIdx_inGrid (elemCounts g) x s hx (by rw [hsl, hlen]) hsb
  rw [elemCounts_succ g h1] at hin
  have hai : (g.map (·.len))[i]? = some a.len := by simp [ha]
  refine ⟨e, t, conn, v, w, l, _, e1, e2, f1, f2, e5 x hx k s hs, ?_, ?_⟩
  · rw [elemCounts_succ g h1]; exact f4 _ hin
  · refine ⟨_, pointId_index _ _ hin i _ hai, Nat.mod_lt _ ?_⟩
    exact h1 a (List.mem_of_getElem? ha)

/-- C71: a structured topology made from a uniform or rectilinear one has one element less than points along each
    axis, if the integer type holds these numbers. -/
theorem rdt_to_structured (A : Arith F) (base : Base) (topo n c : BNode F) (cname : Str) (g : List (Axis F)) (hg : g ≠ [])
    (hc : toExplicit A base n = .ok c) (hn : axes n = .ok (g.map (·.name))) (h1 : ∀ a ∈ g, 1 ≤ a.len)
    (hlen : ∀ (i : Nat) (a : Axis F), g[i]? = some a → axisLen A base n i a.name = .ok (a.len : Int))
    (hf : ∀ a ∈ g, (widestInt topo).cast ((a.len : Int) - 1) = (a.len : Int) - 1 ∧ a.len ≤ 2147483648) :
    ∃ m, toStructured A base topo n cname = .ok (m, c) ∧ Structured A m (elemCounts g) ∧
      m.get (chars! "type") = .ok (.str (chars! "structured")) := by
  obtain ⟨org, ho⟩ := originKid_ok topo
  have hg3 : g.length ≤ 3 := by simpa using axes_length n _ hn
  have hnd : (logicalAxes.take g.length).Nodup := (by decide : logicalAxes.Nodup).sublist (List.take_sublist _ _)
  have hlog : ∀ i, i < g.length → logicalAxes[i]? = some (logicalAxes.getD i []) := by
    intro i hi
    rcases (by omega : i = 0 ∨ i = 1 ∨ i = 2) with rfl | rfl | rfl <;> rfl
  have hdims : forNames (fun i a => do
      let len ← axisLen A base n i a
      let name ← Res.ofIdx logicalAxes i
      .ok (name, BNode.ints (F := F) (widestInt topo) [(widestInt topo).cast (len - 1)])) 0 (g.map (·.name)) =
      .ok (g.mapIdx fun i a => (logicalAxes.getD i [], BNode.ints (widestInt topo) [(a.len : Int) - 1])) := by
    apply forNames_ok
    · simp
    · intro i a b ha hb
      rw [List.getElem?_map] at ha
      rw [List.getElem?_mapIdx] at hb
      cases hx : g[i]? with
      | none => simp [hx] at ha
      | some x =>
        simp only [hx, Option.map_some, Option.some.injEq] at ha hb
        subst ha; subst hb
        have hi : i < g.length := by
          rcases Nat.lt_or_ge i g.length with h | h
          · exact h
          · rw [List.getElem?_eq_none h] at hx; simp at hx
        rw [Nat.zero_add, hlen i x hx, Res.bind_ok, Res.ofIdx, hlog i hi]
        simp only [Res.bind_ok]
        rw [(hf x (List.mem_of_getElem? hx)).1]
  generalize hks : (g.mapIdx fun i a => (logicalAxes.getD i [], BNode.ints (F := F) (widestInt topo) [(a.len : Int) - 1])) = ks
    at hdims
  have hkne : ks ≠ [] := by
    rw [← hks]; intro h; have := congrArg List.length h; simp at this; exact hg this
  have hknd : (ks.map (·.1)).Nodup := by
    have : ks.map (·.1) = logicalAxes.take g.length := by
      rw [← hks]
      apply List.ext_getElem?
      intro i
      rw [List.getElem?_map, List.getElem?_mapIdx, List.getElem?_take]
      by_cases hi : i < g.length
      · rw [if_pos hi, hlog i hi, List.getElem?_eq_getElem hi]; rfl
      · rw [if_neg hi, List.getElem?_eq_none (by omega)]; rfl
    rw [this]; exact hnd
  have hobj : ∀ (name : Str) (l : List (Str × BNode F)), l ≠ [] → objKid name l = [(name, .obj l)] := by
    intro name l hl; cases l with
    | nil => simp at hl
    | cons => rfl
  refine ⟨_, by
    unfold toStructured
    rw [hc, Res.bind_ok, ho, Res.bind_ok]
    simp only []
    rw [hn, Res.bind_ok, hdims, Res.bind_ok, hobj _ ks hkne, hobj _ _ (by simp)], ?_, rfl⟩
  refine ⟨.obj [(chars! "dims", .obj ks)], .obj ks, ?_, rfl, ?_⟩
  · unfold originKid at ho
    by_cases hh : topo.hasChild (chars! "origin") = true
    · rw [if_pos hh, Res.bind_eq_ok] at ho
      obtain ⟨o, _, ho⟩ := ho
      injection ho with ho
      subst ho
      rfl
    · rw [if_neg hh] at ho
      injection ho with ho
      subst ho
      rfl
  · intro i k hk
    simp only [elemCounts, List.getElem?_map] at hk
    cases hx : g[i]? with
    | none => simp [hx] at hk
    | some x =>
      simp only [hx, Option.map_some, Option.some.injEq] at hk
      have hi : i < g.length := by
        rcases Nat.lt_or_ge i g.length with h | h
        · exact h
        · rw [List.getElem?_eq_none h] at hx; simp at hx
      have hm := List.mem_of_getElem? hx
      have hl1 := h1 x hm
      have hl2 := (hf x hm).2
      have h64 : int64.cast ((x.len : Int) - 1) = (x.len : Int) - 1 := by
        simp only [IntTy.cast, int64, IntWidth.card]
        have : (((x.len : Int) - 1) % 18446744073709551616) = (x.len : Int) - 1 := Int.emod_eq_of_lt (by omega) (by omega)
        rw [this, if_neg (by rintro ⟨_, h⟩; omega)]
      have hlo : logicalAxes.getD i [] = logical i := by
        have h0 := hlog i hi
        rw [logicalAxes_get i (by omega)] at h0
        exact (Option.some.inj h0).symm
      refine ⟨_, by omega, get_obj_nodup ks i _ (.ints (widestInt topo) [(x.len : Int) - 1]) hknd
        (by rw [← hks, List.getElem?_mapIdx, hx, ← hlo]; rfl), ?_, by omega⟩
      simp only [BNode.toInt64, h64]
      congr 1
      omega

end Conduit.Mesh
