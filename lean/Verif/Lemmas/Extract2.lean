import Verif.Lemmas.Extract
/-
The fields and the coordset of the elements taken.
-/
namespace Conduit.Part
open Conduit.Mesh
variable {F : Type}

theorem getOrEmpty_none {n : BNode F} {a : Str} (h : n.hasChild a = false) : n.getOrEmpty a = .empty := by
  unfold BNode.getOrEmpty
  rw [get_error_of_not _ _ h]

theorem fieldOf_unique {f : BNode F} {a a' t t' : Str} {v v' : BNode F} (h : FieldOf f a t v) (h' : FieldOf f a' t' v') :
    a = a' ∧ t = t' ∧ v = v' := by
  have h1 := h.association.symm.trans h'.association
  have h2 := h.topology.symm.trans h'.topology
  have h3 := h.values.symm.trans h'.values
  simp only [Res.ok.injEq, BNode.str.injEq] at h1 h2 h3
  exact ⟨h1, h2, h3⟩

/-- The four children that are copied. -/
theorem base_gets (f n : BNode F) {assoc t : Str} {v : BNode F} (hf : FieldOf f assoc t v) :
    let b := [chars! "association", chars! "grid_function", chars! "volume_dependent", chars! "topology"].foldl
      (fun (n : BNode F) k => match f.get k with | .ok v => n.setChild k v | _ => n) n
    b.get (chars! "association") = .ok (.str assoc) ∧ b.get (chars! "topology") = .ok (.str t) := by
  simp only [List.foldl_cons, List.foldl_nil, hf.association, hf.topology]
  refine ⟨?_, get_setChild_same _ _ _⟩
  rw [get_setChild_other _ _ _ _ (by decide)]
  have h1 : (n.setChild (chars! "association") (.str assoc)).get (chars! "association") = .ok (.str assoc) := get_setChild_same _ _ _
  generalize n.setChild (chars! "association") (.str assoc) = m at h1
  have step : ∀ (m : BNode F) (k : Str), k ≠ chars! "association" → m.get (chars! "association") = .ok (.str assoc) →
      (match f.get k with | .ok v => m.setChild k v | _ => m).get (chars! "association") = .ok (.str assoc) := by
    intro m k hk hm
    cases f.get k with
    | ok v => show (m.setChild k v).get _ = _; rw [get_setChild_other _ _ _ _ (Ne.symm hk)]; exact hm
    | error => exact hm
    | ub => exact hm
  exact step _ _ (by decide) (step _ _ (by decide) h1)

theorem copyField_ok (o : Opts) (f : Str × BNode F) (assoc t : Str) (v : BNode F) (hf : FieldOf f.2 assoc t v) (n : Nat)
    (hv : Table v n) (ids : List Nat) (hi : ∀ i ∈ ids, i < n) (out : BNode F) :
    (¬ Wanted o f.1 → copyField o f (ints ids) out = .ok out) ∧
    (Wanted o f.1 → ∃ f' v', copyField o f (ints ids) out = .ok (out.setChild f.1 f') ∧ FieldOf f' assoc t v' ∧ Sliced v ids v') := by
  constructor
  · intro hw
    unfold copyField Wanted at *
    rw [if_pos]
    rw [not_or] at hw
    exact ⟨hw.1, by simpa using hw.2⟩
  · intro hw
    obtain ⟨v', e, hs⟩ := sliceField_ok v n ids hv hi
    obtain ⟨b1, b2⟩ := base_gets f.2 (out.getOrEmpty f.1) hf
    refine ⟨([chars! "association", chars! "grid_function", chars! "volume_dependent", chars! "topology"].foldl
      (fun (n : BNode F) k => match f.2.get k with | .ok v => n.setChild k v | _ => n) (out.getOrEmpty f.1)).setChild
        (chars! "values") v', v', ?_, ⟨?_, ?_, ?_⟩, hs⟩
    · unfold copyField
      rw [if_neg]
      · rw [hf.values, Res.bind_ok]
        show (sliceField v (ids.map _) >>= _) = _
        rw [e, Res.bind_ok]
        rfl
      · rintro ⟨h1, h2⟩
        rcases hw with h | h
        · exact h1 h
        · exact h2 (by simpa using h)
    · rw [get_setChild_other _ _ _ _ (by decide)]; exact b1
    · rw [get_setChild_other _ _ _ _ (by decide)]; exact b2
    · exact get_setChild_same _ _ _

/-- The field `f` is taken. -/
def Takes (o : Opts) (tname assoc : Str) (f : Str × BNode F) : Prop := Wanted o f.1 ∧ ∃ v, FieldOf f.2 assoc tname v

theorem copyAssoc_ok (o : Opts) (tname assoc : Str) (n : Nat) (ids : List Nat) (hi : ∀ i ∈ ids, i < n) :
    ∀ (fs : List (Str × BNode F)) (out : BNode F), (fs.map (·.1)).Nodup →
      (∀ f ∈ fs, ∃ a t v, FieldOf f.2 a t v ∧ (t = tname → a = assoc → Table v n)) →
      ∃ out', copyAssoc o tname assoc (ints ids) fs out = .ok out' ∧
        (∀ f ∈ fs, ∀ v, FieldOf f.2 assoc tname v → Wanted o f.1 →
          ∃ f' v', out'.get f.1 = .ok f' ∧ FieldOf f' assoc tname v' ∧ Sliced v ids v') ∧
        ∀ name, (∀ f ∈ fs, f.1 = name → ¬ Takes o tname assoc f) → out'.get name = out.get name
  | [], out, _, _ => ⟨out, rfl, (fun f hf => by cases hf), (fun _ _ => rfl)⟩
  | f :: fs, out, hn, hg => by
    rw [List.map_cons, List.nodup_cons] at hn
    obtain ⟨a, t, v, hf, hv⟩ := hg f (by simp)
    have hass : f.2.hasChild (chars! "association") = true := (hasChild_iff_get _ _).2 ⟨_, hf.association⟩
    have rest := fun out => copyAssoc_ok o tname assoc n ids hi fs out hn.2 (fun f hm => hg f (by simp [hm]))
    have hne : ∀ g ∈ fs, g.1 ≠ f.1 := fun g hgm e => hn.1 (by rw [← e]; exact List.mem_map_of_mem hgm)
    by_cases hc : a = assoc ∧ t = tname
    · obtain ⟨rfl, rfl⟩ := hc
      obtain ⟨c1, c2⟩ := copyField_ok o f a t v hf n (hv rfl rfl) ids hi out
      by_cases hw : Wanted o f.1
      · obtain ⟨f', v', e, hf', hs⟩ := c2 hw
        obtain ⟨out', e', k1, k2⟩ := rest (out.setChild f.1 f')
        refine ⟨out', ?_, ?_, ?_⟩
        · unfold copyAssoc
          simp only [hass, if_true, hf.association, hf.topology, Res.bind_ok, BNode.asString, and_self, e, e']
        · intro g hgm w hw' hwa
          rcases List.mem_cons.1 hgm with rfl | hgm
          · refine ⟨f', v', ?_, hf', ?_⟩
            · rw [k2 _ (fun g hg' e => absurd e (hne g hg')), get_setChild_same]
            · obtain ⟨_, _, rfl⟩ := fieldOf_unique hf hw'; exact hs
          · exact k1 g hgm w hw' hwa
        · intro name hname
          have hd : name ≠ f.1 := fun h => hname f (by simp) h.symm ⟨hw, v, hf⟩
          rw [k2 name (fun g hg' => hname g (by simp [hg'])), get_setChild_other _ _ _ _ hd]
      · obtain ⟨out', e', k1, k2⟩ := rest out
        refine ⟨out', ?_, ?_, ?_⟩
        · unfold copyAssoc
          simp only [hass, if_true, hf.association, hf.topology, Res.bind_ok, BNode.asString, and_self, c1 hw, e']
        · intro g hgm w hw' hwa
          rcases List.mem_cons.1 hgm with rfl | hgm
          · exact absurd hwa hw
          · exact k1 g hgm w hw' hwa
        · intro name hname
          exact k2 name (fun g hg' => hname g (by simp [hg']))
    · obtain ⟨out', e', k1, k2⟩ := rest out
      refine ⟨out', ?_, ?_, ?_⟩
      · unfold copyAssoc
        have : ¬ (a = assoc ∧ tname = t) := fun h => hc ⟨h.1, h.2.symm⟩
        simp only [hass, if_true, hf.association, hf.topology, Res.bind_ok, BNode.asString, if_neg this, e']
      · intro g hgm w hw' hwa
        rcases List.mem_cons.1 hgm with rfl | hgm
        · obtain ⟨h1, h2, _⟩ := fieldOf_unique hf hw'
          exact absurd ⟨h1, h2⟩ hc
        · exact k1 g hgm w hw' hwa
      · intro name hname
        exact k2 name (fun g hg' => hname g (by simp [hg']))

theorem mapField_get (name tname assoc : Str) (domain : Int) (ids : List Nat) (out : BNode F) (ht : tname ≠ []) :
    (∃ f, (mapField name tname assoc domain (ints ids) out).get name = .ok f ∧ Origin f assoc tname domain ids) ∧
    ∀ a, a ≠ name → (mapField name tname assoc domain (ints ids) out).get a = out.get a := by
  constructor
  · refine ⟨_, get_setChild_same _ _ _, _, ⟨?_, ?_, get_setChild_same _ _ _⟩, ?_, get_setChild_same _ _ _⟩
    · rw [get_setChild_other _ _ _ _ (by decide), if_neg ht, get_setChild_other _ _ _ _ (by decide), get_setChild_same]
    · rw [get_setChild_other _ _ _ _ (by decide), if_neg ht, get_setChild_same]
    · rw [get_setChild_other _ _ _ _ (by decide), get_setChild_same, List.map_map]; rfl
  · intro a ha
    exact get_setChild_other _ _ _ _ ha

/-- `copy_fields`. -/
theorem copyFields_ok (o : Opts) (domain : Int) (tname : Str) (pts ids : List Nat) (mesh fields : BNode F)
    (hf : mesh.get (chars! "fields") = .ok fields) (nels npts : Nat) (hg : GoodFields o tname nels npts fields.kids)
    (hi : ∀ i ∈ ids, i < nels) (hp : ∀ p ∈ pts, p < npts) (h1 : ids ≠ []) (h2 : pts ≠ []) (ht : tname ≠ []) :
    ∃ out, copyFields o domain tname (ints pts) (ints ids) mesh = .ok out ∧ FieldsTaken o domain tname pts ids fields.kids out := by
  have hhas : mesh.hasChild (chars! "fields") = true := (hasChild_iff_get _ _).2 ⟨_, hf⟩
  obtain ⟨o1, e1, a1, a2⟩ := copyAssoc_ok o tname (chars! "vertex") npts pts hp fields.kids .empty hg.names (by
    intro f hm
    obtain ⟨a, t, v, x1, x2⟩ := hg.good f hm
    exact ⟨a, t, v, x1, fun e1 e2 => by have := x2 e1; subst e2; rwa [if_neg (by decide)] at this⟩)
  let o1' := if o.mapping then mapField o.vertexName tname (chars! "vertex") domain (ints pts) o1 else o1
  obtain ⟨o2, e2, b1, b2⟩ := copyAssoc_ok o tname (chars! "element") nels ids hi fields.kids o1' hg.names (by
    intro f hm
    obtain ⟨a, t, v, x1, x2⟩ := hg.good f hm
    exact ⟨a, t, v, x1, fun e1 e2 => by have := x2 e1; subst e2; rwa [if_pos rfl] at this⟩)
  let o2' := if o.mapping then mapField o.elementName tname (chars! "element") domain (ints ids) o2 else o2
  -- what the later steps leave alone
  have m1 : ∀ name, (o.mapping = true → name ≠ o.vertexName) → o1'.get name = o1.get name := by
    intro name h
    show (if o.mapping then _ else _ : BNode F).get name = _
    split
    · rename_i hm; exact (mapField_get _ _ _ _ _ _ ht).2 _ (h hm)
    · rfl
  have m2 : ∀ name, (o.mapping = true → name ≠ o.elementName) → o2'.get name = o2.get name := by
    intro name h
    show (if o.mapping then _ else _ : BNode F).get name = _
    split
    · rename_i hm; exact (mapField_get _ _ _ _ _ _ ht).2 _ (h hm)
    · rfl
  have hname : ∀ f ∈ fields.kids, o.mapping = true → f.1 ≠ o.vertexName ∧ f.1 ≠ o.elementName := by
    intro f hm hmap
    obtain ⟨x1, x2, _⟩ := hg.new hmap
    exact ⟨fun e => x1 (e ▸ List.mem_map_of_mem hm), fun e => x2 (e ▸ List.mem_map_of_mem hm)⟩
  have same : ∀ f ∈ fields.kids, ∀ g ∈ fields.kids, g.1 = f.1 → g = f := by
    intro f hf g hg' e
    exact List.inj_on_of_nodup_map hg.names hg' hf e
  refine ⟨o2', ?_, ⟨?_, ?_, ?_, ?_⟩⟩
  · have n1 : ints pts ≠ [] := by simpa [ints] using h2
    have n2 : ints ids ≠ [] := by simpa [ints] using h1
    unfold copyFields copyHalf
    simp only [hhas, if_true, hf, Res.bind_ok, if_neg n1, if_neg n2, e1]
    rw [show (if o.mapping then mapField o.vertexName tname (chars! "vertex") domain (ints pts) o1 else o1) = o1' from rfl, e2]
    rfl
  · intro f hm a v hfo ha hw
    rcases ha with rfl | rfl
    · obtain ⟨f', v', g1, g2, g3⟩ := a1 f hm v hfo hw
      refine ⟨f', v', ?_, g2, by rwa [if_neg (by decide)]⟩
      rw [m2 _ (fun h => (hname f hm h).2), b2 _ ?_, m1 _ (fun h => (hname f hm h).1), g1]
      rintro g hgm e ⟨_, w, hw'⟩
      rw [same f hm g hgm e] at hw'
      exact absurd (fieldOf_unique hfo hw').1 (by decide)
    · obtain ⟨f', v', g1, g2, g3⟩ := b1 f hm v hfo hw
      exact ⟨f', v', by rw [m2 _ (fun h => (hname f hm h).2), g1], g2, by rwa [if_pos rfl]⟩
  · intro name f' hget
    by_contra hcon
    rw [not_or, not_and, not_exists] at hcon
    obtain ⟨c1, c2⟩ := hcon
    have hno : ∀ as, (as = chars! "vertex" ∨ as = chars! "element") → ∀ f ∈ fields.kids, f.1 = name → ¬ Takes o tname as f := by
      rintro as has f hm e ⟨hw, v, hv⟩
      exact c2 f ⟨hm, e, e ▸ hw, as, v, hv, has⟩
    rw [m2 _ (fun h e => c1 h (.inr e)), b2 _ (hno _ (.inr rfl)), m1 _ (fun h e => c1 h (.inl e)), a2 _ (hno _ (.inl rfl))] at hget
    cases hget
  · intro hmap
    obtain ⟨f, g1, g2⟩ := (mapField_get o.vertexName tname (chars! "vertex") domain pts o1 ht).1
    refine ⟨f, ?_, g2⟩
    obtain ⟨x1, x2, x3⟩ := hg.new hmap
    rw [m2 _ (fun _ => x3), b2 o.vertexName (fun g hgm e => absurd (List.mem_map.2 ⟨g, hgm, e⟩) x1)]
    show (if o.mapping then _ else _ : BNode F).get _ = _
    rw [if_pos hmap, g1]
  · intro hmap
    obtain ⟨f, g1, g2⟩ := (mapField_get o.elementName tname (chars! "element") domain ids o2 ht).1
    refine ⟨f, ?_, g2⟩
    show (if o.mapping then _ else _ : BNode F).get _ = _
    rw [if_pos hmap, g1]

/-! ### the coordset -/

theorem get_named (ks : List (Str × BNode F)) (hn : (ks.map (·.1)).Nodup) (k : Str × BNode F) (hk : k ∈ ks) :
    (BNode.obj ks).get k.1 = .ok k.2 := by
  unfold BNode.get BNode.kids
  induction ks with
  | nil => cases hk
  | cons a ks ih =>
    rw [List.map_cons, List.nodup_cons] at hn
    rw [List.find?_cons]
    rcases List.mem_cons.1 hk with rfl | hk
    · simp
    · have : (a.1 == k.1) = false := by
        rw [beq_eq_false_iff_ne]
        intro e; exact hn.1 (e ▸ List.mem_map_of_mem hk)
      rw [this]; exact ih hn.2 hk

/-- The coordset of the points, from the explicit form. -/
theorem explicitCoords_ok (A : Arith F) (cset ex vals : BNode F) (ty : Str) (hty : cset.get (chars! "type") = .ok (.str ty))
    (hex : (ty = chars! "explicit" ∧ ex = cset) ∨ ((ty = chars! "uniform" ∨ ty = chars! "rectilinear") ∧ coordsetToExplicit A cset = .ok ex))
    (names : List Str) (ha : axes ex = .ok names) (hn : names.Nodup) (hne : names ≠ []) (hv : ex.get (chars! "values") = .ok vals) (npts : Nat)
    (hcol : ∀ a ∈ names, ∃ c, vals.get a = .ok c ∧ Column c npts) (pts : List Nat) (hp : ∀ p ∈ pts, p < npts) :
    ∃ cset', explicitCoords A cset (ints pts) = .ok cset' ∧ SlicedAxes vals names pts cset' := by
  obtain ⟨cols, e, h2⟩ := mapM_res (fun a => do
      let c ← sliceArray (← vals.get a) (ints pts)
      Res.ok (a, c)) (fun a b => b.1 = a ∧ ∃ c, vals.get a = .ok c ∧ SlicedColumn c pts b.2) names (by
    intro a ha
    obtain ⟨c, g1, g2⟩ := hcol a ha
    obtain ⟨c', e, hs⟩ := sliceArray_ok c npts pts g2 hp
    refine ⟨(a, c'), ?_, rfl, c, g1, hs⟩
    show (vals.get a >>= fun c => sliceArray c (pts.map _) >>= _) = _
    rw [g1, Res.bind_ok, e, Res.bind_ok])
  have hnames : cols.map (·.1) = names := by
    clear e hn hne hcol ha
    induction h2 with
    | nil => rfl
    | cons p _ ih => simp [p.1, ih]
  have hex' : (if ty = chars! "explicit" then Res.ok cset else coordsetToExplicit A cset) = .ok ex := by
    rcases hex with ⟨rfl, rfl⟩ | ⟨h, e⟩
    · rw [if_pos rfl]
    · rw [if_neg (by rcases h with rfl | rfl <;> decide), e]
  have hty' : ty = chars! "uniform" ∨ ty = chars! "rectilinear" ∨ ty = chars! "explicit" := by
    rcases hex with ⟨rfl, _⟩ | ⟨h, _⟩
    · exact .inr (.inr rfl)
    · rcases h with h | h
      · exact .inl h
      · exact .inr (.inl h)
  have hcn : cols ≠ [] := by
    rintro rfl
    exact hne (by rw [← hnames]; rfl)
  refine ⟨.obj [(chars! "type", .str (chars! "explicit")), (chars! "values", .obj cols)], ?_, rfl, .obj cols, rfl, hnames, ?_⟩
  · unfold explicitCoords
    simp only [hty, Res.bind_ok, BNode.asString, if_pos hty', hex', ha, hv, e]
  · intro a ham
    rw [← hnames] at ham hn
    obtain ⟨b, hb, rfl⟩ := List.mem_map.1 ham
    obtain ⟨i, hi⟩ := List.getElem?_of_mem hb
    have hlt : i < names.length := by rw [← hnames, List.length_map]; exact (List.getElem?_eq_some_iff.1 hi).1
    obtain ⟨_, c, g1, g2⟩ := forall2_get h2 i names[i] b (List.getElem?_eq_getElem _) hi
    have hname : names[i] = b.1 := by
      have : (cols.map (·.1))[i]? = some b.1 := by rw [List.getElem?_map, hi]; rfl
      rw [hnames, List.getElem?_eq_getElem hlt] at this
      exact Option.some.inj this
    rw [hname] at g1
    exact ⟨c, b.2, g1, get_named cols hn b hb, g2⟩

end Conduit.Part
