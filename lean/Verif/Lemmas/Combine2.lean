import Verif.Lemmas.Combine
import Verif.Lemmas.Extract2
/-
The new topology has the elements of the chunks.
-/
namespace Conduit.Comb
open Conduit.Mesh Conduit.Part Conduit.Merge
variable {F : Type}

/-- The numbers of the elements, two for each. -/
def flatPairs (orig : List (Nat × Nat)) : List Int := orig.flatMap fun x => [(x.1 : Int), (x.2 : Int)]

theorem shapeSizes_unique {s : Str} {n m : Nat} (h : (s, n) ∈ shapeSizes) (h' : (s, m) ∈ shapeSizes) : n = m := by
  have hd : ∀ x ∈ shapeSizes, ∀ y ∈ shapeSizes, x.1 = y.1 → x.2 = y.2 := by decide
  exact hd _ h _ h' rfl

/-- What is known of the new topology before the maps are taken out. -/
structure TopoMade (cs : List (Chunk F)) (maps : List (List Nat)) (csname : Str) (poly : Bool) (topo : BNode F) (its : List (Str × Item)) :
    Prop where
  type : topo.get (chars! "type") = .ok (.str (chars! "unstructured"))
  coordset : topo.get (chars! "coordset") = .ok (.str csname)
  emap : topo.get (chars! "element_map") = .ok (.ints int64 (flatPairs (its.map fun x => (x.2.1, x.2.2.1))))
  elements : if poly then Polys topo (its.map fun x => (x.1, x.2.2.2)) else Shapes topo (its.map fun x => (x.1, x.2.2.2))
  perm : (its.map (·.2)).Perm (items 0 (cs.zip maps))
  shapes : poly = false → ∀ x ∈ its, ∃ c, cs[x.2.1]? = some c ∧ x.1 = c.shape
  obj : ∃ ks, topo = .obj ks

theorem flatMap_its (bs : List Bkt) : (bs.flatMap fun b => b.2.map fun x => (b.1, x)).map (·.2) = bs.flatMap (·.2) := by
  induction bs with
  | nil => rfl
  | cons b bs ih => simp [List.flatMap_cons, ih]

theorem oneShape_of (e : BNode F) (b : Bkt) (n : Nat) (hs : (b.1, n) ∈ shapeSizes) (hl : ∀ x ∈ b.2, x.2.2.length = n)
    (h1 : e.get (chars! "shape") = .ok (.str b.1)) (h2 : e.get (chars! "connectivity") = .ok (.ints int64 (rep b).conn)) :
    OneShape e b.1 (b.2.map (·.2.2)) := by
  refine ⟨h1, ?_, n, hs, ?_⟩
  · rw [h2]; simp [rep, ints, List.flatMap]
  · intro el hel
    obtain ⟨x, hx, rfl⟩ := List.mem_map.1 hel
    exact hl x hx

theorem append_s_inj {a b : Str} (h : a ++ chars! "s" = b ++ chars! "s") : a = b := List.append_cancel_right h

theorem emap_bs (bs : List Bkt) : (bs.map rep).flatMap (·.emap) =
    flatPairs ((bs.flatMap fun b => b.2.map fun x => (b.1, x)).map fun x => (x.2.1, x.2.2.1)) := by
  induction bs with
  | nil => rfl
  | cons b bs ih =>
    rw [List.map_cons, List.flatMap_cons, ih, List.flatMap_cons, List.map_append, flatPairs, flatPairs, List.flatMap_append]
    congr 1
    simp [rep, List.flatMap_map]

theorem buildUnstructured_ok (A : Arith F) (cs : List (Chunk F)) (maps : List (List Nat)) (csname : Str) (hm : Mapped cs maps)
    (hne : cs ≠ []) (ht : ∀ c ∈ cs, c.topo.get (chars! "type") = .ok (.str (chars! "unstructured"))) (hf : ∀ c ∈ cs, Fixed c.topo c.shape c.els)
    (hel : ∀ c ∈ cs, c.els ≠ [] ∧ ∀ el ∈ c.els, ∀ p ∈ el, p < c.pts.length) :
    ∃ topo its, buildUnstructured A ((cs.map (·.topo)).zip (maps.map ints)) csname = .ok topo ∧ TopoMade cs maps csname false topo its := by
  have hz : (cs.map (·.topo)).zip (maps.map ints) = (cs.zip maps).map fun cm => (cm.1.topo, ints cm.2) := by
    rw [List.zip_map]; rfl
  let P : Str → Item → Prop := fun s x => ∃ c, cs[x.1]? = some c ∧ s = c.shape ∧ ∃ n, (s, n) ∈ shapeSizes ∧ x.2.2.length = n
  obtain ⟨bs, b1, b2⟩ := allBuckets_ok A P (cs.zip maps) 0 [] [] (by
      rintro ⟨c, m⟩ hcm
      obtain ⟨i, hi⟩ := List.getElem?_of_mem hcm
      obtain ⟨g1, g2⟩ := zip_get.1 hi
      have hc := List.mem_of_getElem? g1
      obtain ⟨sh, _, _, _, s4⟩ := iter_fixed A (hf c hc) (ht c hc)
      obtain ⟨e, n, tc, f1, _⟩ := hf c hc
      refine ⟨⟨sh, (hasChild_iff_get _ _).2 ⟨_, f1⟩, s4⟩, ?_⟩
      show ∀ el ∈ c.els, ∀ p ∈ el, p < m.length
      intro el he p hp
      rw [hm.points i c m g1 g2]
      exact (hel c hc).2 el he p hp) (by
      intro k c m hk x hx
      obtain ⟨g1, g2⟩ := zip_get.1 hk
      have hc := List.mem_of_getElem? g1
      obtain ⟨j, el, hj, rfl⟩ := (itemsOf_mem m (0 + k) c.els 0 x).1 hx
      obtain ⟨e, n, tc, _, _, f3, _, f5⟩ := hf c hc
      exact ⟨c, by simpa using g1, rfl, n, f3, by simp [via, (f5 el (List.mem_of_getElem? hj)).1]⟩)
    ⟨by simp, by simp, (fun b hb => by simp at hb), (fun b hb => by simp at hb)⟩
  rw [List.nil_append] at b2
  have hbs : bs ≠ [] := by
    rintro rfl
    have := b2.perm
    simp only [List.flatMap_nil] at this
    obtain ⟨c, cs', rfl⟩ := List.exists_cons_of_ne_nil hne
    obtain ⟨el, els, he⟩ := List.exists_cons_of_ne_nil (hel c (by simp)).1
    have hlen := hm.sets
    cases maps with
    | nil => simp at hlen
    | cons m maps =>
      have := this.length_eq
      simp [items, he, itemsOf] at this
  have hsize : ∀ b ∈ bs, ∃ n, (b.1, n) ∈ shapeSizes ∧ ∀ x ∈ b.2, x.2.2.length = n := by
    intro b hb
    obtain ⟨y, ys, hy⟩ := List.exists_cons_of_ne_nil (b2.full b hb)
    obtain ⟨_, _, _, n, hn, _⟩ := b2.good b hb y (by rw [hy]; simp)
    refine ⟨n, hn, fun x hx => ?_⟩
    obtain ⟨_, _, _, m, hm', e⟩ := b2.good b hb x hx
    rw [e]; exact shapeSizes_unique hm' hn
  refine ⟨bucketTopo csname (bs.map rep), bs.flatMap fun b => b.2.map fun x => (b.1, x), ?_, ?_⟩
  · unfold buildUnstructured
    rw [hz]
    rw [List.map_nil] at b1
    rw [b1]; rfl
  have hsh : ∀ x ∈ bs.flatMap (fun b => b.2.map fun x => (b.1, x)), ∃ c, cs[x.2.1]? = some c ∧ x.1 = c.shape := by
    intro x hx
    obtain ⟨b, hb, hx⟩ := List.mem_flatMap.1 hx
    obtain ⟨y, hy, rfl⟩ := List.mem_map.1 hx
    obtain ⟨c, h1, h2, _⟩ := b2.good b hb y hy
    exact ⟨c, h1, h2⟩
  have hperm : ((bs.flatMap fun b => b.2.map fun x => (b.1, x)).map (·.2)).Perm (items 0 (cs.zip maps)) := by
    rw [flatMap_its]; exact b2.perm
  rcases bs with _ | ⟨b, _ | ⟨b', bs'⟩⟩
  · exact absurd rfl hbs
  · obtain ⟨n, hn, hl⟩ := hsize b (by simp)
    refine ⟨rfl, rfl, ?_, ?_, hperm, fun _ => hsh, ⟨_, rfl⟩⟩
    · have := emap_bs [b]
      simp only [List.map_cons, List.map_nil, List.flatMap_cons, List.flatMap_nil, List.append_nil] at this
      show Res.ok (BNode.ints int64 (rep b).emap) = _
      rw [this]; simp
    · refine ⟨.obj [(chars! "shape", .str b.1), (chars! "connectivity", .ints int64 (rep b).conn)], rfl, .inl ⟨b.1, _, oneShape_of _ b n hn hl rfl rfl, ?_⟩⟩
      simp
  · refine ⟨rfl, rfl, ?_, ?_, hperm, fun _ => hsh, ⟨_, rfl⟩⟩
    · show Res.ok (BNode.ints int64 (((b :: b' :: bs').map rep).flatMap (·.emap))) = _
      rw [emap_bs]
    · refine ⟨.obj (((b :: b' :: bs').map rep).map fun b => (b.shape ++ chars! "s",
          .obj [(chars! "shape", .str b.shape), (chars! "connectivity", .ints int64 b.conn)])), rfl,
        .inr ⟨(b :: b' :: bs').map fun b => (b.1, b.2.map (·.2.2)), ?_, ?_, ?_, ?_⟩⟩
      · rw [List.map_map]; exact b2.nodup
      · simp only [BNode.kids, List.map_map]; rfl
      · intro x hx
        obtain ⟨y, hy, rfl⟩ := List.mem_map.1 hx
        obtain ⟨n, hn, hl⟩ := hsize y hy
        refine ⟨.obj [(chars! "shape", .str y.1), (chars! "connectivity", .ints int64 (rep y).conn)], ?_, oneShape_of _ y n hn hl rfl rfl⟩
        have hnod : ((((b :: b' :: bs').map rep).map fun b => ((b.shape ++ chars! "s",
          .obj [(chars! "shape", .str b.shape), (chars! "connectivity", .ints int64 b.conn)]) : Str × BNode F)).map (·.1)).Nodup := by
          rw [List.map_map, List.map_map]
          have : (((fun k : Str × BNode F => k.1) ∘ fun b : Bucket => (b.shape ++ chars! "s",
            .obj [(chars! "shape", .str b.shape), (chars! "connectivity", .ints int64 b.conn)])) ∘ rep) = fun b : Bkt => b.1 ++ chars! "s" := rfl
          rw [this]
          have h2 := b2.nodup
          rw [List.Nodup, List.pairwise_map] at h2 ⊢
          exact h2.imp fun h e => h (append_s_inj e)
        exact get_named _ hnod (y.1 ++ chars! "s", .obj [(chars! "shape", .str y.1), (chars! "connectivity", .ints int64 (rep y).conn)])
          (List.mem_map.2 ⟨rep y, List.mem_map_of_mem hy, rfl⟩)
      · generalize b :: b' :: bs' = l
        induction l with
        | nil => rfl
        | cons c l ih => rw [List.flatMap_cons, List.map_append, ih, List.map_cons, List.flatMap_cons]; simp

/-! ### polygons -/

/-- The shapes that can be polygons. -/
def flatShapes : List Str := [chars! "line", chars! "tri", chars! "quad"]

theorem flat_dim {s : Str} (h : s ∈ flatShapes) : ∃ sh, shapeInit s = .ok sh ∧ (sh.dim = 2 ∨ sh.dim = 1) := by
  simp only [flatShapes, List.mem_cons, List.not_mem_nil, or_false] at h
  rcases h with rfl | rfl | rfl
  · exact ⟨_, rfl, .inr rfl⟩
  · exact ⟨_, rfl, .inl rfl⟩
  · exact ⟨_, rfl, .inl rfl⟩

/-- The polygon of an item. -/
def polyOf (x : Item) : Poly := ⟨x.1, x.2.1, ints x.2.2⟩

theorem polys_ok (m : List Nat) (i : Nat) (s : Str) (sh : ShapeType) (hsh : sh.isPolygonal ∨ sh.dim = 2 ∨ sh.dim = 1) (els : List (List Nat))
    (h : ∀ el ∈ els, ∀ p ∈ el, p < m.length) (j : Nat) :
    (numbered s sh j (els.map ints)).mapM (polysOf (ints m) i) = .ok ((itemsOf m i j els).map fun x => [polyOf x]) := by
  induction els generalizing j with
  | nil => rfl
  | cons el els ih =>
    rw [List.map_cons, numbered, List.mapM_cons]
    have : polysOf (ints m) i ⟨s, sh, j, ints el, []⟩ = .ok [⟨i, j, ints (via m el)⟩] := by
      unfold polysOf
      rw [if_pos hsh]
      simp only [mapPts_ok m el (h el (by simp)), Res.bind_ok]
    rw [this, Res.bind_ok, ih (fun e he => h e (by simp [he])), Res.bind_ok, itemsOf, List.map_cons]
    rfl

theorem allPolys_ok (A : Arith F) : ∀ (l : List (Chunk F × List Nat)) (i : Nat),
    (∀ cm ∈ l, (∃ s sh, (sh.isPolygonal ∨ sh.dim = 2 ∨ sh.dim = 1) ∧ iterElements A cm.1.topo = .ok (numbered s sh 0 (cm.1.els.map ints))) ∧
      ∀ el ∈ cm.1.els, ∀ p ∈ el, p < cm.2.length) →
    allPolys A i (l.map fun cm => (cm.1.topo, ints cm.2)) = .ok ((items i l).map polyOf)
  | [], i, _ => rfl
  | (c, m) :: l, i, h => by
    obtain ⟨⟨s, sh, r1, r2⟩, r3⟩ := h (c, m) (by simp)
    rw [List.map_cons, allPolys, r2, Res.bind_ok, polys_ok m i s sh r1 c.els r3 0, Res.bind_ok, allPolys_ok A l (i + 1) fun cm hcm => h cm (by simp [hcm]),
      Res.bind_ok, items, List.map_append]
    congr 2
    induction itemsOf m i 0 c.els with
    | nil => rfl
    | cons x l ih => rw [List.map_cons, List.flatten_cons, ih]; rfl

theorem flatten_length_take (l : List (List Nat)) (j : Nat) : ((l.map (·.length)).take j).sum = (l.take j).flatten.length := by
  rw [List.length_flatten, ← List.map_take]

theorem buildPolygonal_ok (A : Arith F) (cs : List (Chunk F)) (maps : List (List Nat)) (csname : Str) (hm : Mapped cs maps)
    (ht : ∀ c ∈ cs, c.topo.get (chars! "type") = .ok (.str (chars! "unstructured")))
    (hf : ∀ c ∈ cs, (Fixed c.topo c.shape c.els ∧ c.shape ∈ flatShapes) ∨ Packed c.topo c.els)
    (hel : ∀ c ∈ cs, ∀ el ∈ c.els, ∀ p ∈ el, p < c.pts.length) :
    ∃ topo its, buildPolygonal A ((cs.map (·.topo)).zip (maps.map ints)) csname = .ok topo ∧ TopoMade cs maps csname true topo its := by
  have hz : (cs.map (·.topo)).zip (maps.map ints) = (cs.zip maps).map fun cm => (cm.1.topo, ints cm.2) := by
    rw [List.zip_map]; rfl
  have hall := allPolys_ok A (cs.zip maps) 0 (by
    rintro ⟨c, m⟩ hcm
    obtain ⟨i, hi⟩ := List.getElem?_of_mem hcm
    obtain ⟨g1, g2⟩ := zip_get.1 hi
    have hc := List.mem_of_getElem? g1
    refine ⟨?_, ?_⟩
    · rcases hf c hc with ⟨h1, h2⟩ | h1
      · obtain ⟨sh, s1, s2, s3, s4⟩ := iter_fixed A h1 (ht c hc)
        obtain ⟨sh', t1, t2⟩ := flat_dim h2
        rw [s1] at t1; cases t1
        exact ⟨_, sh, .inr t2, s4⟩
      · exact ⟨_, _, .inl rfl, iter_packed A h1 (ht c hc)⟩
    · show ∀ el ∈ c.els, ∀ p ∈ el, p < m.length
      intro el he p hp
      rw [hm.points i c m g1 g2]
      exact hel c hc el he p hp)
  generalize hI : items 0 (cs.zip maps) = I at hall
  have hsz : ((I.map polyOf).map fun p => (p.pts.length : Int)) = ints ((I.map (·.2.2)).map (·.length)) := by
    simp [polyOf, ints]
  refine ⟨.obj [(chars! "type", .str (chars! "unstructured")), (chars! "coordset", .str csname),
    (chars! "elements", .obj [(chars! "shape", .str (chars! "polygonal")), (chars! "sizes", .ints int64 (ints ((I.map (·.2.2)).map (·.length)))),
      (chars! "offsets", .ints int64 (runningSums 0 (ints ((I.map (·.2.2)).map (·.length))))),
      (chars! "connectivity", .ints int64 ((I.map polyOf).flatMap (·.pts)))]),
    (chars! "element_map", .ints int64 ((I.map polyOf).flatMap fun p => [(p.topo : Int), (p.elem : Int)]))],
    I.map fun x => (chars! "polygonal", x), ?_, ?_⟩
  · unfold buildPolygonal
    rw [hz, hall]
    simp only [Res.bind_ok]
    rw [hsz]
  refine ⟨rfl, rfl, ?_, ?_, ?_, (fun h => by cases h), ⟨_, rfl⟩⟩
  · show Res.ok (BNode.ints int64 ((I.map polyOf).flatMap fun p => [(p.topo : Int), (p.elem : Int)])) = _
    rw [flatPairs, List.flatMap_map, List.flatMap_map, List.flatMap_map]; rfl
  · show Polys _ _
    refine ⟨_, I.map (·.2.2), runningSums 0 (ints ((I.map (·.2.2)).map (·.length))), rfl, rfl, ?_, ?_, rfl, ?_, ?_, ?_⟩
    · show Res.ok (BNode.ints int64 ((I.map polyOf).flatMap (·.pts))) = _
      congr 2
      rw [List.flatMap_map, List.map_flatten, List.map_map, List.flatMap]; rfl
    · show Res.ok (BNode.ints int64 (ints ((I.map (·.2.2)).map (·.length)))) = _
      rw [ints, List.map_map]; rfl
    · rw [runningSums_length]; simp
    · intro j hj
      have hget : ((I.map fun x : Item => x.2.2).map (·.length))[j]? = some (((I.map fun x : Item => x.2.2)[j]'hj).length) := by
        rw [List.getElem?_map, List.getElem?_eq_getElem hj]; rfl
      have := runningSums_get ((I.map fun x : Item => x.2.2).map (·.length)) 0 j _ hget
      rw [flatten_length_take, Nat.zero_add] at this
      exact this
    · rw [List.map_map, List.map_map]; rfl
  · rw [List.map_map, hI]
    have : ((fun x : Str × Item => x.2) ∘ fun x => (chars! "polygonal", x)) = id := rfl
    rw [this, List.map_id]

end Conduit.Comb
