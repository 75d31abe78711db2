import Verif.Model.MeshPoints
import Verif.Spec.MeshPoints
import Verif.Lemmas.MeshReorder
import Verif.Lemmas.MeshCoords
import Verif.Lemmas.AdjsetBase
/-
Lemmas on offsets and the points of elements.
-/
namespace Conduit.Mesh
variable {F : Type}

/-! ### children -/

theorem find_map_same (l : List (Str × BNode F)) (a : Str) (v : BNode F) (h : l.any (fun k => k.1 == a) = true) :
    (l.map fun k => if k.1 = a then (k.1, v) else k).find? (fun k => k.1 == a) = some (a, v) := by
  induction l with
  | nil => simp at h
  | cons k l ih =>
    by_cases e : k.1 = a
    · simp [e]
    · have h' : l.any (fun k => k.1 == a) = true := by simpa [e] using h
      have := ih h'
      simpa [e] using this

theorem find_map_other (l : List (Str × BNode F)) (a b : Str) (v : BNode F) (hb : b ≠ a) :
    (l.map fun k => if k.1 = a then (k.1, v) else k).find? (fun k => k.1 == b) = l.find? fun k => k.1 == b := by
  induction l with
  | nil => rfl
  | cons k l ih =>
    by_cases e : k.1 = a
    · have : ¬ a = b := fun h => hb h.symm
      simp [e, this, ih]
    · by_cases e2 : k.1 = b
      · simp [e, e2, hb]
      · simp [e, e2, ih]

theorem get_setChild_same (n : BNode F) (a : Str) (v : BNode F) : (n.setChild a v).get a = .ok v := by
  unfold BNode.setChild
  split
  · rename_i h
    simp only [BNode.get, BNode.kids, BNode.hasChild] at *
    rw [find_map_same _ _ _ h]
  · rename_i h
    have h' : (n.kids.any fun k => k.1 == a) = false := by
      cases hb : n.kids.any fun k => k.1 == a with
      | false => rfl
      | true => exact absurd hb h
    have : n.kids.find? (fun k => k.1 == a) = none := by
      rw [List.find?_eq_none]
      intro x hx
      have := List.any_eq_false.1 h' x hx
      simpa using this
    simp only [BNode.get, BNode.kids] at *
    simp [this]

theorem get_setChild_other (n : BNode F) (a b : Str) (v : BNode F) (hb : b ≠ a) : (n.setChild a v).get b = n.get b := by
  unfold BNode.setChild
  split
  · simp only [BNode.get, BNode.kids]
    rw [find_map_other _ _ _ _ hb]
  · have : ¬ a = b := fun h => hb h.symm
    simp [BNode.get, BNode.kids, this]

theorem hasChild_iff_get (n : BNode F) (a : Str) : n.hasChild a = true ↔ ∃ v, n.get a = .ok v := by
  constructor
  · intro h
    unfold BNode.get
    cases hf : n.kids.find? (fun k => k.1 == a) with
    | some k => exact ⟨_, rfl⟩
    | none =>
      rw [List.find?_eq_none] at hf
      unfold BNode.hasChild at h
      obtain ⟨x, hx, h2⟩ := List.any_eq_true.1 h
      exact absurd h2 (hf x hx)
  · rintro ⟨v, h⟩; exact hasChild_of_get n a v h

theorem hasChild_congr (n m : BNode F) (a : Str) (h : n.get a = m.get a) : n.hasChild a = m.hasChild a := by
  have : n.hasChild a = true ↔ m.hasChild a = true := by rw [hasChild_iff_get, hasChild_iff_get, h]
  cases h1 : n.hasChild a <;> cases h2 : m.hasChild a <;> simp_all

theorem get_error_of_not (n : BNode F) (a : Str) (h : n.hasChild a = false) : n.get a = .error := by
  unfold BNode.get
  cases hf : n.kids.find? (fun k => k.1 == a) with
  | none => rfl
  | some k =>
    exfalso
    have h1 := List.find?_some hf
    have h2 := List.mem_of_find?_eq_some hf
    have : n.hasChild a = true := List.any_eq_true.2 ⟨k, h2, h1⟩
    rw [h] at this; cases this

theorem offsetsExist_none {n : BNode F} (h : NoOffsets n) : offsetsExist n = false := by
  unfold offsetsExist BNode.getOrEmpty
  rcases h with h | h
  · rw [get_error_of_not n _ h]
  · rw [h]

theorem offsetsExist_leaf {n : BNode F} {l : List Nat} (h : NatLeaf n (chars! "offsets") l) : offsetsExist n = true := by
  obtain ⟨t, h, _⟩ := h
  unfold offsetsExist BNode.getOrEmpty
  rw [h]

/-! ### leaves -/

theorem map_cast_nat (l : List Nat) (t : IntTy) (h : ∀ p ∈ l, t.Holds (p : Int)) :
    (l.map fun p : Nat => (p : Int)).map t.cast = l.map fun p : Nat => (p : Int) := by
  rw [List.map_map]
  apply List.map_congr_left
  intro p hp
  exact holds_cast_eq (h p hp)

theorem NatLeaf.read {n : BNode F} {name : Str} {l : List Nat} (A : Arith F) (h : NatLeaf n name l) :
    ∃ v, n.get name = .ok v ∧ leafInts A v = .ok (l.map fun p : Nat => (p : Int)) ∧ v.numElements = l.length := by
  obtain ⟨t, h, hh⟩ := h
  refine ⟨_, h, ?_, by simp [BNode.numElements]⟩
  simp only [leafInts]
  rw [map_cast_nat l int64 (fun p hp => idx_holds (hh p hp).2)]

theorem pick_map_nat (l : List Nat) (i v : Nat) (h : l[i]? = some v) :
    pick (l.map fun p : Nat => (p : Int)) (i : Int) = .ok (v : Int) :=
  pick_nat _ _ _ (by simp [h])

/-! ### sums -/

theorem runningSums_eq (els : List (List Nat)) : ∀ s : Nat,
    runningSums (s : Int) ((els.map (·.length)).map fun p : Nat => (p : Int)) =
      (List.range els.length).map fun j => ((s + (els.take j).flatten.length : Nat) : Int) := by
  induction els with
  | nil => intro s; rfl
  | cons el els ih =>
    intro s
    simp only [List.map_cons, runningSums]
    have : (s : Int) + (el.length : Int) = ((s + el.length : Nat) : Int) := by omega
    rw [this, ih]
    simp only [List.length_cons, List.range_succ_eq_map, List.map_cons, List.take_zero, List.flatten_nil, List.length_nil,
      Nat.add_zero, List.map_map, Function.comp_def, List.take_succ_cons, List.flatten_cons, List.length_append,
      Nat.add_assoc, Nat.succ_eq_add_one]

theorem runningSums_starts (els : List (List Nat)) :
    runningSums 0 ((els.map (·.length)).map fun p : Nat => (p : Int)) = (starts els).map fun p : Nat => (p : Int) := by
  have := runningSums_eq els 0
  simpa [starts, Function.comp_def] using this

theorem flatten_fixed (els : List (List Nat)) (k : Nat) (h : ∀ el ∈ els, el.length = k) : els.flatten.length = els.length * k := by
  induction els with
  | nil => simp
  | cons el els ih =>
    simp only [List.flatten_cons, List.length_append, List.length_cons]
    rw [h el (by simp), ih (fun e he => h e (by simp [he])), Nat.succ_mul]; omega

theorem starts_fixed (els : List (List Nat)) (k : Nat) (h : ∀ el ∈ els, el.length = k) :
    starts els = (List.range els.length).map fun j => j * k := by
  unfold starts
  apply List.map_congr_left
  intro j hj
  rw [flatten_fixed _ k (fun e he => h e (List.mem_of_mem_take he)), List.length_take]
  have := List.mem_range.1 hj
  rw [Nat.min_eq_left (by omega)]

theorem starts_length (els : List (List Nat)) : (starts els).length = els.length := by simp [starts]

theorem starts_get (els : List (List Nat)) (c : Nat) (h : c < els.length) :
    (starts els)[c]? = some (els.take c).flatten.length := by
  simp [starts, List.getElem?_range h]

theorem starts_le (els : List (List Nat)) : ∀ p ∈ starts els, p ≤ els.flatten.length := by
  intro p hp
  simp only [starts, List.mem_map, List.mem_range] at hp
  obtain ⟨j, _, rfl⟩ := hp
  have e : els.flatten.length = (els.take j).flatten.length + (els.drop j).flatten.length := by
    rw [← List.length_append, ← List.flatten_append, List.take_append_drop]
  omega

theorem flatten_at (els : List (List Nat)) (c : Nat) (el : List Nat) (h : els[c]? = some el) (i p : Nat) (hi : el[i]? = some p) :
    els.flatten[(els.take c).flatten.length + i]? = some p := by
  have hc : c < els.length := (List.getElem?_eq_some_iff.1 h).1
  have he : els[c] = el := (List.getElem?_eq_some_iff.1 h).2
  have hsplit : els.flatten = (els.take c).flatten ++ (els.drop c).flatten := by
    rw [← List.flatten_append, List.take_append_drop]
  rw [hsplit, List.getElem?_append_right (by omega)]
  have : els.drop c = el :: els.drop (c + 1) := by rw [List.drop_eq_getElem_cons hc, he]
  rw [this, List.flatten_cons, Nat.add_sub_cancel_left, List.getElem?_append_left (List.getElem?_eq_some_iff.1 hi).1, hi]

/-! ### shapes -/

theorem fixed_shape {s : Str} {k : Nat} (h : (s, k) ∈ fixedShapes) : 0 < k ∧ s ≠ chars! "polyhedral" ∧ s ≠ chars! "polygonal" ∧
    ∃ d, shapeInit s = .ok ⟨d, (k : Int), true⟩ := by
  simp only [fixedShapes, List.mem_cons, Prod.mk.injEq, List.mem_nil_iff, or_false] at h
  rcases h with ⟨rfl, rfl⟩ | ⟨rfl, rfl⟩ | ⟨rfl, rfl⟩ | ⟨rfl, rfl⟩ | ⟨rfl, rfl⟩ | ⟨rfl, rfl⟩ | ⟨rfl, rfl⟩ | ⟨rfl, rfl⟩
  · exact ⟨by decide, by decide, by decide, 0, by decide +kernel⟩
  · exact ⟨by decide, by decide, by decide, 1, by decide +kernel⟩
  · exact ⟨by decide, by decide, by decide, 2, by decide +kernel⟩
  · exact ⟨by decide, by decide, by decide, 2, by decide +kernel⟩
  · exact ⟨by decide, by decide, by decide, 3, by decide +kernel⟩
  · exact ⟨by decide, by decide, by decide, 3, by decide +kernel⟩
  · exact ⟨by decide, by decide, by decide, 3, by decide +kernel⟩
  · exact ⟨by decide, by decide, by decide, 3, by decide +kernel⟩

theorem shapeInit_polygonal : shapeInit (chars! "polygonal") = .ok ⟨2, -1, false⟩ := by decide +kernel
theorem shapeInit_polyhedral : shapeInit (chars! "polyhedral") = .ok ⟨3, -1, false⟩ := by decide +kernel

theorem shapeOfTopo_of {topo e : BNode F} {s : Str} (h : topo.get (chars! "elements") = .ok e)
    (hs : e.get (chars! "shape") = .ok (.str s)) : shapeOfTopo topo = shapeInit s ∧ topoShapeName topo = .ok s := by
  simp only [shapeOfTopo, topoShapeName, h, Res.bind_ok, hs]
  exact ⟨rfl, rfl⟩

/-! ### offsets -/

/-- The topology with the offsets of its elements. -/
def withOffsets (topo e : BNode F) (t : IntTy) (els : List (List Nat)) : BNode F :=
  topo.setChild (chars! "elements") (e.setChild (chars! "offsets") (.ints t ((starts els).map fun p : Nat => (p : Int))))

theorem generateOffsets_cells (A : Arith F) {topo e : BNode F} {els : List (List Nat)} (h : Cells topo e els)
    (ho : NoOffsets e) (hf : ∀ p ∈ starts els, (widestInt topo).Holds (p : Int)) (d1 d2 : BNode F) :
    generateOffsets A topo d1 d2 = .ok (.ints (widestInt topo) ((starts els).map fun p : Nat => (p : Int)), .empty) := by
  unfold generateOffsets
  obtain ⟨vc, hc1, _, hc3⟩ := h.conn.read A
  rcases h.shape with ⟨s, k, hk, hs, hl⟩ | ⟨hs, hz⟩
  · obtain ⟨k0, n1, n2, d, hi⟩ := fixed_shape hk
    obtain ⟨e1, e2⟩ := shapeOfTopo_of h.elements hs
    rw [e1, hi, Res.bind_ok, e2, Res.bind_ok, h.elements, Res.bind_ok, h.noStream]
    simp only [Bool.false_eq_true, if_false]
    rw [hc1, Res.bind_ok]
    simp only [if_neg n1, if_neg n2, offsetsExist_none ho, Bool.false_eq_true, if_false]
    rw [hc3, flatten_fixed _ k hl]
    have : ((els.length * k : Nat) : Int).tdiv (k : Int) = (els.length : Int) := by
      rw [← Int.ofNat_tdiv, Nat.mul_div_cancel _ k0]
    rw [this, alloc_nat, Res.bind_ok, List.length_replicate]
    have hm := map_cast_nat _ _ hf
    rw [starts_fixed _ k hl] at hm ⊢
    rw [← hm, List.map_map, List.map_map]
    congr 3
  · obtain ⟨e1, e2⟩ := shapeOfTopo_of h.elements hs
    obtain ⟨vz, hz1, hz2, _⟩ := hz.read A
    have n1 : ¬ (chars! "polygonal" = chars! "polyhedral") := by decide
    rw [e1, shapeInit_polygonal, Res.bind_ok, e2, Res.bind_ok, h.elements, Res.bind_ok, h.noStream]
    simp only [Bool.false_eq_true, if_false]
    rw [hc1, Res.bind_ok]
    simp only [if_neg n1, offsetsExist_none ho, Bool.false_eq_true, if_false, if_true]
    rw [hz1, Res.bind_ok, hz2, Res.bind_ok, runningSums_starts, map_cast_nat _ _ hf]

theorem inline_cells (A : Arith F) {topo e : BNode F} {els : List (List Nat)} (h : Cells topo e els)
    (ho : NoOffsets e) (hf : ∀ p ∈ starts els, (widestInt topo).Holds (p : Int)) :
    generateOffsetsInline A topo = .ok (withOffsets topo e (widestInt topo) els) := by
  unfold generateOffsetsInline
  rw [h.elements, Res.bind_ok, h.noSub]
  simp only [Bool.false_eq_true, if_false, offsetsExist_none ho, Bool.not_false, if_true]
  unfold generateOffsets1
  rw [generateOffsets_cells A h ho hf]
  rfl

/-! ### points -/

theorem forTo_collect (conn : List Int) (o : Nat) (el : List Nat)
    (h : ∀ (i p : Nat), el[i]? = some p → pick conn ((o : Int) + (i : Int)) = .ok (p : Int)) {β : Type} (f : Int → β → β) (b : β) :
    forTo (el.length : Int) (fun pi acc => do
      let v ← pick conn ((o : Int) + pi)
      Res.ok (f v acc)) b = .ok ((el.map fun p : Nat => (p : Int)).foldl (fun acc v => f v acc) b) := by
  unfold forTo
  have key : ∀ m, m ≤ el.length → (List.range m).foldlM (fun acc (d : Nat) => do
      let v ← pick conn ((o : Int) + (d : Int))
      Res.ok (f v acc)) b = .ok (((el.take m).map fun p : Nat => (p : Int)).foldl (fun acc v => f v acc) b) := by
    intro m
    induction m with
    | zero => intro _; rfl
    | succ m ih =>
      intro hm
      have hm' : el[m]? = some el[m] := List.getElem?_eq_getElem (by omega)
      rw [List.range_succ, List.foldlM_append, ih (by omega), Res.bind_ok, List.take_succ, hm']
      rw [List.foldlM_cons, h m _ hm', Res.bind_ok, Res.bind_ok, List.map_append, List.foldl_append]
      rfl
  have := key el.length (Nat.le_refl _)
  rw [List.take_length] at this
  simpa using this

theorem foldl_snoc (l : List Int) (b : List Int) : l.foldl (fun acc v => acc ++ [v]) b = b ++ l := by
  induction l generalizing b with
  | nil => simp
  | cons a l ih => simp [ih]

theorem foldl_insert_mem (l b : List Int) (z : Int) : z ∈ l.foldl (fun acc v => setInsert v acc) b ↔ z ∈ l ∨ z ∈ b := by
  induction l generalizing b with
  | nil => simp
  | cons a l ih => rw [List.foldl_cons, ih, mem_setInsert]; simp; tauto

theorem foldl_insert_sorted (l b : List Int) (h : b.Pairwise (· < ·)) :
    (l.foldl (fun acc v => setInsert v acc) b).Pairwise (· < ·) := by
  induction l generalizing b with
  | nil => exact h
  | cons a l ih => exact ih _ (setInsert_sorted a b h)

/-- What `points` gives for an element. -/
def PointsOf (el : List Nat) (unique : Bool) (r : List Int) : Prop :=
  if unique then ListsSet r (· ∈ el) else r = el.map fun p : Nat => (p : Int)

theorem listsSet_insert (el : List Nat) :
    ListsSet ((el.map fun p : Nat => (p : Int)).foldl (fun acc v => setInsert v acc) []) (· ∈ el) := by
  refine ⟨foldl_insert_sorted _ _ .nil, fun z => ?_⟩
  rw [foldl_insert_mem]
  simp only [List.mem_map, List.not_mem_nil, or_false]
  constructor
  · rintro ⟨p, hp, rfl⟩; exact ⟨p, rfl, hp⟩
  · rintro ⟨p, rfl, hp⟩; exact ⟨p, hp, rfl⟩

theorem read_points (A : Arith F) {n topo e : BNode F} {els : List (List Nat)} (hi : generateOffsetsInline A n = .ok topo)
    (h : OffsetCells topo e els) (c : Nat) (el : List Nat) (hc : els[c]? = some el) (unique : Bool) :
    ∃ r, points A n (c : Int) unique = .ok r ∧ PointsOf el unique r := by
  obtain ⟨offs, conn, hoff, hconn, hat⟩ := h.at_
  obtain ⟨o, ho, hel⟩ := hat c el hc
  obtain ⟨vo, o1, o2, _⟩ := hoff.read A
  obtain ⟨vc, c1, c2, _⟩ := hconn.read A
  have hpick : ∀ (i p : Nat), el[i]? = some p → pick (conn.map fun p : Nat => (p : Int)) ((o : Int) + (i : Int)) = .ok (p : Int) := by
    intro i p hp
    have := pick_map_nat _ _ _ (hel i p hp)
    simpa using this
  have fin : ∀ npts : Int, npts = (el.length : Int) → ∃ r, (if unique then
      forTo npts (fun pi set => do
        let v ← pick (conn.map fun p : Nat => (p : Int)) ((o : Int) + pi)
        Res.ok (setInsert v set)) []
    else
      forTo npts (fun pi l => do
        let v ← pick (conn.map fun p : Nat => (p : Int)) ((o : Int) + pi)
        Res.ok (l ++ [v])) []) = .ok r ∧ PointsOf el unique r := by
    intro npts hn
    subst hn
    cases unique with
    | true =>
      refine ⟨_, forTo_collect _ o el hpick (fun v s => setInsert v s) [], ?_⟩
      exact listsSet_insert el
    | false =>
      refine ⟨_, forTo_collect _ o el hpick (fun v l => l ++ [v]) [], ?_⟩
      rw [foldl_snoc]; rfl
  have hmem : el ∈ els := List.mem_of_getElem? hc
  unfold points
  rw [hi, Res.bind_ok]
  rcases h.shape with ⟨s, k, hk, hs, hl⟩ | ⟨hs, hz⟩
  · obtain ⟨k0, n1, n2, d, hin⟩ := fixed_shape hk
    obtain ⟨e1, e2⟩ := shapeOfTopo_of h.elements hs
    rw [e1, hin, Res.bind_ok, h.elements, Res.bind_ok]
    simp only [ShapeType.isPolyhedral, ShapeType.isPolygonal, Bool.not_true, Bool.false_and, Bool.false_eq_true, if_false]
    rw [o1, Res.bind_ok, o2, Res.bind_ok, pick_map_nat _ _ _ ho, Res.bind_ok, Res.bind_ok, c1, Res.bind_ok, c2, Res.bind_ok]
    exact fin _ (by rw [hl el hmem])
  · obtain ⟨e1, e2⟩ := shapeOfTopo_of h.elements hs
    obtain ⟨vz, z1, z2, _⟩ := hz.read A
    rw [e1, shapeInit_polygonal, Res.bind_ok, h.elements, Res.bind_ok]
    simp only [ShapeType.isPolyhedral, ShapeType.isPolygonal, Bool.not_false, Bool.true_and]
    rw [if_neg (by decide), o1, Res.bind_ok, o2, Res.bind_ok, pick_map_nat _ _ _ ho, Res.bind_ok, if_pos (by decide), z1,
      Res.bind_ok, z2, Res.bind_ok, pick_map_nat _ c el.length (by simp [hc]), Res.bind_ok, c1, Res.bind_ok, c2, Res.bind_ok]
    exact fin _ rfl

theorem inline_given (A : Arith F) {topo e : BNode F} {els : List (List Nat)} (h : OffsetCells topo e els) :
    generateOffsetsInline A topo = .ok topo := by
  obtain ⟨offs, conn, hoff, _⟩ := h.at_
  unfold generateOffsetsInline
  rw [h.elements, Res.bind_ok, h.noSub]
  simp [offsetsExist_leaf hoff]

theorem natLeaf_other {e : BNode F} {name a : Str} {v : BNode F} {l : List Nat} (h : NatLeaf e name l) (hn : name ≠ a) :
    NatLeaf (e.setChild a v) name l := by
  obtain ⟨t, h, hh⟩ := h
  exact ⟨t, by rw [get_setChild_other _ _ _ _ hn, h], hh⟩

theorem withOffsets_cells {topo e : BNode F} {els : List (List Nat)} {t : IntTy} (h : Cells topo e els)
    (hf : ∀ p ∈ starts els, t.Holds (p : Int) ∧ Idx p) :
    OffsetCells (withOffsets topo e t els) (e.setChild (chars! "offsets") (.ints t ((starts els).map fun p : Nat => (p : Int)))) els where
  elements := get_setChild_same _ _ _
  noSub := by
    rw [← h.noSub]
    exact hasChild_congr _ _ _ (get_setChild_other _ _ _ _ (by decide))
  shape := by
    rcases h.shape with ⟨s, k, hk, hs, hl⟩ | ⟨hs, hz⟩
    · exact .inl ⟨s, k, hk, by rw [get_setChild_other _ _ _ _ (by decide), hs], hl⟩
    · exact .inr ⟨by rw [get_setChild_other _ _ _ _ (by decide), hs], natLeaf_other hz (by decide)⟩
  at_ := ⟨starts els, els.flatten, ⟨t, get_setChild_same _ _ _, hf⟩, natLeaf_other h.conn (by decide), fun c el hc =>
    ⟨_, starts_get els c (List.getElem?_eq_some_iff.1 hc).1, fun i p hp => flatten_at els c el hc i p hp⟩⟩

/-! ### polyhedra -/

theorem generateOffsets_polyhedra (A : Arith F) {topo e s : BNode F} {cells faces : List (List Nat)}
    (h : Polyhedra topo e s cells faces) (hm : NoOffsets e ∨ NoOffsets s) (d1 d2 : BNode F) :
    generateOffsets A topo d1 d2 = .ok
      (if offsetsExist e then d1 else .ints int64 ((starts cells).map fun p : Nat => (p : Int)),
       if offsetsExist s then d2 else .ints int64 ((starts faces).map fun p : Nat => (p : Int))) := by
  obtain ⟨e1, e2⟩ := shapeOfTopo_of h.elements h.shape
  obtain ⟨vc, c1, _, _⟩ := h.cellGroups.conn.read A
  obtain ⟨vz, z1, z2, _⟩ := h.cellGroups.sizes.read A
  obtain ⟨vy, y1, y2, _⟩ := h.faceGroups.sizes.read A
  unfold generateOffsets
  rw [e1, shapeInit_polyhedral, Res.bind_ok, e2, Res.bind_ok, h.elements, Res.bind_ok, h.cellGroups.noStream]
  simp only [Bool.false_eq_true, if_false]
  rw [c1, Res.bind_ok]
  simp only [if_true]
  rw [h.subelements, Res.bind_ok]
  have hn : ¬ (offsetsExist e = true ∧ offsetsExist s = true) := by
    rcases hm with h' | h' <;> simp [offsetsExist_none h']
  rw [if_neg hn]
  cases he : offsetsExist e <;> cases hs : offsetsExist s <;>
    simp only [z1, z2, y1, y2, runningSums_starts, Res.bind_ok, if_true, Bool.false_eq_true, if_false]

theorem natLeaf_starts {n : BNode F} {ls : List (List Nat)} (h : Groups n ls) :
    NatLeaf (n.setChild (chars! "offsets") (.ints int64 ((starts ls).map fun p : Nat => (p : Int)))) (chars! "offsets") (starts ls) :=
  ⟨int64, get_setChild_same _ _ _, fun p hp => by
    have : Idx p := Nat.lt_of_le_of_lt (starts_le ls p hp) h.count
    exact ⟨idx_holds this, this⟩⟩

/-- Lists of numbers with their offsets. -/
structure OffsetGroups (n : BNode F) (ls : List (List Nat)) : Prop where
  conn : NatLeaf n (chars! "connectivity") ls.flatten
  sizes : NatLeaf n (chars! "sizes") (ls.map (·.length))
  offsets : NatLeaf n (chars! "offsets") (starts ls)
  noIndices : n.hasChild (chars! "indices") = false

theorem groups_set {n : BNode F} {ls : List (List Nat)} (h : Groups n ls) {v : BNode F}
    (hv : NatLeaf (n.setChild (chars! "offsets") v) (chars! "offsets") (starts ls)) :
    OffsetGroups (n.setChild (chars! "offsets") v) ls :=
  ⟨natLeaf_other h.conn (by decide), natLeaf_other h.sizes (by decide), hv, by
    rw [← h.noIndices]
    exact hasChild_congr _ _ _ (get_setChild_other _ _ _ _ (by decide))⟩

theorem groups_new {n : BNode F} {ls : List (List Nat)} (h : Groups n ls) :
    OffsetGroups (n.setChild (chars! "offsets") (if offsetsExist n then n.getOrEmpty (chars! "offsets") else
      .ints int64 ((starts ls).map fun p : Nat => (p : Int)))) ls := by
  apply groups_set h
  rcases h.offsets with h' | h'
  · rw [offsetsExist_none h']
    exact natLeaf_starts h
  · rw [offsetsExist_leaf h', if_pos rfl]
    obtain ⟨t, h1, h2⟩ := h'
    refine ⟨t, ?_, h2⟩
    rw [get_setChild_same]
    unfold BNode.getOrEmpty
    rw [h1]

theorem inline_polyhedra (A : Arith F) {topo e s : BNode F} {cells faces : List (List Nat)}
    (h : Polyhedra topo e s cells faces) :
    ∃ topo' e' s', generateOffsetsInline A topo = .ok topo' ∧ topo'.get (chars! "elements") = .ok e' ∧
      topo'.get (chars! "subelements") = .ok s' ∧ e'.get (chars! "shape") = .ok (.str (chars! "polyhedral")) ∧
      OffsetGroups e' cells ∧ OffsetGroups s' faces := by
  have hsub : topo.hasChild (chars! "subelements") = true := hasChild_of_get _ _ _ h.subelements
  unfold generateOffsetsInline
  rw [h.elements, Res.bind_ok, hsub]
  simp only [if_true]
  rw [h.subelements, Res.bind_ok]
  by_cases hm : NoOffsets e ∨ NoOffsets s
  · have hb : (!offsetsExist e || !offsetsExist s) = true := by
      rcases hm with h' | h' <;> simp [offsetsExist_none h']
    rw [if_pos hb, generateOffsets_polyhedra A h hm, Res.bind_ok]
    refine ⟨_, _, _, rfl, ?_, get_setChild_same _ _ _, ?_, groups_new h.cellGroups, groups_new h.faceGroups⟩
    · rw [get_setChild_other _ _ _ _ (by decide), get_setChild_same]
    · rw [get_setChild_other _ _ _ _ (by decide), h.shape]
  · rw [not_or] at hm
    have h1 : NatLeaf e (chars! "offsets") (starts cells) := h.cellGroups.offsets.resolve_left hm.1
    have h2 : NatLeaf s (chars! "offsets") (starts faces) := h.faceGroups.offsets.resolve_left hm.2
    rw [offsetsExist_leaf h1, offsetsExist_leaf h2]
    exact ⟨topo, e, s, rfl, h.elements, h.subelements, h.shape,
      ⟨h.cellGroups.conn, h.cellGroups.sizes, h1, h.cellGroups.noIndices⟩,
      ⟨h.faceGroups.conn, h.faceGroups.sizes, h2, h.faceGroups.noIndices⟩⟩

/-- The relation of lists of numbers. -/
def relGroups (ls : List (List Nat)) : O2M.Rel Int :=
  ⟨some ((ls.map (·.length)).map fun p : Nat => (p : Int)), some ((starts ls).map fun p : Nat => (p : Int)), none,
    [ls.flatten.map fun p : Nat => (p : Int)]⟩

theorem OffsetGroups.rel (A : Arith F) {n : BNode F} {ls : List (List Nat)} (h : OffsetGroups n ls) :
    relOf A n (ls.flatten.map fun p : Nat => (p : Int)) = .ok (relGroups ls) := by
  obtain ⟨vz, z1, z2, _⟩ := h.sizes.read A
  obtain ⟨vo, o1, o2, _⟩ := h.offsets.read A
  simp only [relOf, optInts, hasChild_of_get _ _ _ z1, hasChild_of_get _ _ _ o1, h.noIndices, z1, z2, o1, o2, if_true,
    Bool.false_eq_true, if_false, Res.bind_ok, relGroups]

theorem gather_ok (ls : List (List Nat)) (c : Nat) (el : List Nat) (hc : ls[c]? = some el) (set : List Int) :
    gather (relGroups ls) (ls.flatten.map fun p : Nat => (p : Int)) (c : Int) set =
      .ok ((el.map fun p : Nat => (p : Int)).foldl (fun acc v => setInsert v acc) set) := by
  have hlt : c < ls.length := (List.getElem?_eq_some_iff.1 hc).1
  have hn : O2M.elementsMany (relGroups ls) (c : Int) = .ok (el.length : Int) := by
    simp only [O2M.elementsMany, O2M.elementsOne, relGroups, List.length_map]
    rw [if_pos (by omega)]
    simp [O2M.rd, Res.ofIdx, hc]
  unfold gather
  rw [hn, Res.bind_ok]
  have hidx : ∀ k : Int, O2M.index (relGroups ls) (c : Int) (k + 1) .data = .ok (((ls.take c).flatten.length : Int) + k) := by
    intro k
    have h0 : ¬ ((c : Int) < 0) := by omega
    simp only [O2M.index, O2M.groupOffset, O2M.groupStart, relGroups, O2M.rd, if_neg h0]
    simp [Res.ofIdx, starts_get ls c hlt]
  simp only [hidx, Res.bind_ok]
  apply forTo_collect _ (ls.take c).flatten.length el
  intro i p hp
  have := pick_map_nat _ _ _ (flatten_at ls c el hc i p hp)
  simpa using this

theorem faces_fold (faces : List (List Nat)) : ∀ (fs : List Int) (set : List Int),
    (∀ f ∈ fs, ∃ k : Nat, f = (k : Int) ∧ k < faces.length) → set.Pairwise (· < ·) →
    ∃ r, fs.foldlM (fun set f => gather (relGroups faces) (faces.flatten.map fun p : Nat => (p : Int)) f set) set = .ok r ∧
      r.Pairwise (· < ·) ∧ ∀ z : Int, z ∈ r ↔ z ∈ set ∨ ∃ (k : Nat) (face : List Nat) (p : Nat), (k : Int) ∈ fs ∧
        faces[k]? = some face ∧ p ∈ face ∧ z = (p : Int)
  | [], set, _, hs => ⟨set, rfl, hs, fun z => by simp⟩
  | f :: fs, set, h, hs => by
    obtain ⟨k, rfl, hk⟩ := h f (by simp)
    have hk' : faces[k]? = some faces[k] := List.getElem?_eq_getElem hk
    obtain ⟨r, e, h1, h2⟩ := faces_fold faces fs _ (fun f hf => h f (by simp [hf])) (foldl_insert_sorted
      (faces[k].map fun p : Nat => (p : Int)) set hs)
    refine ⟨r, ?_, h1, fun z => ?_⟩
    · rw [List.foldlM_cons, gather_ok faces k _ hk', Res.bind_ok, e]
    · rw [h2, foldl_insert_mem]
      constructor
      · rintro ((hz | hz) | ⟨k', face, p, a, b, c, d⟩)
        · obtain ⟨p, hp, rfl⟩ := List.mem_map.1 hz
          exact .inr ⟨k, _, p, by simp, hk', hp, rfl⟩
        · exact .inl hz
        · exact .inr ⟨k', face, p, by simp [a], b, c, d⟩
      · rintro (hz | ⟨k', face, p, a, b, c, d⟩)
        · exact .inl (.inr hz)
        · rcases List.mem_cons.1 a with a | a
          · have : k' = k := by omega
            subst this
            rw [hk'] at b; cases b
            subst d
            exact .inl (.inl (List.mem_map.2 ⟨p, c, rfl⟩))
          · exact .inr ⟨k', face, p, a, b, c, d⟩

theorem read_polyhedron (A : Arith F) {topo e s : BNode F} {cells faces : List (List Nat)}
    (h : Polyhedra topo e s cells faces) (c : Nat) (cell : List Nat) (hc : cells[c]? = some cell) (unique : Bool) :
    ∃ r, points A topo (c : Int) unique = .ok r ∧ ListsSet r fun p => ∃ f ∈ cell, ∃ face, faces[f]? = some face ∧ p ∈ face := by
  obtain ⟨topo', e', s', h1, h2, h3, h4, h5, h6⟩ := inline_polyhedra A h
  obtain ⟨e1, e2⟩ := shapeOfTopo_of h2 h4
  obtain ⟨vc, c1, c2, _⟩ := h5.conn.read A
  obtain ⟨vd, d1, d2, _⟩ := h6.conn.read A
  unfold points
  rw [h1, Res.bind_ok, e1, shapeInit_polyhedral, Res.bind_ok, h2, Res.bind_ok]
  rw [if_pos (by decide), h3, Res.bind_ok, c1, Res.bind_ok, c2, Res.bind_ok, h5.rel A, Res.bind_ok, gather_ok cells c cell hc,
    Res.bind_ok, d1, Res.bind_ok, d2, Res.bind_ok, h6.rel A, Res.bind_ok]
  obtain ⟨r, q1, q2, q3⟩ := faces_fold faces ((cell.map fun p : Nat => (p : Int)).foldl (fun acc v => setInsert v acc) []) [] (by
    intro f hf
    rw [foldl_insert_mem] at hf
    simp only [List.mem_map, List.not_mem_nil, or_false] at hf
    obtain ⟨k, hk, rfl⟩ := hf
    exact ⟨k, rfl, h.inRange cell (List.mem_of_getElem? hc) k hk⟩) .nil
  refine ⟨r, q1, q2, fun z => ?_⟩
  rw [q3]
  simp only [List.not_mem_nil, false_or, foldl_insert_mem, or_false, List.mem_map]
  constructor
  · rintro ⟨k, face, p, ⟨k', hk', e⟩, hf, hp, rfl⟩
    have : k' = k := by omega
    subst this
    exact ⟨p, rfl, k', hk', face, hf, hp⟩
  · rintro ⟨p, rfl, f, hf, face, hface, hp⟩
    exact ⟨f, face, p, ⟨f, hf, rfl⟩, hface, hp, rfl⟩

end Conduit.Mesh
