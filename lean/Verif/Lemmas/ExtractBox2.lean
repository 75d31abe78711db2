import Verif.Lemmas.ExtractBox
/-
The coordsets and topologies of boxes.
-/
namespace Conduit.Part
open Conduit.Mesh
variable {F : Type}

theorem nth_named (c : BNode F) (names : List Str) (hk : c.kids.map (·.1) = names) (hn : names.Nodup) (i : Nat) (name : Str) (v : BNode F)
    (hi : names[i]? = some name) (hg : c.get name = .ok v) : nth c i = .ok (name, v) := by
  rw [← hk, List.getElem?_map] at hi
  cases hx : c.kids[i]? with
  | none => rw [hx] at hi; cases hi
  | some k =>
    rw [hx] at hi
    have hi : k.1 = name := Option.some.inj hi
    have := get_named c.kids (by rw [hk]; exact hn) k (List.mem_of_getElem? hx)
    have e : (BNode.obj c.kids).get k.1 = c.get k.1 := rfl
    rw [e, hi, hg] at this
    injection this with this
    unfold nth
    rw [hx]
    show Res.ok k = _
    rw [← hi, this]

theorem i3_at (l : List Nat) (i : Nat) (h : i < 3) : (i3 l).at i = (l.getD i 0 : Nat) := by
  rcases (by omega : i = 0 ∨ i = 1 ∨ i = 2) with rfl | rfl | rfl <;> rfl

theorem names_of_forall2 {β : Type} {l : List Nat} {m : List (Str × β)} {g : List Str} {P : Nat → Str × β → Prop}
    (h : List.Forall₂ (fun i b => g[i]? = some b.1 ∧ P i b) l m) : m.map (fun b => some b.1) = l.map (fun i => g[i]?) := by
  induction h with
  | nil => rfl
  | cons p _ ih => simp [p.1, ih]

theorem names_range {β : Type} {m : List (Str × β)} {g : List Str} {P : Nat → Str × β → Prop}
    (h : List.Forall₂ (fun i b => g[i]? = some b.1 ∧ P i b) (List.range g.length) m) : m.map (·.1) = g := by
  have := names_of_forall2 h
  apply List.ext_getElem?
  intro i
  have e := congrArg (fun l => l[i]?) this
  simp only [List.getElem?_map] at e
  by_cases hi : i < g.length
  · rw [List.getElem?_range hi] at e
    rw [List.getElem?_map]
    cases hx : m[i]? with
    | none => rw [hx] at e; cases e
    | some b => rw [hx] at e; injection e
  · rw [List.getElem?_eq_none (by have := h.length_eq; simp at this ⊢; omega), List.getElem?_eq_none (by omega)]

theorem obj_get_range {m : List (Str × BNode F)} {g : List Str} (hn : g.Nodup) {P : Nat → Str × BNode F → Prop}
    (h : List.Forall₂ (fun i b => g[i]? = some b.1 ∧ P i b) (List.range g.length) m) (i : Nat) (a : Str) (hi : g[i]? = some a) :
    ∃ v, (BNode.obj m).get a = .ok v ∧ P i (a, v) := by
  have hnames := names_range h
  have hlt : i < g.length := (List.getElem?_eq_some_iff.1 hi).1
  have hlt' : i < m.length := by have := h.length_eq; simp at this; omega
  have hp := forall2_get h i i m[i] (List.getElem?_range hlt) (List.getElem?_eq_getElem hlt')
  have ha : m[i].1 = a := by rw [hi] at hp; exact (Option.some.inj hp.1).symm
  have := get_named m (by rw [hnames]; exact hn) m[i] (List.getElem_mem _)
  rw [ha] at this
  refine ⟨m[i].2, this, ?_⟩
  have e : (a, m[i].2) = m[i] := by rw [← ha]
  rw [e]; exact hp.2

theorem idx_small {n : Nat} (h : n < 2147483648) : int64.cast ((n : Int)) = n := by
  apply idx_cast; unfold Idx; omega

theorem boxLens_get {ed start stop : List Nat} (hb : BoxIn ed start stop) (i n : Nat) (h : ed[i]? = some n) :
    start[i]? = some (start.getD i 0) ∧ stop[i]? = some (stop.getD i 0) ∧ start.getD i 0 ≤ stop.getD i 0 ∧ stop.getD i 0 < n ∧
      (boxLens start stop)[i]? = some (stop.getD i 0 - start.getD i 0 + 1) := by
  have hlt := (List.getElem?_eq_some_iff.1 h).1
  have b1 : start[i]? = some (start.getD i 0) := by
    rw [List.getD_eq_getElem?_getD, List.getElem?_eq_getElem (by rw [hb.1]; exact hlt)]; rfl
  have b2 : stop[i]? = some (stop.getD i 0) := by
    rw [List.getD_eq_getElem?_getD, List.getElem?_eq_getElem (by rw [hb.2.1]; exact hlt)]; rfl
  have := hb.2.2 i _ _ _ b1 b2 h
  refine ⟨b1, b2, this.1, this.2, ?_⟩
  unfold boxLens
  rw [List.getElem?_zipWith, b1, b2]

theorem boxLens_length {ed start stop : List Nat} (hb : BoxIn ed start stop) : (boxLens start stop).length = ed.length := by
  unfold boxLens
  rw [List.length_zipWith, hb.1, hb.2.1, Nat.min_self]

/-- The uniform coordset of a box. -/
theorem uniformCoords_ok (A : Arith F) (cset : BNode F) (g : List (Axis F)) (start stop : List Nat) (hu : Uniform A cset g)
    (hlen : ∀ a ∈ g, 1 ≤ a.len ∧ a.len < 2147483648) (hl : g.length = 2 ∨ g.length = 3) (hb : BoxIn (elemCounts g) start stop)
    (ho : InOrder cset (chars! "origin") (g.map (·.name))) (hs : InOrder cset (chars! "spacing") (g.map fun a => 'd' :: a.name)) :
    ∃ cset' g', uniformCoords A cset (i3 start) (i3 stop) = .ok cset' ∧ Uniform A cset' g' ∧ CutUniform A start stop g g' ∧
      elemCounts g' = boxLens start stop ∧ ∀ a ∈ g', 1 ≤ a.len ∧ a.len < 2147483648 := by
  obtain ⟨oc, o1, o2⟩ := ho
  obtain ⟨sc, s1, s2⟩ := hs
  have hnd := axes_nodup _ _ hu.read.names
  have hndd : (g.map fun a => 'd' :: a.name).Nodup := by
    have : (g.map fun a => 'd' :: a.name) = (g.map (·.name)).map ('d' :: ·) := by simp [List.map_map, Function.comp_def]
    rw [this]
    exact List.Nodup.map (fun a b h => by injection h) hnd
  have hoh : cset.hasChild (chars! "origin") = true := (hasChild_iff_get _ _).2 ⟨_, o1⟩
  have hsh : cset.hasChild (chars! "spacing") = true := (hasChild_iff_get _ _).2 ⟨_, s1⟩
  have hgl : g.length ≤ 3 := by omega
  -- origin and spacing along each axis
  have hrd : ∀ i : Nat, ∃ p : F × F, ∀ ax, g[i]? = some ax → ∃ vo vs, oc.get ax.name = .ok vo ∧ vo.toF64 A = .ok p.1 ∧
      sc.get ('d' :: ax.name) = .ok vs ∧ vs.toF64 A = .ok p.2 ∧ ∀ d : Nat, ax.coord d = A.lin p.1 d p.2 := by
    intro i
    cases hx : g[i]? with
    | none => exact ⟨(A.zero, A.zero), fun _ h => by cases h⟩
    | some ax =>
      obtain ⟨_, o, s, e1, e2, e3⟩ := hu.axis i ax hx
      rw [hoh, if_pos rfl] at e1
      rw [hsh, if_pos rfl] at e2
      obtain ⟨vo, ⟨c1, c2, c3⟩, c4⟩ := e1
      obtain ⟨vs, ⟨d1, d2, d3⟩, d4⟩ := e2
      rw [o1] at c2; cases c2
      rw [s1] at d2; cases d2
      exact ⟨(o, s), fun ax' h => by cases h; exact ⟨vo, vs, c3, c4, d3, d4, e3⟩⟩
  obtain ⟨p, hp⟩ := Classical.axiomOfChoice hrd
  obtain ⟨org, e, h2⟩ := mapM_res (fun i : Nat => do
      let oi ← nth oc i
      let si ← nth sc i
      Res.ok (oi.1, BNode.flts true [A.lin (← oi.2.toF64 A) ((i3 start).at i) (← si.2.toF64 A)]))
    (fun i b => (g.map (·.name))[i]? = some b.1 ∧ b.2 = BNode.flts true [A.lin (p i).1 (start.getD i 0 : Nat) (p i).2])
    (List.range (g.map (·.name)).length) (by
      intro i hi
      have hi : i < g.length := by simpa using hi
      obtain ⟨vo, vs, q1, q2, q3, q4, _⟩ := hp i g[i] (List.getElem?_eq_getElem hi)
      have n1 := nth_named oc _ o2 hnd i g[i].name vo (by simp [hi]) q1
      have n2 := nth_named sc _ s2 hndd i ('d' :: g[i].name) vs (by simp [hi]) q3
      refine ⟨(g[i].name, .flts true [A.lin (p i).1 (start.getD i 0 : Nat) (p i).2]), ?_, by simp [hi], rfl⟩
      simp only [n1, n2, Res.bind_ok, q2, q4]
      rw [i3_at _ _ (by omega)])
  have hnames := names_range h2
  have hget := fun i a hi => obj_get_range hnd h2 i a hi
  have hone : org ≠ [] := by
    rintro rfl
    simp at hnames
    subst hnames
    simp at hl
  obtain ⟨g', hgl', hg'⟩ : ∃ g' : List (Axis F), g'.length = g.length ∧ ∀ (i : Nat) (ax : Axis F), g[i]? = some ax → g'[i]? = some
      ⟨ax.name, stop.getD i 0 - start.getD i 0 + 2, fun d => A.lin (A.lin (p i).1 (start.getD i 0 : Nat) (p i).2) d (p i).2⟩ := by
    refine ⟨(List.range g.length).map fun i => ⟨(g[i]?.map (·.name)).getD [], stop.getD i 0 - start.getD i 0 + 2,
      fun d => A.lin (A.lin (p i).1 (start.getD i 0 : Nat) (p i).2) d (p i).2⟩, by simp, ?_⟩
    intro i ax hi
    have hlt := (List.getElem?_eq_some_iff.1 hi).1
    rw [List.getElem?_map, List.getElem?_range hlt, Option.map_some, hi]
    rfl
  have hgn : g'.map (·.name) = g.map (·.name) := by
    apply List.ext_getElem?
    intro i
    rw [List.getElem?_map, List.getElem?_map]
    cases hx : g[i]? with
    | none => rw [List.getElem?_eq_none (by rw [hgl']; exact List.getElem?_eq_none_iff.1 hx)]
    | some ax => rw [hg' i ax hx]; rfl
  have hb' : ∀ i ax, g[i]? = some ax → start.getD i 0 ≤ stop.getD i 0 ∧ stop.getD i 0 < ax.len - 1 := by
    intro i ax hi
    have := boxLens_get hb i (ax.len - 1) (by simp [elemCounts, hi])
    exact ⟨this.2.2.1, this.2.2.2.1⟩
  let dims : List (Str × BNode F) := [(chars! "i", .ints int64 [(i3 stop).i - (i3 start).i + 2]), (chars! "j", .ints int64 [(i3 stop).j - (i3 start).j + 2])] ++
    (if g.length > 2 then [(chars! "k", .ints int64 [(i3 stop).k - (i3 start).k + 2])] else [])
  let cset' : BNode F := .obj [(chars! "type", .str (chars! "uniform")), (chars! "dims", .obj dims), (chars! "origin", .obj org), (chars! "spacing", sc)]
  refine ⟨cset', g', ?_, ?_, ⟨hgl', ?_⟩, ?_, ?_⟩
  · unfold uniformCoords
    simp only [hu.read.names, Res.bind_ok, o1, s1, List.length_map]
    simp only [List.length_map] at e
    rw [e]
    simp only [Res.bind_ok, cset', dims]
  · refine ⟨rfl, by rw [hgn]; exact hu.system, .inl ⟨rfl, .obj org, rfl, fun k => ?_⟩, rfl, ?_⟩
    · rw [hgn]
      show k ∈ org.map (·.1) ↔ _
      rw [hnames]
    · intro i ax' hi'
      have hlt : i < g.length := by rw [← hgl']; exact (List.getElem?_eq_some_iff.1 hi').1
      have hi := List.getElem?_eq_getElem hlt
      rw [hg' i _ hi] at hi'
      cases hi'
      have hbb := hb' i _ hi
      have hll := hlen g[i] (List.getElem_mem _)
      refine ⟨?_, (A.lin (p i).1 (start.getD i 0 : Nat) (p i).2), (p i).2, ?_, ?_, fun d => rfl⟩
      · refine ⟨.ints int64 [((stop.getD i 0 - start.getD i 0 + 2 : Nat) : Int)], ⟨.obj dims, rfl, ?_⟩, ?_⟩
        · have ee : ((stop.getD i 0 - start.getD i 0 + 2 : Nat) : Int) = (stop.getD i 0 : Nat) - (start.getD i 0 : Nat) + 2 := by omega
          rw [ee]
          rcases (by omega : i = 0 ∨ i = 1 ∨ i = 2) with rfl | rfl | rfl
          · rfl
          · rfl
          · simp only [dims]
            rw [if_pos (by omega)]
            rfl
        · show Res.ok (int64.cast _) = _
          rw [idx_small (by show _ < _; omega)]
      · rw [show cset'.hasChild (chars! "origin") = true from rfl, if_pos rfl]
        obtain ⟨v, v1, v2⟩ := hget i g[i].name (by rw [List.getElem?_map, hi]; rfl)
        refine ⟨v, ⟨.obj org, rfl, v1⟩, ?_⟩
        have v2 : v = _ := v2
        rw [v2]; rfl
      · rw [show cset'.hasChild (chars! "spacing") = true from rfl, if_pos rfl]
        obtain ⟨vo, vs, q1, q2, q3, q4, _⟩ := hp i g[i] hi
        exact ⟨vs, ⟨sc, rfl, q3⟩, q4⟩
  · intro i a b ax hi ha hb2
    have ea : start.getD i 0 = a := by rw [List.getD_eq_getElem?_getD, ha]; rfl
    have eb : stop.getD i 0 = b := by rw [List.getD_eq_getElem?_getD, hb2]; rfl
    obtain ⟨_, _, _, _, _, _, q5⟩ := hp i ax hi
    refine ⟨_, hg' i ax hi, rfl, by rw [ea, eb], (p i).1, (p i).2, q5, fun d => ?_⟩
    rw [q5 a, ea]
  · apply List.ext_getElem?
    intro i
    have hle : (elemCounts g).length = g.length := by simp [elemCounts]
    by_cases hlt : i < g.length
    · have hi := List.getElem?_eq_getElem hlt
      rw [(boxLens_get hb i (g[i].len - 1) (by simp [elemCounts, hlt])).2.2.2.2]
      simp only [elemCounts, List.getElem?_map]
      rw [hg' i _ hi]
      rfl
    · rw [List.getElem?_eq_none (by simp [elemCounts]; omega), List.getElem?_eq_none (by rw [boxLens_length hb, hle]; omega)]
  · intro a ha
    obtain ⟨i, hi⟩ := List.getElem?_of_mem ha
    have hlt : i < g.length := by rw [← hgl']; exact (List.getElem?_eq_some_iff.1 hi).1
    have hi2 := List.getElem?_eq_getElem hlt
    rw [hg' i _ hi2] at hi
    cases hi
    have := hb' i _ hi2
    have hll := hlen g[i] (List.getElem_mem _)
    constructor
    · show 1 ≤ _ + 2; omega
    · show _ + 2 < _; omega

/-- The rectilinear coordset of a box. -/
theorem rectilinearCoords_ok (cset : BNode F) (g : List (Axis F)) (start stop : List Nat) (hu : Rectilinear cset g)
    (hl : g.length = 2 ∨ g.length = 3) (hb : BoxIn (elemCounts g) start stop)
    (ho : InOrder cset (chars! "values") (g.map (·.name))) :
    ∃ cset' g', rectilinearCoords cset (i3 start) (i3 stop) = .ok cset' ∧ Rectilinear cset' g' ∧ CutAxes start stop g g' ∧
      elemCounts g' = boxLens start stop ∧ ∀ a ∈ g', 1 ≤ a.len := by
  obtain ⟨vc, o1, o2⟩ := ho
  have hnd := axes_nodup _ _ hu.read.names
  have hgl : g.length ≤ 3 := by omega
  have hb' : ∀ i ax, g[i]? = some ax → start.getD i 0 ≤ stop.getD i 0 ∧ stop.getD i 0 < ax.len - 1 := by
    intro i ax hi
    have := boxLens_get hb i (ax.len - 1) (by simp [elemCounts, hi])
    exact ⟨this.2.2.1, this.2.2.2.1⟩
  obtain ⟨cols, e, h2⟩ := mapM_res (fun d : Nat => do
      let src ← nth vc d
      let c ← sliceArray src.2 (upTo ((i3 start).at d) ((i3 stop).at d + 1))
      Res.ok (src.1, c))
    (fun i b => (g.map (·.name))[i]? = some b.1 ∧ ∃ w l, b.2 = BNode.flts w l ∧ l.length = stop.getD i 0 - start.getD i 0 + 2 ∧
      ∀ ax, g[i]? = some ax → ∀ d : Nat, d ≤ stop.getD i 0 - start.getD i 0 + 1 → l[d]? = some (ax.coord (start.getD i 0 + d)))
    (List.range (g.map (·.name)).length) (by
      intro i hi
      have hi : i < g.length := by simpa using hi
      have hgi := List.getElem?_eq_getElem hi
      obtain ⟨w, l, ⟨c, c1, c2⟩, c3, c4⟩ := hu.axis i g[i] hgi
      rw [o1] at c1; cases c1
      have hbb := hb' i g[i] hgi
      have n1 := nth_named vc _ o2 hnd i g[i].name _ (by simp [hi]) c2
      obtain ⟨l', s1, s2, s3⟩ := sliceList_ok l (List.range' (start.getD i 0) (stop.getD i 0 + 1 + 1 - start.getD i 0)) (by
        intro k hk
        rw [List.mem_range'_1] at hk
        rw [c3]; omega)
      refine ⟨(g[i].name, .flts w l'), ?_, by simp [hi], w, l', rfl, by rw [s2, List.length_range']; omega, ?_⟩
      · simp only [n1, Res.bind_ok]
        rw [i3_at _ _ (by omega), i3_at _ _ (by omega)]
        have hup := upTo_nat (start.getD i 0) (stop.getD i 0 + 1)
        push_cast at hup
        rw [hup]
        simp only [sliceArray, ints, s1, Res.map', Res.bind_ok]
      · intro ax hax d hd
        rw [hgi] at hax; cases hax
        obtain ⟨v, v1, v2⟩ := s3 d (start.getD i 0 + d) (by rw [List.getElem?_range' (by omega)]; simp)
        rw [v2, ← v1, c4 _ (by omega)])
  have hnames := names_range h2
  have hget := fun i a hi => obj_get_range hnd h2 i a hi
  have hone : cols ≠ [] := by
    rintro rfl
    simp at hnames
    subst hnames
    simp at hl
  obtain ⟨g', hgl', hg'⟩ : ∃ g' : List (Axis F), g'.length = g.length ∧ ∀ (i : Nat) (ax : Axis F), g[i]? = some ax → g'[i]? = some
      ⟨ax.name, stop.getD i 0 - start.getD i 0 + 2, fun d => ax.coord (start.getD i 0 + d)⟩ := by
    refine ⟨g.mapIdx fun i ax => ⟨ax.name, stop.getD i 0 - start.getD i 0 + 2, fun d => ax.coord (start.getD i 0 + d)⟩, by simp, ?_⟩
    intro i ax hi
    rw [List.getElem?_mapIdx, hi, Option.map_some]
  have hgn : g'.map (·.name) = g.map (·.name) := by
    apply List.ext_getElem?
    intro i
    rw [List.getElem?_map, List.getElem?_map]
    cases hx : g[i]? with
    | none => rw [List.getElem?_eq_none (by rw [hgl']; exact List.getElem?_eq_none_iff.1 hx)]
    | some ax => rw [hg' i ax hx]; rfl
  let cset' : BNode F := .obj [(chars! "values", .obj cols), (chars! "type", .str (chars! "rectilinear"))]
  refine ⟨cset', g', ?_, ?_, ⟨hgl', ?_⟩, ?_, ?_⟩
  · unfold rectilinearCoords
    simp only [hu.read.names, Res.bind_ok, o1, List.length_map]
    simp only [List.length_map] at e
    rw [e]
    simp only [Res.bind_ok, cset']
  · refine ⟨rfl, by rw [hgn]; exact hu.system, ⟨.obj cols, rfl, fun k => ?_⟩, ?_, rfl, rfl⟩
    · rw [hgn]
      show k ∈ cols.map (·.1) ↔ _
      rw [hnames]
    · intro i ax' hi'
      have hlt : i < g.length := by rw [← hgl']; exact (List.getElem?_eq_some_iff.1 hi').1
      have hi := List.getElem?_eq_getElem hlt
      rw [hg' i _ hi] at hi'
      cases hi'
      obtain ⟨v, v1, w, l, v2, v3, v4⟩ := hget i g[i].name (by rw [List.getElem?_map, hi]; rfl)
      have v2 : v = _ := v2
      subst v2
      refine ⟨w, l, ⟨.obj cols, rfl, v1⟩, v3, fun d hd => v4 _ hi d ?_⟩
      have hd : d < _ + 2 := hd
      omega
  · intro i a b ax hi ha hb2
    have ea : start.getD i 0 = a := by rw [List.getD_eq_getElem?_getD, ha]; rfl
    have eb : stop.getD i 0 = b := by rw [List.getD_eq_getElem?_getD, hb2]; rfl
    exact ⟨_, hg' i ax hi, rfl, by rw [ea, eb], fun d _ => by rw [ea]⟩
  · apply List.ext_getElem?
    intro i
    have hle : (elemCounts g).length = g.length := by simp [elemCounts]
    by_cases hlt : i < g.length
    · have hi := List.getElem?_eq_getElem hlt
      rw [(boxLens_get hb i (g[i].len - 1) (by simp [elemCounts, hlt])).2.2.2.2]
      simp only [elemCounts, List.getElem?_map]
      rw [hg' i _ hi]
      rfl
    · rw [List.getElem?_eq_none (by simp [elemCounts]; omega), List.getElem?_eq_none (by rw [boxLens_length hb, hle]; omega)]
  · intro a ha
    obtain ⟨i, hi⟩ := List.getElem?_of_mem ha
    have hlt : i < g.length := by rw [← hgl']; exact (List.getElem?_eq_some_iff.1 hi).1
    rw [hg' i _ (List.getElem?_eq_getElem hlt)] at hi
    cases hi
    show 1 ≤ _ + 2; omega

end Conduit.Part
