import Verif.Lemmas.MeshTree
import Verif.Lemmas.MeshLoop
/-
Coordsets: the arrays the conversions make.
-/
namespace Conduit.Mesh
variable {F : Type}

/-- What the conversions read from a uniform coordset with these axes: along each of them the points begin at the origin
    (0.0 if none is given) and are one spacing (1.0 if none is given) apart. -/
structure UniformRd (A : Arith F) (n : BNode F) (g : List (Axis F)) : Prop where
  names : axes n = .ok (g.map (·.name))
  axis : ∀ (i : Nat) (a : Axis F), g[i]? = some a →
    dimLen A n i = .ok (a.len : Int) ∧
    ∃ o s, originOf A n a.name = .ok o ∧ spacingOf A n a.name = .ok s ∧ ∀ d : Nat, a.coord d = A.lin o d s

/-- What they read from a rectilinear coordset with these axes, all of floating point type. -/
structure RectilinearRd (n : BNode F) (g : List (Axis F)) : Prop where
  names : axes n = .ok (g.map (·.name))
  axis : ∀ (i : Nat) (a : Axis F), g[i]? = some a →
    ∃ v w l, n.get (chars! "values") = .ok v ∧ v.get a.name = .ok (.flts w l) ∧ l.length = a.len ∧
      ∀ d : Nat, d < a.len → l[d]? = some (a.coord d)
  noOrigin : n.hasChild (chars! "origin") = false
  noSpacing : n.hasChild (chars! "spacing") = false

/-! ### points -/

theorem foldl_mul (a : Int) (l : List Int) : l.foldl (· * ·) a = a * prod l := by
  unfold prod
  induction l generalizing a with
  | nil => simp
  | cons x l ih => simp only [List.foldl_cons]; rw [ih (a * x), ih (1 * x)]; ring

theorem prod_cast (l : List Nat) : prod (l.map (fun x : Nat => (x : Int))) = (count l : Nat) := by
  induction l with
  | nil => rfl
  | cons x l ih =>
    rw [List.map_cons]
    show List.foldl (· * ·) (1 * (x : Int)) _ = _
    rw [foldl_mul, ih, count]
    push_cast; ring

theorem count_append (a b : List Nat) : count (a ++ b) = count a * count b := by
  induction a with
  | nil => simp [count]
  | cons x a ih => simp only [List.cons_append, count, ih]; ring

theorem count_split (l : List Nat) (i : Nat) (d : Nat) (h : l[i]? = some d) :
    count l = count (l.take i) * d * count (l.drop (i + 1)) := by
  induction l generalizing i with
  | nil => simp at h
  | cons x l ih =>
    cases i with
    | zero => simp at h; subst h; simp [count]
    | succ i =>
      simp only [List.getElem?_cons_succ] at h
      simp only [List.take_succ_cons, List.drop_succ_cons, count]
      rw [ih i h]; ring

theorem pointId_lt (l x : List Nat) (h : InGrid l x) : pointId l x < count l := by
  induction l generalizing x with
  | nil => cases x with
    | nil => simp [pointId, count]
    | cons => simp [InGrid] at h
  | cons d l ih =>
    cases x with
    | nil => simp [InGrid] at h
    | cons y x =>
      simp only [InGrid] at h
      have := ih x h.2
      simp only [pointId, count]
      have h2 : d * (pointId l x + 1) ≤ d * count l := Nat.mul_le_mul_left _ this
      rw [Nat.mul_add] at h2
      omega

theorem pointId_index (l x : List Nat) (h : InGrid l x) (i d : Nat) (hi : l[i]? = some d) :
    x[i]? = some (pointId l x / count (l.take i) % d) := by
  induction l generalizing x i with
  | nil => simp at hi
  | cons e l ih =>
    cases x with
    | nil => simp [InGrid] at h
    | cons y x =>
      simp only [InGrid] at h
      cases i with
      | zero =>
        simp at hi; subst hi
        simp [pointId, count, Nat.mod_eq_of_lt h.1]
      | succ i =>
        simp only [List.getElem?_cons_succ] at hi
        simp only [List.getElem?_cons_succ, List.take_succ_cons, count, pointId]
        rw [ih x h.2 i hi, ← Nat.div_div_eq_div_mul, Nat.add_mul_div_left _ _ (by omega),
          Nat.div_eq_of_lt h.1, Nat.zero_add]

/-! ### axes -/

theorem axes_sublist (names : List Str) : (baseAxes names).Nodup := by
  unfold baseAxes
  split
  · decide
  · split
    · decide
    · split
      · decide
      · split
        · decide
        · exact List.nodup_nil

theorem axes_nodup (n : BNode F) (as : List Str) (h : axes n = .ok as) : as.Nodup := by
  unfold axes at h
  simp only [Res.bind_eq_ok] at h
  obtain ⟨_, _, _, _, c, _, h⟩ := h
  injection h with h
  rw [← h]
  exact (axes_sublist _).sublist List.filter_sublist

/-! ### explicit coordsets -/

/-- The array of one axis. -/
def column (wide : Bool) (lens : List Nat) (i : Nat) (a : Axis F) : Str × BNode F :=
  (a.name, .flts wide ((List.range (count lens)).map fun p => a.coord (p / count (lens.take i) % a.len)))

def columns (wide : Bool) (g : List (Axis F)) : List (Str × BNode F) :=
  g.mapIdx fun i a => column wide (g.map (·.len)) i a

/-- The tree of the explicit coordset of a grid. -/
def explicitOf (wide : Bool) (g : List (Axis F)) : BNode F :=
  .obj ((chars! "type", .str (chars! "explicit")) :: objKid (chars! "values") (columns wide g))

theorem columns_names (wide : Bool) (g : List (Axis F)) : (columns wide g).map (·.1) = g.map (·.name) := by
  apply List.ext_getElem?
  intro i
  simp only [columns, List.getElem?_map, List.getElem?_mapIdx, Option.map_map]
  rfl

theorem toExplicit_eq (A : Arith F) (base : Base) (n : BNode F) (g : List (Axis F))
    (hn : axes n = .ok (g.map (·.name)))
    (hlen : ∀ (i : Nat) (a : Axis F), g[i]? = some a → axisLen A base n i a.name = .ok (a.len : Int))
    (hval : ∀ (i : Nat) (a : Axis F), g[i]? = some a → ∃ src o s,
      sourceOf n a.name = .ok src ∧
      originOf A n a.name = .ok o ∧ spacingOf A n a.name = .ok s ∧
      ∀ d : Nat, d < a.len → axisValue A base src o s (widestFloat n) d = .ok (a.coord d)) :
    toExplicit A base n = .ok (explicitOf (widestFloat n) g) := by
  have hlens : forNames (axisLen A base n) 0 (g.map (·.name)) = .ok ((g.map (·.len)).map (fun x : Nat => (x : Int))) := by
    apply forNames_ok
    · simp
    · intro i a b ha hb
      rw [List.getElem?_map] at ha
      cases hg : g[i]? with
      | none => simp [hg] at ha
      | some x =>
        simp [hg] at ha hb
        subst ha; subst hb
        simpa using hlen i x hg
  have hcols : forNames (explicitAxis A base n (widestFloat n) ((g.map (·.len)).map (fun x : Nat => (x : Int)))) 0
      (g.map (·.name)) = .ok (columns (widestFloat n) g) := by
    apply forNames_ok
    · simp [columns]
    · intro i a b ha hb
      rw [List.getElem?_map] at ha
      rw [columns, List.getElem?_mapIdx] at hb
      cases hg : g[i]? with
      | none => simp [hg] at ha
      | some x =>
        rw [hg] at ha hb
        simp only [Option.map_some, Option.some.injEq] at ha hb
        subst ha; subst hb
        obtain ⟨src, o, s, h1, h2, h3, h4⟩ := hval i x hg
        rw [Nat.zero_add]
        have hli : (g.map (·.len))[i]? = some x.len := by simp [hg]
        have hidx : Res.ofIdx ((g.map (·.len)).map (fun x : Nat => (x : Int))) i = .ok (x.len : Int) := by
          simp [Res.ofIdx, hg]
        have ht : prod ((((g.map (·.len)).map (fun x : Nat => (x : Int)))).take i)
            = (count ((g.map (·.len)).take i) : Nat) := by rw [← List.map_take]; exact prod_cast _
        have hd : prod ((((g.map (·.len)).map (fun x : Nat => (x : Int)))).drop (i + 1))
            = (count ((g.map (·.len)).drop (i + 1)) : Nat) := by rw [← List.map_drop]; exact prod_cast _
        have hf := fillAxis_eq (count ((g.map (·.len)).take i)) (count ((g.map (·.len)).drop (i + 1))) x.len A.zero
          (axisValue A base src o s (widestFloat n)) x.coord h4
        rw [← count_split _ _ _ hli] at hf
        unfold explicitAxis
        rw [h1, Res.bind_ok, h2, Res.bind_ok, h3, Res.bind_ok, hidx, Res.bind_ok, prod_cast, alloc_nat, Res.bind_ok,
          ht, hd, hf, Res.bind_ok]
        rfl
  unfold toExplicit
  rw [hn, Res.bind_ok, hlens, Res.bind_ok, hcols, Res.bind_ok]
  rfl

theorem explicitOf_explicit (wide : Bool) (g : List (Axis F)) (hn : (g.map (·.name)).Nodup) :
    Explicit (explicitOf wide g) g := by
  refine ⟨rfl, fun i a ha => ?_⟩
  have hc : (columns wide g)[i]? = some (column wide (g.map (·.len)) i a) := by
    simp [columns, List.getElem?_mapIdx, ha]
  refine ⟨.obj (columns wide g), wide, _, ?_, get_obj_nodup _ i _ _ (by rw [columns_names]; exact hn) hc, by simp, ?_⟩
  · have : columns wide g ≠ [] := by intro h; rw [h] at hc; simp at hc
    unfold explicitOf objKid
    cases hq : columns wide g with
    | nil => exact absurd hq this
    | cons k ks => rfl
  · intro x hx
    have hli : (g.map (·.len))[i]? = some a.len := by simp [ha]
    rw [List.getElem?_map, List.getElem?_range (pointId_lt _ _ hx), pointId_index _ _ hx i _ hli]
    rfl

/-- The tree of the rectilinear coordset of a grid. -/
def rectilinearOf (wide : Bool) (g : List (Axis F)) : BNode F :=
  .obj ((chars! "type", .str (chars! "rectilinear")) :: objKid (chars! "values")
    (g.map fun a => (a.name, .flts wide ((List.range a.len).map a.coord))))

theorem toRectilinear_eq (A : Arith F) (n : BNode F) (g : List (Axis F)) (h : UniformRd A n g) :
    toRectilinear A n = .ok (rectilinearOf (widestFloat n) (mapCoord (storeF A (widestFloat n) true) g)) := by
  have hcols : forNames (rectilinearAxis A n (widestFloat n)) 0 (g.map (·.name)) =
      .ok (((mapCoord (storeF A (widestFloat n) true) g)).map fun a =>
        (a.name, BNode.flts (widestFloat n) ((List.range a.len).map a.coord))) := by
    apply forNames_ok
    · simp [mapCoord]
    · intro i a b ha hb
      rw [List.getElem?_map] at ha
      rw [List.getElem?_map, mapCoord, List.getElem?_map] at hb
      cases hg : g[i]? with
      | none => simp [hg] at ha
      | some x =>
        rw [hg] at ha hb
        simp only [Option.map_some, Option.some.injEq] at ha hb
        subst ha; subst hb
        obtain ⟨h1, o, s, h2, h3, h4⟩ := h.axis i x hg
        rw [Nat.zero_add]
        have hfill := fill_line x.len A.zero (fun d : Nat => storeF A (widestFloat n) true (x.coord d))
        have hloop : forTo (x.len : Int) (fun d arr => put arr d (storeF A (widestFloat n) true (A.lin o d s)))
            (List.replicate x.len A.zero) = forTo (x.len : Int)
              (fun d arr => put arr d (storeF A (widestFloat n) true (x.coord d.toNat))) (List.replicate x.len A.zero) := by
          have e : ∀ d : Nat, (fun (arr : List F) => put arr (d : Int) (storeF A (widestFloat n) true (A.lin o d s))) =
              fun arr => put arr (d : Int) (storeF A (widestFloat n) true (x.coord ((d : Int).toNat))) := by
            intro d; funext arr; rw [Int.toNat_natCast, h4]
          unfold forTo
          congr 1
          funext arr d
          exact congrFun (e d) arr
        unfold rectilinearAxis
        rw [h2, Res.bind_ok, h3, Res.bind_ok, h1, Res.bind_ok, alloc_nat, Res.bind_ok, hloop, hfill, Res.bind_ok]
  unfold toRectilinear
  rw [h.names, Res.bind_ok, hcols, Res.bind_ok]
  rfl

/-! ### rectilinear coordsets -/

theorem findWidest_spec (n : BNode F) (d : ETy) (defs : List ETy) :
    (findWidest n d defs = d ∨ (HasLeaf n (findWidest n d defs) ∧ Counts (d :: defs) (findWidest n d defs))) ∧
    (∀ t, HasLeaf n t → Counts (d :: defs) t → t.bytes ≤ (findWidest n d defs).bytes) ∧
    ((∀ t, HasLeaf n t → ¬ Counts (d :: defs) t) → findWidest n d defs = d) ∧
    (∀ t, HasLeaf n t → Counts (d :: defs) t → HasLeaf n (findWidest n d defs)) := by
  have h := widestLoop_spec (d :: defs) [n] none
  have hb : ∀ t, BagLeaf [n] t ↔ HasLeaf n t := by
    intro t; constructor
    · rintro ⟨m, hm, h'⟩; simp at hm; subst hm; exact h'
    · intro h; exact ⟨n, by simp, h⟩
  unfold findWidest
  generalize hr : widestLoop (d :: defs) [n] none = r at h
  cases r with
  | none =>
    refine ⟨.inl rfl, fun t ht hc => ?_, fun _ => rfl, fun t ht hc => ?_⟩
    · have := h.ge t ((hb t).mpr ht) hc
      have := bytes_pos t
      simp [widthOf] at *; omega
    · have := h.ge t ((hb t).mpr ht) hc
      have := bytes_pos t
      simp [widthOf] at *; omega
  | some u =>
    rcases h.from_ with h1 | ⟨t, h1, h2, h3⟩
    · simp at h1
    · have hu : u = t := by simpa using h1
      subst hu
      exact ⟨.inr ⟨(hb u).mp h2, h3⟩, fun t ht hc => h.ge t ((hb t).mpr ht) hc,
        fun hno => absurd h3 (hno u ((hb u).mp h2)), fun _ _ _ => (hb u).mp h2⟩

theorem widestFloat_true (n : BNode F) (h : HasLeaf n (.f true)) : widestFloat n = true := by
  obtain ⟨h1, h2, _⟩ := findWidest_spec n (.f false) []
  have hge := h2 (.f true) h ⟨.f false, by simp, rfl⟩
  unfold widestFloat
  rcases h1 with h1 | ⟨_, c, hc, h3⟩
  · rw [h1] at hge; simp [ETy.bytes] at hge
  · simp at hc; subst hc
    generalize findWidest n (.f false) [] = t at *
    cases t with
    | f w => cases w with
      | true => rfl
      | false => simp [ETy.bytes] at hge
    | i => simp [sameClass] at h3
    | s => simp [sameClass] at h3

theorem widestFloat_false (n : BNode F) (h : ¬ HasLeaf n (.f true)) : widestFloat n = false := by
  obtain ⟨h1, _⟩ := findWidest_spec n (.f false) []
  unfold widestFloat
  rcases h1 with h1 | ⟨h1, _⟩
  · rw [h1]
  · generalize findWidest n (.f false) [] = t at *
    cases t with
    | f w => cases w with
      | true => exact absurd h1 h
      | false => rfl
    | i => rfl
    | s => rfl

theorem hasChild_of_get (n : BNode F) (name : Str) (v : BNode F) (h : n.get name = .ok v) : n.hasChild name = true := by
  unfold BNode.get at h
  cases hf : n.kids.find? (fun k => k.1 == name) with
  | none => rw [hf] at h; simp at h
  | some k =>
    rw [BNode.hasChild, List.any_eq_true]
    have h2 := List.find?_some hf
    exact ⟨k, List.mem_of_find?_eq_some hf, h2⟩

theorem toExplicit_rectilinear (A : Arith F) (n : BNode F) (g : List (Axis F)) (h : RectilinearRd n g) :
    toExplicit A .rectilinear n = .ok (explicitOf (widestFloat n) g) := by
  apply toExplicit_eq A .rectilinear n g h.names
  · intro i a ha
    obtain ⟨v, w, l, h1, h2, h3, _⟩ := h.axis i a ha
    simp [axisLen, h1, h2, BNode.numElements, h3]
  · intro i a ha
    obtain ⟨v, w, l, h1, h2, h3, h4⟩ := h.axis i a ha
    refine ⟨.flts w l, A.zero, A.one, ?_, ?_, ?_, ?_⟩
    · simp [sourceOf, hasChild_of_get _ _ _ h1, h1, h2]
    · simp [originOf, h.noOrigin]
    · simp [spacingOf, h.noSpacing]
    · intro d hd
      have hw : storeF A (widestFloat n) w (a.coord d) = a.coord d := by
        cases w with
        | false => simp [storeF]
        | true =>
          have := widestFloat_true n (hasLeaf_get n _ v _ h1 (hasLeaf_get v _ _ _ h2 (.leaf _ _ rfl)))
          simp [storeF, this]
      simp [axisValue, storeElem, pick, h4 d hd, hw]

/-! ### a rectilinear coordset has the axes of the uniform one it was made from -/

theorem tables_axisName : ∀ a ∈ cartesianAxes ++ cylindricalAxes ++ sphericalAxes ++ logicalAxes, axisName a = a := by
  decide

theorem baseAxes_tables (names : List Str) (a : Str) (h : a ∈ baseAxes names) :
    a ∈ cartesianAxes ++ cylindricalAxes ++ sphericalAxes ++ logicalAxes := by
  unfold baseAxes at h
  simp only [List.mem_append]
  split at h
  · exact .inl (.inr h)
  · split at h
    · exact .inl (.inl (.inr h))
    · split at h
      · exact .inl (.inl (.inl h))
      · split at h
        · exact .inr h
        · simp at h

theorem baseAxes_filter (names : List Str) :
    baseAxes ((baseAxes names).filter fun b => names.contains b) = baseAxes names := by
  have key : ∀ a, a ∈ (baseAxes names).filter (fun b => names.contains b) ↔ a ∈ baseAxes names ∧ a ∈ names := by
    intro a; simp
  have hb : baseAxes ((baseAxes names).filter fun b => names.contains b) =
      (if (chars! "theta" ∈ baseAxes names ∧ chars! "theta" ∈ names) ∨
          (chars! "phi" ∈ baseAxes names ∧ chars! "phi" ∈ names) then sphericalAxes
      else if chars! "r" ∈ baseAxes names ∧ chars! "r" ∈ names then cylindricalAxes
      else if (chars! "x" ∈ baseAxes names ∧ chars! "x" ∈ names) ∨
        (chars! "y" ∈ baseAxes names ∧ chars! "y" ∈ names) ∨
        (chars! "z" ∈ baseAxes names ∧ chars! "z" ∈ names) then cartesianAxes
      else if (chars! "i" ∈ baseAxes names ∧ chars! "i" ∈ names) ∨
        (chars! "j" ∈ baseAxes names ∧ chars! "j" ∈ names) ∨
        (chars! "k" ∈ baseAxes names ∧ chars! "k" ∈ names) then logicalAxes
      else []) := by
    have e : ∀ L : List Str, baseAxes L = (if chars! "theta" ∈ L ∨ chars! "phi" ∈ L then sphericalAxes
      else if chars! "r" ∈ L then cylindricalAxes
      else if chars! "x" ∈ L ∨ chars! "y" ∈ L ∨ chars! "z" ∈ L then cartesianAxes
      else if chars! "i" ∈ L ∨ chars! "j" ∈ L ∨ chars! "k" ∈ L then logicalAxes
      else []) := fun _ => rfl
    rw [e ((baseAxes names).filter fun b => names.contains b)]
    simp only [key]
  rw [hb]
  by_cases h1 : chars! "theta" ∈ names ∨ chars! "phi" ∈ names
  · have : baseAxes names = sphericalAxes := by unfold baseAxes; rw [if_pos h1]
    rw [this]
    rw [if_pos]
    rcases h1 with h | h
    · exact .inl ⟨by decide, h⟩
    · exact .inr ⟨by decide, h⟩
  · by_cases h2 : chars! "r" ∈ names
    · have : baseAxes names = cylindricalAxes := by unfold baseAxes; rw [if_neg h1, if_pos h2]
      rw [this, if_neg, if_pos ⟨by decide, h2⟩]
      rintro (⟨h, _⟩ | ⟨h, _⟩) <;> revert h <;> decide
    · by_cases h3 : chars! "x" ∈ names ∨ chars! "y" ∈ names ∨ chars! "z" ∈ names
      · have : baseAxes names = cartesianAxes := by unfold baseAxes; rw [if_neg h1, if_neg h2, if_pos h3]
        rw [this, if_neg, if_neg, if_pos]
        · rcases h3 with h | h | h
          · exact .inl ⟨by decide, h⟩
          · exact .inr (.inl ⟨by decide, h⟩)
          · exact .inr (.inr ⟨by decide, h⟩)
        · rintro ⟨h, _⟩; revert h; decide
        · rintro (⟨h, _⟩ | ⟨h, _⟩) <;> revert h <;> decide
      · by_cases h4 : chars! "i" ∈ names ∨ chars! "j" ∈ names ∨ chars! "k" ∈ names
        · have : baseAxes names = logicalAxes := by
            unfold baseAxes; rw [if_neg h1, if_neg h2, if_neg h3, if_pos h4]
          rw [this, if_neg, if_neg, if_neg, if_pos]
          · rcases h4 with h | h | h
            · exact .inl ⟨by decide, h⟩
            · exact .inr (.inl ⟨by decide, h⟩)
            · exact .inr (.inr ⟨by decide, h⟩)
          · rintro (⟨h, _⟩ | ⟨h, _⟩ | ⟨h, _⟩) <;> revert h <;> decide
          · rintro ⟨h, _⟩; revert h; decide
          · rintro (⟨h, _⟩ | ⟨h, _⟩) <;> revert h <;> decide
        · have : baseAxes names = [] := by
            unfold baseAxes; rw [if_neg h1, if_neg h2, if_neg h3, if_neg h4]
          rw [this]; simp

theorem axes_stable (n : BNode F) (as : List Str) (h : axes n = .ok as) :
    ((baseAxes (as.map axisName)).filter fun b => (as.map axisName).contains b) = as := by
  unfold axes at h
  simp only [Res.bind_eq_ok] at h
  obtain ⟨_, _, _, _, c, _, h⟩ := h
  injection h with h
  generalize c.kids.map (fun k => axisName k.1) = names at h
  have hm : as.map axisName = as := by
    have : ∀ a ∈ as, axisName a = a := by
      intro a ha
      rw [← h, List.mem_filter] at ha
      exact tables_axisName a (baseAxes_tables _ _ ha.1)
    conv => rhs; rw [← List.map_id as]
    exact List.map_congr_left this
  rw [hm]
  rw [← h, baseAxes_filter]
  apply List.filter_congr
  intro a ha
  by_cases hc : a ∈ names <;> simp [hc, ha]

theorem axes_rectilinearOf (n : BNode F) (wide : Bool) (g : List (Axis F)) (hg : g ≠ [])
    (h : axes n = .ok (g.map (·.name))) : axes (rectilinearOf wide g) = .ok (g.map (·.name)) := by
  have hs := axes_stable n _ h
  cases g with
  | nil => simp at hg
  | cons a g =>
    have hk : axes (rectilinearOf wide (a :: g)) =
        .ok ((baseAxes ((((a :: g).map fun a => (a.name, BNode.flts wide ((List.range a.len).map a.coord)))).map
          fun k => axisName k.1)).filter fun b => ((((a :: g).map fun a =>
            (a.name, BNode.flts wide ((List.range a.len).map a.coord)))).map fun k => axisName k.1).contains b) := rfl
    rw [hk, List.map_map]
    rw [List.map_map] at hs
    exact congrArg Res.ok hs

theorem rectilinearOf_rectilinear (n : BNode F) (wide : Bool) (g : List (Axis F)) (hg : g ≠ [])
    (h : axes n = .ok (g.map (·.name))) : RectilinearRd (rectilinearOf wide g) g := by
  have hkid : ∀ ks : List (Str × BNode F), ks ≠ [] → objKid (chars! "values") ks = [(chars! "values", .obj ks)] := by
    intro ks hks; cases ks with
    | nil => simp at hks
    | cons => rfl
  have hne : (g.map fun a => (a.name, BNode.flts wide ((List.range a.len).map a.coord))) ≠ [] := by simpa using hg
  refine ⟨axes_rectilinearOf n wide g hg h, fun i a ha => ?_, ?_, ?_⟩
  · refine ⟨.obj (g.map fun a => (a.name, BNode.flts wide ((List.range a.len).map a.coord))), wide, _, ?_,
      get_obj_nodup _ i _ _ ?_ (by rw [List.getElem?_map, ha]; rfl), by simp, ?_⟩
    · unfold rectilinearOf; rw [hkid _ hne]; rfl
    · rw [List.map_map]; exact axes_nodup n _ h
    · intro d hd; rw [List.getElem?_map, List.getElem?_range hd]; rfl
  · unfold rectilinearOf; rw [hkid _ hne]; rfl
  · unfold rectilinearOf; rw [hkid _ hne]; rfl

theorem widestFloat_rectilinearOf (wide : Bool) (g : List (Axis F)) (hg : g ≠ []) :
    widestFloat (rectilinearOf wide g) = wide := by
  cases g with
  | nil => simp at hg
  | cons a g =>
    cases wide with
    | true =>
      apply widestFloat_true
      exact .obj _ (chars! "values") _ _ (by simp [objKid]; rfl) (.obj _ a.name _ _ (by simp; exact .inl rfl) (.leaf _ _ rfl))
    | false =>
      apply widestFloat_false
      intro h
      unfold rectilinearOf at h
      cases h with
      | leaf _ _ h => simp [BNode.ety] at h
      | obj _ name c _ hm h =>
        simp [objKid] at hm
        rcases hm with ⟨rfl, rfl⟩ | ⟨rfl, rfl⟩
        · cases h with | leaf _ _ h => simp [BNode.ety] at h
        · cases h with
          | leaf _ _ h => simp [BNode.ety] at h
          | obj _ name c _ hm h =>
            simp at hm
            rcases hm with ⟨rfl, rfl⟩ | ⟨b, hb, rfl, rfl⟩
            · cases h with | leaf _ _ h => simp [BNode.ety] at h
            · cases h with | leaf _ _ h => simp [BNode.ety] at h

end Conduit.Mesh
