import Verif.Lemmas.Combine2
/-
The fields have the values of the chunks.
-/
namespace Conduit.Comb
open Conduit.Mesh Conduit.Part Conduit.Merge
variable {F : Type}

/-! ### the components -/

/-- The values of the fields of the chunks: all like those of the first, with enough entries. -/
structure Vals (vs : List (BNode F)) (cnt : Nat → Nat) (v0 : BNode F) : Prop where
  alike : ∀ v ∈ vs, Alike v0 v
  table : ∀ (i : Nat) (v : BNode F), vs[i]? = some v → Table v (cnt i)
  shape : Table v0 (cnt 0)

/-- One component is made from the components of the chunks: entry `k` from where `sel` says. -/
def ColOK (vs : List (BNode F)) (cnt : Nat → Nat) (N : Nat) (sel : Nat → Nat × Nat)
    (col : (BNode F → Res (BNode F)) → BNode F → Res (BNode F)) : Prop :=
  ∀ (comp : BNode F → Res (BNode F)) (d : BNode F → BNode F) (first : BNode F),
    (∀ (i : Nat) v, vs[i]? = some v → comp v = .ok (d v) ∧ LikeCol first (d v) ∧ Column (d v) (cnt i)) →
    (∃ n, Column first n) →
    ∃ out, col comp first = .ok out ∧ LikeCol first out ∧
      ∀ k v, k < N → vs[(sel k).1]? = some v → elemAt out k = elemAt (d v) (sel k).2

theorem column_like {c d : BNode F} {n : Nat} (h : LikeCol c d) (hc : Column c n) : ∃ m, Column d m := by
  rcases h with ⟨t, l, m, rfl, rfl⟩ | ⟨w, l, m, rfl, rfl⟩
  · exact ⟨m.length, .inl ⟨t, m, rfl, le_refl _⟩⟩
  · exact ⟨m.length, .inr ⟨w, m, rfl, le_refl _⟩⟩

theorem like_symm {c d : BNode F} (h : LikeCol c d) : LikeCol d c := by
  rcases h with ⟨t, l, m, rfl, rfl⟩ | ⟨w, l, m, rfl, rfl⟩
  · exact .inl ⟨t, m, l, rfl, rfl⟩
  · exact .inr ⟨w, m, l, rfl, rfl⟩

theorem like_trans {c d e : BNode F} (h : LikeCol c d) (h' : LikeCol d e) : LikeCol c e := by
  rcases h with ⟨t, l, m, rfl, rfl⟩ | ⟨w, l, m, rfl, rfl⟩
  · rcases h' with ⟨t', l', m', e1, rfl⟩ | ⟨w', l', m', e1, rfl⟩
    · cases e1; exact .inl ⟨t, l, m', rfl, rfl⟩
    · cases e1
  · rcases h' with ⟨t', l', m', e1, rfl⟩ | ⟨w', l', m', e1, rfl⟩
    · cases e1
    · cases e1; exact .inr ⟨w, l, m', rfl, rfl⟩

theorem like_not_obj {c d : BNode F} (h : LikeCol c d) : (∀ ks, c ≠ .obj ks) ∧ ∀ ks, d ≠ .obj ks := by
  rcases h with ⟨t, l, m, rfl, rfl⟩ | ⟨w, l, m, rfl, rfl⟩
  · exact ⟨(fun _ e => by cases e), (fun _ e => by cases e)⟩
  · exact ⟨(fun _ e => by cases e), (fun _ e => by cases e)⟩

theorem rowAt_like {c d : BNode F} (h : LikeCol c d) (i j : Nat) (e : elemAt c i = elemAt d j) : rowAt c i = rowAt d j := by
  rcases h with ⟨t, l, m, rfl, rfl⟩ | ⟨w, l, m, rfl, rfl⟩
  · show [([], elemAt _ i)] = [([], elemAt _ j)]; rw [e]
  · show [([], elemAt _ i)] = [([], elemAt _ j)]; rw [e]

theorem column_not_obj {c : BNode F} {n : Nat} (h : Column c n) : ∀ ks, c ≠ .obj ks := by
  rcases h with ⟨t, l, rfl, _⟩ | ⟨w, l, rfl, _⟩
  · exact fun _ e => by cases e
  · exact fun _ e => by cases e

theorem columns_leaf (v0 : BNode F) (h : ∀ ks, v0 ≠ .obj ks) (col : (BNode F → Res (BNode F)) → BNode F → Res (BNode F)) :
    columns v0 col = col .ok v0 := by
  cases v0 with
  | obj ks => exact absurd rfl (h ks)
  | _ => rfl

theorem forall2_length {α β : Type} {P : α → β → Prop} {l : List α} {m : List β} (h : List.Forall₂ P l m) : l.length = m.length := by
  induction h with
  | nil => rfl
  | cons _ _ ih => simp [ih]

theorem forall2_of {α β : Type} {P : α → β → Prop} : ∀ {l : List α} {m : List β}, l.length = m.length →
    (∀ (i : Nat) a b, l[i]? = some a → m[i]? = some b → P a b) → List.Forall₂ P l m
  | [], [], _, _ => .nil
  | [], _ :: _, h, _ => by simp at h
  | _ :: _, [], h, _ => by simp at h
  | a :: l, b :: m, h, hp => .cons (hp 0 a b rfl rfl) (forall2_of (by simpa using h) fun i x y hx hy => hp (i + 1) x y hx hy)

theorem columns_ok {vs : List (BNode F)} {cnt : Nat → Nat} {v0 : BNode F} (hv : Vals vs cnt v0) (N : Nat) (sel : Nat → Nat × Nat)
    (col : (BNode F → Res (BNode F)) → BNode F → Res (BNode F)) (hc : ColOK vs cnt N sel col) :
    ∃ out, columns v0 col = .ok out ∧ (∀ v ∈ vs, Alike v out) ∧
      ∀ k v, k < N → vs[(sel k).1]? = some v → rowAt out k = rowAt v (sel k).2 := by
  rcases hv.shape with h0 | ⟨k0, ks, rfl, h0⟩
  · have hno := column_not_obj h0
    have hlike : ∀ v ∈ vs, LikeCol v0 v := by
      intro v hm
      rcases hv.alike v hm with h | ⟨k, ks, l, h, _⟩
      · exact h
      · exact absurd h (hno _)
    have hcol : ∀ (i : Nat) v, vs[i]? = some v → Column v (cnt i) := by
      intro i v hi
      rcases hv.table i v hi with h | ⟨k, ks, h, _⟩
      · exact h
      · exact absurd h ((like_not_obj (hlike v (List.mem_of_getElem? hi))).2 _)
    obtain ⟨out, o1, o2, o3⟩ := hc .ok id v0 (fun i v hi => ⟨rfl, hlike v (List.mem_of_getElem? hi), hcol i v hi⟩) ⟨_, h0⟩
    refine ⟨out, by rw [columns_leaf v0 hno, o1], fun v hm => .inl (like_trans (like_symm (hlike v hm)) o2), fun k v hk hs => ?_⟩
    have hm := List.mem_of_getElem? hs
    exact rowAt_like (like_trans (like_symm o2) (hlike v hm)) _ _ (o3 k v hk hs)
  · have hobj : ∀ v ∈ vs, ∃ l, v = .obj l ∧ List.Forall₂ (fun a b : Str × BNode F => a.1 = b.1 ∧ LikeCol a.2 b.2) (k0 :: ks) l := by
      intro v hm
      rcases hv.alike v hm with h | ⟨k, ks', l, h, rfl, h'⟩
      · exact absurd rfl ((like_not_obj h).1 _)
      · cases h; exact ⟨l, rfl, h'⟩
    let d : Nat → BNode F → BNode F := fun n v => (v.kids[n]?.map (·.2)).getD .empty
    obtain ⟨outs, e1, e2⟩ := mapM_res (fun kc : (Str × BNode F) × Nat => do
        let c ← col (fun v => do .ok (← nth v kc.2).2) kc.1.2
        .ok (kc.1.1, c))
      (fun kc out => out.1 = kc.1.1 ∧ LikeCol kc.1.2 out.2 ∧
        ∀ k v, k < N → vs[(sel k).1]? = some v → elemAt out.2 k = elemAt (d kc.2 v) (sel k).2) (k0 :: ks).zipIdx (by
      rintro ⟨k, n⟩ hkn
      have hk : (k0 :: ks)[n]? = some k := by
        have := List.mem_zipIdx hkn
        simp only [Nat.zero_add, Nat.zero_le, Nat.sub_zero, true_and] at this
        rw [this.2]; exact List.getElem?_eq_getElem _
      obtain ⟨out, o1, o2, o3⟩ := hc (fun v => do .ok (← nth v n).2) (d n) k.2 (by
        intro i v hi
        obtain ⟨l, rfl, h'⟩ := hobj v (List.mem_of_getElem? hi)
        have hlen := forall2_length h'
        have hn : n < (k0 :: ks).length := (List.getElem?_eq_some_iff.1 hk).1
        obtain ⟨b, hb⟩ : ∃ b, l[n]? = some b := ⟨_, List.getElem?_eq_getElem (hlen ▸ hn)⟩
        have hd : d n (.obj l) = b.2 := by
          show ((l[n]?).map (·.2)).getD .empty = _
          rw [hb]; rfl
        refine ⟨?_, ?_, ?_⟩
        · rw [hd]; simp only [nth, BNode.kids, hb, Res.bind_ok]
        · rw [hd]; exact (forall2_get h' n k b hk hb).2
        · rw [hd]
          rcases hv.table i _ hi with h | ⟨a, as, h, hh⟩
          · exact absurd rfl (column_not_obj h _)
          · cases h; exact hh b (List.mem_of_getElem? hb)) ⟨_, h0 k (List.mem_of_getElem? hk)⟩
      exact ⟨(k.1, out), by simp only [o1, Res.bind_ok], rfl, o2, o3⟩)
    refine ⟨.obj outs, ?_, ?_, ?_⟩
    · show (do
        let l ← (k0 :: ks).zipIdx.mapM fun (kc : (Str × BNode F) × Nat) => do
          let c ← col (fun v => do .ok (← nth v kc.2).2) kc.1.2
          .ok (kc.1.1, c)
        Res.ok (BNode.obj l)) = _
      rw [e1]; rfl
    · intro v hm
      obtain ⟨l, rfl, h'⟩ := hobj v hm
      cases h' with
      | @cons a b ks l p q =>
        refine .inr ⟨b, l, outs, rfl, rfl, ?_⟩
        have hq : List.Forall₂ (fun a b : Str × BNode F => a.1 = b.1 ∧ LikeCol a.2 b.2) (k0 :: ks) (b :: l) := .cons p q
        refine forall2_of ?_ ?_
        · rw [← forall2_length hq, ← forall2_length e2]; simp
        · intro i x y hx hy
          obtain ⟨z, hz⟩ : ∃ z, (k0 :: ks)[i]? = some z := by
            refine ⟨_, List.getElem?_eq_getElem ?_⟩
            rw [forall2_length hq]; exact (List.getElem?_eq_some_iff.1 hx).1
          have hz' : (k0 :: ks).zipIdx[i]? = some (z, i) := by rw [List.getElem?_zipIdx, hz]; simp
          obtain ⟨g1, g2⟩ := forall2_get hq i z x hz hx
          obtain ⟨f1, f2, _⟩ := forall2_get e2 i (z, i) y hz' hy
          exact ⟨by rw [f1, ← g1], like_trans (like_symm g2) f2⟩
    · intro k v hk hs
      obtain ⟨l, rfl, h'⟩ := hobj v (List.mem_of_getElem? hs)
      show outs.map (fun c => (c.1, elemAt c.2 k)) = l.map fun c => (c.1, elemAt c.2 (sel k).2)
      refine List.ext_getElem? fun i => ?_
      rw [List.getElem?_map, List.getElem?_map]
      have hl1 := forall2_length h'
      have hl2 := forall2_length e2
      rw [List.length_zipIdx] at hl2
      by_cases hi : i < (k0 :: ks).length
      · have hz : (k0 :: ks)[i]? = some ((k0 :: ks)[i]'hi) := List.getElem?_eq_getElem hi
        generalize (k0 :: ks)[i]'hi = z at hz
        have hz' : (k0 :: ks).zipIdx[i]? = some (z, i) := by rw [List.getElem?_zipIdx, hz]; simp
        have hx := List.getElem?_eq_getElem (hl1 ▸ hi)
        have hy := List.getElem?_eq_getElem (hl2 ▸ hi)
        generalize l[i]'(hl1 ▸ hi) = x at hx
        generalize outs[i]'(hl2 ▸ hi) = y at hy
        obtain ⟨g1, g2⟩ := forall2_get h' i z x hz hx
        obtain ⟨f1, _, f3⟩ := forall2_get e2 i (z, i) y hz' hy
        have hd : d i (.obj l) = x.2 := by
          show ((l[i]?).map (·.2)).getD .empty = _
          rw [hx]; rfl
        have f4 : elemAt y.2 k = elemAt x.2 (sel k).2 := by rw [f3 k _ hk hs, hd]
        rw [hx, hy]; simp only [Option.map_some]
        rw [f1, f4, ← g1]
      · rw [List.getElem?_eq_none (by omega), List.getElem?_eq_none (by omega)]; rfl

/-! ### elements -/

theorem pairs_flat (orig : List (Nat × Nat)) : pairs (flatPairs orig) = orig.map fun x => ((x.1 : Int), (x.2 : Int)) := by
  induction orig with
  | nil => rfl
  | cons x l ih =>
    show pairs ((x.1 : Int) :: (x.2 : Int) :: flatPairs l) = _
    rw [pairs, ih]; rfl

/-- The chunk `i` has a field with these values. -/
def ValsOf (ins vs : List (BNode F)) : Prop := List.Forall₂ (fun f v => f.get (chars! "values") = .ok v) ins vs

theorem readInt_ok {t : IntTy} {l0 : List Int} {c : BNode F} {n i : Nat} (h : LikeCol (.ints t l0) c) (hc : Column c n) (hi : i < n) :
    ∃ x, readInt t c (i : Int) = .ok x ∧ elemAt c i = some (.inl x) := by
  rcases h with ⟨t', l, m, e, rfl⟩ | ⟨w', l, m, e, rfl⟩
  · cases e
    rcases hc with ⟨t', l', e, hl⟩ | ⟨w', l', e, hl⟩
    · cases e
      have hx := List.getElem?_eq_getElem (show i < m.length by omega)
      exact ⟨_, by rw [readInt, if_pos rfl]; exact pick_nat _ _ _ hx, by rw [elemAt, hx]; rfl⟩
    · cases e
  · cases e

theorem readFlt_ok {w : Bool} {l0 : List F} {c : BNode F} {n i : Nat} (h : LikeCol (.flts w l0) c) (hc : Column c n) (hi : i < n) :
    ∃ x, readFlt w c (i : Int) = .ok x ∧ elemAt c i = some (.inr x) := by
  rcases h with ⟨t', l, m, e, rfl⟩ | ⟨w', l, m, e, rfl⟩
  · cases e
  · cases e
    rcases hc with ⟨t', l', e, hl⟩ | ⟨w', l', e, hl⟩
    · cases e
    · cases e
      have hx := List.getElem?_eq_getElem (show i < m.length by omega)
      exact ⟨_, by rw [readFlt, if_pos rfl]; exact pick_nat _ _ _ hx, by rw [elemAt, hx]; rfl⟩

theorem src_ok {ins vs : List (BNode F)} (h : ValsOf ins vs) {i : Nat} {v : BNode F} (hi : vs[i]? = some v) (comp : BNode F → Res (BNode F))
    (c : BNode F) (hc : comp v = .ok c) :
    ∃ f, pick ins (i : Int) = .ok f ∧ f.get (chars! "values") = .ok v := by
  have hlen := forall2_length h
  have hlt : i < ins.length := by rw [hlen]; exact (List.getElem?_eq_some_iff.1 hi).1
  have hf := List.getElem?_eq_getElem hlt
  exact ⟨_, pick_nat _ _ _ hf, forall2_get h i _ v hf hi⟩

theorem gather_ok {ins vs : List (BNode F)} {cnt : Nat → Nat} (hv : ValsOf ins vs) (orig : List (Nat × Nat))
    (ho : ∀ x ∈ orig, (∃ v, vs[x.1]? = some v) ∧ x.2 < cnt x.1) :
    ColOK vs cnt orig.length (fun k => orig.getD k (0, 0)) fun comp first => gatherCol first (fun (p : Int × Int) => do
      let f ← pick ins p.1
      let c ← comp (← f.get (chars! "values"))
      .ok (c, p.2)) (orig.map fun x => ((x.1 : Int), (x.2 : Int))) := by
  intro comp d first hcomp hfirst
  obtain ⟨n, hfirst⟩ := hfirst
  have hsrc : ∀ x ∈ orig, ∃ v, vs[x.1]? = some v ∧ (do
      let f ← pick ins (x.1 : Int)
      let c ← comp (← f.get (chars! "values"))
      Res.ok (c, (x.2 : Int))) = .ok (d v, (x.2 : Int)) ∧ LikeCol first (d v) ∧ Column (d v) (cnt x.1) := by
    intro x hx
    obtain ⟨⟨v, hi⟩, _⟩ := ho x hx
    obtain ⟨c1, c2, c3⟩ := hcomp x.1 v hi
    obtain ⟨f, f1, f2⟩ := src_ok hv hi comp _ c1
    exact ⟨v, hi, by simp only [f1, f2, c1, Res.bind_ok], c2, c3⟩
  rcases hfirst with ⟨t, l, rfl, _⟩ | ⟨w, l, rfl, _⟩
  · obtain ⟨xs, e1, e2⟩ := mapM_res (fun x : Nat × Nat => (do
        let c ← (do
          let f ← pick ins (x.1 : Int)
          let c ← comp (← f.get (chars! "values"))
          Res.ok (c, (x.2 : Int)))
        readInt t c.1 c.2))
      (fun x y => ∃ v, vs[x.1]? = some v ∧ elemAt (d v) x.2 = some (.inl y)) orig (by
        intro x hx
        obtain ⟨v, s1, s2, s3, s4⟩ := hsrc x hx
        obtain ⟨y, r1, r2⟩ := readInt_ok s3 s4 (ho x hx).2
        exact ⟨y, by rw [s2, Res.bind_ok]; exact r1, v, s1, r2⟩)
    refine ⟨.ints t xs, ?_, .inl ⟨t, l, xs, rfl, rfl⟩, ?_⟩
    · simp only [gatherCol]
      rw [mapM_map', e1]; rfl
    · intro k v hk hs
      have hx := List.getElem?_eq_getElem hk
      have hlen := forall2_length e2
      have hy := List.getElem?_eq_getElem (hlen ▸ hk)
      obtain ⟨v', g1, g2⟩ := forall2_get e2 k _ _ hx hy
      have hsel : orig.getD k (0, 0) = orig[k] := by simp [List.getD, hx]
      simp only [hsel] at hs ⊢
      rw [g1] at hs; cases hs
      rw [g2, elemAt, hy]; rfl
  · obtain ⟨xs, e1, e2⟩ := mapM_res (fun x : Nat × Nat => (do
        let c ← (do
          let f ← pick ins (x.1 : Int)
          let c ← comp (← f.get (chars! "values"))
          Res.ok (c, (x.2 : Int)))
        readFlt w c.1 c.2))
      (fun x y => ∃ v, vs[x.1]? = some v ∧ elemAt (d v) x.2 = some (.inr y)) orig (by
        intro x hx
        obtain ⟨v, s1, s2, s3, s4⟩ := hsrc x hx
        obtain ⟨y, r1, r2⟩ := readFlt_ok s3 s4 (ho x hx).2
        exact ⟨y, by rw [s2, Res.bind_ok]; exact r1, v, s1, r2⟩)
    refine ⟨.flts w xs, ?_, .inr ⟨w, l, xs, rfl, rfl⟩, ?_⟩
    · simp only [gatherCol]
      rw [mapM_map', e1]; rfl
    · intro k v hk hs
      have hx := List.getElem?_eq_getElem hk
      have hlen := forall2_length e2
      have hy := List.getElem?_eq_getElem (hlen ▸ hk)
      obtain ⟨v', g1, g2⟩ := forall2_get e2 k _ _ hx hy
      have hsel : orig.getD k (0, 0) = orig[k] := by simp [List.getD, hx]
      simp only [hsel] at hs ⊢
      rw [g1] at hs; cases hs
      rw [g2, elemAt, hy]; rfl

theorem mapElementField_ok {ins vs : List (BNode F)} {cnt : Nat → Nat} {v0 : BNode F} (hv : ValsOf ins vs) (h0 : vs[0]? = some v0)
    (hvs : Vals vs cnt v0) (orig : List (Nat × Nat)) (hne : orig ≠ []) (ho : ∀ x ∈ orig, (∃ v, vs[x.1]? = some v) ∧ x.2 < cnt x.1) :
    ∃ out, mapElementField ins (flatPairs orig) = .ok out ∧ (∀ v ∈ vs, Alike v out) ∧
      ∀ (k i j : Nat) (v : BNode F), orig[k]? = some (i, j) → vs[i]? = some v → rowAt out k = rowAt v j := by
  obtain ⟨out, o1, o2, o3⟩ := columns_ok hvs orig.length (fun k => orig.getD k (0, 0)) _ (gather_ok hv orig ho)
  cases hv with
  | nil => simp at h0
  | @cons f0 v fs vs p q =>
    simp only [List.getElem?_cons_zero, Option.some.injEq] at h0
    subst h0
    refine ⟨out, ?_, o2, ?_⟩
    · simp only [mapElementField, p, Res.bind_ok, pairs_flat]
      rw [if_neg (by simpa using hne)]
      exact o1
    · intro k i j v hk hi
      have hlt : k < orig.length := (List.getElem?_eq_some_iff.1 hk).1
      have hsel : orig.getD k (0, 0) = (i, j) := by simp [List.getD, hk]
      have := o3 k v hlt (by simp only [hsel]; exact hi)
      simp only [hsel] at this
      exact this

/-! ### points -/

/-- The last that is written to `q`. -/
def last (q : Nat) : List (Nat × (Nat × Nat)) → Option (Nat × Nat)
  | [] => none
  | w :: l =>
    match last q l with
    | some s => some s
    | none => if w.1 = q then some w.2 else none

/-- The writes with their numbers. -/
def natWrites : Nat → List (List Nat) → List (Nat × (Nat × Nat))
  | _, [] => []
  | i, m :: ms => (m.zipIdx.map fun qk => (qk.1, (i, qk.2))) ++ natWrites (i + 1) ms

theorem pointWrites_eq (maps : List (List Nat)) (i : Nat) :
    pointWrites i (maps.map ints) = (natWrites i maps).map fun w => ((w.1 : Int), w.2) := by
  induction maps generalizing i with
  | nil => rfl
  | cons m ms ih =>
    rw [List.map_cons, pointWrites, ih, natWrites, List.map_append, List.map_map]
    congr 1
    rw [ints, List.zipIdx_map, List.map_map]; rfl

theorem natWrites_mem (maps : List (List Nat)) (s q i k : Nat) :
    (q, (i, k)) ∈ natWrites s maps ↔ ∃ i', i = s + i' ∧ IdAt maps i' k q := by
  induction maps generalizing s with
  | nil => simp [natWrites, IdAt]
  | cons m ms ih =>
    rw [natWrites, List.mem_append, ih]
    constructor
    · rintro (h | ⟨i', e, m', h1, h2⟩)
      · obtain ⟨⟨a, b⟩, h1, h2⟩ := List.mem_map.1 h
        cases h2
        refine ⟨0, by simp, m, rfl, ?_⟩
        exact List.mem_zipIdx_iff_getElem?.1 h1
      · exact ⟨i' + 1, by omega, m', by simpa using h1, h2⟩
    · rintro ⟨i', e, m', h1, h2⟩
      cases i' with
      | zero =>
        simp at h1; subst h1
        exact .inl (List.mem_map.2 ⟨(q, k), List.mem_zipIdx_iff_getElem?.2 h2, by simp [e]⟩)
      | succ i' => exact .inr ⟨i', by omega, m', by simpa using h1, h2⟩

theorem natWrites_sorted (maps : List (List Nat)) (s : Nat) : (natWrites s maps).Pairwise fun a b => a.2.1 ≤ b.2.1 := by
  induction maps generalizing s with
  | nil => exact List.Pairwise.nil
  | cons m ms ih =>
    rw [natWrites, List.pairwise_append]
    refine ⟨?_, ih _, ?_⟩
    · rw [List.pairwise_map]
      exact List.pairwise_of_forall fun _ _ => le_refl _
    · rintro a ha ⟨q, i, k⟩ hb
      obtain ⟨x, _, rfl⟩ := List.mem_map.1 ha
      obtain ⟨i', e, _⟩ := (natWrites_mem ms _ q i k).1 hb
      show s ≤ i
      omega

theorem last_none {q : Nat} {l : List (Nat × (Nat × Nat))} (h : last q l = none) : ∀ w ∈ l, w.1 ≠ q := by
  induction l with
  | nil => simp
  | cons a l ih =>
    rw [last] at h
    split at h
    · cases h
    case h_2 hl =>
      split at h
      · cases h
      · intro w hw
        rcases List.mem_cons.1 hw with rfl | hw
        · assumption
        · exact ih hl w hw

theorem last_some {q : Nat} {l : List (Nat × (Nat × Nat))} {s : Nat × Nat} (hs : l.Pairwise fun a b => a.2.1 ≤ b.2.1)
    (h : last q l = some s) : (q, s) ∈ l ∧ ∀ w ∈ l, w.1 = q → w.2.1 ≤ s.1 := by
  induction l with
  | nil => cases h
  | cons a l ih =>
    rw [List.pairwise_cons] at hs
    rw [last] at h
    split at h
    case h_1 s' hl =>
      cases h
      obtain ⟨h1, h2⟩ := ih hs.2 hl
      refine ⟨by simp [h1], fun w hw e => ?_⟩
      rcases List.mem_cons.1 hw with rfl | hw
      · exact hs.1 _ h1
      · exact h2 w hw e
    case h_2 hl =>
      split at h
      case isTrue he =>
        cases h
        refine ⟨by rw [← he]; simp, fun w hw e => ?_⟩
        rcases List.mem_cons.1 hw with rfl | hw
        · exact le_refl _
        · exact absurd e (last_none hl w hw)
      · cases h

theorem fold_put {α : Type} (step : List α → Int × (Nat × Nat) → Res (List α)) (val : Nat × Nat → α) (W : List (Nat × (Nat × Nat))) (n : Nat)
    (hs : ∀ w ∈ W, ∀ acc, step acc ((w.1 : Int), w.2) = put acc (w.1 : Int) (val w.2)) (hq : ∀ w ∈ W, w.1 < n) (acc : List α) (hacc : acc.length = n) :
    ∃ acc', (W.map fun w => ((w.1 : Int), w.2)).foldlM step acc = .ok acc' ∧ acc'.length = n ∧
      ∀ q, acc'[q]? = match last q W with | some s => some (val s) | none => acc[q]? := by
  induction W generalizing acc with
  | nil => exact ⟨acc, rfl, hacc, fun q => rfl⟩
  | cons w W ih =>
    have hw := hq w (by simp)
    obtain ⟨acc', a1, a2, a3⟩ := ih (fun v hv => hs v (by simp [hv])) (fun v hv => hq v (by simp [hv])) (acc.set w.1 (val w.2))
      (by rw [List.length_set, hacc])
    refine ⟨acc', ?_, a2, fun q => ?_⟩
    · rw [List.map_cons, List.foldlM_cons, hs w (by simp)]
      have : put acc (w.1 : Int) (val w.2) = .ok (acc.set w.1 (val w.2)) := by
        rw [put, if_pos (by omega)]; rfl
      rw [this, Res.bind_ok, a1]
    · rw [a3, last]
      cases hl : last q W with
      | some s => rfl
      | none =>
        by_cases he : w.1 = q
        · subst he; simp [hacc, hw]
        · simp only [if_neg he]
          rw [List.getElem?_set_ne he]

theorem scatter_ok {ins vs : List (BNode F)} {cnt : Nat → Nat} (zero : F) (hv : ValsOf ins vs) (W : List (Nat × (Nat × Nat))) (n : Nat)
    (hn : ∀ w ∈ W, w.1 < n) (hW : ∀ w ∈ W, (∃ v, vs[w.2.1]? = some v) ∧ w.2.2 < cnt w.2.1) (hall : ∀ q, q < n → ∃ s, last q W = some s)
    (hmem : ∀ q s, last q W = some s → (q, s) ∈ W) :
    ColOK vs cnt n (fun q => (last q W).getD (0, 0)) fun comp first => scatterCol zero first n (fun (ik : Nat × Nat) => do
      let f ← pick ins (ik.1 : Int)
      let c ← comp (← f.get (chars! "values"))
      .ok (c, (ik.2 : Int))) (W.map fun w => ((w.1 : Int), w.2)) := by
  intro comp d first hcomp hfirst
  obtain ⟨m, hfirst⟩ := hfirst
  have hsrc : ∀ w ∈ W, ∃ v, vs[w.2.1]? = some v ∧ (do
      let f ← pick ins (w.2.1 : Int)
      let c ← comp (← f.get (chars! "values"))
      Res.ok (c, (w.2.2 : Int))) = .ok (d v, (w.2.2 : Int)) ∧ LikeCol first (d v) ∧ Column (d v) (cnt w.2.1) := by
    intro x hx
    obtain ⟨⟨v, hi⟩, _⟩ := hW x hx
    obtain ⟨c1, c2, c3⟩ := hcomp x.2.1 v hi
    obtain ⟨f, f1, f2⟩ := src_ok hv hi comp _ c1
    exact ⟨v, hi, by simp only [f1, f2, c1, Res.bind_ok], c2, c3⟩
  rcases hfirst with ⟨t, l, rfl, _⟩ | ⟨w, l, rfl, _⟩
  · let val : Nat × Nat → Int := fun s => match vs[s.1]? with
      | some v => (match elemAt (d v) s.2 with | some (.inl x) => x | _ => 0)
      | none => 0
    obtain ⟨xs, e1, e2, e3⟩ := fold_put (fun (acc : List Int) (w : Int × (Nat × Nat)) => do
        let c ← (do
          let f ← pick ins (w.2.1 : Int)
          let c ← comp (← f.get (chars! "values"))
          Res.ok (c, (w.2.2 : Int)))
        put acc w.1 (← readInt t c.1 c.2)) val W n (by
        intro x hx acc
        obtain ⟨v, s1, s2, s3, s4⟩ := hsrc x hx
        obtain ⟨y, r1, r2⟩ := readInt_ok s3 s4 (hW x hx).2
        simp only [s2, Res.bind_ok, r1]
        simp only [val, s1, r2]) hn (List.replicate n 0) (by simp)
    refine ⟨.ints t xs, ?_, .inl ⟨t, l, xs, rfl, rfl⟩, ?_⟩
    · simp only [scatterCol]
      rw [e1]; rfl
    · intro q v hq hs
      obtain ⟨s, hl⟩ := hall q hq
      simp only [hl, Option.getD_some] at hs ⊢
      obtain ⟨v', s1, s2, s3, s4⟩ := hsrc _ (hmem q s hl)
      have s1' : vs[s.1]? = some v' := s1
      rw [hs] at s1'; cases s1'
      obtain ⟨y, r1, r2⟩ := readInt_ok s3 s4 (hW _ (hmem q s hl)).2
      have r2' : elemAt (d v) s.2 = some (.inl y) := r2
      rw [elemAt, e3 q, hl]
      simp only [val, hs, r2']; rfl
  · let val : Nat × Nat → F := fun s => match vs[s.1]? with
      | some v => (match elemAt (d v) s.2 with | some (.inr x) => x | _ => zero)
      | none => zero
    obtain ⟨xs, e1, e2, e3⟩ := fold_put (fun (acc : List F) (x : Int × (Nat × Nat)) => do
        let c ← (do
          let f ← pick ins (x.2.1 : Int)
          let c ← comp (← f.get (chars! "values"))
          Res.ok (c, (x.2.2 : Int)))
        put acc x.1 (← readFlt w c.1 c.2)) val W n (by
        intro x hx acc
        obtain ⟨v, s1, s2, s3, s4⟩ := hsrc x hx
        obtain ⟨y, r1, r2⟩ := readFlt_ok s3 s4 (hW x hx).2
        simp only [s2, Res.bind_ok, r1]
        simp only [val, s1, r2]) hn (List.replicate n zero) (by simp)
    refine ⟨.flts w xs, ?_, .inr ⟨w, l, xs, rfl, rfl⟩, ?_⟩
    · simp only [scatterCol]
      rw [e1]; rfl
    · intro q v hq hs
      obtain ⟨s, hl⟩ := hall q hq
      simp only [hl, Option.getD_some] at hs ⊢
      obtain ⟨v', s1, s2, s3, s4⟩ := hsrc _ (hmem q s hl)
      have s1' : vs[s.1]? = some v' := s1
      rw [hs] at s1'; cases s1'
      obtain ⟨y, r1, r2⟩ := readFlt_ok s3 s4 (hW _ (hmem q s hl)).2
      have r2' : elemAt (d v) s.2 = some (.inr y) := r2
      rw [elemAt, e3 q, hl]
      simp only [val, hs, r2']; rfl

/-- The maps give numbers below `n`, and each of them at least once; the chunks have `cnt` points. -/
structure Covers (maps : List (List Nat)) (n : Nat) (cnt : Nat → Nat) : Prop where
  below : ∀ i k q, IdAt maps i k q → q < n
  all : ∀ q, q < n → ∃ i k, IdAt maps i k q
  size : ∀ (i : Nat) (m : List Nat), maps[i]? = some m → m.length = cnt i

theorem Covers.last {maps : List (List Nat)} {n : Nat} {cnt : Nat → Nat} (h : Covers maps n cnt) (q : Nat) (hq : q < n) :
    ∃ s, last q (natWrites 0 maps) = some s ∧ IdAt maps s.1 s.2 q ∧ ∀ i' k', IdAt maps i' k' q → i' ≤ s.1 := by
  cases hl : Comb.last q (natWrites 0 maps) with
  | none =>
    obtain ⟨i, k, hik⟩ := h.all q hq
    exact absurd rfl (last_none hl (q, (i, k)) ((natWrites_mem maps 0 q i k).2 ⟨i, by simp, hik⟩))
  | some s =>
    obtain ⟨h1, h2⟩ := last_some (natWrites_sorted maps 0) hl
    refine ⟨s, rfl, ?_, fun i' k' hid => ?_⟩
    · obtain ⟨i', e, hid⟩ := (natWrites_mem maps 0 q s.1 s.2).1 h1
      rw [e, Nat.zero_add]; exact hid
    · exact h2 (q, (i', k')) ((natWrites_mem maps 0 q i' k').2 ⟨i', by simp, hid⟩) rfl

theorem Covers.write {maps : List (List Nat)} {n : Nat} {cnt : Nat → Nat} (h : Covers maps n cnt) :
    ∀ w ∈ natWrites 0 maps, w.1 < n ∧ w.2.1 < maps.length ∧ w.2.2 < cnt w.2.1 := by
  rintro ⟨q, i, k⟩ hw
  obtain ⟨i', e, hid⟩ := (natWrites_mem maps 0 q i k).1 hw
  rw [Nat.zero_add] at e; subst e
  refine ⟨h.below _ _ _ hid, ?_⟩
  obtain ⟨m, h1, h2⟩ := hid
  refine ⟨(List.getElem?_eq_some_iff.1 h1).1, ?_⟩
  show k < cnt i
  rw [← h.size i m h1]
  exact (List.getElem?_eq_some_iff.1 h2).1

theorem mapVertexField_ok (A : Arith F) {ins vs : List (BNode F)} {cnt : Nat → Nat} {v0 : BNode F} (hv : ValsOf ins vs) (h0 : vs[0]? = some v0)
    (hvs : Vals vs cnt v0) {maps : List (List Nat)} {n : Nat} (hc : Covers maps n cnt) (hlen : maps.length = vs.length) (hn : 0 < n) :
    ∃ out, mapVertexField A ins (maps.map ints) (n : Int) = .ok out ∧ (∀ v ∈ vs, Alike v out) ∧
      ∀ q, q < n → ∃ i k, IdAt maps i k q ∧ (∀ i' k', IdAt maps i' k' q → i' ≤ i) ∧ ∀ v, vs[i]? = some v → rowAt out q = rowAt v k := by
  have hw := hc.write
  obtain ⟨out, o1, o2, o3⟩ := columns_ok hvs n (fun q => (last q (natWrites 0 maps)).getD (0, 0)) _
    (scatter_ok A.zero hv (natWrites 0 maps) n (fun w h => (hw w h).1)
      (fun w h => ⟨⟨_, List.getElem?_eq_getElem (hlen ▸ (hw w h).2.1)⟩, (hw w h).2.2⟩)
      (fun q hq => by obtain ⟨s, h, _⟩ := hc.last q hq; exact ⟨s, h⟩) (fun q s h => (last_some (natWrites_sorted maps 0) h).1))
  cases hv with
  | nil => simp at h0
  | @cons f0 v fs vs p q =>
    simp only [List.getElem?_cons_zero, Option.some.injEq] at h0
    subst h0
    cases maps with
    | nil => simp at hlen
    | cons m ms =>
      refine ⟨out, ?_, o2, ?_⟩
      · have hl := forall2_length q
        rw [List.map_cons]
        simp only [mapVertexField]
        rw [if_neg (by simp only [List.length_cons, List.length_map] at hlen ⊢; omega)]
        simp only [p, Res.bind_ok]
        rw [if_neg (by omega)]
        have := pointWrites_eq (m :: ms) 0
        rw [List.map_cons] at this
        rw [this, Int.toNat_natCast]
        exact o1
      · intro q hq
        obtain ⟨s, s1, s2, s3⟩ := hc.last q hq
        refine ⟨s.1, s.2, s2, s3, fun v hv => ?_⟩
        have := o3 q v hq (by simp only [s1, Option.getD_some]; exact hv)
        simp only [s1, Option.getD_some] at this
        exact this

end Conduit.Comb
