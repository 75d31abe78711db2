import Verif.Model.MapBack
import Verif.Spec.MapBack
import Verif.Lemmas.Combine4
/-
Values written into the fields of the original domains.
-/
namespace Conduit.Back
open Conduit.Mesh Conduit.Part Conduit.Merge Conduit.Comb
variable {F : Type}

/-! ### one array -/

theorem lenCol_column {c : BNode F} {n : Nat} (h : LenCol c n) : Column c n := by
  rcases h with ⟨t, l, rfl, h⟩ | ⟨t, l, rfl, h⟩
  · exact .inl ⟨t, l, rfl, by omega⟩
  · exact .inr ⟨t, l, rfl, by omega⟩

theorem storeCol_ok {ins vs : List (BNode F)} {cnt : Nat → Nat} (zero : F) (hv : ValsOf ins vs) (W : List (Nat × (Nat × Nat))) (n : Nat)
    (hn : ∀ w ∈ W, w.1 < n) (hW : ∀ w ∈ W, (∃ v, vs[w.2.1]? = some v) ∧ w.2.2 < cnt w.2.1)
    (hmem : ∀ q s, last q W = some s → (q, s) ∈ W) (comp : BNode F → Res (BNode F)) (d : BNode F → BNode F) (base : BNode F)
    (hcomp : ∀ (i : Nat) v, vs[i]? = some v → comp v = .ok (d v) ∧ LikeCol base (d v) ∧ Column (d v) (cnt i)) (hb : LenCol base n) :
    ∃ out, storeCol base (valueAt ins (fun i : Nat => (i : Int)) (fun k : Nat => (k : Int)) comp) (W.map fun w => ((w.1 : Int), w.2)) = .ok out ∧
      LikeCol base out ∧ LenCol out n ∧ ∀ q, q < n →
        (∀ s v, last q W = some s → vs[s.1]? = some v → elemAt out q = elemAt (d v) s.2) ∧ (last q W = none → elemAt out q = elemAt base q) := by
  have hsrc : ∀ w ∈ W, ∃ v, vs[w.2.1]? = some v ∧
      valueAt ins (fun i : Nat => (i : Int)) (fun k : Nat => (k : Int)) comp w.2 = .ok (d v, (w.2.2 : Int)) ∧
      LikeCol base (d v) ∧ Column (d v) (cnt w.2.1) := by
    intro x hx
    obtain ⟨⟨v, hi⟩, _⟩ := hW x hx
    obtain ⟨c1, c2, c3⟩ := hcomp x.2.1 v hi
    obtain ⟨f, f1, f2⟩ := src_ok hv hi comp _ c1
    exact ⟨v, hi, by simp only [valueAt, f1, f2, c1, Res.bind_ok], c2, c3⟩
  rcases hb with ⟨t, l, rfl, hl⟩ | ⟨b, l, rfl, hl⟩
  · let val : Nat × Nat → Int := fun s => match vs[s.1]? with
      | some v => (match elemAt (d v) s.2 with | some (.inl x) => x | _ => 0)
      | none => 0
    obtain ⟨xs, e1, e2, e3⟩ := fold_put (fun (acc : List Int) (w : Int × (Nat × Nat)) => do
        let c ← valueAt ins (fun i : Nat => (i : Int)) (fun k : Nat => (k : Int)) comp w.2
        put acc w.1 (← Comb.readInt t c.1 c.2)) val W n (by
        intro x hx acc
        obtain ⟨v, s1, s2, s3, s4⟩ := hsrc x hx
        obtain ⟨y, r1, r2⟩ := readInt_ok s3 s4 (hW x hx).2
        simp only [s2, Res.bind_ok, r1]
        simp only [val, s1, r2]) hn l hl
    refine ⟨.ints t xs, ?_, .inl ⟨t, l, xs, rfl, rfl⟩, .inl ⟨t, xs, rfl, e2⟩, ?_⟩
    · simp only [storeCol]
      rw [e1]; rfl
    · intro q hq
      refine ⟨fun s v h1 h2 => ?_, fun h => by rw [elemAt, elemAt, e3 q, h]⟩
      obtain ⟨v', s1, s2, s3, s4⟩ := hsrc _ (hmem q s h1)
      have s1' : vs[s.1]? = some v' := s1
      rw [h2] at s1'; cases s1'
      obtain ⟨y, r1, r2⟩ := readInt_ok s3 s4 (hW _ (hmem q s h1)).2
      have r2' : elemAt (d v) s.2 = some (.inl y) := r2
      rw [elemAt, e3 q, h1]
      simp only [val, h2, r2']; rfl
  · let val : Nat × Nat → F := fun s => match vs[s.1]? with
      | some v => (match elemAt (d v) s.2 with | some (.inr x) => x | _ => zero)
      | none => zero
    obtain ⟨xs, e1, e2, e3⟩ := fold_put (fun (acc : List F) (w : Int × (Nat × Nat)) => do
        let c ← valueAt ins (fun i : Nat => (i : Int)) (fun k : Nat => (k : Int)) comp w.2
        put acc w.1 (← Comb.readFlt b c.1 c.2)) val W n (by
        intro x hx acc
        obtain ⟨v, s1, s2, s3, s4⟩ := hsrc x hx
        obtain ⟨y, r1, r2⟩ := readFlt_ok s3 s4 (hW x hx).2
        simp only [s2, Res.bind_ok, r1]
        simp only [val, s1, r2]) hn l hl
    refine ⟨.flts b xs, ?_, .inr ⟨b, l, xs, rfl, rfl⟩, .inr ⟨b, xs, rfl, e2⟩, ?_⟩
    · simp only [storeCol]
      rw [e1]; rfl
    · intro q hq
      refine ⟨fun s v h1 h2 => ?_, fun h => by rw [elemAt, elemAt, e3 q, h]⟩
      obtain ⟨v', s1, s2, s3, s4⟩ := hsrc _ (hmem q s h1)
      have s1' : vs[s.1]? = some v' := s1
      rw [h2] at s1'; cases s1'
      obtain ⟨y, r1, r2⟩ := readFlt_ok s3 s4 (hW _ (hmem q s h1)).2
      have r2' : elemAt (d v) s.2 = some (.inr y) := r2
      rw [elemAt, e3 q, h1]
      simp only [val, h2, r2']; rfl

/-! ### the room for the values -/

theorem alike_trans {u v w : BNode F} (h : Alike u v) (h' : Alike v w) : Alike u w := by
  rcases h with h | ⟨k, ks, l, rfl, rfl, h⟩
  · rcases h' with h' | ⟨k, ks, l, rfl, rfl, h'⟩
    · exact .inl (like_trans h h')
    · exact absurd rfl ((like_not_obj h).2 _)
  · rcases h' with h' | ⟨k', ks', l', e, rfl, h'⟩
    · exact absurd rfl ((like_not_obj h').1 _)
    · cases e
      refine .inr ⟨k, ks, l', rfl, rfl, forall2_of ((forall2_length h).trans (forall2_length h')) ?_⟩
      intro i a b ha hb
      have hi : i < (k' :: ks').length := by rw [forall2_length h']; exact (List.getElem?_eq_some_iff.1 hb).1
      have hm := List.getElem?_eq_getElem hi
      obtain ⟨g1, g2⟩ := forall2_get h i a _ ha hm
      obtain ⟨g3, g4⟩ := forall2_get h' i _ b hm hb
      exact ⟨g1.trans g3, like_trans g2 g4⟩

theorem alike_symm {u v : BNode F} (h : Alike u v) : Alike v u := by
  rcases h with h | ⟨k, ks, l, rfl, rfl, h⟩
  · exact .inl (like_symm h)
  · cases h with
    | @cons a b as bs p q =>
      have hh : List.Forall₂ (fun a b : Str × BNode F => a.1 = b.1 ∧ LikeCol a.2 b.2) (k :: ks) (b :: bs) := .cons p q
      refine .inr ⟨b, bs, k :: ks, rfl, rfl, forall2_of (forall2_length hh).symm ?_⟩
      intro i x y hx hy
      obtain ⟨g1, g2⟩ := forall2_get hh i y x hy hx
      exact ⟨g1.symm, like_symm g2⟩

theorem zerosLike_ok (zero : F) (n : Nat) {c : BNode F} {m : Nat} (h : Column c m) :
    ∃ z, zerosLike zero n c = .ok z ∧ LikeCol c z ∧ LenCol z n := by
  rcases h with ⟨t, l, rfl, _⟩ | ⟨w, l, rfl, _⟩
  · exact ⟨_, rfl, .inl ⟨t, l, _, rfl, rfl⟩, .inl ⟨t, _, rfl, by simp⟩⟩
  · exact ⟨_, rfl, .inr ⟨w, l, _, rfl, rfl⟩, .inr ⟨w, _, rfl, by simp⟩⟩

theorem fresh_ok (zero : F) (n : Nat) {v : BNode F} {m : Nat} (h : Table v m) :
    ∃ b, fresh zero n v = .ok b ∧ Alike v b ∧ Exact b n := by
  rcases h with h | ⟨k, ks, rfl, h⟩
  · obtain ⟨z, z1, z2, z3⟩ := zerosLike_ok zero n h
    refine ⟨z, ?_, .inl z2, .inl z3⟩
    have := column_not_obj h
    cases v with
    | obj ks => exact absurd rfl (this ks)
    | _ => exact z1
  · obtain ⟨l, e1, e2⟩ := mapM_res (fun c : Str × BNode F => (do Res.ok (c.1, ← zerosLike zero n c.2)))
      (fun c d => c.1 = d.1 ∧ LikeCol c.2 d.2 ∧ LenCol d.2 n) (k :: ks) (by
        intro c hc
        obtain ⟨z, z1, z2, z3⟩ := zerosLike_ok zero n (h c hc)
        exact ⟨(c.1, z), by rw [z1]; rfl, rfl, z2, z3⟩)
    cases e2 with
    | @cons a b as bs p q =>
      have hh : List.Forall₂ (fun c d : Str × BNode F => c.1 = d.1 ∧ LikeCol c.2 d.2 ∧ LenCol d.2 n) (k :: ks) (b :: bs) := .cons p q
      refine ⟨.obj (b :: bs), ?_, .inr ⟨k, ks, _, rfl, rfl, hh.imp fun _ _ h => ⟨h.1, h.2.1⟩⟩, .inr ⟨b, bs, rfl, ?_⟩⟩
      · exact congrArg (fun r => r >>= fun l => Res.ok (BNode.obj l)) e1
      · intro d hd
        obtain ⟨i, hi, rfl⟩ := List.mem_iff_getElem.1 hd
        have hi' : i < (k :: ks).length := by rw [forall2_length hh]; exact hi
        exact (forall2_get hh i _ _ (List.getElem?_eq_getElem hi') (List.getElem?_eq_getElem hi)).2.2

theorem sum_const {α : Type} (f : α → Nat) (n : Nat) (l : List α) (h : ∀ a ∈ l, f a = n) : (l.map f).sum = n * l.length := by
  induction l with
  | nil => simp
  | cons a l ih =>
    rw [List.map_cons, List.sum_cons, ih (fun b hb => h b (by simp [hb])), h a (by simp), List.length_cons, Nat.mul_succ, Nat.add_comm]

theorem lenCol_size {c : BNode F} {n : Nat} (h : LenCol c n) : c.numElements = n := by
  rcases h with ⟨t, l, rfl, h⟩ | ⟨t, l, rfl, h⟩ <;> exact h

theorem storage_exact {v old : BNode F} {n : Nat} (ha : Alike v old) (he : Exact old n) : storageSize old = n * max (numComps v) 1 := by
  rcases ha with ha | ⟨k, ks, l, rfl, rfl, ha⟩
  · rcases ha with ⟨t, l, m, rfl, rfl⟩ | ⟨t, l, m, rfl, rfl⟩
    · rcases he with he | ⟨k, ks, e, _⟩
      · have := lenCol_size he
        show m.length = n * 1
        simpa [BNode.numElements] using this
      · cases e
    · rcases he with he | ⟨k, ks, e, _⟩
      · have := lenCol_size he
        show m.length = n * 1
        simpa [BNode.numElements] using this
      · cases e
  · rcases he with he | ⟨k', ks', e, he⟩
    · rcases he with ⟨t, l, e, _⟩ | ⟨t, l, e, _⟩ <;> cases e
    · cases e
      have hl := forall2_length ha
      show (((k' :: ks').map (·.2)).map (·.numElements)).sum = n * max (((k :: ks).map (·.2)).length) 1
      rw [List.map_map, sum_const ((fun x : BNode F => x.numElements) ∘ fun x : Str × BNode F => x.2) n _ (fun c hc => lenCol_size (he c hc)),
        List.length_map, hl]
      congr 1
      simp only [List.length_cons]; omega

theorem room_ok (zero : F) {v0 old : BNode F} {n m : Nat} (hv : Table v0 m) (hn : 0 < n)
    (ho : old = .empty ∨ (Alike v0 old ∧ Exact old n)) :
    ∃ b, room zero n v0 old = .ok b ∧ Alike v0 b ∧ Exact b n ∧ (old ≠ .empty → b = old) := by
  rcases ho with rfl | ⟨h1, h2⟩
  · obtain ⟨b, b1, b2, b3⟩ := fresh_ok zero n hv
    refine ⟨b, ?_, b2, b3, fun h => absurd rfl h⟩
    unfold room
    rw [if_pos, b1]
    show (0 : Nat) ≠ n * max (numComps v0) 1
    have : 0 < n * max (numComps v0) 1 := Nat.mul_pos hn (by omega)
    omega
  · refine ⟨old, ?_, h1, h2, fun _ => rfl⟩
    unfold room
    rw [if_neg (fun h => h (storage_exact h1 h2))]

/-! ### all components -/

theorem store_ok {ins vs : List (BNode F)} {cnt : Nat → Nat} {v0 old : BNode F} (zero : F) (hv : ValsOf ins vs) (hvs : Vals vs cnt v0)
    (W : List (Nat × (Nat × Nat))) (n : Nat) (hpos : 0 < n) (hn : ∀ w ∈ W, w.1 < n)
    (hW : ∀ w ∈ W, (∃ v, vs[w.2.1]? = some v) ∧ w.2.2 < cnt w.2.1) (hmem : ∀ q s, last q W = some s → (q, s) ∈ W)
    (ho : old = .empty ∨ (Alike v0 old ∧ Exact old n)) :
    ∃ out, store zero n v0 old (valueAt ins (fun i : Nat => (i : Int)) (fun k : Nat => (k : Int))) (W.map fun w => ((w.1 : Int), w.2)) = .ok out ∧
      Alike v0 out ∧ Exact out n ∧ ∀ q, q < n →
        (∀ s v, last q W = some s → vs[s.1]? = some v → rowAt out q = rowAt v s.2) ∧ (last q W = none → old ≠ .empty → rowAt out q = rowAt old q) := by
  obtain ⟨b, b1, b2, b3, b4⟩ := room_ok zero hvs.shape hpos ho
  suffices h : ∃ out, (if (W.map fun w => ((w.1 : Int), w.2)).isEmpty then Res.ok b
      else match v0 with
        | .obj (k :: ks) =>
          match b with
          | .obj bs =>
            if bs.length < (k :: ks).length then Res.ub
            else do
              let l ← bs.zipIdx.mapM fun (bc : (Str × BNode F) × Nat) =>
                if bc.2 < (k :: ks).length then do
                  let c ← storeCol bc.1.2 (valueAt ins (fun i : Nat => (i : Int)) (fun k : Nat => (k : Int)) fun v => do .ok (← nth v bc.2).2) (W.map fun w => ((w.1 : Int), w.2))
                  .ok (bc.1.1, c)
                else .ok bc.1
              .ok (.obj l)
          | _ => .ub
        | _ => storeCol b (valueAt ins (fun i : Nat => (i : Int)) (fun k : Nat => (k : Int)) .ok) (W.map fun w => ((w.1 : Int), w.2))) = .ok out ∧ Alike v0 out ∧ Exact out n ∧ ∀ q, q < n →
        (∀ s v, last q W = some s → vs[s.1]? = some v → rowAt out q = rowAt v s.2) ∧ (last q W = none → rowAt out q = rowAt b q) by
    obtain ⟨out, o1, o2, o3, o4⟩ := h
    refine ⟨out, ?_, o2, o3, fun q hq => ⟨(o4 q hq).1, fun h1 h2 => ?_⟩⟩
    · unfold store
      rw [b1, Res.bind_ok]
      exact o1
    · rw [(o4 q hq).2 h1, b4 h2]
  cases hWe : W with
  | nil =>
    refine ⟨b, rfl, b2, b3, fun q hq => ⟨(fun s v h => by cases h), fun _ => rfl⟩⟩
  | cons w0 W0 =>
  rw [if_neg (by simp), ← hWe]
  rcases hvs.shape with h0 | ⟨k0, ks, rfl, h0⟩
  · have hno := column_not_obj h0
    have hlike : ∀ v ∈ vs, LikeCol v0 v := by
      intro v hm
      rcases hvs.alike v hm with h | ⟨k, ks, l, h, _⟩
      · exact h
      · exact absurd h (hno _)
    have hb : LikeCol v0 b := by
      rcases b2 with h | ⟨k, ks, l, h, _⟩
      · exact h
      · exact absurd h (hno _)
    have hbl : LenCol b n := by
      rcases b3 with h | ⟨k, ks, h, _⟩
      · exact h
      · exact absurd h ((like_not_obj hb).2 _)
    have hcol : ∀ (i : Nat) v, vs[i]? = some v → Column v (cnt i) := by
      intro i v hi
      rcases hvs.table i v hi with h | ⟨k, ks, h, _⟩
      · exact h
      · exact absurd h ((like_not_obj (hlike v (List.mem_of_getElem? hi))).2 _)
    obtain ⟨out, o1, o2, o3, o4⟩ := storeCol_ok zero hv W n hn hW hmem .ok id b
      (fun i v hi => ⟨rfl, like_trans (like_symm hb) (hlike v (List.mem_of_getElem? hi)), hcol i v hi⟩) hbl
    refine ⟨out, ?_, .inl (like_trans hb o2), .inl o3, fun q hq => ⟨fun s v h1 h2 => ?_, fun h => ?_⟩⟩
    · cases v0 with
      | obj ks => exact absurd rfl (hno ks)
      | _ => exact o1
    · exact rowAt_like (like_trans (like_symm (like_trans hb o2)) (hlike v (List.mem_of_getElem? h2))) _ _ ((o4 q hq).1 s v h1 h2)
    · exact rowAt_like (like_symm o2) _ _ ((o4 q hq).2 h)
  · have hobj : ∀ v ∈ vs, ∃ l, v = .obj l ∧ List.Forall₂ (fun a b : Str × BNode F => a.1 = b.1 ∧ LikeCol a.2 b.2) (k0 :: ks) l := by
      intro v hm
      rcases hvs.alike v hm with h | ⟨k, ks', l, h, rfl, h'⟩
      · exact absurd rfl ((like_not_obj h).1 _)
      · cases h; exact ⟨l, rfl, h'⟩
    obtain ⟨bs, rfl, hbs⟩ : ∃ l, b = .obj l ∧ List.Forall₂ (fun a b : Str × BNode F => a.1 = b.1 ∧ LikeCol a.2 b.2) (k0 :: ks) l := by
      rcases b2 with h | ⟨k, ks', l, h, rfl, h'⟩
      · exact absurd rfl ((like_not_obj h).1 _)
      · cases h; exact ⟨l, rfl, h'⟩
    have hbl : ∀ c ∈ bs, LenCol c.2 n := by
      rcases b3 with h | ⟨k, ks, h, h'⟩
      · rcases h with ⟨t, l, e, _⟩ | ⟨t, l, e, _⟩ <;> cases e
      · cases h; exact h'
    have hlen := forall2_length hbs
    let d : Nat → BNode F → BNode F := fun n v => (v.kids[n]?.map (·.2)).getD .empty
    obtain ⟨outs, e1, e2⟩ := mapM_res (fun bc : (Str × BNode F) × Nat =>
        if bc.2 < (k0 :: ks).length then (do
          let c ← storeCol bc.1.2 (valueAt ins (fun i : Nat => (i : Int)) (fun k : Nat => (k : Int)) fun v => do .ok (← nth v bc.2).2) (W.map fun w => ((w.1 : Int), w.2))
          Res.ok (bc.1.1, c))
        else Res.ok bc.1)
      (fun bc out => out.1 = bc.1.1 ∧ LikeCol bc.1.2 out.2 ∧ LenCol out.2 n ∧ ∀ q, q < n →
        (∀ s v, last q W = some s → vs[s.1]? = some v → elemAt out.2 q = elemAt (d bc.2 v) s.2) ∧ (last q W = none → elemAt out.2 q = elemAt bc.1.2 q))
      bs.zipIdx (by
      rintro ⟨k, m⟩ hkn
      have hk : bs[m]? = some k := by
        have := List.mem_zipIdx hkn
        simp only [Nat.zero_add, Nat.zero_le, Nat.sub_zero, true_and] at this
        rw [this.2]; exact List.getElem?_eq_getElem _
      have hm : m < (k0 :: ks).length := by rw [hlen]; exact (List.getElem?_eq_some_iff.1 hk).1
      have hz := List.getElem?_eq_getElem hm
      obtain ⟨out, o1, o2, o3, o4⟩ := storeCol_ok zero hv W n hn hW hmem (fun v => do .ok (← nth v m).2) (d m) k.2 (by
        intro i v hi
        obtain ⟨l, rfl, h'⟩ := hobj v (List.mem_of_getElem? hi)
        have hl' := forall2_length h'
        obtain ⟨y, hy⟩ : ∃ y, l[m]? = some y := ⟨_, List.getElem?_eq_getElem (hl' ▸ hm)⟩
        have hd : d m (.obj l) = y.2 := by
          show ((l[m]?).map (·.2)).getD .empty = _
          rw [hy]; rfl
        refine ⟨?_, ?_, ?_⟩
        · rw [hd]; simp only [nth, BNode.kids, hy, Res.bind_ok]
        · rw [hd]
          exact like_trans (like_symm (forall2_get hbs m _ k hz hk).2) (forall2_get h' m _ y hz hy).2
        · rw [hd]
          rcases hvs.table i _ hi with h | ⟨a, as, h, hh⟩
          · exact absurd rfl (column_not_obj h _)
          · cases h; exact hh y (List.mem_of_getElem? hy)) (hbl k (List.mem_of_getElem? hk))
      exact ⟨(k.1, out), by simp only [if_pos hm, o1, Res.bind_ok], rfl, o2, o3, o4⟩)
    have hl2 := forall2_length e2
    rw [List.length_zipIdx] at hl2
    have hget : ∀ (i : Nat) y, outs[i]? = some y → ∃ z, bs[i]? = some z ∧ y.1 = z.1 ∧ LikeCol z.2 y.2 ∧ LenCol y.2 n ∧ ∀ q, q < n →
        (∀ s v, last q W = some s → vs[s.1]? = some v → elemAt y.2 q = elemAt (d i v) s.2) ∧ (last q W = none → elemAt y.2 q = elemAt z.2 q) := by
      intro i y hy
      have hi : i < bs.length := by rw [hl2]; exact (List.getElem?_eq_some_iff.1 hy).1
      have hz := List.getElem?_eq_getElem hi
      have hz' : bs.zipIdx[i]? = some (bs[i], i) := by rw [List.getElem?_zipIdx, hz]; simp
      exact ⟨_, hz, forall2_get e2 i _ y hz' hy⟩
    refine ⟨.obj outs, ?_, ?_, ?_, ?_⟩
    · show (if bs.length < (k0 :: ks).length then Res.ub else do
        let l ← bs.zipIdx.mapM _
        Res.ok (BNode.obj l)) = _
      rw [if_neg (by omega), e1]; rfl
    · refine .inr ⟨k0, ks, outs, rfl, rfl, forall2_of (by omega) ?_⟩
      intro i x y hx hy
      obtain ⟨z, hz, g1, g2, _⟩ := hget i y hy
      obtain ⟨f1, f2⟩ := forall2_get hbs i x z hx hz
      exact ⟨f1.trans g1.symm, like_trans f2 g2⟩
    · cases outs with
      | nil => simp at hl2; rw [hl2] at hlen; simp at hlen
      | cons y ys =>
        refine .inr ⟨y, ys, rfl, fun c hc => ?_⟩
        obtain ⟨i, hi, rfl⟩ := List.mem_iff_getElem.1 hc
        obtain ⟨z, _, _, _, h, _⟩ := hget i _ (List.getElem?_eq_getElem hi)
        exact h
    · intro q hq
      constructor
      · intro s v h1 h2
        obtain ⟨l, rfl, h'⟩ := hobj v (List.mem_of_getElem? h2)
        have hl1 := forall2_length h'
        show outs.map (fun c => (c.1, elemAt c.2 q)) = l.map fun c => (c.1, elemAt c.2 s.2)
        refine List.ext_getElem? fun i => ?_
        rw [List.getElem?_map, List.getElem?_map]
        by_cases hi : i < (k0 :: ks).length
        · have hy := List.getElem?_eq_getElem (show i < outs.length by omega)
          have hx := List.getElem?_eq_getElem (hl1 ▸ hi)
          have hk := List.getElem?_eq_getElem hi
          obtain ⟨z, hz, g1, g2, g3, g4⟩ := hget i _ hy
          have f1 := (forall2_get hbs i _ z hk hz).1
          have f2 := (forall2_get h' i _ _ hk hx).1
          have hd : d i (.obj l) = (l[i]'(hl1 ▸ hi)).2 := by
            show ((l[i]?).map (·.2)).getD .empty = _
            rw [hx]; rfl
          have g5 := (g4 q hq).1 s _ h1 h2
          rw [hd] at g5
          rw [hx, hy]; simp only [Option.map_some]
          rw [g5, g1, ← f1, f2]
        · rw [List.getElem?_eq_none (by omega), List.getElem?_eq_none (by omega)]; rfl
      · intro h
        show outs.map (fun c => (c.1, elemAt c.2 q)) = bs.map fun c => (c.1, elemAt c.2 q)
        refine List.ext_getElem? fun i => ?_
        rw [List.getElem?_map, List.getElem?_map]
        by_cases hi : i < outs.length
        · have hy := List.getElem?_eq_getElem hi
          obtain ⟨z, hz, g1, g2, g3, g4⟩ := hget i _ hy
          rw [hz, hy]; simp only [Option.map_some]
          rw [(g4 q hq).2 h, g1]
        · rw [List.getElem?_eq_none (by omega), List.getElem?_eq_none (by omega)]

end Conduit.Back
