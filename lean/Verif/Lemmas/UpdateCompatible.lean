import Verif.Lemmas.Update
/-
update_compatible writes exactly the overlay (C27).
-/
namespace Conduit
open Spec Schema Node

theorem posOf_some {n : Str} : ∀ {es : List (Str × Node)} {i : Nat}, posOf es n = some i →
    ∃ A d B, es = A ++ (n, d) :: B ∧ i = A.length ∧ n ∉ A.map Prod.fst
  | [], i, h => by simp [posOf] at h
  | (k, c) :: es, i, h => by
    by_cases hk : k = n
    · subst hk
      simp [posOf, List.findIdx?_cons] at h
      exact ⟨[], c, es, rfl, by simp [← h], by simp⟩
    · simp only [posOf, List.findIdx?_cons, beq_eq_false_iff_ne.2 hk] at h
      simp only [Bool.false_eq_true, if_false, Option.map_eq_some_iff] at h
      obtain ⟨j, hj, rfl⟩ := h
      obtain ⟨A, d, B, h1, h2, h3⟩ := posOf_some (es := es) (i := j) hj
      refine ⟨(k, c) :: A, d, B, by rw [h1]; rfl, by simp [h2], ?_⟩
      simp only [List.map_cons, List.mem_cons, not_or]
      exact ⟨fun h => hk h.symm, h3⟩

theorem posOf_none {n : Str} {es : List (Str × Node)} (h : posOf es n = none) : n ∉ es.map Prod.fst := by
  simp only [posOf, List.findIdx?_eq_none_iff] at h
  intro hm
  obtain ⟨e, he, rfl⟩ := List.mem_map.1 hm
  have := h e he
  simp at this

theorem posOf_split {n : Str} {A : List (Str × Node)} {d : Node} {B : List (Str × Node)} (h : n ∉ A.map Prod.fst) :
    posOf (A ++ (n, d) :: B) n = some A.length := by
  induction A with
  | nil => simp [posOf, List.findIdx?_cons]
  | cons a A ih =>
    simp only [List.map_cons, List.mem_cons, not_or] at h
    have := ih h.2
    simp only [posOf, List.cons_append, List.findIdx?_cons, beq_eq_false_iff_ne.2 (Ne.symm h.1)] at this ⊢
    simp [this]

theorem valE_append (m : Mem) (A B : List (Str × Node)) : valE m (A ++ B) = valE m A ++ valE m B := by simp [valE_eq]
theorem names_valE (m : Mem) (A : List (Str × Node)) : (valE m A).map Prod.fst = A.map Prod.fst := by simp [valE_eq]

theorem entry_none {n : Str} : ∀ {es : List (Str × Val)}, n ∉ es.map Prod.fst → entry n es = none
  | [], _ => rfl
  | (k, d) :: es, h => by
    simp only [List.map_cons, List.mem_cons, not_or] at h
    rw [entry, if_neg (Ne.symm h.1)]
    exact entry_none h.2

theorem entry_split {n : Str} {d : Val} {B : List (Str × Val)} : ∀ {A : List (Str × Val)}, n ∉ A.map Prod.fst →
    entry n (A ++ (n, d) :: B) = some d
  | [], _ => by simp [entry]
  | (k, c) :: A, h => by
    simp only [List.map_cons, List.mem_cons, not_or] at h
    rw [List.cons_append, entry, if_neg (Ne.symm h.1)]
    exact entry_split h.2

theorem overlayE_append (ss : List (Str × Val)) (A B : List (Str × Val)) :
    overlayE ss (A ++ B) = overlayE ss A ++ overlayE ss B := by
  induction A with
  | nil => rfl
  | cons a A ih => obtain ⟨n, d⟩ := a; simp only [List.cons_append, overlayE, ih]

theorem overlayE_skip {n : Str} {s : Val} {ss : List (Str × Val)} : ∀ {D : List (Str × Val)}, n ∉ D.map Prod.fst →
    overlayE ((n, s) :: ss) D = overlayE ss D
  | [], _ => rfl
  | (k, d) :: D, h => by
    simp only [List.map_cons, List.mem_cons, not_or] at h
    simp only [overlayE, overlayE_skip h.2, entry, if_neg h.1]

theorem names_overlayE (ss : List (Str × Val)) : ∀ D : List (Str × Val), (overlayE ss D).map Prod.fst = D.map Prod.fst
  | [] => rfl
  | (k, d) :: D => by simp only [overlayE, List.map_cons, names_overlayE ss D]

theorem overlayE_nil : ∀ D : List (Str × Val), overlayE [] D = D
  | [] => rfl
  | (k, d) :: D => by simp only [overlayE, entry, overlayE_nil D]

theorem overlayL_nil (D : List Val) : overlayL [] D = D := by cases D <;> rfl

theorem overlayE_step {n : Str} {s d : Val} {ss A B : List (Str × Val)} (hs : n ∉ ss.map Prod.fst)
    (hA : n ∉ A.map Prod.fst) (hB : n ∉ B.map Prod.fst) :
    overlayE ((n, s) :: ss) (A ++ (n, d) :: B) = overlayE ss (A ++ (n, overlay s d) :: B) := by
  rw [overlayE_append, overlayE_append, overlayE_skip hA]
  simp only [overlayE, overlayE_skip hB, entry_none hs]
  simp [entry]

/-- what `update_compatible` needs of memory -/
structure UC (m : Mem) (src dest : Node) : Prop where
  srcR : Readable m src
  destR : Readable m dest
  nat : NatSize dest
  sep : (places dest).Pairwise NoShare
  apart : ∀ a ∈ places src, ∀ b ∈ places dest, NoShare a b

/-- what it does -/
structure UCd (m m' : Mem) (dest : Node) : Prop where
  shape : Mem.SameShape m m'
  keep : ∀ b i, (∀ pl ∈ places dest, ¬ pl.Has b i) → m'.byte b i = m.byte b i

theorem UCd.refl (m : Mem) (dest : Node) : UCd m m dest := ⟨Mem.SameShape.refl m, fun _ _ _ => rfl⟩

theorem UCd.same {m m' : Mem} {dest n : Node} (h : UCd m m' dest) (ha : ∀ a ∈ places n, ∀ b ∈ places dest, NoShare a b) :
    Same m m' n := fun pl hpl b i hh => h.keep b i (fun pl' hpl' => ha pl hpl pl' hpl' b i hh)

theorem UC.after {m m' : Mem} {src dest c : Node} (h : UC m src dest) (hd : UCd m m' c)
    (hc : ∀ pl ∈ places c, pl ∈ places dest) : UC m' src dest :=
  ⟨readable_same src (hd.same (fun a ha b hb => h.apart a ha b (hc b hb))) h.srcR,
    readable_shape hd.shape dest h.destR, h.nat, h.sep, h.apart⟩

theorem compatE_notObj : ∀ (es : List (Str × Node)) (dest : Node) (m : Mem), (∀ x ds, dest ≠ .obj x ds) →
    updateCompatibleE es dest m = .ok (m, dest)
  | [], dest, m, _ => rfl
  | (n, c) :: es, dest, m, h => by
    cases dest with
    | leaf x d => rw [updateCompatibleE]; exact compatE_notObj es _ m h; simp
    | obj x ds => exact absurd rfl (h x ds)
    | lst x ds => rw [updateCompatibleE]; exact compatE_notObj es _ m h; simp

theorem overlay_notObj {ss : List (Str × Val)} {d : Val} (h : ∀ ds, d ≠ .obj ds) : overlay (.obj ss) d = d := by
  cases d with
  | leaf id e es => rfl
  | obj ds => exact absurd rfl (h ds)
  | lst ds => rfl

theorem overlay_emptyLeaf (e : Endian) (es : List (List (Option UInt8))) (d : Val) : overlay (.leaf .empty e es) d = d := by
  cases d <;> simp [overlay]

theorem val_leaf_ne {m : Mem} {x : Info} {d : DataType} : (∀ ds, val m (.leaf x d) ≠ .obj ds) ∧ (∀ ds, val m (.leaf x d) ≠ .lst ds) := by
  simp only [val]; split <;> simp

mutual
theorem distinct_overlay (s : Val) : ∀ d : Val, DistinctV d → DistinctV (overlay s d)
  | .leaf id e es, h => by
    cases s with
    | leaf id' e' es' =>
      simp only [overlay, overLeaf]
      split
      · trivial
      · split <;> trivial
    | obj ss => trivial
    | lst ss => trivial
  | .obj ds, h => by
    cases s with
    | leaf id' e' es' => exact h
    | obj ss => exact ⟨by rw [names_overlayE]; exact h.1, distinct_overlayE ss ds h.2⟩
    | lst ss => exact h
  | .lst ds, h => by
    cases s with
    | leaf id' e' es' => exact h
    | obj ss => exact h
    | lst ss => exact distinct_overlayL ss ds h
theorem distinct_overlayE (ss : List (Str × Val)) : ∀ ds : List (Str × Val), DistinctVE ds → DistinctVE (overlayE ss ds)
  | [], _ => trivial
  | (n, d) :: ds, h => by
    refine ⟨?_, distinct_overlayE ss ds h.2⟩
    cases entry n ss with
    | none => exact h.1
    | some s => exact distinct_overlay s d h.1
theorem distinct_overlayL : ∀ (ss ds : List Val), DistinctVL ds → DistinctVL (overlayL ss ds)
  | ss, [], _ => trivial
  | [], d :: ds, h => h
  | s :: ss, d :: ds, h => ⟨distinct_overlay s d h.1, distinct_overlayL ss ds h.2⟩
end

mutual
theorem updateCompatible_spec : ∀ (src dest : Node) (m : Mem), UC m src dest → DistinctV (val m src) → DistinctV (val m dest) →
    ∃ m', updateCompatible src dest m = .ok (m', dest) ∧ UCd m m' dest ∧ val m' dest = overlay (val m src) (val m dest)
  | .obj sx es, dest, m, h, hs, hd => by
    cases dest with
    | obj x ds =>
      obtain ⟨m', h1, h2, h3⟩ := updateCompatibleE_spec es x ds m h hs hd
      exact ⟨m', by rw [updateCompatible]; exact h1, h2, by simp only [val, overlay, h3]⟩
    | leaf x d =>
      exact ⟨m, by rw [updateCompatible, compatE_notObj _ _ _ (by simp)], UCd.refl _ _, by
        rw [show val m (.obj sx es) = .obj (valE m es) by rfl, overlay_notObj (fun ds => val_leaf_ne.1 ds)]⟩
    | lst x ds =>
      exact ⟨m, by rw [updateCompatible, compatE_notObj _ _ _ (by simp)], UCd.refl _ _, by simp only [val, overlay]⟩
  | .lst sx cs, dest, m, h, hs, hd => by
    cases dest with
    | lst x ds =>
      obtain ⟨m', h1, h2, h3⟩ := updateCompatibleL_spec cs ds m x h hs hd
      exact ⟨m', by rw [updateCompatible, h1, bind_ok], h2, by simp only [val, overlay, h3]⟩
    | leaf x d =>
      refine ⟨m, by rw [updateCompatible]; simp, UCd.refl _ _, ?_⟩
      simp only [val]; split <;> rfl
    | obj x ds => exact ⟨m, by rw [updateCompatible]; simp, UCd.refl _ _, by simp only [val, overlay]⟩
  | .leaf sx s, dest, m, h, hs, hd => by
    rw [updateCompatible]
    by_cases he : s.id = .empty
    · exact ⟨m, by rw [if_pos he], UCd.refl _ _, by rw [val, if_pos he, overlay_emptyLeaf]⟩
    · rw [if_neg he]
      cases dest with
      | obj x ds => exact ⟨m, by rw [if_neg]; rintro ⟨h1, _⟩; exact h.srcR.1 h1.symm, UCd.refl _ _, by simp only [val, he, if_false, overlay]⟩
      | lst x ds => exact ⟨m, by rw [if_neg]; rintro ⟨h1, _⟩; exact h.srcR.2.1 h1.symm, UCd.refl _ _, by simp only [val, he, if_false, overlay]⟩
      | leaf x d =>
        by_cases hc : d.id = s.id ∧ d.n ≥ s.n
        · obtain ⟨hid, hle⟩ := hc
          have hde : d.id ≠ .empty := by rw [hid]; exact he
          obtain ⟨m', h1, h2, h3, h4⟩ := leafCopy_spec h.srcR h.destR h.nat h.sep h.apart he hid hle
          have hsn : 0 ≤ s.n := h.srcR.2.2.1
          refine ⟨m', ?_, ⟨h2, h3⟩, ?_⟩
          · show (if d.id = s.id ∧ d.n ≥ s.n then _ else _) = _
            rw [if_pos ⟨hid, hle⟩]; exact h1
          · simp only [val, he, hde, if_false, overlay, overLeaf]
            rw [if_pos ⟨hid, by rw [elems_length, elems_length]; omega⟩, h4, elems_length]
        · refine ⟨m, ?_, UCd.refl _ _, ?_⟩
          · show (if d.id = s.id ∧ d.n ≥ s.n then _ else _) = _
            rw [if_neg hc]
          · simp only [val, he, if_false]
            by_cases hde : d.id = .empty
            · simp only [hde, if_true, overlay, he, if_false, overLeaf]
              rw [if_neg]; rintro ⟨h1, _⟩; exact he h1.symm
            · simp only [hde, if_false, overlay, he, overLeaf]
              rw [if_neg]
              rintro ⟨h1, h2⟩
              have := h.srcR.2.2.1
              have := h.destR.2.2.1
              rw [elems_length, elems_length] at h2
              exact hc ⟨h1, by omega⟩
theorem updateCompatibleE_spec : ∀ (es : List (Str × Node)) (x : Info) (ds : List (Str × Node)) (m : Mem) {sx : Info},
    UC m (.obj sx es) (.obj x ds) → DistinctV (.obj (valE m es)) → DistinctV (.obj (valE m ds)) →
    ∃ m', updateCompatibleE es (.obj x ds) m = .ok (m', .obj x ds) ∧ UCd m m' (.obj x ds) ∧
      valE m' ds = overlayE (valE m es) (valE m ds)
  | [], x, ds, m, _, h, hs, hd => ⟨m, rfl, UCd.refl _ _, (overlayE_nil _).symm⟩
  | (n, c) :: es, x, ds, m, sx, h, hs, hd => by
    simp only [valE, DistinctV, DistinctVE, List.map_cons, List.nodup_cons, names_valE] at hs
    obtain ⟨⟨hn, hnd⟩, hsc, hse⟩ := hs
    have hsrc : UC m (.obj sx es) (.obj x ds) :=
      ⟨h.srcR.2, h.destR, h.nat, h.sep, fun a ha => h.apart a (by simp only [places, placesE, List.mem_append] at ha ⊢; exact Or.inr ha)⟩
    rw [updateCompatibleE]
    cases hpos : posOf ds n with
    | none =>
      obtain ⟨m', h1, h2, h3⟩ := updateCompatibleE_spec es x ds m hsrc ⟨by rw [names_valE]; exact hnd, hse⟩ hd
      refine ⟨m', h1, h2, ?_⟩
      rw [h3]; simp only [valE]
      rw [overlayE_skip]
      rw [names_valE]; exact posOf_none hpos
    | some i =>
      obtain ⟨A, d, B, rfl, rfl, hA⟩ := posOf_some hpos
      simp only [List.getElem?_append_right (Nat.le_refl _), Nat.sub_self, List.getElem?_cons_zero, Option.getD_some]
      have hB : n ∉ B.map Prod.fst := by
        have := hd.1
        rw [names_valE, List.map_append, List.map_cons, List.nodup_append] at this
        exact (List.nodup_cons.1 this.2.1).1
      have hdd : DistinctV (val m d) ∧ True := by
        refine ⟨?_, trivial⟩
        have := hd.2
        clear h hsrc hpos hd
        induction A with
        | nil => simp only [List.nil_append, valE, DistinctVE] at this; exact this.1
        | cons a A ih =>
          simp only [List.cons_append, valE, DistinctVE] at this
          simp only [List.map_cons, List.mem_cons, not_or] at hA
          exact ih hA.2 this.2
      -- the child alone
      have hpl : places (.obj x (A ++ (n, d) :: B)) = placesE A ++ (places d ++ placesE B) := by
        simp [places, placesE_eq, placesL_eq]
      have hsub : ∀ pl ∈ places d, pl ∈ places (.obj x (A ++ (n, d) :: B)) := by
        intro pl hp; rw [hpl]; simp [hp]
      have hrd : Readable m d := by
        have := h.destR; simp only [Readable, readableE_iff, readableL_iff] at this
        exact this d (by simp)
      have hnd' : NatSize d := by
        have := h.nat; simp only [NatSize, naturalE_iff, naturalL_iff] at this
        exact this d (by simp)
      have hsep := h.sep
      rw [hpl, List.pairwise_append] at hsep
      obtain ⟨sA, sDB, sx1⟩ := hsep
      rw [List.pairwise_append] at sDB
      obtain ⟨sD, sB, sx2⟩ := sDB
      have uc : UC m c d := ⟨h.srcR.1, hrd, hnd', sD, fun a ha b hb =>
        h.apart a (by simp only [places, placesE, List.mem_append]; exact Or.inl ha) b (hsub b hb)⟩
      obtain ⟨m1, a1, a2, a3⟩ := updateCompatible_spec c d m uc hsc hdd.1
      rw [a1, bind_ok]
      have hset : (A ++ (n, d) :: B).set A.length (n, d) = A ++ (n, d) :: B := by simp
      simp only [hset]
      have vA : valE m1 A = valE m A := valE_same A (fun pl hp b i hh => a2.keep b i (fun pl' hp' =>
        sx1 pl hp pl' (by simp [hp']) b i hh))
      have vB : valE m1 B = valE m B := valE_same B (fun pl hp b i hh => a2.keep b i (fun pl' hp' =>
        noShare_symm (sx2 pl' hp' pl hp) b i hh))
      have vS : valE m1 es = valE m es := valE_same es (fun pl hp b i hh => a2.keep b i (fun pl' hp' =>
        h.apart pl (by simp only [places, placesE, List.mem_append]; exact Or.inr hp) pl' (hsub pl' hp') b i hh))
      have vD : valE m1 (A ++ (n, d) :: B) = valE m A ++ (n, overlay (val m c) (val m d)) :: valE m B := by
        rw [valE_append]; simp only [valE, vA, vB, a3]
      have hdist : DistinctV (.obj (valE m1 (A ++ (n, d) :: B))) := by
        refine ⟨by rw [names_valE]; have := hd.1; rwa [names_valE] at this, ?_⟩
        rw [vD]
        have hov := distinct_overlay (val m c) (val m d) hdd.1
        have := hd.2
        rw [valE_append] at this
        simp only [valE] at this
        clear hpos h hsrc hd hpl hsub sA sx1 vA vD hset hA
        induction A with
        | nil => simp only [valE, List.nil_append, DistinctVE] at this ⊢; exact ⟨hov, this.2⟩
        | cons a A ih =>
          simp only [valE, List.cons_append, DistinctVE] at this ⊢
          exact ⟨this.1, ih this.2⟩
      obtain ⟨m2, b1, b2, b3⟩ := updateCompatibleE_spec es x (A ++ (n, d) :: B) m1 (sx := sx) (hsrc.after a2 hsub)
        ⟨by rw [names_valE]; exact hnd, by rw [vS]; exact hse⟩ hdist
      refine ⟨m2, b1, ⟨a2.shape.trans b2.shape, fun b i hb => ?_⟩, ?_⟩
      · rw [b2.keep b i hb, a2.keep b i (fun pl hp => hb pl (hsub pl hp))]
      · rw [b3, vD, vS, valE_append]
        simp only [valE]
        rw [overlayE_step (by rw [names_valE]; exact hn) (by rw [names_valE]; exact hA) (by rw [names_valE]; exact hB)]
theorem updateCompatibleL_spec : ∀ (cs ds : List Node) (m : Mem) (x : Info) {sx : Info},
    UC m (.lst sx cs) (.lst x ds) → DistinctV (.lst (valL m cs)) → DistinctV (.lst (valL m ds)) →
    ∃ m', updateCompatibleL cs ds m = .ok (m', ds) ∧ UCd m m' (.lst x ds) ∧
      valL m' ds = overlayL (valL m cs) (valL m ds)
  | [], ds, m, x, _, h, hs, hd => ⟨m, by rw [updateCompatibleL], UCd.refl _ _, (overlayL_nil _).symm⟩
  | c :: cs, [], m, x, _, h, hs, hd => ⟨m, rfl, UCd.refl _ _, rfl⟩
  | c :: cs, d :: ds, m, x, sx, h, hs, hd => by
    simp only [valL, DistinctV, DistinctVL] at hs hd
    have hsep := h.sep
    simp only [places, placesL, List.pairwise_append] at hsep
    obtain ⟨sD, sB, sx2⟩ := hsep
    have uc : UC m c d := ⟨h.srcR.1, h.destR.1, h.nat.1, sD, fun a ha b hb =>
        h.apart a (by simp [places, placesL, ha]) b (by simp [places, placesL, hb])⟩
    obtain ⟨m1, a1, a2, a3⟩ := updateCompatible_spec c d m uc hs.1 hd.1
    have vS : valL m1 cs = valL m cs := valL_same cs (fun pl hp b i hh => a2.keep b i (fun pl' hp' =>
        h.apart pl (by simp [places, placesL, hp]) pl' (by simp [places, placesL, hp']) b i hh))
    have vB : valL m1 ds = valL m ds := valL_same ds (fun pl hp b i hh => a2.keep b i (fun pl' hp' =>
        noShare_symm (sx2 pl' hp' pl hp) b i hh))
    have uc2 : UC m1 (.lst sx cs) (.lst x ds) := by
      have h1 : UC m (.lst sx cs) (.lst x (d :: ds)) :=
        ⟨h.srcR.2, h.destR, h.nat, h.sep, fun a ha => h.apart a (by simp only [places, placesL, List.mem_append] at ha ⊢; exact Or.inr ha)⟩
      have h2 := h1.after a2 (fun pl hp => by simp [places, placesL, hp])
      exact ⟨h2.srcR, h2.destR.2, h2.nat.2, sB, fun a ha b hb => h2.apart a ha b (by simp only [places, placesL, List.mem_append] at hb ⊢; exact Or.inr hb)⟩
    obtain ⟨m2, b1, b2, b3⟩ := updateCompatibleL_spec cs ds m1 x (sx := sx) uc2 (by rw [vS]; exact hs.2) (by rw [vB]; exact hd.2)
    refine ⟨m2, by rw [updateCompatibleL, a1, bind_ok, b1, bind_ok], ⟨a2.shape.trans b2.shape, fun b i hb => ?_⟩, ?_⟩
    · rw [b2.keep b i (fun pl hp => hb pl (by simp only [places, placesL, List.mem_append] at hp ⊢; exact Or.inr hp)),
        a2.keep b i (fun pl hp => hb pl (by simp [places, placesL, hp]))]
    · have vd : val m2 d = val m1 d := val_same d (fun pl hp b i hh => b2.keep b i (fun pl' hp' =>
        sx2 pl hp pl' (by simpa [places] using hp') b i hh))
      simp only [valL, b3, vS, vB, vd, a3, overlayL]
end

end Conduit
