import Verif.Lemmas.MeshIndex5
/-
The entries of an index of several domains.
-/
namespace Conduit.Mesh

section
variable {F : Type} {ref coll name : Str} {D : List (BNode F)}

/-- The entry says where it is found. -/
def PathIs (ref coll name : Str) (e : BNode F) : Prop :=
  ∃ p, e.get (chars! "path") = .ok (.str p) ∧ (name ≠ [] → p = below ref (coll ++ ['/'] ++ name))

/-- The child `f` names an entry of some domain. -/
def Aims (D : List (BNode F)) (e : BNode F) (f coll : Str) : Prop :=
  ∃ s, e.get f = .ok (.str s) ∧ ∃ d ∈ D, Listed d coll s

/-- What holds of every entry. -/
def Placed (ref coll name : Str) (e : BNode F) : Prop := Plain e ∧ PathIs ref coll name e

def GoodCoordset (ref : Str) (S : Str → Str) (name : Str) (e : BNode F) : Prop :=
  Placed ref (chars! "coordsets") name e ∧ IsCoordsetIndex e ∧
    ∃ s, e.get (chars! "coord_system") = .ok s ∧ s.get (chars! "type") = .ok (.str (S name))
def GoodTopology (ref : Str) (D : List (BNode F)) (name : Str) (e : BNode F) : Prop :=
  Placed ref (chars! "topologies") name e ∧ IsTopologyIndex e ∧ Aims D e (chars! "coordset") (chars! "coordsets")
def GoodMatset (ref : Str) (D : List (BNode F)) (name : Str) (e : BNode F) : Prop :=
  Placed ref (chars! "matsets") name e ∧ IsMatsetIndex e ∧ Aims D e (chars! "topology") (chars! "topologies") ∧
    (Has e (chars! "materials") → HasKids e (chars! "materials"))
def GoodSpecset (ref : Str) (D : List (BNode F)) (name : Str) (e : BNode F) : Prop :=
  Placed ref (chars! "specsets") name e ∧ IsSpecsetIndex e ∧ Aims D e (chars! "matset") (chars! "matsets") ∧
    ∀ s m, e.get (chars! "species") = .ok s → Has s m → HasKids s m
def GoodField (ref : Str) (D : List (BNode F)) (name : Str) (e : BNode F) : Prop :=
  Placed ref (chars! "fields") name e ∧ IsFieldIndex e ∧
    (Has e (chars! "topology") → Aims D e (chars! "topology") (chars! "topologies")) ∧
    (Has e (chars! "matset") → Aims D e (chars! "matset") (chars! "matsets")) ∧
    ∃ m, e.get (chars! "number_of_components") = .ok (.ints int64 [m])
def GoodAdjacency (ref coll : Str) (D : List (BNode F)) (name : Str) (e : BNode F) : Prop :=
  Placed ref coll name e ∧ IsAdjacencyIndex e ∧ Aims D e (chars! "topology") (chars! "topologies")

theorem Placed.sane {e : BNode F} (h : Placed ref coll name e) : Sane e := by
  obtain ⟨hp, p, hx, -⟩ := h; exact Sane.of hx hp

theorem Placed.update {e o : BNode F} (h : Placed ref coll name e) (ho : Plain o) : Placed ref coll name (e.update o) := by
  have hs := h.sane
  obtain ⟨hp, p, hx, hq⟩ := h
  exact ⟨plain_update e o hp ho, p, hs.str hx, hq⟩

theorem Sane.hasStr {e : BNode F} (h : Sane e) (o : BNode F) {f : Str} (hx : HasStr e f) : HasStr (e.update o) f := by
  obtain ⟨s, hs⟩ := hx; exact ⟨s, h.str hs⟩

theorem Sane.oneOf {e : BNode F} (h : Sane e) (o : BNode F) {f : Str} {vals : List Str} (hx : HasOneOf e f vals) :
    HasOneOf (e.update o) f vals := by
  obtain ⟨s, hm, hs⟩ := hx; exact ⟨s, hm, h.str hs⟩

theorem Sane.aims {e : BNode F} (h : Sane e) (o : BNode F) {f : Str} (hx : Aims D e f coll) : Aims D (e.update o) f coll := by
  obtain ⟨s, hs, q⟩ := hx; exact ⟨s, h.str hs, q⟩

/-- What holds of the child `f` of both holds of that of the result. -/
theorem Sane.opt {e o : BNode F} (h : Sane e) {f : Str} {Q : BNode F → Prop}
    (h1 : Has e f → Q (e.update o)) (h2 : Has o f → (e.update o).get f = o.get f → Q (e.update o)) :
    Has (e.update o) f → Q (e.update o) := by
  intro hh
  rcases get_cases e f with ⟨x, hx⟩ | hx
  · exact h1 ⟨x, hx⟩
  · rcases h.has.1 hh with q | q
    · exact h1 q
    · exact h2 q (h.get_other hx)

theorem not_has_empty (f : Str) : ¬ Has (.empty : BNode F) f := by
  rintro ⟨x, h⟩; exact absurd h (by show (Res.error : Res (BNode F)) ≠ _; simp)

theorem goodAdjacency_update {e o : BNode F} (h : GoodAdjacency ref coll D name e) (ho : o = .empty ∨ GoodAdjacency ref coll D name o) :
    GoodAdjacency ref coll D name (e.update o) := by
  have hpo : Plain o := by rcases ho with rfl | q; trivial; exact q.1.1
  obtain ⟨hb, ⟨h1, h2, h3⟩, h4⟩ := h
  have hs := hb.sane
  exact ⟨hb.update hpo, ⟨hs.hasStr o h1, hs.oneOf o h2, hs.hasStr o h3⟩, hs.aims o h4⟩

theorem goodTopology_update {e o : BNode F} (h : GoodTopology ref D name e) (ho : o = .empty ∨ GoodTopology ref D name o) :
    GoodTopology ref D name (e.update o) := by
  have hpo : Plain o := by rcases ho with rfl | q; trivial; exact q.1.1
  obtain ⟨hb, ⟨h1, h2, h3, h4⟩, h5⟩ := h
  have hs := hb.sane
  refine ⟨hb.update hpo, ⟨hs.oneOf o h1, hs.hasStr o h2, hs.hasStr o h3, ?_⟩, hs.aims o h5⟩
  refine hs.opt (Q := fun x => HasStr x (chars! "grid_function")) (fun q => hs.hasStr o (h4 q)) fun q e' => ?_
  rcases ho with rfl | ho
  · exact absurd q (not_has_empty _)
  · obtain ⟨s, hx⟩ := ho.2.1.2.2.2 q
    exact ⟨s, e'.trans hx⟩

theorem goodField_update {e o : BNode F} (h : GoodField ref D name e) (ho : o = .empty ∨ GoodField ref D name o) :
    GoodField ref D name (e.update o) := by
  have hpo : Plain o := by rcases ho with rfl | q; trivial; exact q.1.1
  obtain ⟨hb, ⟨h1, h2, h3, h4, h5, h6, h7, h8⟩, h9, h10, m, h11⟩ := h
  have hs := hb.sane
  have str : ∀ f : Str, (Has e f → HasStr e f) → (∀ q : GoodField ref D name o, Has o f → HasStr o f) →
      Has (e.update o) f → HasStr (e.update o) f := fun f y1 y2 =>
    hs.opt (Q := fun x => HasStr x f) (fun q => hs.hasStr o (y1 q)) fun q e' => by
      rcases ho with rfl | ho
      · exact absurd q (not_has_empty _)
      · obtain ⟨s, hx⟩ := y2 ho q
        exact ⟨s, e'.trans hx⟩
  have aim : ∀ f coll : Str, (Has e f → Aims D e f coll) → (∀ q : GoodField ref D name o, Has o f → Aims D o f coll) →
      Has (e.update o) f → Aims D (e.update o) f coll := fun f coll y1 y2 =>
    hs.opt (Q := fun x => Aims D x f coll) (fun q => hs.aims o (y1 q)) fun q e' => by
      rcases ho with rfl | ho
      · exact absurd q (not_has_empty _)
      · obtain ⟨s, hx, z⟩ := y2 ho q
        exact ⟨s, e'.trans hx, z⟩
  have hn : (e.update o).get (chars! "number_of_components") = .ok (.ints int64 [m]) := by
    rw [hs.get_update h11, update_scalar]
    rcases ho with rfl | ho
    · exact .inl rfl
    · obtain ⟨-, -, -, -, w, hw⟩ := ho
      exact .inr ⟨w, getOrEmpty_ok hw⟩
  refine ⟨hb.update hpo, ⟨?_, ?_, ?_, ?_, ?_, ?_, ⟨_, _, hn⟩, hs.hasStr o h8⟩, ?_, ?_, m, hn⟩
  · exact h1.imp (fun q => hs.has.2 (.inl q)) fun q => hs.has.2 (.inl q)
  · refine hs.opt (Q := fun x => HasOneOf x (chars! "association") _) (fun q => hs.oneOf o (h2 q)) fun q e' => ?_
    rcases ho with rfl | ho
    · exact absurd q (not_has_empty _)
    · obtain ⟨s, hm, hx⟩ := ho.2.1.2.1 q
      exact ⟨s, hm, e'.trans hx⟩
  · exact str _ h3 fun q => q.2.1.2.2.1
  · exact h4.imp (fun q => hs.has.2 (.inl q)) fun q => hs.has.2 (.inl q)
  · exact str _ h5 fun q => q.2.1.2.2.2.2.1
  · exact str _ h6 fun q => q.2.1.2.2.2.2.2.1
  · exact aim _ _ h9 fun q => q.2.2.1
  · exact aim _ _ h10 fun q => q.2.2.2.1

theorem hasKids_update {e : BNode F} (h : Sane e) (o : BNode F) {f : Str} (hk : HasKids e f) : HasKids (e.update o) f := by
  obtain ⟨ks, hk, hne⟩ := hk
  refine ⟨_, by rw [h.get_update hk, update_obj hne], ?_⟩
  cases ks with
  | nil => exact absurd rfl hne
  | cons k ks =>
    intro q
    have := (mem_names_updO (k :: ks) (o.getOrEmpty f).kids k.1).2 (.inl (by simp))
    rw [q] at this
    simp at this

theorem goodSpecset_update {e o : BNode F} (h : GoodSpecset ref D name e) (ho : o = .empty ∨ GoodSpecset ref D name o) :
    GoodSpecset ref D name (e.update o) := by
  have hpo : Plain o := by rcases ho with rfl | q; trivial; exact q.1.1
  obtain ⟨hb, ⟨h1, h2, h3⟩, h4, h5⟩ := h
  have hs := hb.sane
  refine ⟨hb.update hpo, ⟨hs.hasStr o h1, hasKids_update hs o h2, hs.hasStr o h3⟩, hs.aims o h4, fun s m he hm => ?_⟩
  obtain ⟨ks, hk, hne⟩ := h2
  rw [hs.get_update hk] at he
  injection he with he
  subst he
  have hss : Sane (.obj ks : BNode F) := ⟨ks, rfl, hne, (hb.1.get hk).nodup⟩
  refine hss.opt (Q := fun x => HasKids x m) (fun q => hasKids_update hss _ (h5 _ m hk q)) (fun q e' => ?_) hm
  rcases get_cases o (chars! "species") with ⟨x, hx⟩ | hx
  · rw [getOrEmpty_ok hx] at q e' ⊢
    rcases ho with rfl | ho
    · exact absurd ⟨x, hx⟩ (not_has_empty _)
    · obtain ⟨ks', r1, r2⟩ := ho.2.2.2 x m hx q
      exact ⟨ks', e'.trans r1, r2⟩
  · rw [getOrEmpty_error hx] at q
    exact absurd q (not_has_empty _)

theorem goodMatset_update {e o : BNode F} (h : GoodMatset ref D name e) (ho : o = .empty ∨ GoodMatset ref D name o) :
    GoodMatset ref D name (e.update o) := by
  have hpo : Plain o := by rcases ho with rfl | q; trivial; exact q.1.1
  obtain ⟨hb, ⟨h1, h2, h3⟩, h4, h5⟩ := h
  have hs := hb.sane
  refine ⟨hb.update hpo, ⟨hs.hasStr o h1, ?_, hs.hasStr o h3⟩, hs.aims o h4, ?_⟩
  rotate_left
  · refine hs.opt (Q := fun x => HasKids x (chars! "materials")) (fun q => hasKids_update hs o (h5 q)) fun q e' => ?_
    rcases ho with rfl | ho
    · exact absurd q (not_has_empty _)
    · obtain ⟨ks, r1, r2⟩ := ho.2.2.2 q
      exact ⟨ks, e'.trans r1, r2⟩
  have old : ∀ x, o.get (chars! "material_map") = .ok x → ∃ ks, x = .obj ks ∧ ks ≠ [] ∧ ∀ k ∈ ks, IsInts k.2 := by
    intro x hx
    rcases ho with rfl | ho
    · exact absurd ⟨x, hx⟩ (not_has_empty _)
    · rcases ho.2.1.2.1 with ⟨ks, q1, q2, q3⟩ | ⟨q, -⟩
      · exact ⟨ks, get_inj hx q1, q2, q3⟩
      · exact absurd ⟨x, hx⟩ q
  rcases h2 with ⟨ks, hk, hne, hi⟩ | ⟨hno, hk⟩
  · left
    have := hasKids_update hs o ⟨ks, hk, hne⟩
    rw [HasKids, hs.get_update hk, update_obj hne] at this
    obtain ⟨ks', e', hne'⟩ := this
    refine ⟨_, by rw [hs.get_update hk, update_obj hne], ?_, ?_⟩
    · injection e' with e'; injection e' with e'; rw [e']; exact hne'
    · refine updO_closed (P := fun _ x => IsInts x) _ _ ?_ ?_
      · intro k hk
        rcases get_cases o (chars! "material_map") with ⟨x, hx⟩ | hx
        · obtain ⟨ks, rfl, -, q⟩ := old x hx
          rw [getOrEmpty_ok hx] at hk; exact q k hk
        · rw [getOrEmpty_error hx] at hk; exact absurd hk (by simp [BNode.kids])
      · intro k hk d _
        obtain ⟨t, l, q⟩ := hi k hk
        obtain ⟨l', q'⟩ := update_ints t l d
        rw [q, q']; exact ⟨t, l', rfl⟩
  · rcases get_cases o (chars! "material_map") with ⟨x, hx⟩ | hx
    · obtain ⟨ks, rfl, q1, q2⟩ := old x hx
      exact .inl ⟨ks, by rw [hs.get_other (get_error hno)]; exact hx, q1, q2⟩
    · refine .inr ⟨?_, hasKids_update hs o hk⟩
      rw [hs.has]
      rintro (q | q)
      · exact hno q
      · exact not_has_of_error hx q

theorem goodCoordset_update {S : Str → Str} {e o : BNode F} (h : GoodCoordset ref S name e)
    (ho : o = .empty ∨ GoodCoordset ref S name o) : GoodCoordset ref S name (e.update o) := by
  have hpo : Plain o := by rcases ho with rfl | q; trivial; exact q.1.1
  obtain ⟨hb, ⟨h1, h2, s, h3, sys, h4, h5, ks, h6, h7, h8⟩, s', h9, h10⟩ := h
  obtain rfl := get_inj h3 h9
  have hsys := get_inj h5 h10
  injection hsys with hsys
  subst hsys
  have hs := hb.sane
  have hss : Sane s := Sane.of h5 (hb.1.get h3)
  have hcs := hs.get_update (d := o) h3
  have hty := hss.str (d := o.getOrEmpty (chars! "coord_system")) h5
  refine ⟨hb.update hpo, ⟨hs.oneOf o h1, hs.hasStr o h2, _, hcs, S name, h4, hty, ?_⟩, _, hcs, hty⟩
  have hk := hasKids_update hss (o.getOrEmpty (chars! "coord_system")) ⟨ks, h6, h7⟩
  rw [HasKids, hss.get_update h6, update_obj h7] at hk
  obtain ⟨ks', e', hne'⟩ := hk
  injection e' with e'; injection e' with e'
  refine ⟨_, by rw [hss.get_update h6, update_obj h7], by rw [e']; exact hne', ?_⟩
  refine updO_closed (P := fun a _ => a ∈ axesOf (S name)) _ _ ?_ fun k hk d _ => h8 k hk
  intro k hk
  rcases ho with rfl | ⟨-, ⟨-, -, so, q1, sys', q2, q3, kso, q4, q5, q6⟩, so', q7, q8⟩
  · exact absurd hk (by simp [BNode.getOrEmpty, BNode.get, BNode.kids])
  · obtain rfl := get_inj q1 q7
    have hsys := get_inj q3 q8
    injection hsys with hsys
    subst hsys
    rw [getOrEmpty_ok q1, getOrEmpty_ok q4] at hk
    exact q6 k hk

/-! ### What the result says of the two -/

theorem Sane.copied {c e : BNode F} (h : Sane e) (o : BNode F) {f : Str} (hc : Copied f c e) {s : Str}
    (hs : e.get f = .ok (.str s)) : Copied f c (e.update o) := by
  unfold Copied at *
  rw [h.str hs, ← hc, hs]

theorem lastAdjacency {c e : BNode F} (o : BNode F) (h : GoodAdjacency ref coll D name e) (hc : OfAdjacency c e) :
    OfAdjacency c (e.update o) := by
  obtain ⟨hb, ⟨⟨t, h1⟩, ⟨a, -, h2⟩, -⟩, -⟩ := h
  exact ⟨hb.sane.copied o hc.1 h2, hb.sane.copied o hc.2 h1⟩

theorem lastTopology {c e : BNode F} (o : BNode F) (h : GoodTopology ref D name e) (hc : OfTopology c e) :
    LastTopology c (e.update o) := by
  obtain ⟨hb, ⟨⟨t, -, h1⟩, ⟨a, h2⟩, -, h4⟩, -⟩ := h
  refine ⟨hb.sane.copied o hc.1 h1, hb.sane.copied o hc.2.1 h2, fun q => ?_⟩
  obtain ⟨x, q⟩ := q
  obtain ⟨g, hg⟩ := h4 ⟨x, hc.2.2.trans q⟩
  exact hb.sane.copied o hc.2.2 hg

theorem lastMatset {c e : BNode F} (o : BNode F) (h : GoodMatset ref D name e) (hc : OfMatset c e) :
    LastMatset c (e.update o) := by
  obtain ⟨hb, ⟨⟨t, h1⟩, -⟩, -⟩ := h
  exact hb.sane.copied o hc.1 h1

theorem lastSpecset {c e : BNode F} (o : BNode F) (h : GoodSpecset ref D name e) (hc : OfSpecset c e) :
    LastSpecset c (e.update o) := by
  obtain ⟨hb, ⟨⟨t, h1⟩, -⟩, -⟩ := h
  exact hb.sane.copied o hc.1 h1

theorem lastCoordset {S : Str → Str} {c e : BNode F} (o : BNode F) (h : GoodCoordset ref S name e) (hc : OfCoordset c e) :
    LastCoordset c (e.update o) := by
  obtain ⟨hb, ⟨⟨t, -, h1⟩, -⟩, -⟩ := h
  obtain ⟨h2, s, ax, sys, h3, h4, h5, h6, h7⟩ := hc
  refine ⟨hb.sane.copied o h2 h1, _, sys, hb.sane.get_update h3, ?_, h6⟩
  exact (Sane.of h5 (hb.1.get h3)).str h5

theorem lastField {c e o : BNode F} (h : GoodField ref D name e) (ho : o = .empty ∨ GoodField ref D name o) (hc : OfField c e)
    (hv : Has c (chars! "volume_dependent") → HasStr c (chars! "volume_dependent")) : LastField c (e.update o) := by
  obtain ⟨hb, ⟨h1, h2, h3, h4, h5, h6, h7, h8⟩, -, -, m, h11⟩ := h
  obtain ⟨c1, c2, c3, c4, c5, c6, c7⟩ := hc
  have hs := hb.sane
  have hn : (e.update o).get (chars! "number_of_components") = e.get (chars! "number_of_components") := by
    rw [hs.get_update h11, update_scalar, h11]
    rcases ho with rfl | ho
    · exact .inl rfl
    · obtain ⟨-, -, -, -, w, hw⟩ := ho
      exact .inr ⟨w, getOrEmpty_ok hw⟩
  have via : ∀ f, Copied f c e → (Has e f → HasStr e f) → Has c f → Copied f c (e.update o) := by
    intro f y1 y2 ⟨x, y3⟩
    obtain ⟨s, hx⟩ := y2 ⟨x, y1.trans y3⟩
    exact hs.copied o y1 hx
  refine ⟨?_, ?_, fun v q => by rw [hn]; exact c6 v q, fun q v w l q1 q2 => by rw [hn]; exact c7 q v w l q1 q2⟩
  · simp only [List.forall_mem_cons]
    refine ⟨via _ c1 h5, via _ c2 h6, via _ c3 ?_, via _ c4 ?_, by simp⟩
    · rintro ⟨x, q⟩
      obtain ⟨s, r⟩ := hv ⟨x, c3.symm.trans q⟩
      exact ⟨s, c3.trans r⟩
    · intro q
      obtain ⟨s, -, r⟩ := h2 q
      exact ⟨s, r⟩
  · intro q
    have cb := c5 q
    have hb' : Has e (chars! "basis") := by
      rcases h1 with ⟨x, y⟩ | y
      · exact absurd ⟨x, c4.symm.trans y⟩ q
      · exact y
    obtain ⟨s, r⟩ := h3 hb'
    exact hs.copied o cb r

theorem alsoCoordset_new {S : Str → Str} {c e : BNode F} (o : BNode F) (h : GoodCoordset ref S name e) (hc : OfCoordset c e) :
    AlsoCoordset c (e.update o) := by
  obtain ⟨hb, ⟨-, -, s', q1, sys', -, -, ks, q2, q3, -⟩, -⟩ := h
  obtain ⟨-, s, ax, sys, h3, h4, h5, -, h7⟩ := hc
  obtain rfl := get_inj h3 q1
  obtain rfl := get_inj h4 q2
  have hps := hb.1.get h3
  have hss := Sane.of h5 hps
  refine ⟨_, _, hb.sane.get_update h3, hss.get_update h4, fun a ha => ?_⟩
  exact Sane.has ⟨ks, rfl, q3, (hps.get h4).nodup⟩ |>.2 (.inl ((h7 a).2 ha))

theorem alsoCoordset_old {S : Str → Str} {c e o : BNode F} (h : GoodCoordset ref S name e) (hc : AlsoCoordset c o) :
    AlsoCoordset c (e.update o) := by
  obtain ⟨hb, ⟨-, -, s, q1, sys', -, q4, ks, q2, q3, -⟩, -⟩ := h
  obtain ⟨so, ao, h3, h4, h5⟩ := hc
  have hps := hb.1.get q1
  have hss := Sane.of q4 hps
  refine ⟨_, _, hb.sane.get_update q1, hss.get_update q2, fun a ha => ?_⟩
  rw [getOrEmpty_ok h3, getOrEmpty_ok h4]
  exact Sane.has ⟨ks, rfl, q3, (hps.get q2).nodup⟩ |>.2 (.inr (h5 a ha))

theorem keeps_child {e o : BNode F} (h : Sane e) {f m : Str} (hp : Plain e)
    (hx : ∃ x, e.get f = .ok x ∧ Has x m) : ∃ x, (e.update o).get f = .ok x ∧ Has x m := by
  obtain ⟨x, hx, hm⟩ := hx
  obtain ⟨y, hy⟩ := hm
  exact ⟨_, h.get_update hx, (Sane.of hy (hp.get hx)).has.2 (.inl ⟨y, hy⟩)⟩

theorem keeps_old {e o : BNode F} (h : Sane e) {f m : Str} (hp : Plain e) (hk : Has e f → HasKids e f)
    (hx : ∃ x, o.get f = .ok x ∧ Has x m) : ∃ x, (e.update o).get f = .ok x ∧ Has x m := by
  obtain ⟨x, hx, hm⟩ := hx
  rcases get_cases e f with ⟨y, hy⟩ | hy
  · obtain ⟨ks, q, hne⟩ := hk ⟨y, hy⟩
    refine ⟨_, h.get_update q, ?_⟩
    rw [getOrEmpty_ok hx]
    exact Sane.has ⟨ks, rfl, hne, (hp.get q).nodup⟩ |>.2 (.inr hm)
  · exact ⟨x, by rw [h.get_other hy]; exact hx, hm⟩

theorem alsoMatset_new {c e : BNode F} (o : BNode F) (h : GoodMatset ref D name e) (hc : OfMatset c e) :
    AlsoMatset c (e.update o) := by
  obtain ⟨hb, -, -⟩ := h
  obtain ⟨-, h1, h2, h3⟩ := hc
  intro m hm
  rcases hm with ⟨x, q1, q2⟩ | ⟨q0, x, q1, q2⟩ | ⟨q0, q0', x, q1, q2⟩
  · exact .inl (keeps_child hb.sane hb.1 ⟨x, (h1 ⟨x, q1⟩).trans q1, q2⟩)
  · obtain ⟨y, r1, r2⟩ := h2 q0 x q1
    exact .inr (keeps_child hb.sane hb.1 ⟨y, r1, by rw [has_childNames, r2, ← has_childNames]; exact q2⟩)
  · obtain ⟨y, r1, r2, -⟩ := h3 q0 q0' x q1
    exact .inl (keeps_child hb.sane hb.1 ⟨y, r1, by rw [has_childNames, r2, ← has_childNames]; exact q2⟩)

theorem alsoMatset_old {c e o : BNode F} (h : GoodMatset ref D name e) (hc : AlsoMatset c o) :
    AlsoMatset c (e.update o) := by
  obtain ⟨hb, h1, -, h2⟩ := h
  intro m hm
  rcases hc m hm with q | q
  · refine .inl (keeps_old hb.sane hb.1 (fun y => ?_) q)
    rcases h1.2.1 with ⟨ks, r1, r2, -⟩ | ⟨r, -⟩
    · exact ⟨ks, r1, r2⟩
    · exact absurd y r
  · exact .inr (keeps_old hb.sane hb.1 h2 q)

theorem alsoSpecset_new {c e : BNode F} (o : BNode F) (h : GoodSpecset ref D name e) (hc : OfSpecset c e) :
    AlsoSpecset c (e.update o) := by
  obtain ⟨hb, ⟨-, ⟨ks, q1, q2⟩, -⟩, -⟩ := h
  obtain ⟨-, s, h1, h2⟩ := hc
  obtain rfl := get_inj q1 h1
  have hps := hb.1.get q1
  have hss : Sane (.obj ks : BNode F) := ⟨ks, rfl, q2, hps.nodup⟩
  refine ⟨_, hb.sane.get_update q1, fun v m ms sp hv hm hsp => ?_⟩
  exact keeps_child hss hps (((h2 v hv).2 m ms hm sp).2 hsp)

theorem alsoSpecset_old {c e o : BNode F} (h : GoodSpecset ref D name e) (hc : AlsoSpecset c o) :
    AlsoSpecset c (e.update o) := by
  obtain ⟨hb, ⟨-, ⟨ks, q1, q2⟩, -⟩, -, hk⟩ := h
  obtain ⟨so, h1, h2⟩ := hc
  have hps := hb.1.get q1
  have hss : Sane (.obj ks : BNode F) := ⟨ks, rfl, q2, hps.nodup⟩
  refine ⟨_, hb.sane.get_update q1, fun v m ms sp hv hm hsp => ?_⟩
  rw [getOrEmpty_ok h1]
  exact keeps_old hss hps (hk _ m q1) (h2 v m ms sp hv hm hsp)

end
end Conduit.Mesh
