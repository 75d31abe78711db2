import Verif.Lemmas.MapBack4
/-
All fields of a domain, and all domains.
-/
namespace Conduit.Back
open Conduit.Mesh Conduit.Part Conduit.Merge Conduit.Comb
variable {F : Type}

/-! ### the groups of fields -/

/-- What a piece gives to domain `w`. -/
def ChunkOf (names : List Str) (assoc topo : Str → Str) (vert : Bool) (w : Whole F) (p : Piece F) (c : BNode F) : Prop :=
  ∃ l, c = mkChunk w.id p (vsOf vert w p) l ∧
    List.Forall₂ (fun n (k : Str × BNode F) => k.1 = n ∧ Given assoc topo w.id p (vsOf vert w p) n k.2) names l

theorem named_of {R : Str → BNode F → Prop} {names : List Str} {l : List (Str × BNode F)}
    (h : List.Forall₂ (fun n (k : Str × BNode F) => k.1 = n ∧ R n k.2) names l) : l.map (·.1) = names := by
  induction h with
  | nil => rfl
  | cons hk _ ih => rw [List.map_cons, hk.1, ih]

theorem mem_of_forall2 {R : Str → BNode F → Prop} {names : List Str} {l : List (Str × BNode F)}
    (h : List.Forall₂ (fun n (k : Str × BNode F) => k.1 = n ∧ R n k.2) names l) {n : Str} {f : BNode F} (hm : (n, f) ∈ l) : R n f := by
  induction h with
  | nil => cases hm
  | cons hk _ ih =>
    rcases List.mem_cons.1 hm with e | hm
    · rw [← e] at hk
      rw [← hk.1] at hk
      exact hk.2
    · exact ih hm

theorem groups_inv {names : List Str} {assoc topo : Str → Str} {vert : Bool} {w : Whole F} {H : List (Piece F)} {C : List (BNode F)}
    (h : List.Forall₂ (ChunkOf names assoc topo vert w) H C) (hnd : names.Nodup) :
    ∃ E : List (Str × BNode F), GInv E (groupFields C) ∧
      (∀ name ∈ names, List.Forall₂ (fun p f => Given assoc topo w.id p (vsOf vert w p) name f) H ((E.filter fun e => e.1 == name).map (·.2))) ∧
      ∀ n, n ∈ E.map (·.1) ↔ H ≠ [] ∧ n ∈ names := by
  have key : ∀ (gs : List (Str × List (BNode F))) (done : List (Str × BNode F)), GInv done gs →
      ∃ E : List (Str × BNode F), GInv (done ++ E) (C.foldl (fun gs m => ((m.getOrEmpty (chars! "fields")).kids).foldl
          (fun gs k => addGroup k.1 k.2 gs) gs) gs) ∧
        (∀ name ∈ names, List.Forall₂ (fun p f => Given assoc topo w.id p (vsOf vert w p) name f) H
          ((E.filter fun e => e.1 == name).map (·.2))) ∧ ∀ n, n ∈ E.map (·.1) ↔ H ≠ [] ∧ n ∈ names := by
    induction h with
    | nil => intro gs done hi; exact ⟨[], by simpa using hi, fun _ _ => .nil, by simp⟩
    | @cons p c H C hc _ ih =>
      intro gs done hi
      obtain ⟨l, rfl, hl⟩ := hc
      have hk : ((mkChunk w.id p (vsOf vert w p) l).getOrEmpty (chars! "fields")).kids = l := rfl
      obtain ⟨E, e1, e2, e3⟩ := ih _ _ (groupFold_inv l hi)
      refine ⟨l ++ E, ?_, ?_, ?_⟩
      · rw [List.foldl_cons, hk, ← List.append_assoc]; exact e1
      · intro name hn
        rw [List.filter_append, List.map_append]
        rcases filter_once l (by rw [named_of hl]; exact hnd) name with ⟨h1, _⟩ | ⟨f, h1, h2⟩
        · rw [named_of hl] at h1; exact absurd hn h1
        · rw [h2]
          exact .cons (mem_of_forall2 hl h1) (e2 name hn)
      · intro n
        rw [List.map_append, List.mem_append, e3, named_of hl]
        constructor
        · rintro (h | ⟨_, h⟩) <;> exact ⟨by simp, h⟩
        · rintro ⟨_, h⟩; exact .inl h
  obtain ⟨E, h1, h2, h3⟩ := key [] [] ⟨by simp, (fun g hg => by simp at hg), by simp⟩
  exact ⟨E, by rw [List.nil_append] at h1; exact h1, h2, h3⟩

/-! ### all fields -/

theorem back_get {n : BNode F} {a b : Str} {x : BNode F} (h : (n.getOrEmpty a).get b = .ok x) : ∃ y, n.get a = .ok y ∧ y.get b = .ok x := by
  rcases get_cases n a with ⟨y, y1, y2⟩ | ⟨_, y2⟩
  · rw [y2] at h; exact ⟨y, y1, h⟩
  · rw [y2] at h; cases h

theorem foldFields_ok {A : Arith F} {gname : Str} {names : List Str} {assoc topo : Str → Str} {vert : Bool} {ps : List (Piece F)} {k : Nat}
    {w : Whole F} {H : List (Piece F)} {tbl : List (Nat × Nat)} (S : Setting A gname names assoc topo vert ps k w H tbl) :
    ∀ (G : List (Str × List (BNode F))) (dom : BNode F), (G.map (·.1)).Nodup →
      (∀ g ∈ G, g.1 ∈ names ∧ List.Forall₂ (fun p f' => Given assoc topo w.id p (vsOf vert w p) g.1 f') H g.2) →
      (∀ c, c ≠ chars! "fields" → dom.get c = w.mesh.get c) →
      (∀ g ∈ G, (dom.getOrEmpty (chars! "fields")).get g.1 = w.fields.get g.1) →
      ∃ out, G.foldlM (backField A tbl (H.map fun p => ints ((vsOf vert w p).map (·.1)))) dom = .ok out ∧
        (∀ c, c ≠ chars! "fields" → out.get c = w.mesh.get c) ∧
        (∀ n, n ∉ G.map (·.1) → (out.getOrEmpty (chars! "fields")).get n = (dom.getOrEmpty (chars! "fields")).get n) ∧
        ∀ g ∈ G, ∃ f v, (out.getOrEmpty (chars! "fields")).get g.1 = .ok f ∧ FieldOf f (assoc g.1) (topo g.1) v ∧
          FieldBack assoc topo H w g.1 v
  | [], dom, _, _, hr, _ => ⟨dom, rfl, hr, fun _ _ => rfl, fun g hg => by simp at hg⟩
  | g :: G, dom, hnd, hg, hr, hf => by
    rw [List.map_cons, List.nodup_cons] at hnd
    obtain ⟨hn, hins⟩ := hg g (by simp)
    obtain ⟨f, v, b1, b2, b3⟩ := backField_ok S hn hins dom hr (hf g (by simp))
    have hkids : (dom.setChild (chars! "fields") ((dom.getOrEmpty (chars! "fields")).setChild g.1 f)).getOrEmpty (chars! "fields") =
        (dom.getOrEmpty (chars! "fields")).setChild g.1 f := getOrEmpty_ok (get_setChild_same _ _ _)
    obtain ⟨out, o1, o2, o3, o4⟩ := foldFields_ok S G (dom.setChild (chars! "fields") ((dom.getOrEmpty (chars! "fields")).setChild g.1 f)) hnd.2
      (fun g' hg' => hg g' (by simp [hg']))
      (fun c hc => by rw [get_setChild_other _ _ _ _ hc]; exact hr c hc)
      (fun g' hg' => by
        rw [hkids, get_setChild_other _ _ _ _ (fun e => hnd.1 (by rw [← e]; exact List.mem_map_of_mem hg'))]
        exact hf g' (by simp [hg']))
    refine ⟨out, by rw [List.foldlM_cons]; rw [show g = (g.1, g.2) from rfl, b1, Res.bind_ok]; exact o1, o2, fun n hn' => ?_, fun g' hg' => ?_⟩
    · rw [List.map_cons, List.mem_cons] at hn'
      rw [o3 n (fun h => hn' (.inr h)), hkids, get_setChild_other _ _ _ _ (fun e => hn' (.inl e))]
    · rcases List.mem_cons.1 hg' with rfl | hg'
      · exact ⟨f, v, by rw [o3 _ hnd.1, hkids, get_setChild_same], b2, b3⟩
      · exact o4 g' hg'

theorem chunk_maps {names : List Str} {assoc topo : Str → Str} {vert : Bool} {w : Whole F} {H : List (Piece F)} {C : List (BNode F)}
    (h : List.Forall₂ (ChunkOf names assoc topo vert w) H C) :
    (C.mapM fun (c : BNode F) => do indexArray (← c.get (chars! "elem_map"))) = .ok (H.map fun p => ints (tgtN w.id p.orig)) ∧
    (C.mapM fun (c : BNode F) => do indexArray (← c.get (chars! "vert_map"))) = .ok (H.map fun p => ints ((vsOf vert w p).map (·.1))) ∧
    (C.all fun c => c.hasChild (chars! "fields")) = true := by
  induction h with
  | nil => exact ⟨rfl, rfl, rfl⟩
  | @cons p c H C hc _ ih =>
    obtain ⟨l, rfl, _⟩ := hc
    obtain ⟨i1, i2, i3⟩ := ih
    refine ⟨?_, ?_, ?_⟩
    · rw [List.mapM_cons, i1]; rfl
    · rw [List.mapM_cons, i2]; rfl
    · rw [List.all_cons, i3]; rfl

theorem backDomain_ok {A : Arith F} {gname : Str} {names : List Str} {assoc topo : Str → Str} {vert : Bool} {ps : List (Piece F)} {k : Nat}
    {w : Whole F} {H : List (Piece F)} (hw : GoodWhole A gname names assoc topo ps k w) (hsub : ∀ p ∈ H, p ∈ ps)
    (hholds : ∀ p ∈ H, p.Holds w.id) (hne : H ≠ []) (hal : PiecesAlike names assoc topo ps)
    (has : ∀ name ∈ names, assoc name = chars! "vertex" ∨ assoc name = chars! "element")
    (hvert : ∀ name ∈ names, assoc name = chars! "vertex" → vert = true) (hnd : names.Nodup)
    (hperm : (H.map fun p => tgtN w.id p.orig).flatten.Perm (List.range w.n)) {C : List (BNode F)}
    (hC : List.Forall₂ (ChunkOf names assoc topo vert w) H C) :
    ∃ out, backDomain A C w.mesh = .ok out ∧ (∀ c, c ≠ chars! "fields" → out.get c = w.mesh.get c) ∧
      (∀ n, n ∉ names → (out.getOrEmpty (chars! "fields")).get n = w.fields.get n) ∧
      ∀ n ∈ names, ∃ f v, (out.getOrEmpty (chars! "fields")).get n = .ok f ∧ FieldOf f (assoc n) (topo n) v ∧ FieldBack assoc topo H w n v := by
  obtain ⟨tbl, t1, t2, t3, t4⟩ := elemTable_ok _ _ hperm
  have hpos : 0 < w.n := by
    obtain ⟨p, hp⟩ := List.exists_mem_of_ne_nil _ hne
    obtain ⟨x, hx, hxd⟩ := hholds p hp
    have : x.2 ∈ (H.map fun p => tgtN w.id p.orig).flatten :=
      List.mem_flatten.2 ⟨_, List.mem_map_of_mem hp, List.mem_map.2 ⟨x, List.mem_filter.2 ⟨hx, by simp [hxd]⟩, rfl⟩⟩
    have := (hperm.mem_iff.1 this)
    simp at this
    omega
  have S : Setting A gname names assoc topo vert ps k w H tbl := ⟨hw, hsub, hholds, hne, hal, has, hvert, hpos, t2, t3, t4⟩
  obtain ⟨E, e1, e2, e3⟩ := groups_inv hC hnd
  have hgn : ∀ n, n ∈ (groupFields C).map (·.1) ↔ n ∈ names := fun n => by rw [e1.names, e3]; exact ⟨fun h => h.2, fun h => ⟨hne, h⟩⟩
  obtain ⟨out, o1, o2, o3, o4⟩ := foldFields_ok S (groupFields C) w.mesh e1.nodup
    (fun g hg => by
      have hn := (hgn g.1).1 (List.mem_map_of_mem hg)
      exact ⟨hn, by rw [e1.group g hg]; exact e2 g.1 hn⟩)
    (fun _ _ => rfl) (fun _ _ => rfl)
  obtain ⟨m1, m2, m3⟩ := chunk_maps hC
  refine ⟨out, ?_, o2, fun n hn => o3 n (fun h => hn ((hgn n).1 h)), fun n hn => ?_⟩
  · unfold backDomain
    rw [if_pos m3, m1, m2]
    simp only [Res.bind_ok]
    rw [List.map_map] at t1
    have t1' : elemTable (H.map fun p => ints (tgtN w.id p.orig)) = .ok tbl := t1
    rw [t1', Res.bind_ok]
    exact o1
  · obtain ⟨g, hg, rfl⟩ := List.mem_map.1 ((hgn n).2 hn)
    exact o4 g hg

end Conduit.Back
