import Verif.Lemmas.MapBack3
/-
The chunks are brought back to one original domain.
-/
namespace Conduit.Back
open Conduit.Mesh Conduit.Part Conduit.Merge Conduit.Comb
variable {F : Type}

theorem has_unique {p : Piece F} {name a t : Str} {u v : BNode F} (h : p.Has name a t u) (h' : p.Has name a t v) : u = v := by
  obtain ⟨f, f1, f2⟩ := h
  obtain ⟨g, g1, g2⟩ := h'
  rw [f1] at g1
  cases g1
  exact (fieldOf_unique f2 g2).2.2

theorem forall2_map_left {α β γ : Type} {R : γ → β → Prop} (f : α → γ) {l : List α} {m : List β} (h : List.Forall₂ (fun a b => R (f a) b) l m) :
    List.Forall₂ R (l.map f) m := by
  induction h with
  | nil => exact .nil
  | cons a _ ih => exact .cons a ih

theorem forall2_swap {α β : Type} {R : α → β → Prop} {l : List α} {m : List β} (h : List.Forall₂ R l m) : List.Forall₂ (fun b a => R a b) m l := by
  induction h with
  | nil => exact .nil
  | cons a _ ih => exact .cons a ih

theorem forall2_choose {α β γ : Type} {R : α → β → γ → Prop} {l : List α} {m : List β} (h : List.Forall₂ (fun a b => ∃ c, R a b c) l m) :
    ∃ cs : List γ, cs.length = l.length ∧ ∀ (i : Nat) a b, l[i]? = some a → m[i]? = some b → ∃ c, cs[i]? = some c ∧ R a b c := by
  induction h with
  | nil => exact ⟨[], rfl, fun i a b h => by simp at h⟩
  | cons hc _ ih =>
    obtain ⟨c, hc⟩ := hc
    obtain ⟨cs, h1, h2⟩ := ih
    refine ⟨c :: cs, by simp [h1], fun i a b ha hb => ?_⟩
    cases i with
    | zero => simp at ha hb; subst ha; subst hb; exact ⟨c, rfl, hc⟩
    | succ i => simp at ha hb; obtain ⟨c', e1, e2⟩ := h2 i a b ha hb; exact ⟨c', by simpa using e1, e2⟩

theorem forall2_some {α β : Type} {R : α → β → Prop} {l : List α} {m : List β} (h : List.Forall₂ R l m) {i : Nat} {a : α} (ha : l[i]? = some a) :
    ∃ b, m[i]? = some b ∧ R a b := by
  have hi : i < m.length := by rw [← forall2_length h]; exact (List.getElem?_eq_some_iff.1 ha).1
  exact ⟨m[i], List.getElem?_eq_getElem hi, forall2_get h i _ _ ha (List.getElem?_eq_getElem hi)⟩

/-- The points of a piece that the domain has, if they are looked for. -/
def vsOf (vert : Bool) (w : Whole F) (p : Piece F) : List (Nat × Nat) := if vert then sharedN w.gids p.gids else []

theorem vsOf_lt {vert : Bool} {w : Whole F} {p : Piece F} : ∀ x ∈ vsOf vert w p, x.2 < p.gids.length := by
  rintro ⟨q, r⟩ h
  cases vert with
  | false => simp [vsOf] at h
  | true =>
    obtain ⟨g, _, h2⟩ := sharedN_mem.1 (show (q, r) ∈ sharedN w.gids p.gids from h)
    have := (lastPlace_some h2).2.1
    exact (List.getElem?_eq_some_iff.1 this).1

theorem exact_ne {v : BNode F} {n : Nat} (h : Exact v n) : v ≠ .empty := by
  rintro rfl
  rcases h with (⟨t, l, h, _⟩ | ⟨t, l, h, _⟩) | ⟨k, ks, h, _⟩ <;> cases h

/-- What is brought back of field `name`. -/
structure FieldBack (assoc topo : Str → Str) (H : List (Piece F)) (w : Whole F) (name : Str) (v : BNode F) : Prop where
  exact_ : Exact v (w.count (assoc name))
  elements : assoc name = chars! "element" → ElementsBack H w name (assoc name) (topo name) v
  points : assoc name = chars! "vertex" → PointsBack H w name (assoc name) (topo name) v

theorem get_cases (n : BNode F) (a : Str) : (∃ x, n.get a = .ok x ∧ n.getOrEmpty a = x) ∨ (n.hasChild a = false ∧ n.getOrEmpty a = .empty) := by
  cases h : n.hasChild a with
  | true =>
    obtain ⟨x, hx⟩ := (hasChild_iff_get n a).1 h
    exact .inl ⟨x, hx, getOrEmpty_ok hx⟩
  | false => exact .inr ⟨rfl, getOrEmpty_none h⟩

theorem empty_get (a : Str) : (BNode.empty : BNode F).get a = .error := rfl

/-- One domain and the pieces that hold elements of it. -/
structure Setting (A : Arith F) (gname : Str) (names : List Str) (assoc topo : Str → Str) (vert : Bool) (ps : List (Piece F)) (k : Nat)
    (w : Whole F) (H : List (Piece F)) (tbl : List (Nat × Nat)) : Prop where
  whole : GoodWhole A gname names assoc topo ps k w
  sub : ∀ p ∈ H, p ∈ ps
  holds : ∀ p ∈ H, p.Holds w.id
  some_ : H ≠ []
  alike : PiecesAlike names assoc topo ps
  assocs : ∀ name ∈ names, assoc name = chars! "vertex" ∨ assoc name = chars! "element"
  vert_ : ∀ name ∈ names, assoc name = chars! "vertex" → vert = true
  pos : 0 < w.n
  len : tbl.length = w.n
  places : ∀ i k q, IdAt (H.map fun p => tgtN w.id p.orig) i k q → tbl[q]? = some (i, k)
  entries : ∀ s ∈ tbl, ∃ q, IdAt (H.map fun p => tgtN w.id p.orig) s.1 s.2 q

theorem old_ok {A : Arith F} {gname : Str} {names : List Str} {assoc topo : Str → Str} {ps : List (Piece F)} {k : Nat} {w : Whole F}
    (hw : GoodWhole A gname names assoc topo ps k w) {name : Str} (hn : name ∈ names) {p : Piece F} (hp : p ∈ ps) {u v0 : BNode F}
    (hu : p.Has name (assoc name) (topo name) u) (hv : Alike u v0) :
    (w.fields.getOrEmpty name).getOrEmpty (chars! "values") = .empty ∨
      (Alike v0 ((w.fields.getOrEmpty name).getOrEmpty (chars! "values")) ∧
        Exact ((w.fields.getOrEmpty name).getOrEmpty (chars! "values")) (w.count (assoc name))) := by
  rcases get_cases w.fields name with ⟨f, f1, f2⟩ | ⟨_, f2⟩
  · rw [f2]
    rcases get_cases f (chars! "values") with ⟨o, o1, o2⟩ | ⟨_, o2⟩
    · rw [o2]
      obtain ⟨h1, h2⟩ := hw.old name hn f o f1 o1
      exact .inr ⟨alike_trans (alike_symm hv) (h2 p hp u hu), h1⟩
    · exact .inl o2
  · rw [f2]
    exact .inl rfl

theorem backField_ok {A : Arith F} {gname : Str} {names : List Str} {assoc topo : Str → Str} {vert : Bool} {ps : List (Piece F)} {k : Nat}
    {w : Whole F} {H : List (Piece F)} {tbl : List (Nat × Nat)} (S : Setting A gname names assoc topo vert ps k w H tbl)
    {name : Str} (hn : name ∈ names) {ins : List (BNode F)}
    (hins : List.Forall₂ (fun p f' => Given assoc topo w.id p (vsOf vert w p) name f') H ins) (dom : BNode F)
    (hrest : ∀ c, c ≠ chars! "fields" → dom.get c = w.mesh.get c)
    (hfs : (dom.getOrEmpty (chars! "fields")).get name = w.fields.get name) :
    ∃ f v, backField A tbl (H.map fun p => ints ((vsOf vert w p).map (·.1))) dom (name, ins) =
        .ok (dom.setChild (chars! "fields") ((dom.getOrEmpty (chars! "fields")).setChild name f)) ∧
      FieldOf f (assoc name) (topo name) v ∧ FieldBack assoc topo H w name v := by
  -- the values of the chunks
  obtain ⟨vs, hlen, hvs⟩ := forall2_choose (γ := BNode F) (R := fun (p : Piece F) f' v' => ∃ v, p.Has name (assoc name) (topo name) v ∧
    Table v (p.count (assoc name)) ∧ FieldOf f' (assoc name) (topo name) v' ∧ Alike v v' ∧
    Exact v' (taken w.id p (vsOf vert w p) (assoc name)).length ∧
    ∀ (k id : Nat), (taken w.id p (vsOf vert w p) (assoc name))[k]? = some id → rowAt v' k = rowAt v id)
    (by
      refine forall2_of (forall2_length hins) fun i a b ha hb => ?_
      obtain ⟨v, v', h⟩ := forall2_get hins i a b ha hb
      exact ⟨v', v, h⟩)
  have hil := forall2_length hins
  have hget : ∀ (i : Nat) v', vs[i]? = some v' → ∃ p f' v, H[i]? = some p ∧ ins[i]? = some f' ∧ p.Has name (assoc name) (topo name) v ∧
      FieldOf f' (assoc name) (topo name) v' ∧ Alike v v' ∧
      Exact v' (taken w.id p (vsOf vert w p) (assoc name)).length ∧
      ∀ (k id : Nat), (taken w.id p (vsOf vert w p) (assoc name))[k]? = some id → rowAt v' k = rowAt v id := by
    intro i v' hv'
    have hi := (List.getElem?_eq_some_iff.1 hv').1
    have h1 : H[i]? = some H[i] := List.getElem?_eq_getElem (by omega)
    have h2 : ins[i]? = some ins[i] := List.getElem?_eq_getElem (by omega)
    obtain ⟨c, c1, v, c2, _, c3⟩ := hvs i _ _ h1 h2
    rw [hv'] at c1
    cases c1
    exact ⟨_, _, v, h1, h2, c2, c3⟩
  have hgetp : ∀ (i : Nat) p, H[i]? = some p → ∃ v' v, vs[i]? = some v' ∧ p.Has name (assoc name) (topo name) v ∧
      ∀ (k id : Nat), (taken w.id p (vsOf vert w p) (assoc name))[k]? = some id → rowAt v' k = rowAt v id := by
    intro i p hp
    have hi := (List.getElem?_eq_some_iff.1 hp).1
    have h2 : ins[i]? = some ins[i] := List.getElem?_eq_getElem (by omega)
    obtain ⟨c, c1, v, c2, _, _, _, _, c3⟩ := hvs i _ _ hp h2
    exact ⟨c, v, c1, c2, c3⟩
  obtain ⟨p0, H', rfl⟩ := List.exists_cons_of_ne_nil S.some_
  obtain ⟨v0, u0, h0, hu0, _⟩ := hgetp 0 p0 rfl
  obtain ⟨f0, ins', rfl⟩ : ∃ f0 ins', ins = f0 :: ins' := by
    cases ins with
    | nil => simp at hil
    | cons a l => exact ⟨a, l, rfl⟩
  obtain ⟨_, f0', u0', e1, e2, hu0', hf0, hal0, hex0, _⟩ := hget 0 v0 h0
  cases e1; cases e2
  rw [has_unique hu0' hu0] at hal0
  let cnt : Nat → Nat := fun i => (((p0 :: H')[i]?).map fun p => (taken w.id p (vsOf vert w p) (assoc name)).length).getD 0
  have hcnt : ∀ (i : Nat) p, (p0 :: H')[i]? = some p → cnt i = (taken w.id p (vsOf vert w p) (assoc name)).length := by
    intro i p hp; simp only [cnt, hp]; rfl
  have hV : ValsOf (f0 :: ins') vs := by
    refine forall2_of (by omega) fun i a b ha hb => ?_
    obtain ⟨p, f', v, h1, h2, _, h3, _⟩ := hget i b hb
    rw [ha] at h2; cases h2
    exact h3.values
  have hVals : Vals vs cnt v0 := by
    refine ⟨fun v hv => ?_, fun i v hv => ?_, ?_⟩
    · obtain ⟨i, hi⟩ := List.getElem?_of_mem hv
      obtain ⟨p, f', u, h1, h2, h3, _, h4, _⟩ := hget i v hi
      have := S.alike name hn p0 (S.sub p0 (by simp)) p (S.sub p (List.mem_of_getElem? h1)) u0 u hu0 h3
      exact alike_trans (alike_symm hal0) (alike_trans this h4)
    · obtain ⟨p, f', u, h1, h2, h3, _, h4, h5, _⟩ := hget i v hv
      rw [hcnt i p h1]
      exact exact_table h5
    · rw [hcnt 0 p0 rfl]
      exact exact_table hex0
  have hold := old_ok S.whole hn (S.sub p0 (by simp)) hu0 hal0
  have hfe : (dom.getOrEmpty (chars! "fields")).getOrEmpty name = w.fields.getOrEmpty name := by
    unfold BNode.getOrEmpty at hfs ⊢; rw [hfs]
  have hfin : ∀ v, FieldOf (((((dom.getOrEmpty (chars! "fields")).getOrEmpty name).setChild (chars! "association") (.str (assoc name))).setChild
      (chars! "topology") (.str (topo name))).setChild (chars! "values") v) (assoc name) (topo name) v := by
    intro v
    refine ⟨?_, ?_, get_setChild_same _ _ _⟩
    · rw [get_setChild_other _ _ _ _ (by decide), get_setChild_other _ _ _ _ (by decide), get_setChild_same]
    · rw [get_setChild_other _ _ _ _ (by decide), get_setChild_same]
  rcases S.assocs name hn with hv | he
  · -- on points
    have hvt := S.vert_ name hn hv
    obtain ⟨hne, ts, t, cn, cs, c, c1, c2, c3, c4, c5, c6⟩ := S.whole.coords name hn hv
    have hc : w.count (assoc name) = w.gids.length := by rw [Whole.count, if_neg (by rw [hv]; decide)]
    have hpos : 0 < w.gids.length := List.length_pos_iff.2 hne
    have hvsp : ∀ p : Piece F, vsOf vert w p = sharedN w.gids p.gids := fun p => by rw [vsOf, hvt]; rfl
    have htk : ∀ p : Piece F, taken w.id p (vsOf vert w p) (assoc name) = (sharedN w.gids p.gids).map (·.2) := fun p => by
      rw [taken, if_pos hv, hvsp]
    have hms : ∀ (i : Nat) m, ((p0 :: H').map fun p => (vsOf vert w p).map (·.1))[i]? = some m → ∃ p, (p0 :: H')[i]? = some p ∧
        m = (sharedN w.gids p.gids).map (·.1) := by
      intro i m hm
      rw [List.getElem?_map] at hm
      obtain ⟨p, h1, h2⟩ := Option.map_eq_some_iff.1 hm
      exact ⟨p, h1, by rw [← h2, hvsp]⟩
    have hidat : ∀ i k q, IdAt ((p0 :: H').map fun p => (vsOf vert w p).map (·.1)) i k q → ∃ p r, (p0 :: H')[i]? = some p ∧
        (sharedN w.gids p.gids)[k]? = some (q, r) := by
      rintro i k q ⟨m, h1, h2⟩
      obtain ⟨p, h3, rfl⟩ := hms i m h1
      rw [List.getElem?_map] at h2
      obtain ⟨⟨q', r⟩, h4, h5⟩ := Option.map_eq_some_iff.1 h2
      cases h5
      exact ⟨p, r, h3, h4⟩
    obtain ⟨out, o1, _, o3, o4⟩ := storePoints_ok A hV h0 hVals ((p0 :: H').map fun p => (vsOf vert w p).map (·.1)) w.gids.length hpos
      (by simpa using hlen.symm)
      (fun i k q h => by
        obtain ⟨p, r, _, h2⟩ := hidat i k q h
        obtain ⟨g, h3, _⟩ := sharedN_mem.1 (List.mem_of_getElem? h2)
        exact (List.getElem?_eq_some_iff.1 h3).1)
      (fun i m hm => by
        obtain ⟨p, h1, rfl⟩ := hms i m hm
        rw [hcnt i p h1, htk]; simp)
      (by rw [← hc]; exact hold)
    refine ⟨_, out, ?_, hfin out, ⟨by rw [hc]; exact o3, fun h => absurd (hv.symm.trans h) (by decide), fun _ => ?_⟩⟩
    · unfold backField
      have e1 : dom.getOrEmpty (chars! "topologies") = ts := getOrEmpty_ok (by rw [hrest _ (by decide)]; exact c1)
      have e2 : dom.getOrEmpty (chars! "coordsets") = cs := getOrEmpty_ok (by rw [hrest _ (by decide)]; exact c4)
      rw [List.map_map] at o1
      have o1' : storePoints A (f0 :: ins') ((p0 :: H').map fun p => ints ((vsOf vert w p).map (·.1))) (w.gids.length : Int)
        ((w.fields.getOrEmpty name).getOrEmpty (chars! "values")) = .ok out := o1
      simp only [hf0.association, hf0.topology, Res.bind_ok, BNode.asString, hv, if_true, e1, e2, getOrEmpty_ok c2, getOrEmpty_ok c3,
        getOrEmpty_ok c5, c6, hfe, o1']
    · intro q g hg
      have hq : q < w.gids.length := (List.getElem?_eq_some_iff.1 hg).1
      have hval := o4 q hq
      have hmem : ∀ s, last q (natWrites 0 ((p0 :: H').map fun p => (vsOf vert w p).map (·.1))) = some s →
          IdAt ((p0 :: H').map fun p => (vsOf vert w p).map (·.1)) s.1 s.2 q ∧
          ∀ i k, IdAt ((p0 :: H').map fun p => (vsOf vert w p).map (·.1)) i k q → i ≤ s.1 := by
        intro s hs
        obtain ⟨h1, h2⟩ := last_some (natWrites_sorted _ _) hs
        obtain ⟨i', e, h3⟩ := (natWrites_mem _ 0 q s.1 s.2).1 h1
        rw [Nat.zero_add] at e
        subst e
        exact ⟨h3, fun i k hik => h2 (q, (i, k)) ((natWrites_mem _ 0 q i k).2 ⟨i, by omega, hik⟩) rfl⟩
      refine ⟨?_, ?_⟩
      · intro A' p B hsplit _ hB r hr hrl u hu
        have hi : (p0 :: H')[A'.length]? = some p := by rw [hsplit]; simp
        obtain ⟨k, hk⟩ := List.getElem?_of_mem (sharedN_mem.2 ⟨g, hg, lastPlace_eq hr hrl⟩)
        have hid : IdAt ((p0 :: H').map fun p => (vsOf vert w p).map (·.1)) A'.length k q :=
          ⟨(sharedN w.gids p.gids).map (·.1), by rw [List.getElem?_map, hi, Option.map_some, hvsp], by rw [List.getElem?_map, hk]; rfl⟩
        cases hl : last q (natWrites 0 ((p0 :: H').map fun p => (vsOf vert w p).map (·.1))) with
        | none => exact absurd rfl (last_none hl (q, (A'.length, k)) ((natWrites_mem _ 0 q _ _).2 ⟨A'.length, by omega, hid⟩))
        | some s =>
          obtain ⟨s1, s2⟩ := hmem s hl
          have hle := s2 _ _ hid
          obtain ⟨p', r', t1, t2⟩ := hidat _ _ _ s1
          have hgp : g ∈ p'.gids := by
            obtain ⟨g', g1, g2⟩ := sharedN_mem.1 (List.mem_of_getElem? t2)
            rw [hg] at g1; cases g1
            exact List.mem_of_getElem? (lastPlace_some g2).2.1
          have heq : s.1 = A'.length := by
            rcases Nat.lt_or_ge A'.length s.1 with hlt | hge
            · exfalso
              rw [hsplit, List.getElem?_append_right (by omega)] at t1
              have e : s.1 - A'.length = (s.1 - A'.length - 1) + 1 := by omega
              rw [e, List.getElem?_cons_succ] at t1
              have hm := List.mem_of_getElem? t1
              exact hB p' hm (S.holds p' (by rw [hsplit]; simp [hm])) hgp
            · omega
          rw [heq, hi] at t1
          cases t1
          have hk2 : s.2 = k := by
            have nd := sharedN_nodup w.gids p.gids
            have a1 : ((sharedN w.gids p.gids).map (·.1))[s.2]? = some q := by rw [List.getElem?_map, t2]; rfl
            have a2 : ((sharedN w.gids p.gids).map (·.1))[k]? = some q := by rw [List.getElem?_map, hk]; rfl
            exact (List.getElem?_inj (List.getElem?_eq_some_iff.1 a1).1 nd).1 (a1.trans a2.symm)
          obtain ⟨v', v, d1, d2, d3⟩ := hgetp A'.length p hi
          rw [hval.1 s v' hl (by rw [heq]; exact d1), hk2, has_unique hu d2]
          apply d3
          rw [htk, List.getElem?_map, hk]; rfl
      · intro hno f old hf hold'
        have hnone : last q (natWrites 0 ((p0 :: H').map fun p => (vsOf vert w p).map (·.1))) = none := by
          cases hl : last q (natWrites 0 ((p0 :: H').map fun p => (vsOf vert w p).map (·.1))) with
          | none => rfl
          | some s =>
            exfalso
            obtain ⟨s1, _⟩ := hmem s hl
            obtain ⟨p', r', t1, t2⟩ := hidat _ _ _ s1
            obtain ⟨g', g1, g2⟩ := sharedN_mem.1 (List.mem_of_getElem? t2)
            rw [hg] at g1; cases g1
            exact hno p' (List.mem_of_getElem? t1) (S.holds p' (List.mem_of_getElem? t1)) (List.mem_of_getElem? (lastPlace_some g2).2.1)
        have e : (w.fields.getOrEmpty name).getOrEmpty (chars! "values") = old := by
          rw [getOrEmpty_ok hf, getOrEmpty_ok hold']
        rw [e] at hval
        exact hval.2 hnone (exact_ne (S.whole.old name hn f old hf hold').1)
  · -- on elements
    have hc : w.count (assoc name) = w.n := by rw [Whole.count, if_pos he]
    have htk : ∀ p : Piece F, taken w.id p (vsOf vert w p) (assoc name) = selN w.id p.orig := fun p => by
      rw [taken, if_neg (by rw [he]; decide)]
    obtain ⟨out, o1, _, o3, o4⟩ := storeElements_ok A hV h0 hVals tbl (by rw [S.len]; exact S.pos)
      (fun x hx => by
        obtain ⟨q, m, h1, h2⟩ := S.entries x hx
        rw [List.getElem?_map] at h1
        obtain ⟨p, h3, rfl⟩ := Option.map_eq_some_iff.1 h1
        obtain ⟨v', v, d1, _⟩ := hgetp x.1 p h3
        refine ⟨⟨v', d1⟩, ?_⟩
        rw [hcnt x.1 p h3, htk, selN_length]
        exact (List.getElem?_eq_some_iff.1 h2).1)
      (by rw [S.len, ← hc]; exact hold)
    refine ⟨_, out, ?_, hfin out, ⟨by rw [hc, ← S.len]; exact o3, fun _ => ?_, fun h => absurd (he.symm.trans h) (by decide)⟩⟩
    · unfold backField
      have hnv : ¬ assoc name = chars! "vertex" := by rw [he]; decide
      simp only [hf0.association, hf0.topology, Res.bind_ok, BNode.asString, hnv, if_false, hfe, o1]
    · intro p hp u hu j e hj
      obtain ⟨i, hi⟩ := List.getElem?_of_mem hp
      obtain ⟨r, r1, r2⟩ := sel_tgt hj
      obtain ⟨v', v, d1, d2, d3⟩ := hgetp i p hi
      rw [o4 e (i, r) v' (S.places i r e ⟨_, by rw [List.getElem?_map, hi]; rfl, r2⟩) d1, has_unique hu d2]
      exact d3 r j (by rw [htk]; exact r1)

end Conduit.Back
