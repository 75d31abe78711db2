import Verif.Lemmas.MapBack5
/-
All domains.
-/
namespace Conduit.Back
open Conduit.Mesh Conduit.Part Conduit.Merge Conduit.Comb
variable {F : Type}

theorem nodup_eraseDups {α : Type} [BEq α] [LawfulBEq α] (l : List α) : l.eraseDups.Nodup := by
  induction l using List.reverseRecOn with
  | nil => simp
  | append_singleton l a ih =>
    rw [List.eraseDups_append]
    by_cases h : a ∈ l
    · have : ([a] : List α).removeAll l = [] := by simp [List.removeAll, h]
      rw [this]; simpa using ih
    · have : ([a] : List α).removeAll l = [a] := by simp [List.removeAll, h]
      rw [this, List.eraseDups_cons]
      simp only [List.filter_nil, List.eraseDups_nil]
      rw [List.nodup_append]
      refine ⟨ih, by simp, ?_⟩
      intro x hx y hy e
      simp only [List.mem_singleton] at hy
      subst hy; subst e
      exact h (List.mem_eraseDups.1 hx)

/-! ### what is read first -/

theorem domId_ok {d : BNode F} {k : Nat} {id : Int} (h : IdIs d k id) : domId k d = .ok id := by
  unfold domId
  rcases h with ⟨st, t, v, l, h1, h2, h3⟩ | ⟨h1, rfl⟩
  · simp only [h1, h2, getIndex, Res.bind_ok, Option.getD_some, h3]
  · rcases get_cases d (chars! "state") with ⟨st, s1, _⟩ | ⟨s1, _⟩
    · simp only [s1, get_error_of_not _ _ (h1 st s1)]
    · simp only [get_error_of_not _ _ s1]

theorem ids_ok (ws : List (Whole F)) : ∀ (s : Nat), (∀ (i : Nat) w, ws[i]? = some w → IdIs w.mesh (s + i) w.id) →
    ((ws.map (·.mesh)).zipIdx s).mapM (fun (d : BNode F × Nat) => domId d.2 d.1) = .ok (ws.map (·.id)) := by
  induction ws with
  | nil => intro _ _; rfl
  | cons w ws ih =>
    intro s h
    rw [List.map_cons, List.zipIdx_cons, List.mapM_cons]
    have h0 : domId s w.mesh = .ok w.id := domId_ok (h 0 w rfl)
    rw [h0, Res.bind_ok, ih (s + 1) fun i x hx => by
      have := h (i + 1) x hx
      rwa [show s + (i + 1) = s + 1 + i by omega] at this]
    rfl

theorem hasPoints_ok {A : Arith F} {ename gname : Str} {names : List Str} {assoc topo : Str → Str} {ps : List (Piece F)}
    (hg : ∀ p ∈ ps, GoodPiece A ename gname names assoc topo p) :
    ∃ vert, hasPointFields names (ps.map (·.mesh)) = .ok vert ∧ (ps ≠ [] → (vert = true ↔ ∃ name ∈ names, assoc name = chars! "vertex")) := by
  cases ps with
  | nil => exact ⟨false, rfl, fun h => absurd rfl h⟩
  | cons p ps =>
    have hp := hg p (by simp)
    have hk : ∀ k ∈ p.fields.kids.filter (fun k => names.contains k.1),
        (do let a ← k.2.get (chars! "association"); a.asString : Res Str) = .ok (assoc k.1) := by
      intro k hk
      obtain ⟨h1, h2⟩ := List.mem_filter.1 hk
      have h2' : k.1 ∈ names := by simpa using h2
      obtain ⟨_, v, ⟨f, f1, f2⟩, _⟩ := hp.has k.1 h2'
      have := get_named p.fields.kids hp.nodup k h1
      have e : f = k.2 := by
        have h3 : p.fields.get k.1 = .ok k.2 := this
        rw [f1] at h3; injection h3
      subst e
      rw [f2.association]; rfl
    refine ⟨((p.fields.kids.filter fun k => names.contains k.1).map fun k => assoc k.1).any (fun a => a == chars! "vertex"), ?_, fun _ => ?_⟩
    · rw [List.map_cons, hasPointFields, hp.fields, Res.bind_ok, Meta.mapM_ok_map _ _ _ hk]
      rfl
    · rw [List.any_eq_true]
      constructor
      · rintro ⟨a, h1, h2⟩
        obtain ⟨k, k1, rfl⟩ := List.mem_map.1 h1
        exact ⟨k.1, by simpa using (List.mem_filter.1 k1).2, by simpa using h2⟩
      · rintro ⟨name, h1, h2⟩
        obtain ⟨_, v, ⟨f, f1, f2⟩, _⟩ := hp.has name h1
        have hc := (hasChild_iff_get _ _).2 ⟨f, f1⟩
        unfold BNode.hasChild at hc
        obtain ⟨k, k1, k2⟩ := List.any_eq_true.1 hc
        have e : k.1 = name := by simpa using k2
        exact ⟨assoc name, List.mem_map.2 ⟨k, List.mem_filter.2 ⟨k1, by simpa [e] using h1⟩, by rw [e]⟩, by simpa using h2⟩

theorem gidsOf_ok {A : Arith F} {gname : Str} {dom fs : BNode F} {l : List Int} (h : dom.get (chars! "fields") = .ok fs)
    (hn : Numbers A fs gname l) : gidsOf A gname dom = .ok l ∧ newGids A gname dom = .ok l := by
  obtain ⟨f, v, h1, h2, h3⟩ := hn
  have hc := (hasChild_iff_get _ _).2 ⟨f, h1⟩
  constructor
  · unfold gidsOf; rw [h, Res.bind_ok, if_pos hc, h1, Res.bind_ok, h2, Res.bind_ok, h3]
  · unfold newGids; rw [h, Res.bind_ok, if_pos hc, h1, Res.bind_ok, h2, Res.bind_ok, h3]

theorem lastPlace_nodup {l : List Int} (h : l.Nodup) {k : Nat} {g : Int} (hk : l[k]? = some g) : lastPlace g l 0 = some k := by
  refine lastPlace_eq hk fun r hr e => ?_
  have := (List.getElem?_inj (List.getElem?_eq_some_iff.1 hk).1 h).1 (hk.trans e.symm)
  omega

/-! ### the chunks of a domain -/

/-- The pieces with elements of domain `d`. -/
def holding (d : Int) (ps : List (Piece F)) : List (Piece F) := ps.filter fun p => p.orig.any fun x => x.1 == d

theorem holding_mem {d : Int} {ps : List (Piece F)} {p : Piece F} : p ∈ holding d ps ↔ p ∈ ps ∧ p.Holds d := by
  unfold holding
  rw [List.mem_filter, List.any_eq_true]
  simp [Piece.Holds]

theorem tgtN_none {d : Int} {l : List (Int × Nat)} (h : (l.any fun x => x.1 == d) = false) : tgtN d l = [] := by
  unfold tgtN
  rw [List.filter_eq_nil_iff.2, List.map_nil]
  intro x hx
  have := List.any_eq_false.1 h x hx
  simpa using this

theorem numbers_holding (d : Int) (ps : List (Piece F)) : ((holding d ps).map fun p => tgtN d p.orig).flatten = numbersOf ps d := by
  unfold numbersOf holding
  induction ps with
  | nil => rfl
  | cons p ps ih =>
    rw [List.flatMap_cons, List.filter_append, List.map_append, ← ih, List.filter_cons]
    by_cases h : (p.orig.any fun x => x.1 == d) = true
    · rw [if_pos h, List.map_cons, List.flatten_cons]
      congr 1
    · rw [if_neg h]
      have := tgtN_none (Bool.eq_false_iff.2 h : (p.orig.any fun x => x.1 == d) = false)
      unfold tgtN at this
      have e : (p.orig.filter fun x => decide (x.1 = d)) = p.orig.filter fun x => x.1 == d := by congr 1
      rw [e, this, List.nil_append]

/-- As the pieces are taken. -/
def parted (vert : Bool) (p : Piece F) : Parted F := ⟨p.mesh, asRead p.orig, if vert then p.gids else []⟩

theorem chunksFor_ok {A : Arith F} {ename gname : Str} {names : List Str} {assoc topo : Str → Str} {ps : List (Piece F)} (op : Opts)
    (hop : op.fields = []) (hg : ∀ p ∈ ps, GoodPiece A ename gname names assoc topo p) (hne : names ≠ []) (hnd : names.Nodup) (vert : Bool)
    (w : Whole F) (ogids : Int → Res (List Int)) (ho : vert = true → ogids w.id = .ok w.gids) :
    ∃ C, chunksFor op names ogids vert (ps.map (parted vert)) w.id = .ok C ∧
      List.Forall₂ (ChunkOf names assoc topo vert w) (holding w.id ps) C := by
  unfold chunksFor
  have hf : ((ps.map (parted vert)).filter fun p => p.from_.any fun x => x.1 == w.id) = (holding w.id ps).map (parted vert) := by
    rw [List.filter_map]
    unfold holding
    congr 2
    funext p
    simp only [Function.comp, parted, asRead, List.any_map]
    rfl
  rw [hf, mapM_map']
  apply mapM_res
  intro p hp
  obtain ⟨hp1, hp2⟩ := holding_mem.1 hp
  obtain ⟨l, l1, l2⟩ := chunkFor_ok op hop (hg p hp1) hne hnd w.id (vsOf vert w p) vsOf_lt
  refine ⟨_, ?_, l, rfl, l2⟩
  cases vert with
  | false => exact l1
  | true =>
    have e : sharedPoints w.gids p.gids = (vsOf true w p).map fun x => ((x.1 : Int), (x.2 : Int)) := shared_eq _ _
    simp only [parted, if_true, ho rfl, Res.bind_ok, e]
    exact l1

/-! ### all domains -/

theorem back_of {names : List Str} {assoc topo : Str → Str} {ps : List (Piece F)} {w : Whole F} {out : BNode F}
    (hh : ∃ p ∈ ps, p.Holds w.id) (h1 : ∀ c, c ≠ chars! "fields" → out.get c = w.mesh.get c)
    (h2 : ∀ n, n ∉ names → (out.getOrEmpty (chars! "fields")).get n = w.fields.get n)
    (h3 : ∀ n ∈ names, ∃ f v, (out.getOrEmpty (chars! "fields")).get n = .ok f ∧ FieldOf f (assoc n) (topo n) v ∧
      FieldBack assoc topo (holding w.id ps) w n v) : BroughtBack names assoc topo ps w out := by
  refine ⟨fun hn => ?_, h1, h2, fun _ name hn => ?_⟩
  · obtain ⟨p, p1, p2⟩ := hh
    exact absurd p2 (hn p p1)
  · obtain ⟨f, v, f1, f2, f3⟩ := h3 name hn
    obtain ⟨fs, g1, g2⟩ := back_get f1
    refine ⟨fs, f, v, g1, g2, f2, f3.exact_, fun he p hp u hu j e hj => ?_, fun hv q g hg => ⟨?_, ?_⟩⟩
    · exact f3.elements he p (holding_mem.2 ⟨hp, _, List.mem_of_getElem? hj, rfl⟩) u hu j e hj
    · intro A p B hs hp hB r hr hl u hu
      have hs' : holding w.id ps = holding w.id A ++ p :: holding w.id B := by
        rw [hs]
        unfold holding
        rw [List.filter_append, List.filter_cons, if_pos]
        obtain ⟨x, x1, x2⟩ := hp
        exact List.any_eq_true.2 ⟨x, x1, by simp [x2]⟩
      exact (f3.points hv q g hg).1 _ p _ hs' hp (fun p' hp' hh' => hB p' (holding_mem.1 hp').1 hh') r hr hl u hu
    · intro hno
      exact (f3.points hv q g hg).2 fun p hp hh' => hno p (holding_mem.1 hp).1 hh'

theorem foldDomains_ok {A : Arith F} {gname : Str} {names : List Str} {assoc topo : Str → Str} {vert : Bool} {ps : List (Piece F)}
    {ws : List (Whole F)} (hw : ∀ (k : Nat) w, ws[k]? = some w → GoodWhole A gname names assoc topo ps k w) (ho : OnceEach ps ws)
    (hal : PiecesAlike names assoc topo ps)
    (has : ∀ name ∈ names, assoc name = chars! "vertex" ∨ assoc name = chars! "element")
    (hvert : ∀ name ∈ names, assoc name = chars! "vertex" → vert = true) (hnd : names.Nodup) :
    ∀ (L : List (Int × List (BNode F))) (doms : List (BNode F)), (L.map (·.1)).Nodup → doms.length = ws.length →
      (∀ x ∈ L, ∃ w ∈ ws, w.id = x.1 ∧ (∃ p ∈ ps, p.Holds w.id) ∧ List.Forall₂ (ChunkOf names assoc topo vert w) (holding w.id ps) x.2) →
      (∀ (k : Nat) w, ws[k]? = some w → w.id ∈ L.map (·.1) → doms[k]? = some w.mesh) →
      ∃ outs, L.foldlM (fun (doms : List (BNode F)) (p : Int × List (BNode F)) => do
          let k ← domainAt (ws.map fun (w : Whole F) => w.id) p.1
          let dom ← pick doms (k : Int)
          let dom ← backDomain A p.2 dom
          put doms (k : Int) dom) doms = .ok outs ∧ outs.length = ws.length ∧
        (∀ (k : Nat) w, ws[k]? = some w → w.id ∉ L.map (·.1) → outs[k]? = doms[k]?) ∧
        ∀ (k : Nat) w, ws[k]? = some w → w.id ∈ L.map (·.1) → ∃ out, outs[k]? = some out ∧ BroughtBack names assoc topo ps w out
  | [], doms, _, hl, _, _ => ⟨doms, rfl, hl, fun _ _ _ _ => rfl, fun _ _ _ h => by simp at h⟩
  | x :: L, doms, hn, hl, hx, hd => by
    rw [List.map_cons, List.nodup_cons] at hn
    obtain ⟨w, hwm, hid, hh, hC⟩ := hx x (by simp)
    obtain ⟨k, hk⟩ := List.getElem?_of_mem hwm
    have hkd := hd k w hk (by simp [hid])
    have hidk : (ws.map (·.id))[k]? = some x.1 := by rw [List.getElem?_map, hk, ← hid]; rfl
    have hat : domainAt (ws.map (·.id)) x.1 = .ok k := by
      unfold domainAt; rw [lastPlace_nodup ho.ids hidk]
    have huniq : ∀ (k' : Nat) w', ws[k']? = some w' → w'.id = x.1 → k' = k := by
      intro k' w' hk' he
      have h1 : (ws.map (·.id))[k']? = some x.1 := by rw [List.getElem?_map, hk', ← he]; rfl
      exact (List.getElem?_inj (List.getElem?_eq_some_iff.1 h1).1 ho.ids).1 (h1.trans hidk.symm)
    have hHne : holding w.id ps ≠ [] := by
      obtain ⟨p, p1, p2⟩ := hh
      exact List.ne_nil_of_mem (holding_mem.2 ⟨p1, p2⟩)
    obtain ⟨out, o1, o2, o3, o4⟩ := backDomain_ok (hw k w hk) (fun p hp => (holding_mem.1 hp).1) (fun p hp => (holding_mem.1 hp).2) hHne hal
      has hvert hnd (by rw [numbers_holding]; exact ho.once w hwm hh) hC
    have hklt : k < doms.length := (List.getElem?_eq_some_iff.1 hkd).1
    have hput : put doms (k : Int) out = .ok (doms.set k out) := by
      unfold put; rw [if_pos ⟨by omega, by omega⟩, Int.toNat_natCast]
    obtain ⟨outs, e1, e2, e3, e4⟩ := foldDomains_ok hw ho hal has hvert hnd L (doms.set k out) hn.2 (by simpa using hl)
      (fun y hy => hx y (by simp [hy]))
      (fun k' w' hk' hm => by
        have hne : k ≠ k' := by
          rintro rfl
          rw [hk] at hk'; cases hk'
          rw [hid] at hm
          exact hn.1 hm
        rw [List.getElem?_set_ne hne]
        exact hd k' w' hk' (by simp [hm]))
    refine ⟨outs, ?_, e2, fun k' w' hk' hm => ?_, fun k' w' hk' hm => ?_⟩
    · rw [List.foldlM_cons, hat, Res.bind_ok, pick_nat _ _ _ hkd, Res.bind_ok, o1, Res.bind_ok, hput, Res.bind_ok]
      exact e1
    · rw [List.map_cons, List.mem_cons] at hm
      rw [e3 k' w' hk' (fun h => hm (.inr h)), List.getElem?_set_ne]
      rintro rfl
      rw [hk] at hk'; cases hk'
      exact hm (.inl hid)
    · by_cases he : w'.id = x.1
      · have hkk := huniq k' w' hk' he
        subst hkk
        rw [hk] at hk'; cases hk'
        refine ⟨out, ?_, back_of hh o2 o3 o4⟩
        rw [e3 k' w hk (by rw [hid]; exact hn.1), List.getElem?_set_self hklt]
      · rw [List.map_cons, List.mem_cons] at hm
        exact e4 k' w' hk' (hm.resolve_left he)

theorem zip_parted (vert : Bool) (ps : List (Piece F)) :
    (((ps.map (·.mesh)).zip ((ps.map fun p => asRead p.orig).zip (ps.map fun p => if vert then p.gids else []))).map
      fun x => (⟨x.1, x.2.1, x.2.2⟩ : Parted F)) = ps.map (parted vert) := by
  induction ps with
  | nil => rfl
  | cons p ps ih =>
    simp only [List.map_cons, List.zip_cons_cons] at ih ⊢
    rw [ih]; rfl

theorem mapBack_ok {A : Arith F} {op : Opts} {gname : Str} {names : List Str} {assoc topo : Str → Str} {ps : List (Piece F)}
    {ws : List (Whole F)} (hg : ∀ p ∈ ps, GoodPiece A op.elementName gname names assoc topo p)
    (hw : ∀ (k : Nat) w, ws[k]? = some w → GoodWhole A gname names assoc topo ps k w) (ho : OnceEach ps ws)
    (hal : PiecesAlike names assoc topo ps) (hnd : names.Nodup) (hne : names ≠ []) :
    ∃ outs, mapBack A op gname names (ps.map (·.mesh)) (ws.map (·.mesh)) = .ok outs ∧ outs.length = ws.length ∧
      ∀ (k : Nat) w out, ws[k]? = some w → outs[k]? = some out → BroughtBack names assoc topo ps w out := by
  obtain ⟨vert, v1, v2⟩ := hasPoints_ok hg
  have hids := ids_ok ws 0 fun i w hi => by rw [Nat.zero_add]; exact (hw i w hi).id
  have hor : (ps.map (·.mesh)).mapM (origins A op.elementName) = .ok (ps.map fun p => asRead p.orig) := by
    rw [mapM_map']
    exact Meta.mapM_ok_map _ _ _ fun p hp => origins_ok (hg p hp)
  by_cases hps : ps = []
  · subst hps
    have hv : vert = false := by
      have : hasPointFields names ((([] : List (Piece F))).map (·.mesh)) = .ok false := rfl
      rw [this] at v1; injection v1 with v1; exact v1.symm
    subst hv
    refine ⟨ws.map (·.mesh), ?_, by simp, fun k w out h1 h2 => ?_⟩
    · unfold mapBack
      rw [hids, Res.bind_ok, v1]
      rfl
    · rw [List.getElem?_map, h1] at h2
      cases h2
      refine ⟨fun _ => rfl, fun _ _ => rfl, fun _ _ => rfl, fun h => ?_⟩
      obtain ⟨p, hp, _⟩ := h
      cases hp
  · have hv := v2 hps
    have hvert : ∀ name ∈ names, assoc name = chars! "vertex" → vert = true := fun name hn h => hv.2 ⟨name, hn, h⟩
    have has : ∀ name ∈ names, assoc name = chars! "vertex" ∨ assoc name = chars! "element" := by
      obtain ⟨p, hp⟩ := List.exists_mem_of_ne_nil _ hps
      exact fun name hn => ((hg p hp).has name hn).1
    have hgids : (if vert then (ws.map (·.mesh)).mapM (gidsOf A gname) else Res.ok []) = .ok (if vert then ws.map (·.gids) else []) := by
      cases vert with
      | false => rfl
      | true =>
        simp only [if_true]
        rw [mapM_map']
        refine Meta.mapM_ok_map _ _ _ fun w hwm => ?_
        obtain ⟨k, hk⟩ := List.getElem?_of_mem hwm
        obtain ⟨fs, f1, f2⟩ := (hw k w hk).points (hv.1 rfl)
        exact (gidsOf_ok f1 f2).1
    have hngids : (if vert then (ps.map (·.mesh)).mapM (newGids A gname) else Res.ok ((ps.map (·.mesh)).map fun _ => [])) =
        .ok (ps.map fun p => if vert then p.gids else []) := by
      cases vert with
      | false => simp only [Bool.false_eq_true, if_false, List.map_map]; rfl
      | true =>
        simp only [if_true]
        rw [mapM_map']
        exact Meta.mapM_ok_map _ _ _ fun p hp => (gidsOf_ok (hg p hp).fields ((hg p hp).points (hv.1 rfl))).2
    let ogids : Int → Res (List Int) := fun d =>
      match lastPlace d (ws.map (·.id)) 0 with
      | some k => pick (if vert then ws.map (·.gids) else []) (k : Int)
      | none => .error
    have hogids : ∀ w ∈ ws, vert = true → ogids w.id = .ok w.gids := by
      intro w hwm hvt
      obtain ⟨k, hk⟩ := List.getElem?_of_mem hwm
      have h1 : (ws.map (·.id))[k]? = some w.id := by rw [List.getElem?_map, hk]; rfl
      simp only [ogids, lastPlace_nodup ho.ids h1, hvt, if_true]
      exact pick_nat _ _ _ (by rw [List.getElem?_map, hk]; rfl)
    have htgt : ∀ d, d ∈ (((ps.map fun p => asRead p.orig).flatten).map (·.1)).eraseDups ↔ ∃ p ∈ ps, p.Holds d := by
      intro d
      rw [List.mem_eraseDups]
      simp only [List.mem_map, List.mem_flatten]
      constructor
      · rintro ⟨x, ⟨_, ⟨p, hp, rfl⟩, hx⟩, rfl⟩
        obtain ⟨y, hy, rfl⟩ := List.mem_map.1 hx
        exact ⟨p, hp, y, hy, rfl⟩
      · rintro ⟨p, hp, y, hy, rfl⟩
        exact ⟨(y.1, (y.2 : Int)), ⟨_, ⟨p, hp, rfl⟩, List.mem_map.2 ⟨y, hy, rfl⟩⟩, rfl⟩
    obtain ⟨L, l1, l2⟩ := mapM_res (fun (d : Int) => (do
        Res.ok (d, ← chunksFor { op with fields := [] } names ogids vert (ps.map (parted vert)) d)))
      (fun (d : Int) (x : Int × List (BNode F)) => x.1 = d ∧ ∃ w ∈ ws, w.id = x.1 ∧ (∃ p ∈ ps, p.Holds w.id) ∧
        List.Forall₂ (ChunkOf names assoc topo vert w) (holding w.id ps) x.2)
      (((ps.map fun p => asRead p.orig).flatten).map (·.1)).eraseDups (by
        intro d hd
        obtain ⟨p, hp, y, hy, hyd⟩ := (htgt d).1 hd
        obtain ⟨w, hwm, hwd⟩ := ho.known p hp y hy
        rw [hyd] at hwd
        obtain ⟨C, c1, c2⟩ := chunksFor_ok { op with fields := [] } rfl hg hne hnd vert w ogids (hogids w hwm)
        rw [hwd] at c1
        exact ⟨(d, C), by rw [c1]; rfl, rfl, w, hwm, hwd, ⟨p, hp, y, hy, by rw [hyd, hwd]⟩, c2⟩)
    have hLid : L.map (·.1) = (((ps.map fun p => asRead p.orig).flatten).map (·.1)).eraseDups := by
      have : ∀ {a : List Int} {b : List (Int × List (BNode F))} {P : Int → (Int × List (BNode F)) → Prop},
          List.Forall₂ (fun d x => x.1 = d ∧ P d x) a b → b.map (·.1) = a := by
        intro a b P h
        induction h with
        | nil => rfl
        | cons h _ ih => rw [List.map_cons, h.1, ih]
      exact this l2
    obtain ⟨outs, o1, o2, o3, o4⟩ := foldDomains_ok (vert := vert) hw ho hal has hvert hnd L (ws.map (·.mesh))
      (by rw [hLid]; exact nodup_eraseDups _) (by simp)
      (fun x hx => by
        obtain ⟨i, hi⟩ := List.getElem?_of_mem hx
        obtain ⟨d, _, hd⟩ := forall2_some (forall2_swap l2) hi
        exact hd.2)
      (fun k w hk _ => by rw [List.getElem?_map, hk]; rfl)
    refine ⟨outs, ?_, o2, fun k w out hk hout => ?_⟩
    · unfold mapBack
      rw [hids, Res.bind_ok, v1, Res.bind_ok, hor, Res.bind_ok, hgids, Res.bind_ok, hngids, Res.bind_ok]
      simp only [zip_parted]
      refine Eq.trans (congrArg (fun r => r >>= _) l1) ?_
      exact o1
    · by_cases hm : w.id ∈ L.map (·.1)
      · obtain ⟨out', e1, e2⟩ := o4 k w hk hm
        rw [hout] at e1; cases e1
        exact e2
      · have := o3 k w hk hm
        rw [hout, List.getElem?_map, hk] at this
        cases this
        rw [hLid, htgt] at hm
        refine ⟨fun _ => rfl, fun _ _ => rfl, fun _ _ => rfl, fun h => absurd h hm⟩

end Conduit.Back
